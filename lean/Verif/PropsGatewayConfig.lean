import Verif.GatewayKeys
import Verif.PropsSidecarConfig
/-!
C60: the connections of a configuration with the gateways and virtual services of Istio, from the texts of the policies,
services, Ingress resources, gateways, virtual services and Sidecars.

As `Verif.PropsSidecarConfig`, with the policies that are made from gateways and virtual services (`Verif.GatewayModel`).
-/
namespace Verif
open ISet PeerSet

namespace GtwParser
open Container CalicoParser IstioParser IngressParser SidecarParser

section
variable {V2 X2 : Type} {A2 : VAlg Dim V2 X2} {W2 : Dim → V2 → Prop} {dfa : List Char → V2} {word : X2 → List Char} {D : V2 → Prop}
  {V : Env} {rg : PodReg} {c : Container} {ord : SetOrder} {B : PeerDom} {K : CharCls} {l : List SvcText} {ts : List SidecarText}
  {gts : List GatewayText} {vts : List VsText} {rx : List Char → String → Bool}

/-! ### Model -/

/-- The policy object: `GatewayPolicy` with its attributes (IstioGatewayPolicyGenerator.py 109-113, 175-181, 194-200, 278-280,
294-301; the other attributes are those of the constructor, NetworkPolicy.py 73-90).  Its rules are those a query uses
(`reorganize_props_by_new_domains`, NetworkPolicy.py 189-204); rules of gateway policies have no actions. -/
noncomputable def gatewayPolicy (A2 : VAlg Dim V2 X2) (W2 : Dim → V2 → Prop) (B : PeerDom) (rg : PodReg) (x : GPol V2) :
    Policy (HC Dim (ISet ⊕ V2)) (ConnPeers W2 B) where
  name := x.key
  kind := .gateway
  order := none
  action := if x.deny then .deny else .allow
  selected := K8sParser.peersVal A2 W2 B rg x.selected
  affectsIngress := x.ingress
  affectsEgress := !x.ingress
  ingressRules := if x.ingress then x.rules.map (fun h => ⟨.allow, HC.reduce (connA A2 B) allDims h⟩) else []
  egressRules := if x.ingress then [] else x.rules.map (fun h => ⟨.allow, HC.reduce (connA A2 B) allDims h⟩)

/-- The policies of the gateways and virtual services, which come after those of the parse queue and before the sidecars
(PoliciesFinder.py 125-130). -/
noncomputable def gatewayPolicies (A2 : VAlg Dim V2 X2) (W2 : Dim → V2 → Prop) (dfa : List Char → V2) (cls : Char → Bool) (rx : List Char → String → Bool)
    (B : PeerDom) (ord : SetOrder) (rg : PodReg) (svcs : List (String × Svc)) (c : Container) (gts : List GatewayText) (vts : List VsText) :
    Option (List (Policy (HC Dim (ISet ⊕ V2)) (ConnPeers W2 B))) :=
  (gatewayPols A2 dfa cls rx PeerDom.default ord rg svcs c gts vts).map fun l => l.map (gatewayPolicy A2 W2 B rg)

/-! ### Verdicts -/

theorem findSome_split {α β : Type} {f : α → Option β} {u v : β} (huv : u ≠ v) {a b : List α} (ha : ∀ x ∈ a, f x = none ∨ f x = some u)
    (hb : ∀ x ∈ b, f x = none ∨ f x = some v) : ((a ++ b).findSome? f = some u ↔ ∃ x ∈ a, f x = some u) ∧
    ((a ++ b).findSome? f = some v ↔ (¬ ∃ x ∈ a, f x = some u) ∧ ∃ x ∈ b, f x = some v) := by
  rw [← findSome_iff ha, ← findSome_iff hb, List.findSome?_append]
  have ca : a.findSome? f = none ∨ a.findSome? f = some u := by
    cases e : a.findSome? f with
    | none => exact Or.inl rfl
    | some y =>
      obtain ⟨x, hx, h⟩ := List.exists_of_findSome?_eq_some e
      rcases ha x hx with h' | h'
      · rw [h'] at h; cases h
      · rw [h'] at h; cases h; exact Or.inr rfl
  have cb : b.findSome? f = none ∨ b.findSome? f = some v := by
    cases e : b.findSome? f with
    | none => exact Or.inl rfl
    | some y =>
      obtain ⟨x, hx, h⟩ := List.exists_of_findSome?_eq_some e
      rcases hb x hx with h' | h'
      · rw [h'] at h; cases h
      · rw [h'] at h; cases h; exact Or.inr rfl
  rcases ca with h1 | h1 <;> rcases cb with h2 | h2 <;> simp [h1, h2, huv, huv.symm]

/-- Policies that are smaller than none are kept in order. -/
theorem foldl_insort_last {α : Type} {lt : α → α → Bool} (l : List α) : ∀ acc : List α, (∀ x ∈ l, ∀ y, lt x y = false) → l.foldl (insort lt) acc = acc ++ l := by
  induction l with
  | nil => intro acc _; simp
  | cons x l ih =>
    intro acc h
    rw [List.foldl_cons, insort_last acc x fun y _ => h x List.mem_cons_self y, ih _ fun x hx => h x (List.mem_cons_of_mem _ hx), List.append_assoc]
    rfl

/-- The cases of the ends of a connection. -/
theorem gateway_cases {si di sp dp sd dd T A MA DN G R K EF Fwd FM Via Rs : Prop} (cs : si ∧ ¬ sp ∧ ¬ sd ∨ ¬ si ∧ sp ∧ ¬ sd ∨ ¬ si ∧ ¬ sp ∧ sd)
    (cd : di ∧ ¬ dp ∧ ¬ dd ∨ ¬ di ∧ dp ∧ ¬ dd ∨ ¬ di ∧ ¬ dp ∧ dd) (hw : sp ∨ dp) (hA : A ↔ T ∧ Fwd) (hMA : MA ↔ T ∧ EF ∧ FM) (hDN : DN ↔ ¬ A ∧ K) (hAG : A → G)
    (hMR : MA → R) (hR : R ↔ EF ∧ Rs) (hRd : R → dp) (hGs : G → sp) (hMs : MA → sp) (hK : ¬ G → (K ↔ EF ∧ Via ∧ sp)) (hVd : Via → dd) :
    ((MA ∨ ¬ T ∧ (sp ∨ si) ∧ (dp ∨ di) ∨ ¬ R ∧ (sp ∨ si) ∧ (dp ∨ dd ∧ T)) ∨ sp ∧ di) ∧
      ((A ∨ ¬ T ∧ (sp ∨ si) ∧ (dp ∨ di) ∨ ¬ G ∧ ¬ DN ∧ sp ∧ ((dp ∨ di) ∨ dd ∧ T)) ∨ si ∧ dp) ↔
      (sp ∨ si) ∧ (dd → T) ∧ (T → (G → Fwd) ∧ (EF → (¬ G → ¬ Via) ∧ (Rs → FM))) := by
  by_cases h1 : si <;> by_cases h2 : sp <;> by_cases h3 : sd <;> simp only [h1, h2, h3, not_true, not_false_eq_true, true_and, and_true, false_and, and_false,
    or_false, false_or, or_self] at cs <;> by_cases h4 : di <;> by_cases h5 : dp <;> by_cases h6 : dd <;> simp only [h4, h5, h6, not_true, not_false_eq_true,
    true_and, and_true, false_and, and_false, or_false, false_or, or_self] at cd <;> by_cases h7 : T <;> by_cases h8 : EF <;> by_cases h9 : G <;> simp_all <;> tauto

variable (L2 : A2.Lawful W2)

/-- The policy object has the meaning of the generated policy. -/
structure GwFits (B : PeerDom) (rg : PodReg) (c : Container) (x : GPol V2) (pol : Policy (HC Dim (ISet ⊕ V2)) (ConnPeers W2 B)) : Prop where
  kind : pol.kind = .gateway
  action : pol.action = if x.deny then .deny else .allow
  legal : pol.Legal (connNet L2 B).toNet (HcStrongT (connA A2 B) (connWf W2 B) allDims)
  ingress : pol.affectsIngress = x.ingress
  egress : pol.affectsEgress = !x.ingress
  applies : ∀ (e : Int ⊕ X2) (E : Place), E.At rg c e → ((connNet L2 B).Q.mem e pol.selected = true ↔ E.In x.selected)
  mem : ∀ (p : Point (connA A2 B)) d, (∃ r ∈ pol.rules d, (connNet L2 B).K.mem p r.props = true) ↔ x.ingress = d ∧ ∃ h ∈ x.rules, (connNet L2 PeerDom.default).K.mem p.toDefault h = true

theorem gateway_fits (hC : CalCluster rg c) (hB : Covers rg c B) {z : Int} {x : GPol V2} (hx : PolOk L2 rg c z x) :
    GwFits L2 B rg c x (gatewayPolicy A2 W2 B rg x) := by
  obtain ⟨s1, s2, r1⟩ := hx
  have sel : ∀ e : Int ⊕ X2, (connNet L2 B).Q.mem e (K8sParser.peersVal A2 W2 B rg x.selected) = true ↔ x.selected.At rg.keys e :=
    fun e => CalicoParser.peersVal_mem L2 hC hB ⟨s1, s2⟩ e
  have red : ∀ h ∈ x.rules, HcStrongT (connA A2 B) (connWf W2 B) allDims (HC.reduce (connA A2 B) allDims h) ∧
      ∀ p : Point (connA A2 B), (connNet L2 B).K.mem p (HC.reduce (connA A2 B) allDims h) = true ↔
        (connNet L2 PeerDom.default).K.mem p.toDefault h = true := fun h hh => by
    obtain ⟨S, T, hS, hT, r, _⟩ := r1 h hh
    refine query_reduce L2 r.flat.strong (fun _ => r.flat.plain) fun p hp z hz => ?_
    rcases hz with e | e
    · have := r.src p hp
      rw [e] at this; exact hB.at hS this
    · have := r.dst p hp
      rw [e] at this; exact hB.at hT this
  have rul : ∀ d r, r ∈ (gatewayPolicy A2 W2 B rg x).rules d ↔ x.ingress = d ∧ ∃ h ∈ x.rules, ⟨.allow, HC.reduce (connA A2 B) allDims h⟩ = r := by
    intro d r
    unfold Policy.rules gatewayPolicy
    cases d <;> cases x.ingress <;> simp
  refine ⟨rfl, rfl, ⟨fun d r hr => ?_, fun d r hr p hp => ?_⟩, rfl, rfl, fun e E hE => ?_, fun p d => ?_⟩
  · obtain ⟨_, h, hh, rfl⟩ := (rul d r).1 hr
    exact (red h hh).1
  · obtain ⟨rfl, h, hh, rfl⟩ := (rul d r).1 hr
    obtain ⟨S, T, hS, hT, g, e⟩ := r1 h hh
    refine (sel _).2 ?_
    rw [← e]
    have hp := ((red h hh).2 p).1 hp
    cases x.ingress
    · exact g.src _ hp
    · exact g.dst _ hp
  · exact CalicoParser.peersVal_place L2 hC hB ⟨s1, s2⟩ hE
  · constructor
    · rintro ⟨r, hr, hm⟩
      obtain ⟨e, h, hh, rfl⟩ := (rul d r).1 hr
      exact ⟨e, h, hh, ((red h hh).2 p).1 hm⟩
    · rintro ⟨e, h, hh, hm⟩
      exact ⟨_, (rul d _).2 ⟨e, h, hh, rfl⟩, ((red h hh).2 p).2 hm⟩

/-- The verdict of a policy. -/
theorem gw_verdict {x : GPol V2} {pol : Policy (HC Dim (ISet ⊕ V2)) (ConnPeers W2 B)} (f : GwFits L2 B rg c x pol) (p : Point (connA A2 B)) (d : Bool) (u : RuleAction) :
    (if pol.captures (connNet L2 B).toNet d (endpoint (connNet L2 B).toNet d p) then pol.ruleVerdict (connNet L2 B).toNet d p else none) = some u ↔
      (u = if x.deny then .deny else .allow) ∧ x.ingress = d ∧ ∃ h ∈ x.rules, (connNet L2 PeerDom.default).K.mem p.toDefault h = true := by
  have gov : pol.governs d = decide (x.ingress = d) := by
    unfold Policy.governs
    rw [f.kind]
    cases d <;> simp [f.ingress, f.egress]
  rw [← f.mem p d]
  unfold Policy.ruleVerdict
  rw [f.kind, f.action]
  constructor
  · intro h
    split at h
    · dsimp only at h
      split at h
      · rename_i hm
        refine ⟨?_, List.any_eq_true.1 hm⟩
        cases hd : x.deny <;> rw [hd] at h <;> cases h <;> rfl
      · cases h
    · cases h
  · rintro ⟨rfl, hm⟩
    have hi := ((f.mem p d).1 hm).1
    obtain ⟨r, hr, hm⟩ := hm
    rw [if_pos]
    · dsimp only
      rw [if_pos (show anyMatch (connNet L2 B).toNet p (pol.rules d) = true from List.any_eq_true.2 ⟨r, hr, hm⟩)]
      cases x.deny <;> rfl
    · unfold Policy.captures
      rw [gov, hi, decide_eq_true rfl, Bool.true_and]
      exact f.legal.selected d r hr p hm

/-- The verdicts of the policies, those that allow before those that deny. -/
theorem gw_verdicts {gp : List (GPol V2)} (hab : ∃ a b, gp = a ++ b ∧ (∀ x ∈ a, x.deny = false) ∧ ∀ x ∈ b, x.deny = true)
    (hf : ∀ x ∈ gp, GwFits L2 B rg c x (gatewayPolicy A2 W2 B rg x)) (p : Point (connA A2 B)) (d : Bool) :
    (layerVerdict (connNet L2 B).toNet (gp.map (gatewayPolicy A2 W2 B rg)) d p = some .allow ↔
      ∃ x ∈ gp, x.deny = false ∧ x.ingress = d ∧ ∃ h ∈ x.rules, (connNet L2 PeerDom.default).K.mem p.toDefault h = true) ∧
    (layerVerdict (connNet L2 B).toNet (gp.map (gatewayPolicy A2 W2 B rg)) d p = some .deny ↔
      (¬ ∃ x ∈ gp, x.deny = false ∧ x.ingress = d ∧ ∃ h ∈ x.rules, (connNet L2 PeerDom.default).K.mem p.toDefault h = true) ∧
      ∃ x ∈ gp, x.deny = true ∧ x.ingress = d ∧ ∃ h ∈ x.rules, (connNet L2 PeerDom.default).K.mem p.toDefault h = true) := by
  obtain ⟨a, b, rfl, ha, hb⟩ := hab
  have v := fun x (hx : x ∈ a ++ b) u => gw_verdict L2 (hf x hx) p d u
  unfold layerVerdict
  rw [List.map_append]
  have ca : ∀ pol ∈ a.map (gatewayPolicy A2 W2 B rg), (if pol.captures (connNet L2 B).toNet d (endpoint (connNet L2 B).toNet d p) then pol.ruleVerdict (connNet L2 B).toNet d p else none) = none ∨
      (if pol.captures (connNet L2 B).toNet d (endpoint (connNet L2 B).toNet d p) then pol.ruleVerdict (connNet L2 B).toNet d p else none) = some .allow := by
    intro pol hpol
    obtain ⟨x, hx, rfl⟩ := List.mem_map.1 hpol
    rcases Option.eq_none_or_eq_some (if (gatewayPolicy A2 W2 B rg x).captures (connNet L2 B).toNet d (endpoint (connNet L2 B).toNet d p) then (gatewayPolicy A2 W2 B rg x).ruleVerdict (connNet L2 B).toNet d p else none) with e | ⟨u, e⟩
    · exact Or.inl e
    · right
      have := (v x (List.mem_append_left _ hx) u).1 e
      rw [e, this.1, ha x hx]; rfl
  have cb : ∀ pol ∈ b.map (gatewayPolicy A2 W2 B rg), (if pol.captures (connNet L2 B).toNet d (endpoint (connNet L2 B).toNet d p) then pol.ruleVerdict (connNet L2 B).toNet d p else none) = none ∨
      (if pol.captures (connNet L2 B).toNet d (endpoint (connNet L2 B).toNet d p) then pol.ruleVerdict (connNet L2 B).toNet d p else none) = some .deny := by
    intro pol hpol
    obtain ⟨x, hx, rfl⟩ := List.mem_map.1 hpol
    rcases Option.eq_none_or_eq_some (if (gatewayPolicy A2 W2 B rg x).captures (connNet L2 B).toNet d (endpoint (connNet L2 B).toNet d p) then (gatewayPolicy A2 W2 B rg x).ruleVerdict (connNet L2 B).toNet d p else none) with e | ⟨u, e⟩
    · exact Or.inl e
    · right
      have := (v x (List.mem_append_right _ hx) u).1 e
      rw [e, this.1, hb x hx]; rfl
  obtain ⟨k1, k2⟩ := findSome_split (by decide) ca cb
  have ea : (∃ pol ∈ a.map (gatewayPolicy A2 W2 B rg), (if pol.captures (connNet L2 B).toNet d (endpoint (connNet L2 B).toNet d p) then pol.ruleVerdict (connNet L2 B).toNet d p else none) = some .allow) ↔
      ∃ x ∈ a ++ b, x.deny = false ∧ x.ingress = d ∧ ∃ h ∈ x.rules, (connNet L2 PeerDom.default).K.mem p.toDefault h = true := by
    constructor
    · rintro ⟨pol, hpol, h⟩
      obtain ⟨x, hx, rfl⟩ := List.mem_map.1 hpol
      exact ⟨x, List.mem_append_left _ hx, ha x hx, ((v x (List.mem_append_left _ hx) _).1 h).2⟩
    · rintro ⟨x, hx, h1, h2⟩
      refine ⟨_, List.mem_map_of_mem ((List.mem_append.1 hx).resolve_right fun h => by rw [hb x h] at h1; cases h1), (v x hx _).2 ⟨by rw [h1]; rfl, h2⟩⟩
  have eb : (∃ pol ∈ b.map (gatewayPolicy A2 W2 B rg), (if pol.captures (connNet L2 B).toNet d (endpoint (connNet L2 B).toNet d p) then pol.ruleVerdict (connNet L2 B).toNet d p else none) = some .deny) ↔
      ∃ x ∈ a ++ b, x.deny = true ∧ x.ingress = d ∧ ∃ h ∈ x.rules, (connNet L2 PeerDom.default).K.mem p.toDefault h = true := by
    constructor
    · rintro ⟨pol, hpol, h⟩
      obtain ⟨x, hx, rfl⟩ := List.mem_map.1 hpol
      exact ⟨x, List.mem_append_right _ hx, hb x hx, ((v x (List.mem_append_right _ hx) _).1 h).2⟩
    · rintro ⟨x, hx, h1, h2⟩
      refine ⟨_, List.mem_map_of_mem ((List.mem_append.1 hx).resolve_left fun h => by rw [ha x h] at h1; cases h1), (v x hx _).2 ⟨by rw [h1]; rfl, h2⟩⟩
  rw [k1, k2, ea, eb]
  exact ⟨Iff.rfl, Iff.rfl⟩

/-- Which ends the policies restrict. -/
theorem gw_open {gp : List (GPol V2)} (hf : ∀ x ∈ gp, GwFits L2 B rg c x (gatewayPolicy A2 W2 B rg x)) (d : Bool) {e : Int ⊕ X2} {E : Place} (hE : E.At rg c e) :
    istioOpen (connNet L2 B).toNet (gp.map (gatewayPolicy A2 W2 B rg)) d e ↔ ¬ ∃ x ∈ gp, x.deny = false ∧ x.ingress = d ∧ E.In x.selected := by
  have cap : ∀ x ∈ gp, (gatewayPolicy A2 W2 B rg x).captures (connNet L2 B).toNet d e = true ↔ x.ingress = d ∧ E.In x.selected := by
    intro x hx
    unfold Policy.captures Policy.governs
    rw [Bool.and_eq_true, (hf x hx).kind, ← (hf x hx).applies e E hE]
    refine and_congr_left fun _ => ?_
    cases d <;> simp [(hf x hx).ingress, (hf x hx).egress]
  have res : ∀ x ∈ gp, (gatewayPolicy A2 W2 B rg x).restricts ↔ x.deny = false := by
    intro x hx
    unfold Policy.restricts
    rw [(hf x hx).kind, (hf x hx).action]
    cases x.deny <;> simp
  unfold istioOpen
  constructor
  · rintro h ⟨x, hx, h1, h2⟩
    have := h _ (List.mem_map_of_mem hx) ((res x hx).2 h1)
    rw [(cap x hx).2 h2] at this; cases this
  · intro h pol hpol hr
    obtain ⟨x, hx, rfl⟩ := List.mem_map.1 hpol
    rw [← Bool.not_eq_true, cap x hx]
    exact fun h' => h ⟨x, hx, (res x hx).1 hr, h'⟩

/-- The layer of the gateways. -/
theorem gateways_layer (hC : CalCluster rg c) (hI : IstioCluster V rg c) (hB : Covers rg c B) {gp : List (GPol V2)}
    (hs : PolsSay L2 word rg c l gts vts gp) (hab : ∃ a b, gp = a ++ b ∧ (∀ x ∈ a, x.deny = false) ∧ ∀ x ∈ b, x.deny = true)
    (hf : ∀ x ∈ gp, GwFits L2 B rg c x (gatewayPolicy A2 W2 B rg x))
    (p : Point (connA A2 B)) (src dst : Place) (q : Request) (hq : IsRequest word rg c p src dst q) (ht : ReqsTame rg c l gts vts dst q)
    (hw : IsKind c src [.pod] ∨ IsKind c dst [.pod]) :
    layerAllows (connNet L2 B).toNet .istioGateway (gp.map (gatewayPolicy A2 W2 B rg)) (calicoPeers A2 W2 B rg c) p ↔
      Sender c src ∧ (IsKind c dst [.dns] → q.proto = 6) ∧ (q.proto = 6 → GatewaysSay rg c l gts vts src dst q) := by
  have hq' : IsRequest word rg c p.toDefault src dst q := ⟨hq.src, hq.dst, hq.proto, hq.port, hq.method, hq.host, hq.path⟩
  -- the verdicts
  obtain ⟨i1, i2⟩ := gw_verdicts L2 hab hf p true
  obtain ⟨e1, e2⟩ := gw_verdicts L2 hab hf p false
  have hA := hs.forwards p.toDefault src dst q hq' ht
  have hM := hs.fromMesh p.toDefault src dst q hq' ht
  have hK := hs.kept p.toDefault src dst q hq' ht
  have noI : layerVerdict (connNet L2 B).toNet (gp.map (gatewayPolicy A2 W2 B rg)) true p ≠ some .deny := fun h => by
    obtain ⟨_, x, hx, h1, h2, _⟩ := i2.1 h
    rw [hs.denied x hx h1] at h2; cases h2
  have hK' : (∃ x ∈ gp, x.deny = true ∧ x.ingress = false ∧ ∃ h ∈ x.rules, (connNet L2 PeerDom.default).K.mem p.toDefault h = true) ↔
      EgressFlow c l gts vts ∧ Kept c gts vts src dst := by
    rw [← hK]
    exact exists_congr fun x => and_congr_right fun hx => and_congr_right fun h => and_iff_right (hs.denied x hx h)
  have oI : istioOpen (connNet L2 B).toNet (gp.map (gatewayPolicy A2 W2 B rg)) true (endpoint (connNet L2 B).toNet true p) ↔
      ¬ (EgressFlow c l gts vts ∧ ∃ s, MeshRoute l vts s ∧ Picks c s dst) := (gw_open L2 hf true hq.dst).trans (not_congr (hs.egress dst))
  have oE : istioOpen (connNet L2 B).toNet (gp.map (gatewayPolicy A2 W2 B rg)) false (endpoint (connNet L2 B).toNet false p) ↔
      ¬ IsGateway c l gts vts src := (gw_open L2 hf false hq.src).trans (not_congr (hs.gateways src))
  rw [hA] at e1 e2
  rw [hK'] at e2
  rw [hM] at i1
  -- matched rules are about selected ends
  have hAG : layerVerdict (connNet L2 B).toNet (gp.map (gatewayPolicy A2 W2 B rg)) false p = some .allow → IsGateway c l gts vts src := fun h => by
    obtain ⟨x, hx, h1, h2, h3⟩ := hA.2 (e1.1 h)
    obtain ⟨r, hr, hm⟩ := ((hf x hx).mem p false).2 ⟨h2, h3⟩
    exact (hs.gateways src).1 ⟨x, hx, h1, h2, ((hf x hx).applies _ src hq.src).1 ((hf x hx).legal.selected false r hr p hm)⟩
  have hMR : layerVerdict (connNet L2 B).toNet (gp.map (gatewayPolicy A2 W2 B rg)) true p = some .allow →
      EgressFlow c l gts vts ∧ ∃ s, MeshRoute l vts s ∧ Picks c s dst := fun h => by
    obtain ⟨x, hx, h1, h2, h3⟩ := hM.2 (i1.1 h)
    obtain ⟨r, hr, hm⟩ := ((hf x hx).mem p true).2 ⟨h2, h3⟩
    exact (hs.egress dst).1 ⟨x, hx, h1, h2, ((hf x hx).applies _ dst hq.dst).1 ((hf x hx).legal.selected true r hr p hm)⟩
  -- the ends
  have notDns : ∀ {a : PeerInfo}, a ∈ c → a.kind ≠ .dns → a.kind = .pod := fun ha h => by
    rcases hI.cluster.kind _ ha with ⟨h', _⟩ | ⟨h', _⟩
    · exact h'
    · exact absurd h' h
  have hGs : IsGateway c l gts vts src → IsKind c src [.pod] := by
    rintro (⟨_, _, _, _, _, _, g, _, _, _, a, ha, hE, hk, _⟩ | ⟨_, _, _, _, _, _, _, g, _, _, _, a, ha, hE, hk, _⟩) <;> exact ⟨a, ha, hE, by simp [notDns ha hk]⟩
  have inMesh : InMesh c src ↔ IsKind c src [.pod] := by
    constructor
    · rintro ⟨a, ha, hE, hk⟩; exact ⟨a, ha, hE, by simp [notDns ha hk]⟩
    · rintro ⟨a, ha, hE, hk⟩; exact ⟨a, ha, hE, by simp at hk; simp [hk]⟩
  have hRd : (EgressFlow c l gts vts ∧ ∃ s, MeshRoute l vts s ∧ Picks c s dst) → IsKind c dst [.pod] := by
    rintro ⟨_, s, _, _, a, ha, hE, hn, _⟩
    refine ⟨a, ha, hE, ?_⟩
    rcases hI.cluster.kind a ha with ⟨h', _⟩ | ⟨_, h'⟩
    · simp [h']
    · obtain ⟨n, h1, _⟩ := hn
      rw [h'] at h1; cases h1
  have hVd : ViaEgress c gts vts dst → IsKind c dst [.dns] := by
    rintro ⟨_, _, _, _, _, _, _, _, _, _, _, _, a, ha, hE, hk, _⟩
    exact ⟨a, ha, hE, by simp [hk]⟩
  have hKept : ¬ IsGateway c l gts vts src → (EgressFlow c l gts vts ∧ Kept c gts vts src dst ↔ EgressFlow c l gts vts ∧ ViaEgress c gts vts dst ∧ IsKind c src [.pod]) := by
    intro hn
    refine and_congr_right fun hEF => ?_
    rw [← inMesh]
    constructor
    · rintro ⟨v, h1, group, h2, r, h3, g, h4, h5, h6, h7, _, h8⟩
      exact ⟨⟨v, h1, group, h2, r, h3, g, h4, h5, h6, h8⟩, h7⟩
    · rintro ⟨⟨v, h1, group, h2, r, h3, g, h4, h5, h6, h8⟩, h7⟩
      exact ⟨v, h1, group, h2, r, h3, g, h4, h5, h6, h7, fun h => hn (Or.inr ⟨hEF, v, h1, group, h2, r, h3, g, h4, h5, h6, h⟩), h8⟩
  have hMs : layerVerdict (connNet L2 B).toNet (gp.map (gatewayPolicy A2 W2 B rg)) true p = some .allow → IsKind c src [.pod] := fun h =>
    inMesh.1 (i1.1 h).2.2.1
  have tcp : (connNet L2 B).isTcp p = true ↔ q.proto = 6 := by
    change (connA A2 B).mem (p.1 .protocols) (.inl [⟨6, 6⟩]) = true ↔ _
    rw [hq.proto]
    refine (mem_inl A2 B _ _ (canonical_singleton.2 (by decide))).trans ?_
    rw [mem_singleton]; unfold Iv.Mem; dsimp only; omega
  have kinds : ∀ {E : Place} {e : Int ⊕ X2}, E.At rg c e → ((calicoPeers A2 W2 B rg c).workload (connNet L2 B).toNet e ↔ IsKind c E [.pod]) := by
    intro E e hE
    obtain ⟨s1, s2, _, _⟩ := calico_classes (A2 := A2) L2 hC hB hE
    unfold Peers.workload
    rw [s1, s2]
    constructor
    · rintro (⟨a, ha, he, hk⟩ | ⟨a, ha, he, hk⟩)
      · refine ⟨a, ha, he, ?_⟩
        rcases hI.cluster.kind a ha with ⟨h, _⟩ | ⟨h, _⟩ <;> simp [h] at hk ⊢
      · rcases hI.cluster.kind a ha with ⟨h, _⟩ | ⟨h, _⟩ <;> simp [h] at hk
    · rintro ⟨a, ha, he, hk⟩
      simp only [List.mem_cons, List.not_mem_nil, or_false] at hk
      exact Or.inl ⟨a, ha, he, by simp [hk]⟩
  obtain ⟨_, _, sd, si⟩ := calico_classes (A2 := A2) L2 hC hB hq.src
  obtain ⟨_, _, dd, di⟩ := calico_classes (A2 := A2) L2 hC hB hq.dst
  have sw := kinds hq.src
  have dw := kinds hq.dst
  have sender : Sender c src ↔ IsKind c src [.pod] ∨ ∃ x, src = .ip x := by
    cases hs : src with
    | ip x => simp [Sender]
    | pod k =>
      simp only [Sender, reduceCtorEq, exists_false, or_false]
      constructor
      · rintro ⟨a, ha, he, hk⟩; exact ⟨a, ha, he, by simp [notDns ha hk]⟩
      · rintro ⟨a, ha, he, hk⟩; exact ⟨a, ha, he, by simp at hk; simp [hk]⟩
  have cs := place_cases hI hq.src
  have cd := place_cases hI hq.dst
  have q1 : (connNet L2 B).src p = p.1 .srcPeers := rfl
  have q2 : (connNet L2 B).dst p = p.1 .dstPeers := rfl
  unfold layerAllows
  change (istioAllows _ _ _ true p ∨ _) ∧ (istioAllows _ _ _ false p ∨ _) ↔ _
  unfold istioAllows istioDefault Peers.nonDns GatewaysSay
  rw [oI, oE, ← Bool.not_eq_true, tcp]
  simp only [q1, q2, sw, dw, si, di, dd, noI, true_and, Bool.false_eq_true, if_false, if_true, ne_eq, not_false_eq_true, sender]
  generalize layerVerdict (connNet L2 B).toNet (gp.map (gatewayPolicy A2 W2 B rg)) false p = vE at *
  generalize layerVerdict (connNet L2 B).toNet (gp.map (gatewayPolicy A2 W2 B rg)) true p = vI at *
  rw [← e1] at e2
  exact gateway_cases cs cd hw e1 i1 e2 hAG hMR Iff.rfl hRd hGs hMs hKept hVd

/-! ### Configurations -/

/-- What is used of the other policies of a configuration. -/
theorem cfg_ready (hK : K.Ok) (hC : CalCluster rg c) (hI : IstioCluster V rg c) (hD : IngressLib A2 W2 dfa word D) (hB : Covers rg c B)
    (hl : SvcsTame rg c l) {svcs : List (String × Svc)} (hs : services rg c l = some svcs)
    {dflt : Ns} {ds : List CfgDoc} {is : List Item}
    (hm : List.Forall₂ (Doc.Means K dflt) ((ds.filterMap CfgDoc.policy?).filterMap AnyDoc.net?) is) (hi : ∀ i ∈ is, i.Tame c)
    {src dst : Place} (ht : ∀ t ∈ (ds.filterMap CfgDoc.policy?).filterMap AnyDoc.istio?, t.Tame src)
    (hg : ∀ t ∈ ds.filterMap CfgDoc.ingress?, t.Tame c l)
    {pols : List (Policy (HC Dim (ISet ⊕ V2)) (ConnPeers W2 B))} (hp : cfgPolicies K A2 W2 dfa V B ord rg c svcs dflt ds = some pols)
    {sc : List (Policy (HC Dim (ISet ⊕ V2)) (ConnPeers W2 B))} (hsc : ∀ pol ∈ sc, SidecarOk L2 rg c pol)
    {st : PolicyStore (HC Dim (ISet ⊕ V2)) (ConnPeers W2 B)} (hb : PolicyStore.build (pols ++ sc) = some st)
    (p : Point (connA A2 B)) (r : Request) (hr : IsRequest word rg c p src dst r)
    (hdns : IsKind c dst [.dns] → ∃ E, IsKind c E [.pod] ∧ ∀ t ∈ (ds.filterMap CfgDoc.policy?).filterMap AnyDoc.istio?, ¬ t.Denies → ¬ t.Applies c E) :
    (∀ pol ∈ pols ++ sc, pol.Legal (connNet L2 B).toNet (HcStrongT (connA A2 B) (connWf W2 B) allDims)) ∧
    (∀ pol ∈ pols ++ sc, pol.isCalico = true → ∀ isIngress, ∀ r ∈ pol.rules isIngress, r.action ≠ .pass) ∧
    (∀ e, (connNet L2 B).toNet.Q.mem e (calicoPeers A2 W2 B rg c).heps = false) ∧
    ∀ n, (∃ pol ∈ pols ++ sc, layerOf pol.kind = n) → DnsOk (connNet L2 B).toNet n (layerList st.layers n) (calicoPeers A2 W2 B rg c) p := by
  obtain ⟨hp1, FG, _⟩ := cfg_fits L2 hC hI hD hB hl hs hg hp
  have FG' := forall₂_left (forall₂_swap FG)
  have layS : ∀ pol ∈ sc, layerOf pol.kind = .istio := fun pol hpol => by rw [(hsc pol hpol).kind]; rfl
  have eS : sc.filter (fun q => decide (layerOf q.kind ≠ .k8sGateway)) = sc := List.filter_eq_self.2 fun pol hpol => by simp [layS pol hpol]
  obtain ⟨st1, hb0⟩ := (build_some_iff _).2 (((build_some_iff (pols ++ sc)).1 ⟨st, hb⟩).filter (fun q => decide (layerOf q.kind ≠ .k8sGateway)))
  have hb1 := hb0
  rw [List.filter_append, eS] at hb1
  obtain ⟨hlegal, hpass, noh, hdk⟩ := config_ready L2 hK hC hI hD.toDfaLib hB hm hi ht hp1 hsc hb1 p r hr hdns
  have sub : ∀ pol ∈ pols ++ sc, layerOf pol.kind ≠ .k8sGateway → pol ∈ pols.filter (fun q => decide (layerOf q.kind ≠ .k8sGateway)) ++ sc := fun pol hpol h => by
    rw [← eS, ← List.filter_append]
    exact List.mem_filter.2 ⟨hpol, by simpa using h⟩
  refine ⟨fun pol hpol => ?_, fun pol hpol hcal => hpass pol (sub pol hpol ?_) hcal, noh, fun n hn => ?_⟩
  · by_cases h : layerOf pol.kind = .k8sGateway
    · obtain ⟨t, _, g⟩ := FG' pol (List.mem_filter.2 ⟨(List.mem_append.1 hpol).resolve_right (fun h' => by rw [layS pol h'] at h; cases h), by simpa using h⟩)
      exact g.legal
    · exact (hlegal (HcOkT (connA A2 B) (connWf W2 B) allDims)).legal pol (sub pol hpol h)
  · unfold Policy.isCalico at hcal
    cases e : pol.kind <;> simp [e] at hcal <;> simp [layerOf]
  · by_cases h : n = .k8sGateway
    · rw [h]; trivial
    · have same : layerList st1.layers n = layerList st.layers n := by
        rw [(build_built _ hb).lists, (build_built _ hb0).lists, List.filter_filter]
        congr 1
        refine List.filter_congr fun pol _ => ?_
        by_cases h' : layerOf pol.kind = n
        · simp [h', h]
        · simp [h']
      rw [← same]
      obtain ⟨pol, hpol, rfl⟩ := hn
      exact hdk _ ⟨pol, sub pol hpol h, rfl⟩

omit L2 in
/-- The policies of gateways come after those of the parse queue, and sidecars last. -/
theorem order_gateways {svcs : List (String × Svc)} {dflt : Ns} {ds : List CfgDoc} {pols gp sc : List (Policy (HC Dim (ISet ⊕ V2)) (ConnPeers W2 B))}
    (hp : cfgPolicies K A2 W2 dfa V B ord rg c svcs dflt ds = some pols) (hgp : ∀ pol ∈ gp, pol.kind = .gateway) (hsc : ∀ pol ∈ sc, pol.kind = .istioSidecar) :
    loadOrder (pols ++ gp ++ sc) = pols ++ gp ++ sc ∧ ∀ pol ∈ pols, layerOf pol.kind ≠ .istioGateway := by
  have hk : ∀ pol ∈ pols, pol.kind ≠ .gateway ∧ pol.kind ≠ .istioSidecar ∧ pol.kind ≠ .calicoProfile := by
    intro pol hpol
    obtain ⟨d, _, hd⟩ := forall₂_left (forall₂_swap (mapM_pairs hp)) pol hpol
    cases d with
    | policy d => exact (any_kind hd).2
    | ingress name t =>
      obtain ⟨P, _, rfl⟩ := Option.map_eq_some_iff.1 hd
      simp [ingressPolicy]
  constructor
  · unfold loadOrder
    have a1 : pols.filter (fun q => decide (q.kind ≠ .gateway ∧ q.kind ≠ .istioSidecar ∧ q.kind ≠ .calicoProfile)) = pols :=
      List.filter_eq_self.2 fun pol hpol => decide_eq_true (hk pol hpol)
    have a2 : pols.filter (fun q => decide (q.kind = .gateway)) = [] := List.filter_eq_nil_iff.2 fun pol hpol => by simpa using (hk pol hpol).1
    have a3 : pols.filter (fun q => decide (q.kind = .istioSidecar)) = [] := List.filter_eq_nil_iff.2 fun pol hpol => by simpa using (hk pol hpol).2.1
    have b1 : gp.filter (fun q => decide (q.kind ≠ .gateway ∧ q.kind ≠ .istioSidecar ∧ q.kind ≠ .calicoProfile)) = [] :=
      List.filter_eq_nil_iff.2 fun pol hpol => by simp [hgp pol hpol]
    have b2 : gp.filter (fun q => decide (q.kind = .gateway)) = gp := List.filter_eq_self.2 fun pol hpol => by simp [hgp pol hpol]
    have b3 : gp.filter (fun q => decide (q.kind = .istioSidecar)) = [] := List.filter_eq_nil_iff.2 fun pol hpol => by simp [hgp pol hpol]
    have c1 : sc.filter (fun q => decide (q.kind ≠ .gateway ∧ q.kind ≠ .istioSidecar ∧ q.kind ≠ .calicoProfile)) = [] :=
      List.filter_eq_nil_iff.2 fun pol hpol => by simp [hsc pol hpol]
    have c2 : sc.filter (fun q => decide (q.kind = .gateway)) = [] := List.filter_eq_nil_iff.2 fun pol hpol => by simp [hsc pol hpol]
    have c3 : sc.filter (fun q => decide (q.kind = .istioSidecar)) = sc := List.filter_eq_self.2 fun pol hpol => by simp [hsc pol hpol]
    simp only [List.filter_append, a1, a2, a3, b1, b2, b3, c1, c2, c3, List.append_nil, List.nil_append]
  · intro pol hpol h
    have := (hk pol hpol).1
    cases e : pol.kind <;> simp [e, layerOf] at h this

omit L2 in
/-- Only gateways that are ignored: an exception. -/
theorem only_ignored (hI : IstioCluster V rg c) (hD : IngressLib A2 W2 dfa word D) (L2 : A2.Lawful W2) (hgt : ∀ g ∈ gts, g.Tame) (hgd : NamesDiffer gts)
    {svcs : List (String × Svc)} (hn : ¬ ((∃ g ∈ gts, g.Works c) ∨ vts ≠ [] ∨ gts = [])) :
    gatewayPols A2 dfa V.word rx PeerDom.default ord rg svcs c gts vts = none := by
  simp only [not_or, ne_eq, Classical.not_not] at hn
  obtain ⟨n1, rfl, n3⟩ := hn
  obtain ⟨gs, e1, cg, _⟩ := gateways_sem hD L2 hI.word hI.cluster hgt hgd
  have hge : gs = [] := by
    by_contra h
    obtain ⟨g, hg⟩ := List.exists_mem_of_ne_nil _ h
    obtain ⟨t, ht, _⟩ := cg.sound g hg
    exact n1 ⟨t, ht⟩
  subst hge
  unfold gatewayPols
  rw [e1]
  have : gts.isEmpty = false := by simpa using n3
  simp [virtualServices, this]

/-- C60: in a configuration with gateways and virtual services, a connection with a pod at one of its ends is allowed exactly
if it is without them (`C58_config_partial`) and, if some gateway works and there are virtual services, its source can send,
only TCP goes to DNS entries, and for TCP the gateways let it through: those in use send only what their routes tell them to,
destinations of the egress flow are reached only through the egress gateway, which gets only what the mesh routes to it.
PARTIAL: without the known defects of single texts, which for gateways and virtual services are those of `GatewayText.Tame`,
`VsText.Tame` and `ReqsTame`; connections to a DNS entry only if some pod is not restricted (`C26_dns_default_lost`); as C58
otherwise. -/
theorem C60_config_partial (hK : K.Ok) (hC : CalCluster rg c) (hI : IstioCluster V rg c) (hD : IngressLib A2 W2 dfa word D) (hB : Covers rg c B)
    (hl : SvcsTame rg c l) (hN : Named c l) {svcs : List (String × Svc)} (hs : services rg c l = some svcs)
    {dflt : Ns} {ds : List CfgDoc} {is : List Item}
    (hm : List.Forall₂ (Doc.Means K dflt) ((ds.filterMap CfgDoc.policy?).filterMap AnyDoc.net?) is) (hi : ∀ i ∈ is, i.Tame c)
    {src dst : Place} (ht : ∀ t ∈ (ds.filterMap CfgDoc.policy?).filterMap AnyDoc.istio?, t.Tame src)
    (hg : ∀ t ∈ ds.filterMap CfgDoc.ingress?, t.Tame c l) (hts : ∀ t ∈ ts, t.Tame c l)
    (hrx : RxOk rx) (hgt : ∀ g ∈ gts, g.Tame) (hgd : NamesDiffer gts) (hvt : ∀ v ∈ vts, v.Tame c l gts) (hvd : VsDiffer vts)
    {pols gp sc : List (Policy (HC Dim (ISet ⊕ V2)) (ConnPeers W2 B))} (hp : cfgPolicies K A2 W2 dfa V B ord rg c svcs dflt ds = some pols)
    (hgp : gatewayPolicies A2 W2 dfa V.word rx B ord rg svcs c gts vts = some gp) (hsc : sidecarPolicies A2 W2 B ord rg c svcs ts = some sc)
    {st : PolicyStore (HC Dim (ISet ⊕ V2)) (ConnPeers W2 B)} (hb : PolicyStore.build (loadOrder (pols ++ gp ++ sc)) = some st)
    (f : ConnFilter) (hf : f.calcAllAllowed = true) (p : Point (connA A2 B)) (q : Conn) (hq : IsConn rg c p src dst q)
    (r : Request) (hr : IsRequest word rg c p src dst r) (hh : ∀ t ∈ ds.filterMap CfgDoc.ingress?, HostTame t r.host) (hrt : ReqsTame rg c l gts vts dst r)
    (hw : IsKind c src [.pod] ∨ IsKind c dst [.pod])
    (hdns : IsKind c dst [.dns] → ∃ E, IsKind c E [.pod] ∧ ∀ t ∈ (ds.filterMap CfgDoc.policy?).filterMap AnyDoc.istio?, ¬ t.Denies → ¬ t.Applies c E)
    (hdng : IsKind c dst [.dns] → ∃ E, IsKind c E [.pod] ∧ ∀ s, MeshRoute l vts s → ¬ Picks c s E) :
    (connNet L2 B).K.mem p (configConns (connNet L2 B).toNet (calicoPeers A2 W2 B rg c) st.layers f).allAllowed = true ↔
      ((CalicoSays rg c is src dst q ∧
        ((ds.filterMap CfgDoc.policy?).filterMap AnyDoc.istio? ≠ [] ∨ ts ≠ [] → Sender c src ∧ (IsKind c dst [.dns] → r.proto = 6) ∧
          (r.proto = 6 → IstioSays V.sa c ((ds.filterMap CfgDoc.policy?).filterMap AnyDoc.istio?) src dst r ∧ SidecarsSay c l ts src dst))) ∧
      (ds.filterMap CfgDoc.ingress? ≠ [] → GatewaySays rg c l (ds.filterMap CfgDoc.ingress?) src dst r)) ∧
      ((∃ g ∈ gts, g.Works c) ∧ vts ≠ [] → Sender c src ∧ (IsKind c dst [.dns] → r.proto = 6) ∧ (r.proto = 6 → GatewaysSay rg c l gts vts src dst r)) := by
  -- the policies of the gateways
  obtain ⟨gs, hgs, rfl⟩ := Option.map_eq_some_iff.1 hgp
  have hne : (∃ g ∈ gts, g.Works c) ∨ vts ≠ [] ∨ gts = [] := by
    by_contra hn
    rw [only_ignored hI hD L2 hgt hgd hn] at hgs; cases hgs
  obtain ⟨z, hz, hzS⟩ := free_index (X2 := X2) hI
  obtain ⟨gs', e, g1, g2, g3, g4⟩ := pols_all (L2 := L2) (ord := ord) hI hD hl hN hrx hz hzS hgt hgd hvt hvd hne
  have es := services_eq hI.cluster hl
  rw [hs] at es; cases es
  rw [hgs] at e; cases e
  have hfit : ∀ x ∈ gs, GwFits L2 B rg c x (gatewayPolicy A2 W2 B rg x) := fun x hx => gateway_fits L2 hC hB (g4 x hx)
  have layG : ∀ pol ∈ gs.map (gatewayPolicy A2 W2 B rg), pol.kind = .gateway := fun pol hpol => by
    obtain ⟨x, _, rfl⟩ := List.mem_map.1 hpol; rfl
  -- the sidecars
  obtain ⟨fit1, fit2⟩ := sidecars_fit (A2 := A2) L2 (ord := ord) (word := word) hC hI hB hl hN hs (fun t h => (hts t h).toLegal)
  have hc : NoConflict c ts := by
    by_contra hc
    rw [fit2 hc] at hsc; cases hsc
  obtain ⟨sc', e, F⟩ := fit1 hc
  rw [e] at hsc; cases hsc
  have ok : ∀ pol ∈ sc, SidecarOk L2 rg c pol := fun pol hpol => by
    obtain ⟨t, _, f⟩ := forall₂_left (forall₂_swap F) pol hpol
    exact f.toSidecarOk
  obtain ⟨ho, hnot⟩ := order_gateways hp layG fun pol hpol => (ok pol hpol).kind
  rw [ho] at hb
  -- without the gateways
  have layS : ∀ pol ∈ pols ++ sc, layerOf pol.kind ≠ .istioGateway := fun pol hpol => by
    rcases List.mem_append.1 hpol with h | h
    · exact hnot pol h
    · rw [(ok pol h).kind]; decide
  have filt : (pols ++ gs.map (gatewayPolicy A2 W2 B rg) ++ sc).filter (fun q => decide (layerOf q.kind ≠ .istioGateway)) = pols ++ sc := by
    rw [List.filter_append, List.filter_append, List.filter_eq_self.2 fun pol hpol => decide_eq_true (layS pol (List.mem_append_left _ hpol)),
      List.filter_eq_nil_iff.2 fun pol hpol => by simp [layG pol hpol, layerOf],
      List.filter_eq_self.2 fun pol hpol => decide_eq_true (layS pol (List.mem_append_right _ hpol)), List.append_nil]
  have filt' : (pols ++ gs.map (gatewayPolicy A2 W2 B rg) ++ sc).filter (fun q => decide (layerOf q.kind = .istioGateway)) = gs.map (gatewayPolicy A2 W2 B rg) := by
    rw [List.filter_append, List.filter_append, List.filter_eq_nil_iff.2 fun pol hpol => by simpa using layS pol (List.mem_append_left _ hpol),
      List.filter_eq_self.2 fun pol hpol => by simp [layG pol hpol, layerOf],
      List.filter_eq_nil_iff.2 fun pol hpol => by simpa using layS pol (List.mem_append_right _ hpol), List.append_nil, List.nil_append]
  obtain ⟨st1, hb1⟩ := (build_some_iff _).2 (((build_some_iff _).1 ⟨st, hb⟩).filter (fun q => decide (layerOf q.kind ≠ .istioGateway)))
  have hb2 := hb1
  rw [filt] at hb2
  obtain ⟨hlegal, hpass, noh, hdk⟩ := cfg_ready L2 hK hC hI hD hB hl hs hm hi ht hg hp ok hb2 p r hr hdns
  have c58 := C58_config_partial L2 hK hC hI hD hB hl hN hs hm hi ht hg hts hp e
    (by rw [order_sidecars hp fun pol hpol => (ok pol hpol).kind]; exact hb2) f hf p q hq r hr hh hw hdns
  have split : ∀ pol ∈ pols ++ gs.map (gatewayPolicy A2 W2 B rg) ++ sc, pol ∈ pols ++ sc ∨ ∃ x ∈ gs, gatewayPolicy A2 W2 B rg x = pol := fun pol hpol => by
    simp only [List.mem_append, List.mem_map] at hpol ⊢
    rcases hpol with (h | h) | h
    · exact Or.inl (Or.inl h)
    · exact Or.inr h
    · exact Or.inl (Or.inr h)
  have hl' : LegalPolicies (connNet L2 B).toNet (HcOkT (connA A2 B) (connWf W2 B) allDims) (HcStrongT (connA A2 B) (connWf W2 B) allDims)
      (pols ++ gs.map (gatewayPolicy A2 W2 B rg) ++ sc) := by
    refine ⟨fun pol hpol => ?_, Or.inr fun pol hpol hcal => ?_⟩
    · rcases split pol hpol with h | ⟨x, hx, rfl⟩
      · exact hlegal pol h
      · exact (hfit x hx).legal
    · rcases split pol hpol with h | ⟨x, hx, rfl⟩
      · exact hpass pol h hcal
      · cases hcal
  have hlist : layerList st.layers .istioGateway = gs.map (gatewayPolicy A2 W2 B rg) := by
    rw [(build_built _ hb).lists, filt']
    refine (foldl_insort_last _ [] fun pol hpol y => ?_).trans (List.nil_append _)
    simp [Policy.lt, Policy.getOrder, layG pol hpol]
  have hdm : DnsOk (connNet L2 B).toNet .istioGateway (layerList st.layers .istioGateway) (calicoPeers A2 W2 B rg c) p := by
    rw [hlist]
    by_cases hd : IsKind c dst [.dns]
    · left
      obtain ⟨E, ⟨a, ha, he, hka⟩, ho⟩ := hdng hd
      obtain ⟨k, hk1, hk2⟩ := hI.cluster.elem a ha
      have hE : E = .pod k := by
        cases E with
        | ip x => obtain ⟨b, hb, _⟩ := he; rw [hk1] at hb; cases hb
        | pod k' =>
          have : a.elem = .pod k' := he
          rw [hk1] at this; cases this; rfl
      obtain ⟨n, hn⟩ := List.mem_iff_getElem?.1 hk2
      have hAt : E.At rg c (.inl (minPodIndex + n) : Int ⊕ X2) := hE ▸ ⟨⟨a, ha, hk1⟩, n, rfl, hn⟩
      obtain ⟨s1, _, _, _⟩ := calico_classes (A2 := A2) (W2 := W2) L2 hC hB hAt
      refine ⟨_, Or.inl (s1.2 ⟨a, ha, he, by simp at hka; simp [hka]⟩), (gw_open L2 hfit true hAt).2 fun h => ?_⟩
      obtain ⟨_, s, h1, h2⟩ := (g2.egress E).1 h
      exact ho s h1 h2
    · right
      obtain ⟨_, _, s3, _⟩ := calico_classes (A2 := A2) (W2 := W2) L2 hC hB hr.dst
      rw [← Bool.not_eq_true]
      exact fun h => hd (s3.1 h)
  have sp := split_layer (m := .istioGateway) (connNet_lawful L2 B).1.net (by decide) hl' hb hb1 (calicoPeers A2 W2 B rg c) f hf (Or.inr noh) p
    (fun n hn => hdk n (by rw [filt] at hn; exact hn)) hdm fun hnil => by
    rw [filt, List.append_eq_nil_iff] at hnil
    obtain ⟨rfl, rfl⟩ := hnil
    have hd : ds = [] := by
      have := (mapM_pairs hp).length_eq
      simpa using this
    have htn : ts = [] := by
      by_contra h
      obtain ⟨t, h1⟩ := List.exists_mem_of_ne_nil _ h
      obtain ⟨pol, hpol, _⟩ := forall₂_left F t (mem_ordered.2 h1)
      cases hpol
    subst hd htn
    cases hm
    exact c58.2 ⟨⟨calico_empty hI hr.src hr.dst q, fun h => by rcases h with h | h <;> exact absurd rfl h⟩, fun h => absurd rfl h⟩
  rw [sp, c58]
  refine and_congr_right fun _ => ?_
  have hex : (∃ pol ∈ pols ++ gs.map (gatewayPolicy A2 W2 B rg) ++ sc, layerOf pol.kind = .istioGateway) ↔ (∃ g ∈ gts, g.Works c) ∧ vts ≠ [] := by
    rw [← Classical.not_not (a := _ ∧ _), ← g1]
    constructor
    · rintro ⟨pol, h1, h2⟩ rfl
      rcases split pol h1 with h | ⟨x, hx, _⟩
      · exact layS pol h h2
      · cases hx
    · intro h
      obtain ⟨x, hx⟩ := List.exists_mem_of_ne_nil _ h
      exact ⟨_, List.mem_append_left _ (List.mem_append_right _ (List.mem_map_of_mem hx)), rfl⟩
  rw [hex, hlist]
  refine forall_congr' fun _ => gateways_layer L2 hC hI hB g2 g3 hfit p src dst r hr hrt hw

include L2 in
/-- C60: when the configuration is accepted.  `_partial`: with `C58_accepted_partial`'s and `C59_gateways_partial`'s assumptions
on the resources, and names of virtual services without commas. -/
theorem C60_accepted_partial (hK : K.Ok) (hC : CalCluster rg c) (hI : IstioCluster V rg c) (hD : IngressLib A2 W2 dfa word D) (hB : Covers rg c B)
    (hl : SvcsTame rg c l) (hN : Named c l) {dflt : Ns} {ds : List CfgDoc} {is : List Item}
    (hm : List.Forall₂ (Doc.Means K dflt) ((ds.filterMap CfgDoc.policy?).filterMap AnyDoc.net?) is) (hi : ∀ i ∈ is, i.Tame c)
    (ht : ∀ t ∈ (ds.filterMap CfgDoc.policy?).filterMap AnyDoc.istio?, ∃ E, t.Tame E)
    (hg : ∀ t ∈ ds.filterMap CfgDoc.ingress?, t.Tame c l) (hts : ∀ t ∈ ts, t.Legal)
    (hrx : RxOk rx) (hgt : ∀ g ∈ gts, g.Tame) (hgd : NamesDiffer gts) (hvt : ∀ v ∈ vts, v.Tame c l gts) (hvd : VsDiffer vts) (hrd : ∀ v ∈ vts, Readable v) :
    (∃ svcs pols gp sc st, services rg c l = some svcs ∧ cfgPolicies K A2 W2 dfa V B ord rg c svcs dflt ds = some pols ∧
        gatewayPolicies A2 W2 dfa V.word rx B ord rg svcs c gts vts = some gp ∧
        sidecarPolicies A2 W2 B ord rg c svcs ts = some sc ∧ PolicyStore.build (loadOrder (pols ++ gp ++ sc)) = some st) ↔
      (((∀ t, CfgDoc.policy (.net (.k8s t)) ∈ ds → ∀ s, t.spec = some s → s.Legal) ∧ ds.Pairwise (fun a b => a.key dflt ≠ b.key dflt)) ∧
      NoConflict c ts ∧ ts.Pairwise (fun t t' => t.ns.name ++ "/" ++ t.name ≠ t'.ns.name ++ "/" ++ t'.name)) ∧
      ((∃ g ∈ gts, g.Works c) ∨ vts ≠ [] ∨ gts = []) ∧ ((∃ g ∈ gts, g.Works c) → ∀ v ∈ vts, v.Distinct c l gts vts) := by
  rw [← C58_accepted_partial (B := B) L2 (ord := ord) hK hC hI hD hB hl hN hm hi ht hg hts]
  obtain ⟨z, hz, hzS⟩ := free_index (X2 := X2) hI
  have es := services_eq hI.cluster hl
  have kindG : ∀ {svcs gp}, gatewayPolicies A2 W2 dfa V.word rx B ord rg svcs c gts vts = some gp → ∀ pol ∈ gp, pol.kind = .gateway := by
    intro svcs gp hgp pol hpol
    obtain ⟨gs, _, rfl⟩ := Option.map_eq_some_iff.1 hgp
    obtain ⟨x, _, rfl⟩ := List.mem_map.1 hpol
    rfl
  have hstore : ∀ {svcs pols gp sc}, services rg c l = some svcs → cfgPolicies K A2 W2 dfa V B ord rg c svcs dflt ds = some pols →
      gatewayPolicies A2 W2 dfa V.word rx B ord rg svcs c gts vts = some gp → sidecarPolicies A2 W2 B ord rg c svcs ts = some sc →
      ((∃ st, PolicyStore.build (loadOrder (pols ++ gp ++ sc)) = some st) ↔
        (∃ st, PolicyStore.build (loadOrder (pols ++ sc)) = some st) ∧ ((∃ g ∈ gts, g.Works c) → ∀ v ∈ vts, v.Distinct c l gts vts)) := by
    intro svcs pols gp sc hs hp hgp hsc
    have k0 := kindG hgp
    rw [hs] at es; cases es
    obtain ⟨gs, hgs, rfl⟩ := Option.map_eq_some_iff.1 hgp
    have hkeys := pols_keys L2 (ord := ord) hI hD hl hN hrx hz hzS hgt hgd hvt hvd hrd hgs
    obtain ⟨fit1, fit2⟩ := sidecars_fit (A2 := A2) (B := B) L2 (ord := ord) (word := word) hC hI hB hl hN hs hts
    have hc : NoConflict c ts := by
      by_contra hc
      rw [fit2 hc] at hsc; cases hsc
    obtain ⟨sc', e, F⟩ := fit1 hc
    rw [e] at hsc; cases hsc
    have k1 : ∀ pol ∈ sc, pol.kind = .istioSidecar := fun pol hpol => by
      obtain ⟨t, _, f⟩ := forall₂_left (forall₂_swap F) pol hpol
      exact f.kind
    obtain ⟨o1, k2⟩ := order_gateways hp k0 k1
    rw [o1, order_sidecars hp k1, build_some_iff, build_some_iff, List.pairwise_append, List.pairwise_append, List.pairwise_append]
    have e1 : (gs.map (gatewayPolicy A2 W2 B rg)).Pairwise (fun a b => ¬ (a.name = b.name ∧ a.kind = b.kind)) ↔ (gs.map GPol.key).Nodup := by
      unfold List.Nodup
      rw [List.pairwise_map, List.pairwise_map]
      exact List.Pairwise.iff fun x y => ⟨fun h h' => h ⟨h', rfl⟩, fun h h' => h h'.1⟩
    rw [e1, hkeys]
    have k3 : ∀ a ∈ pols, ∀ b ∈ gs.map (gatewayPolicy A2 W2 B rg), ¬ (a.name = b.name ∧ a.kind = b.kind) := fun a ha b hb h => by
      refine k2 a ha ?_
      rw [h.2, k0 b hb]
      rfl
    have k4 : ∀ a ∈ gs.map (gatewayPolicy A2 W2 B rg), ∀ b ∈ sc, ¬ (a.name = b.name ∧ a.kind = b.kind) := fun a ha b hb h => by
      rw [k0 a ha, k1 b hb] at h
      cases h.2
    constructor
    · rintro ⟨⟨h1, h2, _⟩, h3, h4⟩
      exact ⟨⟨h1, h3, fun a ha b hb => h4 a (List.mem_append_left _ ha) b hb⟩, h2⟩
    · rintro ⟨⟨h1, h3, h4⟩, h2⟩
      refine ⟨⟨h1, h2, k3⟩, h3, fun a ha b hb => ?_⟩
      rcases List.mem_append.1 ha with ha | ha
      · exact h4 a ha b hb
      · exact k4 a ha b hb
  constructor
  · rintro ⟨svcs, pols, gp, sc, st, h1, h2, h3, h4, h5⟩
    obtain ⟨⟨st', h6⟩, h7⟩ := (hstore h1 h2 h3 h4).1 ⟨st, h5⟩
    refine ⟨⟨svcs, pols, sc, st', h1, h2, h4, h6⟩, ?_, h7⟩
    obtain ⟨gs, hgs, rfl⟩ := Option.map_eq_some_iff.1 h3
    by_contra hn
    rw [only_ignored hI hD L2 hgt hgd hn] at hgs; cases hgs
  · rintro ⟨⟨svcs, pols, sc, st, h1, h2, h3, h4⟩, hne, h5⟩
    obtain ⟨gs, e, _⟩ := pols_all (L2 := L2) (ord := ord) hI hD hl hN hrx hz hzS hgt hgd hvt hvd hne
    rw [h1] at es; cases es
    have h6 : gatewayPolicies A2 W2 dfa V.word rx B ord rg (l.map fun s => (fullName s.name s.ns, svcOf rg c s)) c gts vts =
        some (gs.map (gatewayPolicy A2 W2 B rg)) := by
      unfold gatewayPolicies
      rw [e, Option.map_some]
    obtain ⟨st', h7⟩ := (hstore h1 h2 h6 h3).2 ⟨⟨st, h4⟩, h5⟩
    exact ⟨_, pols, _, sc, st', h1, h2, h6, h3, h7⟩

end
end GtwParser
end Verif
