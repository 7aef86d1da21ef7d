import Verif.PropsIngress
import Verif.PropsIstioConfig
/-!
C54: the connections of a configuration with Ingress resources, from the texts of the policies, services and Ingress
resources.

As `Verif.PropsIstioConfig`, with the parsed Ingress resources (`Verif.IngressModel`).
-/
namespace Verif
open ISet PeerSet

namespace IngressParser
open Container CalicoParser IstioParser

/-! ### Model -/

/-- A document of a configuration: a policy, or an Ingress resource. -/
inductive CfgDoc where
  | policy (d : AnyDoc)
  | ingress (name : String) (t : IngressText)

/-- The policies among the documents. -/
def CfgDoc.policy? : CfgDoc → Option AnyDoc
  | .policy d => some d
  | .ingress _ _ => none

/-- The Ingress resources among the documents. -/
def CfgDoc.ingress? : CfgDoc → Option IngressText
  | .policy _ => none
  | .ingress _ t => some t

section
variable {V2 X2 : Type} {A2 : VAlg Dim V2 X2} {W2 : Dim → V2 → Prop} {dfa : List Char → V2} {word : X2 → List Char} {D : V2 → Prop}
  {V : Env} {rg : PodReg} {c : Container} {ord : SetOrder} {B : PeerDom} {K : CharCls}

/-- The policy object: `GatewayPolicy` with the parsed attributes (IngressPolicyYamlParser.py 258-262, 269-271, 293; the
other attributes are those of the constructor, NetworkPolicy.py 73-90).  Its rules are those a query uses
(`reorganize_props_by_new_domains`, NetworkPolicy.py 189-204); rules of gateway policies have no actions. -/
noncomputable def ingressPolicy (A2 : VAlg Dim V2 X2) (W2 : Dim → V2 → Prop) (B : PeerDom) (rg : PodReg) (name : String) (t : IngressText)
    (q : ParsedIngress V2) : Policy (HC Dim (ISet ⊕ V2)) (ConnPeers W2 B) where
  name := t.ns.name ++ "/Allow policy for Ingress resource " ++ name
  kind := .ingress
  order := none
  action := .allow
  selected := K8sParser.peersVal A2 W2 B rg q.selected
  affectsIngress := false
  affectsEgress := true
  ingressRules := []
  egressRules := q.rules.map (fun h => ⟨.allow, HC.reduce (connA A2 B) allDims h⟩)

/-- The policy of a document; `none` if it is rejected. -/
noncomputable def cfgPolicy (K : CharCls) (A2 : VAlg Dim V2 X2) (W2 : Dim → V2 → Prop) (dfa : List Char → V2) (V : Env) (B : PeerDom) (ord : SetOrder)
    (rg : PodReg) (c : Container) (svcs : List (String × Svc)) (dflt : Ns) : CfgDoc → Option (Policy (HC Dim (ISet ⊕ V2)) (ConnPeers W2 B))
  | .policy d => anyPolicy K A2 W2 dfa V B ord rg c dflt d
  | .ingress name t => (parseIngress A2 dfa PeerDom.default ord rg V.word svcs t).map (ingressPolicy A2 W2 B rg name t)

/-- The policies of the parse queue, in order (`parse_policies_in_parse_queue`, PoliciesFinder.py 68-139). -/
noncomputable def cfgPolicies (K : CharCls) (A2 : VAlg Dim V2 X2) (W2 : Dim → V2 → Prop) (dfa : List Char → V2) (V : Env) (B : PeerDom) (ord : SetOrder)
    (rg : PodReg) (c : Container) (svcs : List (String × Svc)) (dflt : Ns) (ds : List CfgDoc) :
    Option (List (Policy (HC Dim (ISet ⊕ V2)) (ConnPeers W2 B))) :=
  ds.mapM (cfgPolicy K A2 W2 dfa V B ord rg c svcs dflt)

/-! ### Specification -/

/-- The pods of the Ingress controller send only what some Ingress resource tells them to forward. -/
def GatewaySays (rg : PodReg) (c : Container) (l : List SvcText) (ts : List IngressText) (src dst : Place) (q : Request) : Prop :=
  Controller c l src → q.proto = 6 ∧ ∃ t ∈ ts, Routes rg c l t q.host q.path dst q.port

/-! ### Proofs -/

/-- Removing the policies of a layer from a configuration. -/
theorem split_layer {C P E S : Type} {N : Net C P E S} {Ok Strong : C → Prop} (L : N.Lawful Ok Strong) {m : LayerName} (hm : m ≠ .k8sCalico)
    {pols : List (Policy C S)} (hl : LegalPolicies N Ok Strong pols)
    {st st1 : PolicyStore C S} (hb : PolicyStore.build pols = some st)
    (hb1 : PolicyStore.build (pols.filter fun q => decide (layerOf q.kind ≠ m)) = some st1) (t : Peers S) (f : ConnFilter) (hf : f.calcAllAllowed = true)
    (htame : f.calcAllowed = false ∨ ∀ e, N.Q.mem e t.heps = false) (p : P)
    (hdns : ∀ n, (∃ pol ∈ pols.filter fun q => decide (layerOf q.kind ≠ m), layerOf pol.kind = n) → DnsOk N n (layerList st1.layers n) t p)
    (hdm : DnsOk N m (layerList st.layers m) t p)
    (hnil : (pols.filter fun q => decide (layerOf q.kind ≠ m)) = [] → N.K.mem p (configConns N t st1.layers f).allAllowed = true) :
    N.K.mem p (configConns N t st.layers f).allAllowed = true ↔
      N.K.mem p (configConns N t st1.layers f).allAllowed = true ∧
      ((∃ pol ∈ pols, layerOf pol.kind = m) → layerAllows N m (layerList st.layers m) t p) := by
  have hB := build_built _ hb
  have hB1 := build_built _ hb1
  have same : ∀ n, n ≠ m → layerList st1.layers n = layerList st.layers n := by
    intro n hn
    rw [hB.lists, hB1.lists, List.filter_filter]
    congr 1
    refine List.filter_congr fun pol _ => ?_
    by_cases h : layerOf pol.kind = n
    · simp [h, hn]
    · simp [h]
  have sub : ∀ n, n ≠ m → ((∃ pol ∈ pols.filter (fun q => decide (layerOf q.kind ≠ m)), layerOf pol.kind = n) ↔ ∃ pol ∈ pols, layerOf pol.kind = n) := by
    intro n hn
    constructor
    · rintro ⟨pol, h1, h2⟩; exact ⟨pol, (List.mem_filter.1 h1).1, h2⟩
    · rintro ⟨pol, h1, h2⟩; exact ⟨pol, List.mem_filter.2 ⟨h1, by rw [h2]; simpa using hn⟩, h2⟩
  have not : ∀ pol ∈ pols.filter (fun q => decide (layerOf q.kind ≠ m)), layerOf pol.kind ≠ m := fun pol h => by simpa using (List.mem_filter.1 h).2
  have hl1 : LegalPolicies N Ok Strong (pols.filter fun q => decide (layerOf q.kind ≠ m)) :=
    ⟨fun pol h => hl.legal pol (List.mem_filter.1 h).1, hl.exact.mono fun pol h => (List.mem_filter.1 h).1⟩
  have r := C29_config_allows_partial L pols hl hb t f hf htame p fun n h => by
    by_cases e : n = m
    · rw [e]; exact hdm
    · rw [← same n e]
      exact hdns n ((sub n e).2 h)
  have r1 := C29_config_allows_partial L _ hl1 hb1 t f hf htame p hdns
  rw [r]
  constructor
  · rintro ⟨k1, k2, h⟩
    refine ⟨?_, fun hm => h m (Or.inl hm)⟩
    by_cases he : (pols.filter fun q => decide (layerOf q.kind ≠ m)) = []
    · exact hnil he
    · refine r1.2 ⟨k1, k2, fun n hn => ?_⟩
      rcases hn with ⟨pol, h1, h2⟩ | ⟨rfl, hn | hn⟩
      · have hn : n ≠ m := h2 ▸ not pol h1
        rw [same n hn]
        exact h n (Or.inl ⟨pol, (List.mem_filter.1 h1).1, h2⟩)
      · exact absurd hn he
      · rw [same _ hm.symm]
        exact h _ (Or.inr ⟨rfl, Or.inr hn⟩)
  · rintro ⟨h1, h2⟩
    obtain ⟨k1, k2, h⟩ := r1.1 h1
    refine ⟨k1, k2, fun n hn => ?_⟩
    by_cases e : n = m
    · subst e
      rcases hn with hn | ⟨hn, _⟩
      · exact h2 hn
      · exact absurd hn hm
    · rw [← same n e]
      refine h n ?_
      rcases hn with hn | ⟨rfl, hn | hn⟩
      · exact Or.inl ((sub n e).2 hn)
      · exact Or.inr ⟨rfl, Or.inl (by rw [hn]; rfl)⟩
      · exact Or.inr ⟨rfl, Or.inr hn⟩

variable (L2 : A2.Lawful W2)

/-- The policy object has the meaning of the Ingress resource. -/
structure IngressFits (B : PeerDom) (rg : PodReg) (c : Container) (word : X2 → List Char) (l : List SvcText) (t : IngressText)
    (pol : Policy (HC Dim (ISet ⊕ V2)) (ConnPeers W2 B)) : Prop where
  kind : pol.kind = .ingress
  legal : pol.Legal (connNet L2 B).toNet (HcStrongT (connA A2 B) (connWf W2 B) allDims)
  action : pol.action = .allow
  affectsIngress : pol.affectsIngress = false
  affectsEgress : pol.affectsEgress = true
  applies : ∀ (e : Int ⊕ X2) E, E.At rg c e → ((connNet L2 B).Q.mem e pol.selected = true ↔ Controller c l E)
  mem : ∀ (p : Point (connA A2 B)) src dst q, IsRequest word rg c p src dst q → HostTame t q.host →
    ((∃ r ∈ pol.egressRules, (connNet L2 B).K.mem p r.props = true) ↔ Controller c l src ∧ q.proto = 6 ∧ Routes rg c l t q.host q.path dst q.port)

theorem ingress_fits (hC : CalCluster rg c) (hI : IstioCluster V rg c) (hD : IngressLib A2 W2 dfa word D) (hB : Covers rg c B) {l : List SvcText}
    (hl : SvcsTame rg c l) {svcs : List (String × Svc)} (hs : services rg c l = some svcs) {name : String} {t : IngressText} (ht : t.Tame c l)
    {P : ParsedIngress V2} (h : parseIngress A2 dfa PeerDom.default ord rg V.word svcs t = some P) :
    IngressFits L2 B rg c word l t (ingressPolicy A2 W2 B rg name t P) := by
  obtain ⟨svcs', P', e1, e2, s1, s2, s3, r1, r2⟩ := C53_ingress_partial L2 (ord := ord) hI.cluster hD hI.word hl ht
  rw [hs] at e1; cases e1
  rw [h] at e2; cases e2
  have sel : ∀ e : Int ⊕ X2, (connNet L2 B).Q.mem e (K8sParser.peersVal A2 W2 B rg P.selected) = true ↔ P.selected.At rg.keys e :=
    fun e => CalicoParser.peersVal_mem L2 hC hB ⟨s1, s2⟩ e
  have red : ∀ h ∈ P.rules, HcStrongT (connA A2 B) (connWf W2 B) allDims (HC.reduce (connA A2 B) allDims h) ∧
      ∀ p : Point (connA A2 B), (connNet L2 B).K.mem p (HC.reduce (connA A2 B) allDims h) = true ↔
        (connNet L2 PeerDom.default).K.mem p.toDefault h = true := fun h hh => by
    have r := r1 h hh
    refine query_reduce L2 r.strong (fun _ => r.plain) fun p hp z hz => ?_
    rcases hz with e | e
    · have := r.src p hp
      rw [e] at this; exact hB.at s2 this
    · obtain ⟨S, hS, this⟩ := r.dst p hp
      rw [e] at this; exact hB.at hS this
  refine ⟨rfl, ⟨fun d r hr => ?_, fun d r hr p hp => ?_⟩, rfl, rfl, rfl, fun e E hE => ?_, fun p src dst q hp hT => ?_⟩
  · cases d
    · obtain ⟨h, hh, rfl⟩ := List.mem_map.1 hr
      exact (red h hh).1
    · cases hr
  · cases d
    · obtain ⟨h, hh, rfl⟩ := List.mem_map.1 hr
      exact (sel _).2 ((r1 h hh).src _ (((red h hh).2 p).1 hp))
    · cases hr
  · rw [← s3 E]
    exact CalicoParser.peersVal_place L2 hC hB ⟨s1, s2⟩ hE
  · have hq : IsRequest word rg c p.toDefault src dst q := ⟨hp.src, hp.dst, hp.proto, hp.port, hp.method, hp.host, hp.path⟩
    rw [← r2 p.toDefault src dst q hq hT]
    constructor
    · rintro ⟨r, hr, hm⟩
      obtain ⟨h, hh, rfl⟩ := List.mem_map.1 hr
      exact ⟨h, hh, ((red h hh).2 p).1 hm⟩
    · rintro ⟨h, hh, hm⟩
      exact ⟨_, List.mem_map.2 ⟨h, hh, rfl⟩, ((red h hh).2 p).2 hm⟩

/-- The layer of the Ingress resources. -/
theorem gateway_layer (hC : CalCluster rg c) (hI : IstioCluster V rg c) (hB : Covers rg c B) {l : List SvcText} {ts : List IngressText} (hts : ts ≠ [])
    {pols : List (Policy (HC Dim (ISet ⊕ V2)) (ConnPeers W2 B))}
    (F : List.Forall₂ (IngressFits L2 B rg c word l) ts pols)
    (p : Point (connA A2 B)) (src dst : Place) (q : Request) (hq : IsRequest word rg c p src dst q) (hh : ∀ t ∈ ts, HostTame t q.host)
    (hw : IsKind c src [.pod] ∨ IsKind c dst [.pod]) {list : List (Policy (HC Dim (ISet ⊕ V2)) (ConnPeers W2 B))} (hlist : ∀ pol, pol ∈ list ↔ pol ∈ pols) :
    layerAllows (connNet L2 B).toNet .k8sGateway list (calicoPeers A2 W2 B rg c) p ↔ GatewaySays rg c l ts src dst q := by
  have F' := forall₂_left (forall₂_swap F)
  have work : ∀ {E : Place} {e : Int ⊕ X2}, E.At rg c e → IsKind c E [.pod] → (connNet L2 B).Q.mem e (calicoPeers A2 W2 B rg c).pods = true := by
    intro E e hE ⟨a, h1, h2, h3⟩
    exact (calico_classes (A2 := A2) L2 hC hB hE).1.2 ⟨a, h1, h2, by simp at h3; simp [h3]⟩
  have ipDst : (∃ x, dst = .ip x) → IsKind c src [.pod] := fun ⟨x, e⟩ => hw.resolve_right fun h => by
    rcases place_cases hI hq.dst with ⟨_, g, _⟩ | ⟨g, _⟩ | ⟨_, g, _⟩
    · exact g h
    · exact g ⟨x, e⟩
    · exact g h
  have ipSrc : (∃ x, src = .ip x) → IsKind c dst [.pod] := fun ⟨x, e⟩ => hw.resolve_left fun h => by
    rcases place_cases hI hq.src with ⟨_, g, _⟩ | ⟨g, _⟩ | ⟨_, g, _⟩
    · exact g h
    · exact g ⟨x, e⟩
    · exact g h
  -- the end has a default, or is an address
  have dflt : ∀ {E : Place} {e : Int ⊕ X2}, E.At rg c e → (calicoPeers A2 W2 B rg c).hasDefault (connNet L2 B).toNet e ∨ ∃ x, E = .ip x := by
    intro E e hE
    obtain ⟨s1, _, s3, _⟩ := calico_classes (A2 := A2) L2 hC hB hE
    rcases place_cases hI hE with ⟨h, _⟩ | ⟨_, h, _⟩ | ⟨_, _, h⟩
    · exact Or.inr h
    · exact Or.inl (Or.inl (work hE h))
    · exact Or.inl (Or.inr (s3.2 h))
  have kn : ∀ {E : Place} {e : Int ⊕ X2}, E.At rg c e → (calicoPeers A2 W2 B rg c).known (connNet L2 B).toNet e := fun hE => calico_known L2 hC hB hE
  have ips : ∀ {E : Place} {e : Int ⊕ X2}, E.At rg c e → ((connNet L2 B).Q.mem e (calicoPeers A2 W2 B rg c).ips = true ↔ ∃ x, E = .ip x) :=
    fun hE => (calico_classes (A2 := A2) L2 hC hB hE).2.2.2
  have noip : ∀ x, ¬ Controller c l (.ip x) := by
    rintro x ⟨s, _, _, _, a, ha, ⟨b, hb, _⟩, _⟩
    obtain ⟨k, hk, _⟩ := hI.cluster.elem a ha
    rw [hb] at hk; cases hk
  have hin : layerDirAllows (connNet L2 B).toNet .k8sGateway list (calicoPeers A2 W2 B rg c) true p ∨
      ((calicoPeers A2 W2 B rg c).workload (connNet L2 B).toNet ((connNet L2 B).toNet.src p) ∧
        (connNet L2 B).toNet.Q.mem ((connNet L2 B).toNet.dst p) (calicoPeers A2 W2 B rg c).ips = true) := by
    rcases dflt hq.dst with h | h
    · refine Or.inl (Or.inr ⟨Or.inr fun pol hpol => ?_, h, kn hq.src⟩)
      obtain ⟨t, _, f⟩ := F' pol ((hlist pol).1 hpol)
      simp [Policy.captures, Policy.governs, f.kind, f.affectsIngress]
    · exact Or.inr ⟨Or.inl (work hq.src (ipDst h)), (ips hq.dst).2 h⟩
  have cap : ∀ pol ∈ list, pol.captures (connNet L2 B).toNet false (endpoint (connNet L2 B).toNet false p) = true ↔ Controller c l src := by
    intro pol hpol
    obtain ⟨t, _, f⟩ := F' pol ((hlist pol).1 hpol)
    unfold Policy.captures
    rw [show pol.governs false = true by simp [Policy.governs, f.kind, f.affectsEgress], Bool.true_and]
    exact f.applies _ src hq.src
  have one : ∀ pol ∈ list, pol.ruleVerdict (connNet L2 B).toNet false p =
      if anyMatch (connNet L2 B).toNet p pol.egressRules = true then some .allow else none := by
    intro pol hpol
    obtain ⟨t, _, f⟩ := F' pol ((hlist pol).1 hpol)
    unfold Policy.ruleVerdict
    rw [f.kind, f.action]
    rfl
  have verd : ∀ pol ∈ list, (if pol.captures (connNet L2 B).toNet false (endpoint (connNet L2 B).toNet false p) = true then
      pol.ruleVerdict (connNet L2 B).toNet false p else none) = none ∨
      (if pol.captures (connNet L2 B).toNet false (endpoint (connNet L2 B).toNet false p) = true then
        pol.ruleVerdict (connNet L2 B).toNet false p else none) = some RuleAction.allow := by
    intro pol hpol
    rw [one pol hpol]
    split
    · split
      · exact Or.inr rfl
      · exact Or.inl rfl
    · exact Or.inl rfl
  have vAllow : layerVerdict (connNet L2 B).toNet list false p = some .allow ↔ Controller c l src ∧ q.proto = 6 ∧ ∃ t ∈ ts, Routes rg c l t q.host q.path dst q.port := by
    unfold layerVerdict
    rw [findSome_iff verd]
    constructor
    · rintro ⟨pol, hpol, h⟩
      obtain ⟨t, ht, f⟩ := F' pol ((hlist pol).1 hpol)
      rw [one pol hpol] at h
      split at h
      · split at h
        · rename_i h2
          obtain ⟨r, hr, hm⟩ := List.any_eq_true.1 h2
          obtain ⟨h3, h4, h5⟩ := (f.mem p src dst q hq (hh t ht)).1 ⟨r, hr, hm⟩
          exact ⟨h3, h4, t, ht, h5⟩
        · cases h
      · cases h
    · rintro ⟨h1, h2, t, ht, h3⟩
      obtain ⟨pol, hpol, f⟩ := forall₂_left F t ht
      have hpol' := (hlist pol).2 hpol
      obtain ⟨r, hr, hm⟩ := (f.mem p src dst q hq (hh t ht)).2 ⟨h1, h2, h3⟩
      refine ⟨pol, hpol', ?_⟩
      have : anyMatch (connNet L2 B).toNet p pol.egressRules = true := List.any_eq_true.2 ⟨r, hr, hm⟩
      rw [if_pos ((cap pol hpol').2 h1), one pol hpol', if_pos this]
  have vPass : layerVerdict (connNet L2 B).toNet list false p ≠ some .pass := by
    intro h
    obtain ⟨pol, hpol, h⟩ := List.exists_of_findSome?_eq_some h
    rcases verd pol hpol with e | e <;> (rw [e] at h; cases h)
  have vCap : (∀ pol ∈ list, pol.captures (connNet L2 B).toNet false (endpoint (connNet L2 B).toNet false p) = false) ↔ ¬ Controller c l src := by
    constructor
    · intro h hc
      obtain ⟨t, ht⟩ := List.exists_mem_of_ne_nil _ hts
      obtain ⟨pol, hpol, _⟩ := forall₂_left F t ht
      have hpol' := (hlist pol).2 hpol
      have := (cap pol hpol').2 hc
      rw [h pol hpol'] at this; cases this
    · intro h pol hpol
      rw [← Bool.not_eq_true, cap pol hpol]; exact h
  unfold layerAllows
  rw [and_iff_right hin]
  change calicoAllows _ _ _ false p ∨ _ ↔ _
  unfold calicoAllows GatewaySays
  rw [vAllow, vCap]
  constructor
  · rintro ((h | ⟨h | h, _⟩) | ⟨h, _⟩) hcon
    · exact h.2
    · exact absurd h vPass
    · exact absurd hcon h
    · obtain ⟨x, rfl⟩ := (ips hq.src).1 h
      exact absurd hcon (noip x)
  · intro h
    by_cases hcon : Controller c l src
    · exact Or.inl (Or.inl ⟨hcon, h hcon⟩)
    · rcases dflt hq.src with h1 | h1
      · exact Or.inl (Or.inr ⟨Or.inr hcon, h1, kn hq.dst⟩)
      · exact Or.inr ⟨(ips hq.src).2 h1, Or.inl (work hq.dst (ipSrc h1))⟩

omit L2 in
theorem any_key {dflt : Ns} {d : AnyDoc} {pol : Policy (HC Dim (ISet ⊕ V2)) (ConnPeers W2 B)}
    (h : anyPolicy K A2 W2 dfa V B ord rg c dflt d = some pol) : (pol.name, pol.kind) = d.key dflt := by
  have h2 : queuePolicies K A2 W2 dfa V B ord rg c dflt [d] = some [pol] := by
    unfold queuePolicies
    rw [List.mapM_cons, h]; rfl
  have := queue_keys h2
  simpa only [List.map_cons, List.map_nil, List.cons.injEq, and_true] using this

omit L2 in
theorem any_kind {dflt : Ns} {d : AnyDoc} {pol : Policy (HC Dim (ISet ⊕ V2)) (ConnPeers W2 B)}
    (h : anyPolicy K A2 W2 dfa V B ord rg c dflt d = some pol) :
    layerOf pol.kind ≠ .k8sGateway ∧ pol.kind ≠ .gateway ∧ pol.kind ≠ .istioSidecar ∧ pol.kind ≠ .calicoProfile := by
  have hk : pol.kind = (d.key dflt).2 := by rw [← any_key h]
  rw [hk]
  cases d with
  | istio name t => simp [AnyDoc.key, layerOf]
  | net d =>
    cases d with
    | k8s t => simp [AnyDoc.key, Doc.key, layerOf]
    | calico name t => unfold AnyDoc.key Doc.key; dsimp only; cases t.isGlobal <;> simp [layerOf]

omit L2 in
theorem cfg_order {svcs : List (String × Svc)} {dflt : Ns} {ds : List CfgDoc} {pols : List (Policy (HC Dim (ISet ⊕ V2)) (ConnPeers W2 B))}
    (hp : cfgPolicies K A2 W2 dfa V B ord rg c svcs dflt ds = some pols) : loadOrder pols = pols := by
  have hk : ∀ pol ∈ pols, pol.kind ≠ .gateway ∧ pol.kind ≠ .istioSidecar ∧ pol.kind ≠ .calicoProfile := by
    intro pol hpol
    obtain ⟨d, _, hd⟩ := forall₂_left (forall₂_swap (mapM_pairs hp)) pol hpol
    cases d with
    | policy d => exact (any_kind hd).2
    | ingress name t =>
      obtain ⟨P, _, rfl⟩ := Option.map_eq_some_iff.1 hd
      simp [ingressPolicy]
  unfold loadOrder
  rw [List.filter_eq_self.2 fun pol hpol => decide_eq_true (hk pol hpol), List.filter_eq_nil_iff.2 fun pol hpol => by simpa using (hk pol hpol).1,
    List.filter_eq_nil_iff.2 fun pol hpol => by simpa using (hk pol hpol).2.1, List.append_nil, List.append_nil]

/-- The policies of a queue with Ingress resources. -/
theorem cfg_fits (hC : CalCluster rg c) (hI : IstioCluster V rg c) (hD : IngressLib A2 W2 dfa word D) (hB : Covers rg c B) {l : List SvcText}
    (hl : SvcsTame rg c l) {svcs : List (String × Svc)} (hs : services rg c l = some svcs) {dflt : Ns} {ds : List CfgDoc}
    (ht : ∀ t ∈ ds.filterMap CfgDoc.ingress?, t.Tame c l) {pols : List (Policy (HC Dim (ISet ⊕ V2)) (ConnPeers W2 B))}
    (hp : cfgPolicies K A2 W2 dfa V B ord rg c svcs dflt ds = some pols) :
    queuePolicies K A2 W2 dfa V B ord rg c dflt (ds.filterMap CfgDoc.policy?) = some (pols.filter fun q => decide (layerOf q.kind ≠ .k8sGateway)) ∧
    List.Forall₂ (IngressFits L2 B rg c word l) (ds.filterMap CfgDoc.ingress?) (pols.filter fun q => decide (layerOf q.kind = .k8sGateway)) ∧
    loadOrder pols = pols := by
  refine and_assoc.1 ⟨?_, cfg_order hp⟩
  · replace hp := mapM_pairs hp
    induction hp with
    | nil => exact ⟨rfl, .nil⟩
    | @cons d pol ds pols h1 _ ih =>
      cases d with
      | policy d =>
        obtain ⟨i1, i2⟩ := ih ht
        have hk := (any_kind h1).1
        rw [List.filterMap_cons_some (show CfgDoc.policy? (.policy d) = some d from rfl), List.filter_cons_of_pos (by simpa using hk),
          List.filterMap_cons_none (show CfgDoc.ingress? (.policy d) = none from rfl), List.filter_cons_of_neg (by simpa using hk)]
        refine ⟨?_, i2⟩
        have h1 : anyPolicy K A2 W2 dfa V B ord rg c dflt d = some pol := h1
        unfold queuePolicies at i1 ⊢
        rw [List.mapM_cons, h1, Option.bind_eq_bind, Option.bind_some, i1]
        rfl
      | ingress name t =>
        rw [List.filterMap_cons_some (show CfgDoc.ingress? (.ingress name t) = some t from rfl)] at ht ⊢
        obtain ⟨i1, i2⟩ := ih fun t h => ht t (List.mem_cons_of_mem _ h)
        obtain ⟨P, hP, rfl⟩ := Option.map_eq_some_iff.1 h1
        rw [List.filterMap_cons_none (show CfgDoc.policy? (.ingress name t) = none from rfl), List.filter_cons_of_neg (by simp [ingressPolicy, layerOf]),
          List.filter_cons_of_pos (by simp [ingressPolicy, layerOf])]
        exact ⟨i1, .cons (ingress_fits L2 hC hI hD hB hl hs (ht t List.mem_cons_self) hP) i2⟩

/-- The connections of a configuration of policies, Ingress resources and sidecars. -/
theorem cfg_core (hK : K.Ok) (hC : CalCluster rg c) (hI : IstioCluster V rg c) (hD : IngressLib A2 W2 dfa word D) (hB : Covers rg c B)
    {l : List SvcText} (hl : SvcsTame rg c l) {svcs : List (String × Svc)} (hs : services rg c l = some svcs)
    {dflt : Ns} {ds : List CfgDoc} {is : List Item}
    (hm : List.Forall₂ (Doc.Means K dflt) ((ds.filterMap CfgDoc.policy?).filterMap AnyDoc.net?) is) (hi : ∀ i ∈ is, i.Tame c)
    {src dst : Place} (ht : ∀ t ∈ (ds.filterMap CfgDoc.policy?).filterMap AnyDoc.istio?, t.Tame src)
    (hg : ∀ t ∈ ds.filterMap CfgDoc.ingress?, t.Tame c l)
    {pols : List (Policy (HC Dim (ISet ⊕ V2)) (ConnPeers W2 B))} (hp : cfgPolicies K A2 W2 dfa V B ord rg c svcs dflt ds = some pols)
    {sc : List (Policy (HC Dim (ISet ⊕ V2)) (ConnPeers W2 B))} (hsc : ∀ pol ∈ sc, SidecarOk L2 rg c pol)
    {st : PolicyStore (HC Dim (ISet ⊕ V2)) (ConnPeers W2 B)} (hb : PolicyStore.build (pols ++ sc) = some st)
    (f : ConnFilter) (hf : f.calcAllAllowed = true) (p : Point (connA A2 B)) (q : Conn) (hq : IsConn rg c p src dst q)
    (r : Request) (hr : IsRequest word rg c p src dst r) (hh : ∀ t ∈ ds.filterMap CfgDoc.ingress?, HostTame t r.host)
    (hw : IsKind c src [.pod] ∨ IsKind c dst [.pod])
    (hdns : IsKind c dst [.dns] → ∃ E, IsKind c E [.pod] ∧ ∀ t ∈ (ds.filterMap CfgDoc.policy?).filterMap AnyDoc.istio?, ¬ t.Denies → ¬ t.Applies c E) :
    (connNet L2 B).K.mem p (configConns (connNet L2 B).toNet (calicoPeers A2 W2 B rg c) st.layers f).allAllowed = true ↔
      (CalicoSays rg c is src dst q ∧
        ((ds.filterMap CfgDoc.policy?).filterMap AnyDoc.istio? ≠ [] ∨ sc ≠ [] → Sender c src ∧ (IsKind c dst [.dns] → r.proto = 6) ∧
          (r.proto = 6 → IstioSays V.sa c ((ds.filterMap CfgDoc.policy?).filterMap AnyDoc.istio?) src dst r ∧ (SidecarRuled L2 sc p ∨ SidecarFree L2 sc p)))) ∧
      (ds.filterMap CfgDoc.ingress? ≠ [] → GatewaySays rg c l (ds.filterMap CfgDoc.ingress?) src dst r) := by
  obtain ⟨hp1, FG, _⟩ := cfg_fits L2 hC hI hD hB hl hs hg hp
  have FG' := forall₂_left (forall₂_swap FG)
  have layS : ∀ pol ∈ sc, layerOf pol.kind = .istio := fun pol hpol => by rw [(hsc pol hpol).kind]; rfl
  have eS : sc.filter (fun q => decide (layerOf q.kind ≠ .k8sGateway)) = sc := List.filter_eq_self.2 fun pol hpol => by simp [layS pol hpol]
  have eS' : sc.filter (fun q => decide (layerOf q.kind = .k8sGateway)) = [] := List.filter_eq_nil_iff.2 fun pol hpol => by simp [layS pol hpol]
  obtain ⟨st1, hb0⟩ := (build_some_iff _).2 (((build_some_iff (pols ++ sc)).1 ⟨st, hb⟩).filter (fun q => decide (layerOf q.kind ≠ .k8sGateway)))
  have hb1 := hb0
  rw [List.filter_append, eS] at hb1
  obtain ⟨hlegal, hpass, noh, hdk⟩ := config_ready L2 hK hC hI hD.toDfaLib hB hm hi ht hp1 hsc hb1 p r hr hdns
  have c51 := config_core L2 hK hC hI hD.toDfaLib hB hm hi ht hp1 hsc hb1 f hf p q hq r hr hw hdns
  have hl' : LegalPolicies (connNet L2 B).toNet (HcOkT (connA A2 B) (connWf W2 B) allDims) (HcStrongT (connA A2 B) (connWf W2 B) allDims) (pols ++ sc) := by
    refine ⟨fun pol hpol => ?_, Or.inr fun pol hpol hcal => ?_⟩
    · by_cases h : layerOf pol.kind = .k8sGateway
      · obtain ⟨t, _, g⟩ := FG' pol (List.mem_filter.2 ⟨(List.mem_append.1 hpol).resolve_right (fun h' => by rw [layS pol h'] at h; cases h), by simpa using h⟩)
        exact g.legal
      · refine (hlegal (HcOkT (connA A2 B) (connWf W2 B) allDims)).legal pol ?_
        rw [← eS, ← List.filter_append]
        exact List.mem_filter.2 ⟨hpol, by simpa using h⟩
    · refine hpass pol ?_ hcal
      rw [← eS, ← List.filter_append]
      refine List.mem_filter.2 ⟨hpol, ?_⟩
      unfold Policy.isCalico at hcal
      cases e : pol.kind <;> simp [e] at hcal <;> simp [layerOf]
  have sp := split_layer (m := .k8sGateway) (connNet_lawful L2 B).1.net (by decide) hl' hb hb0 (calicoPeers A2 W2 B rg c) f hf (Or.inr noh) p
    (fun n hn => hdk n (by rw [List.filter_append, eS] at hn; exact hn)) trivial fun hnil => by
    rw [List.filter_append, eS, List.append_eq_nil_iff] at hnil
    obtain ⟨hnil, rfl⟩ := hnil
    rw [hnil] at hp1
    have hd : ds.filterMap CfgDoc.policy? = [] := by
      have := queue_keys hp1
      simpa using this
    rw [hd] at c51 hm
    cases hm
    exact c51.2 ⟨calico_empty hI hr.src hr.dst q, fun h => by rcases h with h | h <;> exact absurd rfl h⟩
  rw [sp, c51]
  refine and_congr_right fun _ => ?_
  have hex : (∃ pol ∈ pols ++ sc, layerOf pol.kind = .k8sGateway) ↔ ds.filterMap CfgDoc.ingress? ≠ [] := by
    constructor
    · rintro ⟨pol, h1, h2⟩
      obtain ⟨t, h3, _⟩ := FG' pol (List.mem_filter.2 ⟨(List.mem_append.1 h1).resolve_right (fun h' => by rw [layS pol h'] at h2; cases h2), by simpa using h2⟩)
      exact List.ne_nil_of_mem h3
    · intro h
      obtain ⟨t, ht⟩ := List.exists_mem_of_ne_nil _ h
      obtain ⟨pol, h1, _⟩ := forall₂_left FG t ht
      rw [List.mem_filter, decide_eq_true_eq] at h1
      exact ⟨pol, List.mem_append_left _ h1.1, h1.2⟩
  rw [hex]
  refine forall_congr' fun hne => ?_
  refine gateway_layer L2 hC hI hB hne FG p src dst r hr hh hw fun pol => ?_
  rw [(build_built _ hb).mem_list, List.mem_filter, decide_eq_true_eq, List.mem_append]
  exact ⟨fun h => ⟨h.1.resolve_right (fun h' => by rw [layS pol h'] at h; cases h.2), h.2⟩, fun h => ⟨Or.inl h.1, h.2⟩⟩

/-- C54: in a configuration with Ingress resources, a connection with a pod at one of its ends is allowed exactly if the
policies allow it (as without the Ingress resources, `C51_config_partial`) and, if there are Ingress resources, it does not
come from a pod of the Ingress controller or some Ingress resource routes it: it is TCP, and its host and path are routed to
the pod and the port it goes to.
PARTIAL: without the known defects of single texts and, for Ingress resources, `IngressText.Tame` and `HostTame`; as C51
otherwise. -/
theorem C54_config_partial (hK : K.Ok) (hC : CalCluster rg c) (hI : IstioCluster V rg c) (hD : IngressLib A2 W2 dfa word D) (hB : Covers rg c B)
    {l : List SvcText} (hl : SvcsTame rg c l) {svcs : List (String × Svc)} (hs : services rg c l = some svcs)
    {dflt : Ns} {ds : List CfgDoc} {is : List Item}
    (hm : List.Forall₂ (Doc.Means K dflt) ((ds.filterMap CfgDoc.policy?).filterMap AnyDoc.net?) is) (hi : ∀ i ∈ is, i.Tame c)
    {src dst : Place} (ht : ∀ t ∈ (ds.filterMap CfgDoc.policy?).filterMap AnyDoc.istio?, t.Tame src)
    (hg : ∀ t ∈ ds.filterMap CfgDoc.ingress?, t.Tame c l)
    {pols : List (Policy (HC Dim (ISet ⊕ V2)) (ConnPeers W2 B))} (hp : cfgPolicies K A2 W2 dfa V B ord rg c svcs dflt ds = some pols)
    {st : PolicyStore (HC Dim (ISet ⊕ V2)) (ConnPeers W2 B)} (hb : PolicyStore.build (loadOrder pols) = some st)
    (f : ConnFilter) (hf : f.calcAllAllowed = true) (p : Point (connA A2 B)) (q : Conn) (hq : IsConn rg c p src dst q)
    (r : Request) (hr : IsRequest word rg c p src dst r) (hh : ∀ t ∈ ds.filterMap CfgDoc.ingress?, HostTame t r.host)
    (hw : IsKind c src [.pod] ∨ IsKind c dst [.pod])
    (hdns : IsKind c dst [.dns] → ∃ E, IsKind c E [.pod] ∧ ∀ t ∈ (ds.filterMap CfgDoc.policy?).filterMap AnyDoc.istio?, ¬ t.Denies → ¬ t.Applies c E) :
    (connNet L2 B).K.mem p (configConns (connNet L2 B).toNet (calicoPeers A2 W2 B rg c) st.layers f).allAllowed = true ↔
      (CalicoSays rg c is src dst q ∧
        ((ds.filterMap CfgDoc.policy?).filterMap AnyDoc.istio? ≠ [] → Sender c src ∧ (IsKind c dst [.dns] → r.proto = 6) ∧
          (r.proto = 6 → IstioSays V.sa c ((ds.filterMap CfgDoc.policy?).filterMap AnyDoc.istio?) src dst r))) ∧
      (ds.filterMap CfgDoc.ingress? ≠ [] → GatewaySays rg c l (ds.filterMap CfgDoc.ingress?) src dst r) := by
  rw [cfg_order hp, ← List.append_nil pols] at hb
  rw [cfg_core L2 hK hC hI hD hB hl hs hm hi ht hg hp (sc := []) (fun _ h => by cases h) hb f hf p q hq r hr hh hw hdns]
  have free : SidecarFree L2 ([] : List (Policy (HC Dim (ISet ⊕ V2)) (ConnPeers W2 B))) p := fun _ h => by cases h
  simp only [ne_eq, not_true_eq_false, or_false, free, or_true, and_true]

/-! ### Accepted configurations -/

/-- The name a document is known by, with its kind. -/
def CfgDoc.key (dflt : Ns) : CfgDoc → String × PolicyKind
  | .policy d => d.key dflt
  | .ingress name t => (t.ns.name ++ "/Allow policy for Ingress resource " ++ name, .ingress)

omit L2 in
theorem cfg_keys {svcs : List (String × Svc)} {dflt : Ns} {ds : List CfgDoc} {pols : List (Policy (HC Dim (ISet ⊕ V2)) (ConnPeers W2 B))}
    (h : cfgPolicies K A2 W2 dfa V B ord rg c svcs dflt ds = some pols) : pols.map (fun pol => (pol.name, pol.kind)) = ds.map (CfgDoc.key dflt) := by
  replace h := mapM_pairs h
  induction h with
  | nil => rfl
  | @cons d pol ds pols h1 _ ih =>
    rw [List.map_cons, List.map_cons, ih]
    congr 1
    cases d with
    | policy d => exact any_key h1
    | ingress name t =>
      obtain ⟨P, _, rfl⟩ := Option.map_eq_some_iff.1 h1
      rfl

include L2 in
/-- C54: a configuration of meaningful documents without the known defects is accepted exactly if the Kubernetes documents
are legal and no two documents of a kind have the same name (and namespace). -/
theorem C54_accepted_partial (hK : K.Ok) (hC : CalCluster rg c) (hI : IstioCluster V rg c) (hD : IngressLib A2 W2 dfa word D)
    {l : List SvcText} (hl : SvcsTame rg c l) {dflt : Ns} {ds : List CfgDoc} {is : List Item}
    (hm : List.Forall₂ (Doc.Means K dflt) ((ds.filterMap CfgDoc.policy?).filterMap AnyDoc.net?) is) (hi : ∀ i ∈ is, i.Tame c)
    (ht : ∀ t ∈ (ds.filterMap CfgDoc.policy?).filterMap AnyDoc.istio?, ∃ E, t.Tame E)
    (hg : ∀ t ∈ ds.filterMap CfgDoc.ingress?, t.Tame c l) :
    (∃ svcs pols st, services rg c l = some svcs ∧ cfgPolicies K A2 W2 dfa V B ord rg c svcs dflt ds = some pols ∧
        PolicyStore.build (loadOrder pols) = some st) ↔
      (∀ t, CfgDoc.policy (.net (.k8s t)) ∈ ds → ∀ s, t.spec = some s → s.Legal) ∧ ds.Pairwise (fun a b => a.key dflt ≠ b.key dflt) := by
  have hsvc : ∃ svcs, services rg c l = some svcs := by
    obtain ⟨svcs, _, h, _⟩ := C53_ingress_partial (t := { ns := ⟨"", []⟩, rules := [], defaultBackend := none }) L2 (ord := ord) hI.cluster hD hI.word hl
      ⟨⟨by simp, fun _ h => (by cases h), fun _ h => (by cases h)⟩, fun _ h => (by cases h)⟩
    exact ⟨svcs, h⟩
  obtain ⟨svcs, hs⟩ := hsvc
  have hone : ∀ d ∈ ds, (∃ a, cfgPolicy K A2 W2 dfa V B ord rg c svcs dflt d = some a) ↔ ∀ t, d = .policy (.net (.k8s t)) → ∀ s, t.spec = some s → s.Legal := by
    intro d hd
    cases d with
    | ingress name t =>
      simp only [reduceCtorEq, false_implies, implies_true, iff_true]
      obtain ⟨svcs', P, e1, e2, _⟩ := C53_ingress_partial L2 (ord := ord) hI.cluster hD hI.word hl (hg t (List.mem_filterMap.2 ⟨_, hd, rfl⟩))
      rw [hs] at e1; cases e1
      exact ⟨_, by rw [cfgPolicy, e2]; rfl⟩
    | policy d =>
      have hd' : d ∈ ds.filterMap CfgDoc.policy? := List.mem_filterMap.2 ⟨_, hd, rfl⟩
      have one : (∃ a, anyPolicy K A2 W2 dfa V B ord rg c dflt d = some a) ↔
          ∃ pols st, queuePolicies K A2 W2 dfa V B ord rg c dflt [d] = some pols ∧ PolicyStore.build (loadOrder pols) = some st := by
        constructor
        · rintro ⟨a, ha⟩
          have h2 : queuePolicies K A2 W2 dfa V B ord rg c dflt [d] = some [a] := by
            unfold queuePolicies
            rw [List.mapM_cons, ha]; rfl
          obtain ⟨st, hst⟩ := (build_some_iff [a]).2 (by simp)
          exact ⟨[a], st, h2, by rw [loadOrder_id h2]; exact hst⟩
        · rintro ⟨pols, _, h1, _⟩
          obtain ⟨a, ha⟩ := (K8sParser.mapM_defined _ _).1 ⟨pols, h1⟩ d (by simp)
          exact ⟨a, ha⟩
      have hd1 : ∃ js, List.Forall₂ (Doc.Means K dflt) ([d].filterMap AnyDoc.net?) js ∧ ∀ i ∈ js, i.Tame c := by
        cases d with
        | istio name t => exact ⟨[], .nil, fun i h => by cases h⟩
        | net d =>
          obtain ⟨i, h1, h2⟩ := forall₂_left hm d (List.mem_filterMap.2 ⟨_, hd', rfl⟩)
          exact ⟨[i], .cons h2 .nil, fun j hj => by rw [List.mem_singleton.1 hj]; exact hi i h1⟩
      obtain ⟨js, hj1, hj2⟩ := hd1
      have h := C51_accepted_partial (B := B) L2 (ord := ord) hK hC hI hD.toDfaLib hj1 hj2 fun t h => by
        obtain ⟨d', h1, h2⟩ := List.mem_filterMap.1 h
        rw [List.mem_singleton.1 h1] at h2
        exact ht t (List.mem_filterMap.2 ⟨d, hd', h2⟩)
      change (∃ a, anyPolicy K A2 W2 dfa V B ord rg c dflt d = some a) ↔ _
      rw [one, h]
      simp [eq_comm]
  have hall : (∃ pols, cfgPolicies K A2 W2 dfa V B ord rg c svcs dflt ds = some pols) ↔
      ∀ t, CfgDoc.policy (.net (.k8s t)) ∈ ds → ∀ s, t.spec = some s → s.Legal := by
    unfold cfgPolicies
    rw [K8sParser.mapM_defined]
    constructor
    · intro h t htm; exact (hone _ htm).1 (h _ htm) t rfl
    · intro h d hd; exact (hone d hd).2 fun t e => h t (e ▸ hd)
  have hnames : ∀ pols : List (Policy (HC Dim (ISet ⊕ V2)) (ConnPeers W2 B)), cfgPolicies K A2 W2 dfa V B ord rg c svcs dflt ds = some pols →
      ((∃ st, PolicyStore.build (loadOrder pols) = some st) ↔ ds.Pairwise (fun a b => a.key dflt ≠ b.key dflt)) := by
    intro pols hp
    rw [cfg_order hp, build_some_iff]
    have e1 : pols.Pairwise (fun a b => ¬ (a.name = b.name ∧ a.kind = b.kind)) ↔
        (pols.map (fun pol => (pol.name, pol.kind))).Pairwise (fun a b => a ≠ b) := by
      rw [List.pairwise_map]
      simp only [ne_eq, Prod.mk.injEq]
    rw [e1, cfg_keys hp, List.pairwise_map]
  rw [← hall]
  constructor
  · rintro ⟨svcs', pols, st, h0, h1, h2⟩
    rw [hs] at h0; cases h0
    exact ⟨⟨pols, h1⟩, (hnames pols h1).1 ⟨st, h2⟩⟩
  · rintro ⟨⟨pols, h1⟩, h2⟩
    obtain ⟨st, h3⟩ := (hnames pols h1).2 h2
    exact ⟨svcs, pols, st, hs, h1, h3⟩

end
end IngressParser
end Verif
