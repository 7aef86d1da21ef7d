import Verif.PropsSidecar
import Verif.PropsIngressConfig
/-!
C58: the connections of a configuration with Sidecar resources, from the texts of the policies, services, Ingress resources
and Sidecars.

As `Verif.PropsIngressConfig`, with the parsed sidecars (`Verif.SidecarModel`).
-/
namespace Verif
open ISet PeerSet

namespace SidecarParser
open Container CalicoParser IstioParser IngressParser

section
variable {V2 X2 : Type} {A2 : VAlg Dim V2 X2} {W2 : Dim → V2 → Prop} {dfa : List Char → V2} {word : X2 → List Char} {D : V2 → Prop}
  {V : Env} {rg : PodReg} {c : Container} {ord : SetOrder} {B : PeerDom} {K : CharCls} {l : List SvcText} {ts : List SidecarText}

/-! ### Model -/

/-- The policy object: `IstioSidecar` with the parsed attributes (IstioSidecarYamlParser.py 228-252, IstioSidecar.py 42-49,
131-165; the other attributes are those of the constructor, NetworkPolicy.py 73-90).  Its rules are those a query uses
(`reorganize_props_by_new_domains`, NetworkPolicy.py 189-204); rules of sidecars have no actions. -/
noncomputable def sidecarPolicy (A2 : VAlg Dim V2 X2) (W2 : Dim → V2 → Prop) (B : PeerDom) (ord : SetOrder) (rg : PodReg) (c : Container) (s : Sidecar) :
    Option (Policy (HC Dim (ISet ⊕ V2)) (ConnPeers W2 B)) :=
  (s.rules.mapM (ruleProps A2 PeerDom.default ord rg c s)).map fun hs => {
    name := s.ns.name ++ "/" ++ s.name
    kind := .istioSidecar
    order := none
    action := .allow
    selected := K8sParser.peersVal A2 W2 B rg s.selected
    affectsIngress := false
    affectsEgress := s.affectsEgress
    ingressRules := []
    egressRules := hs.map (fun h => ⟨.allow, HC.reduce (connA A2 B) allDims h⟩) }

/-- The sidecars of the parse queue, which come after all other policies (PoliciesFinder.py 131-136). -/
noncomputable def sidecarPolicies (A2 : VAlg Dim V2 X2) (W2 : Dim → V2 → Prop) (B : PeerDom) (ord : SetOrder) (rg : PodReg) (c : Container)
    (svcs : List (String × Svc)) (ts : List SidecarText) : Option (List (Policy (HC Dim (ISet ⊕ V2)) (ConnPeers W2 B))) :=
  (sidecars svcs c ts).bind fun S => S.mapM (sidecarPolicy A2 W2 B ord rg c)

/-! ### Proofs -/

variable (L2 : A2.Lawful W2)

/-- The policy object has the meaning of the Sidecar. -/
structure SidecarFits (B : PeerDom) (rg : PodReg) (c : Container) (word : X2 → List Char) (l : List SvcText) (ts : List SidecarText) (t : SidecarText)
    (pol : Policy (HC Dim (ISet ⊕ V2)) (ConnPeers W2 B)) : Prop extends SidecarOk L2 rg c pol where
  name : pol.name = t.ns.name ++ "/" ++ t.name
  affects : pol.affectsEgress = t.egress.isSome
  applies : ∀ (e : Int ⊕ X2) E, E.At rg c e → ((connNet L2 B).Q.mem e pol.selected = true ↔ Governs c ts t E)
  mem : t.Tame c l → ∀ (p : Point (connA A2 B)) src dst q, IsRequest word rg c p src dst q → q.proto = 6 →
    ((∃ r ∈ pol.egressRules, (connNet L2 B).K.mem p r.props = true) ↔ Governs c ts t src ∧ ∃ r, t.egress = some r ∧ ∃ hosts ∈ r, ListenerSays c l t hosts src dst)

omit L2 in
/-- A peer of the cluster or an address has a place. -/
theorem at_some {S : PeerSet String} (hS : InCluster c S) {e : Int ⊕ X2} (h : S.At rg.keys e) : ∃ E : Place, E.At rg c e := by
  rcases h with ⟨x, rfl, _⟩ | ⟨n, k, rfl, hk, h⟩
  · exact ⟨.ip x, rfl⟩
  · exact ⟨.pod k, hS k h, n, rfl, hk⟩

theorem sidecar_fits (hC : CalCluster rg c) (hI : IstioCluster V rg c) (hB : Covers rg c B) {t : SidecarText} {s : Sidecar}
    (hs : SidecarIs c l t (Governs c ts t) s) :
    ∃ pol, sidecarPolicy A2 W2 B ord rg c s = some pol ∧ SidecarFits L2 B rg c word l ts t pol := by
  obtain ⟨z, hz, hzS⟩ := IstioParser.free_index (X2 := X2) hI
  have hT : ∀ E, Governs c ts t E → t.Applies c E := fun E h => h.2.1
  have sel : ∀ e : Int ⊕ X2, (connNet L2 B).Q.mem e (K8sParser.peersVal A2 W2 B rg s.selected) = true ↔ s.selected.At rg.keys e :=
    fun e => CalicoParser.peersVal_mem L2 hC hB ⟨hs.ok, hs.inCluster⟩ e
  have app : ∀ (e : Int ⊕ X2) E, E.At rg c e → ((connNet L2 B).Q.mem e (K8sParser.peersVal A2 W2 B rg s.selected) = true ↔ Governs c ts t E) :=
    fun e E hE => (CalicoParser.peersVal_place L2 hC hB ⟨hs.ok, hs.inCluster⟩ hE).trans (hs.mem E)
  -- the rules
  have all : ∀ (r : List (List (List Char))) (R : List SidecarRule), List.Forall₂ (RuleFits c l t.ns) r R →
      ∃ hs', R.mapM (ruleProps A2 PeerDom.default ord rg c s) = some hs' ∧ List.Forall₂ (fun hosts h =>
        ∃ x F, RuleFits c l t.ns hosts x ∧ ruleProps A2 PeerDom.default ord rg c s x = some h ∧ PropsAre L2 word rg c z F h ∧ ∀ src dst q, F src dst q → Governs c ts t src) r hs' := by
    intro r R h
    induction h with
    | nil => exact ⟨[], rfl, .nil⟩
    | cons h1 _ ih =>
      obtain ⟨hs', e1, F1⟩ := ih
      obtain ⟨h, e, P⟩ := ruleProps_sem L2 (ord := ord) (word := word) hI hz hzS hs hT h1.ok
      exact ⟨h :: hs', by rw [List.mapM_cons, e, Option.bind_eq_bind, Option.bind_some, e1]; rfl, .cons ⟨_, _, h1, e, P, fun _ _ _ h => h.1⟩ F1⟩
  obtain ⟨hs', e1, F1⟩ := all _ _ hs.rules
  have F1' := forall₂_left (forall₂_swap F1)
  have red : ∀ h ∈ hs', HcStrongT (connA A2 B) (connWf W2 B) allDims (HC.reduce (connA A2 B) allDims h) ∧
      ∀ p : Point (connA A2 B), (connNet L2 B).K.mem p (HC.reduce (connA A2 B) allDims h) = true ↔
        (connNet L2 PeerDom.default).K.mem p.toDefault h = true := fun h hh => by
    obtain ⟨_, _, _, F, _, _, P, _⟩ := F1' h hh
    refine query_reduce L2 P.flat.strong (fun _ => P.flat.plain) fun p hp z hz => ?_
    rcases hz with e | e
    · obtain ⟨S, hS, this⟩ := P.src p hp
      rw [e] at this; exact hB.at hS this
    · obtain ⟨S, hS, this⟩ := P.dst p hp
      rw [e] at this; exact hB.at hS this
  refine ⟨_, by unfold sidecarPolicy; rw [e1]; rfl, ⟨rfl, ⟨fun d r hr => ?_, fun d r hr p hp => ?_⟩, fun e E hE h => ?_⟩, ?_, hs.affects, app, fun ht p src dst q hq h6 => ?_⟩
  · cases d
    · obtain ⟨h, hh, rfl⟩ := List.mem_map.1 hr
      exact (red h hh).1
    · cases hr
  · cases d
    · obtain ⟨h, hh, rfl⟩ := List.mem_map.1 hr
      obtain ⟨_, _, _, F, _, _, P, hF⟩ := F1' h hh
      have hp := ((red h hh).2 p).1 hp
      obtain ⟨S, hS, h1⟩ := P.src _ hp
      obtain ⟨S', hS', h2⟩ := P.dst _ hp
      obtain ⟨src, hsrc⟩ := at_some hS h1
      obtain ⟨dst, hdst⟩ := at_some hS' h2
      obtain ⟨q, hq⟩ := IstioParser.C50_every_point word hsrc hdst
      exact (app _ _ hsrc).2 (hF _ _ _ ((P.mem _ _ _ _ hq).1 hp))
    · cases hr
  · obtain ⟨_, ⟨a, h1, h2, h3, _⟩, _⟩ := (app e E hE).1 h
    exact ⟨a, h1, h2, by simp [h3]⟩
  · show s.ns.name ++ "/" ++ s.name = _
    rw [hs.ns, hs.name]
  · have hq' : IsRequest word rg c p.toDefault src dst q := ⟨hq.src, hq.dst, hq.proto, hq.port, hq.method, hq.host, hq.path⟩
    have one : ∀ r hosts h, t.egress = some r → hosts ∈ r → (∃ x F, RuleFits c l t.ns hosts x ∧ ruleProps A2 PeerDom.default ord rg c s x = some h ∧
        PropsAre L2 word rg c z F h ∧ ∀ src dst q, F src dst q → Governs c ts t src) →
        ((connNet L2 PeerDom.default).K.mem p.toDefault h = true ↔ Governs c ts t src ∧ ListenerSays c l t hosts src dst) := by
      rintro r hosts h hr hh ⟨x, _, hx, e, _⟩
      obtain ⟨h', e', _, m⟩ := C57_rule_partial L2 (ord := ord) (word := word) hI ht hs hT hr hh hx
      rw [e] at e'; cases e'
      exact m _ src dst q hq' h6
    constructor
    · rintro ⟨r, hr, hm⟩
      obtain ⟨h, hh, rfl⟩ := List.mem_map.1 hr
      obtain ⟨hosts, h1, h2⟩ := F1' h hh
      cases e : t.egress with
      | none => rw [e] at h1; cases h1
      | some r =>
        rw [e] at h1
        obtain ⟨g1, g2⟩ := (one r hosts h e h1 h2).1 (((red h hh).2 p).1 hm)
        exact ⟨g1, r, rfl, hosts, h1, g2⟩
    · rintro ⟨h1, r, hr, hosts, h2, h3⟩
      rw [hr] at F1
      obtain ⟨h, hh, g⟩ := forall₂_left F1 hosts h2
      exact ⟨_, List.mem_map.2 ⟨h, hh, rfl⟩, ((red h hh).2 p).2 ((one r hosts h hr h2 g).2 ⟨h1, h3⟩)⟩

/-- The policies of the sidecars. -/
theorem sidecars_fit (hC : CalCluster rg c) (hI : IstioCluster V rg c) (hB : Covers rg c B) (hl : SvcsTame rg c l) (hN : Named c l)
    {svcs : List (String × Svc)} (hs : services rg c l = some svcs) (ht : ∀ t ∈ ts, t.Legal) :
    (NoConflict c ts → ∃ sc, sidecarPolicies A2 W2 B ord rg c svcs ts = some sc ∧ List.Forall₂ (SidecarFits L2 B rg c word l ts) (ordered ts) sc) ∧
    (¬ NoConflict c ts → sidecarPolicies A2 W2 B ord rg c svcs ts = none) := by
  constructor
  · intro hc
    obtain ⟨svcs', S, e1, e2, F⟩ := C57_sidecars hI hl hN ht hc
    rw [hs] at e1; cases e1
    have : ∀ (us : List SidecarText) (S : List Sidecar), List.Forall₂ (fun t s => SidecarIs c l t (Governs c ts t) s) us S →
        ∃ sc, S.mapM (sidecarPolicy A2 W2 B ord rg c) = some sc ∧ List.Forall₂ (SidecarFits L2 B rg c word l ts) us sc := by
      intro us S h
      induction h with
      | nil => exact ⟨[], rfl, .nil⟩
      | cons h1 _ ih =>
        obtain ⟨sc, e, F⟩ := ih
        obtain ⟨pol, e', f⟩ := sidecar_fits L2 (ord := ord) (word := word) hC hI hB h1
        exact ⟨pol :: sc, by rw [List.mapM_cons, e', Option.bind_eq_bind, Option.bind_some, e]; rfl, .cons f F⟩
    obtain ⟨sc, e, F'⟩ := this _ _ F
    exact ⟨sc, by unfold sidecarPolicies; rw [e2]; exact e, F'⟩
  · intro hc
    obtain ⟨svcs', e1, e2⟩ := C57_conflict_rejected hI hl hN ht hc
    rw [hs] at e1; cases e1
    unfold sidecarPolicies
    rw [e2]; rfl

/-- What the sidecars say about TCP. -/
theorem sidecars_rule (hI : IstioCluster V rg c) (ht : ∀ t ∈ ts, t.Tame c l) (hc : NoConflict c ts) {sc : List (Policy (HC Dim (ISet ⊕ V2)) (ConnPeers W2 B))}
    (F : List.Forall₂ (SidecarFits L2 B rg c word l ts) (ordered ts) sc) (p : Point (connA A2 B)) (src dst : Place) (q : Request)
    (hq : IsRequest word rg c p src dst q) (h6 : q.proto = 6) : SidecarRuled L2 sc p ∨ SidecarFree L2 sc p ↔ SidecarsSay c l ts src dst := by
  have F1 := forall₂_left F
  have F2 := forall₂_left (forall₂_swap F)
  have reach : ∀ t ∈ ts, t.Restricts → ((∃ r, t.egress = some r ∧ ∃ hosts ∈ r, ListenerSays c l t hosts src dst) ↔ t.Reaches c l src dst) := by
    rintro t - ⟨r, hr, hne⟩
    unfold ListenerSays SidecarText.Reaches
    constructor
    · rintro ⟨r, hr, hosts, hh, h | h⟩
      · exact Or.inl h
      · exact Or.inr ⟨r, hr, hosts, hh, h⟩
    · rintro (h | ⟨r, hr, hosts, hh, h⟩)
      · obtain ⟨hosts, hh⟩ := List.exists_mem_of_ne_nil _ hne
        exact ⟨r, hr, hosts, hh, Or.inl h⟩
      · exact ⟨r, hr, hosts, hh, Or.inr h⟩
  have restr : ∀ t ∈ ts, t.egress.isSome = true ↔ t.Restricts := by
    intro t h
    unfold SidecarText.Restricts
    rw [Option.isSome_iff_exists]
    exact ⟨fun ⟨r, e⟩ => ⟨r, e, fun h' => (ht t h).given (by rw [e, h'])⟩, fun ⟨r, e, _⟩ => ⟨r, e⟩⟩
  constructor
  · rintro (⟨pol, hpol, _, h2, h3, h4⟩ | h) t hg hr
    · obtain ⟨t', ht', f⟩ := F2 pol hpol
      have ht' := mem_ordered.1 ht'
      have hg' := (f.applies _ src hq.src).1 h3
      obtain rfl := C57_one_sidecar hI.cluster hc hg hg'
      exact (reach t ht' hr).1 ((f.mem (ht t ht') p src dst q hq h6).1 h4).2
    · obtain ⟨pol, hpol, f⟩ := F1 t (mem_ordered.2 hg.1)
      have := (f.applies _ src hq.src).2 hg
      rw [h pol hpol f.kind (by rw [f.affects]; exact (restr t hg.1).2 hr)] at this; cases this
  · intro h
    by_cases hx : ∃ t, Governs c ts t src ∧ t.Restricts
    · obtain ⟨t, hg, hr⟩ := hx
      obtain ⟨pol, hpol, f⟩ := F1 t (mem_ordered.2 hg.1)
      exact Or.inl ⟨pol, hpol, f.kind, by rw [f.affects]; exact (restr t hg.1).2 hr, (f.applies _ src hq.src).2 hg,
        (f.mem (ht t hg.1) p src dst q hq h6).2 ⟨hg, (reach t hg.1 hr).2 (h t hg hr)⟩⟩
    · refine Or.inr fun pol hpol _ ha => ?_
      obtain ⟨t, ht', f⟩ := F2 pol hpol
      have ht' := mem_ordered.1 ht'
      rw [f.affects] at ha
      rw [← Bool.not_eq_true, f.applies _ src hq.src]
      exact fun hg => hx ⟨t, hg, (restr t ht').1 ha⟩

omit L2 in
theorem order_sidecars {svcs : List (String × Svc)} {dflt : Ns} {ds : List CfgDoc} {pols sc : List (Policy (HC Dim (ISet ⊕ V2)) (ConnPeers W2 B))}
    (hp : cfgPolicies K A2 W2 dfa V B ord rg c svcs dflt ds = some pols) (hsc : ∀ pol ∈ sc, pol.kind = .istioSidecar) : loadOrder (pols ++ sc) = pols ++ sc := by
  refine loadOrder_append (cfg_order hp) hsc fun pol hpol => ?_
  obtain ⟨d, _, hd⟩ := forall₂_left (forall₂_swap (mapM_pairs hp)) pol hpol
  cases d with
  | policy d => exact (any_kind hd).2.2.1
  | ingress name t =>
    obtain ⟨P, _, rfl⟩ := Option.map_eq_some_iff.1 hd
    simp [ingressPolicy]

/-- C58: in a configuration with Sidecar resources, a connection with a pod at one of its ends is allowed exactly if the
network policies allow it, the Ingress resources route it if it comes from their controller, and, if there are
authorization policies or sidecars, its source can send, only TCP goes to DNS entries, and for TCP the authorization policies
allow it and the sidecar of the source, if it restricts it, lets it reach the destination.
PARTIAL: without the known defects of single texts, which for sidecars are those of `SidecarText.Tame` and `Named`; as C54
otherwise.  Only TCP is restricted by sidecars, as the code takes all of Istio to be about TCP. -/
theorem C58_config_partial (hK : K.Ok) (hC : CalCluster rg c) (hI : IstioCluster V rg c) (hD : IngressLib A2 W2 dfa word D) (hB : Covers rg c B)
    (hl : SvcsTame rg c l) (hN : Named c l) {svcs : List (String × Svc)} (hs : services rg c l = some svcs)
    {dflt : Ns} {ds : List CfgDoc} {is : List Item}
    (hm : List.Forall₂ (Doc.Means K dflt) ((ds.filterMap CfgDoc.policy?).filterMap AnyDoc.net?) is) (hi : ∀ i ∈ is, i.Tame c)
    {src dst : Place} (ht : ∀ t ∈ (ds.filterMap CfgDoc.policy?).filterMap AnyDoc.istio?, t.Tame src)
    (hg : ∀ t ∈ ds.filterMap CfgDoc.ingress?, t.Tame c l) (hts : ∀ t ∈ ts, t.Tame c l)
    {pols sc : List (Policy (HC Dim (ISet ⊕ V2)) (ConnPeers W2 B))} (hp : cfgPolicies K A2 W2 dfa V B ord rg c svcs dflt ds = some pols)
    (hsc : sidecarPolicies A2 W2 B ord rg c svcs ts = some sc)
    {st : PolicyStore (HC Dim (ISet ⊕ V2)) (ConnPeers W2 B)} (hb : PolicyStore.build (loadOrder (pols ++ sc)) = some st)
    (f : ConnFilter) (hf : f.calcAllAllowed = true) (p : Point (connA A2 B)) (q : Conn) (hq : IsConn rg c p src dst q)
    (r : Request) (hr : IsRequest word rg c p src dst r) (hh : ∀ t ∈ ds.filterMap CfgDoc.ingress?, HostTame t r.host)
    (hw : IsKind c src [.pod] ∨ IsKind c dst [.pod])
    (hdns : IsKind c dst [.dns] → ∃ E, IsKind c E [.pod] ∧ ∀ t ∈ (ds.filterMap CfgDoc.policy?).filterMap AnyDoc.istio?, ¬ t.Denies → ¬ t.Applies c E) :
    (connNet L2 B).K.mem p (configConns (connNet L2 B).toNet (calicoPeers A2 W2 B rg c) st.layers f).allAllowed = true ↔
      (CalicoSays rg c is src dst q ∧
        ((ds.filterMap CfgDoc.policy?).filterMap AnyDoc.istio? ≠ [] ∨ ts ≠ [] → Sender c src ∧ (IsKind c dst [.dns] → r.proto = 6) ∧
          (r.proto = 6 → IstioSays V.sa c ((ds.filterMap CfgDoc.policy?).filterMap AnyDoc.istio?) src dst r ∧ SidecarsSay c l ts src dst))) ∧
      (ds.filterMap CfgDoc.ingress? ≠ [] → GatewaySays rg c l (ds.filterMap CfgDoc.ingress?) src dst r) := by
  obtain ⟨fit1, fit2⟩ := sidecars_fit (A2 := A2) L2 (ord := ord) (word := word) hC hI hB hl hN hs (fun t h => (hts t h).toLegal)
  have hc : NoConflict c ts := by
    by_contra hc
    rw [fit2 hc] at hsc; cases hsc
  obtain ⟨sc', e, F⟩ := fit1 hc
  rw [e] at hsc; cases hsc
  have F2 := forall₂_left (forall₂_swap F)
  have ok : ∀ pol ∈ sc, SidecarOk L2 rg c pol := fun pol hpol => by
    obtain ⟨t, _, f⟩ := F2 pol hpol
    exact f.toSidecarOk
  have hne : sc ≠ [] ↔ ts ≠ [] := by
    constructor
    · intro h
      obtain ⟨pol, hpol⟩ := List.exists_mem_of_ne_nil _ h
      obtain ⟨t, h1, _⟩ := F2 pol hpol
      exact List.ne_nil_of_mem (mem_ordered.1 h1)
    · intro h
      obtain ⟨t, h1⟩ := List.exists_mem_of_ne_nil _ h
      obtain ⟨pol, hpol, _⟩ := forall₂_left F t (mem_ordered.2 h1)
      exact List.ne_nil_of_mem hpol
  rw [order_sidecars hp fun pol hpol => (ok pol hpol).kind] at hb
  rw [cfg_core L2 hK hC hI hD hB hl hs hm hi ht hg hp ok hb f hf p q hq r hr hh hw hdns, hne]
  have e6 : r.proto = 6 → ((SidecarRuled L2 sc p ∨ SidecarFree L2 sc p) ↔ SidecarsSay c l ts src dst) := fun h6 =>
    sidecars_rule L2 hI hts hc F p src dst r hr h6
  refine and_congr_left fun _ => and_congr_right fun _ => forall_congr' fun _ => and_congr_right fun _ => and_congr_right fun _ =>
    forall_congr' fun h6 => and_congr_right fun _ => e6 h6

/-! ### Accepted configurations -/

omit L2 in
theorem ordered_perm (ts : List SidecarText) : (ordered ts).Perm ts := by
  unfold ordered
  induction ts with
  | nil => exact .nil
  | cons t ts ih =>
    have h : (isSpecific t = true ∧ isNsDefault t = false ∧ isGlobalDefault t = false) ∨ (isSpecific t = false ∧ isNsDefault t = true ∧ isGlobalDefault t = false) ∨
        (isSpecific t = false ∧ isNsDefault t = false ∧ isGlobalDefault t = true) := by
      unfold isSpecific isNsDefault isGlobalDefault
      cases isDefault t.selector <;> cases decide (t.ns.name = "istio-config") <;> decide
    rcases h with ⟨h1, h2, h3⟩ | ⟨h1, h2, h3⟩ | ⟨h1, h2, h3⟩ <;> simp only [List.filter_cons, h1, h2, h3, if_true, Bool.false_eq_true, if_false]
    · exact ih.cons t
    · rw [List.append_assoc, List.cons_append]
      exact List.perm_middle.trans ((by rw [← List.append_assoc]; exact ih : List.Perm _ _).cons t)
    · exact List.perm_middle.trans (ih.cons t)

include L2 in
/-- C58: a configuration of meaningful documents without the known defects is accepted exactly if the Kubernetes documents
are legal, no two Sidecars claim the same workloads, and no two documents of a kind have the same name (and namespace). -/
theorem C58_accepted_partial (hK : K.Ok) (hC : CalCluster rg c) (hI : IstioCluster V rg c) (hD : IngressLib A2 W2 dfa word D) (hB : Covers rg c B)
    (hl : SvcsTame rg c l) (hN : Named c l) {dflt : Ns} {ds : List CfgDoc} {is : List Item}
    (hm : List.Forall₂ (Doc.Means K dflt) ((ds.filterMap CfgDoc.policy?).filterMap AnyDoc.net?) is) (hi : ∀ i ∈ is, i.Tame c)
    (ht : ∀ t ∈ (ds.filterMap CfgDoc.policy?).filterMap AnyDoc.istio?, ∃ E, t.Tame E)
    (hg : ∀ t ∈ ds.filterMap CfgDoc.ingress?, t.Tame c l) (hts : ∀ t ∈ ts, t.Legal) :
    (∃ svcs pols sc st, services rg c l = some svcs ∧ cfgPolicies K A2 W2 dfa V B ord rg c svcs dflt ds = some pols ∧
        sidecarPolicies A2 W2 B ord rg c svcs ts = some sc ∧ PolicyStore.build (loadOrder (pols ++ sc)) = some st) ↔
      ((∀ t, CfgDoc.policy (.net (.k8s t)) ∈ ds → ∀ s, t.spec = some s → s.Legal) ∧ ds.Pairwise (fun a b => a.key dflt ≠ b.key dflt)) ∧
      NoConflict c ts ∧ ts.Pairwise (fun t t' => t.ns.name ++ "/" ++ t.name ≠ t'.ns.name ++ "/" ++ t'.name) := by
  have hkeys : ∀ {svcs pols sc}, services rg c l = some svcs → cfgPolicies K A2 W2 dfa V B ord rg c svcs dflt ds = some pols →
      sidecarPolicies A2 W2 B ord rg c svcs ts = some sc → NoConflict c ts ∧ (∀ pol ∈ sc, pol.kind = .istioSidecar) ∧ (∀ pol ∈ pols, pol.kind ≠ .istioSidecar) ∧
      sc.map (·.name) = (ordered ts).map fun t => t.ns.name ++ "/" ++ t.name := by
    intro svcs pols sc hs hp hsc
    obtain ⟨fit1, fit2⟩ := sidecars_fit (A2 := A2) (B := B) L2 (ord := ord) (word := word) hC hI hB hl hN hs hts
    have hc : NoConflict c ts := by
      by_contra hc
      rw [fit2 hc] at hsc; cases hsc
    obtain ⟨sc', e, F⟩ := fit1 hc
    rw [e] at hsc; cases hsc
    refine ⟨hc, fun pol hpol => ?_, fun pol hpol h => ?_, ?_⟩
    · obtain ⟨t, _, f⟩ := forall₂_left (forall₂_swap F) pol hpol
      exact f.kind
    · obtain ⟨d, _, hd⟩ := forall₂_left (forall₂_swap (mapM_pairs hp)) pol hpol
      cases d with
      | policy d => exact (any_kind hd).2.2.1 h
      | ingress name t =>
        obtain ⟨P, _, rfl⟩ := Option.map_eq_some_iff.1 hd
        simp [ingressPolicy] at h
    · have : ∀ us (sc : List (Policy (HC Dim (ISet ⊕ V2)) (ConnPeers W2 B))), List.Forall₂ (SidecarFits L2 B rg c word l ts) us sc →
          sc.map (·.name) = us.map fun t => t.ns.name ++ "/" ++ t.name := by
        intro us sc F
        induction F with
        | nil => rfl
        | cons f _ ih => rw [List.map_cons, List.map_cons, ih, f.name]
      exact this _ _ F
  have hnames : ∀ {svcs pols sc}, services rg c l = some svcs → cfgPolicies K A2 W2 dfa V B ord rg c svcs dflt ds = some pols →
      sidecarPolicies A2 W2 B ord rg c svcs ts = some sc → ((∃ st, PolicyStore.build (loadOrder (pols ++ sc)) = some st) ↔
        (∃ st, PolicyStore.build (loadOrder pols) = some st) ∧ ts.Pairwise (fun t t' => t.ns.name ++ "/" ++ t.name ≠ t'.ns.name ++ "/" ++ t'.name)) := by
    intro svcs pols sc hs hp hsc
    obtain ⟨_, k1, k2, k3⟩ := hkeys hs hp hsc
    rw [order_sidecars hp k1, cfg_order hp, build_some_iff, build_some_iff, List.pairwise_append]
    refine and_congr_right fun _ => ?_
    rw [and_iff_left fun a ha b hb h => k2 a ha (h.2.trans (k1 b hb))]
    have e1 : sc.Pairwise (fun a b => ¬ (a.name = b.name ∧ a.kind = b.kind)) ↔ (sc.map (·.name)).Pairwise (fun a b => a ≠ b) := by
      rw [List.pairwise_map]
      exact ⟨fun h => h.imp_of_mem fun ha hb h h' => h ⟨h', (k1 _ ha).trans (k1 _ hb).symm⟩, fun h => h.imp fun h h' => h h'.1⟩
    rw [e1, k3, List.pairwise_map]
    exact (ordered_perm ts).pairwise_iff fun h h' => h h'.symm
  rw [← C54_accepted_partial (B := B) L2 (ord := ord) hK hC hI hD hl hm hi ht hg]
  constructor
  · rintro ⟨svcs, pols, sc, st, h1, h2, h3, h4⟩
    obtain ⟨⟨st', h5⟩, h6⟩ := (hnames h1 h2 h3).1 ⟨st, h4⟩
    exact ⟨⟨svcs, pols, st', h1, h2, h5⟩, (hkeys h1 h2 h3).1, h6⟩
  · rintro ⟨⟨svcs, pols, st, h1, h2, h3⟩, h4, h5⟩
    obtain ⟨sc, h6, _⟩ := (sidecars_fit (A2 := A2) (B := B) L2 (ord := ord) (word := word) hC hI hB hl hN h1 hts).1 h4
    obtain ⟨st', h7⟩ := (hnames h1 h2 h6).2 ⟨⟨st, h3⟩, h5⟩
    exact ⟨svcs, pols, sc, st', h1, h2, h6, h7⟩

end
end SidecarParser
end Verif
