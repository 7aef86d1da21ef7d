import Verif.IstioQueryDom
import Verif.PropsCalicoConfig
/-!
C51: the connections of a configuration of Kubernetes and Calico policies and Istio's authorization policies, from the
texts of the policies.

As `Verif.PropsCalicoConfig`, with the parsed authorization policies (`Verif.IstioParseModel`).
-/
namespace Verif
open ISet PeerSet

namespace IstioParser
open Container CalicoParser

/-! ### Model -/

/-- A document of a configuration: a Kubernetes or Calico policy, or an authorization policy. -/
inductive AnyDoc where
  | net (d : Doc)
  | istio (name : String) (t : AuthText)

/-- The Kubernetes and Calico policies among the documents. -/
def AnyDoc.net? : AnyDoc → Option Doc
  | .net d => some d
  | .istio _ _ => none

/-- The authorization policies among the documents. -/
def AnyDoc.istio? : AnyDoc → Option AuthText
  | .net _ => none
  | .istio _ t => some t

section
variable {V2 X2 : Type} {A2 : VAlg Dim V2 X2} {W2 : Dim → V2 → Prop} {dfa : List Char → V2} {word : X2 → List Char} {D : V2 → Prop}
  {V : Env} {rg : PodReg} {c : Container} {ord : SetOrder} {B : PeerDom} {K : CharCls}

/-- The policy object: `IstioNetworkPolicy` with the parsed attributes (IstioPolicyYamlParser.py 536-578; the other
attributes are those of the constructor, NetworkPolicy.py 73-90).  Its rules are those a query uses
(`reorganize_props_by_new_domains`, NetworkPolicy.py 189-204); rules of authorization policies have no actions. -/
noncomputable def istioPolicy (A2 : VAlg Dim V2 X2) (W2 : Dim → V2 → Prop) (B : PeerDom) (rg : PodReg) (name : String) (t : AuthText)
    (q : ParsedAuth V2) : Policy (HC Dim (ISet ⊕ V2)) (ConnPeers W2 B) where
  name := t.ns.name ++ "/" ++ name
  kind := .istioAuthz
  order := none
  action := if q.deny then .deny else .allow
  selected := K8sParser.peersVal A2 W2 B rg q.selected
  affectsIngress := q.affectsIngress
  affectsEgress := false
  ingressRules := q.rules.map (fun h => ⟨.allow, HC.reduce (connA A2 B) allDims h⟩)
  egressRules := []

/-- The policy of a document; `none` if it is rejected. -/
noncomputable def anyPolicy (K : CharCls) (A2 : VAlg Dim V2 X2) (W2 : Dim → V2 → Prop) (dfa : List Char → V2) (V : Env) (B : PeerDom) (ord : SetOrder)
    (rg : PodReg) (c : Container) (dflt : Ns) : AnyDoc → Option (Policy (HC Dim (ISet ⊕ V2)) (ConnPeers W2 B))
  | .net d => docPolicy K A2 W2 B ord rg c dflt d
  | .istio name t => (parsePolicy A2 dfa V PeerDom.default ord rg c t).map (istioPolicy A2 W2 B rg name t)

/-- The policies of the parse queue, in order (`parse_policies_in_parse_queue`, PoliciesFinder.py 68-139). -/
noncomputable def queuePolicies (K : CharCls) (A2 : VAlg Dim V2 X2) (W2 : Dim → V2 → Prop) (dfa : List Char → V2) (V : Env) (B : PeerDom) (ord : SetOrder)
    (rg : PodReg) (c : Container) (dflt : Ns) (ds : List AnyDoc) : Option (List (Policy (HC Dim (ISet ⊕ V2)) (ConnPeers W2 B))) :=
  ds.mapM (anyPolicy K A2 W2 dfa V B ord rg c dflt)

/-! ### Specification -/

/-- The policy applies to the place. -/
def AuthText.Applies (c : Container) (t : AuthText) (E : Place) : Prop := ∃ s, t.spec = some s ∧ AuthApplies c t.ns s.selector E

/-- The action of the policy is to deny. -/
def AuthText.Denies (t : AuthText) : Prop := ∃ s, t.spec = some s ∧ s.action = some "DENY"

/-- A rule of the policy matches the request. -/
def AuthText.Matches (sa : String → List Char) (c : Container) (t : AuthText) (src : Place) (q : Request) : Prop :=
  ∃ s, t.spec = some s ∧ ∃ r ∈ s.rules, RuleSays sa c r src q

/-- Istio's evaluation ("Authorization Policy"): if a DENY policy that applies to the workload matches the request, it is
denied; if no ALLOW policy applies to the workload, it is allowed; if an ALLOW policy that applies matches the request, it
is allowed; otherwise it is denied. -/
def IstioSays (sa : String → List Char) (c : Container) (ts : List AuthText) (src dst : Place) (q : Request) : Prop :=
  (∀ t ∈ ts, t.Denies → t.Applies c dst → ¬ t.Matches sa c src q) ∧
  ((∃ t ∈ ts, ¬ t.Denies ∧ t.Applies c dst ∧ t.Matches sa c src q) ∨ ∀ t ∈ ts, ¬ t.Denies → ¬ t.Applies c dst)

/-- The policy is legal, and one that the code reads as Istio does, for requests from this place
(`C50_no_spec_no_effect`, `AuthRule.Tame`). -/
structure AuthText.Tame (t : AuthText) (E : Place) : Prop where
  given : t.spec ≠ none
  action : ∀ s, t.spec = some s → s.action = none ∨ s.action = some "ALLOW" ∨ s.action = some "DENY" ∧ s.rules ≠ []
  labels : ∀ s, t.spec = some s → ∀ l, s.selector = .labels l → l ≠ []
  rules : ∀ s, t.spec = some s → ∀ r ∈ s.rules, r.Tame E

/-! ### Proofs -/

variable (L2 : A2.Lawful W2)

/-- The policy object has the meaning of the text. -/
structure AuthFits (V : Env) (B : PeerDom) (rg : PodReg) (c : Container) (word : X2 → List Char) (t : AuthText)
    (pol : Policy (HC Dim (ISet ⊕ V2)) (ConnPeers W2 B)) : Prop where
  kind : pol.kind = .istioAuthz
  legal : pol.Legal (connNet L2 B).toNet (HcStrongT (connA A2 B) (connWf W2 B) allDims)
  deny : pol.action = .deny ↔ t.Denies
  applies : ∀ (e : Int ⊕ X2) E, E.At rg c e → ((connNet L2 B).Q.mem e pol.selected = true ↔ t.Applies c E)
  mem : ∀ (p : Point (connA A2 B)) src dst q, IsRequest word rg c p src dst q → t.Tame src →
    ((∃ r ∈ pol.ingressRules, (connNet L2 B).K.mem p r.props = true) → Sender c src ∧ t.Applies c dst ∧ t.Matches V.sa c src q) ∧
    (Sender c src → q.proto = 6 → t.Applies c dst → t.Matches V.sa c src q → ∃ r ∈ pol.ingressRules, (connNet L2 B).K.mem p r.props = true)

theorem istio_fits (hC : CalCluster rg c) (hI : IstioCluster V rg c) (hD : DfaLib A2 W2 dfa word D) (hB : Covers rg c B) {name : String} {t : AuthText} {E0 : Place}
    (ht : t.Tame E0) {P : ParsedAuth V2} (h : parsePolicy A2 dfa V PeerDom.default ord rg c t = some P) :
    AuthFits L2 V B rg c word t (istioPolicy A2 W2 B rg name t P) := by
  obtain ⟨s, hs⟩ := Option.ne_none_iff_exists'.1 ht.given
  obtain ⟨P', e, _, hdeny, oS, iS, mS, hr⟩ := C50_policy_partial L2 (ord := ord) hI hD hs (ht.action s hs) (ht.labels s hs) (fun r hr => ⟨E0, ht.rules s hs r hr⟩)
  rw [h] at e; cases e
  have only : ∀ s', t.spec = some s' → s' = s := fun s' h' => by rw [hs] at h'; exact (Option.some.inj h').symm
  have app : ∀ E, t.Applies c E ↔ AuthApplies c t.ns s.selector E := fun E =>
    ⟨fun ⟨s', h1, h2⟩ => by rw [only s' h1] at h2; exact h2, fun h => ⟨s, hs, h⟩⟩
  -- the rules in the domain of the query
  have parsed : s.rules.mapM (parseRule A2 dfa V PeerDom.default ord rg c P.selected) = some P.rules := by
    unfold parsePolicy at h
    rw [hs] at h
    simp only [Option.bind_eq_bind] at h
    rw [Option.bind_eq_some_iff] at h
    obtain ⟨d, _, h⟩ := h
    rw [Option.bind_eq_some_iff] at h
    obtain ⟨S, _, h⟩ := h
    rw [Option.bind_eq_some_iff] at h
    obtain ⟨rs, h1, h⟩ := h
    split at h
    · cases h
    · cases h; exact h1
  have fit : List.Forall₂ (fun r h => RuleExact L2 V rg c word t.ns s.selector P.selected r h ∧
      HcStrongT (connA A2 B) (connWf W2 B) allDims (HC.reduce (connA A2 B) allDims h) ∧
      ∀ p : Point (connA A2 B), (connNet L2 B).K.mem p (HC.reduce (connA A2 B) allDims h) = true ↔
        (connNet L2 PeerDom.default).K.mem p.toDefault h = true) s.rules P.rules := by
    have pairs := mapM_pairs parsed
    have tame := ht.rules s hs
    clear parsed
    generalize hR : s.rules = R at *
    generalize P.rules = rs at *
    clear hR
    induction hr with
    | nil => exact .nil
    | cons h1 _ ih =>
      cases pairs with
      | cons p1 p2 =>
        exact .cons ⟨h1, rule_query L2 hI hD hB oS iS (tame _ List.mem_cons_self) p1⟩ (ih (fun r hr => tame r (List.mem_cons_of_mem _ hr)) p2)
  have sel : ∀ e : Int ⊕ X2, (connNet L2 B).Q.mem e (K8sParser.peersVal A2 W2 B rg P.selected) = true ↔ P.selected.At rg.keys e :=
    fun e => peersVal_mem L2 hC hB ⟨oS, iS⟩ e
  refine ⟨rfl, ⟨fun d r hr => ?_, fun d r hr p hp => ?_⟩, ?_, fun e E hE => ?_, fun p src dst q hp hT => ⟨?_, ?_⟩⟩
  · cases d
    · cases hr
    · obtain ⟨h, hh, rfl⟩ := List.mem_map.1 hr
      obtain ⟨r, _, _, g, _⟩ := forall₂_left (forall₂_swap fit) h hh
      exact g
  · cases d
    · cases hr
    · obtain ⟨h, hh, rfl⟩ := List.mem_map.1 hr
      obtain ⟨r, _, g1, _, g2⟩ := forall₂_left (forall₂_swap fit) h hh
      exact (sel _).2 (g1.selected _ ((g2 p).1 hp))
  · unfold istioPolicy AuthText.Denies
    dsimp only
    constructor
    · intro h
      refine ⟨s, hs, hdeny.1 ?_⟩
      by_contra hd
      rw [if_neg hd] at h; cases h
    · rintro ⟨s', h1, h2⟩
      rw [only s' h1] at h2
      rw [if_pos (hdeny.2 h2)]
  · rw [app, ← mS E]
    exact peersVal_place L2 hC hB ⟨oS, iS⟩ hE
  · rintro ⟨r, hr, hm⟩
    obtain ⟨h, hh, rfl⟩ := List.mem_map.1 hr
    obtain ⟨r, hr, g1, _, g2⟩ := forall₂_left (forall₂_swap fit) h hh
    have hq : IsRequest word rg c p.toDefault src dst q := ⟨hp.src, hp.dst, hp.proto, hp.port, hp.method, hp.host, hp.path⟩
    obtain ⟨k1, k2, k3, _⟩ := (g1.mem p.toDefault src dst q hq (hT.rules s hs r hr)).1 ((g2 p).1 hm)
    exact ⟨k1, (app dst).2 k2, s, hs, r, hr, k3⟩
  · rintro k1 k2 k3 ⟨s', hs', r, hr, k4⟩
    rw [only s' hs'] at hr
    obtain ⟨h, hh, g1, _, g2⟩ := forall₂_left fit r hr
    have hq : IsRequest word rg c p.toDefault src dst q := ⟨hp.src, hp.dst, hp.proto, hp.port, hp.method, hp.host, hp.path⟩
    refine ⟨_, List.mem_map.2 ⟨h, hh, rfl⟩, (g2 p).2 ((g1.mem p.toDefault src dst q hq (hT.rules s hs r hr)).2 ⟨k1, (app dst).1 k3, k4, fun _ => k2⟩)⟩

/-- The policies of a queue. -/
theorem queue_fits (hC : CalCluster rg c) (hI : IstioCluster V rg c) (hD : DfaLib A2 W2 dfa word D) (hB : Covers rg c B) {dflt : Ns} {ds : List AnyDoc} {E0 : Place}
    (ht : ∀ t ∈ ds.filterMap AnyDoc.istio?, t.Tame E0) {pols : List (Policy (HC Dim (ISet ⊕ V2)) (ConnPeers W2 B))}
    (hp : queuePolicies K A2 W2 dfa V B ord rg c dflt ds = some pols) :
    docPolicies K A2 W2 B ord rg c dflt (ds.filterMap AnyDoc.net?) = some (pols.filter Policy.isK8sOrCalico) ∧
    List.Forall₂ (AuthFits L2 V B rg c word) (ds.filterMap AnyDoc.istio?) (pols.filter (fun q => decide (q.kind = .istioAuthz))) ∧
    ∀ pol ∈ pols, pol.isK8sOrCalico = true ∨ pol.kind = .istioAuthz := by
  replace hp := mapM_pairs hp
  induction hp with
  | nil => exact ⟨rfl, .nil, fun _ h => by cases h⟩
  | @cons d pol ds pols h1 _ ih =>
    cases d with
    | net d =>
      obtain ⟨i1, i2, i3⟩ := ih ht
      have hk : pol.isK8sOrCalico = true ∧ pol.kind ≠ .istioAuthz := by
        cases d with
        | k8s t => obtain ⟨P, _, rfl⟩ := Option.map_eq_some_iff.1 h1; exact ⟨rfl, by simp [K8sParser.toPolicy]⟩
        | calico name t =>
          obtain ⟨P, _, rfl⟩ := Option.map_eq_some_iff.1 h1
          unfold calicoPolicy Policy.isK8sOrCalico
          cases t.isGlobal <;> exact ⟨rfl, by simp⟩
      refine ⟨?_, ?_, fun q hq => ?_⟩
      · rw [List.filterMap_cons_some (show AnyDoc.net? (.net d) = some d from rfl), List.filter_cons_of_pos hk.1]
        unfold docPolicies at i1 ⊢
        have h1 : docPolicy K A2 W2 B ord rg c dflt d = some pol := h1
        rw [List.mapM_cons, h1, Option.bind_eq_bind, Option.bind_some, i1]
        rfl
      · rw [List.filterMap_cons_none (show AnyDoc.istio? (.net d) = none from rfl), List.filter_cons_of_neg (by simp [hk.2])]
        exact i2
      · rcases List.mem_cons.1 hq with rfl | hq
        · exact Or.inl hk.1
        · exact i3 q hq
    | istio name t =>
      rw [List.filterMap_cons_some (show AnyDoc.istio? (.istio name t) = some t from rfl)] at ht ⊢
      obtain ⟨i1, i2, i3⟩ := ih fun t h => ht t (List.mem_cons_of_mem _ h)
      obtain ⟨P, hP, rfl⟩ := Option.map_eq_some_iff.1 h1
      refine ⟨?_, ?_, fun q hq => ?_⟩
      · rw [List.filterMap_cons_none (show AnyDoc.net? (.istio name t) = none from rfl), List.filter_cons_of_neg (by simp [istioPolicy, Policy.isK8sOrCalico])]
        exact i1
      · rw [List.filter_cons_of_pos (by simp [istioPolicy])]
        exact .cons (istio_fits L2 hC hI hD hB (ht t List.mem_cons_self) hP) i2
      · rcases List.mem_cons.1 hq with rfl | hq
        · exact Or.inr rfl
        · exact i3 q hq

omit L2 in
theorem queue_fits_kinds {dflt : Ns} {ds : List AnyDoc} {pols : List (Policy (HC Dim (ISet ⊕ V2)) (ConnPeers W2 B))}
    (hp : queuePolicies K A2 W2 dfa V B ord rg c dflt ds = some pols) : ∀ pol ∈ pols, pol.isK8sOrCalico = true ∨ pol.kind = .istioAuthz := by
  intro pol hpol
  obtain ⟨d, _, hd⟩ := forall₂_left (forall₂_swap (mapM_pairs hp)) pol hpol
  cases d with
  | net d =>
    cases d with
    | k8s t => obtain ⟨P, _, rfl⟩ := Option.map_eq_some_iff.1 hd; exact Or.inl rfl
    | calico name t =>
      obtain ⟨P, _, rfl⟩ := Option.map_eq_some_iff.1 hd
      unfold calicoPolicy Policy.isK8sOrCalico
      cases t.isGlobal <;> exact Or.inl rfl
  | istio name t => obtain ⟨P, _, rfl⟩ := Option.map_eq_some_iff.1 hd; exact Or.inr rfl

omit L2 in
/-- A place of the cluster is an address, a pod or a name of a domain. -/
theorem place_cases (hI : IstioCluster V rg c) {E : Place} {e : Int ⊕ X2} (hE : E.At rg c e) :
    (∃ x, E = .ip x) ∧ ¬ IsKind c E [.pod] ∧ ¬ IsKind c E [.dns] ∨ (¬ ∃ x, E = .ip x) ∧ IsKind c E [.pod] ∧ ¬ IsKind c E [.dns] ∨
      (¬ ∃ x, E = .ip x) ∧ ¬ IsKind c E [.pod] ∧ IsKind c E [.dns] := by
  cases E with
  | ip x =>
    have no : ∀ ks, ¬ IsKind c (.ip x) ks := by
      rintro ks ⟨a, ha, ⟨b, hb, _⟩, _⟩
      obtain ⟨k, hk, _⟩ := hI.cluster.elem a ha
      rw [hb] at hk; cases hk
    exact Or.inl ⟨⟨x, rfl⟩, no _, no _⟩
  | pod k =>
    obtain ⟨⟨a, ha, he⟩, _⟩ := hE
    have uniq : ∀ ks, IsKind c (.pod k) ks → a.kind ∈ ks := by
      rintro ks ⟨b, hb, hbe, hk⟩
      have : b = a := hI.cluster.uniq b hb a ha (Eq.trans hbe he.symm)
      rw [this] at hk; exact hk
    rcases hI.cluster.kind a ha with ⟨hk, _⟩ | ⟨hk, _⟩
    · refine Or.inr (Or.inl ⟨by simp, ⟨a, ha, he, by simp [hk]⟩, fun h => ?_⟩)
      have := uniq _ h
      simp [hk] at this
    · refine Or.inr (Or.inr ⟨by simp, fun h => ?_, ⟨a, ha, he, by simp [hk]⟩⟩)
      have := uniq _ h
      simp [hk] at this

/-- The cases of the ends of a connection. -/
theorem istio_cases {si di sp dp sd dd T MD MA O Y SV SO : Prop} (cs : si ∧ ¬ sp ∧ ¬ sd ∨ ¬ si ∧ sp ∧ ¬ sd ∨ ¬ si ∧ ¬ sp ∧ sd)
    (cd : di ∧ ¬ dp ∧ ¬ dd ∨ ¬ di ∧ dp ∧ ¬ dd ∨ ¬ di ∧ ¬ dp ∧ dd) (hw : sp ∨ dp) (hmD : MD → (sp ∨ si) ∧ dp) (hmA : MA → (sp ∨ si) ∧ dp)
    (hop : ¬ dp → O) (hs : sp ∨ si → T → (Y ↔ ¬ MD ∧ (MA ∨ O))) (hsv : SV → sp) (hso : ¬ sp → SO) :
    ((¬ MD ∧ MA ∨ ¬ T ∧ (sp ∨ si) ∧ (dp ∨ di) ∨ O ∧ ¬ MD ∧ (sp ∨ si) ∧ (dp ∨ dd ∧ T)) ∨ sp ∧ di) ∧
      ((SV ∨ ¬ T ∧ (sp ∨ si) ∧ (dp ∨ di) ∨ SO ∧ sp ∧ ((dp ∨ di) ∨ dd ∧ T)) ∨ si ∧ dp) ↔ (sp ∨ si) ∧ (dd → T) ∧ (T → Y ∧ (SV ∨ SO)) := by
  by_cases h1 : si <;> by_cases h2 : sp <;> by_cases h3 : sd <;> simp only [h1, h2, h3, not_true, not_false_eq_true, true_and, and_true, false_and, and_false,
    or_false, false_or, or_self] at cs <;> by_cases h4 : di <;> by_cases h5 : dp <;> by_cases h6 : dd <;> simp only [h4, h5, h6, not_true, not_false_eq_true,
    true_and, and_true, false_and, and_false, or_false, false_or, or_self] at cd <;> by_cases h7 : T <;> simp_all <;> tauto

theorem findSome_iff {α β : Type} {f : α → Option β} {b : β} {l : List α} (h : ∀ x ∈ l, f x = none ∨ f x = some b) :
    l.findSome? f = some b ↔ ∃ x ∈ l, f x = some b := by
  induction l with
  | nil => simp
  | cons x l ih =>
    rw [List.findSome?_cons]
    rcases h x List.mem_cons_self with e | e
    · rw [e]
      dsimp only
      rw [ih fun y hy => h y (List.mem_cons_of_mem _ hy)]
      simp [e]
    · rw [e]
      exact ⟨fun _ => ⟨x, List.mem_cons_self, e⟩, fun _ => rfl⟩

/-- A sidecar among the policies has a rule for the connection; no sidecar among the policies restricts the source. -/
def SidecarRuled (pols : List (Policy (HC Dim (ISet ⊕ V2)) (ConnPeers W2 B))) (p : Point (connA A2 B)) : Prop :=
  ∃ pol ∈ pols, pol.kind = .istioSidecar ∧ pol.affectsEgress = true ∧ (connNet L2 B).Q.mem (p.1 .srcPeers) pol.selected = true ∧
    ∃ r ∈ pol.egressRules, (connNet L2 B).K.mem p r.props = true
def SidecarFree (pols : List (Policy (HC Dim (ISet ⊕ V2)) (ConnPeers W2 B))) (p : Point (connA A2 B)) : Prop :=
  ∀ pol ∈ pols, pol.kind = .istioSidecar → pol.affectsEgress = true → (connNet L2 B).Q.mem (p.1 .srcPeers) pol.selected = false

/-- A legal sidecar, which selects pods. -/
structure SidecarOk (rg : PodReg) (c : Container) (pol : Policy (HC Dim (ISet ⊕ V2)) (ConnPeers W2 B)) : Prop where
  kind : pol.kind = .istioSidecar
  legal : pol.Legal (connNet L2 B).toNet (HcStrongT (connA A2 B) (connWf W2 B) allDims)
  pods : ∀ (e : Int ⊕ X2) E, E.At rg c e → (connNet L2 B).Q.mem e pol.selected = true → IsKind c E [.pod]

/-- The layer of Istio. -/
theorem istio_layer (hC : CalCluster rg c) (hI : IstioCluster V rg c) (hB : Covers rg c B) {ts : List AuthText}
    {pols : List (Policy (HC Dim (ISet ⊕ V2)) (ConnPeers W2 B))}
    (F : List.Forall₂ (AuthFits L2 V B rg c word) ts (pols.filter (fun q => decide (q.kind = .istioAuthz))))
    (hk : ∀ pol ∈ pols, pol.isK8sOrCalico = true ∨ pol.kind = .istioAuthz ∨ SidecarOk L2 rg c pol)
    {st : PolicyStore (HC Dim (ISet ⊕ V2)) (ConnPeers W2 B)} (hb : PolicyStore.build (loadOrder pols) = some st)
    (p : Point (connA A2 B)) (src dst : Place) (q : Request) (hq : IsRequest word rg c p src dst q) (ht : ∀ t ∈ ts, t.Tame src)
    (hw : IsKind c src [.pod] ∨ IsKind c dst [.pod]) :
    layerAllows (connNet L2 B).toNet .istio (layerList st.layers .istio) (calicoPeers A2 W2 B rg c) p ↔
      Sender c src ∧ (IsKind c dst [.dns] → q.proto = 6) ∧ (q.proto = 6 → IstioSays V.sa c ts src dst q ∧ (SidecarRuled L2 pols p ∨ SidecarFree L2 pols p)) := by
  have hB' := build_built _ hb
  have F' := forall₂_left (forall₂_swap F)
  obtain ⟨v1, v2⟩ := istio_ingress_verdict (N := (connNet L2 B).toNet) pols hb p
  -- the policies of the layer
  have hmem : ∀ pol, pol ∈ layerList st.layers .istio ↔ pol ∈ pols ∧ (pol.kind = .istioAuthz ∨ pol.kind = .istioSidecar) := by
    intro pol
    rw [hB'.mem_list]
    constructor
    · rintro ⟨h1, h2⟩
      have h3 : pol ∈ pols := by
        simp only [loadOrder, List.mem_append, List.mem_filter] at h1
        rcases h1 with (h1 | h1) | h1 <;> exact h1.1
      refine ⟨h3, ?_⟩
      rcases hk pol h3 with h | h | h
      · unfold Policy.isK8sOrCalico at h
        cases e : pol.kind <;> simp [e, layerOf] at h h2
      · exact Or.inl h
      · exact Or.inr h.kind
    · rintro ⟨h1, h2 | h2⟩ <;> exact ⟨by simp [loadOrder, h1, h2], by rw [h2]; rfl⟩
  have fits : ∀ pol, pol ∈ layerList st.layers .istio ∧ pol.kind = .istioAuthz ↔ pol ∈ pols.filter (fun q => decide (q.kind = .istioAuthz)) := by
    intro pol
    rw [hmem, List.mem_filter, decide_eq_true_eq]
    exact ⟨fun h => ⟨h.1.1, h.2⟩, fun h => ⟨⟨h.1, Or.inl h.2⟩, h.2⟩⟩
  have allow : ∀ {pol : Policy (HC Dim (ISet ⊕ V2)) (ConnPeers W2 B)}, pol.action = .allow ↔ ¬ pol.action = .deny := by
    intro pol; cases pol.action <;> simp
  -- egress
  have cap : ∀ pol ∈ layerList st.layers .istio, ∀ e, pol.captures (connNet L2 B).toNet false e = true ↔
      pol.kind = .istioSidecar ∧ pol.affectsEgress = true ∧ (connNet L2 B).Q.mem e pol.selected = true := by
    intro pol hpol e
    rcases ((hmem pol).1 hpol).2 with h | h <;> simp [Policy.captures, Policy.governs, h]
  have each : ∀ pol ∈ layerList st.layers .istio,
      (if pol.captures (connNet L2 B).toNet false (endpoint (connNet L2 B).toNet false p) then pol.ruleVerdict (connNet L2 B).toNet false p else none) = none ∨
      (if pol.captures (connNet L2 B).toNet false (endpoint (connNet L2 B).toNet false p) then pol.ruleVerdict (connNet L2 B).toNet false p else none) = some .allow := by
    intro pol hpol
    split
    · rename_i h
      have hk' := ((cap pol hpol _).1 h).1
      unfold Policy.ruleVerdict
      rw [hk']
      dsimp only
      split
      · exact Or.inr rfl
      · exact Or.inl rfl
    · exact Or.inl rfl
  have ve : layerVerdict (connNet L2 B).toNet (layerList st.layers .istio) false p = some .allow ↔ SidecarRuled L2 pols p := by
    rw [layerVerdict, findSome_iff each]
    unfold SidecarRuled
    constructor
    · rintro ⟨pol, hpol, h⟩
      split at h
      · rename_i hc
        obtain ⟨c1, c2, c3⟩ := (cap pol hpol _).1 hc
        rcases (C25_policy_verdict _ _ _ _).1 h with ⟨h, _⟩ | ⟨_, _, h⟩ | ⟨h, _⟩
        · simp [Policy.isCalico, c1] at h
        · exact ⟨pol, ((hmem pol).1 hpol).1, c1, c2, c3, h⟩
        · simp [c1] at h
      · cases h
    · rintro ⟨pol, hpol, c1, c2, c3, h⟩
      have hpol' := (hmem pol).2 ⟨hpol, Or.inr c1⟩
      refine ⟨pol, hpol', ?_⟩
      rw [if_pos ((cap pol hpol' (endpoint (connNet L2 B).toNet false p)).2 ⟨c1, c2, c3⟩)]
      exact (C25_policy_verdict _ _ _ _).2 (Or.inr (Or.inl ⟨Or.inr c1, rfl, h⟩))
  have vn : layerVerdict (connNet L2 B).toNet (layerList st.layers .istio) false p ≠ some .deny := by
    intro h
    rw [layerVerdict] at h
    obtain ⟨pol, hpol, h⟩ := List.exists_of_findSome?_eq_some h
    rcases each pol hpol with e | e <;> rw [e] at h <;> cases h
  have oe : istioOpen (connNet L2 B).toNet (layerList st.layers .istio) false (endpoint (connNet L2 B).toNet false p) ↔ SidecarFree L2 pols p := by
    unfold istioOpen SidecarFree
    constructor
    · intro h pol hpol c1 c2
      have hpol' := (hmem pol).2 ⟨hpol, Or.inr c1⟩
      have := h pol hpol' fun h => by rcases h with h | h <;> rw [c1] at h <;> cases h
      rw [← Bool.not_eq_true] at this ⊢
      exact fun h => this ((cap pol hpol' _).2 ⟨c1, c2, h⟩)
    · intro h pol hpol _
      rw [← Bool.not_eq_true]
      intro hc
      obtain ⟨c1, c2, c3⟩ := (cap pol hpol _).1 hc
      have := h pol ((hmem pol).1 hpol).1 c1 c2
      rw [← Bool.not_eq_true] at this
      exact this c3
  -- ingress
  have hmatch : ∀ a, AuthzMatch (connNet L2 B).toNet pols a p ↔ ∃ pol ∈ pols.filter (fun q => decide (q.kind = .istioAuthz)), pol.action = a ∧
      (connNet L2 B).Q.mem (p.1 .dstPeers) pol.selected = true ∧ ∃ r ∈ pol.ingressRules, (connNet L2 B).K.mem p r.props = true := by
    intro a
    unfold AuthzMatch
    simp only [List.mem_filter, decide_eq_true_eq, and_assoc]
    exact Iff.rfl
  have mfit : ∀ a, AuthzMatch (connNet L2 B).toNet pols a p → Sender c src ∧ ∃ t ∈ ts, (a = .deny ↔ t.Denies) ∧ t.Applies c dst ∧ t.Matches V.sa c src q := by
    intro a h
    obtain ⟨pol, h1, h2, h3, h4⟩ := (hmatch a).1 h
    obtain ⟨t, h5, f⟩ := F' pol h1
    obtain ⟨k1, k2, k3⟩ := (f.mem p src dst q hq (ht t h5)).1 h4
    exact ⟨k1, t, h5, by rw [← h2]; exact f.deny, k2, k3⟩
  have fitm : Sender c src → q.proto = 6 → ∀ t ∈ ts, t.Applies c dst → t.Matches V.sa c src q →
      ∃ a, AuthzMatch (connNet L2 B).toNet pols a p ∧ (a = .deny ↔ t.Denies) := by
    intro k1 k2 t h1 k3 k4
    obtain ⟨pol, h2, f⟩ := forall₂_left F t h1
    exact ⟨pol.action, (hmatch _).2 ⟨pol, h2, rfl, (f.applies _ dst hq.dst).2 k3, (f.mem p src dst q hq (ht t h1)).2 k1 k2 k3 k4⟩, f.deny⟩
  have oi : istioOpen (connNet L2 B).toNet (layerList st.layers .istio) true (endpoint (connNet L2 B).toNet true p) ↔
      ∀ t ∈ ts, ¬ t.Denies → ¬ t.Applies c dst := by
    unfold istioOpen
    constructor
    · intro h t h1 h2 h3
      obtain ⟨pol, h4, f⟩ := forall₂_left F t h1
      have := h pol ((fits pol).2 h4).1 (fun _ => allow.2 (fun e => h2 (f.deny.1 e)))
      simp only [Policy.captures, Policy.governs, f.kind, Bool.true_and] at this
      have h5 := (f.applies _ dst hq.dst).2 h3
      change (connNet L2 B).Q.mem (p.1 .dstPeers) pol.selected = false at this
      rw [this] at h5; cases h5
    · intro h pol h1 h2
      rcases ((hmem pol).1 h1).2 with hz | hz
      swap
      · simp [Policy.captures, Policy.governs, hz]
      obtain ⟨t, h3, f⟩ := F' pol ((fits pol).1 ⟨h1, hz⟩)
      have hna : ¬ t.Applies c dst := h t h3 fun e => by
        have := h2 (Or.inl f.kind)
        rw [f.deny.2 e] at this; cases this
      rw [← Bool.not_eq_true]
      intro hc
      rw [Policy.captures, Bool.and_eq_true] at hc
      exact hna ((f.applies _ dst hq.dst).1 hc.2)
  have hsays : Sender c src → q.proto = 6 → (IstioSays V.sa c ts src dst q ↔
      ¬ AuthzMatch (connNet L2 B).toNet pols .deny p ∧ (AuthzMatch (connNet L2 B).toNet pols .allow p ∨
        istioOpen (connNet L2 B).toNet (layerList st.layers .istio) true (endpoint (connNet L2 B).toNet true p))) := by
    intro k1 k2
    rw [oi]
    unfold IstioSays
    refine and_congr ?_ (or_congr ?_ Iff.rfl)
    · constructor
      · intro h hm
        obtain ⟨_, t, h1, h2, h3, h4⟩ := mfit _ hm
        exact h t h1 (h2.1 rfl) h3 h4
      · intro h t h1 h2 h3 h4
        obtain ⟨a, hm, ha⟩ := fitm k1 k2 t h1 h3 h4
        rw [ha.2 h2] at hm
        exact h hm
    · constructor
      · rintro ⟨t, h1, h2, h3, h4⟩
        obtain ⟨a, hm, ha⟩ := fitm k1 k2 t h1 h3 h4
        cases a with
        | allow => exact hm
        | deny => exact absurd (ha.1 rfl) h2
      · intro hm
        obtain ⟨_, t, h1, h2, h3, h4⟩ := mfit _ hm
        exact ⟨t, h1, fun h => (by have := h2.2 h; cases this), h3, h4⟩
  -- the ends
  have tcp : (connNet L2 B).isTcp p = true ↔ q.proto = 6 := by
    change (connA A2 B).mem (p.1 .protocols) (.inl [⟨6, 6⟩]) = true ↔ _
    rw [hq.proto]
    refine (mem_inl A2 B _ _ (canonical_singleton.2 (by decide))).trans ?_
    rw [mem_singleton]; unfold Iv.Mem; dsimp only; omega
  have noDst : ∀ t : AuthText, t.Applies c dst → IsKind c dst [.pod] := by
    rintro t ⟨s, _, a, ha, he, hk, _⟩
    exact ⟨a, ha, he, by simp [hk]⟩
  have kinds : ∀ {E : Place} {e : Int ⊕ X2}, E.At rg c e → ((calicoPeers A2 W2 B rg c).workload (connNet L2 B).toNet e ↔ IsKind c E [.pod]) := by
    intro E e hE
    obtain ⟨s1, s2, _, _⟩ := calico_classes (A2 := A2) L2 hC hB hE
    unfold Peers.workload
    rw [s1, s2]
    constructor
    · rintro (⟨a, ha, he, hk⟩ | ⟨a, ha, he, hk⟩)
      · refine ⟨a, ha, he, ?_⟩
        rcases hI.cluster.kind a ha with ⟨h, _⟩ | ⟨h, _⟩ <;> simp [h] at hk ⊢
      · rcases hI.cluster.kind a ha with ⟨h, _⟩ | ⟨h, _⟩ <;> simp [h] at hk
    · rintro ⟨a, ha, he, hk⟩
      simp only [List.mem_cons, List.not_mem_nil, or_false] at hk
      exact Or.inl ⟨a, ha, he, by simp [hk]⟩
  obtain ⟨_, _, sd, si⟩ := calico_classes (A2 := A2) L2 hC hB hq.src
  obtain ⟨_, _, dd, di⟩ := calico_classes (A2 := A2) L2 hC hB hq.dst
  have sw := kinds hq.src
  have dw := kinds hq.dst
  have sender : Sender c src ↔ IsKind c src [.pod] ∨ ∃ x, src = .ip x := by
    have h1 := hq.src
    cases hs : src with
    | ip x => simp [Sender]
    | pod k =>
      simp only [Sender, reduceCtorEq, exists_false, or_false]
      constructor
      · rintro ⟨a, ha, he, hk⟩
        rcases hI.cluster.kind a ha with ⟨h, _⟩ | ⟨h, _⟩
        · exact ⟨a, ha, he, by simp [h]⟩
        · exact absurd h hk
      · rintro ⟨a, ha, he, hk⟩
        simp only [List.mem_cons, List.not_mem_nil, or_false] at hk
        exact ⟨a, ha, he, by simp [hk]⟩
  have hmD : AuthzMatch (connNet L2 B).toNet pols .deny p → Sender c src ∧ IsKind c dst [.pod] := fun h => by
    obtain ⟨h1, t, _, _, h2, _⟩ := mfit _ h; exact ⟨h1, noDst t h2⟩
  have hmA : AuthzMatch (connNet L2 B).toNet pols .allow p → Sender c src ∧ IsKind c dst [.pod] := fun h => by
    obtain ⟨h1, t, _, _, h2, _⟩ := mfit _ h; exact ⟨h1, noDst t h2⟩
  have hop : ¬ IsKind c dst [.pod] → istioOpen (connNet L2 B).toNet (layerList st.layers .istio) true (endpoint (connNet L2 B).toNet true p) := fun h =>
    oi.2 fun t _ _ h2 => h (noDst t h2)
  have hsv : SidecarRuled L2 pols p → IsKind c src [.pod] := by
    rintro ⟨pol, hpol, c1, _, c3, _⟩
    rcases hk pol hpol with h | h | h
    · simp [Policy.isK8sOrCalico, c1] at h
    · rw [c1] at h; cases h
    · exact h.pods _ src hq.src c3
  have hso : ¬ IsKind c src [.pod] → SidecarFree L2 pols p := by
    intro hn pol hpol c1 _
    rw [← Bool.not_eq_true]
    intro h'
    rcases hk pol hpol with h | h | h
    · simp [Policy.isK8sOrCalico, c1] at h
    · rw [c1] at h; cases h
    · exact hn (h.pods _ src hq.src h')
  have cs := place_cases hI hq.src
  have cd := place_cases hI hq.dst
  have e1 : (connNet L2 B).src p = p.1 .srcPeers := rfl
  have e2 : (connNet L2 B).dst p = p.1 .dstPeers := rfl
  unfold layerAllows
  change (istioAllows _ _ _ true p ∨ _) ∧ (istioAllows _ _ _ false p ∨ _) ↔ _
  unfold istioAllows istioDefault Peers.nonDns
  rw [ve, v2, Ne, v1, ← Bool.not_eq_true, tcp, oe]
  simp only [e1, e2, sw, dw, si, di, dd, vn, true_and, Bool.false_eq_true, if_false, if_true, reduceCtorEq, not_false_eq_true, false_or, ne_eq]
  generalize AuthzMatch (connNet L2 B).toNet pols .deny p = MD at *
  generalize AuthzMatch (connNet L2 B).toNet pols .allow p = MA at *
  generalize istioOpen (connNet L2 B).toNet (layerList st.layers .istio) true (endpoint (connNet L2 B).toNet true p) = O at *
  generalize SidecarRuled L2 pols p = SV at *
  generalize SidecarFree L2 pols p = SO at *
  clear v1 v2 F F' oi mfit fitm hmatch ve cap sw dw kinds sd si dd di tcp noDst hmem fits allow oe e1 e2 ht hk hb hB' vn each
  simp only [sender] at hmD hmA hsays ⊢
  exact istio_cases cs cd hw hmD hmA hop hsays hsv hso

/-- The name a document is known by, with its kind. -/
def AnyDoc.key (dflt : Ns) : AnyDoc → String × PolicyKind
  | .net d => d.key dflt
  | .istio name t => (t.ns.name ++ "/" ++ name, .istioAuthz)

omit L2 in
theorem queue_keys {dflt : Ns} {ds : List AnyDoc} {pols : List (Policy (HC Dim (ISet ⊕ V2)) (ConnPeers W2 B))}
    (h : queuePolicies K A2 W2 dfa V B ord rg c dflt ds = some pols) : pols.map (fun pol => (pol.name, pol.kind)) = ds.map (AnyDoc.key dflt) := by
  replace h := mapM_pairs h
  induction h with
  | nil => rfl
  | @cons d pol ds pols h1 _ ih =>
    rw [List.map_cons, List.map_cons, ih]
    congr 1
    cases d with
    | net d =>
      have h2 : docPolicies K A2 W2 B ord rg c dflt [d] = some [pol] := by
        have h1 : docPolicy K A2 W2 B ord rg c dflt d = some pol := h1
        unfold docPolicies
        rw [List.mapM_cons, h1]; rfl
      have := docs_keys h2
      simp only [List.map_cons, List.map_nil, List.cons.injEq, and_true] at this
      exact this
    | istio name t =>
      obtain ⟨P, _, rfl⟩ := Option.map_eq_some_iff.1 h1
      rfl

omit L2 in
theorem loadOrder_id {dflt : Ns} {ds : List AnyDoc} {pols : List (Policy (HC Dim (ISet ⊕ V2)) (ConnPeers W2 B))}
    (hp : queuePolicies K A2 W2 dfa V B ord rg c dflt ds = some pols) : loadOrder pols = pols := by
  have h : ∀ pol ∈ pols, pol.kind ≠ .gateway ∧ pol.kind ≠ .istioSidecar ∧ pol.kind ≠ .calicoProfile := by
    intro pol hpol
    have := List.mem_map_of_mem (f := fun pol => (pol.name, pol.kind)) hpol
    rw [queue_keys hp, List.mem_map] at this
    obtain ⟨d, _, hd⟩ := this
    have hk : pol.kind = (d.key dflt).2 := by rw [hd]
    rw [hk]
    cases d with
    | istio name t => simp [AnyDoc.key]
    | net d =>
      cases d with
      | k8s t => simp [AnyDoc.key, Doc.key]
      | calico name t => unfold AnyDoc.key Doc.key; dsimp only; cases t.isGlobal <;> simp
  unfold loadOrder
  rw [List.filter_eq_self.2 fun pol hpol => decide_eq_true (h pol hpol), List.filter_eq_nil_iff.2 fun pol hpol => by simpa using (h pol hpol).1,
    List.filter_eq_nil_iff.2 fun pol hpol => by simpa using (h pol hpol).2.1, List.append_nil, List.append_nil]

/-- What `C29_config_allows_partial` needs. -/
theorem config_ready (hK : K.Ok) (hC : CalCluster rg c) (hI : IstioCluster V rg c) (hD : DfaLib A2 W2 dfa word D) (hB : Covers rg c B)
    {dflt : Ns} {ds : List AnyDoc} {is : List Item} (hm : List.Forall₂ (Doc.Means K dflt) (ds.filterMap AnyDoc.net?) is) (hi : ∀ i ∈ is, i.Tame c)
    {src dst : Place} (ht : ∀ t ∈ ds.filterMap AnyDoc.istio?, t.Tame src)
    {pols : List (Policy (HC Dim (ISet ⊕ V2)) (ConnPeers W2 B))} (hp : queuePolicies K A2 W2 dfa V B ord rg c dflt ds = some pols)
    {sc : List (Policy (HC Dim (ISet ⊕ V2)) (ConnPeers W2 B))} (hsc : ∀ pol ∈ sc, SidecarOk L2 rg c pol)
    {st : PolicyStore (HC Dim (ISet ⊕ V2)) (ConnPeers W2 B)} (hb : PolicyStore.build (pols ++ sc) = some st)
    (p : Point (connA A2 B)) (r : Request) (hr : IsRequest word rg c p src dst r)
    (hdns : IsKind c dst [.dns] → ∃ E, IsKind c E [.pod] ∧ ∀ t ∈ ds.filterMap AnyDoc.istio?, ¬ t.Denies → ¬ t.Applies c E) :
    (∀ Ok, LegalPolicies (connNet L2 B).toNet Ok (HcStrongT (connA A2 B) (connWf W2 B) allDims) (pols ++ sc)) ∧
    (∀ pol ∈ pols ++ sc, pol.isCalico = true → ∀ isIngress, ∀ r ∈ pol.rules isIngress, r.action ≠ .pass) ∧
    (∀ e, (connNet L2 B).toNet.Q.mem e (calicoPeers A2 W2 B rg c).heps = false) ∧
    ∀ n, (∃ pol ∈ pols ++ sc, layerOf pol.kind = n) → DnsOk (connNet L2 B).toNet n (layerList st.layers n) (calicoPeers A2 W2 B rg c) p := by
  obtain ⟨hpd, FI, hkd⟩ := queue_fits L2 hC hI hD hB ht hp
  have FC := docs_fit L2 hK hC hB hm (fun _ _ => hI.cluster) hi hpd
  have FC' := forall₂_left (forall₂_swap FC)
  have FI' := forall₂_left (forall₂_swap FI)
  have hB' := build_built _ hb
  have inC : ∀ pol ∈ pols, pol.isK8sOrCalico = true → ∃ i ∈ is, Fits L2 B rg c i pol := fun pol h1 h2 => FC' pol (List.mem_filter.2 ⟨h1, h2⟩)
  have inI : ∀ pol ∈ pols, pol.kind = .istioAuthz → ∃ t ∈ ds.filterMap AnyDoc.istio?, AuthFits L2 V B rg c word t pol := fun pol h1 h2 =>
    FI' pol (List.mem_filter.2 ⟨h1, by simpa using h2⟩)
  have split : ∀ pol ∈ pols ++ sc, (∃ i ∈ is, Fits L2 B rg c i pol ∧ pol.isK8sOrCalico = true) ∨
      (∃ t ∈ ds.filterMap AnyDoc.istio?, AuthFits L2 V B rg c word t pol) ∨ SidecarOk L2 rg c pol := fun pol hpol => by
    rcases List.mem_append.1 hpol with hpol | hpol
    · rcases hkd pol hpol with h | h
      · obtain ⟨i, hi, f⟩ := inC pol hpol h; exact Or.inl ⟨i, hi, f, h⟩
      · exact Or.inr (Or.inl (inI pol hpol h))
    · exact Or.inr (Or.inr (hsc pol hpol))
  have hpass : ∀ pol ∈ pols ++ sc, pol.isCalico = true → ∀ isIngress, ∀ r ∈ pol.rules isIngress, r.action ≠ .pass := fun pol hpol hcal => by
    rcases split pol hpol with ⟨i, _, f, _⟩ | ⟨t, _, f⟩ | f
    · exact f.pass hcal
    · simp [Policy.isCalico, f.kind] at hcal
    · simp [Policy.isCalico, f.kind] at hcal
  have hlegal : ∀ Ok, LegalPolicies (connNet L2 B).toNet Ok (HcStrongT (connA A2 B) (connWf W2 B) allDims) (pols ++ sc) := fun _ => by
    refine ⟨fun pol hpol => ?_, Or.inr hpass⟩
    rcases split pol hpol with ⟨i, _, f, _⟩ | ⟨t, _, f⟩ | f
    · exact f.legal
    · exact f.legal
    · exact f.legal
  have hheps : ∀ a ∈ c, a.kind ≠ .hep := fun a ha h => by
    rcases hI.cluster.kind a ha with ⟨h1, _⟩ | ⟨h1, _⟩ <;> rw [h] at h1 <;> cases h1
  have noh := calico_no_heps (A2 := A2) (W2 := W2) L2 hC hB hheps
  have hdk : ∀ n, (∃ pol ∈ pols ++ sc, layerOf pol.kind = n) → DnsOk (connNet L2 B).toNet n (layerList st.layers n) (calicoPeers A2 W2 B rg c) p := by
    rintro n ⟨pol, hpol, rfl⟩
    have done : SomeOpen (connNet L2 B).toNet (layerList st.layers .istio) (calicoPeers A2 W2 B rg c) ∨
        (connNet L2 B).toNet.Q.mem ((connNet L2 B).toNet.dst p) (calicoPeers A2 W2 B rg c).dns = false := by
      by_cases hd : IsKind c dst [.dns]
      · left
        obtain ⟨E, ⟨a, ha, he, hka⟩, ho⟩ := hdns hd
        obtain ⟨k, hk1, hk2⟩ := hI.cluster.elem a ha
        have hE : E = .pod k := by
          cases E with
          | ip x => obtain ⟨b, hb, _⟩ := he; rw [hk1] at hb; cases hb
          | pod k' =>
            have : a.elem = .pod k' := he
            rw [hk1] at this; cases this; rfl
        obtain ⟨n, hn⟩ := List.mem_iff_getElem?.1 hk2
        have hAt : E.At rg c (.inl (minPodIndex + n) : Int ⊕ X2) := hE ▸ ⟨⟨a, ha, hk1⟩, n, rfl, hn⟩
        obtain ⟨s1, _, _, _⟩ := calico_classes (A2 := A2) (W2 := W2) L2 hC hB hAt
        refine ⟨_, Or.inl (s1.2 ⟨a, ha, he, by simp at hka; simp [hka]⟩), fun pol hpol hres => ?_⟩
        rw [hB'.mem_list] at hpol
        rcases split pol hpol.1 with ⟨_, _, _, h⟩ | ⟨t, h1, f⟩ | f
        · unfold Policy.isK8sOrCalico at h
          cases e : pol.kind <;> simp [e, layerOf] at h hpol
        swap
        · simp [Policy.captures, Policy.governs, f.kind]
        have hna : ¬ t.Applies c E := ho t h1 fun e => by
          have := hres (Or.inl f.kind)
          rw [f.deny.2 e] at this; cases this
        rw [← Bool.not_eq_true]
        intro hc
        rw [Policy.captures, Bool.and_eq_true] at hc
        exact hna ((f.applies _ E hAt).1 hc.2)
      · right
        obtain ⟨_, _, s3, _⟩ := calico_classes (A2 := A2) (W2 := W2) L2 hC hB hr.dst
        rw [← Bool.not_eq_true]
        exact fun h => hd (s3.1 h)
    rcases split pol hpol with ⟨_, _, _, h⟩ | ⟨_, _, h⟩ | h
    · unfold Policy.isK8sOrCalico at h
      cases e : pol.kind <;> simp [e] at h <;> trivial
    · rw [h.kind]; exact done
    · rw [h.kind]; exact done
  exact ⟨hlegal, hpass, noh, hdk⟩

omit L2 in
/-- Sidecars after the other policies. -/
theorem loadOrder_append {pols sc : List (Policy (HC Dim (ISet ⊕ V2)) (ConnPeers W2 B))} (hp : loadOrder pols = pols) (hsc : ∀ pol ∈ sc, pol.kind = .istioSidecar)
    (hn : ∀ pol ∈ pols, pol.kind ≠ .istioSidecar) : loadOrder (pols ++ sc) = pols ++ sc := by
  unfold loadOrder at hp ⊢
  have e1 : sc.filter (fun q => decide (q.kind ≠ .gateway ∧ q.kind ≠ .istioSidecar ∧ q.kind ≠ .calicoProfile)) = [] :=
    List.filter_eq_nil_iff.2 fun pol hpol => by simp [hsc pol hpol]
  have e2 : sc.filter (fun q => decide (q.kind = .gateway)) = [] := List.filter_eq_nil_iff.2 fun pol hpol => by simp [hsc pol hpol]
  have e3 : sc.filter (fun q => decide (q.kind = .istioSidecar)) = sc := List.filter_eq_self.2 fun pol hpol => by simp [hsc pol hpol]
  have e4 : pols.filter (fun q => decide (q.kind = .istioSidecar)) = [] := List.filter_eq_nil_iff.2 fun pol hpol => by simp [hn pol hpol]
  rw [e4, List.append_nil] at hp
  rw [List.filter_append, List.filter_append, List.filter_append, e1, e2, e3, e4, List.append_nil, List.append_nil, List.nil_append, hp]

/-- Sidecars come last. -/
theorem sidecars_last {dflt : Ns} {ds : List AnyDoc} {pols sc : List (Policy (HC Dim (ISet ⊕ V2)) (ConnPeers W2 B))}
    (hp : queuePolicies K A2 W2 dfa V B ord rg c dflt ds = some pols) (hsc : ∀ pol ∈ sc, SidecarOk L2 rg c pol) : loadOrder (pols ++ sc) = pols ++ sc :=
  loadOrder_append (loadOrder_id hp) (fun pol hpol => (hsc pol hpol).kind) fun pol hpol => by
    rcases (queue_fits_kinds hp) pol hpol with h | h
    · intro e; simp [Policy.isK8sOrCalico, e] at h
    · rw [h]; simp

omit L2 in
/-- Without policies everything is allowed. -/
theorem calico_empty (hI : IstioCluster V rg c) {src dst : Place} {e1 e2 : Int ⊕ X2} (h1 : src.At rg c e1) (h2 : dst.At rg c e2) (q : Conn) :
    CalicoSays rg c [] src dst q := by
  have ends : ∀ {E : Place} {e : Int ⊕ X2} d, E.At rg c e → EndAllows rg c [] d E src dst q := by
    intro E e d hE
    rcases place_cases hI hE with ⟨h, _⟩ | ⟨_, ⟨a, h1, h2, h3⟩, _⟩ | ⟨_, _, a, h1, h2, h3⟩
    · exact Or.inl h
    · exact Or.inr (Or.inr ⟨Or.inr (by simp), a, h1, h2, by simp at h3; simp [h3]⟩)
    · exact Or.inr (Or.inr ⟨Or.inr (by simp), a, h1, h2, by simp at h3; simp [h3]⟩)
  exact ⟨ends _ h2, ends _ h1⟩

/-- The connections of a configuration of Kubernetes and Calico policies, authorization policies and sidecars. -/
theorem config_core (hK : K.Ok) (hC : CalCluster rg c) (hI : IstioCluster V rg c) (hD : DfaLib A2 W2 dfa word D) (hB : Covers rg c B)
    {dflt : Ns} {ds : List AnyDoc} {is : List Item} (hm : List.Forall₂ (Doc.Means K dflt) (ds.filterMap AnyDoc.net?) is) (hi : ∀ i ∈ is, i.Tame c)
    {src dst : Place} (ht : ∀ t ∈ ds.filterMap AnyDoc.istio?, t.Tame src)
    {pols : List (Policy (HC Dim (ISet ⊕ V2)) (ConnPeers W2 B))} (hp : queuePolicies K A2 W2 dfa V B ord rg c dflt ds = some pols)
    {sc : List (Policy (HC Dim (ISet ⊕ V2)) (ConnPeers W2 B))} (hsc : ∀ pol ∈ sc, SidecarOk L2 rg c pol)
    {st : PolicyStore (HC Dim (ISet ⊕ V2)) (ConnPeers W2 B)} (hb : PolicyStore.build (pols ++ sc) = some st)
    (f : ConnFilter) (hf : f.calcAllAllowed = true) (p : Point (connA A2 B)) (q : Conn) (hq : IsConn rg c p src dst q)
    (r : Request) (hr : IsRequest word rg c p src dst r) (hw : IsKind c src [.pod] ∨ IsKind c dst [.pod])
    (hdns : IsKind c dst [.dns] → ∃ E, IsKind c E [.pod] ∧ ∀ t ∈ ds.filterMap AnyDoc.istio?, ¬ t.Denies → ¬ t.Applies c E) :
    (connNet L2 B).K.mem p (configConns (connNet L2 B).toNet (calicoPeers A2 W2 B rg c) st.layers f).allAllowed = true ↔
      CalicoSays rg c is src dst q ∧
      (ds.filterMap AnyDoc.istio? ≠ [] ∨ sc ≠ [] → Sender c src ∧ (IsKind c dst [.dns] → r.proto = 6) ∧
        (r.proto = 6 → IstioSays V.sa c (ds.filterMap AnyDoc.istio?) src dst r ∧ (SidecarRuled L2 sc p ∨ SidecarFree L2 sc p))) := by
  obtain ⟨hpd, FI, hkd⟩ := queue_fits L2 hC hI hD hB ht hp
  have FC := docs_fit L2 hK hC hB hm (fun _ _ => hI.cluster) hi hpd
  have FI' := forall₂_left (forall₂_swap FI)
  have hbo := hb
  rw [← sidecars_last L2 hp hsc] at hbo
  have hB' := build_built _ hb
  have inI : ∀ pol ∈ pols, pol.kind = .istioAuthz → ∃ t ∈ ds.filterMap AnyDoc.istio?, AuthFits L2 V B rg c word t pol := fun pol h1 h2 =>
    FI' pol (List.mem_filter.2 ⟨h1, by simpa using h2⟩)
  obtain ⟨hlegal, _, noh, hdk⟩ := config_ready L2 hK hC hI hD hB hm hi ht hp hsc hb p r hr hdns
  rw [C29_config_allows_partial (connNet_lawful L2 B).1.net (pols ++ sc) (hlegal _) hb (calicoPeers A2 W2 B rg c) f hf (Or.inr noh) p hdk]
  have hw' : IsKind c src [.pod, .hep] ∨ IsKind c dst [.pod, .hep] :=
    hw.imp (fun ⟨a, h1, h2, h3⟩ => ⟨a, h1, h2, by simp at h3; simp [h3]⟩) (fun ⟨a, h1, h2, h3⟩ => ⟨a, h1, h2, by simp at h3; simp [h3]⟩)
  have noC : sc.filter Policy.isK8sOrCalico = [] := List.filter_eq_nil_iff.2 fun pol hpol => by simp [Policy.isK8sOrCalico, (hsc pol hpol).kind]
  have noA : sc.filter (fun q => decide (q.kind = .istioAuthz)) = [] := List.filter_eq_nil_iff.2 fun pol hpol => by simp [(hsc pol hpol).kind]
  have FC2 : List.Forall₂ (Fits L2 B rg c) is ((pols ++ sc).filter Policy.isK8sOrCalico) := by rw [List.filter_append, noC, List.append_nil]; exact FC
  have FI2 : List.Forall₂ (AuthFits L2 V B rg c word) (ds.filterMap AnyDoc.istio?) ((pols ++ sc).filter (fun q => decide (q.kind = .istioAuthz))) := by
    rw [List.filter_append, noA, List.append_nil]; exact FI
  have kinds : ∀ pol ∈ pols ++ sc, pol.isK8sOrCalico = true ∨ pol.kind = .istioAuthz ∨ SidecarOk L2 rg c pol := fun pol hpol => by
    rcases List.mem_append.1 hpol with hpol | hpol
    · exact (hkd pol hpol).imp_right Or.inl
    · exact Or.inr (Or.inr (hsc pol hpol))
  have onlyS : ∀ pol ∈ pols, pol.kind ≠ .istioSidecar := fun pol hpol h => by
    rcases hkd pol hpol with h' | h'
    · simp [Policy.isK8sOrCalico, h] at h'
    · rw [h] at h'; cases h'
  have eR : SidecarRuled L2 (pols ++ sc) p ↔ SidecarRuled L2 sc p := by
    constructor
    · rintro ⟨pol, h1, h2, h3⟩
      exact ⟨pol, (List.mem_append.1 h1).resolve_left fun h => onlyS pol h h2, h2, h3⟩
    · rintro ⟨pol, h1, h2⟩; exact ⟨pol, List.mem_append_right _ h1, h2⟩
  have eF : SidecarFree L2 (pols ++ sc) p ↔ SidecarFree L2 sc p := by
    constructor
    · exact fun h pol hpol => h pol (List.mem_append_right _ hpol)
    · exact fun h pol hpol h2 => h pol ((List.mem_append.1 hpol).resolve_left fun h => onlyS pol h h2) h2
  have lay := calico_layer L2 hC hB FC2 hb p src dst q hq hw'
  have ist := istio_layer L2 hC hI hB FI2 kinds hbo p src dst r hr ht hw
  rw [eR, eF] at ist
  have pI : Present (connNet L2 B).toNet (pols ++ sc) (calicoPeers A2 W2 B rg c) .istio ↔ ds.filterMap AnyDoc.istio? ≠ [] ∨ sc ≠ [] := by
    constructor
    · rintro (⟨pol, h1, h2⟩ | ⟨h, _⟩)
      · rcases List.mem_append.1 h1 with h1 | h1
        · obtain ⟨t, h3, _⟩ := inI pol h1 ((hkd pol h1).resolve_left fun h => by
            unfold Policy.isK8sOrCalico at h
            cases e : pol.kind <;> simp [e, layerOf] at h h2)
          exact Or.inl (List.ne_nil_of_mem h3)
        · exact Or.inr (List.ne_nil_of_mem h1)
      · cases h
    · rintro (h | h)
      · obtain ⟨t, ht⟩ := List.exists_mem_of_ne_nil _ h
        obtain ⟨pol, h1, _⟩ := forall₂_left FI t ht
        rw [List.mem_filter, decide_eq_true_eq] at h1
        exact Or.inl ⟨pol, List.mem_append_left _ h1.1, by rw [h1.2]; rfl⟩
      · obtain ⟨pol, h1⟩ := List.exists_mem_of_ne_nil _ h
        exact Or.inl ⟨pol, List.mem_append_right _ h1, by rw [(hsc pol h1).kind]; rfl⟩
  -- without Kubernetes and Calico policies everything is allowed
  have none : ¬ Present (connNet L2 B).toNet (pols ++ sc) (calicoPeers A2 W2 B rg c) .k8sCalico → CalicoSays rg c is src dst q := by
    intro hn
    have hnil : is = [] := by
      rw [List.eq_nil_iff_forall_not_mem]
      intro i hi
      obtain ⟨pol, h1, _⟩ := forall₂_left FC i hi
      rw [List.mem_filter] at h1
      refine hn (Or.inl ⟨pol, List.mem_append_left _ h1.1, ?_⟩)
      have h := h1.2
      unfold Policy.isK8sOrCalico at h
      cases e : pol.kind <;> simp [e, layerOf] at h ⊢
    rw [hnil]
    exact calico_empty hI hr.src hr.dst q
  have only : ∀ n, Present (connNet L2 B).toNet (pols ++ sc) (calicoPeers A2 W2 B rg c) n → n = .k8sCalico ∨ n = .istio := by
    rintro n (⟨pol, h1, rfl⟩ | ⟨h, _⟩)
    · rcases kinds pol h1 with h | h | h
      · unfold Policy.isK8sOrCalico at h
        cases e : pol.kind <;> simp [e] at h <;> simp [layerOf]
      · rw [h]; simp [layerOf]
      · rw [h.kind]; simp [layerOf]
    · exact Or.inl h
  constructor
  · rintro ⟨_, _, h⟩
    refine ⟨?_, fun hts => ist.1 (h _ (pI.2 hts))⟩
    by_cases hp : Present (connNet L2 B).toNet (pols ++ sc) (calicoPeers A2 W2 B rg c) .k8sCalico
    · exact lay.1 (h _ hp)
    · exact none hp
  · rintro ⟨h1, h2⟩
    refine ⟨calico_known L2 hC hB hr.src, calico_known L2 hC hB hr.dst, fun n hn => ?_⟩
    rcases only n hn with rfl | rfl
    · exact lay.2 h1
    · exact ist.2 (h2 (pI.1 hn))

/-- C51: in a configuration of Kubernetes and Calico policies and authorization policies, a connection with a pod at one of
its ends is allowed exactly if the Kubernetes and Calico policies allow it (`CalicoSays`) and, if there are authorization
policies, it does not come from a DNS entry, it is TCP if it goes to a DNS entry, and if it is TCP then Istio's evaluation of
the authorization policies allows it.
PARTIAL: without the known defects of single texts (`Item.Tame`, `AuthText.Tame`) and `Pass` rules (C24), in clusters of pods
and DNS entries; connections to a DNS entry only if some pod has no ALLOW policy (`C26_dns_default_lost`). -/
theorem C51_config_partial (hK : K.Ok) (hC : CalCluster rg c) (hI : IstioCluster V rg c) (hD : DfaLib A2 W2 dfa word D) (hB : Covers rg c B)
    {dflt : Ns} {ds : List AnyDoc} {is : List Item} (hm : List.Forall₂ (Doc.Means K dflt) (ds.filterMap AnyDoc.net?) is) (hi : ∀ i ∈ is, i.Tame c)
    {src dst : Place} (ht : ∀ t ∈ ds.filterMap AnyDoc.istio?, t.Tame src)
    {pols : List (Policy (HC Dim (ISet ⊕ V2)) (ConnPeers W2 B))} (hp : queuePolicies K A2 W2 dfa V B ord rg c dflt ds = some pols)
    {st : PolicyStore (HC Dim (ISet ⊕ V2)) (ConnPeers W2 B)} (hb : PolicyStore.build (loadOrder pols) = some st)
    (f : ConnFilter) (hf : f.calcAllAllowed = true) (p : Point (connA A2 B)) (q : Conn) (hq : IsConn rg c p src dst q)
    (r : Request) (hr : IsRequest word rg c p src dst r) (hw : IsKind c src [.pod] ∨ IsKind c dst [.pod])
    (hdns : IsKind c dst [.dns] → ∃ E, IsKind c E [.pod] ∧ ∀ t ∈ ds.filterMap AnyDoc.istio?, ¬ t.Denies → ¬ t.Applies c E) :
    (connNet L2 B).K.mem p (configConns (connNet L2 B).toNet (calicoPeers A2 W2 B rg c) st.layers f).allAllowed = true ↔
      CalicoSays rg c is src dst q ∧
      (ds.filterMap AnyDoc.istio? ≠ [] → Sender c src ∧ (IsKind c dst [.dns] → r.proto = 6) ∧
        (r.proto = 6 → IstioSays V.sa c (ds.filterMap AnyDoc.istio?) src dst r)) := by
  rw [loadOrder_id hp, ← List.append_nil pols] at hb
  rw [config_core L2 hK hC hI hD hB hm hi ht hp (sc := []) (fun _ h => by cases h) hb f hf p q hq r hr hw hdns]
  have free : SidecarFree L2 ([] : List (Policy (HC Dim (ISet ⊕ V2)) (ConnPeers W2 B))) p := fun _ h => by cases h
  simp only [ne_eq, not_true_eq_false, or_false, free, or_true, and_true]

/-! ### Accepted configurations -/

include L2 in
/-- C51: a configuration of meaningful documents without the known defects is accepted exactly if the Kubernetes documents
are legal and no two documents of a kind have the same name (and namespace). -/
theorem C51_accepted_partial (hK : K.Ok) (hC : CalCluster rg c) (hI : IstioCluster V rg c) (hD : DfaLib A2 W2 dfa word D)
    {dflt : Ns} {ds : List AnyDoc} {is : List Item} (hm : List.Forall₂ (Doc.Means K dflt) (ds.filterMap AnyDoc.net?) is) (hi : ∀ i ∈ is, i.Tame c)
    (ht : ∀ t ∈ ds.filterMap AnyDoc.istio?, ∃ E, t.Tame E) :
    (∃ pols st, queuePolicies K A2 W2 dfa V B ord rg c dflt ds = some pols ∧ PolicyStore.build (loadOrder pols) = some st) ↔
      (∀ t, AnyDoc.net (.k8s t) ∈ ds → ∀ s, t.spec = some s → s.Legal) ∧ ds.Pairwise (fun a b => a.key dflt ≠ b.key dflt) := by
  have hone : ∀ d ∈ ds, (∃ a, anyPolicy K A2 W2 dfa V B ord rg c dflt d = some a) ↔ ∀ t, d = .net (.k8s t) → ∀ s, t.spec = some s → s.Legal := by
    intro d hd
    cases d with
    | istio name t =>
      simp only [reduceCtorEq, false_implies, implies_true, iff_true]
      obtain ⟨E, hE⟩ := ht t (List.mem_filterMap.2 ⟨_, hd, rfl⟩)
      obtain ⟨s, hs⟩ := Option.ne_none_iff_exists'.1 hE.given
      obtain ⟨P, e, _⟩ := C50_policy_partial L2 (ord := ord) hI hD hs (hE.action s hs) (hE.labels s hs) (fun r hr => ⟨E, hE.rules s hs r hr⟩)
      exact ⟨_, by rw [anyPolicy, e]; rfl⟩
    | net d =>
      obtain ⟨i, hi', hdi⟩ := forall₂_left hm d (List.mem_filterMap.2 ⟨_, hd, rfl⟩)
      have hw : List.Forall₂ (Doc.Means K dflt) [d] [i] := .cons hdi .nil
      have h := C49_accepted_partial (A2 := A2) (B := B) L2 (ord := ord) hK hC hw (fun _ _ => hI.cluster) (fun j hj => by
        rw [List.mem_singleton.1 hj]; exact hi i hi')
      have e1 : (∃ a, anyPolicy K A2 W2 dfa V B ord rg c dflt (.net d) = some a) ↔
          ∃ pols st, docPolicies K A2 W2 B ord rg c dflt [d] = some pols ∧ PolicyStore.build pols = some st := by
        unfold docPolicies
        constructor
        · rintro ⟨a, ha⟩
          have ha : docPolicy K A2 W2 B ord rg c dflt d = some a := ha
          obtain ⟨st, hst⟩ := (build_some_iff [a]).2 (by simp)
          exact ⟨[a], st, by rw [List.mapM_cons, ha]; rfl, hst⟩
        · rintro ⟨pols, _, h1, _⟩
          obtain ⟨a, ha⟩ := (K8sParser.mapM_defined _ _).1 ⟨pols, h1⟩ d (by simp)
          exact ⟨a, ha⟩
      rw [e1, h]
      simp [eq_comm]
  have hall : (∃ pols, queuePolicies K A2 W2 dfa V B ord rg c dflt ds = some pols) ↔ ∀ t, AnyDoc.net (.k8s t) ∈ ds → ∀ s, t.spec = some s → s.Legal := by
    unfold queuePolicies
    rw [K8sParser.mapM_defined]
    constructor
    · intro h t htm; exact (hone _ htm).1 (h _ htm) t rfl
    · intro h d hd; exact (hone d hd).2 fun t e => h t (e ▸ hd)
  have hnames : ∀ pols : List (Policy (HC Dim (ISet ⊕ V2)) (ConnPeers W2 B)), queuePolicies K A2 W2 dfa V B ord rg c dflt ds = some pols →
      ((∃ st, PolicyStore.build (loadOrder pols) = some st) ↔ ds.Pairwise (fun a b => a.key dflt ≠ b.key dflt)) := by
    intro pols hp
    rw [loadOrder_id hp, build_some_iff]
    have e1 : pols.Pairwise (fun a b => ¬ (a.name = b.name ∧ a.kind = b.kind)) ↔
        (pols.map (fun pol => (pol.name, pol.kind))).Pairwise (fun a b => a ≠ b) := by
      rw [List.pairwise_map]
      simp only [ne_eq, Prod.mk.injEq]
    rw [e1, queue_keys hp, List.pairwise_map]
  rw [← hall]
  constructor
  · rintro ⟨pols, st, h1, h2⟩
    exact ⟨⟨pols, h1⟩, (hnames pols h1).1 ⟨st, h2⟩⟩
  · rintro ⟨⟨pols, h1⟩, h2⟩
    obtain ⟨st, h3⟩ := (hnames pols h1).2 h2
    exact ⟨pols, st, h1, h3⟩

end
end IstioParser
end Verif
