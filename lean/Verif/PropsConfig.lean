import Verif.PropsPolicy
/-! Properties C27-C30: Kubernetes policies, Istio precedence, configurations, filters. -/
namespace Verif

section
variable {C P E S : Type} {N : Net C P E S} {Ok Strong : C → Prop}

theorem Built.forall_layers {pols : List (Policy C S)} {st : PolicyStore C S} (h : Built pols st) (hp : pols ≠ [])
    (Φ : LayerName × List (Policy C S) → Prop) :
    (∀ l ∈ st.layers, Φ l) ↔ ∀ n, layerList st.layers n ≠ [] → Φ (n, layerList st.layers n) := by
  constructor
  · intro hl n hn
    exact hl _ (layerList_mem hn)
  · rintro hl ⟨n, a⟩ hm
    obtain ⟨h1, h2⟩ := (h.mem_layers hp n a).1 hm
    subst h1
    exact hl n h2

/-- A layer takes part in a configuration with policies `pols`: some policy belongs to it; the
Kubernetes/Calico layer also if there are no policies at all or there are host endpoints. -/
def Present (N : Net C P E S) (pols : List (Policy C S)) (t : Peers S) (n : LayerName) : Prop :=
  (∃ pol ∈ pols, layerOf pol.kind = n) ∨ (n = .k8sCalico ∧ (pols = [] ∨ ∃ e, N.Q.mem e t.heps = true))

theorem Built.list_ne {pols : List (Policy C S)} {st : PolicyStore C S} (h : Built pols st) (n : LayerName) :
    layerList st.layers n ≠ [] ↔ ∃ pol ∈ pols, layerOf pol.kind = n := by
  constructor
  · intro hn
    obtain ⟨pol, hpol⟩ := List.exists_mem_of_ne_nil _ hn
    exact ⟨pol, (h.mem_list n pol).1 hpol⟩
  · rintro ⟨pol, h1, h2⟩ he
    have := (h.mem_list n pol).2 ⟨h1, h2⟩
    rw [he] at this; simp at this

theorem Built.effective {pols : List (Policy C S)} {st : PolicyStore C S} (h : Built pols st) (t : Peers S)
    (Φ : LayerName → List (Policy C S) → Prop) :
    (∀ l ∈ effectiveLayers N t st.layers, Φ l.1 l.2) ↔ ∀ n, Present N pols t n → Φ n (layerList st.layers n) := by
  by_cases hp : pols = []
  · have hi := h.init hp
    have he : effectiveLayers N t st.layers = [(.k8sCalico, [])] := by
      rw [hi]; simp [effectiveLayers, initLayers]
    have hll : ∀ n, layerList st.layers n = [] := by
      intro n; rw [hi]; cases n <;> simp [layerList, initLayers]
    rw [he]
    constructor
    · rintro hl n (⟨pol, h1, _⟩ | ⟨rfl, _⟩)
      · rw [hp] at h1; simp at h1
      · rw [hll]; exact hl (_, []) (by simp)
    · rintro hl ⟨n, a⟩ hm
      simp only [List.mem_singleton, Prod.mk.injEq] at hm
      obtain ⟨rfl, rfl⟩ := hm
      have := hl .k8sCalico (Or.inr ⟨rfl, Or.inl hp⟩)
      rwa [hll] at this
  · unfold effectiveLayers
    by_cases hc : (N.Q.truthy t.heps && !(st.layers.any (fun l => l.1 = .k8sCalico))) = true
    · rw [if_pos hc]
      rw [Bool.and_eq_true, Bool.not_eq_true', N.Q.truthy_iff] at hc
      obtain ⟨he, hno⟩ := hc
      have hll : layerList st.layers .k8sCalico = [] := by
        by_contra hne
        have := layerList_mem hne
        have h2 : st.layers.any (fun l => l.1 = .k8sCalico) = true := List.any_eq_true.2 ⟨_, this, by simp⟩
        rw [hno] at h2; exact absurd h2 (by simp)
      constructor
      · rintro hl n (hn | ⟨rfl, _⟩)
        · exact hl (n, _) (List.mem_cons_of_mem _ (layerList_mem ((h.list_ne n).2 hn)))
        · rw [hll]; exact hl (_, []) (by simp)
      · rintro hl ⟨n, a⟩ hm
        rcases List.mem_cons.1 hm with hm | hm
        · simp only [Prod.mk.injEq] at hm
          obtain ⟨rfl, rfl⟩ := hm
          have := hl .k8sCalico (Or.inr ⟨rfl, Or.inr he⟩)
          rwa [hll] at this
        · obtain ⟨h1, h2⟩ := (h.mem_layers hp n a).1 hm
          subst h1
          exact hl n (Or.inl ((h.list_ne n).1 h2))
    · rw [if_neg hc, h.forall_layers hp (fun l => Φ l.1 l.2)]
      constructor
      · rintro hl n (hn | ⟨rfl, hn | he⟩)
        · exact hl n ((h.list_ne n).2 hn)
        · exact absurd hn hp
        · have ht : N.Q.truthy t.heps = true := (N.Q.truthy_iff _).2 he
          rw [ht] at hc
          have hany : st.layers.any (fun l => l.1 = .k8sCalico) = true := by simpa using hc
          obtain ⟨⟨m, a⟩, hm, hk⟩ := List.any_eq_true.1 hany
          simp only [decide_eq_true_eq] at hk
          subst hk
          obtain ⟨h1, h2⟩ := (h.mem_layers hp _ a).1 hm
          exact hl _ (h1 ▸ h2)
      · intro hl n hn
        exact hl n (Or.inl ((h.list_ne n).1 hn))

/-- Legal policies of a configuration. -/
structure LegalPolicies (N : Net C P E S) (Ok Strong : C → Prop) (pols : List (Policy C S)) : Prop where
  legal : ∀ pol ∈ pols, pol.Legal N Strong
  exact : SubExact Ok Strong pols

theorem Built.legal {pols : List (Policy C S)} {st : PolicyStore C S} (h : Built pols st) (hl : LegalPolicies N Ok Strong pols) :
    LegalLayers N Ok Strong st.layers := by
  have hsub : ∀ l ∈ st.layers, ∀ pol ∈ l.2, pol ∈ pols := by
    rintro ⟨n, a⟩ hm pol hpol
    have := layerList_of_mem h.distinct hm
    subst this
    exact ((h.mem_list n pol).1 hpol).1
  exact ⟨fun l hm pol hpol => hl.legal pol (hsub l hm pol hpol), fun l hm => hl.exact.mono (hsub l hm)⟩

/-! ### C29 -/

/-- C29: the configuration allows a connection iff its ends are known peers and every present layer
allows it, on ingress of the destination and on egress of the source.
Full statement: without `hx` in `LegalPolicies`, `htame` and `hdns`.  Missing: Pass rules over
hyper-cube sets (C24); the default filter with host endpoints, where the code is wrong
(`C30_filter_hep_wrong`); DNS destinations when every workload is captured (`C26_dns_default_lost`). -/
theorem C29_config_allows_partial (L : N.Lawful Ok Strong) (pols : List (Policy C S)) (hl : LegalPolicies N Ok Strong pols)
    {st : PolicyStore C S} (hb : PolicyStore.build pols = some st) (t : Peers S) (f : ConnFilter) (hf : f.calcAllAllowed = true)
    (htame : f.calcAllowed = false ∨ ∀ e, N.Q.mem e t.heps = false) (p : P)
    (hdns : ∀ n, (∃ pol ∈ pols, layerOf pol.kind = n) → DnsOk N n (layerList st.layers n) t p) :
    N.K.mem p (configConns N t st.layers f).allAllowed = true ↔
      t.known N (N.src p) ∧ t.known N (N.dst p) ∧
      ∀ n, Present N pols t n → layerAllows N n (layerList st.layers n) t p := by
  have hB := build_built pols hb
  have ht : Tame N t f := by
    rcases htame with h | h
    · exact Or.inl h
    · refine Or.inr ?_
      rw [← Bool.not_eq_true, N.Q.truthy_iff]
      rintro ⟨e, he⟩
      rw [h e] at he; exact absurd he (by simp)
  obtain ⟨_, h1, h2⟩ := configConns_all L ht hf st.layers (hB.legal hl)
  have hd : ∀ l ∈ st.layers, DnsOk N l.1 l.2 t p := by
    rintro ⟨n, a⟩ hm
    by_cases hn : ∃ pol ∈ pols, layerOf pol.kind = n
    · have := hdns n hn
      rwa [layerList_of_mem hB.distinct hm] at this
    · have hnil : layerList st.layers n = [] := by
        by_contra hne; exact hn ((hB.list_ne n).1 hne)
      by_cases hp : pols = []
      · rw [hB.init hp] at hm
        simp only [initLayers, List.mem_singleton, Prod.mk.injEq] at hm
        rw [hm.1]; trivial
      · exact absurd ((layerList_of_mem hB.distinct hm).symm.trans hnil) (hB.noEmpty hp _ hm)
  rw [← hB.effective t (fun n a => layerAllows N n a t p)]
  exact ⟨h1 p, h2 p hd⟩

/-- C29, soundness without the DNS condition: nothing is allowed that some layer forbids. -/
theorem C29_config_sound_partial (L : N.Lawful Ok Strong) (pols : List (Policy C S)) (hl : LegalPolicies N Ok Strong pols)
    {st : PolicyStore C S} (hb : PolicyStore.build pols = some st) (t : Peers S) (f : ConnFilter) (hf : f.calcAllAllowed = true)
    (htame : f.calcAllowed = false ∨ ∀ e, N.Q.mem e t.heps = false) (p : P)
    (h : N.K.mem p (configConns N t st.layers f).allAllowed = true) :
    t.known N (N.src p) ∧ t.known N (N.dst p) ∧
      ∀ n, Present N pols t n → layerAllows N n (layerList st.layers n) t p := by
  have hB := build_built pols hb
  have ht : Tame N t f := by
    rcases htame with h | h
    · exact Or.inl h
    · refine Or.inr ?_
      rw [← Bool.not_eq_true, N.Q.truthy_iff]
      rintro ⟨e, he⟩
      rw [h e] at he; exact absurd he (by simp)
  rw [← hB.effective t (fun n a => layerAllows N n a t p)]
  exact (configConns_all L ht hf st.layers (hB.legal hl)).2.1 p h

/-- C29, denied connections (with host endpoints, any filter that asks for them): exactly those that the
deciding policy of some layer denies, where only the Kubernetes/Calico layer concerns host endpoints. -/
theorem C29_config_denied_partial (L : N.Lawful Ok Strong) (pols : List (Policy C S)) (hl : LegalPolicies N Ok Strong pols)
    {st : PolicyStore C S} (hb : PolicyStore.build pols = some st) (t : Peers S) (f : ConnFilter) (hf : f.calcDenied = true) (p : P) :
    N.K.mem p (configConns N t st.layers f).denied = true ↔
      ∃ n dir, FirstPolicy N (layerList st.layers n) dir p .deny ∧
        (n ≠ .k8sCalico → N.Q.mem (N.src p) t.heps = false ∧ N.Q.mem (N.dst p) t.heps = false) := by
  have hB := build_built pols hb
  rw [(configConns_denied L t hf st.layers (hB.legal hl)).2 p]
  constructor
  · rintro ⟨⟨n, a⟩, hm, h1, h2⟩
    have := layerList_of_mem hB.distinct hm
    subst this
    rcases h2 with h2 | h2
    · exact ⟨n, true, (layerVerdict_iff _ _ _ _).1 h2, h1⟩
    · exact ⟨n, false, (layerVerdict_iff _ _ _ _).1 h2, h1⟩
  · rintro ⟨n, dir, h1, h2⟩
    have hne : layerList st.layers n ≠ [] := by
      obtain ⟨before, pol, after, h3, _⟩ := h1
      rw [h3]; simp
    refine ⟨(n, layerList st.layers n), layerList_mem hne, h2, ?_⟩
    cases dir
    · exact Or.inr ((layerVerdict_iff _ _ _ _).2 h1)
    · exact Or.inl ((layerVerdict_iff _ _ _ _).2 h1)

/-- C29, captured pods: those captured in some direction by a policy; DENY authorization and gateway
policies do not count. -/
theorem C29_config_captured_partial (L : N.Lawful Ok Strong) (pols : List (Policy C S)) (hl : LegalPolicies N Ok Strong pols)
    {st : PolicyStore C S} (hb : PolicyStore.build pols = some st) (t : Peers S) (f : ConnFilter) (e : E) :
    N.Q.mem e (configConns N t st.layers f).captured = true ↔
      ∃ pol ∈ pols, pol.restricts ∧ ∃ dir, pol.captures N dir e = true := by
  have hB := build_built pols hb
  rw [configConns_captured L t f st.layers (hB.legal hl) e]
  constructor
  · rintro ⟨⟨n, a⟩, hm, h⟩
    have := layerList_of_mem hB.distinct hm
    subst this
    have : ∃ dir, layerCaptures N n (layerList st.layers n) dir e := by
      rcases h with h | h
      · exact ⟨true, h⟩
      · exact ⟨false, h⟩
    obtain ⟨dir, h⟩ := this
    cases n
    case k8sCalico | k8sGateway =>
      obtain ⟨pol, h1, h2⟩ := h
      obtain ⟨h3, h4⟩ := (hB.mem_list _ pol).1 h1
      refine ⟨pol, h3, ?_, dir, h2⟩
      rintro (hk | hk) <;> · rw [hk] at h4; simp [layerOf] at h4
    case istio | istioGateway =>
      obtain ⟨pol, h1, h2, h5⟩ := h
      exact ⟨pol, ((hB.mem_list _ pol).1 h1).1, h2, dir, h5⟩
  · rintro ⟨pol, h1, h2, dir, h3⟩
    have hm : pol ∈ layerList st.layers (layerOf pol.kind) := (hB.mem_list _ pol).2 ⟨h1, rfl⟩
    refine ⟨(layerOf pol.kind, _), layerList_mem (List.ne_nil_of_mem hm), ?_⟩
    have : layerCaptures N (layerOf pol.kind) (layerList st.layers (layerOf pol.kind)) dir e := by
      unfold layerCaptures
      split
      · exact ⟨pol, hm, h3⟩
      · exact ⟨pol, hm, h3⟩
      · exact ⟨pol, hm, h2, h3⟩
      · exact ⟨pol, hm, h2, h3⟩
    cases dir
    · exact Or.inr this
    · exact Or.inl this

/-! ### C30 -/

/-- C30.  Two filters, as the constructor makes them (asking for the allowed connections entails asking
for all allowed connections), give identical sets for the fields that both ask for.
Full statement: without the condition on `allAllowed`.  Missing: with host endpoints, all allowed
connections of a filter that asks for the allowed connections; the code is wrong there, see
`C30_filter_hep_wrong`. -/
theorem C30_filter_selects_partial (L : N.Lawful Ok Strong) (t : Peers S) (layers : Layers C S) (f g : ConnFilter)
    (hf : f.calcAllowed = true → f.calcAllAllowed = true) (hg : g.calcAllowed = true → g.calcAllAllowed = true) :
    (configConns N t layers f).captured = (configConns N t layers g).captured ∧
    (f.calcAllowed = true → g.calcAllowed = true → (configConns N t layers f).allowed = (configConns N t layers g).allowed) ∧
    (f.calcDenied = true → g.calcDenied = true → (configConns N t layers f).denied = (configConns N t layers g).denied) ∧
    ((∀ e, N.Q.mem e t.heps = false) ∨ f.calcAllowed = g.calcAllowed →
      f.calcAllAllowed = true → g.calcAllAllowed = true → (configConns N t layers f).allAllowed = (configConns N t layers g).allAllowed) := by
  have h := configConns_filter L t layers hf hg
  refine ⟨h.captured, h.allowed, h.denied, fun hc => h.allAllowed ?_⟩
  rcases hc with hc | hc
  · refine Or.inl ?_
    rw [← Bool.not_eq_true, N.Q.truthy_iff]
    rintro ⟨e, he⟩
    rw [hc e] at he; exact absurd he (by simp)
  · exact Or.inr hc

/-- C30: fields that are not asked for stay empty. -/
theorem C30_not_asked (t : Peers S) (pols : List (Policy C S)) (n : LayerName) (f : ConnFilter) :
    (f.calcAllowed = false → (layerConns N n pols t f).allowed = N.K.empty) ∧
    (f.calcDenied = false → (layerConns N n pols t f).denied = N.K.empty) ∧
    (f.calcAllAllowed = false → (layerConns N n pols t f).allAllowed = N.K.empty) := by
  refine ⟨fun h => ?_, fun h => ?_, fun h => ?_⟩ <;> simp [layerConns, h]

/-! ### C27 -/

/-- A direction of a set of Kubernetes policies allows a connection. -/
def k8sAllows (N : Net C P E S) (pols : List (Policy C S)) (t : Peers S) (dir : Bool) (p : P) : Prop :=
  (∃ pol ∈ pols, pol.captures N dir (endpoint N dir p) = true ∧ ∃ r ∈ pol.rules dir, N.K.mem p r.props = true) ∨
  ((∀ pol ∈ pols, pol.captures N dir (endpoint N dir p) = false) ∧
    t.hasDefault N (endpoint N dir p) ∧ t.known N (otherEnd N dir p))

theorem k8s_noPass {pols : List (Policy C S)} (hk : ∀ pol ∈ pols, pol.kind = .k8s) : NoPass pols := by
  intro pol hp hc
  rw [Policy.isCalico, hk pol hp] at hc
  exact absurd hc (by simp)

theorem k8s_allows_iff {pols : List (Policy C S)} (hk : ∀ pol ∈ pols, pol.kind = .k8s) (t : Peers S) (dir : Bool) (p : P) :
    calicoAllows N pols t dir p ↔ k8sAllows N pols t dir p := by
  have hv : ∀ a, layerVerdict N pols dir p = some a ↔
      a = .allow ∧ ∃ pol ∈ pols, pol.captures N dir (endpoint N dir p) = true ∧ ∃ r ∈ pol.rules dir, N.K.mem p r.props = true := by
    intro a
    rw [layerVerdict]
    constructor
    · intro h
      obtain ⟨pol, h1, h2⟩ := List.exists_of_findSome?_eq_some h
      split at h2
      · rename_i hc
        rcases (C25_policy_verdict pol dir p a).1 h2 with ⟨h3, _⟩ | ⟨_, h3, h4⟩ | ⟨h3, _⟩
        · rw [Policy.isCalico, hk pol h1] at h3; exact absurd h3 (by simp)
        · exact ⟨h3, pol, h1, hc, h4⟩
        · rw [hk pol h1] at h3; simp at h3
      · exact absurd h2 (by simp)
    · rintro ⟨rfl, pol, h1, h2, h3⟩
      have hsome : (pols.findSome? (fun pol => if pol.captures N dir (endpoint N dir p) then pol.ruleVerdict N dir p else none)).isSome = true := by
        rw [List.isSome_findSome?, List.any_eq_true]
        refine ⟨pol, h1, ?_⟩
        rw [if_pos h2, (C25_policy_verdict pol dir p .allow).2 (Or.inr (Or.inl ⟨Or.inl (hk pol h1), rfl, h3⟩))]
        rfl
      obtain ⟨a, ha⟩ := Option.isSome_iff_exists.1 hsome
      obtain ⟨pol', h1', h2'⟩ := List.exists_of_findSome?_eq_some ha
      split at h2'
      · rcases (C25_policy_verdict pol' dir p a).1 h2' with ⟨h4, _⟩ | ⟨_, h4, _⟩ | ⟨h4, _⟩
        · rw [Policy.isCalico, hk pol' h1'] at h4; exact absurd h4 (by simp)
        · rw [ha, h4]
        · rw [hk pol' h1'] at h4; simp at h4
      · exact absurd h2' (by simp)
  unfold calicoAllows k8sAllows
  rw [hv, hv]
  simp

/-- The two directions of a Kubernetes configuration. -/
def k8sConfigAllows (N : Net C P E S) (pols : List (Policy C S)) (t : Peers S) (p : P) : Prop :=
  t.known N (N.src p) ∧ t.known N (N.dst p) ∧
  (k8sAllows N pols t true p ∨ (t.workload N (N.src p) ∧ N.Q.mem (N.dst p) t.ips = true)) ∧
  (k8sAllows N pols t false p ∨ (N.Q.mem (N.src p) t.ips = true ∧ t.workload N (N.dst p)))

/-- C27, additivity: in a configuration of Kubernetes policies, added in any order, a connection is
allowed iff in each direction some policy capturing the pod has a rule for it, or no policy captures
the pod. -/
theorem C27_additive (L : N.Lawful Ok Strong) (pols : List (Policy C S)) (hk : ∀ pol ∈ pols, pol.kind = .k8s)
    (hl : ∀ pol ∈ pols, pol.Legal N Strong) {st : PolicyStore C S} (hb : PolicyStore.build pols = some st)
    (t : Peers S) (f : ConnFilter) (hf : f.calcAllAllowed = true)
    (htame : f.calcAllowed = false ∨ ∀ e, N.Q.mem e t.heps = false) (p : P) :
    N.K.mem p (configConns N t st.layers f).allAllowed = true ↔ k8sConfigAllows N pols t p := by
  have hB := build_built pols hb
  have hll : ∀ n, n ≠ .k8sCalico → layerList st.layers n = [] := by
    intro n hn
    by_contra hne
    obtain ⟨pol, h1, h2⟩ := (hB.list_ne n).1 hne
    rw [hk pol h1] at h2
    exact hn h2.symm
  have hmem : ∀ pol, pol ∈ layerList st.layers .k8sCalico ↔ pol ∈ pols := by
    intro pol
    rw [hB.mem_list]
    exact ⟨fun h => h.1, fun h => ⟨h, by rw [hk pol h]; rfl⟩⟩
  rw [C29_config_allows_partial L pols ⟨hl, Or.inr (k8s_noPass hk)⟩ hb t f hf htame p
    (by rintro n ⟨pol, h1, rfl⟩; rw [hk pol h1]; trivial)]
  unfold k8sConfigAllows
  have hkl : ∀ dir, calicoAllows N (layerList st.layers .k8sCalico) t dir p ↔ k8sAllows N pols t dir p := by
    intro dir
    rw [k8s_allows_iff (fun pol h => hk pol ((hmem pol).1 h))]
    unfold k8sAllows
    simp only [hmem]
  have hla : layerAllows N .k8sCalico (layerList st.layers .k8sCalico) t p ↔
      (k8sAllows N pols t true p ∨ (t.workload N (N.src p) ∧ N.Q.mem (N.dst p) t.ips = true)) ∧
      (k8sAllows N pols t false p ∨ (N.Q.mem (N.src p) t.ips = true ∧ t.workload N (N.dst p))) := by
    rw [← hkl, ← hkl]; rfl
  rw [← hla]
  have hpres : Present N pols t .k8sCalico := by
    by_cases hp : pols = []
    · exact Or.inr ⟨rfl, Or.inl hp⟩
    · obtain ⟨pol, hpol⟩ := List.exists_mem_of_ne_nil _ hp
      exact Or.inl ⟨pol, hpol, by rw [hk pol hpol]; rfl⟩
  constructor
  · rintro ⟨h1, h2, h3⟩; exact ⟨h1, h2, h3 _ hpres⟩
  · rintro ⟨h1, h2, h3⟩
    refine ⟨h1, h2, fun n hn => ?_⟩
    rcases hn with ⟨pol, h4, h5⟩ | ⟨rfl, _⟩
    · rw [hk pol h4] at h5
      have : n = .k8sCalico := h5.symm
      subst this; exact h3
    · exact h3

/-- C27, order independence: two configurations with the same Kubernetes policies, added in different
orders, allow the same connections. -/
theorem C27_order_irrelevant (L : N.Lawful Ok Strong) (pols pols' : List (Policy C S)) (hperm : pols.Perm pols')
    (hk : ∀ pol ∈ pols, pol.kind = .k8s) (hl : ∀ pol ∈ pols, pol.Legal N Strong)
    {st st' : PolicyStore C S} (hb : PolicyStore.build pols = some st) (hb' : PolicyStore.build pols' = some st')
    (t : Peers S) (f : ConnFilter) (hf : f.calcAllAllowed = true)
    (htame : f.calcAllowed = false ∨ ∀ e, N.Q.mem e t.heps = false) (p : P) :
    N.K.mem p (configConns N t st.layers f).allAllowed = N.K.mem p (configConns N t st'.layers f).allAllowed := by
  rw [Bool.eq_iff_iff, C27_additive L pols hk hl hb t f hf htame p,
    C27_additive L pols' (fun pol h => hk pol (hperm.mem_iff.2 h)) (fun pol h => hl pol (hperm.mem_iff.2 h)) hb' t f hf htame p]
  unfold k8sConfigAllows k8sAllows
  simp only [hperm.mem_iff]

/-- C27: if one order of the policies is accepted, every order is. -/
theorem C27_order_accepted (pols pols' : List (Policy C S)) (hperm : pols.Perm pols')
    {st : PolicyStore C S} (hb : PolicyStore.build pols = some st) : ∃ st', PolicyStore.build pols' = some st' := by
  rw [build_some_iff]
  refine (hperm.pairwise_iff ?_).1 ((build_some_iff pols).1 ⟨st, hb⟩)
  intro a b h hn
  exact h ⟨hn.1.symm, hn.2.symm⟩

/-- C27, monotonicity: adding a Kubernetes policy that captures, in each direction, only endpoints that
were captured already never removes an allowed connection. -/
theorem C27_adding_monotone (L : N.Lawful Ok Strong) (pols : List (Policy C S)) (new : Policy C S)
    (hk : ∀ pol ∈ pols ++ [new], pol.kind = .k8s) (hl : ∀ pol ∈ pols ++ [new], pol.Legal N Strong)
    (hcap : ∀ dir e, new.captures N dir e = true → ∃ pol ∈ pols, pol.captures N dir e = true)
    {st st' : PolicyStore C S} (hb : PolicyStore.build pols = some st) (hb' : PolicyStore.build (pols ++ [new]) = some st')
    (t : Peers S) (f : ConnFilter) (hf : f.calcAllAllowed = true)
    (htame : f.calcAllowed = false ∨ ∀ e, N.Q.mem e t.heps = false) (p : P)
    (h : N.K.mem p (configConns N t st.layers f).allAllowed = true) :
    N.K.mem p (configConns N t st'.layers f).allAllowed = true := by
  rw [C27_additive L pols (fun pol h => hk pol (by simp [h])) (fun pol h => hl pol (by simp [h])) hb t f hf htame p] at h
  rw [C27_additive L (pols ++ [new]) hk hl hb' t f hf htame p]
  have key : ∀ dir, k8sAllows N pols t dir p → k8sAllows N (pols ++ [new]) t dir p := by
    rintro dir (⟨pol, h1, h2⟩ | ⟨h1, h2⟩)
    · exact Or.inl ⟨pol, by simp [h1], h2⟩
    · refine Or.inr ⟨fun pol hp => ?_, h2⟩
      rcases List.mem_append.1 hp with hp | hp
      · exact h1 pol hp
      · simp only [List.mem_singleton] at hp
        subst hp
        rw [← Bool.not_eq_true]
        intro hc
        obtain ⟨q, h3, h4⟩ := hcap dir _ hc
        rw [h1 q h3] at h4; exact absurd h4 (by simp)
  exact ⟨h.1, h.2.1, h.2.2.1.imp_left (key true), h.2.2.2.imp_left (key false)⟩

/-! ### C28 -/

/-- Inserting authorization policies, then others, keeps DENY policies before ALLOW policies. -/
theorem authz_insert (qs : List (Policy C S)) : ∀ den alw : List (Policy C S),
    (∀ q ∈ qs, q.kind = .istioAuthz) → (∀ q ∈ den, q.kind = .istioAuthz ∧ q.action = .deny) →
    (∀ q ∈ alw, q.kind = .istioAuthz ∧ q.action = .allow) →
    qs.foldl (insort Policy.lt) (den ++ alw) =
      ((qs.filter (fun q => decide (q.action = .deny))).reverse ++ den) ++ (alw ++ qs.filter (fun q => decide (q.action = .allow))) := by
  induction qs with
  | nil => intro den alw _ _ _; simp
  | cons q qs ih =>
    intro den alw hq hd ha
    have hqk := hq q (by simp)
    have hall : ∀ y ∈ den ++ alw, y.kind = .istioAuthz := by
      intro y hy
      rcases List.mem_append.1 hy with hy | hy
      · exact (hd y hy).1
      · exact (ha y hy).1
    have hlt : ∀ y ∈ den ++ alw, q.lt y = decide (q.action = .deny) := by
      intro y hy
      unfold Policy.lt
      rw [hqk, hall y hy]
    rw [List.foldl_cons]
    cases hac : q.action
    · rw [insort_first _ _ (fun y hy => by rw [hlt y hy, hac]; rfl)]
      have := ih (q :: den) alw (fun x hx => hq x (by simp [hx])) (by
        intro x hx
        rcases List.mem_cons.1 hx with rfl | hx
        · exact ⟨hqk, hac⟩
        · exact hd x hx) ha
      rw [List.cons_append] at this
      rw [this, List.filter_cons_of_pos (by simp [hac]), List.filter_cons_of_neg (by simp [hac]), List.reverse_cons]
      simp
    · rw [insort_last _ _ (fun y hy => by rw [hlt y hy, hac]; rfl), List.append_assoc]
      have := ih den (alw ++ [q]) (fun x hx => hq x (by simp [hx])) hd (by
        intro x hx
        rcases List.mem_append.1 hx with hx | hx
        · exact ha x hx
        · simp only [List.mem_singleton] at hx; subst hx; exact ⟨hqk, hac⟩)
      rw [this, List.filter_cons_of_neg (by simp [hac]), List.filter_cons_of_pos (by simp [hac])]
      simp

theorem sidecar_insert (qs : List (Policy C S)) : ∀ acc : List (Policy C S), (∀ q ∈ qs, q.kind = .istioSidecar) →
    qs.foldl (insort Policy.lt) acc = acc ++ qs := by
  induction qs with
  | nil => intro acc _; simp
  | cons q qs ih =>
    intro acc hq
    rw [List.foldl_cons, insort_last _ _ (fun y _ => by simp [Policy.lt, hq q (by simp), Policy.getOrder]),
      ih _ (fun x hx => hq x (by simp [hx]))]
    simp

/-- The evaluation order of the Istio layer: DENY policies, ALLOW policies, sidecars. -/
theorem istio_list (queue : List (Policy C S)) {st : PolicyStore C S} (hb : PolicyStore.build (loadOrder queue) = some st) :
    ∃ den alw sc, layerList st.layers .istio = den ++ alw ++ sc ∧
      (∀ q, q ∈ den ↔ q ∈ queue ∧ q.kind = .istioAuthz ∧ q.action = .deny) ∧
      (∀ q, q ∈ alw ↔ q ∈ queue ∧ q.kind = .istioAuthz ∧ q.action = .allow) ∧
      (∀ q, q ∈ sc ↔ q ∈ queue ∧ q.kind = .istioSidecar) := by
  have hB := build_built _ hb
  have hf : (loadOrder queue).filter (fun q => decide (layerOf q.kind = .istio)) =
      queue.filter (fun q => decide (q.kind = .istioAuthz)) ++ queue.filter (fun q => decide (q.kind = .istioSidecar)) := by
    unfold loadOrder
    rw [List.filter_append, List.filter_append, List.filter_filter, List.filter_filter, List.filter_filter]
    have h2 : queue.filter (fun q => decide (layerOf q.kind = .istio) && decide (q.kind = .gateway)) = [] := by
      rw [List.filter_eq_nil_iff]
      intro q _ h
      simp only [Bool.and_eq_true, decide_eq_true_eq] at h
      rw [h.2] at h; simp [layerOf] at h
    rw [h2, List.append_nil]
    congr 1
    · congr 1; funext q; cases q.kind <;> simp [layerOf]
    · congr 1; funext q; cases q.kind <;> simp [layerOf]
  have h1 := authz_insert (queue.filter (fun q => decide (q.kind = .istioAuthz))) [] [] (fun q hq => by simpa using (List.mem_filter.1 hq).2)
    (by simp) (by simp)
  rw [List.append_nil, List.append_nil, List.nil_append] at h1
  refine ⟨((queue.filter (fun q => decide (q.kind = .istioAuthz))).filter (fun q => decide (q.action = .deny))).reverse,
    (queue.filter (fun q => decide (q.kind = .istioAuthz))).filter (fun q => decide (q.action = .allow)),
    queue.filter (fun q => decide (q.kind = .istioSidecar)), (hB.lists .istio).trans ?_, ?_, ?_, ?_⟩
  · rw [hf, List.foldl_append, h1, sidecar_insert _ _ (fun q hq => by simpa using (List.mem_filter.1 hq).2)]
  · intro q; simp only [List.mem_reverse, List.mem_filter, decide_eq_true_eq]; tauto
  · intro q; simp only [List.mem_filter, decide_eq_true_eq]; tauto
  · intro q; simp

/-- A policy of the queue captures the destination and has a rule for the connection. -/
def AuthzMatch (N : Net C P E S) (queue : List (Policy C S)) (a : PolicyAction) (p : P) : Prop :=
  ∃ pol ∈ queue, pol.kind = .istioAuthz ∧ pol.action = a ∧ N.Q.mem (N.dst p) pol.selected = true ∧
    ∃ r ∈ pol.ingressRules, N.K.mem p r.props = true

def PolicyAction.asRule : PolicyAction → RuleAction
  | .allow => .allow
  | .deny => .deny

open Classical in
theorem istio_ingress_verdict (queue : List (Policy C S)) {st : PolicyStore C S} (hb : PolicyStore.build (loadOrder queue) = some st) (p : P) :
    (layerVerdict N (layerList st.layers .istio) true p = some .deny ↔ AuthzMatch N queue .deny p) ∧
    (layerVerdict N (layerList st.layers .istio) true p = some .allow ↔ ¬ AuthzMatch N queue .deny p ∧ AuthzMatch N queue .allow p) := by
  obtain ⟨den, alw, sc, hlist, hd, ha, hs⟩ := istio_list queue hb
  have hv : ∀ (a : PolicyAction) (ps : List (Policy C S)), (∀ q, q ∈ ps ↔ q ∈ queue ∧ q.kind = .istioAuthz ∧ q.action = a) →
      layerVerdict N ps true p = if AuthzMatch N queue a p then some a.asRule else none := by
    intro a ps hps
    have h1 : ∀ v, layerVerdict N ps true p = some v → AuthzMatch N queue a p ∧ v = a.asRule := by
      intro v h
      rw [layerVerdict] at h
      obtain ⟨pol, hp, h2⟩ := List.exists_of_findSome?_eq_some h
      obtain ⟨h3, h4, h5⟩ := (hps pol).1 hp
      split at h2
      · rename_i hc
        simp only [Policy.captures, Bool.and_eq_true] at hc
        rcases (C25_policy_verdict pol true p v).1 h2 with ⟨h6, _⟩ | ⟨h6, _⟩ | ⟨_, h6, h7⟩
        · simp [Policy.isCalico, h4] at h6
        · simp [h4] at h6
        · refine ⟨⟨pol, h3, h4, h5, hc.2, h7⟩, ?_⟩
          rcases h6 with ⟨h8, h9⟩ | ⟨h8, h9⟩
          · rw [h9, ← h5, h8]; rfl
          · rw [h9, ← h5, h8]; rfl
      · exact absurd h2 (by simp)
    by_cases hm : AuthzMatch N queue a p
    · rw [if_pos hm]
      obtain ⟨pol, h3, h4, h5, h6, h7⟩ := hm
      have hp := (hps pol).2 ⟨h3, h4, h5⟩
      have hsome : (layerVerdict N ps true p).isSome = true := by
        rw [layerVerdict, List.isSome_findSome?, List.any_eq_true]
        refine ⟨pol, hp, ?_⟩
        have hc : pol.captures N true (endpoint N true p) = true := by
          simp [Policy.captures, Policy.governs, h4, endpoint, h6]
        rw [if_pos hc]
        have hm2 : anyMatch N p (pol.rules true) = true := by
          obtain ⟨r, hr, hr2⟩ := h7
          exact List.any_eq_true.2 ⟨r, hr, hr2⟩
        simp [Policy.ruleVerdict, h4, hm2]
      obtain ⟨v, hv⟩ := Option.isSome_iff_exists.1 hsome
      rw [hv, (h1 v hv).2]
    · rw [if_neg hm]
      cases hl : layerVerdict N ps true p with
      | none => rfl
      | some v => exact absurd (h1 v hl).1 hm
  have hsc : layerVerdict N sc true p = none := by
    rw [layerVerdict, List.findSome?_eq_none_iff]
    intro q hq
    have := ((hs q).1 hq).2
    simp [Policy.captures, Policy.governs, this]
  have happ : ∀ xs ys : List (Policy C S), layerVerdict N (xs ++ ys) true p = (layerVerdict N xs true p).or (layerVerdict N ys true p) := by
    intro xs ys
    unfold layerVerdict
    rw [List.findSome?_append]
  rw [hlist, happ, happ, hsc, hv .deny den hd, hv .allow alw ha]
  by_cases h1 : AuthzMatch N queue .deny p <;> by_cases h2 : AuthzMatch N queue .allow p <;> simp [h1, h2, PolicyAction.asRule]

/-- C28: whatever the order of the resources given to the loader, a TCP connection matched by a DENY
authorization policy is not allowed by the configuration, and (unless it involves a host endpoint,
which Istio does not police) it is reported as denied.
Full statement: without `SubExact` in `hl`.  Missing: Calico Pass rules over hyper-cube sets (C24). -/
theorem C28_deny_overrides_partial (L : N.Lawful Ok Strong) (queue : List (Policy C S)) (hl : LegalPolicies N Ok Strong (loadOrder queue))
    {st : PolicyStore C S} (hb : PolicyStore.build (loadOrder queue) = some st) (t : Peers S) (f : ConnFilter) (p : P)
    (htcp : N.isTcp p = true) (hm : AuthzMatch N queue .deny p) (hdst : N.Q.mem (N.dst p) t.ips = false) :
    (f.calcAllAllowed = true → (f.calcAllowed = false ∨ ∀ e, N.Q.mem e t.heps = false) →
      N.K.mem p (configConns N t st.layers f).allAllowed = false) ∧
    (f.calcDenied = true → N.Q.mem (N.src p) t.heps = false → N.Q.mem (N.dst p) t.heps = false →
      N.K.mem p (configConns N t st.layers f).denied = true) := by
  have hv := ((istio_ingress_verdict (N := N) queue hb p).1).2 hm
  have hpres : Present N (loadOrder queue) t .istio := by
    left
    obtain ⟨pol, h1, h2, _⟩ := hm
    exact ⟨pol, by simp [loadOrder, h1, h2], by rw [h2]; rfl⟩
  constructor
  · intro hf htame
    rw [← Bool.not_eq_true]
    intro hc
    have := (C29_config_sound_partial L _ hl hb t f hf htame p hc).2.2 .istio hpres
    rcases this.1 with h | h
    · rcases h with h | h | h
      · rw [hv] at h; simp at h
      · rw [htcp] at h; exact absurd h.1 (by simp)
      · exact h.2.1 hv
    · rw [hdst] at h; exact absurd h.2 (by simp)
  · intro hf h1 h2
    rw [C29_config_denied_partial L _ hl hb t f hf p]
    exact ⟨.istio, true, (layerVerdict_iff _ _ _ _).1 hv, fun _ => ⟨h1, h2⟩⟩

/-- C28, exact: on ingress the Istio layer allows a TCP connection of a workload iff no DENY policy
matches it and, if some ALLOW policy selects the workload, some ALLOW policy matches it. -/
theorem C28_istio_ingress_exact_partial (L : N.Lawful Ok Strong) (queue : List (Policy C S)) (hl : LegalPolicies N Ok Strong (loadOrder queue))
    {st : PolicyStore C S} (hb : PolicyStore.build (loadOrder queue) = some st) (t : Peers S) (f : ConnFilter) (hf : f.calcAllAllowed = true)
    (p : P) (htcp : N.isTcp p = true) (hsrc : t.nonDns N (N.src p)) (hdst : t.workload N (N.dst p)) (hnd : N.Q.mem (N.dst p) t.dns = false) :
    N.K.mem p (layerXgress N .istio (layerList st.layers .istio) true t f).allAllowed = true ↔
      ¬ AuthzMatch N queue .deny p ∧
      (AuthzMatch N queue .allow p ∨
        ∀ pol ∈ queue, pol.kind = .istioAuthz → pol.action = .allow → N.Q.mem (N.dst p) pol.selected = false) := by
  have hB := build_built _ hb
  have hsub : ∀ pol ∈ layerList st.layers .istio, pol ∈ loadOrder queue := fun pol h => ((hB.mem_list _ _).1 h).1
  have h := ((layerXgress_spec L .istio (layerList st.layers .istio) (fun pol h => hl.legal pol (hsub pol h)) (hl.exact.mono hsub)
    true t f).2.2.2.1 hf).2 p (fun _ => Or.inr hnd)
  refine h.trans ?_
  obtain ⟨v1, v2⟩ := istio_ingress_verdict (N := N) queue hb p
  obtain ⟨den, alw, sc, hlist, hd, ha, hs⟩ := istio_list queue hb
  have hopen : istioOpen N (layerList st.layers .istio) true (endpoint N true p) ↔
      ∀ pol ∈ queue, pol.kind = .istioAuthz → pol.action = .allow → N.Q.mem (N.dst p) pol.selected = false := by
    unfold istioOpen
    rw [hlist]
    constructor
    · intro ho pol h1 h2 h3
      have := ho pol (by simp [(ha pol).2 ⟨h1, h2, h3⟩]) (fun _ => h3)
      simpa [Policy.captures, Policy.governs, h2, endpoint] using this
    · intro ho pol hp hr
      rcases List.mem_append.1 hp with hp | hp
      · rcases List.mem_append.1 hp with hp | hp
        · obtain ⟨_, h2, h3⟩ := (hd pol).1 hp
          have := hr (Or.inl h2)
          rw [h3] at this; simp at this
        · obtain ⟨h1, h2, h3⟩ := (ha pol).1 hp
          have := ho pol h1 h2 h3
          simp [Policy.captures, endpoint, this]
      · have := ((hs pol).1 hp).2
        simp [Policy.captures, Policy.governs, this]
  have hdef : istioDefault N t true p := by
    simp only [istioDefault, if_true]
    exact ⟨hsrc, Or.inl hdst⟩
  change istioAllows N (layerList st.layers .istio) t true p ↔ _
  unfold istioAllows
  rw [v2, hopen, Ne, v1, htcp]
  simp only [hdef, and_true, Bool.true_eq_false, false_and, false_or]
  tauto

end
end Verif
