import Verif.PropsRedundancy
/-!
C35 (vacuity, emptiness, disjointness), C41 (captured pods) and C42 (strong equivalence).
-/
namespace Verif

section
variable {C P E S : Type} {N : NetQ C P E S} {Ok Strong Wide Canon : C → Prop}

/-! ### Vacuity -/

/-- What is allowed when there are no policies: pods and DNS entries are open, host endpoints are closed,
external addresses are not policed. -/
def Baseline (N : NetQ C P E S) (t : Peers S) (p : P) : Prop :=
  t.known N.toNet (N.src p) ∧ t.known N.toNet (N.dst p) ∧
  (t.hasDefault N.toNet (N.dst p) ∨ (t.workload N.toNet (N.src p) ∧ N.Q.mem (N.dst p) t.ips = true)) ∧
  (t.hasDefault N.toNet (N.src p) ∨ (N.Q.mem (N.src p) t.ips = true ∧ t.workload N.toNet (N.dst p)))

/-- Without host endpoints everything is allowed that queries are about. -/
theorem baseline_no_heps {t : Peers S} (W : World N t) (hh : ∀ e, N.Q.mem e t.heps = false) (excl : Bool) {p : P} (hr : Relevant N t excl p) :
    Baseline N t p ↔ t.known N.toNet (N.src p) ∧ t.known N.toNet (N.dst p) := by
  unfold Baseline
  constructor
  · rintro ⟨h1, h2, _⟩; exact ⟨h1, h2⟩
  · rintro ⟨h1, h2⟩
    refine ⟨h1, h2, ?_, ?_⟩
    · rcases h2 with ((h | h) | h) | h
      · exact Or.inl (Or.inl h)
      · rw [hh] at h; exact absurd h (by simp)
      · have hip := (W.ips _).1 h
        rcases h1 with ((k | k) | k) | k
        · exact Or.inr ⟨Or.inl k, h⟩
        · rw [hh] at k; exact absurd k (by simp)
        · exact absurd ⟨(W.ips _).1 k, Or.inl hip⟩ hr.1
        · rw [hr.2.1] at k; exact absurd k (by simp)
      · exact Or.inl (Or.inr h)
    · rcases h1 with ((h | h) | h) | h
      · exact Or.inl (Or.inl h)
      · rw [hh] at h; exact absurd h (by simp)
      · have hip := (W.ips _).1 h
        rcases h2 with ((k | k) | k) | k
        · exact Or.inr ⟨h, Or.inl k⟩
        · rw [hh] at k; exact absurd k (by simp)
        · exact absurd ⟨hip, Or.inl ((W.ips _).1 k)⟩ hr.1
        · exact absurd ⟨hip, Or.inr k⟩ hr.1
      · exact Or.inl (Or.inr h)

/-- `g` is `c` without the Ingress and Gateway policies. -/
structure NoGateways (c g : Config C S) : Prop where
  peers : g.peers = c.peers
  services : g.services = c.services
  store : PolicyStore.build (c.store.policies.filter (fun q => decide (q.kind ≠ .ingress ∧ q.kind ≠ .gateway))) = some g.store

theorem NoGateways.unique {c g g' : Config C S} (h : NoGateways c g) (h' : NoGateways c g') : g = g' := by
  obtain ⟨gp, gs, gst⟩ := g
  obtain ⟨gp', gs', gst'⟩ := g'
  obtain ⟨h1, h2, h3⟩ := h
  obtain ⟨h1', h2', h3'⟩ := h'
  dsimp only at *
  rw [h3, Option.some.injEq] at h3'
  subst h1 h2 h3' h1' h2'
  rfl

theorem withoutPolicies_good {c : Config C S} (G : c.Good N Ok Strong) : c.withoutPolicies.Good N Ok Strong := by
  obtain ⟨st, h1, h2, h3⟩ := G.part (ps := []) (List.nil_sublist _)
  have : st = PolicyStore.empty := by
    unfold PolicyStore.build at h1
    simpa using h1.symm
  subst this
  exact h2

theorem withoutPolicies_allows (c : Config C S) (p : P) : c.withoutPolicies.allowsIn N none p ↔ Baseline N c.peers p := by
  have hl : effectiveLayers N.toNet c.peers (PolicyStore.empty : PolicyStore C S).layers = [(.k8sCalico, [])] := by
    unfold effectiveLayers
    rw [if_neg]
    · rfl
    · simp [PolicyStore.empty, initLayers]
  change configAllows N.toNet c.peers (PolicyStore.empty : PolicyStore C S).layers p ↔ _
  unfold configAllows
  rw [hl]
  simp only [List.mem_singleton, forall_eq]
  unfold layerAllows layerDirAllows calicoAllows Baseline
  simp only [layerVerdict, List.findSome?_nil, List.not_mem_nil, false_implies, implies_true, or_true, true_and, reduceCtorEq, false_or]
  simp only [endpoint, otherEnd, if_true, if_false, Bool.false_eq_true]
  constructor
  · rintro ⟨a, b, d, e⟩
    exact ⟨a, b, d.imp (fun h => h.1) id, e.imp (fun h => h.1) id⟩
  · rintro ⟨a, b, d, e⟩
    exact ⟨a, b, d.imp (fun h => ⟨h, a⟩) id, e.imp (fun h => ⟨h, b⟩) id⟩

theorem policiesEq_nil {ps : List (Policy C S)} (h : policiesEq N ps [] = true) : ps = [] := by
  unfold policiesEq at h
  rw [Bool.and_eq_true, decide_eq_true_eq] at h
  exact List.length_eq_zero_iff.1 h.1

theorem vacuity_ex {c : Config C S} (G : c.Good N Ok Strong) : ∃ g, c.withoutGateways = some g ∧ g.Good N Ok Strong ∧ NoGateways c g := by
  obtain ⟨g, h1, h2, h3, h4, h5⟩ := withoutGateways_spec G
  exact ⟨g, h1, h2, h3, h4, by rw [← h5]; exact h2.built⟩

/-- C35, vacuity: the query answers; "vacuous" means that without its gateways the configuration allows
what is allowed without policies, and when IPv6 addresses are excluded it answers so exactly in this case.
Full statement: without `hs` and `excl`, and the restrictions of `Config.Good`; see `C31_empty_wrong` and
`C31_incomplete_wrong`. -/
theorem C35_vacuity_partial (L : N.Lawful Ok Strong Wide) (excl : Bool) {c : Config C S} (G : c.Good N Ok Strong)
    (hs : ∀ g, NoGateways c g → g.Solid N) :
    ∃ b, vacuityQuery N excl c = some b ∧ (∃ g, NoGateways c g) ∧ ∀ g, NoGateways c g →
      (b = true → ∀ p, Relevant N c.peers excl p → (g.allows N p ↔ Baseline N c.peers p)) ∧
      (N.Exact Ok Strong Canon → excl = true → (∀ p, Relevant N c.peers excl p → (g.allows N p ↔ Baseline N c.peers p)) → b = true) := by
  obtain ⟨g, h1, h2, h3⟩ := vacuity_ex G
  refine ⟨_, by unfold vacuityQuery; rw [h1]; rfl, ⟨g, h3⟩, fun g' hg' => ?_⟩
  have := h3.unique hg'
  subst this
  have G0 := withoutPolicies_good G
  have hs' : (none : Option LayerName) = none → g.Solid N ∧ c.withoutPolicies.Solid N := fun _ => ⟨hs g h3, by
    right
    have hp : c.withoutPolicies.peers = c.peers := rfl
    unfold effectiveLayers
    rw [if_neg]
    · exact Nat.le_refl 1
    · simp [Config.withoutPolicies, PolicyStore.empty, initLayers]⟩
  have ho : policiesEq N g.store.policies c.withoutPolicies.store.policies = true → SameOrder N g c.withoutPolicies := by
    intro h
    left
    have : g.store.policies = [] := policiesEq_nil h
    rw [this]
    rfl
  have hst : SameTopology N g c.withoutPolicies := by
    refine ⟨fun e => ?_, fun e => ?_, fun e => ?_, h3.services⟩ <;> rw [h3.peers] <;> rfl
  have key : SameAllowed N excl none g c.withoutPolicies ↔ ∀ p, Relevant N c.peers excl p → (g.allows N p ↔ Baseline N c.peers p) := by
    unfold SameAllowed
    rw [h3.peers]
    exact forall_congr' (fun p => by rw [withoutPolicies_allows]; rfl)
  refine ⟨fun hb => key.1 (equiv_sound L excl none h2 G0 hs' ho hb), fun X he h => ?_⟩
  exact (equiv_exact L X excl none h2 G0 hs' ho (Or.inl he) hst).2 (key.2 h)

/-- C35, vacuity without host endpoints: "vacuous" means that without its gateways the configuration
allows every connection between its peers that queries are about. -/
theorem C35_vacuity_pods_partial (L : N.Lawful Ok Strong Wide) (excl : Bool) {c : Config C S} (G : c.Good N Ok Strong)
    (hs : ∀ g, NoGateways c g → g.Solid N) (hh : ∀ e, N.Q.mem e c.peers.heps = false) :
    ∃ b, vacuityQuery N excl c = some b ∧ (∃ g, NoGateways c g) ∧ ∀ g, NoGateways c g →
      (b = true → ∀ p, Relevant N c.peers excl p → c.peers.known N.toNet (N.src p) → c.peers.known N.toNet (N.dst p) → g.allows N p) ∧
      (N.Exact Ok Strong Canon → excl = true →
        (∀ p, Relevant N c.peers excl p → c.peers.known N.toNet (N.src p) → c.peers.known N.toNet (N.dst p) → g.allows N p) → b = true) := by
  obtain ⟨b, h1, h2, h3⟩ := C35_vacuity_partial (Canon := Canon) L excl G hs
  refine ⟨b, h1, h2, fun g hg => ⟨fun hb p hr k1 k2 => ?_, fun X he h => (h3 g hg).2 X he (fun p hr => ?_)⟩⟩
  · exact ((h3 g hg).1 hb p hr).2 ((baseline_no_heps G.world hh excl hr).2 ⟨k1, k2⟩)
  · rw [baseline_no_heps G.world hh excl hr]
    refine ⟨fun ha => ?_, fun hk => h p hr hk.1 hk.2⟩
    have ha' : configAllows N.toNet g.peers g.store.layers p := ha
    unfold configAllows at ha'
    rw [hg.peers] at ha'
    exact ⟨ha'.1, ha'.2.1⟩

/-! ### Emptiness -/

/-- Nobody belongs to the set. -/
def Nobody (N : NetQ C P E S) (s : S) : Prop := ∀ e, N.Q.mem e s = false

theorem truthy_nobody (s : S) : (!N.Q.truthy s) = true ↔ Nobody N s := by
  unfold Nobody
  rw [Bool.not_eq_true', ← Bool.not_eq_true, N.Q.truthy_iff]
  constructor
  · intro h e
    cases hm : N.Q.mem e s with
    | false => rfl
    | true => exact absurd ⟨e, hm⟩ h
  · rintro h ⟨e, he⟩
    rw [h e] at he
    exact absurd he (by simp)

theorem mem_emptyIdx (rs : List (RulePeers S)) : ∀ k j, j ∈ emptyIdx N k rs ↔ ∃ (i : Nat) (r : RulePeers S), j = i + k ∧ rs[i]? = some r ∧ ∃ s ∈ r, Nobody N s := by
  induction rs with
  | nil => intro k j; simp [emptyIdx]
  | cons r rs ih =>
    intro k j
    have hr : (r.any (fun s => !N.Q.truthy s)) = true ↔ ∃ s ∈ r, Nobody N s := by
      rw [List.any_eq_true]
      exact exists_congr (fun s => and_congr_right (fun _ => truthy_nobody s))
    have tail : (∃ (i : Nat) (r' : RulePeers S), j = i + (k + 1) ∧ rs[i]? = some r' ∧ ∃ s ∈ r', Nobody N s) ↔
        ∃ (i : Nat) (r' : RulePeers S), j = (i + 1) + k ∧ (r :: rs)[i + 1]? = some r' ∧ ∃ s ∈ r', Nobody N s := by
      refine exists_congr (fun i => exists_congr (fun r' => ?_))
      rw [List.getElem?_cons_succ, show i + (k + 1) = (i + 1) + k by omega]
    unfold emptyIdx
    split
    · rename_i h
      rw [List.mem_cons, ih (k + 1) j, tail]
      constructor
      · rintro (rfl | ⟨i, r', h1, h2, h3⟩)
        · exact ⟨0, r, by omega, rfl, hr.1 h⟩
        · exact ⟨i + 1, r', h1, h2, h3⟩
      · rintro ⟨i, r', h1, h2, h3⟩
        cases i with
        | zero => left; omega
        | succ i => right; exact ⟨i, r', h1, h2, h3⟩
    · rename_i h
      rw [ih (k + 1) j, tail]
      constructor
      · rintro ⟨i, r', h1, h2, h3⟩
        exact ⟨i + 1, r', h1, h2, h3⟩
      · rintro ⟨i, r', h1, h2, h3⟩
        cases i with
        | zero =>
          rw [List.getElem?_cons_zero, Option.some.injEq] at h2
          subst h2
          exact absurd (hr.2 h3) h
        | succ i => exact ⟨i, r', h1, h2, h3⟩

theorem emptyIdx_sorted (rs : List (RulePeers S)) : ∀ k, (emptyIdx N k rs).Pairwise (· < ·) := by
  induction rs with
  | nil => intro k; simp [emptyIdx]
  | cons r rs ih =>
    intro k
    unfold emptyIdx
    split
    · rw [List.pairwise_cons]
      refine ⟨fun j hj => ?_, ih (k + 1)⟩
      obtain ⟨i, _, h, _⟩ := (mem_emptyIdx rs (k + 1) j).1 hj
      omega
    · exact ih (k + 1)

/-- The peers of a rule that the connections of the rule are about: `peerSets` restrict the sources and
destinations of the rule. -/
structure EPolicy.Tied (N : NetQ C P E S) (e : EPolicy C S) : Prop where
  lengthIn : e.ingressPeers.length = e.pol.ingressRules.length
  lengthEg : e.egressPeers.length = e.pol.egressRules.length
  inside : ∀ (dir : Bool) (i : Nat) (r : Rule C) (ps : RulePeers S), (e.pol.rules dir)[i]? = some r → (if dir then e.ingressPeers else e.egressPeers)[i]? = some ps →
    ∀ s ∈ ps, ∀ p, N.K.mem p r.props = true → N.Q.mem (N.src p) s = true ∨ N.Q.mem (N.dst p) s = true
  shaped : e.pol.Shaped

/-- C35, emptiness: a policy is reported exactly if it selects nobody, rule number `i + 1` exactly if one of
its peer sets selects nobody; indices are reported once and in order, and the number reported is the number
of findings. -/
theorem C35_empty (es : List (EPolicy C S)) :
    (emptinessQuery N es).1.length = es.length ∧
    (∀ (j : Nat) (e : EPolicy C S), es[j]? = some e → ∃ f : EmptyFinding, (emptinessQuery N es).1[j]? = some f ∧ f.name = e.pol.name ∧ f.kind = e.pol.kind ∧
      (f.emptyPolicy = true ↔ Nobody N e.pol.selected) ∧
      (∀ k, k ∈ f.ingress ↔ e.pol.kind ≠ .istioSidecar ∧ ∃ (i : Nat) (ps : RulePeers S), k = i + 1 ∧ e.ingressPeers[i]? = some ps ∧ ∃ s ∈ ps, Nobody N s) ∧
      (∀ k, k ∈ f.egress ↔ e.pol.kind ≠ .istioAuthz ∧ ∃ (i : Nat) (ps : RulePeers S), k = i + 1 ∧ e.egressPeers[i]? = some ps ∧ ∃ s ∈ ps, Nobody N s) ∧
      f.ingress.Pairwise (· < ·) ∧ f.egress.Pairwise (· < ·)) ∧
    ((emptinessQuery N es).2 = 0 ↔ ∀ f ∈ (emptinessQuery N es).1, f.emptyPolicy = false ∧ f.ingress = [] ∧ f.egress = []) := by
  refine ⟨by simp [emptinessQuery], fun j e he => ⟨emptinessOf N e, by simp [emptinessQuery, he], rfl, rfl, truthy_nobody _, ?_, ?_, ?_, ?_⟩, ?_⟩
  · intro k
    unfold emptinessOf hasEmptyRules
    cases e.pol.kind <;> simp [mem_emptyIdx]
  · intro k
    unfold emptinessOf hasEmptyRules
    cases e.pol.kind <;> simp [mem_emptyIdx]
  · unfold emptinessOf hasEmptyRules
    cases e.pol.kind <;> simp [emptyIdx_sorted]
  · unfold emptinessOf hasEmptyRules
    cases e.pol.kind <;> simp [emptyIdx_sorted]
  · have aux : ∀ fs : List EmptyFinding, (fs.map EmptyFinding.count).sum = 0 ↔ ∀ f ∈ fs, f.emptyPolicy = false ∧ f.ingress = [] ∧ f.egress = [] := by
      intro fs
      induction fs with
      | nil => simp
      | cons f fs ih =>
        rw [List.map_cons, List.sum_cons, List.forall_mem_cons, ← ih]
        unfold EmptyFinding.count
        cases f.emptyPolicy <;> simp [List.length_eq_zero_iff] <;> omega
    exact aux _

/-- C35, emptiness: rules reported as empty match no connection. -/
theorem C35_empty_rule (e : EPolicy C S) (ht : e.Tied N) (dir : Bool) (i : Nat) (r : Rule C) (hr : (e.pol.rules dir)[i]? = some r)
    (h : i + 1 ∈ (if dir then (emptinessOf N e).ingress else (emptinessOf N e).egress)) (p : P) : N.K.mem p r.props = false := by
  obtain ⟨_, h2, _⟩ := C35_empty (N := N) [e]
  obtain ⟨f, hf, _, _, _, h3, h4, _⟩ := h2 0 e rfl
  have : emptinessOf N e = f := Option.some.inj hf
  subst this
  have hex : ∃ ps, (if dir then e.ingressPeers else e.egressPeers)[i]? = some ps ∧ ∃ s ∈ ps, Nobody N s := by
    cases dir
    · obtain ⟨_, j, ps, hj, k⟩ := (h4 (i + 1)).1 h
      have : j = i := by omega
      subst this
      exact ⟨ps, k⟩
    · obtain ⟨_, j, ps, hj, k⟩ := (h3 (i + 1)).1 h
      have : j = i := by omega
      subst this
      exact ⟨ps, k⟩
  obtain ⟨ps, hps, s, hs, hn⟩ := hex
  cases hm : N.K.mem p r.props with
  | false => rfl
  | true =>
    rcases ht.inside dir i r ps hr hps s hs p hm with h | h <;> rw [hn] at h <;> exact absurd h (by simp)

/-! ### Disjointness -/

/-- Somebody is selected by both policies. -/
def Common (N : NetQ C P E S) (a b : Policy C S) : Prop := ∃ e, N.Q.mem e a.selected = true ∧ N.Q.mem e b.selected = true

theorem common_iff (a b : Policy C S) : N.Q.truthy (N.Q.and a.selected b.selected) = true ↔ Common N a b := by
  rw [N.Q.truthy_iff]
  exact exists_congr (fun e => by rw [N.Q.mem_and, Bool.and_eq_true])

theorem overlaps_spec {p1 : Policy C S} {l1 l2 : List (Policy C S)} (h1 : ∀ q ∈ l1, policyEq N p1 q = false) (h2 : policyEq N p1 p1 = true) :
    overlaps N p1 (l1 ++ p1 :: l2) = l1.filter (fun q => N.Q.truthy (N.Q.and p1.selected q.selected)) := by
  induction l1 with
  | nil => simp [overlaps, h2]
  | cons q l1 ih =>
    have hq := h1 q (by simp)
    have := ih (fun x hx => h1 x (by simp [hx]))
    rw [List.cons_append, overlaps, if_neg (by rw [hq]; simp), this, List.filter_cons]

theorem mem_disjointness (L : N.Lawful Ok Strong Wide) {c : Config C S} (G : c.Good N Ok Strong)
    (ht : ∀ pol ∈ c.store.policies, NoTwin c pol) (a b : Policy C S) :
    (a, b) ∈ disjointnessQuery N c ↔ ∃ n : LayerName, n.checked ∧ (∃ l1 l2 l3, layerList c.store.layers n = l1 ++ b :: l2 ++ a :: l3) ∧ Common N a b := by
  unfold disjointnessQuery
  rw [List.mem_flatMap]
  constructor
  · rintro ⟨⟨n, l⟩, hl, h⟩
    dsimp only at h
    have hll := layerList_of_mem G.B.distinct hl
    split at h
    · simp at h
    · rename_i hn
      rw [not_or] at hn
      obtain ⟨p1, hp1, h⟩ := List.mem_flatMap.1 h
      split at h
      · simp at h
      · obtain ⟨p2, hp2, he⟩ := List.mem_map.1 h
        simp only [Prod.mk.injEq] at he
        obtain ⟨rfl, rfl⟩ := he
        obtain ⟨l1, l3, rfl⟩ := List.append_of_mem hp1
        have hnd : (l1 ++ p1 :: l3).Nodup := hll ▸ G.nodup n
        have hmem : ∀ q ∈ l1 ++ p1 :: l3, q ∈ c.store.policies := fun q hq => ((G.B.mem_list n q).1 (by rw [hll]; exact hq)).1
        have hp1c := hmem p1 (by simp)
        have e1 : ∀ q ∈ l1, policyEq N p1 q = false := by
          intro q hq
          have hqc := hmem q (by simp [hq])
          rw [← Bool.not_eq_true, eq_iff_key L G hqc hp1c (ht q hqc)]
          intro hk
          have := List.inj_on_of_nodup_map (keys_nodup G.built) hp1c hqc hk
          subst this
          exact (List.nodup_append.1 hnd).2.2 p1 hq p1 (by simp) rfl
        rw [overlaps_spec e1 ((eq_iff_key L G hp1c hp1c (ht p1 hp1c)).2 rfl), List.mem_filter] at hp2
        obtain ⟨m1, m2, rfl⟩ := List.append_of_mem hp2.1
        exact ⟨n, hn, ⟨m1, m2, l3, by rw [hll]⟩, (common_iff _ _).1 hp2.2⟩
  · rintro ⟨n, hn, ⟨l1, l2, l3, hll⟩, hcm⟩
    have hne : layerList c.store.layers n ≠ [] := by rw [hll]; simp
    refine ⟨(n, layerList c.store.layers n), layerList_mem hne, ?_⟩
    dsimp only
    rw [if_neg (by rw [not_or]; exact hn)]
    refine List.mem_flatMap.2 ⟨a, by rw [hll]; simp, ?_⟩
    have hnd := G.nodup n
    have hmem : ∀ q ∈ layerList c.store.layers n, q ∈ c.store.policies := fun q hq => ((G.B.mem_list n q).1 hq).1
    rw [hll] at hnd hmem
    have hac := hmem a (by simp)
    obtain ⟨e, he1, he2⟩ := hcm
    have htr : N.Q.truthy a.selected = true := (N.Q.truthy_iff _).2 ⟨e, he1⟩
    rw [if_neg (by rw [htr]; simp), hll]
    refine List.mem_map.2 ⟨b, ?_, rfl⟩
    rw [overlaps_spec ?_ ((eq_iff_key L G hac hac (ht a hac)).2 rfl), List.mem_filter]
    · exact ⟨by simp, (common_iff _ _).2 ⟨e, he1, he2⟩⟩
    · intro q hq
      have hqc := hmem q (List.mem_append_left _ hq)
      rw [← Bool.not_eq_true, eq_iff_key L G hqc hac (ht q hqc)]
      intro hk
      have := List.inj_on_of_nodup_map (keys_nodup G.built) hac hqc hk
      subst this
      exact (List.nodup_append.1 hnd).2.2 a hq a (by simp) rfl

theorem two_split {α : Type} {l : List α} {a b : α} (ha : a ∈ l) (hb : b ∈ l) (hne : a ≠ b) :
    (∃ l1 l2 l3, l = l1 ++ b :: l2 ++ a :: l3) ∨ (∃ l1 l2 l3, l = l1 ++ a :: l2 ++ b :: l3) := by
  obtain ⟨l1, l2, rfl⟩ := List.append_of_mem ha
  rcases List.mem_append.1 hb with h | h
  · obtain ⟨m1, m2, rfl⟩ := List.append_of_mem h
    exact Or.inl ⟨m1, m2, l2, by simp⟩
  · rcases List.mem_cons.1 h with h | h
    · exact absurd h.symm hne
    · obtain ⟨m1, m2, rfl⟩ := List.append_of_mem h
      exact Or.inr ⟨l1, m1, m2, by simp⟩

/-- C35, disjointness: two policies of a layer (other than the gateway layers) are reported, as one pair,
exactly if somebody is selected by both; a policy is not reported with itself nor with one of another layer.
Full statement: without `ht`.  Missing: a Calico profile and a global policy that share a name and are equal
hide each other and the policies in between, `C35_twin_wrong`. -/
theorem C35_disjoint_partial (L : N.Lawful Ok Strong Wide) {c : Config C S} (G : c.Good N Ok Strong)
    (ht : ∀ pol ∈ c.store.policies, NoTwin c pol) :
    (∀ a b, a ∈ c.store.policies → b ∈ c.store.policies → a ≠ b → layerOf a.kind = layerOf b.kind → (layerOf a.kind).checked →
      (((a, b) ∈ disjointnessQuery N c ∨ (b, a) ∈ disjointnessQuery N c) ↔ Common N a b)) ∧
    (∀ a b, (a, b) ∈ disjointnessQuery N c → a ∈ c.store.policies ∧ b ∈ c.store.policies ∧ a ≠ b ∧ layerOf a.kind = layerOf b.kind ∧
      (layerOf a.kind).checked ∧ (b, a) ∉ disjointnessQuery N c) := by
  constructor
  · intro a b ha hb hne hl hck
    have hcomm : Common N b a ↔ Common N a b := exists_congr (fun e => and_comm)
    rw [mem_disjointness L G ht, mem_disjointness L G ht, hcomm]
    constructor
    · rintro (⟨_, _, _, h⟩ | ⟨_, _, _, h⟩) <;> exact h
    · intro h
      have ha' := (G.B.mem_list (layerOf a.kind) a).2 ⟨ha, rfl⟩
      have hb' := (G.B.mem_list (layerOf a.kind) b).2 ⟨hb, hl.symm⟩
      rcases two_split ha' hb' hne with k | k
      · exact Or.inl ⟨_, hck, k, h⟩
      · exact Or.inr ⟨_, hck, k, h⟩
  · intro a b h
    obtain ⟨n, hck, ⟨l1, l2, l3, hl⟩, hcm⟩ := (mem_disjointness L G ht a b).1 h
    obtain ⟨ha1, ha2⟩ := (G.B.mem_list n a).1 (by rw [hl]; simp)
    obtain ⟨hb1, hb2⟩ := (G.B.mem_list n b).1 (by rw [hl]; simp)
    have hnd := G.nodup n
    have hne : a ≠ b := by
      rintro rfl
      rw [hl] at hnd
      exact (List.nodup_append.1 hnd).2.2 a (by simp) a (by simp) rfl
    refine ⟨ha1, hb1, hne, ha2.trans hb2.symm, by rw [ha2]; exact hck, fun h' => ?_⟩
    obtain ⟨n', _, ⟨m1, m2, m3, hm⟩, _⟩ := (mem_disjointness L G ht b a).1 h'
    have hn' := ((G.B.mem_list n' a).1 (by rw [hm]; simp)).2
    rw [ha2] at hn'
    subst hn'
    -- `a` comes both before and after `b`
    have key : ∀ (l : List (Policy C S)), l.Nodup → (∃ l1 l2 l3, l = l1 ++ b :: l2 ++ a :: l3) → ¬ ∃ m1 m2 m3, l = m1 ++ a :: m2 ++ b :: m3 := by
      intro l
      induction l with
      | nil => rintro _ ⟨l1, l2, l3, h⟩; simp at h
      | cons x l ih =>
        rintro hx ⟨l1, l2, l3, h1⟩ ⟨m1, m2, m3, h2⟩
        rw [List.nodup_cons] at hx
        cases l1 with
        | nil =>
          simp only [List.nil_append, List.cons_append, List.cons.injEq] at h1
          cases m1 with
          | nil =>
            simp only [List.nil_append, List.cons_append, List.cons.injEq] at h2
            exact hne (h2.1.symm.trans h1.1)
          | cons y m1 =>
            simp only [List.cons_append, List.cons.injEq] at h2
            exact hx.1 (by rw [h2.2, h1.1]; simp)
        | cons y l1 =>
          simp only [List.cons_append, List.cons.injEq] at h1
          cases m1 with
          | nil =>
            simp only [List.nil_append, List.cons_append, List.cons.injEq] at h2
            exact hx.1 (by rw [h1.2, h2.1]; simp)
          | cons y m1 =>
            simp only [List.cons_append, List.cons.injEq] at h2
            exact ih hx.2 ⟨l1, l2, l3, h1.2⟩ ⟨m1, m2, m3, h2.2⟩
    exact key _ hnd ⟨l1, l2, l3, hl⟩ ⟨m1, m2, m3, hm⟩

/-! ### Captured pods -/

/-- Authorization policies are about ingress, sidecars are not. -/
def Policy.Flagged (pol : Policy C S) : Prop :=
  (pol.kind = .istioAuthz → pol.affectsIngress = true ∧ pol.affectsEgress = false) ∧ (pol.kind = .istioSidecar → pol.affectsIngress = false)

/-- Somebody of the layer captures the endpoint. -/
def CapturedIn (N : NetQ C P E S) (c : Config C S) (n : LayerName) (dir : Bool) (e : E) : Prop :=
  ∃ pol ∈ c.store.policies, layerOf pol.kind = n ∧ pol.captures N.toNet dir e = true

theorem mem_affected (dir : Bool) (e : E) (pols : List (Policy C S)) :
    N.Q.mem e (affectedPods N dir pols) = true ↔ ∃ pol ∈ pols, (if dir then pol.affectsIngress else pol.affectsEgress) = true ∧ N.Q.mem e pol.selected = true := by
  have aux : ∀ (pols : List (Policy C S)) (acc : S),
      N.Q.mem e (pols.foldl (fun acc p => if (if dir then p.affectsIngress else p.affectsEgress) then N.Q.or acc p.selected else acc) acc) = true ↔
      N.Q.mem e acc = true ∨ ∃ pol ∈ pols, (if dir then pol.affectsIngress else pol.affectsEgress) = true ∧ N.Q.mem e pol.selected = true := by
    intro pols
    induction pols with
    | nil => simp
    | cons q qs ih =>
      intro acc
      rw [List.foldl_cons, ih]
      by_cases hq : (if dir then q.affectsIngress else q.affectsEgress) = true
      · rw [if_pos hq, N.Q.mem_or, Bool.or_eq_true]
        simp only [List.mem_cons, exists_eq_or_imp, hq, true_and, or_assoc]
      · rw [if_neg hq]
        simp only [List.mem_cons, exists_eq_or_imp, hq, false_and, false_or, Bool.false_eq_true]
  unfold affectedPods
  rw [aux, N.Q.mem_empty]
  simp

theorem governs_flag {pol : Policy C S} (hf : pol.Flagged) (dir : Bool) :
    pol.governs dir = (if dir then pol.affectsIngress else pol.affectsEgress) := by
  unfold Policy.governs
  obtain ⟨h1, h2⟩ := hf
  cases hk : pol.kind <;> cases dir <;> simp_all

theorem mem_uncaptured {c : Config C S} (G : c.Good N Ok Strong) (hf : ∀ pol ∈ c.store.policies, pol.Flagged) (n : LayerName) (dir : Bool)
    (hne : c.store.policies ≠ []) (e : E) :
    N.Q.mem e (uncaptured N c n dir) = true ↔
      (∃ pol ∈ c.store.policies, layerOf pol.kind = n) ∧ c.peers.workload N.toNet e ∧ ¬ CapturedIn N c n dir e := by
  unfold uncaptured
  cases hl : c.store.layers.find? (fun l => l.1 = n) with
  | none =>
    dsimp only
    rw [N.Q.mem_empty]
    simp only [Bool.false_eq_true, false_iff, not_and]
    rintro ⟨pol, hp, hk⟩
    have hm := (G.B.mem_list n pol).2 ⟨hp, hk⟩
    have := layerList_mem (List.ne_nil_of_mem hm)
    rw [List.find?_eq_none] at hl
    exact absurd (hl _ this) (by simp)
  | some l =>
    dsimp only
    have hl1 : l.1 = n := by simpa using List.find?_some hl
    have hl2 := List.mem_of_find?_eq_some hl
    have hll : layerList c.store.layers n = l.2 := layerList_of_mem G.B.distinct (by rw [← hl1]; exact hl2)
    have hex : ∃ pol ∈ c.store.policies, layerOf pol.kind = n := by
      have h := G.B.noEmpty hne l hl2
      cases hh : l.2 with
      | nil => exact absurd hh h
      | cons q qs =>
        exact ⟨q, (G.B.mem_list n q).1 (by rw [hll, hh]; simp)⟩
    rw [N.Q.mem_sub, Bool.and_eq_true, Bool.not_eq_true', ← Bool.not_eq_true, mem_affected, Peers.mem_group_ff]
    simp only [hex, true_and]
    refine and_congr_right (fun _ => not_congr ?_)
    unfold CapturedIn Policy.captures
    constructor
    · rintro ⟨pol, hp, h1, h2⟩
      obtain ⟨k1, k2⟩ := (G.B.mem_list n pol).1 (by rw [hll]; exact hp)
      exact ⟨pol, k1, k2, by rw [governs_flag (hf pol k1), h1, h2]; rfl⟩
    · rintro ⟨pol, hp, hk, h⟩
      rw [Bool.and_eq_true, governs_flag (hf pol hp)] at h
      exact ⟨pol, by rw [← hll]; exact (G.B.mem_list n pol).2 ⟨hp, hk⟩, h.1, h.2⟩

/-- C41: the query answers "all captured" exactly if there is a policy other than Ingress and Gateway
policies, and every workload is captured, by the Kubernetes and Calico policies on ingress and on egress, if
there are any, and by the Istio policies on ingress, if there are any; and it reports exactly the workloads
that are not. -/
theorem C41_captured {c : Config C S} (G : c.Good N Ok Strong) (hf : ∀ pol ∈ c.store.policies, pol.Flagged) :
    ((allCapturedQuery N c).1 = true ↔
      (∃ pol ∈ c.store.policies, (layerOf pol.kind).checked) ∧
      ∀ e, c.peers.workload N.toNet e →
        ((∃ pol ∈ c.store.policies, layerOf pol.kind = .k8sCalico) → CapturedIn N c .k8sCalico true e ∧ CapturedIn N c .k8sCalico false e) ∧
        ((∃ pol ∈ c.store.policies, layerOf pol.kind = .istio) → CapturedIn N c .istio true e)) ∧
    ((∃ pol ∈ c.store.policies, (layerOf pol.kind).checked) → ∃ x y z, (allCapturedQuery N c).2 = [x, y, z] ∧ ∀ e,
      (N.Q.mem e x = true ↔ (∃ pol ∈ c.store.policies, layerOf pol.kind = .k8sCalico) ∧ c.peers.workload N.toNet e ∧ ¬ CapturedIn N c .k8sCalico true e) ∧
      (N.Q.mem e y = true ↔ (∃ pol ∈ c.store.policies, layerOf pol.kind = .k8sCalico) ∧ c.peers.workload N.toNet e ∧ ¬ CapturedIn N c .k8sCalico false e) ∧
      (N.Q.mem e z = true ↔ (∃ pol ∈ c.store.policies, layerOf pol.kind = .istio) ∧ c.peers.workload N.toNet e ∧ ¬ CapturedIn N c .istio true e)) := by
  have hgate : (c.store.policies.isEmpty || onlyGateways c.store.layers) = true ↔ ¬ ∃ pol ∈ c.store.policies, (layerOf pol.kind).checked := by
    rw [Bool.or_eq_true, List.isEmpty_iff]
    unfold onlyGateways LayerName.checked
    simp only [Bool.and_eq_true, Bool.not_eq_true', List.all_eq_true, Bool.or_eq_true, decide_eq_true_eq]
    constructor
    · rintro (h | ⟨_, h⟩) ⟨pol, hp, hk⟩
      · rw [h] at hp; simp at hp
      · have hm := (G.B.mem_list _ pol).2 ⟨hp, rfl⟩
        have := h _ (layerList_mem (List.ne_nil_of_mem hm))
        dsimp only at this
        rcases this with h | h
        · exact hk.1 h
        · exact hk.2 h
    · intro h
      by_cases he : c.store.policies = []
      · exact Or.inl he
      · right
        obtain ⟨q, qs, hq⟩ := List.exists_cons_of_ne_nil he
        have hm := (G.B.mem_list _ q).2 ⟨by rw [hq]; simp, rfl⟩
        have hl := layerList_mem (List.ne_nil_of_mem hm)
        refine ⟨?_, fun l hl' => ?_⟩
        · cases hc : c.store.layers with
          | nil => rw [hc] at hl; simp at hl
          | cons => rfl
        · by_contra hno
          rw [not_or] at hno
          have hne := G.B.noEmpty he l hl'
          obtain ⟨r, rs, hr⟩ := List.exists_cons_of_ne_nil hne
          obtain ⟨k1, k2⟩ := (G.B.mem_list l.1 r).1 (by rw [layerList_of_mem G.B.distinct hl', hr]; simp)
          exact h ⟨r, k1, by rw [k2]; exact hno⟩
  by_cases hex : ∃ pol ∈ c.store.policies, (layerOf pol.kind).checked
  · have hg : ¬ (c.store.policies.isEmpty || onlyGateways c.store.layers) = true := fun h => hgate.1 h hex
    have hne : c.store.policies ≠ [] := by
      obtain ⟨pol, hp, _⟩ := hex
      exact List.ne_nil_of_mem hp
    have key := fun n dir e => mem_uncaptured G hf n dir hne e
    unfold allCapturedQuery
    rw [if_neg hg]
    refine ⟨?_, fun _ => ⟨_, _, _, rfl, fun e => ⟨key _ _ e, key _ _ e, key _ _ e⟩⟩⟩
    simp only [hex, true_and, List.any_cons, List.any_nil, Bool.or_false, Bool.not_eq_true', ← Bool.not_eq_true, Bool.or_eq_true,
      not_or, N.Q.truthy_iff, key]
    constructor
    · rintro ⟨h1, h2, h3⟩ e he
      refine ⟨fun hk => ⟨?_, ?_⟩, fun hi => ?_⟩
      · by_contra hc; exact h1 ⟨e, hk, he, hc⟩
      · by_contra hc; exact h2 ⟨e, hk, he, hc⟩
      · by_contra hc; exact h3 ⟨e, hi, he, hc⟩
    · intro h
      refine ⟨?_, ?_, ?_⟩
      · rintro ⟨e, hk, he, hc⟩; exact hc ((h e he).1 hk).1
      · rintro ⟨e, hk, he, hc⟩; exact hc ((h e he).1 hk).2
      · rintro ⟨e, hk, he, hc⟩; exact hc ((h e he).2 hk)
  · have hg := hgate.2 hex
    unfold allCapturedQuery
    rw [if_pos hg]
    exact ⟨by simp [hex], fun h => absurd h hex⟩

/-! ### Strong equivalence -/

/-- `s` is `c` with the one policy only. -/
structure Only (c : Config C S) (pol : Policy C S) (s : Config C S) : Prop where
  peers : s.peers = c.peers
  services : s.services = c.services
  store : PolicyStore.build [pol] = some s.store

/-- Full names of policies are unique. -/
def UniqueNames (c : Config C S) : Prop := (c.store.policies.map (·.name)).Nodup

/-- Both configurations have the policies of the same names and types, and each one alone has the same
effect. -/
def StronglyEquivalent (N : NetQ C P E S) (excl : Bool) (c1 c2 : Config C S) : Prop :=
  (∀ k, k ∈ c1.store.policies.map Policy.key ↔ k ∈ c2.store.policies.map Policy.key) ∧
  ∀ a ∈ c1.store.policies, ∀ b ∈ c2.store.policies, a.key = b.key → ∀ s1 s2, Only c1 a s1 → Only c2 b s2 → SameAllowed N excl none s1 s2

theorem justOne_spec {c : Config C S} (G : c.Good N Ok Strong) (hu : UniqueNames c) {pol : Policy C S} (hp : pol ∈ c.store.policies) :
    ∃ s, c.justOne pol.name = some s ∧ s.Good N Ok Strong ∧ Only c pol s ∧ s.store.policies = [pol] := by
  have hf : findPolicy c pol.name = [pol] := by
    unfold findPolicy
    obtain ⟨l1, l2, h⟩ := List.append_of_mem hp
    unfold UniqueNames at hu
    rw [h, List.map_append, List.map_cons, List.nodup_append, List.nodup_cons] at hu
    obtain ⟨_, ⟨h2, _⟩, h3⟩ := hu
    rw [h, List.filter_append, List.filter_cons_of_pos (by simp)]
    rw [List.filter_eq_nil_iff.2, List.filter_eq_nil_iff.2]
    · rfl
    · intro q hq
      simp only [decide_eq_true_eq]
      exact fun hn => h2 (List.mem_map.2 ⟨q, hq, hn⟩)
    · intro q hq
      simp only [decide_eq_true_eq]
      exact fun hn => h3 q.name (List.mem_map.2 ⟨q, hq, rfl⟩) pol.name (by simp) hn
  obtain ⟨s, h1, h2, h3, h4, h5⟩ := withPolicies_part G (ps := [pol]) (List.singleton_sublist.2 hp)
  refine ⟨s, ?_, h2, ⟨h3, h4, by rw [← h5]; exact h2.built⟩, h5⟩
  unfold Config.justOne
  rw [hf]
  exact h1

theorem single_key {a b : Policy C S} {s1 s2 : Config C S} (h1 : s1.store.policies = [a]) (h2 : s2.store.policies = [b]) (hk : a.key = b.key) :
    SameOrder N s1 s2 := by
  left
  rw [h1, h2, List.map_cons, List.map_cons, hk, List.map_nil]

theorem Only.unique {c s s' : Config C S} {pol : Policy C S} (h : Only c pol s) (h' : Only c pol s') : s = s' := by
  obtain ⟨gp, gs, gst⟩ := s
  obtain ⟨gp', gs', gst'⟩ := s'
  obtain ⟨h1, h2, h3⟩ := h
  obtain ⟨h1', h2', h3'⟩ := h'
  dsimp only at *
  rw [h3, Option.some.injEq] at h3'
  subst h1 h2 h3' h1' h2'
  rfl

theorem strong_pair {c1 c2 : Config C S} (G1 : c1.Good N Ok Strong) (G2 : c2.Good N Ok Strong) (hu1 : UniqueNames c1) (hu2 : UniqueNames c2)
    (hst : SameTopology N c1 c2) {a b : Policy C S} (ha : a ∈ c1.store.policies) (hb : b ∈ c2.store.policies) (hk : a.key = b.key) :
    ∃ s1 s2, c1.justOne a.name = some s1 ∧ c2.justOne a.name = some s2 ∧ s1.Good N Ok Strong ∧ s2.Good N Ok Strong ∧
      Only c1 a s1 ∧ Only c2 b s2 ∧ SameTopology N s1 s2 ∧ SameOrder N s1 s2 ∧ s1.store.policies = [a] ∧ s2.store.policies = [b] := by
  obtain ⟨s1, h1, g1, o1, l1⟩ := justOne_spec G1 hu1 ha
  obtain ⟨s2, h2, g2, o2, l2⟩ := justOne_spec G2 hu2 hb
  have hn : a.name = b.name := congrArg Prod.fst hk
  refine ⟨s1, s2, h1, by rw [hn]; exact h2, g1, g2, o1, o2, ?_, single_key l1 l2 hk, l1, l2⟩
  unfold SameTopology at hst ⊢
  rw [o1.peers, o2.peers, o1.services, o2.services]
  exact hst

/-- C42: for configurations over the same topology the query answers; "strongly equivalent" means that both
have policies of the same names and types, each of which has the same effect on its own, and when IPv6
addresses are excluded it answers so exactly in this case.
Full statement: without `hu1`, `hu2` (the query raises an exception when policies of different types share
a name, `C42_same_name_raises`), `hs1`, `hs2` and `excl`. -/
theorem C42_strong_partial (L : N.Lawful Ok Strong Wide) (excl : Bool) {c1 c2 : Config C S} (G1 : c1.Good N Ok Strong) (G2 : c2.Good N Ok Strong)
    (hu1 : UniqueNames c1) (hu2 : UniqueNames c2) (hst : SameTopology N c1 c2)
    (hs1 : ∀ a ∈ c1.store.policies, ∀ s, Only c1 a s → s.Solid N) (hs2 : ∀ b ∈ c2.store.policies, ∀ s, Only c2 b s → s.Solid N) :
    ∃ ans, strongQuery N excl c1 c2 = some ans ∧ ans.notExecuted = false ∧ (ans.num = 0 ↔ ans.bool = true) ∧
      (ans.bool = true → StronglyEquivalent N excl c1 c2) ∧
      (N.Exact Ok Strong Canon → excl = true → StronglyEquivalent N excl c1 c2 → ans.bool = true) := by
  unfold strongQuery
  rw [identical_true hst]
  by_cases he : policiesEq N c1.store.policies c2.store.policies = true
  · rw [if_pos he]
    obtain ⟨m1, m2⟩ := policiesEq_match L G1 G2 he
    refine ⟨_, rfl, rfl, by simp, fun _ => ⟨fun k => ?_, fun a ha b hb hk s1 s2 o1 o2 => ?_⟩, fun _ _ _ => rfl⟩
    · constructor
      · intro hk
        obtain ⟨a, ha, rfl⟩ := List.mem_map.1 hk
        obtain ⟨b, hb, hab, _⟩ := m1 a ha
        exact List.mem_map.2 ⟨b, hb, hab.symm⟩
      · intro hk
        obtain ⟨b, hb, rfl⟩ := List.mem_map.1 hk
        obtain ⟨a, ha, hab, _⟩ := m2 b hb
        exact List.mem_map.2 ⟨a, ha, hab⟩
    · obtain ⟨t1, t2, _, _, g1, g2, p1, p2, hst', hord, e1, e2⟩ := strong_pair G1 G2 hu1 hu2 hst ha hb hk
      rw [o1.unique p1, o2.unique p2]
      intro p _
      refine policiesEq_allows L g1 g2 ((comparable_iff _ _).2 hst') ?_ hord none p
      unfold policiesEq at he ⊢
      simp only [Bool.and_eq_true, List.all_eq_true, List.any_eq_true] at he
      obtain ⟨q, hq, hq1, hq2⟩ := he.2 a ha
      rw [decide_eq_true_eq] at hq1
      have : q = b := List.inj_on_of_nodup_map (keys_nodup G2.built) hq hb ((Prod.ext hq1.1 hq1.2 : q.key = a.key).trans hk)
      subst this
      rw [e1, e2]
      simp [hq1.1, hq1.2, hq2]
  · rw [if_neg he]
    dsimp only
    have hkeys : ((policyKeys c1.store.policies).all (fun k => decide (k ∈ policyKeys c2.store.policies)) &&
       (policyKeys c2.store.policies).all (fun k => decide (k ∈ policyKeys c1.store.policies))) = true ↔
       ∀ k, k ∈ c1.store.policies.map Policy.key ↔ k ∈ c2.store.policies.map Policy.key := by
      simp only [Bool.and_eq_true, List.all_eq_true, decide_eq_true_eq]
      exact ⟨fun h k => ⟨h.1 k, h.2 k⟩, fun h => ⟨fun k => (h k).1, fun k => (h k).2⟩⟩
    by_cases hk : ∀ k, k ∈ c1.store.policies.map Policy.key ↔ k ∈ c2.store.policies.map Policy.key
    · rw [if_pos (hkeys.2 hk)]
      have aux : ∀ ps : List (Policy C S), (∀ a ∈ ps, a ∈ c1.store.policies) →
          ∃ ans, strongLoop N excl c1 c2 ps = some ans ∧ ans.notExecuted = false ∧ (ans.num = 0 ↔ ans.bool = true) ∧
          (ans.bool = true ↔ ∀ a ∈ ps, ∀ b ∈ c2.store.policies, a.key = b.key → ∀ s1 s2, Only c1 a s1 → Only c2 b s2 →
            (equivQuery N excl none s1 s2).bool = true) := by
        intro ps
        induction ps with
        | nil => intro _; exact ⟨_, rfl, rfl, by simp, by simp⟩
        | cons a ps ih =>
          intro hsub
          have ha := hsub a (by simp)
          obtain ⟨b, hb, hab⟩ := List.mem_map.1 ((hk a.key).1 (List.mem_map.2 ⟨a, ha, rfl⟩))
          obtain ⟨t1, t2, j1, j2, g1, g2, p1, p2, hst', hord, e1, e2⟩ := strong_pair G1 G2 hu1 hu2 hst ha hb hab.symm
          obtain ⟨ans, i1, i2, i3, i4⟩ := ih (fun x hx => hsub x (by simp [hx]))
          have hall : (∀ b ∈ c2.store.policies, a.key = b.key → ∀ s1 s2, Only c1 a s1 → Only c2 b s2 →
              (equivQuery N excl none s1 s2).bool = true) ↔ (equivQuery N excl none t1 t2).bool = true := by
            refine ⟨fun h => h b hb hab.symm t1 t2 p1 p2, fun h b' hb' hk' s1 s2 o1 o2 => ?_⟩
            have : b' = b := List.inj_on_of_nodup_map (keys_nodup G2.built) hb' hb (hk'.symm.trans hab.symm)
            subst this
            rw [o1.unique p1, o2.unique p2]
            exact h
          unfold strongLoop
          rw [j1, j2]
          dsimp only
          by_cases hq : (equivQuery N excl none t1 t2).bool = true
          · rw [if_pos hq]
            refine ⟨ans, i1, i2, i3, ?_⟩
            rw [i4, List.forall_mem_cons, hall]
            simp [hq]
          · rw [if_neg hq]
            refine ⟨_, rfl, rfl, by simp, ?_⟩
            rw [List.forall_mem_cons, hall]
            simp [hq]
      obtain ⟨ans, i1, i2, i3, i4⟩ := aux c1.store.policies (fun _ h => h)
      refine ⟨ans, i1, i2, i3, fun h => ⟨hk, fun a ha b hb hab s1 s2 o1 o2 => ?_⟩, fun X hx hse => i4.2 (fun a ha b hb hab s1 s2 o1 o2 => ?_)⟩
      · obtain ⟨t1, t2, _, _, g1, g2, p1, p2, hst', hord, e1, e2⟩ := strong_pair G1 G2 hu1 hu2 hst ha hb hab
        have q1 := o1.unique p1
        have q2 := o2.unique p2
        subst q1 q2
        exact equiv_sound L excl none g1 g2 (fun _ => ⟨hs1 a ha _ o1, hs2 b hb _ o2⟩) (fun _ => hord) (i4.1 h a ha b hb hab _ _ o1 o2)
      · obtain ⟨t1, t2, _, _, g1, g2, p1, p2, hst', hord, e1, e2⟩ := strong_pair G1 G2 hu1 hu2 hst ha hb hab
        have q1 := o1.unique p1
        have q2 := o2.unique p2
        subst q1 q2
        exact (equiv_exact L X excl none g1 g2 (fun _ => ⟨hs1 a ha _ o1, hs2 b hb _ o2⟩) (fun _ => hord) (Or.inl hx) hst').2
          (hse.2 a ha b hb hab _ _ o1 o2)
    · rw [if_neg (fun h => hk (hkeys.1 h))]
      exact ⟨_, rfl, rfl, by simp, fun h => by simp at h, fun _ _ h => absurd h.1 hk⟩

/-- C42: configurations over different topologies are not compared. -/
theorem C42_not_executed (excl : Bool) {c1 c2 : Config C S} (h : ¬ SameTopology N c1 c2) :
    ∃ ans, strongQuery N excl c1 c2 = some ans ∧ ans.notExecuted = true ∧ ans.bool = false := by
  unfold strongQuery
  rw [identical_false h]
  exact ⟨_, rfl, rfl, rfl⟩

end
end Verif
