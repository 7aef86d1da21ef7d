import Verif.PropsSanity
/-!
C66 (the sanity query), part 2: the answer and its issues.
-/
namespace Verif

section
variable {C P E S : Type} {N : NetQ C P E S} {Ok Strong Wide Canon : C → Prop}

/-- C66: the answer is positive exactly if there are policies and neither a conflict nor an issue is
reported; the numerical result is 1 for a conflict and the number of issues otherwise. -/
theorem C66_answer (excl : Bool) (ep : Policy C S → EPolicy C S) (c : Config C S) {a : SanityAnswer C S}
    (h : sanityQuery N excl ep c = some a) :
    (a.bool = true ↔ c.store.policies ≠ [] ∧ a.conflict = none ∧ a.issues = []) ∧
    a.num = (if a.conflict.isSome then 1 else a.issues.length) ∧ (a.conflict.isSome → a.issues = []) ∧
    a.conflict = (if c.store.policies = [] then none else conflictCheck N ep c) := by
  unfold sanityQuery at h
  by_cases he : c.store.policies = []
  · rw [if_pos (by simp [he]), Option.some.injEq] at h
    subst h
    simp [he]
  · rw [if_neg (by simpa using he)] at h
    cases hc : conflictCheck N ep c with
    | some x =>
      rw [hc, Option.some.injEq] at h
      subst h
      simp [he]
    | none =>
      rw [hc] at h
      dsimp only at h
      obtain ⟨vac, hv, h⟩ := Option.bind_eq_some_iff.1 h
      obtain ⟨iss, hi, h⟩ := Option.map_eq_some_iff.1 h
      subst h
      dsimp only
      generalize (if vac = true then [Issue.vacuous] else []) ++ iss.flatten = all
      refine ⟨⟨fun hb => ⟨he, rfl, by simpa using hb⟩, fun hb => by simpa using hb.2.2⟩, by simp, by simp, by rw [if_neg he]⟩

theorem mem_mapM {α β : Type} {f : α → Option β} : ∀ {l : List α} {ys : List β}, l.mapM f = some ys → ∀ y, y ∈ ys ↔ ∃ x ∈ l, f x = some y := by
  intro l
  induction l with
  | nil => intro ys h y; simp at h; subst h; simp
  | cons x l ih =>
    intro ys h y
    rw [List.mapM_cons] at h
    cases hx : f x with
    | none => rw [hx] at h; simp at h
    | some z =>
      rw [hx] at h
      cases hl : l.mapM f with
      | none => rw [hl] at h; simp at h
      | some zs =>
        rw [hl] at h
        simp at h
        subst h
        rw [List.mem_cons, ih hl, List.exists_mem_cons_iff, hx, Option.some.injEq]
        exact or_congr eq_comm Iff.rfl

/-- Where issues come from. -/
theorem sanity_issues (excl : Bool) (ep : Policy C S → EPolicy C S) (c : Config C S) {a : SanityAnswer C S}
    (h : sanityQuery N excl ep c = some a) (hne : c.store.policies ≠ []) (hc : a.conflict = none) :
    ∃ vac, vacuityQuery N excl c = some vac ∧ conflictCheck N ep c = none ∧
      (∀ l ∈ c.store.layers, l.1.checked → ∃ red, redundantPolicies N excl c l.2 l.1 = some red ∧
        ∀ p ∈ l.2, ∃ is, policyIssues N excl ep c vac l.1 red p = some is) ∧
      ∀ i, i ∈ a.issues ↔ (vac = true ∧ i = .vacuous) ∨ ∃ l ∈ c.store.layers, l.1.checked ∧ ∃ red, redundantPolicies N excl c l.2 l.1 = some red ∧
        ∃ p ∈ l.2, ∃ is, policyIssues N excl ep c vac l.1 red p = some is ∧ i ∈ is := by
  have hcc := (C66_answer excl ep c h).2.2.2
  rw [hc, if_neg hne] at hcc
  unfold sanityQuery at h
  rw [if_neg (by simpa using hne), ← hcc] at h
  dsimp only at h
  obtain ⟨vac, hv, h⟩ := Option.bind_eq_some_iff.1 h
  obtain ⟨iss, hi, h⟩ := Option.map_eq_some_iff.1 h
  subst h
  have hm := mem_mapM hi
  have gate : ∀ n : LayerName, ¬ (n = .k8sGateway ∨ n = .istioGateway) ↔ n.checked := by
    intro n
    unfold LayerName.checked
    rw [not_or]
  have layer : ∀ l ∈ c.store.layers, l.1.checked → ∃ red iss', redundantPolicies N excl c l.2 l.1 = some red ∧
      l.2.mapM (policyIssues N excl ep c vac l.1 red) = some iss' ∧ layerIssues N excl ep c vac l = some iss'.flatten := by
    intro l hl hck
    have hsome : ∃ y, layerIssues N excl ep c vac l = some y := by
      cases hl' : layerIssues N excl ep c vac l with
      | some y => exact ⟨y, rfl⟩
      | none =>
        exfalso
        have : ∀ (ls : Layers C S) (ys : List (List (Issue C S))), ls.mapM (layerIssues N excl ep c vac) = some ys → l ∈ ls → False := by
          intro ls
          induction ls with
          | nil => intro _ _ hl; simp at hl
          | cons m ls ih =>
            intro ys h1 h2
            rw [List.mapM_cons] at h1
            cases hm' : layerIssues N excl ep c vac m with
            | none => rw [hm'] at h1; simp at h1
            | some z =>
              rw [hm'] at h1
              cases hl2 : ls.mapM (layerIssues N excl ep c vac) with
              | none => rw [hl2] at h1; simp at h1
              | some zs =>
                rcases List.mem_cons.1 h2 with rfl | h2
                · rw [hl'] at hm'; simp at hm'
                · exact ih zs hl2 h2
        exact this _ _ hi hl
    obtain ⟨y, hy⟩ := hsome
    have hy' := hy
    unfold layerIssues at hy
    rw [if_neg ((gate _).2 hck)] at hy
    obtain ⟨red, hr, hy⟩ := Option.bind_eq_some_iff.1 hy
    obtain ⟨iss', hi', hy⟩ := Option.map_eq_some_iff.1 hy
    exact ⟨red, iss', hr, hi', by rw [hy', hy]⟩
  refine ⟨vac, hv, hcc.symm, fun l hl hck => ?_, fun i => ?_⟩
  · obtain ⟨red, iss', h1, h2, _⟩ := layer l hl hck
    refine ⟨red, h1, fun p hp => ?_⟩
    have : ∀ (ls : List (Policy C S)) (ys : List (List (Issue C S))), ls.mapM (policyIssues N excl ep c vac l.1 red) = some ys → p ∈ ls →
        ∃ is, policyIssues N excl ep c vac l.1 red p = some is := by
      intro ls
      induction ls with
      | nil => intro _ _ hl; simp at hl
      | cons m ls ih =>
        intro ys h1 h2
        rw [List.mapM_cons] at h1
        cases hm' : policyIssues N excl ep c vac l.1 red m with
        | none => rw [hm'] at h1; simp at h1
        | some z =>
          rw [hm'] at h1
          cases hl2 : ls.mapM (policyIssues N excl ep c vac l.1 red) with
          | none => rw [hl2] at h1; simp at h1
          | some zs =>
            rcases List.mem_cons.1 h2 with rfl | h2
            · exact ⟨z, hm'⟩
            · exact ih zs hl2 h2
    exact this _ _ h2 hp
  · rw [List.mem_append, List.mem_flatten]
    refine or_congr ?_ ?_
    · cases vac <;> simp
    · constructor
      · rintro ⟨y, hy, hiy⟩
        obtain ⟨l, hl, hly⟩ := (hm y).1 hy
        have hck : l.1.checked := by
          by_contra hn
          rw [← gate, not_not] at hn
          unfold layerIssues at hly
          rw [if_pos hn, Option.some.injEq] at hly
          subst hly
          simp at hiy
        obtain ⟨red, iss', h1, h2, h3⟩ := layer l hl hck
        rw [h3, Option.some.injEq] at hly
        subst hly
        obtain ⟨is, his, hii⟩ := List.mem_flatten.1 hiy
        obtain ⟨p, hp, hpi⟩ := (mem_mapM h2 is).1 his
        exact ⟨l, hl, hck, red, h1, p, hp, is, hpi, hii⟩
      · rintro ⟨l, hl, hck, red, hr, p, hp, is, hpi, hii⟩
        obtain ⟨red', iss', h1, h2, h3⟩ := layer l hl hck
        rw [h1, Option.some.injEq] at hr
        subst hr
        exact ⟨_, (hm _).2 ⟨l, hl, h3⟩, List.mem_flatten.2 ⟨is, (mem_mapM h2 is).2 ⟨p, hp, hpi⟩, hii⟩⟩

/-- The issues of a policy. -/
theorem policy_issues (excl : Bool) (ep : Policy C S → EPolicy C S) (c : Config C S) (vac : Bool) (n : LayerName) (red : List String) (p : Policy C S)
    {is : List (Issue C S)} (h : policyIssues N excl ep c vac n red p = some is) :
    (Nobody N p.selected ∧ is = [.emptyPolicy p]) ∨
    (¬ Nobody N p.selected ∧ (∀ i, i ∈ is → (∃ dir k, i = .emptyRule p dir k ∧ k ∈ (if dir then (hasEmptyRules N (ep p)).1 else (hasEmptyRules N (ep p)).2)) ∨
        (vac = false ∧ p.name ∈ red ∧ ∃ w, i = .redundantPolicy p w ∧ policyWhy N excl ep c n p = some w) ∨
        (vac = false ∧ p.name ∉ red ∧ ∃ dir k w rs, i = .redundantRule p dir k w ∧ redundantRules N excl c n p dir = some rs ∧ k ∈ rs ∧
          1 ≤ k ∧ k ≤ (p.rules dir).length ∧ k ∉ (if dir then (hasEmptyRules N (ep p)).1 else (hasEmptyRules N (ep p)).2) ∧ ruleWhy N c n p dir k = some w)) ∧
      (∀ dir k, k ∈ (if dir then (hasEmptyRules N (ep p)).1 else (hasEmptyRules N (ep p)).2) → Issue.emptyRule p dir k ∈ is) ∧
      (vac = false → p.name ∈ red → ∃ w, Issue.redundantPolicy p w ∈ is) ∧
      (vac = false → p.name ∉ red → ∀ dir k rs, redundantRules N excl c n p dir = some rs → k ∈ rs → 1 ≤ k → k ≤ (p.rules dir).length →
        k ∉ (if dir then (hasEmptyRules N (ep p)).1 else (hasEmptyRules N (ep p)).2) → ∃ w, Issue.redundantRule p dir k w ∈ is)) := by
  unfold policyIssues at h
  by_cases hn : (!N.Q.truthy p.selected) = true
  · rw [if_pos hn, Option.some.injEq] at h
    exact Or.inl ⟨(truthy_nobody _).1 hn, h.symm⟩
  · rw [if_neg hn] at h
    dsimp only at h
    refine Or.inr ⟨fun h' => hn ((truthy_nobody _).2 h'), ?_⟩
    generalize hem : hasEmptyRules N (ep p) = em at *
    have hes : ∀ i, i ∈ em.1.map (Issue.emptyRule p true) ++ em.2.map (Issue.emptyRule p false) ↔
        ∃ dir k, i = .emptyRule p dir k ∧ k ∈ (if dir then em.1 else em.2) := by
      intro i
      simp only [List.mem_append, List.mem_map, Bool.exists_bool, if_true, Bool.false_eq_true, if_false]
      constructor
      · rintro (⟨k, hk, rfl⟩ | ⟨k, hk, rfl⟩)
        · exact Or.inr ⟨k, rfl, hk⟩
        · exact Or.inl ⟨k, rfl, hk⟩
      · rintro (⟨k, rfl, hk⟩ | ⟨k, rfl, hk⟩)
        · exact Or.inr ⟨k, hk, rfl⟩
        · exact Or.inl ⟨k, hk, rfl⟩
    generalize em.1.map (Issue.emptyRule p true) ++ em.2.map (Issue.emptyRule p false) = es at *
    cases vac with
    | true =>
      rw [if_pos rfl, Option.some.injEq] at h
      subst h
      exact ⟨fun i hi => Or.inl ((hes i).1 hi), fun dir k hk => (hes _).2 ⟨dir, k, rfl, hk⟩, fun h => by simp at h, fun h => by simp at h⟩
    | false =>
      rw [if_neg (by simp)] at h
      by_cases hr : p.name ∈ red
      · rw [if_pos (by simpa using hr)] at h
        obtain ⟨w, hw, rfl⟩ := Option.map_eq_some_iff.1 h
        refine ⟨fun i hi => ?_, fun dir k hk => List.mem_append_left _ ((hes _).2 ⟨dir, k, rfl, hk⟩), fun _ _ => ⟨w, by simp⟩, fun _ h => absurd hr h⟩
        rcases List.mem_append.1 hi with hi | hi
        · exact Or.inl ((hes i).1 hi)
        · rw [List.mem_singleton] at hi
          exact Or.inr (Or.inl ⟨rfl, hr, w, hi, hw⟩)
      · rw [if_neg (by simpa using hr)] at h
        obtain ⟨ri, h1, h⟩ := Option.bind_eq_some_iff.1 h
        obtain ⟨re, h2, h⟩ := Option.bind_eq_some_iff.1 h
        obtain ⟨is1, h3, h⟩ := Option.bind_eq_some_iff.1 h
        obtain ⟨is2, h4, rfl⟩ := Option.map_eq_some_iff.1 h
        have rules : ∀ (dir : Bool) (em rs : List Nat) (js : List (Issue C S)), ruleIssues N c n p dir em rs = some js → ∀ i,
            i ∈ js ↔ ∃ k w, i = .redundantRule p dir k w ∧ k ∈ rs ∧ 1 ≤ k ∧ k ≤ (p.rules dir).length ∧ k ∉ em ∧ ruleWhy N c n p dir k = some w := by
          intro dir em rs js hj i
          unfold ruleIssues at hj
          rw [mem_mapM hj]
          constructor
          · rintro ⟨k, hk, hi⟩
            obtain ⟨w, hw, rfl⟩ := Option.map_eq_some_iff.1 hi
            obtain ⟨hk1, hk2⟩ := List.mem_filter.1 hk
            obtain ⟨j, hj, rfl⟩ := List.mem_map.1 hk1
            rw [List.mem_range] at hj
            simp only [Bool.and_eq_true, Bool.not_eq_true', List.contains_eq_mem, decide_eq_true_eq, decide_eq_false_iff_not] at hk2
            exact ⟨j + 1, w, rfl, hk2.2, by omega, hj, hk2.1, hw⟩
          · rintro ⟨k, w, rfl, hk, h1, h2, h3, hw⟩
            refine ⟨k, List.mem_filter.2 ⟨List.mem_map.2 ⟨k - 1, List.mem_range.2 ?_, by omega⟩, ?_⟩, by rw [hw]; rfl⟩
            · have : (p.dirRules dir).length = (p.rules dir).length := rfl
              omega
            · simp [hk, h3]
        have why : ∀ (dir : Bool) (em rs : List Nat) (js : List (Issue C S)), ruleIssues N c n p dir em rs = some js → ∀ k, k ∈ rs → 1 ≤ k →
            k ≤ (p.rules dir).length → k ∉ em → ∃ w, Issue.redundantRule p dir k w ∈ js := by
          intro dir em rs js hj k k1 k2 k3 k4
          have : k ∈ ((List.range (p.dirRules dir).length).map (· + 1)).filter (fun i => !em.contains i && rs.contains i) := by
            refine List.mem_filter.2 ⟨List.mem_map.2 ⟨k - 1, List.mem_range.2 ?_, by omega⟩, by simp [k1, k4]⟩
            have : (p.dirRules dir).length = (p.rules dir).length := rfl
            omega
          unfold ruleIssues at hj
          generalize ((List.range (p.dirRules dir).length).map (· + 1)).filter (fun i => !em.contains i && rs.contains i) = ls at hj this
          induction ls generalizing js with
          | nil => simp at this
          | cons m ls ih =>
            rw [List.mapM_cons] at hj
            cases hm' : (ruleWhy N c n p dir m).map (Issue.redundantRule p dir m) with
            | none => rw [hm'] at hj; simp at hj
            | some z =>
              rw [hm'] at hj
              cases hl2 : ls.mapM (fun i => (ruleWhy N c n p dir i).map (Issue.redundantRule p dir i)) with
              | none => rw [hl2] at hj; simp at hj
              | some zs =>
                rw [hl2] at hj
                simp at hj
                subst hj
                rcases List.mem_cons.1 this with rfl | h2
                · obtain ⟨w, hw, rfl⟩ := Option.map_eq_some_iff.1 hm'
                  exact ⟨w, by simp⟩
                · obtain ⟨w, hw⟩ := ih zs hl2 h2
                  exact ⟨w, by simp [hw]⟩
        refine ⟨fun i hi => ?_, fun dir k hk => ?_, fun _ h => absurd h hr, fun _ _ dir k rs hrs k1 k2 k3 k4 => ?_⟩
        · rcases List.mem_append.1 hi with hi | hi
          · rcases List.mem_append.1 hi with hi | hi
            · exact Or.inl ((hes i).1 hi)
            · obtain ⟨k, w, e, f⟩ := (rules true _ _ _ h3 i).1 hi
              exact Or.inr (Or.inr ⟨rfl, hr, true, k, w, ri, e, h1, f⟩)
          · obtain ⟨k, w, e, f⟩ := (rules false _ _ _ h4 i).1 hi
            exact Or.inr (Or.inr ⟨rfl, hr, false, k, w, re, e, h2, f⟩)
        · exact List.mem_append_left _ (List.mem_append_left _ ((hes _).2 ⟨dir, k, rfl, hk⟩))
        · cases dir
          · rw [h2, Option.some.injEq] at hrs
            subst hrs
            obtain ⟨w, hw⟩ := why false _ _ _ h4 k k1 k2 k3 k4
            exact ⟨w, List.mem_append_right _ hw⟩
          · rw [h1, Option.some.injEq] at hrs
            subst hrs
            obtain ⟨w, hw⟩ := why true _ _ _ h3 k k1 k2 k3 k4
            exact ⟨w, List.mem_append_left _ (List.mem_append_right _ hw)⟩

/-! ### Specification of issues -/

/-- Without its gateways the configuration allows what is allowed without policies. -/
def Vacuous (N : NetQ C P E S) (excl : Bool) (c : Config C S) : Prop :=
  ∀ g, NoGateways c g → ∀ x, Relevant N c.peers excl x → (g.allows N x ↔ Baseline N c.peers x)

/-- What an issue claims. -/
def Issue.Real (N : NetQ C P E S) (excl : Bool) (c : Config C S) : Issue C S → Prop
  | .vacuous => Vacuous N excl c
  | .emptyPolicy p => p ∈ c.store.policies ∧ Nobody N p.selected
  | .emptyRule p dir i => p ∈ c.store.policies ∧ 1 ≤ i ∧ ∃ r, (p.rules dir)[i - 1]? = some r ∧ ∀ x, N.K.mem x r.props = false
  | .redundantPolicy p _ => p ∈ c.store.policies ∧ PolicyRedundant N excl none c p
  | .redundantRule p dir i _ => p ∈ c.store.policies ∧ 1 ≤ i ∧ i ≤ (p.rules dir).length ∧
      (RuleClear N c p dir (i - 1) → RuleRedundant N excl none c p dir (i - 1))

theorem emptyRules_mem (e : EPolicy C S) (dir : Bool) (k : Nat) :
    k ∈ (if dir then (hasEmptyRules N e).1 else (hasEmptyRules N e).2) ↔
      e.pol.kind ≠ (if dir then .istioSidecar else .istioAuthz) ∧ ∃ (i : Nat) (ps : RulePeers S), k = i + 1 ∧ (e.dirPeers dir)[i]? = some ps ∧ ∃ s ∈ ps, Nobody N s := by
  obtain ⟨_, h2, _⟩ := C35_empty (N := N) [e]
  obtain ⟨f, hf, _, _, _, h3, h4, _⟩ := h2 0 e rfl
  have : emptinessOf N e = f := Option.some.inj hf
  subst this
  cases dir
  · exact h4 k
  · exact h3 k

/-- C66: the issues reported are real; of a rule whose place in the order of the policies matters, see C34.
Full statement: without `hs`, `ht` and `hn`, and for all rules.  Missing: as for C34 and C35; policies of
the same layer that share a name, `C66_name_wrong`. -/
theorem C66_real_partial (L : N.Lawful Ok Strong Wide) (excl : Bool) (ep : Policy C S → EPolicy C S) (hep : ∀ p, (ep p).pol = p) {c : Config C S}
    (G : c.Good N Ok Strong) (hs : ∀ g, NoGateways c g → g.Solid N) (ht : ∀ p ∈ c.store.policies, NoTwin c p)
    (hd : ∀ p ∈ c.store.policies, (ep p).Tied N)
    (hn : ∀ p ∈ c.store.policies, ∀ q ∈ c.store.policies, layerOf p.kind = layerOf q.kind → p.name = q.name → p = q)
    {a : SanityAnswer C S} (h : sanityQuery N excl ep c = some a) : ∀ i ∈ a.issues, i.Real N excl c := by
  intro i hi
  have hne : c.store.policies ≠ [] := by
    intro he
    unfold sanityQuery at h
    rw [if_pos (by simp [he]), Option.some.injEq] at h
    subst h
    simp at hi
  have hc : a.conflict = none := by
    cases hcc : a.conflict with
    | none => rfl
    | some x =>
      rw [(C66_answer excl ep c h).2.2.1 (by rw [hcc]; rfl)] at hi
      simp at hi
  obtain ⟨vac, hv, _, _, hm⟩ := sanity_issues excl ep c h hne hc
  rcases (hm i).1 hi with ⟨hvt, rfl⟩ | ⟨⟨n, l⟩, hl, hck, red, hred, p, hp, is, his, hii⟩
  · obtain ⟨b, h1, _, h2⟩ := C35_vacuity_partial (Canon := fun _ => True) L excl G hs
    rw [hv, Option.some.injEq] at h1
    subst h1
    exact fun g hg => (h2 g hg).1 hvt
  · have hlist : layerList c.store.layers n = l := layerList_of_mem G.B.distinct hl
    have hpl : p ∈ layerList c.store.layers n := by rw [hlist]; exact hp
    obtain ⟨hpc, hpk⟩ := (G.B.mem_list n p).1 hpl
    have hsh : p.Shaped := by have := (hd p hpc).shaped; rwa [hep] at this
    rcases policy_issues excl ep c vac n red p his with ⟨hnb, rfl⟩ | ⟨hnb, h1, _⟩
    · rw [List.mem_singleton] at hii
      subst hii
      exact ⟨hpc, hnb⟩
    · rcases h1 i hii with ⟨dir, k, rfl, hk⟩ | ⟨_, hr, w, rfl, _⟩ | ⟨_, hr, dir, k, w, rs, rfl, hrs, hk, k1, k2, _⟩
      · have hk' := hk
        rw [emptyRules_mem] at hk
        obtain ⟨_, j, ps, rfl, hj, hs⟩ := hk
        have ht' := hd p hpc
        have hlen : (((ep p).dirPeers dir)).length = (p.rules dir).length := by
          have h1 := ht'.lengthIn
          have h2 := ht'.lengthEg
          rw [hep] at h1 h2
          cases dir
          · exact h2
          · exact h1
        have hlt : j < (p.rules dir).length := by
          rw [← hlen]
          exact (List.getElem?_eq_some_iff.1 hj).1
        refine ⟨hpc, by omega, (p.rules dir)[j], List.getElem?_eq_getElem hlt, fun x => ?_⟩
        refine C35_empty_rule (ep p) ht' dir j _ (by rw [hep]; exact List.getElem?_eq_getElem hlt) ?_ x
        exact hk'
      · refine ⟨hpc, ?_⟩
        obtain ⟨rs, hrs, h2, _⟩ := C34_policy_partial (Canon := fun _ => True) L excl G n ht
        rw [hlist, hred, Option.some.injEq] at hrs
        subst hrs
        obtain ⟨pol, hpol, hname, h3⟩ := h2 _ hr
        obtain ⟨q1, q2⟩ := (G.B.mem_list n pol).1 hpol
        have : pol = p := hn pol q1 p hpc (by rw [q2, hpk]) hname
        subst this
        exact h3
      · refine ⟨hpc, k1, k2, fun hcl => ?_⟩
        obtain ⟨l', hl', h2⟩ := C34_rule_partial (Canon := fun _ => True) L excl G hpl (ht p hpc) hsh dir
        rw [hrs, Option.some.injEq] at hl'
        subst hl'
        obtain ⟨h3, h4⟩ := h2 (k - 1) hcl.1 hcl.2.1
        exact ⟨h3, fun c' R => (h4 c' R).1 (by rw [show k - 1 + 1 = k by omega]; exact hk) hcl.2.2⟩

/-- C66: a configuration that passes has policies, no conflict, is not vacuous, has neither empty policies
nor empty rules, nor policies or rules without which their layer allows the same.
Full statement: without `excl`, `ht`, and for all rules; see C34 and C35. -/
theorem C66_passes_partial (L : N.Lawful Ok Strong Wide) (X : N.Exact Ok Strong Canon) (ep : Policy C S → EPolicy C S) (hep : ∀ p, (ep p).pol = p)
    {c : Config C S} (G : c.Good N Ok Strong) (hs : ∀ g, NoGateways c g → g.Solid N) (ht : ∀ p ∈ c.store.policies, NoTwin c p)
    (hd : ∀ p ∈ c.store.policies, (ep p).Tied N) {a : SanityAnswer C S} (h : sanityQuery N true ep c = some a) (hb : a.bool = true) :
    c.store.policies ≠ [] ∧ (∀ p ∈ c.store.policies, ∀ q ∈ c.store.policies, p ≠ q → ¬ Conflict N (ep p) (ep q)) ∧ ¬ Vacuous N true c ∧
    ∀ n : LayerName, n.checked → ∀ p ∈ c.store.policies, layerOf p.kind = n →
      ¬ Nobody N p.selected ∧ (∀ dir, ∀ ps ∈ (ep p).dirPeers dir, ∀ s ∈ ps, ¬ Nobody N s) ∧
      ((∃ q ∈ c.store.policies, layerOf q.kind = n ∧ q ≠ p) → ¬ PolicyRedundant N true (some n) c p) ∧
      ∀ dir i, RuleClear N c p dir i → ¬ RuleRedundant N true (some n) c p dir i := by
  obtain ⟨hne, hc, hi⟩ := (C66_answer true ep c h).1.1 hb
  obtain ⟨vac, hv, hcc, hex, hm⟩ := sanity_issues true ep c h hne hc
  have hvf : vac = false := by
    cases vac with
    | false => rfl
    | true =>
      have := (hm .vacuous).2 (Or.inl ⟨rfl, rfl⟩)
      rw [hi] at this
      simp at this
  refine ⟨hne, (C66_conflict ep hep G.built).2 hcc, fun hvac => ?_, fun n hck p hp hpk => ?_⟩
  · obtain ⟨b, h1, ⟨g, hg⟩, h2⟩ := C35_vacuity_partial (Canon := Canon) L true G hs
    rw [hv, Option.some.injEq] at h1
    subst h1
    have := (h2 g hg).2 X rfl (hvac g hg)
    rw [hvf] at this
    simp at this
  · have hpl : p ∈ layerList c.store.layers n := (G.B.mem_list n p).2 ⟨hp, hpk⟩
    have hlm : (n, layerList c.store.layers n) ∈ c.store.layers := layerList_mem (fun h => by rw [h] at hpl; simp at hpl)
    have hsh : p.Shaped := by have := (hd p hp).shaped; rwa [hep] at this
    obtain ⟨red, hred, hall⟩ := hex _ hlm hck
    obtain ⟨is, his⟩ := hall p hpl
    have hnil : ∀ i, i ∉ is := by
      intro i hi'
      have := (hm i).2 (Or.inr ⟨_, hlm, hck, red, hred, p, hpl, is, his, hi'⟩)
      rw [hi] at this
      simp at this
    have h0 := policy_issues true ep c vac n red p his
    rcases h0 with ⟨_, rfl⟩ | ⟨hnb, _, g2, g3, g4⟩
    · exact absurd (List.mem_singleton.2 rfl) (hnil _)
    have noEmpty : ∀ (dir : Bool) (k : Nat), k ∉ (if dir then (hasEmptyRules N (ep p)).1 else (hasEmptyRules N (ep p)).2) := fun dir k hk => hnil _ (g2 dir k hk)
    have nred : p.name ∉ red := by
      intro hr
      obtain ⟨w, hw⟩ := g3 hvf hr
      exact hnil _ hw
    refine ⟨hnb, fun dir ps hps s hs' hno => ?_, fun hq hr => ?_, fun dir i hcl hr => ?_⟩
    · obtain ⟨j, hj⟩ := List.getElem?_of_mem hps
      have ht' := hd p hp
      refine noEmpty dir (j + 1) ((emptyRules_mem _ _ _).2 ⟨fun hk => ?_, j, ps, rfl, hj, s, hs', hno⟩)
      rw [hep] at hk
      have hjl := (List.getElem?_eq_some_iff.1 hj).1
      have l1 := ht'.lengthIn
      have l2 := ht'.lengthEg
      rw [hep] at l1 l2
      cases dir
      · rw [if_neg (by simp)] at hk
        rw [hsh.1 hk] at l2
        unfold EPolicy.dirPeers at hjl
        simp at hjl l2
        rw [l2] at hjl
        simp at hjl
      · rw [if_pos rfl] at hk
        rw [hsh.2 hk] at l1
        unfold EPolicy.dirPeers at hjl
        simp at hjl l1
        rw [l1] at hjl
        simp at hjl
    · obtain ⟨q, hq1, hq2, hq3⟩ := hq
      have hql : q ∈ layerList c.store.layers n := (G.B.mem_list n q).2 ⟨hq1, hq2⟩
      have h2 : 1 < (layerList c.store.layers n).length := by
        by_contra hlen
        match hlst : layerList c.store.layers n with
        | [] => rw [hlst] at hql; simp at hql
        | [y] =>
          rw [hlst, List.mem_singleton] at hql hpl
          exact hq3 (hql.trans hpl.symm)
        | y :: z :: l => rw [hlst] at hlen; simp at hlen
      obtain ⟨rs, hrs, _, h3⟩ := C34_policy_partial (Canon := Canon) L true G n ht
      rw [hred, Option.some.injEq] at hrs
      subst hrs
      exact nred (h3 X rfl h2 p hpl hr.2)
    · obtain ⟨l', hl', h2⟩ := C34_rule_partial (Canon := Canon) L true G hpl (ht p hp) hsh dir
      obtain ⟨⟨c', R⟩, h4⟩ := h2 i hcl.1 hcl.2.1
      have hmem := (h4 c' R).2 X rfl (hr.2 c' R)
      obtain ⟨w, hw⟩ := g4 hvf nred dir (i + 1) l' hl' hmem (by omega) hcl.1 (noEmpty dir (i + 1))
      exact hnil _ hw

end
end Verif
