import Verif.PropsExpected

/-!
C65, part 3: the result of running a scheme file, and the exit status.
-/

namespace Verif
namespace Runner

variable {Cfg : Type} {W : World Cfg}

/-! ### Specification -/

open Classical in
/-- One if the proposition holds, zero otherwise. -/
noncomputable def one (P : Prop) : Nat := if P then 1 else 0

theorem one_pos {P : Prop} (h : P) : one P = 1 := by unfold one; rw [if_pos h]
theorem one_neg {P : Prop} (h : ¬ P) : one P = 0 := by unfold one; rw [if_neg h]
theorem one_eq_zero {P : Prop} : one P = 0 ↔ ¬ P := by unfold one; split <;> simp_all

/-- The number of warnings is not the expected one. -/
def WarningsDiffer (e : Entry Cfg) : Prop := ∃ w c f, e.expectedWarnings = some w ∧ e.load = .ok c f ∧ (f : Int) ≠ w

/-- An error was expected and there is none, or conversely. -/
def ErrorDiffers (e : Entry Cfg) : Prop := ∃ b, e.expectedError = some b ∧ ¬ (b = true ↔ e.load = .syntaxError)

/-- The mismatches of a configuration (docs/SchemeFileFormat.md 121-122). -/
noncomputable def entryCount (e : Entry Cfg) : Nat := one (WarningsDiffer e) + one (ErrorDiffers e)

/-- The configurations can be read, one after the other: no name is used twice, and errors occur only
where the scheme speaks of errors. -/
inductive Reads (W : World Cfg) : List (Text × Cfg) → List (Entry Cfg) → List (Text × Cfg) → Prop
  | nil {st} : Reads W st [] st
  | ok {st st' e es c f} : (∀ x ∈ st, x.1 ≠ e.name) → e.load = .ok c f → Reads W ((W.name c, c) :: st) es st' →
      Reads W st (e :: es) st'
  | error {st st' e es} : (∀ x ∈ st, x.1 ≠ e.name) → e.load = .syntaxError → e.expectedError ≠ none → Reads W st es st' →
      Reads W st (e :: es) st'

/-- The result of a query with at most one sub-query. -/
inductive SubResult (W : World Cfg) (configs : List (Text × Cfg)) (q : Query) : Int → Nat → Nat → Prop
  | empty : q.subs = [] → SubResult W configs q 0 0 0
  | sub {k cs res cmp ne full} : q.subs = [(k, cs)] →
      runQuery W (getConfig W configs) k cs q.golden q.out false = some (.triple res cmp ne, full) → SubResult W configs q res cmp ne

/-- The mismatches of a query (docs/SchemeFileFormat.md 123-125). -/
noncomputable def queryCount (q : Query) (res : Int) (cmp ne : Nat) : Nat :=
  one (∃ e, q.expected = some e ∧ res ≠ e) + one (cmp ≠ 0) + one ((ne : Int) ≠ q.expectedNotExecuted.getD 0)

/-- The queries have been run, with this number of mismatches. -/
inductive Mismatches (W : World Cfg) (configs : List (Text × Cfg)) : List Query → Nat → Prop
  | nil : Mismatches W configs [] 0
  | cons {q qs res cmp ne n} : SubResult W configs q res cmp ne → Mismatches W configs qs n →
      Mismatches W configs (q :: qs) (queryCount q res cmp ne + n)

/-- Whether the queries can be run together: at most one has the format html, and it is the first. -/
def HtmlFirst (qs : List Query) : Prop := ∀ i (h : i < qs.length), qs[i].out.format = "html" → i = 0

/-! ### Configurations -/

theorem lookup_isSome {configs : List (Text × Cfg)} {name : Text} :
    (lookup configs name).isSome = false ↔ ∀ x ∈ configs, x.1 ≠ name := by
  unfold lookup
  rw [Option.isSome_map]
  cases h : configs.find? (fun e => decide (e.1 = name)) with
  | none =>
    simp
    intro a b hm
    have := List.find?_eq_none.1 h (a, b) hm
    simpa using this
  | some e =>
    simp only [Option.isSome_some, Bool.true_eq_false, false_iff]
    intro hx
    exact hx e (List.mem_of_find?_eq_some h) (by simpa using List.find?_some h)

theorem errorMismatch_eq (e : Entry Cfg) {found : Bool} (hf : found = true ↔ e.load = .syntaxError) :
    errorMismatch e.expectedError found = one (ErrorDiffers e) := by
  unfold errorMismatch
  cases he : e.expectedError with
  | none =>
    rw [one_neg]
    rintro ⟨b, hb, _⟩
    rw [he] at hb
    simp at hb
  | some b =>
    simp only
    have : b ≠ found ↔ ErrorDiffers e := by
      unfold ErrorDiffers
      rw [he]
      constructor
      · intro h
        refine ⟨b, rfl, ?_⟩
        rw [← hf]
        cases b <;> cases found <;> simp_all
      · rintro ⟨b', hb, h⟩
        injection hb with hb
        subst hb
        rw [← hf] at h
        rintro rfl
        exact h Iff.rfl
    by_cases h : b ≠ found
    · rw [if_pos h, one_pos (this.1 h)]
    · rw [if_neg h, one_neg (fun h' => h (this.2 h'))]

theorem addConfig_ok {st : List (Text × Cfg) × Nat} {e : Entry Cfg} {c : Cfg} {f : Nat} (hn : ∀ x ∈ st.1, x.1 ≠ e.name)
    (hl : e.load = .ok c f) : addConfig W st e = some ((W.name c, c) :: st.1, st.2 + entryCount e) := by
  unfold addConfig
  rw [if_neg (by rw [lookup_isSome.2 hn]; decide), hl]
  simp only
  rw [errorMismatch_eq e (by rw [hl]; simp)]
  congr 2
  rw [entryCount, ← Nat.add_assoc]
  congr 2
  cases he : e.expectedWarnings with
  | none =>
    rw [one_neg]
    rintro ⟨w, _, _, h, _⟩
    rw [he] at h
    simp at h
  | some w =>
    by_cases h : (f : Int) ≠ w
    · simp only [if_pos h]
      rw [one_pos ⟨w, c, f, he, hl, h⟩]
    · simp only [if_neg h]
      rw [one_neg]
      rintro ⟨w', c', f', h1, h2, h3⟩
      rw [he] at h1
      rw [hl] at h2
      injection h1 with h1
      injection h2 with _ h2
      subst h1 h2
      exact h h3

theorem addConfig_error {st : List (Text × Cfg) × Nat} {e : Entry Cfg} (hn : ∀ x ∈ st.1, x.1 ≠ e.name)
    (hl : e.load = .syntaxError) (he : e.expectedError ≠ none) : addConfig W st e = some (st.1, st.2 + entryCount e) := by
  unfold addConfig
  rw [if_neg (by rw [lookup_isSome.2 hn]; decide), hl]
  simp only
  rw [if_neg (by simpa using he), errorMismatch_eq e (by rw [hl]; simp), entryCount, one_neg (P := WarningsDiffer e), Nat.zero_add]
  rintro ⟨w, c, f, _, h, _⟩
  rw [hl] at h
  exact absurd h (by simp)

theorem addConfig_some {st st' : List (Text × Cfg) × Nat} {e : Entry Cfg} (h : addConfig W st e = some st') :
    (∀ x ∈ st.1, x.1 ≠ e.name) ∧ ((∃ c f, e.load = .ok c f) ∨ e.load = .syntaxError ∧ e.expectedError ≠ none) := by
  unfold addConfig at h
  split at h
  · simp at h
  · rename_i hn
    refine ⟨lookup_isSome.1 (by simpa using hn), ?_⟩
    split at h
    · rename_i c f hl; exact .inl ⟨c, f, hl⟩
    · rename_i hl
      split at h
      · simp at h
      · rename_i he; exact .inr ⟨hl, by simpa using he⟩
    · simp at h

theorem addConfigs {es : List (Entry Cfg)} {st : List (Text × Cfg)} {n : Nat} {st' : List (Text × Cfg)} {m : Nat} :
    es.foldlM (addConfig W) (st, n) = some (st', m) ↔ Reads W st es st' ∧ m = n + (es.map entryCount).sum := by
  induction es generalizing st n with
  | nil =>
    simp
    constructor
    · rintro ⟨rfl, rfl⟩; exact ⟨.nil, rfl⟩
    · rintro ⟨h, rfl⟩
      cases h
      exact ⟨rfl, rfl⟩
  | cons e es ih =>
    rw [List.foldlM_cons, Option.bind_eq_bind, Option.bind_eq_some_iff]
    rw [List.map_cons, List.sum_cons, ← Nat.add_assoc]
    constructor
    · rintro ⟨s1, h1, h2⟩
      obtain ⟨hn, ⟨c, f, hl⟩ | ⟨hl, he⟩⟩ := addConfig_some h1
      · rw [addConfig_ok hn hl] at h1
        injection h1 with h1
        subst h1
        rw [ih] at h2
        exact ⟨.ok hn hl h2.1, h2.2⟩
      · rw [addConfig_error hn hl he] at h1
        injection h1 with h1
        subst h1
        rw [ih] at h2
        exact ⟨.error hn hl he h2.1, h2.2⟩
    · rintro ⟨hr, hm⟩
      cases hr with
      | ok hn hl hr => exact ⟨_, addConfig_ok hn hl, ih.2 ⟨hr, hm⟩⟩
      | error hn hl he hr => exact ⟨_, addConfig_error hn hl he, ih.2 ⟨hr, hm⟩⟩

/-! ### Queries -/

theorem runSubs_single {configs : List (Text × Cfg)} {q : Query} (hq : q.subs.length ≤ 1) {r : Int × Nat × Nat} :
    runSubs W configs q.golden q.out.format q.subs (0, 0, 0) q.out.full = some r ↔ SubResult W configs q r.1 r.2.1 r.2.2 := by
  rcases hs : q.subs with _ | ⟨⟨k, cs⟩, ss⟩
  · rw [runSubs]
    constructor
    · intro h
      injection h with h
      subst h
      exact .empty hs
    · intro h
      obtain ⟨a, b, c⟩ := r
      cases h with
      | empty => rfl
      | sub h' => rw [hs] at h'; simp at h'
  · have : ss = [] := by
      rw [hs] at hq
      cases ss with
      | nil => rfl
      | cons a b => simp at hq
    subst this
    rw [runSubs]
    simp only []
    constructor
    · intro h
      split at h
      · rename_i hr
        rw [runSubs] at h
        injection h with h
        subst h
        exact .sub hs hr
      · simp at h
    · intro h
      obtain ⟨a, b, c⟩ := r
      cases h with
      | empty h' => rw [hs] at h'; simp at h'
      | sub h' hr =>
        rw [hs] at h'
        simp only [List.cons.injEq, Prod.mk.injEq, and_true] at h'
        obtain ⟨rfl, rfl⟩ := h'
        have hr' : runQuery W (getConfig W configs) k cs q.golden ⟨q.out.format, q.out.full⟩ false = _ := hr
        simp only [hr', runSubs]

theorem queryErrors_eq {configs : List (Text × Cfg)} {q : Query} (hq : q.subs.length ≤ 1) {n : Nat} :
    queryErrors W configs q = some n ↔ ∃ res cmp ne, SubResult W configs q res cmp ne ∧ n = queryCount q res cmp ne := by
  have key : ∀ r : Int × Nat × Nat, ((match q.expected with
      | some e => if r.1 ≠ e then 1 else 0
      | none => 0) +
    (if (r.2.2 : Int) ≠ q.expectedNotExecuted.getD 0 then 1 else 0) +
    (if r.2.1 ≠ 0 then 1 else 0)) = queryCount q r.1 r.2.1 r.2.2 := by
    rintro ⟨res, cmp, ne⟩
    unfold queryCount
    simp only
    have h1 : (match q.expected with
      | some e => if res ≠ e then 1 else 0
      | none => 0) = one (∃ e, q.expected = some e ∧ res ≠ e) := by
      cases he : q.expected with
      | none => rw [one_neg]; simp
      | some e =>
        by_cases h : res ≠ e
        · simp only [if_pos h]
          rw [one_pos ⟨e, rfl, h⟩]
        · simp only [if_neg h]
          rw [one_neg]
          rintro ⟨e', he', h'⟩
          injection he' with he'
          subst he'
          exact h h'
    have h2 : (if (ne : Int) ≠ q.expectedNotExecuted.getD 0 then 1 else 0) = one ((ne : Int) ≠ q.expectedNotExecuted.getD 0) := by
      by_cases h : (ne : Int) ≠ q.expectedNotExecuted.getD 0
      · rw [if_pos h, one_pos h]
      · rw [if_neg h, one_neg h]
    have h3 : (if cmp ≠ 0 then 1 else 0) = one (cmp ≠ 0) := by
      by_cases h : cmp ≠ 0
      · rw [if_pos h, one_pos h]
      · rw [if_neg h, one_neg h]
    rw [h1, h2, h3]
    omega
  unfold queryErrors
  rw [Option.map_eq_some_iff]
  constructor
  · rintro ⟨r, hr, rfl⟩
    exact ⟨r.1, r.2.1, r.2.2, (runSubs_single hq).1 hr, key r⟩
  · rintro ⟨res, cmp, ne, h, rfl⟩
    exact ⟨(res, cmp, ne), (runSubs_single hq).2 h, key _⟩

theorem runQueries_eq {configs : List (Text × Cfg)} {qs : List Query} (hq : ∀ q ∈ qs, q.subs.length ≤ 1) {n m : Nat} :
    runQueries W configs qs n = some m ↔ ∃ k, Mismatches W configs qs k ∧ m = n + k := by
  induction qs generalizing n with
  | nil =>
    simp [runQueries]
    constructor
    · rintro rfl; exact ⟨0, .nil, rfl⟩
    · rintro ⟨k, h, rfl⟩
      cases h
      rfl
  | cons q qs ih =>
    have ih' := fun {n} => ih (fun q hq' => hq q (by simp [hq'])) (n := n)
    unfold runQueries at ih' ⊢
    rw [List.foldlM_cons, Option.bind_eq_bind, Option.bind_eq_some_iff]
    constructor
    · rintro ⟨n1, h1, h2⟩
      rw [Option.map_eq_some_iff] at h1
      obtain ⟨x, h1, rfl⟩ := h1
      rw [queryErrors_eq (hq q (by simp))] at h1
      obtain ⟨res, cmp, ne, hs, rfl⟩ := h1
      rw [ih'] at h2
      obtain ⟨k, hk, rfl⟩ := h2
      exact ⟨_, .cons hs hk, by omega⟩
    · rintro ⟨k, hk, rfl⟩
      cases hk with
      | cons hs hk =>
        rename_i res cmp ne k'
        refine ⟨n + queryCount q res cmp ne, ?_, ?_⟩
        · rw [Option.map_eq_some_iff]
          exact ⟨_, (queryErrors_eq (hq q (by simp))).2 ⟨res, cmp, ne, hs, rfl⟩, rfl⟩
        · rw [ih']
          exact ⟨k', hk, by omega⟩

theorem filter_id_length {l : List Bool} : (l.filter id).length = 0 ↔ ∀ b ∈ l, b = false := by
  rw [List.length_eq_zero_iff, List.filter_eq_nil_iff]
  simp

theorem activate_iff {qs : List Query} : activate qs = true ↔ HtmlFirst qs := by
  unfold activate HtmlFirst
  cases qs with
  | nil => simp
  | cons q qs =>
    have tail0 : ((qs.map (fun q => decide (q.out.format = "html"))).filter id).length = 0 ↔
        ∀ x ∈ qs, x.out.format ≠ "html" := by
      rw [filter_id_length]
      simp
    have h2 : (∀ i (h : i < (q :: qs).length), (q :: qs)[i].out.format = "html" → i = 0) ↔ ∀ x ∈ qs, x.out.format ≠ "html" := by
      constructor
      · intro h x hx hf
        obtain ⟨j, hj, rfl⟩ := List.getElem_of_mem hx
        have := h (j + 1) (by simpa using hj) (by simpa using hf)
        omega
      · intro h i hi hf
        cases i with
        | zero => rfl
        | succ i => exact absurd hf (by simpa using h _ (List.getElem_mem (by simpa using hi)))
    rw [h2, ← tail0]
    simp only [List.map_cons]
    by_cases hq : q.out.format = "html"
    · simp [hq]
    · simp [hq]

/-! ### C65: schemes -/

/-- C65, schemes: queries in a scheme file are run iff at most the first has the format html; otherwise
nothing is run, and `None` is returned. -/
theorem C65_scheme_runs (s : Scheme Cfg) : runScheme W s = some none ↔ ¬ HtmlFirst s.queries := by
  unfold runScheme
  rw [← activate_iff]
  cases activate s.queries
  · simp
  · simp only [if_true]
    split
    · simp
    · simp

/-- C65, schemes: the result of a scheme is the number of its mismatches: configurations with another
number of warnings or other errors than expected, and queries with another result, another output or other
runs not executed than expected.  Missing from the full claim: queries with several sub-queries, see
`C65_sub_queries_wrong`. -/
theorem C65_scheme_count_partial {s : Scheme Cfg} (hq : ∀ q ∈ s.queries, q.subs.length ≤ 1) {n : Int} :
    runScheme W s = some (some n) ↔
      HtmlFirst s.queries ∧ ∃ configs k, Reads W [] s.entries configs ∧ Mismatches W configs s.queries k ∧
        n = (((s.entries.map entryCount).sum + k : Nat) : Int) := by
  unfold runScheme
  rw [← activate_iff]
  cases activate s.queries
  · simp
  · simp only [if_true, true_and]
    split
    · rename_i h
      simp only [reduceCtorEq, false_iff]
      rintro ⟨configs, k, hr, _⟩
      rw [addConfigs.2 ⟨hr, rfl⟩] at h
      simp at h
    · rename_i st h
      obtain ⟨configs, m⟩ := st
      rw [addConfigs] at h
      obtain ⟨hr, rfl⟩ := h
      simp only [Option.map_eq_some_iff, Option.some.injEq, Int.ofNat_eq_natCast]
      constructor
      · rintro ⟨m, hm, rfl⟩
        rw [runQueries_eq hq] at hm
        obtain ⟨k, hk, rfl⟩ := hm
        exact ⟨configs, k, hr, hk, by omega⟩
      · rintro ⟨configs', k, hr', hk, rfl⟩
        have := (addConfigs (n := 0)).2 ⟨hr, rfl⟩
        rw [(addConfigs (n := 0)).2 ⟨hr', rfl⟩] at this
        simp only [Option.some.injEq, Prod.mk.injEq] at this
        obtain ⟨rfl, _⟩ := this
        exact ⟨_, (runQueries_eq hq).2 ⟨k, hk, rfl⟩, by omega⟩

theorem mismatches_zero {configs : List (Text × Cfg)} {qs : List Query} :
    Mismatches W configs qs 0 ↔ ∀ q ∈ qs, ∃ res cmp ne, SubResult W configs q res cmp ne ∧
      (∀ e, q.expected = some e → res = e) ∧ cmp = 0 ∧ (ne : Int) = q.expectedNotExecuted.getD 0 := by
  induction qs with
  | nil => simp; exact .nil
  | cons q qs ih =>
    have key : ∀ res cmp ne, queryCount q res cmp ne = 0 ↔
        (∀ e, q.expected = some e → res = e) ∧ cmp = 0 ∧ (ne : Int) = q.expectedNotExecuted.getD 0 := by
      intro res cmp ne
      unfold queryCount
      rw [Nat.add_eq_zero_iff, Nat.add_eq_zero_iff, one_eq_zero, one_eq_zero, one_eq_zero, and_assoc]
      simp
    constructor
    · intro h
      obtain ⟨z, hz0, h⟩ : ∃ z, z = 0 ∧ Mismatches W configs (q :: qs) z := ⟨0, rfl, h⟩
      cases h with
      | cons hs hm =>
        rename_i res cmp ne k
        have h1 : queryCount q res cmp ne = 0 := by omega
        have h2 : k = 0 := by omega
        subst h2
        intro x hx
        rcases List.mem_cons.1 hx with rfl | hx
        · exact ⟨res, cmp, ne, hs, (key _ _ _).1 h1⟩
        · exact ih.1 hm x hx
    · intro h
      obtain ⟨res, cmp, ne, hs, hk⟩ := h q (by simp)
      have h1 := (key _ _ _).2 hk
      have h2 := ih.2 (fun x hx => h x (by simp [hx]))
      have := Mismatches.cons hs h2
      rw [h1] at this
      exact this

/-- C65, schemes: the result is 0 iff the configurations could be read and all expectations are met. -/
theorem C65_scheme_zero_partial {s : Scheme Cfg} (hq : ∀ q ∈ s.queries, q.subs.length ≤ 1) :
    runScheme W s = some (some 0) ↔
      HtmlFirst s.queries ∧ ∃ configs, Reads W [] s.entries configs ∧
        (∀ e ∈ s.entries, ¬ WarningsDiffer e ∧ ¬ ErrorDiffers e) ∧
        ∀ q ∈ s.queries, ∃ res cmp ne, SubResult W configs q res cmp ne ∧
          (∀ e, q.expected = some e → res = e) ∧ cmp = 0 ∧ (ne : Int) = q.expectedNotExecuted.getD 0 := by
  rw [C65_scheme_count_partial hq]
  have hsum : ∀ es : List (Entry Cfg), (es.map entryCount).sum = 0 ↔ ∀ e ∈ es, ¬ WarningsDiffer e ∧ ¬ ErrorDiffers e := by
    intro es
    induction es with
    | nil => simp
    | cons e es ih =>
      rw [List.map_cons, List.sum_cons, Nat.add_eq_zero_iff, ih, entryCount, Nat.add_eq_zero_iff, one_eq_zero, one_eq_zero]
      simp
  constructor
  · rintro ⟨hh, configs, k, hr, hm, h0⟩
    have hk : k = 0 := by omega
    subst hk
    exact ⟨hh, configs, hr, (hsum _).1 (by omega), mismatches_zero.1 hm⟩
  · rintro ⟨hh, configs, hr, he, hm⟩
    exact ⟨hh, configs, 0, hr, mismatches_zero.2 hm, by rw [(hsum _).2 he]; rfl⟩

/-- C65, exit status of a scheme: an exception is 7; with less than 256 mismatches, the exit status is
their number. -/
theorem C65_scheme_exit {r : Option (Option Int)} :
    (r = none → exitStatus (mainValue false r) = 7) ∧
    (∀ n : Nat, r = some (some (n : Int)) → n < 256 → exitStatus (mainValue false r) = n) := by
  refine ⟨?_, ?_⟩
  · rintro rfl; decide
  · rintro n rfl hn
    simp [mainValue, exitStatus]
    omega

/-- `--return_0` always gives 0. -/
theorem C65_return_0 (r : Option (Option Int)) : exitStatus (mainValue true r) = 0 := by
  cases r <;> rfl

/-! ### What goes wrong -/

/-- C65, wrong: two queries with the format html, or one that is not the first, and the exit status is 0
although nothing has been run, whatever is expected. -/
theorem C65_html_wrong {s : Scheme Cfg} (h : ¬ HtmlFirst s.queries) : exitStatus (mainValue false (runScheme W s)) = 0 := by
  rw [(C65_scheme_runs s).2 h]
  rfl

/-- C65, wrong: of several sub-queries only the last one counts.  Here the first result is 5, the second
0; the sum 5 is expected, and a mismatch is reported; the result 0 is accepted. -/
theorem C65_sub_queries_wrong :
    let q (e : Int) : Query :=
      ⟨[(.vacuity, ["ccccc".toList]), (.containment, ["ccccc".toList, "c".toList])], some e, none, .notGiven, ⟨"txt", false⟩⟩
    let configs : List (Text × Nat) := [("ccccc".toList, 5), ("c".toList, 1)]
    queryErrors exWorld configs (q (5 + 1)) = some 1 ∧ queryErrors exWorld configs (q 1) = some 0 := by decide +kernel

theorem runQueries_replicate {configs : List (Text × Cfg)} {q : Query} {m : Nat} (h : queryErrors W configs q = some m) (n r : Nat) :
    runQueries W configs (List.replicate n q) r = some (r + n * m) := by
  induction n generalizing r with
  | zero => simp [runQueries]
  | succ n ih =>
    unfold runQueries at ih ⊢
    rw [List.replicate_succ, List.foldlM_cons, h]
    simp only [Option.map_some, Option.bind_eq_bind, Option.bind_some]
    rw [ih, Nat.succ_mul]
    congr 1
    omega

/-- C65, wrong: 256 queries, all with a wrong result, give the exit status 0. -/
theorem C65_wrap_wrong :
    ∃ (s : Scheme Nat), (∀ q ∈ s.queries, q.subs.length ≤ 1) ∧ runScheme exWorld s = some (some 256) ∧
      exitStatus (mainValue false (runScheme exWorld s)) = 0 := by
  let q : Query := ⟨[(.vacuity, ["ccccc".toList])], some 4, none, .notGiven, ⟨"txt", false⟩⟩
  let e : Entry Nat := ⟨"ccccc".toList, .ok 5 0, none, none⟩
  have hq : queryErrors exWorld [("ccccc".toList, 5)] q = some 1 := by decide +kernel
  have ha : activate (List.replicate 256 q) = true := by
    rw [activate_iff]
    intro i hi hf
    rw [List.getElem_replicate] at hf
    exact absurd hf (by decide +kernel)
  have he : [e].foldlM (addConfig exWorld) ([], 0) = some ([("ccccc".toList, 5)], 0) := by decide +kernel
  have hr : runScheme exWorld ⟨[e], List.replicate 256 q⟩ = some (some 256) := by
    unfold runScheme
    simp only [ha, if_true, he]
    rw [runQueries_replicate hq]
    rfl
  refine ⟨⟨[e], List.replicate 256 q⟩, ?_, hr, ?_⟩
  · intro x hx
    rw [List.eq_of_mem_replicate hx]
    decide
  · rw [hr]; decide

/-- C65, wrong: a configuration named "global" is stored under the name of its first file of policies, and
a query on "global" raises an exception. -/
theorem C65_global_name_wrong {W : World Cfg} {c : Cfg} {f : Nat} {file : Text} (hf : file ≠ []) (hf' : file ≠ "global".toList)
    (hn : W.name c = configName "global".toList (some file)) {k : Key} {q : Query} (hq : q.subs = [(k, ["global".toList])])
    (hh : q.out.format ≠ "html") :
    runScheme W ⟨[⟨"global".toList, .ok c f, none, none⟩], [q]⟩ = none := by
  cases hs : runScheme W ⟨[⟨"global".toList, .ok c f, none, none⟩], [q]⟩ with
  | none => rfl
  | some r =>
    exfalso
    cases r with
    | none =>
      rw [C65_scheme_runs] at hs
      apply hs
      intro i hi h
      simp at hi
      subst hi
      exact absurd h hh
    | some n =>
      rw [C65_scheme_count_partial (by simp [hq])] at hs
      obtain ⟨_, configs, m, hr, hm, _⟩ := hs
      cases hr with
      | error _ hl _ _ => exact absurd hl (by simp)
      | ok h1 hl hr =>
        simp only [Load.ok.injEq] at hl
        obtain ⟨rfl, rfl⟩ := hl
        cases hr
        have hname : W.name c = file := by
          rw [hn, configName]
          simp [hf]
        have hg : getConfig W [(W.name c, c)] "global".toList = none := by
          unfold getConfig
          rw [if_pos (by decide +kernel)]
          unfold lookup
          rw [List.find?_cons_of_neg (by rw [hname]; simpa using hf'), List.find?_nil]
          rfl
        cases hm with
        | cons hsr _ =>
          cases hsr with
          | empty h => rw [hq] at h; simp at h
          | sub h hrq =>
            rw [hq] at h
            simp only [List.cons.injEq, Prod.mk.injEq, and_true] at h
            obtain ⟨rfl, rfl⟩ := h
            unfold runQuery at hrq
            split at hrq
            · simp at hrq
            · rename_i hk
              have hk' : k.qtype = .single := by
                by_cases h : k.qtype = .single
                · exact h
                · exact absurd ⟨h, by simp⟩ hk
              have hj : jobs k ["global".toList] = [["global".toList]] := by
                unfold jobs
                rw [hk']
                rfl
              rw [hj] at hrq
              simp only [loop, List.foldlM_cons, List.foldlM_nil] at hrq
              rw [Option.map_eq_some_iff] at hrq
              obtain ⟨a, ha, _⟩ := hrq
              rw [Option.bind_eq_bind, Option.bind_eq_some_iff] at ha
              obtain ⟨b, hb, _⟩ := ha
              unfold step at hb
              rw [List.map_cons, hg] at hb
              simp [sequence] at hb

/-! ### Examples -/

/-- One configuration with an expected warning, one with an expected error, two queries. -/
def exScheme : Scheme Nat where
  entries := [⟨"ccccc".toList, .ok 5 2, some 2, some false⟩, ⟨"bad".toList, .syntaxError, none, some true⟩,
    ⟨"ccc".toList, .ok 3 0, some 1, none⟩]
  queries := [⟨[(.vacuity, ["ccccc".toList, "ccc".toList])], some 8, none, .notGiven, ⟨"txt", false⟩⟩,
    ⟨[(.equivalence, ["ccccc".toList, "ccc".toList])], some 3, some 0, .missing, ⟨"txt", true⟩⟩]

-- one mismatch of warnings, one of the result, one of the output
example : runScheme exWorld exScheme = some (some 3) := by decide +kernel
example : HtmlFirst exScheme.queries := activate_iff.1 (by decide +kernel)
example : ∀ q ∈ exScheme.queries, q.subs.length ≤ 1 := by decide +kernel
example : Reads exWorld [] exScheme.entries [("ccc".toList, 3), ("ccccc".toList, 5)] :=
  .ok (f := 2) (by simp) rfl (.error (by decide +kernel) rfl (by simp [exScheme]) (.ok (f := 0) (by decide +kernel) rfl .nil))
example : configName "global".toList (some "policies.yaml".toList) = "policies.yaml".toList := by decide +kernel
-- an html query that is not the first one
example : ¬ HtmlFirst [⟨[], none, none, .notGiven, ⟨"txt", false⟩⟩, ⟨[], none, none, .notGiven, ⟨"html", false⟩⟩] := by
  rw [← activate_iff]; decide +kernel

end Runner
end Verif
