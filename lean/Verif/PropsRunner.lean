import Verif.RunnerModel

/-!
C65, part 1: which configurations a query is run on, what its result is, and which configuration a name of
a scheme file stands for.
-/

namespace Verif
namespace Runner

variable {Cfg : Type} {W : World Cfg}

/-! ### Specification -/

/-- How the documentation describes the configurations a query is run on (docs/SchemeFileFormat.md
46-64). -/
inductive Shape
  /-- each set -/
  | each
  /-- each pair of sets -/
  | eachPair
  /-- the first set with every other one -/
  | first
  /-- any two sets -/
  | anyTwo

/-- docs/SchemeFileFormat.md 46-64. -/
def docShape : Key → Shape
  | .emptiness | .redundancy | .disjointness | .vacuity | .sanity | .allCaptured | .connectivityMap => .each
  | .equivalence | .strongEquivalence | .semanticDiff => .eachPair
  | .forbids | .permits | .interferes | .containment | .twoWayContainment => .first
  | .pairwiseInterferes => .anyTwo

/-- The pairs of a list: an element and one that comes after it. -/
def pairsOf {α : Type} : List α → List (α × α)
  | [] => []
  | a :: l => l.map (fun b => (a, b)) ++ pairsOf l

/-- The runs of a query of a given shape. -/
def Shape.runs {α : Type} [DecidableEq α] : Shape → List α → List (List α)
  | .each, cs => cs.map (fun c => [c])
  | .eachPair, cs => (pairsOf cs).map (fun p => [p.1, p.2])
  | .first, [] => []
  | .first, b :: cs => cs.map (fun c => [c, b])
  | .anyTwo, cs => cs.flatMap (fun a => (cs.filter (fun b => decide (a ≠ b))).map (fun b => [a, b]))

/-- What one run of a query contributes: nothing, and the mark of a run that was not executed, if a
configuration has no peers or the format is not supported; the answer of the query otherwise. -/
inductive Outcome (W : World Cfg) (k : Key) (cmd : Bool) (format : String) (cs : List Cfg) : Int → Bool → Prop
  | noPeers {c : Cfg} : c ∈ cs → W.numPeers c = 0 → Outcome W k cmd format cs 0 true
  | format : (∀ c ∈ cs, W.numPeers c ≠ 0) → format ∉ k.formats → Outcome W k cmd format cs 0 true
  | run {full : Bool} {i : Iter} : (∀ c ∈ cs, W.numPeers c ≠ 0) → format ∈ k.formats →
      W.exec k ⟨format, full⟩ cmd cs = some i → Outcome W k cmd format cs i.num i.notExec

/-- A run: its configurations exist, and this is what it contributes. -/
def RunOf {α : Type} (W : World Cfg) (get : α → Option Cfg) (k : Key) (cmd : Bool) (format : String) (job : List α)
    (r : Int × Bool) : Prop :=
  ∃ cs : List Cfg, job.map get = cs.map some ∧ Outcome W k cmd format cs r.1 r.2

/-- A run fails: a configuration does not exist, or the query raises an exception. -/
def Fails {α : Type} (W : World Cfg) (get : α → Option Cfg) (k : Key) (cmd : Bool) (format : String) (job : List α) : Prop :=
  (∃ x ∈ job, get x = none) ∨
  ∃ cs : List Cfg, job.map get = cs.map some ∧ (∀ c ∈ cs, W.numPeers c ≠ 0) ∧ format ∈ k.formats ∧
    ∃ full, W.exec k ⟨format, full⟩ cmd cs = none

/-- The answers of the queries do not depend on `fullExplanation`, except for their texts. -/
def Steady (W : World Cfg) : Prop :=
  ∀ k format cmd cs full full', (W.exec k ⟨format, full⟩ cmd cs = none ↔ W.exec k ⟨format, full'⟩ cmd cs = none)

/-! ### Lists -/

theorem jobsPairs_cons {α : Type} (a : α) (l : List α) :
    jobsPairs (a :: l) = l.map (fun b => [a, b]) ++ jobsPairs l := by
  unfold jobsPairs
  rcases l with _ | ⟨b, l⟩
  · simp
  · have h1 : (a :: b :: l).length - 1 = (b :: l).length - 1 + 1 := by simp
    rw [h1, List.range_succ_eq_map, List.flatMap_cons]
    congr 1
    · simp only [List.length_cons, Nat.zero_add]
      have h2 : l.length + 1 + 1 - 1 = (b :: l).length := by simp
      rw [h2]
      generalize b :: l = m
      apply List.ext_getElem
      · simp
      · intro i h1 h2
        simp at h1
        simp
        rw [show 1 + i = i + 1 by omega, List.getElem?_cons_succ]
        rw [List.getElem?_eq_getElem (by simpa using h1)]
    · rw [List.flatMap_map]
      congr 1
      funext i
      simp only [List.length_cons]
      have h3 : l.length + 1 + 1 - (i.succ + 1) = l.length + 1 - (i + 1) := by omega
      rw [h3]
      apply List.ext_getElem
      · simp
      · intro j h1 h2
        simp
        rw [show i + 1 + 1 + j = (i + 1 + j) + 1 by omega, List.getElem?_cons_succ]

theorem jobsPairs_eq {α : Type} (cs : List α) : jobsPairs cs = (pairsOf cs).map (fun p => [p.1, p.2]) := by
  induction cs with
  | nil => rfl
  | cons a l ih => rw [jobsPairs_cons, ih]; simp [pairsOf]

theorem jobs_eq {α : Type} [DecidableEq α] {k : Key} (hk : k ≠ .twoWayContainment) (cs : List α) :
    jobs k cs = (docShape k).runs cs := by
  cases k <;> simp_all [jobs, Key.qtype, docShape, Shape.runs, jobsEach, jobsPairs_eq, jobsAll] <;>
    (cases cs <;> rfl)

theorem sequence_some {α : Type} {l : List (Option α)} {r : List α} : sequence l = some r ↔ l = r.map some := by
  induction l generalizing r with
  | nil => cases r <;> simp [sequence]
  | cons a l ih =>
    cases a with
    | none => cases r <;> simp [sequence]
    | some a =>
      rw [sequence, Option.map_eq_some_iff]
      constructor
      · rintro ⟨r', h1, rfl⟩
        simp [ih.1 h1]
      · intro h
        cases r with
        | nil => simp at h
        | cons b r =>
          simp at h
          exact ⟨r, ih.2 h.2, by rw [h.1]⟩

theorem sequence_none {α : Type} {l : List (Option α)} : sequence l = none ↔ none ∈ l := by
  induction l with
  | nil => simp [sequence]
  | cons a l ih => cases a <;> simp [sequence, ih]

/-! ### One run -/

theorem execute_some {o : OutConf} {k : Key} {cmd : Bool} {cs : List Cfg} {r : Iter × Bool} (h : execute W o k cmd cs = some r) :
    Outcome W k cmd o.format cs r.1.num r.1.notExec := by
  unfold execute at h
  split at h
  · rename_i c hc
    injection h with h
    subst h
    exact .noPeers (List.mem_of_find?_eq_some hc) (by simpa using List.find?_some hc)
  · rename_i hc
    have hp : ∀ c ∈ cs, W.numPeers c ≠ 0 := by
      intro c hm; simpa using List.find?_eq_none.1 hc c hm
    split at h
    · rename_i hf
      rw [Option.map_eq_some_iff] at h
      obtain ⟨a, ha, rfl⟩ := h
      exact .run hp hf ha
    · rename_i hf
      injection h with h
      subst h
      exact .format hp hf

theorem execute_none {o : OutConf} {k : Key} {cmd : Bool} {cs : List Cfg} :
    execute W o k cmd cs = none ↔ (∀ c ∈ cs, W.numPeers c ≠ 0) ∧ o.format ∈ k.formats ∧ W.exec k o cmd cs = none := by
  unfold execute
  split
  · rename_i c hc
    have hm := List.mem_of_find?_eq_some hc
    have hz : W.numPeers c = 0 := by simpa using List.find?_some hc
    simp
    intro h
    exact absurd hz (h c hm)
  · rename_i hc
    have hp : ∀ c ∈ cs, W.numPeers c ≠ 0 := by
      intro c hm; simpa using List.find?_eq_none.1 hc c hm
    split
    · rename_i hf
      simp [hf, Option.map_eq_none_iff]
      intro _ c hm
      exact hp c hm
    · rename_i hf
      simp [hf]

section
variable {α : Type} {get : α → Option Cfg} {k : Key} {cmd : Bool} {format : String}

theorem step_some {st st' : QueryResult × Bool} {job : List α} (h : step W get k cmd format st job = some st') :
    ∃ r : Int × Bool, RunOf W get k cmd format job r ∧ st'.1.num = st.1.num + r.1 ∧
      st'.1.notExec = st.1.notExec + (if r.2 then 1 else 0) := by
  unfold step at h
  split at h
  · simp at h
  · rename_i cs hs
    rw [Option.map_eq_some_iff] at h
    obtain ⟨r, hr, rfl⟩ := h
    exact ⟨(r.1.num, r.1.notExec), ⟨cs, sequence_some.1 hs, execute_some hr⟩, rfl, rfl⟩

theorem step_none (hs : Steady W) {st : QueryResult × Bool} {job : List α} :
    step W get k cmd format st job = none ↔ Fails W get k cmd format job := by
  unfold step Fails
  split
  · rename_i h
    simp only [true_iff]
    left
    rw [sequence_none] at h
    simpa using h
  · rename_i cs h
    have h' := sequence_some.1 h
    rw [Option.map_eq_none_iff, execute_none]
    constructor
    · rintro ⟨h1, h2, h3⟩
      exact .inr ⟨cs, h', h1, h2, _, h3⟩
    · rintro (⟨x, hx, hn⟩ | ⟨cs', h1, h2, h3, full, h4⟩)
      · exfalso
        have : (none : Option Cfg) ∈ job.map get := List.mem_map.2 ⟨x, hx, hn⟩
        rw [h'] at this
        simp at this
      · have : cs = cs' := by
          have := h'.symm.trans h1
          exact List.map_injective_iff.2 (fun _ _ h => by injection h) this
        subst this
        exact ⟨h2, h3, (hs k format cmd cs full st.2).1 h4⟩

theorem loop_some {st st' : QueryResult × Bool} {js : List (List α)} (h : loop W get k cmd format st js = some st') :
    ∃ rs : List (Int × Bool), List.Forall₂ (RunOf W get k cmd format) js rs ∧
      st'.1.num = st.1.num + (rs.map (·.1)).sum ∧ st'.1.notExec = st.1.notExec + (rs.filter (·.2)).length := by
  induction js generalizing st with
  | nil =>
    simp [loop] at h
    subst h
    exact ⟨[], .nil, by simp, by simp⟩
  | cons j js ih =>
    simp only [loop, List.foldlM_cons, Option.bind_eq_bind, Option.bind_eq_some_iff] at h
    obtain ⟨st1, h1, h2⟩ := h
    obtain ⟨r, hr, hn, he⟩ := step_some h1
    obtain ⟨rs, hrs, hn', he'⟩ := ih h2
    refine ⟨r :: rs, .cons hr hrs, ?_, ?_⟩
    · rw [hn', hn]; simp; omega
    · rw [he', he]
      cases hb : r.2 <;> simp [hb]
      omega

theorem loop_none (hs : Steady W) {st : QueryResult × Bool} {js : List (List α)} :
    loop W get k cmd format st js = none ↔ ∃ j ∈ js, Fails W get k cmd format j := by
  induction js generalizing st with
  | nil => simp [loop]
  | cons j js ih =>
    simp only [loop, List.foldlM_cons, Option.bind_eq_bind]
    cases h : step W get k cmd format st j with
    | none =>
      simp only [Option.bind_none, true_iff]
      exact ⟨j, by simp, (step_none hs).1 h⟩
    | some st1 =>
      simp only [Option.bind_some]
      have := ih (st := st1)
      unfold loop at this
      rw [this]
      constructor
      · rintro ⟨x, hx, hf⟩; exact ⟨x, by simp [hx], hf⟩
      · rintro ⟨x, hx, hf⟩
        rcases List.mem_cons.1 hx with rfl | hx
        · rw [(step_none hs (st := st)).2 hf] at h
          simp at h
        · exact ⟨x, hx, hf⟩

end

/-! ### C65: the result of a query -/

/-- The command line flag passed to the runs. -/
def flagOf (k : Key) (cmd : Bool) : Bool := match docShape k with
  | .each | .anyTwo => false
  | _ => cmd

theorem flag_eq (k : Key) (cmd : Bool) : (if k.qtype = .pairwise ∨ k.qtype = .single then false else cmd) = flagOf k cmd := by
  cases k <;> rfl

/-- C65, results: when a query is run on its configurations, its result is the sum of the results of its
runs, on the configurations the documentation says, and the number of runs that were not executed is
counted.  Missing from the full claim: `twoWayContainment`, see `C65_two_way_runs_wrong`. -/
theorem C65_result_partial {α : Type} [DecidableEq α] {get : α → Option Cfg} {k : Key} (hk : k ≠ .twoWayContainment) {cs : List α}
    {golden : Golden} {o : OutConf} {cmd : Bool} {res : Int} {cmp ne : Nat} {full : Bool}
    (h : runQuery W get k cs golden o cmd = some (.triple res cmp ne, full)) :
    ∃ rs : List (Int × Bool), List.Forall₂ (RunOf W get k (flagOf k cmd) o.format) ((docShape k).runs cs) rs ∧
      res = (rs.map (·.1)).sum ∧ ne = (rs.filter (·.2)).length := by
  unfold runQuery at h
  split at h
  · simp at h
  · rw [Option.map_eq_some_iff] at h
    obtain ⟨r, hr, he⟩ := h
    simp only [Prod.mk.injEq, Ret.triple.injEq] at he
    obtain ⟨⟨h1, _, h3⟩, _⟩ := he
    rw [flag_eq, jobs_eq hk] at hr
    obtain ⟨rs, hf, hn, hx⟩ := loop_some hr
    exact ⟨rs, hf, by rw [← h1, hn]; simp, by rw [← h3, hx]; simp⟩

/-- `twoWayContainment` is run on each pair, not only on the first set with the others. -/
theorem C65_two_way_result {α : Type} [DecidableEq α] {get : α → Option Cfg} {cs : List α} {golden : Golden} {o : OutConf} {cmd : Bool}
    {res : Int} {cmp ne : Nat} {full : Bool}
    (h : runQuery W get .twoWayContainment cs golden o cmd = some (.triple res cmp ne, full)) :
    ∃ rs : List (Int × Bool), List.Forall₂ (RunOf W get .twoWayContainment cmd o.format) (Shape.eachPair.runs cs) rs ∧
      res = (rs.map (·.1)).sum ∧ ne = (rs.filter (·.2)).length := by
  unfold runQuery at h
  split at h
  · simp at h
  · rw [Option.map_eq_some_iff] at h
    obtain ⟨r, hr, he⟩ := h
    simp only [Prod.mk.injEq, Ret.triple.injEq] at he
    obtain ⟨⟨h1, _, h3⟩, _⟩ := he
    rw [flag_eq, show jobs Key.twoWayContainment cs = Shape.eachPair.runs cs from jobsPairs_eq cs] at hr
    obtain ⟨rs, hf, hn, hx⟩ := loop_some hr
    exact ⟨rs, hf, by rw [← h1, hn]; simp, by rw [← h3, hx]; simp⟩

/-- C65, failures: a query raises an exception iff one of its runs fails: a configuration that does not
exist, or an exception in the query itself. -/
theorem C65_fails_partial {α : Type} [DecidableEq α] (hs : Steady W) {get : α → Option Cfg} {k : Key} (hk : k ≠ .twoWayContainment)
    {cs : List α} {golden : Golden} {o : OutConf} {cmd : Bool} (hl : docShape k = .each ∨ 2 ≤ cs.length) :
    runQuery W get k cs golden o cmd = none ↔
      ∃ j ∈ (docShape k).runs cs, Fails W get k (flagOf k cmd) o.format j := by
  unfold runQuery
  rw [if_neg, Option.map_eq_none_iff, loop_none hs, flag_eq, jobs_eq hk]
  rintro ⟨h1, h2⟩
  rcases hl with h | h
  · cases k <;> simp_all [docShape, Key.qtype]
  · omega

/-- C65, the result of a query that says "yes" or "no" for every run: the number of runs with "yes". -/
theorem C65_count_partial {α : Type} [DecidableEq α] {get : α → Option Cfg} {k : Key} (hk : k ≠ .twoWayContainment) {cs : List α}
    {golden : Golden} {o : OutConf} {cmd : Bool} {res : Int} {cmp ne : Nat} {full : Bool}
    (h : runQuery W get k cs golden o cmd = some (.triple res cmp ne, full))
    (yes : List α → Bool)
    (hy : ∀ j ∈ (docShape k).runs cs, ∀ r, RunOf W get k (flagOf k cmd) o.format j r → r.1 = if yes j then 1 else 0) :
    res = (((docShape k).runs cs).filter yes).length := by
  obtain ⟨rs, hf, hr, hne⟩ := C65_result_partial hk h
  rw [hr]
  clear h hr hne
  revert hy
  generalize (docShape k).runs cs = js at hf
  intro hy
  induction hf with
  | nil => simp
  | @cons j r js rs hj _ ih =>
    have h1 := hy j (by simp) r hj
    have h2 := ih (fun j hj => hy j (by simp [hj]))
    rw [List.map_cons, List.sum_cons, h2, h1]
    cases hb : yes j <;> simp [hb] <;> omega

/-- C65, wrong: a query on two configurations that is given only one returns a value that its callers
cannot use (they raise an exception), whatever the configurations. -/
theorem C65_lonely_wrong {get : Text → Option Cfg} {k : Key} (hk : docShape k ≠ .each) {cs : List Text} (hl : cs.length ≤ 1)
    {golden : Golden} {o : OutConf} {cmd : Bool} : runQuery W get k cs golden o cmd = some (.plain, o.full) := by
  unfold runQuery
  rw [if_pos]
  refine ⟨?_, hl⟩
  cases k <;> simp_all [docShape, Key.qtype]

/-- A world of examples: configurations are numbers, their number of peers; every query counts the peers
of its first configuration. -/
def exWorld : World Nat where
  name c := List.replicate c 'c'
  numPeers c := c
  policies _ := []
  only c _ := some c
  exec _ _ _ cs := if cs.length = 3 then none else some ⟨cs.headD 0, [], false⟩
  noPeers _ _ := "no peers".toList
  dump _ _ := []

/-- Three configurations: the documentation announces two comparisons, three are made. -/
theorem C65_two_way_runs_wrong :
    (runQuery exWorld (fun n : Nat => some n) .twoWayContainment [5, 7, 9] .notGiven ⟨"txt", false⟩ false).map (·.1) =
      some (.triple (5 + 5 + 7) 0 0) ∧
    ((docShape .twoWayContainment).runs [5, 7, 9]).length = 2 := by decide +kernel

-- the first two configurations are compared, the third has no peers
example : (runQuery exWorld (fun n : Nat => some n) .equivalence [5, 7, 0] .notGiven ⟨"txt", false⟩ false).map (·.1) =
    some (.triple 5 0 2) := by decide +kernel
example : Steady exWorld := by intro k f cmd cs b b'; simp [exWorld]
-- the base configuration comes second
example : (runQuery exWorld (fun n : Nat => some n) .containment [5, 7, 9] .notGiven ⟨"txt", false⟩ false).map (·.1) =
    some (.triple (7 + 9) 0 0) := by decide +kernel
example : (runQuery exWorld (fun n : Nat => some n) .pairwiseInterferes [5, 7] .notGiven ⟨"txt", false⟩ false).map (·.1) =
    some (.triple (5 + 7) 0 0) := by decide +kernel
example : docShape .sanity = .each ∨ 2 ≤ ([5] : List Nat).length := .inl rfl

/-! ### C65: names of configurations -/

theorem splitSlash_eq {a b : Text} (ha : '/' ∉ a) : splitSlash (a ++ '/' :: b) = (a, b) := by
  induction a with
  | nil => simp [splitSlash]
  | cons c a ih =>
    have hc : c ≠ '/' := by intro h; exact ha (by simp [h])
    rw [List.cons_append, splitSlash, if_neg hc, ih (fun h => ha (by simp [h]))]

/-- Exactly one element of the list satisfies the predicate. -/
def Only {β : Type} (l : List β) (P : β → Prop) (b : β) : Prop :=
  ∃ l₁ l₂, l = l₁ ++ b :: l₂ ∧ P b ∧ (∀ x ∈ l₁, ¬ P x) ∧ ∀ x ∈ l₂, ¬ P x

theorem filter_only {β : Type} {l : List β} {P : β → Bool} {b : β} : l.filter P = [b] ↔ Only l (fun x => P x = true) b := by
  constructor
  · intro h
    have hm : b ∈ l.filter P := by simp [h]
    rw [List.mem_filter] at hm
    obtain ⟨hb, hp⟩ := hm
    obtain ⟨l₁, l₂, rfl⟩ := List.append_of_mem hb
    rw [List.filter_append, List.filter_cons_of_pos hp] at h
    have hlen := congrArg List.length h
    simp only [List.length_append, List.length_cons, List.length_nil] at hlen
    refine ⟨l₁, l₂, rfl, hp, ?_, ?_⟩
    · intro x hx hP
      have : (l₁.filter P).length = 0 := by omega
      rw [List.length_eq_zero_iff] at this
      have : x ∈ l₁.filter P := List.mem_filter.2 ⟨hx, hP⟩
      simp_all
    · intro x hx hP
      have : (l₂.filter P).length = 0 := by omega
      rw [List.length_eq_zero_iff] at this
      have : x ∈ l₂.filter P := List.mem_filter.2 ⟨hx, hP⟩
      simp_all
  · rintro ⟨l₁, l₂, rfl, hb, h1, h2⟩
    rw [List.filter_append, List.filter_cons_of_pos hb]
    rw [List.filter_eq_nil_iff.2 h1, List.filter_eq_nil_iff.2 h2]
    rfl

/-- A policy has the given kind, if one is given. -/
def OfKind (kind : Option Kind) (p : PolId) : Prop := ∀ k, kind = some k → p.kind = k

/-- The policy a name stands for: the only one with this full name, or, if there is none, the only one
with this name. -/
def Named (ps : List PolId) (name : Text) (kind : Option Kind) (p : PolId) : Prop :=
  Only ps (fun p => p.full = name ∧ OfKind kind p) p ∨
  (∀ q ∈ ps, ¬ (q.full = name ∧ OfKind kind q)) ∧ (∀ a b, name ≠ a ++ '/' :: '/' :: b) ∧
    Only ps (fun p => p.name = name ∧ OfKind kind p) p

theorem noDoubleSlash_iff (t : Text) : noDoubleSlash t = true ↔ ∀ a b, t ≠ a ++ '/' :: '/' :: b := by
  induction t with
  | nil => simp [noDoubleSlash]
  | cons x t ih =>
    cases t with
    | nil =>
      simp [noDoubleSlash]
      intro a b h
      have := congrArg List.length h
      simp at this
      omega
    | cons y t =>
      rw [noDoubleSlash, Bool.and_eq_true, ih]
      constructor
      · rintro ⟨h1, h2⟩ a b h
        cases a with
        | nil => simp at h; simp [h.1, h.2.1] at h1
        | cons z a =>
          simp only [List.cons_append, List.cons.injEq] at h
          exact h2 a b h.2
      · intro h
        refine ⟨?_, fun a b hab => h (x :: a) b (by rw [hab]; rfl)⟩
        cases hx : (decide (x = '/') && decide (y = '/'))
        · rfl
        · simp at hx
          exact absurd (by rw [hx.1, hx.2]; rfl) (h [] t)

theorem findPolicy_iff {ps : List PolId} {name : Text} {kind : Option Kind} {p : PolId} :
    findPolicy ps name kind = [p] ↔ Named ps name kind p := by
  have hk : ∀ q : PolId, (kind.isNone || decide (kind = some q.kind)) = true ↔ OfKind kind q := by
    intro q
    cases kind with
    | none => simp [OfKind]
    | some k =>
      simp [OfKind]
      exact eq_comm
  have e1 : ∀ q : PolId, ((decide (q.full = name) && (kind.isNone || decide (kind = some q.kind))) = true) =
      (q.full = name ∧ OfKind kind q) := by
    intro q; rw [Bool.and_eq_true, hk, decide_eq_true_eq]
  have e2 : ∀ q : PolId, ((decide (name = q.name) && (kind.isNone || decide (kind = some q.kind))) = true) =
      (q.name = name ∧ OfKind kind q) := by
    intro q; rw [Bool.and_eq_true, hk, decide_eq_true_eq, eq_comm (a := name)]
  unfold findPolicy
  simp only []
  split
  · rename_i h
    rw [Bool.and_eq_true, List.isEmpty_iff, List.filter_eq_nil_iff, noDoubleSlash_iff] at h
    rw [filter_only]
    simp only [e1, e2] at h ⊢
    constructor
    · intro ho
      exact .inr ⟨h.1, h.2, ho⟩
    · rintro (⟨l₁, l₂, rfl, hp, _, _⟩ | ⟨_, _, ho⟩)
      · exact absurd hp (h.1 p (by simp))
      · exact ho
  · rename_i h
    rw [Bool.and_eq_true, List.isEmpty_iff, List.filter_eq_nil_iff, noDoubleSlash_iff] at h
    rw [filter_only]
    simp only [e1] at h ⊢
    constructor
    · exact .inl
    · rintro (ho | ⟨h1, h2, _⟩)
      · exact ho
      · exact absurd ⟨h1, h2⟩ h

theorem justOne_iff {c c' : Cfg} {name : Text} {kind : Option Kind} :
    justOne W c name kind = some c' ↔ ∃ p, Named (W.policies c) name kind p ∧ W.only c p = some c' := by
  unfold justOne
  split
  · rename_i p h
    constructor
    · intro h'; exact ⟨p, findPolicy_iff.1 h, h'⟩
    · rintro ⟨q, hq, h'⟩
      rw [findPolicy_iff.2 hq] at h
      injection h with h
      rw [← h]; exact h'
  · rename_i h
    simp
    intro q hq
    exact absurd (findPolicy_iff.2 hq) (h q)

/-- The configuration stored under a name. -/
def Stored (configs : List (Text × Cfg)) (name : Text) (c : Cfg) : Prop :=
  ∃ l₁ l₂, configs = l₁ ++ (name, c) :: l₂ ∧ ∀ e ∈ l₁, e.1 ≠ name

theorem lookup_iff {configs : List (Text × Cfg)} {name : Text} {c : Cfg} :
    lookup configs name = some c ↔ Stored configs name c := by
  induction configs with
  | nil => simp [lookup, Stored]
  | cons e l ih =>
    unfold lookup at ih ⊢
    rw [List.find?_cons]
    by_cases he : e.1 = name
    · simp only [he, decide_true, Option.map_some, Option.some.injEq]
      constructor
      · rintro rfl
        exact ⟨[], l, by rw [← he]; rfl, by simp⟩
      · rintro ⟨l₁, l₂, h, h'⟩
        cases l₁ with
        | nil => simp at h; rw [h.1]
        | cons x l₁ =>
          simp at h
          exact absurd (by rw [← h.1]; exact he) (h' x (by simp))
    · simp only [he, decide_false]
      rw [ih]
      constructor
      · rintro ⟨l₁, l₂, rfl, h'⟩
        refine ⟨e :: l₁, l₂, rfl, ?_⟩
        intro x hx
        rcases List.mem_cons.1 hx with rfl | hx
        · exact he
        · exact h' x hx
      · rintro ⟨l₁, l₂, h, h'⟩
        cases l₁ with
        | nil => simp at h; rw [h.1] at he; exact absurd rfl he
        | cons x l₁ =>
          simp at h
          exact ⟨l₁, l₂, h.2, fun e he => h' e (by simp [he])⟩

/-- C65, names: a plain name stands for the configuration of that name. -/
theorem C65_plain_name {configs : List (Text × Cfg)} {name : Text} (hn : '/' ∉ name) {c : Cfg} :
    getConfig W configs name = some c ↔ Stored configs name c := by
  unfold getConfig
  rw [if_pos hn, lookup_iff]

/-- C65, names: `<set>/<namespace>/<policy>` stands for the configuration with that policy alone. -/
theorem C65_policy_name {configs : List (Text × Cfg)} {set ns pol : Text} (h1 : '/' ∉ set) (h2 : '/' ∉ ns) (h3 : '/' ∉ pol)
    {c : Cfg} :
    getConfig W configs (set ++ '/' :: (ns ++ '/' :: pol)) = some c ↔
      ∃ c₀ p, Stored configs set c₀ ∧ Named (W.policies c₀) (ns ++ '/' :: pol) none p ∧ W.only c₀ p = some c := by
  have hn : (set ++ '/' :: (ns ++ '/' :: pol)).count '/' = 2 := by
    simp [List.count_append, List.count_eq_zero_of_not_mem h1, List.count_eq_zero_of_not_mem h2, List.count_eq_zero_of_not_mem h3]
  unfold getConfig
  rw [if_neg (by simp)]
  unfold parseRef
  simp only [hn, splitSlash_eq h1]
  rw [if_pos (by omega)]
  cases hl : lookup configs set with
  | none =>
    simp only [Option.map_none]
    simp
    intro c₀ h
    rw [lookup_iff.2 h] at hl
    simp at hl
  | some c₁ =>
    simp only [Option.map_some]
    rw [justOne_iff]
    constructor
    · rintro ⟨p, hp⟩; exact ⟨c₁, p, lookup_iff.1 hl, hp⟩
    · rintro ⟨c₀, p, h, hp⟩
      rw [lookup_iff.2 h] at hl
      injection hl with hl
      subst hl
      exact ⟨p, hp⟩

/-- C65, names: `<set>/<policy>` stands for the configuration with that policy alone. -/
theorem C65_short_policy_name {configs : List (Text × Cfg)} {set pol : Text} (h1 : '/' ∉ set) (h3 : '/' ∉ pol) {c : Cfg} :
    getConfig W configs (set ++ '/' :: pol) = some c ↔
      ∃ c₀ p, Stored configs set c₀ ∧ Named (W.policies c₀) pol none p ∧ W.only c₀ p = some c := by
  have hn : (set ++ '/' :: pol).count '/' = 1 := by
    simp [List.count_append, List.count_eq_zero_of_not_mem h1, List.count_eq_zero_of_not_mem h3]
  unfold getConfig
  rw [if_neg (by simp)]
  unfold parseRef
  simp only [hn, splitSlash_eq h1]
  rw [if_pos (by omega)]
  cases hl : lookup configs set with
  | none =>
    simp only [Option.map_none]
    simp
    intro c₀ h
    rw [lookup_iff.2 h] at hl
    simp at hl
  | some c₁ =>
    simp only [Option.map_some]
    rw [justOne_iff]
    constructor
    · rintro ⟨p, hp⟩; exact ⟨c₁, p, lookup_iff.1 hl, hp⟩
    · rintro ⟨c₀, p, h, hp⟩
      rw [lookup_iff.2 h] at hl
      injection hl with hl
      subst hl
      exact ⟨p, hp⟩

/-- The documented names of the kinds (docs/SchemeFileFormat.md 74-76). -/
inductive KindName : Text → Kind → Prop
  | k8s : KindName "K8sNetworkPolicy".toList .k8s
  | calico : KindName "CalicoNetworkPolicy".toList .calico
  | calicoGlobal : KindName "CalicoGlobalNetworkPolicy".toList .calicoGlobal
  | istio : KindName "IstioAuthorizationPolicy".toList .istio
  | ingress : KindName "K8sIngress".toList .ingress

theorem kindOf_name {t : Text} {k : Kind} (h : KindName t k) : kindOf t = some k := by
  cases h <;> decide +kernel

theorem kindName_noSlash {t : Text} {k : Kind} (h : KindName t k) : '/' ∉ t := by
  cases h <;> decide +kernel

/-- C65, names: `<set>/<kind>/<namespace>/<policy>` stands for the configuration with that policy of that
kind alone. -/
theorem C65_kind_name {configs : List (Text × Cfg)} {set kind ns pol : Text} {k : Kind} (hk : KindName kind k) (h1 : '/' ∉ set)
    (h2 : '/' ∉ ns) (h3 : '/' ∉ pol) {c : Cfg} :
    getConfig W configs (set ++ '/' :: (kind ++ '/' :: (ns ++ '/' :: pol))) = some c ↔
      ∃ c₀ p, Stored configs set c₀ ∧ Named (W.policies c₀) (ns ++ '/' :: pol) (some k) p ∧ W.only c₀ p = some c := by
  have h4 := kindName_noSlash hk
  have hn : (set ++ '/' :: (kind ++ '/' :: (ns ++ '/' :: pol))).count '/' = 3 := by
    simp [List.count_append, List.count_eq_zero_of_not_mem h1, List.count_eq_zero_of_not_mem h2, List.count_eq_zero_of_not_mem h3,
      List.count_eq_zero_of_not_mem h4]
  unfold getConfig
  rw [if_neg (by simp)]
  unfold parseRef
  simp only [hn, splitSlash_eq h1, splitSlash_eq h4, kindOf_name hk]
  rw [if_neg (by omega), if_pos trivial]
  cases hl : lookup configs set with
  | none =>
    simp only [Option.map_none]
    simp
    intro c₀ h
    rw [lookup_iff.2 h] at hl
    simp at hl
  | some c₁ =>
    simp only [Option.map_some]
    rw [justOne_iff]
    constructor
    · rintro ⟨p, hp⟩; exact ⟨c₁, p, lookup_iff.1 hl, hp⟩
    · rintro ⟨c₀, p, h, hp⟩
      rw [lookup_iff.2 h] at hl
      injection hl with hl
      subst hl
      exact ⟨p, hp⟩

/-- A named policy has the full name or the name, and the kind if one is given. -/
theorem Named.prop {ps : List PolId} {name : Text} {kind : Option Kind} {p : PolId} (h : Named ps name kind p) :
    p ∈ ps ∧ (p.full = name ∨ p.name = name) ∧ OfKind kind p := by
  rcases h with ⟨l₁, l₂, rfl, ⟨h1, h2⟩, _⟩ | ⟨_, _, l₁, l₂, rfl, ⟨h1, h2⟩, _⟩
  · exact ⟨by simp, .inl h1, h2⟩
  · exact ⟨by simp, .inr h1, h2⟩

/-- C65, wrong: a global policy (its full name is its name, without a slash) cannot be chosen together
with its kind: no name with the kind `CalicoGlobalNetworkPolicy` stands for it. -/
theorem C65_global_policy_wrong {configs : List (Text × Cfg)} {name : Text} {c₀ : Cfg} {pol : Text} {k : Kind}
    (h : parseRef configs name = some (c₀, pol, some k)) {p : PolId} (hp : '/' ∉ p.full) (hn : p.name = p.full) :
    ¬ Named (W.policies c₀) pol (some k) p := by
  intro hN
  obtain ⟨_, h2, _⟩ := hN.prop
  have hpol : pol = p.full := by
    rcases h2 with h | h
    · exact h.symm
    · rw [← h, hn]
  unfold parseRef at h
  simp only at h
  split at h
  · rw [Option.map_eq_some_iff] at h
    obtain ⟨c, _, he⟩ := h
    simp at he
  · rename_i h0
    split at h
    · rename_i h3
      split at h
      · simp at h
      · rw [Option.map_eq_some_iff] at h
        obtain ⟨c, _, he⟩ := h
        simp only [Prod.mk.injEq] at he
        -- the third slash is in the name of the policy
        have key : ∀ t : Text, t.count '/' ≤ (splitSlash t).2.count '/' + 1 := by
          intro t
          induction t with
          | nil => simp
          | cons c t ih =>
            rw [splitSlash]
            by_cases hc : c = '/'
            · simp [hc]
            · rw [if_neg hc]
              simp only
              rw [List.count_cons_of_ne hc]
              exact ih
        have k1 := key name
        have k2 := key (splitSlash name).2
        rw [he.2.1] at k2
        have : pol.count '/' ≠ 0 := by omega
        rw [hpol] at this
        exact this (List.count_eq_zero_of_not_mem hp)
    · simp at h

-- the names of a global policy and of a policy with a namespace
example : let g : PolId := ⟨"deny".toList, "deny".toList, .calicoGlobal⟩
    let p : PolId := ⟨"ns/deny".toList, "deny".toList, .k8s⟩
    findPolicy [g, p] "deny".toList none = [g] ∧ findPolicy [g, p] "ns/deny".toList none = [p] ∧
    findPolicy [p] "deny".toList (some .k8s) = [p] := by decide +kernel
example : parseRef [("a".toList, 3)] "a/CalicoGlobalNetworkPolicy//deny".toList =
    some (3, "/deny".toList, some .calicoGlobal) := by decide +kernel

end Runner
end Verif
