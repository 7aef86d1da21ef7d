import Verif.PropsScheme
import Verif.PropsDiff

/-!
C65, part 4: the exit status of the queries of the command line.
-/

namespace Verif
namespace Runner

variable {Cfg : Type} {W : World Cfg}

/-! ### Specification -/

/-- The switches of the command line (docs/CmdLineQueriesResults.md). -/
inductive Switch
  | sanity | equiv | interferes | permits | forbids | connectivity | semanticDiff
  deriving DecidableEq, Repr

/-- The arguments with this switch alone. -/
def Switch.args (s : Switch) (golden : Golden) (format : String) : Args :=
  ⟨decide (s = .equiv), decide (s = .interferes), decide (s = .forbids), decide (s = .permits), decide (s = .connectivity),
    decide (s = .semanticDiff), golden, format⟩

/-- The query of a switch (docs/CmdLineQueriesResults.md). -/
def Switch.key : Switch → Key
  | .sanity => .sanity
  | .equiv => .twoWayContainment
  | .interferes => .interferes
  | .permits => .permits
  | .forbids => .forbids
  | .connectivity => .connectivityMap
  | .semanticDiff => .semanticDiff

/-- The configurations the query is run on, in this order; the base configuration of `interferes` and
`semantic_diff` comes first. -/
def Switch.configs (s : Switch) (config base : Cfg) : List Cfg :=
  match s with
  | .sanity | .connectivity => [config]
  | .equiv | .permits | .forbids => [config, base]
  | .interferes | .semanticDiff => [base, config]

/-- The expected output is used by two queries only. -/
def Switch.golden (s : Switch) (g : Golden) : Golden :=
  match s with
  | .connectivity | .semanticDiff => g
  | _ => .notGiven

/-- The result bit: queries on one configuration count findings. -/
def Switch.bit (s : Switch) (num : Int) : Int :=
  match s with
  | .sanity | .connectivity => if num > 0 then 1 else 0
  | _ => num

/-- Whether the query runs as a query of the command line on two configurations. -/
def Switch.cmd : Switch → Bool
  | .sanity | .connectivity => false
  | _ => true

/-! ### Runs of the command line -/

theorem execute_full {o : OutConf} {k : Key} {cmd : Bool} {cs : List Cfg} {r : Iter × Bool} (h : execute W o k cmd cs = some r) :
    r.2 = (o.full || (k.full && decide ((∀ c ∈ cs, W.numPeers c ≠ 0) ∧ o.format ∈ k.formats))) := by
  unfold execute at h
  split at h
  · rename_i c hc
    injection h with h
    subst h
    have hm := List.mem_of_find?_eq_some hc
    have hz : W.numPeers c = 0 := by simpa using List.find?_some hc
    have : ¬ ((∀ c ∈ cs, W.numPeers c ≠ 0) ∧ o.format ∈ k.formats) := fun h => h.1 c hm hz
    simp [this]
  · rename_i hc
    have hp : ∀ c ∈ cs, W.numPeers c ≠ 0 := by
      intro c hm; simpa using List.find?_eq_none.1 hc c hm
    split at h
    · rename_i hf
      rw [Option.map_eq_some_iff] at h
      obtain ⟨a, _, rfl⟩ := h
      simp only
      rw [decide_eq_true ⟨hp, hf⟩, Bool.and_true]
    · rename_i hf
      injection h with h
      subst h
      have : ¬ ((∀ c ∈ cs, W.numPeers c ≠ 0) ∧ o.format ∈ k.formats) := fun h => hf h.2
      simp [this]

/-- A query with a single run. -/
theorem runQuery_one {α : Type} [DecidableEq α] {get : α → Option Cfg} {k : Key} {cs : List α} {golden : Golden} {o : OutConf} {cmd : Bool}
    (hl : k.qtype = .single ∨ 2 ≤ cs.length) {job : List α} (hj : jobs k cs = [job]) {cfgs : List Cfg} (hc : job.map get = cfgs.map some) :
    runQuery W get k cs golden o cmd =
      (execute W o k (flagOf k cmd) cfgs).map (fun r =>
        (.triple r.1.num (if r.2 then compare (QueryResult.output W ⟨r.1.num, [r.1.out], if r.1.notExec then 1 else 0⟩ o.format) golden else 0)
          (if r.1.notExec then 1 else 0), r.2)) := by
  unfold runQuery
  rw [if_neg, flag_eq, hj]
  · unfold loop
    rw [List.foldlM_cons]
    simp only [List.foldlM_nil]
    unfold step
    rw [sequence_some.2 hc]
    simp only
    cases execute W ⟨o.format, o.full⟩ k (flagOf k cmd) cfgs with
    | none => rfl
    | some r =>
      simp [QueryResult.update]
  · rintro ⟨h1, h2⟩
    rcases hl with h | h
    · exact h1 h
    · omega

/-- What a run of the command line returns. -/
theorem runCli_eq (s : Switch) (config base : Cfg) (golden : Golden) (format : String) :
    runCli W config base (s.args golden format) =
      (execute W ⟨format, false⟩ s.key s.cmd (s.configs config base)).map (fun r =>
        returnValue (s.bit r.1.num)
          (if r.2 then compare (QueryResult.output W ⟨r.1.num, [r.1.out], if r.1.notExec then 1 else 0⟩ format) (s.golden golden) else 0)
          (if r.1.notExec then 1 else 0)) := by
  let get : Bool → Option Cfg := fun b => some (if b then base else config)
  have single : ∀ k g, k.qtype = .single →
      runQuery W get k [false] g ⟨format, false⟩ false = _ :=
    fun k g hk => runQuery_one (cfgs := [config]) (job := [false]) (.inl hk) (by unfold jobs; rw [hk]; rfl) rfl
  have base1 : ∀ k g, k.qtype = .toBase →
      runQuery W get k [false, true] g ⟨format, false⟩ true = _ :=
    fun k g hk => runQuery_one (cfgs := [base, config]) (job := [true, false]) (.inr (by simp)) (by unfold jobs; rw [hk]; rfl) rfl
  have base2 : ∀ k g, k.qtype = .toBase →
      runQuery W get k [true, false] g ⟨format, false⟩ true = _ :=
    fun k g hk => runQuery_one (cfgs := [config, base]) (job := [false, true]) (.inr (by simp)) (by unfold jobs; rw [hk]; rfl) rfl
  have pair1 : ∀ k g, k.qtype = .pairs →
      runQuery W get k [false, true] g ⟨format, false⟩ true = _ :=
    fun k g hk => runQuery_one (cfgs := [config, base]) (job := [false, true]) (.inr (by simp)) (by unfold jobs; rw [hk]; rfl) rfl
  have pair2 : ∀ k g, k.qtype = .pairs →
      runQuery W get k [true, false] g ⟨format, false⟩ true = _ :=
    fun k g hk => runQuery_one (cfgs := [base, config]) (job := [true, false]) (.inr (by simp)) (by unfold jobs; rw [hk]; rfl) rfl
  cases s with
  | sanity =>
    have : runQuery W (fun b => some (if b then base else config)) Key.sanity [false] .notGiven ⟨format, false⟩ false = _ := single _ _ rfl
    simp [runCli, choose, Switch.args, Switch.key, Switch.configs, Switch.bit, Switch.golden, Switch.cmd, this]
    rw [show flagOf Key.sanity false = false from rfl]
    cases execute W ⟨format, false⟩ Key.sanity false [config] <;> rfl
  | connectivity =>
    have : runQuery W (fun b => some (if b then base else config)) Key.connectivityMap [false] golden ⟨format, false⟩ false = _ := single _ _ rfl
    simp [runCli, choose, Switch.args, Switch.key, Switch.configs, Switch.bit, Switch.golden, Switch.cmd, this]
    rw [show flagOf Key.connectivityMap false = false from rfl]
    cases execute W ⟨format, false⟩ Key.connectivityMap false [config] <;> rfl
  | equiv =>
    have : runQuery W (fun b => some (if b then base else config)) Key.twoWayContainment [false, true] .notGiven ⟨format, false⟩ true = _ := pair1 _ _ rfl
    simp [runCli, choose, Switch.args, Switch.key, Switch.configs, Switch.bit, Switch.golden, Switch.cmd, this]
    rw [show flagOf Key.twoWayContainment true = true from rfl]
    cases execute W ⟨format, false⟩ Key.twoWayContainment true [config, base] <;> rfl
  | interferes =>
    have : runQuery W (fun b => some (if b then base else config)) Key.interferes [false, true] .notGiven ⟨format, false⟩ true = _ := base1 _ _ rfl
    simp [runCli, choose, Switch.args, Switch.key, Switch.configs, Switch.bit, Switch.golden, Switch.cmd, this]
    rw [show flagOf Key.interferes true = true from rfl]
    cases execute W ⟨format, false⟩ Key.interferes true [base, config] <;> rfl
  | permits =>
    have : runQuery W (fun b => some (if b then base else config)) Key.permits [true, false] .notGiven ⟨format, false⟩ true = _ := base2 _ _ rfl
    simp [runCli, choose, Switch.args, Switch.key, Switch.configs, Switch.bit, Switch.golden, Switch.cmd, this]
    rw [show flagOf Key.permits true = true from rfl]
    cases execute W ⟨format, false⟩ Key.permits true [config, base] <;> rfl
  | forbids =>
    have : runQuery W (fun b => some (if b then base else config)) Key.forbids [true, false] .notGiven ⟨format, false⟩ true = _ := base2 _ _ rfl
    simp [runCli, choose, Switch.args, Switch.key, Switch.configs, Switch.bit, Switch.golden, Switch.cmd, this]
    rw [show flagOf Key.forbids true = true from rfl]
    cases execute W ⟨format, false⟩ Key.forbids true [config, base] <;> rfl
  | semanticDiff =>
    have : runQuery W (fun b => some (if b then base else config)) Key.semanticDiff [true, false] golden ⟨format, false⟩ true = _ := pair2 _ _ rfl
    simp [runCli, choose, Switch.args, Switch.key, Switch.configs, Switch.bit, Switch.golden, Switch.cmd, this]
    rw [show flagOf Key.semanticDiff true = true from rfl]
    cases execute W ⟨format, false⟩ Key.semanticDiff true [base, config] <;> rfl

theorem compare_le (out : Text) (g : Golden) : compare out g ≤ 1 := by
  unfold compare
  split
  · omega
  · omega
  · dsimp only
    split
    · omega
    · split
      · split <;> omega
      · omega

/-! ### C65: exit status -/

/-- Numerical results on the command line are 0 or 1 for two configurations; they are not negative for
one. -/
def Bits (W : World Cfg) : Prop :=
  (∀ s : Switch, ∀ o c b i, s ≠ .sanity → s ≠ .connectivity → W.exec s.key o true (s.configs c b) = some i → i.num = 0 ∨ i.num = 1) ∧
  (∀ o cs i k, k = Key.sanity ∨ k = Key.connectivityMap ∨ k = Key.semanticDiff → ∀ cmd, W.exec k o cmd cs = some i → i.notExec = false)

/-- The exit status of a run of the command line that returns or raises. -/
def cliStatus (W : World Cfg) (config base : Cfg) (a : Args) : Int :=
  exitStatus (mainValue false ((runCli W config base a).map some))

/-- C65, exit status: the query of the switch is run once, on the configurations of the switch; the exit
status tells whether it was executed, whether the output is the expected one, and its result
(README.md 126-138); an exception gives 7. -/
theorem C65_cli_status (hb : Bits W) (s : Switch) (config base : Cfg) (golden : Golden) (format : String) :
    (runCli W config base (s.args golden format) = none ∧ cliStatus W config base (s.args golden format) = 7) ∨
    ∃ num ne, ∃ cmp : Nat, Outcome W s.key s.cmd format (s.configs config base) num ne ∧ cmp ≤ 1 ∧
      (ne = true → cmp = 0) ∧ (s.golden golden = .notGiven → cmp = 0) ∧
      (s.bit num = 0 ∨ s.bit num = 1) ∧
      cliStatus W config base (s.args golden format) = 4 * (if ne then 1 else 0) + 2 * (cmp : Int) + s.bit num := by
  unfold cliStatus
  rw [runCli_eq]
  cases he : execute W ⟨format, false⟩ s.key s.cmd (s.configs config base) with
  | none => left; exact ⟨rfl, rfl⟩
  | some r =>
    right
    have ho := execute_some he
    have hfull := execute_full he
    simp only [Option.map_some]
    let cmp := if r.2 then compare (QueryResult.output W ⟨r.1.num, [r.1.out], if r.1.notExec then 1 else 0⟩ format) (s.golden golden) else 0
    have hcmp : cmp ≤ 1 := by
      show (if r.2 then _ else 0) ≤ 1
      split
      · exact compare_le _ _
      · omega
    have hng : s.golden golden = .notGiven → cmp = 0 := by
      intro h
      show (if r.2 then _ else 0) = 0
      split
      · rw [h]; rfl
      · rfl
    have hexec : (∀ c ∈ s.configs config base, W.numPeers c ≠ 0) → format ∈ s.key.formats →
        ∃ i, W.exec s.key ⟨format, false⟩ s.cmd (s.configs config base) = some i ∧ r.1 = i := by
      intro h1 h2
      unfold execute at he
      rw [List.find?_eq_none.2 (by intro c hc; simpa using h1 c hc)] at he
      simp only at he
      rw [if_pos h2, Option.map_eq_some_iff] at he
      obtain ⟨i, hi, rfl⟩ := he
      exact ⟨i, hi, rfl⟩
    have hne : r.1.notExec = true → cmp = 0 := by
      intro h
      show (if r.2 then _ else 0) = 0
      split
      · rename_i hr
        rw [hfull] at hr
        simp only [Bool.false_or, Bool.and_eq_true, decide_eq_true_eq] at hr
        obtain ⟨i, hi, hri⟩ := hexec hr.2.1 hr.2.2
        by_cases hk : s.key = Key.sanity ∨ s.key = Key.connectivityMap ∨ s.key = Key.semanticDiff
        · have := hb.2 _ _ _ _ hk _ hi
          rw [hri, this] at h
          exact absurd h (by decide)
        · have hf := hr.1
          cases s <;> simp [Switch.key, Key.full] at hk hf
      · rfl
    have hbit : s.bit r.1.num = 0 ∨ s.bit r.1.num = 1 := by
      by_cases hsingle : s = .sanity ∨ s = .connectivity
      · rcases hsingle with rfl | rfl
        · show (if r.1.num > 0 then (1 : Int) else 0) = 0 ∨ (if r.1.num > 0 then (1 : Int) else 0) = 1
          split
          · exact .inr rfl
          · exact .inl rfl
        · show (if r.1.num > 0 then (1 : Int) else 0) = 0 ∨ (if r.1.num > 0 then (1 : Int) else 0) = 1
          split
          · exact .inr rfl
          · exact .inl rfl
      · have hs1 : s ≠ .sanity := fun h => hsingle (.inl h)
        have hs2 : s ≠ .connectivity := fun h => hsingle (.inr h)
        have hbs : s.bit r.1.num = r.1.num := by cases s <;> simp_all [Switch.bit]
        have hcm : s.cmd = true := by cases s <;> simp_all [Switch.cmd]
        rw [hbs]
        rw [hcm] at ho
        generalize hn : r.1.num = n at ho ⊢
        generalize r.1.notExec = x at ho
        cases ho with
        | noPeers _ _ => exact .inl rfl
        | format _ _ => exact .inl rfl
        | run _ _ hi => exact hb.1 s _ _ _ _ hs1 hs2 hi
    refine ⟨r.1.num, r.1.notExec, cmp, ho, hcmp, hne, hng, hbit, ?_⟩
    show exitStatus (some (returnValue (s.bit r.1.num) cmp (if r.1.notExec then 1 else 0))) = _
    unfold exitStatus returnValue
    cases r.1.notExec
    · simp; omega
    · simp; omega

/-- C65, exit status: it is 7 iff there was an exception. -/
theorem C65_cli_error (hb : Bits W) (s : Switch) (config base : Cfg) (golden : Golden) (format : String) :
    cliStatus W config base (s.args golden format) = 7 ↔ runCli W config base (s.args golden format) = none := by
  rcases C65_cli_status hb s config base golden format with ⟨h1, h2⟩ | ⟨num, ne, cmp, _, h1, h2, _, h4, h5⟩
  · simp [h1, h2]
  · constructor
    · intro h
      exfalso
      rw [h5] at h
      cases ne
      · simp at h; omega
      · have := h2 rfl
        subst this
        simp at h
        omega
    · intro h
      unfold cliStatus
      rw [h]
      rfl

/-! ### The queries of the model -/

section
variable {C P E S : Type}

/-- The answer of a query as the runner sees it. -/
def iterOf (text : Answer C → Text) (a : Answer C) : Iter := ⟨a.num, text a, a.notExecuted⟩

/-- Queries on two configurations are those of QueryModel.lean; the others, and the texts, are
arbitrary. -/
def queriesWorld (N : NetQ C P E S) (excl : Bool) (rest : World (Config C S)) (text : Key → OutConf → Answer C → Text) :
    World (Config C S) :=
  { rest with
    exec := fun k o cmd cs =>
      match k, cs with
      | .twoWayContainment, [a, b] => some (iterOf (text k o) (twoWayQuery N excl cmd a b))
      | .interferes, [a, b] => some (iterOf (text k o) (interferesQuery N excl cmd a b))
      | .pairwiseInterferes, [a, b] => some (iterOf (text k o) (interferesQuery N excl cmd a b))
      | .permits, [a, b] => (permitsQuery N excl cmd a b).map (iterOf (text k o))
      | .forbids, [a, b] => (forbidsQuery N excl a b).map (iterOf (text k o))
      | .containment, [a, b] => some (iterOf (text k o) (containQuery N excl cmd false a b))
      | .equivalence, [a, b] => some (iterOf (text k o) (equivQuery N excl none a b))
      | .strongEquivalence, [a, b] => (strongQuery N excl a b).map (iterOf (text k o))
      | .semanticDiff, [a, b] => some (iterOf (text k o) (diffQuery N excl cmd a b).1)
      | _, _ => rest.exec k o cmd cs }

variable {N : NetQ C P E S} {excl : Bool} {rest : World (Config C S)} {text : Key → OutConf → Answer C → Text}

theorem contain_aux (t d : Bool) (e1 e2 : List C) {r : Answer C}
    (h : r = if t = true then ⟨false, if true = true then 1 else 0, false, e1⟩
      else if d = true then ⟨true, if true = true then 0 else 1, false, []⟩ else ⟨false, if true = true then 1 else 0, false, e2⟩) :
    r.num = if r.bool then 0 else 1 := by
  subst h
  cases t <;> cases d <;> rfl

theorem contain_num (excl oc : Bool) (c1 c2 : Config C S) :
    (containQuery N excl true oc c1 c2).num = if (containQuery N excl true oc c1 c2).bool then 0 else 1 :=
  contain_aux _ _ _ _ rfl

theorem twoWay_num (excl : Bool) (c1 c2 : Config C S) :
    (twoWayQuery N excl true c1 c2).num = if (twoWayQuery N excl true c1 c2).bool then 0 else 1 := by
  have hr : (twoWayQuery.rest N excl true c1 c2).num = if (twoWayQuery.rest N excl true c1 c2).bool then 0 else 1 := by
    unfold twoWayQuery.rest
    dsimp only
    split
    · rfl
    · split
      · rfl
      · split <;> rfl
  unfold twoWayQuery identical
  split
  · rename_i a ha
    split at ha
    · injection ha with ha
      subst ha
      exact hr
    · split at ha
      · injection ha with ha
        subst ha
        rfl
      · simp at ha
  · exact hr

theorem interferes_num (excl : Bool) (c1 c2 : Config C S) :
    (interferesQuery N excl true c1 c2).num = if (interferesQuery N excl true c1 c2).bool then 0 else 1 := by
  unfold interferesQuery
  split
  · rfl
  · dsimp only
    split <;> rfl

theorem permits_num (excl : Bool) {c1 c2 : Config C S} {a : Answer C} (h : permitsQuery N excl true c1 c2 = some a) :
    a.num = 0 ∨ a.num = 1 := by
  unfold permitsQuery at h
  split at h
  · injection h with h; subst h; exact .inl rfl
  · split at h
    · injection h with h
      subst h
      dsimp only
      simp only [if_true]
      split
      · exact .inl rfl
      · exact .inr rfl
    · split at h
      · injection h with h; subst h; exact .inl rfl
      · rw [Option.map_eq_some_iff] at h
        obtain ⟨g, _, h⟩ := h
        simp only [if_true] at h
        subst h
        rw [contain_num]
        split
        · exact .inl rfl
        · exact .inr rfl

theorem forbids_num (excl : Bool) {c1 c2 : Config C S} {a : Answer C} (h : forbidsQuery N excl c1 c2 = some a) :
    a.num = 0 ∨ a.num = 1 := by
  unfold forbidsQuery at h
  split at h
  · injection h with h; subst h; exact .inl rfl
  · split at h
    · injection h with h; subst h; exact .inl rfl
    · rw [Option.map_eq_some_iff] at h
      obtain ⟨g, _, h⟩ := h
      subst h
      dsimp only
      split
      · exact .inr rfl
      · exact .inl rfl

theorem diff_cmd (excl : Bool) (c1 c2 : Config C S) :
    ((diffQuery N excl true c1 c2).1.num = 0 ∨ (diffQuery N excl true c1 c2).1.num = 1) := by
  have hr : ((diffQuery.rest N excl true c1 c2).1.num = 0 ∨ (diffQuery.rest N excl true c1 c2).1.num = 1) := by
    unfold diffQuery.rest
    dsimp only
    split
    · exact .inr rfl
    · rename_i h
      left
      show ((diffCount N (computeDiff N excl c1 c2) : Nat) : Int) = 0
      omega
  unfold diffQuery identical
  split
  · rename_i a ha
    split at ha
    · injection ha with ha
      subst ha
      exact hr
    · split at ha
      · injection ha with ha
        subst ha
        exact .inl rfl
      · simp at ha
  · exact hr

theorem diff_executed (excl cmd : Bool) (c1 c2 : Config C S) : (diffQuery N excl cmd c1 c2).1.notExecuted = false := by
  have hr : (diffQuery.rest N excl cmd c1 c2).1.notExecuted = false := by
    unfold diffQuery.rest
    dsimp only
    split <;> rfl
  unfold diffQuery identical
  split
  · rename_i a ha
    split at ha
    · injection ha with ha
      subst ha
      exact hr
    · split at ha
      · injection ha with ha
        subst ha
        rfl
      · simp at ha
  · exact hr

/-- The queries of the model give results of 0 or 1 on the command line. -/
theorem queriesWorld_bits (hr : ∀ k o cmd cs i, rest.exec k o cmd cs = some i → i.notExec = false) :
    Bits (queriesWorld N excl rest text) := by
  refine ⟨?_, ?_⟩
  · intro s o c b i h1 h2 h
    cases s with
    | sanity => exact absurd rfl h1
    | connectivity => exact absurd rfl h2
    | equiv =>
      have h' : iterOf (text .twoWayContainment o) (twoWayQuery N excl true c b) = i := by injection h
      rw [← h']
      show (twoWayQuery N excl true c b).num = 0 ∨ (twoWayQuery N excl true c b).num = 1
      rw [twoWay_num]
      split
      · exact .inl rfl
      · exact .inr rfl
    | interferes =>
      have h' : iterOf (text .interferes o) (interferesQuery N excl true b c) = i := by injection h
      rw [← h']
      show (interferesQuery N excl true b c).num = 0 ∨ (interferesQuery N excl true b c).num = 1
      rw [interferes_num]
      split
      · exact .inl rfl
      · exact .inr rfl
    | permits =>
      have h' : (permitsQuery N excl true c b).map (iterOf (text .permits o)) = some i := h
      rw [Option.map_eq_some_iff] at h'
      obtain ⟨a, ha, rfl⟩ := h'
      exact permits_num excl ha
    | forbids =>
      have h' : (forbidsQuery N excl c b).map (iterOf (text .forbids o)) = some i := h
      rw [Option.map_eq_some_iff] at h'
      obtain ⟨a, ha, rfl⟩ := h'
      exact forbids_num excl ha
    | semanticDiff =>
      have h' : iterOf (text .semanticDiff o) (diffQuery N excl true b c).1 = i := by injection h
      rw [← h']
      exact diff_cmd excl b c
  · rintro o cs i k (rfl | rfl | rfl) cmd h
    · exact hr _ _ _ _ _ h
    · exact hr _ _ _ _ _ h
    · rcases cs with _ | ⟨a, _ | ⟨b, _ | ⟨c, cs⟩⟩⟩
      · exact hr _ _ _ _ _ h
      · exact hr _ _ _ _ _ h
      · have h' : iterOf (text .semanticDiff o) (diffQuery N excl cmd a b).1 = i := by injection h
        rw [← h']
        exact diff_executed excl cmd a b
      · exact hr _ _ _ _ _ h

/-- The exit status of a query on two configurations with peers, in the format txt. -/
theorem status_pair {W : World Cfg} (s : Switch) {config base : Cfg} (h1 : W.numPeers config ≠ 0) (h2 : W.numPeers base ≠ 0)
    (hs : s ≠ .sanity) (hc : s ≠ .connectivity) {i : Iter} (hi : W.exec s.key ⟨"txt", false⟩ true (s.configs config base) = some i)
    (hb : i.num = 0 ∨ i.num = 1) :
    cliStatus W config base (s.args .notGiven "txt") = 4 * (if i.notExec then 1 else 0) + i.num := by
  unfold cliStatus
  rw [runCli_eq]
  have hcmd : s.cmd = true := by cases s <;> simp_all [Switch.cmd]
  rw [hcmd]
  have hp : ∀ c ∈ s.configs config base, W.numPeers c ≠ 0 := by
    intro c hcc
    cases s <;> simp [Switch.configs] at hcc hs hc <;> (rcases hcc with rfl | rfl) <;> assumption
  have hf : "txt" ∈ s.key.formats := by cases s <;> decide
  have he : execute W ⟨"txt", false⟩ s.key true (s.configs config base) = some (i, s.key.full) := by
    unfold execute
    rw [List.find?_eq_none.2 (by intro c hc; simpa using hp c hc)]
    simp only
    rw [if_pos hf, hi]
    simp
  have hg : s.golden .notGiven = .notGiven := by cases s <;> rfl
  have hbit : s.bit i.num = i.num := by cases s <;> simp_all [Switch.bit]
  rw [he, hg]
  simp only [Option.map_some, hbit]
  have : (if s.key.full then compare (QueryResult.output W ⟨i.num, [i.out], if i.notExec then 1 else 0⟩ "txt") .notGiven else 0) = 0 := by
    split <;> rfl
  rw [this]
  show exitStatus (some (returnValue i.num 0 (if i.notExec then 1 else 0))) = _
  unfold exitStatus returnValue
  cases i.notExec
  · simp; omega
  · simp; omega

variable {Ok Strong Wide : C → Prop}

/-- C65, `--equiv`: on the same topology the exit status is 0 iff the two sets of policies allow the same
connections, and 1 otherwise.  What is missing for the full statement is as for
`C31_agrees_two_way_partial`. -/
theorem C65_equiv_status_partial (L : N.Lawful Ok Strong Wide) {c b : Config C S} (h1 : rest.numPeers c ≠ 0) (h2 : rest.numPeers b ≠ 0)
    (G1 : c.Good N Ok Strong) (G2 : b.Good N Ok Strong) (s1 : c.Solid N) (s2 : b.Solid N) (ho : SameOrder N c b)
    (hst : SameTopology N c b) :
    let st := cliStatus (queriesWorld N excl rest text) c b (Switch.equiv.args .notGiven "txt")
    (st = 0 ↔ SameAllowed N excl none c b) ∧ (st = 1 ↔ ¬ SameAllowed N excl none c b) := by
  intro st
  have hA := (C31_agrees_two_way_partial L excl true G1 G2 s1 s2 ho hst).1
  have hn := twoWay_num (N := N) excl c b
  have hx : (twoWayQuery N excl true c b).notExecuted = false := by
    unfold twoWayQuery
    rw [identical_true hst]
    have hr : (twoWayQuery.rest N excl true c b).notExecuted = false := by
      unfold twoWayQuery.rest
      dsimp only
      split
      · rfl
      · split
        · rfl
        · split <;> rfl
    split
    · rename_i a ha
      split at ha
      · injection ha with ha
        subst ha
        rfl
      · simp at ha
    · exact hr
  have hs : st = 4 * (if (twoWayQuery N excl true c b).notExecuted then 1 else 0) + (twoWayQuery N excl true c b).num :=
    status_pair (W := queriesWorld N excl rest text) .equiv h1 h2 (by decide) (by decide)
      (i := iterOf (text .twoWayContainment ⟨"txt", false⟩) (twoWayQuery N excl true c b)) rfl (by
        show (twoWayQuery N excl true c b).num = 0 ∨ (twoWayQuery N excl true c b).num = 1
        rw [hn]; split
        · exact .inl rfl
        · exact .inr rfl)
  rw [← hA, hs, hx, hn]
  cases (twoWayQuery N excl true c b).bool <;> simp

/-- C65, `--forbids`: on the same topology and with policies other than Ingress and Gateway ones, the exit
status is 0 iff nothing explicitly allowed by the given policies is allowed by the base policies.  What is
missing for the full statement is as for `C32_forbids_partial`. -/
theorem C65_forbids_status_partial (L : N.Lawful Ok Strong Wide) {c b g : Config C S} (h1 : rest.numPeers c ≠ 0) (h2 : rest.numPeers b ≠ 0)
    (G1 : c.Good N Ok Strong) (G2 : b.Good N Ok Strong) (hg : GatewayFree c g) (s1 : g.SolidX N) (s2 : b.Solid N)
    (hh : ∀ e, N.Q.mem e c.peers.heps = false) :
    let st := cliStatus (queriesWorld N excl rest text) c b (Switch.forbids.args .notGiven "txt")
    (st ≥ 4 ↔ OnlyGateways c ∨ ¬ SameTopology N c b) ∧
    (st < 4 → (st = 0 ↔ ∀ p, Relevant N c.peers excl p → ¬ (g.explicit N p ∧ b.allows N p)) ∧ (st = 0 ∨ st = 1)) := by
  intro st
  obtain ⟨a, ha, hne, hnum⟩ := C32_forbids_partial L excl G1 G2 hg s1 s2 hh
  have hbit := forbids_num excl ha
  have hs : st = 4 * (if a.notExecuted then 1 else 0) + a.num :=
    status_pair (W := queriesWorld N excl rest text) .forbids h1 h2 (by decide) (by decide)
      (i := iterOf (text .forbids ⟨"txt", false⟩) a) (by
        show (forbidsQuery N excl c b).map _ = _
        rw [ha]; rfl) hbit
  rw [← hne, hs]
  cases hx : a.notExecuted
  · have h := hnum hx
    have e : (4 * (if (false = true) then (1 : Int) else 0) + a.num) = a.num := by simp
    rw [e]
    refine ⟨⟨fun h => by omega, fun h => absurd h (by decide)⟩, fun _ => ⟨h.1, hbit⟩⟩
  · have e : (4 * (if (true = true) then (1 : Int) else 0) + a.num) = 4 + a.num := by simp
    rw [e]
    refine ⟨⟨fun _ => rfl, fun _ => by omega⟩, fun h => by omega⟩

/-- C65, `--permits`: on the same topology and with policies other than Ingress and Gateway ones, the exit
status is 0 iff everything explicitly allowed by the given policies is allowed by the base policies.  What
is missing for the full statement is as for `C32_permits_partial`. -/
theorem C65_permits_status_partial (L : N.Lawful Ok Strong Wide) {c b g : Config C S} (h1 : rest.numPeers c ≠ 0) (h2 : rest.numPeers b ≠ 0)
    (G1 : c.Good N Ok Strong) (G2 : b.Good N Ok Strong) (hg : GatewayFree c g) (s1 : g.SolidX N) (s2 : b.Solid N)
    (hh : ∀ e, N.Q.mem e c.peers.heps = false) :
    let st := cliStatus (queriesWorld N excl rest text) c b (Switch.permits.args .notGiven "txt")
    (st ≥ 4 ↔ OnlyGateways c ∨ ¬ SameTopology N c b) ∧
    (st < 4 → (st = 0 ↔ ∀ p, Relevant N c.peers excl p → g.explicit N p → b.allows N p) ∧ (st = 0 ∨ st = 1)) := by
  intro st
  obtain ⟨a, ha, hne, hnum⟩ := C32_permits_partial L excl true G1 G2 hg s1 s2 hh
  have hbit := permits_num excl ha
  have hs : st = 4 * (if a.notExecuted then 1 else 0) + a.num :=
    status_pair (W := queriesWorld N excl rest text) .permits h1 h2 (by decide) (by decide)
      (i := iterOf (text .permits ⟨"txt", false⟩) a) (by
        show (permitsQuery N excl true c b).map _ = _
        rw [ha]; rfl) hbit
  rw [← hne, hs]
  cases hx : a.notExecuted
  · have h := hnum hx
    have e : (4 * (if (false = true) then (1 : Int) else 0) + a.num) = a.num := by simp
    rw [e]
    refine ⟨⟨fun h => by omega, fun h => absurd h (by decide)⟩, fun _ => ⟨?_, hbit⟩⟩
    rw [← h.1, h.2]
    simp
  · have e : (4 * (if (true = true) then (1 : Int) else 0) + a.num) = 4 + a.num := by simp
    rw [e]
    refine ⟨⟨fun _ => rfl, fun _ => by omega⟩, fun h => by omega⟩

/-- C65, `--interferes`: on the same topology the exit status is 0 iff the base policies explicitly allow a
connection that the given policies do not explicitly allow; on different topologies it is 5.  What is
missing for the full statement is as for `C32_interferes_partial`. -/
theorem C65_interferes_status_partial (L : N.Lawful Ok Strong Wide) {c b : Config C S} (h1 : rest.numPeers c ≠ 0) (h2 : rest.numPeers b ≠ 0)
    (G1 : b.Good N Ok Strong) (G2 : c.Good N Ok Strong) (s1 : b.SolidX N) (s2 : c.SolidX N)
    (hh : ∀ e, N.Q.mem e b.peers.heps = false) :
    let st := cliStatus (queriesWorld N excl rest text) c b (Switch.interferes.args .notGiven "txt")
    (st = 5 ↔ ¬ SameTopology N b c) ∧
    (SameTopology N b c → (st = 0 ↔ ∃ p, Relevant N b.peers excl p ∧ b.explicit N p ∧ ¬ c.explicit N p) ∧ (st = 0 ∨ st = 1)) := by
  intro st
  obtain ⟨hne, hrest⟩ := C32_interferes_partial L excl true G1 G2 s1 s2 hh
  have hn := interferes_num (N := N) excl b c
  have hbit : (interferesQuery N excl true b c).num = 0 ∨ (interferesQuery N excl true b c).num = 1 := by
    rw [hn]; split
    · exact .inl rfl
    · exact .inr rfl
  have hs : st = 4 * (if (interferesQuery N excl true b c).notExecuted then 1 else 0) + (interferesQuery N excl true b c).num :=
    status_pair (W := queriesWorld N excl rest text) .interferes h1 h2 (by decide) (by decide)
      (i := iterOf (text .interferes ⟨"txt", false⟩) (interferesQuery N excl true b c)) rfl hbit
  rw [hs]
  by_cases hst : SameTopology N b c
  · have hx : (interferesQuery N excl true b c).notExecuted = false := by
      rw [← Bool.not_eq_true]
      exact fun h => hne.1 h hst
    have h := (hrest hst).1
    have e : (4 * (if (false = true) then (1 : Int) else 0) + (interferesQuery N excl true b c).num) = (interferesQuery N excl true b c).num := by simp
    rw [hx, e]
    refine ⟨⟨fun h => by omega, fun h => absurd hst h⟩, fun _ => ⟨?_, hbit⟩⟩
    rw [← h, hn]
    cases (interferesQuery N excl true b c).bool <;> simp
  · have hi : interferesQuery N excl true b c = ⟨false, 1, true, []⟩ := by
      unfold interferesQuery
      rw [identical_false hst]
      rfl
    rw [hi]
    exact ⟨by simp [hst], fun h => absurd h hst⟩

/-- C65, `--semantic_diff`: the exit status is 0 iff no connection with an end that was removed, added or
captured changed from the base policies to the given ones; it is 1 otherwise.  What is missing for the full
statement is as for `C33_answer_partial`. -/
theorem C65_diff_status_partial (L : N.Lawful Ok Strong Wide) {c b : Config C S} (h1 : rest.numPeers c ≠ 0) (h2 : rest.numPeers b ≠ 0)
    (G1 : b.Good N Ok Strong) (G2 : c.Good N Ok Strong) (s1 : b.Solid N) (s2 : c.Solid N) (k12 : KindsAgree N b c) (k21 : KindsAgree N c b)
    (ho : SameOrder N b c) :
    let st := cliStatus (queriesWorld N excl rest text) c b (Switch.semanticDiff.args .notGiven "txt")
    (st = 0 ↔ ∀ p k, inCategory N b c p k → ¬ Lost N excl b c p ∧ ¬ Lost N excl c b p) ∧ (st = 0 ∨ st = 1) := by
  intro st
  obtain ⟨ha, hz⟩ := C33_answer_partial L excl true G1 G2 s1 s2 k12 k21 ho
  have hbit := diff_cmd (N := N) excl b c
  have hs : st = 4 * (if (diffQuery N excl true b c).1.notExecuted then 1 else 0) + (diffQuery N excl true b c).1.num :=
    status_pair (W := queriesWorld N excl rest text) .semanticDiff h1 h2 (by decide) (by decide)
      (i := iterOf (text .semanticDiff ⟨"txt", false⟩) (diffQuery N excl true b c).1) rfl hbit
  have e : (4 * (if (false = true) then (1 : Int) else 0) + (diffQuery N excl true b c).1.num) = (diffQuery N excl true b c).1.num := by simp
  rw [diff_executed, e] at hs
  rw [hs]
  exact ⟨hz.trans ha, hbit⟩

end

/-- C65, wrong: the exit status of a scheme with seven mismatches is that of an exception. -/
theorem C65_seven_wrong :
    ∃ s t : Scheme Nat, runScheme exWorld s = some (some 7) ∧ runScheme exWorld t = none ∧
      exitStatus (mainValue false (runScheme exWorld s)) = exitStatus (mainValue false (runScheme exWorld t)) :=
  let q : Query := ⟨[(.vacuity, ["ccccc".toList])], some 4, none, .notGiven, ⟨"txt", false⟩⟩
  let e : Entry Nat := ⟨"ccccc".toList, .ok 5 0, none, none⟩
  ⟨⟨[e], List.replicate 7 q⟩, ⟨[], [q]⟩, by decide +kernel, by decide +kernel, by decide +kernel⟩

end Runner
end Verif
