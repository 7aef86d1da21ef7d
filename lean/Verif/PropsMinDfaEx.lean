import Verif.PropsMinDfa

/-!
# C55: a process with hosts and paths
-/
namespace Verif
namespace MinDfa
namespace Ex

/-- The two dimensions with strings. -/
inductive StrDim
  | hosts
  | paths
  deriving DecidableEq

/-- The letters of hosts and paths. -/
def letter (a : Char) : Bool := a.isAlphanum || a == '_' || a == '.' || a == '/' || a == '-'

/-- The regular expression of the hosts (MinDFA.py 46). -/
def hostsText : String := "[.\\w/\\-]*"
/-- The regular expression of the paths (DimensionsManager.py 95). -/
def pathsText : String := "/[.\\w/\\-]*"
/-- The regular expression of the Istio value `*x` (IstioPolicyYamlParser.py 273-287). -/
def starX : String := "[.\\w/\\-]*x"

/-- The words of four regular expressions; other texts stand for themselves. -/
def meaning (s : String) : List Char → Bool :=
  if s = hostsText then fun w => w.all letter
  else if s = pathsText then fun w => w.head? == some '/' && w.all letter
  else if s = starX then fun w => w.getLast? == some 'x' && w.all letter
  else fun w => w == s.toList

open Classical in
/-- A library whose automata are the languages themselves. -/
noncomputable def lib : FsmLib (List Char → Bool) (List Char) where
  parse := meaning
  or f g x := f x || g x
  and f g x := f x && g x
  sub f g x := f x && !g x
  empty f := decide (∀ x, f x = false)
  subset f g := decide (∀ x, f x = true → g x = true)
  finite f := decide (∃ ws : List (List Char), ∀ x, f x = true → x ∈ ws)
  acc f x := f x
  first f := if h : ∃ x, f x = true then some (Classical.choose h) else none
  decEq := fun f g => Classical.propDecidable (f = g)

open Classical in
theorem lib_lawful : lib.Lawful where
  acc_or _ _ _ := rfl
  acc_and _ _ _ := rfl
  acc_sub _ _ _ := rfl
  empty_iff _ := decide_eq_true_iff
  subset_iff _ _ := decide_eq_true_iff
  finite_iff _ := decide_eq_true_iff
  first_acc f hf := by
    have h1 : ∃ x, f x = true := by
      rcases Classical.em (∃ x, f x = true) with h1 | h1
      · exact h1
      · have : lib.empty f = true := decide_eq_true_iff.2 (fun x => Bool.eq_false_iff.2 (fun hx => h1 ⟨x, hx⟩))
        rw [hf] at this
        cases this
    refine ⟨Classical.choose h1, ?_, Classical.choose_spec h1⟩
    change (if h : ∃ x, f x = true then some (Classical.choose h) else none) = _
    rw [dif_pos h1]
  ext f g h := funext h

theorem long (ws : List (List Char)) : ∃ n, ∀ w ∈ ws, w.length < n := by
  induction ws with
  | nil => exact ⟨0, fun _ h => absurd h List.not_mem_nil⟩
  | cons w ws ih =>
    obtain ⟨n, hn⟩ := ih
    refine ⟨n + w.length + 1, fun v hv => ?_⟩
    rcases List.mem_cons.1 hv with rfl | hv
    · omega
    · have := hn v hv
      omega

theorem letters (n : Nat) : (List.replicate n 'a').all letter = true := by
  rw [List.all_eq_true]
  intro a ha
  rw [(List.mem_replicate.1 ha).2]
  decide

/-- The words of hosts and paths. -/
def doms : Domains StrDim (List Char) where
  word
    | .hosts, w => w.all letter = true
    | .paths, w => w.head? = some '/' ∧ w.all letter = true
  infinite := by
    intro d ws
    obtain ⟨n, hn⟩ := long ws
    have hl : letter '/' = true := by decide
    cases d with
    | hosts =>
      refine ⟨List.replicate n 'a', letters n, fun h => ?_⟩
      have := hn _ h
      simp at this
    | paths =>
      refine ⟨'/' :: List.replicate n 'a', ⟨rfl, ?_⟩, fun h => ?_⟩
      · rw [List.all_cons, hl, letters, Bool.true_and]
      · have := hn _ h
        simp at this
        omega

/-- A process that made nothing yet. -/
def fresh : Heap (List Char → Bool) :=
  { obj := fun _ => { fsm := fun _ => false, mark := .unknown, comp := none }, size := 0, rx := [], orC := [], andC := [], subC := [] }

theorem fresh_ok : Fresh fresh := ⟨rfl, rfl, rfl, rfl, rfl⟩

/-- The text `*x` is used for hosts. -/
def texts : StrDim → String → Prop := fun d s => d = .hosts ∧ s = starX

theorem texts_inside : TextsInside lib doms texts := by
  rintro d s ⟨rfl, rfl⟩
  refine ⟨fun x hx => ?_, fun hn => absurd (by decide) hn⟩
  have hx' : meaning starX x = true := hx
  have e1 : starX ≠ hostsText := by decide
  have e2 : starX ≠ pathsText := by decide
  unfold meaning at hx'
  rw [if_neg e1, if_neg e2, if_pos rfl, Bool.and_eq_true] at hx'
  exact hx'.2

/-- Object 1 belongs to the paths, the others to the hosts. -/
def own : Nat → StrDim := fun r => if r = 1 then .paths else .hosts

/-- Making the two domains and the value `*x` of hosts, all memo entries being dropped in between. -/
noncomputable def h₁ : Heap (List Char → Bool) := (allWords lib fresh hostsText).1
noncomputable def h₂ : Heap (List Char → Bool) := (allWords lib h₁ pathsText).1
noncomputable def h₃ : Heap (List Char → Bool) := { h₂ with rx := [] }
noncomputable def h₄ : Heap (List Char → Bool) := (fromRegex lib h₃ starX).1

theorem find_paths : (h₁.rx.find? (fun e => e.1 == pathsText)) = none := by
  have : h₁.rx = [(hostsText, 0)] := rfl
  rw [this]
  decide

theorem exec : Exec lib doms texts own fresh h₄ := by
  have e1 : Exec lib doms texts own fresh h₁ := by
    refine .call (.all .hosts hostsText) .start (fun _ h => absurd h List.not_mem_nil) ⟨by decide, fun x => ?_⟩
      (fun _ _ h => (by cases h)) ⟨fun _ h => absurd h List.not_mem_nil, rfl⟩
    change meaning hostsText x = true ↔ x.all letter = true
    unfold meaning
    rw [if_pos rfl]
  have e2 : Exec lib doms texts own fresh h₂ := by
    have r1 : (allWords lib h₁ pathsText).2 = 1 := by
      unfold allWords
      rw [fromRegex_none find_paths]
      rfl
    refine .call (.all .paths pathsText) e1 (fun _ h => absurd h List.not_mem_nil) ⟨by decide, fun x => ?_⟩
      (fun _ _ h => (by cases h)) ⟨fun _ h => absurd h List.not_mem_nil, ?_⟩
    · change meaning pathsText x = true ↔ x.head? = some '/' ∧ x.all letter = true
      have e1 : pathsText ≠ hostsText := by decide
      unfold meaning
      rw [if_neg e1, if_pos rfl, Bool.and_eq_true, beq_iff_eq]
    · change own (allWords lib h₁ pathsText).2 = .paths
      rw [r1]
      rfl
  have e3 : Exec lib doms texts own fresh h₃ :=
    .evict e2 ⟨rfl, rfl, List.nil_subset _, List.Subset.refl _, List.Subset.refl _, List.Subset.refl _⟩
  refine .call (.regex .hosts starX) e3 (fun _ h => absurd h List.not_mem_nil) trivial ?_ ⟨fun _ h => absurd h List.not_mem_nil, ?_⟩
  · intro d s h
    cases h
    exact ⟨rfl, rfl⟩
  · have r2 : (fromRegex lib h₃ starX).2 = 2 := by
      have hs : h₃.size = 2 := by
        change (allWords lib h₁ pathsText).1.size = 2
        unfold allWords
        rw [fromRegex_none find_paths]
        rfl
      rw [fromRegex_none (by rfl), hs]
    change own (fromRegex lib h₃ starX).2 = .hosts
    rw [r2]
    rfl

theorem size4 : h₄.size = 3 := by
  have hs : h₃.size = 2 := by
    change (allWords lib h₁ pathsText).1.size = 2
    unfold allWords
    rw [fromRegex_none find_paths]
    rfl
  unfold h₄
  rw [fromRegex_none (by rfl)]
  change h₃.size + 1 = 3
  rw [hs]

/-- The questions theorem on the objects of the example: the value `*x` is contained in the hosts. -/
example : contained lib h₄ 2 0 = true ↔ ∀ x, accepts lib h₄ 2 x = true → accepts lib h₄ 0 x = true :=
  (C55_questions_partial lib_lawful texts_inside fresh_ok exec (d := .hosts) (by rw [size4]; decide) (by rw [size4]; decide) rfl rfl).2.2.1

/-- The operations theorem on the objects of the example: the union of the two. -/
example (ho : own (MinDfa.or lib h₄ 2 0).2 = .hosts) (x : List Char) :
    accepts lib (MinDfa.or lib h₄ 2 0).1 (MinDfa.or lib h₄ 2 0).2 x = (accepts lib h₄ 2 x || accepts lib h₄ 0 x) :=
  (C55_exact_partial lib_lawful texts_inside fresh_ok exec (.or .hosts 2 0)
    (by
      intro a ha
      rw [size4]
      rcases List.mem_cons.1 ha with rfl | ha
      · decide
      · rcases List.mem_cons.1 ha with rfl | ha
        · decide
        · exact absurd ha List.not_mem_nil)
    trivial (fun _ _ h => (by cases h))
    ⟨by
      intro a ha
      rcases List.mem_cons.1 ha with rfl | ha
      · rfl
      · rcases List.mem_cons.1 ha with rfl | ha
        · rfl
        · exact absurd ha List.not_mem_nil, ho⟩).1 x

/-- The algebra of the example is lawful. -/
example : (pureAlg lib (fun d => match d with | StrDim.hosts => meaning hostsText | .paths => meaning pathsText)).Lawful (Within lib doms) := by
  refine C55_algebra_lawful lib_lawful ?_
  intro d x
  cases d with
  | hosts =>
    change meaning hostsText x = true ↔ x.all letter = true
    unfold meaning
    rw [if_pos rfl]
  | paths =>
    change meaning pathsText x = true ↔ x.head? = some '/' ∧ x.all letter = true
    have e1 : pathsText ≠ hostsText := by decide
    unfold meaning
    rw [if_neg e1, if_pos rfl, Bool.and_eq_true, beq_iff_eq]

/-- `notPaths: ["*x"]` and `notHosts: ["*x"]` in one process: the host `a.b` does not end with `x`, and is
nevertheless not among the hosts left. -/
theorem C55_host_lost : accepts lib (excludeTwice lib fresh pathsText hostsText starX).1
    (excludeTwice lib fresh pathsText hostsText starX).2 ['a', '.', 'b'] = false ∧
    (meaning hostsText ['a', '.', 'b'] && !meaning starX ['a', '.', 'b']) = true := by
  refine ⟨?_, by decide⟩
  rw [C55_mixed_dimensions_wrong lib_lawful fresh_ok (by decide) (by decide) (by decide) ⟨[], by
    change meaning pathsText [] ≠ meaning hostsText []
    decide⟩]
  change (meaning pathsText ['a', '.', 'b'] && !meaning starX ['a', '.', 'b']) = false
  decide

end Ex
end MinDfa
end Verif
