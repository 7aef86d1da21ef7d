import Verif.PropsEmptyValue
import Verif.PropsMinDfaEx

/-!
# C56: rectangles of hosts and paths
-/
namespace Verif
namespace MinDfa
namespace Ex

/-- The domains of the two dimensions. -/
def domF : StrDim → List Char → Bool
  | .hosts => meaning hostsText
  | .paths => meaning pathsText

theorem domF_words (d : StrDim) (x : List Char) : lib.acc (domF d) x = true ↔ doms.word d x := by
  cases d with
  | hosts =>
    change meaning hostsText x = true ↔ x.all letter = true
    unfold meaning
    rw [if_pos rfl]
  | paths =>
    change meaning pathsText x = true ↔ x.head? = some '/' ∧ x.all letter = true
    have e1 : pathsText ≠ hostsText := by decide
    unfold meaning
    rw [if_neg e1, if_pos rfl, Bool.and_eq_true, beq_iff_eq]

/-- The value given as the empty one of both dimensions (DimensionsManager.py 65 and 67). -/
def emptyText : StrDim → List Char → Bool := fun _ => meaning ""

theorem strLawful : (pureAlg lib domF).Lawful (Within lib doms) := C55_algebra_lawful lib_lawful domF_words

theorem dims_nodup : [StrDim.hosts, StrDim.paths].Nodup := by decide

/-- The hosts that end with `x`, all paths. -/
def goodCube : StrDim → List Char → Bool
  | .hosts => meaning starX
  | .paths => meaning pathsText

/-- The hosts other than the non-empty ones (`notHosts: ["*"]`), all paths. -/
def badCube : StrDim → List Char → Bool
  | .hosts => meaning ""
  | .paths => meaning pathsText

theorem meaning_starX (w : List Char) : meaning starX w = (w.getLast? == some 'x' && w.all letter) := by
  have e1 : starX ≠ hostsText := by decide
  have e2 : starX ≠ pathsText := by decide
  unfold meaning
  rw [if_neg e1, if_neg e2, if_pos rfl]

theorem meaning_empty (w : List Char) : meaning "" w = (w == []) := by
  have e1 : "" ≠ hostsText := by decide
  have e2 : "" ≠ pathsText := by decide
  have e3 : "" ≠ starX := by decide
  unfold meaning
  rw [if_neg e1, if_neg e2, if_neg e3]
  rfl

/-- The theorem on the first rectangle. -/
example (p : StrDim → List Char) (hp : InDom (pureAlg lib domF) p) :
    HC.contains (pureAlg lib domF) (rectangle (pureAlg lib domF) emptyText [.hosts, .paths] goodCube) p = true ↔
      ∀ d ∈ [StrDim.hosts, StrDim.paths], (pureAlg lib domF).mem (p d) (goodCube d) = true := by
  refine C56_rectangle_partial strLawful dims_nodup (by decide) ?_ ?_ p hp
  · intro d _ x hx
    cases d with
    | hosts =>
      change meaning starX x = true at hx
      rw [meaning_starX, Bool.and_eq_true] at hx
      exact hx.2
    | paths => exact (domF_words .paths x).1 hx
  · intro d _ he
    exfalso
    cases d with
    | hosts =>
      have := congrFun he ['x']
      revert this
      change meaning starX ['x'] = meaning "" ['x'] → False
      decide
    | paths =>
      have := congrFun he ['/']
      revert this
      change meaning pathsText ['/'] = meaning "" ['/'] → False
      decide

/-- The second rectangle has the request without host for path `/`; the set made of it is empty. -/
theorem C56_absent_host_lost : (∀ d ∈ [StrDim.hosts, StrDim.paths],
      (pureAlg lib domF).mem ((fun d => match d with | StrDim.hosts => [] | .paths => ['/']) d) (badCube d) = true) ∧
    ∀ p, HC.contains (pureAlg lib domF) (rectangle (pureAlg lib domF) emptyText [.hosts, .paths] badCube) p = false := by
  refine ⟨?_, fun p => C56_empty_word_wrong strLawful (all := [.hosts, .paths]) (emp := emptyText) (c := badCube) (by decide) (d := .hosts) (by decide) rfl p⟩
  intro d _
  cases d with
  | hosts =>
    change meaning "" [] = true
    decide
  | paths =>
    change meaning pathsText ['/'] = true
    decide

end Ex
end MinDfa
end Verif
