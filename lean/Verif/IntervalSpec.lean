import Verif.IntervalSet
/-!
Specification vocabulary for interval sets, independent of the operations: the
set of integers denoted by a list of intervals, and what the documentation of
`CanonicalIntervalSet` (lines 8-13) calls canonical.
-/
namespace Verif

/-- `x` lies in the interval. -/
def Iv.Mem (x : Int) (a : Iv) : Prop := a.s ≤ x ∧ x ≤ a.e

/-- `x` lies in one of the intervals. -/
def ISet.Mem (x : Int) (l : ISet) : Prop := ∃ a ∈ l, Iv.Mem x a

/-- A non-empty interval. -/
def Iv.NonEmpty (a : Iv) : Prop := a.s ≤ a.e

/-- Canonical: intervals non-empty, sorted, no two of them overlap or touch. -/
def ISet.Canonical (l : ISet) : Prop :=
  (∀ a ∈ l, a.s ≤ a.e) ∧ l.Pairwise (fun a b => a.e + 1 < b.s)

instance (l : ISet) : Decidable (ISet.Canonical l) := by
  unfold ISet.Canonical; infer_instance

instance (x : Int) (l : ISet) : Decidable (ISet.Mem x l) := by
  unfold ISet.Mem Iv.Mem; infer_instance

end Verif
