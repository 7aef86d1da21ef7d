import Verif.IntervalProofs
/-!
Property theorems C01-C07 (interval sets).
The specification vocabulary (`Mem`, `Canonical`) is in `Verif.IntervalSpec`.
-/
namespace Verif
open ISet

/-- All interval sets a program can build: start from the empty set and apply any finite
combination of operations; every interval handed in is non-empty. -/
inductive ISet.Reach : ISet → Prop
  | empty : Reach []
  | addInterval {l} (iv : Iv) : Reach l → iv.s ≤ iv.e → Reach (addInterval l iv)
  | addHole {l} (iv : Iv) : Reach l → iv.s ≤ iv.e → Reach (addHole l iv)
  | union {l m} : Reach l → Reach m → Reach (union l m)
  | inter {l m} : Reach l → Reach m → Reach (inter l m)
  | diff {l m} : Reach l → Reach m → Reach (diff l m)

/-- C04: whatever the history, the stored intervals are non-empty, sorted and pairwise neither
overlapping nor touching. -/
theorem C04_reachable_canonical {l : ISet} (h : Reach l) : Canonical l := by
  induction h with
  | empty => exact canonical_nil
  | addInterval iv _ hiv ih => exact (addInterval_spec _ iv ih hiv).1
  | addHole iv _ hiv ih => exact (addHole_spec _ iv ih hiv).1
  | union _ _ ih1 ih2 => exact (union_spec _ _ ih1 ih2.1).1
  | inter _ _ ih1 ih2 => exact (inter_spec _ _ ih1 ih2).1
  | diff _ _ ih1 ih2 => exact (diff_spec _ _ ih1 ih2.1).1

example : Reach (addHole (addInterval (addInterval [] ⟨1, 5⟩) ⟨7, 9⟩) ⟨3, 3⟩) :=
  .addHole _ (.addInterval _ (.addInterval _ .empty (by decide)) (by decide)) (by decide)
example : (addHole (addInterval (addInterval [] ⟨1, 5⟩) ⟨7, 9⟩) ⟨3, 3⟩)
    = [⟨1, 2⟩, ⟨4, 5⟩, ⟨7, 9⟩] := by decide +kernel

/-- C04, the other direction: every canonical list is reachable, so statements about canonical
sets and about reachable sets are the same statements. -/
theorem C04_canonical_reachable {l : ISet} (h : Canonical l) : Reach l := by
  have key : ∀ m : ISet, Canonical m → Reach (m.foldl addInterval []) := by
    intro m
    have : ∀ (m acc : ISet), (∀ a ∈ m, a.s ≤ a.e) → Reach acc → Reach (m.foldl addInterval acc) := by
      intro m
      induction m with
      | nil => intro acc _ h; exact h
      | cons a m ih =>
        intro acc hm hacc
        exact ih _ (fun b hb => hm b (by simp [hb])) (.addInterval a hacc (hm a (by simp)))
    intro hm
    exact this m [] hm.1 .empty
  have heq : l.foldl addInterval [] = l := by
    have hs := union_spec [] l canonical_nil h.1
    exact canonical_ext _ _ hs.1 h (fun x => by
      have := hs.2 x
      unfold union at this
      rw [this]; simp [Mem])
  rw [← heq]; exact key l h

/-- C01: the union of two reachable sets has exactly the members of both. -/
theorem C01_union_exact {l m : ISet} (hl : Reach l) (hm : Reach m) (x : Int) :
    Mem x (union l m) ↔ Mem x l ∨ Mem x m :=
  (union_spec l m (C04_reachable_canonical hl) (C04_reachable_canonical hm).1).2 x

/-- C01: adding one non-empty interval adds exactly its numbers. -/
theorem C01_addInterval_exact {l : ISet} (hl : Reach l) (iv : Iv) (hiv : iv.s ≤ iv.e) (x : Int) :
    Mem x (addInterval l iv) ↔ Mem x l ∨ (iv.s ≤ x ∧ x ≤ iv.e) :=
  (addInterval_spec l iv (C04_reachable_canonical hl) hiv).2 x

example : addInterval [⟨1, 5⟩, ⟨8, 9⟩, ⟨20, 30⟩] ⟨6, 12⟩ = [⟨1, 12⟩, ⟨20, 30⟩] := by decide +kernel

/-- C02: intersection is exact. -/
theorem C02_inter_exact {l m : ISet} (hl : Reach l) (hm : Reach m) (x : Int) :
    Mem x (inter l m) ↔ Mem x l ∧ Mem x m :=
  (inter_spec l m (C04_reachable_canonical hl) (C04_reachable_canonical hm)).2 x

example : inter [⟨1, 5⟩, ⟨8, 9⟩] [⟨4, 8⟩] = [⟨4, 5⟩, ⟨8, 8⟩] := by decide +kernel

/-- C03: difference is exact. -/
theorem C03_diff_exact {l m : ISet} (hl : Reach l) (hm : Reach m) (x : Int) :
    Mem x (diff l m) ↔ Mem x l ∧ ¬ Mem x m :=
  (diff_spec l m (C04_reachable_canonical hl) (C04_reachable_canonical hm).1).2 x

/-- C03: punching a hole removes exactly the numbers of the hole. -/
theorem C03_addHole_exact {l : ISet} (hl : Reach l) (h : Iv) (hh : h.s ≤ h.e) (x : Int) :
    Mem x (addHole l h) ↔ Mem x l ∧ ¬ (h.s ≤ x ∧ x ≤ h.e) :=
  (addHole_spec l h (C04_reachable_canonical hl) hh).2 x

example : diff [⟨1, 9⟩, ⟨20, 30⟩] [⟨4, 5⟩, ⟨8, 22⟩] = [⟨1, 3⟩, ⟨6, 7⟩, ⟨23, 30⟩] := by decide +kernel

/-- C05: structural equality (`__eq__` compares the interval lists) is equality of the denoted
sets. -/
theorem C05_eq_extensional {l m : ISet} (hl : Reach l) (hm : Reach m) :
    l = m ↔ ∀ x, Mem x l ↔ Mem x m :=
  ⟨fun h x => by rw [h], canonical_ext l m (C04_reachable_canonical hl) (C04_reachable_canonical hm)⟩

/-- C05 in use: the same set built along different histories is stored identically. -/
theorem C05_union_comm {l m : ISet} (hl : Reach l) (hm : Reach m) : union l m = union m l :=
  (C05_eq_extensional (.union hl hm) (.union hm hl)).2 fun x => by
    rw [C01_union_exact hl hm, C01_union_exact hm hl]; tauto

/-- C06: `contained_in` is set inclusion. -/
theorem C06_containedIn_exact {l m : ISet} (hl : Reach l) (hm : Reach m) :
    containedIn l m = true ↔ ∀ x, Mem x l → Mem x m :=
  containedIn_spec l m (C04_reachable_canonical hl) (C04_reachable_canonical hm)

/-- C06: `x in S` is membership. -/
theorem C06_contains_exact {l : ISet} (hl : Reach l) (x : Int) : contains l x = true ↔ Mem x l :=
  contains_spec l x (C04_reachable_canonical hl)

example : containedIn [⟨2, 3⟩, ⟨9, 9⟩] [⟨1, 4⟩, ⟨8, 9⟩, ⟨11, 11⟩] = true := by decide +kernel
example : containedIn [⟨2, 3⟩, ⟨9, 10⟩] [⟨1, 4⟩, ⟨8, 9⟩, ⟨11, 11⟩] = false := by decide +kernel

/-- C07: the overlap test is exact. -/
theorem C07_overlaps_exact {l m : ISet} (hl : Reach l) (hm : Reach m) :
    overlaps l m = true ↔ ∃ x, Mem x l ∧ Mem x m :=
  overlaps_spec l m (C04_reachable_canonical hl) (C04_reachable_canonical hm)

/-- C07: the overlap test is true exactly when the intersection tests as non-empty. -/
theorem C07_overlaps_iff_inter_truthy {l m : ISet} (hl : Reach l) (hm : Reach m) :
    overlaps l m = truthy (inter l m) := by
  have h1 := C07_overlaps_exact hl hm
  have h2 := truthy_spec (inter l m) (C04_reachable_canonical (.inter hl hm))
  have h3 : (∃ x, Mem x l ∧ Mem x m) ↔ ∃ x, Mem x (inter l m) := by
    constructor
    · rintro ⟨x, hx⟩; exact ⟨x, (C02_inter_exact hl hm x).2 hx⟩
    · rintro ⟨x, hx⟩; exact ⟨x, (C02_inter_exact hl hm x).1 hx⟩
  rw [h3, ← h2] at h1
  exact Bool.eq_iff_iff.2 h1

/-- C07: truthiness is non-emptiness. -/
theorem C07_truthy_exact {l : ISet} (hl : Reach l) : truthy l = true ↔ ∃ x, Mem x l :=
  truthy_spec l (C04_reachable_canonical hl)

/-- `rep` returns a member (the least one) of every non-empty set and fails only on the empty set. -/
theorem C07_rep_least {l : ISet} (hl : Reach l) :
    match rep l with
    | none => ∀ x, ¬ Mem x l
    | some r => Mem r l ∧ ∀ x, Mem x l → r ≤ x := by
  have hc := C04_reachable_canonical hl
  cases l with
  | nil => simp [rep, Mem]
  | cons a l =>
    simp only [rep, List.head?_cons, Option.map_some]
    refine ⟨⟨a, by simp, Int.le_refl _, hc.1 a (by simp)⟩, ?_⟩
    rintro x ⟨b, hb, h1, h2⟩
    have := pairwise_head_le (B := a :: l) (by simp) hc b hb
    simp at this; omega

/-- `is_single_value` is true exactly for one-element sets. -/
theorem C07_isSingleValue_exact {l : ISet} (hl : Reach l) :
    isSingleValue l = true ↔ ∃ v, ∀ x, Mem x l ↔ x = v := by
  have hc := C04_reachable_canonical hl
  constructor
  · intro h
    match l, h with
    | [a], h =>
      simp only [isSingleValue, Iv.isSingleValue, beq_iff_eq] at h
      refine ⟨a.s, fun x => ?_⟩
      rw [mem_singleton]; simp only [Iv.Mem]; omega
  · rintro ⟨v, hv⟩
    have : l = [⟨v, v⟩] := canonical_ext _ _ hc (canonical_singleton.2 (Int.le_refl _)) fun x => by
      rw [hv x, mem_singleton]; simp only [Iv.Mem]; omega
    rw [this]; simp [isSingleValue, Iv.isSingleValue]

/-- The guard "non-empty interval" is needed: `get_interval_set(5, 3)` is accepted by the code
(lines 336-347 check nothing) and yields a truthy set with no members. -/
theorem C04_inverted_range_not_canonical :
    ∃ s e : Int, truthy (single s e) = true ∧ ¬ Canonical (single s e) ∧ ∀ x, ¬ Mem x (single s e) := by
  refine ⟨5, 3, by decide +kernel, by decide +kernel, ?_⟩
  intro x
  rw [single_eq, mem_singleton]; simp only [Iv.Mem]; omega

/-- Non-vacuity of the reachable pairs used above. -/
example : ∃ l m : ISet, Reach l ∧ Reach m ∧ l ≠ m ∧ overlaps l m = true ∧ containedIn l m = false :=
  ⟨[⟨1, 4⟩, ⟨8, 9⟩], [⟨4, 6⟩], C04_canonical_reachable (by decide), C04_canonical_reachable (by decide),
    by decide, by decide +kernel, by decide +kernel⟩

end Verif
