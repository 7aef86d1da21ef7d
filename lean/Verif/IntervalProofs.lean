import Mathlib.Tactic.Tauto
import Mathlib.Tactic.ByContra
import Verif.IntervalSpec
/-! Helper lemmas for interval sets. -/
namespace Verif
open ISet

namespace ISet

theorem getElem!_eq {l : ISet} {i : Nat} (h : i < l.length) : l[i]! = l[i] := by
  simp [h]

/-- The left search returns the index of the last interval satisfying the (monotone) test. -/
theorem findLeftLoop_eq (l : ISet) (q : Int) (n : Nat) (hl : l ≠ [])
    (hn : n ≤ l.length)
    (hp : ∀ i, (h : i < l.length) → ((l[i]).e < q ↔ i < n)) :
    ∀ (k low high : Nat), high - low = k → low ≤ high → high ≤ l.length → n ≤ high →
      (low = 0 ∨ low < n) →
      findLeftLoop l q low high = (n : Int) - 1 := by
  have hpos : 0 < l.length := List.length_pos_iff.mpr hl
  intro k
  induction k using Nat.strongRecOn with
  | _ k ih =>
    intro low high hk hlh hh hnh hlow
    unfold findLeftLoop
    by_cases hc : low < high
    · simp only [hc, if_true]
      have hm1 : (low + high) / 2 < high := by omega
      have hm2 : low ≤ (low + high) / 2 := by omega
      have hml : (low + high) / 2 < l.length := by omega
      generalize hmid : (low + high) / 2 = mid at *
      rw [getElem!_eq hml]
      by_cases hlt : l[mid].e < q
      · simp only [hlt, if_true]
        have hmn := (hp mid hml).1 hlt
        by_cases hlast : mid = l.length - 1
        · simp only [hlast, true_or, if_true]
          omega
        · have hml1 : mid + 1 < l.length := by omega
          rw [getElem!_eq hml1]
          by_cases hge : l[mid+1].e ≥ q
          · simp only [hge, or_true, if_true]
            have : ¬ (mid + 1 < n) := fun h => by
              have := (hp (mid+1) hml1).2 h
              omega
            omega
          · simp only [hlast, hge, or_self, if_false]
            have hmn1 : mid + 1 < n := (hp (mid+1) hml1).1 (by omega)
            exact ih (high - (mid+1)) (by omega) (mid+1) high rfl (by omega) hh hnh (Or.inr hmn1)
      · simp only [hlt, if_false]
        have hmn : ¬ mid < n := fun h => hlt ((hp mid hml).2 h)
        exact ih (mid - low) (by omega) low mid rfl hm2 (by omega) (by omega) hlow
    · simp only [hc, if_false]
      have : low = high := by omega
      subst this
      have h0 : low = 0 := by omega
      subst h0
      have hn0 : n = 0 := by omega
      subst hn0
      have hne : (0:Nat) ≠ l.length := by omega
      simp only [hne, if_false]
      rw [getElem!_eq hpos]
      have : ¬ l[0].e < q := fun h => by have := (hp 0 hpos).1 h; omega
      have h2 : l[0].e ≥ q := by omega
      simp [h2]

/-- The right search returns the index of the first interval satisfying the test. -/
theorem findRightLoop_eq (l : ISet) (q : Int) (n : Nat) (hl : l ≠ [])
    (hn : n ≤ l.length)
    (hp : ∀ i, (h : i < l.length) → ((l[i]).s > q ↔ n ≤ i)) :
    ∀ (k low high : Nat), high - low = k → low ≤ high → high ≤ l.length → low ≤ n →
      (high = l.length ∨ n < high) → n ≤ high →
      findRightLoop l q low high = if n = l.length then -1 else (n : Int) := by
  have hpos : 0 < l.length := List.length_pos_iff.mpr hl
  intro k
  induction k using Nat.strongRecOn with
  | _ k ih =>
    intro low high hk hlh hh hln hhigh hnh
    unfold findRightLoop
    by_cases hc : low < high
    · simp only [hc, if_true]
      have hm1 : (low + high) / 2 < high := by omega
      have hm2 : low ≤ (low + high) / 2 := by omega
      have hml : (low + high) / 2 < l.length := by omega
      generalize hmid : (low + high) / 2 = mid at *
      rw [getElem!_eq hml]
      by_cases hlt : l[mid].s > q
      · simp only [hlt, if_true]
        have hmn := (hp mid hml).1 hlt
        by_cases hfirst : mid = 0
        · simp only [hfirst, true_or, if_true]
          have : n = 0 := by omega
          have hne : ¬ n = l.length := by omega
          simp only [hne, if_false]; omega
        · have hml1 : mid - 1 < l.length := by omega
          rw [getElem!_eq hml1]
          by_cases hge : l[mid-1].s ≤ q
          · simp only [hge, or_true, if_true]
            have : ¬ (n ≤ mid - 1) := fun h => by
              have := (hp (mid-1) hml1).2 h
              omega
            have hne : ¬ n = l.length := by omega
            simp only [hne, if_false]; omega
          · simp only [hfirst, hge, or_self, if_false]
            have hmn1 : n ≤ mid - 1 := (hp (mid-1) hml1).1 (by omega)
            exact ih (mid - low) (by omega) low mid rfl (by omega) (by omega) hln
              (Or.inr (by omega)) (by omega)
      · simp only [hlt, if_false]
        have hmn : ¬ n ≤ mid := fun h => hlt ((hp mid hml).2 h)
        exact ih (high - (mid+1)) (by omega) (mid+1) high rfl (by omega) hh (by omega) hhigh hnh
    · simp only [hc, if_false]
      have : low = high := by omega
      subst this
      have hl2 : low = l.length := by omega
      have hn2 : n = l.length := by omega
      simp only [hl2, if_true, hn2]
      have hlt : l.length - 1 < l.length := by omega
      rw [getElem!_eq hlt]
      have : ¬ l[l.length-1].s > q := fun h => by have := (hp _ hlt).1 h; omega
      have h2 : l[l.length-1].s ≤ q := by omega
      simp [h2]

/-- Splitting a list by a test that is monotone (true first). -/
theorem exists_split (p : Iv → Bool) (l : ISet)
    (hm : l.Pairwise (fun a b => p b = true → p a = true)) :
    ∃ A B, l = A ++ B ∧ (∀ a ∈ A, p a = true) ∧ (∀ b ∈ B, p b = false) := by
  induction l with
  | nil => exact ⟨[], [], rfl, by simp, by simp⟩
  | cons x xs ih =>
    rw [List.pairwise_cons] at hm
    by_cases hx : p x = true
    · obtain ⟨A, B, h1, h2, h3⟩ := ih hm.2
      refine ⟨x :: A, B, by simp [h1], ?_, h3⟩
      intro a ha
      rcases List.mem_cons.1 ha with rfl | ha
      · exact hx
      · exact h2 a ha
    · refine ⟨[], x :: xs, rfl, by simp, ?_⟩
      intro b hb
      rcases List.mem_cons.1 hb with rfl | hb
      · simpa using hx
      · cases hpb : p b with
        | false => rfl
        | true => exact absurd (hm.1 b hb hpb) hx

theorem Canonical.tail {a : Iv} {l : ISet} (h : Canonical (a :: l)) : Canonical l :=
  ⟨fun x hx => h.1 x (List.mem_cons_of_mem _ hx), (List.pairwise_cons.1 h.2).2⟩

theorem canonical_append {A B : ISet} :
    Canonical (A ++ B) ↔ Canonical A ∧ Canonical B ∧ ∀ a ∈ A, ∀ b ∈ B, a.e + 1 < b.s := by
  unfold Canonical
  rw [List.pairwise_append]
  constructor
  · rintro ⟨h1, h2, h3, h4⟩
    exact ⟨⟨fun a ha => h1 a (by simp [ha]), h2⟩, ⟨fun a ha => h1 a (by simp [ha]), h3⟩, h4⟩
  · rintro ⟨⟨h1, h2⟩, ⟨h3, h4⟩, h5⟩
    refine ⟨fun a ha => ?_, h2, h4, h5⟩
    rcases List.mem_append.1 ha with h | h
    · exact h1 a h
    · exact h3 a h

theorem canonical_cons {a : Iv} {B : ISet} :
    Canonical (a :: B) ↔ a.s ≤ a.e ∧ Canonical B ∧ ∀ b ∈ B, a.e + 1 < b.s := by
  have := @canonical_append [a] B
  simp only [List.singleton_append] at this
  rw [this]
  simp [Canonical]

theorem canonical_nil : Canonical [] := ⟨by simp, List.Pairwise.nil⟩

theorem canonical_singleton {a : Iv} : Canonical [a] ↔ a.s ≤ a.e := by
  simp [Canonical]

theorem mem_append {x : Int} {A B : ISet} : Mem x (A ++ B) ↔ Mem x A ∨ Mem x B := by
  simp only [Mem, List.mem_append]
  constructor
  · rintro ⟨a, h | h, hx⟩
    · exact Or.inl ⟨a, h, hx⟩
    · exact Or.inr ⟨a, h, hx⟩
  · rintro (⟨a, h, hx⟩ | ⟨a, h, hx⟩)
    · exact ⟨a, Or.inl h, hx⟩
    · exact ⟨a, Or.inr h, hx⟩

theorem mem_cons {x : Int} {a : Iv} {B : ISet} : Mem x (a :: B) ↔ a.Mem x ∨ Mem x B := by
  have := @mem_append x [a] B
  simp only [List.singleton_append] at this
  rw [this]; simp [Mem]

theorem mem_singleton {x : Int} {a : Iv} : Mem x [a] ↔ a.Mem x := by simp [Mem]

theorem not_mem_nil {x : Int} : ¬ Mem x [] := by simp [Mem]

/-- Three-way split of a canonical list relative to an interval. -/
theorem canonical_split (l : ISet) (iv : Iv) (hc : Canonical l) (hiv : iv.s ≤ iv.e) :
    ∃ A B C, l = A ++ (B ++ C) ∧ (∀ a ∈ A, a.e < iv.s - 1) ∧
      (∀ b ∈ B, b.e ≥ iv.s - 1 ∧ b.s ≤ iv.e + 1) ∧ (∀ c ∈ C, c.s > iv.e + 1) := by
  obtain ⟨A, R, h1, h2, h3⟩ := exists_split (fun a => decide (a.e < iv.s - 1)) l (by
    have := hc.2
    refine List.Pairwise.imp_of_mem ?_ this
    intro a b ha hb hab hpb
    simp only [decide_eq_true_eq] at *
    have := hc.1 b hb
    omega)
  subst h1
  have hR := (canonical_append.1 hc).2.1
  obtain ⟨B, C, h4, h5, h6⟩ := exists_split (fun a => decide (a.s ≤ iv.e + 1)) R (by
    refine List.Pairwise.imp_of_mem ?_ hR.2
    intro a b ha hb hab hpb
    simp only [decide_eq_true_eq] at *
    have := hR.1 a ha
    omega)
  subst h4
  refine ⟨A, B, C, rfl, ?_, ?_, ?_⟩
  · intro a ha; simpa using h2 a ha
  · intro b hb
    have := h3 b (by simp [hb])
    have h7 := h5 b hb
    simp only [decide_eq_true_eq, decide_eq_false_iff_not] at *
    exact ⟨by omega, h7⟩
  · intro c hcc
    have := h6 c hcc
    simp only [decide_eq_false_iff_not] at this
    omega

theorem findLeft_append (A R : ISet) (iv : Iv)
    (hA : ∀ a ∈ A, a.e < iv.s - 1) (hR : ∀ b ∈ R, b.e ≥ iv.s - 1) :
    findLeft (A ++ R) iv = (A.length : Int) - 1 := by
  unfold findLeft
  by_cases hl : A ++ R = []
  · have hA0 : A = [] := by simp_all
    subst hA0
    simp at hl; subst hl; simp
  · have hne : (A ++ R).isEmpty = false := by
      cases h : (A ++ R) with
      | nil => exact absurd h hl
      | cons => rfl
    rw [hne]
    simp only [Bool.false_eq_true, if_false]
    refine findLeftLoop_eq (A ++ R) (iv.s - 1) A.length hl (by simp) ?_ _ 0 _ rfl (by omega)
      (Nat.le_refl _) (by simp) (Or.inl rfl)
    intro i hi
    constructor
    · intro h
      by_contra hcon
      have hge : A.length ≤ i := by omega
      rw [List.getElem_append_right hge] at h
      have := hR _ (List.getElem_mem (l := R) (n := i - A.length) (by simp at hi; omega))
      omega
    · intro h
      rw [List.getElem_append_left h]
      exact hA _ (List.getElem_mem h)

theorem findRight_append (P C : ISet) (iv : Iv)
    (hP : ∀ a ∈ P, a.s ≤ iv.e + 1) (hC : ∀ c ∈ C, c.s > iv.e + 1) :
    findRight (P ++ C) iv = if C = [] then -1 else (P.length : Int) := by
  unfold findRight
  by_cases hl : P ++ C = []
  · have hA0 : P = [] := by simp_all
    subst hA0
    simp at hl; subst hl; simp
  · have hne : (P ++ C).isEmpty = false := by
      cases h : (P ++ C) with
      | nil => exact absurd h hl
      | cons => rfl
    rw [hne]
    simp only [Bool.false_eq_true, if_false]
    rw [findRightLoop_eq (P ++ C) (iv.e + 1) P.length hl (by simp) ?_ _ 0 _ rfl (by omega)
      (Nat.le_refl _) (by omega) (Or.inl rfl) (by simp)]
    · by_cases hC0 : C = []
      · simp [hC0]
      · have : 0 < C.length := List.length_pos_iff.mpr hC0
        have h1 : ¬ P.length = (P ++ C).length := by simp; exact hC0
        rw [if_neg h1, if_neg hC0]
    · intro i hi
      constructor
      · intro h
        by_contra hcon
        have hlt : i < P.length := by omega
        rw [List.getElem_append_left hlt] at h
        have := hP _ (List.getElem_mem hlt)
        omega
      · intro h
        rw [List.getElem_append_right h]
        exact hC _ (List.getElem_mem _)

/-- What `add_interval` computes on a split list whose middle part is empty. -/
theorem addInterval_split_nil (A C : ISet) (iv : Iv)  (hiv : iv.s ≤ iv.e)
    (hA : ∀ a ∈ A, a.e < iv.s - 1) (hAne : ∀ a ∈ A, a.s ≤ a.e)
    (hC : ∀ c ∈ C, c.s > iv.e + 1) (hCne : ∀ a ∈ C, a.s ≤ a.e) :
    addInterval (A ++ C) iv = A ++ (iv :: C) := by
  have hL : findLeft (A ++ C) iv = (A.length : Int) - 1 :=
    findLeft_append A C iv hA (fun b hb => by have := hC b hb; have := hCne b hb; omega)
  have hRt := findRight_append A C iv (fun a ha => by
    have := hA a ha; have := hAne a ha; omega) hC
  unfold addInterval
  by_cases hE : (A ++ C).isEmpty = true
  · have : A = [] ∧ C = [] := by simpa using hE
    simp [this.1, this.2]
  · simp only [hE, if_false, hL, hRt, Bool.false_eq_true]
    by_cases hC0 : C = []
    · subst hC0
      have hA0 : 0 < A.length := by
        apply List.length_pos_iff.mpr; rintro rfl; simp at hE
      simp only [if_true, List.append_nil]
      have h1 : ¬ ((A.length : Int) - 1 ≥ 0 ∧ (-1 : Int) ≥ 0 ∧ (-1 : Int) - ((A.length : Int) - 1) = 1) := by
        omega
      have h2 : ¬ ((A.length : Int) - 1 = -1 ∧ (-1 : Int) = 0) := by omega
      rw [if_neg h1, if_neg h2]
      simp
    · simp only [hC0, if_false]
      by_cases hA0 : A = []
      · subst hA0; simp
      · have hA1 : 0 < A.length := List.length_pos_iff.mpr hA0
        have h1 : ((A.length : Int) - 1 ≥ 0 ∧ ((A.length : Int)) ≥ 0 ∧
            ((A.length : Int)) - ((A.length : Int) - 1) = 1) := by omega
        rw [if_pos h1]
        have : ((A.length : Int) - 1 + 1).toNat = A.length := by omega
        rw [this]
        simp

theorem overlaps_or_touches {b iv : Iv} (hb : b.s ≤ b.e) (hiv : iv.s ≤ iv.e)
    (h : b.e ≥ iv.s - 1 ∧ b.s ≤ iv.e + 1) : (b.overlaps iv || b.touches iv) = true := by
  unfold Iv.overlaps Iv.touches
  simp only [Bool.or_eq_true, Bool.and_eq_true, decide_eq_true_eq]
  by_cases h1 : iv.e ≥ b.s
  · by_cases h2 : iv.s ≤ b.e
    · exact Or.inl ⟨h1, h2⟩
    · right
      have : ¬ b.s > iv.e := by omega
      rw [if_neg this, if_pos (by omega)]
      simp; omega
  · right
    rw [if_pos (by omega)]
    simp; omega

/-- What `add_interval` computes on a split list whose middle part is not empty. -/
theorem addInterval_split_mid (A B C : ISet) (iv : Iv) (hiv : iv.s ≤ iv.e) (hB0 : B ≠ [])
    (hA : ∀ a ∈ A, a.e < iv.s - 1) (hAne : ∀ a ∈ A, a.s ≤ a.e)
    (hB : ∀ b ∈ B, b.e ≥ iv.s - 1 ∧ b.s ≤ iv.e + 1) (hBne : ∀ a ∈ B, a.s ≤ a.e)
    (hC : ∀ c ∈ C, c.s > iv.e + 1) (hCne : ∀ a ∈ C, a.s ≤ a.e) :
    addInterval (A ++ (B ++ C)) iv =
      A ++ (⟨min iv.s (B.head hB0).s, max iv.e (B.getLast hB0).e⟩ :: C) := by
  have hBl : 0 < B.length := List.length_pos_iff.mpr hB0
  have hL : findLeft (A ++ (B ++ C)) iv = (A.length : Int) - 1 :=
    findLeft_append A (B ++ C) iv hA (fun b hb => by
      rcases List.mem_append.1 hb with h | h
      · exact (hB b h).1
      · have := hC b h; have := hCne b h; omega)
  have hRt := findRight_append (A ++ B) C iv (fun a ha => by
    rcases List.mem_append.1 ha with h | h
    · have := hA a h; have := hAne a h; omega
    · exact (hB a h).2) hC
  rw [List.append_assoc] at hRt
  unfold addInterval
  have hE : (A ++ (B ++ C)).isEmpty = false := by
    cases A with
    | nil => cases B with
      | nil => exact absurd rfl hB0
      | cons => rfl
    | cons => rfl
  simp only [hE, Bool.false_eq_true, if_false, hL, hRt]
  have hlen : (A ++ (B ++ C)).length = A.length + (B.length + C.length) := by simp
  -- the three early returns do not apply
  have h1 : ¬ ((A.length : Int) - 1 ≥ 0 ∧ (if C = [] then (-1:Int) else ((A ++ B).length : Int)) ≥ 0 ∧
      (if C = [] then (-1:Int) else ((A ++ B).length : Int)) - ((A.length : Int) - 1) = 1) := by
    by_cases hC0 : C = []
    · simp [hC0]
    · simp only [hC0, if_false, List.length_append]; omega
  have h2 : ¬ ((A.length : Int) - 1 = -1 ∧ (if C = [] then (-1:Int) else ((A ++ B).length : Int)) = 0) := by
    by_cases hC0 : C = []
    · simp [hC0]
    · simp only [hC0, if_false, List.length_append]; omega
  have h3 : ¬ ((if C = [] then (-1:Int) else ((A ++ B).length : Int)) = -1 ∧
      (A.length : Int) - 1 = ((A ++ (B ++ C)).length : Int) - 1) := by
    rw [hlen]
    by_cases hC0 : C = []
    · simp only [hC0, if_true, List.length_nil]; omega
    · simp only [hC0, if_false, List.length_append]; omega
  rw [if_neg h1, if_neg h2, if_neg h3]
  have hl' : ((A.length : Int) - 1 + 1).toNat = A.length := by omega
  have hr' : (if (if C = [] then (-1:Int) else ((A ++ B).length : Int)) ≥ 0 then
      (if C = [] then (-1:Int) else ((A ++ B).length : Int)) - 1
      else ((A ++ (B ++ C)).length : Int) - 1).toNat = A.length + B.length - 1 := by
    by_cases hC0 : C = []
    · subst hC0; simp; omega
    · simp only [hC0, if_false, List.length_append]
      have : ((A.length + B.length : Nat) : Int) ≥ 0 := by omega
      rw [if_pos this]; omega
  rw [hl', hr']
  have hi1 : A.length < (A ++ (B ++ C)).length := by rw [hlen]; omega
  have hi2 : A.length + B.length - 1 < (A ++ (B ++ C)).length := by rw [hlen]; omega
  have e1 : (A ++ (B ++ C))[A.length]! = B.head hB0 := by
    rw [getElem!_eq hi1, List.getElem_append_right (Nat.le_refl _)]
    rw [List.getElem_append_left (by omega)]
    simp [List.head_eq_getElem]
  have e2 : (A ++ (B ++ C))[A.length + B.length - 1]! = B.getLast hB0 := by
    rw [getElem!_eq hi2, List.getElem_append_right (by omega)]
    rw [List.getElem_append_left (by omega)]
    rw [List.getLast_eq_getElem]
    congr 1; omega
  rw [e1, e2]
  rw [overlaps_or_touches (hBne _ (List.head_mem hB0)) hiv (hB _ (List.head_mem hB0)),
    overlaps_or_touches (hBne _ (List.getLast_mem hB0)) hiv (hB _ (List.getLast_mem hB0))]
  simp only [if_true]
  have hd : A.length + B.length - 1 + 1 = A.length + B.length := by omega
  rw [hd]
  have t1 : (A ++ (B ++ C)).take A.length = A := by simp
  have t2 : (A ++ (B ++ C)).drop (A.length + B.length) = C := by
    rw [← List.append_assoc, ← List.length_append]; simp
  rw [t1, t2]; simp

theorem pairwise_head_le {B : ISet} (hB0 : B ≠ []) (hc : Canonical B) :
    ∀ b ∈ B, (B.head hB0).s ≤ b.s := by
  cases B with
  | nil => exact absurd rfl hB0
  | cons x xs =>
    intro b hb
    rcases List.mem_cons.1 hb with rfl | hb
    · simp
    · have := (canonical_cons.1 hc).2.2 b hb
      have := (canonical_cons.1 hc).1
      simp; omega

theorem pairwise_le_last {B : ISet} (hB0 : B ≠ []) (hc : Canonical B) :
    ∀ b ∈ B, b.e ≤ (B.getLast hB0).e := by
  induction B with
  | nil => exact absurd rfl hB0
  | cons x xs ih =>
    intro b hb
    by_cases hx : xs = []
    · subst hx; simp at hb; subst hb; simp
    · have hlast : (x :: xs).getLast hB0 = xs.getLast hx := List.getLast_cons hx
      rw [hlast]
      rcases List.mem_cons.1 hb with rfl | hb
      · have h1 := (canonical_cons.1 hc).2.2 _ (List.getLast_mem hx)
        have h2 := (canonical_cons.1 hc).2.1.1 _ (List.getLast_mem hx)
        omega
      · exact ih hx (canonical_cons.1 hc).2.1 b hb

theorem addInterval_spec (l : ISet) (iv : Iv) (hc : Canonical l) (hiv : iv.s ≤ iv.e) :
    Canonical (addInterval l iv) ∧ ∀ x, Mem x (addInterval l iv) ↔ Mem x l ∨ iv.Mem x := by
  obtain ⟨A, B, C, rfl, hA, hB, hC⟩ := canonical_split l iv hc hiv
  obtain ⟨hcA, hcBC, hAB⟩ := canonical_append.1 hc
  obtain ⟨hcB, hcC, hBC⟩ := canonical_append.1 hcBC
  by_cases hB0 : B = []
  · subst hB0
    rw [List.nil_append] at *
    rw [addInterval_split_nil A C iv hiv hA hcA.1 hC hcC.1]
    refine ⟨canonical_append.2 ⟨hcA, canonical_cons.2 ⟨hiv, hcC, fun c h => by have := hC c h; omega⟩, ?_⟩, ?_⟩
    · intro a ha b hb
      rcases List.mem_cons.1 hb with rfl | hb
      · have := hA a ha; omega
      · exact hAB a ha b hb
    · intro x
      rw [mem_append, mem_cons, mem_append]
      tauto
  · rw [addInterval_split_mid A B C iv hiv hB0 hA hcA.1 hB hcB.1 hC hcC.1]
    have hh := hB _ (List.head_mem hB0)
    have hg := hB _ (List.getLast_mem hB0)
    have hhn := hcB.1 _ (List.head_mem hB0)
    have hgn := hcB.1 _ (List.getLast_mem hB0)
    have hle := pairwise_head_le hB0 hcB
    have hla := pairwise_le_last hB0 hcB
    refine ⟨canonical_append.2 ⟨hcA, canonical_cons.2 ⟨?_, hcC, ?_⟩, ?_⟩, ?_⟩
    · simp only; omega
    · intro c h
      have h1 := hC c h
      have h2 := hBC _ (List.getLast_mem hB0) c h
      simp only; omega
    · intro a ha b hb
      rcases List.mem_cons.1 hb with rfl | hb
      · have h1 := hA a ha
        have h2 := hAB a ha _ (List.mem_append_left _ (List.head_mem hB0))
        simp only; omega
      · exact hAB a ha b (List.mem_append_right _ hb)
    · intro x
      rw [mem_append, mem_cons, mem_append, mem_append]
      have key : (Iv.Mem x ⟨min iv.s (B.head hB0).s, max iv.e (B.getLast hB0).e⟩) ↔ (Mem x B ∨ iv.Mem x) := by
        constructor
        · rintro ⟨h1, h2⟩
          simp only at h1 h2
          by_cases c1 : x < iv.s
          · left; exact ⟨_, List.head_mem hB0, by omega, by omega⟩
          · by_cases c2 : iv.e < x
            · left; exact ⟨_, List.getLast_mem hB0, by omega, by omega⟩
            · right; exact ⟨by omega, by omega⟩
        · rintro (⟨b, hb, h1, h2⟩ | ⟨h1, h2⟩)
          · have := hle b hb; have := hla b hb
            exact ⟨by simp only; omega, by simp only; omega⟩
          · exact ⟨by simp only; omega, by simp only; omega⟩
      rw [key]; tauto

theorem union_spec (l m : ISet) (hl : Canonical l) (hm : ∀ a ∈ m, a.s ≤ a.e) :
    Canonical (union l m) ∧ ∀ x, Mem x (union l m) ↔ Mem x l ∨ Mem x m := by
  unfold union
  induction m generalizing l with
  | nil => simp [hl, Mem]
  | cons a m ih =>
    have h1 := addInterval_spec l a hl (hm a (by simp))
    have h2 := ih (addInterval l a) h1.1 (fun b hb => hm b (by simp [hb]))
    refine ⟨h2.1, fun x => ?_⟩
    rw [List.foldl_cons, h2.2 x, h1.2 x, mem_cons]
    tauto

theorem ivSub_spec (a h : Iv) (ha : a.s ≤ a.e) (hh : h.s ≤ h.e) :
    Canonical (a.sub h) ∧ (∀ x, Mem x (a.sub h) ↔ a.Mem x ∧ ¬ h.Mem x) ∧
      ∀ b ∈ a.sub h, a.s ≤ b.s ∧ b.e ≤ a.e := by
  unfold Iv.sub Iv.overlaps Iv.isSubset
  by_cases c1 : h.e ≥ a.s
  · by_cases c2 : h.s ≤ a.e
    · by_cases c3 : h.s ≤ a.s ∧ h.e ≥ a.e
      · simp only [c1, c2, c3.1, c3.2, decide_true, Bool.and_self, Bool.not_true, Bool.false_eq_true, if_false, if_true]
        refine ⟨canonical_nil, fun x => ?_, by simp⟩
        simp only [not_mem_nil, false_iff, Iv.Mem]; omega
      · have c3' : (decide (h.s ≤ a.s) && decide (h.e ≥ a.e)) = false := by
          rw [Bool.eq_false_iff]; simpa using c3
        simp only [c1, c2, c3', decide_true, Bool.and_self, Bool.not_true, Bool.false_eq_true, if_false]
        by_cases c4 : a.s < h.s ∧ a.e > h.e
        · rw [if_pos c4]
          refine ⟨?_, fun x => ?_, ?_⟩
          · simp [Canonical]; omega
          · rw [mem_cons, mem_singleton]; simp only [Iv.Mem]; omega
          · intro b hb; simp at hb; rcases hb with rfl | rfl <;> simp only <;> omega
        · rw [if_neg c4]
          by_cases c5 : a.s < h.s
          · rw [if_pos c5]
            refine ⟨?_, fun x => ?_, ?_⟩
            · simp [Canonical]; omega
            · rw [mem_singleton]; simp only [Iv.Mem]; omega
            · intro b hb; simp at hb; subst hb; simp only; omega
          · rw [if_neg c5]
            refine ⟨?_, fun x => ?_, ?_⟩
            · simp [Canonical]; omega
            · rw [mem_singleton]; simp only [Iv.Mem]; omega
            · intro b hb; simp at hb; subst hb; simp only; omega
    · simp only [c1, c2, decide_true, decide_false, Bool.and_false, Bool.not_false, if_true]
      refine ⟨canonical_singleton.2 ha, fun x => ?_, by simp⟩
      rw [mem_singleton]; simp only [Iv.Mem]; omega
  · simp only [c1, decide_false, Bool.false_and, Bool.not_false, if_true]
    refine ⟨canonical_singleton.2 ha, fun x => ?_, by simp⟩
    rw [mem_singleton]; simp only [Iv.Mem]; omega

theorem mem_flatMap {x : Int} {l : ISet} {f : Iv → ISet} :
    Mem x (l.flatMap f) ↔ ∃ a ∈ l, Mem x (f a) := by
  simp only [Mem, List.mem_flatMap]
  constructor
  · rintro ⟨b, ⟨a, ha, hb⟩, hx⟩; exact ⟨a, ha, b, hb, hx⟩
  · rintro ⟨a, ha, b, hb, hx⟩; exact ⟨b, ⟨a, ha, hb⟩, hx⟩

theorem canonical_flatMap (l : ISet) (f : Iv → ISet) (hl : Canonical l)
    (hf : ∀ a ∈ l, Canonical (f a) ∧ ∀ b ∈ f a, a.s ≤ b.s ∧ b.e ≤ a.e) :
    Canonical (l.flatMap f) := by
  induction l with
  | nil => exact canonical_nil
  | cons a l ih =>
    rw [List.flatMap_cons, canonical_append]
    have hc := canonical_cons.1 hl
    refine ⟨(hf a (by simp)).1, ih hc.2.1 (fun b hb => hf b (by simp [hb])), ?_⟩
    intro x hx y hy
    obtain ⟨b, hb, hy⟩ := List.mem_flatMap.1 hy
    have h1 := (hf a (by simp)).2 x hx
    have h2 := (hf b (by simp [hb])).2 y hy
    have := hc.2.2 b hb
    omega

theorem addHole_spec (l : ISet) (h : Iv) (hl : Canonical l) (hh : h.s ≤ h.e) :
    Canonical (addHole l h) ∧ ∀ x, Mem x (addHole l h) ↔ Mem x l ∧ ¬ h.Mem x := by
  refine ⟨canonical_flatMap l _ hl fun a ha => ?_, fun x => ?_⟩
  · have := ivSub_spec a h (hl.1 a ha) hh
    exact ⟨this.1, this.2.2⟩
  · unfold addHole
    rw [mem_flatMap]
    constructor
    · rintro ⟨a, ha, hx⟩
      have := ((ivSub_spec a h (hl.1 a ha) hh).2.1 x).1 hx
      exact ⟨⟨a, ha, this.1⟩, this.2⟩
    · rintro ⟨⟨a, ha, hx⟩, hn⟩
      exact ⟨a, ha, ((ivSub_spec a h (hl.1 a ha) hh).2.1 x).2 ⟨hx, hn⟩⟩

theorem diff_spec (l m : ISet) (hl : Canonical l) (hm : ∀ a ∈ m, a.s ≤ a.e) :
    Canonical (diff l m) ∧ ∀ x, Mem x (diff l m) ↔ Mem x l ∧ ¬ Mem x m := by
  unfold diff
  induction m generalizing l with
  | nil => simp [hl, Mem]
  | cons a m ih =>
    have h1 := addHole_spec l a hl (hm a (by simp))
    have h2 := ih (addHole l a) h1.1 (fun b hb => hm b (by simp [hb]))
    refine ⟨h2.1, fun x => ?_⟩
    rw [List.foldl_cons, h2.2 x, h1.2 x, mem_cons]
    tauto

theorem ivAnd_spec (a b : Iv) : Canonical (a.and b) ∧ (∀ x, Mem x (a.and b) ↔ a.Mem x ∧ b.Mem x) ∧
    (∀ c ∈ a.and b, (a.s ≤ c.s ∧ c.e ≤ a.e) ∧ (b.s ≤ c.s ∧ c.e ≤ b.e)) := by
  unfold Iv.and
  by_cases c : min a.e b.e < max a.s b.s
  · rw [if_pos c]
    refine ⟨canonical_nil, fun x => ?_, by simp⟩
    simp only [not_mem_nil, false_iff, Iv.Mem]; omega
  · rw [if_neg c]
    refine ⟨canonical_singleton.2 (by simp only; omega), fun x => ?_, ?_⟩
    · rw [mem_singleton]; simp only [Iv.Mem]; omega
    · intro d hd; simp at hd; subst hd; simp only; omega

theorem inter_spec (l m : ISet) (hl : Canonical l) (hm : Canonical m) :
    Canonical (inter l m) ∧ ∀ x, Mem x (inter l m) ↔ Mem x l ∧ Mem x m := by
  unfold inter
  refine ⟨canonical_flatMap l _ hl fun a ha => ⟨?_, ?_⟩, fun x => ?_⟩
  · exact canonical_flatMap m _ hm fun b hb => ⟨(ivAnd_spec a b).1, fun c hc => ((ivAnd_spec a b).2.2 c hc).2⟩
  · intro c hc
    obtain ⟨b, hb, hc⟩ := List.mem_flatMap.1 hc
    exact ((ivAnd_spec a b).2.2 c hc).1
  · rw [mem_flatMap]
    constructor
    · rintro ⟨a, ha, hx⟩
      obtain ⟨b, hb, hx⟩ := mem_flatMap.1 hx
      have := ((ivAnd_spec a b).2.1 x).1 hx
      exact ⟨⟨a, ha, this.1⟩, ⟨b, hb, this.2⟩⟩
    · rintro ⟨⟨a, ha, h1⟩, ⟨b, hb, h2⟩⟩
      exact ⟨a, ha, mem_flatMap.2 ⟨b, hb, ((ivAnd_spec a b).2.1 x).2 ⟨h1, h2⟩⟩⟩

theorem ivOverlaps_iff (a b : Iv) (ha : a.s ≤ a.e) (hb : b.s ≤ b.e) :
    a.overlaps b = true ↔ ∃ x, a.Mem x ∧ b.Mem x := by
  unfold Iv.overlaps
  simp only [Bool.and_eq_true, decide_eq_true_eq]
  constructor
  · rintro ⟨h1, h2⟩
    exact ⟨max a.s b.s, ⟨by omega, by omega⟩, ⟨by omega, by omega⟩⟩
  · rintro ⟨x, ⟨h1, h2⟩, ⟨h3, h4⟩⟩; omega

theorem overlaps_spec (l m : ISet) (hl : Canonical l) (hm : Canonical m) :
    overlaps l m = true ↔ ∃ x, Mem x l ∧ Mem x m := by
  unfold overlaps
  simp only [List.any_eq_true]
  constructor
  · rintro ⟨a, ha, b, hb, h⟩
    obtain ⟨x, h1, h2⟩ := (ivOverlaps_iff a b (hl.1 a ha) (hm.1 b hb)).1 h
    exact ⟨x, ⟨a, ha, h1⟩, ⟨b, hb, h2⟩⟩
  · rintro ⟨x, ⟨a, ha, h1⟩, ⟨b, hb, h2⟩⟩
    exact ⟨a, ha, b, hb, (ivOverlaps_iff a b (hl.1 a ha) (hm.1 b hb)).2 ⟨x, h1, h2⟩⟩

theorem truthy_spec (l : ISet) (hl : Canonical l) : truthy l = true ↔ ∃ x, Mem x l := by
  cases l with
  | nil => simp [truthy, Mem]
  | cons a l =>
    simp only [truthy, List.isEmpty_cons, Bool.not_false, true_iff]
    exact ⟨a.s, a, by simp, Int.le_refl _, hl.1 a (by simp)⟩

/-- One step of `contained_in`'s loop. -/
theorem contained_step (m : ISet) (a : Iv) (hm : Canonical m) (ha : a.s ≤ a.e) :
    (if findLeft m a = (m.length : Int) - 1 then false
      else a.isSubset (m[(findLeft m a + 1).toNat]!)) = true ↔ ∀ x, a.Mem x → Mem x m := by
  obtain ⟨A, R, h1, h2, h3⟩ := exists_split (fun b => decide (b.e < a.s - 1)) m (by
    refine List.Pairwise.imp_of_mem ?_ hm.2
    intro c d hc hd hab hpb
    simp only [decide_eq_true_eq] at *
    have := hm.1 d hd
    omega)
  subst h1
  have hA : ∀ b ∈ A, b.e < a.s - 1 := fun b hb => by simpa using h2 b hb
  have hR : ∀ b ∈ R, b.e ≥ a.s - 1 := fun b hb => by
    have := h3 b hb; simp at this; omega
  rw [findLeft_append A R a hA hR]
  obtain ⟨hcA, hcR, hAR⟩ := canonical_append.1 hm
  cases R with
  | nil =>
    simp only [List.append_nil, if_true, Bool.false_eq_true, false_iff]
    intro h
    obtain ⟨b, hb, h1, h2⟩ := h a.s ⟨Int.le_refl _, ha⟩
    have := hA b hb; omega
  | cons r R =>
    have hne : ¬ ((A.length : Int) - 1 = ((A ++ r :: R).length : Int) - 1) := by simp; omega
    rw [if_neg hne]
    have : ((A.length : Int) - 1 + 1).toNat = A.length := by omega
    rw [this, getElem!_eq (by simp), List.getElem_append_right (Nat.le_refl _)]
    simp only [Nat.sub_self, List.getElem_cons_zero]
    unfold Iv.isSubset
    simp only [Bool.and_eq_true, decide_eq_true_eq]
    have hcr := canonical_cons.1 hcR
    constructor
    · rintro ⟨h1, h2⟩ x ⟨h3, h4⟩
      exact ⟨r, by simp, by omega, by omega⟩
    · intro h
      -- the start of a must be in r
      have hs : r.Mem a.s := by
        obtain ⟨b, hb, h1, h2⟩ := h a.s ⟨Int.le_refl _, ha⟩
        rcases List.mem_append.1 hb with hb | hb
        · have := hA b hb; omega
        · rcases List.mem_cons.1 hb with rfl | hb
          · exact ⟨h1, h2⟩
          · have h5 := hcr.2.2 b hb
            have := hR r (by simp)
            omega
      refine ⟨hs.1, ?_⟩
      by_contra hcon
      -- r.e + 1 is in a, so in m
      obtain ⟨b, hb, h1, h2⟩ := h (r.e + 1) ⟨by have := hs.2; omega, by omega⟩
      rcases List.mem_append.1 hb with hb | hb
      · have := hA b hb; have := hs.2; omega
      · rcases List.mem_cons.1 hb with rfl | hb
        · omega
        · have h5 := hcr.2.2 b hb
          omega

theorem containedLoop_spec (l m : ISet) (hl : ∀ a ∈ l, a.s ≤ a.e) (hm : Canonical m) :
    containedLoop m l = true ↔ ∀ x, Mem x l → Mem x m := by
  induction l with
  | nil => simp [containedLoop, Mem]
  | cons a l ih =>
    have hstep := contained_step m a hm (hl a (by simp))
    have ih' := ih (fun b hb => hl b (by simp [hb]))
    unfold containedLoop
    simp only
    have hall : (∀ x, Mem x (a :: l) → Mem x m) ↔
        (∀ x, a.Mem x → Mem x m) ∧ (∀ x, Mem x l → Mem x m) := by
      constructor
      · intro h
        exact ⟨fun x hx => h x (mem_cons.2 (Or.inl hx)), fun x hx => h x (mem_cons.2 (Or.inr hx))⟩
      · rintro ⟨h1, h2⟩ x hx
        rcases mem_cons.1 hx with h | h
        · exact h1 x h
        · exact h2 x h
    rw [hall, ← hstep, ← ih']
    by_cases c1 : findLeft m a = (m.length : Int) - 1
    · simp [c1]
    · by_cases c2 : a.isSubset (m[(findLeft m a + 1).toNat]!) = true
      · simp [c1, c2]
      · simp [c1, c2]

theorem containedIn_spec (l m : ISet) (hl : Canonical l) (hm : Canonical m) :
    containedIn l m = true ↔ ∀ x, Mem x l → Mem x m := by
  unfold containedIn
  by_cases c : l.length = 1 ∧ m.length = 1
  · rw [if_pos c]
    match l, m, c with
    | [a], [b], _ =>
      have ha := hl.1 a (by simp)
      simp only [List.getElem!_cons_zero, Iv.isSubset, Bool.and_eq_true, decide_eq_true_eq, mem_singleton, Iv.Mem]
      constructor
      · rintro ⟨h1, h2⟩ x ⟨h3, h4⟩; omega
      · intro h
        have h1 := h a.s ⟨Int.le_refl _, ha⟩
        have h2 := h a.e ⟨ha, Int.le_refl _⟩
        exact ⟨h1.1, h2.2⟩
  · rw [if_neg c]; exact containedLoop_spec l m hl.1 hm

theorem single_eq (s e : Int) : single s e = [⟨s, e⟩] := by simp [single, addInterval]

theorem contains_spec (l : ISet) (x : Int) (hl : Canonical l) : contains l x = true ↔ Mem x l := by
  unfold contains
  rw [single_eq, containedIn_spec _ _ (canonical_singleton.2 (Int.le_refl _)) hl]
  constructor
  · intro h; exact h x (mem_singleton.2 ⟨Int.le_refl _, Int.le_refl _⟩)
  · intro h y hy
    have := mem_singleton.1 hy
    simp only [Iv.Mem] at this
    have : y = x := by omega
    rw [this]; exact h

theorem canonical_ext (l m : ISet) (hl : Canonical l) (hm : Canonical m)
    (h : ∀ x, Mem x l ↔ Mem x m) : l = m := by
  induction l generalizing m with
  | nil =>
    cases m with
    | nil => rfl
    | cons b m =>
      exact absurd ((h b.s).2 ⟨b, by simp, Int.le_refl _, hm.1 b (by simp)⟩) not_mem_nil
  | cons a l ih =>
    cases m with
    | nil => exact absurd ((h a.s).1 ⟨a, by simp, Int.le_refl _, hl.1 a (by simp)⟩) not_mem_nil
    | cons b m =>
      have ha := canonical_cons.1 hl
      have hb := canonical_cons.1 hm
      have low_a : ∀ x, Mem x (a :: l) → a.s ≤ x := by
        intro x hx
        rcases mem_cons.1 hx with h | ⟨c, hc, h1, h2⟩
        · exact h.1
        · have := ha.2.2 c hc; omega
      have low_b : ∀ x, Mem x (b :: m) → b.s ≤ x := by
        intro x hx
        rcases mem_cons.1 hx with h | ⟨c, hc, h1, h2⟩
        · exact h.1
        · have := hb.2.2 c hc; omega
      have hs : a.s = b.s := by
        have h1 := low_b a.s ((h a.s).1 ⟨a, by simp, Int.le_refl _, ha.1⟩)
        have h2 := low_a b.s ((h b.s).2 ⟨b, by simp, Int.le_refl _, hb.1⟩)
        omega
      have gap_a : ¬ Mem (a.e + 1) (a :: l) := by
        intro hx
        rcases mem_cons.1 hx with h | ⟨c, hc, h1, h2⟩
        · have := h.2; omega
        · have := ha.2.2 c hc; omega
      have gap_b : ¬ Mem (b.e + 1) (b :: m) := by
        intro hx
        rcases mem_cons.1 hx with h | ⟨c, hc, h1, h2⟩
        · have := h.2; omega
        · have := hb.2.2 c hc; omega
      have he : a.e = b.e := by
        rcases Int.lt_trichotomy a.e b.e with hlt | heq | hgt
        · exact absurd ((h (a.e+1)).2 ⟨b, by simp, by have := ha.1; omega, by omega⟩) gap_a
        · exact heq
        · exact absurd ((h (b.e+1)).1 ⟨a, by simp, by have := hb.1; omega, by omega⟩) gap_b
      have hab : a = b := by cases a; cases b; simp_all
      subst hab
      congr 1
      apply ih m ha.2.1 hb.2.1
      intro x
      have hx := h x
      rw [mem_cons, mem_cons] at hx
      constructor
      · intro hxl
        rcases hx.1 (Or.inr hxl) with h1 | h1
        · obtain ⟨c, hc, h3, h4⟩ := hxl
          have := ha.2.2 c hc; have := h1.2; omega
        · exact h1
      · intro hxl
        rcases hx.2 (Or.inr hxl) with h1 | h1
        · obtain ⟨c, hc, h3, h4⟩ := hxl
          have := hb.2.2 c hc; have := h1.2; omega
        · exact h1

end ISet
end Verif
