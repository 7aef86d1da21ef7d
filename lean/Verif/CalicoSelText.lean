import Verif.CalicoSelProofs
/-!
The texts of the grammar under splitting and stripping, and the occurrences of `global()` in them.
-/
namespace Verif
namespace CalicoParser
open Container

section
variable {K : CharCls}

theorem blank_bal (hK : K.Ok) {w : List Char} (hw : Blank K w) : Bal w :=
  bal_none (fun _ ha => ⟨fun e => hw.notMem hK (o := '(') (by simp) (e ▸ ha), fun e => hw.notMem hK (o := ')') (by simp) (e ▸ ha)⟩)

theorem getLast?_append_ne {a b : List Char} (hb : b ≠ []) : (a ++ b).getLast? = b.getLast? := by
  rw [List.getLast?_append]
  cases h : b.getLast? with
  | none => exact absurd (List.getLast?_eq_none_iff.1 h) hb
  | some x => rfl

theorem head?_append_ne {a b : List Char} (ha : a ≠ []) : (a ++ b).head? = a.head? := by
  cases a with
  | nil => exact absurd rfl ha
  | cons x t => rfl

/-- Two texts with an operator between them. -/
theorem Nice.op (hK : K.Ok) {s w1 w2 t : List Char} (hs : Nice K s) (h1 : Blank K w1) (h2 : Blank K w2) (ht : Nice K t)
    {o : Char} (ho : o = '&' ∨ o = '|') : Nice K (s ++ w1 ++ o :: o :: (w2 ++ t)) := by
  have hm : ∀ o ∈ ['&', '|'], o ∈ ['(', ')', '!', '&', '|', '=', '\'', '{', '}', ','] := by decide
  have pb : ∀ x ∈ ['&', '|'], paired x [o, o] := by
    intro x hx
    by_cases e : o = x
    · subst e; simp [paired]
    · exact paired_none (by simp; exact fun h => e h.symm)
  have pw : ∀ x ∈ ['&', '|'], ∀ w, Blank K w → paired x w := fun x hx w hw => paired_none (hw.notMem hK (hm x hx))
  have e : s ++ w1 ++ o :: o :: (w2 ++ t) = s ++ w1 ++ ([o, o] ++ (w2 ++ t)) := rfl
  refine ⟨by simp, fun a ha => ?_, fun a ha => ?_, ?_, ?_, ?_⟩
  · rw [List.append_assoc, head?_append_ne hs.ne] at ha
    exact hs.head a ha
  · rw [e, ← List.append_assoc, ← List.append_assoc, getLast?_append_ne ht.ne] at ha
    exact ht.last a ha
  · rw [e]
    refine (hs.bal.append (blank_bal hK h1)).append ((bal_none ?_).append ((blank_bal hK h2).append ht.bal))
    rcases ho with rfl | rfl <;> decide
  · rw [e]
    exact paired_append (paired_append hs.bars (pw _ (by simp) _ h1))
      (paired_append (pb _ (by simp)) (paired_append (pw _ (by simp) _ h2) ht.bars))
  · rw [e]
    exact paired_append (paired_append hs.amps (pw _ (by simp) _ h1))
      (paired_append (pb _ (by simp)) (paired_append (pw _ (by simp) _ h2) ht.amps))

theorem getLast?_blank {a w : List Char} {o : Char} (h1 : a.getLast? ≠ some o) (hw : o ∉ w) :
    (a ++ w).getLast? ≠ some o := by
  by_cases h : w = []
  · rw [h, List.append_nil]; exact h1
  · rw [getLast?_append_ne h]
    exact fun e => hw (List.mem_of_getLast? e)

theorem text_nice (hK : K.Ok) {lv : Lv} {e : Sel} {s : List Char} (h : Text K lv e s) :
    Nice K s ∧ (lv ≠ .or → NoTop '|' s) ∧ (lv = .un → NoTop '&' s) := by
  have hm : ∀ o ∈ ['&', '|', '!'], o ∈ ['(', ')', '!', '&', '|', '=', '\'', '{', '}', ','] := by decide
  induction h with
  | atom hc =>
    have hn := core_nice hK hc
    exact ⟨hn.nice, fun _ => noTop_none hn.noBar, fun _ => noTop_none hn.noAmp⟩
  | not hw ht ih =>
    rename_i w e s
    obtain ⟨hn, hb, ha⟩ := ih
    have e1 : '!' :: (w ++ s) = ['!'] ++ (w ++ s) := rfl
    have nt : ∀ o ∈ ['&', '|'], NoTop o s → NoTop o ('!' :: (w ++ s)) := by
      intro o ho hs
      have ho1 : o ∉ w := hw.notMem hK (hm o (by rcases List.mem_cons.1 ho with h | h <;> simp_all))
      have ho2 : o ≠ '!' := by rintro rfl; simp at ho
      rw [e1]
      refine (noTop_none (by simpa using ho2)).append (depth_none (by decide)) ((noTop_none ho1).append (blank_bal hK hw).1 hs ?_)
        (Or.inl (by simpa using ho2.symm))
      exact Or.inl (fun e => ho1 (List.mem_of_getLast? e))
    refine ⟨⟨by simp, fun a h => ?_, fun a h => ?_, ?_, ?_, ?_⟩, fun _ => nt _ (by simp) (hb (by simp)), fun _ => nt _ (by simp) (ha rfl)⟩
    · obtain rfl : '!' = a := by simpa using h
      exact (hK.punct _ (by simp)).2
    · rw [e1, ← List.append_assoc, getLast?_append_ne hn.ne] at h
      exact hn.last a h
    · rw [e1]; exact (bal_none (by decide)).append ((blank_bal hK hw).append hn.bal)
    · rw [e1]; exact paired_append (paired_none (by decide)) (paired_append (paired_none (hw.notMem hK (by simp))) hn.bars)
    · rw [e1]; exact paired_append (paired_none (by decide)) (paired_append (paired_none (hw.notMem hK (by simp))) hn.amps)
  | paren h1 h2 ht ih =>
    rename_i w1 e s w2
    have hn := ih.1
    have hbal : Bal (w1 ++ s ++ w2) := ((blank_bal hK h1).append hn.bal).append (blank_bal hK h2)
    refine ⟨⟨by simp, fun a h => ?_, fun a h => ?_, hbal.paren, ?_, ?_⟩, fun _ => hbal.paren |> fun _ => NoTop.paren hbal (by decide),
      fun _ => NoTop.paren hbal (by decide)⟩
    · obtain rfl : '(' = a := by simpa using h
      exact (hK.punct _ (by simp)).2
    · rw [getLast?_append_ne (by simp)] at h
      obtain rfl : ')' = a := by simpa using h
      exact ⟨(hK.punct _ (by simp)).2, by decide, by decide⟩
    · exact paired_append (paired_append (a := ['(']) (paired_none (by decide)) (paired_append (paired_append (paired_none (h1.notMem hK (by simp))) hn.bars)
        (paired_none (h2.notMem hK (by simp))))) (paired_none (by decide))
    · exact paired_append (paired_append (a := ['(']) (paired_none (by decide)) (paired_append (paired_append (paired_none (h1.notMem hK (by simp))) hn.amps)
        (paired_none (h2.notMem hK (by simp))))) (paired_none (by decide))
  | un ht ih => exact ⟨ih.1, fun _ => ih.2.1 (by simp), fun h => by cases h⟩
  | conj hs h1 h2 ht ih1 ih2 =>
    rename_i e f s w1 w2 t
    refine ⟨ih1.1.op hK h1 h2 ih2.1 (Or.inl rfl), fun _ => ?_, fun h => by cases h⟩
    have n1 : '|' ∉ w1 := h1.notMem hK (by simp)
    have n2 : '|' ∉ w2 := h2.notMem hK (by simp)
    have l1 : s.getLast? ≠ some '|' := fun h => (ih1.1.last _ h).2.2 rfl
    have a1 : NoTop '|' (s ++ w1) := (ih1.2.1 (by simp)).append ih1.1.bal.1 (noTop_none n1) (Or.inl l1)
    have a2 : NoTop '|' (w2 ++ t) := (noTop_none n2).append (blank_bal hK h2).1 (ih2.2.1 (by simp))
      (Or.inl (fun e => n2 (List.mem_of_getLast? e)))
    have a3 : NoTop '|' (['&', '&'] ++ (w2 ++ t)) := (noTop_none (by decide)).append (by decide) a2 (Or.inl (by decide))
    exact a1.append (ih1.1.bal.append (blank_bal hK h1)).1 a3 (Or.inr (by simp))
  | and ht ih => exact ⟨ih.1, fun h => absurd rfl h, fun h => by cases h⟩
  | disj hs h1 h2 ht ih1 ih2 => exact ⟨ih1.1.op hK h1 h2 ih2.1 (Or.inr rfl), fun h => absurd rfl h, fun h => by cases h⟩

/-! ### Brackets around the whole text -/

theorem paren_peelable {s : List Char} (hs : Bal s) : peelable ('(' :: s ++ [')']) = true := by
  unfold peelable
  have h1 : closes 0 (('(' :: s ++ [')']).dropLast) = false := by
    rw [List.dropLast_concat]
    cases h : closes 0 ('(' :: s) with
    | false => rfl
    | true =>
      obtain ⟨P, Q, e, hne, hd⟩ := (closes_iff _ _).1 h
      cases P with
      | nil => exact absurd rfl hne
      | cons a P =>
        obtain ⟨rfl, e'⟩ : '(' = a ∧ s = P ++ Q := by simpa using e
        rw [depth_cons, if_pos rfl] at hd
        have := hs.2 P Q e'; omega
  rw [h1]
  simp [List.getLast?_cons]

theorem op_not_peelable {s : List Char} (hs : Nice K s) (r : List Char) (hr : r ≠ []) : peelable (s ++ r) = false := by
  have h1 : closes 0 (s ++ r).dropLast = true := by
    rw [closes_iff]
    refine ⟨s, r.dropLast, ?_, hs.ne, by rw [hs.bal.1]; rfl⟩
    rw [List.dropLast_append_of_ne_nil hr]
  unfold peelable
  rw [h1]
  simp

/-- Brackets that can be removed belong together. -/
theorem peelable_text (hK : K.Ok) {e : Sel} {s : List Char} (h : Text K .or e s) (hp : peelable s = true) :
    ∃ w1 t w2, Blank K w1 ∧ Blank K w2 ∧ Text K .or e t ∧ s = '(' :: (w1 ++ t ++ w2) ++ [')'] := by
  cases h with
  | and h =>
    cases h with
    | un h =>
      cases h with
      | atom hc =>
        have h1 : s.head? = some '(' := by
          unfold peelable at hp
          simp only [Bool.and_eq_true, decide_eq_true_eq] at hp
          exact hp.1.1
        exact absurd rfl ((core_nice hK hc).head _ h1).1
      | not hw ht =>
        unfold peelable at hp
        simp at hp
      | paren h1 h2 ht => exact ⟨_, _, _, h1, h2, ht, rfl⟩
    | conj hs h1 h2 ht =>
      rw [List.append_assoc, op_not_peelable (text_nice hK hs).1 _ (by simp)] at hp
      cases hp
  | disj hs h1 h2 ht =>
    rw [List.append_assoc, op_not_peelable (text_nice hK hs).1 _ (by simp)] at hp
    cases hp

theorem strip_text (hK : K.Ok) {lv : Lv} {e : Sel} {s w1 w2 : List Char} (h : Text K lv e s) (h1 : Blank K w1) (h2 : Blank K w2) :
    strip K (w1 ++ s ++ w2) = s :=
  have hn := (text_nice hK h).1
  strip_blank h1 h2 hn.head (fun a ha => (hn.last a ha).1) hn.ne

theorem peel_text (hK : K.Ok) (n : Nat) {e : Sel} {s : List Char} (h : Text K .or e s) (hn : s.length ≤ n) :
    Text K .or e (peel K n s) ∧ (peel K n s).length ≤ s.length ∧ peelable (peel K n s) = false := by
  induction n generalizing s with
  | zero =>
    exact absurd (List.length_eq_zero_iff.1 (Nat.le_zero.1 hn)) (text_nice hK h).1.ne
  | succ n ih =>
    unfold peel
    cases hp : peelable s with
    | false => exact ⟨h, Nat.le_refl _, hp⟩
    | true =>
      obtain ⟨w1, t, w2, h1, h2, ht, rfl⟩ := peelable_text hK h hp
      rw [if_pos rfl]
      have e1 : ('(' :: (w1 ++ t ++ w2) ++ [')']).tail.dropLast = w1 ++ t ++ w2 := by
        show (w1 ++ t ++ w2 ++ [')']).dropLast = _
        rw [List.dropLast_concat]
      rw [e1, strip_text hK ht h1 h2]
      have hl : t.length + 2 ≤ ('(' :: (w1 ++ t ++ w2) ++ [')']).length := by
        simp only [List.length_append, List.length_cons, List.length_nil]; omega
      obtain ⟨g1, g2, g3⟩ := ih ht (by omega)
      exact ⟨g1, by omega, g3⟩

theorem stripSel_text (hK : K.Ok) {e : Sel} {s w1 w2 : List Char} (h : Text K .or e s) (h1 : Blank K w1) (h2 : Blank K w2) :
    ∃ t, stripSel K (w1 ++ s ++ w2) = some t ∧ Text K .or e t ∧ t.length ≤ (w1 ++ s ++ w2).length ∧ peelable t = false := by
  obtain ⟨g1, g2, g3⟩ := peel_text hK s.length h (Nat.le_refl _)
  refine ⟨peel K s.length s, ?_, g1, ?_, g3⟩
  · unfold stripSel
    rw [strip_text hK h h1 h2]
    dsimp only
    rw [if_pos ((even_iff _).2 (text_nice hK h).1.bal.1)]
  · simp only [List.length_append]; omega

/-! ### Splitting by operators -/

/-- The operands of a chain of `&&`. -/
inductive AndOf : Sel → List Sel → Prop
  | one {e} : AndOf e [e]
  | cons {e f l} : AndOf f l → AndOf (.and e f) (e :: l)

/-- The operands of a chain of `||`. -/
inductive OrOf : Sel → List Sel → Prop
  | one {e} : OrOf e [e]
  | cons {e f l} : OrOf f l → OrOf (.or e f) (e :: l)

/-- A part of a text, with the white space around it. -/
def Part (K : CharCls) (lv : Lv) (n : Nat) (x : Sel × List Char) : Prop :=
  x.2.length ≤ n ∧ ∃ w1 t w2, Blank K w1 ∧ Blank K w2 ∧ Text K lv x.1 t ∧ x.2 = w1 ++ t ++ w2

theorem part_split (hK : K.Ok) {lv : Lv} {e : Sel} {s w1 w2 : List Char} (h : Text K lv e s) (h1 : Blank K w1) (h2 : Blank K w2)
    {o : Char} (ho : o = '&' ∨ o = '|') (hn : NoTop o s) :
    paired o (w1 ++ s ++ w2) ∧ NoTop o (w1 ++ s ++ w2) ∧ depth (w1 ++ s ++ w2) = 0 := by
  have hN := (text_nice hK h).1
  have hm : o ∈ ['(', ')', '!', '&', '|', '=', '\'', '{', '}', ','] := by rcases ho with rfl | rfl <;> simp
  have n1 : o ∉ w1 := h1.notMem hK hm
  have n2 : o ∉ w2 := h2.notMem hK hm
  have hp : paired o s := by rcases ho with rfl | rfl; exacts [hN.amps, hN.bars]
  have hl : s.getLast? ≠ some o := fun h => by
    rcases ho with rfl | rfl
    · exact (hN.last _ h).2.1 rfl
    · exact (hN.last _ h).2.2 rfl
  have hb : Bal (w1 ++ s) := (blank_bal hK h1).append hN.bal
  refine ⟨paired_append (paired_append (paired_none n1) hp) (paired_none n2), ?_, (hb.append (blank_bal hK h2)).1⟩
  refine ((noTop_none n1).append (blank_bal hK h1).1 hn (Or.inl (fun e => n1 (List.mem_of_getLast? e)))).append hb.1 (noTop_none n2) ?_
  rw [getLast?_append_ne hN.ne]
  exact Or.inl hl

theorem split_and (hK : K.Ok) {e : Sel} {s : List Char} (h : Text K .and e s) {w1 w2 : List Char} (h1 : Blank K w1)
    (h2 : Blank K w2) : ∃ l : List (Sel × List Char), splitSel '&' (w1 ++ s ++ w2) = l.map (·.2) ∧ AndOf e (l.map (·.1)) ∧
      ∀ x ∈ l, Part K .un (w1 ++ s ++ w2).length x := by
  generalize hlv : Lv.and = lv at h
  induction h generalizing w1 with
  | @un e s h _ =>
    obtain ⟨g1, g2, g3⟩ := part_split hK h h1 h2 (Or.inl rfl) ((text_nice hK h).2.2 rfl)
    refine ⟨[(e, w1 ++ s ++ w2)], splitSel_one g1 g2 g3, .one, fun x hx => ?_⟩
    obtain rfl := List.mem_singleton.1 hx
    exact ⟨Nat.le_refl _, w1, s, w2, h1, h2, h, rfl⟩
  | @conj e f s u1 u2 t hs hw1 hw2 ht _ ih =>
    obtain ⟨l, i1, i2, i3⟩ := ih hw2 rfl
    obtain ⟨g1, g2, g3⟩ := part_split hK hs h1 hw1 (Or.inl rfl) ((text_nice hK hs).2.2 rfl)
    have e1 : w1 ++ (s ++ u1 ++ '&' :: '&' :: (u2 ++ t)) ++ w2 = (w1 ++ s ++ u1) ++ '&' :: '&' :: (u2 ++ t ++ w2) := by simp
    refine ⟨(e, w1 ++ s ++ u1) :: l, ?_, .cons i2, fun x hx => ?_⟩
    · rw [e1, splitSel_cons g1 g2 g3, i1]; rfl
    · rcases List.mem_cons.1 hx with rfl | hx
      · refine ⟨?_, w1, s, u1, h1, hw1, hs, rfl⟩
        rw [e1]; simp only [List.length_append, List.length_cons]; omega
      · obtain ⟨j1, j2⟩ := i3 x hx
        refine ⟨?_, j2⟩
        rw [e1]
        refine Nat.le_trans j1 ?_
        simp only [List.length_append, List.length_cons]; omega
  | atom _ => cases hlv
  | not _ _ _ => cases hlv
  | paren _ _ _ _ => cases hlv
  | and _ _ => cases hlv
  | disj _ _ _ _ _ _ => cases hlv

theorem split_or (hK : K.Ok) {e : Sel} {s : List Char} (h : Text K .or e s) {w1 w2 : List Char} (h1 : Blank K w1)
    (h2 : Blank K w2) : ∃ l : List (Sel × List Char), splitSel '|' (w1 ++ s ++ w2) = l.map (·.2) ∧ OrOf e (l.map (·.1)) ∧
      ∀ x ∈ l, Part K .and (w1 ++ s ++ w2).length x := by
  generalize hlv : Lv.or = lv at h
  induction h generalizing w1 with
  | @and e s h _ =>
    obtain ⟨g1, g2, g3⟩ := part_split hK h h1 h2 (Or.inr rfl) ((text_nice hK h).2.1 (by simp))
    refine ⟨[(e, w1 ++ s ++ w2)], splitSel_one g1 g2 g3, .one, fun x hx => ?_⟩
    obtain rfl := List.mem_singleton.1 hx
    exact ⟨Nat.le_refl _, w1, s, w2, h1, h2, h, rfl⟩
  | @disj e f s u1 u2 t hs hw1 hw2 ht _ ih =>
    obtain ⟨l, i1, i2, i3⟩ := ih hw2 rfl
    obtain ⟨g1, g2, g3⟩ := part_split hK hs h1 hw1 (Or.inr rfl) ((text_nice hK hs).2.1 (by simp))
    have e1 : w1 ++ (s ++ u1 ++ '|' :: '|' :: (u2 ++ t)) ++ w2 = (w1 ++ s ++ u1) ++ '|' :: '|' :: (u2 ++ t ++ w2) := by simp
    refine ⟨(e, w1 ++ s ++ u1) :: l, ?_, .cons i2, fun x hx => ?_⟩
    · rw [e1, splitSel_cons g1 g2 g3, i1]; rfl
    · rcases List.mem_cons.1 hx with rfl | hx
      · refine ⟨?_, w1, s, u1, h1, hw1, hs, rfl⟩
        rw [e1]; simp only [List.length_append, List.length_cons]; omega
      · obtain ⟨j1, j2⟩ := i3 x hx
        refine ⟨?_, j2⟩
        rw [e1]
        refine Nat.le_trans j1 ?_
        simp only [List.length_append, List.length_cons]; omega
  | atom _ => cases hlv
  | not _ _ _ => cases hlv
  | paren _ _ _ _ => cases hlv
  | un _ _ => cases hlv
  | conj _ _ _ _ _ _ => cases hlv

/-- A chain of `||` in a stripped text: its parts, which are shorter. -/
theorem parts_or (hK : K.Ok) {e : Sel} {s : List Char} (h : Text K .or e s) :
    (∃ l : List (Sel × List Char), splitSel '|' s = l.map (·.2) ∧ OrOf e (l.map (·.1)) ∧ l.length ≠ 1 ∧
      ∀ x ∈ l, x.2.length < s.length ∧ Part K .and s.length x) ∨ (Text K .and e s ∧ splitSel '|' s = [s]) := by
  have hnil : Blank K [] := fun a ha => by cases ha
  cases h with
  | and h =>
    right
    exact ⟨h, splitSel_one (text_nice hK h).1.bars ((text_nice hK h).2.1 (by simp)) (text_nice hK h).1.bal.1⟩
  | disj hs hw1 hw2 ht =>
    rename_i e f s u1 u2 t
    left
    obtain ⟨l, i1, i2, i3⟩ := split_or hK ht hw2 hnil
    rw [List.append_nil] at i1 i3
    obtain ⟨g1, g2, g3⟩ := part_split hK hs hnil hw1 (Or.inr rfl) ((text_nice hK hs).2.1 (by simp))
    rw [List.nil_append] at g1 g2 g3
    have hl : l ≠ [] := by rintro rfl; cases i2
    refine ⟨(e, s ++ u1) :: l, ?_, .cons i2, ?_, fun x hx => ?_⟩
    · rw [splitSel_cons g1 g2 g3, i1]; rfl
    · rw [List.length_cons]
      have := List.length_pos_iff.2 hl
      omega
    · rcases List.mem_cons.1 hx with rfl | hx
      · refine ⟨?_, ?_, [], s, u1, hnil, hw1, hs, by simp⟩ <;>
        · simp only [List.length_append, List.length_cons]; omega
      · obtain ⟨j1, j2⟩ := i3 x hx
        refine ⟨?_, ?_, j2⟩ <;>
        · simp only [List.length_append, List.length_cons] at j1 ⊢; omega

/-- A chain of `&&` in a stripped text: its parts, which are shorter. -/
theorem parts_and (hK : K.Ok) {e : Sel} {s : List Char} (h : Text K .and e s) :
    (∃ l : List (Sel × List Char), splitSel '&' s = l.map (·.2) ∧ AndOf e (l.map (·.1)) ∧ l.length ≠ 1 ∧
      ∀ x ∈ l, x.2.length < s.length ∧ Part K .un s.length x) ∨ (Text K .un e s ∧ splitSel '&' s = [s]) := by
  have hnil : Blank K [] := fun a ha => by cases ha
  cases h with
  | un h =>
    right
    exact ⟨h, splitSel_one (text_nice hK h).1.amps ((text_nice hK h).2.2 rfl) (text_nice hK h).1.bal.1⟩
  | conj hs hw1 hw2 ht =>
    rename_i e f s u1 u2 t
    left
    obtain ⟨l, i1, i2, i3⟩ := split_and hK ht hw2 hnil
    rw [List.append_nil] at i1 i3
    obtain ⟨g1, g2, g3⟩ := part_split hK hs hnil hw1 (Or.inl rfl) ((text_nice hK hs).2.2 rfl)
    rw [List.nil_append] at g1 g2 g3
    have hl : l ≠ [] := by rintro rfl; cases i2
    refine ⟨(e, s ++ u1) :: l, ?_, .cons i2, ?_, fun x hx => ?_⟩
    · rw [splitSel_cons g1 g2 g3, i1]; rfl
    · rw [List.length_cons]
      have := List.length_pos_iff.2 hl
      omega
    · rcases List.mem_cons.1 hx with rfl | hx
      · refine ⟨?_, ?_, [], s, u1, hnil, hw1, hs, by simp⟩ <;>
        · simp only [List.length_append, List.length_cons]; omega
      · obtain ⟨j1, j2⟩ := i3 x hx
        refine ⟨?_, ?_, j2⟩ <;>
        · simp only [List.length_append, List.length_cons] at j1 ⊢; omega

end
end CalicoParser
end Verif
