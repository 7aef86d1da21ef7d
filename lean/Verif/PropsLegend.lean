import Std.Data.String.ToNat
import Verif.LegendModel
/-!
C69: the texts on arrows and the legend: specification and lemmas on names of labels.
-/
namespace Verif.Legend

/-! ### Specification -/

/-- What the labels a caller gives look like: `All`, or pieces between commas, where a piece that speaks of
protocols gives the name of a protocol that does not end in a small letter and has no `_`, and one that
speaks of ports gives numbers and hyphens. -/
def Usual (label : String) : Prop :=
  label = "All" ∨ ∀ item ∈ items label,
    ("protocols".toList <:+: item → ∃ k v, item = k ++ ':' :: v ∧ ':' ∉ k ∧ ':' ∉ v ∧ '_' ∉ v ∧
      ∃ w c, v = w ++ [c] ∧ c.isLower = false) ∧
    ("dst_ports".toList <:+: item → ∃ k v, item = k ++ ':' :: v ∧ ':' ∉ k ∧
      (∀ c ∈ v, c.isDigit = true ∨ c = '-') ∧ ∃ c w, v = c :: w ∧ c.isDigit = true)

/-- A label is used in a graph: by an arrow, or by a node that stands for connections. -/
def Used (ops : List Op) (l : String) : Prop :=
  (∃ s d t dir, Op.edge s d t dir ∈ ops ∧ l = strip t) ∨
  (∃ space name kind ts t r, Op.node space name kind ts ∈ ops ∧ (kind = .clique ∨ kind = .biclique) ∧
    ts.filter (· ≠ "") = t :: r ∧ l = strip t)

/-! ### Texts -/

theorem has_iff (key t : List Char) : has key t = true ↔ key <:+: t := by
  induction t with
  | nil => simp [has]
  | cons a t ih =>
    simp only [has, Bool.or_eq_true, List.isPrefixOf_iff_prefix, ih]
    rw [List.infix_cons_iff]

theorem split_ne_nil (c : Char) (t : List Char) : split c t ≠ [] := by
  cases t with
  | nil => simp [split]
  | cons a t =>
    simp only [split]
    split
    · simp
    · split <;> simp

theorem split_none {c : Char} : ∀ {t : List Char}, c ∉ t → split c t = [t]
  | [], _ => rfl
  | a :: t, h => by
    simp only [List.mem_cons, not_or] at h
    simp only [split, if_neg (Ne.symm h.1), split_none h.2]

theorem split_append {c : Char} (t : List Char) : ∀ {k : List Char}, c ∉ k → split c (k ++ c :: t) = k :: split c t
  | [], _ => by simp [split]
  | a :: k, h => by
    simp only [List.mem_cons, not_or] at h
    simp only [List.cons_append, split, if_neg (Ne.symm h.1), split_append t h.2]

/-- The first part of a text. -/
theorem split_head (c : Char) (t : List Char) : (split c t).headD [] = t.takeWhile (fun x => !(x = c)) := by
  induction t with
  | nil => rfl
  | cons a t ih =>
    simp only [split]
    by_cases h : a = c
    · simp [h]
    · rw [if_neg h]
      cases hs : split c t with
      | nil => exact absurd hs (split_ne_nil c t)
      | cons w r =>
        rw [hs] at ih
        simp only [List.headD_cons] at ih ⊢
        rw [List.takeWhile_cons_of_pos (by simp [h]), ← ih]

/-! ### Sorting -/

section Sorting
variable {α : Type} (le : α → α → Bool)

theorem insBy_perm (x : α) (l : List α) : List.Perm (insBy le x l) (x :: l) := by
  induction l with
  | nil => exact List.Perm.refl _
  | cons y r ih =>
    simp only [insBy]
    split
    · exact List.Perm.refl _
    · exact (List.Perm.cons y ih).trans (List.Perm.swap x y r)

theorem sortBy_perm (l : List α) : List.Perm (sortBy le l) l := by
  induction l with
  | nil => exact List.Perm.refl _
  | cons y r ih => exact (insBy_perm le y _).trans (List.Perm.cons y ih)

variable (total : ∀ a b, le a b = true ∨ le b a = true) (trans : ∀ a b c, le a b = true → le b c = true → le a c = true)
  (anti : ∀ a b, le a b = true → le b a = true → a = b)
include total trans

theorem insBy_sorted (x : α) (l : List α) (h : l.Pairwise (le · · = true)) : (insBy le x l).Pairwise (le · · = true) := by
  induction l with
  | nil => simp [insBy]
  | cons y r ih =>
    rw [List.pairwise_cons] at h
    simp only [insBy]
    split
    · rename_i hle
      rw [List.pairwise_cons]
      refine ⟨?_, List.pairwise_cons.2 h⟩
      intro a ha
      rcases List.mem_cons.1 ha with rfl | ha
      · exact hle
      · exact trans _ _ _ hle (h.1 a ha)
    · rename_i hle
      rw [List.pairwise_cons]
      refine ⟨?_, ih h.2⟩
      intro a ha
      rcases List.mem_cons.1 ((insBy_perm le x r).mem_iff.1 ha) with rfl | ha
      · exact (total a y).resolve_left hle
      · exact h.1 a ha

theorem sortBy_sorted (l : List α) : (sortBy le l).Pairwise (le · · = true) := by
  induction l with
  | nil => exact List.Pairwise.nil
  | cons y r ih => exact insBy_sorted le total trans y _ ih

omit total trans
include anti in
theorem sorted_unique {l l' : List α} (hp : List.Perm l l') (h : l.Pairwise (le · · = true)) (h' : l'.Pairwise (le · · = true)) :
    l = l' := by
  induction l generalizing l' with
  | nil => exact (List.nil_perm.1 hp).symm
  | cons x l ih =>
    cases l' with
    | nil => exact absurd hp.length_eq (by simp)
    | cons y r =>
      rw [List.pairwise_cons] at h h'
      have hxy : x = y := by
        rcases List.mem_cons.1 (hp.mem_iff.1 List.mem_cons_self) with e | hx
        · exact e
        · rcases List.mem_cons.1 (hp.mem_iff.2 List.mem_cons_self) with e | hy
          · exact e.symm
          · exact anti _ _ (h.1 y hy) (h'.1 x hx)
      subst hxy
      rw [ih (List.Perm.cons_inv hp) h.2 h'.2]

include total trans anti in
theorem sortBy_eq {l l' : List α} (hp : List.Perm l l') : sortBy le l = sortBy le l' :=
  sorted_unique le anti (((sortBy_perm le l).trans hp).trans (sortBy_perm le l').symm) (sortBy_sorted le total trans l)
    (sortBy_sorted le total trans l')

end Sorting

theorem leText_total (a b : String) : leText a b = true ∨ leText b a = true := by
  simp only [leText, decide_eq_true_eq]; exact String.le_total a b

theorem leText_trans (a b c : String) : leText a b = true → leText b c = true → leText a c = true := by
  simp only [leText, decide_eq_true_eq]; exact String.le_trans

theorem leText_anti (a b : String) : leText a b = true → leText b a = true → a = b := by
  simp only [leText, decide_eq_true_eq]; exact String.le_antisymm

theorem lt_or_eq_or_gt (a b : String) : a < b ∨ a = b ∨ b < a := by
  rcases Decidable.em (a < b) with h | h
  · exact .inl h
  · rcases Decidable.em (b < a) with h' | h'
    · exact .inr (.inr h')
    · exact .inr (.inl (String.le_antisymm (String.not_lt.1 h') (String.not_lt.1 h)))

theorem lePair_iff (a b : String × String) : lePair a b = true ↔ a.1 < b.1 ∨ (a.1 = b.1 ∧ a.2 ≤ b.2) := by
  simp [lePair]

theorem lePair_total (a b : String × String) : lePair a b = true ∨ lePair b a = true := by
  simp only [lePair_iff]
  rcases lt_or_eq_or_gt a.1 b.1 with h | h | h
  · exact .inl (.inl h)
  · rcases String.le_total a.2 b.2 with h' | h'
    · exact .inl (.inr ⟨h, h'⟩)
    · exact .inr (.inr ⟨h.symm, h'⟩)
  · exact .inr (.inl h)

theorem lePair_trans (a b c : String × String) : lePair a b = true → lePair b c = true → lePair a c = true := by
  simp only [lePair_iff]
  rintro (h | ⟨h1, h2⟩) (h' | ⟨h1', h2'⟩)
  · exact .inl (String.lt_trans h h')
  · exact .inl (h1' ▸ h)
  · exact .inl (h1 ▸ h')
  · exact .inr ⟨h1.trans h1', String.le_trans h2 h2'⟩

theorem lePair_anti (a b : String × String) : lePair a b = true → lePair b a = true → a = b := by
  simp only [lePair_iff]
  rintro (h | ⟨h1, h2⟩) (h' | ⟨h1', h2'⟩)
  · exact absurd (String.lt_trans h h') (String.lt_irrefl _)
  · exact absurd (h1' ▸ h) (String.lt_irrefl _)
  · exact absurd (h1 ▸ h') (String.lt_irrefl _)
  · exact Prod.ext h1 (String.le_antisymm h2 h2')

/-! ### Names of labels -/

/-- The short name of a label. -/
def sh (l : String) : String := (short l).getD ""

/-- The final name of a label. -/
def nameOf (labels : List String) (l : String) : String :=
  String.ofList ((sh l).toList ++ tag (sortBy leText (labels.filter (sh · = sh l))) l)

theorem mapM_shorts (labels : List String) (r : List (String × String))
    (h : labels.mapM (fun l => (short l).map fun s => (l, s)) = some r) :
    r = labels.map (fun l => (l, sh l)) ∧ ∀ l ∈ labels, (short l).isSome := by
  induction labels generalizing r with
  | nil => simp at h; simp [h]
  | cons l ls ih =>
    rw [List.mapM_cons] at h
    cases hl : short l with
    | none => simp [hl] at h
    | some s =>
      cases hr : ls.mapM (fun l => (short l).map fun s => (l, s)) with
      | none => simp [hl, hr] at h
      | some r' =>
        simp only [hl, hr, Option.map_some, Option.pure_def, Option.bind_eq_bind, Option.bind_some, Option.some.injEq] at h
        obtain ⟨e, hs⟩ := ih r' hr
        subst h
        refine ⟨by simp [e, sh, hl], ?_⟩
        intro x hx
        rcases List.mem_cons.1 hx with rfl | hx
        · simp [hl]
        · exact hs x hx

theorem mapM_shorts_some (labels : List String) (h : ∀ l ∈ labels, (short l).isSome) :
    labels.mapM (fun l => (short l).map fun s => (l, s)) = some (labels.map (fun l => (l, sh l))) := by
  induction labels with
  | nil => rfl
  | cons l ls ih =>
    rw [List.mapM_cons, ih (fun x hx => h x (List.mem_cons_of_mem _ hx))]
    have := h l List.mem_cons_self
    cases hl : short l with
    | none => simp [hl] at this
    | some s => simp [sh, hl]

theorem named_eq (labels : List String) (l : String) :
    named (labels.map (fun l => (l, sh l))) l (sh l) = nameOf labels l := by
  unfold named nameOf
  have : ((labels.map (fun l => (l, sh l))).filter (·.2 = sh l)).map (·.1) = labels.filter (sh · = sh l) := by
    rw [List.filter_map, List.map_map]
    have : ((fun x : String × String => x.1) ∘ fun l => (l, sh l)) = id := rfl
    rw [this, List.map_id]; rfl
  rw [this]

/-- When there is a legend, and which names labels have then. -/
theorem names_cases {labels : List String} {b : Bool} {dict : List (String × String)} (h : names labels = some (b, dict)) :
    (b = false ∧ (labels = [] ∨ ∃ l, labels = [l] ∧ l.length ≤ 11) ∧ dict = labels.map fun l => (l, l)) ∨
    (b = true ∧ labels ≠ [] ∧ ¬ (∃ l, labels = [l] ∧ l.length ≤ 11) ∧ dict = labels.map (fun l => (l, nameOf labels l)) ∧
      ∀ l ∈ labels, (short l).isSome) := by
  unfold names at h
  split at h
  · rename_i he
    simp only [Option.some.injEq, Prod.mk.injEq] at h
    subst he
    exact .inl ⟨h.1.symm, .inl rfl, h.2.symm⟩
  · rename_i he
    split at h
    · rename_i h1
      simp only [Option.some.injEq, Prod.mk.injEq] at h
      refine .inl ⟨h.1.symm, .inr ?_, h.2.symm⟩
      match labels, h1 with
      | [l], h1 => exact ⟨l, rfl, h1.2⟩
    · rename_i h1
      cases hm : labels.mapM (fun l => (short l).map fun s => (l, s)) with
      | none => simp [hm] at h
      | some r =>
        simp only [hm, Option.pure_def, Option.bind_eq_bind, Option.bind_some, Option.some.injEq, Prod.mk.injEq] at h
        obtain ⟨e, hs⟩ := mapM_shorts labels r hm
        refine .inr ⟨h.1.symm, he, ?_, ?_, hs⟩
        · rintro ⟨l, rfl, hl⟩
          exact h1 ⟨rfl, hl⟩
        · rw [← h.2, e, List.map_map]
          apply List.map_congr_left
          intro l _
          simp only [Function.comp_apply, named_eq]

/-! ### Names are apart -/

theorem letter_inj {i j : Nat} (hi : i < 26) (hj : j < 26) (h : letter i = letter j) : i = j := by
  have key : ∀ i j : Fin 26, letter i = letter j → i = j := by decide
  have := key ⟨i, hi⟩ ⟨j, hj⟩ h
  exact congrArg Fin.val this

theorem letter_lower {i : Nat} (hi : i < 26) : (letter i).isLower = true := by
  have key : ∀ i : Fin 26, (letter i).isLower = true := by decide
  exact key ⟨i, hi⟩

theorem digits_all (n : Nat) {a : Char} (h : a ∈ (toString n).toList) : a.isDigit = true := by
  rw [Nat.toString_eq_repr, Nat.repr_eq_ofList_toDigits, String.toList_ofList] at h
  exact Nat.isDigit_of_mem_toDigits (b := 10) (by decide) (by decide) h

theorem digits_inj {n m : Nat} (h : (toString n).toList = (toString m).toList) : n = m := by
  have := String.toList_inj.1 h
  rw [Nat.toString_eq_repr, Nat.toString_eq_repr] at this
  exact Nat.repr_inj.1 this

theorem digits_ne_nil (n : Nat) : (toString n).toList ≠ [] := by
  rw [Nat.toString_eq_repr, Nat.repr_eq_ofList_toDigits, String.toList_ofList]
  intro h
  have := Nat.length_toDigits_pos (b := 10) (n := n)
  rw [h] at this
  simp at this

/-- A short name that cannot be another with something added. -/
def Firm (s : String) : Prop := s = "All" ∨ ('_' ∉ s.toList ∧ ∀ c, s.toList.getLast? = some c → c.isLower = false)

theorem firm_letter {a b : String} (ha : Firm a) (hb : Firm b) {c : Char} (hc : c.isLower = true) :
    a.toList ≠ b.toList ++ [c] := by
  intro h
  rcases ha with rfl | ⟨_, ha⟩
  · have h0 : ("All".toList) = ['A', 'l'] ++ ['l'] := by decide
    rw [h0] at h
    have h1 := List.append_inj_left' h rfl
    rcases hb with rfl | ⟨_, hb⟩
    · exact absurd h1 (by decide)
    · have := hb 'l' (by rw [← h1]; rfl)
      exact absurd this (by decide)
  · have := ha c (by rw [h]; simp)
    rw [hc] at this
    exact absurd this (by decide)

theorem firm_number {a b : String} (ha : Firm a) {t : List Char} : a.toList ≠ b.toList ++ '_' :: t := by
  intro h
  have hm : '_' ∈ a.toList := by rw [h]; simp
  rcases ha with rfl | ⟨ha, _⟩
  · exact absurd hm (by decide)
  · exact ha hm

theorem split_last {a b t t' : List Char} (ht : '_' ∉ t) (ht' : '_' ∉ t') (h : a ++ '_' :: t = b ++ '_' :: t') : a = b ∧ t = t' := by
  have h' : t.reverse ++ '_' :: a.reverse = t'.reverse ++ '_' :: b.reverse := by
    have := congrArg List.reverse h
    simpa using this
  have key : ∀ (x y u v : List Char), '_' ∉ x → '_' ∉ y → x ++ '_' :: u = y ++ '_' :: v → x = y ∧ u = v := by
    intro x
    induction x with
    | nil =>
      intro y u v _ hy h
      cases y with
      | nil => simp at h; exact ⟨rfl, h⟩
      | cons z y => simp at h; exact absurd (by rw [← h.1]; exact List.mem_cons_self) hy
    | cons w x ih =>
      intro y u v hx hy h
      cases y with
      | nil => simp at h; exact absurd (by rw [h.1]; exact List.mem_cons_self) hx
      | cons z y =>
        simp only [List.cons_append, List.cons.injEq] at h
        obtain ⟨h1, h2⟩ := ih y u v (fun hm => hx (List.mem_cons_of_mem _ hm)) (fun hm => hy (List.mem_cons_of_mem _ hm)) h.2
        exact ⟨by rw [h.1, h1], h2⟩
  obtain ⟨h1, h2⟩ := key _ _ _ _ (by simpa using ht) (by simpa using ht') h'
  exact ⟨List.reverse_inj.1 h2, List.reverse_inj.1 h1⟩

theorem no_underscore (n : Nat) : '_' ∉ (toString n).toList := fun h => absurd (digits_all n h) (by decide)

/-- What is added tells labels of the same short name apart. -/
theorem tag_inj {s : List String} {l l' : String} (hl : l ∈ s) (hl' : l' ∈ s) (h : tag s l = tag s l') : l = l' := by
  have byIdx : s.idxOf l = s.idxOf l' → l = l' := by
    intro e
    have h1 := List.getElem_idxOf (List.idxOf_lt_length_of_mem hl)
    have h2 := List.getElem_idxOf (List.idxOf_lt_length_of_mem hl')
    rw [← h1, ← h2]
    simp only [e]
  unfold tag at h
  split at h
  · rename_i h1
    obtain ⟨x, rfl⟩ := List.length_eq_one_iff.1 h1
    rw [List.mem_singleton] at hl hl'
    rw [hl, hl']
  · split at h
    · rename_i h2
      have a1 := List.idxOf_lt_length_of_mem hl
      have a2 := List.idxOf_lt_length_of_mem hl'
      simp only [List.cons.injEq, and_true] at h
      exact byIdx (letter_inj (by omega) (by omega) h)
    · simp only [List.cons.injEq, true_and] at h
      exact byIdx (digits_inj h)

/-- Names of different short names differ. -/
theorem tag_apart {a b : String} (ha : Firm a) (hb : Firm b) {s s' : List String} {l l' : String} (hl : l ∈ s) (hl' : l' ∈ s')
    (h : a.toList ++ tag s l = b.toList ++ tag s' l') : a = b := by
  have i1 := List.idxOf_lt_length_of_mem hl
  have i2 := List.idxOf_lt_length_of_mem hl'
  have lower : ∀ (n i : Nat), i < 26 → ∀ x y : List Char, x ++ [letter i] ≠ y ++ '_' :: (toString n).toList := by
    intro n i hi x y e
    obtain ⟨w, c, hw⟩ : ∃ w c, (toString n).toList = w ++ [c] := by
      rcases List.eq_nil_or_concat (toString n).toList with h | ⟨w, c, h⟩
      · exact absurd h (digits_ne_nil n)
      · exact ⟨w, c, by simpa using h⟩
    rw [hw, show y ++ '_' :: (w ++ [c]) = (y ++ '_' :: w) ++ [c] by simp] at e
    have e2 := List.append_inj_right' e rfl
    have hd : c.isDigit = true := digits_all n (by rw [hw]; simp)
    have hlow := letter_lower hi
    simp only [List.cons.injEq, and_true] at e2
    rw [e2] at hlow
    simp only [Char.isDigit, Char.isLower, ge_iff_le, Bool.and_eq_true, decide_eq_true_eq] at hd hlow
    have h1 := UInt32.le_iff_toNat_le.1 hd.2
    have h2 := UInt32.le_iff_toNat_le.1 hlow.1
    have : ('a'.val).toNat = 97 := rfl
    have : ('9'.val).toNat = 57 := rfl
    omega
  unfold tag at h
  split at h
  · split at h
    · simpa [String.toList_inj] using h
    · split at h
      · simp only [List.append_nil] at h
        exact absurd h (firm_letter ha hb (letter_lower (by omega)))
      · simp only [List.append_nil] at h
        exact absurd h (firm_number ha)
  · split at h
    · split at h
      · simp only [List.append_nil] at h
        exact absurd h.symm (firm_letter hb ha (letter_lower (by omega)))
      · split at h
        · exact String.toList_inj.1 (List.append_inj_left' h rfl)
        · exact absurd h (lower _ _ (by omega) _ _)
    · split at h
      · simp only [List.append_nil] at h
        exact absurd h.symm (firm_number hb)
      · split at h
        · exact absurd h.symm (lower _ _ (by omega) _ _)
        · exact String.toList_inj.1 (split_last (no_underscore _) (no_underscore _) h).1

theorem mem_group {labels : List String} {l : String} (h : l ∈ labels) : l ∈ sortBy leText (labels.filter (sh · = sh l)) := by
  rw [(sortBy_perm leText _).mem_iff, List.mem_filter]
  exact ⟨h, by simp⟩

theorem nameOf_inj {labels : List String} (hf : ∀ l ∈ labels, Firm (sh l)) {l l' : String} (hl : l ∈ labels) (hl' : l' ∈ labels)
    (h : nameOf labels l = nameOf labels l') : l = l' := by
  unfold nameOf at h
  have h := String.ofList_inj.1 h
  have e := tag_apart (hf l hl) (hf l' hl') (mem_group hl) (mem_group hl') h
  have m := mem_group hl
  rw [e] at h m
  exact tag_inj m (mem_group hl') (List.append_cancel_left h)

/-! ### Usual labels -/

theorem toLower_ne {c : Char} (h : c ≠ '_') : c.toLower ≠ '_' := by
  intro e
  unfold Char.toLower at e
  split at e
  · rename_i hc
    have := congrArg (fun c : Char => c.val.toNat) e
    simp only at this
    rw [show ('_' : Char).val.toNat = 95 from rfl] at this
    have h1 := UInt32.le_iff_toNat_le.1 hc.1
    have h2 := UInt32.le_iff_toNat_le.1 hc.2
    have e1 : ('A'.val).toNat = 65 := rfl
    have e2 : ('Z'.val).toNat = 90 := rfl
    rw [e1] at h1
    rw [e2] at h2
    rw [UInt32.toNat_add] at this
    have e3 : ('a'.val - 'A'.val).toNat = 32 := rfl
    rw [e3] at this
    omega
  · exact h e

theorem usual_short {l : String} (h : Usual l) : ∃ s, short l = some s ∧ Firm s := by
  rcases h with rfl | h
  · exact ⟨"All", by decide +kernel, .inl rfl⟩
  have ht : ∃ t, valByKey (items l) "protocols".toList = some t ∧ (t = [] ∨ ('_' ∉ t ∧ ∃ w c, t = w ++ [c] ∧ c.isLower = false)) := by
    unfold valByKey
    split
    · exact ⟨[], rfl, .inl rfl⟩
    · rename_i item hi
      obtain ⟨k, v, e, h1, h2, h3, h4⟩ := (h item (List.mem_of_find?_eq_some hi)).1 ((has_iff _ _).1 (List.find?_some hi))
      refine ⟨v, ?_, .inr ⟨h3, h4⟩⟩
      rw [e, split_append _ h1, split_none h2]; rfl
  have hp : ∃ p, valByKey (items l) "dst_ports".toList = some p ∧ (p = [] ∨ ((∀ c ∈ p, c.isDigit = true ∨ c = '-') ∧ ∃ c w, p = c :: w ∧ c.isDigit = true)) := by
    unfold valByKey
    split
    · exact ⟨[], rfl, .inl rfl⟩
    · rename_i item hi
      obtain ⟨k, v, e, h1, h2, h3⟩ := (h item (List.mem_of_find?_eq_some hi)).2 ((has_iff _ _).1 (List.find?_some hi))
      refine ⟨v, ?_, .inr ⟨h2, h3⟩⟩
      have hv : ':' ∉ v := by
        intro hm
        rcases h2 _ hm with h | h
        · exact absurd h (by decide)
        · exact absurd h (by decide)
      rw [e, split_append _ h1, split_none hv]; rfl
  obtain ⟨t, et, ht⟩ := ht
  obtain ⟨p, ep, hp⟩ := hp
  have htyp : ∃ w c, (if t = [] then "TCP".toList else t) = w ++ [c] ∧ '_' ∉ (if t = [] then "TCP".toList else t) ∧ c.isLower = false := by
    rcases ht with rfl | ⟨h1, w, c, h2, h3⟩
    · exact ⟨['T', 'C'], 'P', by decide, by decide, by decide⟩
    · have hne : t ≠ [] := by rw [h2]; simp
      rw [if_neg hne]
      exact ⟨w, c, h2, h1, h3⟩
  obtain ⟨w, c, e1, e2, e3⟩ := htyp
  unfold short
  simp only [et, ep, Option.pure_def, Option.bind_eq_bind, Option.bind_some]
  refine ⟨_, rfl, ?_⟩
  split
  · exact .inl rfl
  · split
    · right
      rw [String.toList_ofList]
      refine ⟨e2, ?_⟩
      intro x hx
      rw [e1] at hx
      simp only [List.getLast?_append, List.getLast?_singleton, Option.some_or, Option.some.injEq] at hx
      rw [← hx]; exact e3
    · rename_i hport
      right
      rw [String.toList_ofList]
      have hall : ∀ x ∈ trimPort p, x.isDigit = true ∨ x = '-' := by
        intro x hx
        have hpp : ∀ c ∈ p, c.isDigit = true ∨ c = '-' := by
          rcases hp with rfl | hp
          · simp
          · exact hp.1
        unfold trimPort at hx
        split at hx
        · rw [split_head, split_head] at hx
          exact hpp x ((List.takeWhile_sublist _).subset ((List.takeWhile_sublist _).subset hx))
        · exact hpp x hx
      constructor
      · intro hm
        rcases List.mem_append.1 hm with hm | hm
        · obtain ⟨y, hy, hy'⟩ := List.mem_map.1 hm
          exact toLower_ne (fun e => e2 (e ▸ hy)) hy'
        · rcases hall _ hm with h | h
          · exact absurd h (by decide)
          · exact absurd h (by decide)
      · intro x hx
        rw [List.getLast?_append] at hx
        obtain ⟨y, hy⟩ : ∃ y, (trimPort p).getLast? = some y := by
          cases hh : (trimPort p).getLast? with
          | none => exact absurd (List.getLast?_eq_none_iff.1 hh) hport
          | some y => exact ⟨y, rfl⟩
        rw [hy] at hx
        simp only [Option.some_or, Option.some.injEq] at hx
        subst hx
        rcases hall y (List.mem_of_getLast? hy) with h | h
        · cases hl : y.isLower with
          | false => rfl
          | true =>
            simp only [Char.isDigit, Char.isLower, ge_iff_le, Bool.and_eq_true, decide_eq_true_eq] at h hl
            have h1 := UInt32.le_iff_toNat_le.1 h.2
            have h2 := UInt32.le_iff_toNat_le.1 hl.1
            have a1 : ('a'.val).toNat = 97 := rfl
            have a2 : ('9'.val).toNat = 57 := rfl
            omega
        · subst h; rfl

theorem usual_firm {l : String} (h : Usual l) : Firm (sh l) := by
  obtain ⟨s, e, hf⟩ := usual_short h
  unfold sh
  rw [e]; exact hf

end Verif.Legend
