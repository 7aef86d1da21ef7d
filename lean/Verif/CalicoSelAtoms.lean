import Verif.CalicoSelText
/-!
Expressions without operators: their texts are recognised as what they say; and the occurrences of `global()`.
-/
namespace Verif
open Container

theorem Container.infixB_iff (v s : List Char) : infixB v s = true ↔ v <:+: s := by
  induction s with
  | nil => simp only [infixB, List.isPrefixOf_iff_prefix, List.prefix_nil, List.infix_nil]
  | cons c t ih =>
    simp only [infixB, Bool.or_eq_true, List.isPrefixOf_iff_prefix, ih]
    exact List.infix_cons_iff.symm

theorem Container.strTest_iff (o : StrOp) (v s : String) : strTest o v s = true ↔ CalicoParser.StrRel o v s := by
  cases o with
  | contain => exact infixB_iff _ _
  | startWith => exact List.isPrefixOf_iff_prefix
  | endWith => exact List.isSuffixOf_iff_suffix

namespace CalicoParser

section
variable {K : CharCls}

/-! ### Occurrences of `global()` -/

/-- `global()`. -/
def gl : List Char := ['g', 'l', 'o', 'b', 'a', 'l', '(', ')']

theorem prefix_sep {g A B : List Char} {x : Char} (hx : x ∉ g) (h : g <+: A ++ x :: B) : g <+: A := by
  obtain ⟨r, h⟩ := h
  rcases List.append_eq_append_iff.1 h with ⟨c, h1, _⟩ | ⟨c, h1, h2⟩
  · exact ⟨c, h1.symm⟩
  · cases c with
    | nil => rw [List.append_nil] at h1; rw [h1]; exact List.prefix_refl _
    | cons y c =>
      obtain ⟨rfl, _⟩ : x = y ∧ B = c ++ r := by simpa using h2
      exact absurd (by rw [h1]; simp) hx

theorem infix_sep {g A B : List Char} {x : Char} (hg : g ≠ []) (hx : x ∉ g) (h : g <:+: A ++ x :: B) :
    g <:+: A ∨ g <:+: B := by
  induction A with
  | nil =>
    right
    rcases List.infix_cons_iff.1 h with h | h
    · exact absurd (List.prefix_nil.1 (prefix_sep hx (A := []) h)) hg
    · exact h
  | cons a A ih =>
    rcases List.infix_cons_iff.1 h with h | h
    · exact Or.inl (prefix_sep hx (A := a :: A) h).isInfix
    · rcases ih h with h | h
      · exact Or.inl (h.trans (List.infix_cons (List.infix_refl _)))
      · exact Or.inr h

theorem gl_blank (hK : K.Ok) {a : Char} (ha : K.ws a = true) : a ∉ gl := by
  intro hm
  have hl : K.lab a = true ∨ a ∈ ['(', ')'] := by
    simp only [gl, List.mem_cons, List.not_mem_nil, or_false] at hm
    rcases hm with rfl | rfl | rfl | rfl | rfl | rfl | rfl | rfl
    all_goals first
      | exact Or.inr (by decide)
      | exact Or.inl (hK.letters _ (by decide))
  rcases hl with h | h
  · rw [hK.disj a h] at ha; cases ha
  · rw [(hK.punct a (by simp at h; rcases h with rfl | rfl <;> simp)).2] at ha; cases ha

theorem gl_in_blank (hK : K.Ok) {w : List Char} (hw : Blank K w) : ¬ gl <:+: w := fun h =>
  gl_blank hK (hw 'g' (h.subset (by decide))) (by decide)

theorem gl_left (hK : K.Ok) {w s : List Char} (hw : Blank K w) (h : gl <:+: w ++ s) : gl <:+: s := by
  induction w with
  | nil => exact h
  | cons a w ih =>
    have ha := hw a List.mem_cons_self
    rcases infix_sep (A := []) (by decide) (gl_blank hK ha) h with h | h
    · exact absurd (List.infix_nil.1 h) (by decide)
    · exact ih (fun x hx => hw x (List.mem_cons_of_mem _ hx)) h

theorem gl_right (hK : K.Ok) {w s : List Char} (hw : Blank K w) (h : gl <:+: s ++ w) : gl <:+: s := by
  cases w with
  | nil => rwa [List.append_nil] at h
  | cons a w =>
    rcases infix_sep (by decide) (gl_blank hK (hw a List.mem_cons_self)) h with h | h
    · exact h
    · exact absurd h (gl_in_blank hK (fun x hx => hw x (List.mem_cons_of_mem _ hx)))

theorem gl_paren {s : List Char} (hb : Bal s) (h : gl <:+: '(' :: s ++ [')']) : gl <:+: s := by
  rcases List.infix_cons_iff.1 (show gl <:+: '(' :: (s ++ [')']) from h) with h | h
  · obtain ⟨r, h⟩ := h
    cases h
  · obtain ⟨P, Q, h⟩ := h
    rcases List.eq_nil_or_concat Q with rfl | ⟨Q, q, rfl⟩
    · have h1 : (P ++ ['g', 'l', 'o', 'b', 'a', 'l', '(']) ++ [')'] = s ++ [')'] := by rw [← h]; simp [gl]
      have h2 := List.append_cancel_right h1
      have hd := hb.1
      rw [← h2, depth_append] at hd
      have hP := hb.2 P _ h2.symm
      have : depth ['g', 'l', 'o', 'b', 'a', 'l', '('] = 1 := by decide
      omega
    · rw [List.concat_eq_append, ← List.append_assoc] at h
      exact ⟨P, Q, List.append_inj_left' h rfl⟩

theorem unique_split {x : Char} {A B C D : List Char} (h : A ++ x :: B = C ++ x :: D) (hC : x ∉ C) (hD : x ∉ D) :
    A = C ∧ B = D := by
  rcases List.append_eq_append_iff.1 h with ⟨c, h1, h2⟩ | ⟨c, h1, h2⟩
  · cases c with
    | nil =>
      rw [List.append_nil] at h1
      exact ⟨h1.symm, by simpa using h2⟩
    | cons y c =>
      obtain ⟨rfl, h3⟩ : x = y ∧ B = c ++ x :: D := by simpa using h2
      exact absurd (by rw [h1]; simp) hC
  · cases c with
    | nil =>
      rw [List.append_nil] at h1
      exact ⟨h1, by simpa using h2.symm⟩
    | cons y c =>
      obtain ⟨rfl, h3⟩ : x = y ∧ D = c ++ x :: B := by simpa using h2
      exact absurd (by rw [h3]; simp) hD

theorem gl_core (hK : K.Ok) {a : Atom} {s : List Char} (h : Core K a s) (hg : gl <:+: s) : a = .glob := by
  have hm : '(' ∈ s := hg.subset (by decide)
  have no : ∀ {k}, Word K k → '(' ∉ k := fun hk => hk.notMem hK (by simp)
  have nb : ∀ {w}, Blank K w → '(' ∉ w := fun hw => hw.notMem hK (by simp)
  have nv : ∀ {vs w}, Vals K vs w → '(' ∉ w := fun hv => hv.notMem hK (by simp)
  cases h with
  | glob => rfl
  | all =>
    have := hg.length_le
    simp [gl] at this
  | has hk =>
    rename_i k
    obtain ⟨P, Q, h⟩ := hg
    have h' : (P ++ ['g', 'l', 'o', 'b', 'a', 'l']) ++ '(' :: (')' :: Q) = ['h', 'a', 's'] ++ '(' :: (k ++ [')']) := by
      have e : "has(".toList ++ k ++ ")".toList = ['h', 'a', 's'] ++ '(' :: (k ++ [')']) := by simp
      rw [← e, ← h]; simp [gl]
    obtain ⟨_, h2⟩ := unique_split h' (by decide) (by simp [no hk])
    cases k with
    | nil => exact absurd rfl hk.1
    | cons b k =>
      obtain ⟨rfl, _⟩ : ')' = b ∧ Q = k ++ [')'] := by simpa using h2
      have := hk.2 ')' List.mem_cons_self
      rw [(hK.punct ')' (by simp)).1] at this; cases this
  | eq hk h1 h2 hv => simp [no hk, nb h1, nb h2, no hv] at hm
  | ne hk h1 h2 hv => simp [no hk, nb h1, nb h2, no hv] at hm
  | mem hk h1 _ h2 hv => simp [no hk, nb h1, nb h2, nv hv] at hm
  | notMem hk h1 _ h2 _ h3 hv => simp [no hk, nb h1, nb h2, nb h3, nv hv] at hm
  | contains hk h1 _ h2 hv => simp [no hk, nb h1, nb h2, no hv] at hm
  | starts hk h1 _ h2 _ h3 hv => simp [no hk, nb h1, nb h2, nb h3, no hv] at hm
  | ends hk h1 _ h2 _ h3 hv => simp [no hk, nb h1, nb h2, nb h3, no hv] at hm

theorem gl_op (hK : K.Ok) {s w1 w2 t : List Char} (h1 : Blank K w1) (h2 : Blank K w2) {o : Char} (ho : o ∉ gl) :
    gl <:+: s ++ w1 ++ o :: o :: (w2 ++ t) ↔ gl <:+: s ∨ gl <:+: t := by
  constructor
  · intro h
    rcases infix_sep (by decide) ho h with h | h
    · exact Or.inl (gl_right hK h1 h)
    · rcases infix_sep (A := []) (by decide) ho h with h | h
      · exact absurd (List.infix_nil.1 h) (by decide)
      · exact Or.inr (gl_left hK h2 h)
  · rintro (h | h)
    · refine h.trans ⟨[], w1 ++ o :: o :: (w2 ++ t), by simp⟩
    · exact h.trans ⟨s ++ w1 ++ o :: o :: w2, [], by simp⟩

/-- `global()` occurs in the text iff it occurs in the selector. -/
theorem gl_text (hK : K.Ok) {lv : Lv} {e : Sel} {s : List Char} (h : Text K lv e s) : gl <:+: s ↔ e.Mentions := by
  induction h with
  | atom hc =>
    constructor
    · exact gl_core hK hc
    · intro h
      rw [Sel.Mentions] at h
      subst h
      cases hc
      exact List.infix_refl _
  | @not w e s hw ht ih =>
    rw [Sel.Mentions, ← ih]
    constructor
    · intro h
      rcases infix_sep (A := []) (x := '!') (by decide) (by decide) h with h | h
      · exact absurd (List.infix_nil.1 h) (by decide)
      · exact gl_left hK hw h
    · exact fun h => h.trans ⟨'!' :: w, [], by simp⟩
  | @paren w1 e s w2 h1 h2 ht ih =>
    rw [← ih]
    constructor
    · intro h
      have hb : Bal (w1 ++ s ++ w2) := ((blank_bal hK h1).append (text_nice hK ht).1.bal).append (blank_bal hK h2)
      exact gl_left hK h1 (gl_right hK h2 (gl_paren hb h))
    · exact fun h => h.trans ⟨'(' :: w1, w2 ++ [')'], by simp⟩
  | un _ ih => exact ih
  | conj hs h1 h2 ht ih1 ih2 => rw [gl_op hK h1 h2 (by decide), ih1, ih2, Sel.Mentions]
  | and _ ih => exact ih
  | disj hs h1 h2 ht ih1 ih2 => rw [gl_op hK h1 h2 (by decide), ih1, ih2, Sel.Mentions]

theorem gl_padded (hK : K.Ok) {lv : Lv} {e : Sel} {s w1 w2 : List Char} (h : Text K lv e s) (h1 : Blank K w1) (h2 : Blank K w2) :
    infixB gl (w1 ++ s ++ w2) = true ↔ e.Mentions := by
  rw [infixB_iff, ← gl_text hK h]
  exact ⟨fun h => gl_left hK h1 (gl_right hK h2 h), fun h => h.trans ⟨w1, w2, rfl⟩⟩

/-! ### White space inside of expressions -/

/-- The space left of some white space. -/
def sp (w : List Char) : List Char := if w = [] then [] else [' ']

theorem sq_blank {w : List Char} (hw : Blank K w) (p : Bool) (r : List Char) :
    squeezeFrom K p (w ++ r) = squeezeFrom K (p || decide (w ≠ [])) r := by
  induction w generalizing p with
  | nil => simp
  | cons a w ih =>
    simp only [List.cons_append, squeezeFrom]
    rw [if_pos (hw a List.mem_cons_self), ih (fun x hx => hw x (List.mem_cons_of_mem _ hx))]
    simp

theorem sq_word {k : List Char} (hk : ∀ a ∈ k, K.ws a = false) (hne : k ≠ []) (p : Bool) (r : List Char) :
    squeezeFrom K p (k ++ r) = (if p then [' '] else []) ++ k ++ squeezeFrom K false r := by
  induction k generalizing p with
  | nil => exact absurd rfl hne
  | cons a k ih =>
    simp only [List.cons_append, squeezeFrom]
    have ha := hk a List.mem_cons_self
    rw [if_neg (by rw [ha]; simp)]
    by_cases hk0 : k = []
    · subst hk0; simp
    · rw [ih (fun x hx => hk x (List.mem_cons_of_mem _ hx)) hk0]; simp

/-- White space and then a word. -/
theorem sq_step {w k : List Char} (hw : Blank K w) (hk : ∀ a ∈ k, K.ws a = false) (hne : k ≠ []) (r : List Char) :
    squeezeFrom K false (w ++ (k ++ r)) = sp w ++ k ++ squeezeFrom K false r := by
  rw [sq_blank hw, sq_word hk hne]
  unfold sp
  by_cases h : w = []
  · simp [h]
  · simp [h]

theorem sq_nil : squeezeFrom K false [] = [] := rfl

theorem squeeze_word {k : List Char} (hk : ∀ a ∈ k, K.ws a = false) (hne : k ≠ []) (r : List Char) :
    squeeze K (k ++ r) = k ++ squeezeFrom K false r := by
  unfold squeeze
  have : (k ++ r).dropWhile K.ws = k ++ r := by
    cases k with
    | nil => exact absurd rfl hne
    | cons a t => simp only [List.cons_append, List.dropWhile]; rw [hk a List.mem_cons_self]
  rw [this, sq_word hk hne]; rfl

theorem sp_optWs (hK : K.Ok) (w : List Char) {r : List Char} (hr : ∀ a, r.head? = some a → K.ws a = false) :
    optWs K (sp w ++ r) = r := by
  unfold sp
  by_cases h : w = []
  · rw [if_pos h]
    cases r with
    | nil => rfl
    | cons a t => simp only [List.nil_append, optWs]; rw [if_neg (by rw [hr a rfl]; simp)]
  · rw [if_neg h]
    simp only [List.cons_append, List.nil_append, optWs]
    rw [if_pos hK.space]

theorem sp_oneWs (hK : K.Ok) {w : List Char} (h : w ≠ []) (r : List Char) : oneWs K (sp w ++ r) = some r := by
  unfold sp
  rw [if_neg h]
  simp only [List.cons_append, List.nil_append, oneWs]
  rw [if_pos hK.space]

theorem lit_append (l r : List Char) : lit l (l ++ r) = some r := by
  induction l with
  | nil => rfl
  | cons a l ih => simp only [List.cons_append, lit, if_true, ih]

theorem takeWhile_word {k : List Char} (hk : ∀ a ∈ k, K.lab a = true) {r : List Char}
    (hr : ∀ a, r.head? = some a → K.lab a = false) : (k ++ r).takeWhile K.lab = k ∧ (k ++ r).dropWhile K.lab = r := by
  induction k with
  | nil =>
    cases r with
    | nil => exact ⟨rfl, rfl⟩
    | cons a t => simp only [List.nil_append, List.takeWhile, List.dropWhile]; rw [hr a rfl]; exact ⟨rfl, rfl⟩
  | cons a k ih =>
    have := ih (fun x hx => hk x (List.mem_cons_of_mem _ hx))
    simp only [List.cons_append, List.takeWhile, List.dropWhile]
    rw [hk a List.mem_cons_self]
    exact ⟨by rw [this.1], this.2⟩

theorem label_word {k : List Char} (hk : Word K k) {r : List Char} (hr : ∀ a, r.head? = some a → K.lab a = false) :
    label K (k ++ r) = some (k, r) := by
  unfold label
  rw [(takeWhile_word hk.2 hr).1, (takeWhile_word hk.2 hr).2, if_neg hk.1]

theorem quoted_word (hK : K.Ok) {v : List Char} (hv : Word K v) (r : List Char) :
    quoted K ('\'' :: v ++ '\'' :: r) = some (v, r) := by
  have h1 : lit ['\''] ('\'' :: v ++ '\'' :: r) = some (v ++ '\'' :: r) := lit_append ['\''] _
  have h2 : label K (v ++ '\'' :: r) = some (v, '\'' :: r) := label_word hv (by
    intro a ha
    obtain rfl : '\'' = a := by simpa using ha
    exact (hK.punct _ (by simp)).1)
  have h3 : lit ['\''] ('\'' :: r) = some r := lit_append ['\''] _
  unfold quoted
  simp only [h1, h2, h3, bind, Option.bind, pure]

/-! ### Expressions without operators -/

theorem lit_some {l s r : List Char} (h : lit l s = some r) : s = l ++ r := by
  induction l generalizing s with
  | nil => cases h; rfl
  | cons a l ih =>
    cases s with
    | nil => cases h
    | cons b t =>
      unfold lit at h
      by_cases hab : a = b
      · rw [if_pos hab] at h; rw [ih h, hab]; rfl
      · rw [if_neg hab] at h; cases h

theorem hasRe_none {s : List Char} (h : '(' ∉ s) : hasRe K s = none := by
  unfold hasRe
  cases h1 : lit ['h', 'a', 's', '('] s with
  | none => rfl
  | some r => exact absurd (by rw [lit_some h1]; simp) h

/-- The operators that may follow a key are no part of it. -/
theorem sp_head (hK : K.Ok) (w : List Char) {r : List Char} (hw : w ≠ [] ∨ ∀ a, r.head? = some a → K.lab a = false) :
    ∀ a, (sp w ++ r).head? = some a → K.lab a = false := by
  intro a ha
  unfold sp at ha
  by_cases h : w = []
  · rw [if_pos h] at ha
    exact (hw.resolve_left (fun hn => hn h)) a ha
  · rw [if_neg h] at ha
    obtain rfl : ' ' = a := by simpa using ha
    cases hl : K.lab ' ' with
    | false => rfl
    | true => have := hK.disj ' ' hl; rw [hK.space] at this; cases this

theorem strRe_word {k r : List Char} (hk : Word K k) (hr : ∀ a, r.head? = some a → K.lab a = false) {o : StrOp} {v : List Char}
    (h : strRest K r = some (o, v)) : strRe K (k ++ r) = some (k, o, v) := by
  unfold strRe
  rw [(takeWhile_word hk.2 hr).1]
  obtain ⟨n, hn⟩ : ∃ n, k.length = n + 1 := ⟨k.length - 1, by have := List.length_pos_iff.2 hk.1; omega⟩
  rw [hn, List.range_succ, List.reverse_append]
  simp only [List.reverse_cons, List.reverse_nil, List.nil_append, List.cons_append]
  rw [List.findSome?_cons, ← hn, List.drop_left, List.take_left, h]
  rfl

/-- The values of an expression after squeezing. -/
inductive SVals (K : CharCls) : List (List Char) → List Char → Prop
  | one {w1 v w2} : Word K v → SVals K [v] (sp w1 ++ '\'' :: v ++ '\'' :: sp w2)
  | cons {w1 v w2 vs s} : Word K v → SVals K vs s → SVals K (v :: vs) (sp w1 ++ '\'' :: v ++ '\'' :: (sp w2 ++ ',' :: s))

theorem quote_plain (hK : K.Ok) {v : List Char} (hv : Word K v) : ∀ a ∈ '\'' :: v ++ ['\''], K.ws a = false := by
  intro a ha
  simp only [List.cons_append, List.mem_cons, List.mem_append, List.not_mem_nil, or_false] at ha
  rcases ha with rfl | ha | rfl
  · exact (hK.punct _ (by simp)).2
  · exact hK.disj a (hv.2 a ha)
  · exact (hK.punct _ (by simp)).2

theorem vals_squeeze (hK : K.Ok) {vs : List (List Char)} {s : List Char} (h : Vals K vs s) :
    ∃ t, SVals K vs t ∧ squeezeFrom K false (s ++ ['}']) = t ++ ['}'] := by
  have hb : ∀ a ∈ ['}'], K.ws a = false := fun a ha => by
    obtain rfl := List.mem_singleton.1 ha
    exact (hK.punct _ (by simp)).2
  have hc : ∀ a ∈ [','], K.ws a = false := fun a ha => by
    obtain rfl := List.mem_singleton.1 ha
    exact (hK.punct _ (by simp)).2
  induction h with
  | @one w1 v w2 h1 hv h2 =>
    refine ⟨_, .one (w1 := w1) (w2 := w2) hv, ?_⟩
    have e : w1 ++ '\'' :: v ++ '\'' :: w2 ++ ['}'] = w1 ++ (('\'' :: v ++ ['\'']) ++ (w2 ++ (['}'] ++ []))) := by simp
    rw [e, sq_step h1 (quote_plain hK hv) (by simp), sq_step h2 hb (by simp), sq_nil]
    simp
  | @cons w1 v w2 vs s h1 hv h2 _ ih =>
    obtain ⟨t, ht, e1⟩ := ih
    refine ⟨_, .cons (w1 := w1) (w2 := w2) hv ht, ?_⟩
    have e : w1 ++ '\'' :: v ++ '\'' :: (w2 ++ ',' :: s) ++ ['}'] =
        w1 ++ (('\'' :: v ++ ['\'']) ++ (w2 ++ ([','] ++ (s ++ ['}'])))) := by simp
    rw [e, sq_step h1 (quote_plain hK hv) (by simp), sq_step h2 hc (by simp), e1]
    simp

/-- The first value is read, and the rest is accepted. -/
theorem svals_read (hK : K.Ok) {vs : List (List Char)} {s : List Char} (h : SVals K vs s) :
    ∃ v r, quoted K (optWs K (s ++ ['}'])) = some (v, r) ∧ r.length ≤ (s ++ ['}']).length ∧
      ∀ n, r.length + 1 ≤ n → inTail K n (optWs K r) = true := by
  have hq : ∀ r s, ∀ a, ('\'' :: r ++ s : List Char).head? = some a → K.ws a = false := fun r s a ha => by
    obtain rfl : '\'' = a := by simpa using ha
    exact (hK.punct _ (by simp)).2
  induction h with
  | @one w1 v w2 hv =>
    refine ⟨v, sp w2 ++ ['}'], ?_, by simp only [List.length_append, List.length_cons]; omega, fun n hn => ?_⟩
    · have e : sp w1 ++ '\'' :: v ++ '\'' :: sp w2 ++ ['}'] = sp w1 ++ ('\'' :: v ++ '\'' :: (sp w2 ++ ['}'])) := by simp
      rw [e, sp_optWs hK w1 (hq _ _), quoted_word hK hv]
    · rw [sp_optWs hK w2 (fun a ha => by
        obtain rfl : '}' = a := by simpa using ha
        exact (hK.punct _ (by simp)).2)]
      cases n with
      | zero => simp at hn
      | succ n => rfl
  | @cons w1 v w2 vs s hv _ ih =>
    obtain ⟨v', r', e1, e3, e2⟩ := ih
    refine ⟨v, sp w2 ++ ',' :: (s ++ ['}']), ?_, by simp only [List.length_append, List.length_cons]; omega, fun n hn => ?_⟩
    · have e : sp w1 ++ '\'' :: v ++ '\'' :: (sp w2 ++ ',' :: s) ++ ['}'] =
          sp w1 ++ ('\'' :: v ++ '\'' :: (sp w2 ++ ',' :: (s ++ ['}']))) := by simp
      rw [e, sp_optWs hK w1 (hq _ _), quoted_word hK hv]
    · rw [sp_optWs hK w2 (fun a ha => by
        obtain rfl : ',' = a := by simpa using ha
        exact (hK.punct _ (by simp)).2)]
      cases n with
      | zero => simp at hn
      | succ n =>
        unfold inTail
        simp only [e1]
        refine e2 n ?_
        simp only [List.length_append, List.length_cons, List.length_nil] at hn e3 ⊢; omega

theorem findVals_skip {pre : List Char} (h : '\'' ∉ pre) (t : List Char) (n : Nat) (hn : (pre ++ t).length ≤ n) :
    findVals K n (pre ++ t) = findVals K (n - pre.length) t := by
  induction pre generalizing n with
  | nil => rfl
  | cons a pre ih =>
    cases n with
    | zero => simp at hn
    | succ n =>
      have ha : a ≠ '\'' := fun e => h (by rw [e]; exact List.mem_cons_self)
      show findVals K (n + 1) (a :: (pre ++ t)) = _
      rw [findVals, if_neg ha, ih (fun hm => h (List.mem_cons_of_mem _ hm)) n (by simpa using hn), List.length_cons]
      congr 1; omega

theorem sp_quote (w : List Char) : '\'' ∉ sp w := by
  unfold sp; by_cases h : w = []
  · rw [if_pos h]; simp
  · rw [if_neg h]; decide

theorem findVals_quote (hK : K.Ok) {v : List Char} (hv : Word K v) (r : List Char) (n : Nat) :
    findVals K (n + 1) ('\'' :: v ++ '\'' :: r) = v :: findVals K n r := by
  have ht := takeWhile_word hv.2 (r := '\'' :: r) (by
    intro a ha
    obtain rfl : '\'' = a := by simpa using ha
    exact (hK.punct _ (by simp)).1)
  have hl : lit ['\''] ('\'' :: r) = some r := lit_append ['\''] r
  show findVals K (n + 1) ('\'' :: (v ++ '\'' :: r)) = _
  rw [findVals, if_pos rfl, ht.2, ht.1, hl]

theorem svals_find (hK : K.Ok) {vs : List (List Char)} {s : List Char} (h : SVals K vs s) (n : Nat)
    (hn : (s ++ ['}']).length ≤ n) : findVals K n (s ++ ['}']) = vs := by
  induction h generalizing n with
  | @one w1 v w2 hv =>
    have e : sp w1 ++ '\'' :: v ++ '\'' :: sp w2 ++ ['}'] = sp w1 ++ ('\'' :: v ++ '\'' :: (sp w2 ++ ['}'])) := by simp
    rw [e] at hn ⊢
    rw [findVals_skip (sp_quote w1) _ n hn]
    simp only [List.length_append, List.length_cons] at hn
    obtain ⟨m, hm⟩ : ∃ m, n - (sp w1).length = m + 1 := ⟨n - (sp w1).length - 1, by omega⟩
    rw [hm, findVals_quote hK hv]
    have hne : '\'' ∉ sp w2 ++ ['}'] := by
      rw [List.mem_append]
      rintro (h | h)
      · exact sp_quote w2 h
      · simp at h
    have := findVals_skip (K := K) hne [] m (by
      simp only [List.append_nil, List.length_append, List.length_cons, List.length_nil] at hn ⊢; omega)
    rw [List.append_nil] at this
    rw [this]
    congr 1
    cases m - (sp w2 ++ ['}']).length <;> rfl
  | @cons w1 v w2 vs s hv _ ih =>
    have e : sp w1 ++ '\'' :: v ++ '\'' :: (sp w2 ++ ',' :: s) ++ ['}'] =
        sp w1 ++ ('\'' :: v ++ '\'' :: (sp w2 ++ [','] ++ (s ++ ['}']))) := by simp
    rw [e] at hn ⊢
    rw [findVals_skip (sp_quote w1) _ n hn]
    simp only [List.length_append, List.length_cons] at hn
    obtain ⟨m, hm⟩ : ∃ m, n - (sp w1).length = m + 1 := ⟨n - (sp w1).length - 1, by omega⟩
    rw [hm, findVals_quote hK hv]
    have hne : '\'' ∉ sp w2 ++ [','] := by
      rw [List.mem_append]
      rintro (h | h)
      · exact sp_quote w2 h
      · simp at h
    rw [findVals_skip hne _ m (by simp only [List.length_append, List.length_cons, List.length_nil] at hn ⊢; omega)]
    rw [ih]
    simp only [List.length_append, List.length_cons, List.length_nil] at hn ⊢; omega

/-- Texts that are no call are tried against the expressions with keys. -/
theorem atomOf_key {nsSel : Bool} {s : List Char} (h : '(' ∉ s) : atomOf K nsSel s = match keyValRe K s with
    | some (k, true, v) => some (.eq (String.ofList k) (String.ofList v))
    | some (k, false, v) => some (.ne (String.ofList k) (String.ofList v))
    | none => match inRe K s with
      | some (k, false) => some (.mem (String.ofList k) ((findVals K s.length s).map String.ofList))
      | some (k, true) => some (.notMem (String.ofList k) ((findVals K s.length s).map String.ofList))
      | none => match strRe K s with
        | some (k, o, v) => some (.str (String.ofList k) o (String.ofList v))
        | none => none := by
  unfold atomOf
  rw [if_neg (fun hh => h (by rw [hh.2]; decide)), if_neg (fun hh => h (by rw [hh]; decide)), hasRe_none h]
  rfl

theorem sp_par (w : List Char) : '(' ∉ sp w := by
  unfold sp; by_cases h : w = []
  · rw [if_pos h]; simp
  · rw [if_neg h]; decide

theorem svals_par (hK : K.Ok) {vs : List (List Char)} {s : List Char} (h : SVals K vs s) : '(' ∉ s := by
  induction h with
  | @one w1 v w2 hv => simp [sp_par, hv.notMem hK (o := '(') (by simp)]
  | @cons w1 v w2 vs s hv _ ih => simp [sp_par, hv.notMem hK (o := '(') (by simp), ih]

theorem core_atom (hK : K.Ok) {nsSel : Bool} {a : Atom} {s : List Char} (h : Core K a s) (hg : a = .glob → nsSel = true) :
    atomOf K nsSel (squeeze K s) = some a := by
  have hl : ∀ a ∈ ['a', 'b', 'c', 'd', 'e', 'g', 'h', 'i', 'l', 'n', 'o', 'r', 's', 't', 'w'], K.ws a = false :=
    fun a ha => hK.disj a (hK.letters a ha)
  have hp : ∀ a ∈ ['(', ')', '!', '&', '|', '=', '\'', '{', '}', ','], K.ws a = false := fun a ha => (hK.punct a ha).2
  have hw : ∀ k, Word K k → ∀ a ∈ k, K.ws a = false := fun k hk a ha => hK.disj a (hk.2 a ha)
  have hq : ∀ v, Word K v → ∀ r, ∀ a, ('\'' :: v ++ r : List Char).head? = some a → K.ws a = false := fun v _ r a ha => by
    obtain rfl : '\'' = a := by simpa using ha
    exact hp _ (by simp)
  have np : ∀ {k}, Word K k → '(' ∉ k := fun hk => hk.notMem hK (by simp)
  -- the parts of an expression that compares with a text
  have strs : ∀ (k w1 : List Char) (c : Char) (op w2 v : List Char) (o : StrOp), Word K k → w1 ≠ [] → Word K v → '(' ∉ op → c ≠ '(' →
      K.ws c = false → c ≠ '=' → c ≠ '!' → c ≠ 'i' → c ≠ 'n' → strOp K (c :: op ++ (sp w2 ++ '\'' :: v ++ ['\''])) = some (o, sp w2 ++ '\'' :: v ++ ['\'']) →
      atomOf K nsSel (k ++ (sp w1 ++ (c :: op ++ (sp w2 ++ '\'' :: v ++ ['\''])))) = some (.str (String.ofList k) o (String.ofList v)) := by
    intro k w1 c op w2 v o hk h1 hv hop hc hcw c1 c2 c3 c4 hs
    have hh : ∀ a, (c :: op ++ (sp w2 ++ '\'' :: v ++ ['\''])).head? = some a → K.ws a = false := fun a ha => by
      obtain rfl : c = a := by simpa using ha
      exact hcw
    have hlab := label_word hk (r := sp w1 ++ (c :: op ++ (sp w2 ++ '\'' :: v ++ ['\'']))) (sp_head hK w1 (Or.inl h1))
    have hkv : keyValRe K (k ++ (sp w1 ++ (c :: op ++ (sp w2 ++ '\'' :: v ++ ['\''])))) = none := by
      unfold keyValRe
      have : eqOp (optWs K (sp w1 ++ (c :: op ++ (sp w2 ++ '\'' :: v ++ ['\''])))) = none := by
        rw [sp_optWs hK w1 hh]
        show eqOp (c :: (op ++ (sp w2 ++ '\'' :: v ++ ['\'']))) = none
        unfold eqOp
        split
        · rename_i heq; simp at heq; exact absurd heq.1 c1
        · rename_i heq; simp at heq; exact absurd heq.1 c2
        · rfl
      simp only [hlab, this, bind, Option.bind]
    have hin : inRe K (k ++ (sp w1 ++ (c :: op ++ (sp w2 ++ '\'' :: v ++ ['\''])))) = none := by
      unfold inRe
      have o1 : optNot K (c :: op ++ (sp w2 ++ '\'' :: v ++ ['\''])) = (false, c :: op ++ (sp w2 ++ '\'' :: v ++ ['\''])) := by
        unfold optNot
        have : lit ['n', 'o', 't'] (c :: op ++ (sp w2 ++ '\'' :: v ++ ['\''])) = none := by
          simp only [List.cons_append, lit]; rw [if_neg (fun h => c4 h.symm)]
        rw [this]; rfl
      have o2 : lit ['i', 'n'] (c :: op ++ (sp w2 ++ '\'' :: v ++ ['\''])) = none := by
        simp only [List.cons_append, lit]; rw [if_neg (fun h => c3 h.symm)]
      simp only [hlab, sp_oneWs hK h1, o1, o2, bind, Option.bind]
    have hst : strRest K (sp w1 ++ (c :: op ++ (sp w2 ++ '\'' :: v ++ ['\'']))) = some (o, v) := by
      unfold strRest
      have q := quoted_word hK hv []
      have : optWs K (sp w2 ++ '\'' :: v ++ ['\'']) = '\'' :: v ++ ['\''] := by
        rw [List.append_assoc]; exact sp_optWs hK w2 (hq v hv _)
      simp only [sp_optWs hK w1 hh, hs, this, q, bind, Option.bind, pure]
    rw [atomOf_key, hkv, hin, strRe_word hk (sp_head hK w1 (Or.inl h1)) hst]
    simp [np hk, sp_par, hop, np hv, hc]
    exact fun h => hc h.symm
  cases h with
  | all =>
    have : squeeze K "all()".toList = "all()".toList := by
      have := squeeze_word (K := K) (k := "all()".toList) (by
        intro a ha
        simp at ha
        rcases ha with rfl | rfl | rfl | rfl
        exacts [hl _ (by simp), hl _ (by simp), hp _ (by simp), hp _ (by simp)]) (by decide) []
      rw [sq_nil, List.append_nil] at this; exact this
    rw [this]
    unfold atomOf
    rw [if_neg (by simp), if_pos (by decide)]
  | glob =>
    have : squeeze K "global()".toList = "global()".toList := by
      have := squeeze_word (K := K) (k := "global()".toList) (by
        intro a ha
        simp at ha
        rcases ha with rfl | rfl | rfl | rfl | rfl | rfl | rfl | rfl
        all_goals first | exact hl _ (by decide) | exact hp _ (by decide)) (by decide) []
      rw [sq_nil, List.append_nil] at this; exact this
    rw [this]
    unfold atomOf
    rw [if_pos ⟨hg rfl, by decide⟩]
  | @has k hk =>
    have e : "has(".toList ++ k ++ ")".toList = ['h', 'a', 's', '('] ++ (k ++ [')']) := by simp
    have hsq : squeeze K (['h', 'a', 's', '('] ++ (k ++ [')'])) = ['h', 'a', 's', '('] ++ (k ++ [')']) := by
      have := squeeze_word (K := K) (k := ['h', 'a', 's', '('] ++ (k ++ [')'])) (by
        intro a ha
        simp only [List.mem_append, List.mem_cons, List.not_mem_nil, or_false] at ha
        rcases ha with (rfl | rfl | rfl | rfl) | ha | rfl
        exacts [hl _ (by simp), hl _ (by simp), hl _ (by simp), hp _ (by simp), hw k hk a ha, hp _ (by simp)]) (by simp) []
      rw [sq_nil, List.append_nil] at this; exact this
    rw [e, hsq]
    have hh : hasRe K (['h', 'a', 's', '('] ++ (k ++ [')'])) = some k := by
      unfold hasRe
      have h2 := label_word hk (r := [')']) (by
        intro a ha
        obtain rfl : ')' = a := by simpa using ha
        exact (hK.punct _ (by simp)).1)
      have h3 : lit [')'] [')'] = some [] := by decide
      simp only [lit_append, h2, h3, bind, Option.bind, pure]
    unfold atomOf
    rw [if_neg (by simp), if_neg (by simp), hh]
  | @eq k w1 w2 v hk h1 h2 hv =>
    have e : k ++ w1 ++ "==".toList ++ w2 ++ '\'' :: v ++ ['\''] =
        k ++ (w1 ++ (['=', '='] ++ (w2 ++ (('\'' :: v ++ ['\'']) ++ [])))) := by simp
    have e2 : squeeze K (k ++ w1 ++ "==".toList ++ w2 ++ '\'' :: v ++ ['\'']) =
        k ++ (sp w1 ++ (['=', '='] ++ (sp w2 ++ ('\'' :: v ++ ['\''])))) := by
      rw [e, squeeze_word (hw k hk) hk.1, sq_step h1 (by
        intro a ha; simp at ha; subst ha; exact hp _ (by simp)) (by simp), sq_step h2 (quote_plain hK hv) (by simp), sq_nil]
      simp
    have hkv : keyValRe K (k ++ (sp w1 ++ (['=', '='] ++ (sp w2 ++ ('\'' :: v ++ ['\'']))))) = some (k, true, v) := by
      have hlab := label_word hk (r := sp w1 ++ (['=', '='] ++ (sp w2 ++ ('\'' :: v ++ ['\''])))) (sp_head hK w1 (Or.inr (by
        intro a ha
        obtain rfl : '=' = a := by simpa using ha
        exact (hK.punct _ (by simp)).1)))
      have ho := sp_optWs hK w1 (r := ['=', '='] ++ (sp w2 ++ ('\'' :: v ++ ['\'']))) (by
        intro a ha
        obtain rfl : '=' = a := by simpa using ha
        exact hp _ (by simp))
      have ho2 : eqOp (['=', '='] ++ (sp w2 ++ ('\'' :: v ++ ['\'']))) = some (true, sp w2 ++ ('\'' :: v ++ ['\''])) := rfl
      have q := quoted_word hK hv []
      unfold keyValRe
      simp only [hlab, ho, ho2, sp_optWs hK w2 (hq v hv _), q, bind, Option.bind, pure]
    rw [e2, atomOf_key, hkv]
    simp [np hk, sp_par, np hv]
  | @ne k w1 w2 v hk h1 h2 hv =>
    have e : k ++ w1 ++ "!=".toList ++ w2 ++ '\'' :: v ++ ['\''] =
        k ++ (w1 ++ (['!', '='] ++ (w2 ++ (('\'' :: v ++ ['\'']) ++ [])))) := by simp
    have e2 : squeeze K (k ++ w1 ++ "!=".toList ++ w2 ++ '\'' :: v ++ ['\'']) =
        k ++ (sp w1 ++ (['!', '='] ++ (sp w2 ++ ('\'' :: v ++ ['\''])))) := by
      rw [e, squeeze_word (hw k hk) hk.1, sq_step h1 (by
        intro a ha; simp at ha; rcases ha with rfl | rfl <;> exact hp _ (by simp)) (by simp), sq_step h2 (quote_plain hK hv) (by simp), sq_nil]
      simp
    have hkv : keyValRe K (k ++ (sp w1 ++ (['!', '='] ++ (sp w2 ++ ('\'' :: v ++ ['\'']))))) = some (k, false, v) := by
      have hlab := label_word hk (r := sp w1 ++ (['!', '='] ++ (sp w2 ++ ('\'' :: v ++ ['\''])))) (sp_head hK w1 (Or.inr (by
        intro a ha
        obtain rfl : '!' = a := by simpa using ha
        exact (hK.punct _ (by simp)).1)))
      have ho := sp_optWs hK w1 (r := ['!', '='] ++ (sp w2 ++ ('\'' :: v ++ ['\'']))) (by
        intro a ha
        obtain rfl : '!' = a := by simpa using ha
        exact hp _ (by simp))
      have ho2 : eqOp (['!', '='] ++ (sp w2 ++ ('\'' :: v ++ ['\'']))) = some (false, sp w2 ++ ('\'' :: v ++ ['\''])) := rfl
      have q := quoted_word hK hv []
      unfold keyValRe
      simp only [hlab, ho, ho2, sp_optWs hK w2 (hq v hv _), q, bind, Option.bind, pure]
    rw [e2, atomOf_key, hkv]
    simp [np hk, sp_par, np hv]
  | @mem k w1 w2 vs s hk h1 hne h2 hv =>
    obtain ⟨t, ht, e1⟩ := vals_squeeze hK hv
    have e : k ++ w1 ++ "in".toList ++ w2 ++ '{' :: s ++ ['}'] = k ++ (w1 ++ (['i', 'n'] ++ (w2 ++ (['{'] ++ (s ++ ['}']))))) := by simp
    have e2 : squeeze K (k ++ w1 ++ "in".toList ++ w2 ++ '{' :: s ++ ['}']) =
        k ++ (sp w1 ++ (['i', 'n'] ++ (sp w2 ++ (['{'] ++ (t ++ ['}']))))) := by
      rw [e, squeeze_word (hw k hk) hk.1, sq_step h1 (by
        intro a ha; simp at ha; rcases ha with rfl | rfl <;> exact hl _ (by simp)) (by simp), sq_step h2 (by
        intro a ha; simp at ha; subst ha; exact hp _ (by simp)) (by simp), e1]
      simp
    have hlab := label_word hk (r := sp w1 ++ (['i', 'n'] ++ (sp w2 ++ (['{'] ++ (t ++ ['}']))))) (sp_head hK w1 (Or.inl hne))
    have hi : ∀ a, (['i', 'n'] ++ (sp w2 ++ (['{'] ++ (t ++ ['}'])))).head? = some a → K.ws a = false := by
      intro a ha
      obtain rfl : 'i' = a := by simpa using ha
      exact hl _ (by simp)
    have hkv : keyValRe K (k ++ (sp w1 ++ (['i', 'n'] ++ (sp w2 ++ (['{'] ++ (t ++ ['}'])))))) = none := by
      have ho2 : eqOp (['i', 'n'] ++ (sp w2 ++ (['{'] ++ (t ++ ['}'])))) = none := rfl
      unfold keyValRe
      simp only [hlab, sp_optWs hK w1 hi, ho2, bind, Option.bind]
    have hbr : lit ['{'] (optWs K (sp w2 ++ (['{'] ++ (t ++ ['}'])))) = some (t ++ ['}']) := by
      rw [sp_optWs hK w2 (by
        intro a ha
        obtain rfl : '{' = a := by simpa using ha
        exact hp _ (by simp)), lit_append]
    obtain ⟨v, r, r1, _, r2⟩ := svals_read hK ht
    have hin : inRe K (k ++ (sp w1 ++ (['i', 'n'] ++ (sp w2 ++ (['{'] ++ (t ++ ['}'])))))) = some (k, false) := by
      have on : optNot K (['i', 'n'] ++ (sp w2 ++ (['{'] ++ (t ++ ['}'])))) = (false, ['i', 'n'] ++ (sp w2 ++ (['{'] ++ (t ++ ['}'])))) := rfl
      unfold inRe
      simp only [hlab, sp_oneWs hK hne, on, lit_append, hbr, r1, bind, Option.bind, r2 _ (Nat.le_refl _), if_true]
    rw [e2, atomOf_key, hkv, hin]
    · simp only
      have hpre : '\'' ∉ k ++ (sp w1 ++ (['i', 'n'] ++ (sp w2 ++ ['{']))) := by
        simp [hk.notMem hK (o := '\'') (by simp), sp_quote]
      have e3 : k ++ (sp w1 ++ (['i', 'n'] ++ (sp w2 ++ (['{'] ++ (t ++ ['}']))))) =
          (k ++ (sp w1 ++ (['i', 'n'] ++ (sp w2 ++ ['{'])))) ++ (t ++ ['}']) := by simp
      rw [e3, findVals_skip hpre _ _ (Nat.le_refl _), svals_find hK ht]
      simp only [List.length_append, List.length_cons, List.length_nil]; omega
    · simp [np hk, sp_par, svals_par hK ht]
  | @notMem k w1 w2 w3 vs s hk h1 hne h2 hne2 h3 hv =>
    obtain ⟨t, ht, e1⟩ := vals_squeeze hK hv
    have e : k ++ w1 ++ "not".toList ++ w2 ++ "in".toList ++ w3 ++ '{' :: s ++ ['}'] =
        k ++ (w1 ++ (['n', 'o', 't'] ++ (w2 ++ (['i', 'n'] ++ (w3 ++ (['{'] ++ (s ++ ['}']))))))) := by simp
    have e2 : squeeze K (k ++ w1 ++ "not".toList ++ w2 ++ "in".toList ++ w3 ++ '{' :: s ++ ['}']) =
        k ++ (sp w1 ++ (['n', 'o', 't'] ++ (sp w2 ++ (['i', 'n'] ++ (sp w3 ++ (['{'] ++ (t ++ ['}']))))))) := by
      rw [e, squeeze_word (hw k hk) hk.1, sq_step h1 (by
        intro a ha; simp at ha; rcases ha with rfl | rfl | rfl <;> exact hl _ (by simp)) (by simp), sq_step h2 (by
        intro a ha; simp at ha; rcases ha with rfl | rfl <;> exact hl _ (by simp)) (by simp), sq_step h3 (by
        intro a ha; simp at ha; subst ha; exact hp _ (by simp)) (by simp), e1]
      simp
    have hlab := label_word hk (r := sp w1 ++ (['n', 'o', 't'] ++ (sp w2 ++ (['i', 'n'] ++ (sp w3 ++ (['{'] ++ (t ++ ['}']))))))) (sp_head hK w1 (Or.inl hne))
    have hi : ∀ a, (['n', 'o', 't'] ++ (sp w2 ++ (['i', 'n'] ++ (sp w3 ++ (['{'] ++ (t ++ ['}'])))))).head? = some a → K.ws a = false := by
      intro a ha
      obtain rfl : 'n' = a := by simpa using ha
      exact hl _ (by simp)
    have hkv : keyValRe K (k ++ (sp w1 ++ (['n', 'o', 't'] ++ (sp w2 ++ (['i', 'n'] ++ (sp w3 ++ (['{'] ++ (t ++ ['}'])))))))) = none := by
      have ho2 : eqOp (['n', 'o', 't'] ++ (sp w2 ++ (['i', 'n'] ++ (sp w3 ++ (['{'] ++ (t ++ ['}'])))))) = none := rfl
      unfold keyValRe
      simp only [hlab, sp_optWs hK w1 hi, ho2, bind, Option.bind]
    have hbr : lit ['{'] (optWs K (sp w3 ++ (['{'] ++ (t ++ ['}'])))) = some (t ++ ['}']) := by
      rw [sp_optWs hK w3 (by
        intro a ha
        obtain rfl : '{' = a := by simpa using ha
        exact hp _ (by simp)), lit_append]
    obtain ⟨v, r, r1, _, r2⟩ := svals_read hK ht
    have hin : inRe K (k ++ (sp w1 ++ (['n', 'o', 't'] ++ (sp w2 ++ (['i', 'n'] ++ (sp w3 ++ (['{'] ++ (t ++ ['}'])))))))) = some (k, true) := by
      have on : optNot K (['n', 'o', 't'] ++ (sp w2 ++ (['i', 'n'] ++ (sp w3 ++ (['{'] ++ (t ++ ['}'])))))) =
          (true, ['i', 'n'] ++ (sp w3 ++ (['{'] ++ (t ++ ['}'])))) := by
        unfold optNot
        rw [lit_append]
        simp only [Option.bind, sp_oneWs hK hne2]
      unfold inRe
      simp only [hlab, sp_oneWs hK hne, on, lit_append, hbr, r1, bind, Option.bind, r2 _ (Nat.le_refl _), if_true]
    rw [e2, atomOf_key, hkv, hin]
    · simp only
      have hpre : '\'' ∉ k ++ (sp w1 ++ (['n', 'o', 't'] ++ (sp w2 ++ (['i', 'n'] ++ (sp w3 ++ ['{']))))) := by
        simp [hk.notMem hK (o := '\'') (by simp), sp_quote]
      have e3 : k ++ (sp w1 ++ (['n', 'o', 't'] ++ (sp w2 ++ (['i', 'n'] ++ (sp w3 ++ (['{'] ++ (t ++ ['}']))))))) =
          (k ++ (sp w1 ++ (['n', 'o', 't'] ++ (sp w2 ++ (['i', 'n'] ++ (sp w3 ++ ['{'])))))) ++ (t ++ ['}']) := by simp
      rw [e3, findVals_skip hpre _ _ (Nat.le_refl _), svals_find hK ht]
      simp only [List.length_append, List.length_cons, List.length_nil]; omega
    · simp [np hk, sp_par, svals_par hK ht]
  | @contains k w1 w2 v hk h1 hne h2 hv =>
    have e : k ++ w1 ++ "contains".toList ++ w2 ++ '\'' :: v ++ ['\''] =
        k ++ (w1 ++ (['c', 'o', 'n', 't', 'a', 'i', 'n', 's'] ++ (w2 ++ (('\'' :: v ++ ['\'']) ++ [])))) := by simp
    have e2 : squeeze K (k ++ w1 ++ "contains".toList ++ w2 ++ '\'' :: v ++ ['\'']) =
        k ++ (sp w1 ++ (['c', 'o', 'n', 't', 'a', 'i', 'n', 's'] ++ (sp w2 ++ '\'' :: v ++ ['\'']))) := by
      rw [e, squeeze_word (hw k hk) hk.1, sq_step h1 (by
        intro a ha
        refine hl a ?_
        revert ha; simp only [List.mem_cons, List.not_mem_nil, or_false]
        rintro (rfl | rfl | rfl | rfl | rfl | rfl | rfl | rfl) <;> decide) (by simp), sq_step h2 (quote_plain hK hv) (by simp), sq_nil]
      simp
    rw [e2]
    refine strs k w1 'c' ['o', 'n', 't', 'a', 'i', 'n', 's'] w2 v .contain hk hne hv (by decide) (by decide) (hl _ (by simp))
      (by decide) (by decide) (by decide) (by decide) ?_
    unfold strOp
    rw [show 'c' :: ['o', 'n', 't', 'a', 'i', 'n', 's'] = ['c', 'o', 'n', 't', 'a', 'i', 'n', 's'] from rfl, lit_append]
  | @starts k w1 w2 w3 v hk h1 hne h2 hne2 h3 hv =>
    have e : k ++ w1 ++ "starts".toList ++ w2 ++ "with".toList ++ w3 ++ '\'' :: v ++ ['\''] =
        k ++ (w1 ++ (['s', 't', 'a', 'r', 't', 's'] ++ (w2 ++ (['w', 'i', 't', 'h'] ++ (w3 ++ (('\'' :: v ++ ['\'']) ++ [])))))) := by simp
    have e2 : squeeze K (k ++ w1 ++ "starts".toList ++ w2 ++ "with".toList ++ w3 ++ '\'' :: v ++ ['\'']) =
        k ++ (sp w1 ++ ('s' :: (['t', 'a', 'r', 't', 's'] ++ sp w2 ++ ['w', 'i', 't', 'h']) ++ (sp w3 ++ '\'' :: v ++ ['\'']))) := by
      rw [e, squeeze_word (hw k hk) hk.1, sq_step h1 (by
        intro a ha
        refine hl a ?_
        revert ha; simp only [List.mem_cons, List.not_mem_nil, or_false]
        rintro (rfl | rfl | rfl | rfl | rfl | rfl) <;> decide) (by simp), sq_step h2 (by
        intro a ha
        refine hl a ?_
        revert ha; simp only [List.mem_cons, List.not_mem_nil, or_false]
        rintro (rfl | rfl | rfl | rfl) <;> decide) (by simp), sq_step h3 (quote_plain hK hv) (by simp), sq_nil]
      simp
    rw [e2]
    refine strs k w1 's' _ w3 v .startWith hk hne hv (by simp [sp_par]) (by decide) (hl _ (by simp))
      (by decide) (by decide) (by decide) (by decide) ?_
    have e3 : 's' :: (['t', 'a', 'r', 't', 's'] ++ sp w2 ++ ['w', 'i', 't', 'h']) ++ (sp w3 ++ '\'' :: v ++ ['\'']) =
        ['s', 't', 'a', 'r', 't', 's'] ++ (sp w2 ++ (['w', 'i', 't', 'h'] ++ (sp w3 ++ '\'' :: v ++ ['\'']))) := by simp
    have e4 : lit ['c', 'o', 'n', 't', 'a', 'i', 'n', 's'] (['s', 't', 'a', 'r', 't', 's'] ++ (sp w2 ++ (['w', 'i', 't', 'h'] ++ (sp w3 ++ '\'' :: v ++ ['\''])))) = none := rfl
    rw [e3]
    unfold strOp
    simp only [e4, lit_append, Option.bind, sp_oneWs hK hne2]
  | @ends k w1 w2 w3 v hk h1 hne h2 hne2 h3 hv =>
    have e : k ++ w1 ++ "ends".toList ++ w2 ++ "with".toList ++ w3 ++ '\'' :: v ++ ['\''] =
        k ++ (w1 ++ (['e', 'n', 'd', 's'] ++ (w2 ++ (['w', 'i', 't', 'h'] ++ (w3 ++ (('\'' :: v ++ ['\'']) ++ [])))))) := by simp
    have e2 : squeeze K (k ++ w1 ++ "ends".toList ++ w2 ++ "with".toList ++ w3 ++ '\'' :: v ++ ['\'']) =
        k ++ (sp w1 ++ ('e' :: (['n', 'd', 's'] ++ sp w2 ++ ['w', 'i', 't', 'h']) ++ (sp w3 ++ '\'' :: v ++ ['\'']))) := by
      rw [e, squeeze_word (hw k hk) hk.1, sq_step h1 (by
        intro a ha
        refine hl a ?_
        revert ha; simp only [List.mem_cons, List.not_mem_nil, or_false]
        rintro (rfl | rfl | rfl | rfl) <;> decide) (by simp), sq_step h2 (by
        intro a ha
        refine hl a ?_
        revert ha; simp only [List.mem_cons, List.not_mem_nil, or_false]
        rintro (rfl | rfl | rfl | rfl) <;> decide) (by simp), sq_step h3 (quote_plain hK hv) (by simp), sq_nil]
      simp
    rw [e2]
    refine strs k w1 'e' _ w3 v .endWith hk hne hv (by simp [sp_par]) (by decide) (hl _ (by simp))
      (by decide) (by decide) (by decide) (by decide) ?_
    have e3 : 'e' :: (['n', 'd', 's'] ++ sp w2 ++ ['w', 'i', 't', 'h']) ++ (sp w3 ++ '\'' :: v ++ ['\'']) =
        ['e', 'n', 'd', 's'] ++ (sp w2 ++ (['w', 'i', 't', 'h'] ++ (sp w3 ++ '\'' :: v ++ ['\'']))) := by simp
    have e4 : lit ['c', 'o', 'n', 't', 'a', 'i', 'n', 's'] (['e', 'n', 'd', 's'] ++ (sp w2 ++ (['w', 'i', 't', 'h'] ++ (sp w3 ++ '\'' :: v ++ ['\''])))) = none := rfl
    have e5 : lit ['s', 't', 'a', 'r', 't', 's'] (['e', 'n', 'd', 's'] ++ (sp w2 ++ (['w', 'i', 't', 'h'] ++ (sp w3 ++ '\'' :: v ++ ['\''])))) = none := rfl
    rw [e3]
    unfold strOp
    simp only [e4, e5, lit_append, Option.bind, sp_oneWs hK hne2]

end
end CalicoParser
end Verif
