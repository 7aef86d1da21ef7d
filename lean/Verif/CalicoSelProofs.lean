import Verif.CalicoSelSpec
/-!
Brackets, operators and white space of Calico's selectors: what splitting and stripping do to the texts of the grammar.
-/
namespace Verif
namespace CalicoParser
open Container

/-! ### Brackets -/

/-- Opening minus closing brackets. -/
def depth (s : List Char) : Int := (s.count '(' : Int) - s.count ')'

theorem depth_nil : depth [] = 0 := rfl

theorem depth_append (a b : List Char) : depth (a ++ b) = depth a + depth b := by
  unfold depth; rw [List.count_append, List.count_append]; omega

theorem depth_cons (a : Char) (s : List Char) :
    depth (a :: s) = (if a = '(' then 1 else if a = ')' then -1 else 0) + depth s := by
  unfold depth
  rw [List.count_cons, List.count_cons]
  by_cases h1 : a = '('
  · subst h1; simp; omega
  · by_cases h2 : a = ')'
    · subst h2; simp; omega
    · simp [h1, h2]

theorem even_iff (s : List Char) : even s = true ↔ depth s = 0 := by
  unfold even depth
  rw [beq_iff_eq]; omega

theorem closes_iff (s : List Char) (n : Int) :
    closes n s = true ↔ ∃ P Q, s = P ++ Q ∧ P ≠ [] ∧ n + depth P = 0 := by
  induction s generalizing n with
  | nil =>
    simp only [closes, Bool.false_eq_true, false_iff]
    rintro ⟨P, Q, h, hne, _⟩
    exact hne (List.append_eq_nil_iff.1 h.symm).1
  | cons a t ih =>
    have key : (if a = '(' then n + 1 else if a = ')' then n - 1 else n) =
        n + (if a = '(' then 1 else if a = ')' then -1 else 0) := by
      by_cases h1 : a = '('
      · simp [h1]
      · by_cases h2 : a = ')'
        · simp [h2]; omega
        · simp [h1, h2]
    simp only [closes, Bool.or_eq_true, decide_eq_true_eq]
    rw [key, ih]
    constructor
    · rintro (h | ⟨P, Q, rfl, hne, hd⟩)
      · exact ⟨[a], t, rfl, by simp, by rw [depth_cons, depth_nil]; omega⟩
      · exact ⟨a :: P, Q, rfl, by simp, by rw [depth_cons]; omega⟩
    · rintro ⟨P, Q, h, hne, hd⟩
      cases P with
      | nil => exact absurd rfl hne
      | cons b P =>
        obtain ⟨rfl, rfl⟩ : a = b ∧ t = P ++ Q := by simpa using h
        rw [depth_cons] at hd
        by_cases hP : P = []
        · subst hP; left; rw [depth_nil] at hd; omega
        · right; exact ⟨P, Q, rfl, hP, by omega⟩

/-- Brackets are matched. -/
def Bal (s : List Char) : Prop := depth s = 0 ∧ ∀ P Q, s = P ++ Q → 0 ≤ depth P

theorem Bal.append {a b : List Char} (ha : Bal a) (hb : Bal b) : Bal (a ++ b) := by
  refine ⟨by rw [depth_append, ha.1, hb.1]; omega, fun P Q h => ?_⟩
  rcases List.append_eq_append_iff.1 h with ⟨c, rfl, h2⟩ | ⟨c, h1, _⟩
  · rw [depth_append, ha.1]; have := hb.2 c Q h2; omega
  · exact ha.2 P c h1

theorem depth_none {s : List Char} (h : ∀ a ∈ s, a ≠ '(' ∧ a ≠ ')') : depth s = 0 := by
  unfold depth
  rw [List.count_eq_zero.2 (fun hm => (h _ hm).1 rfl), List.count_eq_zero.2 (fun hm => (h _ hm).2 rfl)]; rfl

theorem bal_none {s : List Char} (h : ∀ a ∈ s, a ≠ '(' ∧ a ≠ ')') : Bal s := by
  refine ⟨depth_none h, fun P Q hs => ?_⟩
  rw [depth_none (fun a ha => h a (by rw [hs]; exact List.mem_append_left _ ha))]; exact Int.le_refl 0

theorem Bal.paren {s : List Char} (h : Bal s) : Bal ('(' :: s ++ [')']) := by
  refine ⟨?_, fun P Q hs => ?_⟩
  · rw [depth_append, depth_cons, h.1, depth_cons, depth_nil]; decide
  · cases P with
    | nil => exact Int.le_refl 0
    | cons a P =>
      obtain ⟨rfl, hs'⟩ : '(' = a ∧ s ++ [')'] = P ++ Q := by simpa using hs
      rw [depth_cons, if_pos rfl]
      rcases List.append_eq_append_iff.1 hs' with ⟨c, rfl, h2⟩ | ⟨c, h1, _⟩
      · rw [depth_append, h.1]
        cases c with
        | nil => rw [depth_nil]; decide
        | cons b c =>
          obtain ⟨rfl, hc⟩ : ')' = b ∧ [] = c ++ Q := by simpa using h2
          rw [(List.append_eq_nil_iff.1 hc.symm).1, depth_cons, depth_nil]; decide
      · have := h.2 P c h1; omega

/-! ### Operators -/

/-- Read from the left, the character comes in pairs. -/
def paired (o : Char) : List Char → Prop
  | [] => True
  | [a] => a ≠ o
  | a :: b :: t => if a = o then b = o ∧ paired o t else paired o (b :: t)

theorem paired_none {o : Char} {s : List Char} (h : o ∉ s) : paired o s := by
  induction s with
  | nil => trivial
  | cons a t ih =>
    have ha : a ≠ o := fun e => h (by rw [e]; exact List.mem_cons_self)
    cases t with
    | nil => exact ha
    | cons b t => unfold paired; rw [if_neg ha]; exact ih (fun hm => h (List.mem_cons_of_mem _ hm))

theorem paired_append {o : Char} {a b : List Char} (ha : paired o a) (hb : paired o b) : paired o (a ++ b) := by
  induction a using paired.induct o with
  | case1 => exact hb
  | case2 x =>
    have hx : x ≠ o := ha
    cases b with
    | nil => exact hx
    | cons y t => show paired o (x :: y :: t); unfold paired; rw [if_neg hx]; exact hb
  | case3 y t ih =>
    unfold paired at ha
    rw [if_pos rfl] at ha
    show paired o (o :: y :: (t ++ b))
    unfold paired
    rw [if_pos rfl]
    exact ⟨ha.1, ih ha.2⟩
  | case4 x y t hx ih =>
    unfold paired at ha
    rw [if_neg hx] at ha
    show paired o (x :: y :: (t ++ b))
    unfold paired
    rw [if_neg hx]
    exact ih ha

theorem splitOp_ne (o : Char) (s : List Char) : ∃ p ps, splitOp o s = p :: ps := by
  induction s using splitOp.induct o with
  | case1 => exact ⟨_, _, rfl⟩
  | case2 a => exact ⟨_, _, rfl⟩
  | case3 a b t h ih => exact ⟨[], splitOp o t, by rw [splitOp, if_pos h]⟩
  | case4 a b t hn heq ih => obtain ⟨p, ps, h⟩ := ih; rw [heq] at h; cases h
  | case5 a b t hn p ps heq ih => exact ⟨a :: p, ps, by rw [splitOp, if_neg hn, heq]⟩

theorem splitOp_pair (o : Char) (t : List Char) : splitOp o (o :: o :: t) = [] :: splitOp o t := by
  rw [splitOp, if_pos ⟨rfl, rfl⟩]

theorem splitOp_cons {o a : Char} {t : List Char} (h : ¬ (a = o ∧ t.head? = some o)) {p : List Char} {ps : List (List Char)}
    (ht : splitOp o t = p :: ps) : splitOp o (a :: t) = (a :: p) :: ps := by
  cases t with
  | nil =>
    obtain ⟨rfl, rfl⟩ : ([] : List Char) = p ∧ [] = ps := by simpa [splitOp] using ht
    rfl
  | cons b t =>
    rw [splitOp, if_neg (fun hh => h ⟨hh.1, by rw [hh.2]; rfl⟩), ht]

theorem splitOp_append {o : Char} {A : List Char} (hA : paired o A) (R : List Char) :
    splitOp o (A ++ o :: o :: R) = splitOp o A ++ splitOp o R := by
  induction A using paired.induct o with
  | case1 => exact splitOp_pair o R
  | case2 x =>
    have hx : x ≠ o := hA
    exact splitOp_cons (fun hh => hx hh.1) (splitOp_pair o R)
  | case3 y t ih =>
    unfold paired at hA
    rw [if_pos rfl] at hA
    obtain ⟨rfl, ht⟩ := hA
    show splitOp y (y :: y :: (t ++ y :: y :: R)) = _
    rw [splitOp_pair, splitOp_pair, ih ht]; rfl
  | case4 x y t hx ih =>
    unfold paired at hA
    rw [if_neg hx] at hA
    obtain ⟨p, ps, h⟩ := splitOp_ne o (y :: t)
    rw [splitOp_cons (fun hh => hx hh.1) h]
    show splitOp o (x :: (y :: t ++ o :: o :: R)) = _
    have := ih hA
    rw [h] at this
    rw [splitOp_cons (fun hh => hx hh.1) this]; rfl

/-- No operator outside of brackets. -/
def NoTop (o : Char) (s : List Char) : Prop := ∀ P Q, s = P ++ o :: o :: Q → depth P ≠ 0

theorem noTop_none {o : Char} {s : List Char} (h : o ∉ s) : NoTop o s := by
  intro P Q hs
  exact absurd (by rw [hs]; simp) h

theorem NoTop.append {o : Char} {a b : List Char} (ha : NoTop o a) (hd : depth a = 0) (hb : NoTop o b)
    (hs : a.getLast? ≠ some o ∨ b.head? ≠ some o) : NoTop o (a ++ b) := by
  intro P Q h
  rcases List.append_eq_append_iff.1 h with ⟨c, rfl, h2⟩ | ⟨c, h1, h2⟩
  · rw [depth_append, hd]; have := hb c Q h2; omega
  · rcases c with _ | ⟨x, _ | ⟨y, c⟩⟩
    · have h3 : b = o :: o :: Q := by simpa using h2.symm
      have := hb [] Q h3
      rw [List.append_nil] at h1
      rw [← h1, hd]; rw [depth_nil] at this; omega
    · obtain ⟨rfl, h3⟩ : o = x ∧ o :: Q = b := by simpa using h2
      rcases hs with hs | hs
      · exact absurd (by rw [h1]; simp) hs
      · exact absurd (by rw [← h3]; rfl) hs
    · obtain ⟨rfl, rfl, rfl⟩ : o = x ∧ o = y ∧ Q = c ++ b := by simpa using h2
      exact ha P c h1

theorem NoTop.paren {o : Char} {s : List Char} (h : Bal s) (ho : o ≠ '(' ∧ o ≠ ')') : NoTop o ('(' :: s ++ [')']) := by
  intro P Q hs
  cases P with
  | nil =>
    have h1 : '(' = o := by
      have := congrArg List.head? hs
      simpa using this
    exact absurd h1.symm ho.1
  | cons a P =>
    obtain ⟨rfl, hs'⟩ : '(' = a ∧ s ++ [')'] = P ++ o :: o :: Q := by simpa using hs
    rw [depth_cons, if_pos rfl]
    rcases List.append_eq_append_iff.1 hs' with ⟨c, rfl, h2⟩ | ⟨c, h1, _⟩
    · have := congrArg List.length h2
      simp at this
      omega
    · have := h.2 P c h1; omega

theorem joinParts_text {o : Char} (A : List Char) (hA : paired o A) (cur : List Char) (rest : List (List Char))
    (hn : ∀ P Q, A = P ++ o :: o :: Q → depth (cur ++ P) ≠ 0) (hd : depth (cur ++ A) = 0) :
    joinParts o cur (splitOp o A ++ rest) = (cur ++ A) :: joinParts o [] rest := by
  induction A using paired.induct o generalizing cur with
  | case1 =>
    show joinParts o cur ([] :: rest) = _
    rw [joinParts, if_pos ((even_iff _).2 hd)]
  | case2 x =>
    show joinParts o cur ([x] :: rest) = _
    rw [joinParts, if_pos ((even_iff _).2 hd)]
  | case3 y t ih =>
    unfold paired at hA
    rw [if_pos rfl] at hA
    obtain ⟨rfl, ht⟩ := hA
    have h0 : ¬ even (cur ++ []) = true := by
      rw [even_iff]; exact hn [] t rfl
    have e : cur ++ [] ++ [y, y] ++ t = cur ++ y :: y :: t := by simp
    rw [splitOp_pair, List.cons_append]
    rw [joinParts, if_neg h0, ih ht (cur ++ [] ++ [y, y]) (fun P Q h => by
      have := hn (y :: y :: P) Q (by rw [h]; rfl)
      have e' : cur ++ [] ++ [y, y] ++ P = cur ++ y :: y :: P := by simp
      rw [e']; exact this) (by rw [e]; exact hd), e]
  | case4 x y t hx ih =>
    unfold paired at hA
    rw [if_neg hx] at hA
    obtain ⟨p, ps, h⟩ := splitOp_ne o (y :: t)
    have e : cur ++ [x] ++ (y :: t) = cur ++ x :: y :: t := by simp
    have := ih hA (cur ++ [x]) (fun P Q hP => by
      have := hn (x :: P) Q (by rw [hP]; rfl)
      have e' : cur ++ [x] ++ P = cur ++ x :: P := by simp
      rw [e']; exact this) (by rw [e]; exact hd)
    rw [splitOp_cons (fun hh => hx hh.1) h, ← e, ← this, h]
    show joinParts o cur ((x :: p) :: (ps ++ rest)) = joinParts o (cur ++ [x]) (p :: (ps ++ rest))
    have e2 : cur ++ x :: p = cur ++ [x] ++ p := by simp
    simp only [joinParts]
    rw [e2]

theorem splitSel_one {o : Char} {A : List Char} (hA : paired o A) (hn : NoTop o A) (hd : depth A = 0) :
    splitSel o A = [A] := by
  have := joinParts_text A hA [] [] (fun P Q h => hn P Q h) hd
  rw [List.append_nil] at this
  exact this

theorem splitSel_cons {o : Char} {A : List Char} (hA : paired o A) (hn : NoTop o A) (hd : depth A = 0) (R : List Char) :
    splitSel o (A ++ o :: o :: R) = A :: splitSel o R := by
  unfold splitSel
  rw [splitOp_append hA]
  exact joinParts_text A hA [] _ (fun P Q h => hn P Q h) hd

/-! ### White space -/

section
variable {K : CharCls}

theorem dropWhile_blank {f : Char → Bool} {w s : List Char} (hw : ∀ a ∈ w, f a = true) (hs : ∀ a, s.head? = some a → f a = false) :
    (w ++ s).dropWhile f = s := by
  induction w with
  | nil =>
    cases s with
    | nil => rfl
    | cons a t => simp only [List.nil_append, List.dropWhile]; rw [hs a rfl]
  | cons a t ih =>
    simp only [List.cons_append, List.dropWhile]
    rw [hw a List.mem_cons_self]
    exact ih (fun x hx => hw x (List.mem_cons_of_mem _ hx))

theorem strip_blank {w1 s w2 : List Char} (h1 : Blank K w1) (h2 : Blank K w2) (hh : ∀ a, s.head? = some a → K.ws a = false)
    (hl : ∀ a, s.getLast? = some a → K.ws a = false) (hne : s ≠ []) : strip K (w1 ++ s ++ w2) = s := by
  unfold strip
  rw [List.append_assoc, dropWhile_blank h1 (by
    intro a ha
    cases s with
    | nil => exact absurd rfl hne
    | cons b t => exact hh a ha), List.reverse_append, dropWhile_blank (fun a ha => h2 a (List.mem_reverse.1 ha)) (by
    intro a ha
    rw [List.head?_reverse] at ha
    exact hl a ha), List.reverse_reverse]


theorem Word.notMem (hK : K.Ok) {k : List Char} (hk : Word K k) {o : Char}
    (ho : o ∈ ['(', ')', '!', '&', '|', '=', '\'', '{', '}', ',']) : o ∉ k := fun hm => by
  have := hk.2 o hm
  rw [(hK.punct o ho).1] at this; cases this

theorem Blank.notMem (hK : K.Ok) {w : List Char} (hw : Blank K w) {o : Char}
    (ho : o ∈ ['(', ')', '!', '&', '|', '=', '\'', '{', '}', ',']) : o ∉ w := fun hm => by
  have := hw o hm
  rw [(hK.punct o ho).2] at this; cases this

theorem Blank.notLab (hK : K.Ok) {w : List Char} (hw : Blank K w) {o : Char} (ho : K.lab o = true) : o ∉ w := fun hm => by
  have := hw o hm
  rw [hK.disj o ho] at this; cases this

theorem Vals.notMem (hK : K.Ok) {vs : List (List Char)} {s : List Char} (h : Vals K vs s) {o : Char}
    (ho : o ∈ ['(', ')', '!', '&', '|']) : o ∉ s := by
  have ho' : o ∈ ['(', ')', '!', '&', '|', '=', '\'', '{', '}', ','] := by
    simp only [List.mem_cons, List.not_mem_nil, or_false] at ho ⊢
    rcases ho with h | h | h | h | h <;> simp [h]
  have hq : o ≠ '\'' ∧ o ≠ ',' := by
    simp only [List.mem_cons, List.not_mem_nil, or_false] at ho
    rcases ho with rfl | rfl | rfl | rfl | rfl <;> decide
  induction h with
  | one h1 hv h2 => simp [h1.notMem hK ho', hv.notMem hK ho', h2.notMem hK ho', hq.1]
  | cons h1 hv h2 _ ih => simp [h1.notMem hK ho', hv.notMem hK ho', h2.notMem hK ho', hq.1, hq.2, ih]

/-- What holds of every text of the grammar. -/
structure Nice (K : CharCls) (s : List Char) : Prop where
  ne : s ≠ []
  head : ∀ a, s.head? = some a → K.ws a = false
  last : ∀ a, s.getLast? = some a → K.ws a = false ∧ a ≠ '&' ∧ a ≠ '|'
  bal : Bal s
  bars : paired '|' s
  amps : paired '&' s

theorem Word.head (hK : K.Ok) {k : List Char} (hk : Word K k) (r : List Char) {a : Char}
    (h : (k ++ r).head? = some a) : K.lab a = true := by
  cases k with
  | nil => exact absurd rfl hk.1
  | cons b t =>
    obtain rfl : b = a := by simpa using h
    exact hk.2 b List.mem_cons_self

/-- What holds of the text of an expression without operators. -/
structure NiceCore (K : CharCls) (s : List Char) : Prop where
  nice : Nice K s
  noBar : '|' ∉ s
  noAmp : '&' ∉ s
  head : ∀ a, s.head? = some a → a ≠ '(' ∧ a ≠ '!'

theorem core_nice (hK : K.Ok) {a : Atom} {s : List Char} (h : Core K a s) : NiceCore K s := by
  have hp : ∀ o ∈ ['(', ')', '!', '&', '|', '=', '\'', '{', '}', ','], K.ws o = false := fun o ho => (hK.punct o ho).2
  have hlp : ∀ o, K.lab o = true → o ≠ '(' ∧ o ≠ '!' := fun o ho =>
    ⟨fun e => (by rw [e, (hK.punct '(' (by simp)).1] at ho; cases ho), fun e => (by rw [e, (hK.punct '!' (by simp)).1] at ho; cases ho)⟩
  have hq : K.ws '\'' = false ∧ '\'' ≠ '&' ∧ '\'' ≠ '|' := ⟨hp _ (by simp), by decide, by decide⟩
  have hb : K.ws '}' = false ∧ '}' ≠ '&' ∧ '}' ≠ '|' := ⟨hp _ (by simp), by decide, by decide⟩
  have hr : K.ws ')' = false ∧ ')' ≠ '&' ∧ ')' ≠ '|' := ⟨hp _ (by simp), by decide, by decide⟩
  have build : ∀ s : List Char, s ≠ [] → (∀ a, s.head? = some a → K.lab a = true) →
      (∀ a, s.getLast? = some a → K.ws a = false ∧ a ≠ '&' ∧ a ≠ '|') → Bal s → '|' ∉ s → '&' ∉ s → NiceCore K s :=
    fun s h1 h2 h3 h4 h5 h6 => ⟨⟨h1, fun a ha => hK.disj a (h2 a ha), h3, h4, paired_none h5, paired_none h6⟩, h5, h6,
      fun a ha => hlp a (h2 a ha)⟩
  have plain : ∀ s : List Char, s ≠ [] → (∀ a, s.head? = some a → K.lab a = true) →
      (∀ a, s.getLast? = some a → K.ws a = false ∧ a ≠ '&' ∧ a ≠ '|') →
      (∀ o ∈ ['(', ')', '!', '&', '|'], o = '!' ∨ o ∉ s) → NiceCore K s :=
    fun s h1 h2 h3 h4 => by
      have out : ∀ o ∈ ['(', ')', '!', '&', '|'], o ≠ '!' → o ∉ s := fun o ho hn => (h4 o ho).resolve_left hn
      exact build s h1 h2 h3 (bal_none (fun a ha => ⟨fun e => out '(' (by simp) (by decide) (e ▸ ha),
        fun e => out ')' (by simp) (by decide) (e ▸ ha)⟩)) (out '|' (by simp) (by decide)) (out '&' (by simp) (by decide))
  have lits : ∀ o ∈ ['(', ')', '!', '&', '|'], o ∉ ['=', '\'', 'i', 'n', '{', '}', 'o', 't', 'c', 'a', 's', 'r', 'w', 'h', 'e', 'd'] := by
    decide
  have mp : ∀ o ∈ ['(', ')', '!', '&', '|'], o ∈ ['(', ')', '!', '&', '|', '=', '\'', '{', '}', ','] := by decide
  cases h with
  | all =>
    refine build _ (by decide) (fun a ha => ?_) (fun a ha => ?_) ⟨by decide, ?_⟩ (by decide) (by decide)
    · obtain rfl : 'a' = a := by simpa using ha
      exact hK.letters _ (by simp)
    · obtain rfl : ')' = a := by simpa using ha
      exact hr
    · exact ((bal_none (s := ['a', 'l', 'l']) (by decide)).append (Bal.paren (s := []) (bal_none (by simp)))).2
  | glob =>
    refine build _ (by decide) (fun a ha => ?_) (fun a ha => ?_) ⟨by decide, ?_⟩ (by decide) (by decide)
    · obtain rfl : 'g' = a := by simpa using ha
      exact hK.letters _ (by simp)
    · obtain rfl : ')' = a := by simpa using ha
      exact hr
    · exact ((bal_none (s := ['g', 'l', 'o', 'b', 'a', 'l']) (by decide)).append (Bal.paren (s := []) (bal_none (by simp)))).2
  | has hk =>
    rename_i k
    have e : "has(".toList ++ k ++ ")".toList = ['h', 'a', 's'] ++ ('(' :: k ++ [')']) := by simp
    rw [e]
    have n1 := hk.notMem hK (o := '|') (by simp)
    have n2 := hk.notMem hK (o := '&') (by simp)
    refine build _ (by simp) (fun a ha => ?_) (fun a ha => ?_) ?_ (by simp [n1]) (by simp [n2])
    · obtain rfl : 'h' = a := by simpa using ha
      exact hK.letters _ (by simp)
    · obtain rfl : ')' = a := by simpa [List.getLast?_append, List.getLast?_cons] using ha
      exact hr
    · exact (bal_none (by decide)).append (Bal.paren (bal_none (fun a ha =>
        ⟨fun e => hk.notMem hK (o := '(') (by simp) (e ▸ ha), fun e => hk.notMem hK (o := ')') (by simp) (e ▸ ha)⟩)))
  | eq hk h1 h2 hv =>
    refine plain _ (by simp) (fun a ha => by simp only [List.append_assoc] at ha; exact Word.head hK hk _ ha) (fun a ha => ?_) (fun o ho => ?_)
    · obtain rfl : '\'' = a := by simpa [List.getLast?_append, List.getLast?_cons] using ha
      exact hq
    · right
      have a1 := hk.notMem hK (mp o ho); have a2 := h1.notMem hK (mp o ho); have a3 := h2.notMem hK (mp o ho)
      have a4 := hv.notMem hK (mp o ho)
      have a5 := lits o ho
      simp at a5
      simp [a1, a2, a3, a4, a5]
  | ne hk h1 h2 hv =>
    refine plain _ (by simp) (fun a ha => by simp only [List.append_assoc] at ha; exact Word.head hK hk _ ha) (fun a ha => ?_) (fun o ho => ?_)
    · obtain rfl : '\'' = a := by simpa [List.getLast?_append, List.getLast?_cons] using ha
      exact hq
    · by_cases hx : o = '!'
      · exact Or.inl hx
      right
      have a1 := hk.notMem hK (mp o ho); have a2 := h1.notMem hK (mp o ho); have a3 := h2.notMem hK (mp o ho)
      have a4 := hv.notMem hK (mp o ho)
      have a5 := lits o ho
      simp at a5
      simp [a1, a2, a3, a4, a5, hx]
  | mem hk h1 _ h2 hv =>
    refine plain _ (by simp) (fun a ha => by simp only [List.append_assoc] at ha; exact Word.head hK hk _ ha) (fun a ha => ?_) (fun o ho => ?_)
    · obtain rfl : '}' = a := by simpa [List.getLast?_append, List.getLast?_cons] using ha
      exact hb
    · right
      have a1 := hk.notMem hK (mp o ho); have a2 := h1.notMem hK (mp o ho); have a3 := h2.notMem hK (mp o ho)
      have a4 := hv.notMem hK ho
      have a5 := lits o ho
      simp at a5
      simp [a1, a2, a3, a4, a5]
  | notMem hk h1 _ h2 _ h3 hv =>
    refine plain _ (by simp) (fun a ha => by simp only [List.append_assoc] at ha; exact Word.head hK hk _ ha) (fun a ha => ?_) (fun o ho => ?_)
    · obtain rfl : '}' = a := by simpa [List.getLast?_append, List.getLast?_cons] using ha
      exact hb
    · right
      have a1 := hk.notMem hK (mp o ho); have a2 := h1.notMem hK (mp o ho); have a3 := h2.notMem hK (mp o ho)
      have a4 := hv.notMem hK ho; have a6 := h3.notMem hK (mp o ho)
      have a5 := lits o ho
      simp at a5
      simp [a1, a2, a3, a4, a5, a6]
  | contains hk h1 _ h2 hv =>
    refine plain _ (by simp) (fun a ha => by simp only [List.append_assoc] at ha; exact Word.head hK hk _ ha) (fun a ha => ?_) (fun o ho => ?_)
    · obtain rfl : '\'' = a := by simpa [List.getLast?_append, List.getLast?_cons] using ha
      exact hq
    · right
      have a1 := hk.notMem hK (mp o ho); have a2 := h1.notMem hK (mp o ho); have a3 := h2.notMem hK (mp o ho)
      have a4 := hv.notMem hK (mp o ho)
      have a5 := lits o ho
      simp at a5
      simp [a1, a2, a3, a4, a5]
  | starts hk h1 _ h2 _ h3 hv =>
    refine plain _ (by simp) (fun a ha => by simp only [List.append_assoc] at ha; exact Word.head hK hk _ ha) (fun a ha => ?_) (fun o ho => ?_)
    · obtain rfl : '\'' = a := by simpa [List.getLast?_append, List.getLast?_cons] using ha
      exact hq
    · right
      have a1 := hk.notMem hK (mp o ho); have a2 := h1.notMem hK (mp o ho); have a3 := h2.notMem hK (mp o ho)
      have a4 := hv.notMem hK (mp o ho); have a6 := h3.notMem hK (mp o ho)
      have a5 := lits o ho
      simp at a5
      simp [a1, a2, a3, a4, a5, a6]
  | ends hk h1 _ h2 _ h3 hv =>
    refine plain _ (by simp) (fun a ha => by simp only [List.append_assoc] at ha; exact Word.head hK hk _ ha) (fun a ha => ?_) (fun o ho => ?_)
    · obtain rfl : '\'' = a := by simpa [List.getLast?_append, List.getLast?_cons] using ha
      exact hq
    · right
      have a1 := hk.notMem hK (mp o ho); have a2 := h1.notMem hK (mp o ho); have a3 := h2.notMem hK (mp o ho)
      have a4 := hv.notMem hK (mp o ho); have a6 := h3.notMem hK (mp o ho)
      have a5 := lits o ho
      simp at a5
      simp [a1, a2, a3, a4, a5, a6]

end
end CalicoParser
end Verif
