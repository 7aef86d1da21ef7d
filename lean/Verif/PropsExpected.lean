import Verif.PropsRunner

/-!
C65, part 2: the comparison of the output of a query with an expected output.
-/

namespace Verif
namespace Runner

/-! ### Specification -/

/-- Lines, each with its end. -/
def terminated (ls : List Text) : Text := ls.flatMap (fun l => l ++ ['\n'])

/-- The lines of an output: what stands between the ends of lines. -/
def OutLines (t : Text) (ls : List Text) : Prop :=
  ∃ init last, ls = init ++ [last] ∧ (∀ l ∈ ls, '\n' ∉ l) ∧ t = terminated init ++ last

/-- The lines of a file: the last one may lack its end. -/
def FileLines (t : Text) (ls : List Text) : Prop :=
  (∀ l ∈ ls, '\n' ∉ l) ∧
    (t = terminated ls ∨ ∃ init last, ls = init ++ [last] ∧ last ≠ [] ∧ t = terminated init ++ last)

/-- A line without the blanks at its end. -/
def Stripped (l s : Text) : Prop :=
  (∃ w, l = s ++ w ∧ ∀ c ∈ w, isSpace c = true) ∧ ∀ c, s.getLast? = some c → isSpace c = false

/-! ### Lines -/

theorem splitLines_line {l : Text} (hl : '\n' ∉ l) : splitLines l = [l] := by
  induction l with
  | nil => rfl
  | cons c l ih =>
    have hc : c ≠ '\n' := by rintro rfl; exact hl (by simp)
    rw [splitLines, if_neg hc, ih (fun h => hl (by simp [h]))]

theorem splitLines_cons {l : Text} (hl : '\n' ∉ l) (t : Text) : splitLines (l ++ '\n' :: t) = l :: splitLines t := by
  induction l with
  | nil => simp [splitLines]
  | cons c l ih =>
    have hc : c ≠ '\n' := by rintro rfl; exact hl (by simp)
    rw [List.cons_append, splitLines, if_neg hc, ih (fun h => hl (by simp [h]))]

theorem splitLines_terminated {ls : List Text} (h : ∀ l ∈ ls, '\n' ∉ l) (t : Text) :
    splitLines (terminated ls ++ t) = ls ++ splitLines t := by
  induction ls with
  | nil => rfl
  | cons l ls ih =>
    have : terminated (l :: ls) ++ t = l ++ '\n' :: (terminated ls ++ t) := by simp [terminated]
    rw [this, splitLines_cons (h l (by simp)), ih (fun l hl => h l (by simp [hl]))]
    rfl

theorem splitLines_of {t : Text} {ls : List Text} (h : OutLines t ls) : splitLines t = ls := by
  obtain ⟨init, last, rfl, hn, rfl⟩ := h
  rw [splitLines_terminated (fun l hl => hn l (by simp [hl])), splitLines_line (hn last (by simp))]

/-- Every output has lines. -/
theorem outLines_exist (t : Text) : OutLines t (splitLines t) := by
  induction t with
  | nil => exact ⟨[], [], rfl, by simp [splitLines], rfl⟩
  | cons c t ih =>
    obtain ⟨init, last, h1, h2, h3⟩ := ih
    rw [splitLines]
    by_cases hc : c = '\n'
    · rw [if_pos hc]
      refine ⟨[] :: init, last, by rw [h1]; rfl, ?_, ?_⟩
      · intro l hl
        rcases List.mem_cons.1 hl with rfl | hl
        · simp
        · exact h2 l hl
      · rw [h3, hc]; simp [terminated]
    · rw [if_neg hc]
      cases init with
      | nil =>
        rw [h1]
        simp only [List.nil_append]
        refine ⟨[], c :: last, rfl, ?_, by rw [h3]; rfl⟩
        intro l hl
        simp at hl
        subst hl
        have := h2 last (by rw [h1]; simp)
        simp [this, Ne.symm hc]
      | cons l init =>
        rw [h1]
        simp only [List.cons_append]
        refine ⟨(c :: l) :: init, last, rfl, ?_, by rw [h3]; simp [terminated]⟩
        intro x hx
        rcases List.mem_cons.1 hx with rfl | hx
        · have := h2 l (by rw [h1]; simp)
          simp [this, Ne.symm hc]
        · exact h2 x (by rw [h1]; simp at hx ⊢; tauto)

theorem fileLines_of {t : Text} {ls : List Text} (h : FileLines t ls) : fileLines t = ls := by
  obtain ⟨hn, rfl | ⟨init, last, rfl, hne, rfl⟩⟩ := h
  · have := splitLines_terminated hn []
    rw [List.append_nil] at this
    unfold fileLines
    simp only [this]
    simp [splitLines]
  · unfold fileLines
    have := splitLines_terminated (ls := init) (fun l hl => hn l (by simp [hl])) last
    rw [splitLines_line (hn last (by simp))] at this
    simp only [this]
    simp [hne]

/-- Every file has lines. -/
theorem fileLines_exist (t : Text) : FileLines t (fileLines t) := by
  obtain ⟨init, last, h1, h2, h3⟩ := outLines_exist t
  unfold fileLines
  simp only [h1] at h2 ⊢
  by_cases hl : last = []
  · subst hl
    simp
    exact ⟨fun l hl => h2 l (by simp [hl]), .inl (by simpa using h3)⟩
  · simp [hl]
    exact ⟨h2, .inr ⟨init, last, rfl, hl, h3⟩⟩

theorem dropWhile_head {α : Type} (p : α → Bool) (l : List α) {c : α} (h : (l.dropWhile p).head? = some c) : p c = false := by
  induction l with
  | nil => simp at h
  | cons a l ih =>
    rw [List.dropWhile_cons] at h
    cases ha : p a
    · simp [ha] at h; rw [← h]; exact ha
    · simp [ha] at h; exact ih h

theorem dropWhile_split {α : Type} (p : α → Bool) (l : List α) : ∃ w, l = w ++ l.dropWhile p ∧ ∀ c ∈ w, p c = true := by
  induction l with
  | nil => exact ⟨[], by simp⟩
  | cons a l ih =>
    rw [List.dropWhile_cons]
    cases ha : p a
    · exact ⟨[], by simp⟩
    · obtain ⟨w, h1, h2⟩ := ih
      refine ⟨a :: w, by simpa using h1, ?_⟩
      intro c hc
      rcases List.mem_cons.1 hc with rfl | hc
      · exact ha
      · exact h2 c hc

theorem rstrip_spec (l : Text) : Stripped l (rstrip l) := by
  unfold rstrip
  obtain ⟨w, h1, h2⟩ := dropWhile_split isSpace l.reverse
  refine ⟨⟨w.reverse, ?_, fun c hc => h2 c (by simpa using hc)⟩, ?_⟩
  · have := congrArg List.reverse h1
    simpa using this
  · intro c hc
    rw [List.getLast?_reverse] at hc
    exact dropWhile_head _ _ hc

theorem stripped_unique {l s s' : Text} (h : Stripped l s) (h' : Stripped l s') : s = s' := by
  have key : ∀ {s s' w w' : Text}, s ++ w = s' ++ w' → (∀ c ∈ w, isSpace c = true) →
      (∀ c, s'.getLast? = some c → isSpace c = false) → s'.length ≤ s.length := by
    intro s s' w w' he hw hs
    rcases Nat.lt_or_ge s.length s'.length with hlt | hge
    · exfalso
      rw [List.append_eq_append_iff] at he
      rcases he with ⟨a, rfl, rfl⟩ | ⟨a, rfl, _⟩
      · have ha : a ≠ [] := by rintro rfl; simp at hlt
        have : (s ++ a).getLast? = some (a.getLast ha) := by
          rw [List.getLast?_append_of_ne_nil _ ha, List.getLast?_eq_some_getLast ha]
        have h1 := hs _ this
        have h2 := hw (a.getLast ha) (by simp)
        rw [h1] at h2
        exact absurd h2 (by decide)
      · simp at hlt
        omega
    · exact hge
  obtain ⟨⟨w, h1, h2⟩, h3⟩ := h
  obtain ⟨⟨w', h1', h2'⟩, h3'⟩ := h'
  have he := h1.symm.trans h1'
  have l1 := key he h2 h3'
  have l2 := key he.symm h2' h3
  exact (List.append_inj he (by omega)).1

theorem stripped_iff {l s : Text} : Stripped l s ↔ rstrip l = s :=
  ⟨fun h => stripped_unique (rstrip_spec l) h, fun h => h ▸ rstrip_spec l⟩

theorem newlines_id {t : Text} (h : '\r' ∉ t) : newlines t = t := by
  induction t with
  | nil => rfl
  | cons c t ih =>
    have hc : c ≠ '\r' := by rintro rfl; exact h (by simp)
    have : newlines (c :: t) = c :: newlines t := by
      rw [newlines.eq_def]
      split
      · rename_i h; injection h with h _; exact absurd h hc
      · rename_i h; injection h with h _; exact absurd h hc
      · rename_i h; injection h with h1 h2; rw [h1, h2]
      · rename_i h; exact absurd h (by simp)
    rw [this, ih (fun h' => h (by simp [h']))]

/-! ### The loop -/

theorem compareLoop_some {actual gs : List Text} {last i n : Nat} :
    compareLoop actual last i gs = some n ↔
      (∀ j (hj : j < gs.length), actual[i + j]? = some (rstrip gs[j])) ∧ n = if gs = [] then last else i + gs.length - 1 := by
  induction gs generalizing last i with
  | nil => simp [compareLoop]; exact eq_comm
  | cons g gs ih =>
    rw [compareLoop]
    split
    · rename_i h
      simp only [reduceCtorEq, false_iff]
      rintro ⟨h', _⟩
      have := h' 0 (by simp)
      rw [Nat.add_zero, h] at this
      simp at this
    · rename_i a h
      by_cases he : rstrip g = a
      · rw [if_neg (by simpa using he), ih]
        constructor
        · rintro ⟨h1, h2⟩
          refine ⟨?_, ?_⟩
          · intro j hj
            cases j with
            | zero => rw [Nat.add_zero, h, ← he]; rfl
            | succ j =>
              have := h1 j (by simpa using hj)
              rw [show i + (j + 1) = i + 1 + j by omega, this]
              rfl
          · rw [h2]
            cases gs with
            | nil => simp
            | cons x xs => simp; omega
        · rintro ⟨h1, h2⟩
          refine ⟨?_, ?_⟩
          · intro j hj
            have := h1 (j + 1) (by simpa using hj)
            rw [show i + 1 + j = i + (j + 1) by omega, this]
            rfl
          · rw [h2]
            cases gs with
            | nil => simp
            | cons x xs => simp; omega
      · rw [if_pos (by simpa using he)]
        simp only [reduceCtorEq, false_iff]
        rintro ⟨h', _⟩
        have := h' 0 (by simp)
        rw [Nat.add_zero, h] at this
        simp at this
        exact he this.symm

theorem all_empty_iff {ls : List Text} : ls.all (fun l => l.isEmpty) = true ↔ ls = List.replicate ls.length [] := by
  rw [List.all_eq_true, List.eq_replicate_iff]
  simp

/-! ### C65: expected outputs -/

/-- C65, comparison: an output is accepted iff its lines are the lines of the expected file, each without
the blanks at its end, followed by nothing but empty lines.  Missing from the full claim: an empty expected
file, see `C65_empty_expected_wrong`. -/
theorem C65_compare_partial {out t : Text} (ht : '\r' ∉ t) {A E S : List Text} (hA : OutLines out A) (hE : FileLines t E)
    (hS : List.Forall₂ Stripped E S) (hne : E ≠ []) :
    compare out (.file t) = 0 ↔ ∃ k, A = S ++ List.replicate k [] := by
  have hS' : S = E.map rstrip := by
    clear hE hne
    induction hS with
    | nil => rfl
    | cons h _ ih => rw [List.map_cons, ← ih, stripped_iff.1 h]
  subst hS'
  unfold compare
  simp only [newlines_id ht, fileLines_of hE, splitLines_of hA]
  have hlen : 1 ≤ A.length := by
    obtain ⟨init, last, rfl, _⟩ := hA
    simp
  have hE1 : 1 ≤ E.length := by cases E <;> simp_all
  cases hc : compareLoop A 0 0 E with
  | none =>
    simp only [Nat.one_ne_zero, false_iff]
    rintro ⟨k, rfl⟩
    have : compareLoop (List.map rstrip E ++ List.replicate k []) 0 0 E = some (0 + E.length - 1) := by
      rw [compareLoop_some, if_neg hne]
      refine ⟨?_, rfl⟩
      intro j hj
      rw [Nat.zero_add, List.getElem?_append_left (by simpa using hj)]
      simp [hj]
    rw [this] at hc
    simp at hc
  | some n =>
    rw [compareLoop_some, if_neg hne] at hc
    obtain ⟨h1, rfl⟩ := hc
    simp only [Nat.zero_add] at h1 ⊢
    have hle : E.length ≤ A.length := by
      have := h1 (E.length - 1) (by omega)
      rw [List.getElem?_eq_some_iff] at this
      obtain ⟨h, _⟩ := this
      omega
    have hpre : A.take E.length = E.map rstrip := by
      apply List.ext_getElem
      · simp; omega
      · intro j hj1 hj2
        have := h1 j (by simpa using hj2)
        rw [List.getElem?_eq_some_iff] at this
        obtain ⟨h, h'⟩ := this
        simp [h']
    have hsub : E.length - 1 + 1 = E.length := by omega
    have hA' : A = E.map rstrip ++ A.drop E.length := by rw [← hpre]; simp
    rw [hsub]
    split
    · rename_i hn
      constructor
      · intro h
        have h' : (List.drop E.length A).all (fun l => l.isEmpty) = true := by
          cases hx : (List.drop E.length A).all (fun l => l.isEmpty)
          · rw [hx] at h; simp at h
          · rfl
        rw [all_empty_iff] at h'
        exact ⟨_, by rw [← h']; exact hA'⟩
      · rintro ⟨k, hk⟩
        have hd : A.drop E.length = List.replicate k [] := by
          rw [hk]; exact List.drop_left' (by simp)
        have : (List.drop E.length A).all (fun l => l.isEmpty) = true := by
          rw [hd]; simp
        rw [this]
        rfl
    · rename_i hn
      simp only [true_iff]
      refine ⟨0, ?_⟩
      have : A.drop E.length = [] := by
        rw [List.drop_eq_nil_iff]; omega
      rw [this] at hA'
      simpa using hA'

/-- C65, comparison: a missing file is a mismatch; without an expected output there is none. -/
theorem C65_compare_missing (out : Text) : compare out .missing = 1 ∧ compare out .notGiven = 0 := ⟨rfl, rfl⟩

/-- C65, wrong: an empty expected file accepts any output of one line (followed by empty lines). -/
theorem C65_empty_expected_wrong {out : Text} {A : List Text} (hA : OutLines out A) :
    compare out (.file []) = 0 ↔ ∃ l k, A = l :: List.replicate k [] := by
  unfold compare
  have hE : fileLines (newlines []) = [] := by decide +kernel
  simp only [hE, splitLines_of hA, compareLoop]
  have hlen : 1 ≤ A.length := by
    obtain ⟨init, last, rfl, _⟩ := hA
    simp
  cases A with
  | nil => simp at hlen
  | cons a A =>
    simp only [List.length_cons, Nat.add_sub_cancel, Nat.zero_add, List.drop_one, List.tail_cons]
    split
    · constructor
      · intro h
        have h' : A.all (fun l => l.isEmpty) = true := by
          cases hx : A.all (fun l => l.isEmpty)
          · rw [hx] at h; simp at h
          · rfl
        rw [all_empty_iff] at h'
        exact ⟨a, _, by rw [← h']⟩
      · rintro ⟨l, k, hk⟩
        injection hk with _ hk
        rw [hk]
        simp
    · rename_i h
      simp only [true_iff]
      exact ⟨a, 0, by have : A = [] := List.length_eq_zero_iff.1 (by omega)
                      rw [this]; rfl⟩

theorem terminated_noCr {ls : List Text} {t : Text} (h : t = terminated ls) (hr : '\r' ∉ t) : ∀ l ∈ ls, '\r' ∉ l := by
  subst h
  intro l hl hc
  exact hr (List.mem_flatMap.2 ⟨l, hl, by simp [hc]⟩)

/-- C65, comparison: an output compared with a file written from the same output is accepted iff none of
its lines ends with a blank. -/
theorem C65_compare_self {out : Text} (hr : '\r' ∉ out) {A : List Text} (hA : OutLines out A) :
    compare out (.file out) = 0 ↔ ∀ l ∈ A, Stripped l l := by
  have hs : ∀ l, Stripped l l ↔ rstrip l = l := fun l => stripped_iff
  simp only [hs]
  by_cases he : out = []
  · subst he
    have hA' := splitLines_of hA
    have : A = [[]] := by rw [← hA']; rfl
    subst this
    simp [rstrip]
    decide +kernel
  · have hF := fileLines_exist out
    have hne : fileLines out ≠ [] := by
      intro h
      rw [h] at hF
      obtain ⟨_, h1 | ⟨init, last, h2, _⟩⟩ := hF
      · exact he h1
      · simp at h2
    have hA' := splitLines_of hA
    obtain ⟨init, last, hA1, hA2, hA3⟩ := id hA
    rw [C65_compare_partial hr hA hF (S := (fileLines out).map rstrip) ?_ hne]
    · have hcase : fileLines out = A ∧ last ≠ [] ∨ fileLines out = init ∧ last = [] := by
        unfold fileLines
        simp only [hA', hA1]
        by_cases hl : last = []
        · right; simp [hl]
        · left; simp [hl]
      rcases hcase with ⟨hf, hl⟩ | ⟨hf, hl⟩
      · rw [hf]
        constructor
        · rintro ⟨k, hk⟩
          have hlen := congrArg List.length hk
          simp at hlen
          subst hlen
          simp at hk
          intro l hl
          obtain ⟨j, hj, rfl⟩ := List.getElem_of_mem hl
          have := List.getElem_of_eq hk hj
          simpa using this.symm
        · intro h
          refine ⟨0, ?_⟩
          simp
          conv => lhs; rw [← List.map_id A]
          exact List.map_congr_left (fun l hl => (h l hl).symm)
      · rw [hf, hA1, hl]
        have hnil : rstrip [] = [] := rfl
        constructor
        · rintro ⟨k, hk⟩
          have hlen := congrArg List.length hk
          simp at hlen
          subst hlen
          have hk' := List.append_inj_left hk (by simp)
          intro l hl
          rcases List.mem_append.1 hl with hl | hl
          · obtain ⟨j, hj, rfl⟩ := List.getElem_of_mem hl
            have := List.getElem_of_eq hk' hj
            simpa using this.symm
          · simp at hl; subst hl; exact hnil
        · intro h
          refine ⟨1, ?_⟩
          congr 1
          conv => lhs; rw [← List.map_id init]
          exact List.map_congr_left (fun l hl => (h l (by simp [hl])).symm)
    · clear hne hF
      generalize fileLines out = ls
      induction ls with
      | nil => exact .nil
      | cons l ls ih => exact .cons (rstrip_spec l) ih

/-- C65, wrong: an output with a blank at the end of a line is not equal to itself. -/
theorem C65_blank_wrong : compare "a \nb".toList (.file "a \nb".toList) = 1 := by decide +kernel

/-- A file with the ends of lines of Windows. -/
def crlf (ls : List Text) : Text := ls.flatMap (fun l => l ++ ['\r', '\n'])

theorem newlines_line {l : Text} (hl : '\r' ∉ l) (t : Text) : newlines (l ++ '\r' :: '\n' :: t) = l ++ '\n' :: newlines t := by
  induction l with
  | nil => simp [newlines]
  | cons c l ih =>
    have hc : c ≠ '\r' := by rintro rfl; exact hl (by simp)
    have : newlines (c :: (l ++ '\r' :: '\n' :: t)) = c :: newlines (l ++ '\r' :: '\n' :: t) := by
      rw [newlines.eq_def]
      split
      · rename_i h; injection h with h _; exact absurd h hc
      · rename_i h; injection h with h _; exact absurd h hc
      · rename_i h; injection h with h1 h2; rw [h1, h2]
      · rename_i h; exact absurd h (by simp)
    rw [List.cons_append, this, ih (fun h => hl (by simp [h]))]
    rfl

/-- C65, comparison: the ends of lines of Windows make no difference. -/
theorem C65_compare_crlf {ls : List Text} (h : ∀ l ∈ ls, '\r' ∉ l) (out : Text) :
    compare out (.file (crlf ls)) = compare out (.file (terminated ls)) := by
  have e1 : newlines (crlf ls) = terminated ls := by
    induction ls with
    | nil => rfl
    | cons l ls ih =>
      have : crlf (l :: ls) = l ++ '\r' :: '\n' :: crlf ls := by simp [crlf]
      rw [this, newlines_line (h l (by simp)), ih (fun l hl => h l (by simp [hl]))]
      simp [terminated]
  have e2 : newlines (terminated ls) = terminated ls := by
    apply newlines_id
    unfold terminated
    rw [List.mem_flatMap]
    rintro ⟨l, hl, hc⟩
    simp at hc
    exact h l hl hc
  unfold compare
  simp only [e1, e2]

/-- C65, comparison in a query: an expected output is looked at only if the query explains all its
findings; then the second result is 0 or 1. -/
theorem C65_compared {Cfg : Type} {W : World Cfg} {α : Type} [DecidableEq α] {get : α → Option Cfg} {k : Key} {cs : List α}
    {golden : Golden} {o : OutConf} {cmd : Bool} {res : Int} {cmp ne : Nat} {full : Bool}
    (h : runQuery W get k cs golden o cmd = some (.triple res cmp ne, full)) :
    cmp ≤ 1 ∧ (full = false → cmp = 0) := by
  unfold runQuery at h
  split at h
  · simp at h
  · rw [Option.map_eq_some_iff] at h
    obtain ⟨r, _, he⟩ := h
    simp only [Prod.mk.injEq, Ret.triple.injEq] at he
    obtain ⟨⟨_, h2, _⟩, h4⟩ := he
    refine ⟨?_, ?_⟩
    · rw [← h2]
      split
      · unfold compare
        split
        · omega
        · omega
        · dsimp only
          split
          · omega
          · split
            · split <;> omega
            · omega
      · omega
    · intro hf
      rw [← h2, if_neg (by rw [h4, hf]; decide)]

example : OutLines "ab\n\nc".toList ["ab".toList, [], "c".toList] :=
  ⟨["ab".toList, []], "c".toList, rfl, by decide +kernel, by decide +kernel⟩
example : FileLines "ab \n\nc".toList ["ab ".toList, [], "c".toList] :=
  ⟨by decide +kernel, .inr ⟨["ab ".toList, []], "c".toList, rfl, by decide +kernel, by decide +kernel⟩⟩
example : Stripped "ab ".toList "ab".toList := stripped_iff.2 (by decide +kernel)
example : compare "ab\n\nc\n\n".toList (.file "ab \n\nc".toList) = 0 := by decide +kernel
example : compare "ab\n\nc\n\n".toList (.file "ab \n\nc\nd".toList) = 1 := by decide +kernel
example : compare "ab\n\nc\nd".toList (.file "ab \n\nc\n".toList) = 1 := by decide +kernel
example : compare "anything".toList (.file []) = 0 := by decide +kernel
example : compare "ab\ncd".toList (.file "ab\r\ncd\r\n".toList) = 0 := by decide +kernel

end Runner
end Verif
