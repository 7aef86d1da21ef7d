import Verif.ReprModel
import Verif.PropsCube
/-!
C40: what is printed for a connection set denotes this set, whether the set itself or its complement is
printed.
-/
namespace Verif
open HC

section
variable {D V X : Type} [DecidableEq D]

/-- The points a printed cube denotes: those with every printed coordinate in the printed value. -/
def DictPts (A : VAlg D V X) (c : List (D × V)) (p : D → X) : Prop := ∀ d v, (d, v) ∈ c → A.mem (p d) v = true

/-- The points a printed representation denotes; `ports` is the dimension whose bare values may be printed. -/
def Rep.Means (A : VAlg D V X) (ports : D) : Rep D V → (D → X) → Prop
  | .all, _ => True
  | .none, _ => False
  | .cubes l, p => ∃ c ∈ l, DictPts A c p
  | .allBut l, p => ¬ ∃ c ∈ l, DictPts A c p
  | .values v, p => A.mem (p ports) v = true

variable {A : VAlg D V X} {Wf : D → V → Prop} {all : List D} {plain : Bool}

theorem cubeDict_pts {act : List D} {cube : List V} (hl : act.length = cube.length) {p : D → X} (hp : InDom A p) :
    DictPts A (cubeDict A act cube) p ↔ List.Forall₂ (fun d v => A.mem (p d) v = true) act cube := by
  have hz : DictPts A (cubeDict A act cube) p ↔ ∀ e ∈ act.zip cube, A.mem (p e.1) e.2 = true := by
    unfold DictPts cubeDict
    constructor
    · rintro h ⟨d, v⟩ he
      by_cases hd : A.dom d = v
      · rw [← hd]; exact hp d
      · exact h d v (List.mem_filter.2 ⟨he, by simp [hd]⟩)
    · intro h d v he
      exact h (d, v) (List.mem_filter.1 he).1
  rw [hz, List.forall₂_iff_zip]
  constructor
  · intro h; exact ⟨hl, fun {a b} he => h (a, b) he⟩
  · rintro ⟨_, h⟩ ⟨a, b⟩ he; exact h he

theorem cubeDicts_pts {h : HC D V} (i : Inv A Wf all h) (ha : h.isAll = false) {p : D → X} (hp : InDom A p) :
    (∃ c ∈ cubeDicts A all h, DictPts A c p) ↔ h.Pt A p := by
  unfold cubeDicts cubes
  rw [ha]
  simp only [Bool.false_eq_true, if_false, List.mem_map, exists_exists_and_eq_and]
  unfold HC.Pt
  rw [← cubesT_cover h.tree p]
  refine exists_congr fun c => and_congr_right fun hc => ?_
  exact cubeDict_pts (List.Forall₂.length_eq (cubesT_values h.tree i.wf c hc)) hp

theorem Hist.mixed {h : HC D V} {S : (D → X) → Prop} (H : Hist A Wf all plain h S) : Hist A Wf all false h S := by
  induction H with
  | empty cls _ => exact .empty cls (by simp)
  | full cls _ => exact .full cls (by simp)
  | cube c dims h1 h2 => exact .cube c dims h1 h2
  | addCube c dims _ h1 h2 h3 ih => exact .addCube c dims ih h1 h2 h3
  | addHole c dims _ h1 h2 h3 h4 ih => exact .addHole c dims ih h1 h2 h3 h4
  | and _ _ ih1 ih2 => exact .and ih1 ih2
  | or _ _ ih1 ih2 => exact .or ih1 ih2
  | sub _ _ hs ih1 ih2 => exact .sub ih1 ih2 hs

/-- C40: the simplified representation denotes the set, whatever `len` measures. -/
theorem C40_simplified_exact (L : A.Lawful Wf) (hnd : all.Nodup) (hall : all ≠ []) {h : HC D V} {S : (D → X) → Prop}
    (H : Hist A Wf all plain h S) (prot ports : D) (len : List (List (D × V)) → Nat) (useCompl : Bool) {p : D → X} (hp : InDom A p) :
    (simplified A all prot len useCompl h).Means A ports p ↔ S p := by
  have i := H.spec L hnd hall
  unfold simplified
  by_cases ha : h.isAll = true
  · simp only [ha, if_true, Rep.Means, true_iff]
    exact (C14_isAll_exact L hnd hall H).1 ha p hp
  · rw [if_neg ha]
    have ha' : h.isAll = false := by simpa using ha
    by_cases ht : h.truthy = true
    swap
    · have ht' : h.truthy = false := by simpa using ht
      simp only [ht', Bool.not_false, if_true, Rep.Means, false_iff]
      rw [← i.2.1 p hp]
      exact falsy_pt ht' p
    · simp only [ht, Bool.not_true, Bool.false_eq_true, if_false]
      have hc : (Rep.cubes (cubeDicts A all h)).Means A ports p ↔ S p := by
        rw [← i.2.1 p hp]; exact cubeDicts_pts i.1 ha' hp
      split
      · split
        · have G : Hist A Wf all false (HC.sub A all (HC.full true) h) (fun p => True ∧ ¬ S p) :=
            Hist.sub (Hist.full true (by simp)) (Hist.mixed H) (Or.inl rfl)
          have j := G.spec L hnd hall
          have hna : (HC.sub A all (HC.full true) h).isAll = false := by
            rw [← Bool.not_eq_true, C14_isAll_exact L hnd hall G]
            intro hno
            obtain ⟨q, hq, hqm⟩ := (truthy_iff L hnd i.1).1 ht
            exact (hno q hq).2 ((i.2.1 q hq).1 hqm)
          change (¬ ∃ c ∈ cubeDicts A all (HC.sub A all (HC.full true) h), DictPts A c p) ↔ _
          rw [cubeDicts_pts j.1 hna hp, j.2.1 p hp]
          tauto
        · exact hc
      · exact hc

/-- C40: `str` of a connection set never fails and denotes the set; bare values are printed for the
destination ports only. -/
theorem C40_str_exact (L : A.Lawful Wf) (hnd : all.Nodup) (hall : all ≠ []) {h : HC D V} {S : (D → X) → Prop}
    (H : Hist A Wf all plain h S) (ports : D) : ∃ r, connStr A all ports h = some r ∧ ∀ p, InDom A p → (r.Means A ports p ↔ S p) := by
  have i := H.spec L hnd hall
  unfold connStr
  by_cases ha : h.isAll = true
  · exact ⟨.all, by simp [ha], fun p hp => ⟨fun _ => (C14_isAll_exact L hnd hall H).1 ha p hp, fun _ => trivial⟩⟩
  have ha' : h.isAll = false := by simpa using ha
  by_cases ht : h.truthy = true
  swap
  · have ht' : h.truthy = false := by simpa using ht
    refine ⟨.none, by simp [ha', ht'], fun p hp => ?_⟩
    rw [← i.2.1 p hp]
    exact ⟨False.elim, fun hm => falsy_pt ht' p hm⟩
  simp only [ha', ht, Bool.not_true, Bool.false_eq_true, if_false]
  split
  · rename_i hact
    obtain ⟨cls, act, t⟩ := h
    simp only at hact
    subst hact
    obtain ⟨⟨v, c, u⟩, hk⟩ := leaf_single t i.1.one ht
    have hcub : cubes A all (⟨cls, [ports], t⟩ : HC D V) = [[v]] := by
      unfold cubes
      rw [ha']
      simp only [Bool.false_eq_true, if_false]
      change List.flatMap _ (layers t) = _
      rw [hk]; rfl
    rw [hcub]
    refine ⟨.values v, rfl, fun p hp => ?_⟩
    rw [← i.2.1 p hp]
    change A.mem (p ports) v = true ↔ ∃ e ∈ layers t, A.mem (p ports) e.1 = true ∧ Den A [] e.2.2 p
    rw [hk]
    simp [Den]
  · exact ⟨_, rfl, fun p hp => by rw [← i.2.1 p hp]; exact cubeDicts_pts i.1 ha' hp⟩

end

/-! ### Interval sets as texts -/

theorem digit_of_intText {n : Int} (hn : 0 ≤ n) {c : Char} (h : c ∈ intText n) : c.isDigit = true := by
  unfold intText at h
  rw [if_neg (by omega)] at h
  exact Nat.isDigit_of_mem_toDigits (by decide) (by decide) h

theorem intText_inj {n m : Int} (hn : 0 ≤ n) (hm : 0 ≤ m) (h : intText n = intText m) : n = m := by
  unfold intText at h
  rw [if_neg (by omega), if_neg (by omega)] at h
  have := congrArg (fun l => Nat.ofDigitChars 10 l 0) h
  simp only [Nat.ofDigitChars_toDigits (b := 10) (by decide) (by decide)] at this
  omega

theorem append_sep_inj {sep : Char} {a b c d : List Char} (ha : sep ∉ a) (hc : sep ∉ c) (h : a ++ sep :: b = c ++ sep :: d) :
    a = c ∧ b = d := by
  induction a generalizing c with
  | nil =>
    cases c with
    | nil => simpa using h
    | cons x c => simp only [List.nil_append, List.cons_append, List.cons.injEq] at h; exact absurd h.1 (fun e => hc (by simp [e]))
  | cons x a ih =>
    cases c with
    | nil => simp only [List.nil_append, List.cons_append, List.cons.injEq] at h; exact absurd h.1 (fun e => ha (by simp [e]))
    | cons y c =>
      simp only [List.cons_append, List.cons.injEq] at h
      have := ih (fun h => ha (by simp [h])) (fun h => hc (by simp [h])) h.2
      exact ⟨by rw [h.1, this.1], this.2⟩

theorem joinText_inj {sep : Char} : ∀ {l m : List (List Char)}, (∀ x ∈ l, x ≠ [] ∧ sep ∉ x) → (∀ x ∈ m, x ≠ [] ∧ sep ∉ x) →
    joinText sep l = joinText sep m → l = m := by
  intro l
  induction l with
  | nil =>
    intro m _ hm h
    match m, hm, h with
    | [], _, _ => rfl
    | [x], hm, h => exact absurd h.symm (hm x (by simp)).1
    | x :: y :: m, hm, h => exact absurd h.symm (by simp [joinText])
  | cons x l ih =>
    intro m hl hm h
    have hx := hl x (by simp)
    match l, m, hl, hm, h with
    | [], [], _, _, h => exact absurd h hx.1
    | [], [z], _, _, h => simpa [joinText] using h
    | [], z :: w :: m, _, _, h =>
      exact absurd (show sep ∈ x by rw [show x = z ++ sep :: joinText sep (w :: m) from h]; simp) hx.2
    | y :: l, [], _, _, h => exact absurd h (by simp [joinText])
    | y :: l, [z], _, hm, h =>
      have hz := hm z (by simp)
      exact absurd (show sep ∈ z by rw [show z = x ++ sep :: joinText sep (y :: l) from h.symm]; simp) hz.2
    | y :: l, z :: w :: m, hl, hm, h =>
      have hz := hm z (by simp)
      have := append_sep_inj hx.2 hz.2 h
      rw [this.1, ih (fun a ha => hl a (by simp [ha])) (fun a ha => hm a (by simp [ha])) this.2]

theorem ivText_inj {i j : Iv} (hi : 0 ≤ i.s ∧ i.s ≤ i.e) (hj : 0 ≤ j.s ∧ j.s ≤ j.e) (h : ivText i = ivText j) : i = j := by
  have dash : ∀ {n : Int}, 0 ≤ n → '-' ∉ intText n := fun hn hm => absurd (digit_of_intText hn hm) (by decide)
  obtain ⟨a, b⟩ := i
  obtain ⟨c, d⟩ := j
  simp only at hi hj
  unfold ivText at h
  simp only at h
  split at h <;> split at h
  · have := intText_inj hi.1 hj.1 h
    simp; omega
  · exact absurd (show '-' ∈ intText a by rw [h]; simp) (dash hi.1)
  · exact absurd (show '-' ∈ intText c by rw [← h]; simp) (dash hj.1)
  · have := append_sep_inj (dash hi.1) (dash hj.1) h
    have h1 := intText_inj hi.1 hj.1 this.1
    have h2 := intText_inj (by omega) (by omega) this.2
    simp [h1, h2]

/-- C40: sets of ports, and other sets of numbers, with the same text are the same set. -/
theorem C40_text_faithful {s t : ISet} (hs : ISet.Canonical s) (ht : ISet.Canonical t) (ps : ∀ x, ISet.Mem x s → 0 ≤ x)
    (pt : ∀ x, ISet.Mem x t → 0 ≤ x) (h : s.text = t.text) (x : Int) : ISet.Mem x s ↔ ISet.Mem x t := by
  have low : ∀ {u : ISet}, ISet.Canonical u → (∀ x, ISet.Mem x u → 0 ≤ x) → ∀ i ∈ u, 0 ≤ i.s ∧ i.s ≤ i.e := by
    intro u hu pu i hi
    have h1 : i.s ≤ i.e := hu.1 i hi
    exact ⟨pu _ ⟨i, hi, Int.le_refl _, h1⟩, h1⟩
  have word : ∀ i : Iv, 0 ≤ i.s ∧ i.s ≤ i.e → ivText i ≠ [] ∧ ',' ∉ ivText i := by
    intro i hi
    have ne : ∀ n, intText n ≠ [] := by
      intro n
      unfold intText
      split
      · simp
      · exact Nat.toDigits_ne_nil
    have comma : ∀ {n : Int}, 0 ≤ n → ',' ∉ intText n := fun hn hm => absurd (digit_of_intText hn hm) (by decide)
    unfold ivText
    split
    · exact ⟨ne _, comma hi.1⟩
    · refine ⟨by simp, ?_⟩
      simp only [List.mem_append, List.mem_cons, not_or]
      exact ⟨comma hi.1, by decide, comma (by omega)⟩
  have hm : s.map ivText = t.map ivText := by
    apply joinText_inj (sep := ',') _ _ h
    · intro w hw
      obtain ⟨i, hi, rfl⟩ := List.mem_map.1 hw
      exact word i (low hs ps i hi)
    · intro w hw
      obtain ⟨i, hi, rfl⟩ := List.mem_map.1 hw
      exact word i (low ht pt i hi)
  have hst : s = t := by
    have ls := low hs ps
    have lt := low ht pt
    clear h hs ht ps pt
    induction s generalizing t with
    | nil => cases t with
      | nil => rfl
      | cons b t => simp at hm
    | cons a s ih => cases t with
      | nil => simp at hm
      | cons b t =>
        simp only [List.map_cons, List.cons.injEq] at hm
        rw [ivText_inj (ls a (by simp)) (lt b (by simp)) hm.1, ih hm.2 (fun i hi => ls i (by simp [hi])) (fun i hi => lt i (by simp [hi]))]
  rw [hst]

/-! ### Examples -/

namespace HC.Ex
/-- Everything but `hBoth` has two cubes, its complement has one: the complement is printed. -/
example : Hist A3 (isetWf dom3) all3 false (sub A3 all3 (full true) hBoth) (fun p => True ∧ ¬ CubePts A3 cBoth [.src, .port] p) :=
  .sub (.full true (by simp)) (Hist.mixed HBoth) (Or.inl rfl)
example : simplified A3 all3 .port List.length true (sub A3 all3 (full true) hBoth) =
    .allBut [[(.src, [⟨1, 3⟩]), (.port, [⟨1, 5⟩])]] := by rfl
example : simplified A3 all3 .port List.length false (sub A3 all3 (full true) hBoth) =
    .cubes [[(.src, [⟨1, 3⟩]), (.port, [⟨6, 65535⟩])], [(.src, [⟨0, 0⟩, ⟨4, 9⟩])]] := by rfl
example : connStr A3 all3 .port hPort = some (.values [⟨1, 5⟩]) := by rfl
example : ISet.text [⟨80, 80⟩, ⟨443, 450⟩] = "80,443-450".toList := by decide +kernel
end HC.Ex
end Verif
