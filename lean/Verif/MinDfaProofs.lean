import Verif.MinDfaSpec

/-!
# Invariants of the objects of class `MinDFA`
-/
namespace Verif
namespace MinDfa
variable {F X D : Type}

/-- Marks, complements and memo entries, on the words of the dimension. -/
structure Inv (L : FsmLib F X) (dom : Domains D X) (own : Nat → D) (h : Heap F) : Prop where
  yes : ∀ r < h.size, (h.obj r).mark = .yes → ∀ x, dom.word (own r) x → L.acc (h.obj r).fsm x = true
  comp : ∀ r < h.size, ∀ c, (h.obj r).comp = some c → c < h.size ∧
    ∀ x, dom.word (own r) x → L.acc (h.obj c).fsm x = !L.acc (h.obj r).fsm x
  rx : ∀ e ∈ h.rx, e.2 < h.size ∧ (h.obj e.2).fsm = L.parse e.1
  orC : ∀ e ∈ h.orC, e.2 < h.size ∧
    ∀ x, dom.word (own e.2) x → L.acc (h.obj e.2).fsm x = (L.acc e.1.1 x || L.acc e.1.2 x)
  andC : ∀ e ∈ h.andC, e.2 < h.size ∧
    ∀ x, dom.word (own e.2) x → L.acc (h.obj e.2).fsm x = (L.acc e.1.1 x && L.acc e.1.2 x)
  subC : ∀ e ∈ h.subC, e.2 < h.size ∧
    ∀ x, dom.word (own e.2) x → L.acc (h.obj e.2).fsm x = (L.acc e.1.1 x && !L.acc e.1.2 x)

/-- All words are words of the dimension, and the negative mark is right. -/
structure Inside (L : FsmLib F X) (dom : Domains D X) (own : Nat → D) (h : Heap F) : Prop where
  sub : ∀ r < h.size, ∀ x, L.acc (h.obj r).fsm x = true → dom.word (own r) x
  no : ∀ r < h.size, (h.obj r).mark = .no → ∃ x, dom.word (own r) x ∧ L.acc (h.obj r).fsm x = false

/-- Later states keep the automata of the objects. -/
structure Grows (h h' : Heap F) : Prop where
  size : h.size ≤ h'.size
  fsm : ∀ r < h.size, (h'.obj r).fsm = (h.obj r).fsm

theorem Grows.refl (h : Heap F) : Grows h h := ⟨Nat.le_refl _, fun _ _ => rfl⟩

theorem Grows.trans {h₁ h₂ h₃ : Heap F} (a : Grows h₁ h₂) (b : Grows h₂ h₃) : Grows h₁ h₃ :=
  ⟨Nat.le_trans a.size b.size, fun r hr => (b.fsm r (Nat.lt_of_lt_of_le hr a.size)).trans (a.fsm r hr)⟩

theorem alloc_grows (h : Heap F) (o : Obj F) : Grows h (alloc h o).1 := by
  refine ⟨Nat.le_succ _, fun r hr => ?_⟩
  simp only [alloc]
  rw [if_neg (Nat.ne_of_lt hr)]

theorem setComp_grows (h : Heap F) (r c : Nat) : Grows h (setComp h r c) := by
  refine ⟨Nat.le_refl _, fun i _ => ?_⟩
  simp only [setComp]
  split <;> rfl

theorem setAll_grows (h : Heap F) (r : Nat) : Grows h (setAll h r) := by
  refine ⟨Nat.le_refl _, fun i _ => ?_⟩
  simp only [setAll]
  split <;> rfl

section
variable {L : FsmLib F X} {dom : Domains D X} {own : Nat → D}

/-- A heap with the same objects and fewer memo entries. -/
theorem Inv.evict {h h' : Heap F} (I : Inv L dom own h) (e : Evicted h h') : Inv L dom own h' := by
  refine ⟨?_, ?_, ?_, ?_, ?_, ?_⟩
  · rw [e.obj, e.size]; exact I.yes
  · rw [e.obj, e.size]; exact I.comp
  · rw [e.obj, e.size]; exact fun x hx => I.rx x (e.rx hx)
  · rw [e.obj, e.size]; exact fun x hx => I.orC x (e.orC hx)
  · rw [e.obj, e.size]; exact fun x hx => I.andC x (e.andC hx)
  · rw [e.obj, e.size]; exact fun x hx => I.subC x (e.subC hx)

theorem Inside.evict {h h' : Heap F} (I : Inside L dom own h) (e : Evicted h h') : Inside L dom own h' := by
  refine ⟨?_, ?_⟩
  · rw [e.obj, e.size]; exact I.sub
  · rw [e.obj, e.size]; exact I.no

theorem Inv.alloc {h : Heap F} (I : Inv L dom own h) {o : Obj F}
    (hy : o.mark = .yes → ∀ x, dom.word (own h.size) x → L.acc o.fsm x = true)
    (hc : ∀ c, o.comp = some c → c < h.size ∧ ∀ x, dom.word (own h.size) x → L.acc (h.obj c).fsm x = !L.acc o.fsm x) :
    Inv L dom own (alloc h o).1 := by
  have G := alloc_grows h o
  have lt : ∀ {r}, r < h.size → r < (MinDfa.alloc h o).1.size := fun hr => Nat.lt_succ_of_lt hr
  have old : ∀ {r}, r < h.size → (MinDfa.alloc h o).1.obj r = h.obj r := by
    intro r hr
    simp only [MinDfa.alloc]
    rw [if_neg (Nat.ne_of_lt hr)]
  have new : (MinDfa.alloc h o).1.obj h.size = o := by
    simp [MinDfa.alloc]
  refine ⟨?_, ?_, ?_, ?_, ?_, ?_⟩
  · intro r hr hm x hx
    rcases Nat.lt_succ_iff_lt_or_eq.1 hr with hr | rfl
    · rw [old hr] at hm ⊢; exact I.yes r hr hm x hx
    · rw [new] at hm ⊢; exact hy hm x hx
  · intro r hr c hm
    rcases Nat.lt_succ_iff_lt_or_eq.1 hr with hr | rfl
    · rw [old hr] at hm ⊢
      obtain ⟨hcs, hx⟩ := I.comp r hr c hm
      rw [old hcs]
      exact ⟨lt hcs, hx⟩
    · rw [new] at hm ⊢
      obtain ⟨hcs, hx⟩ := hc c hm
      rw [old hcs]
      exact ⟨lt hcs, hx⟩
  · intro e he
    obtain ⟨h1, h2⟩ := I.rx e he
    rw [old h1]
    exact ⟨lt h1, h2⟩
  · intro e he
    obtain ⟨h1, h2⟩ := I.orC e he
    rw [old h1]
    exact ⟨lt h1, h2⟩
  · intro e he
    obtain ⟨h1, h2⟩ := I.andC e he
    rw [old h1]
    exact ⟨lt h1, h2⟩
  · intro e he
    obtain ⟨h1, h2⟩ := I.subC e he
    rw [old h1]
    exact ⟨lt h1, h2⟩

theorem Inside.alloc {h : Heap F} (I : Inside L dom own h) {o : Obj F}
    (hs : ∀ x, L.acc o.fsm x = true → dom.word (own h.size) x)
    (hn : o.mark = .no → ∃ x, dom.word (own h.size) x ∧ L.acc o.fsm x = false) : Inside L dom own (alloc h o).1 := by
  have old : ∀ {r}, r < h.size → (MinDfa.alloc h o).1.obj r = h.obj r := by
    intro r hr
    simp only [MinDfa.alloc]
    rw [if_neg (Nat.ne_of_lt hr)]
  have new : (MinDfa.alloc h o).1.obj h.size = o := by
    simp [MinDfa.alloc]
  refine ⟨?_, ?_⟩
  · intro r hr
    rcases Nat.lt_succ_iff_lt_or_eq.1 hr with hr | rfl
    · rw [old hr]; exact I.sub r hr
    · rw [new]; exact hs
  · intro r hr
    rcases Nat.lt_succ_iff_lt_or_eq.1 hr with hr | rfl
    · rw [old hr]; exact I.no r hr
    · rw [new]; exact hn

/-- Objects changed only in their complement. -/
theorem setComp_obj (h : Heap F) (r c i : Nat) : ((setComp h r c).obj i).fsm = (h.obj i).fsm ∧
    ((setComp h r c).obj i).mark = (h.obj i).mark := by
  simp only [setComp]
  split <;> exact ⟨rfl, rfl⟩

theorem Inv.setComp {h : Heap F} (I : Inv L dom own h) {r c : Nat} (hcs : c < h.size)
    (hc : ∀ x, dom.word (own r) x → L.acc (h.obj c).fsm x = !L.acc (h.obj r).fsm x) : Inv L dom own (setComp h r c) := by
  have fs : ∀ i, ((MinDfa.setComp h r c).obj i).fsm = (h.obj i).fsm := fun i => (setComp_obj h r c i).1
  refine ⟨?_, ?_, ?_, ?_, ?_, ?_⟩
  · intro i hi hm
    rw [(setComp_obj h r c i).2] at hm
    rw [fs]
    exact I.yes i hi hm
  · intro i hi c' hm
    rw [fs, fs]
    by_cases e : i = r
    · subst e
      simp only [MinDfa.setComp, if_pos] at hm
      cases hm
      exact ⟨hcs, hc⟩
    · simp only [MinDfa.setComp, if_neg e] at hm
      exact I.comp i hi c' hm
  · intro e he
    rw [fs]; exact I.rx e he
  · intro e he
    rw [fs]; exact I.orC e he
  · intro e he
    rw [fs]; exact I.andC e he
  · intro e he
    rw [fs]; exact I.subC e he

theorem Inside.setComp {h : Heap F} (I : Inside L dom own h) (r c : Nat) : Inside L dom own (setComp h r c) := by
  refine ⟨?_, ?_⟩
  · intro i hi
    rw [(setComp_obj h r c i).1]
    exact I.sub i hi
  · intro i hi hm
    rw [(setComp_obj h r c i).2] at hm
    rw [(setComp_obj h r c i).1]
    exact I.no i hi hm

theorem Inv.setAll {h : Heap F} (I : Inv L dom own h) {r : Nat}
    (ha : ∀ x, dom.word (own r) x → L.acc (h.obj r).fsm x = true) : Inv L dom own (setAll h r) := by
  have fs : ∀ i, ((MinDfa.setAll h r).obj i).fsm = (h.obj i).fsm := by
    intro i
    simp only [MinDfa.setAll]
    split <;> rfl
  have cs : ∀ i, ((MinDfa.setAll h r).obj i).comp = (h.obj i).comp := by
    intro i
    simp only [MinDfa.setAll]
    split <;> rfl
  refine ⟨?_, ?_, ?_, ?_, ?_, ?_⟩
  · intro i hi hm
    rw [fs]
    by_cases e : i = r
    · subst e; exact ha
    · simp only [MinDfa.setAll, if_neg e] at hm
      exact I.yes i hi hm
  · intro i hi c hm
    rw [cs] at hm
    rw [fs, fs]
    exact I.comp i hi c hm
  · intro e he
    rw [fs]; exact I.rx e he
  · intro e he
    rw [fs]; exact I.orC e he
  · intro e he
    rw [fs]; exact I.andC e he
  · intro e he
    rw [fs]; exact I.subC e he

theorem Inside.setAll {h : Heap F} (I : Inside L dom own h) (r : Nat) : Inside L dom own (setAll h r) := by
  have fs : ∀ i, ((MinDfa.setAll h r).obj i).fsm = (h.obj i).fsm := by
    intro i
    simp only [MinDfa.setAll]
    split <;> rfl
  refine ⟨?_, ?_⟩
  · intro i hi
    rw [fs]
    exact I.sub i hi
  · intro i hi hm
    rw [fs]
    by_cases e : i = r
    · subst e
      simp [MinDfa.setAll] at hm
    · simp only [MinDfa.setAll, if_neg e] at hm
      exact I.no i hi hm

/-! ## The method that reads regular expressions -/

theorem fromRegex_none {h : Heap F} {s : String} (he : h.rx.find? (fun e => e.1 == s) = none) : fromRegex L h s =
    ({ (alloc h (regexObj L s)).1 with rx := (s, h.size) :: h.rx }, h.size) := by
  unfold fromRegex
  rw [he]
  rfl

theorem fromRegex_grows (h : Heap F) (s : String) : Grows h (fromRegex L h s).1 := by
  unfold fromRegex
  split
  · exact Grows.refl h
  · exact ⟨(alloc_grows h (regexObj L s)).size, (alloc_grows h (regexObj L s)).fsm⟩

theorem fromRegex_fsm {h : Heap F} (I : Inv L dom own h) (s : String) :
    (fromRegex L h s).2 < (fromRegex L h s).1.size ∧ ((fromRegex L h s).1.obj (fromRegex L h s).2).fsm = L.parse s := by
  unfold fromRegex
  split
  · next e he =>
    have h1 := I.rx e (List.mem_of_find?_eq_some he)
    have h2 : e.1 = s := by simpa using List.find?_some he
    rw [← h2]
    exact h1
  · refine ⟨Nat.lt_succ_self _, ?_⟩
    simp [alloc, regexObj]

theorem Inv.fromRegex {h : Heap F} (I : Inv L dom own h) (s : String) : Inv L dom own (fromRegex L h s).1 := by
  have I' : (h.rx.find? (fun e => e.1 == s)) = none → Inv L dom own (MinDfa.fromRegex L h s).1 := by
    intro he
    have hf := fromRegex_fsm I s
    have e1 := fromRegex_none (L := L) he
    have A : Inv L dom own (MinDfa.alloc h (regexObj L s)).1 := by
      refine I.alloc ?_ ?_
      · intro hm
        unfold regexObj at hm
        dsimp only at hm
        split at hm <;> cases hm
      · intro c hc
        cases hc
    rw [e1] at hf ⊢
    exact { yes := A.yes, comp := A.comp, orC := A.orC, andC := A.andC, subC := A.subC
            rx := by
              intro e he'
              rcases List.mem_cons.1 he' with rfl | he'
              · exact hf
              · exact A.rx e he' }
  cases he : h.rx.find? (fun e => e.1 == s) with
  | none => exact I' he
  | some e =>
    unfold MinDfa.fromRegex
    rw [he]
    exact I

theorem Inside.fromRegex {h : Heap F} (I : Inside L dom own h) (s : String)
    (hs : ∀ x, L.acc (L.parse s) x = true → dom.word (own (fromRegex L h s).2) x)
    (hn : '*' ∉ s.toList → ∃ x, dom.word (own (fromRegex L h s).2) x ∧ L.acc (L.parse s) x = false) :
    Inside L dom own (fromRegex L h s).1 := by
  cases he : h.rx.find? (fun e => e.1 == s) with
  | none =>
    have e1 := fromRegex_none (L := L) he
    rw [e1] at hs hn ⊢
    have A : Inside L dom own (MinDfa.alloc h (regexObj L s)).1 := by
      refine I.alloc hs ?_
      intro hm
      unfold regexObj at hm
      dsimp only at hm
      split at hm
      · cases hm
      · next hne => exact hn hne
    exact ⟨A.sub, A.no⟩
  | some e =>
    unfold MinDfa.fromRegex
    rw [he]
    exact I

/-! ## The operators -/

theorem memo_some {t : List ((F × F) × Nat)} {a b : F} {r : Nat} (hf : find L t a b = some r) : ((a, b), r) ∈ t := by
  unfold find at hf
  obtain ⟨e, he, rfl⟩ := Option.map_eq_some_iff.1 hf
  have h1 := List.mem_of_find?_eq_some he
  have h2 : e.1 = (a, b) := by simpa using List.find?_some he
  rw [← h2]
  exact h1

/-- What the body of an operator must do: keep the invariants, and give an object with the wanted words. -/
structure Good (L : FsmLib F X) (dom : Domains D X) (own : Nat → D) (h : Heap F) (d : D) (want : X → Bool)
    (res : Heap F × Nat) : Prop where
  grows : Grows h res.1
  inv : own res.2 = d → Inv L dom own res.1
  lt : res.2 < res.1.size
  word : own res.2 = d → ∀ x, dom.word d x → L.acc (res.1.obj res.2).fsm x = want x
  inside : own res.2 = d → Inside L dom own h → Inside L dom own res.1

variable (HL : L.Lawful)
include HL

theorem orBody_good {h : Heap F} (I : Inv L dom own h) {d : D} {a b : Nat} (ha : a < h.size) (hb : b < h.size)
    (oa : own a = d) (ob : own b = d) :
    Good L dom own h d (fun x => L.acc (h.obj a).fsm x || L.acc (h.obj b).fsm x) (orBody L h a b) := by
  unfold orBody
  split
  · next hm =>
    refine ⟨Grows.refl h, fun _ => I, ha, fun _ x hx => ?_, fun _ S => S⟩
    have := I.yes a ha hm x (oa ▸ hx)
    simp only [this, Bool.true_or]
  split
  · next hm =>
    refine ⟨Grows.refl h, fun _ => I, hb, fun _ x hx => ?_, fun _ S => S⟩
    have := I.yes b hb hm x (ob ▸ hx)
    simp only [this, Bool.or_true]
  · refine ⟨alloc_grows h _, fun ho => ?_, Nat.lt_succ_self _, fun _ x _ => ?_, fun ho S => ?_⟩
    · refine I.alloc ?_ ?_
      · intro hm
        dsimp only at hm
        split at hm <;> cases hm
      · intro c hc
        cases hc
    · simp [alloc, HL.acc_or]
    · have ho' : own h.size = d := ho
      refine S.alloc ?_ ?_
      · intro x hx
        dsimp only at hx
        rw [HL.acc_or, Bool.or_eq_true] at hx
        rw [ho']
        rcases hx with hx | hx
        · exact oa ▸ S.sub a ha x hx
        · exact ob ▸ S.sub b hb x hx
      · intro hm
        dsimp only at hm ⊢
        split at hm
        · next hfin =>
          obtain ⟨ws, hws⟩ := (HL.finite_iff _).1 hfin
          obtain ⟨x, hx, hnx⟩ := dom.infinite (own h.size) ws
          exact ⟨x, hx, Bool.eq_false_iff.2 (fun hacc => hnx (hws x hacc))⟩
        · cases hm

theorem andBody_good {h : Heap F} (I : Inv L dom own h) {d : D} {a b : Nat} (ha : a < h.size) (hb : b < h.size)
    (oa : own a = d) (ob : own b = d) :
    Good L dom own h d (fun x => L.acc (h.obj a).fsm x && L.acc (h.obj b).fsm x) (andBody L h a b) := by
  unfold andBody
  split
  · next hm =>
    refine ⟨Grows.refl h, fun _ => I, hb, fun _ x hx => ?_, fun _ S => S⟩
    have := I.yes a ha hm x (oa ▸ hx)
    simp only [this, Bool.true_and]
  split
  · next hm =>
    refine ⟨Grows.refl h, fun _ => I, ha, fun _ x hx => ?_, fun _ S => S⟩
    have := I.yes b hb hm x (ob ▸ hx)
    simp only [this, Bool.and_true]
  · refine ⟨alloc_grows h _, fun ho => ?_, Nat.lt_succ_self _, fun _ x _ => ?_, fun ho S => ?_⟩
    · refine I.alloc ?_ ?_
      · intro hm
        dsimp only at hm
        split at hm <;> cases hm
      · intro c hc
        cases hc
    · simp [alloc, HL.acc_and]
    · have ho' : own h.size = d := ho
      refine S.alloc ?_ ?_
      · intro x hx
        dsimp only at hx
        rw [HL.acc_and, Bool.and_eq_true] at hx
        rw [ho']
        exact oa ▸ S.sub a ha x hx.1
      · intro hm
        dsimp only at hm ⊢
        rw [ho']
        split at hm
        · next hno =>
          rcases hno with hno | hno
          · obtain ⟨x, hx, hn⟩ := S.no a ha hno
            exact ⟨x, oa ▸ hx, by rw [HL.acc_and, hn, Bool.false_and]⟩
          · obtain ⟨x, hx, hn⟩ := S.no b hb hno
            exact ⟨x, ob ▸ hx, by rw [HL.acc_and, hn, Bool.and_false]⟩
        · cases hm

omit HL in
/-- The positive mark of a difference. -/
theorem subMark_yes {ma mb : Tern} {fb f : F} (hm : subMark L ma mb fb f = .yes) : ma = .yes ∧ L.empty fb = true := by
  by_cases hc : ma = .yes ∧ L.empty fb = true
  · exact hc
  · exfalso
    unfold subMark at hm
    dsimp only at hm
    rw [if_neg hc] at hm
    revert hm
    cases mb <;> cases L.empty fb <;> cases L.finite f <;> decide

omit HL in
/-- The negative mark of a difference. -/
theorem subMark_no {ma mb : Tern} {fb f : F} (hm : subMark L ma mb fb f = .no) :
    mb = .yes ∨ L.empty fb = false ∨ L.finite f = true := by
  by_cases h1 : mb = .yes
  · exact Or.inl h1
  by_cases h2 : L.empty fb = false
  · exact Or.inr (Or.inl h2)
  by_cases h3 : L.finite f = true
  · exact Or.inr (Or.inr h3)
  exfalso
  have h2' : L.empty fb = true := by simpa using h2
  have h3' : L.finite f = false := by simpa using h3
  simp only [subMark, if_neg h1, h2', h3'] at hm
  revert hm
  cases ma <;> decide

/-- A new object made by a difference. -/
theorem subNew_good {h : Heap F} (I : Inv L dom own h) {d : D} {a b : Nat} (ha : a < h.size) (hb : b < h.size)
    (oa : own a = d) (ob : own b = d) :
    Good L dom own h d (fun x => L.acc (h.obj a).fsm x && !L.acc (h.obj b).fsm x)
      (let f := L.sub (h.obj a).fsm (h.obj b).fsm
       let o : Obj F := { fsm := f, mark := subMark L (h.obj a).mark (h.obj b).mark (h.obj b).fsm f,
                          comp := if (h.obj a).mark = .yes then some b else none }
       let res := alloc h o
       (if (h.obj a).mark = .yes then setComp res.1 b res.2 else res.1, res.2)) := by
  let f := L.sub (h.obj a).fsm (h.obj b).fsm
  let o : Obj F := { fsm := f, mark := subMark L (h.obj a).mark (h.obj b).mark (h.obj b).fsm f,
                     comp := if (h.obj a).mark = .yes then some b else none }
  have comp : (h.obj a).mark = .yes → ∀ x, dom.word d x → L.acc f x = !L.acc (h.obj b).fsm x := by
    intro hm x hx
    change L.acc (L.sub _ _) x = _
    rw [HL.acc_sub, I.yes a ha hm x (oa ▸ hx), Bool.true_and]
  have A : own h.size = d → Inv L dom own (alloc h o).1 := by
    intro ho
    refine I.alloc ?_ ?_
    · intro hm x hx
      obtain ⟨h1, h2⟩ := subMark_yes hm
      rw [ho] at hx
      change L.acc f x = true
      rw [comp h1 x hx, (HL.empty_iff _).1 h2 x]
      rfl
    · intro c hc
      change (if _ then _ else _) = _ at hc
      split at hc
      · next hm =>
        cases hc
        refine ⟨hb, fun x hx => ?_⟩
        rw [ho] at hx
        rw [show L.acc o.fsm x = _ from comp hm x hx, Bool.not_not]
      · cases hc
  have S' : own h.size = d → Inside L dom own h → Inside L dom own (alloc h o).1 := by
    intro ho S
    refine S.alloc ?_ ?_
    · intro x hx
      change L.acc (L.sub _ _) x = true at hx
      rw [HL.acc_sub, Bool.and_eq_true] at hx
      rw [ho]
      exact oa ▸ S.sub a ha x hx.1
    · intro hm
      rcases subMark_no hm with h1 | h1 | h1
      · obtain ⟨x, hx, -⟩ := dom.infinite d []
        refine ⟨x, ho ▸ hx, ?_⟩
        change L.acc (L.sub _ _) x = false
        rw [HL.acc_sub, I.yes b hb h1 x (ob ▸ hx), Bool.not_true, Bool.and_false]
      · have : ∃ x, L.acc (h.obj b).fsm x = true := by
          rcases Classical.em (∃ x, L.acc (h.obj b).fsm x = true) with h2 | h2
          · exact h2
          · exact absurd ((HL.empty_iff _).2 (fun x => Bool.eq_false_iff.2 (fun hx => h2 ⟨x, hx⟩))) (by rw [h1]; decide)
        obtain ⟨x, hx⟩ := this
        refine ⟨x, ho ▸ ob ▸ S.sub b hb x hx, ?_⟩
        change L.acc (L.sub _ _) x = false
        rw [HL.acc_sub, hx, Bool.not_true, Bool.and_false]
      · obtain ⟨ws, hws⟩ := (HL.finite_iff _).1 h1
        obtain ⟨x, hx, hnx⟩ := dom.infinite (own h.size) ws
        exact ⟨x, hx, Bool.eq_false_iff.2 (fun hacc => hnx (hws x hacc))⟩
  have G := alloc_grows h o
  have W : L.acc ((alloc h o).1.obj h.size).fsm = L.acc f := by simp [alloc, o]
  change Good L dom own h d _ (if (h.obj a).mark = .yes then setComp (alloc h o).1 b h.size else (alloc h o).1, h.size)
  split
  · next hm =>
    refine ⟨G.trans (setComp_grows _ _ _), fun ho => ?_, Nat.lt_succ_self _, fun _ x _ => ?_, fun ho S => (S' ho S).setComp _ _⟩
    · refine (A ho).setComp (Nat.lt_succ_self _) ?_
      intro x hx
      rw [W, G.fsm b hb]
      rw [ob] at hx
      exact comp hm x hx
    · change L.acc ((setComp (alloc h o).1 b h.size).obj h.size).fsm x = _
      rw [(setComp_obj _ _ _ _).1, W]
      exact HL.acc_sub _ _ x
  · refine ⟨G, fun ho => A ho, Nat.lt_succ_self _, fun _ x _ => ?_, fun ho S => S' ho S⟩
    change L.acc ((alloc h o).1.obj h.size).fsm x = _
    rw [W]
    exact HL.acc_sub _ _ x

theorem subBody_good {h : Heap F} (I : Inv L dom own h) {d : D} {a b : Nat} (ha : a < h.size) (hb : b < h.size)
    (oa : own a = d) (ob : own b = d) :
    Good L dom own h d (fun x => L.acc (h.obj a).fsm x && !L.acc (h.obj b).fsm x) (subBody L h a b) := by
  unfold subBody
  split
  · next c hm hc =>
    obtain ⟨h1, h2⟩ := I.comp b hb c hc
    refine ⟨Grows.refl h, fun _ => I, h1, fun _ x hx => ?_, fun _ S => S⟩
    simp only [h2 x (ob ▸ hx), I.yes a ha hm x (oa ▸ hx), Bool.true_and]
  · exact subNew_good HL I ha hb oa ob

/-- A call keeps the invariants and gives an object with the words that were asked for. -/
theorem call_good {T : D → String → Prop} {h : Heap F} (I : Inv L dom own h) (c : Call D) (hlt : ∀ a ∈ c.args, a < h.size)
    (hm : c.Meant L dom) (hu : c.Unmixed L own h) (hT : ∀ d s, c = .regex d s → T d s) :
    Grows h (c.run L h).1 ∧ Inv L dom own (c.run L h).1 ∧ (c.run L h).2 < (c.run L h).1.size ∧
    (∀ x, dom.word c.dim x → accepts L (c.run L h).1 (c.run L h).2 x = c.Asks L h x) ∧
    ((∀ d s, T d s → (∀ x, L.acc (L.parse s) x = true → dom.word d x) ∧
      ('*' ∉ s.toList → ∃ x, dom.word d x ∧ L.acc (L.parse s) x = false)) →
      Inside L dom own h → Inside L dom own (c.run L h).1) := by
  obtain ⟨hargs, hres⟩ := hu
  cases c with
  | all d s =>
    have hf := fromRegex_fsm I s
    have ho : own (fromRegex L h s).2 = d := hres
    refine ⟨(fromRegex_grows h s).trans (setAll_grows _ _), (I.fromRegex s).setAll ?_, hf.1, ?_, ?_⟩
    · intro x hx
      rw [hf.2]
      exact (hm.2 x).2 (ho ▸ hx)
    · intro x _
      change L.acc ((setAll (fromRegex L h s).1 (fromRegex L h s).2).obj (fromRegex L h s).2).fsm x = L.acc (L.parse s) x
      rw [(setAll_grows _ _).fsm _ hf.1, hf.2]
    · intro _ S
      refine (S.fromRegex s ?_ ?_).setAll _
      · intro x hx
        rw [ho]
        exact (hm.2 x).1 hx
      · exact fun hn => absurd hm.1 hn
  | regex d s =>
    have hf := fromRegex_fsm I s
    have ho : own (fromRegex L h s).2 = d := hres
    refine ⟨fromRegex_grows h s, I.fromRegex s, hf.1, ?_, ?_⟩
    · intro x _
      change L.acc ((fromRegex L h s).1.obj (fromRegex L h s).2).fsm x = _
      rw [hf.2]
      rfl
    · intro hS S
      have := hS d s (hT d s rfl)
      refine S.fromRegex s ?_ ?_
      · rw [ho]; exact this.1
      · rw [ho]; exact this.2
  | or d a b =>
    have ha := hlt a (by simp [Call.args])
    have hb := hlt b (by simp [Call.args])
    have oa : own a = d := hargs a (by simp [Call.args])
    have ob : own b = d := hargs b (by simp [Call.args])
    change own (MinDfa.or L h a b).2 = d at hres
    change Grows h (MinDfa.or L h a b).1 ∧ Inv L dom own (MinDfa.or L h a b).1 ∧ (MinDfa.or L h a b).2 < (MinDfa.or L h a b).1.size ∧
      (∀ x, dom.word d x → L.acc ((MinDfa.or L h a b).1.obj (MinDfa.or L h a b).2).fsm x = _) ∧
      (_ → _ → Inside L dom own (MinDfa.or L h a b).1)
    revert hres
    unfold MinDfa.or
    split
    · next r hr =>
      intro hres
      obtain ⟨h1, h2⟩ := I.orC _ (memo_some hr)
      exact ⟨Grows.refl h, I, h1, fun x hx => h2 x (hres ▸ hx), fun _ S => S⟩
    · intro hres
      have G := orBody_good HL I ha hb oa ob
      have A := G.inv hres
      refine ⟨⟨G.grows.size, G.grows.fsm⟩, { yes := A.yes, comp := A.comp, rx := A.rx, andC := A.andC, subC := A.subC, orC := ?_ },
        G.lt, G.word hres, fun _ S => ⟨(G.inside hres S).sub, (G.inside hres S).no⟩⟩
      intro e he
      rcases List.mem_cons.1 he with rfl | he
      · exact ⟨G.lt, fun x hx => G.word hres x (hres ▸ hx)⟩
      · exact A.orC e he
  | and d a b =>
    have ha := hlt a (by simp [Call.args])
    have hb := hlt b (by simp [Call.args])
    have oa : own a = d := hargs a (by simp [Call.args])
    have ob : own b = d := hargs b (by simp [Call.args])
    change own (MinDfa.and L h a b).2 = d at hres
    change Grows h (MinDfa.and L h a b).1 ∧ Inv L dom own (MinDfa.and L h a b).1 ∧ (MinDfa.and L h a b).2 < (MinDfa.and L h a b).1.size ∧
      (∀ x, dom.word d x → L.acc ((MinDfa.and L h a b).1.obj (MinDfa.and L h a b).2).fsm x = _) ∧
      (_ → _ → Inside L dom own (MinDfa.and L h a b).1)
    revert hres
    unfold MinDfa.and
    split
    · next r hr =>
      intro hres
      obtain ⟨h1, h2⟩ := I.andC _ (memo_some hr)
      exact ⟨Grows.refl h, I, h1, fun x hx => h2 x (hres ▸ hx), fun _ S => S⟩
    · intro hres
      have G := andBody_good HL I ha hb oa ob
      have A := G.inv hres
      refine ⟨⟨G.grows.size, G.grows.fsm⟩, { yes := A.yes, comp := A.comp, rx := A.rx, orC := A.orC, subC := A.subC, andC := ?_ },
        G.lt, G.word hres, fun _ S => ⟨(G.inside hres S).sub, (G.inside hres S).no⟩⟩
      intro e he
      rcases List.mem_cons.1 he with rfl | he
      · exact ⟨G.lt, fun x hx => G.word hres x (hres ▸ hx)⟩
      · exact A.andC e he
  | sub d a b =>
    have ha := hlt a (by simp [Call.args])
    have hb := hlt b (by simp [Call.args])
    have oa : own a = d := hargs a (by simp [Call.args])
    have ob : own b = d := hargs b (by simp [Call.args])
    change own (MinDfa.sub L h a b).2 = d at hres
    change Grows h (MinDfa.sub L h a b).1 ∧ Inv L dom own (MinDfa.sub L h a b).1 ∧ (MinDfa.sub L h a b).2 < (MinDfa.sub L h a b).1.size ∧
      (∀ x, dom.word d x → L.acc ((MinDfa.sub L h a b).1.obj (MinDfa.sub L h a b).2).fsm x = _) ∧
      (_ → _ → Inside L dom own (MinDfa.sub L h a b).1)
    revert hres
    unfold MinDfa.sub
    split
    · next r hr =>
      intro hres
      obtain ⟨h1, h2⟩ := I.subC _ (memo_some hr)
      exact ⟨Grows.refl h, I, h1, fun x hx => h2 x (hres ▸ hx), fun _ S => S⟩
    · intro hres
      have G := subBody_good HL I ha hb oa ob
      have A := G.inv hres
      refine ⟨⟨G.grows.size, G.grows.fsm⟩, { yes := A.yes, comp := A.comp, rx := A.rx, orC := A.orC, andC := A.andC, subC := ?_ },
        G.lt, G.word hres, fun _ S => ⟨(G.inside hres S).sub, (G.inside hres S).no⟩⟩
      intro e he
      rcases List.mem_cons.1 he with rfl | he
      · exact ⟨G.lt, fun x hx => G.word hres x (hres ▸ hx)⟩
      · exact A.subC e he

end

end MinDfa
end Verif
