import Verif.MinDfaProofs

/-!
# C55: sets of strings behave as sets, whatever was computed before

`MinDFA` objects carry marks and references that later operations change, and the operations are memoized.
In a process that keeps the objects of different dimensions apart, the results are those of the languages.
-/
namespace Verif
namespace MinDfa
variable {F X D : Type} {L : FsmLib F X} {dom : Domains D X} {T : D → String → Prop} {own : Nat → D} {h₀ h : Heap F}

/-- The texts used for a dimension denote words of it only, and a text without a star not all of them. -/
def TextsInside (L : FsmLib F X) (dom : Domains D X) (T : D → String → Prop) : Prop :=
  ∀ d s, T d s → (∀ x, L.acc (L.parse s) x = true → dom.word d x) ∧
    ('*' ∉ s.toList → ∃ x, dom.word d x ∧ L.acc (L.parse s) x = false)

theorem Fresh.inv (hf : Fresh h) : Inv L dom own h := by
  obtain ⟨h1, h2, h3, h4, h5⟩ := hf
  refine ⟨?_, ?_, ?_, ?_, ?_, ?_⟩
  · intro r hr; rw [h1] at hr; exact absurd hr (Nat.not_lt_zero _)
  · intro r hr; rw [h1] at hr; exact absurd hr (Nat.not_lt_zero _)
  · rw [h2]; exact fun _ h => absurd h List.not_mem_nil
  · rw [h3]; exact fun _ h => absurd h List.not_mem_nil
  · rw [h4]; exact fun _ h => absurd h List.not_mem_nil
  · rw [h5]; exact fun _ h => absurd h List.not_mem_nil

theorem Fresh.inside (hf : Fresh h) : Inside L dom own h := by
  refine ⟨?_, ?_⟩
  · intro r hr; rw [hf.1] at hr; exact absurd hr (Nat.not_lt_zero _)
  · intro r hr; rw [hf.1] at hr; exact absurd hr (Nat.not_lt_zero _)

theorem exec_inv (HL : L.Lawful) (hf : Fresh h₀) (he : Exec L dom T own h₀ h) : Inv L dom own h := by
  induction he with
  | start => exact hf.inv
  | call c _ hlt hm hT hu ih => exact (call_good HL ih c hlt hm hu hT).2.1
  | evict _ e ih => exact ih.evict e

theorem exec_inside (HL : L.Lawful) (hT : TextsInside L dom T) (hf : Fresh h₀) (he : Exec L dom T own h₀ h) :
    Inside L dom own h := by
  induction he with
  | start => exact hf.inside
  | call c he' hlt hm hT' hu ih => exact (call_good HL (exec_inv HL hf he') c hlt hm hu hT').2.2.2.2 hT ih
  | evict _ e ih => exact ih.evict e

/-- **C55 (operations).**  After any execution that keeps the objects of different dimensions apart, a
further call gives an object that accepts, among the words of the dimension, exactly the words asked for,
and no object made before changes its words. -/
theorem C55_operations_partial (HL : L.Lawful) (hf : Fresh h₀) (he : Exec L dom T own h₀ h) (c : Call D)
    (hlt : ∀ a ∈ c.args, a < h.size) (hm : c.Meant L dom) (hu : c.Unmixed L own h) :
    (∀ x, dom.word c.dim x → accepts L (c.run L h).1 (c.run L h).2 x = c.Asks L h x) ∧
    (∀ r < h.size, ∀ x, accepts L (c.run L h).1 r x = accepts L h r x) := by
  have G := call_good (T := fun _ _ => True) HL (exec_inv HL hf he) c hlt hm hu (fun _ _ _ => trivial)
  refine ⟨G.2.2.2.1, fun r hr x => ?_⟩
  unfold accepts
  rw [G.1.fsm r hr]

/-- **C55 (operations, exact).**  If moreover the texts used for a dimension denote words of it only, the
object accepts exactly the words asked for, and it is equal to every other object of that language. -/
theorem C55_exact_partial (HL : L.Lawful) (hT : TextsInside L dom T) (hf : Fresh h₀) (he : Exec L dom T own h₀ h) (c : Call D)
    (hlt : ∀ a ∈ c.args, a < h.size) (hm : c.Meant L dom) (ht : ∀ d s, c = .regex d s → T d s) (hu : c.Unmixed L own h) :
    (∀ x, accepts L (c.run L h).1 (c.run L h).2 x = c.Asks L h x) ∧
    ∀ f, (∀ x, L.acc f x = c.Asks L h x) → ((c.run L h).1.obj (c.run L h).2).fsm = f := by
  have G := call_good HL (exec_inv HL hf he) c hlt hm hu ht
  have S := exec_inside HL hT hf he
  have S' := G.2.2.2.2 hT S
  have own' : own (c.run L h).2 = c.dim := hu.2
  have inA : ∀ x, c.Asks L h x = true → dom.word c.dim x := by
    intro x hx
    have hargs := hu.1
    cases c with
    | all d s => exact (hm.2 x).1 hx
    | regex d s => exact (hT d s (ht d s rfl)).1 x hx
    | or d a b =>
      have oa : own a = d := hargs a (by simp [Call.args])
      have ob : own b = d := hargs b (by simp [Call.args])
      rcases Bool.or_eq_true_iff.1 hx with hx | hx
      · exact oa ▸ S.sub a (hlt a (by simp [Call.args])) x hx
      · exact ob ▸ S.sub b (hlt b (by simp [Call.args])) x hx
    | and d a b =>
      have oa : own a = d := hargs a (by simp [Call.args])
      exact oa ▸ S.sub a (hlt a (by simp [Call.args])) x (Bool.and_eq_true_iff.1 hx).1
    | sub d a b =>
      have oa : own a = d := hargs a (by simp [Call.args])
      exact oa ▸ S.sub a (hlt a (by simp [Call.args])) x (Bool.and_eq_true_iff.1 hx).1
  have all : ∀ x, accepts L (c.run L h).1 (c.run L h).2 x = c.Asks L h x := by
    intro x
    rcases Classical.em (dom.word c.dim x) with hx | hx
    · exact G.2.2.2.1 x hx
    · have h1 : accepts L (c.run L h).1 (c.run L h).2 x = false :=
        Bool.eq_false_iff.2 (fun ha => hx (own' ▸ S'.sub _ G.2.2.1 x ha))
      have h2 : c.Asks L h x = false := Bool.eq_false_iff.2 (fun ha => hx (inA x ha))
      rw [h1, h2]
  exact ⟨all, fun f hf' => HL.ext _ _ (fun x => (all x).trans (hf' x).symm)⟩

/-- **C55 (questions).**  Equality, emptiness, containment and "is the whole dimension" answer as the
languages say. -/
theorem C55_questions_partial (HL : L.Lawful) (hT : TextsInside L dom T) (hf : Fresh h₀) (he : Exec L dom T own h₀ h)
    {d : D} {a b : Nat} (ha : a < h.size) (hb : b < h.size) (oa : own a = d) (ob : own b = d) :
    (eq L h a b = true ↔ ∀ x, accepts L h a x = accepts L h b x) ∧
    (truthy L h a = true ↔ ∃ x, accepts L h a x = true) ∧
    (contained L h a b = true ↔ ∀ x, accepts L h a x = true → accepts L h b x = true) ∧
    ((∀ x, accepts L h b x = true ↔ dom.word d x) → (isAll L h a b = true ↔ ∀ x, dom.word d x → accepts L h a x = true)) ∧
    (truthy L h a = true → ∃ x, rep L h a = some x ∧ accepts L h a x = true) := by
  have I := exec_inv HL hf he
  have S := exec_inside HL hT hf he
  have heq : eq L h a b = true ↔ ∀ x, accepts L h a x = accepts L h b x := by
    unfold eq accepts
    letI := L.decEq
    exact (decide_eq_true_iff (p := (h.obj a).fsm = (h.obj b).fsm)).trans ⟨fun e x => by rw [e], HL.ext _ _⟩
  have htr : truthy L h a = true ↔ ∃ x, accepts L h a x = true := by
    unfold truthy accepts
    rw [Bool.not_eq_true', ← Bool.not_eq_true, HL.empty_iff]
    constructor
    · intro hn
      rcases Classical.em (∃ x, L.acc (h.obj a).fsm x = true) with h1 | h1
      · exact h1
      · exact absurd (fun x => Bool.eq_false_iff.2 (fun hx => h1 ⟨x, hx⟩)) hn
    · rintro ⟨x, hx⟩ hn
      rw [hn x] at hx
      cases hx
  refine ⟨heq, htr, ?_, ?_, ?_⟩
  · unfold contained
    split
    · next hm =>
      refine ⟨fun _ x hx => ?_, fun _ => rfl⟩
      refine I.yes b hb hm x ?_
      rw [ob, ← oa]
      exact S.sub a ha x hx
    · split
      · next hm =>
        refine ⟨fun hc => (by cases hc), fun hc => ?_⟩
        exfalso
        obtain ⟨x, hx, hn⟩ := S.no b hb hm.2
        have h1 : accepts L h a x = true := I.yes a ha hm.1 x (by rw [oa, ← ob]; exact hx)
        have h2 : L.acc (h.obj b).fsm x = true := hc x h1
        rw [hn] at h2
        cases h2
      · exact HL.subset_iff _ _
  · intro hd
    unfold isAll
    split
    · next hm => exact ⟨fun _ x hx => I.yes a ha hm x (oa ▸ hx), fun _ => rfl⟩
    · split
      · next hm =>
        refine ⟨fun hc => (by cases hc), fun hc => ?_⟩
        exfalso
        obtain ⟨x, hx, hn⟩ := S.no a ha hm
        have h2 : L.acc (h.obj a).fsm x = true := hc x (oa ▸ hx)
        rw [hn] at h2
        cases h2
      · next hm _ =>
        rw [Bool.and_eq_true, heq]
        constructor
        · intro hc x hx
          rw [hc.2 x]
          exact (hd x).2 hx
        · intro hc
          have same : ∀ x, accepts L h a x = accepts L h b x := by
            intro x
            rcases Classical.em (dom.word d x) with hx | hx
            · rw [hc x hx, (hd x).2 hx]
            · have h1 : accepts L h a x = false := Bool.eq_false_iff.2 (fun ha' => hx (oa ▸ S.sub a ha x ha'))
              have h2 : accepts L h b x = false := Bool.eq_false_iff.2 (fun ha' => hx ((hd x).1 ha'))
              rw [h1, h2]
          refine ⟨?_, same⟩
          unfold finiteLen
          rw [if_neg hm, Bool.not_eq_true']
          refine Bool.eq_false_iff.2 (fun hfin => ?_)
          obtain ⟨ws, hws⟩ := (HL.finite_iff _).1 hfin
          obtain ⟨x, hx, hnx⟩ := dom.infinite d ws
          exact hnx (hws x (hc x hx))
  · intro ht
    unfold rep
    rw [if_pos ht]
    refine HL.first_acc _ ?_
    unfold truthy at ht
    simpa using ht

/-- The automata as values of dimensions, with the operations of the library and no marks, references or
memo tables: the algebra over which the sets of connections are modelled (`VAlg`, CubeModel.lean). -/
def pureAlg (L : FsmLib F X) (domF : D → F) : VAlg D F X where
  and := L.and
  or := L.or
  sub := L.sub
  truthy f := !L.empty f
  contained := L.subset
  mem x f := L.acc f x
  rep f := if L.empty f then none else L.first f
  dom := domF
  decEq := L.decEq

/-- The values of a dimension: automata that accept words of the dimension only. -/
def Within (L : FsmLib F X) (dom : Domains D X) (d : D) (f : F) : Prop := ∀ x, L.acc f x = true → dom.word d x

/-- **C55 (algebra).**  Over a correct library the automata are a lawful algebra of values. -/
theorem C55_algebra_lawful (HL : L.Lawful) {domF : D → F} (hd : ∀ d x, L.acc (domF d) x = true ↔ dom.word d x) :
    (pureAlg L domF).Lawful (Within L dom) := by
  have tr : ∀ f, (!L.empty f) = true ↔ ∃ x, L.acc f x = true := by
    intro f
    rw [Bool.not_eq_true', ← Bool.not_eq_true, HL.empty_iff]
    constructor
    · intro hn
      rcases Classical.em (∃ x, L.acc f x = true) with h1 | h1
      · exact h1
      · exact absurd (fun x => Bool.eq_false_iff.2 (fun hx => h1 ⟨x, hx⟩)) hn
    · rintro ⟨x, hx⟩ hn
      rw [hn x] at hx
      cases hx
  exact {
    wf_and := by
      intro d a b ha _ x hx
      have hx' : L.acc (L.and a b) x = true := hx
      rw [HL.acc_and, Bool.and_eq_true] at hx'
      exact ha x hx'.1
    wf_or := by
      intro d a b ha hb x hx
      have hx' : L.acc (L.or a b) x = true := hx
      rw [HL.acc_or, Bool.or_eq_true] at hx'
      exact hx'.elim (ha x) (hb x)
    wf_sub := by
      intro d a b ha _ x hx
      have hx' : L.acc (L.sub a b) x = true := hx
      rw [HL.acc_sub, Bool.and_eq_true] at hx'
      exact ha x hx'.1
    mem_and := fun _ _ x => HL.acc_and _ _ x
    mem_or := fun _ _ x => HL.acc_or _ _ x
    mem_sub := fun _ _ x => HL.acc_sub _ _ x
    truthy_iff := fun {_ a} _ => tr a
    contained_iff := fun _ _ => HL.subset_iff _ _
    rep_mem := by
      intro d a _ ht
      have he : L.empty a = false := by
        have ht' : (!L.empty a) = true := ht
        simpa using ht'
      change ∃ x, (if L.empty a then none else L.first a) = some x ∧ L.acc a x = true
      rw [he]
      exact HL.first_acc a he
    wf_dom := fun d x hx => (hd d x).1 hx
    dom_truthy := by
      intro d
      obtain ⟨x, hx, -⟩ := dom.infinite d []
      exact (tr _).2 ⟨x, (hd d x).2 hx⟩
    sub_dom := fun {d a} ha x hx => (hd d x).2 (ha x hx)
    ext := fun {d a b} _ _ hx => HL.ext a b hx }

/-- **C55 (refinement).**  After any execution that keeps dimensions apart, the operators on objects give
the objects of the operators of that algebra, and the questions the same answers. -/
theorem C55_refines_partial (HL : L.Lawful) (hT : TextsInside L dom T) {domF : D → F}
    (hd : ∀ d x, L.acc (domF d) x = true ↔ dom.word d x) (hf : Fresh h₀) (he : Exec L dom T own h₀ h)
    {d : D} {a b : Nat} (ha : a < h.size) (hb : b < h.size) (oa : own a = d) (ob : own b = d) :
    (own (MinDfa.or L h a b).2 = d →
      ((MinDfa.or L h a b).1.obj (MinDfa.or L h a b).2).fsm = (pureAlg L domF).or (h.obj a).fsm (h.obj b).fsm) ∧
    (own (MinDfa.and L h a b).2 = d →
      ((MinDfa.and L h a b).1.obj (MinDfa.and L h a b).2).fsm = (pureAlg L domF).and (h.obj a).fsm (h.obj b).fsm) ∧
    (own (MinDfa.sub L h a b).2 = d →
      ((MinDfa.sub L h a b).1.obj (MinDfa.sub L h a b).2).fsm = (pureAlg L domF).sub (h.obj a).fsm (h.obj b).fsm) ∧
    contained L h a b = (pureAlg L domF).contained (h.obj a).fsm (h.obj b).fsm ∧
    truthy L h a = (pureAlg L domF).truthy (h.obj a).fsm ∧
    rep L h a = (pureAlg L domF).rep (h.obj a).fsm ∧
    ((h.obj b).fsm = domF d → (isAll L h a b = true ↔ (h.obj a).fsm = (pureAlg L domF).dom d)) := by
  have lt : ∀ c : Call D, c.args = [a, b] → ∀ r ∈ c.args, r < h.size := by
    intro c hc r hr
    rw [hc] at hr
    rcases List.mem_cons.1 hr with rfl | hr
    · exact ha
    · rcases List.mem_cons.1 hr with rfl | hr
      · exact hb
      · exact absurd hr List.not_mem_nil
  have ow : ∀ c : Call D, c.args = [a, b] → c.dim = d → ∀ r ∈ c.args, own r = c.dim := by
    intro c hc hcd r hr
    rw [hc] at hr
    rw [hcd]
    rcases List.mem_cons.1 hr with rfl | hr
    · exact oa
    · rcases List.mem_cons.1 hr with rfl | hr
      · exact ob
      · exact absurd hr List.not_mem_nil
  have Q := C55_questions_partial HL hT hf he ha hb oa ob
  refine ⟨fun ho => ?_, fun ho => ?_, fun ho => ?_, ?_, rfl, ?_, fun hb' => ?_⟩
  · exact (C55_exact_partial HL hT hf he (.or d a b) (lt _ rfl) trivial (fun _ _ h => (by cases h)) ⟨ow _ rfl rfl, ho⟩).2 _
      (fun x => HL.acc_or _ _ x)
  · exact (C55_exact_partial HL hT hf he (.and d a b) (lt _ rfl) trivial (fun _ _ h => (by cases h)) ⟨ow _ rfl rfl, ho⟩).2 _
      (fun x => HL.acc_and _ _ x)
  · exact (C55_exact_partial HL hT hf he (.sub d a b) (lt _ rfl) trivial (fun _ _ h => (by cases h)) ⟨ow _ rfl rfl, ho⟩).2 _
      (fun x => HL.acc_sub _ _ x)
  · rw [Bool.eq_iff_iff]
    exact Q.2.2.1.trans (HL.subset_iff _ _).symm
  · change (if (!L.empty (h.obj a).fsm) = true then _ else _) = (if _ then _ else _)
    cases L.empty (h.obj a).fsm <;> rfl
  · have hdom : ∀ x, accepts L h b x = true ↔ dom.word d x := by
      intro x
      unfold accepts
      rw [hb']
      exact hd d x
    rw [Q.2.2.2.1 hdom]
    constructor
    · intro hx
      refine HL.ext _ _ (fun x => ?_)
      rw [Bool.eq_iff_iff]
      exact ⟨fun h1 => (hd d x).2 (oa ▸ (exec_inside HL hT hf he).sub a ha x h1), fun h1 => hx x ((hd d x).1 h1)⟩
    · intro e x hx
      unfold accepts
      rw [e]
      exact (hd d x).2 hx

/-! ## Objects mixed between two dimensions -/

/-- The calls made for the same negated values of two dimensions: all words of both, then for each the
regular expression and the difference (IstioPolicyYamlParser.py 322-327). -/
def excludeTwice (L : FsmLib F X) (h : Heap F) (domA domB s : String) : Heap F × Nat :=
  let a := allWords L h domA
  let b := allWords L a.1 domB
  let r := fromRegex L b.1 s
  let x := sub L r.1 a.2 r.2
  let r' := fromRegex L x.1 s
  sub L r'.1 b.2 r'.2

theorem fromRegex_hit {h : Heap F} {s : String} {r : Nat} (hr : h.rx.find? (fun e => e.1 == s) = some (s, r)) :
    fromRegex L h s = (h, r) := by
  unfold fromRegex
  rw [hr]

/-- **C55 fails between dimensions.**  For any text, after its words were excluded from one dimension,
excluding them from another dimension gives the words of the *first* dimension. -/
theorem C55_mixed_dimensions_wrong (HL : L.Lawful) (hf : Fresh h₀) {domA domB s : String} (hAB : domA ≠ domB) (hA : s ≠ domA)
    (hB : s ≠ domB) (hlang : ∃ x, L.acc (L.parse domA) x ≠ L.acc (L.parse domB) x) :
    ∀ x, accepts L (excludeTwice L h₀ domA domB s).1 (excludeTwice L h₀ domA domB s).2 x =
      (L.acc (L.parse domA) x && !L.acc (L.parse s) x) := by
  obtain ⟨h1, h2, h3, h4, h5⟩ := hf
  have hne : L.parse domA ≠ L.parse domB := by
    rintro e
    obtain ⟨x, hx⟩ := hlang
    rw [e] at hx
    exact hx rfl
  intro x
  have b1 : (domA == domB) = false := by simpa using hAB
  have b2 : (domA == s) = false := by simpa using Ne.symm hA
  have b3 : (domB == s) = false := by simpa using Ne.symm hB
  simp [excludeTwice, allWords, fromRegex, h1, h2, alloc, setAll, regexObj, b1, b2, b3, sub, find, h5, subBody, setComp, accepts,
    HL.acc_sub, hne]

end MinDfa
end Verif
