import Verif.CubeProofs1
/-! Helper lemmas for hyper-cube sets, part 2: `and`, `or`, `sub` on trees of common dimensions. -/
namespace Verif

section
variable {D V X : Type} {A : VAlg D V X} {Wf : D → V → Prop}

theorem neT_false_den {ds : List D} {t : Tree V ds} (h : neT ds t = false) (p : D → X) : ¬ Den A ds t p := by
  cases ds with
  | nil => simp [neT] at h
  | cons d ds =>
    change List (Entry V ds) at t
    simp [neT] at h
    subst h
    rintro ⟨e, he, _⟩
    simp at he

theorem wfL_filterMap {d : D} {ds : List D} {S : Type} (l : List (V × S)) (f : V × S → Option (Entry V ds))
    (hd : l.Pairwise (fun e1 e2 => ∀ x, ¬ (A.mem x e1.1 = true ∧ A.mem x e2.1 = true)))
    (hf : ∀ e ∈ l, ∀ g, f e = some g → (Wf d g.1 ∧ A.truthy g.1 = true ∧ WfT A Wf ds g.2.2) ∧
      ∀ x, A.mem x g.1 = true → A.mem x e.1 = true) :
    WfL A Wf d ds (l.filterMap f) := by
  rw [List.filterMap_eq_flatMap_toList]
  refine wfL_flatMap l _ hd ?_
  intro e he
  cases h : f e with
  | none => simp; exact wfL_nil
  | some g =>
    have := hf e he g h
    simp only [Option.toList_some, List.mem_singleton, forall_eq]
    exact ⟨wfL_cons.2 ⟨this.1, wfL_nil, by simp⟩, this.2⟩

theorem DenL_filterMap {d : D} {ds : List D} {B : Type} {l : List B} {f : B → Option (Entry V ds)} {p : D → X} :
    DenL A d ds (l.filterMap f) p ↔ ∃ e ∈ l, ∃ g, f e = some g ∧ A.mem (p d) g.1 = true ∧ Den A ds g.2.2 p := by
  unfold DenL
  constructor
  · rintro ⟨g, hg, h⟩
    obtain ⟨e, he, hf⟩ := List.mem_filterMap.1 hg
    exact ⟨e, he, g, hf, h⟩
  · rintro ⟨e, he, g, hf, h⟩
    exact ⟨g, List.mem_filterMap.2 ⟨e, he, hf⟩, h⟩

/-- Top-level distinctness of sub-objects. -/
def DistinctT (A : VAlg D V X) : (ds : List D) → Tree V ds → Prop
  | [], _ => True
  | _ :: ds, t => (layers t).Pairwise (fun a b => subEq A ds a.2 b.2 = false)

theorem dictSet_subs {S : Type} (dec : DecidableEq V) (l : List (V × S)) (e : V × S) :
    ∀ g ∈ dictSet dec l e, (∃ g' ∈ l, g.2 = g'.2) ∨ g.2 = e.2 := by
  induction l with
  | nil => intro g hg; simp [dictSet] at hg; right; rw [hg]
  | cons a l ih =>
    intro g hg
    unfold dictSet at hg
    split at hg
    · rcases List.mem_cons.1 hg with rfl | hg
      · right; rfl
      · left; exact ⟨g, by simp [hg], rfl⟩
    · rcases List.mem_cons.1 hg with rfl | hg
      · left; exact ⟨g, by simp, rfl⟩
      · rcases ih g hg with ⟨g', h, h2⟩ | h
        · left; exact ⟨g', by simp [h], h2⟩
        · right; exact h

theorem dictOf_subs {S : Type} (dec : DecidableEq V) (l : List (V × S)) :
    ∀ g ∈ dictOf dec l, ∃ g' ∈ l, g.2 = g'.2 := by
  have key : ∀ (l acc : List (V × S)), ∀ g ∈ l.foldl (dictSet dec) acc, ∃ g' ∈ acc ++ l, g.2 = g'.2 := by
    intro l
    induction l with
    | nil => intro acc g hg; exact ⟨g, by simpa using hg, rfl⟩
    | cons e l ih =>
      intro acc g hg
      obtain ⟨g', hg', h⟩ := ih _ g hg
      rcases List.mem_append.1 hg' with hg' | hg'
      · rcases dictSet_subs dec acc e g' hg' with ⟨g2, h2, h3⟩ | h3
        · exact ⟨g2, by simp [h2], by rw [h, h3]⟩
        · exact ⟨e, by simp, by rw [h, h3]⟩
      · exact ⟨g', by simp [hg'], h⟩
  intro g hg
  simpa using key l [] g hg

theorem mergeL_subs {ds : List D} (l : List (Entry V ds)) :
    ∀ g ∈ mergeL A ds l, ∃ g' ∈ l, g.2 = g'.2 := by
  have key : ∀ (l acc : List (Entry V ds)), ∀ g ∈ l.foldl (insClass A ds) acc, ∃ g' ∈ acc ++ l, g.2 = g'.2 := by
    intro l
    induction l with
    | nil => intro acc g hg; exact ⟨g, by simpa using hg, rfl⟩
    | cons e l ih =>
      intro acc g hg
      obtain ⟨g', hg', h⟩ := ih _ g hg
      rcases List.mem_append.1 hg' with hg' | hg'
      · rcases insClass_subs acc e g' hg' with ⟨g2, h2, h3⟩ | h3
        · exact ⟨g2, by simp [h2], by rw [h, h3]⟩
        · exact ⟨e, by simp, by rw [h, h3]⟩
      · exact ⟨g', by simp [hg'], h⟩
  intro g hg
  obtain ⟨g', hg', h⟩ := dictOf_subs _ _ g hg
  obtain ⟨g2, hg2, h2⟩ := key l [] g' hg'
  exact ⟨g2, by simpa using hg2, by rw [h, h2]⟩

variable (L : A.Lawful Wf)
include L

/-! ### Intersection -/

/-- The pairs collected by `_and_aux`. -/
def andPairs (A : VAlg D V X) (ds : List D) (t1 t2 : List (Entry V ds)) : List (Entry V ds) :=
  t1.flatMap (fun e1 => t2.filterMap (fun e2 =>
    if !A.truthy (A.and e1.1 e2.1) then none
    else if neT ds (andT A ds e1.2.2 e2.2.2) then some (A.and e1.1 e2.1, false, andT A ds e1.2.2 e2.2.2)
    else none))

omit L in
theorem andT_cons {d : D} {ds : List D} (t1 t2 : List (Entry V ds)) :
    andT (D := D) A (d :: ds) t1 t2 = mergeL A ds (dictOf A.decEq (andPairs A ds t1 t2)) := rfl

omit L in
theorem mem_andPairs {ds : List D} {t1 t2 : List (Entry V ds)} {g : Entry V ds} :
    g ∈ andPairs A ds t1 t2 ↔ ∃ e1 ∈ t1, ∃ e2 ∈ t2, A.truthy (A.and e1.1 e2.1) = true ∧
      neT ds (andT A ds e1.2.2 e2.2.2) = true ∧ g = (A.and e1.1 e2.1, false, andT A ds e1.2.2 e2.2.2) := by
  unfold andPairs
  simp only [List.mem_flatMap, List.mem_filterMap]
  constructor
  · rintro ⟨e1, h1, e2, h2, h⟩
    refine ⟨e1, h1, e2, h2, ?_⟩
    split at h
    · simp at h
    · split at h
      · rename_i a b
        exact ⟨by simpa using a, b, by simpa using h.symm⟩
      · simp at h
  · rintro ⟨e1, h1, e2, h2, ht, hn, rfl⟩
    exact ⟨e1, h1, e2, h2, by simp [ht, hn]⟩

theorem andT_spec {ds : List D} (t1 t2 : Tree V ds) (w1 : WfT A Wf ds t1) (w2 : WfT A Wf ds t2) :
    WfT A Wf ds (andT A ds t1 t2) ∧ (∀ p, Den A ds (andT A ds t1 t2) p ↔ Den A ds t1 p ∧ Den A ds t2 p) ∧
    DistinctT A ds (andT A ds t1 t2) := by
  induction ds with
  | nil => simp [WfT, Den, DistinctT]
  | cons d ds ih =>
    change List (Entry V ds) at t1 t2
    have w1' : WfL A Wf d ds t1 := w1
    have w2' : WfL A Wf d ds t2 := w2
    have wp : WfL A Wf d ds (andPairs A ds t1 t2) := by
      refine wfL_flatMap t1 _ w1'.2 ?_
      intro e1 he1
      have hf : ∀ e2 ∈ t2, ∀ g : Entry V ds, (if !A.truthy (A.and e1.1 e2.1) then none
          else if neT ds (andT A ds e1.2.2 e2.2.2) then
            some ((A.and e1.1 e2.1, false, andT A ds e1.2.2 e2.2.2) : Entry V ds)
          else none) = some g → (Wf d g.1 ∧ A.truthy g.1 = true ∧ WfT A Wf ds g.2.2) ∧
          ∀ x, A.mem x g.1 = true → A.mem x e1.1 = true ∧ A.mem x e2.1 = true := by
        intro e2 he2 g hg
        split at hg
        · simp at hg
        · split at hg
          · rename_i ht hn
            have : g = (A.and e1.1 e2.1, false, andT A ds e1.2.2 e2.2.2) := by simpa using hg.symm
            subst this
            refine ⟨⟨L.wf_and (w1'.1 e1 he1).1 (w2'.1 e2 he2).1, by simpa using ht,
              (ih _ _ (w1'.1 e1 he1).2.2 (w2'.1 e2 he2).2.2).1⟩, ?_⟩
            intro x hx
            simpa [L.mem_and (w1'.1 e1 he1).1 (w2'.1 e2 he2).1] using hx
          · simp at hg
      constructor
      · refine wfL_filterMap t2 _ w2'.2 ?_
        intro e2 he2 g hg
        exact ⟨(hf e2 he2 g hg).1, fun x hx => ((hf e2 he2 g hg).2 x hx).2⟩
      · intro g hg x hx
        obtain ⟨e2, he2, hg⟩ := List.mem_filterMap.1 hg
        exact ((hf e2 he2 g hg).2 x hx).1
    rw [andT_cons, wp.dictOf L]
    have ms := mergeL_spec L _ wp
    refine ⟨ms.wf, fun p => ?_, ms.distinct⟩
    rw [show Den A (d :: ds) _ p ↔ _ from ms.den p]
    constructor
    · rintro ⟨g, hg, hm, hd⟩
      obtain ⟨e1, he1, e2, he2, ht, hn, rfl⟩ := mem_andPairs.1 hg
      rw [(ih _ _ (w1'.1 e1 he1).2.2 (w2'.1 e2 he2).2.2).2.1] at hd
      rw [L.mem_and (w1'.1 e1 he1).1 (w2'.1 e2 he2).1, Bool.and_eq_true] at hm
      exact ⟨⟨e1, he1, hm.1, hd.1⟩, ⟨e2, he2, hm.2, hd.2⟩⟩
    · rintro ⟨⟨e1, he1, hm1, hd1⟩, ⟨e2, he2, hm2, hd2⟩⟩
      have hden := ((ih _ _ (w1'.1 e1 he1).2.2 (w2'.1 e2 he2).2.2).2.1 p).2 ⟨hd1, hd2⟩
      have hm : A.mem (p d) (A.and e1.1 e2.1) = true := by
        rw [L.mem_and (w1'.1 e1 he1).1 (w2'.1 e2 he2).1, hm1, hm2]; rfl
      refine ⟨_, mem_andPairs.2 ⟨e1, he1, e2, he2, ?_, ?_, rfl⟩, hm, hden⟩
      · rw [L.truthy_iff (L.wf_and (w1'.1 e1 he1).1 (w2'.1 e2 he2).1)]; exact ⟨_, hm⟩
      · by_contra hc
        exact neT_false_den (by simpa using hc) p hden

/-! ### Union -/

/-- The pairs collected from self by `or_aux`. -/
def orSelf (A : VAlg D V X) (ds : List D) (t1 t2 : List (Entry V ds)) : List (Entry V ds) :=
  t1.flatMap (fun e1 => (t2.filterMap (fun e2 =>
    if !A.truthy (A.and e1.1 e2.1) then none
    else some (A.and e1.1 e2.1, false, orT A ds e1.2.2 e2.2.2))) ++
      (if A.truthy (remaining A e1.1 t2 A.and) then [(remaining A e1.1 t2 A.and, e1.2)] else []))

/-- The pairs collected from other by `or_aux`. -/
def orOther (A : VAlg D V X) (ds : List D) (t1 t2 : List (Entry V ds)) : List (Entry V ds) :=
  t2.filterMap (fun e2 =>
    if A.truthy (remaining A e2.1 t1 (fun k2 k1 => A.and k1 k2)) then
      some (remaining A e2.1 t1 (fun k2 k1 => A.and k1 k2), e2.2) else none)

omit L in
theorem orT_cons {d : D} {ds : List D} (t1 t2 : List (Entry V ds)) :
    orT (D := D) A (d :: ds) t1 t2 =
      mergeL A ds (dictOf A.decEq (orSelf A ds t1 t2 ++ orOther A ds t1 t2)) := rfl

omit L in
theorem mem_orSelf {ds : List D} {t1 t2 : List (Entry V ds)} {g : Entry V ds} :
    g ∈ orSelf A ds t1 t2 ↔ ∃ e1 ∈ t1, (∃ e2 ∈ t2, A.truthy (A.and e1.1 e2.1) = true ∧
      g = (A.and e1.1 e2.1, false, orT A ds e1.2.2 e2.2.2)) ∨
      (A.truthy (remaining A e1.1 t2 A.and) = true ∧ g = (remaining A e1.1 t2 A.and, e1.2)) := by
  unfold orSelf
  simp only [List.mem_flatMap, List.mem_append, List.mem_filterMap]
  constructor
  · rintro ⟨e1, h1, ⟨e2, h2, h⟩ | h⟩
    · split at h
      · simp at h
      · rename_i ht
        exact ⟨e1, h1, Or.inl ⟨e2, h2, by simpa using ht, by simpa using h.symm⟩⟩
    · split at h
      · rename_i ht
        exact ⟨e1, h1, Or.inr ⟨ht, by simpa using h⟩⟩
      · simp at h
  · rintro ⟨e1, h1, ⟨e2, h2, ht, rfl⟩ | ⟨ht, rfl⟩⟩
    · exact ⟨e1, h1, Or.inl ⟨e2, h2, by simp [ht]⟩⟩
    · exact ⟨e1, h1, Or.inr (by simp [ht])⟩

omit L in
theorem mem_orOther {ds : List D} {t1 t2 : List (Entry V ds)} {g : Entry V ds} :
    g ∈ orOther A ds t1 t2 ↔ ∃ e2 ∈ t2, A.truthy (remaining A e2.1 t1 (fun k2 k1 => A.and k1 k2)) = true ∧
      g = (remaining A e2.1 t1 (fun k2 k1 => A.and k1 k2), e2.2) := by
  unfold orOther
  simp only [List.mem_filterMap]
  constructor
  · rintro ⟨e2, h2, h⟩
    split at h
    · rename_i ht
      exact ⟨e2, h2, ht, by simpa using h.symm⟩
    · simp at h
  · rintro ⟨e2, h2, ht, rfl⟩
    exact ⟨e2, h2, by simp [ht]⟩

theorem rem_and {d : D} {S : Type} {k : V} {others : List (V × S)} (hk : Wf d k) (ho : ∀ e ∈ others, Wf d e.1) :
    Wf d (remaining A k others A.and) ∧
    ∀ x, A.mem x (remaining A k others A.and) = true ↔ A.mem x k = true ∧ ∀ e ∈ others, A.mem x e.1 = false :=
  remaining_spec L k others A.and (fun v hv => ⟨L.wf_and hk hv, L.mem_and hk hv⟩) hk ho

theorem rem_and' {d : D} {S : Type} {k : V} {others : List (V × S)} (hk : Wf d k) (ho : ∀ e ∈ others, Wf d e.1) :
    Wf d (remaining A k others (fun k2 k1 => A.and k1 k2)) ∧
    ∀ x, A.mem x (remaining A k others (fun k2 k1 => A.and k1 k2)) = true ↔
      A.mem x k = true ∧ ∀ e ∈ others, A.mem x e.1 = false :=
  remaining_spec L k others _ (fun v hv => ⟨L.wf_and hv hk, fun x => by
    rw [L.mem_and hv hk, Bool.and_comm]⟩) hk ho

omit L in
theorem key_cases {ds : List D} (l : List (Entry V ds)) (x : X) :
    (∃ e ∈ l, A.mem x e.1 = true) ∨ (∀ e ∈ l, A.mem x e.1 = false) := by
  by_cases h : ∃ e ∈ l, A.mem x e.1 = true
  · exact Or.inl h
  · right
    intro e he
    by_contra hc
    exact h ⟨e, he, by simpa using hc⟩

omit L in
/-- In a well-formed dict a coordinate determines its layer. -/
theorem WfL.uniq {d : D} {ds : List D} {l : List (Entry V ds)} (h : WfL A Wf d ds l) {e f : Entry V ds}
    (he : e ∈ l) (hf : f ∈ l) {x : X} (h1 : A.mem x e.1 = true) (h2 : A.mem x f.1 = true) : e = f := by
  have hp := h.2
  clear h
  induction l with
  | nil => simp at he
  | cons a l ih =>
    obtain ⟨ha, hp⟩ := List.pairwise_cons.1 hp
    rcases List.mem_cons.1 he with rfl | he' <;> rcases List.mem_cons.1 hf with rfl | hf'
    · rfl
    · exact absurd ⟨h1, h2⟩ (ha f hf' x)
    · exact absurd ⟨h2, h1⟩ (ha e he' x)
    · exact ih he' hf' hp

theorem orT_spec {ds : List D} (t1 t2 : Tree V ds) (w1 : WfT A Wf ds t1) (w2 : WfT A Wf ds t2) :
    WfT A Wf ds (orT A ds t1 t2) ∧ (∀ p, Den A ds (orT A ds t1 t2) p ↔ Den A ds t1 p ∨ Den A ds t2 p) ∧
    DistinctT A ds (orT A ds t1 t2) := by
  induction ds with
  | nil => simp [WfT, Den, DistinctT]
  | cons d ds ih =>
    change List (Entry V ds) at t1 t2
    have w1' : WfL A Wf d ds t1 := w1
    have w2' : WfL A Wf d ds t2 := w2
    have k1 : ∀ e ∈ t1, Wf d e.1 := fun e he => (w1'.1 e he).1
    have k2 : ∀ e ∈ t2, Wf d e.1 := fun e he => (w2'.1 e he).1
    have wself : WfL A Wf d ds (orSelf A ds t1 t2) := by
      refine wfL_flatMap t1 _ w1'.2 ?_
      intro e1 he1
      have hr := rem_and L (k1 e1 he1) k2
      have hf : ∀ e2 ∈ t2, ∀ g : Entry V ds, (if !A.truthy (A.and e1.1 e2.1) then none
          else some ((A.and e1.1 e2.1, false, orT A ds e1.2.2 e2.2.2) : Entry V ds)) = some g →
          (Wf d g.1 ∧ A.truthy g.1 = true ∧ WfT A Wf ds g.2.2) ∧
          ∀ x, A.mem x g.1 = true → A.mem x e1.1 = true ∧ A.mem x e2.1 = true := by
        intro e2 he2 g hg
        split at hg
        · simp at hg
        · rename_i ht
          have : g = (A.and e1.1 e2.1, false, orT A ds e1.2.2 e2.2.2) := by simpa using hg.symm
          subst this
          refine ⟨⟨L.wf_and (k1 e1 he1) (k2 e2 he2), by simpa using ht,
            (ih _ _ (w1'.1 e1 he1).2.2 (w2'.1 e2 he2).2.2).1⟩, ?_⟩
          intro x hx
          simpa [L.mem_and (k1 e1 he1) (k2 e2 he2)] using hx
      constructor
      · refine wfL_append.2 ⟨?_, ?_, ?_⟩
        · refine wfL_filterMap t2 _ w2'.2 ?_
          intro e2 he2 g hg
          exact ⟨(hf e2 he2 g hg).1, fun x hx => ((hf e2 he2 g hg).2 x hx).2⟩
        · split
          · rename_i ht
            exact wfL_cons.2 ⟨⟨hr.1, ht, (w1'.1 e1 he1).2.2⟩, wfL_nil, by simp⟩
          · exact wfL_nil
        · intro g hg b hb x hx
          obtain ⟨e2, he2, hg⟩ := List.mem_filterMap.1 hg
          have h2 := ((hf e2 he2 g hg).2 x hx.1).2
          split at hb
          · simp at hb; subst hb
            have := ((hr.2 x).1 hx.2).2 e2 he2
            rw [h2] at this; exact absurd this (by simp)
          · simp at hb
      · intro g hg x hx
        rcases List.mem_append.1 hg with hg | hg
        · obtain ⟨e2, he2, hg⟩ := List.mem_filterMap.1 hg
          exact ((hf e2 he2 g hg).2 x hx).1
        · split at hg
          · simp at hg; subst hg
            exact ((hr.2 x).1 hx).1
          · simp at hg
    have wother : WfL A Wf d ds (orOther A ds t1 t2) := by
      refine wfL_filterMap t2 _ w2'.2 ?_
      intro e2 he2 g hg
      have hr := rem_and' L (k2 e2 he2) k1
      split at hg
      · rename_i ht
        have : g = (remaining A e2.1 t1 (fun k2 k1 => A.and k1 k2), e2.2) := by simpa using hg.symm
        subst this
        exact ⟨⟨hr.1, ht, (w2'.1 e2 he2).2.2⟩, fun x hx => ((hr.2 x).1 hx).1⟩
      · simp at hg
    have wp : WfL A Wf d ds (orSelf A ds t1 t2 ++ orOther A ds t1 t2) := by
      refine wfL_append.2 ⟨wself, wother, ?_⟩
      intro a ha b hb x hx
      obtain ⟨e2, he2, ht, rfl⟩ := mem_orOther.1 hb
      have hr := rem_and' L (k2 e2 he2) k1
      have hout := ((hr.2 x).1 hx.2).2
      obtain ⟨e1, he1, h⟩ := mem_orSelf.1 ha
      have hin : A.mem x e1.1 = true := by
        rcases h with ⟨e2', he2', _, rfl⟩ | ⟨_, rfl⟩
        · have := hx.1
          simp only [L.mem_and (k1 e1 he1) (k2 e2' he2'), Bool.and_eq_true] at this
          exact this.1
        · exact (((rem_and L (k1 e1 he1) k2).2 x).1 hx.1).1
      rw [hout e1 he1] at hin; exact absurd hin (by simp)
    rw [orT_cons, wp.dictOf L]
    have ms := mergeL_spec L _ wp
    refine ⟨ms.wf, fun p => ?_, ms.distinct⟩
    rw [show Den A (d :: ds) _ p ↔ _ from ms.den p, DenL_append]
    constructor
    · rintro (⟨g, hg, hm, hd⟩ | ⟨g, hg, hm, hd⟩)
      · obtain ⟨e1, he1, ⟨e2, he2, ht, rfl⟩ | ⟨ht, rfl⟩⟩ := mem_orSelf.1 hg
        · rw [(ih _ _ (w1'.1 e1 he1).2.2 (w2'.1 e2 he2).2.2).2.1] at hd
          rw [L.mem_and (k1 e1 he1) (k2 e2 he2), Bool.and_eq_true] at hm
          rcases hd with hd | hd
          · exact Or.inl ⟨e1, he1, hm.1, hd⟩
          · exact Or.inr ⟨e2, he2, hm.2, hd⟩
        · exact Or.inl ⟨e1, he1, (((rem_and L (k1 e1 he1) k2).2 _).1 hm).1, hd⟩
      · obtain ⟨e2, he2, ht, rfl⟩ := mem_orOther.1 hg
        exact Or.inr ⟨e2, he2, (((rem_and' L (k2 e2 he2) k1).2 _).1 hm).1, hd⟩
    · have both : ∀ e1 ∈ t1, ∀ e2 ∈ t2, A.mem (p d) e1.1 = true → A.mem (p d) e2.1 = true →
          (Den A ds e1.2.2 p ∨ Den A ds e2.2.2 p) → DenL A d ds (orSelf A ds t1 t2) p := by
        intro e1 he1 e2 he2 hm1 hm2 hd
        have hm : A.mem (p d) (A.and e1.1 e2.1) = true := by
          rw [L.mem_and (k1 e1 he1) (k2 e2 he2), hm1, hm2]; rfl
        refine ⟨_, mem_orSelf.2 ⟨e1, he1, Or.inl ⟨e2, he2, ?_, rfl⟩⟩, hm,
          ((ih _ _ (w1'.1 e1 he1).2.2 (w2'.1 e2 he2).2.2).2.1 p).2 hd⟩
        rw [L.truthy_iff (L.wf_and (k1 e1 he1) (k2 e2 he2))]; exact ⟨_, hm⟩
      rintro (⟨e1, he1, hm1, hd1⟩ | ⟨e2, he2, hm2, hd2⟩)
      · rcases key_cases (A := A) t2 (p d) with ⟨e2, he2, hm2⟩ | hno
        · exact Or.inl (both e1 he1 e2 he2 hm1 hm2 (Or.inl hd1))
        · have hr := rem_and L (k1 e1 he1) k2
          have hm := (hr.2 (p d)).2 ⟨hm1, hno⟩
          exact Or.inl ⟨_, mem_orSelf.2 ⟨e1, he1, Or.inr ⟨(L.truthy_iff hr.1).2 ⟨_, hm⟩, rfl⟩⟩, hm, hd1⟩
      · rcases key_cases (A := A) t1 (p d) with ⟨e1, he1, hm1⟩ | hno
        · exact Or.inl (both e1 he1 e2 he2 hm1 hm2 (Or.inr hd2))
        · have hr := rem_and' L (k2 e2 he2) k1
          have hm := (hr.2 (p d)).2 ⟨hm2, hno⟩
          exact Or.inr ⟨_, mem_orOther.2 ⟨e2, he2, (L.truthy_iff hr.1).2 ⟨_, hm⟩, rfl⟩, hm, hd2⟩

/-! ### Difference -/

/-- The pairs collected by `sub_aux`. -/
def subPairs (A : VAlg D V X) (ds : List D) (t1 t2 : List (Entry V ds)) : List (Entry V ds) :=
  t1.flatMap (fun e1 => (t2.filterMap (fun e2 =>
    if !A.truthy (A.and e1.1 e2.1) then none
    else if ds.isEmpty then none
    else if neT ds (subT A ds e1.2.2 e2.2.2) then some (A.and e1.1 e2.1, false, subT A ds e1.2.2 e2.2.2)
    else none)) ++
      (if A.truthy (remaining A e1.1 t2 A.and) then [(remaining A e1.1 t2 A.and, e1.2)] else []))

omit L in
theorem subT_cons {d : D} {ds : List D} (t1 t2 : List (Entry V ds)) :
    subT (D := D) A (d :: ds) t1 t2 = mergeL A ds (dictOf A.decEq (subPairs A ds t1 t2)) := rfl

omit L in
theorem mem_subPairs {ds : List D} {t1 t2 : List (Entry V ds)} {g : Entry V ds} :
    g ∈ subPairs A ds t1 t2 ↔ ∃ e1 ∈ t1, (∃ e2 ∈ t2, A.truthy (A.and e1.1 e2.1) = true ∧ ds ≠ [] ∧
      neT ds (subT A ds e1.2.2 e2.2.2) = true ∧ g = (A.and e1.1 e2.1, false, subT A ds e1.2.2 e2.2.2)) ∨
      (A.truthy (remaining A e1.1 t2 A.and) = true ∧ g = (remaining A e1.1 t2 A.and, e1.2)) := by
  unfold subPairs
  simp only [List.mem_flatMap, List.mem_append, List.mem_filterMap]
  constructor
  · rintro ⟨e1, h1, ⟨e2, h2, h⟩ | h⟩
    · split at h
      · simp at h
      · split at h
        · simp at h
        · split at h
          · rename_i ht hd hn
            exact ⟨e1, h1, Or.inl ⟨e2, h2, by simpa using ht, by simpa using hd, hn, by simpa using h.symm⟩⟩
          · simp at h
    · split at h
      · rename_i ht
        exact ⟨e1, h1, Or.inr ⟨ht, by simpa using h⟩⟩
      · simp at h
  · rintro ⟨e1, h1, ⟨e2, h2, ht, hd, hn, rfl⟩ | ⟨ht, rfl⟩⟩
    · exact ⟨e1, h1, Or.inl ⟨e2, h2, by simp [ht, hd, hn]⟩⟩
    · exact ⟨e1, h1, Or.inr (by simp [ht])⟩

theorem subT_wf {ds : List D} (t1 t2 : Tree V ds) (w1 : WfT A Wf ds t1) (w2 : WfT A Wf ds t2) :
    WfT A Wf ds (subT A ds t1 t2) ∧
    (ds ≠ [] → ∀ p, Den A ds (subT A ds t1 t2) p ↔ Den A ds t1 p ∧ ¬ Den A ds t2 p) ∧
    DistinctT A ds (subT A ds t1 t2) := by
  induction ds with
  | nil => simp [WfT, DistinctT]
  | cons d ds ih =>
    change List (Entry V ds) at t1 t2
    have w1' : WfL A Wf d ds t1 := w1
    have w2' : WfL A Wf d ds t2 := w2
    have k1 : ∀ e ∈ t1, Wf d e.1 := fun e he => (w1'.1 e he).1
    have k2 : ∀ e ∈ t2, Wf d e.1 := fun e he => (w2'.1 e he).1
    have wp : WfL A Wf d ds (subPairs A ds t1 t2) := by
      refine wfL_flatMap t1 _ w1'.2 ?_
      intro e1 he1
      have hr := rem_and L (k1 e1 he1) k2
      have hf : ∀ e2 ∈ t2, ∀ g : Entry V ds, (if !A.truthy (A.and e1.1 e2.1) then none
          else if ds.isEmpty then none
          else if neT ds (subT A ds e1.2.2 e2.2.2) then
            some ((A.and e1.1 e2.1, false, subT A ds e1.2.2 e2.2.2) : Entry V ds) else none) = some g →
          (Wf d g.1 ∧ A.truthy g.1 = true ∧ WfT A Wf ds g.2.2) ∧
          ∀ x, A.mem x g.1 = true → A.mem x e1.1 = true ∧ A.mem x e2.1 = true := by
        intro e2 he2 g hg
        split at hg
        · simp at hg
        · split at hg
          · simp at hg
          · split at hg
            · rename_i ht _ _
              have : g = (A.and e1.1 e2.1, false, subT A ds e1.2.2 e2.2.2) := by simpa using hg.symm
              subst this
              refine ⟨⟨L.wf_and (k1 e1 he1) (k2 e2 he2), by simpa using ht,
                (ih _ _ (w1'.1 e1 he1).2.2 (w2'.1 e2 he2).2.2).1⟩, ?_⟩
              intro x hx
              simpa [L.mem_and (k1 e1 he1) (k2 e2 he2)] using hx
            · simp at hg
      constructor
      · refine wfL_append.2 ⟨?_, ?_, ?_⟩
        · refine wfL_filterMap t2 _ w2'.2 ?_
          intro e2 he2 g hg
          exact ⟨(hf e2 he2 g hg).1, fun x hx => ((hf e2 he2 g hg).2 x hx).2⟩
        · split
          · rename_i ht
            exact wfL_cons.2 ⟨⟨hr.1, ht, (w1'.1 e1 he1).2.2⟩, wfL_nil, by simp⟩
          · exact wfL_nil
        · intro g hg b hb x hx
          obtain ⟨e2, he2, hg⟩ := List.mem_filterMap.1 hg
          have h2 := ((hf e2 he2 g hg).2 x hx.1).2
          split at hb
          · simp at hb; subst hb
            have := ((hr.2 x).1 hx.2).2 e2 he2
            rw [h2] at this; exact absurd this (by simp)
          · simp at hb
      · intro g hg x hx
        rcases List.mem_append.1 hg with hg | hg
        · obtain ⟨e2, he2, hg⟩ := List.mem_filterMap.1 hg
          exact ((hf e2 he2 g hg).2 x hx).1
        · split at hg
          · simp at hg; subst hg
            exact ((hr.2 x).1 hx).1
          · simp at hg
    rw [subT_cons, wp.dictOf L]
    have ms := mergeL_spec L _ wp
    refine ⟨ms.wf, fun _ p => ?_, ms.distinct⟩
    rw [show Den A (d :: ds) _ p ↔ _ from ms.den p]
    constructor
    · rintro ⟨g, hg, hm, hd⟩
      obtain ⟨e1, he1, ⟨e2, he2, ht, hne, hn, rfl⟩ | ⟨ht, rfl⟩⟩ := mem_subPairs.1 hg
      · rw [(ih _ _ (w1'.1 e1 he1).2.2 (w2'.1 e2 he2).2.2).2.1 hne] at hd
        rw [L.mem_and (k1 e1 he1) (k2 e2 he2), Bool.and_eq_true] at hm
        refine ⟨⟨e1, he1, hm.1, hd.1⟩, ?_⟩
        rintro ⟨e2', he2', hm', hd'⟩
        have := w2'.uniq he2 he2' hm.2 hm'
        subst this
        exact hd.2 hd'
      · have hr := ((rem_and L (k1 e1 he1) k2).2 _).1 hm
        refine ⟨⟨e1, he1, hr.1, hd⟩, ?_⟩
        rintro ⟨e2', he2', hm', hd'⟩
        rw [hr.2 e2' he2'] at hm'; exact absurd hm' (by simp)
    · rintro ⟨⟨e1, he1, hm1, hd1⟩, hno⟩
      rcases key_cases (A := A) t2 (p d) with ⟨e2, he2, hm2⟩ | hout
      · have hd2 : ¬ Den A ds e2.2.2 p := fun h => hno ⟨e2, he2, hm2, h⟩
        have hne : ds ≠ [] := by
          rintro rfl; exact hd2 trivial
        have hden := ((ih _ _ (w1'.1 e1 he1).2.2 (w2'.1 e2 he2).2.2).2.1 hne p).2 ⟨hd1, hd2⟩
        have hm : A.mem (p d) (A.and e1.1 e2.1) = true := by
          rw [L.mem_and (k1 e1 he1) (k2 e2 he2), hm1, hm2]; rfl
        refine ⟨_, mem_subPairs.2 ⟨e1, he1, Or.inl ⟨e2, he2, ?_, hne, ?_, rfl⟩⟩, hm, hden⟩
        · rw [L.truthy_iff (L.wf_and (k1 e1 he1) (k2 e2 he2))]; exact ⟨_, hm⟩
        · by_contra hc
          exact neT_false_den (by simpa using hc) p hden
      · have hr := rem_and L (k1 e1 he1) k2
        have hm := (hr.2 (p d)).2 ⟨hm1, hout⟩
        exact ⟨_, mem_subPairs.2 ⟨e1, he1, Or.inr ⟨(L.truthy_iff hr.1).2 ⟨_, hm⟩, rfl⟩⟩, hm, hd1⟩

theorem subT_spec {d : D} {ds : List D} (t1 t2 : Tree V (d :: ds)) (w1 : WfT A Wf (d :: ds) t1)
    (w2 : WfT A Wf (d :: ds) t2) (p : D → X) :
    Den A (d :: ds) (subT A (d :: ds) t1 t2) p ↔ Den A (d :: ds) t1 p ∧ ¬ Den A (d :: ds) t2 p :=
  (subT_wf L t1 t2 w1 w2).2.1 (by simp) p

/-! ### Where the sub-objects of a result come from -/
omit L

theorem andT_subs {d : D} {ds : List D} (t1 t2 : List (Entry V ds)) (g : Entry V ds)
    (hg : g ∈ layers (andT (D := D) A (d :: ds) t1 t2)) :
    ∃ e1 ∈ t1, ∃ e2 ∈ t2, neT ds (andT A ds e1.2.2 e2.2.2) = true ∧ g.2 = (false, andT A ds e1.2.2 e2.2.2) := by
  rw [andT_cons] at hg
  obtain ⟨g1, h1, e1⟩ := mergeL_subs _ g hg
  obtain ⟨g2, h2, e2⟩ := dictOf_subs _ _ g1 h1
  obtain ⟨a, ha, b, hb, _, hn, rfl⟩ := mem_andPairs.1 h2
  exact ⟨a, ha, b, hb, hn, by rw [e1, e2]⟩

theorem orT_subs {d : D} {ds : List D} (t1 t2 : List (Entry V ds)) (g : Entry V ds)
    (hg : g ∈ layers (orT (D := D) A (d :: ds) t1 t2)) :
    (∃ e1 ∈ t1, ∃ e2 ∈ t2, g.2 = (false, orT A ds e1.2.2 e2.2.2)) ∨ (∃ e1 ∈ t1, g.2 = e1.2) ∨
    (∃ e2 ∈ t2, g.2 = e2.2) := by
  rw [orT_cons] at hg
  obtain ⟨g1, h1, e1⟩ := mergeL_subs _ g hg
  obtain ⟨g2, h2, e2⟩ := dictOf_subs _ _ g1 h1
  rcases List.mem_append.1 h2 with h2 | h2
  · obtain ⟨a, ha, ⟨b, hb, _, rfl⟩ | ⟨_, rfl⟩⟩ := mem_orSelf.1 h2
    · exact Or.inl ⟨a, ha, b, hb, by rw [e1, e2]⟩
    · exact Or.inr (Or.inl ⟨a, ha, by rw [e1, e2]⟩)
  · obtain ⟨b, hb, _, rfl⟩ := mem_orOther.1 h2
    exact Or.inr (Or.inr ⟨b, hb, by rw [e1, e2]⟩)

theorem subT_subs {d : D} {ds : List D} (t1 t2 : List (Entry V ds)) (g : Entry V ds)
    (hg : g ∈ layers (subT (D := D) A (d :: ds) t1 t2)) :
    (∃ e1 ∈ t1, ∃ e2 ∈ t2, neT ds (subT A ds e1.2.2 e2.2.2) = true ∧ g.2 = (false, subT A ds e1.2.2 e2.2.2)) ∨
    (∃ e1 ∈ t1, g.2 = e1.2) := by
  rw [subT_cons] at hg
  obtain ⟨g1, h1, e1⟩ := mergeL_subs _ g hg
  obtain ⟨g2, h2, e2⟩ := dictOf_subs _ _ g1 h1
  obtain ⟨a, ha, ⟨b, hb, _, _, hn, rfl⟩ | ⟨_, rfl⟩⟩ := mem_subPairs.1 h2
  · exact Or.inl ⟨a, ha, b, hb, hn, by rw [e1, e2]⟩
  · exact Or.inr ⟨a, ha, by rw [e1, e2]⟩

/-! ### `NeT` and `CanT` are preserved -/

theorem neT_iff_ne {d : D} {ds : List D} {t : Tree V (d :: ds)} : neT (d :: ds) t = true ↔ layers t ≠ [] := by
  change (!(List.isEmpty (layers t))) = true ↔ _
  generalize layers t = l
  cases l <;> simp

theorem andT_ne {ds : List D} (t1 t2 : Tree V ds) : NeT ds (andT A ds t1 t2) := by
  induction ds with
  | nil => trivial
  | cons d ds ih =>
    intro g hg
    obtain ⟨a, _, b, _, hn, h⟩ := andT_subs _ _ g hg
    rw [h]; exact ⟨hn, ih _ _⟩

theorem andT_can (L : A.Lawful Wf) {ds : List D} (t1 t2 : Tree V ds) (w1 : WfT A Wf ds t1) (w2 : WfT A Wf ds t2) :
    CanT A ds (andT A ds t1 t2) := by
  induction ds with
  | nil => trivial
  | cons d ds ih =>
    refine ⟨?_, (andT_spec L t1 t2 w1 w2).2.2⟩
    intro g hg
    obtain ⟨a, ha, b, hb, hn, h⟩ := andT_subs _ _ g hg
    rw [h]; exact ⟨ih _ _ (w1.1 a ha).2.2 (w2.1 b hb).2.2, rfl⟩

/-- A point exists in every non-empty well-formed tree. -/
theorem exists_den [DecidableEq D] (L : A.Lawful Wf) {ds : List D} (hnd : ds.Nodup) (t : Tree V ds) (w : WfT A Wf ds t) (n : NeT ds t)
    (h : neT ds t = true) (p0 : D → X) (hp0 : InDom A p0) : ∃ p, InDom A p ∧ (∀ d ∉ ds, p d = p0 d) ∧ Den A ds t p := by
  induction ds generalizing p0 with
  | nil => exact ⟨p0, hp0, fun _ _ => rfl, trivial⟩
  | cons d ds ih =>
    change List (Entry V ds) at t
    have hne := neT_iff_ne.1 h
    obtain ⟨e, he⟩ := List.exists_mem_of_ne_nil _ hne
    have we := w.1 e he
    have nn := n e he
    obtain ⟨x, hx⟩ := (L.truthy_iff we.1).1 we.2.1
    have hnd' := List.nodup_cons.1 hnd
    obtain ⟨p, hp1, hp2, hp3⟩ := ih hnd'.2 e.2.2 we.2.2 nn.2 nn.1 (fun d' => if d' = d then x else p0 d') (by
      intro d'
      by_cases hd : d' = d
      · simp only [hd, if_true]; exact L.sub_dom we.1 x hx
      · simp only [hd, if_false]; exact hp0 d')
    refine ⟨p, hp1, ?_, e, he, ?_, hp3⟩
    · intro d' hd'
      rw [List.mem_cons, not_or] at hd'
      rw [hp2 d' hd'.2]; simp [hd'.1]
    · rw [hp2 d hnd'.1]; simpa using hx

theorem mergeL_ne {d : D} {ds : List D} (L : A.Lawful Wf) {l : List (Entry V ds)} (h : WfL A Wf d ds l) (hn : l ≠ []) :
    mergeL A ds l ≠ [] := (mergeL_spec L l h).ne hn

theorem orT_ne [DecidableEq D] (L : A.Lawful Wf) {ds : List D} (hnd : ds.Nodup) (t1 t2 : Tree V ds)
    (w1 : WfT A Wf ds t1) (w2 : WfT A Wf ds t2)
    (n1 : NeT ds t1) (n2 : NeT ds t2) (hp : ∃ p : D → X, InDom A p) :
    NeT ds (orT A ds t1 t2) ∧ (neT ds t1 = true → neT ds (orT A ds t1 t2) = true) := by
  induction ds with
  | nil => exact ⟨trivial, fun _ => rfl⟩
  | cons d ds ih =>
    have hnd' := List.nodup_cons.1 hnd
    constructor
    · intro g hg
      rcases orT_subs _ _ g hg with ⟨a, ha, b, hb, h⟩ | ⟨a, ha, h⟩ | ⟨b, hb, h⟩
      · rw [h]
        have := ih hnd'.2 a.2.2 b.2.2 (w1.1 a ha).2.2 (w2.1 b hb).2.2 (n1 a ha).2 (n2 b hb).2
        exact ⟨this.2 (n1 a ha).1, this.1⟩
      · rw [h]; exact n1 a ha
      · rw [h]; exact n2 b hb
    · intro h
      obtain ⟨p0, hp0⟩ := hp
      obtain ⟨p, _, _, hd⟩ := exists_den L hnd t1 w1 n1 h p0 hp0
      by_contra hc
      exact neT_false_den (by simpa using hc) p (((orT_spec L t1 t2 w1 w2).2.1 p).2 (Or.inl hd))

theorem orT_can (L : A.Lawful Wf) {ds : List D} (t1 t2 : Tree V ds) (w1 : WfT A Wf ds t1) (w2 : WfT A Wf ds t2)
    (c1 : CanT A ds t1) (c2 : CanT A ds t2) : CanT A ds (orT A ds t1 t2) := by
  induction ds with
  | nil => trivial
  | cons d ds ih =>
    refine ⟨?_, (orT_spec L t1 t2 w1 w2).2.2⟩
    intro g hg
    rcases orT_subs _ _ g hg with ⟨a, ha, b, hb, h⟩ | ⟨a, ha, h⟩ | ⟨b, hb, h⟩
    · rw [h]; exact ⟨ih _ _ (w1.1 a ha).2.2 (w2.1 b hb).2.2 (c1.1 a ha).1 (c2.1 b hb).1, rfl⟩
    · rw [h]; exact c1.1 a ha
    · rw [h]; exact c2.1 b hb

theorem subT_ne {ds : List D} (t1 t2 : Tree V ds) (n1 : NeT ds t1) : NeT ds (subT A ds t1 t2) := by
  induction ds with
  | nil => trivial
  | cons d ds ih =>
    intro g hg
    rcases subT_subs _ _ g hg with ⟨a, ha, b, hb, hn, h⟩ | ⟨a, ha, h⟩
    · rw [h]; exact ⟨hn, ih _ _ (n1 a ha).2⟩
    · rw [h]; exact n1 a ha

theorem subT_can (L : A.Lawful Wf) {ds : List D} (t1 t2 : Tree V ds) (w1 : WfT A Wf ds t1) (w2 : WfT A Wf ds t2)
    (c1 : CanT A ds t1) : CanT A ds (subT A ds t1 t2) := by
  induction ds with
  | nil => trivial
  | cons d ds ih =>
    refine ⟨?_, (subT_wf L t1 t2 w1 w2).2.2⟩
    intro g hg
    rcases subT_subs _ _ g hg with ⟨a, ha, b, hb, hn, h⟩ | ⟨a, ha, h⟩
    · rw [h]; exact ⟨ih _ _ (w1.1 a ha).2.2 (w2.1 b hb).2.2 (c1.1 a ha).1, rfl⟩
    · rw [h]; exact c1.1 a ha

/-! ### Full trees -/

theorem den_congr {ds : List D} (t : Tree V ds) {p q : D → X} (h : ∀ d ∈ ds, p d = q d) :
    Den A ds t p ↔ Den A ds t q := by
  induction ds with
  | nil => exact Iff.rfl
  | cons d ds ih =>
    simp only [Den]
    have h1 := h d (by simp)
    constructor
    · rintro ⟨e, he, hm, hd⟩
      exact ⟨e, he, h1 ▸ hm, (ih e.2.2 (fun d' hd' => h d' (by simp [hd']))).1 hd⟩
    · rintro ⟨e, he, hm, hd⟩
      exact ⟨e, he, h1 ▸ hm, (ih e.2.2 (fun d' hd' => h d' (by simp [hd']))).2 hd⟩

theorem fullT_full (ds : List D) : FullD A ds (fullT A ds) := by
  intro p hp
  induction ds with
  | nil => trivial
  | cons d ds ih => exact ⟨_, List.mem_singleton.2 rfl, hp d, ih⟩

theorem fullT_wf (L : A.Lawful Wf) (ds : List D) : WfT A Wf ds (fullT A ds) := by
  induction ds with
  | nil => trivial
  | cons d ds ih =>
    exact wfL_cons.2 ⟨⟨L.wf_dom d, L.dom_truthy d, ih⟩, wfL_nil, by simp⟩

theorem fullT_neT (ds : List D) : neT ds (fullT A ds) = true := by
  cases ds with
  | nil => rfl
  | cons d ds => rfl

theorem fullT_ne (ds : List D) : NeT ds (fullT A ds) := by
  induction ds with
  | nil => trivial
  | cons d ds ih =>
    intro e he
    have : e = (A.dom d, false, fullT A ds) := List.mem_singleton.1 he
    subst this
    exact ⟨fullT_neT ds, ih⟩

theorem fullT_one (ds : List D) : OneFull A ds (fullT A ds) := by
  induction ds with
  | nil => trivial
  | cons d ds ih =>
    refine ⟨?_, List.pairwise_singleton _ _⟩
    intro e he
    have : e = (A.dom d, false, fullT A ds) := List.mem_singleton.1 he
    subst this
    exact ⟨ih, by simp⟩

theorem fullT_can (ds : List D) : CanT A ds (fullT A ds) := by
  induction ds with
  | nil => trivial
  | cons d ds ih =>
    refine ⟨?_, List.pairwise_singleton _ _⟩
    intro e he
    have : e = (A.dom d, false, fullT A ds) := List.mem_singleton.1 he
    subst this
    exact ⟨ih, rfl⟩

theorem subEq_refl (L : A.Lawful Wf) {ds : List D} (s : Bool × Tree V ds) (w : WfT A Wf ds s.2) :
    subEq A ds s s = true := by
  induction ds with
  | nil => rfl
  | cons d ds ih =>
    obtain ⟨c, t⟩ := s
    change List (Entry V ds) at t
    have w' : WfL A Wf d ds t := w
    simp only [subEq, Bool.and_eq_true, beq_iff_eq, List.all_eq_true, true_and]
    intro e he
    have hf : List.find? (fun e2 => @decide (e2.1 = e.1) (A.decEq _ _)) t = some e := by
      have hk := w'.keys_ne L
      clear w w' ih
      induction t with
      | nil => simp at he
      | cons a t ih2 =>
        obtain ⟨h1, h2⟩ := List.pairwise_cons.1 hk
        rcases List.mem_cons.1 he with rfl | he'
        · simp
        · have hne := h1 e he'
          rw [List.find?_cons_of_neg (by simpa using hne)]
          exact ih2 he' h2
    rw [hf]
    exact ih e.2 (w'.1 e he).2.2

/-- Sections of a full tree are full. -/
theorem FullD.sub [DecidableEq D] (L : A.Lawful Wf) {d : D} {ds : List D} (hd : d ∉ ds) {t : Tree V (d :: ds)}
    (w : WfT A Wf (d :: ds) t) (hf : FullD A (d :: ds) t) : ∀ e ∈ layers t, FullD A ds e.2.2 := by
  intro e he p hp
  obtain ⟨x, hx⟩ := (L.truthy_iff (w.1 e he).1).1 (w.1 e he).2.1
  have hq : InDom A (fun d' => if d' = d then x else p d') := by
    intro d'
    by_cases h : d' = d
    · simp only [h, if_true]; exact L.sub_dom (w.1 e he).1 x hx
    · simp only [h, if_false]; exact hp d'
  obtain ⟨e', he', hm, hden⟩ := hf _ hq
  have : e' = e := WfL.uniq (A := A) w he' he hm (by simpa using hx)
  subst this
  refine (den_congr e'.2.2 ?_).1 hden
  intro d' hd'
  have : d' ≠ d := fun h => hd (h ▸ hd')
  simp [this]

theorem full_struct [DecidableEq D] (L : A.Lawful Wf) {ds : List D} (hnd : ds.Nodup) (t : Tree V ds)
    (w : WfT A Wf ds t) (o : OneFull A ds t) (hp : ∃ p : D → X, InDom A p) (hf : FullD A ds t) : t = fullT A ds := by
  induction ds with
  | nil => rfl
  | cons d ds ih =>
    have hnd' := List.nodup_cons.1 hnd
    have hs := hf.sub L hnd'.1 w
    change List (Entry V ds) at t
    have o2 := o.2
    obtain ⟨p, hp'⟩ := hp
    obtain ⟨e, he, _⟩ := hf p hp'
    match t, w, o, o2, hs, he, hf with
    | [e'], w, o, o2, hs, he, hf =>
      obtain ⟨k, c, s⟩ := e'
      have h1 : (k, c, s) ∈ layers (d := d) ([(k, c, s)] : List (Entry V ds)) := by simp [layers]
      have hfs := hs _ h1
      have htag : c = false := by
        by_contra hc
        exact (o.1 _ h1).2 (by simpa using hc) hfs
      have hsub := ih hnd'.2 s (w.1 _ h1).2.2 (o.1 _ h1).1 hfs
      have hk : k = A.dom d := by
        refine L.ext (w.1 _ h1).1 (L.wf_dom d) (fun x => ?_)
        rw [Bool.eq_iff_iff]
        refine ⟨L.sub_dom (w.1 _ h1).1 x, fun hx => ?_⟩
        have hq : InDom A (fun d' => if d' = d then x else p d') := by
          intro d'
          by_cases h : d' = d
          · simp only [h, if_true]; exact hx
          · simp only [h, if_false]; exact hp' d'
        obtain ⟨e', he', hm, _⟩ := hf _ hq
        have : e' = (k, c, s) := List.mem_singleton.1 he'
        subst this
        simpa using hm
      subst htag; subst hk; subst hsub; rfl
    | a :: b :: t, w, o, o2, hs, he, hf =>
      have h2 := (List.pairwise_cons.1 o2).1 b (by simp)
      exact absurd ⟨hs a (by simp [layers]), hs b (by simp [layers])⟩ h2

theorem isFullT_iff [DecidableEq D] (L : A.Lawful Wf) {ds : List D} (hnd : ds.Nodup) (c : Bool) (t : Tree V ds)
    (w : WfT A Wf ds t) (o : OneFull A ds t) (hc : c = true → ¬ FullD A ds t) (hp : ∃ p : D → X, InDom A p) :
    isFullT A ds c t = true ↔ FullD A ds t := by
  unfold isFullT
  constructor
  · intro h p hp'
    exact (subEq_sound L (false, fullT A ds) (c, t) (fullT_wf L ds) w h p).1 (fullT_full ds p hp')
  · intro h
    have hc : c = false := by
      by_contra hcc
      exact hc (by simpa using hcc) h
    have := full_struct L hnd t w o hp h
    subst hc; subst this
    exact subEq_refl L _ (fullT_wf L ds)

/-- Distinct sub-objects, with tagged ones not full, give `OneFull`. -/
theorem oneFull_of_distinct [DecidableEq D] (L : A.Lawful Wf) {d : D} {ds : List D} (hnd : (d :: ds).Nodup) (t : Tree V (d :: ds))
    (w : WfT A Wf (d :: ds) t) (hd : DistinctT A (d :: ds) t) (hp : ∃ p : D → X, InDom A p)
    (ho : ∀ e ∈ layers t, OneFull A ds e.2.2 ∧ (e.2.1 = true → ¬ FullD A ds e.2.2)) :
    OneFull A (d :: ds) t := by
  refine ⟨ho, ?_⟩
  have hnd' := List.nodup_cons.1 hnd
  refine List.Pairwise.imp_of_mem ?_ hd
  rintro a b ha hb hab ⟨fa, fb⟩
  have ta : a.2.1 = false := by
    by_contra hc; exact (ho a ha).2 (by simpa using hc) fa
  have tb : b.2.1 = false := by
    by_contra hc; exact (ho b hb).2 (by simpa using hc) fb
  have sa := full_struct L hnd'.2 a.2.2 (w.1 a ha).2.2 (ho a ha).1 hp fa
  have sb := full_struct L hnd'.2 b.2.2 (w.1 b hb).2.2 (ho b hb).1 hp fb
  have : a.2 = b.2 := Prod.ext (by rw [ta, tb]) (by rw [sa, sb])
  rw [this, subEq_refl L _ (w.1 b hb).2.2] at hab
  exact absurd hab (by simp)

theorem andT_one [DecidableEq D] (L : A.Lawful Wf) {ds : List D} (hnd : ds.Nodup) (t1 t2 : Tree V ds)
    (w1 : WfT A Wf ds t1) (w2 : WfT A Wf ds t2) (hp : ∃ p : D → X, InDom A p) :
    OneFull A ds (andT A ds t1 t2) := by
  induction ds with
  | nil => trivial
  | cons d ds ih =>
    have sp := andT_spec L t1 t2 w1 w2
    refine oneFull_of_distinct L hnd _ sp.1 sp.2.2 hp ?_
    intro g hg
    obtain ⟨a, ha, b, hb, hn, h⟩ := andT_subs _ _ g hg
    rw [h]; exact ⟨ih (List.nodup_cons.1 hnd).2 _ _ (w1.1 a ha).2.2 (w2.1 b hb).2.2, by simp⟩

theorem orT_one [DecidableEq D] (L : A.Lawful Wf) {ds : List D} (hnd : ds.Nodup) (t1 t2 : Tree V ds)
    (w1 : WfT A Wf ds t1) (w2 : WfT A Wf ds t2) (o1 : OneFull A ds t1) (o2 : OneFull A ds t2)
    (hp : ∃ p : D → X, InDom A p) : OneFull A ds (orT A ds t1 t2) := by
  induction ds with
  | nil => trivial
  | cons d ds ih =>
    have sp := orT_spec L t1 t2 w1 w2
    refine oneFull_of_distinct L hnd _ sp.1 sp.2.2 hp ?_
    intro g hg
    rcases orT_subs _ _ g hg with ⟨a, ha, b, hb, h⟩ | ⟨a, ha, h⟩ | ⟨b, hb, h⟩
    · rw [h]; exact ⟨ih (List.nodup_cons.1 hnd).2 _ _ (w1.1 a ha).2.2 (w2.1 b hb).2.2 (o1.1 a ha).1 (o2.1 b hb).1, by simp⟩
    · rw [h]; exact o1.1 a ha
    · rw [h]; exact o2.1 b hb

theorem subT_one [DecidableEq D] (L : A.Lawful Wf) {ds : List D} (hnd : ds.Nodup) (t1 t2 : Tree V ds)
    (w1 : WfT A Wf ds t1) (w2 : WfT A Wf ds t2) (o1 : OneFull A ds t1)
    (hp : ∃ p : D → X, InDom A p) : OneFull A ds (subT A ds t1 t2) := by
  induction ds with
  | nil => trivial
  | cons d ds ih =>
    have sp := subT_wf L t1 t2 w1 w2
    refine oneFull_of_distinct L hnd _ sp.1 sp.2.2 hp ?_
    intro g hg
    rcases subT_subs _ _ g hg with ⟨a, ha, b, hb, hn, h⟩ | ⟨a, ha, h⟩
    · rw [h]; exact ⟨ih (List.nodup_cons.1 hnd).2 _ _ (w1.1 a ha).2.2 (w2.1 b hb).2.2 (o1.1 a ha).1, by simp⟩
    · rw [h]; exact o1.1 a ha

theorem exists_inDom (L : A.Lawful Wf) : ∃ p : D → X, InDom A p := by
  have h : ∀ d, ∃ x, A.mem x (A.dom d) = true := fun d => (L.truthy_iff (L.wf_dom d)).1 (L.dom_truthy d)
  exact ⟨fun d => (h d).choose, fun d => (h d).choose_spec⟩

end
end Verif
