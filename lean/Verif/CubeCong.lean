import Verif.CubeProofs5
/-! Helper lemmas for hyper-cube sets, part 6: operations on equal objects give equal objects.

`==` on objects of the class `ConnectivityProperties` is incomplete (`C15_connprops_eq_incomplete`):
two of them may denote the same set and differ.  What is proved here is what makes the
equivalence queries exact nevertheless: an intersection is always in canonical form, and
subtracting the same set from two equal objects gives equal objects. -/
namespace Verif

section
variable {D V X : Type} [DecidableEq D] {A : VAlg D V X} {Wf : D → V → Prop}

/-- Equality of two sub-objects up to the order of their layers: same class, and the same keys
with equal sub-objects. -/
def PEq {D V : Type} : (ds : List D) → Bool × Tree V ds → Bool × Tree V ds → Prop
  | [], _, _ => True
  | _ :: ds, s, t => s.1 = t.1 ∧
      (∀ e ∈ layers s.2, ∃ f ∈ layers t.2, f.1 = e.1 ∧ PEq ds e.2 f.2) ∧
      (∀ f ∈ layers t.2, ∃ e ∈ layers s.2, f.1 = e.1 ∧ PEq ds e.2 f.2)

/-- Equality of two layer dicts up to the order of their layers. -/
def LEq {D V : Type} (ds : List D) (l m : List (Entry V ds)) : Prop :=
  (∀ e ∈ l, ∃ f ∈ m, f.1 = e.1 ∧ PEq ds e.2 f.2) ∧ (∀ f ∈ m, ∃ e ∈ l, f.1 = e.1 ∧ PEq ds e.2 f.2)

theorem pEq_cons {D V : Type} {d : D} {ds : List D} {s t : Bool × Tree V (d :: ds)} :
    PEq (d :: ds) s t ↔ s.1 = t.1 ∧ LEq ds (layers s.2) (layers t.2) := Iff.rfl

theorem PEq.refl {D V : Type} (ds : List D) (s : Bool × Tree V ds) : PEq ds s s := by
  induction ds with
  | nil => trivial
  | cons d ds ih => exact ⟨rfl, fun e he => ⟨e, he, rfl, ih _⟩, fun e he => ⟨e, he, rfl, ih _⟩⟩

theorem PEq.symm {D V : Type} {ds : List D} {s t : Bool × Tree V ds} (h : PEq ds s t) : PEq ds t s := by
  induction ds with
  | nil => trivial
  | cons d ds ih =>
    refine ⟨h.1.symm, fun e he => ?_, fun f hf => ?_⟩
    · obtain ⟨g, hg, hk, hp⟩ := h.2.2 e he
      exact ⟨g, hg, hk.symm, ih hp⟩
    · obtain ⟨g, hg, hk, hp⟩ := h.2.1 f hf
      exact ⟨g, hg, hk.symm, ih hp⟩

theorem PEq.trans {D V : Type} {ds : List D} {s t u : Bool × Tree V ds} (h : PEq ds s t) (h' : PEq ds t u) :
    PEq ds s u := by
  induction ds with
  | nil => trivial
  | cons d ds ih =>
    refine ⟨h.1.trans h'.1, fun e he => ?_, fun f hf => ?_⟩
    · obtain ⟨g, hg, hk, hp⟩ := h.2.1 e he
      obtain ⟨g', hg', hk', hp'⟩ := h'.2.1 g hg
      exact ⟨g', hg', hk'.trans hk, ih hp hp'⟩
    · obtain ⟨g, hg, hk, hp⟩ := h'.2.2 f hf
      obtain ⟨g', hg', hk', hp'⟩ := h.2.2 g hg
      exact ⟨g', hg', hk.trans hk', ih hp' hp⟩

theorem LEq.symm {D V : Type} {ds : List D} {l m : List (Entry V ds)} (h : LEq ds l m) : LEq ds m l :=
  ⟨fun e he => by obtain ⟨f, hf, hk, hp⟩ := h.2 e he; exact ⟨f, hf, hk.symm, hp.symm⟩,
   fun e he => by obtain ⟨f, hf, hk, hp⟩ := h.1 e he; exact ⟨f, hf, hk.symm, hp.symm⟩⟩

theorem PEq.neT {D V : Type} {ds : List D} {s t : Bool × Tree V ds} (h : PEq ds s t) :
    Verif.neT ds s.2 = Verif.neT ds t.2 := by
  cases ds with
  | nil => rfl
  | cons d ds =>
    rw [Bool.eq_iff_iff, neT_iff_ne, neT_iff_ne]
    constructor
    · intro hn
      obtain ⟨e, he⟩ := List.exists_mem_of_ne_nil _ hn
      obtain ⟨f, hf, _⟩ := h.2.1 e he
      exact List.ne_nil_of_mem hf
    · intro hn
      obtain ⟨e, he⟩ := List.exists_mem_of_ne_nil _ hn
      obtain ⟨f, hf, _⟩ := h.2.2 e he
      exact List.ne_nil_of_mem hf

theorem PEq.vals {D V : Type} [DecidableEq D] {ds : List D} {s t : Bool × Tree V ds} (h : PEq ds s t) (d : D) (v : V) :
    (d, v) ∈ Verif.vals ds s.2 ↔ (d, v) ∈ Verif.vals ds t.2 := by
  induction ds with
  | nil => exact Iff.rfl
  | cons d0 ds ih =>
    rw [mem_vals_cons, mem_vals_cons]
    constructor
    · rintro ⟨e, he, h'⟩
      obtain ⟨f, hf, hk, hp⟩ := h.2.1 e he
      refine ⟨f, hf, ?_⟩
      rw [← ih hp, hk]; exact h'
    · rintro ⟨f, hf, h'⟩
      obtain ⟨e, he, hk, hp⟩ := h.2.2 f hf
      refine ⟨e, he, ?_⟩
      rw [ih hp, ← hk]; exact h'

/-- The `==` of sub-objects decides equality up to the order of the layers. -/
theorem subEq_iff_PEq (L : A.Lawful Wf) {ds : List D} (s1 s2 : Bool × Tree V ds) (w1 : WfT A Wf ds s1.2)
    (w2 : WfT A Wf ds s2.2) : subEq A ds s1 s2 = true ↔ PEq ds s1 s2 := by
  induction ds with
  | nil => simp [subEq, PEq]
  | cons d ds ih =>
    obtain ⟨c1, t1⟩ := s1
    obtain ⟨c2, t2⟩ := s2
    change List (Entry V ds) at t1 t2
    have w1' : WfL A Wf d ds t1 := w1
    have w2' : WfL A Wf d ds t2 := w2
    have nd1 : (t1.map Prod.fst).Nodup := by
      rw [List.nodup_iff_pairwise_ne, List.pairwise_map]; exact w1'.keys_ne L
    have nd2 : (t2.map Prod.fst).Nodup := by
      rw [List.nodup_iff_pairwise_ne, List.pairwise_map]; exact w2'.keys_ne L
    simp only [subEq, Bool.and_eq_true, beq_iff_eq, List.all_eq_true]
    constructor
    · rintro ⟨⟨hc, hlen⟩, hall⟩
      have part : ∀ e1 ∈ t1, ∃ e2 ∈ t2, e2.1 = e1.1 ∧ subEq A ds e1.2 e2.2 = true := by
        intro e1 he1
        have := hall e1 he1
        split at this
        · rename_i e2 hf
          have hk := find?_key (A := A) t2 e1.1 e2 hf
          exact ⟨e2, hk.1, hk.2, this⟩
        · exact absurd this (by simp)
      have hsub : t1.map Prod.fst ⊆ t2.map Prod.fst := by
        intro k hk
        obtain ⟨e1, he1, rfl⟩ := List.mem_map.1 hk
        obtain ⟨e2, he2, hk2, _⟩ := part e1 he1
        exact List.mem_map.2 ⟨e2, he2, hk2⟩
      have hperm : (t1.map Prod.fst).Perm (t2.map Prod.fst) :=
        (nd1.subperm hsub).perm_of_length_le (by simp [hlen])
      refine ⟨hc, fun e1 he1 => ?_, fun e2 he2 => ?_⟩
      · obtain ⟨e2, he2, hk, hs⟩ := part e1 he1
        exact ⟨e2, he2, hk, (ih _ _ (w1'.1 e1 he1).2.2 (w2'.1 e2 he2).2.2).1 hs⟩
      · have : e2.1 ∈ t1.map Prod.fst := hperm.mem_iff.2 (List.mem_map.2 ⟨e2, he2, rfl⟩)
        obtain ⟨e1, he1, hk⟩ := List.mem_map.1 this
        obtain ⟨e2', he2', hk', hs⟩ := part e1 he1
        have : e2' = e2 := (List.inj_on_of_nodup_map nd2) he2' he2 (by rw [hk', hk])
        subst this
        exact ⟨e1, he1, hk.symm, (ih _ _ (w1'.1 e1 he1).2.2 (w2'.1 e2' he2).2.2).1 hs⟩
    · rintro ⟨hc, h1, h2⟩
      have sub1 : t1.map Prod.fst ⊆ t2.map Prod.fst := by
        intro k hk
        obtain ⟨e1, he1, rfl⟩ := List.mem_map.1 hk
        obtain ⟨e2, he2, hk2, _⟩ := h1 e1 he1
        exact List.mem_map.2 ⟨e2, he2, hk2⟩
      have sub2 : t2.map Prod.fst ⊆ t1.map Prod.fst := by
        intro k hk
        obtain ⟨e2, he2, rfl⟩ := List.mem_map.1 hk
        obtain ⟨e1, he1, hk2, _⟩ := h2 e2 he2
        exact List.mem_map.2 ⟨e1, he1, hk2.symm⟩
      have l1 := (nd1.subperm sub1).length_le
      have l2 := (nd2.subperm sub2).length_le
      rw [List.length_map, List.length_map] at l1 l2
      refine ⟨⟨hc, by change List.length t1 = List.length t2; omega⟩, fun e1 he1 => ?_⟩
      obtain ⟨e2, he2, hk, hp⟩ := h1 e1 he1
      cases hf : List.find? (fun e2 => @decide (e2.1 = e1.1) (A.decEq _ _)) t2 with
      | none =>
        have := List.find?_eq_none.1 hf e2 he2
        exact absurd hk (by simpa using this)
      | some e2' =>
        have hk' := find?_key (A := A) t2 e1.1 e2' hf
        have : e2' = e2 := (List.inj_on_of_nodup_map nd2) hk'.1 he2 (by rw [hk'.2, hk])
        subst this
        exact (ih _ _ (w1'.1 e1 he1).2.2 (w2'.1 e2' he2).2.2).2 hp

/-! ### Merging -/

/-- Every part of an inserted key ends up in a class with an equal sub-object. -/
theorem insClass_at (L : A.Lawful Wf) {d : D} {ds : List D} (acc : List (Entry V ds)) (e : Entry V ds)
    (hacc : WfL A Wf d ds acc) (he : Wf d e.1 ∧ A.truthy e.1 = true ∧ WfT A Wf ds e.2.2) (x : X) :
    (∀ a ∈ acc, A.mem x a.1 = true → ∃ g ∈ insClass A ds acc e, A.mem x g.1 = true ∧ PEq ds a.2 g.2) ∧
    (A.mem x e.1 = true → ∃ g ∈ insClass A ds acc e, A.mem x g.1 = true ∧ PEq ds e.2 g.2) := by
  induction acc with
  | nil => exact ⟨by simp, fun hx => ⟨e, by simp [insClass], hx, PEq.refl _ _⟩⟩
  | cons a acc ih =>
    have hw := wfL_cons.1 hacc
    unfold insClass
    by_cases hs : subEq A ds a.2 e.2 = true
    · rw [if_pos hs]
      have hmem := L.mem_or hw.1.1 he.1
      refine ⟨fun b hb hx => ?_, fun hx => ?_⟩
      · rcases List.mem_cons.1 hb with rfl | hb
        · exact ⟨_, List.mem_cons_self, by dsimp only; rw [hmem, hx]; rfl, PEq.refl _ _⟩
        · exact ⟨b, List.mem_cons_of_mem _ hb, hx, PEq.refl _ _⟩
      · refine ⟨_, List.mem_cons_self, by dsimp only; rw [hmem, hx, Bool.or_true], ?_⟩
        exact ((subEq_iff_PEq L _ _ hw.1.2.2 he.2.2).1 hs).symm
    · rw [if_neg hs]
      obtain ⟨i1, i2⟩ := ih hw.2.1
      refine ⟨fun b hb hx => ?_, fun hx => ?_⟩
      · rcases List.mem_cons.1 hb with rfl | hb
        · exact ⟨b, List.mem_cons_self, hx, PEq.refl _ _⟩
        · obtain ⟨g, hg, h⟩ := i1 b hb hx
          exact ⟨g, List.mem_cons_of_mem _ hg, h⟩
      · obtain ⟨g, hg, h⟩ := i2 hx
        exact ⟨g, List.mem_cons_of_mem _ hg, h⟩

theorem foldl_insClass_at (L : A.Lawful Wf) {d : D} {ds : List D} (l acc : List (Entry V ds))
    (h : WfL A Wf d ds (acc ++ l)) (x : X) (e : Entry V ds) (he : e ∈ acc ++ l) (hx : A.mem x e.1 = true) :
    ∃ g ∈ l.foldl (insClass A ds) acc, A.mem x g.1 = true ∧ PEq ds e.2 g.2 := by
  induction l generalizing acc e with
  | nil => exact ⟨e, by simpa using he, hx, PEq.refl _ _⟩
  | cons b l ih =>
    rw [List.foldl_cons]
    obtain ⟨ha, hel, hcross⟩ := wfL_append.1 h
    obtain ⟨hb, hl, hcl⟩ := wfL_cons.1 hel
    obtain ⟨s1, s2, _⟩ := insClass_spec L acc b ha hb (fun a haa x hx => hcross a haa b (by simp) x hx)
    have h' : WfL A Wf d ds (insClass A ds acc b ++ l) := by
      refine wfL_append.2 ⟨s1, hl, ?_⟩
      intro a haa c hc x hx
      rcases (s2 x).1 ⟨a, haa, hx.1⟩ with ⟨c', hc', hm⟩ | hm
      · exact hcross c' hc' c (by simp [hc]) x ⟨hm, hx.2⟩
      · exact hcl c hc x ⟨hm, hx.2⟩
    obtain ⟨a1, a2⟩ := insClass_at L acc b ha hb x
    have step : ∀ e', e' ∈ insClass A ds acc b ++ l → A.mem x e'.1 = true → PEq ds e.2 e'.2 →
        ∃ g ∈ l.foldl (insClass A ds) (insClass A ds acc b), A.mem x g.1 = true ∧ PEq ds e.2 g.2 := by
      intro e' he' hx' hp
      obtain ⟨g, hg, hm, hp'⟩ := ih _ h' e' he' hx'
      exact ⟨g, hg, hm, hp.trans hp'⟩
    rcases List.mem_append.1 he with he | he
    · obtain ⟨g, hg, hm, hp⟩ := a1 e he hx
      exact step g (List.mem_append_left _ hg) hm hp
    · rcases List.mem_cons.1 he with rfl | he
      · obtain ⟨g, hg, hm, hp⟩ := a2 hx
        exact step g (List.mem_append_left _ hg) hm hp
      · exact step e (List.mem_append_right _ he) hx (PEq.refl _ _)

theorem mergeL_at (L : A.Lawful Wf) {d : D} {ds : List D} (l : List (Entry V ds)) (h : WfL A Wf d ds l) (x : X) :
    (∀ e ∈ l, A.mem x e.1 = true → ∃ g ∈ mergeL A ds l, A.mem x g.1 = true ∧ PEq ds e.2 g.2) ∧
    (∀ g ∈ mergeL A ds l, A.mem x g.1 = true → ∃ e ∈ l, A.mem x e.1 = true ∧ PEq ds e.2 g.2) := by
  have ms := mergeL_spec L l h
  have fwd : ∀ e ∈ l, A.mem x e.1 = true → ∃ g ∈ mergeL A ds l, A.mem x g.1 = true ∧ PEq ds e.2 g.2 := by
    intro e he hx
    have r1 := (foldl_insClass_spec L l [] (by simpa using h) List.Pairwise.nil).1
    have : mergeL A ds l = l.foldl (insClass A ds) [] := by
      unfold mergeL; exact r1.dictOf L
    rw [this]
    exact foldl_insClass_at L l [] (by simpa using h) x e (by simpa using he) hx
  refine ⟨fwd, fun g hg hx => ?_⟩
  obtain ⟨e, he, hm⟩ := (ms.keys x).1 ⟨g, hg, hx⟩
  obtain ⟨g', hg', hx', hp⟩ := fwd e he hm
  have := ms.wf.uniq hg hg' hx hx'
  subst this
  exact ⟨e, he, hm, hp⟩

/-- Merging equal layer lists gives equal layer dicts. -/
theorem mergeL_cong (L : A.Lawful Wf) {d : D} {ds : List D} {l m : List (Entry V ds)} (hl : WfL A Wf d ds l)
    (hm : WfL A Wf d ds m) (h : LEq ds l m) : LEq ds (mergeL A ds l) (mergeL A ds m) := by
  have key : ∀ l m : List (Entry V ds), WfL A Wf d ds l → WfL A Wf d ds m → LEq ds l m →
      ∀ e ∈ mergeL A ds l, ∃ f ∈ mergeL A ds m, f.1 = e.1 ∧ PEq ds e.2 f.2 := by
    intro l m hl hm h e he
    have sl := mergeL_spec L l hl
    have sm := mergeL_spec L m hm
    have w := sl.wf.1 e he
    have go : ∀ l m : List (Entry V ds), WfL A Wf d ds l → WfL A Wf d ds m → LEq ds l m → ∀ x,
        ∀ g ∈ mergeL A ds l, A.mem x g.1 = true → ∃ f ∈ mergeL A ds m, A.mem x f.1 = true ∧ PEq ds g.2 f.2 := by
      intro l m hl hm h x g hg hx
      obtain ⟨a, ha, hxa, hpa⟩ := (mergeL_at L l hl x).2 g hg hx
      obtain ⟨b, hb, hk, hpb⟩ := h.1 a ha
      obtain ⟨f, hf, hxf, hpf⟩ := (mergeL_at L m hm x).1 b hb (by rw [hk]; exact hxa)
      exact ⟨f, hf, hxf, hpa.symm.trans (hpb.trans hpf)⟩
    have uniq : ∀ n : List (Entry V ds), MergeSpec A Wf d ds n (mergeL A ds n) →
        ∀ a ∈ mergeL A ds n, ∀ b ∈ mergeL A ds n, PEq ds a.2 b.2 → a = b := by
      intro n sn a ha b hb hp
      by_contra hne
      have dis := sn.distinct
      rw [List.pairwise_iff_getElem] at dis
      obtain ⟨i, hi, rfl⟩ := List.mem_iff_getElem.1 ha
      obtain ⟨j, hj, rfl⟩ := List.mem_iff_getElem.1 hb
      have wa := (sn.wf.1 _ ha).2.2
      have wb := (sn.wf.1 _ hb).2.2
      rcases Nat.lt_trichotomy i j with hij | hij | hij
      · have := dis i j hi hj hij
        rw [(subEq_iff_PEq L _ _ wa wb).2 hp] at this
        exact absurd this (by simp)
      · subst hij; exact hne rfl
      · have := dis j i hj hi hij
        rw [(subEq_iff_PEq L _ _ wb wa).2 hp.symm] at this
        exact absurd this (by simp)
    obtain ⟨x, hx⟩ := (L.truthy_iff w.1).1 w.2.1
    obtain ⟨f, hf, hxf, hpf⟩ := go l m hl hm h x e he hx
    refine ⟨f, hf, ?_, hpf⟩
    refine L.ext (sm.wf.1 f hf).1 w.1 (fun y => ?_)
    rw [Bool.eq_iff_iff]
    constructor
    · intro hy
      obtain ⟨e', he', hy', hp'⟩ := go m l hm hl h.symm y f hf hy
      rw [uniq l sl e he e' he' (hpf.trans hp')]
      exact hy'
    · intro hy
      obtain ⟨f', hf', hy', hp'⟩ := go l m hl hm h y e he hy
      rw [uniq m sm f hf f' hf' (hpf.symm.trans hp')]
      exact hy'
  refine ⟨key l m hl hm h, fun f hf => ?_⟩
  obtain ⟨e, he, hk, hp⟩ := key m l hm hl h.symm f hf
  exact ⟨e, he, hk.symm, hp.symm⟩

/-! ### Subtraction -/

theorem subPairs_wf (L : A.Lawful Wf) {d : D} {ds : List D} {t1 t2 : List (Entry V ds)} (w1' : WfL A Wf d ds t1)
    (w2' : WfL A Wf d ds t2) : WfL A Wf d ds (subPairs A ds t1 t2) := by
  have k1 : ∀ e ∈ t1, Wf d e.1 := fun e he => (w1'.1 e he).1
  have k2 : ∀ e ∈ t2, Wf d e.1 := fun e he => (w2'.1 e he).1
  refine wfL_flatMap t1 _ w1'.2 ?_
  intro e1 he1
  have hr := rem_and L (k1 e1 he1) k2
  have hf : ∀ e2 ∈ t2, ∀ g : Entry V ds, (if !A.truthy (A.and e1.1 e2.1) then none
      else if ds.isEmpty then none
      else if neT ds (subT A ds e1.2.2 e2.2.2) then
        some ((A.and e1.1 e2.1, false, subT A ds e1.2.2 e2.2.2) : Entry V ds) else none) = some g →
      (Wf d g.1 ∧ A.truthy g.1 = true ∧ WfT A Wf ds g.2.2) ∧
      ∀ x, A.mem x g.1 = true → A.mem x e1.1 = true ∧ A.mem x e2.1 = true := by
    intro e2 he2 g hg
    split at hg
    · simp at hg
    · split at hg
      · simp at hg
      · split at hg
        · rename_i ht _ _
          have : g = (A.and e1.1 e2.1, false, subT A ds e1.2.2 e2.2.2) := by simpa using hg.symm
          subst this
          refine ⟨⟨L.wf_and (k1 e1 he1) (k2 e2 he2), by simpa using ht,
            (subT_wf L _ _ (w1'.1 e1 he1).2.2 (w2'.1 e2 he2).2.2).1⟩, ?_⟩
          intro x hx
          simpa [L.mem_and (k1 e1 he1) (k2 e2 he2)] using hx
        · simp at hg
  constructor
  · refine wfL_append.2 ⟨?_, ?_, ?_⟩
    · refine wfL_filterMap t2 _ w2'.2 ?_
      intro e2 he2 g hg
      exact ⟨(hf e2 he2 g hg).1, fun x hx => ((hf e2 he2 g hg).2 x hx).2⟩
    · split
      · rename_i ht
        exact wfL_cons.2 ⟨⟨hr.1, ht, (w1'.1 e1 he1).2.2⟩, wfL_nil, by simp⟩
      · exact wfL_nil
    · intro g hg b hb x hx
      obtain ⟨e2, he2, hg⟩ := List.mem_filterMap.1 hg
      have h2 := ((hf e2 he2 g hg).2 x hx.1).2
      split at hb
      · simp at hb; subst hb
        have := ((hr.2 x).1 hx.2).2 e2 he2
        rw [h2] at this; exact absurd this (by simp)
      · simp at hb
  · intro g hg x hx
    rcases List.mem_append.1 hg with hg | hg
    · obtain ⟨e2, he2, hg⟩ := List.mem_filterMap.1 hg
      exact ((hf e2 he2 g hg).2 x hx).1
    · split at hg
      · simp at hg; subst hg
        exact ((hr.2 x).1 hx).1
      · simp at hg

theorem PEq.recls {D V : Type} {ds : List D} {s t : Bool × Tree V ds} (h : PEq ds s t) (c : Bool) :
    PEq ds (c, s.2) (c, t.2) := by
  cases ds with
  | nil => trivial
  | cons d ds => exact ⟨rfl, h.2⟩

theorem subT_cong (L : A.Lawful Wf) {ds : List D} (t1 t1' t2 t2' : Tree V ds) (w1 : WfT A Wf ds t1)
    (w1' : WfT A Wf ds t1') (w2 : WfT A Wf ds t2) (w2' : WfT A Wf ds t2') (c : Bool)
    (h1 : PEq ds (c, t1) (c, t1')) (h2 : PEq ds (c, t2) (c, t2')) :
    PEq ds (c, subT A ds t1 t2) (c, subT A ds t1' t2') := by
  induction ds generalizing c with
  | nil => trivial
  | cons d ds ih =>
    change List (Entry V ds) at t1 t2 t1' t2'
    have w1 : WfL A Wf d ds t1 := w1
    have w2 : WfL A Wf d ds t2 := w2
    have w1' : WfL A Wf d ds t1' := w1'
    have w2' : WfL A Wf d ds t2' := w2'
    have p := subPairs_wf L w1 w2
    have p' := subPairs_wf L w1' w2'
    rw [subT_cons, subT_cons, p.dictOf L, p'.dictOf L]
    refine ⟨rfl, ?_⟩
    have key : ∀ t1 t2 t1' t2' : List (Entry V ds), WfL A Wf d ds t1 → WfL A Wf d ds t2 → WfL A Wf d ds t1' →
        WfL A Wf d ds t2' → LEq ds t1 t1' → LEq ds t2 t2' → ∀ g ∈ subPairs A ds t1 t2,
        ∃ g' ∈ subPairs A ds t1' t2', g'.1 = g.1 ∧ PEq ds g.2 g'.2 := by
      intro t1 t2 t1' t2' w1 w2 w1' w2' h1 h2 g hg
      obtain ⟨e1, he1, ⟨e2, he2, ht, hne, hn, rfl⟩ | ⟨ht, rfl⟩⟩ := mem_subPairs.1 hg
      · obtain ⟨f1, hf1, hk1, hp1⟩ := h1.1 e1 he1
        obtain ⟨f2, hf2, hk2, hp2⟩ := h2.1 e2 he2
        have hp := ih e1.2.2 f1.2.2 e2.2.2 f2.2.2 (w1.1 e1 he1).2.2 (w1'.1 f1 hf1).2.2 (w2.1 e2 he2).2.2
          (w2'.1 f2 hf2).2.2 false (hp1.recls false) (hp2.recls false)
        refine ⟨_, mem_subPairs.2 ⟨f1, hf1, Or.inl ⟨f2, hf2, ?_, hne, ?_, rfl⟩⟩, ?_, hp⟩
        · rw [hk1, hk2]; exact ht
        · have := hp.neT
          dsimp only at this
          rw [← this]; exact hn
        · rw [hk1, hk2]
      · obtain ⟨f1, hf1, hk1, hp1⟩ := h1.1 e1 he1
        have k2 : ∀ e ∈ t2, Wf d e.1 := fun e he => (w2.1 e he).1
        have k2' : ∀ e ∈ t2', Wf d e.1 := fun e he => (w2'.1 e he).1
        have r := rem_and L (w1.1 e1 he1).1 k2
        have r' := rem_and L (w1.1 e1 he1).1 k2'
        have hr : remaining A f1.1 t2' A.and = remaining A e1.1 t2 A.and := by
          rw [hk1]
          refine L.ext r'.1 r.1 (fun x => ?_)
          rw [Bool.eq_iff_iff, r'.2 x, r.2 x]
          constructor
          · rintro ⟨ha, hb⟩
            refine ⟨ha, fun e he => ?_⟩
            obtain ⟨f, hf, hk, _⟩ := h2.1 e he
            rw [← hk]; exact hb f hf
          · rintro ⟨ha, hb⟩
            refine ⟨ha, fun f hf => ?_⟩
            obtain ⟨e, he, hk, _⟩ := h2.2 f hf
            rw [hk]; exact hb e he
        exact ⟨_, mem_subPairs.2 ⟨f1, hf1, Or.inr ⟨by rw [hr]; exact ht, rfl⟩⟩, hr, hp1⟩
    refine mergeL_cong L p p' ⟨key _ _ _ _ w1 w2 w1' w2' h1.2 h2.2, fun f hf => ?_⟩
    obtain ⟨e, he, hk, hp⟩ := key _ _ _ _ w1' w2' w1 w2 (LEq.symm h1.2) (LEq.symm h2.2) f hf
    exact ⟨e, he, hk.symm, hp.symm⟩

/-! ### Adding and removing dimensions -/

theorem expand_cong {as new : List D} (c : Bool) (t t' : Tree V as) (o : OneFull A as t) (o' : OneFull A as t')
    (h : PEq as (c, t) (c, t')) : PEq new (c, expand A c as new t) (c, expand A c as new t') := by
  induction new generalizing as c with
  | nil => trivial
  | cons n ns ih =>
    cases as with
    | nil => exact PEq.refl _ _
    | cons a as =>
      by_cases han : a = n
      · subst han
        rw [expand_eq_cons, expand_eq_cons]
        have sub : ∀ (e f : Entry V as), e ∈ layers t → f ∈ layers t' → PEq as e.2 f.2 →
            PEq ns (e.2.1, expand A e.2.1 as ns e.2.2) (f.2.1, expand A f.2.1 as ns f.2.2) := by
          intro e f he hf hp
          have hc : e.2.1 = f.2.1 := by
            cases as with
            | nil =>
              have q : ∀ b : Bool, (b = true → ¬ FullD A [] ()) → b = false := by
                intro b hb
                cases b with
                | false => rfl
                | true => exact absurd (fun _ _ => trivial) (hb rfl)
              rw [q _ (o.1 e he).2, q _ (o'.1 f hf).2]
            | cons b as => exact hp.1
          rw [← hc]
          exact ih e.2.1 e.2.2 f.2.2 (o.1 e he).1 (o'.1 f hf).1 (hp.recls _)
        refine ⟨rfl, fun e he => ?_, fun f hf => ?_⟩
        · obtain ⟨e0, he0, rfl⟩ := List.mem_map.1 he
          obtain ⟨f0, hf0, hk, hp⟩ := h.2.1 e0 he0
          exact ⟨_, List.mem_map.2 ⟨f0, hf0, rfl⟩, hk, sub e0 f0 he0 hf0 hp⟩
        · obtain ⟨f0, hf0, rfl⟩ := List.mem_map.1 hf
          obtain ⟨e0, he0, hk, hp⟩ := h.2.2 f0 hf0
          exact ⟨_, List.mem_map.2 ⟨e0, he0, rfl⟩, hk, sub e0 f0 he0 hf0 hp⟩
      · rw [expand_ne_cons _ han, expand_ne_cons _ han]
        refine ⟨rfl, fun e he => ?_, fun f hf => ?_⟩
        · have := List.mem_singleton.1 he
          subst this
          exact ⟨_, List.mem_singleton.2 rfl, rfl, ih c t t' o o' h⟩
        · have := List.mem_singleton.1 hf
          subst this
          exact ⟨_, List.mem_singleton.2 rfl, rfl, ih c t t' o o' h⟩

theorem removeT_cong (L : A.Lawful Wf) {as keep : List D} (hnd : as.Nodup) (hsub : keep.Sublist as) (t t' : Tree V as)
    (w : WfT A Wf as t) (w' : WfT A Wf as t') (n : NeT as t) (n' : NeT as t') (hn : neT as t = true)
    (hdrop : ∀ d v, (d, v) ∈ vals as t → d ∉ keep → v = A.dom d) (c : Bool)
    (h : PEq as (c, t) (c, t')) : PEq keep (c, removeT A as keep t) (c, removeT A as keep t') := by
  induction as generalizing keep c with
  | nil =>
    have := List.sublist_nil.1 hsub
    subst this
    trivial
  | cons a as ih =>
    have hnd' := List.nodup_cons.1 hnd
    have hn' : neT (a :: as) t' = true := by
      have := h.neT
      dsimp only at this
      rw [← this]; exact hn
    have hdrop' : ∀ d v, (d, v) ∈ vals (a :: as) t' → d ∉ keep → v = A.dom d :=
      fun d v hv hd => hdrop d v ((h.vals d v).2 hv) hd
    cases keep with
    | nil => trivial
    | cons k ks =>
      by_cases hk : a = k
      · subst hk
        have hsub' := List.cons_sublist_cons.1 hsub
        rw [removeT_eq_cons, removeT_eq_cons]
        have sub : ∀ (e f : Entry V as), e ∈ layers t → f ∈ layers t' → PEq as e.2 f.2 →
            PEq ks (e.2.1, removeT A as ks e.2.2) (f.2.1, removeT A as ks f.2.2) := by
          intro e f he hf hp
          have h1 := ih hnd'.2 hsub' e.2.2 f.2.2 (w.1 e he).2.2 (w'.1 f hf).2.2 (n e he).2 (n' f hf).2 (n e he).1
            (fun d v hv hd => by
              refine hdrop d v (mem_vals_cons.2 ⟨e, he, Or.inr hv⟩) ?_
              intro hd'
              rcases List.mem_cons.1 hd' with rfl | hd'
              · exact hnd'.1 (vals_dims hv)
              · exact hd hd') e.2.1 (hp.recls _)
          cases ks with
          | nil => trivial
          | cons k ks =>
            cases as with
            | nil => exact absurd (List.sublist_nil.1 hsub') (by simp)
            | cons b as =>
              have hc : e.2.1 = f.2.1 := hp.1
              rw [← hc]
              exact h1
        refine ⟨rfl, fun e he => ?_, fun f hf => ?_⟩
        · obtain ⟨e0, he0, rfl⟩ := List.mem_map.1 he
          obtain ⟨f0, hf0, hk, hp⟩ := h.2.1 e0 he0
          exact ⟨_, List.mem_map.2 ⟨f0, hf0, rfl⟩, hk, sub e0 f0 he0 hf0 hp⟩
        · obtain ⟨f0, hf0, rfl⟩ := List.mem_map.1 hf
          obtain ⟨e0, he0, hk, hp⟩ := h.2.2 f0 hf0
          exact ⟨_, List.mem_map.2 ⟨e0, he0, rfl⟩, hk, sub e0 f0 he0 hf0 hp⟩
      · have hsub' : (k :: ks).Sublist as := List.Sublist.of_cons_of_ne (Ne.symm hk) hsub
        have hak : a ∉ k :: ks := fun hc => hnd'.1 (hsub'.subset hc)
        rw [removeT_ne_cons hk, removeT_ne_cons hk]
        obtain ⟨e, hl⟩ := single_of_dom L (l := layers t) w (neT_iff_ne.1 hn) (fun e he =>
          hdrop a e.1 (mem_vals_cons.2 ⟨e, he, Or.inl ⟨rfl, rfl⟩⟩) hak)
        obtain ⟨f, hl'⟩ := single_of_dom L (l := layers t') w' (neT_iff_ne.1 hn') (fun e he =>
          hdrop' a e.1 (mem_vals_cons.2 ⟨e, he, Or.inl ⟨rfl, rfl⟩⟩) hak)
        have he : e ∈ layers t := by rw [hl]; simp
        have hf : f ∈ layers t' := by rw [hl']; simp
        obtain ⟨f', hf', _, hp⟩ := h.2.1 e he
        have : f' = f := by
          have hf'' : f' ∈ layers t' := hf'
          rw [hl'] at hf''
          exact List.mem_singleton.1 hf''
        subst this
        rw [hl, hl', List.map_singleton, List.map_singleton, joinSubs_single L _ (w.1 e he).2.2,
          joinSubs_single L _ (w'.1 f' hf).2.2]
        exact ih hnd'.2 hsub' e.2.2 f'.2.2 (w.1 e he).2.2 (w'.1 f' hf).2.2 (n e he).2 (n' f' hf).2 (n e he).1
          (fun d v hv hd => hdrop d v (mem_vals_cons.2 ⟨e, he, Or.inr hv⟩) hd) c (hp.recls c)

/-! ### Objects -/

namespace HC

/-- Equality of objects up to the order of the layers. -/
inductive Same : HC D V → HC D V → Prop
  | mk (c : Bool) (act : List D) (t t' : Tree V act) (h : PEq act (c, t) (c, t')) : Same ⟨c, act, t⟩ ⟨c, act, t'⟩

theorem Same.eq (L : A.Lawful Wf) {all : List D} {a b : HC D V} (ia : Inv A Wf all a) (ib : Inv A Wf all b)
    (h : Same a b) : eq A a b = true := by
  obtain ⟨c, act, t, t', h⟩ := h
  unfold HC.eq
  rw [if_neg (by simp)]
  split
  · rfl
  · rw [dif_pos rfl]
    exact (subEq_iff_PEq L _ _ ia.wf ib.wf).2 (h.recls false)

theorem same_of_eq (L : A.Lawful Wf) {all : List D} {a b : HC D V} (ia : Inv A Wf all a) (ib : Inv A Wf all b)
    (ht : a.truthy = true) (h : eq A a b = true) : Same a b := by
  unfold HC.eq at h
  obtain ⟨c, act, t⟩ := a
  obtain ⟨c', act', t'⟩ := b
  split at h
  · exact absurd h (by simp)
  · rename_i hc
    have hc : c = c' := by simpa using hc
    subst hc
    split at h
    · rename_i h2
      rw [ht] at h2
      simp at h2
    · split at h
      · rename_i hact
        dsimp only at hact
        subst hact
        exact ⟨c, act, t, t', ((subEq_iff_PEq L _ _ ia.wf ib.wf).1 h).recls c⟩
      · exact absurd h (by simp)

theorem reduce_same (L : A.Lawful Wf) {all : List D} (hnd : all.Nodup) (c : Bool) (act : List D) (t t' : Tree V act)
    (hsub : act.Sublist all) (w : WfT A Wf act t) (w' : WfT A Wf act t') (n : NeT act t) (n' : NeT act t')
    (h : PEq act (c, t) (c, t')) : Same (reduce A all ⟨c, act, t⟩) (reduce A all ⟨c, act, t'⟩) := by
  have ht : (⟨c, act, t⟩ : HC D V).truthy = (⟨c, act, t'⟩ : HC D V).truthy := h.neT
  have hred : ∀ d, reducible A (⟨c, act, t⟩ : HC D V) d = reducible A ⟨c, act, t'⟩ d := by
    intro d
    rw [Bool.eq_iff_iff]
    have hv : ∀ e, e ∈ (vals act t).filter (fun e => decide (e.1 = d)) ↔ e ∈ (vals act t').filter (fun e => decide (e.1 = d)) := by
      rintro ⟨d', v⟩
      rw [List.mem_filter, List.mem_filter, show (d', v) ∈ vals act t ↔ (d', v) ∈ vals act t' from h.vals d' v]
    simp only [reducible, Bool.and_eq_true, List.all_eq_true, Bool.not_eq_true', List.isEmpty_eq_false_iff_exists_mem]
    constructor
    · rintro ⟨⟨e, he⟩, h2⟩
      exact ⟨⟨e, (hv e).1 he⟩, fun e he => h2 e ((hv e).2 he)⟩
    · rintro ⟨⟨e, he⟩, h2⟩
      exact ⟨⟨e, (hv e).2 he⟩, fun e he => h2 e ((hv e).1 he)⟩
  unfold reduce
  rw [← ht]
  by_cases h0 : (!(⟨c, act, t⟩ : HC D V).truthy || act.isEmpty) = true
  · rw [if_pos h0, if_pos h0]; exact ⟨c, act, t, t', h⟩
  · rw [if_neg h0, if_neg h0]
    have htt : (⟨c, act, t⟩ : HC D V).truthy = true := by
      by_contra hc; rw [Bool.not_eq_true] at hc; apply h0; rw [hc]; rfl
    have hkeep : all.filter (fun d => decide (d ∈ act) && !reducible A (⟨c, act, t⟩ : HC D V) d) =
        act.filter (fun d => !reducible A (⟨c, act, t⟩ : HC D V) d) := by
      generalize reducible A (⟨c, act, t⟩ : HC D V) = r
      conv_rhs => rw [← sublist_filter_eq hsub hnd]
      rw [List.filter_filter]
      apply List.filter_congr
      intro x _
      rw [Bool.and_comm]
    have hkeep' : all.filter (fun d => decide (d ∈ act) && !reducible A (⟨c, act, t'⟩ : HC D V) d) =
        act.filter (fun d => !reducible A (⟨c, act, t⟩ : HC D V) d) := by
      rw [← hkeep]
      simp only [hred]
    have hdrop : ∀ d v, (d, v) ∈ vals act t → d ∉ act.filter (fun d => !reducible A (⟨c, act, t⟩ : HC D V) d) →
        v = A.dom d := by
      intro d v hv hd
      have hr : reducible A (⟨c, act, t⟩ : HC D V) d = true := by
        by_contra hc
        exact hd (List.mem_filter.2 ⟨vals_dims hv, by simpa using hc⟩)
      simp only [reducible, Bool.and_eq_true, List.all_eq_true] at hr
      simpa using hr.2 (d, v) (List.mem_filter.2 ⟨hv, by simp⟩)
    have hrm := removeT_cong L (hnd.sublist hsub) (List.filter_sublist (p := fun d => !reducible A (⟨c, act, t⟩ : HC D V) d))
      t t' w w' n n' htt hdrop c h
    dsimp only
    generalize all.filter (fun d => decide (d ∈ act) && !reducible A (⟨c, act, t⟩ : HC D V) d) = k1 at hkeep
    generalize all.filter (fun d => decide (d ∈ act) && !reducible A (⟨c, act, t'⟩ : HC D V) d) = k2 at hkeep'
    rw [hkeep, hkeep']
    split
    · exact ⟨c, [], (), (), trivial⟩
    · exact ⟨c, _, _, _, hrm⟩

/-- Subtracting a set from two equal non-empty objects gives equal objects. -/
theorem sub_same (L : A.Lawful Wf) {all : List D} (hnd : all.Nodup) {a b x : HC D V}
    (ia : Inv A Wf all a) (ib : Inv A Wf all b) (ix : Inv A Wf all x) (ht : a.truthy = true) (h : Same a b) :
    Same (sub A all a x) (sub A all b x) := by
  have refl : ∀ y : HC D V, Same y y := fun ⟨c, act, t⟩ => ⟨c, act, t, t, PEq.refl _ _⟩
  obtain ⟨c, act, t, t', h⟩ := h
  have htb : (⟨c, act, t'⟩ : HC D V).truthy = true := by rw [← ht]; exact h.neT.symm
  unfold sub
  by_cases hx : x.isAll = true
  · simp only [hx, if_true]; exact refl _
  · simp only [hx, Bool.false_eq_true, if_false]
    by_cases h2 : (!x.truthy) = true
    · rw [if_pos h2, if_pos h2]; exact ⟨c, act, t, t', h⟩
    · rw [if_neg h2, if_neg h2]
      unfold onCommon
      have sa := left_sub_common x.act ia.sub
      have sx := right_sub_common act ix.sub
      have sc := common_sub all act x.act
      have wa := expand_wf L sa c t ia.wf
      have wb := expand_wf L sa c t' ib.wf
      have wx := expand_wf L sx x.cls x.tree ix.wf
      have na := (expand_ne (A := A) sa c t ia.ne ht).1
      have nb := (expand_ne (A := A) sa c t' ib.ne htb).1
      exact reduce_same L hnd c _ _ _ sc (subT_wf L _ _ wa wx).1 (subT_wf L _ _ wb wx).1 (subT_ne _ _ na) (subT_ne _ _ nb)
        (subT_cong L _ _ _ _ wa wb wx wx c (expand_cong c t t' ia.one ib.one h) (PEq.refl _ _))

/-- The canonical form of a set of either class: as `Can`, for the layers only. -/
def Plain (A : VAlg D V X) (h : HC D V) : Prop := Can A ⟨false, h.act, h.tree⟩

theorem reduce_recls (A : VAlg D V X) (all : List D) (c : Bool) (act : List D) (t : Tree V act) :
    (reduce A all ⟨false, act, t⟩).cls = false ∧
    reduce A all ⟨c, act, t⟩ = ⟨c, (reduce A all ⟨false, act, t⟩).act, (reduce A all ⟨false, act, t⟩).tree⟩ := by
  unfold reduce
  by_cases h : (!neT act t || act.isEmpty) = true
  · rw [if_pos (show (!(⟨false, act, t⟩ : HC D V).truthy || act.isEmpty) = true from h),
      if_pos (show (!(⟨c, act, t⟩ : HC D V).truthy || act.isEmpty) = true from h)]
    exact ⟨rfl, rfl⟩
  · rw [if_neg (show ¬ (!(⟨false, act, t⟩ : HC D V).truthy || act.isEmpty) = true from h),
      if_neg (show ¬ (!(⟨c, act, t⟩ : HC D V).truthy || act.isEmpty) = true from h)]
    have e : reducible A (⟨c, act, t⟩ : HC D V) = reducible A ⟨false, act, t⟩ := rfl
    dsimp only
    rw [e]
    generalize all.filter (fun d => decide (d ∈ act) && !reducible A (⟨false, act, t⟩ : HC D V) d) = k
    cases k with
    | nil => exact ⟨rfl, rfl⟩
    | cons x xs => exact ⟨rfl, rfl⟩

theorem Can.of_false {h : HC D V} (c : Can A h) : Plain A h := ⟨rfl, c.can, c.red⟩

theorem and_plain (L : A.Lawful Wf) {all : List D} (hnd : all.Nodup) (hall : all ≠ []) {a b : HC D V}
    (ia : Inv A Wf all a) (ib : Inv A Wf all b) (ha : b.isAll = true → Plain A a) (hb : a.isAll = true → Plain A b) :
    Plain A (and A all a b) := by
  unfold and
  by_cases h1 : b.isAll = true
  · rw [if_pos h1]; exact ha h1
  · rw [if_neg h1]
    split
    · exact empty_can all hall
    · by_cases h3 : a.isAll = true
      · rw [if_pos h3]; exact hb h3
      · rw [if_neg h3]
        unfold onCommon
        have sa := left_sub_common b.act ia.sub
        have sb := right_sub_common a.act ib.sub
        have sc := common_sub all a.act b.act
        have nc := hnd.sublist sc
        have wa := expand_wf L sa a.cls a.tree ia.wf
        have wb := expand_wf L sb b.cls b.tree ib.wf
        have sp := andT_spec L _ _ wa wb
        have r := reduce_spec L hnd ⟨false, common all a.act b.act, andT A _ (expand A a.cls a.act _ a.tree)
          (expand A b.cls b.act (common all a.act b.act) b.tree)⟩ sc sp.1 (andT_ne _ _) (andT_one L nc _ _ wa wb (exists_inDom L))
        have hc := r.2.2 rfl (andT_can L _ _ wa wb)
        obtain ⟨e1, e2⟩ := reduce_recls A all a.cls _ (andT A _ (expand A a.cls a.act _ a.tree)
          (expand A b.cls b.act (common all a.act b.act) b.tree))
        rw [e2]
        exact hc.of_false (h := reduce A all _)

/-- `==` is complete for two objects of the same class in canonical form. -/
theorem eq_of_plain (L : A.Lawful Wf) {all : List D} (hnd : all.Nodup) {a b : HC D V}
    (ia : Inv A Wf all a) (ib : Inv A Wf all b) (pa : Plain A a) (pb : Plain A b) (hc : a.cls = b.cls)
    (h : ∀ p, InDom A p → (a.Pt A p ↔ b.Pt A p)) : eq A a b = true := by
  have := (eq_spec L hnd (ia.recls false) (ib.recls false) pa pb).2 h
  obtain ⟨c, act, t⟩ := a
  obtain ⟨c', act', t'⟩ := b
  dsimp only at hc
  subst hc
  unfold eq at this ⊢
  simpa [truthy] using this

end HC
end
end Verif
