import Mathlib.Tactic.Tauto
import Mathlib.Tactic.ByContra
import Mathlib.Data.List.Perm.Subperm
import Mathlib.Data.List.Nodup
import Verif.CubeSpec
/-! Helper lemmas for hyper-cube sets, part 1: dicts, merging, `and`, `or`, `sub` on trees. -/
namespace Verif

section
variable {D V X : Type} {A : VAlg D V X} {Wf : D → V → Prop}

theorem foldl_dictSet {S : Type} (dec : DecidableEq V) (l acc : List (V × S))
    (h1 : ∀ a ∈ acc, ∀ e ∈ l, a.1 ≠ e.1) (h2 : l.Pairwise (fun a b => a.1 ≠ b.1)) :
    l.foldl (dictSet dec) acc = acc ++ l := by
  induction l generalizing acc with
  | nil => simp
  | cons e l ih =>
    have hset : dictSet dec acc e = acc ++ [e] := by
      clear ih
      induction acc with
      | nil => rfl
      | cons x xs ih2 =>
        have hne := h1 x (by simp) e (by simp)
        simp only [dictSet, hne, if_false, List.cons_append]
        rw [ih2 (fun a ha b hb => h1 a (by simp [ha]) b hb)]
    rw [List.foldl_cons, hset, ih]
    · simp
    · intro a ha b hb
      rcases List.mem_append.1 ha with ha | ha
      · exact h1 a ha b (by simp [hb])
      · simp at ha; subst ha
        exact (List.pairwise_cons.1 h2).1 b hb
    · exact (List.pairwise_cons.1 h2).2

theorem dictOf_eq {S : Type} (dec : DecidableEq V) (l : List (V × S))
    (h2 : l.Pairwise (fun a b => a.1 ≠ b.1)) : dictOf dec l = l := by
  unfold dictOf
  rw [foldl_dictSet dec l [] (by simp) h2]; simp

/-- List-level version of `WfT`. -/
def WfL (A : VAlg D V X) (Wf : D → V → Prop) (d : D) (ds : List D) (l : List (Entry V ds)) : Prop :=
  (∀ e ∈ l, Wf d e.1 ∧ A.truthy e.1 = true ∧ WfT A Wf ds e.2.2) ∧
  l.Pairwise (fun (e1 e2 : Entry V ds) => ∀ x, ¬ (A.mem x e1.1 = true ∧ A.mem x e2.1 = true))

/-- List-level version of `Den`. -/
def DenL (A : VAlg D V X) (d : D) (ds : List D) (l : List (Entry V ds)) (p : D → X) : Prop :=
  ∃ e ∈ l, A.mem (p d) e.1 = true ∧ Den A ds e.2.2 p

theorem WfT_cons {d : D} {ds : List D} {t : Tree V (d :: ds)} :
    WfT A Wf (d :: ds) t ↔ WfL A Wf d ds (layers t) := Iff.rfl

theorem Den_cons {d : D} {ds : List D} {t : Tree V (d :: ds)} {p : D → X} :
    Den A (d :: ds) t p ↔ DenL A d ds (layers t) p := Iff.rfl

theorem DenL_append {d : D} {ds : List D} {l m : List (Entry V ds)} {p : D → X} :
    DenL A d ds (l ++ m) p ↔ DenL A d ds l p ∨ DenL A d ds m p := by
  unfold DenL
  constructor
  · rintro ⟨e, he, h⟩
    rcases List.mem_append.1 he with he | he
    · exact Or.inl ⟨e, he, h⟩
    · exact Or.inr ⟨e, he, h⟩
  · rintro (⟨e, he, h⟩ | ⟨e, he, h⟩)
    · exact ⟨e, by simp [he], h⟩
    · exact ⟨e, by simp [he], h⟩

theorem DenL_cons {d : D} {ds : List D} {e : Entry V ds} {m : List (Entry V ds)} {p : D → X} :
    DenL A d ds (e :: m) p ↔ (A.mem (p d) e.1 = true ∧ Den A ds e.2.2 p) ∨ DenL A d ds m p := by
  have := @DenL_append D V X A d ds [e] m p
  simp only [List.singleton_append] at this
  rw [this]; simp [DenL]

theorem DenL_nil {d : D} {ds : List D} {p : D → X} : ¬ DenL A d ds ([] : List (Entry V ds)) p := by
  simp [DenL]

theorem DenL_flatMap {d : D} {ds : List D} {B : Type} {l : List B} {f : B → List (Entry V ds)} {p : D → X} :
    DenL A d ds (l.flatMap f) p ↔ ∃ e ∈ l, DenL A d ds (f e) p := by
  unfold DenL
  constructor
  · rintro ⟨e, he, h⟩
    obtain ⟨b, hb, he⟩ := List.mem_flatMap.1 he
    exact ⟨b, hb, e, he, h⟩
  · rintro ⟨b, hb, e, he, h⟩
    exact ⟨e, List.mem_flatMap.2 ⟨b, hb, he⟩, h⟩

variable (L : A.Lawful Wf)
include L

theorem WfL.keys_ne {d : D} {ds : List D} {l : List (Entry V ds)} (h : WfL A Wf d ds l) :
    l.Pairwise (fun a b => a.1 ≠ b.1) := by
  refine List.Pairwise.imp_of_mem ?_ h.2
  intro a b ha _ hab heq
  obtain ⟨x, hx⟩ := (L.truthy_iff (h.1 a ha).1).1 (h.1 a ha).2.1
  exact hab x ⟨hx, heq ▸ hx⟩

theorem WfL.dictOf {d : D} {ds : List D} {l : List (Entry V ds)} (h : WfL A Wf d ds l) :
    dictOf A.decEq l = l := dictOf_eq _ _ (h.keys_ne L)

omit L in
theorem wfL_nil {d : D} {ds : List D} : WfL A Wf d ds [] := ⟨by simp, List.Pairwise.nil⟩

omit L in
theorem wfL_append {d : D} {ds : List D} {l m : List (Entry V ds)} :
    WfL A Wf d ds (l ++ m) ↔ WfL A Wf d ds l ∧ WfL A Wf d ds m ∧
      ∀ a ∈ l, ∀ b ∈ m, ∀ x, ¬ (A.mem x a.1 = true ∧ A.mem x b.1 = true) := by
  unfold WfL
  rw [List.pairwise_append]
  constructor
  · rintro ⟨h1, h2, h3, h4⟩
    exact ⟨⟨fun e he => h1 e (by simp [he]), h2⟩, ⟨fun e he => h1 e (by simp [he]), h3⟩, h4⟩
  · rintro ⟨⟨h1, h2⟩, ⟨h3, h4⟩, h5⟩
    refine ⟨fun e he => ?_, h2, h4, h5⟩
    rcases List.mem_append.1 he with h | h
    · exact h1 e h
    · exact h3 e h

omit L in
theorem wfL_cons {d : D} {ds : List D} {e : Entry V ds} {m : List (Entry V ds)} :
    WfL A Wf d ds (e :: m) ↔ (Wf d e.1 ∧ A.truthy e.1 = true ∧ WfT A Wf ds e.2.2) ∧ WfL A Wf d ds m ∧
      ∀ b ∈ m, ∀ x, ¬ (A.mem x e.1 = true ∧ A.mem x b.1 = true) := by
  have := @wfL_append D V X A Wf d ds [e] m
  simp only [List.singleton_append] at this
  rw [this]
  simp [WfL]

omit L in
theorem wfL_flatMap {d : D} {ds : List D} {S : Type} (l : List (V × S)) (f : V × S → List (Entry V ds))
    (hd : l.Pairwise (fun e1 e2 => ∀ x, ¬ (A.mem x e1.1 = true ∧ A.mem x e2.1 = true)))
    (hf : ∀ e ∈ l, WfL A Wf d ds (f e) ∧ ∀ g ∈ f e, ∀ x, A.mem x g.1 = true → A.mem x e.1 = true) :
    WfL A Wf d ds (l.flatMap f) := by
  induction l with
  | nil => exact wfL_nil
  | cons a l ih =>
    rw [List.flatMap_cons, wfL_append]
    refine ⟨(hf a (by simp)).1, ih (List.pairwise_cons.1 hd).2 (fun e he => hf e (by simp [he])), ?_⟩
    intro g hg b hb x hx
    obtain ⟨e, he, hb⟩ := List.mem_flatMap.1 hb
    exact (List.pairwise_cons.1 hd).1 e he x
      ⟨(hf a (by simp)).2 g hg x hx.1, (hf e (by simp [he])).2 b hb x hx.2⟩

/-! ### Equality of sub-objects -/

omit L in
theorem find?_key {S : Type} (l : List (V × S)) (k : V) (e : V × S)
    (h : l.find? (fun e2 => @decide (e2.1 = k) (A.decEq _ _)) = some e) : e ∈ l ∧ e.1 = k := by
  refine ⟨List.mem_of_find?_eq_some h, ?_⟩
  have := List.find?_some h
  simpa using this

theorem subEq_sound {ds : List D} (s1 s2 : Bool × Tree V ds) (w1 : WfT A Wf ds s1.2) (w2 : WfT A Wf ds s2.2)
    (h : subEq A ds s1 s2 = true) (p : D → X) : Den A ds s1.2 p ↔ Den A ds s2.2 p := by
  induction ds with
  | nil => simp [Den]
  | cons d ds ih =>
    obtain ⟨c1, t1⟩ := s1
    obtain ⟨c2, t2⟩ := s2
    change List (Entry V ds) at t1 t2
    simp only [subEq, Bool.and_eq_true, beq_iff_eq, List.all_eq_true] at h
    obtain ⟨⟨_, hlen⟩, hall⟩ := h
    have w1' : WfL A Wf d ds t1 := w1
    have w2' : WfL A Wf d ds t2 := w2
    -- every entry of t1 has a partner in t2
    have part : ∀ e1 ∈ t1, ∃ e2 ∈ t2, e2.1 = e1.1 ∧ subEq A ds e1.2 e2.2 = true := by
      intro e1 he1
      have := hall e1 he1
      split at this
      · rename_i e2 hf
        have hk := find?_key (A := A) t2 e1.1 e2 hf
        exact ⟨e2, hk.1, hk.2, this⟩
      · exact absurd this (by simp)
    -- keys of t2 are keys of t1
    have nd1 : (t1.map Prod.fst).Nodup := by
      rw [List.nodup_iff_pairwise_ne, List.pairwise_map]; exact w1'.keys_ne L
    have nd2 : (t2.map Prod.fst).Nodup := by
      rw [List.nodup_iff_pairwise_ne, List.pairwise_map]; exact w2'.keys_ne L
    have hsub : t1.map Prod.fst ⊆ t2.map Prod.fst := by
      intro k hk
      obtain ⟨e1, he1, rfl⟩ := List.mem_map.1 hk
      obtain ⟨e2, he2, hk2, _⟩ := part e1 he1
      exact List.mem_map.2 ⟨e2, he2, hk2⟩
    have hperm : (t1.map Prod.fst).Perm (t2.map Prod.fst) :=
      (nd1.subperm hsub).perm_of_length_le (by simp [hlen])
    have back : ∀ e2 ∈ t2, ∃ e1 ∈ t1, e2.1 = e1.1 ∧ subEq A ds e1.2 e2.2 = true := by
      intro e2 he2
      have : e2.1 ∈ t1.map Prod.fst := hperm.mem_iff.2 (List.mem_map.2 ⟨e2, he2, rfl⟩)
      obtain ⟨e1, he1, hk⟩ := List.mem_map.1 this
      obtain ⟨e2', he2', hk', hs⟩ := part e1 he1
      have : e2' = e2 := by
        by_contra hne
        have hnd := nd2
        have := (List.inj_on_of_nodup_map hnd) he2' he2 (by rw [hk', hk])
        exact hne this
      subst this
      exact ⟨e1, he1, hk.symm, hs⟩
    constructor
    · rintro ⟨e1, he1, hm, hd⟩
      obtain ⟨e2, he2, hk, hs⟩ := part e1 he1
      refine ⟨e2, he2, by rw [hk]; exact hm, ?_⟩
      exact (ih e1.2 e2.2 (w1'.1 e1 he1).2.2 (w2'.1 e2 he2).2.2 hs).1 hd
    · rintro ⟨e2, he2, hm, hd⟩
      obtain ⟨e1, he1, hk, hs⟩ := back e2 he2
      refine ⟨e1, he1, by rw [← hk]; exact hm, ?_⟩
      exact (ih e1.2 e2.2 (w1'.1 e1 he1).2.2 (w2'.1 e2 he2).2.2 hs).2 hd

/-! ### Merging -/

omit L in
theorem insClass_subs {ds : List D} (acc : List (Entry V ds)) (e : Entry V ds) :
    ∀ c ∈ insClass A ds acc e, (∃ c' ∈ acc, c.2 = c'.2) ∨ c.2 = e.2 := by
  induction acc with
  | nil => intro c hc; simp [insClass] at hc; right; rw [hc]
  | cons a acc ih =>
    intro c hc
    unfold insClass at hc
    by_cases h : subEq A ds a.2 e.2 = true
    · rw [if_pos h] at hc
      rcases List.mem_cons.1 hc with rfl | hc
      · left; exact ⟨a, by simp, rfl⟩
      · left; exact ⟨c, by simp [hc], rfl⟩
    · rw [if_neg h] at hc
      rcases List.mem_cons.1 hc with rfl | hc
      · left; exact ⟨c, by simp, rfl⟩
      · rcases ih c hc with ⟨c', hc', h⟩ | h
        · left; exact ⟨c', by simp [hc'], h⟩
        · right; exact h

omit L in
theorem insClass_pairwise {ds : List D} (acc : List (Entry V ds)) (e : Entry V ds)
    (h : acc.Pairwise (fun a b => subEq A ds a.2 b.2 = false)) :
    (insClass A ds acc e).Pairwise (fun a b => subEq A ds a.2 b.2 = false) := by
  induction acc with
  | nil => simp [insClass]
  | cons a acc ih =>
    have hp := List.pairwise_cons.1 h
    unfold insClass
    by_cases hs : subEq A ds a.2 e.2 = true
    · rw [if_pos hs]
      exact List.pairwise_cons.2 ⟨fun b hb => hp.1 b hb, hp.2⟩
    · rw [if_neg hs]
      refine List.pairwise_cons.2 ⟨fun b hb => ?_, ih hp.2⟩
      rcases insClass_subs acc e b hb with ⟨c', hc', h⟩ | h
      · rw [h]; exact hp.1 c' hc'
      · rw [h]; simpa using hs

omit L in
theorem insClass_ne_nil {ds : List D} (acc : List (Entry V ds)) (e : Entry V ds) :
    insClass A ds acc e ≠ [] := by
  cases acc with
  | nil => simp [insClass]
  | cons a acc => unfold insClass; split <;> simp

theorem insClass_spec {d : D} {ds : List D} (acc : List (Entry V ds)) (e : Entry V ds)
    (hacc : WfL A Wf d ds acc) (he : Wf d e.1 ∧ A.truthy e.1 = true ∧ WfT A Wf ds e.2.2)
    (hdis : ∀ a ∈ acc, ∀ x, ¬ (A.mem x a.1 = true ∧ A.mem x e.1 = true)) :
    WfL A Wf d ds (insClass A ds acc e) ∧
    (∀ x, (∃ c ∈ insClass A ds acc e, A.mem x c.1 = true) ↔ (∃ c ∈ acc, A.mem x c.1 = true) ∨ A.mem x e.1 = true) ∧
    (∀ p, DenL A d ds (insClass A ds acc e) p ↔ DenL A d ds acc p ∨ (A.mem (p d) e.1 = true ∧ Den A ds e.2.2 p)) := by
  induction acc with
  | nil =>
    simp only [insClass]
    refine ⟨wfL_cons.2 ⟨he, wfL_nil, by simp⟩, by simp, fun p => ?_⟩
    rw [DenL_cons]; simp only [DenL_nil]; tauto
  | cons a acc ih =>
    have hw := wfL_cons.1 hacc
    have hda := hdis a (by simp)
    unfold insClass
    by_cases hs : subEq A ds a.2 e.2 = true
    · rw [if_pos hs]
      have hmem := L.mem_or hw.1.1 he.1
      refine ⟨wfL_cons.2 ⟨⟨L.wf_or hw.1.1 he.1, ?_, hw.1.2.2⟩, hw.2.1, ?_⟩, ?_, ?_⟩
      · rw [L.truthy_iff (L.wf_or hw.1.1 he.1)]
        obtain ⟨x, hx⟩ := (L.truthy_iff hw.1.1).1 hw.1.2.1
        exact ⟨x, by rw [hmem]; simp [hx]⟩
      · intro b hb x hx
        rw [hmem, Bool.or_eq_true] at hx
        rcases hx.1 with h | h
        · exact hw.2.2 b hb x ⟨h, hx.2⟩
        · exact hdis b (by simp [hb]) x ⟨hx.2, h⟩
      · intro x
        simp only [List.mem_cons, exists_eq_or_imp, hmem, Bool.or_eq_true]
        constructor
        · rintro ((h | h) | h)
          · exact Or.inl (Or.inl h)
          · exact Or.inr h
          · exact Or.inl (Or.inr h)
        · rintro ((h | h) | h)
          · exact Or.inl (Or.inl h)
          · exact Or.inr h
          · exact Or.inl (Or.inr h)
      · intro p
        have hden := subEq_sound L a.2 e.2 hw.1.2.2 he.2.2 hs p
        rw [DenL_cons, DenL_cons]
        simp only [hmem, Bool.or_eq_true, ← hden]
        tauto
    · rw [if_neg hs]
      obtain ⟨i1, i2, i3⟩ := ih hw.2.1 (fun b hb => hdis b (by simp [hb]))
      refine ⟨wfL_cons.2 ⟨hw.1, i1, ?_⟩, ?_, ?_⟩
      · intro b hb x hx
        rcases (i2 x).1 ⟨b, hb, hx.2⟩ with ⟨c, hc, h⟩ | h
        · exact hw.2.2 c hc x ⟨hx.1, h⟩
        · exact hda x ⟨hx.1, h⟩
      · intro x
        have := i2 x
        simp only [List.mem_cons, exists_eq_or_imp]
        rw [this, or_assoc]
      · intro p
        rw [DenL_cons, DenL_cons, i3 p]; tauto

theorem foldl_insClass_spec {d : D} {ds : List D} (l acc : List (Entry V ds))
    (h : WfL A Wf d ds (acc ++ l)) (hp : acc.Pairwise (fun a b => subEq A ds a.2 b.2 = false)) :
    WfL A Wf d ds (l.foldl (insClass A ds) acc) ∧
    (∀ p, DenL A d ds (l.foldl (insClass A ds) acc) p ↔ DenL A d ds (acc ++ l) p) ∧
    (l.foldl (insClass A ds) acc).Pairwise (fun a b => subEq A ds a.2 b.2 = false) ∧
    (∀ e ∈ l.foldl (insClass A ds) acc, ∃ e' ∈ acc ++ l, e.2 = e'.2) ∧
    (acc ++ l ≠ [] → l.foldl (insClass A ds) acc ≠ []) ∧
    (∀ x, (∃ c ∈ l.foldl (insClass A ds) acc, A.mem x c.1 = true) ↔ (∃ c ∈ acc ++ l, A.mem x c.1 = true)) := by
  induction l generalizing acc with
  | nil =>
    simp only [List.foldl_nil, List.append_nil] at *
    exact ⟨h, by simp, hp, fun e he => ⟨e, he, rfl⟩, id, by simp⟩
  | cons e l ih =>
    rw [List.foldl_cons]
    obtain ⟨ha, hel, hcross⟩ := wfL_append.1 h
    obtain ⟨he, hl, hcl⟩ := wfL_cons.1 hel
    obtain ⟨s1, s2, s3⟩ := insClass_spec L acc e ha he (fun a haa x hx => hcross a haa e (by simp) x hx)
    have h' : WfL A Wf d ds (insClass A ds acc e ++ l) := by
      refine wfL_append.2 ⟨s1, hl, ?_⟩
      intro a haa b hb x hx
      rcases (s2 x).1 ⟨a, haa, hx.1⟩ with ⟨c, hc, hm⟩ | hm
      · exact hcross c hc b (by simp [hb]) x ⟨hm, hx.2⟩
      · exact hcl b hb x ⟨hm, hx.2⟩
    obtain ⟨r1, r2, r3, r4, r5, r6⟩ := ih _ h' (insClass_pairwise acc e hp)
    refine ⟨r1, fun p => ?_, r3, ?_, fun _ => r5 (by simp [insClass_ne_nil]), fun x => ?_⟩
    · rw [r2 p, DenL_append, DenL_append, DenL_cons, s3 p]; tauto
    · intro f hf
      obtain ⟨f', hf', h2⟩ := r4 f hf
      rcases List.mem_append.1 hf' with hf' | hf'
      · rcases insClass_subs acc e f' hf' with ⟨c, hc, h3⟩ | h3
        · exact ⟨c, by simp [hc], by rw [h2, h3]⟩
        · exact ⟨e, by simp, by rw [h2, h3]⟩
      · exact ⟨f', by simp [hf'], h2⟩
    · rw [r6 x]
      simp only [List.mem_append, List.mem_cons]
      constructor
      · rintro ⟨c, hc | hc, hm⟩
        · rcases (s2 x).1 ⟨c, hc, hm⟩ with ⟨c', hc', h⟩ | h
          · exact ⟨c', Or.inl hc', h⟩
          · exact ⟨e, Or.inr (Or.inl rfl), h⟩
        · exact ⟨c, Or.inr (Or.inr hc), hm⟩
      · rintro ⟨c, hc | rfl | hc, hm⟩
        · obtain ⟨c', hc', h⟩ := (s2 x).2 (Or.inl ⟨c, hc, hm⟩)
          exact ⟨c', Or.inl hc', h⟩
        · obtain ⟨c', hc', h⟩ := (s2 x).2 (Or.inr hm)
          exact ⟨c', Or.inl hc', h⟩
        · exact ⟨c, Or.inr hc, hm⟩

/-- What `_apply_layer_elements_union` guarantees. -/
structure MergeSpec (A : VAlg D V X) (Wf : D → V → Prop) (d : D) (ds : List D)
    (l m : List (Entry V ds)) : Prop where
  wf : WfL A Wf d ds m
  den : ∀ p, DenL A d ds m p ↔ DenL A d ds l p
  distinct : m.Pairwise (fun a b => subEq A ds a.2 b.2 = false)
  subs : ∀ e ∈ m, ∃ e' ∈ l, e.2 = e'.2
  ne : l ≠ [] → m ≠ []
  keys : ∀ x, (∃ c ∈ m, A.mem x c.1 = true) ↔ (∃ c ∈ l, A.mem x c.1 = true)

theorem mergeL_spec {d : D} {ds : List D} (l : List (Entry V ds)) (h : WfL A Wf d ds l) :
    MergeSpec A Wf d ds l (mergeL A ds l) := by
  obtain ⟨r1, r2, r3, r4, r5, r6⟩ := foldl_insClass_spec L l [] (by simpa using h) List.Pairwise.nil
  have : mergeL A ds l = l.foldl (insClass A ds) [] := by
    unfold mergeL; exact r1.dictOf L
  rw [this]
  exact ⟨r1, fun p => by simpa using r2 p, r3, by simpa using r4, by simpa using r5, by simpa using r6⟩

/-! ### Remaining part of a key -/

theorem remaining_spec {d : D} {S : Type} (k : V) (others : List (V × S)) (f : V → V → V)
    (hf : ∀ v, Wf d v → Wf d (f k v) ∧ ∀ x, A.mem x (f k v) = (A.mem x k && A.mem x v))
    (hk : Wf d k) (ho : ∀ e ∈ others, Wf d e.1) :
    Wf d (remaining A k others f) ∧
    ∀ x, A.mem x (remaining A k others f) = true ↔ A.mem x k = true ∧ ∀ e ∈ others, A.mem x e.1 = false := by
  unfold remaining
  have key : ∀ (l : List (V × S)) (r : V), (∀ e ∈ l, Wf d e.1) → Wf d r →
      (∀ x, A.mem x r = true → A.mem x k = true) →
      Wf d (l.foldl (fun r e => if !A.truthy (f k e.1) then r else A.sub r (f k e.1)) r) ∧
      ∀ x, A.mem x (l.foldl (fun r e => if !A.truthy (f k e.1) then r else A.sub r (f k e.1)) r) = true ↔
        A.mem x r = true ∧ ∀ e ∈ l, A.mem x e.1 = false := by
    intro l
    induction l with
    | nil => intro r _ hr _; simp [hr]
    | cons e l ih =>
      intro r hl hr hrk
      rw [List.foldl_cons]
      have hfe := hf e.1 (hl e (by simp))
      by_cases ht : A.truthy (f k e.1) = true
      · simp only [ht, Bool.not_true, Bool.false_eq_true, if_false]
        have hms := L.mem_sub hr hfe.1
        obtain ⟨i1, i2⟩ := ih (A.sub r (f k e.1)) (fun g hg => hl g (by simp [hg])) (L.wf_sub hr hfe.1)
          (fun x hx => by rw [hms, Bool.and_eq_true] at hx; exact hrk x hx.1)
        refine ⟨i1, fun x => ?_⟩
        rw [i2 x, hms, hfe.2]
        simp only [List.mem_cons, forall_eq_or_imp, Bool.and_eq_true, Bool.not_eq_true', Bool.and_eq_false_iff]
        constructor
        · rintro ⟨⟨h1, h2 | h2⟩, h3⟩
          · rw [hrk x h1] at h2; exact absurd h2 (by simp)
          · exact ⟨h1, h2, h3⟩
        · rintro ⟨h1, h2, h3⟩; exact ⟨⟨h1, Or.inr h2⟩, h3⟩
      · have ht' : A.truthy (f k e.1) = false := by simpa using ht
        simp only [ht', Bool.not_false, if_true]
        obtain ⟨i1, i2⟩ := ih r (fun g hg => hl g (by simp [hg])) hr hrk
        refine ⟨i1, fun x => ?_⟩
        rw [i2 x]
        simp only [List.mem_cons, forall_eq_or_imp]
        constructor
        · rintro ⟨h1, h3⟩
          refine ⟨h1, ?_, h3⟩
          by_contra hc
          have hc : A.mem x e.1 = true := by simpa using hc
          apply ht
          rw [L.truthy_iff hfe.1]
          exact ⟨x, by rw [hfe.2, hrk x h1, hc]; rfl⟩
        · rintro ⟨h1, _, h3⟩; exact ⟨h1, h3⟩
  exact key others k ho hk (fun x h => h)

end
end Verif
