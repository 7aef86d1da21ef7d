import Verif.CubeProofs2
/-! Helper lemmas for hyper-cube sets, part 3: completeness of equality, adding and removing
active dimensions. -/
namespace Verif

section
variable {D V X : Type} [DecidableEq D] {A : VAlg D V X} {Wf : D → V → Prop}

/-- Two trees with the same points. -/
def SameD (A : VAlg D V X) (ds : List D) (t1 t2 : Tree V ds) : Prop :=
  ∀ p, InDom A p → (Den A ds t1 p ↔ Den A ds t2 p)

/-- A point moved at one dimension. -/
def upd (p : D → X) (d : D) (x : X) : D → X := fun d' => if d' = d then x else p d'

omit A Wf in
@[simp] theorem upd_self (p : D → X) (d : D) (x : X) : upd p d x d = x := by simp [upd]

theorem upd_inDom {p : D → X} (hp : InDom A p) {d : D} {x : X} (hx : A.mem x (A.dom d) = true) :
    InDom A (upd p d x) := by
  intro d'
  by_cases h : d' = d
  · subst h; simpa using hx
  · simp only [upd, h, if_false]; exact hp d'

theorem den_upd {ds : List D} (t : Tree V ds) (p : D → X) {d : D} (x : X) (hd : d ∉ ds) :
    Den A ds t (upd p d x) ↔ Den A ds t p := by
  refine den_congr t ?_
  intro d' hd'
  have : d' ≠ d := fun h => hd (h ▸ hd')
  simp [upd, this]

/-- The section of a tree at a coordinate. -/
theorem den_section {d : D} {ds : List D} {t : Tree V (d :: ds)} (hd : d ∉ ds) (w : WfT A Wf (d :: ds) t)
    {e : Entry V ds} (he : e ∈ layers t) {x : X} (hx : A.mem x e.1 = true) (p : D → X) :
    Den A (d :: ds) t (upd p d x) ↔ Den A ds e.2.2 p := by
  constructor
  · rintro ⟨e', he', hm, hden⟩
    rw [upd_self] at hm
    have : e' = e := WfL.uniq (A := A) w he' he hm hx
    subst this
    exact (den_upd _ _ _ hd).1 hden
  · intro h
    exact ⟨e, he, by rw [upd_self]; exact hx, (den_upd _ _ _ hd).2 h⟩

theorem den_section_none {d : D} {ds : List D} {t : Tree V (d :: ds)}
    {x : X} (hx : ∀ e ∈ layers t, A.mem x e.1 = false) (p : D → X) :
    ¬ Den A (d :: ds) t (upd p d x) := by
  rintro ⟨e, he, hm, _⟩
  rw [upd_self, hx e he] at hm
  exact absurd hm (by simp)

/-- One half of the completeness of `==`. -/
theorem subEq_half (L : A.Lawful Wf) {d : D} {ds : List D} (hnd : (d :: ds).Nodup)
    (t1 t2 : Tree V (d :: ds)) (w1 : WfT A Wf (d :: ds) t1) (w2 : WfT A Wf (d :: ds) t2)
    (n1 : NeT (d :: ds) t1) (c1 : CanT A (d :: ds) t1) (c2 : CanT A (d :: ds) t2)
    (n2 : NeT (d :: ds) t2)
    (hs : SameD A (d :: ds) t1 t2)
    (ih : ∀ s1 s2 : Tree V ds, WfT A Wf ds s1 → WfT A Wf ds s2 → NeT ds s1 → NeT ds s2 → CanT A ds s1 → CanT A ds s2 →
      SameD A ds s1 s2 → subEq A ds (false, s1) (false, s2) = true) :
    ∀ e1 ∈ layers t1, ∃ e2 ∈ layers t2, e2.1 = e1.1 ∧ SameD A ds e1.2.2 e2.2.2 ∧ subEq A ds e1.2 e2.2 = true := by
  have hnd' := List.nodup_cons.1 hnd
  obtain ⟨p0, hp0⟩ := exists_inDom L
  -- at each coordinate of a key of one side there is a layer of the other side with the same section
  have step : ∀ (s1 s2 : Tree V (d :: ds)), WfT A Wf (d :: ds) s1 → WfT A Wf (d :: ds) s2 → NeT (d :: ds) s1 →
      SameD A (d :: ds) s1 s2 → ∀ e1 ∈ layers s1, ∀ x, A.mem x e1.1 = true →
      ∃ e2 ∈ layers s2, A.mem x e2.1 = true ∧ SameD A ds e1.2.2 e2.2.2 := by
    intro s1 s2 v1 v2 m1 hs e1 he1 x hx
    have hxd := L.sub_dom (v1.1 e1 he1).1 x hx
    obtain ⟨p, hp, _, hden⟩ := exists_den L hnd'.2 e1.2.2 (v1.1 e1 he1).2.2 (m1 e1 he1).2 (m1 e1 he1).1 p0 hp0
    rcases key_cases (A := A) (layers s2) x with ⟨e2, he2, hm2⟩ | hno
    · refine ⟨e2, he2, hm2, fun q hq => ?_⟩
      rw [← den_section hnd'.1 v1 he1 hx q, ← den_section hnd'.1 v2 he2 hm2 q]
      exact hs _ (upd_inDom hq hxd)
    · exact absurd ((hs _ (upd_inDom hp hxd)).1 ((den_section hnd'.1 v1 he1 hx p).2 hden)) (den_section_none hno p)
  have hs' : SameD A (d :: ds) t2 t1 := fun p hp => (hs p hp).symm
  intro e1 he1
  obtain ⟨x, hx⟩ := (L.truthy_iff (w1.1 e1 he1).1).1 (w1.1 e1 he1).2.1
  obtain ⟨e2, he2, hm2, hsame⟩ := step t1 t2 w1 w2 n1 hs e1 he1 x hx
  have tag : ∀ (t : Tree V (d :: ds)), CanT A (d :: ds) t → ∀ e ∈ layers t, e.2 = (false, e.2.2) := by
    intro t c e he
    exact Prod.ext (c.1 e he).2 rfl
  -- layers of one tree with the same section are the same layer
  have uniq : ∀ (t : Tree V (d :: ds)), WfT A Wf (d :: ds) t → NeT (d :: ds) t → CanT A (d :: ds) t →
      ∀ a ∈ layers t, ∀ b ∈ layers t, SameD A ds a.2.2 b.2.2 → a = b := by
    intro t w n c a ha b hb hab
    by_contra hne
    have hp := c.2
    have h1 : subEq A ds a.2 b.2 = true := by
      rw [tag t c a ha, tag t c b hb]
      exact ih _ _ (w.1 a ha).2.2 (w.1 b hb).2.2 (n a ha).2 (n b hb).2 (c.1 a ha).1 (c.1 b hb).1 hab
    have h2 : subEq A ds b.2 a.2 = true := by
      rw [tag t c a ha, tag t c b hb]
      exact ih _ _ (w.1 b hb).2.2 (w.1 a ha).2.2 (n b hb).2 (n a ha).2 (c.1 b hb).1 (c.1 a ha).1
        (fun q hq => (hab q hq).symm)
    have : ∀ (l : List (Entry V ds)), l.Pairwise (fun (e1 e2 : Entry V ds) => subEq A ds e1.2 e2.2 = false) →
        a ∈ l → b ∈ l → False := by
      intro l
      induction l with
      | nil => intro _ ha; simp at ha
      | cons c l ihl =>
        intro hp ha hb
        obtain ⟨h3, h4⟩ := List.pairwise_cons.1 hp
        rcases List.mem_cons.1 ha with rfl | ha' <;> rcases List.mem_cons.1 hb with rfl | hb'
        · exact hne rfl
        · have := h3 b hb'; rw [h1] at this; exact absurd this (by simp)
        · have := h3 a ha'; rw [h2] at this; exact absurd this (by simp)
        · exact ihl h4 ha' hb'
    exact this _ hp ha hb
  refine ⟨e2, he2, ?_, hsame, ?_⟩
  · refine L.ext (w2.1 e2 he2).1 (w1.1 e1 he1).1 (fun y => ?_)
    rw [Bool.eq_iff_iff]
    constructor
    · intro hy
      obtain ⟨e1', he1', hm1', hsame'⟩ := step t2 t1 w2 w1 n2 hs' e2 he2 y hy
      have : e1' = e1 := uniq t1 w1 n1 c1 _ he1' _ he1
        (fun q hq => ((hsame q hq).trans (hsame' q hq)).symm)
      subst this; exact hm1'
    · intro hy
      obtain ⟨e2', he2', hm2', hsame'⟩ := step t1 t2 w1 w2 n1 hs e1 he1 y hy
      have : e2' = e2 := uniq t2 w2 n2 c2 _ he2' _ he2
        (fun q hq => (hsame' q hq).symm.trans (hsame q hq))
      subst this; exact hm2'
  · rw [tag t1 c1 e1 he1, tag t2 c2 e2 he2]
    exact ih _ _ (w1.1 e1 he1).2.2 (w2.1 e2 he2).2.2 (n1 e1 he1).2 (n2 e2 he2).2 (c1.1 e1 he1).1 (c2.1 e2 he2).1 hsame

/-- Canonical trees with the same points compare equal. -/
theorem subEq_complete (L : A.Lawful Wf) {ds : List D} (hnd : ds.Nodup) :
    ∀ s1 s2 : Tree V ds, WfT A Wf ds s1 → WfT A Wf ds s2 → NeT ds s1 → NeT ds s2 → CanT A ds s1 → CanT A ds s2 →
      SameD A ds s1 s2 → subEq A ds (false, s1) (false, s2) = true := by
  induction ds with
  | nil => intros; rfl
  | cons d ds ih =>
    intro t1 t2 w1 w2 n1 n2 c1 c2 hs
    have hnd' := List.nodup_cons.1 hnd
    have h12 := subEq_half L hnd t1 t2 w1 w2 n1 c1 c2 n2 hs (ih hnd'.2)
    have h21 := subEq_half L hnd t2 t1 w2 w1 n2 c2 c1 n1 (fun p hp => (hs p hp).symm) (ih hnd'.2)
    change List (Entry V ds) at t1 t2
    have w1' : WfL A Wf d ds t1 := w1
    have w2' : WfL A Wf d ds t2 := w2
    have nd1 : (t1.map Prod.fst).Nodup := by
      rw [List.nodup_iff_pairwise_ne, List.pairwise_map]; exact w1'.keys_ne L
    have nd2 : (t2.map Prod.fst).Nodup := by
      rw [List.nodup_iff_pairwise_ne, List.pairwise_map]; exact w2'.keys_ne L
    have hsub : ∀ (a b : List (Entry V ds)), (∀ e1 ∈ a, ∃ e2 ∈ b, e2.1 = e1.1 ∧
        SameD A ds e1.2.2 e2.2.2 ∧ subEq A ds e1.2 e2.2 = true) → a.map Prod.fst ⊆ b.map Prod.fst := by
      intro a b h k hk
      obtain ⟨e1, he1, rfl⟩ := List.mem_map.1 hk
      obtain ⟨e2, he2, hk2, _⟩ := h e1 he1
      exact List.mem_map.2 ⟨e2, he2, hk2⟩
    have hlen : t1.length = t2.length := by
      have l1 := (nd1.subperm (hsub t1 t2 h12)).length_le
      have l2 := (nd2.subperm (hsub t2 t1 h21)).length_le
      simp at l1 l2
      omega
    simp only [subEq, Bool.and_eq_true, beq_iff_eq, List.all_eq_true, true_and]
    refine ⟨hlen, ?_⟩
    intro e1 he1
    obtain ⟨e2, he2, hk, _, hse⟩ := h12 e1 he1
    have hf : List.find? (fun e => @decide (e.1 = e1.1) (A.decEq _ _)) t2 = some e2 := by
      have hkn := w2'.keys_ne L
      clear hse hlen nd1 nd2 hsub w2' w1' h12 h21 hs c2 n2 w2
      induction t2 with
      | nil => simp at he2
      | cons a t ih2 =>
        obtain ⟨h1, h2⟩ := List.pairwise_cons.1 hkn
        rcases List.mem_cons.1 he2 with rfl | he'
        · rw [List.find?_cons_of_pos (by simpa using hk)]
        · have hne := h1 e2 he'
          rw [List.find?_cons_of_neg (by simpa [← hk] using hne)]
          exact ih2 he' h2
    rw [hf]
    exact hse

/-- Canonical layers are pairwise semantically different. -/
theorem CanT.sem (L : A.Lawful Wf) {d : D} {ds : List D} (hnd : (d :: ds).Nodup) {t : Tree V (d :: ds)}
    (w : WfT A Wf (d :: ds) t) (n : NeT (d :: ds) t) (c : CanT A (d :: ds) t) :
    (layers t).Pairwise (fun (e1 e2 : Entry V ds) => ¬ SameD A ds e1.2.2 e2.2.2) := by
  refine List.Pairwise.imp_of_mem ?_ c.2
  intro a b ha hb hab hs
  have h1 : subEq A ds a.2 b.2 = true := by
    rw [show a.2 = (false, a.2.2) from Prod.ext (c.1 a ha).2 rfl, show b.2 = (false, b.2.2) from Prod.ext (c.1 b hb).2 rfl]
    exact subEq_complete L (List.nodup_cons.1 hnd).2 _ _ (w.1 a ha).2.2 (w.1 b hb).2.2 (n a ha).2 (n b hb).2
      (c.1 a ha).1 (c.1 b hb).1 hs
  rw [h1] at hab; exact absurd hab (by simp)

/-- Semantically different layers are distinct for `==`. -/
theorem canT_of_sem (L : A.Lawful Wf) {d : D} {ds : List D} {t : Tree V (d :: ds)}
    (w : WfT A Wf (d :: ds) t) (h : ∀ e ∈ layers t, CanT A ds e.2.2 ∧ e.2.1 = false)
    (hp : (layers t).Pairwise (fun (e1 e2 : Entry V ds) => ¬ SameD A ds e1.2.2 e2.2.2)) : CanT A (d :: ds) t := by
  refine ⟨h, List.Pairwise.imp_of_mem ?_ hp⟩
  intro a b ha hb hab
  by_contra hc
  exact hab (fun p _ => subEq_sound L a.2 b.2 (w.1 a ha).2.2 (w.1 b hb).2.2 (by simpa using hc) p)

/-! ### Adding active dimensions -/

theorem expand_eq_cons (c : Bool) {a : D} {as ns : List D} (t : Tree V (a :: as)) :
    expand A c (a :: as) (a :: ns) t =
      ((layers t).map (fun (e : Entry V as) => (e.1, e.2.1, expand A e.2.1 as ns e.2.2)) : List (Entry V ns)) := by
  simp [expand]; rfl

theorem expand_ne_cons (c : Bool) {a n : D} {as ns : List D} (h : a ≠ n) (t : Tree V (a :: as)) :
    expand A c (a :: as) (n :: ns) t = ([(A.dom n, c, expand A c (a :: as) ns t)] : List (Entry V ns)) := by
  simp [expand, h]; rfl

theorem expand_nil (c : Bool) (ns : List D) (t : Tree V ([] : List D)) : expand A c [] ns t = fullT A ns := by
  cases ns <;> rfl

theorem expand_self (c : Bool) {as : List D} (t : Tree V as) : expand A c as as t = t := by
  induction as generalizing c with
  | nil => rfl
  | cons a as ih =>
    rw [expand_eq_cons]
    simp only [ih]
    change List.map (fun e : Entry V as => e) (layers t) = t
    simp

theorem expand_den {as new : List D} (hsub : as.Sublist new) (c : Bool) (t : Tree V as) (p : D → X) (hp : InDom A p) :
    Den A new (expand A c as new t) p ↔ Den A as t p := by
  induction new generalizing as c with
  | nil =>
    have := List.sublist_nil.1 hsub
    subst this
    exact Iff.rfl
  | cons n ns ih =>
    cases as with
    | nil =>
      rw [expand_nil]
      exact ⟨fun _ => trivial, fun _ => fullT_full _ p hp⟩
    | cons a as =>
      by_cases h : a = n
      · subst h
        have hsub' := List.cons_sublist_cons.1 hsub
        rw [expand_eq_cons]
        constructor
        · rintro ⟨e, he, hm, hd⟩
          obtain ⟨e0, he0, rfl⟩ := List.mem_map.1 he
          exact ⟨e0, he0, hm, (ih hsub' _ _).1 hd⟩
        · rintro ⟨e0, he0, hm, hd⟩
          exact ⟨_, List.mem_map.2 ⟨e0, he0, rfl⟩, hm, (ih hsub' _ _).2 hd⟩
      · rw [expand_ne_cons _ h]
        have hsub' := List.Sublist.of_cons_of_ne h hsub
        constructor
        · rintro ⟨e, he, hm, hd⟩
          have := List.mem_singleton.1 he
          subst this
          exact (ih hsub' _ _).1 hd
        · intro hd
          exact ⟨_, List.mem_singleton.2 rfl, hp n, (ih hsub' _ _).2 hd⟩

theorem expand_full {as new : List D} (hsub : as.Sublist new) (c : Bool) (t : Tree V as) :
    FullD A new (expand A c as new t) ↔ FullD A as t := by
  constructor
  · intro h p hp; exact (expand_den hsub c t p hp).1 (h p hp)
  · intro h p hp; exact (expand_den hsub c t p hp).2 (h p hp)

theorem expand_wf (L : A.Lawful Wf) {as new : List D} (hsub : as.Sublist new) (c : Bool) (t : Tree V as)
    (w : WfT A Wf as t) : WfT A Wf new (expand A c as new t) := by
  induction new generalizing as c with
  | nil => trivial
  | cons n ns ih =>
    cases as with
    | nil => rw [expand_nil]; exact fullT_wf L _
    | cons a as =>
      by_cases h : a = n
      · subst h
        have hsub' := List.cons_sublist_cons.1 hsub
        rw [expand_eq_cons]
        refine ⟨?_, ?_⟩
        · intro e he
          obtain ⟨e0, he0, rfl⟩ := List.mem_map.1 he
          exact ⟨(w.1 e0 he0).1, (w.1 e0 he0).2.1, ih hsub' _ _ (w.1 e0 he0).2.2⟩
        · change List.Pairwise _ (List.map _ _)
          rw [List.pairwise_map]
          exact w.2
      · rw [expand_ne_cons _ h]
        have hsub' := List.Sublist.of_cons_of_ne h hsub
        exact wfL_cons.2 ⟨⟨L.wf_dom n, L.dom_truthy n, ih hsub' _ _ w⟩, wfL_nil, by simp⟩

theorem expand_ne {as new : List D} (hsub : as.Sublist new) (c : Bool) (t : Tree V as)
    (n : NeT as t) (hn : neT as t = true) :
    NeT new (expand A c as new t) ∧ neT new (expand A c as new t) = true := by
  induction new generalizing as c with
  | nil => exact ⟨trivial, rfl⟩
  | cons m ns ih =>
    cases as with
    | nil => rw [expand_nil]; exact ⟨fullT_ne _, fullT_neT _⟩
    | cons a as =>
      by_cases h : a = m
      · subst h
        have hsub' := List.cons_sublist_cons.1 hsub
        rw [expand_eq_cons]
        refine ⟨?_, ?_⟩
        · intro e he
          obtain ⟨e0, he0, rfl⟩ := List.mem_map.1 he
          have := ih hsub' e0.2.1 e0.2.2 (n e0 he0).2 (n e0 he0).1
          exact ⟨this.2, this.1⟩
        · have := neT_iff_ne.1 hn
          refine neT_iff_ne.2 ?_
          change List.map _ _ ≠ []
          simpa using this
      · rw [expand_ne_cons _ h]
        have hsub' := List.Sublist.of_cons_of_ne h hsub
        refine ⟨?_, rfl⟩
        intro e he
        have := List.mem_singleton.1 he
        subst this
        have := ih hsub' c t n hn
        exact ⟨this.2, this.1⟩

theorem expand_one {as new : List D} (hsub : as.Sublist new) (c : Bool) (t : Tree V as)
    (o : OneFull A as t) (hc : c = true → as ≠ [] → ¬ FullD A as t) : OneFull A new (expand A c as new t) := by
  induction new generalizing as c with
  | nil => trivial
  | cons m ns ih =>
    cases as with
    | nil => rw [expand_nil]; exact fullT_one _
    | cons a as =>
      by_cases h : a = m
      · subst h
        have hsub' := List.cons_sublist_cons.1 hsub
        rw [expand_eq_cons]
        refine ⟨?_, ?_⟩
        · intro e he
          obtain ⟨e0, he0, rfl⟩ := List.mem_map.1 he
          refine ⟨ih hsub' e0.2.1 e0.2.2 (o.1 e0 he0).1 (fun h _ => (o.1 e0 he0).2 h), ?_⟩
          intro ht
          rw [expand_full hsub']
          exact (o.1 e0 he0).2 ht
        · change List.Pairwise _ (List.map _ _)
          rw [List.pairwise_map]
          refine o.2.imp ?_
          intro e1 e2 h12
          rw [expand_full hsub', expand_full hsub']
          exact h12
      · rw [expand_ne_cons _ h]
        have hsub' := List.Sublist.of_cons_of_ne h hsub
        refine ⟨?_, List.pairwise_singleton _ _⟩
        intro e he
        have := List.mem_singleton.1 he
        subst this
        refine ⟨ih hsub' c t o hc, fun ht => ?_⟩
        rw [expand_full hsub']
        exact hc ht (by simp)

theorem expand_can (L : A.Lawful Wf) {as new : List D} (hnd : as.Nodup) (hsub : as.Sublist new) (t : Tree V as)
    (w : WfT A Wf as t) (n : NeT as t) (c : CanT A as t) : CanT A new (expand A false as new t) := by
  induction new generalizing as with
  | nil => trivial
  | cons m ns ih =>
    have hwf := expand_wf L hsub false t w
    cases as with
    | nil => rw [expand_nil]; exact fullT_can _
    | cons a as =>
      by_cases h : a = m
      · subst h
        have hsub' := List.cons_sublist_cons.1 hsub
        refine canT_of_sem L hwf ?_ ?_
        · rw [expand_eq_cons]
          intro e he
          obtain ⟨e0, he0, rfl⟩ := List.mem_map.1 he
          have := ih (List.nodup_cons.1 hnd).2 hsub' e0.2.2 (w.1 e0 he0).2.2 (n e0 he0).2 (c.1 e0 he0).1
          rw [← (c.1 e0 he0).2] at this
          exact ⟨this, (c.1 e0 he0).2⟩
        · rw [expand_eq_cons]
          change List.Pairwise _ (List.map _ _)
          rw [List.pairwise_map]
          refine (c.sem L hnd w n).imp ?_
          intro e1 e2 h12 hs
          refine h12 (fun p hp => ?_)
          rw [← expand_den hsub' e1.2.1 _ p hp, ← expand_den hsub' e2.2.1 _ p hp]
          exact hs p hp
      · rw [expand_ne_cons _ h]
        have hsub' := List.Sublist.of_cons_of_ne h hsub
        refine ⟨?_, List.pairwise_singleton _ _⟩
        intro e he
        have := List.mem_singleton.1 he
        subst this
        exact ⟨ih hnd hsub' t w n c, rfl⟩

/-! ### Removing active dimensions -/

theorem removeT_nil {as : List D} (t : Tree V as) : removeT A as [] t = () := by cases as <;> rfl

theorem removeT_eq_cons {a : D} {as ks : List D} (t : Tree V (a :: as)) :
    removeT A (a :: as) (a :: ks) t =
      ((layers t).map (fun (e : Entry V as) => (e.1, e.2.1, removeT A as ks e.2.2)) : List (Entry V ks)) := by
  simp [removeT]; rfl

theorem removeT_ne_cons {a k : D} {as ks : List D} (h : a ≠ k) (t : Tree V (a :: as)) :
    removeT A (a :: as) (k :: ks) t =
      removeT A as (k :: ks) (joinSubs A as ((layers t).map (fun (e : Entry V as) => e.2.2))) := by
  simp [removeT, h]

theorem removeT_self {as : List D} (t : Tree V as) : removeT A as as t = t := by
  induction as with
  | nil => rfl
  | cons a as ih =>
    rw [removeT_eq_cons]
    simp only [ih]
    change List.map (fun e : Entry V as => e) (layers t) = t
    simp

theorem joinSubs_single (L : A.Lawful Wf) {as : List D} (t : Tree V as) (w : WfT A Wf as t) : joinSubs A as [t] = t := by
  cases as with
  | nil => rfl
  | cons a as =>
    change List (Entry V as) at t
    have w' : WfL A Wf a as t := w
    change dictOf A.decEq (List.flatten ([t] : List (List (Entry V as)))) = t
    rw [List.flatten_singleton]
    exact w'.dictOf L

theorem mem_vals_cons {d : D} {ds : List D} {t : Tree V (d :: ds)} {d' : D} {v : V} :
    (d', v) ∈ vals (d :: ds) t ↔ ∃ e ∈ layers t, (d' = d ∧ v = e.1) ∨ (d', v) ∈ vals ds e.2.2 := by
  change (d', v) ∈ List.flatMap (fun (e : Entry V ds) => (d, e.1) :: vals ds e.2.2) (layers t) ↔ _
  rw [List.mem_flatMap]
  simp only [List.mem_cons, Prod.mk.injEq]

theorem vals_dims {ds : List D} {t : Tree V ds} {d' : D} {v : V} (h : (d', v) ∈ vals ds t) : d' ∈ ds := by
  induction ds with
  | nil => simp [vals] at h
  | cons d ds ih =>
    obtain ⟨e, he, ⟨h, _⟩ | h⟩ := mem_vals_cons.1 h
    · simp [h]
    · simp [ih h]

theorem vals_nonempty {ds : List D} {t : Tree V ds} (n : NeT ds t) (hn : neT ds t = true) {d : D} (hd : d ∈ ds) :
    ∃ v, (d, v) ∈ vals ds t := by
  induction ds with
  | nil => simp at hd
  | cons d0 ds ih =>
    obtain ⟨e, he⟩ := List.exists_mem_of_ne_nil _ (neT_iff_ne.1 hn)
    rcases List.mem_cons.1 hd with rfl | hd
    · exact ⟨e.1, mem_vals_cons.2 ⟨e, he, Or.inl ⟨rfl, rfl⟩⟩⟩
    · obtain ⟨v, hv⟩ := ih (n e he).2 (n e he).1 hd
      exact ⟨v, mem_vals_cons.2 ⟨e, he, Or.inr hv⟩⟩

/-- A layer dict all of whose keys are the domain has one layer. -/
theorem single_of_dom (L : A.Lawful Wf) {d : D} {ds : List D} {l : List (Entry V ds)} (w : WfL A Wf d ds l)
    (hne : l ≠ []) (hdom : ∀ e ∈ l, e.1 = A.dom d) : ∃ e, l = [e] := by
  match l, w, hne, hdom with
  | [e], _, _, _ => exact ⟨e, rfl⟩
  | a :: b :: l, w, _, hdom =>
    obtain ⟨x, hx⟩ := (L.truthy_iff (L.wf_dom d)).1 (L.dom_truthy d)
    have := (List.pairwise_cons.1 w.2).1 b (by simp) x
    rw [hdom a (by simp), hdom b (by simp)] at this
    exact absurd ⟨hx, hx⟩ this

theorem allDom_full (L : A.Lawful Wf) {ds : List D} (t : Tree V ds) (w : WfT A Wf ds t) (n : NeT ds t)
    (hn : neT ds t = true) (h : ∀ d v, (d, v) ∈ vals ds t → v = A.dom d) : FullD A ds t := by
  intro p hp
  induction ds with
  | nil => trivial
  | cons d ds ih =>
    obtain ⟨e, he⟩ := List.exists_mem_of_ne_nil _ (neT_iff_ne.1 hn)
    refine ⟨e, he, ?_, ?_⟩
    · rw [h d e.1 (mem_vals_cons.2 ⟨e, he, Or.inl ⟨rfl, rfl⟩⟩)]; exact hp d
    · exact ih e.2.2 (w.1 e he).2.2 (n e he).2 (n e he).1
        (fun d' v hv => h d' v (mem_vals_cons.2 ⟨e, he, Or.inr hv⟩))

structure RemoveSpec (A : VAlg D V X) (Wf : D → V → Prop) (as keep : List D) (t : Tree V as) (r : Tree V keep) : Prop where
  den : ∀ p, InDom A p → (Den A keep r p ↔ Den A as t p)
  wf : WfT A Wf keep r
  ne : NeT keep r
  neT : neT keep r = true
  one : OneFull A as t → OneFull A keep r
  can : CanT A as t → CanT A keep r
  vals : ∀ d v, d ∈ keep → (d, v) ∈ vals as t → (d, v) ∈ vals keep r

theorem removeT_spec (L : A.Lawful Wf) {as keep : List D} (hnd : as.Nodup) (hsub : keep.Sublist as) (t : Tree V as)
    (w : WfT A Wf as t) (n : NeT as t) (hn : neT as t = true)
    (hdrop : ∀ d v, (d, v) ∈ vals as t → d ∉ keep → v = A.dom d) :
    RemoveSpec A Wf as keep t (removeT A as keep t) := by
  induction as generalizing keep with
  | nil =>
    have := List.sublist_nil.1 hsub
    subst this
    exact ⟨fun _ _ => Iff.rfl, trivial, trivial, rfl, fun _ => trivial, fun _ => trivial, fun _ _ h => by simp at h⟩
  | cons a as ih =>
    have hnd' := List.nodup_cons.1 hnd
    cases keep with
    | nil =>
      have hf := allDom_full L t w n hn (fun d v h => hdrop d v h (by simp))
      exact ⟨fun p hp => ⟨fun _ => hf p hp, fun _ => trivial⟩, trivial, trivial, rfl, fun _ => trivial,
        fun _ => trivial, fun _ _ h => by simp at h⟩
    | cons k ks =>
      by_cases h : a = k
      · subst h
        have hsub' := List.cons_sublist_cons.1 hsub
        have hks : a ∉ ks := fun hk => hnd'.1 (hsub'.subset hk)
        have sp : ∀ e ∈ layers t, RemoveSpec A Wf as ks e.2.2 (removeT A as ks e.2.2) := by
          intro e he
          refine ih hnd'.2 hsub' e.2.2 (w.1 e he).2.2 (n e he).2 (n e he).1 ?_
          intro d v hv hd
          refine hdrop d v (mem_vals_cons.2 ⟨e, he, Or.inr hv⟩) ?_
          intro hd'
          rcases List.mem_cons.1 hd' with rfl | hd'
          · exact hnd'.1 (vals_dims hv)
          · exact hd hd'
        have hwf : WfT A Wf (a :: ks) (removeT A (a :: as) (a :: ks) t) := by
          rw [removeT_eq_cons]
          refine ⟨?_, ?_⟩
          · intro e he
            obtain ⟨e0, he0, rfl⟩ := List.mem_map.1 he
            exact ⟨(w.1 e0 he0).1, (w.1 e0 he0).2.1, (sp e0 he0).wf⟩
          · change List.Pairwise _ (List.map _ _)
            rw [List.pairwise_map]
            exact w.2
        have hne : NeT (a :: ks) (removeT A (a :: as) (a :: ks) t) := by
          rw [removeT_eq_cons]
          intro e he
          obtain ⟨e0, he0, rfl⟩ := List.mem_map.1 he
          exact ⟨(sp e0 he0).neT, (sp e0 he0).ne⟩
        have hfull : ∀ e ∈ layers t, FullD A ks (removeT A as ks e.2.2) ↔ FullD A as e.2.2 := by
          intro e he
          constructor
          · intro hf p hp; exact ((sp e he).den p hp).1 (hf p hp)
          · intro hf p hp; exact ((sp e he).den p hp).2 (hf p hp)
        refine ⟨?_, hwf, hne, ?_, ?_, ?_, ?_⟩
        · intro p hp
          rw [removeT_eq_cons]
          constructor
          · rintro ⟨e, he, hm, hd⟩
            obtain ⟨e0, he0, rfl⟩ := List.mem_map.1 he
            exact ⟨e0, he0, hm, ((sp e0 he0).den p hp).1 hd⟩
          · rintro ⟨e0, he0, hm, hd⟩
            exact ⟨_, List.mem_map.2 ⟨e0, he0, rfl⟩, hm, ((sp e0 he0).den p hp).2 hd⟩
        · rw [removeT_eq_cons]
          have := neT_iff_ne.1 hn
          refine neT_iff_ne.2 ?_
          change List.map _ _ ≠ []
          simpa using this
        · intro o
          rw [removeT_eq_cons]
          refine ⟨?_, ?_⟩
          · intro e he
            obtain ⟨e0, he0, rfl⟩ := List.mem_map.1 he
            refine ⟨(sp e0 he0).one (o.1 e0 he0).1, fun ht => ?_⟩
            rw [hfull e0 he0]
            exact (o.1 e0 he0).2 ht
          · change List.Pairwise _ (List.map _ _)
            rw [List.pairwise_map]
            refine List.Pairwise.imp_of_mem ?_ o.2
            intro e1 e2 h1 h2 h12
            rw [hfull e1 h1, hfull e2 h2]
            exact h12
        · intro c
          refine canT_of_sem L hwf ?_ ?_
          · rw [removeT_eq_cons]
            intro e he
            obtain ⟨e0, he0, rfl⟩ := List.mem_map.1 he
            exact ⟨(sp e0 he0).can (c.1 e0 he0).1, (c.1 e0 he0).2⟩
          · rw [removeT_eq_cons]
            change List.Pairwise _ (List.map _ _)
            rw [List.pairwise_map]
            refine List.Pairwise.imp_of_mem ?_ (c.sem L hnd w n)
            intro e1 e2 h1 h2 h12 hs
            refine h12 (fun p hp => ?_)
            rw [← (sp e1 h1).den p hp, ← (sp e2 h2).den p hp]
            exact hs p hp
        · intro d v hd hv
          rw [removeT_eq_cons]
          obtain ⟨e, he, h⟩ := mem_vals_cons.1 hv
          refine mem_vals_cons.2 ⟨_, List.mem_map.2 ⟨e, he, rfl⟩, ?_⟩
          rcases h with h | h
          · exact Or.inl h
          · refine Or.inr ((sp e he).vals d v ?_ h)
            rcases List.mem_cons.1 hd with rfl | hd
            · exact absurd (vals_dims h) hnd'.1
            · exact hd
      · have hsub' : (k :: ks).Sublist as := List.Sublist.of_cons_of_ne (Ne.symm h) hsub
        have hak : a ∉ k :: ks := fun hk => hnd'.1 (hsub'.subset hk)
        rw [removeT_ne_cons h]
        have hdom : ∀ e ∈ layers t, e.1 = A.dom a := fun e he =>
          hdrop a e.1 (mem_vals_cons.2 ⟨e, he, Or.inl ⟨rfl, rfl⟩⟩) hak
        obtain ⟨e, hl⟩ := single_of_dom L (l := layers t) w (neT_iff_ne.1 hn) hdom
        have he : e ∈ layers t := by rw [hl]; simp
        rw [hl, List.map_singleton, joinSubs_single L _ (w.1 e he).2.2]
        have sp := ih hnd'.2 hsub' e.2.2 (w.1 e he).2.2 (n e he).2 (n e he).1
          (fun d v hv hd => hdrop d v (mem_vals_cons.2 ⟨e, he, Or.inr hv⟩) hd)
        refine ⟨?_, sp.wf, sp.ne, sp.neT, fun o => sp.one (o.1 e he).1, fun c => sp.can (c.1 e he).1, ?_⟩
        · intro p hp
          rw [sp.den p hp]
          constructor
          · intro hd
            exact ⟨e, he, by rw [hdom e he]; exact hp a, hd⟩
          · rintro ⟨e', he', hm, hd⟩
            rw [hl] at he'
            have := List.mem_singleton.1 he'
            subst this
            exact hd
        · intro d v hd hv
          obtain ⟨e', he', hh⟩ := mem_vals_cons.1 hv
          rw [hl] at he'
          have := List.mem_singleton.1 he'
          subst this
          rcases hh with ⟨rfl, _⟩ | hh
          · exact absurd hd hak
          · exact sp.vals d v hd hh

/-! ### Membership and cubes -/

theorem containsT_iff {ds : List D} (t : Tree V ds) (w : WfT A Wf ds t) (p : D → X) :
    containsT A ds t p = true ↔ Den A ds t p := by
  induction ds with
  | nil => simp [containsT, Den]
  | cons d ds ih =>
    simp only [containsT]
    cases h : List.find? (fun (e : Entry V ds) => A.mem (p d) e.1) t with
    | none =>
      simp only [Bool.false_eq_true, false_iff]
      rintro ⟨e, he, hm, _⟩
      have := List.find?_eq_none.1 h e he
      exact this hm
    | some e =>
      have he := List.mem_of_find?_eq_some h
      have hm := List.find?_some h
      simp only []
      rw [ih e.2.2 (w.1 e he).2.2]
      constructor
      · intro hd; exact ⟨e, he, hm, hd⟩
      · rintro ⟨e', he', hm', hd⟩
        have : e' = e := WfL.uniq (A := A) w he' he hm' hm
        subst this; exact hd

/-- A cube (values at the active dimensions) contains a point. -/
def InCube (A : VAlg D V X) (ds : List D) (c : List V) (p : D → X) : Prop :=
  List.Forall₂ (fun d v => A.mem (p d) v = true) ds c

theorem cubesT_cons {d : D} {ds : List D} (t : Tree V (d :: ds)) :
    cubesT (d :: ds) t = (layers t).flatMap (fun (e : Entry V ds) => (cubesT ds e.2.2).map (e.1 :: ·)) := rfl

theorem cubesT_cover {ds : List D} (t : Tree V ds) (p : D → X) :
    (∃ c ∈ cubesT ds t, InCube A ds c p) ↔ Den A ds t p := by
  induction ds with
  | nil => simp [cubesT, Den, InCube]
  | cons d ds ih =>
    simp only [cubesT_cons, List.mem_flatMap, List.mem_map]
    constructor
    · rintro ⟨c, ⟨e, he, c', hc', rfl⟩, hin⟩
      obtain ⟨h1, h2⟩ := List.forall₂_cons.1 hin
      exact ⟨e, he, h1, (ih e.2.2).1 ⟨c', hc', h2⟩⟩
    · rintro ⟨e, he, hm, hd⟩
      obtain ⟨c', hc', h2⟩ := (ih e.2.2).2 hd
      exact ⟨e.1 :: c', ⟨e, he, c', hc', rfl⟩, List.forall₂_cons.2 ⟨hm, h2⟩⟩

theorem cubesT_disjoint {ds : List D} (t : Tree V ds) (w : WfT A Wf ds t) :
    (cubesT ds t).Pairwise (fun c1 c2 => ∀ p, ¬ (InCube A ds c1 p ∧ InCube A ds c2 p)) := by
  induction ds with
  | nil => simp [cubesT]
  | cons d ds ih =>
    rw [cubesT_cons, List.pairwise_flatMap]
    constructor
    · intro e he
      rw [List.pairwise_map]
      refine (ih e.2.2 (w.1 e he).2.2).imp ?_
      intro c1 c2 h p hp
      exact h p ⟨(List.forall₂_cons.1 hp.1).2, (List.forall₂_cons.1 hp.2).2⟩
    · refine w.2.imp ?_
      intro e1 e2 h c1 hc1 c2 hc2 p hp
      obtain ⟨c1', _, rfl⟩ := List.mem_map.1 hc1
      obtain ⟨c2', _, rfl⟩ := List.mem_map.1 hc2
      exact h (p d) ⟨(List.forall₂_cons.1 hp.1).1, (List.forall₂_cons.1 hp.2).1⟩

theorem cubesT_values {ds : List D} (t : Tree V ds) (w : WfT A Wf ds t) (c : List V) (hc : c ∈ cubesT ds t) :
    List.Forall₂ (fun d v => Wf d v ∧ A.truthy v = true) ds c := by
  induction ds generalizing c with
  | nil => simp [cubesT] at hc; subst hc; exact List.Forall₂.nil
  | cons d ds ih =>
    simp only [cubesT_cons, List.mem_flatMap, List.mem_map] at hc
    obtain ⟨e, he, c', hc', rfl⟩ := hc
    exact List.forall₂_cons.2 ⟨⟨(w.1 e he).1, (w.1 e he).2.1⟩, ih e.2.2 (w.1 e he).2.2 c' hc'⟩

theorem cubesT_ne {ds : List D} (t : Tree V ds) (n : NeT ds t) (hn : neT ds t = true) : cubesT ds t ≠ [] := by
  induction ds with
  | nil => simp [cubesT]
  | cons d ds ih =>
    obtain ⟨e, he⟩ := List.exists_mem_of_ne_nil _ (neT_iff_ne.1 hn)
    obtain ⟨c, hc⟩ := List.exists_mem_of_ne_nil _ (ih e.2.2 (n e he).2 (n e he).1)
    refine List.ne_nil_of_mem (a := e.1 :: c) ?_
    simp only [cubesT_cons, List.mem_flatMap, List.mem_map]
    exact ⟨e, he, c, hc, rfl⟩

/-! ### Which dimensions matter -/

/-- A dimension at which some layer key is not the whole domain matters for membership. -/
theorem depends (L : A.Lawful Wf) {ds : List D} (hnd : ds.Nodup) (t : Tree V ds) (w : WfT A Wf ds t) (n : NeT ds t)
    (c : CanT A ds t) (d : D) (v : V) (hv : (d, v) ∈ vals ds t) (hne : v ≠ A.dom d) :
    ∃ p q, InDom A p ∧ InDom A q ∧ (∀ d', d' ≠ d → p d' = q d') ∧ Den A ds t p ∧ ¬ Den A ds t q := by
  induction ds with
  | nil => simp [vals] at hv
  | cons d0 ds ih =>
    have hnd' := List.nodup_cons.1 hnd
    obtain ⟨p0, hp0⟩ := exists_inDom L
    obtain ⟨e, he, ⟨rfl, rfl⟩ | hv⟩ := mem_vals_cons.1 hv
    · obtain ⟨y, hy⟩ := (L.truthy_iff (w.1 e he).1).1 (w.1 e he).2.1
      have hyd := L.sub_dom (w.1 e he).1 y hy
      have : ∃ x, A.mem x (A.dom d) = true ∧ A.mem x e.1 = false := by
        by_contra hc
        refine hne (L.ext (w.1 e he).1 (L.wf_dom d) (fun x => ?_))
        rw [Bool.eq_iff_iff]
        refine ⟨L.sub_dom (w.1 e he).1 x, fun hx => ?_⟩
        by_contra h
        exact hc ⟨x, hx, by simpa using h⟩
      obtain ⟨x, hxd, hxe⟩ := this
      have agree : ∀ (p : D → X) (a b : X), ∀ d', d' ≠ d → upd p d a d' = upd p d b d' := by
        intro p a b d' h; simp [upd, h]
      rcases key_cases (A := A) (layers t) x with ⟨e', he', hm'⟩ | hno
      · have hee : e ≠ e' := by rintro rfl; rw [hxe] at hm'; exact absurd hm' (by simp)
        have hdiff : ¬ SameD A ds e.2.2 e'.2.2 := by
          have hp := c.sem L hnd w n
          intro hs
          have : ∀ (l : List (Entry V ds)), l.Pairwise (fun (e1 e2 : Entry V ds) => ¬ SameD A ds e1.2.2 e2.2.2) →
              e ∈ l → e' ∈ l → False := by
            intro l
            induction l with
            | nil => intro _ ha; simp at ha
            | cons z l ihl =>
              intro hp ha hb
              obtain ⟨h3, h4⟩ := List.pairwise_cons.1 hp
              rcases List.mem_cons.1 ha with rfl | ha' <;> rcases List.mem_cons.1 hb with rfl | hb'
              · exact hee rfl
              · exact h3 e' hb' hs
              · exact h3 e ha' (fun p hp => (hs p hp).symm)
              · exact ihl h4 ha' hb'
          exact this _ hp he he'
        have : ∃ p, InDom A p ∧ ((Den A ds e.2.2 p ∧ ¬ Den A ds e'.2.2 p) ∨ (Den A ds e'.2.2 p ∧ ¬ Den A ds e.2.2 p)) := by
          by_contra hc
          refine hdiff (fun p hp => ?_)
          by_contra hcc
          refine hc ⟨p, hp, ?_⟩
          tauto
        obtain ⟨p, hp, ⟨h1, h2⟩ | ⟨h1, h2⟩⟩ := this
        · refine ⟨upd p d y, upd p d x, upd_inDom hp hyd, upd_inDom hp hxd, agree p y x, ?_, ?_⟩
          · exact (den_section hnd'.1 w he hy p).2 h1
          · rw [den_section hnd'.1 w he' hm' p]; exact h2
        · refine ⟨upd p d x, upd p d y, upd_inDom hp hxd, upd_inDom hp hyd, agree p x y, ?_, ?_⟩
          · exact (den_section hnd'.1 w he' hm' p).2 h1
          · rw [den_section hnd'.1 w he hy p]; exact h2
      · obtain ⟨p, hp, _, hden⟩ := exists_den L hnd'.2 e.2.2 (w.1 e he).2.2 (n e he).2 (n e he).1 p0 hp0
        exact ⟨upd p d y, upd p d x, upd_inDom hp hyd, upd_inDom hp hxd, agree p y x,
          (den_section hnd'.1 w he hy p).2 hden, den_section_none hno p⟩
    · obtain ⟨p, q, hp, hq, hpq, h1, h2⟩ := ih hnd'.2 e.2.2 (w.1 e he).2.2 (n e he).2 (c.1 e he).1 hv
      obtain ⟨y, hy⟩ := (L.truthy_iff (w.1 e he).1).1 (w.1 e he).2.1
      have hyd := L.sub_dom (w.1 e he).1 y hy
      refine ⟨upd p d0 y, upd q d0 y, upd_inDom hp hyd, upd_inDom hq hyd, ?_, ?_, ?_⟩
      · intro d' hd'
        by_cases h : d' = d0
        · simp [upd, h]
        · simp [upd, h, hpq d' hd']
      · exact (den_section hnd'.1 w he hy p).2 h1
      · rw [den_section hnd'.1 w he hy q]; exact h2

end
end Verif
