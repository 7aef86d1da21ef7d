import Verif.ConnNet
/-!
Connection sets and the change of the domains of the dimensions (`DimensionsManager.set_domain`,
nca/CoreDS/DimensionsManager.py 60-75; called for every query, NetworkConfigQuery.py 84-87).

The values of a set stay as they are when the domain of a dimension changes, but the operations on the set now
compare them with another domain.  A set in canonical form whose values fit the new domain is, after
`reduce_active_dimensions`, again a legal set, of the same connections.
-/
namespace Verif

section
variable {D V X : Type} [DecidableEq D]

/-- The same values with other domains. -/
def VAlg.withDom (A : VAlg D V X) (dom : D → V) : VAlg D V X := { A with dom := dom }

variable {A : VAlg D V X} {Wf Wf' : D → V → Prop} {dom : D → V}

omit [DecidableEq D] in
theorem withDom_den {ds : List D} {t : Tree V ds} {p : D → X} : Den (A.withDom dom) ds t p ↔ Den A ds t p := by
  induction ds with
  | nil => exact Iff.rfl
  | cons d ds ih =>
    change (∃ e ∈ layers t, A.mem (p d) e.1 = true ∧ Den (A.withDom dom) ds e.2.2 p) ↔ _
    simp only [ih]
    exact Iff.rfl

omit [DecidableEq D] in
theorem withDom_subEq {ds : List D} (s1 s2 : Bool × Tree V ds) : subEq (A.withDom dom) ds s1 s2 = subEq A ds s1 s2 := by
  induction ds with
  | nil => rfl
  | cons d ds ih =>
    obtain ⟨c1, t1⟩ := s1
    obtain ⟨c2, t2⟩ := s2
    simp only [subEq, ih]
    rfl

omit [DecidableEq D] in
theorem withDom_canT {ds : List D} {t : Tree V ds} : CanT (A.withDom dom) ds t ↔ CanT A ds t := by
  induction ds with
  | nil => exact Iff.rfl
  | cons d ds ih =>
    change ((∀ e ∈ layers t, CanT (A.withDom dom) ds e.2.2 ∧ e.2.1 = false) ∧ _) ↔ _
    simp only [ih, withDom_subEq]
    exact Iff.rfl

theorem withDom_wfT {ds : List D} {t : Tree V ds} (w : WfT A Wf ds t) (hv : ∀ d v, (d, v) ∈ vals ds t → Wf' d v) :
    WfT (A.withDom dom) Wf' ds t := by
  induction ds with
  | nil => trivial
  | cons d ds ih =>
    refine ⟨fun e he => ⟨hv _ _ (mem_vals_cons.2 ⟨e, he, Or.inl ⟨rfl, rfl⟩⟩), (w.1 e he).2.1, ih (w.1 e he).2.2 (fun d v h => ?_)⟩, w.2⟩
    exact hv _ _ (mem_vals_cons.2 ⟨e, he, Or.inr h⟩)

theorem wfT_vals {ds : List D} {t : Tree V ds} (w : WfT A Wf ds t) {d : D} {v : V} (h : (d, v) ∈ vals ds t) : Wf d v := by
  induction ds with
  | nil => simp [vals] at h
  | cons a ds ih =>
    obtain ⟨e, he, ⟨rfl, rfl⟩ | h⟩ := mem_vals_cons.1 h
    · exact (w.1 e he).1
    · exact ih (w.1 e he).2.2 h

/-- The canonical form leaves no room for two full layers. -/
theorem oneFull_of_canT (L : A.Lawful Wf) {ds : List D} (hnd : ds.Nodup) {t : Tree V ds} (w : WfT A Wf ds t) (n : NeT ds t)
    (c : CanT A ds t) : OneFull A ds t := by
  induction ds with
  | nil => trivial
  | cons d ds ih =>
    refine ⟨fun e he => ⟨ih (List.nodup_cons.1 hnd).2 (w.1 e he).2.2 (n e he).2 (c.1 e he).1, fun h => ?_⟩, ?_⟩
    · rw [(c.1 e he).2] at h; cases h
    · refine List.Pairwise.imp ?_ (CanT.sem L hnd w n c)
      rintro a b h ⟨f1, f2⟩
      exact h (fun p hp => ⟨fun _ => f2 p hp, fun _ => f1 p hp⟩)

/-- Every element of a value of a set is the coordinate of one of its points. -/
theorem exists_den_val (L : A.Lawful Wf) {ds : List D} (hnd : ds.Nodup) {t : Tree V ds} (w : WfT A Wf ds t) (n : NeT ds t)
    {d : D} {v : V} (hv : (d, v) ∈ vals ds t) {x : X} (hx : A.mem x v = true) (p0 : D → X) (hp0 : InDom A p0) :
    ∃ p, InDom A p ∧ p d = x ∧ (∀ d' ∉ ds, p d' = p0 d') ∧ Den A ds t p := by
  induction ds generalizing p0 with
  | nil => simp [vals] at hv
  | cons a ds ih =>
    obtain ⟨e, he, h⟩ := mem_vals_cons.1 hv
    have hnd' := List.nodup_cons.1 hnd
    have we := w.1 e he
    rcases h with ⟨rfl, rfl⟩ | h
    · obtain ⟨p, h1, h2, h3⟩ := exists_den L hnd'.2 e.2.2 we.2.2 (n e he).2 (n e he).1 (upd p0 d x) (upd_inDom hp0 (L.sub_dom we.1 x hx))
      have hd : p d = x := by rw [h2 d hnd'.1]; simp [upd]
      refine ⟨p, h1, hd, fun d' hd' => ?_, e, he, ?_, h3⟩
      · rw [List.mem_cons, not_or] at hd'
        rw [h2 d' hd'.2]; simp [upd, hd'.1]
      · rw [hd]; exact hx
    · obtain ⟨y, hy⟩ := (L.truthy_iff we.1).1 we.2.1
      obtain ⟨p, h1, h2, h3, h4⟩ := ih hnd'.2 we.2.2 (n e he).2 h (upd p0 a y) (upd_inDom hp0 (L.sub_dom we.1 y hy))
      have hd : p a = y := by rw [h3 a hnd'.1]; simp [upd]
      refine ⟨p, h1, h2, fun d' hd' => ?_, e, he, ?_, h4⟩
      · rw [List.mem_cons, not_or] at hd'
        rw [h3 d' hd'.2]; simp [upd, hd'.1]
      · rw [hd]; exact hy

namespace HC

/-- A set in canonical form whose values fit the new domains: reduced, it is a legal set over these domains, with the
same points. -/
theorem rebase (L' : (A.withDom dom).Lawful Wf') {all : List D} (hnd : all.Nodup) {h : HC D V} (i : Inv A Wf all h) (c : Plain A h)
    (hv : ∀ d v, (d, v) ∈ vals h.act h.tree → Wf' d v) :
    Inv (A.withDom dom) Wf' all (reduce (A.withDom dom) all h) ∧
    (∀ p, InDom (A.withDom dom) p → ((reduce (A.withDom dom) all h).Pt (A.withDom dom) p ↔ h.Pt A p)) ∧
    Plain (A.withDom dom) (reduce (A.withDom dom) all h) := by
  have w := withDom_wfT (dom := dom) i.wf hv
  have hc : CanT (A.withDom dom) h.act h.tree := withDom_canT.2 c.can
  have o := oneFull_of_canT L' (hnd.sublist i.sub) w i.ne hc
  obtain ⟨r1, r2, _⟩ := reduce_spec L' hnd h i.sub w i.ne o
  obtain ⟨_, _, r3⟩ := reduce_spec L' hnd ⟨false, h.act, h.tree⟩ i.sub w i.ne o
  refine ⟨r1, fun p hp => (r2 p hp).trans withDom_den, ?_⟩
  have := (reduce_recls (A.withDom dom) all h.cls h.act h.tree).2
  have e : reduce (A.withDom dom) all h = _ := this
  rw [e]
  exact (r3 rfl hc).of_false

/-- A reduced set has points exactly if the set has one in the new domains. -/
theorem reduce_falsy (A' : VAlg D V X) {all : List D} {h : HC D V} (hf : h.truthy = false) : reduce A' all h = h := by
  unfold reduce; rw [if_pos (by simp [hf])]

theorem expand_recls (h : HC D V) (n : List D) (he : h.act.head? = n.head?) (hn : n ≠ []) :
    expand A h.cls h.act n h.tree = expand A false h.act n h.tree := by
  obtain ⟨cl, act, t⟩ := h
  cases n with
  | nil => exact absurd rfl hn
  | cons x n =>
    cases act with
    | nil => cases he
    | cons y act =>
      cases he
      dsimp only
      rw [expand_eq_cons, expand_eq_cons]

/-- The union of sets in canonical form whose first active dimension is the first of all. -/
theorem or_plain (L : A.Lawful Wf) {all : List D} (hnd : all.Nodup) (hall : all ≠ []) {a b : HC D V}
    (ia : Inv A Wf all a) (ib : Inv A Wf all b) (ca : Plain A a) (cb : Plain A b)
    (ha : a.truthy = true → a.act.head? = all.head?) (hb : b.truthy = true → b.act.head? = all.head?) :
    Plain A (or A all a b) := by
  have sp := (or_spec L hnd (a := ⟨false, a.act, a.tree⟩) (b := ⟨false, b.act, b.tree⟩) (ia.recls false) (ib.recls false)).2.2 ca cb
  by_cases h1 : (b.isAll || a.isAll) = true
  · have e : or A all a b = full a.cls := by unfold or; rw [if_pos h1]
    rw [e]; exact ⟨rfl, full_can.can, full_can.red⟩
  by_cases h2 : (!b.truthy) = true
  · have e : or A all a b = a := by unfold or; rw [if_neg h1, if_pos h2]
    rw [e]; exact ca
  by_cases h3 : (!a.truthy) = true
  · have e : or A all a b = ⟨a.cls, b.act, b.tree⟩ := by unfold or; rw [if_neg h1, if_neg h2, if_pos h3]
    rw [e]; exact cb
  have hta : a.truthy = true := by simpa using h3
  have htb : b.truthy = true := by simpa using h2
  have hcom : (common all a.act b.act).head? = all.head? := by
    cases all with
    | nil => exact absurd rfl hall
    | cons x all =>
      have : x ∈ a.act := List.mem_of_mem_head? (by rw [ha hta]; rfl)
      unfold common
      rw [List.filter_cons_of_pos (by simp [this])]
      rfl
  have hne : common all a.act b.act ≠ [] := by
    intro h
    rw [h] at hcom
    cases all with
    | nil => exact absurd rfl hall
    | cons x all => cases hcom
  have e : or A all a b = onCommon A all (orT A) a b := by unfold or; rw [if_neg h1, if_neg h2, if_neg h3]
  have e' : or A all ⟨false, a.act, a.tree⟩ ⟨false, b.act, b.tree⟩ =
      onCommon A all (orT A) ⟨false, a.act, a.tree⟩ ⟨false, b.act, b.tree⟩ := by
    unfold or
    rw [if_neg (show ¬ ((⟨false, b.act, b.tree⟩ : HC D V).isAll || (⟨false, a.act, a.tree⟩ : HC D V).isAll) = true from h1),
      if_neg (show ¬ (!(⟨false, b.act, b.tree⟩ : HC D V).truthy) = true from h2),
      if_neg (show ¬ (!(⟨false, a.act, a.tree⟩ : HC D V).truthy) = true from h3)]
  rw [e'] at sp
  rw [e]
  unfold onCommon at sp ⊢
  dsimp only at sp ⊢
  rw [expand_recls a _ ((ha hta).trans hcom.symm) hne, expand_recls b _ ((hb htb).trans hcom.symm) hne, (reduce_recls A all a.cls _ _).2]
  exact sp.of_false

/-- The same for the difference; also an empty first set must have the first dimension. -/
theorem sub_plain (L : A.Lawful Wf) {all : List D} (hnd : all.Nodup) (hall : all ≠ []) {a b : HC D V}
    (ia : Inv A Wf all a) (ib : Inv A Wf all b) (ca : Plain A a) (cb : Plain A b)
    (ha : a.act.head? = all.head?) (hb : b.truthy = true → b.act.head? = all.head?) : Plain A (sub A all a b) := by
  have hcom : (common all a.act b.act).head? = all.head? := by
    cases all with
    | nil => exact absurd rfl hall
    | cons x all =>
      have : x ∈ a.act := List.mem_of_mem_head? (by rw [ha]; rfl)
      unfold common
      rw [List.filter_cons_of_pos (by simp [this])]
      rfl
  have hne : common all a.act b.act ≠ [] := by
    intro h
    rw [h] at hcom
    cases all with
    | nil => exact absurd rfl hall
    | cons x all => cases hcom
  have sp := (sub_spec L hnd hall (a := ⟨false, a.act, a.tree⟩) (b := ⟨false, b.act, b.tree⟩) (ia.recls false) (ib.recls false)
    (Or.inr (hcom.trans ha.symm))).2.2 ca cb
  have h1 : ¬ b.isAll = true := by
    intro h
    obtain ⟨cl, act, t⟩ := b
    simp only [isAll, List.isEmpty_iff] at h
    subst h
    have := hb rfl
    cases all with
    | nil => exact hall rfl
    | cons x all => cases this
  by_cases h2 : (!b.truthy) = true
  · have e : sub A all a b = a := by unfold sub; rw [if_neg h1, if_pos h2]
    rw [e]; exact ca
  have htb : b.truthy = true := by simpa using h2
  have e : sub A all a b = onCommon A all (subT A) a b := by unfold sub; rw [if_neg h1, if_neg h2]
  have e' : sub A all ⟨false, a.act, a.tree⟩ ⟨false, b.act, b.tree⟩ =
      onCommon A all (subT A) ⟨false, a.act, a.tree⟩ ⟨false, b.act, b.tree⟩ := by
    unfold sub
    rw [if_neg (show ¬ (⟨false, b.act, b.tree⟩ : HC D V).isAll = true from h1),
      if_neg (show ¬ (!(⟨false, b.act, b.tree⟩ : HC D V).truthy) = true from h2)]
  rw [e'] at sp
  rw [e]
  unfold onCommon at sp ⊢
  dsimp only at sp ⊢
  rw [expand_recls a _ (ha.trans hcom.symm) hne, expand_recls b _ ((hb htb).trans hcom.symm) hne, (reduce_recls A all a.cls _ _).2]
  exact sp.of_false

/-- If some element of the domain of a dimension occurs in no point of a non-empty set, the dimension is active. -/
theorem active_of_misses (L : A.Lawful Wf) {all : List D} (hnd : all.Nodup) {h : HC D V} (i : Inv A Wf all h) {d : D} {x : X}
    (hx : A.mem x (A.dom d) = true) (hm : ∀ p, InDom A p → p d = x → ¬ h.Pt A p) (ht : h.truthy = true) : d ∈ h.act := by
  by_contra hc
  obtain ⟨p, hp, hd⟩ := (truthy_iff L hnd i).1 ht
  refine hm (upd p d x) (upd_inDom hp hx) (by simp [upd]) ?_
  exact (den_upd h.tree p x hc).2 hd

theorem head_of_active {all : List D} (hnd : all.Nodup) {d : D} (hd : all.head? = some d) {h : HC D V} (hs : h.act.Sublist all)
    (ha : d ∈ h.act) : h.act.head? = all.head? := by
  cases all with
  | nil => cases hd
  | cons a all =>
    cases hd
    obtain ⟨as', e⟩ := head_of_mem hnd hs ha
    rw [e.1]; rfl

end HC

/-- A set of a cube is in canonical form. -/
theorem hcOfCube_plain (L : A.Lawful Wf) {all : List D} (hnd : all.Nodup) (hall : all ≠ []) (c : D → V) (hw : ∀ d ∈ all, Wf d (c d)) :
    HC.Plain A (hcOfCube A all c) := by
  have hempty : HC.Plain A (HC.empty all true : HC D V) := by
    have := (HC.empty_can (A := A) all hall)
    exact ⟨rfl, this.can, this.red⟩
  unfold hcOfCube
  split
  · exact hempty
  · dsimp only
    split
    · exact ⟨rfl, HC.full_can.can, HC.full_can.red⟩
    · unfold HC.addCube
      split
      · exact hempty
      · have f := (HC.fromCube_spec L hnd hall c (all.filter (fun d => !@decide (c d = A.dom d) (A.decEq _ _))) List.filter_sublist
          (fun d hd => hw d (List.mem_filter.1 hd).1)).2.2
        unfold HC.or
        split
        · exact ⟨rfl, HC.full_can.can, HC.full_can.red⟩
        · split
          · exact hempty
          · rw [if_pos (by rw [(HC.empty_inv (V := V) L all hall true).2]; rfl)]
            exact ⟨rfl, f.can, f.red⟩

end
end Verif
