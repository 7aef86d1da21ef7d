import Verif.CubeProofs4
/-! Helper lemmas for hyper-cube sets, part 5: the operations on objects. -/
namespace Verif

section
variable {D V X : Type} [DecidableEq D] {A : VAlg D V X} {Wf : D → V → Prop}

namespace HC

/-- The invariant of objects of either class. -/
structure Inv (A : VAlg D V X) (Wf : D → V → Prop) (all : List D) (h : HC D V) : Prop where
  sub : h.act.Sublist all
  wf : WfT A Wf h.act h.tree
  ne : NeT h.act h.tree
  one : OneFull A h.act h.tree
  notFull : h.act ≠ [] → ¬ FullD A h.act h.tree

/-- The additional invariant of objects of the plain class with plain sub-objects. -/
structure Can (A : VAlg D V X) (h : HC D V) : Prop where
  cls : h.cls = false
  can : CanT A h.act h.tree
  red : h.truthy = true → ∀ d ∈ h.act, ∃ v, (d, v) ∈ vals h.act h.tree ∧ v ≠ A.dom d

theorem sublist_filter_eq {l L : List D} (h : l.Sublist L) (hnd : L.Nodup) : L.filter (fun d => decide (d ∈ l)) = l := by
  induction h with
  | slnil => rfl
  | @cons l L a h ih =>
    have hnd' := List.nodup_cons.1 hnd
    have : a ∉ l := fun ha => hnd'.1 (h.subset ha)
    rw [List.filter_cons_of_neg (by simpa using this)]
    exact ih hnd'.2
  | @cons_cons l L a h ih =>
    have hnd' := List.nodup_cons.1 hnd
    rw [List.filter_cons_of_pos (by simp)]
    congr 1
    conv_rhs => rw [← ih hnd'.2]
    apply List.filter_congr
    intro x hx
    have : x ≠ a := fun hxa => hnd'.1 (hxa ▸ hx)
    simp [this]

theorem truthy_iff (L : A.Lawful Wf) {all : List D} (hnd : all.Nodup) {h : HC D V} (i : Inv A Wf all h) :
    h.truthy = true ↔ ∃ p, InDom A p ∧ h.Pt A p := by
  constructor
  · intro ht
    obtain ⟨p0, hp0⟩ := exists_inDom L
    obtain ⟨p, hp, _, hd⟩ := exists_den L (hnd.sublist i.sub) h.tree i.wf i.ne ht p0 hp0
    exact ⟨p, hp, hd⟩
  · rintro ⟨p, _, hd⟩
    by_contra hc
    exact neT_false_den (by simpa [truthy] using hc) p hd

omit [DecidableEq D] in
theorem isAll_pt {h : HC D V} (ha : h.isAll = true) (p : D → X) : h.Pt A p := by
  obtain ⟨c, act, tree⟩ := h
  simp only [isAll, List.isEmpty_iff] at ha
  subst ha
  trivial

theorem isAll_iff {all : List D} {h : HC D V} (i : Inv A Wf all h) :
    h.isAll = true ↔ ∀ p, InDom A p → h.Pt A p := by
  constructor
  · intro ha p _; exact isAll_pt ha p
  · intro hf
    unfold isAll
    rw [List.isEmpty_iff]
    by_contra hc
    exact i.notFull hc hf

omit [DecidableEq D] in
theorem falsy_pt {h : HC D V} (ha : h.truthy = false) (p : D → X) : ¬ h.Pt A p := neT_false_den ha p

omit [DecidableEq D] in
theorem notFull_of_falsy (L : A.Lawful Wf) {h : HC D V} (ha : h.truthy = false) : ¬ FullD A h.act h.tree := by
  intro hf
  obtain ⟨p, hp⟩ := exists_inDom L
  exact falsy_pt ha p (hf p hp)

theorem empty_inv (L : A.Lawful Wf) (all : List D) (hall : all ≠ []) (cls : Bool) :
    Inv A Wf all (empty all cls : HC D V) ∧ (empty all cls : HC D V).truthy = false := by
  cases all with
  | nil => exact absurd rfl hall
  | cons d ds =>
    have hf : (empty (d :: ds) cls : HC D V).truthy = false := rfl
    refine ⟨⟨List.Sublist.refl _, ?_, ?_, ?_, fun _ => notFull_of_falsy L hf⟩, hf⟩
    · exact ⟨by intro e he; simp [empty, layers] at he, List.Pairwise.nil⟩
    · intro e he; simp [empty, layers] at he
    · exact ⟨by intro e he; simp [empty, layers] at he, List.Pairwise.nil⟩

theorem empty_can (all : List D) (hall : all ≠ []) : Can A (empty all false : HC D V) := by
  cases all with
  | nil => exact absurd rfl hall
  | cons d ds =>
    refine ⟨rfl, ?_, ?_⟩
    · exact ⟨by intro e he; simp [empty, layers] at he, List.Pairwise.nil⟩
    · intro h; simp [truthy, neT, empty] at h

theorem full_inv (all : List D) (cls : Bool) : Inv A Wf all (full cls : HC D V) :=
  ⟨List.nil_sublist _, trivial, trivial, trivial, fun h => absurd rfl h⟩

theorem full_can : Can A (full false : HC D V) :=
  ⟨rfl, trivial, fun _ d hd => by simp [full] at hd⟩

/-- Changing the class of the top object. -/
theorem Inv.recls {all : List D} {h : HC D V} (i : Inv A Wf all h) (c : Bool) : Inv A Wf all ⟨c, h.act, h.tree⟩ :=
  ⟨i.sub, i.wf, i.ne, i.one, i.notFull⟩

/-! ### Reduction -/

theorem reduce_spec (L : A.Lawful Wf) {all : List D} (hnd : all.Nodup) (h : HC D V)
    (hsub : h.act.Sublist all) (w : WfT A Wf h.act h.tree) (n : NeT h.act h.tree) (o : OneFull A h.act h.tree) :
    Inv A Wf all (reduce A all h) ∧ (∀ p, InDom A p → ((reduce A all h).Pt A p ↔ h.Pt A p)) ∧
    (h.cls = false → CanT A h.act h.tree → Can A (reduce A all h)) := by
  by_cases h0 : (!h.truthy || h.act.isEmpty) = true
  · have hr : reduce A all h = h := by unfold reduce; rw [if_pos h0]
    rw [hr]
    refine ⟨⟨hsub, w, n, o, ?_⟩, fun _ _ => Iff.rfl, fun hc hcan => ⟨hc, hcan, ?_⟩⟩
    · intro hne
      have : h.truthy = false := by
        simp only [Bool.or_eq_true, Bool.not_eq_true', List.isEmpty_iff] at h0
        exact h0.resolve_right hne
      exact notFull_of_falsy L this
    · intro ht d hd
      simp only [Bool.or_eq_true, Bool.not_eq_true', List.isEmpty_iff] at h0
      rcases h0 with h0 | h0
      · rw [h0] at ht; exact absurd ht (by simp)
      · rw [h0] at hd; simp at hd
  · have ht : h.truthy = true := by
      by_contra hc; rw [Bool.not_eq_true] at hc; apply h0; simp [hc]
    have hne : h.act ≠ [] := by
      intro hc; apply h0; simp [hc]
    have hnd' := hnd.sublist hsub
    -- the kept dimensions
    have hkeep : all.filter (fun d => decide (d ∈ h.act) && !reducible A h d) = h.act.filter (fun d => !reducible A h d) := by
      conv_rhs => rw [← sublist_filter_eq hsub hnd]
      rw [List.filter_filter]
      apply List.filter_congr
      intro x _
      rw [Bool.and_comm]
    have hvn : ∀ d ∈ h.act, ∃ v, (d, v) ∈ vals h.act h.tree := fun d hd => vals_nonempty n ht hd
    have hred : ∀ d ∈ h.act, (reducible A h d = true ↔ ∀ v, (d, v) ∈ vals h.act h.tree → v = A.dom d) := by
      intro d hd
      obtain ⟨v0, hv0⟩ := hvn d hd
      simp only [reducible, Bool.and_eq_true, Bool.not_eq_true', List.all_eq_true, List.mem_filter, decide_eq_true_eq]
      constructor
      · rintro ⟨_, h2⟩ v hv
        exact h2 (d, v) ⟨hv, rfl⟩
      · intro h2
        refine ⟨?_, ?_⟩
        · rw [List.isEmpty_eq_false_iff]
          exact List.ne_nil_of_mem (a := (d, v0)) (List.mem_filter.2 ⟨hv0, by simp⟩)
        · rintro ⟨d', v⟩ ⟨hv, rfl⟩
          exact h2 v hv
    have hdrop : ∀ d v, (d, v) ∈ vals h.act h.tree → d ∉ h.act.filter (fun d => !reducible A h d) → v = A.dom d := by
      intro d v hv hd
      have hda := vals_dims hv
      have : reducible A h d = true := by
        by_contra hc
        exact hd (List.mem_filter.2 ⟨hda, by simpa using hc⟩)
      exact (hred d hda).1 this v hv
    have sp := removeT_spec L hnd' List.filter_sublist h.tree w n ht hdrop
    by_cases hk : h.act.filter (fun d => !reducible A h d) = []
    · have hr : reduce A all h = ⟨h.cls, [], ()⟩ := by
        unfold reduce
        rw [if_neg h0]
        simp only [hkeep, hk]
        rfl
      rw [hr]
      refine ⟨⟨List.nil_sublist _, trivial, trivial, trivial, fun h => absurd rfl h⟩, ?_, fun hc _ => ⟨hc, trivial, ?_⟩⟩
      · intro p hp
        have hf := allDom_full L h.tree w n ht (fun d v hv => hdrop d v hv (by rw [hk]; simp))
        exact ⟨fun _ => hf p hp, fun _ => trivial⟩
      · intro _ d hd; simp at hd
    · have hr : reduce A all h = ⟨h.cls, h.act.filter (fun d => !reducible A h d),
          removeT A h.act (h.act.filter (fun d => !reducible A h d)) h.tree⟩ := by
        unfold reduce
        rw [if_neg h0]
        simp only
        generalize all.filter (fun d => decide (d ∈ h.act) && !reducible A h d) = k at hkeep
        subst hkeep
        rw [if_neg (by simpa using hk)]
      rw [hr]
      refine ⟨⟨List.filter_sublist.trans hsub, sp.wf, sp.ne, sp.one o, ?_⟩, sp.den, fun hc hcan => ⟨hc, sp.can hcan, ?_⟩⟩
      · intro _ hf
        have hfull : FullD A h.act h.tree := fun p hp => (sp.den p hp).1 (hf p hp)
        have hst := full_struct L hnd' h.tree w o (exists_inDom L) hfull
        -- then every value is the domain
        have hall : ∀ (ds : List D) d v, (d, v) ∈ vals ds (fullT A ds) → v = A.dom d := by
          intro ds
          induction ds with
          | nil => intro d v hv; simp [vals] at hv
          | cons a ds ih =>
            intro d v hv
            obtain ⟨e, he, h | h⟩ := mem_vals_cons.1 hv
            · have := List.mem_singleton.1 he
              subst this
              rw [h.1, h.2]
            · have := List.mem_singleton.1 he
              subst this
              exact ih d v h
        apply hk
        rw [List.filter_eq_nil_iff]
        intro d hd
        have : reducible A h d = true := (hred d hd).2 (fun v hv => by rw [hst] at hv; exact hall _ d v hv)
        simp [this]
      · intro _ d hd
        obtain ⟨hda, hnr⟩ := List.mem_filter.1 hd
        have : ¬ ∀ v, (d, v) ∈ vals h.act h.tree → v = A.dom d := by
          intro hc
          rw [(hred d hda).2 hc] at hnr
          exact absurd hnr (by simp)
        by_contra hcc
        apply this
        intro v hv
        by_contra hvd
        exact hcc ⟨v, sp.vals d v hd hv, hvd⟩

/-! ### Common dimensions -/

theorem common_sub (all as bs : List D) : (common all as bs).Sublist all := List.filter_sublist

theorem left_sub_common {all as : List D} (bs : List D) (h : as.Sublist all) : as.Sublist (common all as bs) := by
  have := h.filter (fun d => decide (d ∈ as) || decide (d ∈ bs))
  rw [List.filter_eq_self.2 (by intro a ha; simp [ha])] at this
  exact this

theorem right_sub_common {all bs : List D} (as : List D) (h : bs.Sublist all) : bs.Sublist (common all as bs) := by
  have := h.filter (fun d => decide (d ∈ as) || decide (d ∈ bs))
  rw [List.filter_eq_self.2 (by intro a ha; simp [ha])] at this
  exact this

theorem common_cov {all as bs : List D} : ∀ d ∈ common all as bs, d ∈ as ∨ d ∈ bs := by
  intro d hd
  have := (List.mem_filter.1 hd).2
  simpa using this

theorem common_eq_left {all as bs : List D} (hnd : all.Nodup) (h : as.Sublist all) (hb : ∀ d ∈ bs, d ∈ as) :
    common all as bs = as := by
  unfold common
  rw [← sublist_filter_eq h hnd]
  apply List.filter_congr
  intro x hx
  simp only [List.mem_filter, decide_eq_true_eq]
  by_cases h1 : x ∈ as
  · simp [h1, hx]
  · have : x ∉ bs := fun hc => h1 (hb x hc)
    simp [h1, this]

/-! ### Operations -/

theorem and_spec (L : A.Lawful Wf) {all : List D} (hnd : all.Nodup) (hall : all ≠ []) {a b : HC D V}
    (ia : Inv A Wf all a) (ib : Inv A Wf all b) :
    Inv A Wf all (and A all a b) ∧ (∀ p, InDom A p → ((and A all a b).Pt A p ↔ a.Pt A p ∧ b.Pt A p)) ∧
    (Can A a → Can A b → Can A (and A all a b)) := by
  unfold and
  by_cases h1 : b.isAll = true
  · rw [if_pos h1]
    exact ⟨ia, fun p _ => ⟨fun h => ⟨h, isAll_pt h1 p⟩, fun h => h.1⟩, fun ca _ => ca⟩
  · rw [if_neg h1]
    by_cases h2 : (!b.truthy || !a.truthy) = true
    · rw [if_pos h2]
      have he := empty_inv (V := V) L all hall a.cls
      refine ⟨he.1, fun p _ => ⟨fun h => absurd h (falsy_pt he.2 p), ?_⟩, fun ca _ => by rw [ca.cls]; exact empty_can all hall⟩
      rintro ⟨ha, hb⟩
      simp only [Bool.or_eq_true, Bool.not_eq_true'] at h2
      rcases h2 with h | h
      · exact absurd hb (falsy_pt h p)
      · exact absurd ha (falsy_pt h p)
    · rw [if_neg h2]
      have hta : a.truthy = true := by by_contra hc; rw [Bool.not_eq_true] at hc; apply h2; simp [hc]
      have htb : b.truthy = true := by by_contra hc; rw [Bool.not_eq_true] at hc; apply h2; simp [hc]
      by_cases h3 : a.isAll = true
      · rw [if_pos h3]
        refine ⟨ib.recls _, fun p _ => ⟨fun h => ⟨isAll_pt h3 p, h⟩, fun h => h.2⟩, fun ca cb => ⟨ca.cls, cb.can, cb.red⟩⟩
      · rw [if_neg h3]
        have hane : a.act ≠ [] := by simpa [isAll] using h3
        have hbne : b.act ≠ [] := by simpa [isAll] using h1
        unfold onCommon
        have sa := left_sub_common b.act ia.sub
        have sb := right_sub_common a.act ib.sub
        have sc := common_sub all a.act b.act
        have nc := hnd.sublist sc
        have wa := expand_wf L sa a.cls a.tree ia.wf
        have wb := expand_wf L sb b.cls b.tree ib.wf
        have sp := andT_spec L _ _ wa wb
        have r := reduce_spec L hnd ⟨a.cls, common all a.act b.act, andT A _ (expand A a.cls a.act _ a.tree)
          (expand A b.cls b.act (common all a.act b.act) b.tree)⟩ sc sp.1 (andT_ne _ _) (andT_one L nc _ _ wa wb (exists_inDom L))
        refine ⟨r.1, fun p hp => ?_, fun ca cb => ?_⟩
        · rw [r.2.1 p hp]
          change Den A _ (andT A _ _ _) p ↔ _
          rw [sp.2.1 p, expand_den sa _ _ p hp, expand_den sb _ _ p hp]
          rfl
        · exact r.2.2 ca.cls (andT_can L _ _ wa wb)

theorem or_spec (L : A.Lawful Wf) {all : List D} (hnd : all.Nodup) {a b : HC D V}
    (ia : Inv A Wf all a) (ib : Inv A Wf all b) :
    Inv A Wf all (or A all a b) ∧ (∀ p, InDom A p → ((or A all a b).Pt A p ↔ a.Pt A p ∨ b.Pt A p)) ∧
    (Can A a → Can A b → Can A (or A all a b)) := by
  unfold or
  by_cases h1 : (b.isAll || a.isAll) = true
  · rw [if_pos h1]
    refine ⟨full_inv all _, fun p _ => ⟨fun _ => ?_, fun _ => trivial⟩, fun ca _ => by rw [ca.cls]; exact full_can⟩
    simp only [Bool.or_eq_true] at h1
    rcases h1 with h | h
    · exact Or.inr (isAll_pt h p)
    · exact Or.inl (isAll_pt h p)
  · rw [if_neg h1]
    by_cases h2 : (!b.truthy) = true
    · rw [if_pos h2]
      have hf : b.truthy = false := by simpa using h2
      exact ⟨ia, fun p _ => ⟨Or.inl, fun h => h.resolve_right (falsy_pt hf p)⟩, fun ca _ => ca⟩
    · rw [if_neg h2]
      by_cases h3 : (!a.truthy) = true
      · rw [if_pos h3]
        have hf : a.truthy = false := by simpa using h3
        exact ⟨ib.recls _, fun p _ => ⟨Or.inr, fun h => h.resolve_left (falsy_pt hf p)⟩, fun ca cb => ⟨ca.cls, cb.can, cb.red⟩⟩
      · rw [if_neg h3]
        have hta : a.truthy = true := by simpa using h3
        have htb : b.truthy = true := by simpa using h2
        unfold onCommon
        have sa := left_sub_common b.act ia.sub
        have sb := right_sub_common a.act ib.sub
        have sc := common_sub all a.act b.act
        have nc := hnd.sublist sc
        have wa := expand_wf L sa a.cls a.tree ia.wf
        have wb := expand_wf L sb b.cls b.tree ib.wf
        have na := expand_ne (A := A) sa a.cls a.tree ia.ne hta
        have nb := expand_ne (A := A) sb b.cls b.tree ib.ne htb
        have oa := expand_one sa a.cls a.tree ia.one (fun _ => ia.notFull)
        have ob := expand_one sb b.cls b.tree ib.one (fun _ => ib.notFull)
        have sp := orT_spec L _ _ wa wb
        have hp := exists_inDom L
        have r := reduce_spec L hnd ⟨a.cls, common all a.act b.act, orT A _ (expand A a.cls a.act _ a.tree)
          (expand A b.cls b.act (common all a.act b.act) b.tree)⟩ sc sp.1 (orT_ne L nc _ _ wa wb na.1 nb.1 hp).1
          (orT_one L nc _ _ wa wb oa ob hp)
        refine ⟨r.1, fun p hp => ?_, fun ca cb => ?_⟩
        · rw [r.2.1 p hp]
          change Den A _ (orT A _ _ _) p ↔ _
          rw [sp.2.1 p, expand_den sa _ _ p hp, expand_den sb _ _ p hp]
          rfl
        · refine r.2.2 ca.cls (orT_can L _ _ wa wb ?_ ?_)
          · rw [ca.cls]; exact expand_can L (hnd.sublist ia.sub) sa a.tree ia.wf ia.ne ca.can
          · rw [cb.cls]; exact expand_can L (hnd.sublist ib.sub) sb b.tree ib.wf ib.ne cb.can

/-- The condition under which subtraction is exact: the left operand is not empty, or no active
dimension of the right operand comes before the first active dimension of the left one. -/
def SubSafe (all : List D) (a b : HC D V) : Prop := a.truthy = true ∨ (common all a.act b.act).head? = a.act.head?

theorem subSafe_of_subset {all : List D} (hnd : all.Nodup) {a b : HC D V} (ha : a.act.Sublist all) (h : ∀ d ∈ b.act, d ∈ a.act) :
    SubSafe all a b := Or.inr (by rw [common_eq_left hnd ha h])

/-- Expansion of an empty object below its first dimension is empty. -/
theorem expand_falsy {as new : List D} (c : Bool) (t : Tree V as) (h : neT as t = false) (hh : new.head? = as.head?) :
    neT new (expand A c as new t) = false := by
  cases as with
  | nil => simp [neT] at h
  | cons a as =>
    cases new with
    | nil => simp at hh
    | cons n ns =>
      have hn : n = a := by simpa using hh
      subst hn
      have ht : (t : List (Entry V as)) = [] := by
        have h' : List.isEmpty t = true := by simpa [neT] using h
        exact List.isEmpty_iff.1 h'
      rw [ht]
      simp [expand, neT]

theorem NeT_of_falsy {as : List D} (t : Tree V as) (h : neT as t = false) : NeT as t := by
  cases as with
  | nil => simp [neT] at h
  | cons a as =>
    have ht : (t : List (Entry V as)) = [] := by
      have h' : List.isEmpty t = true := by simpa [neT] using h
      exact List.isEmpty_iff.1 h'
    rw [ht]
    intro e he
    exact absurd he (by simp [layers])

theorem sub_spec (L : A.Lawful Wf) {all : List D} (hnd : all.Nodup) (hall : all ≠ []) {a b : HC D V}
    (ia : Inv A Wf all a) (ib : Inv A Wf all b) (hs : SubSafe all a b) :
    Inv A Wf all (sub A all a b) ∧ (∀ p, InDom A p → ((sub A all a b).Pt A p ↔ a.Pt A p ∧ ¬ b.Pt A p)) ∧
    (Can A a → Can A b → Can A (sub A all a b)) := by
  have core : ∀ a : HC D V, Inv A Wf all a → SubSafe all a b → (a.act ≠ [] ∨ b.act ≠ []) →
      Inv A Wf all (onCommon A all (subT A) a b) ∧
      (∀ p, InDom A p → ((onCommon A all (subT A) a b).Pt A p ↔ a.Pt A p ∧ ¬ b.Pt A p)) ∧
      (Can A a → Can A b → Can A (onCommon A all (subT A) a b)) := by
    intro a ia hs hne
    unfold onCommon
    have sa := left_sub_common b.act ia.sub
    have sb := right_sub_common a.act ib.sub
    have sc := common_sub all a.act b.act
    have nc := hnd.sublist sc
    have wa := expand_wf L sa a.cls a.tree ia.wf
    have wb := expand_wf L sb b.cls b.tree ib.wf
    have na : NeT _ (expand A a.cls a.act (common all a.act b.act) a.tree) := by
      by_cases h : a.truthy = true
      · exact (expand_ne sa a.cls a.tree ia.ne h).1
      · refine NeT_of_falsy _ (expand_falsy a.cls a.tree (by simpa [truthy] using h) ?_)
        exact hs.resolve_left h
    have oa := expand_one sa a.cls a.tree ia.one (fun _ => ia.notFull)
    have sp := subT_wf L _ _ wa wb
    have hcne : common all a.act b.act ≠ [] := by
      rcases hne with h | h
      · intro hc; rw [hc] at sa; exact h (List.sublist_nil.1 sa)
      · intro hc; rw [hc] at sb; exact h (List.sublist_nil.1 sb)
    have r := reduce_spec L hnd ⟨a.cls, common all a.act b.act, subT A _ (expand A a.cls a.act _ a.tree)
      (expand A b.cls b.act (common all a.act b.act) b.tree)⟩ sc sp.1 (subT_ne _ _ na)
      (subT_one L nc _ _ wa wb oa (exists_inDom L))
    refine ⟨r.1, fun p hp => ?_, fun ca cb => ?_⟩
    · rw [r.2.1 p hp]
      change Den A _ (subT A _ _ _) p ↔ _
      rw [sp.2.1 hcne p, expand_den sa _ _ p hp, expand_den sb _ _ p hp]
      rfl
    · refine r.2.2 ca.cls (subT_can L _ _ wa wb ?_)
      rw [ca.cls]; exact expand_can L (hnd.sublist ia.sub) sa a.tree ia.wf ia.ne ca.can
  unfold sub
  by_cases h1 : b.isAll = true
  · have hbt : b.truthy = true := by
      obtain ⟨c, act, t⟩ := b
      simp only [isAll, List.isEmpty_iff] at h1
      subst h1; rfl
    have hba : b.act = [] := by simpa [isAll] using h1
    have he := empty_inv (V := V) L all hall a.cls
    simp only [h1, if_true, hbt, Bool.not_true, Bool.false_eq_true, if_false]
    have hact : (empty all a.cls : HC D V).act = all := rfl
    have hc := core (empty all a.cls) he.1 (subSafe_of_subset hnd (by rw [show (empty all a.cls : HC D V).act = all from rfl]) (by rw [hba]; simp)) (Or.inl (by rw [hact]; exact hall))
    refine ⟨hc.1, fun p hp => ?_, fun ca cb => hc.2.2 (by rw [ca.cls]; exact empty_can all hall) cb⟩
    rw [hc.2.1 p hp]
    constructor
    · rintro ⟨h, _⟩; exact absurd h (falsy_pt he.2 p)
    · rintro ⟨_, h⟩; exact absurd (isAll_pt h1 p) h
  · simp only [h1, Bool.false_eq_true, if_false]
    have hbne : b.act ≠ [] := by simpa [isAll] using h1
    by_cases h2 : (!b.truthy) = true
    · rw [if_pos h2]
      have hf : b.truthy = false := by simpa using h2
      exact ⟨ia, fun p _ => ⟨fun h => ⟨h, falsy_pt hf p⟩, fun h => h.1⟩, fun ca _ => ca⟩
    · rw [if_neg h2]
      exact core a ia hs (Or.inr hbne)

theorem containedIn_spec (L : A.Lawful Wf) {all : List D} (hnd : all.Nodup) {a b : HC D V}
    (ia : Inv A Wf all a) (ib : Inv A Wf all b) :
    ∃ r, containedIn A all a b = some r ∧ (r = true ↔ ∀ p, InDom A p → a.Pt A p → b.Pt A p) := by
  unfold containedIn
  by_cases h1 : (b.isAll || !a.truthy) = true
  · rw [if_pos h1]
    refine ⟨true, rfl, ?_⟩
    simp only [true_iff]
    intro p _ hpa
    simp only [Bool.or_eq_true, Bool.not_eq_true'] at h1
    rcases h1 with h | h
    · exact isAll_pt h p
    · exact absurd hpa (falsy_pt h p)
  · rw [if_neg h1]
    have hta : a.truthy = true := by by_contra hc; rw [Bool.not_eq_true] at hc; apply h1; simp [hc]
    have hbna : ¬ b.isAll = true := by intro hc; apply h1; simp [hc]
    by_cases h2 : (!b.truthy || a.isAll) = true
    · rw [if_pos h2]
      refine ⟨false, rfl, ?_⟩
      simp only [Bool.false_eq_true, false_iff]
      intro h
      simp only [Bool.or_eq_true, Bool.not_eq_true'] at h2
      rcases h2 with hh | hh
      · obtain ⟨p, hp, hd⟩ := (truthy_iff L hnd ia).1 hta
        exact falsy_pt hh p (h p hp hd)
      · exact hbna ((isAll_iff ib).2 (fun p hp => h p hp (isAll_pt hh p)))
    · rw [if_neg h2]
      have htb : b.truthy = true := by by_contra hc; rw [Bool.not_eq_true] at hc; apply h2; simp [hc]
      have hane : a.act ≠ [] := by
        intro hc; apply h2; simp [isAll, hc]
      have hbne : b.act ≠ [] := by simpa [isAll] using hbna
      exact containedAux_spec L (hnd.sublist (common_sub all a.act b.act)) (left_sub_common b.act ia.sub)
        (right_sub_common a.act ib.sub) common_cov hane a.tree b.cls b.tree ia.wf ia.ne hta ia.one
        ib.wf ib.ne htb ib.one (fun _ => ib.notFull hbne)

theorem contains_spec {all : List D} {h : HC D V} (i : Inv A Wf all h) (p : D → X) :
    contains A h p = true ↔ h.Pt A p := by
  unfold contains
  by_cases h1 : h.isAll = true
  · rw [if_pos h1]; exact ⟨fun _ => isAll_pt h1 p, fun _ => rfl⟩
  · rw [if_neg h1]
    by_cases h2 : (!h.truthy) = true
    · rw [if_pos h2]
      have hf : h.truthy = false := by simpa using h2
      exact ⟨fun hh => absurd hh (by simp), fun hh => absurd hh (falsy_pt hf p)⟩
    · rw [if_neg h2]
      exact containsT_iff h.tree i.wf p

/-! ### Cubes -/

theorem cubeT_spec (c : D → V) (ds : List D) (hw : ∀ d ∈ ds, Wf d (c d) ∧ A.truthy (c d) = true) :
    WfT A Wf ds (cubeT c ds) ∧ NeT ds (cubeT c ds) ∧ neT ds (cubeT c ds) = true ∧ OneFull A ds (cubeT c ds) ∧
    CanT A ds (cubeT c ds) ∧ (∀ p, Den A ds (cubeT c ds) p ↔ ∀ d ∈ ds, A.mem (p d) (c d) = true) ∧
    (∀ d ∈ ds, (d, c d) ∈ vals ds (cubeT c ds)) := by
  induction ds with
  | nil => exact ⟨trivial, trivial, rfl, trivial, trivial, fun p => by simp [Den], by simp⟩
  | cons d ds ih =>
    obtain ⟨i1, i2, i3, i4, i5, i6, i7⟩ := ih (fun d hd => hw d (by simp [hd]))
    have hm : ∀ e, e ∈ layers (d := d) (cubeT c (d :: ds) : Tree V (d :: ds)) → e = (c d, false, cubeT c ds) :=
      fun e he => List.mem_singleton.1 he
    have hd := hw d (by simp)
    refine ⟨wfL_cons.2 ⟨⟨hd.1, hd.2, i1⟩, wfL_nil, by simp⟩, ?_, rfl, ⟨?_, List.pairwise_singleton _ _⟩,
      ⟨?_, List.pairwise_singleton _ _⟩, ?_, ?_⟩
    · intro e he
      rw [hm e he]; exact ⟨i3, i2⟩
    · intro e he
      rw [hm e he]; exact ⟨i4, by simp⟩
    · intro e he
      rw [hm e he]; exact ⟨i5, rfl⟩
    · intro p
      simp only [List.mem_cons, forall_eq_or_imp, ← i6 p]
      constructor
      · rintro ⟨e, he, h1, h2⟩
        rw [hm e he] at h1 h2
        exact ⟨h1, h2⟩
      · rintro ⟨h1, h2⟩
        exact ⟨_, List.mem_singleton.2 rfl, h1, h2⟩
    · intro d' hd'
      refine mem_vals_cons.2 ⟨_, List.mem_singleton.2 rfl, ?_⟩
      rcases List.mem_cons.1 hd' with rfl | h
      · exact Or.inl ⟨rfl, rfl⟩
      · exact Or.inr (i7 d' h)

theorem fromCube_spec (L : A.Lawful Wf) {all : List D} (hnd : all.Nodup) (hall : all ≠ []) (c : D → V) (dims : List D)
    (hsub : dims.Sublist all) (hw : ∀ d ∈ dims, Wf d (c d)) :
    Inv A Wf all (fromCube A all c dims) ∧
    (∀ p, InDom A p → ((fromCube A all c dims).Pt A p ↔ ∀ d ∈ dims, A.mem (p d) (c d) = true)) ∧
    Can A (fromCube A all c dims) := by
  unfold fromCube
  by_cases h1 : dims.any (fun d => !A.truthy (c d)) = true
  · rw [if_pos h1]
    have he := empty_inv (V := V) L all hall false
    refine ⟨he.1, fun p _ => ⟨fun h => absurd h (falsy_pt he.2 p), fun h => ?_⟩, empty_can all hall⟩
    obtain ⟨d, hd, hf⟩ := List.any_eq_true.1 h1
    have := (L.truthy_iff (hw d hd)).2 ⟨p d, h d hd⟩
    rw [this] at hf; exact absurd hf (by simp)
  · rw [if_neg h1]
    have ht : ∀ d ∈ dims, A.truthy (c d) = true := by
      intro d hd
      by_contra hc
      exact h1 (List.any_eq_true.2 ⟨d, hd, by simpa using hc⟩)
    have hmemk : ∀ d, d ∈ dims.filter (fun d => !@decide (c d = A.dom d) (A.decEq _ _)) ↔ d ∈ dims ∧ c d ≠ A.dom d := by
      intro d; simp
    have hden : ∀ p, InDom A p → ((∀ d ∈ dims.filter (fun d => !@decide (c d = A.dom d) (A.decEq _ _)), A.mem (p d) (c d) = true) ↔
        ∀ d ∈ dims, A.mem (p d) (c d) = true) := by
      intro p hp
      constructor
      · intro h d hd
        by_cases hcd : c d = A.dom d
        · rw [hcd]; exact hp d
        · exact h d ((hmemk d).2 ⟨hd, hcd⟩)
      · intro h d hd; exact h d ((hmemk d).1 hd).1
    by_cases h2 : (dims.filter (fun d => !@decide (c d = A.dom d) (A.decEq _ _))).isEmpty = true
    · simp only [h2, if_true]
      refine ⟨full_inv all _, fun p hp => ?_, full_can⟩
      rw [← hden p hp, List.isEmpty_iff.1 h2]
      simp [Pt, full, Den]
    · simp only [h2, Bool.false_eq_true, if_false]
      have sp := cubeT_spec c (dims.filter (fun d => !@decide (c d = A.dom d) (A.decEq _ _)))
        (fun d hd => ⟨hw d ((hmemk d).1 hd).1, ht d ((hmemk d).1 hd).1⟩)
      refine ⟨⟨List.filter_sublist.trans hsub, sp.1, sp.2.1, sp.2.2.2.1, ?_⟩, ?_, ⟨rfl, sp.2.2.2.2.1, ?_⟩⟩
      · intro hne hf
        obtain ⟨d, hd⟩ := List.exists_mem_of_ne_nil _ hne
        have hd' := (hmemk d).1 hd
        apply hd'.2
        refine L.ext (hw d hd'.1) (L.wf_dom d) (fun x => ?_)
        rw [Bool.eq_iff_iff]
        refine ⟨L.sub_dom (hw d hd'.1) x, fun hx => ?_⟩
        obtain ⟨p, hp⟩ := exists_inDom L
        have := (sp.2.2.2.2.2.1 _).1 (hf _ (upd_inDom hp hx)) d hd
        simpa using this
      · intro p hp
        rw [← hden p hp]
        exact sp.2.2.2.2.2.1 p
      · intro _ d hd
        exact ⟨c d, sp.2.2.2.2.2.2 d hd, ((hmemk d).1 hd).2⟩

/-! ### First item -/

theorem firstItem_spec (L : A.Lawful Wf) {all : List D} (hnd : all.Nodup) {h : HC D V} (i : Inv A Wf all h) :
    (h.truthy = false → firstItem A all h = some none) ∧
    (h.truthy = true → ∃ p, InDom A p ∧ h.Pt A p ∧ firstItem A all h = some (some (all.map p))) := by
  constructor
  · intro hf; simp [firstItem, hf]
  · intro ht
    have hne := cubesT_ne h.tree i.ne ht
    unfold firstItem
    simp only [ht, Bool.not_true, Bool.false_eq_true, if_false]
    match hcs : cubesT h.act h.tree, hne with
    | cube :: rest, _ =>
      have hcm : cube ∈ cubesT h.act h.tree := by rw [hcs]; simp
      have hvals := cubesT_values h.tree i.wf cube hcm
      simp only []
      generalize hv : (fun d => match (h.act.zip cube).find? (fun e => e.1 = d) with
        | some e => e.2
        | none => A.dom d) = v
      have hvd : ∀ d, Wf d (v d) ∧ A.truthy (v d) = true := by
        intro d
        subst hv
        simp only
        cases hf : (h.act.zip cube).find? (fun e => e.1 = d) with
        | none => exact ⟨L.wf_dom d, L.dom_truthy d⟩
        | some e =>
          have hm := List.mem_of_find?_eq_some hf
          have hk := List.find?_some hf
          simp only [decide_eq_true_eq] at hk
          have := (List.forall₂_iff_zip.1 hvals).2 (show (e.1, e.2) ∈ _ from hm)
          rw [hk] at this
          exact this
      have hreps : ∀ d, ∃ x, A.rep (v d) = some x ∧ A.mem x (v d) = true := fun d => L.rep_mem (hvd d).1 (hvd d).2
      refine ⟨fun d => (hreps d).choose, fun d => L.sub_dom (hvd d).1 _ (hreps d).choose_spec.2, ?_, ?_⟩
      · refine (cubesT_cover h.tree _).1 ⟨cube, hcm, ?_⟩
        have hzip : ∀ e ∈ h.act.zip cube, v e.1 = e.2 := by
          intro e he
          subst hv
          simp only
          have hndk : (h.act.zip cube).Pairwise (fun a b => a.1 ≠ b.1) := by
            have h2 : ((h.act.zip cube).map Prod.fst).Nodup := by
              rw [List.map_fst_zip (Nat.le_of_eq hvals.length_eq)]
              exact hnd.sublist i.sub
            rw [List.nodup_iff_pairwise_ne, List.pairwise_map] at h2
            exact h2
          generalize h.act.zip cube = z at he hndk
          have : z.find? (fun e' => e'.1 = e.1) = some e := by
            induction z with
            | nil => simp at he
            | cons a z ih =>
              obtain ⟨h1, h2⟩ := List.pairwise_cons.1 hndk
              rcases List.mem_cons.1 he with rfl | he'
              · simp
              · rw [List.find?_cons_of_neg (by simpa using h1 e he')]
                exact ih he' h2
          rw [this]
        rw [InCube, List.forall₂_iff_zip]
        refine ⟨hvals.length_eq, ?_⟩
        intro d x hdx
        have := hzip (d, x) hdx
        simp only at this
        rw [← this]
        exact (hreps d).choose_spec.2
      · have : ∀ l : List D, l.mapM (fun d => A.rep (v d)) = some (l.map (fun d => (hreps d).choose)) := by
          intro l
          induction l with
          | nil => rfl
          | cons d l ih =>
            rw [List.mapM_cons, (hreps d).choose_spec.1, ih]
            rfl
        have h2 := this all
        subst hv
        exact congrArg (Option.map some) h2

/-! ### Equality -/

theorem eq_spec (L : A.Lawful Wf) {all : List D} (hnd : all.Nodup) {a b : HC D V} (ia : Inv A Wf all a) (ib : Inv A Wf all b)
    (ca : Can A a) (cb : Can A b) : eq A a b = true ↔ ∀ p, InDom A p → (a.Pt A p ↔ b.Pt A p) := by
  have hcls : (a.cls != b.cls) = false := by rw [ca.cls, cb.cls]; rfl
  unfold eq
  simp only [hcls, Bool.false_eq_true, if_false]
  by_cases h1 : (!a.truthy && !b.truthy) = true
  · rw [if_pos h1]
    simp only [true_iff]
    simp only [Bool.and_eq_true, Bool.not_eq_true'] at h1
    intro p _
    exact ⟨fun h => absurd h (falsy_pt h1.1 p), fun h => absurd h (falsy_pt h1.2 p)⟩
  · rw [if_neg h1]
    constructor
    · intro h
      obtain ⟨c1, act1, t1⟩ := a
      obtain ⟨c2, act2, t2⟩ := b
      split at h
      · rename_i heq
        simp only at heq
        subst heq
        intro p _
        exact subEq_sound L (false, t1) (false, t2) ia.wf ib.wf h p
      · exact absurd h (by simp)
    · intro hs
      have tt : a.truthy = true ∧ b.truthy = true := by
        by_cases hta : a.truthy = true
        · obtain ⟨p, hp, hd⟩ := (truthy_iff L hnd ia).1 hta
          exact ⟨hta, (truthy_iff L hnd ib).2 ⟨p, hp, (hs p hp).1 hd⟩⟩
        · by_cases htb : b.truthy = true
          · obtain ⟨p, hp, hd⟩ := (truthy_iff L hnd ib).1 htb
            exact ⟨(truthy_iff L hnd ia).2 ⟨p, hp, (hs p hp).2 hd⟩, htb⟩
          · exfalso; apply h1; simp [hta, htb]
      have half : ∀ a b : HC D V, Inv A Wf all a → Can A a → a.truthy = true →
          (∀ p, InDom A p → (a.Pt A p ↔ b.Pt A p)) → ∀ d ∈ a.act, d ∈ b.act := by
        intro a b ia ca hta hs d hd
        obtain ⟨v, hv, hne⟩ := ca.red hta d hd
        obtain ⟨p, q, hp, hq, hpq, h1, h2⟩ := depends L (hnd.sublist ia.sub) a.tree ia.wf ia.ne ca.can d v hv hne
        by_contra hdb
        apply h2
        have hb : b.Pt A p := (hs p hp).1 h1
        have : b.Pt A q := by
          refine (den_congr b.tree ?_).1 hb
          intro d' hd'
          exact hpq d' (fun h => hdb (h ▸ hd'))
        exact (hs q hq).2 this
      have hact : a.act = b.act := by
        rw [← sublist_filter_eq ia.sub hnd, ← sublist_filter_eq ib.sub hnd]
        apply List.filter_congr
        intro d _
        have h1 := half a b ia ca tt.1 hs d
        have h2 := half b a ib cb tt.2 (fun p hp => (hs p hp).symm) d
        simp only [decide_eq_decide]
        exact ⟨h1, h2⟩
      obtain ⟨c1, act1, t1⟩ := a
      obtain ⟨c2, act2, t2⟩ := b
      simp only at hact
      subst hact
      simp only [dif_pos]
      exact subEq_complete L (hnd.sublist ia.sub) t1 t2 ia.wf ib.wf ia.ne ib.ne ca.can cb.can hs

end HC
end
end Verif
