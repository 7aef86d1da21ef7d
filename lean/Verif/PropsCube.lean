import Verif.CubeProofs5
import Verif.CubeInst
import Mathlib.Tactic.Tauto
/-!
Property theorems C08-C18 (hyper-cube sets, the representation of connections).

Everything is stated for an arbitrary lawful value algebra, an arbitrary non-empty duplicate-free
list `all` of dimensions, and objects of both Python classes.  An object enters a theorem through
its history `Hist`, which builds beside it the *specified* set of points; observations go through
the tests a user calls (`x in S`, `bool(S)`, `contained_in`, `==`, iteration, first item).
-/
namespace Verif
namespace HC

section
variable {D V X : Type} [DecidableEq D]

/-- The set of points of a cube: every listed coordinate lies in its value. -/
def CubePts (A : VAlg D V X) (c : D → V) (dims : List D) (p : D → X) : Prop := ∀ d ∈ dims, A.mem (p d) (c d) = true

/-- Histories: `Hist h S` says that object `h` can be built by a sequence of operations which, on
sets of points, builds `S`.  With `plain = true` only objects of class CanonicalHyperCubeSet occur;
otherwise both classes may be mixed.  Subtraction carries the guard `SubSafe` (left operand
non-empty, or the right one constrains no dimension before the first one of the left operand): without it the claims are false, see
`C11_sub_from_empty_wrong`. -/
inductive Hist (A : VAlg D V X) (Wf : D → V → Prop) (all : List D) (plain : Bool) : HC D V → ((D → X) → Prop) → Prop
  | empty (cls : Bool) : (plain = true → cls = false) → Hist A Wf all plain (HC.empty all cls) (fun _ => False)
  | full (cls : Bool) : (plain = true → cls = false) → Hist A Wf all plain (HC.full cls) (fun _ => True)
  | cube (c : D → V) (dims : List D) : dims.Sublist all → (∀ d ∈ dims, Wf d (c d)) →
      Hist A Wf all plain (HC.fromCube A all c dims) (CubePts A c dims)
  | addCube {h S} (c : D → V) (dims : List D) : Hist A Wf all plain h S → dims ≠ [] → dims.Sublist all →
      (∀ d ∈ dims, Wf d (c d)) → Hist A Wf all plain (HC.addCube A all h c dims) (fun p => S p ∨ CubePts A c dims p)
  | addHole {h S} (c : D → V) (dims : List D) : Hist A Wf all plain h S → dims ≠ [] → dims.Sublist all →
      (∀ d ∈ dims, Wf d (c d)) → SubSafe all h (HC.fromCube A all c dims) →
      Hist A Wf all plain (HC.addHole A all h c dims) (fun p => S p ∧ ¬ CubePts A c dims p)
  | and {h g S T} : Hist A Wf all plain h S → Hist A Wf all plain g T → Hist A Wf all plain (HC.and A all h g) (fun p => S p ∧ T p)
  | or {h g S T} : Hist A Wf all plain h S → Hist A Wf all plain g T → Hist A Wf all plain (HC.or A all h g) (fun p => S p ∨ T p)
  | sub {h g S T} : Hist A Wf all plain h S → Hist A Wf all plain g T → SubSafe all h g →
      Hist A Wf all plain (HC.sub A all h g) (fun p => S p ∧ ¬ T p)

variable {A : VAlg D V X} {Wf : D → V → Prop} {all : List D} {plain : Bool}

/-- The invariant along histories: representation invariant, exact denotation, canonical form for
the plain class. -/
theorem Hist.spec (L : A.Lawful Wf) (hnd : all.Nodup) (hall : all ≠ []) {h : HC D V} {S : (D → X) → Prop}
    (H : Hist A Wf all plain h S) :
    Inv A Wf all h ∧ (∀ p, InDom A p → (h.Pt A p ↔ S p)) ∧ (plain = true → Can A h) := by
  have emptyCube : ∀ (c : D → V) (dims : List D), (∀ d ∈ dims, Wf d (c d)) →
      dims.any (fun d => !A.truthy (c d)) = true → ∀ p, ¬ CubePts A c dims p := by
    intro c dims hw ha p hp
    obtain ⟨d, hd, hf⟩ := List.any_eq_true.1 ha
    have := (L.truthy_iff (hw d hd)).2 ⟨p d, hp d hd⟩
    rw [this] at hf; exact absurd hf (by simp)
  induction H with
  | empty cls hc =>
    have he := empty_inv (V := V) L all hall cls
    exact ⟨he.1, fun p _ => ⟨fun h => falsy_pt he.2 p h, False.elim⟩, fun hp => by rw [hc hp]; exact empty_can all hall⟩
  | full cls hc =>
    exact ⟨full_inv all cls, fun p _ => ⟨fun _ => trivial, fun _ => trivial⟩, fun hp => by rw [hc hp]; exact full_can⟩
  | cube c dims hs hw =>
    have := fromCube_spec L hnd hall c dims hs hw
    exact ⟨this.1, this.2.1, fun _ => this.2.2⟩
  | addCube c dims _ hne hs hw ih =>
    unfold HC.addCube
    have hne' : dims.isEmpty = false := by simpa using hne
    rw [hne', Bool.false_or]
    split
    · rename_i ha
      exact ⟨ih.1, fun p hp => by rw [ih.2.1 p hp]; have := emptyCube c dims hw ha p; tauto, ih.2.2⟩
    · have hc := fromCube_spec L hnd hall c dims hs hw
      have ho := or_spec L hnd ih.1 hc.1
      exact ⟨ho.1, fun p hp => by rw [ho.2.1 p hp, ih.2.1 p hp, hc.2.1 p hp]; rfl, fun hp => ho.2.2 (ih.2.2 hp) hc.2.2⟩
  | addHole c dims _ hne hs hw hsafe ih =>
    unfold HC.addHole
    have hne' : dims.isEmpty = false := by simpa using hne
    rw [hne', Bool.false_or]
    split
    · rename_i ha
      exact ⟨ih.1, fun p hp => by rw [ih.2.1 p hp]; have := emptyCube c dims hw ha p; tauto, ih.2.2⟩
    · have hc := fromCube_spec L hnd hall c dims hs hw
      have ho := sub_spec L hnd hall ih.1 hc.1 hsafe
      exact ⟨ho.1, fun p hp => by rw [ho.2.1 p hp, ih.2.1 p hp, hc.2.1 p hp]; rfl, fun hp => ho.2.2 (ih.2.2 hp) hc.2.2⟩
  | and _ _ ih1 ih2 =>
    have ho := and_spec L hnd hall ih1.1 ih2.1
    exact ⟨ho.1, fun p hp => by rw [ho.2.1 p hp, ih1.2.1 p hp, ih2.2.1 p hp], fun hp => ho.2.2 (ih1.2.2 hp) (ih2.2.2 hp)⟩
  | or _ _ ih1 ih2 =>
    have ho := or_spec L hnd ih1.1 ih2.1
    exact ⟨ho.1, fun p hp => by rw [ho.2.1 p hp, ih1.2.1 p hp, ih2.2.1 p hp], fun hp => ho.2.2 (ih1.2.2 hp) (ih2.2.2 hp)⟩
  | sub _ _ hs ih1 ih2 =>
    have ho := sub_spec L hnd hall ih1.1 ih2.1 hs
    exact ⟨ho.1, fun p hp => by rw [ho.2.1 p hp, ih1.2.1 p hp, ih2.2.1 p hp], fun hp => ho.2.2 (ih1.2.2 hp) (ih2.2.2 hp)⟩

/-- C12: `item in S` answers membership, for every object and every item of the space. -/
theorem C12_contains_exact (L : A.Lawful Wf) (hnd : all.Nodup) (hall : all ≠ []) {h : HC D V} {S : (D → X) → Prop}
    (H : Hist A Wf all plain h S) (p : D → X) (hp : InDom A p) : contains A h p = true ↔ S p := by
  have := H.spec L hnd hall
  rw [contains_spec this.1, this.2.1 p hp]

/-- C08: a cube becomes exactly its product set. -/
theorem C08_cube_exact (L : A.Lawful Wf) (hnd : all.Nodup) (hall : all ≠ []) (c : D → V) (dims : List D)
    (hs : dims.Sublist all) (hw : ∀ d ∈ dims, Wf d (c d)) (p : D → X) (hp : InDom A p) :
    contains A (fromCube A all c dims) p = true ↔ ∀ d ∈ dims, A.mem (p d) (c d) = true :=
  C12_contains_exact L hnd hall (.cube (plain := false) c dims hs hw) p hp

/-- C08: giving a dimension its entire domain is the same as leaving it out. -/
theorem C08_domain_unconstrained (L : A.Lawful Wf) (hnd : all.Nodup) (hall : all ≠ []) (c : D → V) (dims : List D)
    (hs : dims.Sublist all) (hw : ∀ d ∈ dims, Wf d (c d)) (d : D) (hd : c d = A.dom d) :
    eq A (fromCube A all c dims) (fromCube A all c (dims.filter (fun d' => decide (d' ≠ d)))) = true := by
  have h1 := fromCube_spec L hnd hall c dims hs hw
  have h2 := fromCube_spec L hnd hall c (dims.filter (fun d' => decide (d' ≠ d))) (List.filter_sublist.trans hs)
    (fun d' hd' => hw d' (List.mem_filter.1 hd').1)
  rw [eq_spec L hnd h1.1 h2.1 h1.2.2 h2.2.2]
  intro p hp
  rw [h1.2.1 p hp, h2.2.1 p hp]
  constructor
  · intro h d' hd'; exact h d' (List.mem_filter.1 hd').1
  · intro h d' hd'
    by_cases hdd : d' = d
    · rw [hdd, hd]; exact hp d
    · exact h d' (List.mem_filter.2 ⟨hd', by simpa using hdd⟩)

/-- C08: a cube with an empty dimension gives the empty set. -/
theorem C08_empty_dimension (c : D → V) (dims : List D) (hall : all ≠ [])
    (d : D) (hd : d ∈ dims) (he : A.truthy (c d) = false) : (fromCube A all c dims).truthy = false := by
  have : dims.any (fun d => !A.truthy (c d)) = true := List.any_eq_true.2 ⟨d, hd, by simp [he]⟩
  unfold fromCube
  rw [if_pos this]
  cases all with
  | nil => exact absurd rfl hall
  | cons a as => rfl

/-- C08: adding a cube adds exactly its points. -/
theorem C08_addCube_exact (L : A.Lawful Wf) (hnd : all.Nodup) (hall : all ≠ []) {h : HC D V} {S : (D → X) → Prop}
    (H : Hist A Wf all plain h S) (c : D → V) (dims : List D) (hne : dims ≠ []) (hs : dims.Sublist all)
    (hw : ∀ d ∈ dims, Wf d (c d)) (p : D → X) (hp : InDom A p) :
    contains A (addCube A all h c dims) p = true ↔ contains A h p = true ∨ ∀ d ∈ dims, A.mem (p d) (c d) = true := by
  rw [C12_contains_exact L hnd hall (.addCube c dims H hne hs hw) p hp, C12_contains_exact L hnd hall H p hp]
  rfl

/-- C09: intersection is exact, whatever dimensions are active in the operands. -/
theorem C09_and_exact (L : A.Lawful Wf) (hnd : all.Nodup) (hall : all ≠ []) {h g : HC D V} {S T : (D → X) → Prop}
    (H : Hist A Wf all plain h S) (G : Hist A Wf all plain g T) (p : D → X) (hp : InDom A p) :
    contains A (and A all h g) p = true ↔ contains A h p = true ∧ contains A g p = true := by
  rw [C12_contains_exact L hnd hall (.and H G) p hp, C12_contains_exact L hnd hall H p hp, C12_contains_exact L hnd hall G p hp]

/-- C10: union is exact. -/
theorem C10_or_exact (L : A.Lawful Wf) (hnd : all.Nodup) (hall : all ≠ []) {h g : HC D V} {S T : (D → X) → Prop}
    (H : Hist A Wf all plain h S) (G : Hist A Wf all plain g T) (p : D → X) (hp : InDom A p) :
    contains A (or A all h g) p = true ↔ contains A h p = true ∨ contains A g p = true := by
  rw [C12_contains_exact L hnd hall (.or H G) p hp, C12_contains_exact L hnd hall H p hp, C12_contains_exact L hnd hall G p hp]

/-- C11.  Full statement: the same without `SubSafe`.  Missing: subtraction from an empty set whose
first active dimensions were reduced away; there the code is wrong, see `C11_sub_from_empty_wrong`. -/
theorem C11_sub_exact_partial (L : A.Lawful Wf) (hnd : all.Nodup) (hall : all ≠ []) {h g : HC D V} {S T : (D → X) → Prop}
    (H : Hist A Wf all plain h S) (G : Hist A Wf all plain g T) (hs : SubSafe all h g) (p : D → X) (hp : InDom A p) :
    contains A (sub A all h g) p = true ↔ contains A h p = true ∧ ¬ contains A g p = true := by
  rw [C12_contains_exact L hnd hall (.sub H G hs) p hp, C12_contains_exact L hnd hall H p hp, C12_contains_exact L hnd hall G p hp]

/-- C11 for every non-empty left operand. -/
theorem C11_sub_exact_of_nonempty (L : A.Lawful Wf) (hnd : all.Nodup) (hall : all ≠ []) {h g : HC D V} {S T : (D → X) → Prop}
    (H : Hist A Wf all plain h S) (G : Hist A Wf all plain g T) (hne : ∃ p, InDom A p ∧ S p) (p : D → X) (hp : InDom A p) :
    contains A (sub A all h g) p = true ↔ contains A h p = true ∧ ¬ contains A g p = true := by
  have hi := H.spec L hnd hall
  refine C11_sub_exact_partial L hnd hall H G (Or.inl ((truthy_iff L hnd hi.1).2 ?_)) p hp
  obtain ⟨q, hq, hS⟩ := hne
  exact ⟨q, hq, (hi.2.1 q hq).2 hS⟩

/-- C13: containment is exact, and the assertions inside never fail. -/
theorem C13_containedIn_exact (L : A.Lawful Wf) (hnd : all.Nodup) (hall : all ≠ []) {h g : HC D V} {S T : (D → X) → Prop}
    (H : Hist A Wf all plain h S) (G : Hist A Wf all plain g T) :
    ∃ b, containedIn A all h g = some b ∧ (b = true ↔ ∀ p, InDom A p → S p → T p) := by
  have i := H.spec L hnd hall
  have j := G.spec L hnd hall
  obtain ⟨b, hb, hiff⟩ := containedIn_spec L hnd i.1 j.1
  refine ⟨b, hb, hiff.trans (forall_congr' fun p => imp_congr_right fun hp => ?_)⟩
  rw [i.2.1 p hp, j.2.1 p hp]

/-- C14.  Full statement: for every history, also with unguarded subtraction.  Missing: see
`C11_sub_from_empty_wrong`, where an empty set tests as non-empty. -/
theorem C14_truthy_exact_partial (L : A.Lawful Wf) (hnd : all.Nodup) (hall : all ≠ []) {h : HC D V} {S : (D → X) → Prop}
    (H : Hist A Wf all plain h S) : h.truthy = true ↔ ∃ p, InDom A p ∧ S p := by
  have i := H.spec L hnd hall
  rw [truthy_iff L hnd i.1]
  exact exists_congr fun p => and_congr_right fun hp => i.2.1 p hp

/-- C14, second half: every non-empty set has a first item and it belongs to the set; on the empty
set no exception is raised. -/
theorem C14_firstItem_partial (L : A.Lawful Wf) (hnd : all.Nodup) (hall : all ≠ []) {h : HC D V} {S : (D → X) → Prop}
    (H : Hist A Wf all plain h S) :
    match firstItem A all h with
    | none => False
    | some none => ∀ p, InDom A p → ¬ S p
    | some (some item) => ∃ p, InDom A p ∧ S p ∧ item = all.map p := by
  have i := H.spec L hnd hall
  have f := firstItem_spec L hnd i.1
  cases ht : h.truthy with
  | false =>
    rw [f.1 ht]
    intro p hp hS
    have := (C14_truthy_exact_partial L hnd hall H).2 ⟨p, hp, hS⟩
    rw [ht] at this; exact absurd this (by simp)
  | true =>
    obtain ⟨p, hp, hd, hf⟩ := f.2 ht
    rw [hf]
    exact ⟨p, hp, (i.2.1 p hp).1 hd, rfl⟩

/-- `is_all()` is true exactly for the whole space, for every history (part of C14 and C15). -/
theorem C14_isAll_exact (L : A.Lawful Wf) (hnd : all.Nodup) (hall : all ≠ []) {h : HC D V} {S : (D → X) → Prop}
    (H : Hist A Wf all plain h S) : h.isAll = true ↔ ∀ p, InDom A p → S p := by
  have i := H.spec L hnd hall
  rw [isAll_iff i.1]
  exact forall_congr' fun p => imp_congr_right fun hp => i.2.1 p hp

/-- C15.  Full statement: the same for histories with objects of both classes.  Missing:
completeness (⇐) for ConnectivityProperties, where it is false: `C15_connprops_eq_incomplete`. -/
theorem C15_eq_extensional_partial (L : A.Lawful Wf) (hnd : all.Nodup) (hall : all ≠ []) {h g : HC D V} {S T : (D → X) → Prop}
    (H : Hist A Wf all true h S) (G : Hist A Wf all true g T) : eq A h g = true ↔ ∀ p, InDom A p → (S p ↔ T p) := by
  have i := H.spec L hnd hall
  have j := G.spec L hnd hall
  rw [eq_spec L hnd i.1 j.1 (i.2.2 rfl) (j.2.2 rfl)]
  exact forall_congr' fun p => imp_congr_right fun hp => by rw [i.2.1 p hp, j.2.1 p hp]

/-- C15, soundness for all classes: equal objects have the same members. -/
theorem C15_eq_sound (L : A.Lawful Wf) (hnd : all.Nodup) (hall : all ≠ []) {h g : HC D V} {S T : (D → X) → Prop}
    (H : Hist A Wf all plain h S) (G : Hist A Wf all plain g T) (he : eq A h g = true) : ∀ p, InDom A p → (S p ↔ T p) := by
  have i := H.spec L hnd hall
  have j := G.spec L hnd hall
  intro p hp
  rw [← i.2.1 p hp, ← j.2.1 p hp]
  unfold eq at he
  split at he
  · exact absurd he (by simp)
  · split at he
    · rename_i hf
      simp only [Bool.and_eq_true, Bool.not_eq_true'] at hf
      exact ⟨fun h => absurd h (falsy_pt hf.1 p), fun h => absurd h (falsy_pt hf.2 p)⟩
    · obtain ⟨c1, act1, t1⟩ := h
      obtain ⟨c2, act2, t2⟩ := g
      split at he
      · rename_i heq
        simp only at heq
        subst heq
        exact subEq_sound L (false, t1) (false, t2) i.1.wf j.1.wf he p
      · exact absurd he (by simp)

/-- The dimensions the enumerated cubes of an object range over (`__iter__` 196-200). -/
def cubeDims (all : List D) (h : HC D V) : List D := if h.isAll then all else h.act

/-- C16: the enumerated cubes cover exactly the set and are pairwise disjoint. -/
theorem C16_cubes_disjoint_cover (L : A.Lawful Wf) (hnd : all.Nodup) (hall : all ≠ []) {h : HC D V} {S : (D → X) → Prop}
    (H : Hist A Wf all plain h S) :
    (∀ p, InDom A p → (S p ↔ ∃ c ∈ cubes A all h, List.Forall₂ (fun d v => A.mem (p d) v = true) (cubeDims all h) c)) ∧
    (cubes A all h).Pairwise (fun c1 c2 => ∀ p : D → X, ¬ (List.Forall₂ (fun d v => A.mem (p d) v = true) (cubeDims all h) c1 ∧
      List.Forall₂ (fun d v => A.mem (p d) v = true) (cubeDims all h) c2)) ∧
    (∀ c ∈ cubes A all h, List.Forall₂ (fun d v => Wf d v ∧ A.truthy v = true) (cubeDims all h) c) := by
  have i := H.spec L hnd hall
  unfold cubes cubeDims
  by_cases ha : h.isAll = true
  · simp only [ha, if_true]
    refine ⟨fun p hp => ?_, List.pairwise_singleton _ _, ?_⟩
    · simp only [List.mem_singleton, exists_eq_left]
      refine ⟨fun _ => ?_, fun _ => (C14_isAll_exact L hnd hall H).1 ha p hp⟩
      rw [List.forall₂_map_right_iff]
      exact List.forall₂_same.2 (fun d _ => hp d)
    · intro c hc
      rw [List.mem_singleton.1 hc, List.forall₂_map_right_iff]
      exact List.forall₂_same.2 (fun d _ => ⟨L.wf_dom d, L.dom_truthy d⟩)
  · simp only [ha, Bool.false_eq_true, if_false]
    refine ⟨fun p hp => ?_, cubesT_disjoint h.tree i.1.wf, fun c hc => cubesT_values h.tree i.1.wf c hc⟩
    rw [← i.2.1 p hp]
    exact (cubesT_cover h.tree p).symm

/-- C17: activating further dimensions (in order) does not change membership. -/
theorem C17_activate_preserves (L : A.Lawful Wf) (hnd : all.Nodup) (hall : all ≠ []) {h : HC D V} {S : (D → X) → Prop}
    (H : Hist A Wf all plain h S) (new : List D) (h1 : h.act.Sublist new) (p : D → X) (hp : InDom A p) :
    containsT A new (expand A h.cls h.act new h.tree) p = true ↔ S p := by
  have i := H.spec L hnd hall
  rw [containsT_iff _ (expand_wf L h1 h.cls h.tree i.1.wf), expand_den h1 _ _ p hp]
  exact i.2.1 p hp

/-- C17: dropping the dimensions that turned out unconstrained, after activating any, does not
change membership either; and no unconstrained dimension is left in a plain object. -/
theorem C17_reduce_preserves (L : A.Lawful Wf) (hnd : all.Nodup) (hall : all ≠ []) {h : HC D V} {S : (D → X) → Prop}
    (H : Hist A Wf all plain h S) (new : List D) (h1 : h.act.Sublist new) (h2 : new.Sublist all) (hne : h.truthy = true)
    (p : D → X) (hp : InDom A p) :
    contains A (reduce A all ⟨h.cls, new, expand A h.cls h.act new h.tree⟩) p = true ↔ S p := by
  have i := H.spec L hnd hall
  have r := reduce_spec L hnd ⟨h.cls, new, expand A h.cls h.act new h.tree⟩ h2 (expand_wf L h1 h.cls h.tree i.1.wf)
    (expand_ne h1 h.cls h.tree i.1.ne hne).1 (expand_one h1 h.cls h.tree i.1.one (fun _ => i.1.notFull))
  rw [contains_spec r.1, r.2.1 p hp]
  change Den A _ _ p ↔ _
  rw [expand_den h1 _ _ p hp]
  exact i.2.1 p hp

/-- C17: in every plain object, each active dimension really constrains the set: two points
differing only there, one inside and one outside. -/
theorem C17_active_dims_matter (L : A.Lawful Wf) (hnd : all.Nodup) (hall : all ≠ []) {h : HC D V} {S : (D → X) → Prop}
    (H : Hist A Wf all true h S) (hne : h.truthy = true) (d : D) (hd : d ∈ h.act) :
    ∃ p q, InDom A p ∧ InDom A q ∧ (∀ d', d' ≠ d → p d' = q d') ∧ S p ∧ ¬ S q := by
  have i := H.spec L hnd hall
  obtain ⟨v, hv, hvd⟩ := (i.2.2 rfl).red hne d hd
  obtain ⟨p, q, hp, hq, hpq, h1, h2⟩ := depends L (hnd.sublist i.1.sub) h.tree i.1.wf i.1.ne (i.2.2 rfl).can d v hv hvd
  exact ⟨p, q, hp, hq, hpq, (i.2.1 p hp).1 h1, fun h => h2 ((i.2.1 q hq).2 h)⟩

/-! C18: algebra laws.  The plain class satisfies them as `==`; for both classes they hold for
membership. -/

/-- C18 for `==` on plain objects: commutativity, associativity, idempotence, distributivity,
absorption. -/
theorem C18_algebra_eq (L : A.Lawful Wf) (hnd : all.Nodup) (hall : all ≠ []) {a b c : HC D V} {R S T : (D → X) → Prop}
    (H1 : Hist A Wf all true a R) (H2 : Hist A Wf all true b S) (H3 : Hist A Wf all true c T) :
    eq A (or A all a b) (or A all b a) = true ∧
    eq A (and A all a b) (and A all b a) = true ∧
    eq A (or A all a (or A all b c)) (or A all (or A all a b) c) = true ∧
    eq A (and A all a (and A all b c)) (and A all (and A all a b) c) = true ∧
    eq A (or A all a a) a = true ∧
    eq A (and A all a a) a = true ∧
    eq A (and A all a (or A all b c)) (or A all (and A all a b) (and A all a c)) = true ∧
    eq A (or A all a (and A all b c)) (and A all (or A all a b) (or A all a c)) = true ∧
    eq A (or A all a (and A all a b)) a = true := by
  have e : ∀ {h g : HC D V} {P Q : (D → X) → Prop}, Hist A Wf all true h P → Hist A Wf all true g Q →
      (∀ p, P p ↔ Q p) → eq A h g = true :=
    fun h g hh => (C15_eq_extensional_partial L hnd hall h g).2 (fun p _ => hh p)
  refine ⟨e (.or H1 H2) (.or H2 H1) ?_, e (.and H1 H2) (.and H2 H1) ?_, e (.or H1 (.or H2 H3)) (.or (.or H1 H2) H3) ?_,
    e (.and H1 (.and H2 H3)) (.and (.and H1 H2) H3) ?_, e (.or H1 H1) H1 ?_, e (.and H1 H1) H1 ?_,
    e (.and H1 (.or H2 H3)) (.or (.and H1 H2) (.and H1 H3)) ?_, e (.or H1 (.and H2 H3)) (.and (.or H1 H2) (.or H1 H3)) ?_,
    e (.or H1 (.and H1 H2)) H1 ?_⟩ <;> intro p <;> tauto

/-- C18 for membership, objects of both classes. -/
theorem C18_algebra_mem (L : A.Lawful Wf) (hnd : all.Nodup) (hall : all ≠ []) {a b c : HC D V} {R S T : (D → X) → Prop}
    (H1 : Hist A Wf all plain a R) (H2 : Hist A Wf all plain b S) (H3 : Hist A Wf all plain c T) (p : D → X) (hp : InDom A p) :
    contains A (or A all a b) p = contains A (or A all b a) p ∧
    contains A (and A all a b) p = contains A (and A all b a) p ∧
    contains A (or A all a (or A all b c)) p = contains A (or A all (or A all a b) c) p ∧
    contains A (and A all a (and A all b c)) p = contains A (and A all (and A all a b) c) p ∧
    contains A (or A all a a) p = contains A a p ∧
    contains A (and A all a a) p = contains A a p ∧
    contains A (and A all a (or A all b c)) p = contains A (or A all (and A all a b) (and A all a c)) p ∧
    contains A (or A all a (and A all b c)) p = contains A (and A all (or A all a b) (or A all a c)) p := by
  have e : ∀ {h g : HC D V} {P Q : (D → X) → Prop}, Hist A Wf all plain h P → Hist A Wf all plain g Q →
      (P p ↔ Q p) → contains A h p = contains A g p :=
    fun h g hh => Bool.eq_iff_iff.2 ((C12_contains_exact L hnd hall h p hp).trans (hh.trans (C12_contains_exact L hnd hall g p hp).symm))
  refine ⟨e (.or H1 H2) (.or H2 H1) ?_, e (.and H1 H2) (.and H2 H1) ?_, e (.or H1 (.or H2 H3)) (.or (.or H1 H2) H3) ?_,
    e (.and H1 (.and H2 H3)) (.and (.and H1 H2) H3) ?_, e (.or H1 H1) H1 ?_, e (.and H1 H1) H1 ?_,
    e (.and H1 (.or H2 H3)) (.or (.and H1 H2) (.and H1 H3)) ?_, e (.or H1 (.and H2 H3)) (.and (.or H1 H2) (.or H1 H3)) ?_⟩ <;>
    tauto

/-- C18, difference laws: A−B is disjoint from B, (A−B)|(A&B) has the members of A, and A is
contained in B iff A−B is empty. -/
theorem C18_difference (L : A.Lawful Wf) (hnd : all.Nodup) (hall : all ≠ []) {a b : HC D V} {R S : (D → X) → Prop}
    (H1 : Hist A Wf all plain a R) (H2 : Hist A Wf all plain b S) (hs : SubSafe all a b) :
    (and A all (sub A all a b) b).truthy = false ∧
    (∀ p, InDom A p → contains A (or A all (sub A all a b) (and A all a b)) p = contains A a p) ∧
    (containedIn A all a b = some true ↔ (sub A all a b).truthy = false) := by
  have hsub := Hist.sub H1 H2 hs
  refine ⟨?_, fun p hp => ?_, ?_⟩
  · rw [← Bool.not_eq_true, C14_truthy_exact_partial L hnd hall (.and hsub H2)]
    rintro ⟨p, _, h1, h2⟩
    exact h1.2 h2
  · rw [Bool.eq_iff_iff, C12_contains_exact L hnd hall (.or hsub (.and H1 H2)) p hp, C12_contains_exact L hnd hall H1 p hp]
    tauto
  · obtain ⟨r, hr, hiff⟩ := C13_containedIn_exact L hnd hall H1 H2
    rw [hr, ← Bool.not_eq_true, C14_truthy_exact_partial L hnd hall hsub, Option.some_inj, hiff]
    constructor
    · rintro h ⟨p, hp, h1, h2⟩; exact h2 (h p hp h1)
    · intro h p hp h1
      by_contra h2
      exact h ⟨p, hp, h1, h2⟩

/-- C18 for `==` on plain objects: the two halves reassemble A. -/
theorem C18_difference_eq (L : A.Lawful Wf) (hnd : all.Nodup) (hall : all ≠ []) {a b : HC D V} {R S : (D → X) → Prop}
    (H1 : Hist A Wf all true a R) (H2 : Hist A Wf all true b S) (hs : SubSafe all a b) :
    eq A (or A all (sub A all a b) (and A all a b)) a = true :=
  (C15_eq_extensional_partial L hnd hall (.or (.sub H1 H2 hs) (.and H1 H2)) H1).2 (fun p _ => by tauto)

end

/-! ### Concrete instance: three interval dimensions -/

namespace Ex

/-- Three dimensions: source peers, destination ports, methods. -/
inductive D3 | src | port | meth
  deriving DecidableEq

def dom3 : D3 → ISet
  | .src => [⟨0, 9⟩]
  | .port => [⟨1, 65535⟩]
  | .meth => [⟨0, 8⟩]

abbrev A3 : VAlg D3 ISet Int := isetAlg dom3
def all3 : List D3 := [.src, .port, .meth]

theorem L3 : A3.Lawful (isetWf dom3) :=
  isetAlg_lawful dom3 (by intro d; cases d <;> decide) (by intro d; cases d <;> decide)

theorem wf_single {d : D3} {s e : Int} (h : s ≤ e) (hm : ∀ x, s ≤ x → x ≤ e → ISet.Mem x (dom3 d)) : isetWf dom3 d [⟨s, e⟩] :=
  ⟨ISet.canonical_singleton.2 h, fun x hx => by
    rw [ISet.mem_singleton] at hx
    exact hm x hx.1 hx.2⟩

/-- The cube `dst_ports: 1-5`. -/
def cPort : D3 → ISet := fun _ => [⟨1, 5⟩]
/-- The cube `src_peers: 1-3, dst_ports: 1-5`. -/
def cBoth : D3 → ISet
  | .src => [⟨1, 3⟩]
  | _ => [⟨1, 5⟩]

theorem wfPort : ∀ d ∈ [D3.port], isetWf dom3 d (cPort d) := by
  intro d hd
  rw [List.mem_singleton.1 hd]
  refine wf_single (by decide) (fun x h1 h2 => ⟨⟨1, 65535⟩, by simp [dom3], ?_⟩)
  simp only [Iv.Mem]; omega

theorem wfBoth : ∀ d ∈ [D3.src, D3.port], isetWf dom3 d (cBoth d) := by
  intro d hd
  simp only [List.mem_cons, List.not_mem_nil, or_false] at hd
  rcases hd with rfl | rfl
  · refine wf_single (by decide) (fun x h1 h2 => ⟨⟨0, 9⟩, by simp [dom3], ?_⟩)
    simp only [Iv.Mem]; omega
  · refine wf_single (by decide) (fun x h1 h2 => ⟨⟨1, 65535⟩, by simp [dom3], ?_⟩)
    simp only [Iv.Mem]; omega

def hPort : HC D3 ISet := fromCube A3 all3 cPort [.port]
def hBoth : HC D3 ISet := fromCube A3 all3 cBoth [.src, .port]

theorem HPort : Hist A3 (isetWf dom3) all3 true hPort (CubePts A3 cPort [.port]) :=
  .cube _ _ (by decide) wfPort
theorem HBoth : Hist A3 (isetWf dom3) all3 true hBoth (CubePts A3 cBoth [.src, .port]) :=
  .cube _ _ (by decide) wfBoth

/-- Non-vacuity: a guarded history with differing active dimensions. -/
example : Hist A3 (isetWf dom3) all3 true (or A3 all3 (sub A3 all3 hPort hBoth) hBoth)
    (fun p => (CubePts A3 cPort [.port] p ∧ ¬ CubePts A3 cBoth [.src, .port] p) ∨ CubePts A3 cBoth [.src, .port] p) :=
  .or (.sub HPort HBoth (Or.inl (by decide +kernel))) HBoth

/-- … whose parts reassemble to the original object. -/
example : eq A3 (or A3 all3 (sub A3 all3 hPort hBoth) hBoth) hPort = true := by decide +kernel
example : containedIn A3 all3 hBoth hPort = some true ∧ containedIn A3 all3 hPort hBoth = some false := by decide +kernel
example : (sub A3 all3 hPort hBoth).act = [.src, .port] ∧ (or A3 all3 (sub A3 all3 hPort hBoth) hBoth).act = [.port] := by
  decide +kernel
example : firstItem A3 all3 hBoth = some (some [1, 1, 0]) := by decide +kernel
example : InDom A3 (fun _ => 1) := by intro d; cases d <;> decide +kernel

/-- C11/C14 are violated by unguarded subtraction: with A = {dst_ports: 1-5} and
B = {src_peers: 1-3, dst_ports: 1-5}, `(A - A) - B` tests as non-empty, contains nothing, and asking
for its first item raises an exception. -/
theorem C11_sub_from_empty_wrong :
    let e := sub A3 all3 (sub A3 all3 hPort hPort) hBoth
    (sub A3 all3 hPort hPort).truthy = false ∧ e.truthy = true ∧ (∀ p, contains A3 e p = false) ∧ firstItem A3 all3 e = none := by
  refine ⟨by decide +kernel, by decide +kernel, ?_, by decide +kernel⟩
  intro p
  have : sub A3 all3 (sub A3 all3 hPort hPort) hBoth =
      ⟨false, [.src, .port], ([([⟨0, 0⟩, ⟨4, 9⟩], false, ([] : List (Entry ISet ([] : List D3))))] : List (Entry ISet [D3.port]))⟩ := by
    rfl
  rw [this]
  simp only [contains, isAll, truthy, neT, containsT]
  simp only [List.find?_cons, List.find?_nil]
  cases h : A3.mem (p D3.src) [⟨0, 0⟩, ⟨4, 9⟩] <;> rfl

/-- The cube `src_peers: 1-3`. -/
def hSrc : HC D3 ISet := fromCube A3 all3 cBoth [.src]

/-- … and then union is wrong as well: with B' = {src_peers: 1-3}, `((A - A) - B') | B'` contains
every point, although the operands have only the points of B'. -/
theorem C10_or_after_unguarded_sub_wrong :
    let e := sub A3 all3 (sub A3 all3 hPort hPort) hSrc
    let p : D3 → Int := fun _ => 7
    contains A3 (or A3 all3 e hSrc) p = true ∧ contains A3 e p = false ∧ contains A3 hSrc p = false := by
  decide +kernel

/-- `ConnectivityProperties` objects are made by adding cubes to an empty object of that class
(nca/CoreDS/ConnectivityProperties.py 79-83). -/
def cpPort : HC D3 ISet := addCube A3 all3 (empty all3 true) cPort [.port]
def cpBoth : HC D3 ISet := addCube A3 all3 (empty all3 true) cBoth [.src, .port]

theorem HcpPort : Hist A3 (isetWf dom3) all3 false cpPort (fun p => False ∨ CubePts A3 cPort [.port] p) :=
  .addCube _ _ (.empty true (by simp)) (by simp) (by decide) wfPort
theorem HcpBoth : Hist A3 (isetWf dom3) all3 false cpBoth (fun p => False ∨ CubePts A3 cBoth [.src, .port] p) :=
  .addCube _ _ (.empty true (by simp)) (by simp) (by decide) wfBoth

/-- C15 is violated by ConnectivityProperties: `{dst_ports: 1-5} | {src_peers: 1-3, dst_ports: 1-5}`
is a set equal to `{dst_ports: 1-5}`, as the containment test in both directions confirms, but `==`
answers False. -/
theorem C15_connprops_eq_incomplete :
    let u := or A3 all3 cpPort cpBoth
    eq A3 u cpPort = false ∧ containedIn A3 all3 u cpPort = some true ∧ containedIn A3 all3 cpPort u = some true := by
  decide +kernel

/-- The same sets as plain objects do compare equal. -/
example : eq A3 (or A3 all3 hPort hBoth) hPort = true := by decide +kernel

/-- The ten-dimension algebra with string dimensions is lawful too, so all theorems above apply to
it; here for a peer domain of two ranges and all strings. -/
example : (connAlg [⟨0, 99⟩, ⟨105, 200⟩] (fun _ _ => True)).Lawful
    (sumWf Dim.isDfa (isetWf (connDom [⟨0, 99⟩, ⟨105, 200⟩])) (fun _ a => ∀ x, a x → True)) :=
  connAlg_lawful _ _ (by decide) (by decide) (fun _ => ⟨"", trivial⟩)

end Ex
end HC
end Verif
