import Verif.PropsCube
/-!
What the policy, layer, configuration and query code uses of connection sets
(`ConnectivityProperties`) and of peer sets (`PeerSet`), as two small algebras, their laws, and the
proof that the hyper-cube sets of `Verif.CubeModel` satisfy the laws.

The split `Ok` / `Strong` reflects a defect proved in `Verif.PropsCube`
(`C11_sub_from_empty_wrong`): subtraction is exact only when the left operand is not empty or has the
first dimension active.  `Ok` objects denote a set; `Strong` objects may in addition stand on the left of
a subtraction.
-/
namespace Verif

/-- Operations on connection sets used outside nca/CoreDS: `ConnectivityProperties()`, `|`, `&`, `-`,
`bool`, `contained_in`, `==`, and membership of a single connection. -/
structure CAlg (C P : Type) where
  empty : C
  or : C → C → C
  and : C → C → C
  sub : C → C → C
  truthy : C → Bool
  contained : C → C → Bool
  eq : C → C → Bool
  mem : P → C → Bool

/-- Laws of connection sets. -/
structure CAlg.Lawful {C P : Type} (K : CAlg C P) (Ok Strong : C → Prop) : Prop where
  strong_ok : ∀ {a}, Strong a → Ok a
  empty_strong : Strong K.empty
  mem_empty : ∀ p, K.mem p K.empty = false
  or_ok : ∀ {a b}, Ok a → Ok b → Ok (K.or a b)
  or_strong : ∀ {a b}, Strong a → Ok b → Strong (K.or a b)
  mem_or : ∀ {a b}, Ok a → Ok b → ∀ p, K.mem p (K.or a b) = (K.mem p a || K.mem p b)
  and_ok : ∀ {a b}, Ok a → Ok b → Ok (K.and a b)
  mem_and : ∀ {a b}, Ok a → Ok b → ∀ p, K.mem p (K.and a b) = (K.mem p a && K.mem p b)
  sub_ok : ∀ {a b}, Strong a → Ok b → Ok (K.sub a b)
  mem_sub : ∀ {a b}, Strong a → Ok b → ∀ p, K.mem p (K.sub a b) = (K.mem p a && !K.mem p b)
  sub_falsy : ∀ {a b}, K.truthy b = false → K.sub a b = a
  sub_empty_strong : ∀ {a b}, Strong a → Ok b → K.truthy a = false → Strong (K.sub a b)
  truthy_iff : ∀ {a}, Ok a → (K.truthy a = true ↔ ∃ p, K.mem p a = true)
  truthy_strong : ∀ {a}, Ok a → K.truthy a = true → Strong a
  contained_iff : ∀ {a b}, Ok a → Ok b → (K.contained a b = true ↔ ∀ p, K.mem p a = true → K.mem p b = true)
  eq_sound : ∀ {a b}, Ok a → Ok b → K.eq a b = true → ∀ p, K.mem p a = K.mem p b

/-- Operations on peer sets used by the policy and layer code (`PeerSet` in nca/CoreDS/Peer.py:
`|`, `&`, `-`, `bool`, `issubset`), with their laws. -/
structure PAlg (E S : Type) where
  empty : S
  or : S → S → S
  and : S → S → S
  sub : S → S → S
  truthy : S → Bool
  mem : E → S → Bool
  mem_empty : ∀ e, mem e empty = false
  mem_or : ∀ a b e, mem e (or a b) = (mem e a || mem e b)
  mem_and : ∀ a b e, mem e (and a b) = (mem e a && mem e b)
  mem_sub : ∀ a b e, mem e (sub a b) = (mem e a && !mem e b)
  truthy_iff : ∀ a, truthy a = true ↔ ∃ e, mem e a = true

/-- The "protocols" entry of a dictionary given to `make_conn_props_from_dict` by the layer code:
absent, `get_protocol_set_with_single_protocol('TCP')`, or `get_non_tcp_protocols()`. -/
inductive ProtoSel | any | tcp | nonTcp
  deriving DecidableEq, Repr

/-- Connection sets over endpoints: a connection `P` has a source, a destination and a protocol. -/
structure Net (C P E S : Type) where
  K : CAlg C P
  Q : PAlg E S
  src : P → E
  dst : P → E
  isTcp : P → Bool
  /-- `ConnectivityProperties.make_conn_props_from_dict` with the keys src_peers, dst_peers and
  protocols (absent: unconstrained); nca/CoreDS/ConnectivityProperties.py 337-340. -/
  rect : Option S → Option S → ProtoSel → C

/-- Whether the protocol of a connection is selected. -/
def ProtoSel.sel : ProtoSel → Bool → Bool
  | .any, _ => true
  | .tcp, t => t
  | .nonTcp, t => !t

/-- Laws of a `Net`. -/
structure Net.Lawful {C P E S : Type} (N : Net C P E S) (Ok Strong : C → Prop) : Prop extends N.K.Lawful Ok Strong where
  rect_strong : ∀ s d k, Strong (N.rect s d k)
  mem_rect : ∀ s d k p, N.K.mem p (N.rect s d k) =
    ((match s with | none => true | some s => N.Q.mem (N.src p) s) &&
     (match d with | none => true | some d => N.Q.mem (N.dst p) d) && k.sel (N.isTcp p))

/-! ### Hyper-cube sets satisfy the laws -/

section
variable {D V X : Type} [DecidableEq D]

/-- The points of the space: every coordinate in the domain of its dimension. -/
abbrev Point (A : VAlg D V X) := { p : D → X // InDom A p }

/-- `ConnectivityProperties` as connection sets (class tag `true`). -/
def hcAlg (A : VAlg D V X) (all : List D) : CAlg (HC D V) (Point A) where
  empty := HC.empty all true
  or := HC.or A all
  and := HC.and A all
  sub := HC.sub A all
  truthy := HC.truthy
  contained := fun a b => HC.containedIn A all a b == some true
  eq := HC.eq A
  mem := fun p h => HC.contains A h p.1

/-- Objects with the representation invariant. -/
abbrev HcOk (A : VAlg D V X) (Wf : D → V → Prop) (all : List D) (h : HC D V) : Prop := HC.Inv A Wf all h

/-- … that are not empty, or are empty with the first dimension active. -/
def HcStrong (A : VAlg D V X) (Wf : D → V → Prop) (all : List D) (h : HC D V) : Prop :=
  HC.Inv A Wf all h ∧ (h.truthy = true ∨ h.act.head? = all.head?)

theorem HC.eq_sound_pt {A : VAlg D V X} {Wf : D → V → Prop} (L : A.Lawful Wf) {all : List D} {h g : HC D V}
    (i : HC.Inv A Wf all h) (j : HC.Inv A Wf all g) (he : HC.eq A h g = true) (p : D → X) : h.Pt A p ↔ g.Pt A p := by
  unfold HC.eq at he
  split at he
  · exact absurd he (by simp)
  · split at he
    · rename_i hf
      simp only [Bool.and_eq_true, Bool.not_eq_true'] at hf
      exact ⟨fun h => absurd h (HC.falsy_pt hf.1 p), fun h => absurd h (HC.falsy_pt hf.2 p)⟩
    · obtain ⟨c1, act1, t1⟩ := h
      obtain ⟨c2, act2, t2⟩ := g
      split at he
      · rename_i heq
        simp only at heq
        subst heq
        exact subEq_sound L (false, t1) (false, t2) i.wf j.wf he p
      · exact absurd he (by simp)

theorem reduce_falsy (A : VAlg D V X) (all : List D) {h : HC D V} (hf : h.truthy = false) : HC.reduce A all h = h := by
  unfold HC.reduce
  simp [hf]

/-- If the first dimension is active, it stays the first one when dimensions are added. -/
theorem common_head {all as : List D} (bs : List D) (h : as.head? = all.head?) : (HC.common all as bs).head? = all.head? := by
  cases all with
  | nil => rfl
  | cons d ds =>
    have hd : d ∈ as := by
      cases as with
      | nil => simp at h
      | cons a as => simp at h; simp [h]
    unfold HC.common
    rw [List.filter_cons_of_pos (by simp [hd])]
    rfl

theorem common_head_right {all bs : List D} (as : List D) (h : bs.head? = all.head?) : (HC.common all as bs).head? = all.head? := by
  cases all with
  | nil => rfl
  | cons d ds =>
    have hd : d ∈ bs := by
      cases bs with
      | nil => simp at h
      | cons a as => simp at h; simp [h]
    unfold HC.common
    rw [List.filter_cons_of_pos (by simp [hd])]
    rfl

theorem common_all (all bs : List D) : HC.common all all bs = all := by
  unfold HC.common
  rw [List.filter_eq_self]
  intro d hd
  simp [hd]

omit [DecidableEq D] in
theorem subT_falsy (A : VAlg D V X) (ds : List D) (t1 t2 : Tree V ds) (h : neT ds t1 = false) : neT ds (subT A ds t1 t2) = false := by
  cases ds with
  | nil => simp [neT] at h
  | cons d ds =>
    have : (t1 : List (Entry V ds)) = [] := by
      have h' : List.isEmpty t1 = true := by simpa [neT] using h
      exact List.isEmpty_iff.1 h'
    rw [this]
    rfl

theorem hcAlg_lawful {A : VAlg D V X} {Wf : D → V → Prop} (L : A.Lawful Wf) {all : List D} (hnd : all.Nodup) (hall : all ≠ []) :
    (hcAlg A all).Lawful (HcOk A Wf all) (HcStrong A Wf all) := by
  have mem : ∀ {h : HC D V}, HC.Inv A Wf all h → ∀ p : Point A, HC.contains A h p.1 = true ↔ h.Pt A p.1 :=
    fun i p => HC.contains_spec i p.1
  have ssafe : ∀ {a b : HC D V}, HcStrong A Wf all a → HC.Inv A Wf all b → HC.SubSafe all a b := by
    intro a b ha hb
    rcases ha.2 with h | h
    · exact Or.inl h
    · exact Or.inr (by rw [common_head b.act h, h])
  constructor
  · intro a h; exact h.1
  · exact ⟨(HC.empty_inv L all hall true).1, Or.inr rfl⟩
  · intro p
    have he := HC.empty_inv (V := V) L all hall true
    change HC.contains A (HC.empty all true) p.1 = false
    rw [← Bool.not_eq_true, mem he.1]
    exact HC.falsy_pt he.2 p.1
  · intro a b ha hb; exact (HC.or_spec L hnd ha hb).1
  · intro a b ha hb
    refine ⟨(HC.or_spec L hnd ha.1 hb).1, ?_⟩
    change (HC.or A all a b).truthy = true ∨ _
    by_cases hbt : b.truthy = true
    · left
      rw [HC.truthy_iff L hnd (HC.or_spec L hnd ha.1 hb).1]
      obtain ⟨p, hp, h⟩ := (HC.truthy_iff L hnd hb).1 hbt
      exact ⟨p, hp, ((HC.or_spec L hnd ha.1 hb).2.1 p hp).2 (Or.inr h)⟩
    · rcases ha.2 with hat | haa
      · left
        rw [HC.truthy_iff L hnd (HC.or_spec L hnd ha.1 hb).1]
        obtain ⟨p, hp, h⟩ := (HC.truthy_iff L hnd ha.1).1 hat
        exact ⟨p, hp, ((HC.or_spec L hnd ha.1 hb).2.1 p hp).2 (Or.inl h)⟩
      · right
        have hbf : b.truthy = false := by simpa using hbt
        have hba : b.isAll = false := by
          rw [← Bool.not_eq_true]
          intro h
          apply hbt
          rw [HC.truthy_iff L hnd hb]
          obtain ⟨p0, hp0⟩ := exists_inDom L
          exact ⟨p0, hp0, HC.isAll_pt h p0⟩
        have haA : a.isAll = false := by
          rw [← Bool.not_eq_true]
          intro h
          simp only [HC.isAll, List.isEmpty_iff] at h
          rw [h] at haa
          cases all with
          | nil => exact hall rfl
          | cons d ds => simp at haa
        change (HC.or A all a b).act.head? = all.head?
        unfold HC.or
        simp [hbf, hba, haA, haa]
  · intro a b ha hb p
    rw [Bool.eq_iff_iff, Bool.or_eq_true]
    have h := HC.or_spec L hnd ha hb
    change HC.contains A (HC.or A all a b) p.1 = true ↔ HC.contains A a p.1 = true ∨ HC.contains A b p.1 = true
    rw [mem h.1, mem ha, mem hb, h.2.1 p.1 p.2]
  · intro a b ha hb; exact (HC.and_spec L hnd hall ha hb).1
  · intro a b ha hb p
    rw [Bool.eq_iff_iff, Bool.and_eq_true]
    have h := HC.and_spec L hnd hall ha hb
    change HC.contains A (HC.and A all a b) p.1 = true ↔ HC.contains A a p.1 = true ∧ HC.contains A b p.1 = true
    rw [mem h.1, mem ha, mem hb, h.2.1 p.1 p.2]
  · intro a b ha hb; exact (HC.sub_spec L hnd hall ha.1 hb (ssafe ha hb)).1
  · intro a b ha hb p
    rw [Bool.eq_iff_iff, Bool.and_eq_true, Bool.not_eq_true', ← Bool.not_eq_true]
    have h := HC.sub_spec L hnd hall ha.1 hb (ssafe ha hb)
    change HC.contains A (HC.sub A all a b) p.1 = true ↔ HC.contains A a p.1 = true ∧ ¬ HC.contains A b p.1 = true
    rw [mem h.1, mem ha.1, mem hb, h.2.1 p.1 p.2]
  · intro a b hb
    change HC.sub A all a b = a
    have hb' : b.truthy = false := hb
    have hba : b.isAll = false := by
      rw [← Bool.not_eq_true]
      intro h
      obtain ⟨c, act, t⟩ := b
      simp only [HC.isAll, List.isEmpty_iff] at h
      subst h
      simp [HC.truthy, neT] at hb'
    unfold HC.sub
    simp [hba, hb']
  · intro a b ha hb haf
    have haf' : a.truthy = false := haf
    have haa : a.act.head? = all.head? := by
      rcases ha.2 with h | h
      · rw [haf'] at h; exact absurd h (by simp)
      · exact h
    refine ⟨(HC.sub_spec L hnd hall ha.1 hb (ssafe ha hb)).1, Or.inr ?_⟩
    change (HC.sub A all a b).act.head? = all.head?
    have core : ∀ a : HC D V, a.truthy = false → a.act.head? = all.head? → (HC.onCommon A all (subT A) a b).act.head? = all.head? := by
      intro a haf haa
      unfold HC.onCommon
      have hf : (⟨a.cls, HC.common all a.act b.act, subT A _ (expand A a.cls a.act (HC.common all a.act b.act) a.tree)
        (expand A b.cls b.act (HC.common all a.act b.act) b.tree)⟩ : HC D V).truthy = false := by
        apply subT_falsy
        exact HC.expand_falsy a.cls a.tree haf (by rw [common_head b.act haa, haa])
      simp only [reduce_falsy A all hf]
      exact common_head b.act haa
    unfold HC.sub
    by_cases hA : b.isAll = true
    · simp only [hA, if_true]
      split
      · rfl
      · exact core _ (HC.empty_inv (V := V) L all hall a.cls).2 rfl
    · simp only [hA, Bool.false_eq_true, if_false]
      split
      · exact haa
      · exact core a haf' haa
  · intro a ha
    change a.truthy = true ↔ ∃ p : Point A, HC.contains A a p.1 = true
    rw [HC.truthy_iff L hnd ha]
    exact ⟨fun ⟨p, hp, h⟩ => ⟨⟨p, hp⟩, (mem ha ⟨p, hp⟩).2 h⟩, fun ⟨p, h⟩ => ⟨p.1, p.2, (mem ha p).1 h⟩⟩
  · intro a ha ht; exact ⟨ha, Or.inl ht⟩
  · intro a b ha hb
    obtain ⟨r, hr, hiff⟩ := HC.containedIn_spec L hnd ha hb
    change (HC.containedIn A all a b == some true) = true ↔ ∀ p : Point A, HC.contains A a p.1 = true → HC.contains A b p.1 = true
    rw [hr, beq_iff_eq, Option.some_inj, hiff]
    exact ⟨fun h p hp => (mem hb p).2 (h p.1 p.2 ((mem ha p).1 hp)),
      fun h p hp hpt => (mem hb ⟨p, hp⟩).1 (h ⟨p, hp⟩ ((mem ha ⟨p, hp⟩).2 hpt))⟩
  · intro a b ha hb he p
    rw [Bool.eq_iff_iff]
    change HC.contains A a p.1 = true ↔ HC.contains A b p.1 = true
    rw [mem ha, mem hb]
    exact HC.eq_sound_pt L ha hb he p.1

/-! ### Rectangles: `make_conn_props_from_dict` -/

/-- `ConnectivityProperties._make_conn_props_no_named_ports_resolution`
(nca/CoreDS/ConnectivityProperties.py 48-70) on a `ConnectivityCube` (nca/CoreDS/ConnectivityCube.py)
given by its value at each dimension: empty if some value is empty (`is_empty` 164-175), otherwise the
cube of the dimensions whose value is not the whole domain (`get_ordered_cube_and_active_dims`
177-194), the whole space if there is none.  SIMPLIFICATION: the empty test of DFA dimensions is
emptiness of the language (the code compares with the DFA of the regular expression ""; C56 in
PropsEmptyValue.lean has the code as it is, and `rectangle_same` says when both agree). -/
def hcOfCube (A : VAlg D V X) (all : List D) (c : D → V) : HC D V :=
  if all.any (fun d => !A.truthy (c d)) then HC.empty all true
  else
    let active := all.filter (fun d => !@decide (c d = A.dom d) (A.decEq _ _))
    if active.isEmpty then HC.full true
    else HC.addCube A all (HC.empty all true) c active

theorem hcOfCube_spec {A : VAlg D V X} {Wf : D → V → Prop} (L : A.Lawful Wf) {all : List D} (hnd : all.Nodup) (hall : all ≠ [])
    (c : D → V) (hw : ∀ d ∈ all, Wf d (c d)) :
    HcStrong A Wf all (hcOfCube A all c) ∧
    ∀ p, InDom A p → (HC.contains A (hcOfCube A all c) p = true ↔ ∀ d ∈ all, A.mem (p d) (c d) = true) := by
  unfold hcOfCube
  split
  · rename_i ha
    obtain ⟨d, hd, hf⟩ := List.any_eq_true.1 ha
    have he := HC.empty_inv (V := V) L all hall true
    refine ⟨⟨he.1, Or.inr rfl⟩, fun p hp => ?_⟩
    rw [HC.contains_spec he.1]
    refine ⟨fun h => absurd h (HC.falsy_pt he.2 p), fun h => ?_⟩
    have := (L.truthy_iff (hw d hd)).2 ⟨p d, h d hd⟩
    rw [this] at hf; exact absurd hf (by simp)
  · rename_i hna
    have hsub : (all.filter (fun d => !@decide (c d = A.dom d) (A.decEq _ _))).Sublist all := List.filter_sublist
    have hmem : ∀ p, InDom A p → ((∀ d ∈ all.filter (fun d => !@decide (c d = A.dom d) (A.decEq _ _)), A.mem (p d) (c d) = true) ↔
        ∀ d ∈ all, A.mem (p d) (c d) = true) := by
      intro p hp
      constructor
      · intro h d hd
        by_cases hdd : c d = A.dom d
        · rw [hdd]; exact hp d
        · exact h d (List.mem_filter.2 ⟨hd, by simp [hdd]⟩)
      · intro h d hd; exact h d (List.mem_filter.1 hd).1
    dsimp only
    split
    · rename_i hemp
      have hnil : all.filter (fun d => !@decide (c d = A.dom d) (A.decEq _ _)) = [] := by simpa using hemp
      refine ⟨⟨HC.full_inv all true, Or.inl rfl⟩, fun p hp => ?_⟩
      rw [HC.contains_spec (HC.full_inv (Wf := Wf) all true), ← hmem p hp, hnil]
      exact ⟨fun _ d hd => absurd hd (by simp), fun _ => trivial⟩
    · rename_i hemp
      have hne : all.filter (fun d => !@decide (c d = A.dom d) (A.decEq _ _)) ≠ [] := by simpa using hemp
      have H : HC.Hist A Wf all false (HC.addCube A all (HC.empty all true) c _)
          (fun p => False ∨ HC.CubePts A c (all.filter (fun d => !@decide (c d = A.dom d) (A.decEq _ _))) p) :=
        .addCube c _ (.empty true (by simp)) hne hsub (fun d hd => hw d (List.mem_filter.1 hd).1)
      have hs := H.spec L hnd hall
      refine ⟨⟨hs.1, Or.inl ((HC.truthy_iff L hnd hs.1).2 ?_)⟩, fun p hp => ?_⟩
      · -- choose a value in every dimension
        obtain ⟨p0, hp0⟩ := exists_inDom L
        have : ∀ d, ∃ x, A.mem x (A.dom d) = true ∧ (d ∈ all → A.mem x (c d) = true) := by
          intro d
          by_cases hd : d ∈ all
          · have ht : A.truthy (c d) = true := by
              by_contra h
              exact hna (List.any_eq_true.2 ⟨d, hd, by simpa using h⟩)
            obtain ⟨x, hx⟩ := (L.truthy_iff (hw d hd)).1 ht
            exact ⟨x, L.sub_dom (hw d hd) x hx, fun _ => hx⟩
          · exact ⟨p0 d, hp0 d, fun h => absurd h hd⟩
        refine ⟨fun d => (this d).choose, fun d => (this d).choose_spec.1, (hs.2.1 _ (fun d => (this d).choose_spec.1)).2 (Or.inr ?_)⟩
        intro d hd
        exact (this d).choose_spec.2 (List.mem_filter.1 hd).1
      · rw [HC.contains_spec hs.1, hs.2.1 p hp, ← hmem p hp, false_or]
        rfl

/-- Legal peer values: allowed both as source and as destination (the two dimensions have the same
domain). -/
abbrev PeerVal (Wf : D → V → Prop) (srcD dstD : D) := { v : V // Wf srcD v ∧ Wf dstD v }

/-- Peer sets as values of the peer dimensions; that `PeerSet` operations agree with the operations on
these values is the subject of C21 and C22. -/
def hcPeers {A : VAlg D V X} {Wf : D → V → Prop} (L : A.Lawful Wf) (srcD dstD : D) (nil : V) (hnil : Wf srcD nil ∧ Wf dstD nil)
    (hn : ∀ x, A.mem x nil = false) : PAlg X (PeerVal Wf srcD dstD) where
  empty := ⟨nil, hnil⟩
  or := fun a b => ⟨A.or a.1 b.1, L.wf_or a.2.1 b.2.1, L.wf_or a.2.2 b.2.2⟩
  and := fun a b => ⟨A.and a.1 b.1, L.wf_and a.2.1 b.2.1, L.wf_and a.2.2 b.2.2⟩
  sub := fun a b => ⟨A.sub a.1 b.1, L.wf_sub a.2.1 b.2.1, L.wf_sub a.2.2 b.2.2⟩
  truthy := fun a => A.truthy a.1
  mem := fun e a => A.mem e a.1
  mem_empty := fun e => hn e
  mem_or := fun a b e => L.mem_or a.2.1 b.2.1 e
  mem_and := fun a b e => L.mem_and a.2.1 b.2.1 e
  mem_sub := fun a b e => L.mem_sub a.2.1 b.2.1 e
  truthy_iff := fun a => L.truthy_iff a.2.1

/-- The cube with the given sources, destinations and protocols, other dimensions unconstrained
(`ConnectivityCube.__init__` 23-35 and `update` 106-113). -/
def rectVal (A : VAlg D V X) (srcD dstD protD : D) (tcp nonTcp : V) (s d : Option V) (k : ProtoSel) : D → V := fun x =>
  if x = srcD then s.getD (A.dom x)
  else if x = dstD then d.getD (A.dom x)
  else if x = protD then (match k with | .any => A.dom x | .tcp => tcp | .nonTcp => nonTcp)
  else A.dom x

/-- Hyper-cube connection sets with sources, destinations and protocols. -/
def hcNet {A : VAlg D V X} {Wf : D → V → Prop} (L : A.Lawful Wf) (all : List D) (srcD dstD protD : D) (nil : V)
    (hnil : Wf srcD nil ∧ Wf dstD nil) (hn : ∀ x, A.mem x nil = false) (tcp nonTcp : V) :
    Net (HC D V) (Point A) X (PeerVal Wf srcD dstD) where
  K := hcAlg A all
  Q := hcPeers L srcD dstD nil hnil hn
  src := fun p => p.1 srcD
  dst := fun p => p.1 dstD
  isTcp := fun p => A.mem (p.1 protD) tcp
  rect := fun s d k => hcOfCube A all (rectVal A srcD dstD protD tcp nonTcp (s.map (·.1)) (d.map (·.1)) k)

/-- Hyper-cube sets satisfy all the laws the policy and layer theorems rely on. -/
theorem hcNet_lawful {A : VAlg D V X} {Wf : D → V → Prop} (L : A.Lawful Wf) {all : List D} (hnd : all.Nodup) (hall : all ≠ [])
    {srcD dstD protD : D} (h1 : srcD ∈ all) (h2 : dstD ∈ all) (h3 : protD ∈ all) (hsd : srcD ≠ dstD) (hsp : srcD ≠ protD)
    (hdp : dstD ≠ protD) {nil : V} (hnil : Wf srcD nil ∧ Wf dstD nil) (hn : ∀ x, A.mem x nil = false) {tcp nonTcp : V}
    (wt : Wf protD tcp) (wn : Wf protD nonTcp)
    (hpart : ∀ x, A.mem x (A.dom protD) = true → A.mem x nonTcp = !A.mem x tcp) :
    (hcNet L all srcD dstD protD nil hnil hn tcp nonTcp).Lawful (HcOk A Wf all) (HcStrong A Wf all) := by
  have wf : ∀ (s d : Option (PeerVal Wf srcD dstD)) k, ∀ x ∈ all,
      Wf x (rectVal A srcD dstD protD tcp nonTcp (s.map (·.1)) (d.map (·.1)) k x) := by
    intro s d k x _
    unfold rectVal
    split
    · subst x
      cases s with
      | none => exact L.wf_dom _
      | some s => exact s.2.1
    · split
      · subst x
        cases d with
        | none => exact L.wf_dom _
        | some d => exact d.2.2
      · split
        · subst x
          cases k with
          | any => exact L.wf_dom _
          | tcp => exact wt
          | nonTcp => exact wn
        · exact L.wf_dom _
  refine ⟨hcAlg_lawful L hnd hall, fun s d k => (hcOfCube_spec L hnd hall _ (wf s d k)).1, fun s d k p => ?_⟩
  have h := (hcOfCube_spec L hnd hall _ (wf s d k)).2 p.1 p.2
  rw [Bool.eq_iff_iff]
  refine Iff.trans h ?_
  constructor
  · intro hp
    have a1 := hp srcD h1
    have a2 := hp dstD h2
    have a3 := hp protD h3
    simp only [rectVal, if_true, hsd.symm, hsp.symm, hdp.symm, if_false] at a1 a2 a3
    rw [Bool.and_eq_true, Bool.and_eq_true]
    refine ⟨⟨?_, ?_⟩, ?_⟩
    · cases s with
      | none => rfl
      | some s => exact a1
    · cases d with
      | none => rfl
      | some d => exact a2
    · cases k with
      | any => rfl
      | tcp => exact a3
      | nonTcp =>
        have := hpart _ (p.2 protD)
        change (!A.mem (p.1 protD) tcp) = true
        rw [← this]; exact a3
  · intro hp x _
    rw [Bool.and_eq_true, Bool.and_eq_true] at hp
    unfold rectVal
    split
    · subst x
      cases s with
      | none => exact p.2 _
      | some s => exact hp.1.1
    · split
      · subst x
        cases d with
        | none => exact p.2 _
        | some d => exact hp.1.2
      · split
        · subst x
          cases k with
          | any => exact p.2 _
          | tcp => exact hp.2
          | nonTcp =>
            change A.mem _ nonTcp = true
            rw [hpart _ (p.2 protD)]; exact hp.2
        · exact p.2 _

end
end Verif
