import Verif.PlainModel
import Verif.PropsRepr
import Verif.PropsLegendDraw
/-!
C70: what the plain list of connections (output format `txt_no_fw_rules`) tells.
-/
namespace Verif.PlainList
open Fw HC

section
variable {D V X π : Type} [DecidableEq D] [DecidableEq π]

/-! ### Specification -/

/-- The pieces of a value cover exactly this value. -/
structure Named.Covers (N : Named V X π) (A : VAlg D V X) (Wf : D → V → Prop) (d : D) : Prop where
  pieces : ∀ {v : V}, Wf d v → ∀ x, A.mem x v = true ↔ ∃ s ∈ N.pieces v, N.isIn x s = true

/-- The pieces of the legal values of a peer dimension. -/
def Named.Piece (N : Named V X π) (Wf : D → V → Prop) (d : D) (s : π) : Prop := ∃ v, Wf d v ∧ s ∈ N.pieces v

/-- Pieces with the same name are the same set of peers. -/
def Named.Distinct (N : Named V X π) (Wf : D → V → Prop) (d : D) : Prop :=
  ∀ s s' : π, N.Piece Wf d s → N.Piece Wf d s' → N.name s = N.name s' → ∀ x, N.isIn x s = N.isIn x s'

/-- The connection is of the protocols of the part of the list. -/
def Of (A : VAlg D V X) (protD : D) (tcp nonTcp : V) : ProtoSel → (D → X) → Prop
  | .any, _ => True
  | .tcp, p => A.mem (p protD) tcp = true
  | .nonTcp, p => A.mem (p protD) nonTcp = true

/-- How a line is read: it tells that every connection from a peer with the first name to a peer with the second name, of
the protocols of the part of the list, with attributes in the printed set, is allowed. -/
def Tells (A : VAlg D V X) (Wf : D → V → Prop) (srcD dstD protD : D) (tcp nonTcp : V) (N : Named V X π) (ports : D) (r : ProtoSel) (l : Line D V)
    (p : D → X) : Prop :=
  (∃ s, N.Piece Wf srcD s ∧ N.name s = l.src ∧ N.isIn (p srcD) s = true) ∧
    (∃ d, N.Piece Wf dstD d ∧ N.name d = l.dst ∧ N.isIn (p dstD) d = true) ∧
    Of A protD tcp nonTcp r p ∧ l.conns.Means A ports p

/-- The peers of the connection are never in one piece and, if these are left out, never in pieces with the same name
(so not both are addresses). -/
def Apart (Wf : D → V → Prop) (srcD dstD : D) (N : Named V X π) (excl : Bool) (p : D → X) : Prop :=
  ∀ s d, N.Piece Wf srcD s → N.Piece Wf dstD d → N.isIn (p srcD) s = true → N.isIn (p dstD) d = true → s ≠ d ∧ (excl = true → N.name s ≠ N.name d)

/-! ### Proofs -/

variable {A : VAlg D V X} {Wf : D → V → Prop} {all : List D}

theorem hcOfCube_hist (c : D → V) (hw : ∀ d ∈ all, Wf d (c d)) : ∃ S, Hist A Wf all false (hcOfCube A all c) S := by
  unfold hcOfCube
  split
  · exact ⟨_, .empty true (by simp)⟩
  · dsimp only
    split
    · exact ⟨_, .full true (by simp)⟩
    · rename_i hemp
      exact ⟨_, .addCube c _ (.empty true (by simp)) (by simpa using hemp) List.filter_sublist
        (fun d hd => hw d (List.mem_filter.1 hd).1)⟩

/-- What is printed for a cube of attributes denotes this cube. -/
theorem cube_means (L : A.Lawful Wf) (hnd : all.Nodup) (hall : all ≠ []) (c : D → V) (hw : ∀ d ∈ all, Wf d (c d)) (prot ports : D)
    (len : List (List (D × V)) → Nat) {p : D → X} (hp : InDom A p) :
    (simplified A all prot len true (hcOfCube A all c)).Means A ports p ↔ ∀ d ∈ all, A.mem (p d) (c d) = true := by
  obtain ⟨S, H⟩ := hcOfCube_hist (A := A) c hw
  have h1 := C40_simplified_exact L hnd hall H prot ports len true hp
  have i := H.spec L hnd hall
  have h2 := (hcOfCube_spec L hnd hall c hw).2 p hp
  rw [contains_spec i.1, i.2.1 p hp] at h2
  rw [h1, h2]

variable {srcD dstD protD : D} {tcp nonTcp : V}

theorem withoutPeers_wf (L : A.Lawful Wf) {v : D → V} (hv : ∀ d, Wf d (v d)) (r : ProtoSel) (d : D) :
    Wf d (withoutPeers A srcD dstD protD tcp nonTcp r v d) := by
  unfold withoutPeers
  split
  · exact L.wf_dom d
  · split
    · rename_i hd
      subst hd
      unfold unsetProtos
      cases r
      · exact hv d
      · dsimp only; split
        · exact L.wf_dom d
        · exact hv d
      · dsimp only; split
        · exact L.wf_dom d
        · exact hv d
    · exact hv d

theorem withoutPeers_mem {v : D → V} {r : ProtoSel} {p : D → X} (hp : InDom A p) (hr : Of A protD tcp nonTcp r p) {d : D}
    (h1 : d ≠ srcD) (h2 : d ≠ dstD) :
    A.mem (p d) (withoutPeers A srcD dstD protD tcp nonTcp r v d) = true ↔ A.mem (p d) (v d) = true := by
  unfold withoutPeers
  rw [if_neg (by simp [h1, h2])]
  split
  · rename_i hd
    subst hd
    unfold unsetProtos
    cases r
    · exact Iff.rfl
    · dsimp only
      split
      · rename_i hv
        have hv := @of_decide_eq_true _ (A.decEq _ _) hv
        rw [hv]
        exact ⟨fun _ => hr, fun _ => hp d⟩
      · exact Iff.rfl
    · dsimp only
      split
      · rename_i hv
        have hv := @of_decide_eq_true _ (A.decEq _ _) hv
        rw [hv]
        exact ⟨fun _ => hr, fun _ => hp d⟩
      · exact Iff.rfl
  · exact Iff.rfl

theorem withoutPeers_peer {v : D → V} {r : ProtoSel} {p : D → X} (hp : InDom A p) {d : D} (h : d = srcD ∨ d = dstD) :
    A.mem (p d) (withoutPeers A srcD dstD protD tcp nonTcp r v d) = true := by
  unfold withoutPeers
  rw [if_pos h]
  exact hp d

variable {N : Named V X π} {len : List (List (D × V)) → Nat} {excl : Bool} {r : ProtoSel}

omit [DecidableEq D] in
theorem mem_pairLine {rep : Rep D V} {s d : π} {l : Line D V} :
    pairLine N excl rep s d = some l ↔ s ≠ d ∧ (excl = true → N.name s ≠ N.name d) ∧ l = ⟨N.name s, N.name d, rep⟩ := by
  unfold pairLine
  split
  · rename_i h; simp [h]
  · rename_i h
    split
    · rename_i h'
      simp only [Bool.and_eq_true, decide_eq_true_eq] at h'
      simp [h', h]
    · rename_i h'
      simp only [Bool.and_eq_true, decide_eq_true_eq, not_and] at h'
      simp only [Option.some.injEq]
      exact ⟨fun e => ⟨h, h', e.symm⟩, fun e => e.2.2.symm⟩

theorem mem_lines {h : HC D V} {l : Line D V} :
    l ∈ lines A all srcD dstD protD tcp nonTcp N len excl r h ↔
      ∃ cube ∈ HC.cubes A all h, (propsOf A all srcD dstD protD tcp nonTcp r (cubeVal A h.act cube)).truthy = true ∧
        ∃ s ∈ N.pieces (cubeVal A h.act cube srcD), ∃ d ∈ N.pieces (cubeVal A h.act cube dstD),
          s ≠ d ∧ (excl = true → N.name s ≠ N.name d) ∧
          l = ⟨N.name s, N.name d, simplified A all protD len true (propsOf A all srcD dstD protD tcp nonTcp r (cubeVal A h.act cube))⟩ := by
  unfold lines
  rw [List.mem_flatMap]
  refine exists_congr fun cube => and_congr_right fun _ => ?_
  unfold cubeLines
  dsimp only
  split
  · rename_i ht
    simp only [Bool.not_eq_true'] at ht
    simp [ht]
  · rename_i ht
    simp only [Bool.not_eq_true', Bool.not_eq_false] at ht
    simp only [ht, true_and, List.mem_flatMap, List.mem_filterMap, mem_pairLine]

/-- C70: no line is about a peer or address range and itself, and none about peers with the same name if these are left
out (always, in connectivity maps). -/
theorem C70_no_self {h : HC D V} {l : Line D V} (hl : l ∈ lines A all srcD dstD protD tcp nonTcp N len excl r h) :
    (∃ s d, s ≠ d ∧ N.name s = l.src ∧ N.name d = l.dst) ∧ (excl = true → l.src ≠ l.dst) := by
  obtain ⟨cube, -, -, s, -, d, -, h1, h2, rfl⟩ := mem_lines.1 hl
  exact ⟨⟨s, d, h1, rfl, rfl⟩, h2⟩

/-- C70: every line is true of some peers with the names of the line. -/
theorem C70_true (L : A.Lawful Wf) (hnd : all.Nodup) (hall : all ≠ []) (c1 : N.Covers A Wf srcD) (c2 : N.Covers A Wf dstD) (ports : D)
    {h : HC D V} (i : Inv A Wf all h) {l : Line D V} (hl : l ∈ lines A all srcD dstD protD tcp nonTcp N len excl r h) :
    ∃ s d, N.Piece Wf srcD s ∧ N.Piece Wf dstD d ∧ N.name s = l.src ∧ N.name d = l.dst ∧ ∀ p, InDom A p → N.isIn (p srcD) s = true → N.isIn (p dstD) d = true →
      Of A protD tcp nonTcp r p → l.conns.Means A ports p → h.Pt A p := by
  obtain ⟨cube, hc, -, s, hs, d, hd, -, -, rfl⟩ := mem_lines.1 hl
  have cv := cubes_val L hnd i
  have hw := fun d => (cv.1 cube hc d).1
  refine ⟨s, d, ⟨_, hw _, hs⟩, ⟨_, hw _, hd⟩, rfl, rfl, fun p hp ps pd hr hm => (cv.2 p hp).2 ⟨cube, hc, fun e => ?_⟩⟩
  by_cases h1 : e = srcD
  · subst h1; exact (c1.pieces (hw e) _).2 ⟨s, hs, ps⟩
  by_cases h2 : e = dstD
  · subst h2; exact (c2.pieces (hw e) _).2 ⟨d, hd, pd⟩
  by_cases h3 : e ∈ all
  · exact (withoutPeers_mem hp hr h1 h2).1 ((cube_means L hnd hall _ (fun d _ => withoutPeers_wf L hw r d) protD ports len hp).1 hm e h3)
  · rw [cubeVal_none (fun h => h3 (i.sub.subset h))]
    exact hp e

/-- C70: every allowed connection between peers that are told apart is told by a line. -/
theorem C70_complete (L : A.Lawful Wf) (hnd : all.Nodup) (hall : all ≠ []) (c1 : N.Covers A Wf srcD) (c2 : N.Covers A Wf dstD)
    (ports : D) {h : HC D V} (i : Inv A Wf all h) {p : D → X} (hp : InDom A p) (ha : Apart Wf srcD dstD N excl p)
    (hr : Of A protD tcp nonTcp r p) (hpt : h.Pt A p) :
    ∃ l ∈ lines A all srcD dstD protD tcp nonTcp N len excl r h, Tells A Wf srcD dstD protD tcp nonTcp N ports r l p := by
  have cv := cubes_val L hnd i
  obtain ⟨cube, hc, hm⟩ := (cv.2 p hp).1 hpt
  have hw := fun d => (cv.1 cube hc d).1
  obtain ⟨s, hs, ps⟩ := (c1.pieces (hw srcD) _).1 (hm srcD)
  obtain ⟨d, hd, pd⟩ := (c2.pieces (hw dstD) _).1 (hm dstD)
  have ss : N.Piece Wf srcD s := ⟨_, hw _, hs⟩
  have dd : N.Piece Wf dstD d := ⟨_, hw _, hd⟩
  have hw' : ∀ d ∈ all, Wf d (withoutPeers A srcD dstD protD tcp nonTcp r (cubeVal A h.act cube) d) := fun d _ => withoutPeers_wf L hw r d
  have hall' : ∀ e ∈ all, A.mem (p e) (withoutPeers A srcD dstD protD tcp nonTcp r (cubeVal A h.act cube) e) = true := by
    intro e _
    by_cases h1 : e = srcD
    · exact withoutPeers_peer hp (Or.inl h1)
    by_cases h2 : e = dstD
    · exact withoutPeers_peer hp (Or.inr h2)
    exact (withoutPeers_mem hp hr h1 h2).2 (hm e)
  have hsp := hcOfCube_spec L hnd hall _ hw'
  refine ⟨⟨N.name s, N.name d, _⟩, mem_lines.2 ⟨cube, hc, ?_, s, hs, d, hd, (ha s d ss dd ps pd).1, (ha s d ss dd ps pd).2, rfl⟩,
    ⟨s, ss, rfl, ps⟩, ⟨d, dd, rfl, pd⟩, hr, (cube_means L hnd hall _ hw' protD ports len hp).2 hall'⟩
  exact (truthy_iff L hnd hsp.1.1).2 ⟨p, hp, (contains_spec hsp.1.1 p).1 ((hsp.2 p hp).2 hall')⟩

/-- C70: if peers have distinct names, the lines tell exactly the allowed connections.  Partial: workloads with several
replicas have one name for all of them (`C70_shared_name_wrong`). -/
theorem C70_exact_partial (L : A.Lawful Wf) (hnd : all.Nodup) (hall : all ≠ []) (c1 : N.Covers A Wf srcD) (c2 : N.Covers A Wf dstD)
    (n1 : N.Distinct Wf srcD) (n2 : N.Distinct Wf dstD) (ports : D) {h : HC D V} (i : Inv A Wf all h) {p : D → X} (hp : InDom A p) (ha : Apart Wf srcD dstD N excl p) :
    (∃ l ∈ lines A all srcD dstD protD tcp nonTcp N len excl r h, Tells A Wf srcD dstD protD tcp nonTcp N ports r l p) ↔
      h.Pt A p ∧ Of A protD tcp nonTcp r p := by
  constructor
  · rintro ⟨l, hl, ⟨s', ss', hs', ps⟩, ⟨d', dd', hd', pd⟩, hr, hm⟩
    obtain ⟨s, d, ss, dd, hs, hd, hall⟩ := C70_true L hnd hall c1 c2 ports i hl
    refine ⟨hall p hp ?_ ?_ hr hm, hr⟩
    · rw [n1 s s' ss ss' (by rw [hs, hs'])]; exact ps
    · rw [n2 d d' dd dd' (by rw [hd, hd'])]; exact pd
  · rintro ⟨hpt, hr⟩
    exact C70_complete L hnd hall c1 c2 ports i hp ha hr hpt

theorem common_safe {h : HC D V} (hs : HcStrong A Wf all h) (g : HC D V) : SubSafe all h g := by
  rcases hs.2 with ht | hh
  · exact Or.inl ht
  · exact Or.inr (by rw [common_head _ hh, hh])

/-- The two parts of a connection set. -/
theorem splitHc_spec (L : A.Lawful Wf) (hnd : all.Nodup) (hall : all ≠ []) (hpr : protD ∈ all) (wt : Wf protD tcp)
    (hpart : ∀ x, A.mem x (A.dom protD) = true → A.mem x nonTcp = !A.mem x tcp) {h : HC D V} {S : (D → X) → Prop}
    (hS : ∀ p, InDom A p → (h.Pt A p ↔ S p)) (hs : HcStrong A Wf all h) :
    (Inv A Wf all (splitHc A all protD tcp h).1 ∧
      ∀ p, InDom A p → ((splitHc A all protD tcp h).1.Pt A p ↔ S p ∧ Of A protD tcp nonTcp .tcp p)) ∧
    (Inv A Wf all (splitHc A all protD tcp h).2 ∧
      ∀ p, InDom A p → ((splitHc A all protD tcp h).2.Pt A p ↔ S p ∧ Of A protD tcp nonTcp .nonTcp p)) := by
  have hw : ∀ d ∈ all, Wf d (if d = protD then tcp else A.dom d) := by
    intro d _
    split
    · rename_i hd; subst hd; exact wt
    · exact L.wf_dom d
  have hT := hcOfCube_spec L hnd hall _ hw
  have s1 := and_spec L hnd hall hs.1 hT.1.1
  have s2 := sub_spec L hnd hall hs.1 s1.1 (common_safe hs _)
  have hT : ∀ p, InDom A p → ((hcOfCube A all (fun d => if d = protD then tcp else A.dom d)).Pt A p ↔ A.mem (p protD) tcp = true) := by
    intro p hp
    rw [← contains_spec hT.1.1, hT.2 p hp]
    constructor
    · intro h; simpa using h protD hpr
    · intro h d _
      split
      · rename_i hd; subst hd; exact h
      · exact hp d
  refine ⟨⟨s1.1, fun p hp => ?_⟩, ⟨s2.1, fun p hp => ?_⟩⟩
  · rw [← hS p hp]
    exact (s1.2.1 p hp).trans (and_congr_right fun _ => hT p hp)
  · rw [← hS p hp]
    refine (s2.2.1 p hp).trans ?_
    rw [s1.2.1 p hp, hT p hp]
    have := hpart _ (hp protD)
    simp only [Of, this, Bool.not_eq_true']
    cases A.mem (p protD) tcp <;> simp

theorem list_exact (L : A.Lawful Wf) (hnd : all.Nodup) (hall : all ≠ []) (hpr : protD ∈ all) (wt : Wf protD tcp)
    (hpart : ∀ x, A.mem x (A.dom protD) = true → A.mem x nonTcp = !A.mem x tcp)
    (c1 : N.Covers A Wf srcD) (c2 : N.Covers A Wf dstD) (n1 : N.Distinct Wf srcD) (n2 : N.Distinct Wf dstD) (ports : D) {h : HC D V} {S : (D → X) → Prop}
    (hS : ∀ p, InDom A p → (h.Pt A p ↔ S p)) (hs : HcStrong A Wf all h) (istio : Bool) {p : D → X} (hp : InDom A p)
    (ha : Apart Wf srcD dstD N true p) :
    ((∃ part ∈ sections A all srcD dstD protD tcp nonTcp N len istio h, ∃ l ∈ part.2,
      Tells A Wf srcD dstD protD tcp nonTcp N ports part.1 l p) ↔ S p) ∧
    (∀ part ∈ sections A all srcD dstD protD tcp nonTcp N len istio h,
      (∃ l ∈ part.2, Tells A Wf srcD dstD protD tcp nonTcp N ports part.1 l p) ↔ S p ∧ Of A protD tcp nonTcp part.1 p) := by
  have key : ∀ part ∈ sections A all srcD dstD protD tcp nonTcp N len istio h,
      ((∃ l ∈ part.2, Tells A Wf srcD dstD protD tcp nonTcp N ports part.1 l p) ↔ S p ∧ Of A protD tcp nonTcp part.1 p) := by
    unfold sections
    cases istio
    · simp only [Bool.false_eq_true, if_false, List.mem_singleton, forall_eq]
      rw [C70_exact_partial L hnd hall c1 c2 n1 n2 ports hs.1 hp ha, hS p hp]
    · have sp := splitHc_spec L hnd hall hpr wt hpart hS hs
      simp only [if_true, List.mem_cons, List.not_mem_nil, or_false, forall_eq_or_imp, forall_eq]
      constructor
      · rw [C70_exact_partial L hnd hall c1 c2 n1 n2 ports sp.1.1 hp ha, sp.1.2 p hp, and_assoc, and_self]
      · rw [C70_exact_partial L hnd hall c1 c2 n1 n2 ports sp.2.1 hp ha, sp.2.2 p hp, and_assoc, and_self]
  refine ⟨⟨?_, fun hSp => ?_⟩, key⟩
  · rintro ⟨part, hpart', l⟩
    exact ((key part hpart').1 l).1
  · have : ∃ part ∈ sections A all srcD dstD protD tcp nonTcp N len istio h, Of A protD tcp nonTcp part.1 p := by
      unfold sections
      cases istio
      · exact ⟨_, List.mem_singleton.2 rfl, trivial⟩
      · cases ht : A.mem (p protD) tcp
        · refine ⟨_, List.mem_cons_of_mem _ (List.mem_singleton.2 rfl), ?_⟩
          simp [Of, hpart _ (hp protD), ht]
        · exact ⟨_, List.mem_cons_self, ht⟩
    obtain ⟨part, hm, ho⟩ := this
    exact ⟨part, hm, (key part hm).2 ⟨hSp, ho⟩⟩

/-- C70: the whole list tells exactly the allowed connections, also when it is split into TCP and non-TCP connections:
a connection between peers that are told apart is allowed exactly if a line of some part tells it, and no part tells of
connections of other protocols. -/
theorem C70_list_partial (L : A.Lawful Wf) (hnd : all.Nodup) (hall : all ≠ []) (hpr : protD ∈ all) (wt : Wf protD tcp)
    (hpart : ∀ x, A.mem x (A.dom protD) = true → A.mem x nonTcp = !A.mem x tcp)
    (c1 : N.Covers A Wf srcD) (c2 : N.Covers A Wf dstD) (n1 : N.Distinct Wf srcD) (n2 : N.Distinct Wf dstD) (ports : D) {h : HC D V} {S : (D → X) → Prop}
    (H : Hist A Wf all false h S) (hs : HcStrong A Wf all h) (istio : Bool) {p : D → X} (hp : InDom A p)
    (ha : Apart Wf srcD dstD N true p) :
    ((∃ part ∈ sections A all srcD dstD protD tcp nonTcp N len istio h, ∃ l ∈ part.2,
      Tells A Wf srcD dstD protD tcp nonTcp N ports part.1 l p) ↔ S p) ∧
    (∀ part ∈ sections A all srcD dstD protD tcp nonTcp N len istio h,
      (∃ l ∈ part.2, Tells A Wf srcD dstD protD tcp nonTcp N ports part.1 l p) ↔ S p ∧ Of A protD tcp nonTcp part.1 p) :=
  list_exact L hnd hall hpr wt hpart c1 c2 n1 n2 ports (H.spec L hnd hall).2.1 hs istio hp ha

/-! ### The text -/

omit [DecidableEq D] in
theorem mem_adds {text : Rep D V → String} (ls : List (Line D V)) (acc : List String) (x : String) :
    x ∈ ls.foldl (fun acc l => Legend.sadd (l.text text) acc) acc ↔ x ∈ acc ∨ ∃ l ∈ ls, x = l.text text := by
  induction ls generalizing acc with
  | nil => simp
  | cons l ls ih =>
    rw [List.foldl_cons, ih, Legend.mem_sadd]
    simp only [List.exists_mem_cons_iff]
    constructor
    · rintro ((h | h) | h) <;> simp [h]
    · rintro (h | h | h) <;> simp [h]

omit [DecidableEq D] in
theorem nodup_adds {text : Rep D V → String} (ls : List (Line D V)) (acc : List String) (h : acc.Nodup) :
    (ls.foldl (fun acc l => Legend.sadd (l.text text) acc) acc).Nodup := by
  induction ls generalizing acc with
  | nil => exact h
  | cons l ls ih => exact ih _ (Legend.nodup_sadd h)

omit [DecidableEq D] in
/-- C70: the text has the header of its part, if there is one, and then one line of text for each of the lines, in
increasing order and each only once. -/
theorem C70_text (text : Rep D V → String) (msg : Option String) (ls : List (Line D V)) :
    ∃ body, textLines text msg ls = msg.toList ++ body ∧
      (∀ x, x ∈ body ↔ ∃ l ∈ ls, x = l.src ++ " => " ++ l.dst ++ " : " ++ text l.conns) ∧ body.Pairwise (· < ·) := by
  refine ⟨_, rfl, fun x => ?_, ?_⟩
  · rw [(Legend.sortBy_perm Legend.leText _).mem_iff, mem_adds]
    simp [Line.text]
  · have hs := Legend.sortBy_sorted Legend.leText Legend.leText_total Legend.leText_trans
      (ls.foldl (fun acc l => Legend.sadd (l.text text) acc) [])
    have hn := ((Legend.sortBy_perm Legend.leText _).nodup_iff).2 (nodup_adds (text := text) ls [] List.nodup_nil)
    refine List.Pairwise.imp₂ ?_ hs hn
    intro a b hab hne
    simp only [Legend.leText, decide_eq_true_eq] at hab
    rcases Legend.lt_or_eq_or_gt a b with h | h | h
    · exact h
    · exact absurd h hne
    · exact absurd h (String.not_lt.2 hab)

/-- C70: the headers of the parts, in their order. -/
theorem C70_headers {istio : Bool} {h : HC D V} :
    (sections A all srcD dstD protD tcp nonTcp N len istio h).map (fun s => header s.1) =
      if istio then [some "TCP Connections:", some "non-TCP Connections:"] else [none] := by
  unfold sections
  cases istio <;> rfl

end
end Verif.PlainList
