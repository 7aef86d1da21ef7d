import Verif.CubeInst
import Verif.QueryExact
import Verif.PropsPeers
import Verif.BaseSets
/-!
The connection sets of the program: hyper-cube sets over the ten dimensions of
`ConnectivityCube.all_dimensions_list` (nca/CoreDS/ConnectivityCube.py 20-21), with peers as indices
(`BasePeerSet`, nca/CoreDS/Peer.py 687-811).  They satisfy all the laws the theorems about policies, layers,
configurations and queries rely on, whatever the domain of the peer dimensions.

The algebra of the two string dimensions (`hosts`, `paths`) is a parameter `A2`; `langAlg` of `Verif.CubeInst` is
the one the program is meant to have.
-/
namespace Verif
open ISet

/-- A domain of the peer dimensions: the default one (DimensionsManager.py 50, `Base.all`) or the one set for a
query (NetworkConfigQuery.py 84-87). -/
structure PeerDom where
  idx : ISet
  canon : Canonical idx
  ne : ISet.truthy idx = true
  sub : ∀ z, Mem z idx → Mem z Base.all

theorem Base.all_mem (z : Int) : Mem z Base.all ↔ (0 ≤ z ∧ z ≤ maxIpv4Index) ∨ (minIpv6Index ≤ z ∧ z ≤ maxIpv6Index) ∨
    (minPodIndex ≤ z ∧ z ≤ maxPodIndex) := by
  have h1 := addInterval_spec [] ⟨0, maxIpv4Index⟩ canonical_nil (by decide)
  have h2 := addInterval_spec _ ⟨minIpv6Index, maxIpv6Index⟩ h1.1 (by decide)
  have h3 := addInterval_spec _ ⟨minPodIndex, maxPodIndex⟩ h2.1 (by decide)
  unfold Base.all
  rw [h3.2, h2.2, h1.2]
  simp only [Iv.Mem, not_mem_nil, false_or, or_assoc]

theorem Base.all_canonical : Canonical Base.all := by
  have h1 := addInterval_spec [] ⟨0, maxIpv4Index⟩ canonical_nil (by decide)
  have h2 := addInterval_spec _ ⟨minIpv6Index, maxIpv6Index⟩ h1.1 (by decide)
  exact (addInterval_spec _ ⟨minPodIndex, maxPodIndex⟩ h2.1 (by decide)).1

/-- The default domain. -/
def PeerDom.default : PeerDom where
  idx := Base.all
  canon := Base.all_canonical
  ne := (truthy_spec _ Base.all_canonical).2 ⟨0, (Base.all_mem 0).2 (Or.inl (by decide))⟩
  sub := fun _ h => h

section
variable {V2 X2 : Type} (A2 : VAlg Dim V2 X2) (W2 : Dim → V2 → Prop) (B : PeerDom)

/-- The value algebra of connection properties, with any algebra of string values. -/
abbrev connA : VAlg Dim (ISet ⊕ V2) (Int ⊕ X2) := sumAlg Dim.isDfa (isetAlg (connDom B.idx)) A2

/-- Legal values. -/
abbrev connWf : Dim → ISet ⊕ V2 → Prop := sumWf Dim.isDfa (isetWf (connDom B.idx)) W2

variable {A2 W2}

theorem connA_lawful (L2 : A2.Lawful W2) : (connA A2 B).Lawful (connWf W2 B) := by
  refine sumAlg_lawful _ (isetAlg_lawful _ ?_ ?_) L2
  · intro d; cases d <;> first | exact B.canon | exact canonical_singleton.2 (by decide)
  · intro d; cases d <;> first | exact B.ne | rfl

/-- The values of the peer dimensions. -/
abbrev ConnPeers (W2 : Dim → V2 → Prop) (B : PeerDom) := PeerVal (connWf W2 B) .srcPeers .dstPeers

/-- A set of indices within the domain, as a value of the peer dimensions. -/
def peersOf (W2 : Dim → V2 → Prop) (B : PeerDom) (l : ISet) (h : Canonical l ∧ ∀ z, Mem z l → Mem z B.idx) : ConnPeers W2 B :=
  ⟨.inl l, ⟨rfl, h⟩, ⟨rfl, h⟩⟩

theorem nil_legal : Canonical [] ∧ ∀ z, Mem z [] → Mem z B.idx := ⟨canonical_nil, fun _ h => absurd h not_mem_nil⟩

/-- The part of a set of indices within one interval. -/
def part (l : ISet) (a b : Int) : ISet := inter l [⟨a, b⟩]

theorem part_spec {l : ISet} (h : Canonical l) {a b : Int} (hab : a ≤ b) :
    Canonical (part l a b) ∧ ∀ z, Mem z (part l a b) ↔ Mem z l ∧ a ≤ z ∧ z ≤ b := by
  have := inter_spec l [⟨a, b⟩] h (canonical_singleton.2 hab)
  refine ⟨this.1, fun z => ?_⟩
  rw [part, this.2, mem_singleton]; rfl

/-- The numbers of a set, one by one. -/
def numbers (l : ISet) : List Int := l.flatMap (fun i => ProtocolSet.pyRange i.s i.e)

theorem mem_pyRange (a b z : Int) : z ∈ ProtocolSet.pyRange a b ↔ a ≤ z ∧ z ≤ b := by
  unfold ProtocolSet.pyRange
  simp only [List.mem_map, List.mem_range]
  constructor
  · rintro ⟨n, h, rfl⟩; omega
  · intro h
    exact ⟨(z - a).toNat, by omega, by omega⟩

theorem mem_numbers (l : ISet) (z : Int) : z ∈ numbers l ↔ Mem z l := by
  unfold numbers Mem
  simp only [List.mem_flatMap, mem_pyRange]
  rfl

/-- A peer value is a legal set of indices. -/
theorem ConnPeers.legal {B : PeerDom} (v : ConnPeers W2 B) : ∃ l, v.1 = .inl l ∧ Canonical l ∧ ∀ z, Mem z l → Mem z B.idx := by
  obtain ⟨v | v, h1, h2⟩ := v
  · exact ⟨v, rfl, h1.2⟩
  · exact absurd h1.1 (by simp [Dim.isDfa])

/-- The indices of a peer value. -/
def ConnPeers.idx {B : PeerDom} (v : ConnPeers W2 B) : ISet := match v.1 with | .inl l => l | .inr _ => []

theorem ConnPeers.idx_eq {B : PeerDom} (v : ConnPeers W2 B) : v.1 = .inl v.idx ∧ Canonical v.idx ∧ ∀ z, Mem z v.idx → Mem z B.idx := by
  obtain ⟨l, h, h2⟩ := v.legal
  unfold ConnPeers.idx
  rw [h]
  exact ⟨rfl, h2⟩

/-- A part of a peer value. -/
def ConnPeers.part {B : PeerDom} (v : ConnPeers W2 B) {a b : Int} (hab : a ≤ b) : ConnPeers W2 B :=
  peersOf W2 B (Verif.part v.idx a b) ⟨(part_spec v.idx_eq.2.1 hab).1, fun z hz => v.idx_eq.2.2 z (((part_spec v.idx_eq.2.1 hab).2 z).1 hz).1⟩

/-- Iteration over a peer set: its IPv4 addresses, its IPv6 addresses, its other peers one by one
(`get_peer_set_by_indices`, Peer.py 756-787). -/
def ConnPeers.elems {B : PeerDom} (v : ConnPeers W2 B) : List (ConnPeers W2 B) :=
  v.part (a := 0) (b := maxIpv4Index) (by decide) :: v.part (a := minIpv6Index) (b := maxIpv6Index) (by decide) ::
    (numbers (Verif.part v.idx minPodIndex maxPodIndex)).map (fun z => v.part (Int.le_refl z))

variable (A2) in
theorem mem_inl (z : Int) (l : ISet) (h : Canonical l) : (connA A2 B).mem (.inl z) (.inl l) = true ↔ Mem z l :=
  contains_spec l z h

theorem ConnPeers.mem_part {B : PeerDom} (v : ConnPeers W2 B) {a b : Int} (hab : a ≤ b) (e : Int ⊕ X2) :
    (connA A2 B).mem e (v.part hab).1 = true ↔ ∃ z, e = .inl z ∧ Mem z v.idx ∧ a ≤ z ∧ z ≤ b := by
  have ps := part_spec v.idx_eq.2.1 hab
  rcases e with z | x
  · refine (mem_inl A2 B z _ ps.1).trans ((ps.2 z).trans ?_)
    simp
  · refine ⟨fun h => ?_, fun ⟨z, h, _⟩ => by simp at h⟩
    change false = true at h; simp at h

/-- What the queries need to know about the peers. -/
noncomputable def connExtra (A2 : VAlg Dim V2 X2) (W2 : Dim → V2 → Prop) (B : PeerDom) :
    PeerExtra (connA A2 B) (connWf W2 B) .srcPeers .dstPeers := by
  classical
  exact
  { clip := fun v => if h : connWf W2 B .srcPeers v then ⟨v, h, by
      rcases v with v | v
      · exact h
      · exact absurd h.1 (by simp [Dim.isDfa])⟩ else peersOf W2 B [] (nil_legal B)
    clip_src := fun v h => by rw [dif_pos h]
    clip_dst := fun v h => by
      have h' : connWf W2 B .srcPeers v := by
        rcases v with v | v
        · exact h
        · exact absurd h.1 (by simp [Dim.isDfa])
      rw [dif_pos h']
    elems := ConnPeers.elems
    ip := fun e => match e with | .inl z => decide ((0 ≤ z ∧ z ≤ maxIpv4Index) ∨ (minIpv6Index ≤ z ∧ z ≤ maxIpv6Index)) | .inr _ => false
    v6 := (peersOf W2 B B.idx ⟨B.canon, fun _ h => h⟩).part (a := minIpv6Index) (b := maxIpv6Index) (by decide)
    elems_mem := by
      intro (s : ConnPeers W2 B) e
      obtain ⟨h1, h2, h3⟩ := s.idx_eq
      unfold ConnPeers.elems
      simp only [List.mem_cons, List.mem_map, mem_numbers, exists_eq_or_imp, ConnPeers.mem_part]
      rw [h1]
      rcases e with z | x
      · rw [mem_inl A2 B z _ h2]
        constructor
        · intro h
          rcases (Base.all_mem z).1 (B.sub z (h3 z h)) with hz | hz | hz
          · exact Or.inl ⟨z, rfl, h, hz⟩
          · exact Or.inr (Or.inl ⟨z, rfl, h, hz⟩)
          · refine Or.inr (Or.inr ⟨_, ⟨z, ((part_spec h2 (by decide)).2 z).2 ⟨h, hz⟩, rfl⟩, ?_⟩)
            exact (s.mem_part (A2 := A2) (Int.le_refl z) _).2 ⟨z, rfl, h, Int.le_refl z, Int.le_refl z⟩
        · rintro (⟨y, hy, h, _⟩ | ⟨y, hy, h, _⟩ | ⟨_, ⟨w, _, rfl⟩, h⟩)
          · cases hy; exact h
          · cases hy; exact h
          · obtain ⟨y, hy, h, _⟩ := (s.mem_part (A2 := A2) (Int.le_refl w) _).1 h
            cases hy; exact h
      · constructor
        · intro h; change false = true at h; simp at h
        · rintro (⟨y, hy, _⟩ | ⟨y, hy, _⟩ | ⟨_, ⟨w, _, rfl⟩, h⟩)
          · simp at hy
          · simp at hy
          · obtain ⟨y, hy, _⟩ := (s.mem_part (A2 := A2) (Int.le_refl w) _).1 h
            simp at hy
    elems_single := by
      intro (s : ConnPeers W2 B) a e e' ha he he'
      unfold ConnPeers.elems at ha
      simp only [List.mem_cons, List.mem_map] at ha
      rcases ha with rfl | rfl | ⟨w, _, rfl⟩
      · obtain ⟨y, rfl, _, h⟩ := (s.mem_part (A2 := A2) _ _).1 he
        obtain ⟨y', rfl, _, h'⟩ := (s.mem_part (A2 := A2) _ _).1 he'
        right
        simp only [decide_eq_true_eq]
        exact ⟨Or.inl h, Or.inl h'⟩
      · obtain ⟨y, rfl, _, h⟩ := (s.mem_part (A2 := A2) _ _).1 he
        obtain ⟨y', rfl, _, h'⟩ := (s.mem_part (A2 := A2) _ _).1 he'
        right
        simp only [decide_eq_true_eq]
        exact ⟨Or.inr h, Or.inr h'⟩
      · obtain ⟨y, rfl, _, h1, h2⟩ := (s.mem_part (A2 := A2) _ _).1 he
        obtain ⟨y', rfl, _, h3, h4⟩ := (s.mem_part (A2 := A2) _ _).1 he'
        left
        rw [Int.le_antisymm h2 h1, Int.le_antisymm h4 h3]
    v6_ip := by
      intro e he
      obtain ⟨y, rfl, _, h⟩ := ((peersOf W2 B B.idx ⟨B.canon, fun _ h => h⟩).mem_part (A2 := A2) _ _).1 he
      simp only [decide_eq_true_eq]
      exact Or.inr h }

/-- `get_protocol_set_with_single_protocol('TCP')` and `get_non_tcp_protocols()`. -/
def tcpVal : ISet ⊕ V2 := .inl [⟨6, 6⟩]
def nonTcpVal : ISet ⊕ V2 := .inl [⟨0, 5⟩, ⟨7, 255⟩]

/-- The connection sets of the program. -/
noncomputable def connNet (L2 : A2.Lawful W2) (B : PeerDom) :
    NetQ (HC Dim (ISet ⊕ V2)) (Point (connA A2 B)) (Int ⊕ X2) (ConnPeers W2 B) :=
  hcNetQ (connA_lawful B L2) allDims .srcPeers .dstPeers .protocols (.inl []) (peersOf W2 B [] (nil_legal B)).2
    (fun x => by rcases x with x | x <;> rfl) tcpVal nonTcpVal (connExtra A2 W2 B)

theorem nonTcp_legal : Canonical [⟨0, 5⟩, ⟨7, 255⟩] := canonical_cons.2 ⟨by decide, canonical_singleton.2 (by decide), by
  intro b hb; rw [List.mem_singleton] at hb; subst hb; decide⟩

/-- The connection sets of the program satisfy all the laws. -/
theorem connNet_lawful (L2 : A2.Lawful W2) (B : PeerDom) :
    (connNet L2 B).Lawful (HcOkT (connA A2 B) (connWf W2 B) allDims) (HcStrongT (connA A2 B) (connWf W2 B) allDims) (HcWide allDims) ∧
    (connNet L2 B).Exact (HcOkT (connA A2 B) (connWf W2 B) allDims) (HcStrongT (connA A2 B) (connWf W2 B) allDims) (HC.Plain (connA A2 B)) := by
  refine hcNetQ_exact (connA_lawful B L2) allDims_nodup allDims_ne (by decide) (by decide) (by decide) (by decide) (by decide)
    (by decide) _ _ ?_ ?_ ?_ rfl _
  · refine ⟨rfl, canonical_singleton.2 (by decide), fun x hx => ?_⟩
    rw [mem_singleton] at hx
    refine mem_singleton.2 ?_
    unfold Iv.Mem at *; dsimp only at *; omega
  · refine ⟨rfl, nonTcp_legal, fun x hx => ?_⟩
    rw [mem_cons, mem_singleton] at hx
    refine mem_singleton.2 ?_
    unfold Iv.Mem at *; dsimp only at *; omega
  · rintro (x | x) hx
    · have h1 : Mem x [⟨0, 255⟩] := (mem_inl A2 B x _ (canonical_singleton.2 (by decide))).1 hx
      rw [mem_singleton] at h1
      rw [Bool.eq_iff_iff, Bool.not_eq_true', ← Bool.not_eq_true]
      refine (mem_inl A2 B x _ nonTcp_legal).trans (Iff.trans ?_ (not_congr (mem_inl A2 B x _ (canonical_singleton.2 (by decide)))).symm)
      rw [mem_cons, mem_singleton, mem_singleton]
      unfold Iv.Mem at *; dsimp only at *; omega
    · change false = true at hx; simp at hx

end
end Verif
