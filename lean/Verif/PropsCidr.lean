import Mathlib.Data.List.Perm.Subperm
import Verif.CidrProofs
/-!
Property theorems C64, first part: the networks that are printed for a block of addresses.

The specification speaks about single addresses, as for C21.
-/
namespace Verif
namespace IpBlock

/-- The address of the network has no host bits: `10.0.0.0/8`, not `10.0.0.1/8`. -/
def Cidr.Aligned (c : Cidr) : Prop := ∀ i, i < bitsOf c.addr.six - c.len → c.addr.val.testBit i = false

/-- IPv4 before IPv6, then by value. -/
def _root_.Verif.Ip.Before (x y : Ip) : Prop := (x.six = false ∧ y.six = true) ∨ (x.six = y.six ∧ x.val < y.val)

/-- All addresses of one network come before all addresses of the other; so they are disjoint. -/
def Cidr.Before (c d : Cidr) : Prop := ∀ x y, c.Has x → d.Has y → x.Before y

/-! ### Proofs -/

theorem Cidr.has_iff (c : Cidr) (x : Ip) : c.Has x ↔ c.addr.six = x.six ∧ c.lo ≤ x.val ∧ x.val ≤ c.hi := by
  rw [← cidr_mem, iv_mem c.good]
  change c.addr.six = x.six ∧ c.addr.six = x.six ∧ c.lo ≤ x.val ∧ x.val ≤ c.hi ↔ _
  exact ⟨fun h => ⟨h.1, h.2.2⟩, fun h => ⟨h.1, h.1, h.2⟩⟩

/-- The networks of a range, when there is no error. -/
def nets (i : IpIv) : List Cidr := (summarize i.s i.e).getD []

theorem cidrList_eq : ∀ {b : IpBlock}, (∀ i ∈ b, i.s.six = i.e.six ∧ i.s.val ≤ i.e.val) → cidrList b = some (b.flatMap nets) := by
  intro b h
  have : b.mapM (fun i => summarize i.s i.e) = some (b.map nets) := by
    induction b with
    | nil => rfl
    | cons i b ih =>
      have hi := h i (List.mem_cons_self ..)
      obtain ⟨l, e, _⟩ := summarize_spec hi.1 hi.2
      rw [List.mapM_cons, ih (fun j hj => h j (List.mem_cons_of_mem _ hj)), e]
      simp [nets, e]
  rw [cidrList, this, Option.map_some, List.flatMap_def]

theorem nets_spec {i : IpIv} (h : i.s.six = i.e.six) (hv : i.s.val ≤ i.e.val) : nets i ≠ [] ∧
      (∀ c ∈ nets i, c.addr.six = i.s.six ∧ c.addr.val = c.lo ∧ i.s.val ≤ c.lo ∧ c.hi ≤ i.e.val ∧
        ∀ d : Cidr, d.addr.six = i.s.six → i.s.val ≤ d.lo → d.hi ≤ i.e.val → d.lo ≤ c.hi → c.lo ≤ d.hi → c.lo ≤ d.lo ∧ d.hi ≤ c.hi) ∧
      (nets i).Pairwise (fun c c' => c.hi < c'.lo) ∧ ∀ x, i.s.val ≤ x → x ≤ i.e.val → ∃ c ∈ nets i, c.lo ≤ x ∧ x ≤ c.hi := by
  obtain ⟨l, e, h'⟩ := summarize_spec h hv
  rw [nets, e]
  exact h'

theorem flat_before {b : IpBlock} (g : ∀ i ∈ b, i.s.six = i.e.six ∧ i.s.val ≤ i.e.val)
    (p : b.Pairwise (fun i j => (i.e.six = false ∧ j.s.six = true) ∨ (i.e.six = j.s.six ∧ i.e.val + 1 < j.s.val))) :
    (b.flatMap nets).Pairwise Cidr.Before := by
  rw [List.pairwise_flatMap]
  refine ⟨fun i hi => ?_, ?_⟩
  · obtain ⟨_, n1, n2, _⟩ := nets_spec (g i hi).1 (g i hi).2
    refine n2.imp_of_mem ?_
    intro c d hc hd hcd x y hx hy
    obtain ⟨x1, x2, x3⟩ := (c.has_iff x).1 hx
    obtain ⟨y1, y2, y3⟩ := (d.has_iff y).1 hy
    exact .inr ⟨by rw [← x1, ← y1, (n1 c hc).1, (n1 d hd).1], by omega⟩
  · refine p.imp_of_mem ?_
    intro i j hi hj hij c hc d hd x y hx hy
    obtain ⟨_, n1, _⟩ := nets_spec (g i hi).1 (g i hi).2
    obtain ⟨_, m1, _⟩ := nets_spec (g j hj).1 (g j hj).2
    obtain ⟨x1, x2, x3⟩ := (c.has_iff x).1 hx
    obtain ⟨y1, y2, y3⟩ := (d.has_iff y).1 hy
    obtain ⟨a1, a2, a3, a4, _⟩ := n1 c hc
    obtain ⟨b1, b2, b3, b4, _⟩ := m1 d hd
    rcases hij with ⟨k1, k2⟩ | ⟨k1, k2⟩
    · exact .inl ⟨by rw [← x1, a1, (g i hi).1, k1], by rw [← y1, b1, k2]⟩
    · exact .inr ⟨by rw [← x1, ← y1, a1, b1, (g i hi).1, k1], by omega⟩

theorem flat_has {b : IpBlock} (g : ∀ i ∈ b, i.s.six = i.e.six ∧ i.s.val ≤ i.e.val) (x : Ip) : b.Has x ↔ ∃ c ∈ b.flatMap nets, c.Has x := by
  constructor
  · rintro ⟨i, hi, h1, h2, h3, h4⟩
    obtain ⟨_, n1, _, n3⟩ := nets_spec (g i hi).1 (g i hi).2
    obtain ⟨c, hc, hx⟩ := n3 x.val h3 h4
    exact ⟨c, List.mem_flatMap.2 ⟨i, hi, hc⟩, (c.has_iff x).2 ⟨by rw [(n1 c hc).1, h1], hx⟩⟩
  · rintro ⟨c, hc, hx⟩
    obtain ⟨i, hi, hc⟩ := List.mem_flatMap.1 hc
    obtain ⟨_, n1, _, n3⟩ := nets_spec (g i hi).1 (g i hi).2
    obtain ⟨a1, a2, a3, a4, _⟩ := n1 c hc
    obtain ⟨x1, x2, x3⟩ := (c.has_iff x).1 hx
    exact ⟨i, hi, by rw [← a1, x1], by rw [← (g i hi).1, ← a1, x1], by omega, by omega⟩

theorem aligned_of {c : Cidr} (h : c.addr.val = c.lo) : c.Aligned := by
  intro i hi
  rw [h, Cidr.lo, Cidr.size]
  have := Nat.testBit_two_pow_mul_add (c.addr.val / 2 ^ (bitsOf c.addr.six - c.len)) (Nat.two_pow_pos (bitsOf c.addr.six - c.len)) i
  rw [Nat.add_zero, if_pos hi, Nat.zero_testBit] at this
  rw [Nat.mul_comm]
  exact this

/-! ### C64 -/

/-- C64: for every block of addresses, the list of networks can be computed; the networks have no host bits, are in increasing
order and disjoint, and have exactly the addresses of the block. -/
theorem C64_networks {b : IpBlock} (h : Built b) : ∃ l, cidrList b = some l ∧ (∀ c ∈ l, c.Aligned) ∧ l.Pairwise Cidr.Before ∧
    ∀ x, b.Has x ↔ ∃ c ∈ l, c.Has x := by
  obtain ⟨g, p⟩ := C21_never_mixed h
  refine ⟨_, cidrList_eq g, fun c hc => ?_, flat_before g p, flat_has g⟩
  obtain ⟨i, hi, hc⟩ := List.mem_flatMap.1 hc
  exact aligned_of ((nets_spec (g i hi).1 (g i hi).2).2.1 c hc).2.1

/-- C64: no shorter list of networks has the same addresses. -/
theorem C64_minimal {b : IpBlock} (h : Built b) {l : List Cidr} (hl : cidrList b = some l) (m : List Cidr)
    (hm : ∀ x, b.Has x ↔ ∃ c ∈ m, c.Has x) : l.length ≤ m.length := by
  obtain ⟨g, p⟩ := C21_never_mixed h
  rw [cidrList_eq g] at hl
  cases hl
  -- a network of `m` that meets a range lies inside it
  have inside : ∀ d ∈ m, ∀ i ∈ b, d.addr.six = i.s.six → d.lo ≤ i.e.val → i.s.val ≤ d.hi → i.s.val ≤ d.lo ∧ d.hi ≤ i.e.val := by
    intro d hd i hi h1 h2 h3
    have out : ∀ v, d.lo ≤ v → v ≤ d.hi → (v + 1 = i.s.val ∨ v = i.e.val + 1) → False := by
      intro v v1 v2 v3
      have hv : v ≤ topOf d.addr.six := Nat.le_trans v2 d.hi_le
      have hx : d.Has ⟨d.addr.six, v, hv⟩ := (d.has_iff _).2 ⟨rfl, v1, v2⟩
      obtain ⟨j, hj, j1, j2, j3, j4⟩ := (hm _).2 ⟨d, hd, hx⟩
      simp only at j1 j2 j3 j4
      have gi := g i hi
      have gj := g j hj
      have tri : i = j ∨ ((i.e.six = false ∧ j.s.six = true) ∨ (i.e.six = j.s.six ∧ i.e.val + 1 < j.s.val)) ∨
          ((j.e.six = false ∧ i.s.six = true) ∨ (j.e.six = i.s.six ∧ j.e.val + 1 < i.s.val)) := by
        obtain ⟨n, hn, rfl⟩ := List.getElem_of_mem hi
        obtain ⟨k, hk, rfl⟩ := List.getElem_of_mem hj
        have := List.pairwise_iff_getElem.1 p
        rcases Nat.lt_trichotomy n k with q | q | q
        · exact .inr (.inl (this n k hn hk q))
        · subst q; exact .inl rfl
        · exact .inr (.inr (this k n hk hn q))
      have f1 : i.e.six = j.s.six := by rw [← gi.1, ← h1, j1]
      have f2 : j.e.six = i.s.six := by rw [j2, h1]
      rcases tri with q | (⟨q1, q2⟩ | ⟨q1, q2⟩) | (⟨q1, q2⟩ | ⟨q1, q2⟩)
      · subst q; omega
      · rw [f1, q2] at q1; cases q1
      · omega
      · rw [f2, q2] at q1; cases q1
      · omega
    have gi := g i hi
    have := d.lo_le_hi
    constructor
    · by_contra hlt
      exact out (i.s.val - 1) (by omega) (by omega) (.inl (by omega))
    · by_contra hlt
      exact out (i.e.val + 1) (by omega) (by omega) (.inr rfl)
  -- every network of the list has one of `m` inside it
  have ex : ∀ c ∈ b.flatMap nets, ∃ d ∈ m, d.addr.six = c.addr.six ∧ c.lo ≤ d.lo ∧ d.hi ≤ c.hi := by
    intro c hc
    have hx : c.Has ⟨c.addr.six, c.lo, c.lo_le⟩ := (c.has_iff _).2 ⟨rfl, Nat.le_refl _, c.lo_le_hi⟩
    obtain ⟨d, hd, hdx⟩ := (hm _).1 ((flat_has g _).2 ⟨c, hc, hx⟩)
    obtain ⟨d1, d2, d3⟩ := (d.has_iff _).1 hdx
    simp only at d1 d2 d3
    obtain ⟨i, hi, hc⟩ := List.mem_flatMap.1 hc
    obtain ⟨a1, a2, a3, a4, a5⟩ := (nets_spec (g i hi).1 (g i hi).2).2.1 c hc
    have := c.lo_le_hi
    obtain ⟨e1, e2⟩ := inside d hd i hi (by rw [d1, a1]) (by omega) (by omega)
    exact ⟨d, hd, d1, a5 d (by rw [d1, a1]) e1 e2 (by omega) (by omega)⟩
  have : ∃ f : Cidr → Cidr, ∀ c ∈ b.flatMap nets, f c ∈ m ∧ (f c).addr.six = c.addr.six ∧ c.lo ≤ (f c).lo ∧ (f c).hi ≤ c.hi := by
    classical
    refine ⟨fun c => if hc : c ∈ b.flatMap nets then (ex c hc).choose else c, fun c hc => ?_⟩
    simp only [dif_pos hc]
    exact (ex c hc).choose_spec
  obtain ⟨f, hf⟩ := this
  have nd : ((b.flatMap nets).map f).Nodup := by
    rw [List.Nodup, List.pairwise_map]
    refine (flat_before g p).imp_of_mem ?_
    intro c d hc hd hcd he
    obtain ⟨_, f1, f2, f3⟩ := hf c hc
    obtain ⟨_, g1, g2, g3⟩ := hf d hd
    have h0 := (f c).lo_le_hi
    have := hcd ⟨(f c).addr.six, (f c).lo, (f c).lo_le⟩ ⟨(f c).addr.six, (f c).lo, (f c).lo_le⟩ ((c.has_iff _).2 ⟨f1.symm, f2, by simp only; omega⟩)
      ((d.has_iff _).2 ⟨by simp only [he, g1], by simp only [he]; exact g2, by simp only [he] at *; omega⟩)
    rcases this with ⟨q1, q2⟩ | ⟨_, q⟩
    · simp only at q1 q2; rw [q1] at q2; cases q2
    · simp only at q; omega
  have := (nd.subperm (l₂ := m) (fun d hd => by
    obtain ⟨c, hc, rfl⟩ := List.mem_map.1 hd
    exact (hf c hc).1)).length_le
  rwa [List.length_map] at this

/-- C64: reading the networks back, one after the other, gives the block. -/
theorem C64_read_back {b : IpBlock} (h : Built b) {l : List Cidr} (hl : cidrList b = some l) :
    l.foldlM (fun r c => addCidr r c []) [] = some b := by
  obtain ⟨l', e, _, _, hx⟩ := C64_networks h
  rw [e] at hl
  cases hl
  have key : ∀ (l : List Cidr) (b : IpBlock), Built b → ∃ r, l.foldlM (fun r c => addCidr r c []) b = some r ∧ Built r ∧
      ∀ x, r.Has x ↔ b.Has x ∨ ∃ c ∈ l, c.Has x := by
    intro l
    induction l with
    | nil => exact fun b hb => ⟨b, rfl, hb, fun x => by simp⟩
    | cons c l ih =>
      intro b hb
      cases h : addCidr b c [] with
      | none => exact absurd (C21_cidr_error.1 h) (by simp)
      | some r =>
        obtain ⟨r', e, hb', hs⟩ := ih r (.cidr c [] hb h)
        refine ⟨r', by rw [List.foldlM_cons, h]; exact e, hb', fun x => ?_⟩
        rw [hs, C21_cidr_exact hb h]
        simp [or_assoc]
  obtain ⟨r, e1, hr, hrx⟩ := key l [] .empty
  rw [e1, (C21_eq_extensional hr h).2 (fun x => by rw [hrx, hx]; simp [Has])]

/-! ### Non-vacuity -/

/-- 10.0.0.1 - 10.0.0.6, and the last address of IPv6. -/
def ragged : IpBlock := [⟨⟨false, 167772161, by decide⟩, ⟨false, 167772166, by decide⟩⟩,
  ⟨⟨true, topOf true, Nat.le_refl _⟩, ⟨true, topOf true, Nat.le_refl _⟩⟩]

theorem ragged_built : Built ragged := by
  have h := Built.union (.range ⟨⟨false, 167772161, by decide⟩, ⟨false, 167772166, by decide⟩⟩ rfl (by decide))
    (.range ⟨⟨true, topOf true, Nat.le_refl _⟩, ⟨true, topOf true, Nat.le_refl _⟩⟩ rfl (Nat.le_refl _))
  have e : ragged = union [⟨⟨false, 167772161, by decide⟩, ⟨false, 167772166, by decide⟩⟩] [⟨⟨true, topOf true, Nat.le_refl _⟩, ⟨true, topOf true, Nat.le_refl _⟩⟩] := by
    decide +kernel
  rw [e]; exact h

/-- 10.0.0.1/32, 10.0.0.2/31, 10.0.0.4/31, 10.0.0.6/32 and ffff:...:ffff/128. -/
example : (cidrList ragged).map (List.map fun c => (c.addr.val, c.len)) =
    some [(167772161, 32), (167772162, 31), (167772164, 31), (167772166, 32), (topOf true, 128)] := by decide +kernel

/-- All addresses: two networks. -/
example : (cidrList (allIps false false)).map (List.map fun c => (c.addr.six, c.addr.val, c.len)) = some [(false, 0, 0), (true, 0, 0)] := by decide +kernel

/-- Blocks that are not built by the code may have no networks: a range over both families is a `TypeError`. -/
example : cidrList [⟨⟨false, 0, by decide⟩, ⟨true, 0, by decide⟩⟩] = none := by decide +kernel

end IpBlock
end Verif
