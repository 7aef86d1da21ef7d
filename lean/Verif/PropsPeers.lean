import Verif.PeerProofs
/-!
Property theorems C22 (peer sets and their indices).
-/
namespace Verif
open ISet IpBlock

variable {κ : Type} [DecidableEq κ]

namespace Base

theorem addPeer_pod (reg : List κ) (k : κ) : addPeer reg (.pod k) =
    if k ∈ reg then some reg else if reg.length < maxPods then some (reg ++ [k]) else none := rfl

/-- C22: the registry never holds a peer twice and never exceeds its capacity, and registering a peer
never moves one registered before. -/
theorem C22_registry {reg : List κ} (h : Reach reg) :
    reg.Nodup ∧ reg.length ≤ 10000 ∧
    ∀ e reg', addPeer reg e = some reg' → ∀ (n : Nat) (k : κ), reg[n]? = some k → reg'[n]? = some k := by
  have h1 : reg.Nodup ∧ reg.length ≤ 10000 := by
    induction h with
    | empty => simp
    | add e _ h ih =>
      cases e with
      | ip b => cases h; exact ih
      | pod k =>
        rw [addPeer_pod] at h
        split at h
        · cases h; exact ih
        · split at h
          · rename_i h2 h3
            cases h
            refine ⟨?_, by simp only [List.length_append, List.length_singleton]; unfold maxPods at h3; omega⟩
            rw [List.nodup_append]
            refine ⟨ih.1, by simp, ?_⟩
            rintro a ha b hb rfl
            rw [List.mem_singleton] at hb
            subst hb; exact h2 ha
          · cases h
  refine ⟨h1.1, h1.2, fun e reg' h n k hk => ?_⟩
  cases e with
  | ip b => cases h; exact hk
  | pod j =>
    rw [addPeer_pod] at h
    split at h
    · cases h; exact hk
    · split at h
      · cases h
        obtain ⟨h2, h3⟩ := List.getElem?_eq_some_iff.1 hk
        rw [List.getElem?_append_left h2]; exact hk
      · cases h

/-- C22: registering a peer makes it registered (and fails only when the registry is full). -/
theorem C22_register (reg : List κ) (k : κ) :
    (∃ reg', addPeer reg (.pod k) = some reg' ∧ ∀ j, j ∈ reg' ↔ j ∈ reg ∨ j = k) ∨
    (addPeer reg (.pod k) = none ∧ 10000 ≤ reg.length ∧ k ∉ reg) := by
  rw [addPeer_pod]
  by_cases h : k ∈ reg
  · left; refine ⟨reg, by rw [if_pos h], fun j => ⟨Or.inl, ?_⟩⟩
    rintro (hj | rfl)
    · exact hj
    · exact h
  · rw [if_neg h]
    by_cases h1 : reg.length < maxPods
    · left; exact ⟨_, by rw [if_pos h1], by simp⟩
    · right; exact ⟨by rw [if_neg h1], by unfold maxPods at h1; omega, h⟩

/-- C22: the conversion to indices fails exactly when a peer is not registered. -/
theorem C22_to_indices_defined {reg : List κ} (hr : Reach reg) {p : PeerSet κ} (hp : p.Ok) :
    (∃ l, toIndices reg p = some l) ↔ ∀ k, p.HasPod k → k ∈ reg := by
  have h := (toIndices_aux (C22_registry hr).1 p hp [] canonical_nil).2
  rw [show p.foldlM (toStep reg) [] = toIndices reg p from rfl] at h
  constructor
  · rintro ⟨l, hl⟩ k hk
    by_contra hc
    rw [h.2 ⟨k, hk, hc⟩] at hl; cases hl
  · intro hk
    cases h1 : toIndices reg p with
    | some l => exact ⟨l, rfl⟩
    | none =>
      obtain ⟨k, h2, h3⟩ := h.1 h1
      exact absurd (hk k h2) h3

/-- C22: the indices of a peer set are exactly the indices of its addresses and of its peers, and they
form a canonical interval set. -/
theorem C22_to_indices_exact {reg : List κ} (hr : Reach reg) {p : PeerSet κ} (hp : p.Ok) {l : ISet}
    (h : toIndices reg p = some l) :
    Canonical l ∧ (∀ x : Ip, Mem x.idx l ↔ p.HasIp x) ∧
    (∀ n : Nat, Mem (minPodIndex + n) l ↔ ∃ k, reg[n]? = some k ∧ p.HasPod k) ∧
    ∀ z, Mem z l → (∃ x : Ip, z = x.idx) ∨ ∃ n : Nat, n < reg.length ∧ z = minPodIndex + n := by
  have hn := (C22_registry hr).1
  refine ⟨(toIndices_spec hn hp h).1, toIndices_ip hn hp h, toIndices_pod hn hp h, fun z hz => ?_⟩
  rcases ((toIndices_spec hn hp h).2 z).1 hz with ⟨x, hx, _⟩ | ⟨n, k, hz, hk, _⟩
  · exact Or.inl ⟨x, hx⟩
  · exact Or.inr ⟨n, (List.getElem?_eq_some_iff.1 hk).1, hz⟩

/-- C22: indices of addresses and of registered peers never collide. -/
theorem C22_indices_disjoint (x y : Ip) (n m : Nat) :
    (x.idx = y.idx ↔ x = y) ∧ x.idx ≠ minPodIndex + n ∧ ((minPodIndex + n : Int) = minPodIndex + m ↔ n = m) :=
  ⟨Ip.idx_inj, by have := idx_lt x; omega, by omega⟩

/-- C22: converting back is exact for every canonical set of indices of the domain, provided that every
interval that begins among the peer indices begins at a registered peer. -/
theorem C22_from_indices_exact_partial {reg : List κ} {l : ISet} (hc : Canonical l)
    (hd : ∀ z, Mem z l → (∃ x : Ip, z = x.idx) ∨ (minPodIndex ≤ z ∧ z ≤ maxPodIndex))
    (hs : ∀ i ∈ l, minPodIndex ≤ i.s → i.s < minPodIndex + reg.length) :
    ∃ p, fromIndices reg l = some p ∧ p.Ok ∧ (∀ x, p.HasIp x ↔ Mem x.idx l) ∧
      ∀ k, p.HasPod k ↔ ∃ n : Nat, reg[n]? = some k ∧ Mem (minPodIndex + n) l :=
  fromIndices_spec hc hd hs

end Base

namespace PeerSet

/-- C22: two peer sets compare equal iff they hold the same peers and the same addresses. -/
theorem C22_eq_extensional {p q : PeerSet κ} (hp : p.Ok) (hq : q.Ok) :
    p.eq q = true ↔ (∀ k, p.HasPod k ↔ q.HasPod k) ∧ ∀ x, p.HasIp x ↔ q.HasIp x := by
  unfold eq
  simp only [Bool.and_eq_true, List.all_eq_true, decide_eq_true_eq, mem_pods]
  rw [C21_eq_extensional (ipForm_built hp) (ipForm_built hq)]
  simp only [ipForm_has hp, ipForm_has hq]
  exact ⟨fun ⟨⟨h1, h2⟩, h3⟩ => ⟨fun k => ⟨h1 k, h2 k⟩, h3⟩, fun ⟨h1, h3⟩ => ⟨⟨fun k => (h1 k).1, fun k => (h1 k).2⟩, h3⟩⟩

/-- C22: intersection of peer sets. -/
theorem C22_and_exact {p q : PeerSet κ} (hp : p.Ok) (hq : q.Ok) :
    (p.and q).Ok ∧ (∀ k, (p.and q).HasPod k ↔ p.HasPod k ∧ q.HasPod k) ∧ ∀ x, (p.and q).HasIp x ↔ p.HasIp x ∧ q.HasIp x := by
  have hb : Built (p.ipForm.inter q.ipForm) := .inter (ipForm_built hp) (ipForm_built hq)
  refine ⟨ok_map_append (ofBlock_ok hb), fun k => ?_, fun x => ?_⟩
  · unfold and
    rw [hasPod_map_append]
    simp only [hasPod_ofBlock, or_false, List.mem_filter, mem_pods, decide_eq_true_eq]
  · unfold and
    rw [hasIp_map_append, ofBlock_hasIp hb, C21_inter_exact (ipForm_built hp) (ipForm_built hq), ipForm_has hp, ipForm_has hq]

/-- C22: union of peer sets. -/
theorem C22_or_exact {p q : PeerSet κ} (hp : p.Ok) (hq : q.Ok) :
    (p.or q).Ok ∧ (∀ k, (p.or q).HasPod k ↔ p.HasPod k ∨ q.HasPod k) ∧ ∀ x, (p.or q).HasIp x ↔ p.HasIp x ∨ q.HasIp x := by
  have hm : ∀ e, e ∈ p.or q ↔ e ∈ p ∨ e ∈ q := by
    intro e
    unfold or
    rw [List.mem_append, List.mem_filter, decide_eq_true_eq]
    constructor
    · rintro (h | h)
      · exact Or.inl h
      · exact Or.inr h.1
    · rintro (h | h)
      · exact Or.inl h
      · by_cases h1 : e ∈ p
        · exact Or.inl h1
        · exact Or.inr ⟨h, h1⟩
  refine ⟨fun b hb => ((hm _).1 hb).elim (hp b) (hq b), fun k => hm _, fun x => ?_⟩
  unfold HasIp
  simp only [hm, or_and_right, exists_or]

/-- C22: difference of peer sets. -/
theorem C22_sub_exact {p q : PeerSet κ} (hp : p.Ok) (hq : q.Ok) :
    (p.sub q).Ok ∧ (∀ k, (p.sub q).HasPod k ↔ p.HasPod k ∧ ¬ q.HasPod k) ∧
    ∀ x, (p.sub q).HasIp x ↔ p.HasIp x ∧ ¬ q.HasIp x := by
  have hb : Built (p.ipForm.diff q.ipForm) := .diff (ipForm_built hp) (ipForm_built hq)
  refine ⟨ok_map_append (ofBlock_ok hb), fun k => ?_, fun x => ?_⟩
  · unfold sub
    rw [hasPod_map_append]
    simp only [hasPod_ofBlock, or_false, List.mem_filter, mem_pods, decide_eq_true_eq]
  · unfold sub
    rw [hasIp_map_append, ofBlock_hasIp hb, C21_diff_exact (ipForm_built hp) (ipForm_built hq), ipForm_has hp, ipForm_has hq]

/-- C22: the canonical form holds the same peers and addresses, in at most one block. -/
theorem C22_canonical_form {p : PeerSet κ} (hp : p.Ok) :
    p.canonicalForm.Ok ∧ (∀ k, p.canonicalForm.HasPod k ↔ p.HasPod k) ∧ (∀ x, p.canonicalForm.HasIp x ↔ p.HasIp x) ∧
    ∀ b c, .ip b ∈ p.canonicalForm → .ip c ∈ p.canonicalForm → b = c := by
  have hb := ipForm_built hp
  refine ⟨ok_map_append (ofBlock_ok hb), fun k => ?_, fun x => ?_, ?_⟩
  · unfold canonicalForm
    rw [hasPod_map_append]
    simp only [hasPod_ofBlock, or_false, mem_pods]
  · unfold canonicalForm
    rw [hasIp_map_append, ofBlock_hasIp hb, ipForm_has hp]
  · have h : ∀ b, PeerElem.ip b ∈ p.canonicalForm → b = p.ipForm := by
      intro b h
      unfold canonicalForm at h
      rcases List.mem_append.1 h with h | h
      · obtain ⟨k, _, hk⟩ := List.mem_map.1 h; cases hk
      · unfold ofBlock at h
        split at h
        · rw [List.mem_singleton] at h; cases h; rfl
        · cases h
    intro b c h1 h2
    rw [h b h1, h c h2]

/-- C22: splitting into single ranges keeps the peers and the addresses. -/
theorem C22_split_exact {p : PeerSet κ} (hp : p.Ok) :
    p.split.Ok ∧ (∀ k, p.split.HasPod k ↔ p.HasPod k) ∧ (∀ x, p.split.HasIp x ↔ p.HasIp x) ∧
    ∀ b, .ip b ∈ p.split → b.length = 1 := by
  have hmem : ∀ b, PeerElem.ip b ∈ p.split ↔ ∃ c, .ip c ∈ p ∧ b ∈ c.split := by
    intro b
    unfold split
    rw [List.mem_flatMap]
    constructor
    · rintro ⟨e, he, h⟩
      cases e with
      | pod k => simp at h
      | ip c =>
        obtain ⟨d, hd, h1⟩ := List.mem_map.1 h
        cases h1; exact ⟨c, he, hd⟩
    · rintro ⟨c, hc, h⟩
      exact ⟨_, hc, List.mem_map_of_mem h⟩
  refine ⟨fun b hb => ?_, fun k => ?_, fun x => ?_, fun b hb => ?_⟩
  · obtain ⟨c, hc, h⟩ := (hmem b).1 hb
    exact .split (hp c hc) h
  · unfold HasPod split
    rw [List.mem_flatMap]
    constructor
    · rintro ⟨e, he, h⟩
      cases e with
      | pod j => rw [List.mem_singleton] at h; cases h; exact he
      | ip c => obtain ⟨d, hd, h1⟩ := List.mem_map.1 h; cases h1
    · intro h; exact ⟨_, h, List.mem_singleton.2 rfl⟩
  · unfold HasIp
    constructor
    · rintro ⟨b, hb, h⟩
      obtain ⟨c, hc, h1⟩ := (hmem b).1 hb
      exact ⟨c, hc, ((C21_split_exact (hp c hc)).1 x).2 ⟨b, h1, h⟩⟩
    · rintro ⟨c, hc, h⟩
      obtain ⟨b, hb, h1⟩ := ((C21_split_exact (hp c hc)).1 x).1 h
      exact ⟨b, (hmem b).2 ⟨c, hc, hb⟩, h1⟩
  · obtain ⟨c, hc, h⟩ := (hmem b).1 hb
    exact ((C21_split_exact (hp c hc)).2.2 b h).1

theorem mem_foldl_add (L p : PeerSet κ) (e : PeerElem κ) :
    e ∈ L.foldl (fun p e => if e ∈ p then p else p ++ [e]) p ↔ e ∈ p ∨ e ∈ L := by
  induction L generalizing p with
  | nil => simp
  | cons a L ih =>
    rw [List.foldl_cons, ih]
    split
    · rename_i h
      rw [List.mem_cons]
      constructor
      · rintro (h1 | h1)
        · exact Or.inl h1
        · exact Or.inr (Or.inr h1)
      · rintro (h1 | rfl | h1)
        · exact Or.inl h1
        · exact Or.inl h
        · exact Or.inr h1
    · rw [List.mem_append, List.mem_singleton, List.mem_cons, or_assoc]

/-- C22: filtering by a mask keeps every peer and exactly the addresses inside the mask. -/
theorem C22_mask_exact {p : PeerSet κ} (hp : p.Ok) {mask : IpBlock} (hm : Built mask) :
    (p.filterMask mask).Ok ∧ (∀ k, (p.filterMask mask).HasPod k ↔ p.HasPod k) ∧
    ∀ x, (p.filterMask mask).HasIp x ↔ p.HasIp x ∧ mask.Has x := by
  have hpod : ∀ k, PeerElem.pod k ∈ p.filterMask mask ↔ .pod k ∈ p := by
    intro k
    unfold filterMask
    simp only [mem_foldl_add, List.mem_filter, List.mem_filterMap, decide_eq_true_eq]
    constructor
    · rintro (⟨h, _⟩ | ⟨e, he, h⟩)
      · exact h
      · cases e with
        | pod j => cases h
        | ip b =>
          dsimp only at h
          split at h <;> cases h
    · intro h
      exact Or.inl ⟨h, by rintro ⟨_, h1⟩; cases h1⟩
  have hip : ∀ b, PeerElem.ip b ∈ p.filterMask mask ↔ (.ip b ∈ p ∧ b.containedIn mask = true) ∨
      ∃ c, .ip c ∈ p ∧ c.containedIn mask = false ∧ c.overlaps mask = true ∧ b = c.inter mask := by
    intro b
    unfold filterMask
    simp only [mem_foldl_add, List.mem_filter, List.mem_filterMap, decide_eq_true_eq]
    refine or_congr ?_ ?_
    · constructor
      · rintro ⟨h1, h2⟩
        refine ⟨h1, ?_⟩
        cases h3 : b.containedIn mask with
        | true => rfl
        | false => exact absurd ⟨h1, by rw [h3]; rfl⟩ h2
      · rintro ⟨h1, h2⟩
        exact ⟨h1, by rintro ⟨_, h3⟩; rw [h2] at h3; cases h3⟩
    · constructor
      · rintro ⟨e, he, h⟩
        cases e with
        | pod j => cases h
        | ip c =>
          dsimp only at h
          split at h
          · rename_i h1
            rw [Bool.and_eq_true, Bool.not_eq_true'] at h1
            cases h
            exact ⟨c, he, h1.1, h1.2, rfl⟩
          · cases h
      · rintro ⟨c, hc, h1, h2, rfl⟩
        refine ⟨_, hc, ?_⟩
        dsimp only
        rw [h1, h2]; rfl
  refine ⟨fun b hb => ?_, hpod, fun x => ?_⟩
  · rcases (hip b).1 hb with h | ⟨c, hc, _, _, rfl⟩
    · exact hp b h.1
    · exact .inter (hp c hc) hm
  · unfold HasIp
    constructor
    · rintro ⟨b, hb, h⟩
      rcases (hip b).1 hb with h1 | ⟨c, hc, _, _, rfl⟩
      · exact ⟨⟨b, h1.1, h⟩, (C21_containedIn_exact (hp b h1.1) hm).1 h1.2 x h⟩
      · rw [C21_inter_exact (hp c hc) hm] at h
        exact ⟨⟨c, hc, h.1⟩, h.2⟩
    · rintro ⟨⟨b, hb, h⟩, hx⟩
      cases h1 : b.containedIn mask with
      | true => exact ⟨b, (hip b).2 (Or.inl ⟨hb, h1⟩), h⟩
      | false =>
        have h2 := (C21_overlaps_exact (hp b hb) hm).2 ⟨x, h, hx⟩
        exact ⟨b.inter mask, (hip _).2 (Or.inr ⟨b, hb, h1, h2, rfl⟩), (C21_inter_exact (hp b hb) hm x).2 ⟨h, hx⟩⟩

/-- C22: `in` for a peer is membership. -/
theorem C22_contains_pod (p : PeerSet κ) (k : κ) : p.contains (.pod k) = true ↔ p.HasPod k := by
  simp [contains, HasPod]

/-- C22: `in` for a block says that all its addresses belong to the set, provided that the set holds at
most one block.  The full claim, for any number of blocks, is false: `C22_contains_block_incomplete`. -/
theorem C22_contains_block_partial {p : PeerSet κ} (hp : p.Ok) {b : IpBlock} (hb : Built b)
    (h1 : ∀ c d, .ip c ∈ p → .ip d ∈ p → c = d) (hne : ∃ x, b.Has x) :
    p.contains (.ip b) = true ↔ ∀ x, b.Has x → p.HasIp x := by
  unfold contains
  rw [List.any_eq_true]
  constructor
  · rintro ⟨e, he, h⟩ x hx
    cases e with
    | pod k => cases h
    | ip c => exact ⟨c, he, (C21_containedIn_exact hb (hp c he)).1 h x hx⟩
  · intro h
    obtain ⟨x, hx⟩ := hne
    obtain ⟨c, hc, _⟩ := h x hx
    refine ⟨.ip c, hc, (C21_containedIn_exact hb (hp c hc)).2 (fun y hy => ?_)⟩
    obtain ⟨d, hd, h2⟩ := h y hy
    rw [h1 c d hc hd]; exact h2

/-- C22: `in` for a block is never wrong when it says yes. -/
theorem C22_contains_block_sound {p : PeerSet κ} (hp : p.Ok) {b : IpBlock} (hb : Built b)
    (h : p.contains (.ip b) = true) : ∀ x, b.Has x → p.HasIp x := by
  unfold contains at h
  rw [List.any_eq_true] at h
  obtain ⟨e, he, h⟩ := h
  intro x hx
  cases e with
  | pod k => cases h
  | ip c => exact ⟨c, he, (C21_containedIn_exact hb (hp c he)).1 h x hx⟩

end PeerSet

namespace Base

theorem valid_start {reg : List κ} {l : ISet} (hc : Canonical l)
    (hv : ∀ z, Mem z l → (∃ x : Ip, z = x.idx) ∨ ∃ n : Nat, n < reg.length ∧ z = minPodIndex + n) :
    ∀ i ∈ l, minPodIndex ≤ i.s → i.s < minPodIndex + reg.length := by
  intro i hi h
  rcases hv i.s ⟨i, hi, Int.le_refl _, hc.1 i hi⟩ with ⟨x, hx⟩ | ⟨n, hn, hz⟩
  · have := idx_lt x; omega
  · omega

theorem valid_dom {reg : List κ} (hr : Reach reg) {l : ISet}
    (hv : ∀ z, Mem z l → (∃ x : Ip, z = x.idx) ∨ ∃ n : Nat, n < reg.length ∧ z = minPodIndex + n) :
    ∀ z, Mem z l → (∃ x : Ip, z = x.idx) ∨ (minPodIndex ≤ z ∧ z ≤ maxPodIndex) := by
  intro z hz
  rcases hv z hz with h | ⟨n, hn, rfl⟩
  · exact Or.inl h
  · have := (C22_registry hr).2.1
    right
    unfold maxPodIndex maxPods
    omega

/-- C22: from a peer set to indices and back gives an equal peer set. -/
theorem C22_round_trip {reg : List κ} (hr : Reach reg) {p : PeerSet κ} (hp : p.Ok) {l : ISet}
    (h : toIndices reg p = some l) :
    ∃ q, fromIndices reg l = some q ∧ q.Ok ∧ p.eq q = true ∧ (∀ k, q.HasPod k ↔ p.HasPod k) ∧ ∀ x, q.HasIp x ↔ p.HasIp x := by
  obtain ⟨h1, h2, h3, h4⟩ := C22_to_indices_exact hr hp h
  obtain ⟨q, hq, hok, hi, hk⟩ := fromIndices_spec h1 (valid_dom hr h4) (valid_start h1 h4)
  have hreg := (C22_to_indices_defined hr hp).1 ⟨l, h⟩
  have hip : ∀ x, q.HasIp x ↔ p.HasIp x := fun x => by rw [hi, h2]
  have hpod : ∀ k, q.HasPod k ↔ p.HasPod k := by
    intro k
    rw [hk]
    constructor
    · rintro ⟨n, hn, hm⟩
      obtain ⟨j, hj, hj2⟩ := (h3 n).1 hm
      rw [hn] at hj; cases hj; exact hj2
    · intro hkp
      obtain ⟨n, hn⟩ := List.getElem?_of_mem (hreg k hkp)
      exact ⟨n, hn, (h3 n).2 ⟨k, hn, hkp⟩⟩
  refine ⟨q, hq, hok, ?_, hpod, hip⟩
  rw [PeerSet.C22_eq_extensional hp hok]
  exact ⟨fun k => (hpod k).symm, fun x => (hip x).symm⟩

/-- C22: from indices of addresses and registered peers to a peer set and back gives the same indices. -/
theorem C22_round_trip_back {reg : List κ} (hr : Reach reg) {l : ISet} (hc : Canonical l)
    (hv : ∀ z, Mem z l → (∃ x : Ip, z = x.idx) ∨ ∃ n : Nat, n < reg.length ∧ z = minPodIndex + n) :
    ∃ p, fromIndices reg l = some p ∧ p.Ok ∧ toIndices reg p = some l := by
  obtain ⟨p, hp, hok, hi, hk⟩ := fromIndices_spec hc (valid_dom hr hv) (valid_start hc hv)
  have hdef : ∀ k, p.HasPod k → k ∈ reg := by
    intro k h
    obtain ⟨n, hn, _⟩ := (hk k).1 h
    exact List.mem_of_getElem? hn
  obtain ⟨m, hm⟩ := (C22_to_indices_defined hr hok).2 hdef
  refine ⟨p, hp, hok, ?_⟩
  rw [hm]
  congr 1
  obtain ⟨h1, h2, h3, h4⟩ := C22_to_indices_exact hr hok hm
  have hn := (C22_registry hr).1
  refine canonical_ext _ _ h1 hc (fun z => ?_)
  have aux : ∀ n : Nat, Mem (minPodIndex + n) m ↔ Mem (minPodIndex + n) l ∧ n < reg.length := by
    intro n
    rw [h3]
    constructor
    · rintro ⟨k, h5, h6⟩
      obtain ⟨j, h7, h8⟩ := (hk k).1 h6
      obtain ⟨h9, _⟩ := List.getElem?_eq_some_iff.1 h5
      rw [(List.getElem?_inj h9 hn).1 (h5.trans h7.symm)] at *
      exact ⟨h8, h9⟩
    · rintro ⟨h5, h6⟩
      exact ⟨reg[n], List.getElem?_eq_getElem h6, (hk _).2 ⟨n, List.getElem?_eq_getElem h6, h5⟩⟩
  constructor
  · intro hz
    rcases h4 z hz with ⟨x, rfl⟩ | ⟨n, _, rfl⟩
    · rw [← hi, ← h2]; exact hz
    · exact ((aux n).1 hz).1
  · intro hz
    rcases hv z hz with ⟨x, rfl⟩ | ⟨n, hn, rfl⟩
    · rw [h2, hi]; exact hz
    · exact (aux n).2 ⟨hz, hn⟩

/-- C22: operations on peer sets agree with the operations on their indices. -/
theorem C22_operations_commute {reg : List κ} (hr : Reach reg) {p q : PeerSet κ} (hp : p.Ok) (hq : q.Ok) {l m : ISet}
    (hl : toIndices reg p = some l) (hm : toIndices reg q = some m) :
    toIndices reg (p.and q) = some (ISet.inter l m) ∧ toIndices reg (p.or q) = some (ISet.union l m) ∧
    toIndices reg (p.sub q) = some (ISet.diff l m) ∧ (p.eq q = true ↔ l = m) := by
  have hn := (C22_registry hr).1
  have kp := (C22_to_indices_defined hr hp).1 ⟨l, hl⟩
  have kq := (C22_to_indices_defined hr hq).1 ⟨m, hm⟩
  have sp := toIndices_spec hn hp hl
  have sq := toIndices_spec hn hq hm
  have ip := toIndices_ip hn hp hl
  have iq := toIndices_ip hn hq hm
  have pp := toIndices_pod hn hp hl
  have pq := toIndices_pod hn hq hm
  have same : ∀ {r : PeerSet κ} {t : ISet}, r.Ok → (∀ k, r.HasPod k → k ∈ reg) → Canonical t →
      (∀ x : Ip, Mem x.idx t ↔ r.HasIp x) → (∀ n : Nat, Mem (minPodIndex + n) t ↔ ∃ k, reg[n]? = some k ∧ r.HasPod k) →
      (∀ z, Mem z t → (∃ x : Ip, z = x.idx) ∨ ∃ n : Nat, z = minPodIndex + n) → toIndices reg r = some t := by
    intro r t hr' hk hc h1 h2 h3
    obtain ⟨u, hu⟩ := (C22_to_indices_defined hr hr').2 hk
    rw [hu]; congr 1
    have su := toIndices_spec hn hr' hu
    refine canonical_ext _ _ su.1 hc (fun z => ?_)
    constructor
    · intro hz
      rcases (su.2 z).1 hz with ⟨x, rfl, h⟩ | ⟨n, k, rfl, h4, h5⟩
      · exact (h1 x).2 h
      · exact (h2 n).2 ⟨k, h4, h5⟩
    · intro hz
      rcases h3 z hz with ⟨x, rfl⟩ | ⟨n, rfl⟩
      · exact (toIndices_ip hn hr' hu x).2 ((h1 x).1 hz)
      · exact (toIndices_pod hn hr' hu n).2 ((h2 n).1 hz)
  have dp : ∀ z, Mem z l → (∃ x : Ip, z = x.idx) ∨ ∃ n : Nat, z = minPodIndex + n := by
    intro z hz
    rcases (sp.2 z).1 hz with ⟨x, h, _⟩ | ⟨n, _, h, _⟩
    · exact Or.inl ⟨x, h⟩
    · exact Or.inr ⟨n, h⟩
  have dq : ∀ z, Mem z m → (∃ x : Ip, z = x.idx) ∨ ∃ n : Nat, z = minPodIndex + n := by
    intro z hz
    rcases (sq.2 z).1 hz with ⟨x, h, _⟩ | ⟨n, _, h, _⟩
    · exact Or.inl ⟨x, h⟩
    · exact Or.inr ⟨n, h⟩
  have hi := inter_spec l m sp.1 sq.1
  have hu := union_spec l m sp.1 sq.1.1
  have hd := diff_spec l m sp.1 sq.1.1
  obtain ⟨a1, a2, a3⟩ := PeerSet.C22_and_exact hp hq
  obtain ⟨o1, o2, o3⟩ := PeerSet.C22_or_exact hp hq
  obtain ⟨s1, s2, s3⟩ := PeerSet.C22_sub_exact hp hq
  refine ⟨same a1 (fun k h => kp k ((a2 k).1 h).1) hi.1 (fun x => by rw [hi.2, a3, ip, iq]) (fun n => ?_)
      (fun z hz => dp z ((hi.2 z).1 hz).1),
    same o1 (fun k h => ((o2 k).1 h).elim (kp k) (kq k)) hu.1 (fun x => by rw [hu.2, o3, ip, iq]) (fun n => ?_)
      (fun z hz => ((hu.2 z).1 hz).elim (dp z) (dq z)),
    same s1 (fun k h => kp k ((s2 k).1 h).1) hd.1 (fun x => by rw [hd.2, s3, ip, iq]) (fun n => ?_)
      (fun z hz => dp z ((hd.2 z).1 hz).1), ?_⟩
  · rw [hi.2, pp, pq]
    constructor
    · rintro ⟨⟨k, h1, h2⟩, ⟨j, h3, h4⟩⟩
      rw [h1] at h3; cases h3
      exact ⟨k, h1, (a2 k).2 ⟨h2, h4⟩⟩
    · rintro ⟨k, h1, h2⟩
      exact ⟨⟨k, h1, ((a2 k).1 h2).1⟩, k, h1, ((a2 k).1 h2).2⟩
  · rw [hu.2, pp, pq]
    constructor
    · rintro (⟨k, h1, h2⟩ | ⟨k, h1, h2⟩)
      · exact ⟨k, h1, (o2 k).2 (Or.inl h2)⟩
      · exact ⟨k, h1, (o2 k).2 (Or.inr h2)⟩
    · rintro ⟨k, h1, h2⟩
      exact ((o2 k).1 h2).imp (fun h => ⟨k, h1, h⟩) (fun h => ⟨k, h1, h⟩)
  · rw [hd.2, pp, pq]
    constructor
    · rintro ⟨⟨k, h1, h2⟩, h3⟩
      exact ⟨k, h1, (s2 k).2 ⟨h2, fun h => h3 ⟨k, h1, h⟩⟩⟩
    · rintro ⟨k, h1, h2⟩
      refine ⟨⟨k, h1, ((s2 k).1 h2).1⟩, ?_⟩
      rintro ⟨j, h3, h4⟩
      rw [h1] at h3; cases h3
      exact ((s2 k).1 h2).2 h4
  · rw [PeerSet.C22_eq_extensional hp hq]
    constructor
    · rintro ⟨h1, h2⟩
      refine canonical_ext _ _ sp.1 sq.1 (fun z => ?_)
      rw [sp.2, sq.2]
      simp only [h1, h2]
    · rintro rfl
      refine ⟨fun k => ?_, fun x => by rw [← ip, iq]⟩
      constructor
      · intro h
        obtain ⟨n, h1⟩ := List.getElem?_of_mem (kp k h)
        obtain ⟨j, h2, h3⟩ := (pq n).1 ((pp n).2 ⟨k, h1, h⟩)
        rw [h1] at h2; cases h2; exact h3
      · intro h
        obtain ⟨n, h1⟩ := List.getElem?_of_mem (kq k h)
        obtain ⟨j, h2, h3⟩ := (pp n).1 ((pq n).2 ⟨k, h1, h⟩)
        rw [h1] at h2; cases h2; exact h3

theorem all_eq : Base.all = [⟨0, maxIpv4Index⟩, ⟨minIpv6Index, maxIpv6Index⟩, ⟨minPodIndex, maxPodIndex⟩] := by
  decide +kernel

theorem mem_all (z : Int) : Mem z Base.all ↔ InDom z := by
  rw [all_eq, inDom_iff]
  rw [mem_cons, mem_cons, mem_singleton]
  rfl

/-- C22: the whole domain stands for every address and every registered peer, once a peer is registered.
Without a registered peer the conversion fails: `C22_domain_error`. -/
theorem C22_domain_partial {reg : List κ} (hr : Reach reg) (hne : reg ≠ []) :
    ∃ p, fromIndices reg Base.all = some p ∧ p.Ok ∧ (∀ x, p.HasIp x) ∧ ∀ k, p.HasPod k ↔ k ∈ reg := by
  have hl : 0 < reg.length := List.length_pos_iff.2 hne
  obtain ⟨p, h1, h2, h3, h4⟩ := fromIndices_spec (reg := reg) (l := Base.all) (by decide +kernel)
    (fun z hz => (mem_all z).1 hz) (by
      rw [all_eq]
      intro i hi h
      simp only [List.mem_cons, List.not_mem_nil, or_false] at hi
      rcases hi with rfl | rfl | rfl <;>
        simp only [minPodIndex, maxIpv6Index, minIpv6Index] at h ⊢ <;> omega)
  refine ⟨p, h1, h2, fun x => (h3 x).2 ((mem_all _).2 (Or.inl ⟨x, rfl⟩)), fun k => ?_⟩
  rw [h4]
  constructor
  · rintro ⟨n, hn, _⟩; exact List.mem_of_getElem? hn
  · intro hk
    obtain ⟨n, hn⟩ := List.getElem?_of_mem hk
    refine ⟨n, hn, (mem_all _).2 (Or.inr ?_)⟩
    have := (C22_registry hr).2.1
    have := (List.getElem?_eq_some_iff.1 hn).1
    unfold maxPodIndex maxPods
    omega

/-! ### Where the code fails -/

/-- C22: with two registered peers, the complement of both still converts to a set that holds the second. -/
theorem C22_spurious_last :
    (fromIndices ["a", "b"] (ISet.diff Base.all [⟨minPodIndex, minPodIndex + 1⟩])).map PeerSet.pods = some ["b"] := by
  decide +kernel

/-- C22: without registered peers, converting the whole domain raises an `IndexError`. -/
theorem C22_domain_error : fromIndices ([] : List String) Base.all = none := by decide +kernel

/-- C22: a block covered by two blocks of the set, but by none of them alone, is reported not to be in it. -/
theorem C22_contains_block_incomplete :
    PeerSet.contains ([.ip [⟨⟨false, 0, by decide⟩, ⟨false, 9, by decide⟩⟩],
        .ip [⟨⟨false, 10, by decide⟩, ⟨false, 19, by decide⟩⟩]] : PeerSet String)
      (.ip [⟨⟨false, 5, by decide⟩, ⟨false, 15, by decide⟩⟩]) = false := by decide +kernel

/-! ### The hypotheses are met -/

def exReg : List String := ["default/a", "default/b", "prod/a"]
def exSet : PeerSet String := [.ip [⟨⟨false, 5, by decide⟩, ⟨false, 15, by decide⟩⟩], .pod "prod/a",
  .ip [⟨⟨false, 16, by decide⟩, ⟨false, 20, by decide⟩⟩, ⟨⟨true, 0, by decide⟩, ⟨true, 3, by decide⟩⟩], .pod "default/b"]

theorem exReg_reach : Reach exReg :=
  .add (.pod "prod/a") (.add (.pod "default/b") (.add (.pod "default/a") .empty rfl) rfl) rfl

example : toIndices exReg exSet = some [⟨5, 20⟩, ⟨minIpv6Index, minIpv6Index + 3⟩, ⟨minPodIndex + 1, minPodIndex + 2⟩] := by
  decide +kernel
example : (do fromIndices exReg (← toIndices exReg exSet)) = some [.pod "default/b", .pod "prod/a",
    .ip [⟨⟨false, 5, by decide⟩, ⟨false, 20, by decide⟩⟩], .ip [⟨⟨true, 0, by decide⟩, ⟨true, 3, by decide⟩⟩]] := by
  decide +kernel
example : exSet.Ok := by
  intro b hb
  simp only [exSet, List.mem_cons, PeerElem.ip.injEq, reduceCtorEq, List.not_mem_nil, or_false, false_or] at hb
  rcases hb with rfl | rfl
  · exact .range _ rfl (by decide)
  · exact wf_built ⟨by unfold ISet.Canonical; decide +kernel, by decide +kernel⟩
example : toIndices exReg [.pod "prod/b"] = none := by decide +kernel

end Base
end Verif
