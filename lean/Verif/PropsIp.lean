import Verif.IpProofs
/-!
Property theorems C21 (IP blocks).

The specification speaks about single addresses: which addresses belong to a list of ranges, and which
belong to a CIDR network (family and leading bits agree).
-/
namespace Verif
open ISet

/-- The address lies in one of the ranges; a range only holds addresses of the family of its ends. -/
def IpBlock.Has (l : IpBlock) (x : Ip) : Prop :=
  ∃ i ∈ l, i.s.six = x.six ∧ i.e.six = x.six ∧ i.s.val ≤ x.val ∧ x.val ≤ i.e.val

/-- The address belongs to the network: same family, and all but the last `bits - len` bits agree. -/
def IpBlock.Cidr.Has (c : IpBlock.Cidr) (x : Ip) : Prop :=
  x.six = c.addr.six ∧ ∀ i, IpBlock.bitsOf c.addr.six - c.len ≤ i → x.val.testBit i = c.addr.val.testBit i

/-- The blocks the API can build. -/
inductive IpBlock.Built : IpBlock → Prop
  /-- `IpBlock()` -/
  | empty : Built []
  /-- `IpBlock(interval=...)`: one range inside a family -/
  | range (i : IpIv) : i.s.six = i.e.six → i.s.val ≤ i.e.val → Built [i]
  /-- `add_cidr` -/
  | cidr {l r : IpBlock} (c : IpBlock.Cidr) (ex : List IpBlock.Cidr) : Built l → l.addCidr c ex = some r → Built r
  /-- `remove_cidr` -/
  | remove {l : IpBlock} (c : IpBlock.Cidr) : Built l → Built (l.removeCidr c)
  /-- `get_all_ips_block` -/
  | all (no6 no4 : Bool) : Built (IpBlock.allIps no6 no4)
  | union {l m : IpBlock} : Built l → Built m → Built (l.union m)
  | inter {l m : IpBlock} : Built l → Built m → Built (l.inter m)
  | diff {l m : IpBlock} : Built l → Built m → Built (l.diff m)
  /-- `split` -/
  | split {l m : IpBlock} : Built l → m ∈ l.split → Built m

namespace IpBlock

theorem good_of {i : IpIv} (h1 : i.s.six = i.e.six) (h2 : i.s.val ≤ i.e.val) : i.Good := by
  refine ⟨h1, ?_⟩
  unfold Ip.idx
  rw [← h1]
  by_cases h : i.s.six = true
  · rw [if_pos h, if_pos h]; omega
  · rw [if_neg h, if_neg h]; omega

theorem good_val {i : IpIv} (h : i.Good) : i.s.val ≤ i.e.val := by
  obtain ⟨h1, h2⟩ := h
  unfold Ip.idx at h2
  rw [← h1] at h2
  by_cases h : i.s.six = true
  · rw [if_pos h, if_pos h] at h2; omega
  · rw [if_neg h, if_neg h] at h2; omega

theorem iv_mem {i : IpIv} (h : i.Good) (x : Ip) :
    i.emb.Mem x.idx ↔ i.s.six = x.six ∧ i.e.six = x.six ∧ i.s.val ≤ x.val ∧ x.val ≤ i.e.val := by
  obtain ⟨h1, h2⟩ := h
  have g1 := i.s.le_top; have g2 := i.e.le_top; have g3 := x.le_top
  change i.s.idx ≤ x.idx ∧ x.idx ≤ i.e.idx ↔ _
  unfold Ip.idx at *
  rw [← h1] at *
  cases h3 : i.s.six <;> cases h4 : x.six <;> rw [h3] at g1 g2 <;> rw [h4] at g3 <;>
    simp only [topOf, if_true, if_false, Bool.false_eq_true, reduceCtorEq, false_and, true_and] at * <;>
    first | omega | (exact ⟨fun h => by omega, fun h => h.elim⟩)

theorem has_iff {l : IpBlock} (h : Good l) (x : Ip) : l.Has x ↔ Mem x.idx (emb l) := by
  unfold Has Mem emb
  constructor
  · rintro ⟨i, hi, h1⟩
    exact ⟨i.emb, List.mem_map_of_mem hi, (iv_mem (h i hi) x).2 h1⟩
  · rintro ⟨a, ha, h1⟩
    obtain ⟨i, hi, rfl⟩ := List.mem_map.1 ha
    exact ⟨i, hi, (iv_mem (h i hi) x).1 h1⟩

theorem foldlM_cidr {six : Bool} (ex : List Cidr) {l r : IpBlock} (hl : WF l)
    (h : ex.foldlM (fun l x => if x.addr.six = six then some (addHole l x.iv) else none) l = some r) :
    WF r ∧ (∀ e ∈ ex, e.addr.six = six) ∧ ∀ x, Mem x (emb r) ↔ Mem x (emb l) ∧ ∀ e ∈ ex, ¬ e.iv.emb.Mem x := by
  induction ex generalizing l with
  | nil => simp only [List.foldlM_nil] at h; cases h; exact ⟨hl, by simp, by simp⟩
  | cons c ex ih =>
    rw [List.foldlM_cons] at h
    by_cases hc : c.addr.six = six
    · rw [if_pos hc] at h
      have h1 := wf_addHole hl c.good
      obtain ⟨h2, h3, h4⟩ := ih h1.1 h
      refine ⟨h2, by simpa [hc] using h3, fun x => ?_⟩
      rw [h4, h1.2, and_assoc, List.forall_mem_cons]
    · rw [if_neg hc] at h; cases h

theorem addCidr_wf {l r : IpBlock} {c : Cidr} {ex : List Cidr} (hl : WF l) (h : l.addCidr c ex = some r) :
    WF r ∧ (∀ e ∈ ex, e.addr.six = c.addr.six) ∧
    ∀ x, Mem x (emb r) ↔ (Mem x (emb l) ∨ c.iv.emb.Mem x) ∧ ∀ e ∈ ex, ¬ e.iv.emb.Mem x := by
  have h1 := wf_addInterval hl c.good
  obtain ⟨h2, h3, h4⟩ := foldlM_cidr ex h1.1 h
  exact ⟨h2, h3, fun x => by rw [h4, h1.2]⟩

theorem allIps_wf (no6 no4 : Bool) : WF (allIps no6 no4) := by
  unfold allIps
  have h : WF (if no4 = true then ([] : IpBlock) else addInterval [] (allOf false).iv) := by
    split
    · exact wf_nil
    · exact (wf_addInterval wf_nil (Cidr.good _)).1
  simp only []
  split
  · exact h
  · exact (wf_addInterval h (Cidr.good _)).1

theorem built_wf {l : IpBlock} (h : Built l) : WF l := by
  induction h with
  | empty => exact wf_nil
  | range i h1 h2 => exact wf_singleton (good_of h1 h2)
  | cidr c ex _ h ih => exact (addCidr_wf ih h).1
  | remove c _ ih => exact (wf_addHole ih c.good).1
  | all a b => exact allIps_wf a b
  | union _ _ i1 i2 => exact (wf_union i1 i2).1
  | inter _ _ i1 i2 => exact (wf_inter i1 i2).1
  | diff _ _ i1 i2 => exact (wf_diff i1 i2).1
  | split _ hm ih =>
    obtain ⟨i, hi, rfl⟩ := List.mem_map.1 hm
    exact wf_singleton (ih.good i hi)

theorem div_eq_testBit (x y k : Nat) : x / 2 ^ k = y / 2 ^ k ↔ ∀ i, k ≤ i → x.testBit i = y.testBit i := by
  constructor
  · intro h i hi
    have := congrArg (fun n => n.testBit (i - k)) h
    simp only [Nat.testBit_div_two_pow, Nat.sub_add_cancel hi] at this
    exact this
  · intro h
    apply Nat.eq_of_testBit_eq
    intro i
    rw [Nat.testBit_div_two_pow, Nat.testBit_div_two_pow]
    exact h _ (by omega)

theorem cidr_mem (c : Cidr) (x : Ip) : c.iv.emb.Mem x.idx ↔ c.Has x := by
  rw [iv_mem c.good]
  unfold Cidr.Has
  rw [← div_eq_testBit]
  change c.addr.six = x.six ∧ c.addr.six = x.six ∧ c.lo ≤ x.val ∧ x.val ≤ c.hi ↔ _
  unfold Cidr.hi Cidr.lo
  have hp := c.size_pos
  have : (c.addr.val / c.size * c.size ≤ x.val ∧ x.val ≤ c.addr.val / c.size * c.size + (c.size - 1)) ↔
      x.val / c.size = c.addr.val / c.size := by
    rw [Nat.div_eq_iff hp]
    omega
  rw [this]
  unfold Cidr.size
  constructor
  · rintro ⟨h1, _, h2⟩; exact ⟨h1.symm, h2⟩
  · rintro ⟨h1, h2⟩; exact ⟨h1.symm, h1.symm, h2⟩

/-! ### C21 -/

/-- C21: no range of a block ever mixes families or is inverted, and the ranges are in increasing order,
pairwise disjoint and not adjacent. -/
theorem C21_never_mixed {l : IpBlock} (h : Built l) :
    (∀ i ∈ l, i.s.six = i.e.six ∧ i.s.val ≤ i.e.val) ∧
    l.Pairwise (fun i j => (i.e.six = false ∧ j.s.six = true) ∨ (i.e.six = j.s.six ∧ i.e.val + 1 < j.s.val)) := by
  have hw := built_wf h
  refine ⟨fun i hi => ⟨(hw.good i hi).1, good_val (hw.good i hi)⟩, ?_⟩
  have hp := hw.1.2
  unfold emb at hp
  rw [List.pairwise_map] at hp
  refine hp.imp ?_
  intro i j hij
  change i.e.idx + 1 < j.s.idx at hij
  have g1 := i.e.le_top; have g2 := j.s.le_top
  unfold Ip.idx at hij
  cases h1 : i.e.six <;> cases h2 : j.s.six <;> rw [h1] at g1 hij <;> rw [h2] at g2 hij <;>
    simp only [topOf, if_true, if_false, Bool.false_eq_true, reduceCtorEq, false_and, true_and, and_self,
      or_false, false_or, and_false, and_true] at * <;> omega

/-- C21: union of blocks is union of address sets. -/
theorem C21_union_exact {l m : IpBlock} (hl : Built l) (hm : Built m) (x : Ip) :
    (l.union m).Has x ↔ l.Has x ∨ m.Has x := by
  have h := wf_union (built_wf hl) (built_wf hm)
  rw [has_iff h.1.good, has_iff (built_wf hl).good, has_iff (built_wf hm).good, h.2]

/-- C21: intersection. -/
theorem C21_inter_exact {l m : IpBlock} (hl : Built l) (hm : Built m) (x : Ip) :
    (l.inter m).Has x ↔ l.Has x ∧ m.Has x := by
  have h := wf_inter (built_wf hl) (built_wf hm)
  rw [has_iff h.1.good, has_iff (built_wf hl).good, has_iff (built_wf hm).good, h.2]

/-- C21: difference. -/
theorem C21_diff_exact {l m : IpBlock} (hl : Built l) (hm : Built m) (x : Ip) :
    (l.diff m).Has x ↔ l.Has x ∧ ¬ m.Has x := by
  have h := wf_diff (built_wf hl) (built_wf hm)
  rw [has_iff h.1.good, has_iff (built_wf hl).good, has_iff (built_wf hm).good, h.2]

/-- C21: `add_cidr` adds exactly the network and removes exactly the exceptions. -/
theorem C21_cidr_exact {l r : IpBlock} {c : Cidr} {ex : List Cidr} (hl : Built l) (h : l.addCidr c ex = some r) (x : Ip) :
    r.Has x ↔ (l.Has x ∨ c.Has x) ∧ ∀ e ∈ ex, ¬ e.Has x := by
  have h1 := addCidr_wf (built_wf hl) h
  rw [has_iff h1.1.good, has_iff (built_wf hl).good, h1.2.2]
  simp only [cidr_mem]

/-- C21: `add_cidr` fails exactly when an exception is of the other family. -/
theorem C21_cidr_error {l : IpBlock} {c : Cidr} {ex : List Cidr} :
    l.addCidr c ex = none ↔ ∃ e ∈ ex, e.addr.six ≠ c.addr.six := by
  unfold addCidr
  generalize addInterval l c.iv = l'
  induction ex generalizing l' with
  | nil => simp
  | cons e ex ih =>
    rw [List.foldlM_cons]
    by_cases hc : e.addr.six = c.addr.six
    · rw [if_pos hc]
      simp only [Option.bind_eq_bind, Option.bind_some, ih, List.mem_cons, exists_eq_or_imp, hc, ne_eq, not_true,
        false_or]
    · rw [if_neg hc]; simp [hc]

/-- C21: `remove_cidr` removes exactly the network. -/
theorem C21_remove_exact {l : IpBlock} {c : Cidr} (hl : Built l) (x : Ip) :
    (l.removeCidr c).Has x ↔ l.Has x ∧ ¬ c.Has x := by
  have h1 := wf_addHole (built_wf hl) c.good
  unfold removeCidr
  rw [has_iff h1.1.good, has_iff (built_wf hl).good, h1.2, cidr_mem]

theorem has_all (x : Ip) : (allOf x.six).Has x := by
  refine ⟨rfl, fun i hi => ?_⟩
  have h1 := x.le_top
  have h2 := topOf_eq x.six
  have hi' : bitsOf x.six ≤ i := by simpa [allOf] using hi
  have h3 : x.val < 2 ^ i := Nat.lt_of_lt_of_le (by omega : x.val < 2 ^ bitsOf x.six) (Nat.pow_le_pow_right (by decide) hi')
  rw [Nat.testBit_lt_two_pow h3]
  simp [allOf]

/-- C21: the block of all addresses holds every address of the families that are not excluded. -/
theorem C21_all_exact (no6 no4 : Bool) (x : Ip) :
    (allIps no6 no4).Has x ↔ (if x.six then no6 = false else no4 = false) := by
  rw [has_iff (allIps_wf no6 no4).good]
  have e : ∀ six, (allOf six).iv.emb.Mem x.idx ↔ x.six = six := by
    intro six
    rw [cidr_mem]
    exact ⟨fun h => h.1, fun h => h ▸ has_all x⟩
  have hn : Mem x.idx (emb []) ↔ False := ⟨fun h => not_mem_nil h, fun h => h.elim⟩
  unfold allIps
  cases no6 <;> cases no4 <;> cases h : x.six <;>
    simp only [if_true, if_false, Bool.false_eq_true, (wf_addInterval wf_nil (Cidr.good _)).2,
      (wf_addInterval (wf_addInterval wf_nil (Cidr.good _)).1 (Cidr.good _)).2, e, h, hn,
      or_false, false_or, or_true, reduceCtorEq]

theorem wf_exists {l : IpBlock} (h : WF l) {z : Int} (hz : Mem z (emb l)) : ∃ x : Ip, x.idx = z := by
  obtain ⟨a, ha, h1, h2⟩ := hz
  obtain ⟨i, hi, rfl⟩ := List.mem_map.1 ha
  have hg := h.good i hi
  change i.s.idx ≤ z at h1
  change z ≤ i.e.idx at h2
  obtain ⟨h3, h4⟩ := hg
  have g1 := i.s.le_top; have g2 := i.e.le_top
  unfold Ip.idx at h1 h2
  rw [← h3] at h2 g2
  cases h5 : i.s.six <;> rw [h5] at h1 h2 g1 g2 <;>
    simp only [topOf, if_true, if_false, Bool.false_eq_true] at h1 h2 g1 g2
  · refine ⟨⟨false, z.toNat, by simp only [topOf, Bool.false_eq_true, if_false]; omega⟩, ?_⟩
    simp only [Ip.idx, Bool.false_eq_true, if_false]; omega
  · refine ⟨⟨true, (z - 4294967300).toNat, by simp only [topOf, if_true]; omega⟩, ?_⟩
    simp only [Ip.idx, if_true]; omega

theorem forall_mem_iff {l m : IpBlock} (hl : WF l) (hm : WF m) :
    (∀ z, Mem z (emb l) → Mem z (emb m)) ↔ ∀ x, l.Has x → m.Has x := by
  constructor
  · intro h x hx
    rw [has_iff hl.good] at hx; rw [has_iff hm.good]; exact h _ hx
  · intro h z hz
    obtain ⟨x, rfl⟩ := wf_exists hl hz
    rw [← has_iff hm.good]; exact h x ((has_iff hl.good x).2 hz)

/-- C21: two blocks compare equal iff they hold the same addresses. -/
theorem C21_eq_extensional {l m : IpBlock} (hl : Built l) (hm : Built m) :
    l = m ↔ ∀ x, l.Has x ↔ m.Has x := by
  have hl' := built_wf hl; have hm' := built_wf hm
  constructor
  · rintro rfl x; rfl
  · intro h
    rw [← emb_inj]
    refine canonical_ext _ _ hl'.1 hm'.1 (fun z => ⟨?_, ?_⟩)
    · exact (forall_mem_iff hl' hm').2 (fun x => (h x).1) z
    · exact (forall_mem_iff hm' hl').2 (fun x => (h x).2) z

/-- C21: containment between blocks. -/
theorem C21_containedIn_exact {l m : IpBlock} (hl : Built l) (hm : Built m) :
    l.containedIn m = true ↔ ∀ x, l.Has x → m.Has x := by
  have hl' := built_wf hl; have hm' := built_wf hm
  rw [← containedIn_emb, containedIn_spec _ _ hl'.1 hm'.1]
  exact forall_mem_iff hl' hm'

/-- C21: overlap between blocks. -/
theorem C21_overlaps_exact {l m : IpBlock} (hl : Built l) (hm : Built m) :
    l.overlaps m = true ↔ ∃ x, l.Has x ∧ m.Has x := by
  have hl' := built_wf hl; have hm' := built_wf hm
  rw [← overlaps_emb, overlaps_spec _ _ hl'.1 hm'.1]
  constructor
  · rintro ⟨z, h1, h2⟩
    obtain ⟨x, rfl⟩ := wf_exists hl' h1
    exact ⟨x, (has_iff hl'.good x).2 h1, (has_iff hm'.good x).2 h2⟩
  · rintro ⟨x, h1, h2⟩
    exact ⟨x.idx, (has_iff hl'.good x).1 h1, (has_iff hm'.good x).1 h2⟩

/-- C21: a block is truthy iff it holds an address. -/
theorem C21_truthy_exact {l : IpBlock} (hl : Built l) : l.truthy = true ↔ ∃ x, l.Has x := by
  have hg := built_wf hl
  unfold truthy
  cases l with
  | nil => simp [Has]
  | cons i l =>
    simp only [List.isEmpty_cons, Bool.not_false, true_iff]
    have h1 := hg.good i (List.mem_cons_self ..)
    exact ⟨i.s, i, List.mem_cons_self .., rfl, h1.1.symm, Nat.le_refl _, good_val h1⟩

/-- C21: the operations agree with the operations on the integer intervals the blocks are mapped to. -/
theorem C21_operations_commute {l m : IpBlock} (hl : Built l) (hm : Built m) :
    emb (l.union m) = ISet.union (emb l) (emb m) ∧ emb (l.inter m) = ISet.inter (emb l) (emb m) ∧
    emb (l.diff m) = ISet.diff (emb l) (emb m) ∧ (l = m ↔ emb l = emb m) ∧
    l.containedIn m = ISet.containedIn (emb l) (emb m) ∧ l.overlaps m = ISet.overlaps (emb l) (emb m) ∧
    Canonical (emb l) :=
  ⟨union_emb l m, inter_emb l m, diff_emb (built_wf hl) (built_wf hm).good, emb_inj.symm,
    (containedIn_emb l m).symm, (overlaps_emb l m).symm, (built_wf hl).1⟩

/-- The addresses of a range, one by one. -/
def ivList (i : IpIv) (h : i.e.val ≤ topOf i.e.six) : List Ip :=
  (List.range (i.e.val + 1 - i.s.val)).pmap (fun k hk => (⟨i.e.six, i.s.val + k, hk⟩ : Ip))
    (fun k hk => by rw [List.mem_range] at hk; omega)

theorem mem_ivList {i : IpIv} (hg : i.Good) (h) (x : Ip) :
    x ∈ ivList i h ↔ i.s.six = x.six ∧ i.e.six = x.six ∧ i.s.val ≤ x.val ∧ x.val ≤ i.e.val := by
  unfold ivList
  simp only [List.mem_pmap, List.mem_range]
  constructor
  · rintro ⟨k, hk, rfl⟩
    exact ⟨hg.1, rfl, Nat.le_add_right _ _, by change i.s.val + k ≤ _; omega⟩
  · rintro ⟨h1, h2, h3, h4⟩
    refine ⟨x.val - i.s.val, by omega, ?_⟩
    obtain ⟨s, v, hx⟩ := x
    dsimp only at h1 h2 h3 h4 ⊢
    subst h2
    congr 1
    omega

theorem nodup_ivList (i : IpIv) (h) : (ivList i h).Nodup := by
  unfold ivList
  rw [List.Nodup, List.pairwise_pmap]
  refine List.nodup_range.imp ?_
  intro a b hne ha hb hab
  simp only [Ip.mk.injEq] at hab
  omega

theorem length_ivList (i : IpIv) (h) : (ivList i h).length = i.e.val + 1 - i.s.val := by
  simp [ivList]

/-- C21: `ip_count` is the number of addresses of the block. -/
theorem C21_count_exact {l : IpBlock} (hl : Built l) :
    ∃ L : List Ip, L.Nodup ∧ (∀ x, x ∈ L ↔ l.Has x) ∧ l.ipCount = L.length := by
  have hw := built_wf hl
  clear hl
  induction l with
  | nil => exact ⟨[], List.nodup_nil, by simp [Has], rfl⟩
  | cons i l ih =>
    have hw' : WF l := by
      refine ⟨Canonical.tail hw.1, fun h => hw.2 (mem_cons.2 (Or.inr h))⟩
    obtain ⟨L, h1, h2, h3⟩ := ih hw'
    have hg := hw.good i (List.mem_cons_self ..)
    refine ⟨ivList i i.e.le_top ++ L, ?_, ?_, ?_⟩
    · rw [List.nodup_append]
      refine ⟨nodup_ivList _ _, h1, ?_⟩
      rintro x hx y hy rfl
      rw [mem_ivList hg, ← iv_mem hg] at hx
      rw [h2, has_iff hw'.good] at hy
      obtain ⟨b, hb, hb1, hb2⟩ := hy
      have := List.rel_of_pairwise_cons hw.1.2 hb
      have := hx.2
      omega
    · intro x
      rw [List.mem_append, mem_ivList hg, h2]
      unfold Has
      simp only [List.mem_cons, exists_eq_or_imp]
    · rw [List.length_append, length_ivList]
      have := good_val hg
      unfold ipCount at h3 ⊢
      rw [List.map_cons, List.sum_cons, h3]
      omega

/-- C21: `is_ipv4_block` holds iff no IPv6 address belongs to the block. -/
theorem C21_ipv4_exact {l : IpBlock} (hl : Built l) : l.isIpv4 = true ↔ ∀ x, l.Has x → x.six = false := by
  unfold isIpv4
  rw [decide_eq_true_eq, List.length_filter_eq_length_iff]
  constructor
  · rintro h x ⟨i, hi, h1, _⟩
    have := h i hi
    rw [← h1]; simpa using this
  · intro h i hi
    have hg := (built_wf hl).good i hi
    have := h i.s ⟨i, hi, rfl, hg.1.symm, Nat.le_refl _, good_val hg⟩
    simp [this]

/-- C21: `split` yields non-empty blocks of one range that are pairwise disjoint and cover the block. -/
theorem C21_split_exact {l : IpBlock} (hl : Built l) :
    (∀ x, l.Has x ↔ ∃ m ∈ l.split, m.Has x) ∧
    l.split.Pairwise (fun a b => ∀ x, ¬ (a.Has x ∧ b.Has x)) ∧ ∀ m ∈ l.split, m.length = 1 ∧ ∃ x, m.Has x := by
  have hw := built_wf hl
  refine ⟨fun x => ?_, ?_, ?_⟩
  · unfold split Has
    constructor
    · rintro ⟨i, hi, h⟩
      exact ⟨[i], List.mem_map_of_mem hi, i, List.mem_singleton.2 rfl, h⟩
    · rintro ⟨m, hm, i, hi, h⟩
      obtain ⟨j, hj, rfl⟩ := List.mem_map.1 hm
      rw [List.mem_singleton.1 hi] at h
      exact ⟨j, hj, h⟩
  · unfold split
    rw [List.pairwise_map]
    have hp := hw.1.2
    unfold emb at hp
    rw [List.pairwise_map] at hp
    refine List.Pairwise.imp_of_mem ?_ hp
    rintro i j hi hj hij x ⟨h1, h2⟩
    rw [has_iff (wf_singleton (hw.good i hi)).good] at h1
    rw [has_iff (wf_singleton (hw.good j hj)).good] at h2
    obtain ⟨_, h1⟩ := mem_singleton.1 h1
    obtain ⟨h2, _⟩ := mem_singleton.1 h2
    omega
  · intro m hm
    obtain ⟨i, hi, rfl⟩ := List.mem_map.1 hm
    have hg := hw.good i hi
    exact ⟨rfl, i.s, i, List.mem_singleton.2 rfl, rfl, hg.1.symm, Nat.le_refl _, good_val hg⟩

/-- C21: at the ends of a family `+ 1` and `- 1` stay where they are, and never change the family. -/
theorem C21_saturates (a : Ip) :
    a.succ.six = a.six ∧ a.pred.six = a.six ∧ a.succ.val = min (a.val + 1) (topOf a.six) ∧ a.pred.val = a.val - 1 := by
  have h := a.le_top
  unfold Ip.succ Ip.pred
  refine ⟨by split <;> rfl, by split <;> rfl, ?_, ?_⟩
  · split
    · dsimp only; omega
    · omega
  · split
    · omega
    · rfl

/-! ### The hypotheses are met -/

/-- `10.0.0.0/8` written with host bits, as `10.1.2.3/8`. -/
def ten : Cidr := ⟨⟨false, 10 * 2 ^ 24 + 1 * 2 ^ 16 + 2 * 2 ^ 8 + 3, by decide⟩, 8, by decide⟩
/-- `10.0.0.0/9`. -/
def tenLow : Cidr := ⟨⟨false, 10 * 2 ^ 24, by decide⟩, 9, by decide⟩
/-- `255.255.255.255/32`. -/
def last4 : Cidr := ⟨⟨false, 4294967295, by decide⟩, 32, by decide⟩
/-- `::/128`. -/
def first6 : Cidr := ⟨⟨true, 0, by decide⟩, 128, by decide⟩

-- 10.1.2.3/8 except 10.0.0.0/9 leaves 10.128.0.0-10.255.255.255
example : addCidr [] ten [tenLow] =
    some [⟨⟨false, 176160768, by decide⟩, ⟨false, 184549375, by decide⟩⟩] := by decide +kernel
example : Built [⟨⟨false, 176160768, by decide⟩, ⟨false, 184549375, by decide⟩⟩] :=
  .cidr ten [tenLow] .empty (by decide +kernel)
-- the last IPv4 and the first IPv6 address stay two ranges
example : (addInterval (addInterval [] last4.iv) first6.iv).length = 2 := by decide +kernel
example : (allIps false false).length = 2 ∧ ipCount (allIps false false) = 2 ^ 32 + 2 ^ 128 := by decide +kernel
example : addCidr [] ten [first6] = none := by decide +kernel
example : last4.iv.s.succ = last4.iv.s ∧ first6.iv.s.pred = first6.iv.s := by decide +kernel
example : ten.Has ⟨false, 10 * 2 ^ 24, by decide⟩ := (cidr_mem _ _).1 (by unfold Iv.Mem; decide +kernel)

end IpBlock
end Verif
