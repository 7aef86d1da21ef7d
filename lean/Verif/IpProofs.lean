import Verif.IpModel
/-!
Interval sets of addresses behave like interval sets of integers: an order embedding of the addresses
into the integers that leaves a gap between the families commutes with every operation, in spite of
the saturating `+ 1` and `- 1`.
-/
namespace Verif
open ISet

/-- Integer position of an address; the families are 5 apart, as in `BasePeerSet` (Peer.py 704-709). -/
def Ip.idx (a : Ip) : Int := if a.six then 4294967300 + a.val else a.val

def IpIv.emb (i : IpIv) : Iv := ⟨i.s.idx, i.e.idx⟩

def IpBlock.emb (l : IpBlock) : ISet := l.map IpIv.emb

namespace Ip

theorem lt_eq (a b : Ip) : a.lt b = decide (a.idx < b.idx) := by
  have ha := a.le_top; have hb := b.le_top
  obtain ⟨sa, va, _⟩ := a; obtain ⟨sb, vb, _⟩ := b
  cases sa <;> cases sb <;> simp_all [lt, idx, topOf] <;> omega

theorem le_eq (a b : Ip) : a.le b = decide (a.idx ≤ b.idx) := by
  have ha := a.le_top; have hb := b.le_top
  obtain ⟨sa, va, _⟩ := a; obtain ⟨sb, vb, _⟩ := b
  cases sa <;> cases sb <;> simp_all [le, idx, topOf] <;> omega

theorem idx_inj {a b : Ip} : a.idx = b.idx ↔ a = b := by
  constructor
  · have ha := a.le_top; have hb := b.le_top
    obtain ⟨sa, va, _⟩ := a; obtain ⟨sb, vb, _⟩ := b
    cases sa <;> cases sb <;> simp_all [idx, topOf] <;> omega
  · rintro rfl; rfl

theorem idx_min (a b : Ip) : (a.min b).idx = Min.min a.idx b.idx := by
  unfold Ip.min; rw [lt_eq]; by_cases h : b.idx < a.idx <;> simp [h] <;> omega

theorem idx_max (a b : Ip) : (a.max b).idx = Max.max a.idx b.idx := by
  unfold Ip.max; rw [lt_eq]; by_cases h : a.idx < b.idx <;> simp [h] <;> omega

theorem lt_pred (a b : Ip) : a.lt b.pred = decide (a.idx < b.idx - 1) := by
  have ha := a.le_top; have hb := b.le_top
  obtain ⟨sa, va, _⟩ := a; obtain ⟨sb, vb, _⟩ := b
  cases sa <;> cases sb <;> by_cases h : vb = 0 <;> simp_all [lt, pred, idx, topOf] <;> omega

theorem le_eq_not_lt (a b : Ip) : a.le b = !b.lt a := by
  rw [lt_eq, le_eq, ← decide_not]; congr 1; simp

theorem pred_le (a b : Ip) : b.pred.le a = decide (a.idx ≥ b.idx - 1) := by
  rw [le_eq_not_lt, lt_pred, ← decide_not]; congr 1; simp

theorem succ_lt (a b : Ip) : a.succ.lt b = decide (b.idx > a.idx + 1) := by
  have ha := a.le_top; have hb := b.le_top
  obtain ⟨sa, va, _⟩ := a; obtain ⟨sb, vb, _⟩ := b
  cases sa <;> cases sb <;> simp_all [lt, succ, idx, topOf] <;> split <;> simp_all <;> omega

theorem le_succ (a b : Ip) : b.le a.succ = decide (b.idx ≤ a.idx + 1) := by
  rw [le_eq_not_lt, succ_lt, ← decide_not]; congr 1; simp

theorem idx_succ {a : Ip} {b : Ip} (hs : a.six = b.six) (h : a.idx < b.idx) : a.succ.idx = a.idx + 1 := by
  have ha := a.le_top; have hb := b.le_top
  obtain ⟨sa, va, _⟩ := a; obtain ⟨sb, vb, _⟩ := b
  cases sa <;> cases sb <;> simp_all [succ, idx, topOf] <;> split <;> simp_all <;> omega

theorem idx_pred {a : Ip} {b : Ip} (hs : a.six = b.six) (h : b.idx < a.idx) : a.pred.idx = a.idx - 1 := by
  have ha := a.le_top; have hb := b.le_top
  obtain ⟨sa, va, _⟩ := a; obtain ⟨sb, vb, _⟩ := b
  cases sa <;> cases sb <;> by_cases h : va = 0 <;> simp_all [pred, idx, topOf] <;> omega

theorem eq_succ {a b : Ip} (h : b.lt a = true) : (a == b.succ) = (a.idx == b.idx + 1) := by
  rw [Bool.eq_iff_iff, beq_iff_eq, beq_iff_eq]
  rw [lt_eq, decide_eq_true_eq] at h
  by_cases hs : b.six = a.six
  · rw [← idx_inj, idx_succ hs h]
  · constructor
    · intro e; exact absurd (by rw [e]; unfold succ; split <;> rfl) hs
    · intro e
      have ha := a.le_top; have hb := b.le_top
      obtain ⟨sa, va, _⟩ := a; obtain ⟨sb, vb, _⟩ := b
      cases sa <;> cases sb <;> simp_all [idx, topOf] <;> omega

/-- The integers between the families are not addresses. -/
theorem idx_gap (a : Ip) : a.idx ≠ 4294967298 := by
  have ha := a.le_top
  obtain ⟨sa, va, _⟩ := a
  cases sa <;> simp_all [idx, topOf] <;> omega

theorem six_of_idx {a b : Ip} (h : ¬ (a.idx ≤ 4294967298 ∧ 4294967298 ≤ b.idx)) (hab : a.idx ≤ b.idx) :
    a.six = b.six := by
  have ha := a.le_top; have hb := b.le_top
  obtain ⟨sa, va, _⟩ := a; obtain ⟨sb, vb, _⟩ := b
  cases sa <;> cases sb <;> simp_all [idx, topOf] <;> omega

end Ip

namespace IpIv

theorem overlaps_emb (a b : IpIv) : a.emb.overlaps b.emb = a.overlaps b := by
  change (decide (b.e.idx ≥ a.s.idx) && decide (b.s.idx ≤ a.e.idx)) = _
  rw [Bool.eq_iff_iff]; simp only [overlaps, Ip.le_eq, Bool.and_eq_true, decide_eq_true_eq, ge_iff_le]

theorem touches_emb (a b : IpIv) : a.emb.touches b.emb = a.touches b := by
  unfold touches Iv.touches
  by_cases h1 : b.e.lt a.s = true
  · rw [if_pos h1, Ip.eq_succ h1]
    rw [Ip.lt_eq, decide_eq_true_eq] at h1
    rw [if_pos (by simpa [emb] using h1)]; rfl
  · rw [if_neg h1]
    rw [Ip.lt_eq, decide_eq_true_eq] at h1
    rw [if_neg (by simpa [emb] using h1)]
    by_cases h2 : a.e.lt b.s = true
    · rw [if_pos h2, Ip.eq_succ h2]
      rw [Ip.lt_eq, decide_eq_true_eq] at h2
      rw [if_pos (by simpa [emb] using h2)]; rfl
    · rw [if_neg h2]
      rw [Ip.lt_eq, decide_eq_true_eq] at h2
      rw [if_neg (by simpa [emb] using h2)]

theorem isSubset_emb (a b : IpIv) : a.emb.isSubset b.emb = a.isSubset b := by
  change (decide (b.s.idx ≤ a.s.idx) && decide (b.e.idx ≥ a.e.idx)) = _
  rw [Bool.eq_iff_iff]; simp only [isSubset, Ip.le_eq, Bool.and_eq_true, decide_eq_true_eq, ge_iff_le]

theorem and_emb (a b : IpIv) : (a.and b).map emb = a.emb.and b.emb := by
  unfold and Iv.and
  simp only [Ip.lt_eq, Ip.idx_max, Ip.idx_min, decide_eq_true_eq]
  by_cases h : Min.min a.e.idx b.e.idx < Max.max a.s.idx b.s.idx
  · rw [if_pos h, if_pos (by simpa [emb] using h)]; rfl
  · rw [if_neg h, if_neg (by simpa [emb] using h)]; simp [emb, Ip.idx_max, Ip.idx_min]

/-- Both ends in one family, and not empty. -/
def Good (a : IpIv) : Prop := a.s.six = a.e.six ∧ a.s.idx ≤ a.e.idx

theorem sub_emb (a b : IpIv) (ha : a.Good) (hb : b.Good) : (a.sub b).map emb = a.emb.sub b.emb := by
  obtain ⟨ha1, ha2⟩ := ha; obtain ⟨hb1, hb2⟩ := hb
  unfold sub Iv.sub
  rw [overlaps_emb, isSubset_emb]
  by_cases h1 : a.overlaps b = true
  · have ho : a.s.idx ≤ b.e.idx ∧ b.s.idx ≤ a.e.idx := by simpa [overlaps, Ip.le_eq] using h1
    have hf : a.s.six = b.s.six := by
      have ga := Ip.le_top a.s; have gb := a.e.le_top; have gc := b.s.le_top; have gd := b.e.le_top
      unfold Ip.idx at *
      rw [← ha1] at *; rw [← hb1] at *
      cases h3 : a.s.six <;> cases h4 : b.s.six <;> simp_all [topOf] <;> omega
    rw [h1]
    simp only [Bool.not_true, Bool.false_eq_true, if_false]
    by_cases h2 : a.isSubset b = true
    · rw [if_pos h2, if_pos h2]; rfl
    rw [if_neg h2, if_neg h2]
    have e1 : (a.s.lt b.s && b.e.lt a.e) = true ↔ (a.emb.s < b.emb.s ∧ a.emb.e > b.emb.e) := by
      simp [Ip.lt_eq, emb]
    have e2 : a.s.lt b.s = true ↔ a.emb.s < b.emb.s := by simp [Ip.lt_eq, emb]
    by_cases h3 : (a.emb.s < b.emb.s ∧ a.emb.e > b.emb.e)
    · rw [if_pos (e1.2 h3), if_pos h3]
      simp only [List.map_cons, List.map_nil, emb]
      rw [Ip.idx_pred hf.symm h3.1, Ip.idx_succ (by rw [← ha1, ← hb1, hf]) h3.2]
    · rw [if_neg (fun h => h3 (e1.1 h)), if_neg h3]
      by_cases h4 : a.emb.s < b.emb.s
      · rw [if_pos (e2.2 h4), if_pos h4]
        simp only [List.map_cons, List.map_nil, emb]
        rw [Ip.idx_min, Ip.idx_pred hf.symm h4]
      · rw [if_neg (fun h => h4 (e2.1 h)), if_neg h4]
        simp only [List.map_cons, List.map_nil, emb]
        have h5 : b.e.idx < a.e.idx := by
          by_contra h6
          apply h2
          simp only [isSubset, Ip.le_eq, Bool.and_eq_true, decide_eq_true_eq]
          simp only [emb] at h4
          omega
        rw [Ip.idx_max, Ip.idx_succ (by rw [← ha1, ← hb1, hf]) h5]
  · rw [Bool.not_eq_true] at h1
    rw [h1]; simp

end IpIv

namespace IpBlock

theorem emb_get (l : IpBlock) (i : Nat) : (emb l)[i]! = (l[i]!).emb := by
  unfold emb
  by_cases h : i < l.length
  · simp [h]
  · simp [h]; rfl

theorem emb_length (l : IpBlock) : (emb l).length = l.length := by simp [emb]

theorem emb_isEmpty (l : IpBlock) : List.isEmpty (emb l) = l.isEmpty := by simp [emb]

theorem findLeftLoop_emb (l : IpBlock) (b : Ip) (n low high : Nat) (hn : high - low ≤ n) :
    ISet.findLeftLoop (emb l) (b.idx - 1) low high = findLeftLoop l b.pred low high := by
  induction n generalizing low high with
  | zero =>
    have h : ¬ low < high := by omega
    unfold findLeftLoop ISet.findLeftLoop
    simp only [h, if_false, emb_get, emb_length, Ip.pred_le, decide_eq_true_eq]
    rfl
  | succ n ih =>
    unfold findLeftLoop ISet.findLeftLoop
    by_cases h : low < high
    · have i1 := ih ((low + high) / 2 + 1) high (by omega)
      have i2 := ih low ((low + high) / 2) (by omega)
      simp only [h, if_true, emb_get, emb_length, Ip.lt_pred, Ip.pred_le, decide_eq_true_eq, i1, i2]
      rfl
    · simp only [h, if_false, emb_get, emb_length, Ip.pred_le, decide_eq_true_eq]
      rfl

theorem findLeft_emb (l : IpBlock) (iv : IpIv) : ISet.findLeft (emb l) iv.emb = findLeft l iv := by
  unfold findLeft ISet.findLeft
  rw [emb_isEmpty, emb_length, ← findLeftLoop_emb l iv.s l.length 0 l.length (Nat.le_refl _)]; rfl

theorem findRightLoop_emb (l : IpBlock) (b : Ip) (n low high : Nat) (hn : high - low ≤ n) :
    ISet.findRightLoop (emb l) (b.idx + 1) low high = findRightLoop l b.succ low high := by
  induction n generalizing low high with
  | zero =>
    have h : ¬ low < high := by omega
    unfold findRightLoop ISet.findRightLoop
    simp only [h, if_false, emb_get, emb_length, Ip.le_succ, decide_eq_true_eq]
    rfl
  | succ n ih =>
    unfold findRightLoop ISet.findRightLoop
    by_cases h : low < high
    · have i1 := ih ((low + high) / 2 + 1) high (by omega)
      have i2 := ih low ((low + high) / 2) (by omega)
      simp only [h, if_true, emb_get, emb_length, Ip.succ_lt, Ip.le_succ, decide_eq_true_eq, i1, i2]
      rfl
    · simp only [h, if_false, emb_get, emb_length, Ip.le_succ, decide_eq_true_eq]
      rfl

theorem findRight_emb (l : IpBlock) (iv : IpIv) : ISet.findRight (emb l) iv.emb = findRight l iv := by
  unfold findRight ISet.findRight
  rw [emb_isEmpty, emb_length, ← findRightLoop_emb l iv.e l.length 0 l.length (Nat.le_refl _)]; rfl

theorem addInterval_emb (l : IpBlock) (iv : IpIv) : emb (addInterval l iv) = ISet.addInterval (emb l) iv.emb := by
  unfold addInterval ISet.addInterval
  simp only [emb_isEmpty, findLeft_emb, findRight_emb, emb_length, emb_get, IpIv.overlaps_emb, IpIv.touches_emb]
  split
  · rfl
  · split
    · simp [emb, List.map_take, List.map_drop]
    · split
      · rfl
      · split
        · simp [emb]
        · simp only [emb, List.map_append, List.map_take, List.map_drop, List.map_cons, List.map_nil]
          congr 3
          simp only [IpIv.emb]
          congr 1
          · rw [apply_ite Ip.idx, Ip.idx_min]
          · rw [apply_ite Ip.idx, Ip.idx_max]

theorem flatMap_congr' {α β : Type} {l : List α} {f g : α → List β} (h : ∀ a ∈ l, f a = g a) :
    l.flatMap f = l.flatMap g := by
  induction l with
  | nil => rfl
  | cons a l ih =>
    rw [List.flatMap_cons, List.flatMap_cons, h a (List.mem_cons_self ..), ih (fun b hb => h b (List.mem_cons_of_mem _ hb))]

/-- Every interval lies in one family and is not empty. -/
def Good (l : IpBlock) : Prop := ∀ a ∈ l, a.Good

theorem addHole_emb (l : IpBlock) (h : IpIv) (hl : Good l) (hh : h.Good) :
    emb (addHole l h) = ISet.addHole (emb l) h.emb := by
  unfold addHole ISet.addHole emb
  rw [List.map_flatMap, List.flatMap_map]
  exact flatMap_congr' (fun a ha => IpIv.sub_emb a h (hl a ha) hh)

theorem inter_emb (l m : IpBlock) : emb (inter l m) = ISet.inter (emb l) (emb m) := by
  unfold inter ISet.inter emb
  rw [List.map_flatMap, List.flatMap_map]
  refine flatMap_congr' (fun a _ => ?_)
  rw [List.map_flatMap, List.flatMap_map]
  exact flatMap_congr' (fun b _ => IpIv.and_emb a b)

theorem union_emb (l m : IpBlock) : emb (union l m) = ISet.union (emb l) (emb m) := by
  unfold union ISet.union
  induction m generalizing l with
  | nil => rfl
  | cons a m ih => rw [List.foldl_cons, ih, addInterval_emb]; rfl

theorem containedLoop_emb (m l : IpBlock) : ISet.containedLoop (emb m) (emb l) = containedLoop m l := by
  induction l with
  | nil => rfl
  | cons a l ih =>
    unfold containedLoop
    rw [show emb (a :: l) = a.emb :: emb l from rfl, ISet.containedLoop]
    simp only [findLeft_emb, emb_length, emb_get, IpIv.isSubset_emb, ih]

theorem containedIn_emb (l m : IpBlock) : ISet.containedIn (emb l) (emb m) = containedIn l m := by
  unfold containedIn ISet.containedIn
  simp only [emb_length, emb_get, IpIv.isSubset_emb, containedLoop_emb]

theorem overlaps_emb (l m : IpBlock) : ISet.overlaps (emb l) (emb m) = overlaps l m := by
  unfold overlaps ISet.overlaps emb
  simp only [List.any_map, Function.comp_def, IpIv.overlaps_emb]

theorem emb_inj {l m : IpBlock} : emb l = emb m ↔ l = m := by
  unfold emb
  constructor
  · intro h
    refine List.map_inj_right (fun a b hab => ?_) |>.1 h
    obtain ⟨s, e⟩ := a; obtain ⟨s', e'⟩ := b
    simp only [IpIv.emb, Iv.mk.injEq, Ip.idx_inj] at hab
    rw [hab.1, hab.2]
  · rintro rfl; rfl

/-! ### The invariant -/

/-- Canonical as a set of integers, and no integer between the families belongs to it. -/
def WF (l : IpBlock) : Prop := Canonical (emb l) ∧ ¬ Mem 4294967298 (emb l)

theorem WF.good {l : IpBlock} (h : WF l) : Good l := by
  intro a ha
  have h1 := h.1.1 a.emb (List.mem_map_of_mem ha)
  refine ⟨Ip.six_of_idx (fun h2 => h.2 ⟨a.emb, List.mem_map_of_mem ha, h2⟩) h1, h1⟩

theorem good_gap {a : IpIv} (h : a.Good) : ¬ a.emb.Mem 4294967298 := by
  rintro ⟨h1, h2⟩
  obtain ⟨h3, h4⟩ := h
  have ga := Ip.le_top a.s; have gb := a.e.le_top
  change a.s.idx ≤ 4294967298 at h1
  change 4294967298 ≤ a.e.idx at h2
  unfold Ip.idx at h1 h2
  rw [← h3] at h2 gb
  cases h5 : a.s.six <;> rw [h5] at h1 h2 ga gb <;> simp only [topOf, if_true, if_false, Bool.false_eq_true] at h1 h2 ga gb <;> omega

theorem wf_nil : WF [] := ⟨canonical_nil, not_mem_nil⟩

theorem wf_singleton {a : IpIv} (h : a.Good) : WF [a] :=
  ⟨canonical_singleton.2 h.2, fun h1 => good_gap h (mem_singleton.1 h1)⟩

theorem wf_addInterval {l : IpBlock} {iv : IpIv} (hl : WF l) (hi : iv.Good) :
    WF (addInterval l iv) ∧ ∀ x, Mem x (emb (addInterval l iv)) ↔ Mem x (emb l) ∨ iv.emb.Mem x := by
  have h := addInterval_spec (emb l) iv.emb hl.1 hi.2
  refine ⟨⟨by rw [addInterval_emb]; exact h.1, ?_⟩, by rw [addInterval_emb]; exact h.2⟩
  rw [addInterval_emb, h.2]
  rintro (h1 | h1)
  · exact hl.2 h1
  · exact good_gap hi h1

theorem wf_addHole {l : IpBlock} {iv : IpIv} (hl : WF l) (hi : iv.Good) :
    WF (addHole l iv) ∧ ∀ x, Mem x (emb (addHole l iv)) ↔ Mem x (emb l) ∧ ¬ iv.emb.Mem x := by
  have h := addHole_spec (emb l) iv.emb hl.1 hi.2
  rw [WF, addHole_emb l iv hl.good hi]
  exact ⟨⟨h.1, fun h1 => hl.2 ((h.2 _).1 h1).1⟩, h.2⟩

theorem wf_inter {l m : IpBlock} (hl : WF l) (hm : WF m) :
    WF (inter l m) ∧ ∀ x, Mem x (emb (inter l m)) ↔ Mem x (emb l) ∧ Mem x (emb m) := by
  have h := inter_spec (emb l) (emb m) hl.1 hm.1
  rw [WF, inter_emb]
  exact ⟨⟨h.1, fun h1 => hl.2 ((h.2 _).1 h1).1⟩, h.2⟩

theorem wf_union {l m : IpBlock} (hl : WF l) (hm : WF m) :
    WF (union l m) ∧ ∀ x, Mem x (emb (union l m)) ↔ Mem x (emb l) ∨ Mem x (emb m) := by
  have h := union_spec (emb l) (emb m) hl.1 hm.1.1
  rw [WF, union_emb]
  exact ⟨⟨h.1, fun h1 => ((h.2 _).1 h1).elim hl.2 hm.2⟩, h.2⟩

theorem diff_emb {l m : IpBlock} (hl : WF l) (hm : Good m) : emb (diff l m) = ISet.diff (emb l) (emb m) := by
  unfold diff ISet.diff
  induction m generalizing l with
  | nil => rfl
  | cons a m ih =>
    have ha := hm a (List.mem_cons_self ..)
    rw [List.foldl_cons, ih (wf_addHole hl ha).1 (fun b hb => hm b (List.mem_cons_of_mem _ hb)), addHole_emb l a hl.good ha]
    rfl

theorem wf_diff {l m : IpBlock} (hl : WF l) (hm : WF m) :
    WF (diff l m) ∧ ∀ x, Mem x (emb (diff l m)) ↔ Mem x (emb l) ∧ ¬ Mem x (emb m) := by
  have h := diff_spec (emb l) (emb m) hl.1 hm.1.1
  rw [WF, diff_emb hl hm.good]
  exact ⟨⟨h.1, fun h1 => hl.2 ((h.2 _).1 h1).1⟩, h.2⟩

theorem Cidr.good (c : Cidr) : c.iv.Good := by
  refine ⟨rfl, ?_⟩
  change (if c.addr.six then (4294967300 : Int) + c.lo else c.lo) ≤ (if c.addr.six then (4294967300 : Int) + c.hi else c.hi)
  unfold Cidr.hi
  by_cases h : c.addr.six = true
  · rw [if_pos h, if_pos h]; omega
  · rw [if_neg h, if_neg h]; omega

end IpBlock
end Verif
