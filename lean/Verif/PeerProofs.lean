import Verif.PeerModel
/-!
Proofs about `PeerSet` and `BasePeerSet`.
-/
namespace Verif
open ISet

variable {κ : Type} [DecidableEq κ]

/-- A pod (or other non-IP peer) belongs to the peer set. -/
def PeerSet.HasPod (p : PeerSet κ) (k : κ) : Prop := .pod k ∈ p

/-- An address belongs to one of the blocks of the peer set. -/
def PeerSet.HasIp (p : PeerSet κ) (x : Ip) : Prop := ∃ b, .ip b ∈ p ∧ b.Has x

/-- Every block of the peer set was built by the API. -/
def PeerSet.Ok (p : PeerSet κ) : Prop := ∀ b, .ip b ∈ p → IpBlock.Built b

namespace IpBlock

theorem mem_emb_idx {l : IpBlock} (h : WF l) (z : Int) : Mem z (emb l) ↔ ∃ x : Ip, z = x.idx ∧ l.Has x := by
  constructor
  · intro hz
    obtain ⟨x, rfl⟩ := wf_exists h hz
    exact ⟨x, rfl, (has_iff h.good x).2 hz⟩
  · rintro ⟨x, rfl, hx⟩
    exact (has_iff h.good x).1 hx

theorem WF.tail {i : IpIv} {l : IpBlock} (h : WF (i :: l)) : WF l :=
  ⟨Canonical.tail h.1, fun h1 => h.2 (mem_cons.2 (Or.inr h1))⟩

theorem wf_built {l : IpBlock} (h : WF l) : Built l := by
  induction l with
  | nil => exact .empty
  | cons i l ih =>
    have hg := h.good i (List.mem_cons_self ..)
    have hb : Built [i] := .range i hg.1 (good_val hg)
    have hl := ih h.tail
    have hu := wf_union (built_wf hb) (built_wf hl)
    have e : IpBlock.union [i] l = i :: l := by
      rw [← emb_inj]
      refine canonical_ext _ _ hu.1.1 h.1 (fun z => ?_)
      rw [hu.2]
      change Mem z [i.emb] ∨ Mem z (emb l) ↔ Mem z (i.emb :: emb l)
      rw [mem_singleton, mem_cons]
    rw [← e]; exact .union hb hl

end IpBlock
open IpBlock

namespace PeerSet

theorem mem_pods (p : PeerSet κ) (k : κ) : k ∈ p.pods ↔ p.HasPod k := by
  unfold pods HasPod
  rw [List.mem_filterMap]
  constructor
  · rintro ⟨e, he, h⟩
    cases e with
    | pod j => cases h; exact he
    | ip b => cases h
  · intro h; exact ⟨_, h, rfl⟩

theorem ipForm_aux (p : PeerSet κ) (hp : p.Ok) (r : IpBlock) (hr : Built r) :
    Built (p.foldl ipStep r) ∧
    ∀ x, IpBlock.Has (p.foldl ipStep r) x ↔
      r.Has x ∨ p.HasIp x := by
  induction p generalizing r with
  | nil => exact ⟨hr, fun x => by simp [HasIp]⟩
  | cons e p ih =>
    have hp' : Ok p := fun b hb => hp b (List.mem_cons_of_mem _ hb)
    cases e with
    | pod k =>
      obtain ⟨h1, h2⟩ := ih hp' r hr
      refine ⟨h1, fun x => ?_⟩
      rw [List.foldl_cons]
      change (p.foldl ipStep r).Has x ↔ _
      rw [h2]
      simp [HasIp]
    | ip b =>
      have hb := hp b (List.mem_cons_self ..)
      obtain ⟨h1, h2⟩ := ih hp' (r.union b) (.union hr hb)
      refine ⟨h1, fun x => ?_⟩
      rw [List.foldl_cons]
      change (p.foldl ipStep (r.union b)).Has x ↔ _
      rw [h2, C21_union_exact hr hb, or_assoc]
      refine or_congr Iff.rfl ?_
      unfold HasIp
      constructor
      · rintro (h | ⟨c, hc, h⟩)
        · exact ⟨b, List.mem_cons_self .., h⟩
        · exact ⟨c, List.mem_cons_of_mem _ hc, h⟩
      · rintro ⟨c, hc, h⟩
        rcases List.mem_cons.1 hc with hc | hc
        · cases hc; exact Or.inl h
        · exact Or.inr ⟨c, hc, h⟩

theorem ipForm_built {p : PeerSet κ} (hp : p.Ok) : Built p.ipForm := (ipForm_aux p hp [] .empty).1

theorem ipForm_has {p : PeerSet κ} (hp : p.Ok) (x : Ip) : p.ipForm.Has x ↔ p.HasIp x := by
  rw [ipForm, (ipForm_aux p hp [] .empty).2]
  simp [IpBlock.Has]

theorem ofBlock_ok {b : IpBlock} (hb : Built b) : (ofBlock b : PeerSet κ).Ok := by
  intro c hc
  unfold ofBlock at hc
  split at hc
  · rw [List.mem_singleton] at hc; cases hc; exact hb
  · cases hc

theorem ofBlock_hasIp {b : IpBlock} (hb : Built b) (x : Ip) : (ofBlock b : PeerSet κ).HasIp x ↔ b.Has x := by
  unfold ofBlock HasIp
  split
  · constructor
    · rintro ⟨c, hc, h⟩; rw [List.mem_singleton] at hc; cases hc; exact h
    · intro h; exact ⟨b, List.mem_singleton.2 rfl, h⟩
  · rename_i h0
    constructor
    · rintro ⟨c, hc, h⟩; cases hc
    · intro h; exact absurd ((C21_truthy_exact hb).2 ⟨x, h⟩) h0

theorem hasIp_map_append (l : List κ) (q : PeerSet κ) (x : Ip) :
    HasIp (l.map PeerElem.pod ++ q) x ↔ q.HasIp x := by
  unfold HasIp
  simp [List.mem_append]

theorem hasPod_map_append (l : List κ) (q : PeerSet κ) (k : κ) :
    HasPod (l.map PeerElem.pod ++ q) k ↔ k ∈ l ∨ q.HasPod k := by
  unfold HasPod
  simp [List.mem_append]

theorem hasPod_ofBlock (b : IpBlock) (k : κ) : ¬ (ofBlock b : PeerSet κ).HasPod k := by
  unfold ofBlock HasPod
  split <;> simp

theorem ok_map_append {l : List κ} {q : PeerSet κ} (hq : q.Ok) : Ok (l.map PeerElem.pod ++ q) := by
  intro b hb
  rcases List.mem_append.1 hb with hb | hb
  · obtain ⟨k, _, hk⟩ := List.mem_map.1 hb; cases hk
  · exact hq b hb

end PeerSet

/-! ### Indices -/
namespace Base

theorem ivIndex_eq {i : IpIv} (h : i.Good) : ivIndex i = i.emb := by
  unfold ivIndex IpIv.emb Ip.idx minIpv6Index
  rw [← h.1]
  split <;> rfl

theorem foldl_ivIndex {b : IpBlock} (h : Good b) (r : ISet) :
    b.foldl (fun r i => r.addInterval (ivIndex i)) r = ISet.union r (emb b) := by
  unfold ISet.union emb
  induction b generalizing r with
  | nil => rfl
  | cons i b ih =>
    rw [List.foldl_cons, List.map_cons, List.foldl_cons, ih (fun a ha => h a (List.mem_cons_of_mem _ ha)),
      ivIndex_eq (h i (List.mem_cons_self ..))]

theorem find_some {reg : List κ} (hn : reg.Nodup) {k : κ} {n : Nat} :
    reg.findIdx? (· == k) = some n ↔ reg[n]? = some k := by
  rw [List.findIdx?_eq_some_iff_getElem]
  constructor
  · rintro ⟨h, h1, _⟩
    rw [List.getElem?_eq_getElem h]
    simpa using h1
  · intro h
    obtain ⟨h1, h2⟩ := List.getElem?_eq_some_iff.1 h
    refine ⟨h1, by simpa using h2, fun j hj => ?_⟩
    intro h3
    have h3' : reg[j] = k := by simpa using h3
    have := (List.getElem?_inj (i := j) (j := n) (by omega) hn).1 (by rw [h, ← h3', List.getElem?_eq_getElem (by omega)])
    omega

theorem find_none {reg : List κ} {k : κ} : reg.findIdx? (· == k) = none ↔ k ∉ reg := by
  rw [List.findIdx?_eq_none_iff]
  constructor
  · intro h hk; have := h k hk; simp at this
  · intro h x hx; simp; rintro rfl; exact h hx

theorem idx_lt (x : Ip) : x.idx < minPodIndex - 4 := by
  have h := x.le_top
  unfold Ip.idx minPodIndex maxIpv6Index
  cases h1 : x.six <;> rw [h1] at h <;> simp only [topOf, if_true, if_false, Bool.false_eq_true] at h ⊢ <;> omega

theorem idx_nonneg (x : Ip) : 0 ≤ x.idx := by
  unfold Ip.idx; split <;> omega

theorem toIndices_aux {reg : List κ} (hn : reg.Nodup) (p : PeerSet κ) (hp : p.Ok) (r : ISet) (hr : Canonical r) :
    (∀ l, p.foldlM (toStep reg) r = some l →
      Canonical l ∧ ∀ z, Mem z l ↔ Mem z r ∨ (∃ x : Ip, z = x.idx ∧ p.HasIp x) ∨
        ∃ (n : Nat) (k : κ), z = minPodIndex + n ∧ reg[n]? = some k ∧ p.HasPod k) ∧
    (p.foldlM (toStep reg) r = none ↔ ∃ k, p.HasPod k ∧ k ∉ reg) := by
  induction p generalizing r with
  | nil =>
    refine ⟨?_, by simp [PeerSet.HasPod]⟩
    intro l h; simp only [List.foldlM_nil] at h; cases h
    exact ⟨hr, fun z => by simp [PeerSet.HasPod, PeerSet.HasIp]⟩
  | cons e p ih =>
    have hp' : PeerSet.Ok p := fun b hb => hp b (List.mem_cons_of_mem _ hb)
    rw [List.foldlM_cons]
    cases e with
    | ip b =>
      have hb := built_wf (hp b (List.mem_cons_self ..))
      simp only [toStep, foldl_ivIndex hb.good, Option.bind_eq_bind, Option.bind_some]
      have hu := union_spec r (emb b) hr hb.1.1
      obtain ⟨h1, h2⟩ := ih hp' _ hu.1
      refine ⟨fun l hl => ?_, ?_⟩
      · obtain ⟨h3, h4⟩ := h1 l hl
        refine ⟨h3, fun z => ?_⟩
        rw [h4, hu.2, mem_emb_idx hb, or_assoc]
        refine or_congr Iff.rfl ?_
        rw [← or_assoc]
        refine or_congr ?_ ?_
        · constructor
          · rintro (⟨x, hx, h⟩ | ⟨x, hx, c, hc, h⟩)
            · exact ⟨x, hx, b, List.mem_cons_self .., h⟩
            · exact ⟨x, hx, c, List.mem_cons_of_mem _ hc, h⟩
          · rintro ⟨x, hx, c, hc, h⟩
            rcases List.mem_cons.1 hc with hc | hc
            · cases hc; exact Or.inl ⟨x, hx, h⟩
            · exact Or.inr ⟨x, hx, c, hc, h⟩
        · simp [PeerSet.HasPod]
      · rw [h2]; simp [PeerSet.HasPod]
    | pod k =>
      cases hf : reg.findIdx? (· == k) with
      | none =>
        simp only [toStep, hf, Option.map_none, Option.bind_eq_bind, Option.bind_none]
        refine ⟨fun l hl => (by cases hl), ?_⟩
        simp only [true_iff]
        exact ⟨k, List.mem_cons_self .., find_none.1 hf⟩
      | some n =>
        simp only [toStep, hf, Option.map_some, Option.bind_eq_bind, Option.bind_some]
        have hk := (find_some hn).1 hf
        have hu := addInterval_spec r ⟨minPodIndex + n, minPodIndex + n⟩ hr (Int.le_refl _)
        obtain ⟨h1, h2⟩ := ih hp' _ hu.1
        refine ⟨fun l hl => ?_, ?_⟩
        · obtain ⟨h3, h4⟩ := h1 l hl
          refine ⟨h3, fun z => ?_⟩
          rw [h4, hu.2, or_assoc]
          refine or_congr Iff.rfl ?_
          have e1 : Iv.Mem z ⟨minPodIndex + n, minPodIndex + n⟩ ↔ z = minPodIndex + n := by
            unfold Iv.Mem; constructor
            · rintro ⟨h5, h6⟩; dsimp only at h5 h6; omega
            · rintro rfl; exact ⟨Int.le_refl _, Int.le_refl _⟩
          rw [e1]
          constructor
          · rintro (h | ⟨x, hx, c, hc, h⟩ | ⟨m, j, hz, hj, h⟩)
            · exact Or.inr ⟨n, k, h, hk, List.mem_cons_self ..⟩
            · exact Or.inl ⟨x, hx, c, List.mem_cons_of_mem _ hc, h⟩
            · exact Or.inr ⟨m, j, hz, hj, List.mem_cons_of_mem _ h⟩
          · rintro (⟨x, hx, c, hc, h⟩ | ⟨m, j, hz, hj, h⟩)
            · rcases List.mem_cons.1 hc with hc | hc
              · cases hc
              · exact Or.inr (Or.inl ⟨x, hx, c, hc, h⟩)
            · rcases List.mem_cons.1 h with h | h
              · cases h
                left
                obtain ⟨b1, _⟩ := List.getElem?_eq_some_iff.1 hj
                have := (List.getElem?_inj b1 hn).1 (hj.trans hk.symm)
                rw [hz, this]
              · exact Or.inr (Or.inr ⟨m, j, hz, hj, h⟩)
        · rw [h2]
          have hkr : k ∈ reg := List.mem_of_getElem? hk
          constructor
          · rintro ⟨j, hj, h⟩; exact ⟨j, List.mem_cons_of_mem _ hj, h⟩
          · rintro ⟨j, hj, h⟩
            rcases List.mem_cons.1 hj with hj | hj
            · cases hj; exact absurd hkr h
            · exact ⟨j, hj, h⟩

theorem toIndices_spec {reg : List κ} (hn : reg.Nodup) {p : PeerSet κ} (hp : p.Ok) {l : ISet}
    (h : toIndices reg p = some l) :
    Canonical l ∧ ∀ z, Mem z l ↔ (∃ x : Ip, z = x.idx ∧ p.HasIp x) ∨
        ∃ (n : Nat) (k : κ), z = minPodIndex + n ∧ reg[n]? = some k ∧ p.HasPod k := by
  have h1 := (toIndices_aux hn p hp [] canonical_nil).1 l h
  refine ⟨h1.1, fun z => ?_⟩
  rw [h1.2]
  simp [not_mem_nil]

theorem toIndices_ip {reg : List κ} (hn : reg.Nodup) {p : PeerSet κ} (hp : p.Ok) {l : ISet}
    (h : toIndices reg p = some l) (x : Ip) : Mem x.idx l ↔ p.HasIp x := by
  rw [(toIndices_spec hn hp h).2]
  constructor
  · rintro (⟨y, hy, h1⟩ | ⟨n, k, hz, _⟩)
    · rw [Ip.idx_inj.1 hy]; exact h1
    · have := idx_lt x; omega
  · intro h1; exact Or.inl ⟨x, rfl, h1⟩

theorem toIndices_pod {reg : List κ} (hn : reg.Nodup) {p : PeerSet κ} (hp : p.Ok) {l : ISet}
    (h : toIndices reg p = some l) (n : Nat) : Mem (minPodIndex + n) l ↔ ∃ k, reg[n]? = some k ∧ p.HasPod k := by
  rw [(toIndices_spec hn hp h).2]
  constructor
  · rintro (⟨y, hy, h1⟩ | ⟨m, k, hz, h1, h2⟩)
    · have := idx_lt y; omega
    · have : m = n := by omega
      subst this; exact ⟨k, h1, h2⟩
  · rintro ⟨k, h1, h2⟩; exact Or.inr ⟨n, k, rfl, h1, h2⟩

/-! ### Back from indices -/

/-- The integer is an address index or a possible pod index. -/
def InDom (z : Int) : Prop := (∃ x : Ip, z = x.idx) ∨ (minPodIndex ≤ z ∧ z ≤ maxPodIndex)

theorem inDom_iff (z : Int) : InDom z ↔ (0 ≤ z ∧ z ≤ maxIpv4Index) ∨ (minIpv6Index ≤ z ∧ z ≤ maxIpv6Index) ∨
    (minPodIndex ≤ z ∧ z ≤ maxPodIndex) := by
  unfold InDom
  rw [← or_assoc]
  refine or_congr ?_ Iff.rfl
  unfold maxIpv4Index minIpv6Index maxIpv6Index
  constructor
  · rintro ⟨x, rfl⟩
    have h := x.le_top
    unfold Ip.idx
    cases h1 : x.six <;> rw [h1] at h <;> simp only [topOf, if_true, if_false, Bool.false_eq_true] at h ⊢ <;> omega
  · rintro (h | h)
    · refine ⟨⟨false, z.toNat, by simp only [topOf, Bool.false_eq_true, if_false]; omega⟩, ?_⟩
      simp only [Ip.idx, Bool.false_eq_true, if_false]; omega
    · refine ⟨⟨true, (z - 4294967300).toNat, by simp only [topOf, if_true]; omega⟩, ?_⟩
      simp only [Ip.idx, if_true]; omega

theorem ofInt_some {six : Bool} {z : Int} (h0 : 0 ≤ z) (h1 : z ≤ topOf six) :
    ∃ x : Ip, Ip.ofInt six z = some x ∧ x.six = six ∧ (x.val : Int) = z := by
  unfold Ip.ofInt
  have h : 0 ≤ z ∧ z.toNat ≤ topOf six := ⟨h0, by omega⟩
  rw [dif_pos h]
  exact ⟨_, rfl, rfl, by simp; omega⟩

theorem mem_setAdd {α : Type} [DecidableEq α] (l : List α) (a b : α) : b ∈ setAdd l a ↔ b ∈ l ∨ b = a := by
  unfold setAdd
  split
  · rename_i h
    constructor
    · exact Or.inl
    · rintro (h1 | rfl) <;> assumption
  · simp

theorem pyGet_ofNat {α : Type} (l : List α) (n : Nat) : pyGet l (n : Int) = l[n]? := by
  unfold pyGet; simp

theorem foldlM_pods {reg : List κ} (L : List Nat) (hL : ∀ n ∈ L, n < reg.length) (ps : List κ) :
    ∃ ps', (L.map (fun n : Nat => (n : Int))).foldlM (fun ps z => (pyGet reg z).map (setAdd ps)) ps = some ps' ∧
      ∀ k, k ∈ ps' ↔ k ∈ ps ∨ ∃ n ∈ L, reg[n]? = some k := by
  induction L generalizing ps with
  | nil => exact ⟨ps, rfl, by simp⟩
  | cons n L ih =>
    have hn := hL n (List.mem_cons_self ..)
    obtain ⟨ps', h1, h2⟩ := ih (fun m hm => hL m (List.mem_cons_of_mem _ hm)) (setAdd ps reg[n])
    refine ⟨ps', ?_, fun k => ?_⟩
    · rw [List.map_cons, List.foldlM_cons, pyGet_ofNat, List.getElem?_eq_getElem hn]
      exact h1
    · rw [h2, mem_setAdd]
      simp only [List.mem_cons, exists_eq_or_imp, List.getElem?_eq_getElem hn, Option.some.injEq]
      rw [or_assoc]
      refine or_congr Iff.rfl (or_congr ⟨Eq.symm, Eq.symm⟩ Iff.rfl)

theorem pyRangeInt_nat (a b : Nat) : pyRangeInt a b = (List.range' a (b - a)).map (fun n : Nat => (n : Int)) := by
  unfold pyRangeInt
  rw [List.range'_eq_map_range, List.map_map]
  have : ((b : Int) - a).toNat = b - a := by omega
  rw [this]
  rfl

/-- What the accumulator of the conversion says about the intervals processed so far. -/
structure AccOk (reg : List κ) (a : Acc κ) (D : Int → Prop) : Prop where
  w4 : WF a.b4
  w6 : WF a.b6
  f4 : ∀ x, a.b4.Has x ↔ x.six = false ∧ D x.idx
  f6 : ∀ x, a.b6.Has x ↔ x.six = true ∧ D x.idx
  pods : ∀ k, k ∈ a.pods ↔ ∃ n : Nat, reg[n]? = some k ∧ D (minPodIndex + n)

theorem range_good {s e : Ip} (h : s.six = e.six) (hv : s.val ≤ e.val) : (⟨s, e⟩ : IpIv).Good := good_of h hv

theorem has_add {l : IpBlock} (hl : WF l) {i : IpIv} (hi : i.Good) (x : Ip) :
    (l.addInterval i).Has x ↔ l.Has x ∨ i.emb.Mem x.idx := by
  have h := wf_addInterval hl hi
  rw [has_iff h.1.good, h.2, has_iff hl.good]

theorem fromStep_spec {reg : List κ} {a : Acc κ} {D : Int → Prop} (ha : AccOk reg a D) {i : Iv} (hi : i.s ≤ i.e)
    (hd : ∀ z, i.Mem z → InDom z) (hs : minPodIndex ≤ i.s → i.s < minPodIndex + reg.length) :
    ∃ a', fromStep reg a i = some a' ∧ AccOk reg a' (fun z => D z ∨ i.Mem z) := by
  have ds := (inDom_iff _).1 (hd i.s ⟨Int.le_refl _, hi⟩)
  have de := (inDom_iff _).1 (hd i.e ⟨hi, Int.le_refl _⟩)
  have g1 : ¬ (i.s ≤ 4294967298 ∧ 4294967298 ≤ i.e) := by
    intro h; have := (inDom_iff _).1 (hd 4294967298 h)
    unfold maxIpv4Index minIpv6Index maxIpv6Index maxPodIndex minPodIndex maxIpv6Index maxPods at this
    omega
  have g2 : ¬ (i.s ≤ maxIpv6Index + 2 ∧ maxIpv6Index + 2 ≤ i.e) := by
    intro h; have := (inDom_iff _).1 (hd _ h)
    unfold maxIpv4Index minIpv6Index maxPodIndex minPodIndex maxIpv6Index maxPods at this
    omega
  have hpod : ∀ n : Nat, (minPodIndex : Int) + n ≤ maxIpv6Index → False := by
    intro n h; unfold minPodIndex at h; omega
  unfold fromStep
  by_cases h4 : i.e ≤ maxIpv4Index
  · rw [if_pos h4]
    obtain ⟨s, es, s6, sv⟩ := ofInt_some (six := false) (z := i.s)
      (by unfold minIpv6Index minPodIndex maxIpv6Index at ds; omega)
      (by unfold maxIpv4Index at h4; simp only [topOf, Bool.false_eq_true, if_false]; omega)
    obtain ⟨e, ee, e6, ev⟩ := ofInt_some (six := false) (z := i.e)
      (by unfold minIpv6Index minPodIndex maxIpv6Index at ds; omega)
      (by unfold maxIpv4Index at h4; simp only [topOf, Bool.false_eq_true, if_false]; omega)
    rw [es, ee]
    refine ⟨_, rfl, ?_⟩
    have hg : (⟨s, e⟩ : IpIv).Good := good_of (s6.trans e6.symm) (by dsimp only; omega)
    have em : (⟨s, e⟩ : IpIv).emb = i := by
      obtain ⟨i1, i2⟩ := i
      simp only [IpIv.emb, Ip.idx, s6, e6, Bool.false_eq_true, if_false, Iv.mk.injEq]
      exact ⟨sv, ev⟩
    refine ⟨(wf_addInterval ha.w4 hg).1, ha.w6, fun x => ?_, fun x => ?_, fun k => ?_⟩
    · dsimp only
      rw [has_add ha.w4 hg, em, ha.f4]
      constructor
      · rintro (⟨h1, h2⟩ | h)
        · exact ⟨h1, Or.inl h2⟩
        · rw [← em, iv_mem hg] at h
          exact ⟨h.1.symm.trans s6, Or.inr (by rw [← em, iv_mem hg]; exact h)⟩
      · rintro ⟨h1, h2 | h2⟩
        · exact Or.inl ⟨h1, h2⟩
        · exact Or.inr h2
    · dsimp only
      rw [ha.f6]
      constructor
      · rintro ⟨h1, h2⟩; exact ⟨h1, Or.inl h2⟩
      · rintro ⟨h1, h2 | h2⟩
        · exact ⟨h1, h2⟩
        · rw [← em, iv_mem hg] at h2
          rw [← h2.1, s6] at h1; cases h1
    · dsimp only
      rw [ha.pods]
      constructor
      · rintro ⟨n, h1, h2⟩; exact ⟨n, h1, Or.inl h2⟩
      · rintro ⟨n, h1, h2 | h2⟩
        · exact ⟨n, h1, h2⟩
        · exact absurd h2.2 (by intro h; exact hpod n (by unfold maxIpv4Index at h4; unfold maxIpv6Index; omega))
  · rw [if_neg h4]
    by_cases h6 : i.e ≤ maxIpv6Index
    · rw [if_pos h6]
      have hs6 : minIpv6Index ≤ i.s := by
        unfold maxIpv4Index minIpv6Index maxIpv6Index maxPodIndex minPodIndex maxIpv6Index maxPods at *
        omega
      obtain ⟨s, es, s6, sv⟩ := ofInt_some (six := true) (z := i.s - minIpv6Index) (by omega)
        (by unfold maxIpv6Index at h6; unfold minIpv6Index; simp only [topOf, if_true]; omega)
      obtain ⟨e, ee, e6, ev⟩ := ofInt_some (six := true) (z := i.e - minIpv6Index) (by omega)
        (by unfold maxIpv6Index at h6; unfold minIpv6Index; simp only [topOf, if_true]; omega)
      rw [es, ee]
      refine ⟨_, rfl, ?_⟩
      have hg : (⟨s, e⟩ : IpIv).Good := good_of (s6.trans e6.symm) (by dsimp only; omega)
      have em : (⟨s, e⟩ : IpIv).emb = i := by
        obtain ⟨i1, i2⟩ := i
        unfold minIpv6Index at sv ev
        simp only [IpIv.emb, Ip.idx, s6, e6, if_true, Iv.mk.injEq]
        dsimp only at sv ev
        omega
      refine ⟨ha.w4, (wf_addInterval ha.w6 hg).1, fun x => ?_, fun x => ?_, fun k => ?_⟩
      · dsimp only
        rw [ha.f4]
        constructor
        · rintro ⟨h1, h2⟩; exact ⟨h1, Or.inl h2⟩
        · rintro ⟨h1, h2 | h2⟩
          · exact ⟨h1, h2⟩
          · rw [← em, iv_mem hg] at h2
            rw [← h2.1, s6] at h1; cases h1
      · dsimp only
        rw [has_add ha.w6 hg, em, ha.f6]
        constructor
        · rintro (⟨h1, h2⟩ | h)
          · exact ⟨h1, Or.inl h2⟩
          · rw [← em, iv_mem hg] at h
            exact ⟨h.1.symm.trans s6, Or.inr (by rw [← em, iv_mem hg]; exact h)⟩
        · rintro ⟨h1, h2 | h2⟩
          · exact Or.inl ⟨h1, h2⟩
          · exact Or.inr h2
      · dsimp only
        rw [ha.pods]
        constructor
        · rintro ⟨n, h1, h2⟩; exact ⟨n, h1, Or.inl h2⟩
        · rintro ⟨n, h1, h2 | h2⟩
          · exact ⟨n, h1, h2⟩
          · exact absurd h2.2 (by intro h; exact hpod n (by omega))
    · rw [if_neg h6]
      have hs7 : minPodIndex ≤ i.s := by
        unfold maxIpv4Index minIpv6Index maxPodIndex minPodIndex maxIpv6Index maxPods at *
        omega
      have he7 : i.e ≤ maxPodIndex := by
        unfold maxIpv4Index minIpv6Index maxPodIndex minPodIndex maxIpv6Index maxPods at *
        omega
      rw [if_pos he7]
      have hs8 := hs hs7
      obtain ⟨m, hm⟩ : ∃ m : Nat, i.s = minPodIndex + m := ⟨(i.s - minPodIndex).toNat, by omega⟩
      obtain ⟨n, hn⟩ : ∃ n : Nat, min (i.e - minPodIndex) ((reg.length : Int) - 1) + 1 = n :=
        ⟨(min (i.e - minPodIndex) ((reg.length : Int) - 1) + 1).toNat, by omega⟩
      have hmin : min (i.s - minPodIndex) ((reg.length : Int) - 1) = m := by omega
      simp only [hmin, hn, pyRangeInt_nat]
      obtain ⟨ps', h1, h2⟩ := foldlM_pods (reg := reg) (List.range' m (n - m))
        (by intro j hj; rw [List.mem_range'_1] at hj; omega) a.pods
      rw [h1]
      refine ⟨_, rfl, ?_⟩
      have hno : ∀ x : Ip, ¬ i.Mem x.idx := by
        intro x hx; have := idx_lt x; have := hx.1; omega
      refine ⟨ha.w4, ha.w6, fun x => ?_, fun x => ?_, fun k => ?_⟩
      · dsimp only; rw [ha.f4]; simp only [hno x, or_false]
      · dsimp only; rw [ha.f6]; simp only [hno x, or_false]
      · dsimp only
        rw [h2, ha.pods]
        constructor
        · rintro (⟨j, h3, h4⟩ | ⟨j, hj, h3⟩)
          · exact ⟨j, h3, Or.inl h4⟩
          · rw [List.mem_range'_1] at hj
            exact ⟨j, h3, Or.inr ⟨by omega, by omega⟩⟩
        · rintro ⟨j, h3, h4 | h4⟩
          · exact Or.inl ⟨j, h3, h4⟩
          · right
            obtain ⟨h5, _⟩ := List.getElem?_eq_some_iff.1 h3
            have := h4.1; have := h4.2
            exact ⟨j, by rw [List.mem_range'_1]; omega, h3⟩

theorem fromFold_spec {reg : List κ} (l : ISet) (hne : ∀ i ∈ l, i.s ≤ i.e)
    (hd : ∀ z, Mem z l → InDom z) (hs : ∀ i ∈ l, minPodIndex ≤ i.s → i.s < minPodIndex + reg.length)
    {a : Acc κ} {D : Int → Prop} (ha : AccOk reg a D) :
    ∃ a', l.foldlM (fromStep reg) a = some a' ∧ AccOk reg a' (fun z => D z ∨ Mem z l) := by
  induction l generalizing a D with
  | nil =>
    refine ⟨a, rfl, ?_⟩
    have : (fun z => D z ∨ Mem z []) = D := by funext z; simp [not_mem_nil]
    rw [this]; exact ha
  | cons i l ih =>
    obtain ⟨a1, h1, h2⟩ := fromStep_spec ha (hne i (List.mem_cons_self ..))
      (fun z hz => hd z (mem_cons.2 (Or.inl hz))) (hs i (List.mem_cons_self ..))
    obtain ⟨a2, h3, h4⟩ := ih (fun j hj => hne j (List.mem_cons_of_mem _ hj))
      (fun z hz => hd z (mem_cons.2 (Or.inr hz))) (fun j hj => hs j (List.mem_cons_of_mem _ hj)) h2
    refine ⟨a2, ?_, ?_⟩
    · rw [List.foldlM_cons, h1]; exact h3
    · have : (fun z => D z ∨ Mem z (i :: l)) = (fun z => (D z ∨ i.Mem z) ∨ Mem z l) := by
        funext z; rw [mem_cons, or_assoc]
      rw [this]; exact h4

theorem fromIndices_spec {reg : List κ} {l : ISet} (hc : Canonical l)
    (hd : ∀ z, Mem z l → InDom z) (hs : ∀ i ∈ l, minPodIndex ≤ i.s → i.s < minPodIndex + reg.length) :
    ∃ p, fromIndices reg l = some p ∧ p.Ok ∧ (∀ x, p.HasIp x ↔ Mem x.idx l) ∧
      ∀ k, p.HasPod k ↔ ∃ n : Nat, reg[n]? = some k ∧ Mem (minPodIndex + n) l := by
  have h0 : AccOk reg (⟨[], [], []⟩ : Acc κ) (fun _ => False) :=
    ⟨wf_nil, wf_nil, by simp [IpBlock.Has], by simp [IpBlock.Has], by simp⟩
  obtain ⟨a, h1, h2⟩ := fromFold_spec l hc.1 hd hs h0
  have b4 := wf_built h2.w4
  have b6 := wf_built h2.w6
  refine ⟨a.pods.map .pod ++ (if a.b4.truthy then [.ip a.b4] else []) ++ (if a.b6.truthy then [.ip a.b6] else []),
    by unfold fromIndices; rw [h1]; rfl, ?_⟩
  have e : a.pods.map PeerElem.pod ++ (if a.b4.truthy then [PeerElem.ip a.b4] else []) ++
      (if a.b6.truthy then [PeerElem.ip a.b6] else []) =
      a.pods.map PeerElem.pod ++ (PeerSet.ofBlock a.b4 ++ PeerSet.ofBlock a.b6) := by
    rw [List.append_assoc]; rfl
  rw [e]
  refine ⟨PeerSet.ok_map_append ?_, fun x => ?_, fun k => ?_⟩
  · intro b hb
    rcases List.mem_append.1 hb with hb | hb
    · exact PeerSet.ofBlock_ok b4 b hb
    · exact PeerSet.ofBlock_ok b6 b hb
  · rw [PeerSet.hasIp_map_append]
    have : PeerSet.HasIp (PeerSet.ofBlock a.b4 ++ PeerSet.ofBlock a.b6 : PeerSet κ) x ↔
        (PeerSet.ofBlock a.b4 : PeerSet κ).HasIp x ∨ (PeerSet.ofBlock a.b6 : PeerSet κ).HasIp x := by
      unfold PeerSet.HasIp
      simp only [List.mem_append, or_and_right, exists_or]
    rw [this, PeerSet.ofBlock_hasIp b4, PeerSet.ofBlock_hasIp b6, h2.f4, h2.f6]
    cases x.six <;> simp
  · rw [PeerSet.hasPod_map_append, h2.pods]
    have : ¬ PeerSet.HasPod (PeerSet.ofBlock a.b4 ++ PeerSet.ofBlock a.b6 : PeerSet κ) k := by
      intro h
      rcases List.mem_append.1 h with h | h
      · exact PeerSet.hasPod_ofBlock _ _ h
      · exact PeerSet.hasPod_ofBlock _ _ h
    simp [this]

end Base
end Verif
