import Mathlib.Data.Nat.Factorization.Basic
import Verif.CidrModel
import Verif.PropsIp
/-!
Lemmas about `summarize_address_range`: the networks are aligned, disjoint, ascending, cover the range, and every network
inside the range that meets one of them lies inside it.
-/
namespace Verif

theorem bitLength_lt {n k : Nat} (h : n < 2 ^ k) : bitLength n ≤ k := by
  unfold bitLength
  split
  · omega
  · rename_i hn
    exact (Nat.log2_lt hn).2 h

theorem lt_bitLength (n : Nat) : n < 2 ^ bitLength n := by
  unfold bitLength
  split
  · omega
  · exact Nat.lt_log2_self

theorem bitLength_le {n : Nat} (h : n ≠ 0) : 2 ^ (bitLength n - 1) ≤ n := by
  unfold bitLength
  rw [if_neg h]
  exact Nat.log2_self_le h

/-- `~n & (n - 1)`: the zeros on the right, as ones. -/
theorem ldiff_pred (v m : Nat) : Nat.ldiff (2 ^ v * (2 * m + 1) - 1) (2 ^ v * (2 * m + 1)) = 2 ^ v - 1 := by
  have hp := Nat.two_pow_pos v
  have h1 : 2 ^ v * (2 * m + 1) - 1 = 2 ^ v * (2 * m) + (2 ^ v - 1) := by rw [Nat.mul_add]; omega
  have h2 : 2 ^ v * (2 * m + 1) = 2 ^ v * (2 * m + 1) + 0 := rfl
  apply Nat.eq_of_testBit_eq
  intro i
  rw [Nat.testBit_ldiff, h1, h2, Nat.testBit_two_pow_mul_add _ (by omega), Nat.testBit_two_pow_mul_add _ hp,
    Nat.testBit_two_pow_sub_one]
  by_cases hi : i < v
  · simp [hi]
  · simp only [hi, if_false, decide_false]
    generalize i - v = j
    cases j with
    | zero => simp [Nat.testBit_zero]
    | succ j =>
      rw [Nat.testBit_succ, Nat.testBit_succ, show 2 * m / 2 = m by omega, show (2 * m + 1) / 2 = m by omega]
      simp

theorem bitLength_ones (v : Nat) : bitLength (2 ^ v - 1) = v := by
  apply Nat.le_antisymm (bitLength_lt (by have := Nat.two_pow_pos v; omega))
  have h := lt_bitLength (2 ^ v - 1)
  have hp := Nat.two_pow_pos v
  exact (Nat.pow_le_pow_iff_right (by decide : 1 < 2)).1 (by omega)

theorem zeroBits_spec (n bits : Nat) : zeroBits n bits ≤ bits ∧ 2 ^ zeroBits n bits ∣ n ∧ ∀ k, k ≤ bits → 2 ^ k ∣ n → k ≤ zeroBits n bits := by
  unfold zeroBits
  split
  · rename_i h
    subst h
    exact ⟨Nat.le_refl _, Nat.dvd_zero _, fun k hk _ => hk⟩
  · rename_i h
    obtain ⟨v, m, ⟨j, rfl⟩, rfl⟩ := Nat.exists_eq_two_pow_mul_odd h
    rw [ldiff_pred, bitLength_ones]
    refine ⟨Nat.min_le_left _ _, ?_, fun k hk hd => Nat.le_min.2 ⟨hk, ?_⟩⟩
    · exact Nat.dvd_trans (Nat.pow_dvd_pow 2 (Nat.min_le_right _ _)) (Nat.dvd_mul_right _ _)
    · by_contra hv
      have h1 : 2 ^ (v + 1) ∣ 2 ^ v * (2 * j + 1) := Nat.dvd_trans (Nat.pow_dvd_pow 2 (by omega)) hd
      rw [Nat.pow_succ, Nat.mul_dvd_mul_iff_left (Nat.two_pow_pos v)] at h1
      omega

namespace IpBlock

/-- Networks that meet are nested. -/
theorem Cidr.nested {c d : Cidr} (hs : c.size ≤ d.size) (h1 : d.lo ≤ c.hi) (h2 : c.lo ≤ d.hi) : d.lo ≤ c.lo ∧ c.hi ≤ d.hi := by
  have hc := c.size_pos
  have hdp := d.size_pos
  have hd : c.size ∣ d.size := by
    unfold Cidr.size at *
    exact Nat.pow_dvd_pow 2 ((Nat.pow_le_pow_iff_right (by decide)).1 hs)
  obtain ⟨k, hk⟩ := hd
  unfold Cidr.hi Cidr.lo at *
  generalize c.addr.val / c.size = p at *
  generalize d.addr.val / d.size = q at *
  rw [hk] at h1 h2 hdp ⊢
  clear hk
  generalize c.size = s at *
  have e1 : q * (s * k) = s * (q * k) := by rw [← Nat.mul_assoc, Nat.mul_comm q s, Nat.mul_assoc]
  have e2 : q * (s * k) + s * k = s * (q * k + k) := by rw [e1, Nat.mul_add]
  have e3 : p * s = s * p := Nat.mul_comm _ _
  have e4 : p * s + s = s * (p + 1) := by rw [e3, Nat.mul_succ]
  have h3 : q * k < p + 1 := Nat.lt_of_mul_lt_mul_left (a := s) (by omega)
  have h4 : p < q * k + k := by
    exact Nat.lt_of_mul_lt_mul_left (a := s) (by omega)
  have h5 : s * (q * k) ≤ s * p := Nat.mul_le_mul_left _ (by omega)
  have h6 : s * (p + 1) ≤ s * (q * k + k) := Nat.mul_le_mul_left _ (by omega)
  omega

theorem Cidr.lo_le_hi (c : Cidr) : c.lo ≤ c.hi := Nat.le_add_right _ _

theorem loop_spec (six : Bool) (a last : Nat) (ht : last ≤ topOf six) : ∀ (n first : Nat), last + 1 - first ≤ n → a ≤ first → first ≤ last →
    (∀ d : Cidr, d.addr.six = six → a ≤ d.lo → d.hi ≤ last → ¬ (d.lo < first ∧ first ≤ d.hi)) →
    ∃ l, summarizeLoop six first last = some l ∧ l ≠ [] ∧
      (∀ c ∈ l, c.addr.six = six ∧ c.addr.val = c.lo ∧ first ≤ c.lo ∧ c.hi ≤ last ∧
        ∀ d : Cidr, d.addr.six = six → a ≤ d.lo → d.hi ≤ last → d.lo ≤ c.hi → c.lo ≤ d.hi → c.lo ≤ d.lo ∧ d.hi ≤ c.hi) ∧
      l.Pairwise (fun c c' => c.hi < c'.lo) ∧ ∀ x, first ≤ x → x ≤ last → ∃ c ∈ l, c.lo ≤ x ∧ x ≤ c.hi := by
  intro n
  induction n with
  | zero => intro first h1 h2 h3; omega
  | succ n ih =>
    intro first hn ha hf hs
    obtain ⟨z1, z2, z3⟩ := zeroBits_spec first (bitsOf six)
    have y1 := bitLength_le (n := last - first + 1) (by omega)
    have y2 := lt_bitLength (last - first + 1)
    rw [summarizeLoop, if_pos hf]
    simp only []
    generalize hnb : Nat.min (zeroBits first (bitsOf six)) (bitLength (last - first + 1) - 1) = nb
    have m1 : nb ≤ zeroBits first (bitsOf six) := hnb ▸ Nat.min_le_left _ _
    have m2 : nb ≤ bitLength (last - first + 1) - 1 := hnb ▸ Nat.min_le_right _ _
    have m3 : ∀ k, k ≤ bitsOf six → 2 ^ k ∣ first → 2 ^ k ≤ last - first + 1 → k ≤ nb := by
      intro k k1 k2 k3
      rw [← hnb]
      refine Nat.le_min.2 ⟨z3 k k1 k2, ?_⟩
      have := (Nat.pow_lt_pow_iff_right (a := 2) (by decide)).1 (Nat.lt_of_le_of_lt k3 y2)
      omega
    have d1 : 2 ^ nb ∣ first := Nat.dvd_trans (Nat.pow_dvd_pow 2 m1) z2
    have d2 : 2 ^ nb ≤ last - first + 1 := Nat.le_trans (Nat.pow_le_pow_right (by decide) m2) y1
    have p0 := Nat.two_pow_pos nb
    have hb : bitsOf six - (bitsOf six - nb) = nb := by omega
    have hnet : network six first (bitsOf six - nb) = some ⟨⟨six, first, by omega⟩, bitsOf six - nb, Nat.sub_le _ _⟩ := by
      unfold network
      rw [dif_pos ⟨by omega, Nat.sub_le _ _⟩, hb, if_pos (Nat.mod_eq_zero_of_dvd d1)]
    rw [hnet]
    generalize hc : (⟨⟨six, first, by omega⟩, bitsOf six - nb, Nat.sub_le _ _⟩ : Cidr) = c
    have c1 : c.addr.six = six := by rw [← hc]
    have c2 : c.addr.val = first := by rw [← hc]
    have c3 : c.size = 2 ^ nb := by rw [← hc]; simp only [Cidr.size, hb]
    have c4 : c.lo = first := by rw [Cidr.lo, c2, c3, Nat.div_mul_cancel d1]
    have c5 : c.hi = first + (2 ^ nb - 1) := by rw [Cidr.hi, c4, c3]
    -- networks inside the range that meet the first one
    have key : ∀ d : Cidr, d.addr.six = six → a ≤ d.lo → d.hi ≤ last → d.lo ≤ c.hi → c.lo ≤ d.hi → c.lo ≤ d.lo ∧ d.hi ≤ c.hi := by
      intro d e1 e2 e3 e4 e5
      by_cases hsz : d.size ≤ c.size
      · exact Cidr.nested hsz e5 e4
      · have hsz : c.size < d.size := by omega
        obtain ⟨n1, n2⟩ := Cidr.nested (Nat.le_of_lt hsz) e4 e5
        exfalso
        have n3 : d.lo = first := by
          have := hs d e1 e2 e3
          have := d.lo_le_hi
          omega
        have n4 : d.hi = first + (d.size - 1) := by rw [Cidr.hi, n3]
        have n5 : bitsOf six - d.len ≤ nb := by
          have e1' := e1
          refine m3 _ (Nat.sub_le _ _) ?_ ?_
          · rw [← n3, Cidr.lo, Cidr.size, e1]
            exact Nat.dvd_mul_left _ _
          · have : d.size = 2 ^ (bitsOf six - d.len) := by rw [Cidr.size, e1]
            have := d.size_pos
            omega
        have n6 : d.size ≤ c.size := by
          rw [c3, Cidr.size, e1]
          exact Nat.pow_le_pow_right (by decide) n5
        omega
    have self : c.addr.six = six ∧ c.addr.val = c.lo ∧ first ≤ c.lo ∧ c.hi ≤ last ∧
        ∀ d : Cidr, d.addr.six = six → a ≤ d.lo → d.hi ≤ last → d.lo ≤ c.hi → c.lo ≤ d.hi → c.lo ≤ d.lo ∧ d.hi ≤ c.hi :=
      ⟨c1, by rw [c2, c4], by omega, by omega, key⟩
    rw [Option.bind_some]
    by_cases hend : first + 2 ^ nb - 1 = topOf six
    · rw [if_pos hend]
      refine ⟨[c], rfl, by simp, by simpa using self, by simp, fun x x1 x2 => ⟨c, by simp, by omega, by omega⟩⟩
    · rw [if_neg hend]
      by_cases hmore : first + 2 ^ nb ≤ last
      · obtain ⟨l, l1, l2, l3, l4, l5⟩ := ih (first + 2 ^ nb) (by omega) (by omega) hmore (by
          intro d e1 e2 e3 e4
          have := key d e1 e2 e3 (by
            by_contra hlt
            omega) (by omega)
          omega)
        rw [l1]
        refine ⟨c :: l, rfl, by simp, ?_, ?_, ?_⟩
        · intro c' hc'
          rcases List.mem_cons.1 hc' with h | h
          · subst h; exact self
          · obtain ⟨q1, q2, q3, q4, q5⟩ := l3 c' h
            exact ⟨q1, q2, by omega, q4, q5⟩
        · refine List.pairwise_cons.2 ⟨fun c' hc' => ?_, l4⟩
          have := (l3 c' hc').2.2.1
          omega
        · intro x x1 x2
          by_cases hx : x < first + 2 ^ nb
          · exact ⟨c, by simp, by omega, by omega⟩
          · obtain ⟨c', hc', h⟩ := l5 x (by omega) x2
            exact ⟨c', List.mem_cons_of_mem _ hc', h⟩
      · rw [summarizeLoop, if_neg hmore]
        refine ⟨[c], rfl, by simp, by simpa using self, by simp, fun x x1 x2 => ⟨c, by simp, by omega, by omega⟩⟩

/-- The networks of one range. -/
theorem summarize_spec {i : IpIv} (h : i.s.six = i.e.six) (hv : i.s.val ≤ i.e.val) :
    ∃ l, summarize i.s i.e = some l ∧ l ≠ [] ∧
      (∀ c ∈ l, c.addr.six = i.s.six ∧ c.addr.val = c.lo ∧ i.s.val ≤ c.lo ∧ c.hi ≤ i.e.val ∧
        ∀ d : Cidr, d.addr.six = i.s.six → i.s.val ≤ d.lo → d.hi ≤ i.e.val → d.lo ≤ c.hi → c.lo ≤ d.hi → c.lo ≤ d.lo ∧ d.hi ≤ c.hi) ∧
      l.Pairwise (fun c c' => c.hi < c'.lo) ∧ ∀ x, i.s.val ≤ x → x ≤ i.e.val → ∃ c ∈ l, c.lo ≤ x ∧ x ≤ c.hi := by
  unfold summarize
  rw [if_pos h, if_neg (by omega)]
  exact loop_spec i.s.six i.s.val i.e.val (h ▸ i.e.le_top) _ _ (Nat.le_refl _) (Nat.le_refl _) hv (fun d _ h1 _ h2 => by omega)

end IpBlock
end Verif
