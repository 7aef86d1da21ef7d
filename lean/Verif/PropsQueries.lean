import Verif.QueryProofs3
import Verif.QueryExact
/-!
C31 (equivalence) and C32 (containment, permits, interferes, intersects, forbids).
-/
namespace Verif

section
variable {C P E S : Type} {N : NetQ C P E S} {Ok Strong Wide Canon : C → Prop}

/-- Two configurations allow the same relevant connections. -/
def SameAllowed (N : NetQ C P E S) (excl : Bool) (layer : Option LayerName) (c1 c2 : Config C S) : Prop :=
  ∀ p, Relevant N c1.peers excl p → (c1.allowsIn N layer p ↔ c2.allowsIn N layer p)

/-- The same topology: the same peers of each type and the same services. -/
def SameTopology (N : NetQ C P E S) (c1 c2 : Config C S) : Prop :=
  (∀ e, N.Q.mem e c1.peers.pods = N.Q.mem e c2.peers.pods) ∧ (∀ e, N.Q.mem e c1.peers.heps = N.Q.mem e c2.peers.heps) ∧
  (∀ e, N.Q.mem e c1.peers.dns = N.Q.mem e c2.peers.dns) ∧ c1.services = c2.services

theorem comparable_iff (c1 c2 : Config C S) : comparable N c1 c2 = true ↔ SameTopology N c1 c2 := by
  unfold comparable SameTopology
  simp only [Bool.and_eq_true, peersEq_iff, decide_eq_true_eq, and_assoc]

theorem identical_false {samePolicies : Bool} {c1 c2 : Config C S} (h : ¬ SameTopology N c1 c2) :
    identical N samePolicies c1 c2 = some ⟨false, 0, true, []⟩ := by
  unfold identical
  rw [← comparable_iff, Bool.not_eq_true] at h
  simp [h]

theorem identical_other {c1 c2 : Config C S} (h : SameTopology N c1 c2) : identical N false c1 c2 = none := by
  unfold identical
  rw [← comparable_iff] at h
  simp [h]

theorem identical_true {c1 c2 : Config C S} (h : SameTopology N c1 c2) :
    identical N true c1 c2 = if policiesEq N c1.store.policies c2.store.policies then some ⟨true, 0, false, []⟩ else none := by
  unfold identical
  rw [← comparable_iff] at h
  simp [h]

/-! ### C31 -/

/-- C31, different topologies are not compared. -/
theorem C31_not_executed (excl : Bool) (layer : Option LayerName) (c1 c2 : Config C S) :
    (equivQuery N excl layer c1 c2).notExecuted = true ↔ ¬ SameTopology N c1 c2 := by
  constructor
  · intro h hs
    unfold equivQuery at h
    rw [identical_true hs] at h
    split at h
    · rename_i he
      split at he <;> simp at he
      subst he; simp at h
    · unfold checkEquiv at h
      dsimp only at h
      split at h <;> simp at h
  · intro h
    unfold equivQuery
    rw [identical_false h]

theorem checkEquiv_compared (L : N.Lawful Ok Strong Wide) (excl : Bool) (layer : Option LayerName) {c1 c2 : Config C S}
    (G1 : c1.Good N Ok Strong) (G2 : c2.Good N Ok Strong) (hs : layer = none → c1.Solid N ∧ c2.Solid N) :
    Compared N Strong
      (filterBoth N excl c1 c2 (c1.conns N layer ConnFilter.onlyAllAllowed).allAllowed (c2.conns N layer ConnFilter.onlyAllAllowed).allAllowed).1
      (filterBoth N excl c1 c2 (c1.conns N layer ConnFilter.onlyAllAllowed).allAllowed (c2.conns N layer ConnFilter.onlyAllAllowed).allAllowed).2
      (fun p => c1.allowsIn N layer p ∧ Relevant N c1.peers excl p) (fun p => c2.allowsIn N layer p ∧ Relevant N c2.peers excl p) :=
  compared L excl G1.world G2.world (G1.conns L layer (fun h => (hs h).1)) (G2.conns L layer (fun h => (hs h).2))

theorem equiv_sound (L : N.Lawful Ok Strong Wide) (excl : Bool) (layer : Option LayerName) {c1 c2 : Config C S}
    (G1 : c1.Good N Ok Strong) (G2 : c2.Good N Ok Strong) (hs : layer = none → c1.Solid N ∧ c2.Solid N) (ho : policiesEq N c1.store.policies c2.store.policies = true → SameOrder N c1 c2)
    (h : (equivQuery N excl layer c1 c2).bool = true) : SameAllowed N excl layer c1 c2 := by
  have hst : SameTopology N c1 c2 := by
    by_contra hn
    unfold equivQuery at h
    rw [identical_false hn] at h
    simp at h
  have hc := (comparable_iff c1 c2).2 hst
  have ht := comparable_same G1.world G2.world hc
  unfold equivQuery at h
  rw [identical_true hst] at h
  by_cases he : policiesEq N c1.store.policies c2.store.policies = true
  · intro p _
    exact policiesEq_allows L G1 G2 hc he (ho he) layer p
  · rw [if_neg he] at h
    change (checkEquiv N excl layer c1 c2).bool = true at h
    have K := checkEquiv_compared L excl layer G1 G2 hs
    unfold checkEquiv at h
    dsimp only at h
    split at h
    · rename_i heq
      intro p hr
      have := K.eq L heq p
      rw [← ht.relevant] at this
      simpa [hr] using this
    · simp at h

theorem equiv_exact (L : N.Lawful Ok Strong Wide) (X : N.Exact Ok Strong Canon)
    (excl : Bool) (layer : Option LayerName) {c1 c2 : Config C S}
    (G1 : c1.Good N Ok Strong) (G2 : c2.Good N Ok Strong) (hs : layer = none → c1.Solid N ∧ c2.Solid N) (ho : policiesEq N c1.store.policies c2.store.policies = true → SameOrder N c1 c2)
    (hirr : excl = true ∨ ∀ p, ¬ Relevant N c1.peers excl p → (c1.allowsIn N layer p ↔ c2.allowsIn N layer p))
    (hst : SameTopology N c1 c2) : (equivQuery N excl layer c1 c2).bool = true ↔ SameAllowed N excl layer c1 c2 := by
  refine ⟨equiv_sound L excl layer G1 G2 hs ho, fun h => ?_⟩
  have ht := comparable_same G1.world G2.world ((comparable_iff c1 c2).2 hst)
  unfold equivQuery
  rw [identical_true hst]
  by_cases he : policiesEq N c1.store.policies c2.store.policies = true
  · rw [if_pos he]
  · rw [if_neg he]
    change (checkEquiv N excl layer c1 c2).bool = true
    have K := checkEquiv_compared L excl layer G1 G2 hs
    have k1 := G1.conns L layer (fun h => (hs h).1)
    have k2 := G2.conns L layer (fun h => (hs h).2)
    unfold checkEquiv
    dsimp only
    rw [if_pos]
    refine filterBoth_exact L X excl G1.world G2.world ht.dns k1.1 k2.1 (G1.canon L X layer) (G2.canon L X layer) ?_ ?_
    · refine hirr.imp id (fun hirr p => ?_)
      rw [Bool.eq_iff_iff, k1.2, k2.2]
      by_cases hr : Relevant N c1.peers excl p
      · exact h p hr
      · exact hirr p hr
    · intro p
      rw [Bool.eq_iff_iff, K.mx, K.my, ← ht.relevant]
      exact ⟨fun ⟨h1, h2⟩ => ⟨(h p h2).1 h1, h2⟩, fun ⟨h1, h2⟩ => ⟨(h p h2).2 h1, h2⟩⟩

/-- C31, soundness: when the query answers "equivalent", the configurations (or the layers compared)
allow the same connections.
Full statement: "equivalent" iff they allow the same; for (⇐) see `C31_equivalent_exact_partial`.
Missing: configurations with several layers that allow nothing, `C31_empty_wrong`; equal policies added in different orders, `C31_order_wrong`; and the restrictions of
`Config.Good` (Calico Pass rules, C24, and DNS entries behind Istio, C26). -/
theorem C31_equivalent_sound_partial (L : N.Lawful Ok Strong Wide) (excl : Bool) (layer : Option LayerName) {c1 c2 : Config C S}
    (G1 : c1.Good N Ok Strong) (G2 : c2.Good N Ok Strong) (hs : layer = none → c1.Solid N ∧ c2.Solid N) (ho : SameOrder N c1 c2)
    (h : (equivQuery N excl layer c1 c2).bool = true) : SameAllowed N excl layer c1 c2 :=
  equiv_sound L excl layer G1 G2 hs (fun _ => ho) h

/-- C31, exactness: when IPv6 addresses are excluded (the default), or the configurations agree on all
connections including those the query is not about (such as from addresses to addresses), the query answers
"equivalent" exactly if the configurations allow the same relevant connections.
Full statement: without `hirr` and the conditions of `C31_equivalent_sound_partial`.  Missing: with IPv6
addresses and different answers on irrelevant connections the query may answer "not equivalent" wrongly,
`C31_incomplete_wrong`. -/
theorem C31_equivalent_exact_partial (L : N.Lawful Ok Strong Wide) (X : N.Exact Ok Strong Canon)
    (excl : Bool) (layer : Option LayerName) {c1 c2 : Config C S}
    (G1 : c1.Good N Ok Strong) (G2 : c2.Good N Ok Strong) (hs : layer = none → c1.Solid N ∧ c2.Solid N) (ho : SameOrder N c1 c2)
    (hirr : excl = true ∨ ∀ p, ¬ Relevant N c1.peers excl p → (c1.allowsIn N layer p ↔ c2.allowsIn N layer p))
    (hst : SameTopology N c1 c2) : (equivQuery N excl layer c1 c2).bool = true ↔ SameAllowed N excl layer c1 c2 :=
  equiv_exact L X excl layer G1 G2 hs (fun _ => ho) hirr hst

/-- C31, explanations: a negative answer comes with the connections only the first and only the second
configuration allows, no more and no less.  So a negative answer is wrong only if both are empty. -/
theorem C31_explanation_partial (L : N.Lawful Ok Strong Wide) (excl : Bool) (layer : Option LayerName) {c1 c2 : Config C S}
    (G1 : c1.Good N Ok Strong) (G2 : c2.Good N Ok Strong) (hs : layer = none → c1.Solid N ∧ c2.Solid N)
    (hst : SameTopology N c1 c2) (h : (equivQuery N excl layer c1 c2).bool = false) :
    ∃ x y, (equivQuery N excl layer c1 c2).expl = [x, y] ∧
      (∀ p, N.K.mem p x = true ↔ Relevant N c1.peers excl p ∧ c1.allowsIn N layer p ∧ ¬ c2.allowsIn N layer p) ∧
      (∀ p, N.K.mem p y = true ↔ Relevant N c1.peers excl p ∧ c2.allowsIn N layer p ∧ ¬ c1.allowsIn N layer p) := by
  have ht := comparable_same G1.world G2.world ((comparable_iff c1 c2).2 hst)
  have hq : equivQuery N excl layer c1 c2 = if policiesEq N c1.store.policies c2.store.policies then ⟨true, 0, false, []⟩
      else checkEquiv N excl layer c1 c2 := by
    unfold equivQuery
    rw [identical_true hst]
    by_cases he : policiesEq N c1.store.policies c2.store.policies = true
    · rw [if_pos he, if_pos he]; rfl
    · rw [if_neg he, if_neg he]
  rw [hq] at h ⊢
  by_cases he : policiesEq N c1.store.policies c2.store.policies = true
  · rw [if_pos he] at h; simp at h
  · rw [if_neg he] at h ⊢
    have K := checkEquiv_compared L excl layer G1 G2 hs
    unfold checkEquiv at h ⊢
    dsimp only at h ⊢
    split at h
    · simp at h
    · rename_i hne
      rw [if_neg hne]
      refine ⟨_, _, rfl, fun p => ?_, fun p => ?_⟩
      · rw [K.sub L, ← ht.relevant]; tauto
      · rw [K.sub' L, ← ht.relevant]; tauto

/-! ### C32 -/

/-- The kinds of peers of two configurations agree: a workload of one is no DNS entry of the other. -/
def KindsAgree (N : NetQ C P E S) (c1 c2 : Config C S) : Prop :=
  ∀ e, c1.peers.workload N.toNet e → N.Q.mem e c2.peers.dns = false

/-- All pods, host endpoints and DNS entries of the first configuration belong to the second. -/
def PeersWithin (N : NetQ C P E S) (c1 c2 : Config C S) : Prop :=
  ∀ e, c1.peers.workload N.toNet e ∨ N.Q.mem e c1.peers.dns = true → c2.peers.workload N.toNet e ∨ N.Q.mem e c2.peers.dns = true

/-- All relevant connections of `A` are allowed by the second configuration. -/
def Within (N : NetQ C P E S) (excl : Bool) (A : P → Prop) (c1 c2 : Config C S) : Prop :=
  PeersWithin N c1 c2 ∧ ∀ p, Relevant N c1.peers excl p → A p → c2.allows N p

theorem relevant_agree {c1 c2 : Config C S} (W1 : World N c1.peers) (W2 : World N c2.peers) (hk : KindsAgree N c1 c2) {excl : Bool} {p : P}
    (hs : c1.peers.known N.toNet (N.src p)) (hd : c1.peers.known N.toNet (N.dst p)) (h : Relevant N c1.peers excl p) :
    Relevant N c2.peers excl p := by
  obtain ⟨h1, h2, h3⟩ := h
  refine ⟨?_, ?_, h3⟩
  · rintro ⟨hi, hj⟩
    apply h1
    refine ⟨hi, ?_⟩
    rcases hj with hj | hj
    · exact Or.inl hj
    · rcases hd with (hd | hd) | hd
      · rw [hk _ hd] at hj; exact absurd hj (by simp)
      · exact Or.inl ((W1.ips _).1 hd)
      · exact Or.inr hd
  · rcases hs with (hs | hs) | hs
    · exact hk _ hs
    · rw [← Bool.not_eq_true]
      intro hx
      rw [W1.ips, W2.dns _ hx] at hs; exact absurd hs (by simp)
    · rw [h2] at hs; exact absurd hs (by simp)

/-- What the containment query compares with the second configuration. -/
def compareWhat (N : NetQ C P E S) (onlyCaptured : Bool) (c : Config C S) (p : P) : Prop :=
  if onlyCaptured then c.explicit N p else c.allows N p

/-- Conditions under which the compared set is computed exactly. -/
def CompareOk (N : NetQ C P E S) (onlyCaptured : Bool) (c : Config C S) : Prop :=
  if onlyCaptured then c.SolidX N ∧ ∀ e, N.Q.mem e c.peers.heps = false else c.Solid N

theorem compareWhat_spec (L : N.Lawful Ok Strong Wide) (oc : Bool) {c : Config C S} (G : c.Good N Ok Strong) (h : CompareOk N oc c) :
    Strong (if oc then (c.conns N none (if oc then ConnFilter.onlyAllowed else ConnFilter.onlyAllAllowed)).allowed
      else (c.conns N none (if oc then ConnFilter.onlyAllowed else ConnFilter.onlyAllAllowed)).allAllowed) ∧
    ∀ p, N.K.mem p (if oc then (c.conns N none (if oc then ConnFilter.onlyAllowed else ConnFilter.onlyAllAllowed)).allowed
      else (c.conns N none (if oc then ConnFilter.onlyAllowed else ConnFilter.onlyAllAllowed)).allAllowed) = true ↔ compareWhat N oc c p := by
  cases oc with
  | true => exact G.explicitConns L h.2 h.1
  | false => exact G.conns L none (fun _ => h)

/-- C32, containment: the answer is positive iff every relevant connection allowed (for permits:
explicitly allowed) by the first configuration is allowed by the second, and its peers are known there;
the numerical result follows the answer; the explanation of a negative answer is the set of the
offending connections.
Full statement: without `hx`, `h2` and the restrictions of `Config.Good`.  Missing: configurations with
several layers that allow nothing (see `C31_empty_wrong`), host endpoints for permits
(`C30_filter_hep_wrong`), and the restrictions of C24 and C26. -/
theorem C32_containment_partial (L : N.Lawful Ok Strong Wide) (excl cmd oc : Bool) {c1 c2 : Config C S}
    (G1 : c1.Good N Ok Strong) (G2 : c2.Good N Ok Strong) (hx : CompareOk N oc c1) (h2 : c2.Solid N) (hk : KindsAgree N c1 c2) :
    let a := containQuery N excl cmd oc c1 c2
    (a.bool = true ↔ Within N excl (compareWhat N oc c1) c1 c2) ∧
    (a.num = if a.bool = cmd then 0 else 1) ∧ a.notExecuted = false ∧
    (a.bool = true → a.expl = []) ∧
    (a.bool = false → PeersWithin N c1 c2 → ∃ x, a.expl = [x] ∧
      ∀ p, N.K.mem p x = true ↔ Relevant N c1.peers excl p ∧ compareWhat N oc c1 p ∧ ¬ c2.allows N p) := by
  intro a
  have hpeers : N.Q.truthy (N.Q.sub (c1.peers.group N.toNet false true) (c2.peers.group N.toNet false true)) = true ↔ ¬ PeersWithin N c1 c2 := by
    rw [N.Q.truthy_iff]
    unfold PeersWithin
    simp only [N.Q.mem_sub, Bool.and_eq_true, Bool.not_eq_true', ← Bool.not_eq_true (N.Q.mem _ (c2.peers.group N.toNet false true)), Peers.mem_group]
    simp only [true_and, Bool.false_eq_true, false_and, or_false, not_forall, exists_prop]
  have K := compared L excl G1.world G2.world (compareWhat_spec L oc G1 hx) (G2.conns L none (fun _ => h2))
  have hkn : ∀ p, compareWhat N oc c1 p → c1.peers.known N.toNet (N.src p) ∧ c1.peers.known N.toNet (N.dst p) := by
    intro p hp
    cases oc with
    | true => exact ⟨hp.1.1, hp.1.2.1⟩
    | false => exact ⟨hp.1, hp.2.1⟩
  have hA : a = containQuery N excl cmd oc c1 c2 := rfl
  unfold containQuery at hA
  by_cases hp : PeersWithin N c1 c2
  · have hp' : ¬ N.Q.truthy (N.Q.sub (c1.peers.group N.toNet false true) (c2.peers.group N.toNet false true)) = true :=
      fun h => hpeers.1 h hp
    rw [if_neg hp'] at hA
    dsimp only at hA
    have hcont := K.contained L
    have hw : Within N excl (compareWhat N oc c1) c1 c2 ↔
        ∀ p, compareWhat N oc c1 p ∧ Relevant N c1.peers excl p → c2.allowsIn N none p ∧ Relevant N c2.peers excl p := by
      constructor
      · rintro ⟨_, h⟩ p ⟨h3, h4⟩
        exact ⟨h p h4 h3, relevant_agree G1.world G2.world hk (hkn p h3).1 (hkn p h3).2 h4⟩
      · intro h
        exact ⟨hp, fun p h3 h4 => (h p ⟨h4, h3⟩).1⟩
    rw [hw, ← hcont]
    by_cases hc : N.K.contained
        (filterBoth N excl c1 c2 (if oc then (c1.conns N none (if oc then ConnFilter.onlyAllowed else ConnFilter.onlyAllAllowed)).allowed
          else (c1.conns N none (if oc then ConnFilter.onlyAllowed else ConnFilter.onlyAllAllowed)).allAllowed) (c2.conns N none ConnFilter.onlyAllAllowed).allAllowed).1
        (filterBoth N excl c1 c2 (if oc then (c1.conns N none (if oc then ConnFilter.onlyAllowed else ConnFilter.onlyAllAllowed)).allowed
          else (c1.conns N none (if oc then ConnFilter.onlyAllowed else ConnFilter.onlyAllAllowed)).allAllowed) (c2.conns N none ConnFilter.onlyAllAllowed).allAllowed).2 = true
    · rw [if_pos hc] at hA
      rw [hA]
      refine ⟨by simp [hc], by cases cmd <;> rfl, rfl, fun _ => rfl, fun h => by simp at h⟩
    · rw [if_neg hc] at hA
      rw [hA]
      refine ⟨by simp [hc], by cases cmd <;> rfl, rfl, fun h => by simp at h, fun _ _ => ⟨_, rfl, fun p => ?_⟩⟩
      rw [K.sub L]
      constructor
      · rintro ⟨⟨h3, h4⟩, h5⟩
        exact ⟨h4, h3, fun h6 => h5 ⟨h6, relevant_agree G1.world G2.world hk (hkn p h3).1 (hkn p h3).2 h4⟩⟩
      · rintro ⟨h3, h4, h5⟩
        exact ⟨⟨h4, h3⟩, fun h6 => h5 h6.1⟩
  · rw [if_pos (hpeers.2 hp)] at hA
    rw [hA]
    refine ⟨?_, by cases cmd <;> rfl, rfl, fun h => by simp at h, fun _ h => absurd h hp⟩
    constructor
    · intro h; simp at h
    · intro h; exact absurd h.1 hp

theorem twoWay_rest {excl cmd : Bool} {c1 c2 : Config C S} (h : ¬ (SameTopology N c1 c2 ∧ policiesEq N c1.store.policies c2.store.policies = true)) :
    twoWayQuery N excl cmd c1 c2 = twoWayQuery.rest N excl cmd c1 c2 := by
  unfold twoWayQuery
  by_cases hst : SameTopology N c1 c2
  · rw [identical_true hst, if_neg (fun h' => h ⟨hst, h'⟩)]
  · rw [identical_false hst]
    simp

/-- C32, two-way containment: outside the shortcut for equal policies, the numerical result encodes
which of the two containments hold (3: both, 2: only the first in the second, 1: only the second in the
first, 0: none), and the answer is positive iff both do.
Full statement: also with the shortcut.  Missing: there the code is 0 instead of 3,
`C32_two_way_code_wrong`. -/
theorem C32_two_way_partial (L : N.Lawful Ok Strong Wide) (excl : Bool) {c1 c2 : Config C S}
    (G1 : c1.Good N Ok Strong) (G2 : c2.Good N Ok Strong) (h1 : c1.Solid N) (h2 : c2.Solid N) (k12 : KindsAgree N c1 c2) (k21 : KindsAgree N c2 c1)
    (hne : ¬ (SameTopology N c1 c2 ∧ policiesEq N c1.store.policies c2.store.policies = true)) :
    let A := Within N excl (c1.allows N) c1 c2
    let B := Within N excl (c2.allows N) c2 c1
    let a := twoWayQuery N excl false c1 c2
    (a.bool = true ↔ A ∧ B) ∧ (a.num = 3 ↔ A ∧ B) ∧ (a.num = 2 ↔ A ∧ ¬ B) ∧ (a.num = 1 ↔ ¬ A ∧ B) ∧ (a.num = 0 ↔ ¬ A ∧ ¬ B) ∧
    ((twoWayQuery N excl true c1 c2).num = 0 ↔ A ∧ B) := by
  intro A B a
  have hA := fun cmd => (C32_containment_partial L excl cmd false G1 G2 h1 h2 k12).1
  have hB := fun cmd => (C32_containment_partial L excl cmd false G2 G1 h2 h1 k21).1
  have hA' : ∀ cmd, (containQuery N excl cmd false c1 c2).bool = true ↔ A := fun cmd => hA cmd
  have hB' : ∀ cmd, (containQuery N excl cmd false c2 c1).bool = true ↔ B := fun cmd => hB cmd
  have ha : a = twoWayQuery.rest N excl false c1 c2 := twoWay_rest hne
  rw [twoWay_rest hne, ha]
  unfold twoWayQuery.rest
  simp only [← hA' false, ← hB' false]
  have e1 : (containQuery N excl true false c1 c2).bool = (containQuery N excl false false c1 c2).bool := by
    rw [Bool.eq_iff_iff, hA', hA']
  have e2 : (containQuery N excl true false c2 c1).bool = (containQuery N excl false false c2 c1).bool := by
    rw [Bool.eq_iff_iff, hB', hB']
  rw [e1, e2]
  cases (containQuery N excl false false c1 c2).bool <;> cases (containQuery N excl false false c2 c1).bool <;> simp

/-- C31 and C32: the equivalence query agrees with two-way containment: on the same topology, the
two-way query answers positively iff the configurations allow the same connections, and so it does
whenever the equivalence query does.
The converse is `C31_agrees_partial`. -/
theorem C31_agrees_two_way_partial (L : N.Lawful Ok Strong Wide) (excl cmd : Bool) {c1 c2 : Config C S}
    (G1 : c1.Good N Ok Strong) (G2 : c2.Good N Ok Strong) (h1 : c1.Solid N) (h2 : c2.Solid N) (ho : SameOrder N c1 c2) (hst : SameTopology N c1 c2) :
    ((twoWayQuery N excl cmd c1 c2).bool = true ↔ SameAllowed N excl none c1 c2) ∧
    ((equivQuery N excl none c1 c2).bool = true → (twoWayQuery N excl cmd c1 c2).bool = true) := by
  have hc := (comparable_iff c1 c2).2 hst
  have ht := comparable_same G1.world G2.world hc
  have k12 : KindsAgree N c1 c2 := fun e he => by rw [← ht.dns]; exact (G1.world.work_ip he).2
  have k21 : KindsAgree N c2 c1 := fun e he => by rw [ht.dns]; exact (G2.world.work_ip he).2
  have key : (twoWayQuery N excl cmd c1 c2).bool = true ↔ SameAllowed N excl none c1 c2 := by
    by_cases he : policiesEq N c1.store.policies c2.store.policies = true
    · have : (twoWayQuery N excl cmd c1 c2).bool = true := by
        unfold twoWayQuery
        rw [identical_true hst, if_pos he]; rfl
      exact ⟨fun _ p _ => policiesEq_allows L G1 G2 hc he ho none p, fun _ => this⟩
    · rw [twoWay_rest (fun h => he h.2)]
      have hA := (C32_containment_partial L excl cmd false G1 G2 h1 h2 k12).1
      have hB := (C32_containment_partial L excl cmd false G2 G1 h2 h1 k21).1
      have hcode : (twoWayQuery.rest N excl cmd c1 c2).bool = true ↔
          (containQuery N excl cmd false c1 c2).bool = true ∧ (containQuery N excl cmd false c2 c1).bool = true := by
        unfold twoWayQuery.rest
        cases hb1 : (containQuery N excl cmd false c1 c2).bool <;> cases hb2 : (containQuery N excl cmd false c2 c1).bool <;> simp [hb1, hb2]
      rw [hcode, hA, hB]
      constructor
      · rintro ⟨⟨_, hA⟩, ⟨_, hB⟩⟩ p hr
        exact ⟨hA p hr, hB p ((ht.relevant excl p).1 hr)⟩
      · intro h
        refine ⟨⟨?_, fun p hr ha => (h p hr).1 ha⟩, ⟨?_, fun p hr ha => (h p ((ht.relevant excl p).2 hr)).2 ha⟩⟩
        · intro e he; rw [← ht.workload, ← ht.dns]; exact he
        · intro e he; rw [ht.workload, ht.dns]; exact he
  exact ⟨key, fun h => key.2 (C31_equivalent_sound_partial L excl none G1 G2 (fun _ => ⟨h1, h2⟩) ho h)⟩

/-- C31 and C32: the equivalence query and the two-way containment query give the same answer (under the
conditions of `C31_equivalent_exact_partial`). -/
theorem C31_agrees_partial (L : N.Lawful Ok Strong Wide) (X : N.Exact Ok Strong Canon) (excl cmd : Bool) {c1 c2 : Config C S}
    (G1 : c1.Good N Ok Strong) (G2 : c2.Good N Ok Strong) (h1 : c1.Solid N) (h2 : c2.Solid N) (ho : SameOrder N c1 c2) (hst : SameTopology N c1 c2)
    (hirr : excl = true ∨ ∀ p, ¬ Relevant N c1.peers excl p → (c1.allowsIn N none p ↔ c2.allowsIn N none p)) :
    (equivQuery N excl none c1 c2).bool = (twoWayQuery N excl cmd c1 c2).bool := by
  rw [Bool.eq_iff_iff, (C31_agrees_two_way_partial L excl cmd G1 G2 h1 h2 ho hst).1]
  exact C31_equivalent_exact_partial L X excl none G1 G2 (fun _ => ⟨h1, h2⟩) ho hirr hst

/-- C32, interferes: on the same topology, the answer is positive iff the first configuration explicitly
allows a relevant connection that the second does not explicitly allow; the explanation is the set of
these connections; on different topologies the query is not executed.
Full statement: without `s1`, `s2`, `hh` and the restrictions of `Config.Good`; what is missing is as for
`C32_containment_partial`. -/
theorem C32_interferes_partial (L : N.Lawful Ok Strong Wide) (excl cmd : Bool) {c1 c2 : Config C S}
    (G1 : c1.Good N Ok Strong) (G2 : c2.Good N Ok Strong) (s1 : c1.SolidX N) (s2 : c2.SolidX N)
    (hh : ∀ e, N.Q.mem e c1.peers.heps = false) :
    let a := interferesQuery N excl cmd c1 c2
    (a.notExecuted = true ↔ ¬ SameTopology N c1 c2) ∧
    (SameTopology N c1 c2 →
      (a.bool = true ↔ ∃ p, Relevant N c1.peers excl p ∧ c1.explicit N p ∧ ¬ c2.explicit N p) ∧
      (a.num = if a.bool = cmd then 0 else 1) ∧
      (a.bool = true → ∃ x, a.expl = [x] ∧ ∀ p, N.K.mem p x = true ↔ Relevant N c1.peers excl p ∧ c1.explicit N p ∧ ¬ c2.explicit N p)) := by
  intro a
  have hA : a = interferesQuery N excl cmd c1 c2 := rfl
  unfold interferesQuery at hA
  by_cases hst : SameTopology N c1 c2
  · have ht := comparable_same G1.world G2.world ((comparable_iff c1 c2).2 hst)
    rw [identical_other hst] at hA
    have K := compared L excl G1.world G2.world (G1.explicitConns L hh s1) (G2.explicitConns L (fun e => by rw [← ht.heps]; exact hh e) s2)
    have hcont := K.contained L
    dsimp only at hA
    have hiff : (∃ p, Relevant N c1.peers excl p ∧ c1.explicit N p ∧ ¬ c2.explicit N p) ↔
        ¬ ∀ p, c1.explicit N p ∧ Relevant N c1.peers excl p → c2.explicit N p ∧ Relevant N c2.peers excl p := by
      rw [not_forall]
      refine exists_congr fun p => ?_
      rw [← ht.relevant]; tauto
    rw [hiff, ← hcont]
    split at hA
    · rename_i hc
      rw [hA]
      exact ⟨by simp [hst], fun _ => ⟨by simp [hc], by cases cmd <;> rfl, fun h => by simp at h⟩⟩
    · rename_i hc
      rw [hA]
      refine ⟨by simp [hst], fun _ => ⟨by simp [hc], by cases cmd <;> rfl, fun _ => ⟨_, rfl, fun p => ?_⟩⟩⟩
      rw [K.sub L, ← ht.relevant]; tauto
  · rw [identical_false hst] at hA
    rw [hA]
    exact ⟨by simp [hst], fun h => absurd h hst⟩

theorem intersects_spec (L : N.Lawful Ok Strong Wide) (excl : Bool) {c1 c2 : Config C S}
    (G1 : c1.Good N Ok Strong) (G2 : c2.Good N Ok Strong) (s1 : c1.SolidX N) (s2 : c2.Solid N)
    (hh : ∀ e, N.Q.mem e c1.peers.heps = false) :
    let a := intersectsQuery N excl c1 c2
    (a.notExecuted = true ↔ ¬ SameTopology N c1 c2) ∧
    (SameTopology N c1 c2 →
      (a.bool = true ↔ ∃ p, Relevant N c1.peers excl p ∧ c1.explicit N p ∧ c2.allows N p) ∧
      (a.bool = true → ∃ x, a.expl = [x] ∧ ∀ p, N.K.mem p x = true ↔ Relevant N c1.peers excl p ∧ c1.explicit N p ∧ c2.allows N p)) := by
  intro a
  have hA : a = intersectsQuery N excl c1 c2 := rfl
  unfold intersectsQuery at hA
  by_cases hst : SameTopology N c1 c2
  · have ht := comparable_same G1.world G2.world ((comparable_iff c1 c2).2 hst)
    rw [identical_other hst] at hA
    have K := compared L excl G1.world G2.world (G1.explicitConns L hh s1) (G2.conns L none (fun _ => s2))
    obtain ⟨_, hm, htr⟩ := K.and L
    dsimp only at hA
    have hx : ∀ p, ((c1.explicit N p ∧ Relevant N c1.peers excl p) ∧ c2.allowsIn N none p ∧ Relevant N c2.peers excl p) ↔
        (Relevant N c1.peers excl p ∧ c1.explicit N p ∧ c2.allows N p) := by
      intro p
      rw [← ht.relevant]
      change (_ ∧ c2.allows N p ∧ _) ↔ _
      tauto
    simp only [hx] at hm htr
    split at hA
    · rename_i hc
      rw [hA]
      exact ⟨by simp [hst], fun _ => ⟨by simp [← htr, hc], fun _ => ⟨_, rfl, hm⟩⟩⟩
    · rename_i hc
      rw [hA]
      exact ⟨by simp [hst], fun _ => ⟨by simp [← htr, hc], fun h => by simp at h⟩⟩
  · rw [identical_false hst] at hA
    rw [hA]
    exact ⟨by simp [hst], fun h => absurd h hst⟩

/-- `g` is the configuration without its Ingress and Gateway policies. -/
structure GatewayFree (c g : Config C S) : Prop where
  peers : g.peers = c.peers
  services : g.services = c.services
  policies : g.store.policies = c.store.policies.filter (fun q => decide (q.kind ≠ .ingress ∧ q.kind ≠ .gateway))
  built : PolicyStore.build g.store.policies = some g.store

/-- Every policy is an Ingress or Gateway policy. -/
def OnlyGateways (c : Config C S) : Prop := ∀ pol ∈ c.store.policies, pol.kind = .ingress ∨ pol.kind = .gateway

theorem onlyGateways_iff {c : Config C S} (G : c.Good N Ok Strong) (hne : c.store.policies ≠ []) :
    onlyGateways c.store.layers = true ↔ OnlyGateways c := by
  unfold onlyGateways OnlyGateways
  have hl : c.store.layers ≠ [] := by
    obtain ⟨pol, hpol⟩ := List.exists_mem_of_ne_nil _ hne
    exact List.ne_nil_of_mem (layerList_mem ((G.B.list_ne (layerOf pol.kind)).2 ⟨pol, hpol, rfl⟩))
  have he : c.store.layers.isEmpty = false := by
    rw [← Bool.not_eq_true, List.isEmpty_iff]; exact hl
  rw [he]
  simp only [Bool.not_false, Bool.true_and, List.all_eq_true, Bool.or_eq_true, decide_eq_true_eq]
  constructor
  · intro h pol hp
    have := h _ (layerList_mem ((G.B.list_ne (layerOf pol.kind)).2 ⟨pol, hp, rfl⟩))
    cases hk : pol.kind <;> rw [hk] at this <;> simp [layerOf] at this ⊢
  · rintro h ⟨n, a⟩ hm
    have hne' := G.B.noEmpty hne _ hm
    obtain ⟨pol, hpol⟩ := List.exists_mem_of_ne_nil _ hne'
    have ha := layerList_of_mem G.B.distinct hm
    dsimp only at hpol ⊢
    rw [← ha] at hpol
    obtain ⟨h1, h2⟩ := (G.B.mem_list n pol).1 hpol
    rcases h pol h1 with hk | hk <;> rw [hk] at h2 <;> simp [layerOf] at h2 <;> simp [← h2]

theorem withoutGateways_unique {c g g' : Config C S} (h : GatewayFree c g) (h' : GatewayFree c g') : g = g' := by
  obtain ⟨p, s, st⟩ := g
  obtain ⟨p', s', st'⟩ := g'
  obtain ⟨rfl, rfl, hp, hb⟩ := h
  obtain ⟨rfl, rfl, hp', hb'⟩ := h'
  dsimp only at *
  rw [hp] at hb
  rw [hp'] at hb'
  rw [hb] at hb'
  simp at hb'
  rw [hb']

theorem withoutGateways_eq {c g : Config C S} (G : c.Good N Ok Strong) (h : GatewayFree c g) : c.withoutGateways = some g ∧ g.Good N Ok Strong := by
  obtain ⟨g', h1, h2, h3, h4, h5⟩ := withoutGateways_spec G
  have : g = g' := withoutGateways_unique h ⟨h3, h4, h5, h2.built⟩
  subst this
  exact ⟨h1, h2⟩

theorem SameTopology.left {c g c2 : Config C S} (h : GatewayFree c g) : SameTopology N g c2 ↔ SameTopology N c c2 := by
  unfold SameTopology; rw [h.peers, h.services]

/-- C32, permits: on the same topology and with policies other than Ingress and Gateway ones, the answer
is positive iff everything the first configuration explicitly allows, its Ingress and Gateway policies
aside, is allowed by the second; otherwise the query is not executed.
What is missing for the full statement is as for `C32_containment_partial`. -/
theorem C32_permits_partial (L : N.Lawful Ok Strong Wide) (excl cmd : Bool) {c1 c2 g : Config C S}
    (G1 : c1.Good N Ok Strong) (G2 : c2.Good N Ok Strong) (hg : GatewayFree c1 g) (s1 : g.SolidX N) (s2 : c2.Solid N)
    (hh : ∀ e, N.Q.mem e c1.peers.heps = false) :
    ∃ a, permitsQuery N excl cmd c1 c2 = some a ∧
      (a.notExecuted = true ↔ OnlyGateways c1 ∨ ¬ SameTopology N c1 c2) ∧
      (a.notExecuted = false → (a.bool = true ↔ ∀ p, Relevant N c1.peers excl p → g.explicit N p → c2.allows N p) ∧
        (a.num = 0 ↔ a.bool = true ∨ (cmd = false ∧ a.expl = []))) := by
  obtain ⟨hw, Gg⟩ := withoutGateways_eq G1 hg
  unfold permitsQuery
  by_cases he : c1.store.policies = []
  · rw [he]
    refine ⟨_, by simp; rfl, ?_, ?_⟩
    · simp [OnlyGateways, he]
    · simp
  · have he' : c1.store.policies.isEmpty = false := by rw [← Bool.not_eq_true, List.isEmpty_iff]; exact he
    rw [he']
    simp only [Bool.false_eq_true, if_false]
    by_cases hst : SameTopology N c1 c2
    · rw [identical_other hst]
      dsimp only
      by_cases hog : onlyGateways c1.store.layers = true
      · rw [if_pos hog]
        refine ⟨_, rfl, ?_, by simp⟩
        simp [(onlyGateways_iff G1 he).1 hog]
      · rw [if_neg hog, hw]
        refine ⟨_, rfl, ?_⟩
        have hn : ¬ OnlyGateways c1 := fun h => hog ((onlyGateways_iff G1 he).2 h)
        have ht := comparable_same Gg.world G2.world ((comparable_iff g c2).2 ((SameTopology.left hg).2 hst))
        have kk : KindsAgree N g c2 := fun e he => by rw [← ht.dns]; exact (Gg.world.work_ip he).2
        have h := C32_containment_partial L excl cmd true Gg G2 ⟨s1, by rw [hg.peers]; exact hh⟩ s2 kk
        obtain ⟨h1, h2, h3, h4, h5⟩ := h
        have hpw : PeersWithin N g c2 := fun e he => by rw [← ht.workload, ← ht.dns]; exact he
        have hW : Within N excl (compareWhat N true g) g c2 ↔ ∀ p, Relevant N c1.peers excl p → g.explicit N p → c2.allows N p := by
          unfold Within
          rw [hg.peers]
          exact ⟨fun h => h.2, fun h => ⟨hpw, h⟩⟩
        rw [hW] at h1
        cases cmd with
        | true =>
          simp only [if_true]
          refine ⟨by rw [h3]; simp [hn, hst], fun _ => ⟨h1, ?_⟩⟩
          rw [h2]
          cases hb : (containQuery N excl true true g c2).bool <;> simp
        | false =>
          simp only [Bool.false_eq_true, if_false]
          refine ⟨by rw [h3]; simp [hn, hst], fun _ => ⟨h1, ?_⟩⟩
          simp only [true_and]
          constructor
          · intro h
            split at h
            · rename_i hx; exact Or.inr (by simpa using hx)
            · simp at h
          · rintro (h | h)
            · rw [h4 h]; simp
            · rw [h]; simp
    · rw [identical_false hst]
      refine ⟨_, rfl, by simp [hst], by simp⟩

/-- C32, forbids: on the same topology and with policies other than Ingress and Gateway ones, the
numerical result is 0 ("forbids") iff no connection explicitly allowed by the first configuration, its
Ingress and Gateway policies aside, is allowed by the second; otherwise it is 1 and the explanation lists
the common connections.
What is missing for the full statement is as for `C32_containment_partial`. -/
theorem C32_forbids_partial (L : N.Lawful Ok Strong Wide) (excl : Bool) {c1 c2 g : Config C S}
    (G1 : c1.Good N Ok Strong) (G2 : c2.Good N Ok Strong) (hg : GatewayFree c1 g) (s1 : g.SolidX N) (s2 : c2.Solid N)
    (hh : ∀ e, N.Q.mem e c1.peers.heps = false) :
    ∃ a, forbidsQuery N excl c1 c2 = some a ∧
      (a.notExecuted = true ↔ OnlyGateways c1 ∨ ¬ SameTopology N c1 c2) ∧
      (a.notExecuted = false →
        (a.num = 0 ↔ ∀ p, Relevant N c1.peers excl p → ¬ (g.explicit N p ∧ c2.allows N p)) ∧
        (a.num = 0 ∨ a.num = 1) ∧
        (a.num = 1 → ∃ x, a.expl = [x] ∧ ∀ p, N.K.mem p x = true ↔ Relevant N c1.peers excl p ∧ g.explicit N p ∧ c2.allows N p)) := by
  obtain ⟨hw, Gg⟩ := withoutGateways_eq G1 hg
  unfold forbidsQuery
  by_cases he : c1.store.policies = []
  · rw [he]
    refine ⟨_, by simp; rfl, ?_, ?_⟩
    · simp [OnlyGateways, he]
    · simp
  · have he' : c1.store.policies.isEmpty = false := by rw [← Bool.not_eq_true, List.isEmpty_iff]; exact he
    rw [he']
    simp only [Bool.false_eq_true, if_false]
    by_cases hog : onlyGateways c1.store.layers = true
    · rw [if_pos hog]
      refine ⟨_, rfl, ?_, by simp⟩
      simp [(onlyGateways_iff G1 he).1 hog]
    · rw [if_neg hog, hw]
      refine ⟨_, rfl, ?_⟩
      have hn : ¬ OnlyGateways c1 := fun h => hog ((onlyGateways_iff G1 he).2 h)
      have h := intersects_spec L excl Gg G2 s1 s2 (by rw [hg.peers]; exact hh)
      rw [SameTopology.left hg, hg.peers] at h
      refine ⟨by simp only [hn, false_or]; exact h.1, fun hne => ?_⟩
      have hst : SameTopology N c1 c2 := by
        by_contra hst
        have := h.1.2 hst
        rw [this] at hne; exact absurd hne (by simp)
      obtain ⟨h1, h2⟩ := h.2 hst
      cases hb : (intersectsQuery N excl g c2).bool with
      | true =>
        obtain ⟨p, hp1, hp2⟩ := h1.1 hb
        dsimp only
        rw [hb]
        refine ⟨?_, Or.inr rfl, fun _ => h2 hb⟩
        constructor
        · intro h; exact absurd h (by decide)
        · intro h; exact absurd hp2 (h p hp1)
      | false =>
        dsimp only
        rw [hb]
        refine ⟨?_, Or.inl rfl, fun h => absurd h (by decide)⟩
        simp only [Bool.false_eq_true, if_false, true_iff]
        intro p hp hq
        have := h1.2 ⟨p, hp, hq⟩
        rw [hb] at this; exact absurd this (by simp)

end
end Verif
