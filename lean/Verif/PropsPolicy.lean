import Verif.LayerProofs
import Verif.ConfigProofs
import Verif.StoreProofs
import Verif.DemoNets
import Mathlib.Tactic.Tauto
/-! Properties C24-C26: rules of a policy, policies of a layer, defaults of a layer. -/
namespace Verif

section
variable {C P E S : Type} {N : Net C P E S} {Ok Strong : C → Prop}

/-! ### C24 -/

/-- The first rule, Log rules apart, that matches the connection has action `a`. -/
def FirstRule (N : Net C P E S) (rules : List (Rule C)) (p : P) (a : RuleAction) : Prop :=
  ∃ before r after, rules = before ++ r :: after ∧ r.action = a ∧ a ≠ .log ∧ N.K.mem p r.props = true ∧
    ∀ q ∈ before, q.action ≠ .log → N.K.mem p q.props = false

theorem firstMatch_iff (rules : List (Rule C)) (p : P) (a : RuleAction) :
    firstMatch N p rules = some a ↔ FirstRule N rules p a := by
  unfold FirstRule
  induction rules with
  | nil => simp [firstMatch]
  | cons r rules ih =>
    rw [firstMatch]
    by_cases h : r.action ≠ .log ∧ N.K.mem p r.props = true
    · rw [if_pos h]
      constructor
      · intro he
        simp only [Option.some.injEq] at he
        exact ⟨[], r, rules, rfl, he, he ▸ h.1, h.2, by simp⟩
      · rintro ⟨before, q, after, he, h1, h2, h3, h4⟩
        cases before with
        | nil => simp only [List.nil_append, List.cons.injEq] at he; rw [he.1, h1]
        | cons b before =>
          simp only [List.cons_append, List.cons.injEq] at he
          have := h4 b (by simp) (he.1 ▸ h.1)
          rw [← he.1, h.2] at this
          exact absurd this (by simp)
    · rw [if_neg h, ih]
      constructor
      · rintro ⟨before, q, after, he, h1, h2, h3, h4⟩
        refine ⟨r :: before, q, after, by rw [he]; rfl, h1, h2, h3, ?_⟩
        intro x hx hl
        rcases List.mem_cons.1 hx with rfl | hx
        · rw [← Bool.not_eq_true]; exact fun hm => h ⟨hl, hm⟩
        · exact h4 x hx hl
      · rintro ⟨before, q, after, he, h1, h2, h3, h4⟩
        cases before with
        | nil =>
          simp only [List.nil_append, List.cons.injEq] at he
          exact absurd ⟨he.1 ▸ h1 ▸ h2, he.1 ▸ h3⟩ h
        | cons b before =>
          simp only [List.cons_append, List.cons.injEq] at he
          exact ⟨before, q, after, he.2, h1, h2, h3, fun x hx => h4 x (by simp [hx])⟩

/-- C24.  Full statement: the same without `hx`.  Missing: Pass rules over connection sets whose
subtraction is not exact on every empty set (hyper-cube sets, see `C24_pass_spurious_nonempty`).
For such rule lists the theorem still covers every algebra with total subtraction. -/
theorem C24_first_match_partial (L : N.Lawful Ok Strong) (rules : List (Rule C)) (hs : ∀ r ∈ rules, Strong r.props)
    (hx : (∀ a, Ok a → Strong a) ∨ ∀ r ∈ rules, r.action ≠ .pass) (p : P) :
    (N.K.mem p (calicoSync N rules).allow = true ↔ FirstRule N rules p .allow) ∧
    (N.K.mem p (calicoSync N rules).deny = true ↔ FirstRule N rules p .deny) ∧
    (N.K.mem p (calicoSync N rules).pass = true ↔ FirstRule N rules p .pass) := by
  have h := calicoSync_rel L rules hs hx
  rw [← firstMatch_iff, ← firstMatch_iff, ← firstMatch_iff]
  refine ⟨?_, ?_, ?_⟩
  · simpa using congrArg (· = true) (h.ma p)
  · simpa using congrArg (· = true) (h.md p)
  · simpa using congrArg (· = true) (h.mp p)

/-- C24: the three sets of a Calico policy are disjoint. -/
theorem C24_disjoint_partial (L : N.Lawful Ok Strong) (rules : List (Rule C)) (hs : ∀ r ∈ rules, Strong r.props)
    (hx : (∀ a, Ok a → Strong a) ∨ ∀ r ∈ rules, r.action ≠ .pass) (p : P) :
    ¬ (N.K.mem p (calicoSync N rules).allow = true ∧ N.K.mem p (calicoSync N rules).deny = true) ∧
    ¬ (N.K.mem p (calicoSync N rules).allow = true ∧ N.K.mem p (calicoSync N rules).pass = true) ∧
    ¬ (N.K.mem p (calicoSync N rules).deny = true ∧ N.K.mem p (calicoSync N rules).pass = true) := by
  obtain ⟨h1, h2, h3⟩ := C24_first_match_partial L rules hs hx p
  rw [h1, h2, h3, ← firstMatch_iff, ← firstMatch_iff, ← firstMatch_iff]
  refine ⟨?_, ?_, ?_⟩ <;>
  · rintro ⟨a, b⟩
    rw [a] at b
    simp at b

/-- C24: Log rules have no effect at all on the sets (for any connection-set implementation). -/
theorem C24_log_irrelevant (rules : List (Rule C)) :
    calicoSync N rules = calicoSync N (rules.filter (fun r => decide (r.action ≠ .log))) := by
  have : ∀ st, rules.foldl (calicoStep N) st = (rules.filter (fun r => decide (r.action ≠ .log))).foldl (calicoStep N) st := by
    induction rules with
    | nil => intro st; rfl
    | cons r rules ih =>
      intro st
      by_cases h : r.action = .log
      · have h1 : calicoStep N st r = st := by simp [calicoStep, h]
        rw [List.foldl_cons, h1, ih, List.filter_cons_of_neg (by simp [h])]
      · rw [List.foldl_cons, ih, List.filter_cons_of_pos (by simpa using h), List.foldl_cons]
  exact this _

/-- C24: a connection that no rule matches is in none of the sets; one that some rule other than Log
matches is in exactly one. -/
theorem C24_decided_iff_matched_partial (L : N.Lawful Ok Strong) (rules : List (Rule C)) (hs : ∀ r ∈ rules, Strong r.props)
    (hx : (∀ a, Ok a → Strong a) ∨ ∀ r ∈ rules, r.action ≠ .pass) (p : P) :
    (N.K.mem p (calicoSync N rules).allow = true ∨ N.K.mem p (calicoSync N rules).deny = true ∨
      N.K.mem p (calicoSync N rules).pass = true) ↔ ∃ r ∈ rules, r.action ≠ .log ∧ N.K.mem p r.props = true := by
  obtain ⟨h1, h2, h3⟩ := C24_first_match_partial L rules hs hx p
  rw [h1, h2, h3, ← firstMatch_iff, ← firstMatch_iff, ← firstMatch_iff]
  clear h1 h2 h3 hx hs
  induction rules with
  | nil => simp [firstMatch]
  | cons r rules ih =>
    rw [firstMatch]
    by_cases h : r.action ≠ .log ∧ N.K.mem p r.props = true
    · rw [if_pos h]
      constructor
      · intro _; exact ⟨r, by simp, h⟩
      · intro _
        have := h.1
        cases hr : r.action <;> simp_all
    · rw [if_neg h, ih]
      constructor
      · rintro ⟨q, hq, h'⟩; exact ⟨q, by simp [hq], h'⟩
      · rintro ⟨q, hq, h'⟩
        rcases List.mem_cons.1 hq with rfl | hq
        · exact absurd h' h
        · exact ⟨q, hq, h'⟩

/-! ### C25 -/

/-- The first policy of the list that captures the end of the connection and has a rule for it
has verdict `a`. -/
def FirstPolicy (N : Net C P E S) (pols : List (Policy C S)) (dir : Bool) (p : P) (a : RuleAction) : Prop :=
  ∃ before pol after, pols = before ++ pol :: after ∧ pol.captures N dir (endpoint N dir p) = true ∧
    pol.ruleVerdict N dir p = some a ∧
    ∀ q ∈ before, q.captures N dir (endpoint N dir p) = true → q.ruleVerdict N dir p = none

theorem layerVerdict_iff (pols : List (Policy C S)) (dir : Bool) (p : P) (a : RuleAction) :
    layerVerdict N pols dir p = some a ↔ FirstPolicy N pols dir p a := by
  unfold layerVerdict FirstPolicy
  rw [List.findSome?_eq_some_iff]
  constructor
  · rintro ⟨l1, b, l2, h1, h2, h3⟩
    by_cases hc : b.captures N dir (endpoint N dir p) = true
    · rw [if_pos hc] at h2
      refine ⟨l1, b, l2, h1, hc, h2, fun q hq hqc => ?_⟩
      have := h3 q hq
      rwa [if_pos hqc] at this
    · rw [if_neg hc] at h2; exact absurd h2 (by simp)
  · rintro ⟨l1, b, l2, h1, hc, h2, h3⟩
    refine ⟨l1, b, l2, h1, by rw [if_pos hc]; exact h2, fun q hq => ?_⟩
    by_cases hqc : q.captures N dir (endpoint N dir p) = true
    · rw [if_pos hqc]; exact h3 q hq hqc
    · rw [if_neg hqc]

/-- C25: whatever the number and overlap of policies, the connections a layer collects as allowed,
denied and passed are those for which the first deciding policy of the list says so.
Full statement: without `hx`.  Missing: Pass rules over hyper-cube sets (see C24). -/
theorem C25_first_policy_partial (L : N.Lawful Ok Strong) (pols : List (Policy C S)) (hl : ∀ pol ∈ pols, pol.Legal N Strong)
    (hx : SubExact Ok Strong pols) (dir : Bool) (cf : Policy C S → Bool) (p : P) :
    (N.K.mem p (collect N dir cf pols).allowed = true ↔ FirstPolicy N pols dir p .allow) ∧
    (N.K.mem p (collect N dir cf pols).denied = true ↔ FirstPolicy N pols dir p .deny) ∧
    (N.K.mem p (collect N dir cf pols).pass = true ↔ FirstPolicy N pols dir p .pass) := by
  have h := collect_rel L dir cf pols hl hx
  rw [← layerVerdict_iff, ← layerVerdict_iff, ← layerVerdict_iff]
  refine ⟨?_, ?_, ?_⟩
  · simpa using congrArg (· = true) (h.ma p)
  · simpa using congrArg (· = true) (h.md p)
  · simpa using congrArg (· = true) (h.mp p)

/-- What a policy with Calico semantics says: its first matching rule; a Kubernetes or Sidecar policy:
allow, if some rule matches; an authorization or gateway policy: its action, if some rule matches. -/
theorem C25_policy_verdict (pol : Policy C S) (dir : Bool) (p : P) (a : RuleAction) :
    pol.ruleVerdict N dir p = some a ↔
      (pol.isCalico = true ∧ FirstRule N (pol.rules dir) p a) ∨
      ((pol.kind = .k8s ∨ pol.kind = .istioSidecar) ∧ a = .allow ∧ ∃ r ∈ pol.rules dir, N.K.mem p r.props = true) ∨
      ((pol.kind = .istioAuthz ∨ pol.kind = .ingress ∨ pol.kind = .gateway) ∧
        ((pol.action = .allow ∧ a = .allow) ∨ (pol.action = .deny ∧ a = .deny)) ∧ ∃ r ∈ pol.rules dir, N.K.mem p r.props = true) := by
  rw [← firstMatch_iff]
  have hany : anyMatch N p (pol.rules dir) = true ↔ ∃ r ∈ pol.rules dir, N.K.mem p r.props = true := by
    unfold anyMatch; rw [List.any_eq_true]
  unfold Policy.ruleVerdict Policy.isCalico
  cases hk : pol.kind <;> simp only [← hany, reduceCtorEq, false_and, true_and, or_false, false_or, Bool.false_eq_true, or_true]
  all_goals (cases hany2 : anyMatch N p (pol.rules dir) <;> cases a <;> cases hac : pol.action <;> simp)

theorem precedence_aux (pols : List (Policy C S)) {st : PolicyStore C S} (h : PolicyStore.build pols = some st) :
    RankSorted Policy.getOrder (layerList st.layers .k8sCalico) ∧
    ∀ r, (layerList st.layers .k8sCalico).filter (fun q => decide (q.getOrder = r)) =
      (pols.filter (fun q => decide (layerOf q.kind = .k8sCalico))).filter (fun q => decide (q.getOrder = r)) := by
  rw [(build_built pols h).lists]
  have aux : ∀ (qs acc : List (Policy C S)), (∀ q ∈ qs, layerOf q.kind = .k8sCalico) → (∀ q ∈ acc, layerOf q.kind = .k8sCalico) →
      RankSorted Policy.getOrder acc →
      RankSorted Policy.getOrder (qs.foldl (insort Policy.lt) acc) ∧
      ∀ r, (qs.foldl (insort Policy.lt) acc).filter (fun q => decide (q.getOrder = r)) =
        acc.filter (fun q => decide (q.getOrder = r)) ++ qs.filter (fun q => decide (q.getOrder = r)) := by
    intro qs
    induction qs with
    | nil => intro acc _ _ hs; exact ⟨hs, fun r => by simp⟩
    | cons q qs ih =>
      intro acc hq hacc hs
      have hk : q.kind ≠ .istioAuthz := by
        intro hk; have := hq q (by simp); rw [hk] at this; simp [layerOf] at this
      have hlt : ∀ y ∈ acc, q.lt y = rankLt q.getOrder y.getOrder := by
        intro y _
        unfold Policy.lt
        cases hk' : q.kind <;> first | (exact absurd hk' hk) | skip
        all_goals cases hx : q.getOrder <;> cases hy : y.getOrder <;> simp [rankLt]
      obtain ⟨h1, h2⟩ := insort_rank Policy.getOrder acc hs q hlt
      obtain ⟨h3, h4⟩ := ih (insort Policy.lt acc q) (fun x hx => hq x (by simp [hx]))
        (fun x hx => by
          rcases (mem_insort _ _ _).1 hx with rfl | hx
          · exact hq x (by simp)
          · exact hacc x hx) h1
      refine ⟨h3, fun r => ?_⟩
      rw [List.foldl_cons, h4, h2, List.filter_cons]
      by_cases hr : q.getOrder = r <;> simp [hr]
  have := aux (pols.filter (fun q => decide (layerOf q.kind = .k8sCalico))) []
    (fun q hq => by simpa using (List.mem_filter.1 hq).2) (by simp) List.Pairwise.nil
  refine ⟨this.1, fun r => ?_⟩
  rw [this.2 r]; simp

/-- The precedence of a Kubernetes or Calico policy: 1000 for a Kubernetes policy, the stated order (or
none) for a Calico policy. -/
def Policy.precedence (pol : Policy C S) : Option Int := if pol.kind = .k8s then some 1000 else pol.order

/-- A Kubernetes or Calico policy. -/
def Policy.isK8sOrCalico (pol : Policy C S) : Bool :=
  decide (pol.kind = .k8s ∨ pol.kind = .calico ∨ pol.kind = .calicoGlobal ∨ pol.kind = .calicoProfile)

/-- C25: precedence.  The Kubernetes/Calico policies of a configuration are evaluated by increasing
order (a Kubernetes policy has order 1000, an unspecified order comes last); policies of equal order
in the order in which they were added. -/
theorem C25_precedence (pols : List (Policy C S)) {st : PolicyStore C S} (h : PolicyStore.build pols = some st) :
    RankSorted Policy.precedence (layerList st.layers .k8sCalico) ∧
    ∀ r, (layerList st.layers .k8sCalico).filter (fun q => decide (q.precedence = r)) =
      (pols.filter Policy.isK8sOrCalico).filter (fun q => decide (q.precedence = r)) := by
  have hb := build_built pols h
  have hkind : (fun q : Policy C S => decide (layerOf q.kind = .k8sCalico)) = Policy.isK8sOrCalico := by
    funext q; unfold Policy.isK8sOrCalico; cases q.kind <;> simp [layerOf]
  have hin : ∀ q ∈ layerList st.layers .k8sCalico, q.isK8sOrCalico = true := by
    intro q hq
    have := (List.mem_filter.1 ((hb.mem_list .k8sCalico q).1 hq |> fun h => List.mem_filter.2 ⟨h.1, by simpa using h.2⟩ :
      q ∈ pols.filter (fun q => decide (layerOf q.kind = .k8sCalico)))).2
    rw [← hkind]; exact this
  have hord : ∀ q : Policy C S, q.isK8sOrCalico = true → q.getOrder = q.precedence := by
    intro q hq
    unfold Policy.isK8sOrCalico at hq
    unfold Policy.getOrder Policy.precedence
    cases hk : q.kind <;> simp [hk] at hq ⊢
  obtain ⟨h1, h2⟩ := precedence_aux pols h
  constructor
  · refine List.Pairwise.imp_of_mem ?_ h1
    intro a b ha hb hab
    rwa [← hord a (hin a ha), ← hord b (hin b hb)]
  · intro r
    have h3 := h2 r
    rw [hkind] at h3
    have e1 : (layerList st.layers .k8sCalico).filter (fun q => decide (q.precedence = r)) =
        (layerList st.layers .k8sCalico).filter (fun q => decide (q.getOrder = r)) :=
      List.filter_congr (fun q hq => by rw [hord q (hin q hq)])
    have e2 : (pols.filter Policy.isK8sOrCalico).filter (fun q => decide (q.getOrder = r)) =
        (pols.filter Policy.isK8sOrCalico).filter (fun q => decide (q.precedence = r)) :=
      List.filter_congr (fun q hq => by rw [hord q (List.mem_filter.1 hq).2])
    rw [e1, h3, e2]

/-- Sorted lists with the same elements of each order are equal: `C25_precedence` determines the
evaluation order. -/
theorem C25_precedence_unique {α : Type} (rank : α → Option Int) (a b : List α) (ha : RankSorted rank a) (hb : RankSorted rank b)
    (h : ∀ r, a.filter (fun q => decide (rank q = r)) = b.filter (fun q => decide (rank q = r))) : a = b := by
  have le_of : ∀ {x : α} {l : List α}, RankSorted rank (x :: l) → ∀ y ∈ x :: l, rankLt (rank y) (rank x) = false := by
    intro x l hs y hy
    rcases List.mem_cons.1 hy with rfl | hy
    · cases hr : rank y <;> simp [rankLt]
    · exact (List.pairwise_cons.1 hs).1 y hy
  have eq_of : ∀ {x y : Option Int}, rankLt x y = false → rankLt y x = false → x = y := by
    intro x y h1 h2
    cases x <;> cases y <;> simp_all [rankLt]
    omega
  induction a generalizing b with
  | nil =>
    cases b with
    | nil => rfl
    | cons y b => have := h (rank y); simp at this
  | cons x a ih =>
    cases b with
    | nil => have := h (rank x); simp at this
    | cons y b =>
      have hxm : x ∈ y :: b := by
        have : x ∈ (y :: b).filter (fun q => decide (rank q = rank x)) := by rw [← h]; simp
        exact (List.mem_filter.1 this).1
      have hym : y ∈ x :: a := by
        have : y ∈ (x :: a).filter (fun q => decide (rank q = rank y)) := by rw [h]; simp
        exact (List.mem_filter.1 this).1
      have hr : rank x = rank y := eq_of (le_of hb x hxm) (le_of ha y hym)
      have hxy : x = y := by
        have := h (rank x)
        simp only [List.filter_cons, hr, decide_true, if_true, List.cons.injEq] at this
        exact this.1
      subst hxy
      congr 1
      apply ih b (List.pairwise_cons.1 ha).2 (List.pairwise_cons.1 hb).2
      intro r
      have := h r
      simp only [List.filter_cons] at this
      split at this
      · simpa using this
      · exact this

/-! ### C26 -/

/-- C26 (Kubernetes/Calico and Ingress layers): an endpoint with a default profile (a pod or a DNS
entry) that no policy of the layer captures in a direction has all its connections with known peers
allowed in that direction. -/
theorem C26_uncaptured_allowed_partial (L : N.Lawful Ok Strong) (pols : List (Policy C S)) (hl : ∀ pol ∈ pols, pol.Legal N Strong)
    (hx : SubExact Ok Strong pols) (dir : Bool) (t : Peers S) (f : ConnFilter) (hf : f.calcAllAllowed = true) (n : LayerName)
    (hn : n = .k8sCalico ∨ n = .k8sGateway) (p : P) (hd : t.hasDefault N (endpoint N dir p)) (ho : t.known N (otherEnd N dir p))
    (hc : ∀ pol ∈ pols, pol.captures N dir (endpoint N dir p) = false) :
    N.K.mem p (layerXgress N n pols dir t f).allAllowed = true := by
  have h := ((layerXgress_spec L n pols hl hx dir t f).2.2.2.1 hf).2 p
  rcases hn with rfl | rfl
  · exact (h (fun _ => trivial)).2 (Or.inr ⟨Or.inr hc, hd, ho⟩)
  · exact (h (fun _ => trivial)).2 (Or.inr ⟨Or.inr hc, hd, ho⟩)

/-- C26: a captured endpoint has exactly the connections that its policies allow, or pass on to its
default profile. -/
theorem C26_captured_exact_partial (L : N.Lawful Ok Strong) (pols : List (Policy C S)) (hl : ∀ pol ∈ pols, pol.Legal N Strong)
    (hx : SubExact Ok Strong pols) (dir : Bool) (t : Peers S) (f : ConnFilter) (hf : f.calcAllAllowed = true) (n : LayerName)
    (hn : n = .k8sCalico ∨ n = .k8sGateway) (p : P)
    (hc : ∃ pol ∈ pols, pol.captures N dir (endpoint N dir p) = true) :
    N.K.mem p (layerXgress N n pols dir t f).allAllowed = true ↔
      FirstPolicy N pols dir p .allow ∨
      (FirstPolicy N pols dir p .pass ∧ t.hasDefault N (endpoint N dir p) ∧ t.known N (otherEnd N dir p)) := by
  have h := ((layerXgress_spec L n pols hl hx dir t f).2.2.2.1 hf).2 p
  have hnot : ¬ ∀ pol ∈ pols, pol.captures N dir (endpoint N dir p) = false := by
    intro h; obtain ⟨pol, h1, h2⟩ := hc; rw [h pol h1] at h2; exact absurd h2 (by simp)
  have key : calicoAllows N pols t dir p ↔ FirstPolicy N pols dir p .allow ∨
      (FirstPolicy N pols dir p .pass ∧ t.hasDefault N (endpoint N dir p) ∧ t.known N (otherEnd N dir p)) := by
    rw [← layerVerdict_iff, ← layerVerdict_iff]
    unfold calicoAllows
    constructor
    · rintro (h1 | ⟨h1 | h1, h2, h3⟩)
      · exact Or.inl h1
      · exact Or.inr ⟨h1, h2, h3⟩
      · exact absurd h1 hnot
    · rintro (h1 | ⟨h1, h2, h3⟩)
      · exact Or.inl h1
      · exact Or.inr ⟨Or.inl h1, h2, h3⟩
  rcases hn with rfl | rfl
  · exact (h (fun _ => trivial)).trans key
  · exact (h (fun _ => trivial)).trans key

/-- C26 for host endpoints: they have no default, an uncaptured host endpoint gets nothing in that
direction from the layer. -/
theorem C26_host_endpoint_default_deny_partial (L : N.Lawful Ok Strong) (pols : List (Policy C S)) (hl : ∀ pol ∈ pols, pol.Legal N Strong)
    (hx : SubExact Ok Strong pols) (dir : Bool) (t : Peers S) (f : ConnFilter) (hf : f.calcAllAllowed = true) (p : P)
    (hd : ¬ t.hasDefault N (endpoint N dir p))
    (hc : ∀ pol ∈ pols, pol.captures N dir (endpoint N dir p) = false) :
    N.K.mem p (layerXgress N .k8sCalico pols dir t f).allAllowed = false := by
  have h := ((layerXgress_spec L .k8sCalico pols hl hx dir t f).2.2.2.1 hf).2 p (fun _ => trivial)
  rw [← Bool.not_eq_true, h]
  rintro (h1 | ⟨_, h2, _⟩)
  · obtain ⟨before, pol, after, h2, h3, _⟩ := (layerVerdict_iff _ _ _ _).1 h1
    rw [hc pol (by rw [h2]; simp)] at h3; exact absurd h3 (by simp)
  · exact hd h2

/-- C26 (Istio layers): a workload that no restricting policy captures (DENY authorization policies do
not restrict) has all its default connections allowed except those a policy denies.
Full statement: without `hdns`.  Missing: DNS destinations when every workload is captured on ingress;
there the code drops the default, see `C26_dns_default_lost`. -/
theorem C26_istio_uncaptured_partial (L : N.Lawful Ok Strong) (pols : List (Policy C S)) (hl : ∀ pol ∈ pols, pol.Legal N Strong)
    (hx : SubExact Ok Strong pols) (dir : Bool) (t : Peers S) (f : ConnFilter) (hf : f.calcAllAllowed = true) (n : LayerName)
    (hn : n = .istio ∨ n = .istioGateway) (p : P)
    (hdns : dir = true → SomeOpen N pols t ∨ N.Q.mem (N.dst p) t.dns = false)
    (hc : istioOpen N pols dir (endpoint N dir p)) (hp : istioDefault N t dir p) :
    N.K.mem p (layerXgress N n pols dir t f).allAllowed = true ↔
      ¬ FirstPolicy N pols dir p .deny ∨ (N.isTcp p = false ∧ t.nonDns N (N.src p) ∧ t.nonDns N (N.dst p)) := by
  have h := ((layerXgress_spec L n pols hl hx dir t f).2.2.2.1 hf).2 p
  have key : istioAllows N pols t dir p ↔ ¬ FirstPolicy N pols dir p .deny ∨ (N.isTcp p = false ∧ t.nonDns N (N.src p) ∧ t.nonDns N (N.dst p)) := by
    rw [← layerVerdict_iff]
    unfold istioAllows
    constructor
    · rintro (h1 | h1 | ⟨_, h1, _⟩)
      · left; rw [h1]; simp
      · exact Or.inr h1
      · exact Or.inl h1
    · rintro (h1 | h1)
      · exact Or.inr (Or.inr ⟨hc, h1, hp⟩)
      · exact Or.inr (Or.inl h1)
  rcases hn with rfl | rfl
  · exact (h hdns).trans key
  · exact (h hdns).trans key

/-- C26 (Istio layers): TCP connections of a captured workload are allowed exactly if its policies
allow them; others are not policed by Istio. -/
theorem C26_istio_captured_partial (L : N.Lawful Ok Strong) (pols : List (Policy C S)) (hl : ∀ pol ∈ pols, pol.Legal N Strong)
    (hx : SubExact Ok Strong pols) (dir : Bool) (t : Peers S) (f : ConnFilter) (hf : f.calcAllAllowed = true) (n : LayerName)
    (hn : n = .istio ∨ n = .istioGateway) (p : P)
    (hdns : dir = true → SomeOpen N pols t ∨ N.Q.mem (N.dst p) t.dns = false)
    (hc : ∃ pol ∈ pols, pol.restricts ∧ pol.captures N dir (endpoint N dir p) = true) :
    N.K.mem p (layerXgress N n pols dir t f).allAllowed = true ↔
      FirstPolicy N pols dir p .allow ∨ (N.isTcp p = false ∧ t.nonDns N (N.src p) ∧ t.nonDns N (N.dst p)) := by
  have h := ((layerXgress_spec L n pols hl hx dir t f).2.2.2.1 hf).2 p
  have hnot : ¬ istioOpen N pols dir (endpoint N dir p) := by
    intro h; obtain ⟨pol, h1, h2, h3⟩ := hc; rw [h pol h1 h2] at h3; exact absurd h3 (by simp)
  have key : istioAllows N pols t dir p ↔ FirstPolicy N pols dir p .allow ∨ (N.isTcp p = false ∧ t.nonDns N (N.src p) ∧ t.nonDns N (N.dst p)) := by
    rw [← layerVerdict_iff]
    unfold istioAllows
    tauto
  rcases hn with rfl | rfl
  · exact (h hdns).trans key
  · exact (h hdns).trans key

end
end Verif
