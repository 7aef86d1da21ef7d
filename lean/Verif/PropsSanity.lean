import Verif.SanityModel
import Verif.PropsOneConfig
/-!
C66 (the sanity query), part 1: conflicting policies.
-/
namespace Verif

section
variable {C P E S : Type} {N : NetQ C P E S} {Ok Strong Wide Canon : C → Prop}

/-! ### Specification -/

/-- A rule of the direction that somebody can match acts so; rules of policies other than Calico policies
allow. -/
def EPolicy.live (N : NetQ C P E S) (e : EPolicy C S) (dir : Bool) (a : RuleAction) : Prop :=
  ∃ (i : Nat) (r : Rule C) (ps : RulePeers S), (e.pol.rules dir)[i]? = some r ∧ (e.dirPeers dir)[i]? = some ps ∧
    (if e.pol.isCalico then r.action else .allow) = a ∧ ∀ s ∈ ps, ¬ Nobody N s

/-- Two policies are about a direction of somebody they both select, and their rules act in these two ways. -/
def Clash (N : NetQ C P E S) (e f : EPolicy C S) (a b : RuleAction) : Prop :=
  Common N e.pol f.pol ∧ ∃ dir, e.pol.governs dir = true ∧ f.pol.governs dir = true ∧ e.live N dir a ∧ f.live N dir b

/-- Calico policies of the same order with a common peer, one of which allows while the other denies. -/
def Conflict (N : NetQ C P E S) (e f : EPolicy C S) : Prop :=
  e.pol.isCalico = true ∧ f.pol.isCalico = true ∧ e.pol.order = f.pol.order ∧ (Clash N e f .allow .deny ∨ Clash N e f .deny .allow)

theorem Clash.symm {e f : EPolicy C S} {a b : RuleAction} (h : Clash N e f a b) : Clash N f e b a := by
  obtain ⟨⟨x, h1, h2⟩, dir, h3, h4, h5, h6⟩ := h
  exact ⟨⟨x, h2, h1⟩, dir, h4, h3, h6, h5⟩

theorem Conflict.symm {e f : EPolicy C S} (h : Conflict N e f) : Conflict N f e := by
  obtain ⟨h1, h2, h3, h4⟩ := h
  exact ⟨h2, h1, h3.symm, h4.elim (fun h => Or.inr h.symm) (fun h => Or.inl h.symm)⟩

/-! ### The test -/

theorem rulesWithAction_iff (a : RuleAction) : ∀ (rs : List (Rule C)) (pss : List (RulePeers S)),
    rulesWithAction N a rs pss = true ↔ ∃ (i : Nat) (r : Rule C) (ps : RulePeers S), rs[i]? = some r ∧ pss[i]? = some ps ∧
      r.action = a ∧ ∀ s ∈ ps, ¬ Nobody N s
  | [], pss => by simp [rulesWithAction]
  | r :: rs, [] => by simp [rulesWithAction]
  | r :: rs, ps :: pss => by
    have hp : ps.all (fun s => N.Q.truthy s) = true ↔ ∀ s ∈ ps, ¬ Nobody N s := by
      rw [List.all_eq_true]
      refine forall_congr' (fun s => forall_congr' (fun _ => ?_))
      rw [← truthy_nobody, Bool.not_eq_true', Bool.not_eq_false]
    unfold rulesWithAction
    rw [Bool.or_eq_true, Bool.and_eq_true, decide_eq_true_eq, hp, rulesWithAction_iff a rs pss]
    constructor
    · rintro (⟨h1, h2⟩ | ⟨i, r', ps', h1, h2, h3⟩)
      · exact ⟨0, r, ps, rfl, rfl, h2, h1⟩
      · exact ⟨i + 1, r', ps', h1, h2, h3⟩
    · rintro ⟨i, r', ps', h1, h2, h3, h4⟩
      cases i with
      | zero =>
        obtain rfl := Option.some.inj h1
        obtain rfl := Option.some.inj h2
        exact Or.inl ⟨h4, h3⟩
      | succ i => exact Or.inr ⟨i, r', ps', h1, h2, h3, h4⟩

theorem calico_live {e : EPolicy C S} (h : e.pol.isCalico = true) (dir : Bool) (a : RuleAction) :
    rulesWithAction N a (e.pol.dirRules dir) (e.dirPeers dir) = true ↔ e.live N dir a := by
  rw [rulesWithAction_iff]
  unfold EPolicy.live
  simp only [h, if_true]
  rfl

theorem calico_governs {p : Policy C S} (h : p.isCalico = true) (dir : Bool) : p.governs dir = if dir then p.affectsIngress else p.affectsEgress := by
  unfold Policy.isCalico at h
  unfold Policy.governs
  cases hk : p.kind <;> rw [hk] at h <;> simp at h ⊢

theorem isConflicting_iff {e f : EPolicy C S} (he : e.pol.isCalico = true) (hf : f.pol.isCalico = true) :
    isConflicting N e f = true ↔ Conflict N e f := by
  have key : ∀ dir, conflictingActions N e f dir = true ↔ (e.live N dir .allow ∧ f.live N dir .deny) ∨ (e.live N dir .deny ∧ f.live N dir .allow) := by
    intro dir
    unfold conflictingActions
    simp only [← calico_live he, ← calico_live hf]
    generalize rulesWithAction N .allow _ (e.dirPeers dir) = a
    generalize rulesWithAction N .deny _ (f.dirPeers dir) = b
    generalize rulesWithAction N .deny _ (e.dirPeers dir) = d
    generalize rulesWithAction N .allow _ (f.dirPeers dir) = g
    cases a <;> cases b <;> simp
  have k1 := key true
  have k2 := key false
  have ce := common_iff (N := N) e.pol f.pol
  unfold isConflicting Conflict Clash
  rw [← ce]
  simp only [calico_governs he, calico_governs hf, Bool.exists_bool, if_true, Bool.false_eq_true, if_false]
  generalize conflictingActions N e f true = x at *
  generalize conflictingActions N e f false = y at *
  by_cases ho : e.pol.order = f.pol.order
  · rw [if_neg (by simpa using ho)]
    generalize e.pol.affectsIngress = i1 at *
    generalize f.pol.affectsIngress = i2 at *
    generalize e.pol.affectsEgress = g1 at *
    generalize f.pol.affectsEgress = g2 at *
    generalize N.Q.truthy (N.Q.and e.pol.selected f.pol.selected) = t at *
    cases i1 <;> cases i2 <;> cases g1 <;> cases g2 <;> cases t <;> simp [he, hf, ho] <;> cases x <;> cases y <;> simp_all <;> tauto
  · rw [if_pos (by simpa using ho)]
    simp [ho]

theorem isCalico_cls (p : Policy C S) : decide (p.kind.cls = 1) = p.isCalico := by
  unfold PolicyKind.cls Policy.isCalico
  cases p.kind <;> rfl

theorem calico_lt {p : Policy C S} (h : p.isCalico = true) (q : Policy C S) : p.lt q = rankLt p.getOrder q.getOrder := by
  unfold Policy.isCalico at h
  unfold Policy.lt
  cases hk : p.kind <;> rw [hk] at h <;> simp at h ⊢ <;> cases p.getOrder <;> cases q.getOrder <;> rfl

theorem calico_order {p : Policy C S} (h : p.isCalico = true) : p.getOrder = p.order := by
  unfold Policy.isCalico at h
  unfold Policy.getOrder
  cases hk : p.kind <;> rw [hk] at h <;> simp at h ⊢

/-! ### The loop -/

theorem rankLt_irrefl' (x : Option Int) : rankLt x x = false := by cases x <;> simp [rankLt]

theorem conflictLoop_spec (ep : Policy C S → EPolicy C S) (hep : ∀ p, (ep p).pol = p) : ∀ (ps curr : List (Policy C S)),
    (∀ p ∈ curr ++ ps, p.isCalico = true) → RankSorted Policy.getOrder (curr ++ ps) → (∀ a ∈ curr, ∀ b ∈ curr, a.getOrder = b.getOrder) →
    (∀ x, conflictLoop N ep curr ps = some x → [x.2, x.1].Sublist (curr ++ ps) ∧ isConflicting N (ep x.1) (ep x.2) = true) ∧
    (conflictLoop N ep curr ps = none → ∀ l1 b l2, ps = l1 ++ b :: l2 → ∀ a ∈ curr ++ l1, isConflicting N (ep b) (ep a) = false) := by
  intro ps
  induction ps with
  | nil =>
    intro curr _ _ _
    exact ⟨fun x h => by simp [conflictLoop] at h, fun _ l1 b l2 h => by simp at h⟩
  | cons p ps ih =>
    intro curr hc hs heq
    have hnot : ∀ a b : Policy C S, a.isCalico = true → b.isCalico = true → a.getOrder ≠ b.getOrder → isConflicting N (ep b) (ep a) = false := by
      intro a b ha hb hne
      unfold isConflicting
      rw [if_pos]
      rw [hep, hep, ← calico_order ha, ← calico_order hb]
      exact fun h => hne h.symm
    -- all of `curr` come strictly before `p`
    have clear : (∀ a ∈ curr, rankLt a.getOrder p.getOrder = true) →
        (∀ x, conflictLoop N ep [p] ps = some x → [x.2, x.1].Sublist (curr ++ p :: ps) ∧ isConflicting N (ep x.1) (ep x.2) = true) ∧
        (conflictLoop N ep [p] ps = none → ∀ l1 b l2, p :: ps = l1 ++ b :: l2 → ∀ a ∈ curr ++ l1, isConflicting N (ep b) (ep a) = false) := by
      intro hlt
      have hs2 : RankSorted Policy.getOrder (p :: ps) := (List.pairwise_append.1 hs).2.1
      obtain ⟨i1, i2⟩ := ih [p] (fun q hq => hc q (List.mem_append_right _ hq)) hs2 (by simp)
      refine ⟨fun x hx => ⟨(i1 x hx).1.trans (List.sublist_append_right _ _), (i1 x hx).2⟩, fun hn l1 b l2 he a ha => ?_⟩
      have hb : b ∈ p :: ps := by rw [he]; simp
      have hcb := hc b (List.mem_append_right _ hb)
      rcases List.mem_append.1 ha with ha | ha
      · have hca := hc a (List.mem_append_left _ ha)
        refine hnot a b hca hcb (fun h => ?_)
        have hap := hlt a ha
        rcases List.mem_cons.1 hb with rfl | hb
        · rw [h, rankLt_irrefl'] at hap; simp at hap
        · have := (List.pairwise_cons.1 hs2).1 b hb
          rw [← h, hap] at this
          simp at this
      · cases l1 with
        | nil => simp at ha
        | cons q l1 =>
          simp only [List.cons_append, List.cons.injEq] at he
          obtain ⟨rfl, he⟩ := he
          exact i2 hn l1 b l2 he a (by simpa using ha)
    cases curr with
    | nil => exact clear (by simp)
    | cons first curr =>
      have hcf := hc first (by simp)
      unfold conflictLoop
      rw [calico_lt hcf]
      by_cases hl : rankLt first.getOrder p.getOrder = true
      · rw [if_pos hl]
        exact clear (fun a ha => by rw [heq a ha first (by simp)]; exact hl)
      · rw [if_neg hl]
        cases hfind : (first :: curr).find? (fun q => isConflicting N (ep p) (ep q)) with
        | some q =>
          refine ⟨fun x hx => ?_, fun h => by simp at h⟩
          simp only [Option.some.injEq] at hx
          subst hx
          refine ⟨?_, List.find?_some (p := fun q => isConflicting N (ep p) (ep q)) hfind⟩
          have hq := List.mem_of_find?_eq_some hfind
          exact List.Sublist.append (List.singleton_sublist.2 hq) (List.Sublist.cons_cons p (List.nil_sublist _))
        | none =>
          have hpf : p.getOrder = first.getOrder := by
            have h2 : rankLt p.getOrder first.getOrder = false := (List.pairwise_append.1 hs).2.2 first (by simp) p (by simp)
            by_contra hne
            rcases rankLt_total hne with h | h
            · rw [h] at h2; simp at h2
            · exact hl h
          have he : first :: curr ++ [p] ++ ps = first :: curr ++ p :: ps := by simp
          obtain ⟨i1, i2⟩ := ih (first :: curr ++ [p]) (by rw [he]; exact hc) (by rw [he]; exact hs) (by
            have : ∀ a ∈ first :: curr ++ [p], a.getOrder = first.getOrder := by
              intro a ha
              rcases List.mem_append.1 ha with ha | ha
              · exact heq a ha first (by simp)
              · rw [List.mem_singleton] at ha; rw [ha]; exact hpf
            intro a ha b hb
            rw [this a ha, this b hb])
          rw [he] at i1
          refine ⟨i1, fun hn l1 b l2 hsplit a ha => ?_⟩
          cases l1 with
          | nil =>
            simp only [List.nil_append, List.cons.injEq] at hsplit
            obtain ⟨rfl, _⟩ := hsplit
            have := List.find?_eq_none.1 hfind a (by simpa using ha)
            simpa using this
          | cons q l1 =>
            simp only [List.cons_append, List.cons.injEq] at hsplit
            obtain ⟨rfl, hsplit⟩ := hsplit
            exact i2 hn l1 b l2 hsplit a (by simpa [List.append_assoc] using ha)

/-- The Calico policies of a configuration. -/
theorem mem_calico {c : Config C S} (hb : PolicyStore.build c.store.policies = some c.store) (p : Policy C S) :
    p ∈ (layerList c.store.layers .k8sCalico).filter (fun p => decide (p.kind.cls = 1)) ↔ p ∈ c.store.policies ∧ p.isCalico = true := by
  rw [List.mem_filter, (build_built _ hb).mem_list, isCalico_cls]
  constructor
  · rintro ⟨⟨h1, _⟩, h2⟩; exact ⟨h1, h2⟩
  · rintro ⟨h1, h2⟩
    refine ⟨⟨h1, ?_⟩, h2⟩
    unfold Policy.isCalico at h2
    cases hk : p.kind <;> rw [hk] at h2 <;> simp at h2 <;> rfl

/-- C66, conflicts: the query reports a conflict exactly if two Calico policies of the same order select a
common peer and one has an allow rule, the other a deny rule, of a direction both are about, neither rule
being empty; the reported policies are such a pair. -/
theorem C66_conflict (ep : Policy C S → EPolicy C S) (hep : ∀ p, (ep p).pol = p) {c : Config C S}
    (hb : PolicyStore.build c.store.policies = some c.store) :
    (∀ x, conflictCheck N ep c = some x → x.1 ∈ c.store.policies ∧ x.2 ∈ c.store.policies ∧ x.1 ≠ x.2 ∧ Conflict N (ep x.1) (ep x.2)) ∧
    (conflictCheck N ep c = none → ∀ p ∈ c.store.policies, ∀ q ∈ c.store.policies, p ≠ q → ¬ Conflict N (ep p) (ep q)) := by
  have hnd : ((layerList c.store.layers .k8sCalico).filter (fun p => decide (p.kind.cls = 1))).Nodup := by
    refine List.Nodup.filter _ ?_
    have h1 : (c.store.policies).Nodup := List.Nodup.of_map _ (keys_nodup hb)
    rw [(build_built _ hb).lists, (foldl_insort_perm _ _).nodup_iff, List.nil_append]
    exact h1.filter _
  have hs : RankSorted Policy.getOrder ((layerList c.store.layers .k8sCalico).filter (fun p => decide (p.kind.cls = 1))) :=
    List.Pairwise.filter _ (precedence_aux _ hb).1
  have hm := mem_calico hb
  unfold conflictCheck
  dsimp only
  generalize (layerList c.store.layers .k8sCalico).filter (fun p => decide (p.kind.cls = 1)) = l at *
  obtain ⟨i1, i2⟩ := conflictLoop_spec (N := N) ep hep l [] (fun p hp => ((hm p).1 hp).2) hs (by simp)
  by_cases hl : l.length ≤ 1
  · rw [if_pos hl]
    refine ⟨fun x h => by simp at h, fun _ p hp q hq hne hc => ?_⟩
    have h1 := (hm p).2 ⟨hp, by have := hc.1; rwa [hep] at this⟩
    have h2 := (hm q).2 ⟨hq, by have := hc.2.1; rwa [hep] at this⟩
    match l, hl with
    | [], _ => simp at h1
    | [y], _ =>
      rw [List.mem_singleton] at h1 h2
      exact hne (h1.trans h2.symm)
  · rw [if_neg hl]
    refine ⟨fun x hx => ?_, fun hn p hp q hq hne hc => ?_⟩
    · obtain ⟨h1, h2⟩ := i1 x hx
      have m1 := (hm x.1).1 (h1.subset (by simp))
      have m2 := (hm x.2).1 (h1.subset (by simp))
      refine ⟨m1.1, m2.1, fun he => ?_, (isConflicting_iff (by rw [hep]; exact m1.2) (by rw [hep]; exact m2.2)).1 h2⟩
      have := h1.nodup hnd
      rw [he] at this
      simp at this
    · have e1 : p.isCalico = true := by have := hc.1; rwa [hep] at this
      have e2 : q.isCalico = true := by have := hc.2.1; rwa [hep] at this
      have h1 := (hm p).2 ⟨hp, e1⟩
      have h2 := (hm q).2 ⟨hq, e2⟩
      obtain ⟨u, v, rfl⟩ := List.append_of_mem h1
      rcases List.mem_append.1 h2 with h | h
      · have := i2 hn u p v rfl q (by simpa using h)
        rw [(isConflicting_iff (by rw [hep]; exact e1) (by rw [hep]; exact e2)).2 hc] at this
        simp at this
      · rcases List.mem_cons.1 h with rfl | h
        · exact hne rfl
        · obtain ⟨v1, v2, rfl⟩ := List.append_of_mem h
          have := i2 hn (u ++ p :: v1) q v2 (by simp) p (by simp)
          rw [(isConflicting_iff (by rw [hep]; exact e2) (by rw [hep]; exact e1)).2 hc.symm] at this
          simp at this

/-! ### What absence of conflicts is good for -/

/-- What a policy says comes from a rule that somebody can match. -/
theorem speaks_live {e : EPolicy C S} (ht : e.Tied N) (hk : layerOf e.pol.kind = .k8sCalico) {dir : Bool} {p : P} {v : RuleAction}
    (h : e.pol.speaks N dir p = some v) : e.pol.governs dir = true ∧ N.Q.mem (endpoint N.toNet dir p) e.pol.selected = true ∧ e.live N dir v ∧ v ≠ .log := by
  unfold Policy.speaks at h
  split at h
  case isFalse => simp at h
  rename_i hc
  unfold Policy.captures at hc
  rw [Bool.and_eq_true] at hc
  refine ⟨hc.1, hc.2, ?_⟩
  have len : (e.dirPeers dir).length = (e.pol.rules dir).length := by
    cases dir
    · exact ht.lengthEg
    · exact ht.lengthIn
  have fin : ∀ (i : Nat) (r : Rule C), (e.pol.rules dir)[i]? = some r → N.K.mem p r.props = true → (if e.pol.isCalico then r.action else .allow) = v → v ≠ .log → e.live N dir v ∧ v ≠ .log := by
    intro i r hr hm ha hlog
    have hi : i < (e.dirPeers dir).length := by
      rw [len]
      exact (List.getElem?_eq_some_iff.1 hr).1
    refine ⟨⟨i, r, _, hr, List.getElem?_eq_getElem hi, ha, fun s hs hn => ?_⟩, hlog⟩
    rcases ht.inside dir i r _ hr (List.getElem?_eq_getElem hi) s hs p hm with h | h <;> rw [hn] at h <;> simp at h
  unfold Policy.ruleVerdict at h
  have hany : anyMatch N.toNet p (e.pol.rules dir) = true → ∃ (i : Nat) (r : Rule C), (e.pol.rules dir)[i]? = some r ∧ N.K.mem p r.props = true := by
    intro ha
    obtain ⟨r, hr, hm⟩ := List.any_eq_true.1 ha
    obtain ⟨i, hi⟩ := List.getElem?_of_mem hr
    exact ⟨i, r, hi, hm⟩
  have hfirst : ∀ rs : List (Rule C), firstMatch N.toNet p rs = some v → ∃ (i : Nat) (r : Rule C), rs[i]? = some r ∧ N.K.mem p r.props = true ∧ r.action = v ∧ v ≠ .log := by
    intro rs
    induction rs with
    | nil => intro h; simp [firstMatch] at h
    | cons r rs ih =>
      intro h
      unfold firstMatch at h
      split at h
      · rename_i hr
        exact ⟨0, r, rfl, hr.2, Option.some.inj h, by rw [← Option.some.inj h]; exact hr.1⟩
      · obtain ⟨i, r', h1, h2⟩ := ih h
        exact ⟨i + 1, r', h1, h2⟩
  have isC : e.pol.isCalico = (match e.pol.kind with | .calico | .calicoGlobal | .calicoProfile => true | _ => false) := rfl
  cases hkind : e.pol.kind <;> rw [hkind] at h hk isC <;> simp [layerOf] at hk
  · dsimp only at h
    split at h
    · rename_i ha
      obtain ⟨i, r, h1, h2⟩ := hany ha
      exact fin i r h1 h2 (by rw [isC]; simpa using h) (by rw [← Option.some.inj h]; simp)
    · simp at h
  all_goals
    obtain ⟨i, r, h1, h2, h3, h4⟩ := hfirst _ h
    exact fin i r h1 h2 (by rw [isC]; simpa using h3) h4

/-- Policies of the Kubernetes/Calico layer of the same order that act differently on somebody. -/
def Disputed (N : NetQ C P E S) (ep : Policy C S → EPolicy C S) (c : Config C S) : Prop :=
  ∃ p ∈ c.store.policies, ∃ q ∈ c.store.policies, p ≠ q ∧ layerOf p.kind = .k8sCalico ∧ layerOf q.kind = .k8sCalico ∧ p.getOrder = q.getOrder ∧
    ∃ a b, a ≠ b ∧ a ≠ .log ∧ b ≠ .log ∧ Clash N (ep p) (ep q) a b

theorem undisputed_free {ep : Policy C S → EPolicy C S} (hep : ∀ p, (ep p).pol = p) {c : Config C S} (ht : ∀ p ∈ c.store.policies, (ep p).Tied N)
    (hk : ∀ p ∈ c.store.policies, layerOf p.kind = .k8sCalico ∨ p.kind = .istioAuthz) (h : ¬ Disputed N ep c) : OrderFree N c.store.policies := by
  rintro p hp q hq hl ⟨dir, x, v, w, h1, h2, hne⟩
  rcases hk p hp with hkp | hkp
  · left
    refine ⟨hkp, fun ho => h ⟨p, hp, q, hq, fun he => ?_, hkp, hl ▸ hkp, ho, v, w, hne, ?_⟩⟩
    · subst he
      rw [h1] at h2
      exact hne (Option.some.inj h2)
    · obtain ⟨a1, a2, a3, a4⟩ := speaks_live (ht p hp) (by rw [hep]; exact hkp) (by rw [hep]; exact h1)
      obtain ⟨b1, b2, b3, b4⟩ := speaks_live (ht q hq) (by rw [hep]; exact hl ▸ hkp) (by rw [hep]; exact h2)
      exact ⟨a4, b4, ⟨_, a2, b2⟩, dir, a1, b1, a3, b3⟩
  · right
    refine ⟨by rw [hkp]; rfl, fun r hr he => ?_⟩
    rcases hk r hr with h | h <;> rw [he] at h <;> simp [layerOf] at h

/-- Same policies, whatever the order in which they were read. -/
structure Reordered (c c' : Config C S) : Prop where
  peers : c'.peers = c.peers
  services : c'.services = c.services
  policies : c'.store.policies.Perm c.store.policies

/-- C66: without a dispute, and without sidecars, Ingress and Gateway resources, the order in which the
policies are read does not matter. -/
theorem C66_undisputed (ep : Policy C S → EPolicy C S) (hep : ∀ p, (ep p).pol = p) {c c' : Config C S}
    (G : c.Good N Ok Strong) (G' : c'.Good N Ok Strong) (R : Reordered c c') (ht : ∀ p ∈ c.store.policies, (ep p).Tied N)
    (hk : ∀ p ∈ c.store.policies, layerOf p.kind = .k8sCalico ∨ p.kind = .istioAuthz) (h : ¬ Disputed N ep c)
    (layer : Option LayerName) (x : P) : c.allowsIn N layer x ↔ c'.allowsIn N layer x := by
  have hf := undisputed_free hep ht hk h
  have m1 : ∀ p ∈ c.store.policies, ∃ q ∈ c'.store.policies, p.key = q.key ∧ PolSame N p q :=
    fun p hp => ⟨p, R.policies.mem_iff.2 hp, rfl, PolSame.refl p⟩
  have m2 : ∀ q ∈ c'.store.policies, ∃ p ∈ c.store.policies, p.key = q.key ∧ PolSame N p q :=
    fun p hp => ⟨p, R.policies.mem_iff.1 hp, rfl, PolSame.refl p⟩
  refine allowsIn_same G G' ?_ ?_ ?_ layer x
  · rw [R.peers]; exact PeersSame.refl _
  · intro n
    refine layerSame_of_match ?_ ?_ (fun dir x => verdict_orderFree G G' m1 m2 hf n dir x)
    · intro p hp
      obtain ⟨hp1, hp2⟩ := (G.B.mem_list n p).1 hp
      exact ⟨p, (G'.B.mem_list n p).2 ⟨R.policies.mem_iff.2 hp1, hp2⟩, PolSame.refl p⟩
    · intro p hp
      obtain ⟨hp1, hp2⟩ := (G'.B.mem_list n p).1 hp
      exact ⟨p, (G.B.mem_list n p).2 ⟨R.policies.mem_iff.1 hp1, hp2⟩, PolSame.refl p⟩
  · intro n
    constructor
    · rintro ⟨p, hp, hn⟩; exact ⟨p, R.policies.mem_iff.2 hp, hn⟩
    · rintro ⟨p, hp, hn⟩; exact ⟨p, R.policies.mem_iff.1 hp, hn⟩

theorem live_action {e : EPolicy C S} {dir : Bool} {a : RuleAction} (h : e.live N dir a) : a = .allow ∨ (e.pol.isCalico = true ∧ ∃ r ∈ e.pol.rules dir, r.action = a) := by
  obtain ⟨i, r, ps, h1, h2, h3, h4⟩ := h
  by_cases hc : e.pol.isCalico = true
  · rw [if_pos hc] at h3
    exact Or.inr ⟨hc, r, List.mem_of_getElem? h1, h3⟩
  · rw [if_neg hc] at h3
    exact Or.inl h3.symm

/-- C66: when no conflict is reported, the order in which the policies are read does not matter.
Full statement: without `hr` and `hm`, and with sidecars, Ingress and Gateway resources.  Missing: the
query does not report policies of the same order one of which passes connections that the other allows or
denies, `C66_pass_wrong`, nor Calico policies of order 1000 that deny what a Kubernetes policy allows,
`C66_mixed_wrong`. -/
theorem C66_order_partial (ep : Policy C S → EPolicy C S) (hep : ∀ p, (ep p).pol = p) {c c' : Config C S}
    (G : c.Good N Ok Strong) (G' : c'.Good N Ok Strong) (R : Reordered c c') (ht : ∀ p ∈ c.store.policies, (ep p).Tied N)
    (hk : ∀ p ∈ c.store.policies, layerOf p.kind = .k8sCalico ∨ p.kind = .istioAuthz)
    (hr : ∀ p ∈ c.store.policies, ∀ dir, ∀ r ∈ p.rules dir, r.action ≠ .pass)
    (hm : ∀ p ∈ c.store.policies, ∀ q ∈ c.store.policies, p.kind = .k8s → q.isCalico = true → q.order = some 1000 → ¬ Clash N (ep p) (ep q) .allow .deny)
    (h : conflictCheck N ep c = none) (layer : Option LayerName) (x : P) : c.allowsIn N layer x ↔ c'.allowsIn N layer x := by
  refine C66_undisputed ep hep G G' R ht hk ?_ layer x
  have hno := (C66_conflict (N := N) ep hep G.built).2 h
  have kinds : ∀ p : Policy C S, layerOf p.kind = .k8sCalico → p.kind = .k8s ∨ p.isCalico = true := by
    intro p hp
    unfold Policy.isCalico
    cases hk : p.kind <;> rw [hk] at hp <;> simp [layerOf] at hp ⊢
  rintro ⟨p, hp, q, hq, hne, k1, k2, ho, a, b, hab, hla, hlb, hcl⟩
  have ha : a = .allow ∨ (p.isCalico = true ∧ a = .deny) := by
    obtain ⟨_, dir, _, _, h1, _⟩ := id hcl
    rcases live_action h1 with h1 | ⟨h1, r, h2, h3⟩
    · exact Or.inl h1
    · rw [hep] at h1 h2
      have := hr p hp dir r h2
      rw [h3] at this
      cases a <;> simp_all
  have hb : b = .allow ∨ (q.isCalico = true ∧ b = .deny) := by
    obtain ⟨_, dir, _, _, _, h1⟩ := id hcl
    rcases live_action h1 with h1 | ⟨h1, r, h2, h3⟩
    · exact Or.inl h1
    · rw [hep] at h1 h2
      have := hr q hq dir r h2
      rw [h3] at this
      cases b <;> simp_all
  have key : ∀ (p q : Policy C S), p ∈ c.store.policies → q ∈ c.store.policies → p ≠ q → layerOf p.kind = .k8sCalico → p.getOrder = q.getOrder →
      q.isCalico = true → Clash N (ep p) (ep q) .allow .deny → False := by
    intro p q hp hq hne k1 ho hqc hcl
    rw [calico_order hqc] at ho
    rcases kinds p k1 with hpk | hpc
    · refine hm p hp q hq hpk hqc ?_ hcl
      rw [← ho]
      unfold Policy.getOrder
      rw [hpk]
    · rw [calico_order hpc] at ho
      exact hno p hp q hq hne ⟨by rw [hep]; exact hpc, by rw [hep]; exact hqc, by rw [hep, hep]; exact ho, Or.inl hcl⟩
  rcases ha with rfl | ⟨hpc, rfl⟩ <;> rcases hb with rfl | ⟨hqc, rfl⟩
  · exact hab rfl
  · exact key p q hp hq hne k1 ho hqc hcl
  · exact key q p hq hp (Ne.symm hne) k2 ho.symm hpc hcl.symm
  · exact hab rfl

end
end Verif
