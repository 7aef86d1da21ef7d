import Verif.PropsSanityIssues
/-!
C66 (the sanity query), part 3: the reasons given, and when the query answers.
-/
namespace Verif

section
variable {C P E S : Type} {N : NetQ C P E S} {Ok Strong Wide Canon : C → Prop}

/-! ### Rules contained in rules -/

/-- What a rule of a policy does. -/
def Policy.ruleAct (p : Policy C S) (r : Rule C) : RuleAction :=
  match p.kind with
  | .calico | .calicoGlobal | .calicoProfile => r.action
  | .istioAuthz => (match p.action with | .allow => .allow | .deny => .deny)
  | _ => .allow

theorem subsetOf_iff {a b : S} : subsetOf N a b = true ↔ ∀ e, N.Q.mem e a = true → N.Q.mem e b = true := by
  unfold subsetOf
  rw [Bool.not_eq_true', ← Bool.not_eq_true, N.Q.truthy_iff]
  simp only [N.Q.mem_sub, Bool.and_eq_true, Bool.not_eq_true', not_exists, not_and, Bool.not_eq_false]

theorem skipLoop_spec {same : Bool} {i : Nat} {r : Rule C} : ∀ {ss : List (Rule C)} {k j : Nat}, skipLoop N same i r k ss = some j →
    k ≤ j ∧ ∃ s, ss[j - k]? = some s ∧ N.K.contained r.props s.props = true ∧ ¬ (j = i ∧ same = true)
  | [], k, j, h => by simp [skipLoop] at h
  | s :: ss, k, j, h => by
    have step : skipLoop N same i r (k + 1) ss = some j → k ≤ j ∧ ∃ t, (s :: ss)[j - k]? = some t ∧ N.K.contained r.props t.props = true ∧ ¬ (j = i ∧ same = true) := by
      intro h
      obtain ⟨h1, t, h2, h3⟩ := skipLoop_spec h
      refine ⟨by omega, t, ?_, h3⟩
      rw [show j - k = (j - (k + 1)) + 1 by omega, List.getElem?_cons_succ]
      exact h2
    unfold skipLoop at h
    split at h
    · exact step h
    · rename_i hn
      split at h
      · rename_i hc
        rw [Option.some.injEq] at h
        subst h
        exact ⟨Nat.le_refl _, s, by simp, hc, by simpa using hn⟩
      · exact step h

theorem stopLoop_spec {same : Bool} {i : Nat} {r : Rule C} : ∀ {ss : List (Rule C)} {k j : Nat} {s : Rule C}, stopLoop N same i r k ss = some (j, s) →
    k ≤ j ∧ ss[j - k]? = some s ∧ N.K.contained r.props s.props = true ∧ (same = true → k ≤ i → j < i)
  | [], k, j, s, h => by simp [stopLoop] at h
  | t :: ss, k, j, s, h => by
    unfold stopLoop at h
    split at h
    · simp at h
    · rename_i hn
      split at h
      · rename_i hc
        simp only [Option.some.injEq, Prod.mk.injEq] at h
        obtain ⟨rfl, rfl⟩ := h
        refine ⟨Nat.le_refl _, by simp, hc, fun hs hle => ?_⟩
        have : k ≠ i := by intro he; exact hn (by simp [he, hs])
        omega
      · obtain ⟨h1, h2, h3, h4⟩ := stopLoop_spec h
        refine ⟨by omega, ?_, h3, fun hs hle => h4 hs ?_⟩
        · rw [show j - k = (j - (k + 1)) + 1 by omega, List.getElem?_cons_succ]
          exact h2
        · have : k ≠ i := by intro he; exact hn (by simp [he, hs])
          omega

theorem containLoop_mem {p : Policy C S} {dir : Bool} {i : Nat} {r : Rule C} : ∀ {qs : List (Policy C S)} {q : Policy C S} {kb : Nat × Bool},
    containLoop N p dir i r qs = some (some (q, kb)) → q ∈ qs ∧ ruleContaining N q p dir i r = some (some kb)
  | [], q, kb, h => by simp [containLoop] at h
  | x :: qs, q, kb, h => by
    unfold containLoop at h
    split at h
    · simp at h
    · obtain ⟨f, hf, h⟩ := Option.bind_eq_some_iff.1 h
      cases f with
      | some y =>
        simp only [Option.some.injEq, Prod.mk.injEq] at h
        obtain ⟨rfl, rfl⟩ := h
        exact ⟨by simp, hf⟩
      | none =>
        obtain ⟨h1, h2⟩ := containLoop_mem h
        exact ⟨by simp [h1], h2⟩

/-- C66, reasons for rules: the rule named as the reason is another rule of the same direction that matches
every connection the redundant rule matches; unless it is a Calico policy, its policy selects whatever the policy of
the redundant rule selects; in the same Calico policy it comes first.  When the text says that the
actions differ they do; when it does not they agree, unless a Calico rule is contained in a rule of a
Kubernetes policy (`C66_note_wrong`). -/
theorem C66_rule_reason (L : N.Lawful Ok Strong Wide) {c : Config C S} (G : c.Good N Ok Strong) {n : LayerName} {p : Policy C S}
    (hd : ∀ q ∈ c.store.policies, q.Shaped) (hp : p ∈ c.store.policies) (hn : layerOf p.kind = n) {dir : Bool} {i : Nat} (hi : 1 ≤ i) {q : Policy C S} {k : Nat} {b : Bool}
    (h : ruleWhy N c n p dir i = some (some (q, k, b))) :
    q ∈ c.store.policies ∧ layerOf q.kind = n ∧ 1 ≤ k ∧ ∃ r s, (p.rules dir)[i - 1]? = some r ∧ (q.rules dir)[k - 1]? = some s ∧
      (∀ x, N.K.mem x r.props = true → N.K.mem x s.props = true) ∧
      (q.isCalico = false → ∀ e, N.Q.mem e p.selected = true → N.Q.mem e q.selected = true) ∧ (q = p → k ≠ i ∧ (p.isCalico = true → k < i)) ∧
      (b = true → q.ruleAct s ≠ p.ruleAct r) ∧ (b = false → q.ruleAct s = p.ruleAct r ∨ (q.kind = .k8s ∧ p.isCalico = true)) := by
  unfold ruleWhy at h
  obtain ⟨r, hr, h⟩ := Option.bind_eq_some_iff.1 h
  obtain ⟨hq, h⟩ := containLoop_mem h
  obtain ⟨hqc, hqk⟩ := (G.B.mem_list n q).1 hq
  have hself : q = p → policyEq N q p = true := by
    rintro rfl
    exact policyEq_refl L (G.legal1 hqc).1 (G.legal1 hqc).2
  have sub : ∀ s, (q.rules dir)[k - 1]? = some s → N.K.contained r.props s.props = true → ∀ x, N.K.mem x r.props = true → N.K.mem x s.props = true := by
    intro s hs hc
    have o1 := L.net.strong_ok ((G.legal1 hp).1.strong dir r (List.mem_of_getElem? hr))
    have o2 := L.net.strong_ok ((G.legal1 hqc).1.strong dir s (List.mem_of_getElem? hs))
    exact (L.net.contained_iff o1 o2).1 hc
  refine ⟨hqc, hqk, ?_⟩
  have skip : ∀ (f : Nat → Nat × Bool), (∀ k, (f k).1 = k) →
      (if (!subsetOf N p.selected q.selected) = true then some none else some ((skipLoop N (policyEq N q p) i r 1 (q.dirRules dir)).map f)) = some (some (k, b)) →
      (∀ e, N.Q.mem e p.selected = true → N.Q.mem e q.selected = true) ∧ (f k).2 = b ∧ 1 ≤ k ∧ ∃ s, (q.rules dir)[k - 1]? = some s ∧ N.K.contained r.props s.props = true ∧ (q = p → k ≠ i) := by
    intro f hf h
    split at h
    · simp at h
    · rename_i hsub
      rw [Option.some.injEq] at h
      obtain ⟨j, hj, he⟩ := Option.map_eq_some_iff.1 h
      have hjk : j = k := by rw [← hf j, he]
      subst hjk
      obtain ⟨h1, s, h2, h3, h4⟩ := skipLoop_spec hj
      exact ⟨subsetOf_iff.1 (by simpa using hsub), by rw [he], h1, s, h2, h3, fun e hk => h4 ⟨hk, hself e⟩⟩
  unfold ruleContaining at h
  cases hk : q.kind
  all_goals rw [hk] at h; try dsimp only at h
  case k8s =>
    obtain ⟨hss, hb, h1, s, h2, h3, h4⟩ := skip (fun k => (k, false)) (fun _ => rfl) h
    refine ⟨h1, r, s, hr, h2, sub s h2 h3, fun _ => hss, fun e => ⟨h4 e, fun hc => ?_⟩, fun hb' => ?_, fun _ => ?_⟩
    · subst e
      unfold Policy.isCalico at hc
      rw [hk] at hc
      simp at hc
    · rw [← hb] at hb'; simp at hb'
    · rw [hk] at hqk
      rw [← hqk] at hn
      have : q.ruleAct s = .allow := by unfold Policy.ruleAct; rw [hk]
      rw [this]
      unfold Policy.ruleAct Policy.isCalico
      cases hpk : p.kind <;> rw [hpk] at hn <;> simp [layerOf] at hn ⊢
  case istioAuthz =>
    obtain ⟨hss, hb, h1, s, h2, h3, h4⟩ := skip (fun k => (k, decide (q.action ≠ p.action))) (fun _ => rfl) h
    have hpn : p.kind = .istioAuthz ∨ p.kind = .istioSidecar := by
      rw [hk] at hqk
      rw [← hqk] at hn
      cases hpk : p.kind <;> rw [hpk] at hn <;> simp [layerOf] at hn ⊢
    have hq1 : q.ruleAct s = (match q.action with | .allow => .allow | .deny => .deny) := by unfold Policy.ruleAct; rw [hk]
    refine ⟨h1, r, s, hr, h2, sub s h2 h3, fun _ => hss, fun e => ⟨h4 e, fun hc => ?_⟩, fun hb' => ?_, fun hb' => ?_⟩
    · subst e
      unfold Policy.isCalico at hc
      rw [hk] at hc
      simp at hc
    all_goals
      have hpa : p.kind = .istioAuthz := by
        refine hpn.resolve_right (fun hps => ?_)
        cases dir
        · have : q.rules false = [] := (hd q hqc).1 hk
          rw [this] at h2
          simp at h2
        · have : p.rules true = [] := (hd p hp).2 hps
          have hr' : (p.rules true)[i - 1]? = some r := hr
          rw [this] at hr'
          simp at hr'
      rw [← hb] at hb'
      have hp1 : p.ruleAct r = (match p.action with | .allow => .allow | .deny => .deny) := by unfold Policy.ruleAct; rw [hpa]
      rw [hq1, hp1]
      cases hqa : q.action <;> cases hpb : p.action <;> simp [hqa, hpb] at hb' ⊢
  case istioSidecar | ingress | gateway => simp at h
  all_goals
    cases hs : stopLoop N (policyEq N q p) i r 1 (q.dirRules dir) with
    | none => rw [hs] at h; simp at h
    | some js =>
      obtain ⟨j, s⟩ := js
      rw [hs] at h
      dsimp only at h
      split at h
      · simp at h
      · rename_i hnk
        simp only [Option.some.injEq, Prod.mk.injEq] at h
        obtain ⟨rfl, hb⟩ := h
        obtain ⟨h1, h2, h3, h4⟩ := stopLoop_spec hs
        have hq1 : q.ruleAct s = s.action := by unfold Policy.ruleAct; rw [hk]
        have hp1 : p.ruleAct r = r.action := by
          rw [hk] at hqk
          rw [← hqk] at hn
          unfold Policy.ruleAct
          cases hpk : p.kind <;> rw [hpk] at hn hnk <;> simp [layerOf] at hn hnk ⊢
        have hqi : q.isCalico = true := by unfold Policy.isCalico; rw [hk]
        refine ⟨h1, r, s, hr, h2, sub s h2 h3, fun hf => absurd hqi (by simp [hf]), fun e => ⟨?_, fun _ => h4 (hself e) hi⟩, fun hb' => ?_, fun hb' => ?_⟩
        · have := h4 (hself e) hi
          omega
        · rw [hq1, hp1]; rw [← hb] at hb'; simpa using hb'
        · rw [hq1, hp1]; rw [← hb] at hb'; exact Or.inl (by simpa using hb')

/-! ### Policies contained in policies -/

/-- The policy has a rule that acts so and that somebody can match. -/
def EPolicy.acts (N : NetQ C P E S) (e : EPolicy C S) (a : RuleAction) : Prop :=
  ∃ (dir : Bool) (i : Nat) (r : Rule C) (ps : RulePeers S), (e.pol.rules dir)[i]? = some r ∧ (e.dirPeers dir)[i]? = some ps ∧
    e.pol.ruleAct r = a ∧ ∀ s ∈ ps, ¬ Nobody N s

/-- The policy itself denies the connection. -/
def Policy.denies (N : NetQ C P E S) (p : Policy C S) (x : P) : Prop :=
  ∃ dir, p.captures N.toNet dir (endpoint N.toNet dir x) = true ∧ p.ruleVerdict N.toNet dir x = some .deny

/-- Everything relevant that `p` alone explicitly allows is allowed when `q` is the only policy, and `q`
selects whatever `p` selects. -/
def AllowsWithin (N : NetQ C P E S) (excl : Bool) (c : Config C S) (p q : Policy C S) : Prop :=
  (∀ e, N.Q.mem e p.selected = true → N.Q.mem e q.selected = true) ∧
  ∀ s t, Only c p s → Only c q t → ∀ x, Relevant N c.peers excl x → s.explicit N x → t.allows N x

/-- `q` denies what `p` denies. -/
def DeniesWithin (N : NetQ C P E S) (p q : Policy C S) : Prop := ∀ x, p.denies N x → q.denies N x

/-- Another policy of the layer. -/
def Other (c : Config C S) (n : LayerName) (p q : Policy C S) : Prop := q ∈ c.store.policies ∧ layerOf q.kind = n ∧ q ≠ p

/-- What the reasons claim. -/
def PolicyWhy.Right (N : NetQ C P E S) (excl : Bool) (ep : Policy C S → EPolicy C S) (c : Config C S) (n : LayerName) (p : Policy C S) : PolicyWhy C S → Prop
  | .unexplained => True
  | .keepsDefault => ∀ s, Only c p s → ∀ x, Relevant N c.peers excl x → (s.allows N x ↔ Baseline N c.peers x)
  | .noRules => ¬ (ep p).acts N .allow ∧ ¬ (ep p).acts N .deny
  | .within q => Other c n p q ∧ ((ep p).acts N .allow ∨ (ep p).acts N .deny) ∧
      ((ep p).acts N .allow → AllowsWithin N excl c p q) ∧ ((ep p).acts N .deny → DeniesWithin N p q)
  | .covered x y => Other c n p x ∧ Other c n p y ∧ x ≠ y ∧ (ep p).acts N .allow ∧ (ep p).acts N .deny ∧
      AllowsWithin N excl c p x ∧ DeniesWithin N p y

theorem single_layers {p : Policy C S} {st : PolicyStore C S} (h : PolicyStore.build [p] = some st) : st.layers = [(layerOf p.kind, [p])] := by
  have h' : some (⟨[p], addToLayers initLayers p (layerOf p.kind)⟩ : PolicyStore C S) = some st := h
  rw [Option.some.injEq] at h'
  subst h'
  dsimp only
  have hins : insort Policy.lt [] p = [p] := by
    unfold insort bisectRight
    simp
  cases hk : p.kind <;> simp [layerOf, addToLayers, initLayers, hins]

theorem justOne_only {c : Config C S} (G : c.Good N Ok Strong) {p : Policy C S} (hp : p ∈ c.store.policies) {s : Config C S}
    (h : c.justOne p.name = some s) : s.Good N Ok Strong ∧ Only c p s ∧ s.store.policies = [p] ∧ ∀ q ∈ c.store.policies, q.name = p.name → q = p := by
  unfold Config.justOne at h
  split at h
  · rename_i p' hf
    have hm : ∀ q ∈ c.store.policies, q.name = p.name → q = p' := by
      intro q hq hn
      have : q ∈ findPolicy c p.name := by
        unfold findPolicy
        rw [List.mem_filter]
        exact ⟨hq, by simpa using hn⟩
      rwa [hf, List.mem_singleton] at this
    obtain rfl := hm p hp rfl
    obtain ⟨s', h1, h2, h3, h4, h5⟩ := withPolicies_part G (ps := [p]) (List.singleton_sublist.2 hp)
    rw [h, Option.some.injEq] at h1
    subst h1
    exact ⟨h2, ⟨h3, h4, by rw [← h5]; exact h2.built⟩, h5, hm⟩
  · simp at h

theorem Only.solid {c s : Config C S} {p : Policy C S} (O : Only c p s) (hh : ∀ e, N.Q.mem e c.peers.heps = false) : s.Solid N := by
  right
  unfold effectiveLayers
  have ht : N.Q.truthy s.peers.heps = false := by
    rw [O.peers, ← Bool.not_eq_true, N.Q.truthy_iff]
    rintro ⟨e, he⟩
    rw [hh e] at he
    simp at he
  rw [ht, single_layers O.store]
  simp

theorem single_denied (L : N.Lawful Ok Strong Wide) {c s : Config C S} {p : Policy C S} (O : Only c p s) (G : s.Good N Ok Strong) (x : P) :
    Ok (s.conns N (some (layerOf p.kind)) ConnFilter.onlyDenied).denied ∧
    (N.K.mem x (s.conns N (some (layerOf p.kind)) ConnFilter.onlyDenied).denied = true ↔ p.denies N x) := by
  have hl := single_layers O.store
  have hps : s.store.policies = [p] := (build_built _ O.store).policies
  have hc : s.conns N (some (layerOf p.kind)) ConnFilter.onlyDenied = layerConns N.toNet (layerOf p.kind) [p] s.peers ConnFilter.onlyDenied := by
    unfold Config.conns configLayerConns
    dsimp only
    rw [hl]
    simp
  have h := (layerConns_spec L.net (layerOf p.kind) [p] (fun q hq => G.legal.legal q (by rw [hps]; exact hq))
    (by have := G.legal.exact; rwa [hps] at this) s.peers ConnFilter.onlyDenied).2.2.1 rfl
  rw [hc]
  refine ⟨h.1, ?_⟩
  rw [h.2 x]
  have hv : ∀ dir, layerVerdict N.toNet [p] dir x = some .deny ↔ p.captures N.toNet dir (endpoint N.toNet dir x) = true ∧ p.ruleVerdict N.toNet dir x = some .deny := by
    intro dir
    unfold layerVerdict
    rw [List.findSome?_cons]
    cases hcap : p.captures N.toNet dir (endpoint N.toNet dir x) with
    | false => simp
    | true =>
      simp only [if_true, true_and]
      cases p.ruleVerdict N.toNet dir x <;> simp
  rw [hv, hv]
  unfold Policy.denies
  rw [Bool.exists_bool, or_comm]

theorem peers_any {pss : List (RulePeers S)} : pss.any (fun ps => ps.all (fun s => N.Q.truthy s)) = true ↔ ∃ (i : Nat) (ps : RulePeers S), pss[i]? = some ps ∧ ∀ s ∈ ps, ¬ Nobody N s := by
  have hp : ∀ ps : RulePeers S, ps.all (fun s => N.Q.truthy s) = true ↔ ∀ s ∈ ps, ¬ Nobody N s := by
    intro ps
    rw [List.all_eq_true]
    refine forall_congr' (fun s => forall_congr' (fun _ => ?_))
    rw [← truthy_nobody, Bool.not_eq_true', Bool.not_eq_false]
  rw [List.any_eq_true]
  constructor
  · rintro ⟨ps, h1, h2⟩
    obtain ⟨i, hi⟩ := List.getElem?_of_mem h1
    exact ⟨i, ps, hi, (hp ps).1 h2⟩
  · rintro ⟨i, ps, h1, h2⟩
    exact ⟨ps, List.mem_of_getElem? h1, (hp ps).2 h2⟩

/-- The tests for rules that allow and deny. -/
theorem hasRules_iff {e : EPolicy C S} (T : e.Tied N) (hk : e.pol.kind ≠ .istioSidecar ∧ e.pol.kind ≠ .ingress ∧ e.pol.kind ≠ .gateway) :
    (hasAllowRules N e = true ↔ e.acts N .allow) ∧ (hasDenyRules N e = true ↔ e.acts N .deny) := by
  have rule : ∀ (dir : Bool) (i : Nat) (ps : RulePeers S), (e.dirPeers dir)[i]? = some ps → ∃ r, (e.pol.rules dir)[i]? = some r := by
    intro dir i ps h
    have hl := (List.getElem?_eq_some_iff.1 h).1
    have : i < (e.pol.rules dir).length := by
      cases dir
      · have := T.lengthEg
        unfold EPolicy.dirPeers at hl
        unfold Policy.rules
        simp at hl ⊢
        omega
      · have := T.lengthIn
        unfold EPolicy.dirPeers at hl
        unfold Policy.rules
        simp at hl ⊢
        omega
    exact ⟨_, List.getElem?_eq_getElem this⟩
  have fixed : ∀ b, (∀ r, e.pol.ruleAct r = b) → ∀ a, e.acts N a ↔ a = b ∧ ∃ (dir : Bool) (i : Nat) (ps : RulePeers S), (e.dirPeers dir)[i]? = some ps ∧ ∀ s ∈ ps, ¬ Nobody N s := by
    intro b hb a
    unfold EPolicy.acts
    constructor
    · rintro ⟨dir, i, r, ps, _, h2, h3, h4⟩
      exact ⟨by rw [← h3, hb], dir, i, ps, h2, h4⟩
    · rintro ⟨rfl, dir, i, ps, h2, h4⟩
      obtain ⟨r, hr⟩ := rule dir i ps h2
      exact ⟨dir, i, r, ps, hr, h2, hb r, h4⟩
  have calico : e.pol.isCalico = true → ∀ a, (rulesWithAction N a e.pol.ingressRules e.ingressPeers || rulesWithAction N a e.pol.egressRules e.egressPeers) = true ↔ e.acts N a := by
    intro hc a
    have hact : ∀ r, e.pol.ruleAct r = r.action := by
      intro r
      unfold Policy.isCalico at hc
      unfold Policy.ruleAct
      cases hk : e.pol.kind <;> rw [hk] at hc <;> simp at hc ⊢
    rw [Bool.or_eq_true, rulesWithAction_iff, rulesWithAction_iff]
    unfold EPolicy.acts
    simp only [hact, Bool.exists_bool]
    exact or_comm
  unfold hasAllowRules hasDenyRules
  cases hkk : e.pol.kind
  case k8s =>
    have f := fixed .allow (fun r => by unfold Policy.ruleAct; rw [hkk])
    dsimp only
    rw [f, f, Bool.or_eq_true, peers_any, peers_any, Bool.exists_bool]
    exact ⟨⟨fun h => ⟨rfl, h.symm⟩, fun h => h.2.symm⟩, by simp⟩
  case istioAuthz =>
    dsimp only
    have hno : ∀ i : Nat, ∀ ps, (e.dirPeers false)[i]? ≠ some ps := by
      intro i ps h
      obtain ⟨r, hr⟩ := rule false i ps h
      have : e.pol.rules false = [] := T.shaped.1 hkk
      rw [this] at hr
      simp at hr
    cases ha : e.pol.action
    case allow =>
      have f := fixed .allow (fun r => by unfold Policy.ruleAct; rw [hkk]; dsimp only; rw [ha])
      rw [f, f, Bool.exists_bool, Bool.and_eq_true, Bool.and_eq_true, peers_any]
      refine ⟨⟨fun h => ⟨rfl, Or.inr h.2⟩, fun h => ⟨by simp, h.2.resolve_left ?_⟩⟩, by simp⟩
      rintro ⟨i, ps, h, _⟩
      exact hno i ps h
    case deny =>
      have f := fixed .deny (fun r => by unfold Policy.ruleAct; rw [hkk]; dsimp only; rw [ha])
      rw [f, f, Bool.exists_bool, Bool.and_eq_true, Bool.and_eq_true, peers_any]
      refine ⟨by simp, ⟨fun h => ⟨rfl, Or.inr h.2⟩, fun h => ⟨by simp, h.2.resolve_left ?_⟩⟩⟩
      rintro ⟨i, ps, h, _⟩
      exact hno i ps h
  case istioSidecar => exact absurd hkk hk.1
  case ingress => exact absurd hkk hk.2.1
  case gateway => exact absurd hkk hk.2.2
  all_goals
    have hc : e.pol.isCalico = true := by unfold Policy.isCalico; rw [hkk]
    exact ⟨calico hc _, calico hc _⟩

theorem allowLoop_spec {excl : Bool} {c : Config C S} {p : Policy C S} {single : Config C S} : ∀ {qs : List (Policy C S)} {q : Policy C S},
    allowLoop N excl c p single qs = some (some q) →
    q ∈ qs ∧ policyEq N q p = false ∧ subsetOf N p.selected q.selected = true ∧ ∃ t, c.justOne q.name = some t ∧ (containQuery N excl false true single t).bool = true
  | [], q, h => by simp [allowLoop] at h
  | x :: qs, q, h => by
    have step : allowLoop N excl c p single qs = some (some q) → q ∈ x :: qs ∧ policyEq N q p = false ∧ subsetOf N p.selected q.selected = true ∧
        ∃ t, c.justOne q.name = some t ∧ (containQuery N excl false true single t).bool = true := by
      intro h
      obtain ⟨h1, h2⟩ := allowLoop_spec h
      exact ⟨List.mem_cons_of_mem _ h1, h2⟩
    unfold allowLoop at h
    split at h
    · simp at h
    · split at h
      · exact step h
      · rename_i he
        split at h
        · exact step h
        · rename_i hs
          obtain ⟨t, ht, h⟩ := Option.bind_eq_some_iff.1 h
          split at h
          · rename_i hc
            simp only [Option.some.injEq] at h
            subst h
            exact ⟨by simp, by simpa using he, by simpa using hs, t, ht, hc⟩
          · exact step h

theorem denyLoop_spec {ep : Policy C S → EPolicy C S} {c : Config C S} {n : LayerName} {p : Policy C S} {single : Config C S} :
    ∀ {qs : List (Policy C S)} {q : Policy C S}, denyLoop N ep c n p single qs = some (some q) →
    q ∈ qs ∧ policyEq N q p = false ∧ ∃ t, c.justOne q.name = some t ∧ denyContained N single t n = true
  | [], q, h => by simp [denyLoop] at h
  | x :: qs, q, h => by
    have step : denyLoop N ep c n p single qs = some (some q) → q ∈ x :: qs ∧ policyEq N q p = false ∧
        ∃ t, c.justOne q.name = some t ∧ denyContained N single t n = true := by
      intro h
      obtain ⟨h1, h2⟩ := denyLoop_spec h
      exact ⟨List.mem_cons_of_mem _ h1, h2⟩
    unfold denyLoop at h
    split at h
    · simp at h
    · split at h
      · exact step h
      · rename_i he
        split at h
        · exact step h
        · obtain ⟨t, ht, h⟩ := Option.bind_eq_some_iff.1 h
          split at h
          · rename_i hc
            simp only [Option.some.injEq] at h
            subst h
            exact ⟨by simp, by simpa using he, t, ht, hc⟩
          · exact step h

theorem policyEq_name {p q : Policy C S} (h : policyEq N p q = true) : p.name = q.name := by
  unfold policyEq at h
  simp only [Bool.and_eq_true, decide_eq_true_eq] at h
  exact h.1.1.1.1.1.1.1.1.2

/-- C66, reasons for policies: the reason given for the redundancy of a policy is right.  A policy named as
the reason is another policy of the layer; alone it allows whatever the redundant policy alone explicitly
allows, and it denies whatever the redundant policy denies, as far as the redundant policy has rules that
allow and that deny.
Full statement: also for sidecars and in clusters with host endpoints.  Missing: the text says of every
redundant sidecar that changes something that it has no rules (`C66_sidecar_text_wrong`); host endpoints as in
`C32_containment_partial`.  A reason may also be missing (`C66_reason_missing_wrong`). -/
theorem C66_policy_reason_partial (L : N.Lawful Ok Strong Wide) (excl : Bool) {ep : Policy C S → EPolicy C S} (hep : ∀ p, (ep p).pol = p) {c : Config C S}
    (G : c.Good N Ok Strong) (hh : ∀ e, N.Q.mem e c.peers.heps = false) {n : LayerName} {p : Policy C S} (T : (ep p).Tied N)
    (hp : p ∈ c.store.policies) (hn : layerOf p.kind = n) (hk : p.kind ≠ .istioSidecar ∧ p.kind ≠ .ingress ∧ p.kind ≠ .gateway)
    {w : PolicyWhy C S} (h : policyWhy N excl ep c n p = some w) : w.Right N excl ep c n p := by
  subst hn
  obtain ⟨ha, hd⟩ := hasRules_iff T (by rw [hep]; exact hk)
  unfold policyWhy at h
  obtain ⟨s, hs, h⟩ := Option.bind_eq_some_iff.1 h
  obtain ⟨v, hv, h⟩ := Option.bind_eq_some_iff.1 h
  obtain ⟨Gs, O, hsp, huniq⟩ := justOne_only G hp hs
  have sol := O.solid hh
  have hother : ∀ q, q ∈ layerList c.store.layers (layerOf p.kind) → policyEq N q p = false → Other c (layerOf p.kind) p q := by
    intro q hq he
    obtain ⟨h1, h2⟩ := (G.B.mem_list _ q).1 hq
    refine ⟨h1, h2, ?_⟩
    rintro rfl
    rw [policyEq_refl L (G.legal1 h1).1 (G.legal1 h1).2] at he
    simp at he
  have allowed : ∀ q, allowLoop N excl c p s (layerList c.store.layers (layerOf p.kind)) = some (some q) →
      Other c (layerOf p.kind) p q ∧ AllowsWithin N excl c p q ∧ ∀ q' ∈ c.store.policies, q'.name = q.name → q' = q := by
    intro q hq
    obtain ⟨h1, h2, h3, t, h4, h5⟩ := allowLoop_spec hq
    have ho := hother q h1 h2
    obtain ⟨Gt, Ot, _, hu⟩ := justOne_only G ho.1 h4
    refine ⟨ho, ⟨subsetOf_iff.1 h3, fun s' t' O' Ot' x hx he => ?_⟩, hu⟩
    rw [← O.unique O'] at he
    rw [← Ot.unique Ot']
    have hka : KindsAgree N s t := fun e he => by rw [Ot.peers, ← O.peers]; exact (Gs.world.work_ip he).2
    have hc : CompareOk N true s := ⟨Or.inr (by rw [single_layers O.store]; simp), fun e => by rw [O.peers]; exact hh e⟩
    exact ((C32_containment_partial L excl false true Gs Gt hc (Ot.solid hh) hka).1.1 h5).2 x (by rw [O.peers]; exact hx) he
  have denied : ∀ q, denyLoop N ep c (layerOf p.kind) p s (layerList c.store.layers (layerOf p.kind)) = some (some q) →
      Other c (layerOf p.kind) p q ∧ DeniesWithin N p q := by
    intro q hq
    obtain ⟨h1, h2, t, h4, h5⟩ := denyLoop_spec hq
    have ho := hother q h1 h2
    obtain ⟨Gt, Ot, _, _⟩ := justOne_only G ho.1 h4
    refine ⟨ho, fun x hx => ?_⟩
    unfold denyContained at h5
    have d1 := single_denied L O Gs x
    have d2 := single_denied L Ot Gt x
    rw [ho.2.1] at d2
    exact d2.2.1 ((L.net.contained_iff d1.1 d2.1).1 h5 x (d1.2.2 hx))
  split at h
  · rename_i hvt
    subst hvt
    rw [Option.some.injEq] at h
    subst h
    intro s' O' x hx
    rw [← O.unique O']
    have hng : NoGateways s s := by
      refine ⟨rfl, rfl, ?_⟩
      rw [hsp, List.filter_cons_of_pos (by simpa using hk.2)]
      exact O.store
    obtain ⟨b, h1, _, h2⟩ := C35_vacuity_partial (Canon := fun _ => True) L excl Gs (fun g hg => by rw [← hng.unique hg]; exact sol)
    rw [hv, Option.some.injEq] at h1
    have := (h2 s hng).1 h1.symm x (by rw [O.peers]; exact hx)
    rwa [O.peers] at this
  · dsimp only at h
    generalize hasAllowRules N (ep p) = a at *
    generalize hasDenyRules N (ep p) = d at *
    split at h
    · rename_i hz
      rw [Option.some.injEq] at h
      subst h
      change _ ∧ _
      rw [← ha, ← hd]
      revert hz
      cases a <;> cases d <;> simp
    · obtain ⟨qa, hqa, h⟩ := Option.bind_eq_some_iff.1 h
      obtain ⟨qd, hqd, h⟩ := Option.map_eq_some_iff.1 h
      cases a <;> cases d
      case isFalse.isFalse.false.false => simp_all
      case isFalse.isFalse.true.false =>
        cases qa with
        | none => simp at h; subst h; trivial
        | some q =>
          simp at h
          subst h
          obtain ⟨h1, h2, _⟩ := allowed q (by simpa using hqa)
          exact ⟨h1, Or.inl (ha.1 rfl), fun _ => h2, fun hx => absurd (hd.2 hx) (by simp)⟩
      case isFalse.isFalse.false.true =>
        cases qd with
        | none => simp at h; subst h; trivial
        | some q =>
          simp at h
          subst h
          obtain ⟨h1, h2⟩ := denied q (by simpa using hqd)
          exact ⟨h1, Or.inr (hd.1 rfl), fun hx => absurd (ha.2 hx) (by simp), fun _ => h2⟩
      case isFalse.isFalse.true.true =>
        cases qa with
        | none => simp at h; subst h; trivial
        | some x =>
          cases qd with
          | none => simp at h; subst h; trivial
          | some y =>
            obtain ⟨h1, h2, h3⟩ := allowed x (by simpa using hqa)
            obtain ⟨h4, h5⟩ := denied y (by simpa using hqd)
            cases hxy : policyEq N y x with
            | true =>
              simp [hxy] at h
              subst h
              have : y = x := by
                exact h3 y h4.1 (policyEq_name hxy)
              subst this
              exact ⟨h1, Or.inl (ha.1 rfl), fun _ => h2, fun _ => h5⟩
            | false =>
              simp [hxy] at h
              subst h
              refine ⟨h1, h4, ?_, ha.1 rfl, hd.1 rfl, h2, h5⟩
              rintro rfl
              rw [policyEq_refl L (G.legal1 h1.1).1 (G.legal1 h1.1).2] at hxy
              simp at hxy

/-! ### The query answers -/

theorem mapM_isSome {α β : Type} {f : α → Option β} {l : List α} (h : ∀ x ∈ l, ∃ y, f x = some y) : ∃ ys, l.mapM f = some ys := by
  induction l with
  | nil => exact ⟨[], rfl⟩
  | cons x l ih =>
    obtain ⟨y, hy⟩ := h x (by simp)
    obtain ⟨ys, hys⟩ := ih (fun z hz => h z (by simp [hz]))
    exact ⟨y :: ys, by rw [List.mapM_cons, hy, hys]; rfl⟩

theorem UniqueNames.eq {c : Config C S} (hu : UniqueNames c) {p q : Policy C S} (hp : p ∈ c.store.policies) (hq : q ∈ c.store.policies)
    (h : p.name = q.name) : p = q := List.inj_on_of_nodup_map hu hp hq h

theorem allowLoop_some {excl : Bool} {c : Config C S} (G : c.Good N Ok Strong) (hu : UniqueNames c) {p : Policy C S} {single : Config C S} :
    ∀ {qs : List (Policy C S)}, (∀ q ∈ qs, q ∈ c.store.policies) → ∃ r, allowLoop N excl c p single qs = some r
  | [], _ => ⟨none, rfl⟩
  | x :: qs, h => by
    obtain ⟨r, hr⟩ := allowLoop_some (excl := excl) G hu (p := p) (single := single) (qs := qs) (fun q hq => h q (by simp [hq]))
    obtain ⟨t, ht, _⟩ := justOne_spec G hu (h x (by simp))
    unfold allowLoop
    rw [ht, Option.bind_some, hr]
    split
    · exact ⟨_, rfl⟩
    · split
      · exact ⟨_, rfl⟩
      · split
        · exact ⟨_, rfl⟩
        · split <;> exact ⟨_, rfl⟩

theorem denyLoop_some {ep : Policy C S → EPolicy C S} {c : Config C S} (G : c.Good N Ok Strong) (hu : UniqueNames c) {n : LayerName} {p : Policy C S}
    {single : Config C S} : ∀ {qs : List (Policy C S)}, (∀ q ∈ qs, q ∈ c.store.policies) → ∃ r, denyLoop N ep c n p single qs = some r
  | [], _ => ⟨none, rfl⟩
  | x :: qs, h => by
    obtain ⟨r, hr⟩ := denyLoop_some (ep := ep) G hu (n := n) (p := p) (single := single) (qs := qs) (fun q hq => h q (by simp [hq]))
    obtain ⟨t, ht, _⟩ := justOne_spec G hu (h x (by simp))
    unfold denyLoop
    rw [ht, Option.bind_some, hr]
    split
    · exact ⟨_, rfl⟩
    · split
      · exact ⟨_, rfl⟩
      · split
        · exact ⟨_, rfl⟩
        · split <;> exact ⟨_, rfl⟩

theorem containLoop_some {p : Policy C S} {dir : Bool} {i : Nat} {r : Rule C} : ∀ {qs : List (Policy C S)},
    (∀ q ∈ qs, p.kind = .k8s → q.isCalico = false) → ∃ f, containLoop N p dir i r qs = some f
  | [], _ => ⟨none, rfl⟩
  | x :: qs, h => by
    obtain ⟨f, hf⟩ := containLoop_some (dir := dir) (i := i) (r := r) (qs := qs) (fun q hq => h q (by simp [hq]))
    have hx : ∃ y, ruleContaining N x p dir i r = some y := by
      have hc := h x (by simp)
      unfold Policy.isCalico at hc
      unfold ruleContaining
      cases hk : x.kind <;> rw [hk] at hc <;> simp only [] at hc ⊢
      case k8s | istioAuthz => split <;> exact ⟨_, rfl⟩
      case istioSidecar | ingress | gateway => exact ⟨_, rfl⟩
      all_goals
        split
        · exact ⟨_, rfl⟩
        · rw [if_neg (fun h => by simpa using hc h)]
          exact ⟨_, rfl⟩
    obtain ⟨y, hy⟩ := hx
    unfold containLoop
    rw [hy, Option.bind_some, hf]
    split
    · exact ⟨_, rfl⟩
    · cases y <;> exact ⟨_, rfl⟩

/-- C66, answers: the query answers if no two policies share a full name and there are not both Kubernetes
and Calico policies.
Full statement: for every configuration.  Missing: both cases raise exceptions (`C66_name_wrong`,
`C66_crash_wrong`). -/
theorem C66_answers_partial (L : N.Lawful Ok Strong Wide) (excl : Bool) (ep : Policy C S → EPolicy C S) {c : Config C S} (G : c.Good N Ok Strong)
    (hd : ∀ p ∈ c.store.policies, p.Shaped) (hu : UniqueNames c)
    (hm : ∀ p ∈ c.store.policies, ∀ q ∈ c.store.policies, p.kind = .k8s → q.isCalico = false) :
    ∃ a, sanityQuery N excl ep c = some a := by
  have ht : ∀ p ∈ c.store.policies, NoTwin c p := fun p hp q hq hn _ => by rw [hu.eq hq hp hn]
  have inl : ∀ n, ∀ q ∈ layerList c.store.layers n, q ∈ c.store.policies := fun n q hq => ((G.B.mem_list n q).1 hq).1
  have why : ∀ n, ∀ p ∈ c.store.policies, ∃ w, policyWhy N excl ep c n p = some w := by
    intro n p hp
    obtain ⟨s, hs, Gs, _⟩ := justOne_spec G hu hp
    obtain ⟨g, hg, _⟩ := vacuity_ex Gs
    have hv : vacuityQuery N excl s = some (equivQuery N excl none g s.withoutPolicies).bool := by
      unfold vacuityQuery
      rw [hg]
      rfl
    obtain ⟨ra, hra⟩ := allowLoop_some (excl := excl) G hu (p := p) (single := s) (inl n)
    obtain ⟨rd, hrd⟩ := denyLoop_some (ep := ep) G hu (n := n) (p := p) (single := s) (inl n)
    unfold policyWhy
    rw [hs, Option.bind_some, hv, Option.bind_some, hra, hrd]
    dsimp only
    generalize hasAllowRules N (ep p) = a
    generalize hasDenyRules N (ep p) = d
    split
    · exact ⟨_, rfl⟩
    · cases a <;> cases d <;> cases ra <;> simp
  have rules : ∀ n p, p ∈ c.store.policies → ∀ dir em red, ∃ is, ruleIssues N c n p dir em red = some is := by
    intro n p hp dir em red
    unfold ruleIssues
    refine mapM_isSome (fun i hi => ?_)
    obtain ⟨hi, _⟩ := List.mem_filter.1 hi
    obtain ⟨j, hj, rfl⟩ := List.mem_map.1 hi
    rw [List.mem_range] at hj
    obtain ⟨f, hf⟩ := containLoop_some (N := N) (p := p) (dir := dir) (i := j + 1) (r := (p.dirRules dir)[j]) (qs := layerList c.store.layers n)
      (fun q hq hk => hm p hp q (inl n q hq) hk)
    refine ⟨Issue.redundantRule p dir (j + 1) f, ?_⟩
    unfold ruleWhy
    rw [Nat.add_sub_cancel, List.getElem?_eq_getElem hj, Option.bind_some, hf]
    rfl
  unfold sanityQuery
  split
  · exact ⟨_, rfl⟩
  · split
    · exact ⟨_, rfl⟩
    · obtain ⟨g, hg, _⟩ := vacuity_ex G
      have hv : vacuityQuery N excl c = some (equivQuery N excl none g c.withoutPolicies).bool := by
        unfold vacuityQuery
        rw [hg]
        rfl
      rw [hv, Option.bind_some]
      generalize (equivQuery N excl none g c.withoutPolicies).bool = vac
      obtain ⟨iss, hi⟩ : ∃ iss, c.store.layers.mapM (layerIssues N excl ep c vac) = some iss := by
        refine mapM_isSome (fun l hl => ?_)
        have hl2 : l.2 = layerList c.store.layers l.1 := (layerList_of_mem G.B.distinct hl).symm
        unfold layerIssues
        split
        · exact ⟨_, rfl⟩
        · obtain ⟨rs, hrs, _⟩ := C34_policy_partial (Canon := fun _ => True) L excl G l.1 ht
          rw [hl2, hrs, Option.bind_some]
          obtain ⟨ys, hys⟩ : ∃ ys, (layerList c.store.layers l.1).mapM (policyIssues N excl ep c vac l.1 rs) = some ys := by
            refine mapM_isSome (fun p hp => ?_)
            have hpc := inl l.1 p hp
            unfold policyIssues
            split
            · exact ⟨_, rfl⟩
            · dsimp only
              split
              · exact ⟨_, rfl⟩
              · split
                · obtain ⟨w, hw⟩ := why l.1 p hpc
                  rw [hw]
                  exact ⟨_, rfl⟩
                · obtain ⟨ri, hri, _⟩ := C34_rule_partial (Canon := fun _ => True) L excl G hp (ht p hpc) (hd p hpc) true
                  obtain ⟨re, hre, _⟩ := C34_rule_partial (Canon := fun _ => True) L excl G hp (ht p hpc) (hd p hpc) false
                  rw [hri, hre, Option.bind_some, Option.bind_some]
                  obtain ⟨is, his⟩ := rules l.1 p hpc true (hasEmptyRules N (ep p)).1 ri
                  obtain ⟨js, hjs⟩ := rules l.1 p hpc false (hasEmptyRules N (ep p)).2 re
                  rw [his, hjs]
                  exact ⟨_, rfl⟩
          rw [hys]
          exact ⟨_, rfl⟩
      rw [hi]
      exact ⟨_, rfl⟩

end
end Verif
