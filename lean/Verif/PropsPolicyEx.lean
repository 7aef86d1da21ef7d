import Verif.PropsConfig
/-!
Non-vacuity examples for C24-C30 and counterexamples for the parts of these properties that the code
violates.
-/
namespace Verif
namespace Plain

/-! Peers: 0, 1, 2 workloads (2 may be a host endpoint), 3 a DNS entry, 4 an external address. -/

/-- A set of peers. -/
def set (l : List (Fin 5)) : Fin 5 → Bool := fun e => decide (e ∈ l)

/-- A rule. -/
def rule (a : RuleAction) (s d : List (Fin 5)) (k : ProtoSel := .any) : Rule (Pt → Bool) :=
  ⟨a, net.rect (some (set s)) (some (set d)) k⟩

def anyone : List (Fin 5) := [0, 1, 2, 3, 4]

/-- Peers without host endpoints. -/
def peers : Peers (Fin 5 → Bool) := ⟨set [0, 1, 2], set [], set [3], set [4]⟩
/-- Peers with a host endpoint. -/
def peersHep : Peers (Fin 5 → Bool) := ⟨set [0, 1], set [2], set [3], set [4]⟩

/-- A Calico policy with all four actions, order 10. -/
def cal : Policy (Pt → Bool) (Fin 5 → Bool) :=
  ⟨"cal", .calico, some 10, .allow, set [0, 1], true, true,
   [rule .deny [2] [0, 1], rule .log anyone [0, 1], rule .pass [1] [0, 1], rule .allow [0] [0, 1]],
   [rule .pass [0, 1] anyone]⟩
/-- Calico policies with unspecified order and with order 2000. -/
def calLast : Policy (Pt → Bool) (Fin 5 → Bool) :=
  ⟨"calLast", .calicoGlobal, none, .allow, set [0], true, false, [rule .deny anyone [0]], []⟩
def cal2000 : Policy (Pt → Bool) (Fin 5 → Bool) :=
  ⟨"cal2000", .calico, some 2000, .allow, set [0], true, false, [rule .allow anyone [0]], []⟩
/-- Kubernetes policies. -/
def k1 : Policy (Pt → Bool) (Fin 5 → Bool) :=
  ⟨"k1", .k8s, none, .allow, set [0, 1], true, false, [rule .allow [2] [0, 1] .tcp], []⟩
def k2 : Policy (Pt → Bool) (Fin 5 → Bool) :=
  ⟨"k2", .k8s, none, .allow, set [0], true, false, [rule .allow [4] [0]], []⟩
/-- Istio policies. -/
def den : Policy (Pt → Bool) (Fin 5 → Bool) :=
  ⟨"den", .istioAuthz, none, .deny, set [0], true, false, [rule .deny [1] [0] .tcp], []⟩
def alw : Policy (Pt → Bool) (Fin 5 → Bool) :=
  ⟨"alw", .istioAuthz, none, .allow, set [0], true, false, [rule .allow [1, 2] [0] .tcp], []⟩
def alwAll : Policy (Pt → Bool) (Fin 5 → Bool) :=
  ⟨"alwAll", .istioAuthz, none, .allow, set [0, 1, 2], true, false, [rule .allow [1, 2] [0, 1, 2] .tcp], []⟩
def sc : Policy (Pt → Bool) (Fin 5 → Bool) :=
  ⟨"sc", .istioSidecar, none, .allow, set [2], false, true, [], [rule .allow [2] [0]]⟩

/-- Decidable form of legality (every set of `Plain` may be subtracted from). -/
theorem legal_of (pol : Policy (Pt → Bool) (Fin 5 → Bool))
    (h : ∀ dir, ∀ r ∈ pol.rules dir, ∀ p ∈ pts, r.props p = true → pol.selected (if dir then p.2.1 else p.1) = true) :
    pol.Legal net (fun _ => True) := by
  refine ⟨fun _ _ _ => trivial, fun dir r hr p hm => ?_⟩
  have := h dir r hr p (mem_pts p) hm
  cases dir <;> exact this

theorem exact_of (pols : List (Policy (Pt → Bool) (Fin 5 → Bool))) :
    SubExact (fun _ : Pt → Bool => True) (fun _ => True) pols := Or.inl (fun _ _ => trivial)

theorem cal_legal : cal.Legal net (fun _ => True) := legal_of _ (by decide +kernel)
theorem calLast_legal : calLast.Legal net (fun _ => True) := legal_of _ (by decide +kernel)
theorem cal2000_legal : cal2000.Legal net (fun _ => True) := legal_of _ (by decide +kernel)
theorem k1_legal : k1.Legal net (fun _ => True) := legal_of _ (by decide +kernel)
theorem k2_legal : k2.Legal net (fun _ => True) := legal_of _ (by decide +kernel)
theorem den_legal : den.Legal net (fun _ => True) := legal_of _ (by decide +kernel)
theorem alw_legal : alw.Legal net (fun _ => True) := legal_of _ (by decide +kernel)
theorem alwAll_legal : alwAll.Legal net (fun _ => True) := legal_of _ (by decide +kernel)
theorem sc_legal : sc.Legal net (fun _ => True) := legal_of _ (by decide +kernel)

/-- A Calico configuration with Pass rules, a Kubernetes policy and Istio policies. -/
def mixed : List (Policy (Pt → Bool) (Fin 5 → Bool)) := [calLast, cal2000, k1, alw, cal, sc, den]

theorem mixed_legal : LegalPolicies net (fun _ => True) (fun _ => True) mixed := by
  refine ⟨fun pol h => ?_, exact_of _⟩
  simp only [mixed, List.mem_cons, List.not_mem_nil, or_false] at h
  rcases h with rfl | rfl | rfl | rfl | rfl | rfl | rfl
  · exact calLast_legal
  · exact cal2000_legal
  · exact k1_legal
  · exact alw_legal
  · exact cal_legal
  · exact sc_legal
  · exact den_legal

/-- C24 applies to the rules of `cal`; all four verdicts occur. -/
example : (net.K.mem (0, 1, true) (calicoSync net cal.ingressRules).allow = true ↔ FirstRule net cal.ingressRules (0, 1, true) .allow) ∧
    FirstRule net cal.ingressRules (0, 1, true) .allow ∧ FirstRule net cal.ingressRules (2, 1, true) .deny ∧
    FirstRule net cal.ingressRules (1, 0, true) .pass ∧ firstMatch net (4, 0, true) cal.ingressRules = none := by
  refine ⟨(C24_first_match_partial lawful _ (fun _ _ => trivial) (Or.inl fun _ _ => trivial) _).1, ?_, ?_, ?_, by decide +kernel⟩ <;>
  · rw [← firstMatch_iff]; decide +kernel

/-- C24: the verdict sets are disjoint and cover the matched connections, on the same rules. -/
example : ¬ (net.K.mem (0, 1, true) (calicoSync net cal.ingressRules).allow = true ∧
    net.K.mem (0, 1, true) (calicoSync net cal.ingressRules).deny = true) :=
  (C24_disjoint_partial lawful cal.ingressRules (fun _ _ => trivial) (Or.inl fun _ _ => trivial) (0, 1, true)).1
example : net.K.mem (1, 0, true) (calicoSync net cal.ingressRules).allow = true ∨ net.K.mem (1, 0, true) (calicoSync net cal.ingressRules).deny = true ∨
    net.K.mem (1, 0, true) (calicoSync net cal.ingressRules).pass = true :=
  (C24_decided_iff_matched_partial lawful cal.ingressRules (fun _ _ => trivial) (Or.inl fun _ _ => trivial) (1, 0, true)).2
    ⟨rule .pass [1] [0, 1], by simp [cal], by decide, by decide +kernel⟩
/-- C24: there is a Log rule to drop. -/
example : (cal.ingressRules.filter (fun r => decide (r.action ≠ .log))).length = 3 ∧
    calicoSync net cal.ingressRules = calicoSync net (cal.ingressRules.filter (fun r => decide (r.action ≠ .log))) :=
  ⟨by decide, C24_log_irrelevant _⟩

/-- C25: in the order [cal, k1, cal2000, calLast] the connections 0→0, 2→1 (TCP), 4→0 are decided by
the first, first, and third policy. -/
example : FirstPolicy net [cal, k1, cal2000, calLast] true (0, 0, true) .allow ∧ FirstPolicy net [cal, k1, cal2000, calLast] true (2, 1, true) .deny ∧
    net.K.mem (4, 0, false) (collect net true (fun _ => true) [cal, k1, cal2000, calLast]).allowed = true := by
  refine ⟨(layerVerdict_iff _ _ _ _).1 (by decide +kernel), (layerVerdict_iff _ _ _ _).1 (by decide +kernel), ?_⟩
  refine (C25_first_policy_partial lawful _ ?_ (exact_of _) true _ _).1.2 ((layerVerdict_iff _ _ _ _).1 (by decide +kernel))
  intro pol h
  simp only [List.mem_cons, List.not_mem_nil, or_false] at h
  rcases h with rfl | rfl | rfl | rfl
  · exact cal_legal
  · exact k1_legal
  · exact cal2000_legal
  · exact calLast_legal

/-- C25: a configuration is built from `mixed`; its Kubernetes/Calico layer is sorted. -/
example : (PolicyStore.build mixed).map (fun st => (layerList st.layers .k8sCalico).map (·.name)) = some ["cal", "k1", "cal2000", "calLast"] := by
  decide +kernel
example : ∃ st, PolicyStore.build mixed = some st ∧ RankSorted Policy.precedence (layerList st.layers .k8sCalico) := by
  obtain ⟨st, h⟩ := Option.isSome_iff_exists.1 (show (PolicyStore.build mixed).isSome = true by decide +kernel)
  exact ⟨st, h, (C25_precedence _ h).1⟩

/-- C25: the two verdicts of policies that are not Calico policies. -/
example : k1.ruleVerdict net true (2, 1, true) = some .allow ∧ den.ruleVerdict net true (1, 0, true) = some .deny := by decide +kernel
example : [some 3, none].length = 2 ∧ RankSorted id [some (3 : Int), none] ∧ ¬ RankSorted id [none, some (3 : Int)] := by
  refine ⟨rfl, ?_, ?_⟩ <;> simp [RankSorted, rankLt]

/-- C26: workload 2 is captured by no Kubernetes policy. -/
example : net.K.mem (0, 2, true) (layerXgress net .k8sCalico [k1] true peers ConnFilter.onlyAllAllowed).allAllowed = true :=
  C26_uncaptured_allowed_partial lawful [k1] (by simpa using k1_legal) (exact_of _) true peers _ rfl _ (Or.inl rfl) _
    (Or.inl (by decide)) (Or.inl (Or.inl (Or.inl (by decide)))) (by intro pol h; simp at h; subst h; decide)
/-- C26: workload 1 is captured; TCP from 2 is allowed, from 4 it is not. -/
example : net.K.mem (2, 1, true) (layerXgress net .k8sCalico [k1] true peers ConnFilter.onlyAllAllowed).allAllowed = true ∧
    net.K.mem (4, 1, true) (layerXgress net .k8sCalico [k1] true peers ConnFilter.onlyAllAllowed).allAllowed = false := by
  have h := fun p hc => C26_captured_exact_partial lawful [k1] (by simpa using k1_legal) (exact_of _) true peers ConnFilter.onlyAllAllowed rfl
    .k8sCalico (Or.inl rfl) p hc
  refine ⟨(h _ ⟨k1, by simp, by decide⟩).2 (Or.inl ((layerVerdict_iff _ _ _ _).1 (by decide +kernel))), ?_⟩
  rw [← Bool.not_eq_true, h _ ⟨k1, by simp, by decide⟩, ← layerVerdict_iff, ← layerVerdict_iff]
  rintro (h | h)
  · exact absurd h (by decide +kernel)
  · exact absurd h.1 (by decide +kernel)
/-- C26: the uncaptured host endpoint 2. -/
example : net.K.mem (0, 2, true) (layerXgress net .k8sCalico [k1] true peersHep ConnFilter.onlyAllAllowed).allAllowed = false :=
  C26_host_endpoint_default_deny_partial lawful [k1] (by simpa using k1_legal) (exact_of _) true peersHep _ rfl _
    (by simp [Peers.hasDefault, peersHep, net, set, endpoint]) (by intro pol h; simp at h; subst h; decide)
/-- C26, Istio: 1 is not captured, 0 is captured by `alw`. -/
example : net.K.mem (0, 1, true) (layerXgress net .istio [den, alw] true peers ConnFilter.onlyAllAllowed).allAllowed = true ∧
    net.K.mem (4, 0, true) (layerXgress net .istio [den, alw] true peers ConnFilter.onlyAllAllowed).allAllowed = false := by
  have hl : ∀ pol ∈ [den, alw], pol.Legal net (fun _ => True) := by
    intro pol h; simp at h; rcases h with rfl | rfl
    · exact den_legal
    · exact alw_legal
  constructor
  · refine (C26_istio_uncaptured_partial lawful _ hl (exact_of _) true peers _ rfl .istio (Or.inl rfl) _ (fun _ => Or.inr (by decide)) ?_ ?_).2 (Or.inl ?_)
    · intro pol h _; simp at h; rcases h with rfl | rfl <;> decide
    · simp only [istioDefault, if_true]
      exact ⟨Or.inl (Or.inl (by decide)), Or.inl (Or.inl (by decide))⟩
    · rw [← layerVerdict_iff]; decide +kernel
  · rw [← Bool.not_eq_true, C26_istio_captured_partial lawful _ hl (exact_of _) true peers _ rfl .istio (Or.inl rfl) _ (fun _ => Or.inr (by decide))
      ⟨alw, by simp, fun _ => rfl, by decide⟩, ← layerVerdict_iff]
    rintro (h | h)
    · exact absurd h (by decide +kernel)
    · exact absurd h.1 (by decide)

/-- C26 is violated for DNS destinations: the only policy captures the three workloads on ingress and
nothing captures the DNS entry 3; TCP from 0 to 3 is of the default kind and not denied, yet the layer
does not allow it.  Without the policy on workload 2 it does. -/
theorem C26_dns_default_lost :
    istioOpen net [alwAll] true (endpoint net true ((0, 3, true) : Pt)) ∧ istioDefault net peers true (0, 3, true) ∧
    layerVerdict net [alwAll] true (0, 3, true) = none ∧
    net.K.mem (0, 3, true) (layerXgress net .istio [alwAll] true peers ConnFilter.onlyAllAllowed).allAllowed = false ∧
    net.K.mem (0, 3, true) (layerXgress net .istio [alw] true peers ConnFilter.onlyAllAllowed).allAllowed = true := by
  refine ⟨?_, ?_, by decide +kernel, by decide +kernel, by decide +kernel⟩
  · intro pol h _; simp at h; subst h; decide
  · simp only [istioDefault, if_true]
    exact ⟨Or.inl (Or.inl (by decide)), Or.inr ⟨by decide, by decide⟩⟩

/-- … and so the whole configuration forbids what it should allow. -/
theorem C26_dns_default_lost_config :
    (PolicyStore.build [alwAll]).map (fun st => net.K.mem (0, 3, true) (configConns net peers st.layers ConnFilter.onlyAllAllowed).allAllowed) = some false ∧
    (PolicyStore.build [alw]).map (fun st => net.K.mem (0, 3, true) (configConns net peers st.layers ConnFilter.onlyAllAllowed).allAllowed) = some true := by
  constructor <;> decide +kernel

/-- C27: both orders of two Kubernetes policies; 2→0 is allowed by `k1`, 4→0 by `k2`, 1→0 by none. -/
example : ∃ st st', PolicyStore.build [k1, k2] = some st ∧ PolicyStore.build [k2, k1] = some st' ∧
    (∀ p, net.K.mem p (configConns net peers st.layers ConnFilter.onlyAllAllowed).allAllowed =
      net.K.mem p (configConns net peers st'.layers ConnFilter.onlyAllAllowed).allAllowed) ∧
    net.K.mem (2, 0, true) (configConns net peers st.layers ConnFilter.onlyAllAllowed).allAllowed = true := by
  obtain ⟨st, h⟩ := Option.isSome_iff_exists.1 (show (PolicyStore.build [k1, k2]).isSome = true by decide +kernel)
  obtain ⟨st', h'⟩ := C27_order_accepted [k1, k2] [k2, k1] (List.Perm.swap _ _ _) h
  have hk : ∀ pol ∈ [k1, k2], pol.kind = .k8s := by intro pol h; simp at h; rcases h with rfl | rfl <;> rfl
  have hl : ∀ pol ∈ [k1, k2], pol.Legal net (fun _ => True) := by
    intro pol h; simp at h; rcases h with rfl | rfl
    · exact k1_legal
    · exact k2_legal
  refine ⟨st, st', h, h', fun p => C27_order_irrelevant lawful _ _ (List.Perm.swap _ _ _) hk hl h h' peers _ rfl (Or.inl rfl) p, ?_⟩
  refine (C27_additive lawful _ hk hl h peers _ rfl (Or.inl rfl) _).2 ⟨?_, ?_, Or.inl (Or.inl ⟨k1, by simp, by decide, _, List.mem_singleton.2 rfl, by decide +kernel⟩), Or.inl (Or.inr ⟨?_, ?_, ?_⟩)⟩
  · exact Or.inl (Or.inl (Or.inl (by decide)))
  · exact Or.inl (Or.inl (Or.inl (by decide)))
  · intro pol h; simp at h; rcases h with rfl | rfl <;> decide
  · exact Or.inl (by decide)
  · exact Or.inl (Or.inl (Or.inl (by decide)))
/-- C27: `k2` captures only what `k1` captures. -/
example : ∀ dir (e : Fin 5), k2.captures net dir e = true → ∃ pol ∈ [k1], pol.captures net dir e = true := by decide +kernel
/-- C27: the hypothesis matters: `k1` captures 1, which `k2` does not, and 4→1 is lost. -/
example : (PolicyStore.build [k2]).map (fun st => net.K.mem (4, 1, true) (configConns net peers st.layers ConnFilter.onlyAllAllowed).allAllowed) = some true ∧
    (PolicyStore.build [k2, k1]).map (fun st => net.K.mem (4, 1, true) (configConns net peers st.layers ConnFilter.onlyAllAllowed).allAllowed) = some false := by
  constructor <;> decide +kernel

/-- C28: 1→0 is matched by `den` and by `alw`; the queue gives the sidecar before the DENY policy. -/
example : ∃ st, PolicyStore.build (loadOrder [alw, sc, k1, den]) = some st ∧
    net.K.mem (1, 0, true) (configConns net peers st.layers ConnFilter.onlyAllAllowed).allAllowed = false ∧
    net.K.mem (1, 0, true) (configConns net peers st.layers ConnFilter.onlyDenied).denied = true := by
  obtain ⟨st, h⟩ := Option.isSome_iff_exists.1 (show (PolicyStore.build (loadOrder [alw, sc, k1, den])).isSome = true by decide +kernel)
  have hl : LegalPolicies net (fun _ => True) (fun _ => True) (loadOrder [alw, sc, k1, den]) := by
    refine ⟨fun pol h => ?_, exact_of _⟩
    have : pol ∈ [alw, k1, den, sc] := h
    simp only [List.mem_cons, List.not_mem_nil, or_false] at this
    rcases this with rfl | rfl | rfl | rfl
    · exact alw_legal
    · exact k1_legal
    · exact den_legal
    · exact sc_legal
  have hm : AuthzMatch net [alw, sc, k1, den] .deny (1, 0, true) :=
    ⟨den, by simp, rfl, rfl, by decide, _, List.mem_singleton.2 rfl, by decide +kernel⟩
  exact ⟨st, h, (C28_deny_overrides_partial lawful _ hl h peers _ _ rfl hm (by decide)).1 rfl (Or.inl rfl),
    (C28_deny_overrides_partial lawful _ hl h peers _ _ rfl hm (by decide)).2 rfl (by decide) (by decide)⟩

/-- C28 depends on the loader adding sidecars last: through the insertion interface itself, a DENY
policy added after an ALLOW policy and a sidecar ends up last and does not override. -/
theorem C28_insertion_order_wrong :
    AuthzMatch net [alw, sc, den] .deny (1, 0, true) ∧
    (PolicyStore.build [alw, sc, den]).map (fun st => (layerList st.layers .istio).map (·.name)) = some ["alw", "sc", "den"] ∧
    (PolicyStore.build [alw, sc, den]).map (fun st => net.K.mem (1, 0, true) (configConns net peers st.layers ConnFilter.onlyAllAllowed).allAllowed) = some true := by
  refine ⟨⟨den, by simp, rfl, rfl, by decide, _, List.mem_singleton.2 rfl, by decide +kernel⟩, ?_, ?_⟩ <;> decide +kernel

/-- C29 on `mixed`: 0→1 is allowed by both layers; 2→0 (TCP) is denied by the Calico layer. -/
example : ∃ st, PolicyStore.build mixed = some st ∧
    net.K.mem (0, 1, true) (configConns net peers st.layers ConnFilter.default).allAllowed = true ∧
    net.K.mem (2, 0, true) (configConns net peers st.layers ConnFilter.default).denied = true ∧
    (net.K.mem (0, 1, true) (configConns net peers st.layers ConnFilter.default).allAllowed = true ↔
      peers.known net 0 ∧ peers.known net 1 ∧ ∀ n, Present net mixed peers n → layerAllows net n (layerList st.layers n) peers (0, 1, true)) := by
  obtain ⟨st, h⟩ := Option.isSome_iff_exists.1 (show (PolicyStore.build mixed).isSome = true by decide +kernel)
  have h1 : (PolicyStore.build mixed).map (fun st => net.K.mem (0, 1, true) (configConns net peers st.layers ConnFilter.default).allAllowed) = some true := by
    decide +kernel
  have h2 : (PolicyStore.build mixed).map (fun st => net.K.mem (2, 0, true) (configConns net peers st.layers ConnFilter.default).denied) = some true := by
    decide +kernel
  rw [h] at h1 h2
  refine ⟨st, h, by simpa using h1, by simpa using h2, ?_⟩
  refine C29_config_allows_partial lawful mixed mixed_legal h peers _ rfl (Or.inr (by decide)) _ ?_
  intro n _
  cases n
  case k8sCalico | k8sGateway => trivial
  all_goals exact Or.inr (by decide)

/-- C30 with and without host endpoints. -/
example : ∃ st, PolicyStore.build mixed = some st ∧
    (configConns net peers st.layers ConnFilter.default).allAllowed = (configConns net peers st.layers ConnFilter.onlyAllAllowed).allAllowed ∧
    (configConns net peersHep st.layers ConnFilter.default).denied = (configConns net peersHep st.layers ConnFilter.onlyDenied).denied := by
  obtain ⟨st, h⟩ := Option.isSome_iff_exists.1 (show (PolicyStore.build mixed).isSome = true by decide +kernel)
  exact ⟨st, h, (C30_filter_selects_partial lawful peers st.layers _ _ (by decide) (by decide)).2.2.2 (Or.inl (by decide)) rfl rfl,
    (C30_filter_selects_partial lawful peersHep st.layers _ _ (by decide) (by decide)).2.2.1 rfl rfl⟩

/-- C30 is violated with host endpoints: 0→1 is allowed, and reported so by the filter for all allowed
connections; the default filter and the filter for allowed connections lose it (no Kubernetes/Calico
policy), or lose the connections of the host endpoint 2 (with a Calico policy that allows 0→2). -/
def hepPol : Policy (Pt → Bool) (Fin 5 → Bool) :=
  ⟨"hepPol", .calicoGlobal, none, .allow, set [2], true, false, [rule .allow anyone [2]], []⟩
theorem C30_filter_hep_wrong :
    (PolicyStore.build [alw]).map (fun st => (net.K.mem (0, 1, true) (configConns net peersHep st.layers ConnFilter.onlyAllAllowed).allAllowed,
      net.K.mem (0, 1, true) (configConns net peersHep st.layers ConnFilter.default).allAllowed)) = some (true, false) ∧
    (PolicyStore.build [alw, hepPol]).map (fun st => (net.K.mem (0, 2, true) (configConns net peersHep st.layers ConnFilter.onlyAllAllowed).allAllowed,
      net.K.mem (0, 2, true) (configConns net peersHep st.layers ConnFilter.onlyAllowed).allowed)) = some (true, false) := by
  constructor <;> decide +kernel

/-- The same connection 0→2 is reported as explicitly allowed when the Istio policy is absent. -/
example : (PolicyStore.build [hepPol]).map (fun st => net.K.mem (0, 2, true) (configConns net peersHep st.layers ConnFilter.onlyAllowed).allowed) = some true := by
  decide +kernel

end Plain

namespace Demo

/-- The peers a..b, checked by `decide`. -/
abbrev ps (a b : Int) (h : 1 ≤ a ∧ a ≤ b ∧ b ≤ 9 := by decide) : PS := peers a b h

/-- A Calico policy on hyper-cube sets without Pass rules. -/
def cal : Policy (HC DemoDim ISet) PS :=
  ⟨"cal", .calico, some 10, .allow, ps 1 3, true, false,
   [⟨.deny, net.rect (some (ps 4 5)) (some (ps 1 3)) .tcp⟩, ⟨.allow, net.rect none (some (ps 1 3)) .any⟩], []⟩
def k1 : Policy (HC DemoDim ISet) PS :=
  ⟨"k1", .k8s, none, .allow, ps 2 6, true, false, [⟨.allow, net.rect (some (ps 7 7)) (some (ps 2 6)) .any⟩], []⟩

theorem cal_legal : cal.Legal net Strong := by
  constructor
  · intro dir r hr
    cases dir
    · simp [Policy.rules, cal] at hr
    · simp only [Policy.rules, cal, if_true, List.mem_cons, List.not_mem_nil, or_false] at hr
      rcases hr with rfl | rfl
      · exact netLawful.rect_strong (some (ps 4 5)) (some (ps 1 3)) .tcp
      · exact netLawful.rect_strong none (some (ps 1 3)) .any
  · intro dir r hr p hm
    cases dir
    · simp [Policy.rules, cal] at hr
    · simp only [Policy.rules, cal, if_true, List.mem_cons, List.not_mem_nil, or_false] at hr
      rcases hr with rfl | rfl
      · have h := netLawful.mem_rect (some (ps 4 5)) (some (ps 1 3)) .tcp p
        rw [h] at hm
        simp only [Bool.and_eq_true] at hm
        exact hm.1.2
      · have h := netLawful.mem_rect none (some (ps 1 3)) .any p
        rw [h] at hm
        simp only [Bool.and_eq_true] at hm
        exact hm.1.2

theorem k1_legal : k1.Legal net Strong := by
  constructor
  · intro dir r hr
    cases dir
    · simp [Policy.rules, k1] at hr
    · simp only [Policy.rules, k1, if_true, List.mem_singleton] at hr
      subst hr
      exact netLawful.rect_strong (some (ps 7 7)) (some (ps 2 6)) .any
  · intro dir r hr p hm
    cases dir
    · simp [Policy.rules, k1] at hr
    · simp only [Policy.rules, k1, if_true, List.mem_singleton] at hr
      subst hr
      have h := netLawful.mem_rect (some (ps 7 7)) (some (ps 2 6)) .any p
      rw [h] at hm
      simp only [Bool.and_eq_true] at hm
      exact hm.1.2

theorem noPass : NoPass [cal, k1] := by
  intro pol h hc dir r hr
  simp only [List.mem_cons, List.not_mem_nil, or_false] at h
  rcases h with rfl | rfl
  · cases dir
    · simp [Policy.rules, cal] at hr
    · simp only [Policy.rules, cal, if_true, List.mem_cons, List.not_mem_nil, or_false] at hr
      rcases hr with rfl | rfl <;> simp
  · simp [Policy.isCalico, k1] at hc

theorem legal : LegalPolicies net Ok Strong [cal, k1] := by
  refine ⟨fun pol h => ?_, Or.inr noPass⟩
  simp only [List.mem_cons, List.not_mem_nil, or_false] at h
  rcases h with rfl | rfl
  · exact cal_legal
  · exact k1_legal

def peers9 : Peers PS := ⟨ps 1 6, noPeers, noPeers, ps 7 9⟩

/-- The theorems apply to hyper-cube sets: TCP from 4 to 2 is denied, UDP (17) from 4 to 2 allowed. -/
example : ∃ st, PolicyStore.build [cal, k1] = some st ∧
    (∀ p : Point alg, net.K.mem p (configConns net peers9 st.layers ConnFilter.onlyAllAllowed).allAllowed = true ↔
      peers9.known net (net.src p) ∧ peers9.known net (net.dst p) ∧
      ∀ n, Present net [cal, k1] peers9 n → layerAllows net n (layerList st.layers n) peers9 p) ∧
    layerVerdict net (layerList st.layers .k8sCalico) true (conn 4 2 6 80 (by decide)) = some .deny ∧
    layerVerdict net (layerList st.layers .k8sCalico) true (conn 4 2 17 80 (by decide)) = some .allow := by
  obtain ⟨st, h⟩ := Option.isSome_iff_exists.1 (show (PolicyStore.build [cal, k1]).isSome = true by decide +kernel)
  have hv : (PolicyStore.build [cal, k1]).map (fun st => (layerVerdict net (layerList st.layers .k8sCalico) true (conn 4 2 6 80 (by decide)),
      layerVerdict net (layerList st.layers .k8sCalico) true (conn 4 2 17 80 (by decide)))) = some (some .deny, some .allow) := by decide +kernel
  rw [h] at hv
  simp only [Option.map_some, Option.some.injEq, Prod.mk.injEq] at hv
  refine ⟨st, h, fun p => C29_config_allows_partial netLawful _ legal h _ _ rfl (Or.inl rfl) p ?_, hv.1, hv.2⟩
  rintro n ⟨pol, hp, rfl⟩
  simp only [List.mem_cons, List.not_mem_nil, or_false] at hp
  rcases hp with rfl | rfl <;> trivial

/-- The rules of the counterexample: TCP to 1..3 denied, other protocols from 5 passed, then TCP to
1..3 allowed (never reached). -/
def badRules : List (Rule (HC DemoDim ISet)) :=
  [⟨.deny, net.rect none (some (ps 1 3)) .tcp⟩, ⟨.pass, net.rect (some (ps 5 5)) (some (ps 1 3)) .nonTcp⟩,
   ⟨.allow, net.rect none (some (ps 1 3)) .tcp⟩]

/-- C24 with a Pass rule over hyper-cube sets: no connection is allowed, but the set of allowed
connections tests as non-empty. -/
theorem C24_pass_spurious_nonempty :
    (∀ p, ¬ FirstRule net badRules p .allow) ∧ net.K.truthy (calicoSync net badRules).allow = true := by
  constructor
  · intro p
    rw [← firstMatch_iff]
    simp only [firstMatch, badRules]
    by_cases h : net.K.mem p (net.rect none (some (ps 1 3)) .tcp) = true
    · simp [h]
    · simp [h]
  · decide +kernel

end Demo
end Verif
