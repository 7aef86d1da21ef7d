import Verif.PropsRedundancy
import Verif.PropsQueriesEx
/-!
Non-vacuity examples and counterexamples for C34.
-/
namespace Verif
namespace Plain

abbrev Pol := Policy (Pt → Bool) (Fin 5 → Bool)

theorem storeOf {l : List Pol} (h : (PolicyStore.build l).isSome = true) : PolicyStore.build l = some (cfg peers l).store := by
  obtain ⟨st, hst⟩ := Option.isSome_iff_exists.1 h
  unfold cfg
  rw [hst]; rfl
theorem polsOf {l : List Pol} (h : (PolicyStore.build l).isSome = true) : (cfg peers l).store.policies = l := (build_built _ (storeOf h)).policies
theorem removeCfg {l m : List Pol} {pol : Pol} (hl : (PolicyStore.build l).isSome = true) (hm : (PolicyStore.build m).isSome = true)
    (he : l.filter (fun q => decide (q.key ≠ pol.key)) = m) : Removal (cfg peers l) pol (cfg peers m) :=
  ⟨rfl, rfl, by rw [polsOf hl, he]; exact storeOf hm⟩
theorem editCfg {l m : List Pol} {pol pol' : Pol} (hl : (PolicyStore.build l).isSome = true) (hm : (PolicyStore.build m).isSome = true)
    (he : editPolicy l pol pol' = m) : Edit (cfg peers l) pol pol' (cfg peers m) :=
  ⟨rfl, rfl, by rw [polsOf hl, he]; exact storeOf hm⟩

theorem orderFree_k8s {l : List Pol} (h : ∀ pol ∈ l, pol.kind = .k8s) : OrderFree netQ l := by
  rintro a ha b hb _ ⟨dir, p, v, w, h1, h2, hne⟩
  have key : ∀ pol ∈ l, ∀ v, pol.speaks netQ dir p = some v → v = .allow := by
    intro pol hp v hv
    unfold Policy.speaks Policy.ruleVerdict at hv
    rw [h pol hp] at hv
    dsimp only at hv
    split at hv
    · split at hv
      · exact (Option.some.inj hv).symm
      · simp at hv
    · simp at hv
  exact absurd ((key a ha v h1).trans (key b hb w h2).symm) hne

theorem notSame {l m : List Pol} (gl : (cfg peers l).Good netQ (fun _ => True) (fun _ => True)) (gm : (cfg peers m).Good netQ (fun _ => True) (fun _ => True))
    (sl : (effectiveLayers netQ.toNet peers (cfg peers l).store.layers).length ≤ 1) (sm : (effectiveLayers netQ.toNet peers (cfg peers m).store.layers).length ≤ 1)
    (p : Pt) (hr : Relevant netQ peers true p)
    (h1 : netQ.K.mem p ((cfg peers l).conns netQ none ConnFilter.onlyAllAllowed).allAllowed = true)
    (h2 : netQ.K.mem p ((cfg peers m).conns netQ none ConnFilter.onlyAllAllowed).allAllowed = false) :
    ¬ SameAllowed netQ true none (cfg peers l) (cfg peers m) := by
  intro h
  have h0 := h p hr
  rw [← (gl.conns lawfulQ none (fun _ => solidP sl)).2, ← (gm.conns lawfulQ none (fun _ => solidP sm)).2] at h0
  rw [h0.1 h1] at h2
  exact absurd h2 (by simp)

/-- A sidecar of 0 with two hosts. -/
def scTwo : Pol := ⟨"sc", .istioSidecar, none, .allow, set [0], false, true, [], [rule .allow [0] [1], rule .allow [0] [2]]⟩
def scTwo' : Pol := ⟨"sc", .istioSidecar, none, .allow, set [0], false, true, [], [rule .allow [0] [2]]⟩
theorem gSc : (cfg peers [scTwo]).Good netQ (fun _ => True) (fun _ => True) :=
  good peers (Or.inl rfl) _ 2 (by decide +kernel) (by decide +kernel) (by decide +kernel) (by decide) (by decide +kernel)
theorem gSc' : (cfg peers [scTwo']).Good netQ (fun _ => True) (fun _ => True) :=
  good peers (Or.inl rfl) _ 2 (by decide +kernel) (by decide +kernel) (by decide +kernel) (by decide) (by decide +kernel)

/-- C34: both rules of the sidecar are reported as redundant, though without the first one 0 does not reach 1. -/
theorem C34_sidecar_wrong :
    redundantRules netQ true (cfg peers [scTwo]) .istio scTwo false = some [1, 2] ∧
    ¬ RuleRedundant netQ true none (cfg peers [scTwo]) scTwo false 0 := by
  refine ⟨by decide +kernel, fun h => ?_⟩
  refine notSame gSc gSc' (by decide +kernel) (by decide +kernel) (0, 1, true) ⟨by decide, by decide, by decide⟩ (by decide +kernel) (by decide +kernel) ?_
  exact h.2 _ (editCfg (by decide +kernel) (by decide +kernel) rfl)

/-- A Calico policy with a rule that occurs twice. -/
def dup : Pol := ⟨"dup", .calico, some 10, .allow, set [0], true, false, [rule .allow [1] [0], rule .deny [1] [0], rule .allow [1] [0]], []⟩
def dup' : Pol := ⟨"dup", .calico, some 10, .allow, set [0], true, false, [rule .deny [1] [0], rule .allow [1] [0]], []⟩
theorem gDup : (cfg peers [dup]).Good netQ (fun _ => True) (fun _ => True) :=
  good peers (Or.inl rfl) _ 2 (by decide +kernel) (by decide +kernel) (by decide +kernel) (by decide) (by decide +kernel)
theorem gDup' : (cfg peers [dup']).Good netQ (fun _ => True) (fun _ => True) :=
  good peers (Or.inl rfl) _ 2 (by decide +kernel) (by decide +kernel) (by decide +kernel) (by decide) (by decide +kernel)

/-- C34: the first rule occurs twice and is reported as redundant, though without it the second one denies
what it allowed. -/
theorem C34_duplicate_wrong :
    redundantRules netQ true (cfg peers [dup]) .k8sCalico dup true = some [1, 2, 3] ∧
    ¬ RuleRedundant netQ true none (cfg peers [dup]) dup true 0 := by
  refine ⟨by decide +kernel, fun h => ?_⟩
  refine notSame gDup gDup' (by decide +kernel) (by decide +kernel) (1, 0, true) ⟨by decide, by decide, by decide⟩ (by decide +kernel) (by decide +kernel) ?_
  exact h.2 _ (editCfg (by decide +kernel) (by decide +kernel) rfl)

/-- Two Calico policies of the same order. -/
def tA : Pol := ⟨"tA", .calico, some 10, .allow, set [0], true, false, [rule .allow [1] [0], rule .deny [1] [0]], []⟩
def tA' : Pol := ⟨"tA", .calico, some 10, .allow, set [0], true, false, [rule .deny [1] [0]], []⟩
def tB : Pol := ⟨"tB", .calico, some 10, .allow, set [0], true, false, [rule .allow [1] [0]], []⟩
theorem gTie : (cfg peers [tA, tB]).Good netQ (fun _ => True) (fun _ => True) :=
  good peers (Or.inl rfl) _ 2 (by decide +kernel) (by decide +kernel) (by decide +kernel) (by decide) (by decide +kernel)
theorem gTie' : (cfg peers [tA', tB]).Good netQ (fun _ => True) (fun _ => True) :=
  good peers (Or.inl rfl) _ 2 (by decide +kernel) (by decide +kernel) (by decide +kernel) (by decide) (by decide +kernel)

/-- C34: the first rule of `tA` is reported as redundant, because the query examines `tA` without it after
`tB`; deleting it in place lets `tA` deny what it allowed. -/
theorem C34_tie_wrong :
    (∃ l, redundantRules netQ true (cfg peers [tA, tB]) .k8sCalico tA true = some l ∧ 1 ∈ l) ∧ OnlyRule netQ tA true 0 ∧
    ¬ RuleRedundant netQ true none (cfg peers [tA, tB]) tA true 0 := by
  refine ⟨⟨[1, 2], by decide +kernel, by simp⟩, ?_, fun h => ?_⟩
  · intro r hr j s hj hs
    have hr' : r = rule .allow [1] [0] := (Option.some.inj hr).symm
    match j, hj with
    | 0, _ => rfl
    | 1, hj =>
      have hs' : s = rule .deny [1] [0] := (Option.some.inj hj).symm
      subst hr' hs'
      exact absurd hs (by decide +kernel)
    | j + 2, hj => exact absurd hj (by simp [Policy.rules, tA])
  · refine notSame gTie gTie' (by decide +kernel) (by decide +kernel) (1, 0, true) ⟨by decide, by decide, by decide⟩ (by decide +kernel) (by decide +kernel) ?_
    exact h.2 _ (editCfg (by decide +kernel) (by decide +kernel) rfl)

/-- A Calico and a Kubernetes policy of the same name. -/
def nC : Pol := ⟨"ns/x", .calico, some 10, .allow, set [0], true, false, [rule .allow [1] [0]], []⟩
def nK : Pol := ⟨"ns/x", .k8s, none, .allow, set [0], true, false, [rule .allow [1, 2] [0]], []⟩
theorem gName : (cfg peers [nC, nK]).Good netQ (fun _ => True) (fun _ => True) :=
  good peers (Or.inl rfl) _ 2 (by decide +kernel) (by decide +kernel) (by decide +kernel) (by decide) (by decide +kernel)
theorem gNC : (cfg peers [nC]).Good netQ (fun _ => True) (fun _ => True) :=
  good peers (Or.inl rfl) _ 2 (by decide +kernel) (by decide +kernel) (by decide +kernel) (by decide) (by decide +kernel)

/-- C34: the report names "ns/x", which is right about the Calico policy and wrong about the Kubernetes policy. -/
theorem C34_same_name_wrong :
    redundantPolicies netQ true (cfg peers [nC, nK]) (layerList (cfg peers [nC, nK]).store.layers .k8sCalico) .k8sCalico = some ["ns/x"] ∧
    nK.name = "ns/x" ∧ ¬ PolicyRedundant netQ true none (cfg peers [nC, nK]) nK := by
  refine ⟨by decide +kernel, rfl, fun h => ?_⟩
  refine notSame gName gNC (by decide +kernel) (by decide +kernel) (2, 0, true) ⟨by decide, by decide, by decide⟩ (by decide +kernel) (by decide +kernel) ?_
  exact h.2 _ (removeCfg (by decide +kernel) (by decide +kernel) rfl)

/-- Part of what `big` allows. -/
def small : Pol := ⟨"small", .k8s, none, .allow, set [0], true, false, [rule .allow [1] [0] .tcp], []⟩
def big : Pol := ⟨"big", .k8s, none, .allow, set [0], true, false, [rule .allow [1, 2] [0], rule .allow [2] [0]], []⟩
def big' : Pol := ⟨"big", .k8s, none, .allow, set [0], true, false, [rule .allow [1, 2] [0]], []⟩
theorem gSB : (cfg peers [small, big]).Good netQ (fun _ => True) (fun _ => True) :=
  good peers (Or.inl rfl) _ 2 (by decide +kernel) (by decide +kernel) (by decide +kernel) (by decide) (by decide +kernel)
theorem twinSB : ∀ pol ∈ (cfg peers [small, big]).store.policies, NoTwin (cfg peers [small, big]) pol := by
  unfold NoTwin
  rw [polsOf (by decide +kernel)]
  decide +kernel
theorem shapeSB : ∀ pol ∈ (cfg peers [small, big]).store.policies, pol.Shaped := by
  rw [polsOf (by decide +kernel)]
  intro pol hp
  simp only [List.mem_cons, List.not_mem_nil, or_false] at hp
  rcases hp with rfl | rfl <;> exact ⟨fun h => by simp [small, big] at h, fun h => by simp [small, big] at h⟩

/-- C34: the redundant policy of the first layer is counted, but not listed, since the second layer has
none. -/
theorem C34_policies_lost_wrong :
    ∃ rep, redundancyQuery netQ true (cfg peers [small, big', den]) = some rep ∧ rep.count > 0 ∧ rep.policies = [] ∧ rep.rules.isEmpty = true := by
  have h : (redundancyQuery netQ true (cfg peers [small, big', den])).map (fun r => (r.count, r.policies, r.rules.isEmpty)) = some (1, [], true) := by
    decide +kernel
  obtain ⟨rep, h1, h2⟩ := Option.map_eq_some_iff.1 h
  simp only [Prod.mk.injEq] at h2
  exact ⟨rep, h1, by omega, h2.2.1, h2.2.2⟩

/-- C34: `small` is reported, and may be removed. -/
example : ∃ pol ∈ layerList (cfg peers [small, big]).store.layers .k8sCalico, pol.name = "small" ∧ PolicyRedundant netQ true none (cfg peers [small, big]) pol := by
  obtain ⟨rs, h1, h2, _⟩ := C34_policy_partial (Canon := fun _ => True) lawfulQ true gSB .k8sCalico twinSB
  have hb : redundantPolicies netQ true (cfg peers [small, big]) (layerList (cfg peers [small, big]).store.layers .k8sCalico) .k8sCalico = some ["small"] := by
    decide +kernel
  rw [h1, Option.some.injEq] at hb
  exact h2 "small" (by rw [hb]; simp)
theorem clearSB : RuleClear netQ (cfg peers [small, big]) big true 1 := by
  refine ⟨by decide, orderFree_k8s ?_, Or.inr trivial⟩
  rw [polsOf (by decide +kernel)]
  intro pol hp
  obtain ⟨q, hq, rfl⟩ := List.mem_map.1 hp
  simp only [List.mem_cons, List.not_mem_nil, or_false] at hq
  rcases hq with rfl | rfl <;> rfl
/-- C34: the second rule of `big` is reported, and may be deleted. -/
example : RuleRedundant netQ true none (cfg peers [small, big]) big true 1 := by
  have hm : big ∈ layerList (cfg peers [small, big]).store.layers .k8sCalico :=
    (gSB.B.mem_list _ _).2 ⟨by rw [polsOf (by decide +kernel)]; simp, rfl⟩
  have hp := ((gSB.B.mem_list _ _).1 hm).1
  obtain ⟨l, h1, h2⟩ := C34_rule_partial (Canon := fun _ => True) lawfulQ true gSB hm (twinSB _ hp) (shapeSB _ hp) true
  have hb : redundantRules netQ true (cfg peers [small, big]) .k8sCalico big true = some [2] := by decide +kernel
  rw [h1, Option.some.injEq] at hb
  obtain ⟨h3, h4⟩ := h2 1 clearSB.1 clearSB.2.1
  exact ⟨h3, fun c' R => (h4 c' R).1 (by rw [hb]; simp) clearSB.2.2⟩
/-- C34: the query on a configuration with redundancies, and on one without. -/
example : ∃ rep, redundancyQuery netQ true (cfg peers [small, big]) = some rep ∧ rep.count = 2 ∧ rep.policies = ["small"] := by
  have h : (redundancyQuery netQ true (cfg peers [small, big])).map (fun r => (r.count, r.policies)) = some (2, ["small"]) := by decide +kernel
  obtain ⟨rep, h1, h2⟩ := Option.map_eq_some_iff.1 h
  simp only [Prod.mk.injEq] at h2
  exact ⟨rep, h1, h2.1, h2.2⟩
example : (∀ pol ∈ (cfg peers [small, big]).store.policies, NoTwin (cfg peers [small, big]) pol) ∧
    ∃ rep, redundancyQuery netQ true (cfg peers [small, big]) = some rep ∧
      ∀ name ∈ rep.policies, ∃ pol ∈ (cfg peers [small, big]).store.policies, pol.name = name ∧ PolicyRedundant netQ true none (cfg peers [small, big]) pol := by
  obtain ⟨rep, h1, h2, _⟩ := C34_query_partial (Canon := fun _ => True) lawfulQ true gSB twinSB shapeSB
  exact ⟨twinSB, rep, h1, h2⟩
example : (redundancyQuery netQ true (cfg peers [small])).map (fun r => r.count) = some 0 := by decide +kernel

/-- A DENY policy whose second rule is part of the first, an ALLOW policy and a sidecar. -/
def wAllow : Pol := ⟨"wa", .istioAuthz, none, .allow, set [0], true, false, [rule .allow [1, 2] [0]], []⟩
def wDeny : Pol := ⟨"wd", .istioAuthz, none, .deny, set [0], true, false, [rule .deny [1] [0], rule .deny [1] [0] .tcp], []⟩
def wDeny' : Pol := ⟨"wd", .istioAuthz, none, .deny, set [0], true, false, [rule .deny [1] [0]], []⟩
def wSide : Pol := ⟨"ws", .istioSidecar, none, .allow, set [2], false, true, [], [rule .allow [2] [0, 1]]⟩
theorem gW : (cfg peers [wAllow, wDeny, wSide]).Good netQ (fun _ => True) (fun _ => True) :=
  good peers (Or.inl rfl) _ 2 (by decide +kernel) (by decide +kernel) (by decide +kernel) (by decide) (by decide +kernel)
theorem gW' : (cfg peers [wAllow, wDeny', wSide]).Good netQ (fun _ => True) (fun _ => True) :=
  good peers (Or.inl rfl) _ 2 (by decide +kernel) (by decide +kernel) (by decide +kernel) (by decide) (by decide +kernel)
theorem gWN' : (cfg peers [wDeny', wAllow]).Good netQ (fun _ => True) (fun _ => True) :=
  good peers (Or.inl rfl) _ 2 (by decide +kernel) (by decide +kernel) (by decide +kernel) (by decide) (by decide +kernel)
theorem gWN : (cfg peers [wDeny, wAllow]).Good netQ (fun _ => True) (fun _ => True) :=
  good peers (Or.inl rfl) _ 2 (by decide +kernel) (by decide +kernel) (by decide +kernel) (by decide) (by decide +kernel)

/-- C34: the second rule of the DENY policy is redundant, but not reported: the query examines the policy
without this rule behind the sidecar, where DENY policies are no longer put before ALLOW policies. -/
theorem C34_deny_sidecar_wrong :
    redundantRules netQ true (cfg peers [wAllow, wDeny, wSide]) .istio wDeny true = some [] ∧
    RuleRedundant netQ true none (cfg peers [wAllow, wDeny, wSide]) wDeny true 1 := by
  have R : Edit (cfg peers [wAllow, wDeny, wSide]) wDeny (wDeny.dropRule true 1) (cfg peers [wAllow, wDeny', wSide]) :=
    editCfg (by decide +kernel) (by decide +kernel) rfl
  refine ⟨by decide +kernel, ⟨_, R⟩, fun c' R' => ?_⟩
  have hc : c' = cfg peers [wAllow, wDeny', wSide] := by
    obtain ⟨p, s, st⟩ := c'
    obtain ⟨e1, e2, e3⟩ := R'
    obtain ⟨f1, f2, f3⟩ := R
    have := Option.some.inj (e3.symm.trans f3)
    dsimp only at e1 e2 this
    subst e1 e2 this
    rfl
  subst hc
  exact equiv_sound lawfulQ true none gW gW' (fun _ => ⟨solidP (by decide +kernel), solidP (by decide +kernel)⟩)
    (fun h => absurd h (by decide +kernel)) (by decide +kernel)

/-- C34: without the sidecar the rule is reported. -/
example : ∃ l, redundantRules netQ true (cfg peers [wDeny, wAllow]) .istio wDeny true = some l ∧ 2 ∈ l := by
  have hm : wDeny ∈ layerList (cfg peers [wDeny, wAllow]).store.layers .istio :=
    (gWN.B.mem_list _ _).2 ⟨by rw [polsOf (by decide +kernel)]; simp, rfl⟩
  have ht : NoTwin (cfg peers [wDeny, wAllow]) wDeny := by
    unfold NoTwin
    rw [polsOf (by decide +kernel)]
    decide +kernel
  obtain ⟨l, h1, h2⟩ := C34_rule_partial lawfulQ true gWN hm ht ⟨fun _ => rfl, fun h => by simp [wDeny] at h⟩ true
  have ho : OrderFree netQ (editPolicy (cfg peers [wDeny, wAllow]).store.policies wDeny (wDeny.dropRule true 1)) := by
    rw [polsOf (by decide +kernel)]
    intro a ha b _ _ _
    refine Or.inr ⟨?_, by decide⟩
    obtain ⟨q, hq, rfl⟩ := List.mem_map.1 ha
    simp only [List.mem_cons, List.not_mem_nil, or_false] at hq
    rcases hq with rfl | rfl <;> rfl
  have R : Edit (cfg peers [wDeny, wAllow]) wDeny (wDeny.dropRule true 1) (cfg peers [wDeny', wAllow]) :=
    editCfg (by decide +kernel) (by decide +kernel) rfl
  refine ⟨l, h1, ((h2 1 (by decide) ho).2 _ R).2 exactQ rfl ?_⟩
  exact equiv_sound lawfulQ true (some .istio) gWN gWN' (fun h => by simp at h) (fun h => absurd h (by decide +kernel)) (by decide +kernel)

end Plain
end Verif
