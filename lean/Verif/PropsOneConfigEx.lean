import Verif.PropsOneConfig
import Verif.PropsRedundancyEx
import Verif.PropsDiffEx
/-!
Non-vacuity examples and counterexamples for C35, C41 and C42.
-/
namespace Verif
namespace Plain

theorem noGatewaysCfg {l m : List Pol} (hl : (PolicyStore.build l).isSome = true) (hm : (PolicyStore.build m).isSome = true)
    (he : l.filter (fun q => decide (q.kind ≠ .ingress ∧ q.kind ≠ .gateway)) = m) : NoGateways (cfg peers l) (cfg peers m) :=
  ⟨rfl, rfl, by rw [polsOf hl, he]; exact storeOf hm⟩

/-- Everybody may connect to 0. -/
def openAll : Pol := ⟨"open", .k8s, none, .allow, set [0], true, false, [rule .allow anyone [0]], []⟩
theorem gOpen : (cfg peers [openAll]).Good netQ (fun _ => True) (fun _ => True) :=
  good peers (Or.inl rfl) _ 2 (by decide +kernel) (by decide +kernel) (by decide +kernel) (by decide) (by decide +kernel)
theorem gSmall : (cfg peers [small]).Good netQ (fun _ => True) (fun _ => True) :=
  good peers (Or.inl rfl) _ 2 (by decide +kernel) (by decide +kernel) (by decide +kernel) (by decide) (by decide +kernel)

/-- C35, vacuity: with `openAll` nothing changes ... -/
example : ∃ g, NoGateways (cfg peers [openAll]) g ∧ ∀ p, Relevant netQ peers true p → (g.allows netQ p ↔ Baseline netQ peers p) := by
  have hg := noGatewaysCfg (l := [openAll]) (m := [openAll]) (by decide +kernel) (by decide +kernel) rfl
  obtain ⟨b, h1, _, h2⟩ := C35_vacuity_partial (Canon := fun _ => True) lawfulQ true gOpen (fun g h => by
    rw [h.unique hg]; exact solidP (by decide +kernel))
  have hb : vacuityQuery netQ true (cfg peers [openAll]) = some true := by decide +kernel
  rw [h1, Option.some.injEq] at hb
  exact ⟨_, hg, (h2 _ hg).1 hb⟩
/-- ... and with `small` something is forbidden. -/
example : ∃ g, NoGateways (cfg peers [small]) g ∧
    ∃ p, Relevant netQ peers true p ∧ peers.known netQ.toNet (netQ.src p) ∧ peers.known netQ.toNet (netQ.dst p) ∧ ¬ g.allows netQ p := by
  have hg := noGatewaysCfg (l := [small]) (m := [small]) (by decide +kernel) (by decide +kernel) rfl
  obtain ⟨b, h1, _, h2⟩ := C35_vacuity_pods_partial (Canon := fun _ => True) lawfulQ true gSmall (fun g h => by
    rw [h.unique hg]; exact solidP (by decide +kernel)) (by decide)
  have hb : vacuityQuery netQ true (cfg peers [small]) = some false := by decide +kernel
  rw [h1, Option.some.injEq] at hb
  refine ⟨_, hg, ?_⟩
  by_contra hno
  have := (h2 _ hg).2 exactQ rfl (fun p hr k1 k2 => by
    by_contra ha
    exact hno ⟨p, hr, k1, k2, ha⟩)
  rw [hb] at this
  exact absurd this (by simp)

/-- C35, emptiness: a policy that selects nobody, a policy whose second rule selects nobody, and a Calico
policy whose first rule has nobody as destination. -/
def nobody : Pol := ⟨"nobody", .k8s, none, .allow, set [], true, false, [], []⟩
def half : Pol := ⟨"half", .k8s, none, .allow, set [0], true, false, [rule .allow [1] [0], rule .allow [] [0]], []⟩
def calDst : Pol := ⟨"calDst", .calico, some 10, .allow, set [0], false, true, [], [rule .allow [0] []]⟩
def eps : List (EPolicy (Pt → Bool) (Fin 5 → Bool)) :=
  [⟨nobody, [], []⟩, ⟨half, [[set [1]], [set []]], []⟩, ⟨calDst, [], [[set [0], set []]]⟩]
example : emptinessQuery netQ eps =
    ([⟨"nobody", .k8s, true, [], []⟩, ⟨"half", .k8s, false, [2], []⟩, ⟨"calDst", .calico, false, [], [1]⟩], 3) := by decide +kernel
theorem tied : EPolicy.Tied netQ ⟨half, [[set [1]], [set []]], []⟩ := by
  refine ⟨rfl, rfl, ?_, ⟨by simp [half], by simp [half]⟩⟩
  intro dir i r ps hr hps s hs p hm
  cases dir
  · simp [half, Policy.rules] at hr
  · match i, hr, hps with
    | 0, hr, hps =>
      have hr' := Option.some.inj hr
      have hps' := Option.some.inj hps
      subst hr' hps'
      rw [List.mem_singleton] at hs
      subst hs
      left
      obtain ⟨x, y, t⟩ := p
      revert x y t
      decide +kernel
    | 1, hr, hps =>
      have hr' := Option.some.inj hr
      have hps' := Option.some.inj hps
      subst hr' hps'
      rw [List.mem_singleton] at hs
      subst hs
      left
      obtain ⟨x, y, t⟩ := p
      revert x y t
      decide +kernel
    | i + 2, hr, _ => exact absurd hr (by simp [half, Policy.rules])
example (p : Pt) : netQ.K.mem p (rule .allow [] [0]).props = false :=
  C35_empty_rule _ tied true 1 _ rfl (by decide +kernel) p

/-- C35, disjointness: `small` and `big` have 0 in common. -/
example : (small, big) ∈ disjointnessQuery netQ (cfg peers [small, big]) ∨ (big, small) ∈ disjointnessQuery netQ (cfg peers [small, big]) := by
  have hp := polsOf (l := [small, big]) (by decide +kernel)
  refine ((C35_disjoint_partial lawfulQ gSB twinSB).1 small big (by rw [hp]; simp) (by rw [hp]; simp) ?_ rfl ⟨by decide, by decide⟩).2 ⟨0, by decide, by decide⟩
  intro h
  have := congrArg Policy.name h
  exact absurd this (by decide)
/-- A global policy and a profile of the same name that are equal otherwise. -/
def twG : Pol := ⟨"t", .calicoGlobal, none, .allow, set [0], true, false, [rule .allow [1] [0]], []⟩
def twP : Pol := ⟨"t", .calicoProfile, none, .allow, set [0], true, false, [rule .allow [1] [0]], []⟩
theorem gTw : (cfg peers [twG, twP]).Good netQ (fun _ => True) (fun _ => True) :=
  good peers (Or.inl rfl) _ 2 (by decide +kernel) (by decide +kernel) (by decide +kernel) (by decide) (by decide +kernel)
/-- C35: both select 0, but they are not reported. -/
theorem C35_twin_wrong :
    twG ∈ (cfg peers [twG, twP]).store.policies ∧ twP ∈ (cfg peers [twG, twP]).store.policies ∧ layerOf twG.kind = layerOf twP.kind ∧
    Common netQ twG twP ∧ (disjointnessQuery netQ (cfg peers [twG, twP])).isEmpty = true := by
  have hp := polsOf (l := [twG, twP]) (by decide +kernel)
  exact ⟨by rw [hp]; simp, by rw [hp]; simp, rfl, ⟨0, by decide, by decide⟩, by decide +kernel⟩

/-- C41: `cap` captures everybody in both directions, `small` only 0 on ingress. -/
def cap : Pol := ⟨"cap", .k8s, none, .allow, set [0, 1, 2], true, true, [], []⟩
theorem gCap : (cfg peers [cap]).Good netQ (fun _ => True) (fun _ => True) :=
  goodK peers world _ (by decide +kernel) (by decide +kernel) (by decide +kernel) (by decide +kernel) (by decide +kernel)
theorem flagged_k8s {l : List Pol} (hb : (PolicyStore.build l).isSome = true) (h : ∀ pol ∈ l, pol.kind = .k8s) :
    ∀ pol ∈ (cfg peers l).store.policies, pol.Flagged := by
  rw [polsOf hb]
  intro pol hp
  unfold Policy.Flagged
  rw [h pol hp]
  exact ⟨by simp, by simp⟩
example : CapturedIn netQ (cfg peers [cap]) .k8sCalico true 1 ∧ CapturedIn netQ (cfg peers [cap]) .k8sCalico false 1 := by
  have h := (C41_captured gCap (flagged_k8s (by decide +kernel) (by decide))).1.1 (by decide +kernel)
  refine (h.2 1 (Or.inl (by decide))).1 ⟨cap, ?_, rfl⟩
  rw [polsOf (by decide +kernel)]; simp
example : ¬ ∀ e, peers.workload netQ.toNet e →
    ((∃ pol ∈ (cfg peers [small]).store.policies, layerOf pol.kind = .k8sCalico) →
      CapturedIn netQ (cfg peers [small]) .k8sCalico true e ∧ CapturedIn netQ (cfg peers [small]) .k8sCalico false e) ∧
    ((∃ pol ∈ (cfg peers [small]).store.policies, layerOf pol.kind = .istio) → CapturedIn netQ (cfg peers [small]) .istio true e) := by
  intro h
  have hb : (allCapturedQuery netQ (cfg peers [small])).1 = false := by decide +kernel
  have := (C41_captured gSmall (flagged_k8s (by decide +kernel) (by decide))).1.2 ⟨⟨small, by rw [polsOf (by decide +kernel)]; simp, ⟨by decide, by decide⟩⟩, h⟩
  rw [hb] at this
  exact absurd this (by simp)

/-- C42: `big` and the shorter `big'` have the same effect. -/
theorem gSB' : (cfg peers [big', small]).Good netQ (fun _ => True) (fun _ => True) :=
  good peers (Or.inl rfl) _ 2 (by decide +kernel) (by decide +kernel) (by decide +kernel) (by decide) (by decide +kernel)
theorem onlyCfg {l : List Pol} {pol : Pol} (hm : (PolicyStore.build [pol]).isSome = true) : Only (cfg peers l) pol (cfg peers [pol]) :=
  ⟨rfl, rfl, storeOf hm⟩
example : StronglyEquivalent netQ true (cfg peers [small, big]) (cfg peers [big', small]) := by
  have p1 := polsOf (l := [small, big]) (by decide +kernel)
  have p2 := polsOf (l := [big', small]) (by decide +kernel)
  obtain ⟨ans, h1, _, _, h2, _⟩ := C42_strong_partial (Canon := fun _ => True) lawfulQ true gSB gSB'
    (by unfold UniqueNames; rw [p1]; decide) (by unfold UniqueNames; rw [p2]; decide) ⟨fun _ => rfl, fun _ => rfl, fun _ => rfl, rfl⟩
    (by
      rw [p1]
      intro a ha s hs
      simp only [List.mem_cons, List.not_mem_nil, or_false] at ha
      rcases ha with rfl | rfl <;> rw [hs.unique (onlyCfg (by decide +kernel))] <;> exact solidP (by decide +kernel))
    (by
      rw [p2]
      intro a ha s hs
      simp only [List.mem_cons, List.not_mem_nil, or_false] at ha
      rcases ha with rfl | rfl <;> rw [hs.unique (onlyCfg (by decide +kernel))] <;> exact solidP (by decide +kernel))
  refine h2 ?_
  have hb : (strongQuery netQ true (cfg peers [small, big]) (cfg peers [big', small])).map (·.bool) = some true := by decide +kernel
  rw [h1] at hb
  simpa using hb
example : (strongQuery netQ true (cfg peers [small, big]) (cfg peers [small, openAll])).map (·.bool) = some false := by decide +kernel
example : (strongQuery netQ true (cfg peers [small]) (cfg peers [⟨"small", .k8s, none, .allow, set [0], true, false, [], []⟩])).map (·.bool) = some false := by
  decide +kernel
/-- C42: the query fails, since two policies are named "ns/x". -/
theorem C42_same_name_raises :
    (strongQuery netQ true (cfg peers [nC, nK]) (cfg peers [nC, ⟨"ns/x", .k8s, none, .allow, set [0], true, false, [], []⟩])).isNone = true := by
  decide +kernel

end Plain
end Verif
