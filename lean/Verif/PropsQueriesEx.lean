import Verif.DemoNetsQ
/-!
Non-vacuity examples for C31 and C32, and counterexamples for the parts of these properties that the
code violates.
-/
namespace Verif
namespace Plain

/-- Two Calico policies of the same order that disagree. -/
def tieA : Policy (Pt → Bool) (Fin 5 → Bool) :=
  ⟨"tieA", .calico, some 10, .allow, set [0], true, false, [rule .allow anyone [0]], []⟩
def tieB : Policy (Pt → Bool) (Fin 5 → Bool) :=
  ⟨"tieB", .calico, some 10, .allow, set [0], true, false, [rule .deny [4] [0]], []⟩
/-- A gateway policy. -/
def gw : Policy (Pt → Bool) (Fin 5 → Bool) :=
  ⟨"gw", .ingress, none, .allow, set [0], false, true, [], [rule .allow [0] [1]]⟩

theorem gAB : (cfg peers [tieA, tieB]).Good netQ (fun _ => True) (fun _ => True) :=
  good peers (Or.inl rfl) _ 1 (by decide +kernel) (by decide +kernel) (by decide +kernel) (by decide) (by decide +kernel)
theorem gBA : (cfg peers [tieB, tieA]).Good netQ (fun _ => True) (fun _ => True) :=
  good peers (Or.inl rfl) _ 1 (by decide +kernel) (by decide +kernel) (by decide +kernel) (by decide) (by decide +kernel)
theorem gK1 : (cfg peers [k1]).Good netQ (fun _ => True) (fun _ => True) :=
  good peers (Or.inl rfl) _ 2 (by decide +kernel) (by decide +kernel) (by decide +kernel) (by decide) (by decide +kernel)
theorem gK12 : (cfg peers [k1, k2]).Good netQ (fun _ => True) (fun _ => True) :=
  good peers (Or.inl rfl) _ 2 (by decide +kernel) (by decide +kernel) (by decide +kernel) (by decide) (by decide +kernel)
theorem gMix : (cfg peers [k1, den, gw]).Good netQ (fun _ => True) (fun _ => True) :=
  good peers (Or.inl rfl) _ 2 (by decide +kernel) (by decide +kernel) (by decide +kernel) (by decide) (by decide +kernel)
theorem gMix' : (cfg peers [k1, den]).Good netQ (fun _ => True) (fun _ => True) :=
  good peers (Or.inl rfl) _ 2 (by decide +kernel) (by decide +kernel) (by decide +kernel) (by decide) (by decide +kernel)
theorem gCal : (cfg peers [cal]).Good netQ (fun _ => True) (fun _ => True) :=
  good peers (Or.inl rfl) _ 2 (by decide +kernel) (by decide +kernel) (by decide +kernel) (by decide) (by decide +kernel)

theorem topP (l m : List (Policy (Pt → Bool) (Fin 5 → Bool))) : SameTopology netQ (cfg peers l) (cfg peers m) :=
  ⟨fun _ => rfl, fun _ => rfl, fun _ => rfl, rfl⟩
theorem solidP {l : List (Policy (Pt → Bool) (Fin 5 → Bool))} (h : (effectiveLayers netQ.toNet peers (cfg peers l).store.layers).length ≤ 1) :
    (cfg peers l).Solid netQ := Or.inr h

/-- C31: policies of the same order loaded in a different order are declared equivalent, though the
address 4 reaches 0 in one configuration and not in the other. -/
theorem C31_order_wrong :
    (equivQuery netQ true none (cfg peers [tieA, tieB]) (cfg peers [tieB, tieA])).bool = true ∧
    (equivQuery netQ false none (cfg peers [tieA, tieB]) (cfg peers [tieB, tieA])).bool = true ∧
    ¬ SameAllowed netQ false none (cfg peers [tieA, tieB]) (cfg peers [tieB, tieA]) := by
  refine ⟨by decide +kernel, by decide +kernel, fun h => ?_⟩
  have h0 := h (4, 0, true) ⟨by decide, by decide, by decide⟩
  rw [← (gAB.conns lawfulQ none (fun _ => solidP (by decide +kernel))).2, ← (gBA.conns lawfulQ none (fun _ => solidP (by decide +kernel))).2] at h0
  exact absurd (h0.1 (by decide +kernel)) (by decide +kernel)

/-- C32: for a configuration and itself the numerical result of the two-way query is 0 ("no containment")
instead of 3. -/
theorem C32_two_way_code_wrong :
    Within netQ true ((cfg peers [k1]).allows netQ) (cfg peers [k1]) (cfg peers [k1]) ∧
    (twoWayQuery netQ true false (cfg peers [k1]) (cfg peers [k1])).num = 0 ∧
    (twoWayQuery netQ true false (cfg peers [k1]) (cfg peers [k1])).bool = true :=
  ⟨⟨fun _ h => h, fun _ _ h => h⟩, by decide +kernel, by decide +kernel⟩

theorem kindsP (l m : List (Policy (Pt → Bool) (Fin 5 → Bool))) : KindsAgree netQ (cfg peers l) (cfg peers m) := fun _ h => (world.work_ip h).2

/-- C31: the order of Kubernetes policies does not matter. -/
example : SameAllowed netQ true none (cfg peers [k1, k2]) (cfg peers [k1, k2]) :=
  C31_equivalent_sound_partial lawfulQ true none gK12 gK12 (fun _ => ⟨solidP (by decide +kernel), solidP (by decide +kernel)⟩) (Or.inl rfl) (by decide +kernel)
/-- C31: configurations with different peers are not compared. -/
example : (equivQuery netQ true none (cfg peers [k1]) (cfg peersHep [k1])).notExecuted = true :=
  (C31_not_executed true none _ _).2 (fun h => absurd (h.1 2) (by decide +kernel))

/-- C32: `k2` adds to `k1`, so one containment holds and the other does not (the address 4 reaches 0 only
in the second configuration). -/
example : Within netQ false ((cfg peers [k1]).allows netQ) (cfg peers [k1]) (cfg peers [k1, k2]) ∧
    ¬ Within netQ false ((cfg peers [k1, k2]).allows netQ) (cfg peers [k1, k2]) (cfg peers [k1]) := by
  have s1 : (cfg peers [k1]).Solid netQ := solidP (by decide +kernel)
  have s2 : (cfg peers [k1, k2]).Solid netQ := solidP (by decide +kernel)
  refine ⟨(C32_containment_partial lawfulQ false true false gK1 gK12 s1 s2 (kindsP _ _)).1.1 (by decide +kernel), fun h => ?_⟩
  have := (C32_containment_partial lawfulQ false true false gK12 gK1 s2 s1 (kindsP _ _)).1.2 h
  exact absurd this (by decide +kernel)
example : (twoWayQuery netQ false false (cfg peers [k1]) (cfg peers [k1, k2])).num = 2 ∧ (twoWayQuery netQ false false (cfg peers [k1, k2]) (cfg peers [k1])).num = 1 := by
  decide +kernel
example : ¬ (SameTopology netQ (cfg peers [k1]) (cfg peers [k1, k2]) ∧ policiesEq netQ (cfg peers [k1]).store.policies (cfg peers [k1, k2]).store.policies = true) :=
  fun h => absurd h.2 (by decide +kernel)

theorem cfg_explicit {l : List (Policy (Pt → Bool) (Fin 5 → Bool))} (h : (cfg peers l).store.layers.length ≤ 1) : (cfg peers l).SolidX netQ := Or.inr h
theorem noHeps (e : Fin 5) : netQ.Q.mem e peers.heps = false := by revert e; decide

/-- C32: `k1` explicitly allows TCP from 2 to 1, `cal` does not. -/
example : ∃ p, Relevant netQ peers false p ∧ (cfg peers [k1]).explicit netQ p ∧ ¬ (cfg peers [cal]).explicit netQ p :=
  ((C32_interferes_partial lawfulQ false true gK1 gCal (cfg_explicit (by decide +kernel)) (cfg_explicit (by decide +kernel)) noHeps).2 (topP _ _)).1.1
    (by decide +kernel)

theorem freeMix : GatewayFree (cfg peers [k1, den, gw]) (cfg peers [k1, den]) := by
  refine ⟨rfl, rfl, ?_, gMix'.built⟩
  rfl

theorem explicitMix : (cfg peers [k1, den]).explicit netQ (2, 1, true) := by
  have hf : netQ.Q.truthy (cfg peers [k1, den]).peers.heps = false := by decide +kernel
  have hl : effectiveLayers netQ.toNet (cfg peers [k1, den]).peers (cfg peers [k1, den]).store.layers = (cfg peers [k1, den]).store.layers := by
    simp only [effectiveLayers, hf, Bool.false_and, Bool.false_eq_true, if_false]
  have hn : (cfg peers [k1, den]).store.layers.map (·.1) = [.k8sCalico, .istio] := by decide +kernel
  refine ⟨⟨Or.inl (Or.inl (Or.inl (by decide))), Or.inl (Or.inl (Or.inl (by decide))), ?_⟩,
    (.k8sCalico, layerList (cfg peers [k1, den]).store.layers .k8sCalico), ?_, Or.inl (Or.inl (by decide +kernel))⟩
  · rw [hl]
    rintro ⟨n, a⟩ h
    have hm : n ∈ [LayerName.k8sCalico, .istio] := by rw [← hn]; exact List.mem_map_of_mem h
    rw [← layerList_of_mem gMix'.B.distinct h]
    simp only [List.mem_cons, List.not_mem_nil, or_false] at hm
    rcases hm with rfl | rfl
    · exact ((gMix'.conns lawfulQ (some .k8sCalico) (fun h => by simp at h)).2 (2, 1, true)).1 (by decide +kernel)
    · exact ((gMix'.conns lawfulQ (some .istio) (fun h => by simp at h)).2 (2, 1, true)).1 (by decide +kernel)
  · refine layerList_mem (fun hx => ?_)
    have : (layerList (cfg peers [k1, den]).store.layers .k8sCalico).isEmpty = false := by decide +kernel
    rw [hx] at this; simp at this

/-- C32: the policies of `[k1, den, gw]` other than the gateway permit only what `[k1]` allows; and `[k1]` does not forbid it. -/
example : ∀ p, Relevant netQ peers false p → (cfg peers [k1, den]).explicit netQ p → (cfg peers [k1]).allows netQ p := by
  obtain ⟨a, h1, _, h3⟩ := C32_permits_partial lawfulQ false true gMix gK1 freeMix (Or.inl ⟨_, explicitMix⟩) (solidP (by decide +kernel)) noHeps
  have hb : (permitsQuery netQ false true (cfg peers [k1, den, gw]) (cfg peers [k1])).map (fun a => (a.notExecuted, a.bool)) = some (false, true) := by
    decide +kernel
  rw [h1] at hb
  simp only [Option.map_some, Option.some.injEq, Prod.mk.injEq] at hb
  exact (h3 hb.1).1.1 hb.2
example : ¬ ∀ p, Relevant netQ peers false p → ¬ ((cfg peers [k1, den]).explicit netQ p ∧ (cfg peers [k1]).allows netQ p) := by
  obtain ⟨a, h1, _, h3⟩ := C32_forbids_partial lawfulQ false gMix gK1 freeMix (Or.inl ⟨_, explicitMix⟩) (solidP (by decide +kernel)) noHeps
  have hb : (forbidsQuery netQ false (cfg peers [k1, den, gw]) (cfg peers [k1])).map (fun a => (a.notExecuted, a.num)) = some (false, 1) := by
    decide +kernel
  rw [h1] at hb
  simp only [Option.map_some, Option.some.injEq, Prod.mk.injEq] at hb
  intro h
  have := (h3 hb.1).1.2 h
  rw [hb.2] at this; exact absurd this (by decide)

end Plain

namespace Demo

/-- A policy on hyper-cube sets, given by the peers and protocols of its rules. -/
def mk (name : String) (kind : PolicyKind) (action : PolicyAction) (sel : PS) (ins outs : Bool)
    (inRules outRules : List (RuleAction × Option PS × ProtoSel)) : Policy (HC DemoDim ISet) PS :=
  ⟨name, kind, none, action, sel, ins, outs, inRules.map (fun r => ⟨r.1, netQ.rect r.2.1 (some sel) r.2.2⟩),
   outRules.map (fun r => ⟨r.1, netQ.rect (some sel) r.2.1 r.2.2⟩)⟩

section
variable {Ok Strong : HC DemoDim ISet → Prop}

theorem mk_legal (L : netQ.Lawful Ok Strong (HcWide dims)) {name kind action sel ins outs inRules outRules} :
    (mk name kind action sel ins outs inRules outRules).Legal netQ.toNet Strong := by
  constructor
  · intro dir r hr
    cases dir
    · obtain ⟨x, _, rfl⟩ := List.mem_map.1 hr
      exact L.net.rect_strong _ _ _
    · obtain ⟨x, _, rfl⟩ := List.mem_map.1 hr
      exact L.net.rect_strong _ _ _
  · intro dir r hr p hm
    cases dir
    · obtain ⟨x, _, rfl⟩ := List.mem_map.1 hr
      rw [L.net.mem_rect] at hm
      simp only [Bool.and_eq_true] at hm
      exact hm.1.1
    · obtain ⟨x, _, rfl⟩ := List.mem_map.1 hr
      rw [L.net.mem_rect] at hm
      simp only [Bool.and_eq_true] at hm
      exact hm.1.2

theorem known9 (p : Point alg) (d : DemoDim) (hd : d = .src ∨ d = .dst) : peers9.known netQ.toNet (p.1 d) := by
  have h : 1 ≤ p.1 d ∧ p.1 d ≤ 9 := by
    rcases hd with rfl | rfl
    · exact (mem_peers _).1 ((ISet.contains_spec _ _ (canonical_one 1 9 (by decide))).1 (p.2 .src))
    · exact (mem_peers _).1 ((ISet.contains_spec _ _ (canonical_one 1 9 (by decide))).1 (p.2 .dst))
  by_cases h6 : p.1 d ≤ 6
  · exact Or.inl (Or.inl (Or.inl ((mem_ps 1 6 (by decide) _).2 ⟨h.1, h6⟩)))
  · exact Or.inl (Or.inr ((mem_ps 7 9 (by decide) _).2 ⟨by omega, h.2⟩))

/-- Conditions for `Config.Good` that can be decided. -/
theorem good9 (pols : List (Policy (HC DemoDim ISet) PS))
    (hb : (PolicyStore.build pols).isSome = true) (hl : ∀ pol ∈ pols, pol.Legal netQ.toNet Strong)
    (hn : pols.all (fun pol => !pol.isCalico) = true)
    (hs : pols.all (fun pol => !netQ.Q.truthy (netQ.Q.sub pol.selected (ps 1 6))) = true) :
    (cfg peers9 pols).Good netQ Ok Strong := by
  obtain ⟨st, h⟩ := Option.isSome_iff_exists.1 hb
  have hst : (cfg peers9 pols).store = st := by unfold cfg; rw [h]; rfl
  have B := build_built _ h
  have hp : (cfg peers9 pols).store.policies = pols := by rw [hst]; exact B.policies
  refine ⟨by rw [hp, hst]; exact h, ?_, world9, ?_, ?_, ?_⟩
  · rw [hp]
    refine ⟨hl, Or.inr ?_⟩
    intro pol hpol hc
    have := List.all_eq_true.1 hn pol hpol
    rw [hc] at this; exact absurd this (by simp)
  · intro _ _ _ _ _ p _
    exact ⟨known9 p .src (Or.inl rfl), known9 p .dst (Or.inr rfl)⟩
  · rw [hp]
    intro pol hpol e he
    have h1 : netQ.Q.truthy (netQ.Q.sub pol.selected (ps 1 6)) = false := by
      have := List.all_eq_true.1 hs pol hpol
      simpa using this
    refine Or.inl ?_
    by_contra hc
    have : netQ.Q.truthy (netQ.Q.sub pol.selected (ps 1 6)) = true := by
      rw [netQ.Q.truthy_iff]
      refine ⟨e, ?_⟩
      rw [netQ.Q.mem_sub, he]
      have hc' : netQ.Q.mem e (ps 1 6) = false := by rw [← Bool.not_eq_true]; exact hc
      rw [hc']; rfl
    rw [h1] at this; exact absurd this (by simp)
  · intro n p
    cases n
    · trivial
    · exact Or.inr rfl
    · trivial
    · exact Or.inr rfl

end

def pods : PS := ps 1 6

/-- A Kubernetes policy that lets everyone reach pod 1 with TCP, and nothing else. -/
def few := mk "few" .k8s .allow pods true true [(.allow, none, .tcp)] [(.allow, some (ps 1 1), .tcp)]
def few1 := mk "few1" .k8s .allow (ps 1 1) true false [(.allow, none, .tcp)] []
def few2 := mk "few2" .k8s .allow (ps 2 6) true false [] []
def fewOut := mk "fewOut" .k8s .allow pods false true [] [(.allow, some (ps 1 1), .tcp)]
/-- An Istio policy that denies pod 1 TCP, and a sidecar for all pods that reaches pods only. -/
def no := mk "no" .istioAuthz .deny (ps 1 1) true false [(.deny, none, .tcp)] []
def side := mk "side" .istioSidecar .allow pods false true [] [(.allow, some pods, .any)]
/-- A Kubernetes policy that allows nothing. -/
def nothing := mk "nothing" .k8s .allow pods true true [] []
/-- A Kubernetes policy that does what `side` does. -/
def ks := mk "ks" .k8s .allow pods false true [] [(.allow, none, .nonTcp), (.allow, some pods, .any)]
/-- The same with one rule per pod. -/
def ks2 := mk "ks2" .k8s .allow pods false true [] [(.allow, some (ps 1 3), .tcp), (.allow, some (ps 4 6), .tcp), (.allow, none, .nonTcp)]

abbrev L9 := netQExact.1
abbrev X9 := netQExact.2

def cSide := cfg peers9 [side]
def cKs := cfg peers9 [ks]
def cKs2 := cfg peers9 [ks2]
def cNothing := cfg peers9 [nothing]
def cSplit := cfg peers9 [few1, few2, fewOut, no, side]

theorem gSide : cSide.Good netQ OkT StrongT := good9 _ (by decide +kernel) (fun pol h => by rw [List.mem_singleton.1 h]; exact mk_legal L9) (by decide +kernel) (by decide +kernel)
theorem gKs : cKs.Good netQ OkT StrongT := good9 _ (by decide +kernel) (fun pol h => by rw [List.mem_singleton.1 h]; exact mk_legal L9) (by decide +kernel) (by decide +kernel)
theorem gKs2 : cKs2.Good netQ OkT StrongT := good9 _ (by decide +kernel) (fun pol h => by rw [List.mem_singleton.1 h]; exact mk_legal L9) (by decide +kernel) (by decide +kernel)
theorem gNothing : cNothing.Good netQ OkT StrongT := good9 _ (by decide +kernel) (fun pol h => by rw [List.mem_singleton.1 h]; exact mk_legal L9) (by decide +kernel) (by decide +kernel)
theorem gSplit : cSplit.Good netQ OkT StrongT := by
  refine good9 _ (by decide +kernel) ?_ (by decide +kernel) (by decide +kernel)
  intro pol h
  simp only [List.mem_cons, List.not_mem_nil, or_false] at h
  rcases h with rfl | rfl | rfl | rfl | rfl <;> exact mk_legal L9

theorem single {l : List (Policy (HC DemoDim ISet) PS)} (h : (effectiveLayers netQ.toNet peers9 (cfg peers9 l).store.layers).length ≤ 1) :
    (cfg peers9 l).Solid netQ := Or.inr h

theorem top9 (l m : List (Policy (HC DemoDim ISet) PS)) : SameTopology netQ (cfg peers9 l) (cfg peers9 m) :=
  ⟨fun _ => rfl, fun _ => rfl, fun _ => rfl, rfl⟩

theorem sSide : cSide.Solid netQ := single (by decide +kernel)
theorem sKs : cKs.Solid netQ := single (by decide +kernel)
theorem sKs2 : cKs2.Solid netQ := single (by decide +kernel)

/-- With a single policy the order does not matter. -/
theorem one_order {pol : Policy (HC DemoDim ISet) PS} {c d : Config (HC DemoDim ISet) PS} (h : c.store.policies = [pol]) : SameOrder netQ c d := by
  refine Or.inr (fun a ha b hb _ hd => ?_)
  rw [h, List.mem_singleton] at ha hb
  subst ha; subst hb
  obtain ⟨dir, p, v, w, h1, h3, h4⟩ := hd
  rw [h1] at h3
  exact absurd (Option.some.inj h3) h4

/-- C31 with IPv6 addresses included: a sidecar and a Kubernetes policy that allow the same relevant
connections (two-way containment holds) but are declared not equivalent: one set does not mention the
sources, because Istio allows UDP also between addresses, and equality compares representations. -/
theorem C31_incomplete_wrong :
    SameAllowed netQ false none cSide cKs ∧ (equivQuery netQ false none cSide cKs).bool = false ∧
    (twoWayQuery netQ false true cSide cKs).bool = true := by
  have h2 : (twoWayQuery netQ false true cSide cKs).bool = true := by decide +kernel
  refine ⟨?_, by decide +kernel, h2⟩
  refine (C31_agrees_two_way_partial L9 false true gSide gKs sSide sKs (one_order rfl) (top9 _ _)).1.1 h2

/-- With IPv6 addresses excluded the same configurations are declared equivalent, as they should. -/
example : (equivQuery netQ true none cSide cKs).bool = true := by decide +kernel

theorem nothing_none (p : Point alg) : ¬ cNothing.allowsIn netQ none p := by
  have h := (gNothing.conns L9 none (fun _ => single (by decide +kernel))).2 p
  have hf : netQ.K.truthy (cNothing.conns netQ none ConnFilter.onlyAllAllowed).allAllowed = false := by decide +kernel
  rw [← h]
  intro hm
  have := (L9.net.truthy_iff (L9.net.strong_ok (gNothing.conns L9 none (fun _ => single (by decide +kernel))).1)).2 ⟨p, hm⟩
  rw [hf] at this; exact absurd this (by simp)

theorem split_none (p : Point alg) : ¬ cSplit.allowsIn netQ none p := by
  rintro ⟨_, _, h⟩
  have he : effectiveLayers netQ.toNet cSplit.peers cSplit.store.layers = cSplit.store.layers := rfl
  have hne : ∀ n, (layerList cSplit.store.layers n).isEmpty = false → (n, layerList cSplit.store.layers n) ∈ cSplit.store.layers := by
    intro n hn
    refine layerList_mem (fun hx => ?_)
    rw [hx] at hn; simp at hn
  rw [he] at h
  have hk := h _ (hne .k8sCalico (by decide +kernel))
  have hi := h _ (hne .istio (by decide +kernel))
  have ck := gSplit.conns L9 (some .k8sCalico) (fun h => by simp at h)
  have ci := gSplit.conns L9 (some .istio) (fun h => by simp at h)
  have mk := (ck.2 p).2 hk
  have mi := (ci.2 p).2 hi
  have ok := L9.net.strong_ok ck.1
  have oi := L9.net.strong_ok ci.1
  have hm := L9.net.mem_and ok oi p
  rw [mk, mi] at hm
  have := (L9.net.truthy_iff (L9.net.and_ok ok oi)).2 ⟨p, hm⟩
  have hf : netQ.K.truthy (netQ.K.and (cSplit.conns netQ (some .k8sCalico) ConnFilter.onlyAllAllowed).allAllowed
    (cSplit.conns netQ (some .istio) ConnFilter.onlyAllAllowed).allAllowed) = false := by decide +kernel
  rw [hf] at this; exact absurd this (by simp)

/-- C31 and C32 with IPv6 addresses included: two configurations that allow nothing are declared not
equivalent, and the one of several layers not contained in the other. -/
theorem C31_empty_wrong :
    (∀ p, ¬ cSplit.allowsIn netQ none p) ∧ (∀ p, ¬ cNothing.allowsIn netQ none p) ∧
    (equivQuery netQ false none cSplit cNothing).bool = false ∧ (containQuery netQ false true false cSplit cNothing).bool = false := by
  exact ⟨split_none, nothing_none, by decide +kernel, by decide +kernel⟩

/-- C31: exactness applies to two Kubernetes policies with different rules that do the same, with IPv6
addresses excluded. -/
example : SameAllowed netQ true none cKs cKs2 :=
  (C31_equivalent_exact_partial L9 X9 true none gKs gKs2 (fun _ => ⟨sKs, sKs2⟩) (one_order rfl) (Or.inl rfl) (top9 _ _)).1 (by decide +kernel)
example : SameAllowed netQ true (some .k8sCalico) cKs cKs2 :=
  (C31_equivalent_exact_partial L9 X9 true (some .k8sCalico) gKs gKs2 (fun h => by simp at h) (one_order rfl) (Or.inl rfl) (top9 _ _)).1 (by decide +kernel)
/-- Including IPv6 addresses: both configurations agree on irrelevant connections. -/
example : ∀ p : Point alg, ¬ Relevant netQ cKs.peers false p → (cKs.allowsIn netQ none p ↔ cKs2.allowsIn netQ none p) := by
  intro p _
  rw [← (gKs.conns L9 none (fun _ => sKs)).2 p, ← (gKs2.conns L9 none (fun _ => sKs2)).2 p]
  have : netQ.K.eq (cKs.conns netQ none ConnFilter.onlyAllAllowed).allAllowed (cKs2.conns netQ none ConnFilter.onlyAllAllowed).allAllowed = true := by
    decide +kernel
  rw [L9.net.eq_sound (L9.net.strong_ok (gKs.conns L9 none (fun _ => sKs)).1) (L9.net.strong_ok (gKs2.conns L9 none (fun _ => sKs2)).1) this p]
/-- A negative answer, with its explanation: TCP from 2 to 3 is allowed by the first configuration only. -/
example : ∃ x y, (equivQuery netQ true none cKs cNothing).expl = [x, y] ∧ netQ.K.mem (conn 2 3 6 80 (by decide)) x = true := by
  obtain ⟨x, y, h, h1, _⟩ := C31_explanation_partial L9 true none gKs gNothing (fun _ => ⟨sKs, single (by decide +kernel)⟩) (top9 _ _) (by decide +kernel)
  refine ⟨x, y, h, (h1 _).2 ⟨⟨by decide +kernel, by decide +kernel, by decide +kernel⟩, ?_, nothing_none _⟩⟩
  exact ((gKs.conns L9 none (fun _ => sKs)).2 _).1 (by decide +kernel)
example : (equivQuery netQ true none cKs cKs2).bool = (twoWayQuery netQ true true cKs cKs2).bool ∧ (equivQuery netQ true none cKs cKs2).bool = true :=
  ⟨C31_agrees_partial L9 X9 true true gKs gKs2 sKs sKs2 (one_order rfl) (top9 _ _) (Or.inl rfl), by decide +kernel⟩

end Demo
end Verif
