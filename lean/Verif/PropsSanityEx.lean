import Verif.PropsSanityWhy
import Verif.PropsRedundancyEx
/-!
Non-vacuity examples and counterexamples for C66.
-/
namespace Verif
namespace Plain

/-- The peer sets of the rules: their sources and their destinations. -/
def epP (p : Pol) : EPolicy (Pt → Bool) (Fin 5 → Bool) :=
  ⟨p, p.ingressRules.map (fun r => [netQ.srcs r.props, netQ.dsts r.props]), p.egressRules.map (fun r => [netQ.srcs r.props, netQ.dsts r.props])⟩
theorem hepP (p : Pol) : (epP p).pol = p := rfl
theorem tiedP {p : Pol} (h : p.Shaped) : (epP p).Tied netQ := by
  refine ⟨by simp [epP], by simp [epP], fun dir i r ps hr hps s hs x hx => ?_, h⟩
  have hps' : ((p.rules dir).map (fun r => [netQ.srcs r.props, netQ.dsts r.props]))[i]? = some ps := by
    cases dir <;> exact hps
  rw [List.getElem?_map] at hps'
  have hr' : (p.rules dir)[i]? = some r := hr
  rw [hr', Option.map_some, Option.some.injEq] at hps'
  subst hps'
  simp only [List.mem_cons, List.not_mem_nil, or_false] at hs
  rcases hs with rfl | rfl
  · exact Or.inl (lawfulQ.srcs_sup trivial hx)
  · exact Or.inr (lawfulQ.dsts_sup trivial hx)

/-- What an issue looks like in the text. -/
inductive Shown
  | vacuous
  | emptyPolicy (p : String)
  | emptyRule (p : String) (dir : Bool) (i : Nat)
  | unexplained (p : String)
  | keepsDefault (p : String)
  | noRules (p : String)
  | within (p q : String)
  | covered (p a d : String)
  | rule (p : String) (dir : Bool) (i : Nat)
  | ruleWithin (p : String) (dir : Bool) (i : Nat) (q : String) (k : Nat) (contradict : Bool)
  deriving DecidableEq, Repr
def shownWhy (p : Pol) : PolicyWhy (Pt → Bool) (Fin 5 → Bool) → Shown
  | .unexplained => .unexplained p.name
  | .keepsDefault => .keepsDefault p.name
  | .noRules => .noRules p.name
  | .within q => .within p.name q.name
  | .covered a d => .covered p.name a.name d.name
def shown : Issue (Pt → Bool) (Fin 5 → Bool) → Shown
  | .vacuous => .vacuous
  | .emptyPolicy p => .emptyPolicy p.name
  | .emptyRule p dir i => .emptyRule p.name dir i
  | .redundantPolicy p w => shownWhy p w
  | .redundantRule p dir i none => .rule p.name dir i
  | .redundantRule p dir i (some (q, k, b)) => .ruleWithin p.name dir i q.name k b
/-- The answer with policies replaced by their names. -/
def sane (l : List Pol) : Option (Bool × Nat × Option (String × String) × List Shown) :=
  (sanityQuery netQ true epP (cfg peers l)).map (fun a => (a.bool, a.num, a.conflict.map (fun x => (x.1.name, x.2.name)), a.issues.map shown))

/-! ### Conflicts -/

/-- Calico policies of one order: one passes, the other denies. -/
def yP : Pol := ⟨"yP", .calico, some 10, .allow, set [0], true, false, [rule .pass [1] [0]], []⟩
def yD : Pol := ⟨"yD", .calico, some 10, .allow, set [0], true, false, [rule .deny [1] [0]], []⟩
def yA : Pol := ⟨"yA", .calico, some 10, .allow, set [0], true, false, [rule .allow [1] [0]], []⟩
theorem gPD : (cfg peers [yP, yD]).Good netQ (fun _ => True) (fun _ => True) :=
  good peers (Or.inl rfl) _ 2 (by decide +kernel) (by decide +kernel) (by decide +kernel) (by decide) (by decide +kernel)
theorem gDP : (cfg peers [yD, yP]).Good netQ (fun _ => True) (fun _ => True) :=
  good peers (Or.inl rfl) _ 2 (by decide +kernel) (by decide +kernel) (by decide +kernel) (by decide) (by decide +kernel)

theorem differ {l m : List Pol} (gl : (cfg peers l).Good netQ (fun _ => True) (fun _ => True)) (gm : (cfg peers m).Good netQ (fun _ => True) (fun _ => True))
    (sl : (effectiveLayers netQ.toNet peers (cfg peers l).store.layers).length ≤ 1) (sm : (effectiveLayers netQ.toNet peers (cfg peers m).store.layers).length ≤ 1)
    (p : Pt) (h1 : netQ.K.mem p ((cfg peers l).conns netQ none ConnFilter.onlyAllAllowed).allAllowed = true)
    (h2 : netQ.K.mem p ((cfg peers m).conns netQ none ConnFilter.onlyAllAllowed).allAllowed = false) :
    (cfg peers l).allows netQ p ∧ ¬ (cfg peers m).allows netQ p := by
  have a := (gl.conns lawfulQ none (fun _ => solidP sl)).2 p
  have b := (gm.conns lawfulQ none (fun _ => solidP sm)).2 p
  exact ⟨a.1 h1, fun h => by rw [b.2 h] at h2; simp at h2⟩
theorem reorderP {l m : List Pol} (hl : (PolicyStore.build l).isSome = true) (hm : (PolicyStore.build m).isSome = true) (h : m.Perm l) :
    Reordered (cfg peers l) (cfg peers m) := ⟨rfl, rfl, by rw [polsOf hl, polsOf hm]; exact h⟩

/-- C66: policies of the same order that pass and deny the same connection are not reported as a conflict,
though 1 reaches 0 only if they are read in one of the two orders. -/
theorem C66_pass_wrong :
    conflictCheck netQ epP (cfg peers [yP, yD]) = none ∧ Reordered (cfg peers [yP, yD]) (cfg peers [yD, yP]) ∧
    (cfg peers [yP, yD]).allows netQ (1, 0, true) ∧ ¬ (cfg peers [yD, yP]).allows netQ (1, 0, true) := by
  refine ⟨?_, reorderP (by decide +kernel) (by decide +kernel) (List.Perm.swap _ _ _), differ gPD gDP (by decide +kernel) (by decide +kernel) _ (by decide +kernel) (by decide +kernel)⟩
  rw [← Option.isNone_iff_eq_none]
  decide +kernel

/-- A Kubernetes policy that allows what a Calico policy of order 1000 denies. -/
def mK : Pol := ⟨"mK", .k8s, none, .allow, set [0], true, false, [rule .allow [1] [0]], []⟩
def mC : Pol := ⟨"mC", .calico, some 1000, .allow, set [0], true, false, [rule .deny [1] [0]], []⟩
theorem gKC : (cfg peers [mK, mC]).Good netQ (fun _ => True) (fun _ => True) :=
  good peers (Or.inl rfl) _ 2 (by decide +kernel) (by decide +kernel) (by decide +kernel) (by decide) (by decide +kernel)
theorem gCK : (cfg peers [mC, mK]).Good netQ (fun _ => True) (fun _ => True) :=
  good peers (Or.inl rfl) _ 2 (by decide +kernel) (by decide +kernel) (by decide +kernel) (by decide) (by decide +kernel)

/-- C66: a Kubernetes policy and a Calico policy of order 1000 that disagree are not reported as a conflict,
though 1 reaches 0 only if they are read in one of the two orders. -/
theorem C66_mixed_wrong :
    conflictCheck netQ epP (cfg peers [mK, mC]) = none ∧ Reordered (cfg peers [mK, mC]) (cfg peers [mC, mK]) ∧
    (cfg peers [mK, mC]).allows netQ (1, 0, true) ∧ ¬ (cfg peers [mC, mK]).allows netQ (1, 0, true) := by
  refine ⟨?_, reorderP (by decide +kernel) (by decide +kernel) (List.Perm.swap _ _ _), differ gKC gCK (by decide +kernel) (by decide +kernel) _ (by decide +kernel) (by decide +kernel)⟩
  rw [← Option.isNone_iff_eq_none]
  decide +kernel

theorem gAD : (cfg peers [yA, yD]).Good netQ (fun _ => True) (fun _ => True) :=
  good peers (Or.inl rfl) _ 2 (by decide +kernel) (by decide +kernel) (by decide +kernel) (by decide) (by decide +kernel)
/-- C66: the conflict of `yA` and `yD` is found. -/
example : ∃ x, conflictCheck netQ epP (cfg peers [yA, yD]) = some x ∧ Conflict netQ (epP x.1) (epP x.2) := by
  have h : (conflictCheck netQ epP (cfg peers [yA, yD])).isSome = true := by decide +kernel
  obtain ⟨x, hx⟩ := Option.isSome_iff_exists.1 h
  exact ⟨x, hx, ((C66_conflict epP hepP gAD.built).1 x hx).2.2.2⟩
/-! ### Order -/

theorem gBS : (cfg peers [big, small]).Good netQ (fun _ => True) (fun _ => True) :=
  good peers (Or.inl rfl) _ 2 (by decide +kernel) (by decide +kernel) (by decide +kernel) (by decide) (by decide +kernel)
theorem tiedSB : ∀ p ∈ (cfg peers [small, big]).store.policies, (epP p).Tied netQ := fun p hp => tiedP (shapeSB p hp)
theorem kindSB : ∀ p ∈ (cfg peers [small, big]).store.policies, p.kind = .k8s ∧ ∀ dir, ∀ r ∈ p.rules dir, r.action = .allow := by
  rw [polsOf (by decide +kernel)]
  decide +kernel

/-- C66: `small` and `big` may be read in any order. -/
example (x : Pt) : (cfg peers [small, big]).allowsIn netQ none x ↔ (cfg peers [big, small]).allowsIn netQ none x :=
  C66_order_partial epP hepP gSB gBS (reorderP (by decide +kernel) (by decide +kernel) (List.Perm.swap _ _ _)) tiedSB
    (fun p hp => Or.inl (by rw [(kindSB p hp).1]; rfl)) (fun p hp dir r hr => by rw [(kindSB p hp).2 dir r hr]; simp)
    (fun p hp q hq _ hc => by unfold Policy.isCalico at hc; rw [(kindSB q hq).1] at hc; simp at hc)
    (by rw [← Option.isNone_iff_eq_none]; decide +kernel) none x
example (x : Pt) : (cfg peers [small, big]).allowsIn netQ none x ↔ (cfg peers [big, small]).allowsIn netQ none x := by
  refine C66_undisputed epP hepP gSB gBS (reorderP (by decide +kernel) (by decide +kernel) (List.Perm.swap _ _ _)) tiedSB
    (fun p hp => Or.inl (by rw [(kindSB p hp).1]; rfl)) ?_ none x
  rintro ⟨p, hp, q, hq, _, _, _, _, a, b, hne, _, _, _, dir, _, _, ⟨i, r, ps, _, _, h1, _⟩, ⟨i', r', ps', _, _, h2, _⟩⟩
  have e1 : p.isCalico = false := by unfold Policy.isCalico; rw [(kindSB p hp).1]
  have e2 : q.isCalico = false := by unfold Policy.isCalico; rw [(kindSB q hq).1]
  rw [hepP, e1] at h1
  rw [hepP, e2] at h2
  simp at h1 h2
  exact hne (h1.symm.trans h2)

/-! ### Exceptions -/

/-- A Kubernetes policy and a Calico policy behind it that allows the same as the first rule. -/
def xK : Pol := ⟨"xK", .k8s, none, .allow, set [0], true, false, [rule .allow [1] [0], rule .allow [2] [0]], []⟩
def xC : Pol := ⟨"xC", .calico, some 2000, .allow, set [0], true, false, [rule .allow [1] [0]], []⟩
theorem gX : (cfg peers [xK, xC]).Good netQ (fun _ => True) (fun _ => True) :=
  good peers (Or.inl rfl) _ 2 (by decide +kernel) (by decide +kernel) (by decide +kernel) (by decide) (by decide +kernel)

/-- C66: the query raises an exception when a redundant rule of a Kubernetes policy is contained in a rule of a
Calico policy: rules of Kubernetes policies have no action to compare. -/
theorem C66_crash_wrong : (cfg peers [xK, xC]).Good netQ (fun _ => True) (fun _ => True) ∧ UniqueNames (cfg peers [xK, xC]) ∧
    sanityQuery netQ true epP (cfg peers [xK, xC]) = none := by
  refine ⟨gX, ?_, ?_⟩
  · unfold UniqueNames
    rw [polsOf (by decide +kernel)]
    decide
  · rw [← Option.isNone_iff_eq_none]
    decide +kernel

/-- C66: the query raises an exception about the redundant policy of two policies of one full name. -/
theorem C66_name_wrong : (cfg peers [nC, nK]).Good netQ (fun _ => True) (fun _ => True) ∧ sanityQuery netQ true epP (cfg peers [nC, nK]) = none := by
  refine ⟨gName, ?_⟩
  rw [← Option.isNone_iff_eq_none]
  decide +kernel

theorem uniqueSB : UniqueNames (cfg peers [small, big]) := by
  unfold UniqueNames
  rw [polsOf (by decide +kernel)]
  decide
/-- C66: the query answers about `small` and `big`, and its issues are real. -/
example : ∃ a, sanityQuery netQ true epP (cfg peers [small, big]) = some a ∧ a.issues ≠ [] ∧ ∀ i ∈ a.issues, i.Real netQ true (cfg peers [small, big]) := by
  obtain ⟨a, ha⟩ := C66_answers_partial lawfulQ true epP gSB shapeSB uniqueSB
    (fun p hp q hq _ => by unfold Policy.isCalico; rw [(kindSB q hq).1])
  refine ⟨a, ha, ?_, ?_⟩
  · have h : (sanityQuery netQ true epP (cfg peers [small, big])).map (fun a => a.issues.isEmpty) = some false := by decide +kernel
    rw [ha, Option.map_some, Option.some.injEq] at h
    intro he
    rw [he] at h
    simp at h
  · refine C66_real_partial lawfulQ true epP hepP gSB (fun g hg => Or.inr ?_) twinSB tiedSB (fun p hp q hq _ hn => uniqueSB.eq hp hq hn) ha
    have e := hg.store
    rw [polsOf (by decide +kernel)] at e
    have e' : PolicyStore.build [small, big] = some g.store := e
    rw [storeOf (by decide +kernel), Option.some.injEq] at e'
    rw [← e', hg.peers]
    decide +kernel
example : sane [small, big] = some (false, 2, none, [.within "small" "big", .ruleWithin "big" true 2 "big" 1 false]) := by decide +kernel
example : ∃ a, sanityQuery netQ true epP (cfg peers [small, big]) = some a ∧ a.bool = false ∧ a.num = 2 := by
  have h : (sanityQuery netQ true epP (cfg peers [small, big])).map (fun a => (a.bool, a.num)) = some (false, 2) := by decide +kernel
  obtain ⟨a, h1, h2⟩ := Option.map_eq_some_iff.1 h
  have := C66_answer true epP _ h1
  simp only [Prod.mk.injEq] at h2
  exact ⟨a, h1, h2⟩

theorem gB' : (cfg peers [big']).Good netQ (fun _ => True) (fun _ => True) :=
  good peers (Or.inl rfl) _ 2 (by decide +kernel) (by decide +kernel) (by decide +kernel) (by decide) (by decide +kernel)
/-- C66: nothing is wrong with `big'`: it is not vacuous. -/
example : ¬ Vacuous netQ true (cfg peers [big']) := by
  have h : (sanityQuery netQ true epP (cfg peers [big'])).map (fun a => a.bool) = some true := by decide +kernel
  obtain ⟨a, h1, h2⟩ := Option.map_eq_some_iff.1 h
  refine (C66_passes_partial lawfulQ exactQ epP hepP gB' (fun g hg => Or.inr ?_) ?_ ?_ h1 h2).2.2.1
  · have e := hg.store
    rw [polsOf (by decide +kernel)] at e
    have e' : PolicyStore.build [big'] = some g.store := e
    rw [storeOf (by decide +kernel), Option.some.injEq] at e'
    rw [← e', hg.peers]
    decide +kernel
  · unfold NoTwin
    rw [polsOf (by decide +kernel)]
    decide +kernel
  · rw [polsOf (by decide +kernel)]
    intro p hp
    rw [List.mem_singleton] at hp
    subst hp
    exact tiedP ⟨fun h => by simp [big'] at h, fun h => by simp [big'] at h⟩

/-! ### Reasons -/

theorem memSB {p : Pol} (h : p ∈ [small, big]) : p ∈ (cfg peers [small, big]).store.policies := by
  rw [polsOf (by decide +kernel)]
  exact h
/-- C66: `small` is said to be contained in another policy, and it is. -/
example : ∃ q, policyWhy netQ true epP (cfg peers [small, big]) .k8sCalico small = some (.within q) ∧ AllowsWithin netQ true (cfg peers [small, big]) small q := by
  have h : (policyWhy netQ true epP (cfg peers [small, big]) .k8sCalico small).map (shownWhy small) = some (.within "small" "big") := by decide +kernel
  obtain ⟨w, h1, h2⟩ := Option.map_eq_some_iff.1 h
  have R := C66_policy_reason_partial lawfulQ true hepP gSB (by decide +kernel) (tiedSB small (memSB (by simp))) (memSB (by simp)) rfl (by decide) h1
  cases w with
  | within q =>
    refine ⟨q, h1, R.2.2.1 ?_⟩
    exact ⟨true, 0, _, _, rfl, rfl, rfl, by
      intro s hs
      rw [← truthy_nobody]
      revert s
      decide +kernel⟩
  | _ => simp [shownWhy] at h2
/-- C66: the second rule of `big` is said to be contained in its first rule, and it is. -/
example : ∃ q k b, ruleWhy netQ (cfg peers [small, big]) .k8sCalico big true 2 = some (some (q, k, b)) ∧ (q = big → k ≠ 2) := by
  have h : ((ruleWhy netQ (cfg peers [small, big]) .k8sCalico big true 2).map (fun f => f.isSome)) = some true := by decide +kernel
  obtain ⟨f, h1, h2⟩ := Option.map_eq_some_iff.1 h
  obtain ⟨⟨q, k, b⟩, rfl⟩ := Option.isSome_iff_exists.1 h2
  obtain ⟨_, _, _, r, s, _, _, _, _, h3, _⟩ := C66_rule_reason lawfulQ gSB shapeSB (memSB (by simp)) rfl (by decide) h1
  exact ⟨q, k, b, h1, fun e => (h3 e).1⟩

/-- An unrelated policy of lower order, and a policy whose second rule is contained in the first. -/
def rLow : Pol := ⟨"rLow", .calico, some 5, .allow, set [2], true, false, [rule .allow [1] [2]], []⟩
def rTwo : Pol := ⟨"rTwo", .calico, some 10, .allow, set [0], true, false, [rule .allow [1] [0], rule .allow [1] [0] .tcp], []⟩

/-- C66: with an unrelated policy of lower order the query does not find that the second rule is contained in
the first one, which it finds without that policy. -/
theorem C66_reason_missing_wrong : sane [rLow, rTwo] = some (false, 1, none, [.rule "rTwo" true 2]) ∧
    sane [rTwo] = some (false, 1, none, [.ruleWithin "rTwo" true 2 "rTwo" 1 false]) := by
  constructor <;> decide +kernel

/-- Two equal sidecars. -/
def sA : Pol := ⟨"sA", .istioSidecar, none, .allow, set [2], false, true, [], [rule .allow [2] [0]]⟩
def sB : Pol := ⟨"sB", .istioSidecar, none, .allow, set [2], false, true, [], [rule .allow [2] [0]]⟩

/-- C66: of both sidecars the query says that they have no rules that allow or deny, though each has a rule that
allows connections from 2 to 0. -/
theorem C66_sidecar_text_wrong : sane [sA, sB] = some (false, 2, none, [.noRules "sA", .noRules "sB"]) ∧ (epP sA).acts netQ .allow := by
  refine ⟨by decide +kernel, false, 0, _, _, rfl, rfl, rfl, ?_⟩
  intro s hs
  rw [← truthy_nobody]
  revert s
  decide +kernel

/-- A Kubernetes policy that allows what the first rule of a Calico policy without order denies. -/
def tK : Pol := ⟨"tK", .k8s, none, .allow, set [0], true, false, [rule .allow [1] [0]], []⟩
def tC : Pol := ⟨"tC", .calico, none, .allow, set [0], true, false, [rule .deny [1] [0], rule .allow [2] [0]], []⟩

/-- C66: the deny rule is said to be contained in the allow rule, without the note that their actions differ. -/
theorem C66_note_wrong : sane [tK, tC] = some (false, 1, none, [.ruleWithin "tC" true 1 "tK" 1 false]) ∧
    tC.ruleAct (rule .deny [1] [0]) ≠ tK.ruleAct (rule .allow [1] [0]) := by
  refine ⟨by decide +kernel, by decide⟩

end Plain
end Verif
