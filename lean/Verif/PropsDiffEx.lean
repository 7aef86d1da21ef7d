import Verif.PropsDiff
import Verif.PropsQueriesEx
/-!
Non-vacuity examples and a counterexample for C33.
-/
namespace Verif
namespace Plain

/-- The peers of `peers` without pod 2. -/
def peers01 : Peers (Fin 5 → Bool) := ⟨set [0, 1], set [], set [3], set [4]⟩

theorem world01 : World netQ peers01 := by
  refine ⟨by decide, by decide, by decide, by decide, ⟨(0, 0, true), Or.inl (by decide)⟩, ⟨(4, 4, false), by decide⟩, ⟨(4, 0, true), by decide⟩, ⟨(4, 4, true), by decide⟩⟩

/-- Decidable conditions for `Config.Good` without Istio policies. -/
theorem goodK (t : Peers (Fin 5 → Bool)) (hw : World netQ t) (ps : List (Policy (Pt → Bool) (Fin 5 → Bool)))
    (hb : (PolicyStore.build ps).isSome = true)
    (hl : ∀ pol ∈ ps, ∀ dir, ∀ r ∈ pol.rules dir, ∀ p ∈ pts, r.props p = true → pol.selected (if dir then p.2.1 else p.1) = true)
    (hk : ∀ pol ∈ ps, ∀ dir, ∀ r ∈ pol.rules dir, ∀ p ∈ pts, r.props p = true →
      (((t.pods p.1 || t.heps p.1) || t.ips p.1) || t.dns p.1) = true ∧ (((t.pods p.2.1 || t.heps p.2.1) || t.ips p.2.1) || t.dns p.2.1) = true)
    (hs : ∀ pol ∈ ps, ∀ e, pol.selected e = true → (t.pods e || t.heps e) = true)
    (hi : ∀ pol ∈ ps, layerOf pol.kind = .k8sCalico) :
    (cfg t ps).Good netQ (fun _ => True) (fun _ => True) := by
  obtain ⟨st, h⟩ := Option.isSome_iff_exists.1 hb
  have hst : (cfg t ps).store = st := by unfold cfg; rw [h]; rfl
  have B := build_built _ h
  have hp : (cfg t ps).store.policies = ps := by rw [hst]; exact B.policies
  have hkn : ∀ e, (((t.pods e || t.heps e) || t.ips e) || t.dns e) = true → t.known netQ.toNet e := by
    intro e this
    simp only [Bool.or_eq_true] at this
    rcases this with (h | h) | h
    · exact Or.inl (Or.inl h)
    · exact Or.inl (Or.inr h)
    · exact Or.inr h
  refine ⟨by rw [hp, hst]; exact h, ?_, hw, ?_, ?_, ?_⟩
  · rw [hp]; exact ⟨fun pol hpol => legal_of pol (hl pol hpol), exact_of _⟩
  · rw [hp]
    intro pol hpol dir r hr p hm
    have := hk pol hpol dir r hr p (mem_pts p) hm
    exact ⟨hkn _ this.1, hkn _ this.2⟩
  · rw [hp]
    intro pol hpol e he
    rcases Bool.or_eq_true_iff.1 (hs pol hpol e he) with h | h
    · exact Or.inl h
    · exact Or.inr h
  · intro n p
    have hno : n ≠ .k8sCalico → SomeOpen netQ.toNet (layerList (cfg t ps).store.layers n) t := by
      intro hn
      obtain ⟨q, hq⟩ := hw.work
      refine ⟨netQ.src q, hq, fun pol hpol _ => ?_⟩
      rw [hst] at hpol
      obtain ⟨h1, h2⟩ := (B.mem_list n pol).1 hpol
      exact absurd (h2.symm.trans (hi pol h1)) hn
    cases n
    · trivial
    · exact Or.inl (hno (by simp))
    · trivial
    · exact Or.inl (hno (by simp))

/-- Before: TCP from 2 to 0 and 1 (`k1`), and pod 2; after: everything from 4 to 0 (`k2`), no pod 2. -/
theorem gBefore : (cfg peers [k1]).Good netQ (fun _ => True) (fun _ => True) := gK1
theorem gAfter : (cfg peers01 [k2]).Good netQ (fun _ => True) (fun _ => True) :=
  goodK peers01 world01 _ (by decide +kernel) (by decide +kernel) (by decide +kernel) (by decide +kernel) (by decide +kernel)
theorem sBefore : (cfg peers [k1]).Solid netQ := solidP (by decide +kernel)
theorem sAfter : (cfg peers01 [k2]).Solid netQ := Or.inr (by decide +kernel)
theorem kBA : KindsAgree netQ (cfg peers [k1]) (cfg peers01 [k2]) := fun _ h => (world.work_ip h).2
theorem kAB : KindsAgree netQ (cfg peers01 [k2]) (cfg peers [k1]) := fun _ h => (world01.work_ip h).2

theorem removed2 : Removed netQ (cfg peers [k1]) (cfg peers01 [k2]) (2 : Fin 5) :=
  ⟨Or.inl (Or.inl (by decide)), by rintro ((h | h) | h) <;> exact absurd h (by decide)⟩

/-- C33: TCP from 2 to 1 is lost, since 2 was removed; it is reported once, and not as added. -/
example : Reported netQ (computeDiff netQ true (cfg peers [k1]) (cfg peers01 [k2])) false .removedPersistent (2, 1, true) ∧
    ∃! k, Reported netQ (computeDiff netQ true (cfg peers [k1]) (cfg peers01 [k2])) false k (2, 1, true) := by
  have hl : Lost netQ true (cfg peers [k1]) (cfg peers01 [k2]) (2, 1, true) := by
    refine ⟨⟨by decide, by decide, by decide⟩, ((gBefore.conns lawfulQ none (fun _ => sBefore)).2 (2, 1, true)).1 (by decide +kernel), ?_⟩
    exact fun h => removed2.not_known world world01 h.1
  refine ⟨((C33_exact_partial lawfulQ true gBefore gAfter sBefore sAfter kBA kAB .removedPersistent (2, 1, true)).1).2 ⟨hl, Or.inl ⟨removed2, ?_⟩⟩, ?_⟩
  · exact ⟨Or.inl (Or.inl (by decide)), Or.inl (Or.inl (by decide))⟩
  · exact (C33_once_partial lawfulQ true gBefore gAfter sBefore sAfter kBA kAB (2, 1, true) (by decide) ⟨2, Or.inl rfl, Or.inl removed2⟩).1 hl
/-- Everything from 4 to 0 is gained (with IPv6 included: 4 is an IPv6 address). -/
example : ∃ x, (.persistentIps, some x) ∈ (computeDiff netQ false (cfg peers [k1]) (cfg peers01 [k2])).map (fun e => (e.1, e.2.2)) ∧
    netQ.K.mem (4, 0, false) x = true := ⟨_, by unfold computeDiff; simp; rfl, by decide +kernel⟩
example : (diffQuery netQ false false (cfg peers [k1]) (cfg peers01 [k2])).1.num > 0 ∧ (diffQuery netQ false true (cfg peers [k1]) (cfg peers01 [k2])).1.bool = false := by
  decide +kernel
/-- The same configuration written differently: empty diff. -/
def k1' : Policy (Pt → Bool) (Fin 5 → Bool) :=
  ⟨"k1'", .k8s, none, .allow, set [0, 1], true, false, [rule .allow [2] [0] .tcp, rule .allow [2] [1] .tcp], []⟩
theorem gK1' : (cfg peers [k1']).Good netQ (fun _ => True) (fun _ => True) :=
  good peers (Or.inl rfl) _ 2 (by decide +kernel) (by decide +kernel) (by decide +kernel) (by decide) (by decide +kernel)
theorem one_order {pol : Policy (Pt → Bool) (Fin 5 → Bool)} {c d : Config (Pt → Bool) (Fin 5 → Bool)} (h : c.store.policies = [pol]) : SameOrder netQ c d := by
  refine Or.inr (fun a ha b hb _ hd => ?_)
  rw [h, List.mem_singleton] at ha hb
  subst ha; subst hb
  obtain ⟨dir, p, v, w, h1, h3, h4⟩ := hd
  rw [h1] at h3
  exact absurd (Option.some.inj h3) h4
example : ∀ added k p, ¬ Reported netQ (computeDiff netQ true (cfg peers [k1]) (cfg peers [k1'])) added k p :=
  (C33_same_partial lawfulQ true true gK1 gK1' sBefore (solidP (by decide +kernel)) (one_order rfl) (topP _ _)
    ((C31_equivalent_exact_partial lawfulQ exactQ true none gK1 gK1' (fun _ => ⟨sBefore, solidP (by decide +kernel)⟩) (one_order rfl) (Or.inl rfl)
      (topP _ _)).1 (by decide +kernel))).2

/-- An Istio policy that selects nobody. -/
def vacant : Policy (Pt → Bool) (Fin 5 → Bool) := ⟨"vacant", .istioAuthz, none, .allow, set [], true, false, [], []⟩
theorem gVacant : (cfg peers [vacant]).Good netQ (fun _ => True) (fun _ => True) :=
  good peers (Or.inl rfl) _ 2 (by decide +kernel) (by decide +kernel) (by decide +kernel) (by decide) (by decide +kernel)
theorem gNone : (cfg peers []).Good netQ (fun _ => True) (fun _ => True) :=
  good peers (Or.inl rfl) _ 2 (by decide +kernel) (by decide +kernel) (by decide +kernel) (by decide) (by decide +kernel)

/-- C33: the policy selects nobody, but brings in the Istio layer, and pods lose UDP to the DNS entry.  The
diff reports nothing. -/
theorem C33_uncaptured_wrong :
    Lost netQ true (cfg peers []) (cfg peers [vacant]) (1, 3, false) ∧ (diffQuery netQ true true (cfg peers []) (cfg peers [vacant])).1.bool = true ∧
    ∀ k, ¬ Reported netQ (computeDiff netQ true (cfg peers []) (cfg peers [vacant])) false k (1, 3, false) := by
  have s1 : (cfg peers []).Solid netQ := solidP (by decide +kernel)
  have s2 : (cfg peers [vacant]).Solid netQ := solidP (by decide +kernel)
  refine ⟨⟨⟨by decide, by decide, by decide⟩, ?_, ?_⟩, by decide +kernel, fun k h => ?_⟩
  · exact ((gNone.conns lawfulQ none (fun _ => s1)).2 (1, 3, false)).1 (by decide +kernel)
  · intro h
    have := ((gVacant.conns lawfulQ none (fun _ => s2)).2 (1, 3, false)).2 h
    exact absurd this (by decide +kernel)
  · have hc := (((C33_exact_partial lawfulQ true gNone gVacant s1 s2 (kindsP _ _) (kindsP _ _) k (1, 3, false)).1).1 h)
    have ha := (C33_answer_partial lawfulQ true true gNone gVacant s1 s2 (kindsP _ _) (kindsP _ _) (Or.inr (by
      intro a ha; exact absurd ha (by simp [cfg, PolicyStore.build, PolicyStore.empty])))).1.1 (by decide +kernel) (1, 3, false) k hc.2
    exact ha.1 hc.1

end Plain
end Verif
