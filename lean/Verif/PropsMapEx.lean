import Verif.PropsMap
import Verif.PropsRedundancyEx
import Verif.PropsDiffEx
/-!
Non-vacuity examples and a counterexample for C36.
-/
namespace Verif
namespace Plain

/-- Pods 0 and 1 belong to the deployments "web" and "webhook" of namespace "a"; pod 2 to namespace "b". -/
def attr (e : Fin 5) : PeerAttrs :=
  match e with
  | 0 => ⟨true, "a", some "web".toList, "a/web(Deployment)".toList, [("app", "x"), ("tier", "1")]⟩
  | 1 => ⟨true, "a", some "webhook".toList, "a/webhook(Deployment)".toList, [("app", "x"), ("tier", "2")]⟩
  | 2 => ⟨true, "b", some "db".toList, "b/db(Deployment)".toList, [("app", "y")]⟩
  | _ => ⟨false, "None", none, [], []⟩
def info (s : Fin 5 → Bool) : PeerAttrs := attr (((List.finRange 5).find? s).getD 4)

theorem describes : Describes netQ info attr := by
  intro s a ha e he
  change a ∈ ((List.finRange 5).filter s).map (fun e => set [e]) at ha
  obtain ⟨x, _, rfl⟩ := List.mem_map.1 ha
  change set [x] e = true at he
  have hx : e = x := by simpa [set] using he
  subst hx
  revert e
  have : ∀ e : Fin 5, ((List.finRange 5).find? (set [e])).getD 4 = e := by decide
  intro e _ _ _
  unfold info
  rw [this e]

theorem anySource : AnySource netQ := fun p => ⟨(p.2.1, 0, true), rfl⟩

theorem gSmallK : (cfg peers [small]).Good netQ (fun _ => True) (fun _ => True) :=
  goodK peers world _ (by decide +kernel) (by decide +kernel) (by decide +kernel) (by decide +kernel) (by decide +kernel)

/-- `small` lets 1 connect to 0 only; without a subset this connection is shown and hence allowed, that
from 2 is relevant but not shown and hence not allowed. -/
example : (cfg peers [small]).allows netQ (1, 0, true) ∧ ¬ (cfg peers [small]).allows netQ (2, 0, true) := by
  refine ⟨((C36_map_partial gSmallK lawfulQ anySource describes none true (Or.inl rfl) _).1 (by decide +kernel)).1, fun h => ?_⟩
  have := (C36_map_partial gSmallK lawfulQ anySource describes none true (Or.inl rfl) (2, 0, true)).2
    ⟨h, ⟨by decide +kernel, by decide +kernel, fun _ => by decide +kernel⟩, Or.inl (fun s h => absurd h (by simp))⟩
  revert this
  decide +kernel
example : ∃ m, shownMaps netQ true info none (cfg peers [small]) = [m] := by
  have := C36_parts_partial gSmallK lawfulQ anySource describes none true (Or.inl rfl)
  rwa [if_neg (by decide +kernel)] at this
/-- With the namespace "b" as subset, connections between the pods of "a" are not shown. -/
example : ¬ ∃ m ∈ shownMaps netQ true info (some ⟨["b"], [], []⟩) (cfg peers [small]), netQ.K.mem (1, 0, true) m = true := by
  decide +kernel
example : ∃ m ∈ shownMaps netQ true info (some ⟨["b"], [], []⟩) (cfg peers [small]), netQ.K.mem (1, 2, false) m = true := by
  decide +kernel
/-- By labels: all pairs of one of the sets. -/
example : (List.finRange 5).filter (fun e => inSubset (some ⟨[], [], [[("app", "x"), ("tier", "2")], [("app", "y")]]⟩) (attr e)) = [1, 2] := by
  decide +kernel
/-- With an Istio policy there are two maps. -/
example : (shownMaps netQ true info none (cfg peers [⟨"authz", .istioAuthz, none, .allow, set [0], true, false, [rule .allow [1] [0]], []⟩])).length = 2 := by
  decide +kernel

/-- A deployment is selected when the given name is only a part of its name: asking for "web" also
shows the connections of "webhook" (NetworkConfigQuery.py 709). -/
theorem C36_deployment_part_wrong :
    ∃ sp : SubsetSpec, sp.deployments = ["web".toList] ∧ sp.namespaces = [] ∧ sp.labels = [] ∧
      (attr 1).owner = some "webhook".toList ∧
      ∃ m ∈ shownMaps netQ true info (some sp) (cfg peers []), netQ.K.mem (1, 2, true) m = true :=
  ⟨⟨[], ["web".toList], []⟩, rfl, rfl, rfl, rfl, by decide +kernel⟩

end Plain
end Verif
