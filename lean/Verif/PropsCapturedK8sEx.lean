import Verif.PropsCapturedK8s
import Verif.PropsOneK8sEx
/-!
C45, captured pods: an example.
-/
namespace Verif
open ISet

namespace K8sParser
open Container NamedEx

namespace Ex

/-- No pod of the namespace takes or opens connections. -/
def lockSpec : PolicySpec where
  podSelector := ⟨[], []⟩
  ingress := .absent
  egress := .absent
  types := [.ingress, .egress]

def lock : PolicyText := ⟨"lock", nsDefault, some lockSpec⟩

theorem lock_rules (d : Bool) : lockSpec.rules d = [] := by cases d <;> rfl

theorem lock_accepted (ord : SetOrder) : ∃ q, parseSpec A2 PeerDom.default ord reg cl nsDefault lockSpec = some q := by
  rw [C44_accepted L2 cluster]
  refine ⟨Or.inr (Or.inr (Or.inr rfl)), fun h => (by cases h), fun h => (by cases h), fun r hr => (by cases hr), fun d r hr => ?_⟩
  rw [lock_rules] at hr; cases hr

theorem tame_lock : TameText cl lock := by
  intro s hs
  cases hs
  refine ⟨fun h => (by cases h.1), fun d r hr => ?_⟩
  rw [lock_rules] at hr; cases hr

theorem lock_isolates (d : Bool) : ∀ a ∈ cl, Isolated [lock] d (.peer a) := by
  intro a ha
  refine ⟨lock, by simp, lockSpec, rfl, ?_, ?_⟩
  · cases d
    · exact Or.inl (by simp [lockSpec])
    · exact Or.inr (by simp [lockSpec])
  · simp only [cl, List.mem_cons, List.not_mem_nil, or_false] at ha
    rcases ha with rfl | rfl <;> exact ⟨rfl, ⟨nsDefault, rfl, rfl⟩, fun kv h => (by cases h), fun r h => (by cases h)⟩

theorem not_isolated : ¬ Isolated [text] false (.peer podA) := by
  rintro ⟨t, ht, s, hs, hg, _⟩
  rw [List.mem_singleton] at ht; subst ht; cases hs
  rcases hg with hg | hg
  · simp [spec] at hg
  · simp [spec] at hg

/-- Non-vacuity of C45_captured_partial: a policy that selects all pods captures all, one about ingress does not. -/
example (ord : SetOrder) : ∃ (B : PeerDom) (pols pols' : _) (st st' : PolicyStore _ _), queryDom reg [cl] = some B.idx ∧
    policiesOf A2 W2 B ord reg cl [lock] = some pols ∧ PolicyStore.build pols = some st ∧
    policiesOf A2 W2 B ord reg cl [text] = some pols' ∧ PolicyStore.build pols' = some st' ∧
    (allCapturedQuery (connNet L2 B) (k8sConfig A2 W2 B reg cl st)).1 = true ∧
    (allCapturedQuery (connNet L2 B) (k8sConfig A2 W2 B reg cl st')).1 = false := by
  obtain ⟨B, hd, hB⟩ := domain
  obtain ⟨q, hq⟩ := lock_accepted ord
  obtain ⟨q', hq'⟩ := accepted ord
  obtain ⟨h1, st, h2⟩ := config_of_one (t := lock) (B := B) hq
  obtain ⟨h1', st', h2'⟩ := config_of_one (t := text) (B := B) hq'
  have ht : ∀ t ∈ [lock], TameText cl t := by
    intro t ht; rw [List.mem_singleton.1 ht]; exact tame_lock
  have ht' : ∀ t ∈ [text], TameText cl t := by
    intro t ht; rw [List.mem_singleton.1 ht]; exact tame
  have hpod : ∃ a ∈ cl, a.kind = .pod := ⟨podA, by simp [cl], rfl⟩
  refine ⟨B, _, _, st, st', hd, h1, h2, h1', h2', ?_, ?_⟩
  · exact (C45_captured_partial L2 cluster hd hpod ht h1 h2).1.2 ⟨by simp, fun a ha _ => ⟨lock_isolates true a ha, lock_isolates false a ha⟩⟩
  · rw [← Bool.not_eq_true, (C45_captured_partial L2 cluster hd hpod ht' h1' h2').1]
    exact fun h => not_isolated (h.2 podA (by simp [cl]) rfl).2

end Ex
end K8sParser
end Verif
