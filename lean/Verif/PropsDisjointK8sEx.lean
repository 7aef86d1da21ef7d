import Verif.PropsDisjointK8s
import Verif.PropsCapturedK8sEx
/-!
C35, disjointness from the texts of Kubernetes policies: an example.
-/
namespace Verif
open ISet

namespace K8sParser
open Container NamedEx

namespace Ex

/-- Non-vacuity of C35_disjoint_k8s_partial: of three policies, those on `app: db` and on all pods have a common pod and
are reported; the one without a spec is not. -/
example (ord : SetOrder) : ∃ (B : PeerDom) (pols : _) (st : PolicyStore _ _), queryDom reg [cl] = some B.idx ∧
    policiesOf A2 W2 B ord reg cl [text, lock, void] = some pols ∧ PolicyStore.build pols = some st ∧
    let D := (disjointnessQuery (connNet L2 B) (k8sConfig A2 W2 B reg cl st)).map fun d => (d.1.name, d.2.name)
    (("default/db", "default/lock") ∈ D ∨ ("default/lock", "default/db") ∈ D) ∧
    ("default/db", "default/void") ∉ D ∧ ("default/void", "default/db") ∉ D := by
  obtain ⟨B, hd, hB⟩ := domain
  obtain ⟨q, hq⟩ := accepted ord
  obtain ⟨q', hq'⟩ := lock_accepted ord
  have h0 : parsePolicy A2 PeerDom.default ord reg cl text = some q := hq
  have h0' : parsePolicy A2 PeerDom.default ord reg cl lock = some q' := hq'
  have hv : parsePolicy A2 PeerDom.default ord reg cl void = some ⟨[], false, false, [], []⟩ := rfl
  have n1 : ¬ text.full = lock.full := by decide +kernel
  have n2 : ¬ text.full = void.full := by decide +kernel
  have n3 : ¬ lock.full = void.full := by decide +kernel
  have h1 : policiesOf A2 W2 B ord reg cl [text, lock, void] =
      some [toPolicy A2 W2 B reg text q, toPolicy A2 W2 B reg lock q', toPolicy A2 W2 B reg void ⟨[], false, false, [], []⟩] := by
    unfold policiesOf; simp [h0, h0', hv]
  obtain ⟨st, h2⟩ := (build_some_iff [toPolicy A2 W2 B reg text q, toPolicy A2 W2 B reg lock q', toPolicy A2 W2 B reg void ⟨[], false, false, [], []⟩]).2 (by
    refine List.pairwise_cons.2 ⟨fun b hb h => ?_, List.pairwise_pair.2 fun h => n3 h.1⟩
    simp only [List.mem_cons, List.not_mem_nil, or_false] at hb
    rcases hb with rfl | rfl
    · exact n1 h.1
    · exact n2 h.1)
  have ht : ∀ t ∈ [text, lock, void], TameText cl t := by
    intro t ht
    simp only [List.mem_cons, List.not_mem_nil, or_false] at ht
    rcases ht with rfl | rfl | rfl
    · exact tame
    · exact tame_lock
    · exact tame_void
  have hpod : ∃ a ∈ cl, a.kind = .pod := ⟨podA, by simp [cl], rfl⟩
  obtain ⟨k, _⟩ := C35_disjoint_k8s_partial L2 cluster hd hpod ht h1 h2
  have e1 : text.full = "default/db" := by decide +kernel
  have e2 : lock.full = "default/lock" := by decide +kernel
  have e3 : void.full = "default/void" := by decide +kernel
  refine ⟨B, _, st, hd, h1, h2, ?_⟩
  intro D
  rw [← e1, ← e2, ← e3]
  have hno : ¬ ((text.full, void.full) ∈ D ∨ (void.full, text.full) ∈ D) := by
    intro h
    obtain ⟨a, _, _, s, hs, _⟩ := (k text (by simp) void (by simp) n2).1 h
    cases hs
  refine ⟨(k text (by simp) lock (by simp) n1).2 ⟨podB, by simp [cl], ⟨spec, rfl, happ⟩, lockSpec, rfl, ?_⟩, fun h => hno (Or.inl h), fun h => hno (Or.inr h)⟩
  exact ⟨rfl, ⟨nsDefault, rfl, rfl⟩, fun kv h => (by cases h), fun r h => (by cases h)⟩

end Ex
end K8sParser
end Verif
