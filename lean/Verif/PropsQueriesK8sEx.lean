import Verif.PropsQueriesK8s
import Verif.PropsPlainK8sEx
/-!
C31, C32 and C33 from the texts of Kubernetes policies: an example.
-/
namespace Verif
open ISet

namespace K8sParser
open Container NamedEx

namespace Ex

/-- Without policies all is allowed. -/
theorem says_none (src dst : End) (proto port : Int) : K8sSays reg [] src dst proto port :=
  ⟨fun ⟨_, h, _⟩ => (by cases h), fun ⟨_, h, _⟩ => (by cases h)⟩

theorem talks_ab (excl : Bool) : Talks cl excl (.peer podA) (.peer podB) :=
  ⟨by change podA ∈ cl; simp [cl], by change podB ∈ cl; simp [cl], Or.inl rfl, by intro a ha; cases ha; decide, fun _ => ⟨trivial, trivial⟩⟩

theorem conn_ab {B : PeerDom} (hB : Covers reg cl B) {port : Int} (h : 1 ≤ port ∧ port ≤ 65535) :
    Conn reg cl (onDom hB port 6 h (by decide)) (.peer podA) (.peer podB) 6 port :=
  ⟨src_at (port := port) (proto := 6) h (by decide), dst_at (port := port) (proto := 6) h (by decide), rfl, rfl⟩

/-- Non-vacuity of C31_k8s_partial, C32_k8s_partial and C33_k8s_partial: with the policy and without it, the
configurations are not equivalent; with the policy less is allowed; from the policy to none, the connection from
`default/a` to port 81 of `default/b` is added and that to port 80 is not. -/
example (ord : SetOrder) (excl : Bool) : ∃ (B : PeerDom) (pols : _) (st st' : PolicyStore _ _), queryDom reg [cl] = some B.idx ∧
    policiesOf A2 W2 B ord reg cl [text] = some pols ∧ PolicyStore.build pols = some st ∧ PolicyStore.build [] = some st' ∧
    (equivQuery (connNet L2 B) excl none (k8sConfig A2 W2 B reg cl st) (k8sConfig A2 W2 B reg cl st')).bool = false ∧
    (containQuery (connNet L2 B) excl true false (k8sConfig A2 W2 B reg cl st) (k8sConfig A2 W2 B reg cl st')).bool = true ∧
    (containQuery (connNet L2 B) excl true false (k8sConfig A2 W2 B reg cl st') (k8sConfig A2 W2 B reg cl st)).bool = false ∧
    (∃ p : Point (connA A2 B), p.1 = (pt 81 6 (by decide) (by decide)).1 ∧
      ∃ k, Reported (connNet L2 B) (computeDiff (connNet L2 B) excl (k8sConfig A2 W2 B reg cl st) (k8sConfig A2 W2 B reg cl st')) true k p) ∧
    (∃ p : Point (connA A2 B), p.1 = (pt 80 6 (by decide) (by decide)).1 ∧
      ¬ ∃ k, Reported (connNet L2 B) (computeDiff (connNet L2 B) excl (k8sConfig A2 W2 B reg cl st) (k8sConfig A2 W2 B reg cl st')) true k p) := by
  obtain ⟨B, hd, hB⟩ := domain
  obtain ⟨q, hq⟩ := accepted ord
  obtain ⟨h1, st, h2⟩ := config_of_one (t := text) (B := B) hq
  have ht : ∀ t ∈ [text], TameText cl t := by
    intro t ht; rw [List.mem_singleton] at ht; subst ht; exact tame
  have ht' : ∀ t ∈ ([] : List PolicyText), TameText cl t := fun t h => by cases h
  have h1' : policiesOf A2 W2 B ord reg cl [] = some [] := rfl
  obtain ⟨st', h2'⟩ : ∃ st', PolicyStore.build ([] : List (Policy (HC Dim (ISet ⊕ ISet)) (ConnPeers W2 B))) = some st' := ⟨_, rfl⟩
  have hpod : ∃ a ∈ cl, a.kind = .pod := ⟨podA, by simp [cl], rfl⟩
  have hne : ∀ {port : Int} (h : 1 ≤ port ∧ port ≤ 65535), (onDom hB port 6 h (by decide)).1 .srcPeers ≠ (onDom hB port 6 h (by decide)).1 .dstPeers :=
    fun h e => absurd (Sum.inl.inj e) (by decide)
  refine ⟨B, _, st, st', hd, h1, h2, h2', ?_, ?_, ?_, ⟨onDom hB 81 6 (by decide) (by decide), rfl, ?_⟩, ⟨onDom hB 80 6 (by decide) (by decide), rfl, ?_⟩⟩
  · rw [← Bool.not_eq_true]
    intro h
    have := (C31_k8s_partial L2 cluster hd hpod ht ht' h1 h1' h2 h2' excl).1 h (.peer podA) (.peer podB) 6 81 (talks_ab excl) (by decide) (by decide)
    exact not_says81 (this.2 (says_none _ _ _ _))
  · exact (C32_k8s_partial L2 cluster hd hpod ht ht' h1 h1' h2 h2' excl true).1.2 (fun _ _ _ _ _ _ _ _ => says_none _ _ _ _)
  · rw [← Bool.not_eq_true]
    intro h
    exact not_says81 ((C32_k8s_partial L2 cluster hd hpod ht' ht h1' h1 h2' h2 excl true).1.1 h (.peer podA) (.peer podB) 6 81 (talks_ab excl) (by decide) (by decide) (says_none _ _ _ _))
  · exact (C33_k8s_partial L2 cluster hd hpod ht ht' h1 h1' h2 h2' excl _ _ _ _ _ (conn_ab hB (port := 81) (by decide)) (hne (port := 81) (by decide))).2.1.2
      ⟨talks_ab excl, says_none _ _ _ _, not_says81⟩
  · intro h
    exact ((C33_k8s_partial L2 cluster hd hpod ht ht' h1 h1' h2 h2' excl _ _ _ _ _ (conn_ab hB (port := 80) (by decide)) (hne (port := 80) (by decide))).2.1.1 h).2.2 says80

end Ex
end K8sParser
end Verif
