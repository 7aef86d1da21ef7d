import Verif.PropsPlainK8s
import Verif.PropsK8sParseEx
/-!
C70 from the texts of Kubernetes policies: an example.
-/
namespace Verif
open ISet PlainList

namespace K8sParser
open Container NamedEx

namespace Ex

theorem happ : Applies nsDefault spec.podSelector (.peer podB) := by
  refine ⟨rfl, ⟨nsDefault, rfl, rfl⟩, fun kv hkv => ?_, fun r hr => by cases hr⟩
  simp only [spec, List.mem_singleton] at hkv; subst hkv; exact Or.inl (by decide)

theorem says80 : K8sSays reg [text] (.peer podA) (.peer podB) 6 80 := by
  have hnot : ¬ Isolated [text] false (.peer podA) := by
    rintro ⟨t, ht, s, hs, hg, _⟩
    rw [List.mem_singleton] at ht; subst ht; cases hs
    rcases hg with hg | hg
    · simp [spec] at hg
    · simp [spec] at hg
  refine ⟨fun h => absurd h hnot, fun _ => ⟨text, by simp, spec, rfl, Or.inr (by simp [spec]), happ, _, List.mem_cons_self .., ?_⟩⟩
  refine ⟨Or.inr ⟨_, List.mem_singleton.2 rfl, rfl, rfl, nsDefault, rfl, rfl, fun kv hkv => ?_, fun r hr => by cases hr⟩,
    Or.inr ⟨_, List.mem_singleton.2 rfl, rfl, podB, "default/b", "TCP", rfl, by decide +kernel, by decide, by decide⟩⟩
  rw [List.mem_singleton] at hkv; subst hkv; exact Or.inl (by decide)

theorem not_says81 : ¬ K8sSays reg [text] (.peer podA) (.peer podB) 6 81 := by
  rintro ⟨_, h⟩
  obtain ⟨t, ht, s, hs, _, _, r, hr, _, hp⟩ := h ⟨text, by simp, spec, rfl, Or.inr (by simp [spec]), happ⟩
  rw [List.mem_singleton] at ht; subst ht; cases hs
  simp only [PolicySpec.rules, spec, RuleField.rules, if_true, List.mem_cons, List.not_mem_nil, or_false] at hr
  rcases hr with rfl | rfl
  · rcases hp with hp | ⟨e, he, _, hm⟩
    · cases hp
    · rw [List.mem_singleton] at he; subst he
      obtain ⟨p, k, pr, hp, hk, hl, _⟩ := hm
      cases hp
      have : k = "default/b" := by
        have h : podB.elem = .pod "default/b" := by decide +kernel
        rw [h] at hk; cases hk; rfl
      subst this
      exact absurd hl (by simp [reg, PodReg.named, List.lookup])
  · rcases hp with hp | ⟨e, he, hp, _⟩
    · cases hp
    · rw [List.mem_singleton] at he; subst he
      exact absurd hp (by decide)

def wl (k : String) : String := k ++ "[Deployment]"

theorem wl_good : GoodNames reg.keys wl where
  inj := by
    intro k hk k' hk' h
    simp only [reg, PodReg.keys, List.map_cons, List.map_nil, List.mem_cons, List.not_mem_nil, or_false] at hk hk'
    rcases hk with rfl | rfl <;> rcases hk' with rfl | rfl <;> first | rfl | exact absurd h (by decide +kernel)
  noText := by
    intro k hk S
    simp only [reg, PodReg.keys, List.map_cons, List.map_nil, List.mem_cons, List.not_mem_nil, or_false] at hk
    rcases hk with rfl | rfl <;> exact not_addresses (c := '[') (by decide +kernel) (by decide) (by decide +kernel) S

/-- Non-vacuity of C45_good_partial and C70_k8s_partial: the list tells that `default/a` may connect to port 80 of
`default/b` over TCP, and does not tell it of port 81, as the text says. -/
example (ord : SetOrder) (excl : Bool) : ∃ (B : PeerDom) (pols : _) (st : PolicyStore _ _), queryDom reg [cl] = some B.idx ∧
    policiesOf A2 W2 B ord reg cl [text] = some pols ∧ PolicyStore.build pols = some st ∧
    (∃ p : Point (connA A2 B), p.1 = (pt 80 6 (by decide) (by decide)).1 ∧
      ∀ info, ∃ part ∈ sections (connA A2 B) allDims .srcPeers .dstPeers .protocols tcpVal nonTcpVal (real reg.keys wl) List.length (hasIstio st.layers)
        (connMap (connNet L2 B) excl info none (k8sConfig A2 W2 B reg cl st)), ∃ l ∈ part.2,
      Tells (connA A2 B) (connWf W2 B) .srcPeers .dstPeers .protocols tcpVal nonTcpVal (real reg.keys wl) .dstPorts part.1 l p.1) ∧
    (∃ p : Point (connA A2 B), p.1 = (pt 81 6 (by decide) (by decide)).1 ∧
      ∀ info, ¬ ∃ part ∈ sections (connA A2 B) allDims .srcPeers .dstPeers .protocols tcpVal nonTcpVal (real reg.keys wl) List.length (hasIstio st.layers)
        (connMap (connNet L2 B) excl info none (k8sConfig A2 W2 B reg cl st)), ∃ l ∈ part.2,
      Tells (connA A2 B) (connWf W2 B) .srcPeers .dstPeers .protocols tcpVal nonTcpVal (real reg.keys wl) .dstPorts part.1 l p.1) := by
  obtain ⟨B, hd, hB⟩ := domain
  obtain ⟨q, hq⟩ := accepted ord
  obtain ⟨h1, st, h2⟩ := config_of_one (t := text) (B := B) hq
  have ht : ∀ t ∈ [text], TameText cl t := by
    intro t ht; rw [List.mem_singleton] at ht; subst ht; exact tame
  refine ⟨B, _, st, hd, h1, h2, ⟨onDom hB 80 6 (by decide) (by decide), rfl, fun info => ?_⟩, ⟨onDom hB 81 6 (by decide) (by decide), rfl, fun info => ?_⟩⟩
  · exact (C70_k8s_partial L2 cluster hd [text] ht h1 h2 wl_good List.length excl info (onDom hB 80 6 (by decide) (by decide)) (.peer podA) (.peer podB) 6 80
      (src_at (port := 80) (proto := 6) (by decide) (by decide)) (dst_at (port := 80) (proto := 6) (by decide) (by decide)) rfl rfl (Or.inl rfl)
      (by intro h; exact absurd (Sum.inl.inj h) (by decide)) (by intro a ha; cases ha; decide) (fun _ => ⟨trivial, trivial⟩)).2 says80
  · exact fun h => not_says81 ((C70_k8s_partial L2 cluster hd [text] ht h1 h2 wl_good List.length excl info (onDom hB 81 6 (by decide) (by decide)) (.peer podA) (.peer podB) 6 81
      (src_at (port := 81) (proto := 6) (by decide) (by decide)) (dst_at (port := 81) (proto := 6) (by decide) (by decide)) rfl rfl (Or.inl rfl)
      (by intro h; exact absurd (Sum.inl.inj h) (by decide)) (by intro a ha; cases ha; decide) (fun _ => ⟨trivial, trivial⟩)).1 h)

end Ex
end K8sParser
end Verif
