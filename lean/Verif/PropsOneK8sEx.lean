import Verif.PropsOneK8s
import Verif.PropsQueriesK8sEx
/-!
C34, C35 and C42 from the texts of Kubernetes policies: examples.
-/
namespace Verif
open ISet

namespace K8sParser
open Container NamedEx

namespace Ex

/-- A policy without a spec. -/
def void : PolicyText := ⟨"void", nsDefault, none⟩

theorem tame_void : TameText cl void := fun s h => by cases h

theorem rest_void : Rest [text, void] void.full = [text] := by
  unfold Rest
  rw [List.filter_cons_of_pos (by decide +kernel), List.filter_cons_of_neg (by decide +kernel)]; rfl

theorem rest_text : Rest [text, void] text.full = [void] := by
  unfold Rest
  rw [List.filter_cons_of_neg (by decide +kernel), List.filter_cons_of_pos (by decide +kernel)]; rfl

theorem isolated_iff (ts : List PolicyText) (d : Bool) (E : End) : Isolated (ts ++ [void]) d E ↔ Isolated ts d E := by
  constructor
  · rintro ⟨t, ht, s, hs, h⟩
    rw [List.mem_append, List.mem_singleton] at ht
    rcases ht with ht | rfl
    · exact ⟨t, ht, s, hs, h⟩
    · cases hs
  · rintro ⟨t, ht, h⟩
    exact ⟨t, List.mem_append_left _ ht, h⟩

theorem covered_iff (ts : List PolicyText) (d : Bool) (E other dst : End) (proto port : Int) :
    Covered reg (ts ++ [void]) d E other dst proto port ↔ Covered reg ts d E other dst proto port := by
  constructor
  · rintro ⟨t, ht, s, hs, h⟩
    rw [List.mem_append, List.mem_singleton] at ht
    rcases ht with ht | rfl
    · exact ⟨t, ht, s, hs, h⟩
    · cases hs
  · rintro ⟨t, ht, h⟩
    exact ⟨t, List.mem_append_left _ ht, h⟩

theorem says_void (ts : List PolicyText) (src dst : End) (proto port : Int) :
    K8sSays reg (ts ++ [void]) src dst proto port ↔ K8sSays reg ts src dst proto port := by
  unfold K8sSays
  rw [isolated_iff, isolated_iff, covered_iff, covered_iff]

/-- Non-vacuity of C34_k8s_partial and C34_k8s_query_partial: of a policy and one without a spec, the second is reported and the first is not. -/
example (ord : SetOrder) : ∃ (B : PeerDom) (pols : _) (st : PolicyStore _ _) (rs : List String), queryDom reg [cl] = some B.idx ∧
    policiesOf A2 W2 B ord reg cl [text, void] = some pols ∧ PolicyStore.build pols = some st ∧
    redundantPolicies (connNet L2 B) true (k8sConfig A2 W2 B reg cl st) (layerList st.layers .k8sCalico) .k8sCalico = some rs ∧
    "default/void" ∈ rs ∧ "default/db" ∉ rs ∧
    ∃ rep, redundancyQuery (connNet L2 B) true (k8sConfig A2 W2 B reg cl st) = some rep ∧ "default/void" ∈ rep.policies ∧ "default/db" ∉ rep.policies := by
  obtain ⟨B, hd, hB⟩ := domain
  obtain ⟨q, hq⟩ := accepted ord
  have hq' : parsePolicy A2 PeerDom.default ord reg cl text = some q := hq
  have h1 : policiesOf A2 W2 B ord reg cl [text, void] = some [toPolicy A2 W2 B reg text q, toPolicy A2 W2 B reg void ⟨[], false, false, [], []⟩] := by
    have hv : parsePolicy A2 PeerDom.default ord reg cl void = some ⟨[], false, false, [], []⟩ := rfl
    unfold policiesOf; simp [hq', hv]
  obtain ⟨st, h2⟩ := (build_some_iff [toPolicy A2 W2 B reg text q, toPolicy A2 W2 B reg void ⟨[], false, false, [], []⟩]).2 (by
    refine List.pairwise_pair.2 ?_
    rintro ⟨h, _⟩
    exact absurd h (by change ¬ text.full = void.full; decide +kernel))
  have ht : ∀ t ∈ [text, void], TameText cl t := by
    intro t ht
    rw [List.mem_cons, List.mem_singleton] at ht
    rcases ht with rfl | rfl
    · exact tame
    · exact tame_void
  have hpod : ∃ a ∈ cl, a.kind = .pod := ⟨podA, by simp [cl], rfl⟩
  have key : ∀ rs : List String, (∀ name ∈ rs, (∃ t ∈ [text, void], t.full = name) ∧ SaySame reg cl true [text, void] (Rest [text, void] name)) →
      (true = true → 1 < [text, void].length → ∀ t ∈ [text, void], SaySame reg cl true [text, void] (Rest [text, void] t.full) → t.full ∈ rs) →
      "default/void" ∈ rs ∧ "default/db" ∉ rs := by
    intro rs h4 h5
    refine ⟨?_, fun h => ?_⟩
    · refine h5 rfl (by decide) void (by simp) ?_
      rw [rest_void]
      exact fun src dst proto port _ _ _ => says_void [text] src dst proto port
    · have := (h4 "default/db" h).2
      rw [show "default/db" = text.full by decide +kernel, rest_text] at this
      have h6 := (this (.peer podA) (.peer podB) 6 81 (talks_ab true) (by decide) (by decide)).2 ((says_void [] _ _ _ _).2 (says_none _ _ _ _))
      exact not_says81 ((says_void [text] _ _ _ _).1 h6)
  obtain ⟨rs, h3, h4, h5⟩ := C34_k8s_partial L2 cluster hd hpod ht h1 h2 true
  obtain ⟨rep, k3, k4, k5⟩ := C34_k8s_query_partial L2 cluster hd hpod ht h1 h2 true
  exact ⟨B, _, st, rs, hd, h1, h2, h3, (key rs h4 h5).1, (key rs h4 h5).2, rep, k3, key _ k4 k5⟩

/-- Non-vacuity of C35_k8s_partial: the configuration of the policy is not vacuous, that of the policy without a spec is. -/
example (ord : SetOrder) : ∃ (B : PeerDom) (pols pols' : _) (st st' : PolicyStore _ _), queryDom reg [cl] = some B.idx ∧
    policiesOf A2 W2 B ord reg cl [text] = some pols ∧ PolicyStore.build pols = some st ∧
    policiesOf A2 W2 B ord reg cl [void] = some pols' ∧ PolicyStore.build pols' = some st' ∧
    vacuityQuery (connNet L2 B) true (k8sConfig A2 W2 B reg cl st) = some false ∧
    vacuityQuery (connNet L2 B) true (k8sConfig A2 W2 B reg cl st') = some true := by
  obtain ⟨B, hd, hB⟩ := domain
  obtain ⟨q, hq⟩ := accepted ord
  obtain ⟨h1, st, h2⟩ := config_of_one (t := text) (B := B) hq
  obtain ⟨h1', st', h2'⟩ := config_of_one (t := void) (B := B) (q := ⟨[], false, false, [], []⟩) (ord := ord) rfl
  have ht : ∀ t ∈ [text], TameText cl t := by
    intro t ht; rw [List.mem_singleton.1 ht]; exact tame
  have ht' : ∀ t ∈ [void], TameText cl t := by
    intro t ht; rw [List.mem_singleton.1 ht]; exact tame_void
  have hpod : ∃ a ∈ cl, a.kind = .pod := ⟨podA, by simp [cl], rfl⟩
  refine ⟨B, _, _, st, st', hd, h1, h2, h1', h2', ?_, ?_⟩
  · obtain ⟨b, hb, h, _⟩ := C35_k8s_partial L2 cluster hd hpod ht h1 h2 true
    rw [hb]
    cases b
    · rfl
    · exact absurd (h rfl (.peer podA) (.peer podB) 6 81 (talks_ab true) (by decide) (by decide)) not_says81
  · obtain ⟨b, hb, _, h⟩ := C35_k8s_partial L2 cluster hd hpod ht' h1' h2' true
    rw [hb, h rfl fun src dst proto port _ _ _ => (says_void [] src dst proto port).2 (says_none _ _ _ _)]

/-- Non-vacuity of C42_k8s_partial: a policy and one without a spec are strongly equivalent to the two in the other order,
and not to the first alone, although Kubernetes says the same. -/
example (ord : SetOrder) : ∃ (B : PeerDom) (pols pols' pols'' : _) (st st' st'' : PolicyStore _ _) (x y : _), queryDom reg [cl] = some B.idx ∧
    policiesOf A2 W2 B ord reg cl [text, void] = some pols ∧ PolicyStore.build pols = some st ∧
    policiesOf A2 W2 B ord reg cl [void, text] = some pols' ∧ PolicyStore.build pols' = some st' ∧
    policiesOf A2 W2 B ord reg cl [text] = some pols'' ∧ PolicyStore.build pols'' = some st'' ∧
    strongQuery (connNet L2 B) true (k8sConfig A2 W2 B reg cl st) (k8sConfig A2 W2 B reg cl st') = some x ∧ x.bool = true ∧
    strongQuery (connNet L2 B) true (k8sConfig A2 W2 B reg cl st) (k8sConfig A2 W2 B reg cl st'') = some y ∧ y.bool = false := by
  obtain ⟨B, hd, hB⟩ := domain
  obtain ⟨q, hq⟩ := accepted ord
  have hq' : parsePolicy A2 PeerDom.default ord reg cl text = some q := hq
  have hv : parsePolicy A2 PeerDom.default ord reg cl void = some ⟨[], false, false, [], []⟩ := rfl
  have hne : ¬ text.full = void.full := by decide +kernel
  have h1 : policiesOf A2 W2 B ord reg cl [text, void] = some [toPolicy A2 W2 B reg text q, toPolicy A2 W2 B reg void ⟨[], false, false, [], []⟩] := by
    unfold policiesOf; simp [hq', hv]
  have h1' : policiesOf A2 W2 B ord reg cl [void, text] = some [toPolicy A2 W2 B reg void ⟨[], false, false, [], []⟩, toPolicy A2 W2 B reg text q] := by
    unfold policiesOf; simp [hq', hv]
  obtain ⟨st, h2⟩ := (build_some_iff [toPolicy A2 W2 B reg text q, toPolicy A2 W2 B reg void ⟨[], false, false, [], []⟩]).2
    (List.pairwise_pair.2 fun h => hne h.1)
  obtain ⟨st', h2'⟩ := (build_some_iff [toPolicy A2 W2 B reg void ⟨[], false, false, [], []⟩, toPolicy A2 W2 B reg text q]).2
    (List.pairwise_pair.2 fun h => hne h.1.symm)
  obtain ⟨h1'', st'', h2''⟩ := config_of_one (t := text) (B := B) hq
  have ht : ∀ t ∈ [text, void], TameText cl t := by
    intro t ht
    rw [List.mem_cons, List.mem_singleton] at ht
    rcases ht with rfl | rfl
    · exact tame
    · exact tame_void
  have ht' : ∀ t ∈ [void, text], TameText cl t := fun t h => ht t (by simp only [List.mem_cons, List.not_mem_nil, or_false] at h ⊢; exact h.symm)
  have ht'' : ∀ t ∈ [text], TameText cl t := fun t h => ht t (by rw [List.mem_singleton.1 h]; simp)
  have hpod : ∃ a ∈ cl, a.kind = .pod := ⟨podA, by simp [cl], rfl⟩
  obtain ⟨x, hx, _, _, _, hx'⟩ := C42_k8s_partial L2 cluster hd hpod ht h1 h2 ht' h1' h2' true
  obtain ⟨y, hy, _, _, hy', _⟩ := C42_k8s_partial L2 cluster hd hpod ht h1 h2 ht'' h1'' h2'' true
  refine ⟨B, _, _, _, st, st', st'', x, y, hd, h1, h2, h1', h2', h1'', h2'', hx, hx' rfl ⟨fun n => ?_, fun t h t' h' he => ?_⟩, hy, ?_⟩
  · simp only [List.mem_cons, List.not_mem_nil, or_false]
    exact exists_congr fun t => and_congr_left fun _ => or_comm
  · have : t = t' := by
      simp only [List.mem_cons, List.not_mem_nil, or_false] at h h'
      rcases h with rfl | rfl <;> rcases h' with rfl | rfl <;> first | rfl | exact absurd he hne | exact absurd he.symm hne
    rw [this]
    exact fun _ _ _ _ _ _ _ => Iff.rfl
  · rw [← Bool.not_eq_true]
    intro h
    obtain ⟨t, htm, hn⟩ := ((hy' h).1 void.full).1 ⟨void, by simp, rfl⟩
    rw [List.mem_singleton.1 htm] at hn
    exact hne hn

end Ex
end K8sParser
end Verif
