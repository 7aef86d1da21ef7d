import Verif.PropsOneK8s
/-!
C35, disjointness from the texts of Kubernetes policies.
-/
namespace Verif
namespace K8sParser
open ISet

/-- The policy selects the pod. -/
def PolicyText.Selects (t : PolicyText) (a : PeerInfo) : Prop := ∃ s, t.spec = some s ∧ Applies t.ns s.podSelector (.peer a)

section
variable {V2 X2 : Type} {A2 : VAlg Dim V2 X2} {W2 : Dim → V2 → Prop} (L2 : A2.Lawful W2) {B : PeerDom} {ord : SetOrder} {rg : PodReg} {c : Container}
  {ts : List PolicyText} {pols : List (Policy (HC Dim (ISet ⊕ V2)) (ConnPeers W2 B))} {st : PolicyStore (HC Dim (ISet ⊕ V2)) (ConnPeers W2 B)}

theorem selected_iff (hC : Cluster rg c) (hB : Covers rg c B) {t : PolicyText} (ht : TameText c t) {q : Parsed V2}
    (h : parsePolicy A2 PeerDom.default ord rg c t = some q) {e : Int ⊕ X2} {E : End} (hE : E.At rg c e) :
    (connNet L2 B).Q.mem e (toPolicy A2 W2 B rg t q).selected = true ↔ ∃ s, t.spec = some s ∧ Applies t.ns s.podSelector E := by
  cases hs : t.spec with
  | none =>
    unfold parsePolicy at h
    rw [hs] at h
    cases h
    refine ⟨fun h => ?_, fun ⟨s, h, _⟩ => (by cases h)⟩
    rcases (peersVal_mem L2 hC hB (S := []) ⟨fun b h => (by cases h), fun k h => (by cases h)⟩ e).1 h with ⟨x, _, hx⟩ | ⟨n, k, _, _, hk⟩
    · obtain ⟨b, hb, _⟩ := hx; cases hb
    · cases hk
  | some s =>
    unfold parsePolicy at h
    rw [hs] at h
    dsimp only at h
    obtain ⟨h1, h2, _, _⟩ := parseSpec_some h
    obtain ⟨b1, b2, _, _⟩ := selectedPods_sem hC h1
    obtain ⟨hem, htm⟩ := ht s hs
    obtain ⟨_, c2, _⟩ := C44_policy_partial L2 hC h htm hem
    have : (connNet L2 B).Q.mem e (toPolicy A2 W2 B rg t q).selected = true ↔ _ := (peersVal_mem L2 hC hB ⟨b1, b2⟩ _).trans (c2 _ _ hE)
    rw [this]; simp

/-- C35, disjointness from documents: two policies are reported, as one pair, exactly if they select a common pod, and
nothing else is reported.  Partial: as C45_config_partial. -/
theorem C35_disjoint_k8s_partial (hC : Cluster rg c) (hd : queryDom rg [c] = some B.idx) (hpod : ∃ a ∈ c, a.kind = .pod)
    (ht : ∀ t ∈ ts, TameText c t) (hp : policiesOf A2 W2 B ord rg c ts = some pols) (hb : PolicyStore.build pols = some st) :
    let D := (disjointnessQuery (connNet L2 B) (k8sConfig A2 W2 B rg c st)).map fun d => (d.1.name, d.2.name)
    (∀ t ∈ ts, ∀ t' ∈ ts, t.full ≠ t'.full → (((t.full, t'.full) ∈ D ∨ (t'.full, t.full) ∈ D) ↔ ∃ a ∈ c, t.Selects a ∧ t'.Selects a)) ∧
    ∀ n n', (n, n') ∈ D → (∃ t ∈ ts, t.full = n) ∧ (∃ t ∈ ts, t.full = n') ∧ n ≠ n' ∧ (n', n) ∉ D := by
  intro D
  have hB := covers_of_query hC hd
  have hk := all_k8s hp
  have hsp := store_pols (A2 := A2) (rg := rg) (c := c) hb
  have hu := names_unique hp hb
  obtain ⟨L, _⟩ := connNet_lawful L2 B
  obtain ⟨G, _, _⟩ := C45_good_partial L2 hC hd hpod ts ht hp hb
  obtain ⟨d1, d2⟩ := C35_disjoint_partial L G (by
    intro pol hpol q hq _ _
    rw [hsp] at hpol hq
    rw [hk q hq, hk pol hpol])
  unfold UniqueNames at hu
  rw [hsp] at d1 d2 hu
  have inj : ∀ {a b}, a ∈ pols → b ∈ pols → a.name = b.name → a = b := fun ha hb' h => List.inj_on_of_nodup_map hu ha hb' h
  have memD : ∀ {a b}, a ∈ pols → b ∈ pols → ((a.name, b.name) ∈ D ↔ (a, b) ∈ disjointnessQuery (connNet L2 B) (k8sConfig A2 W2 B rg c st)) := by
    intro a b ha hb'
    constructor
    · intro h
      obtain ⟨⟨a', b'⟩, hm, he⟩ := List.mem_map.1 h
      obtain ⟨m1, m2, _⟩ := d2 a' b' hm
      rw [inj m1 ha (Prod.mk.inj he).1, inj m2 hb' (Prod.mk.inj he).2] at hm
      exact hm
    · exact fun h => List.mem_map.2 ⟨_, h, rfl⟩
  have checked : ∀ a ∈ pols, (layerOf a.kind).checked := fun a ha => by rw [hk a ha]; unfold LayerName.checked; decide
  constructor
  · intro t htm t' htm' hne
    obtain ⟨a, ha, h⟩ := (mapM_some_mem hp).2 t htm
    rw [Option.map_eq_some_iff] at h
    obtain ⟨q, hq, rfl⟩ := h
    obtain ⟨b, hb', h⟩ := (mapM_some_mem hp).2 t' htm'
    rw [Option.map_eq_some_iff] at h
    obtain ⟨q', hq', rfl⟩ := h
    have e1 := memD ha hb'
    have e2 := memD hb' ha
    change ((t.full, t'.full) ∈ D ↔ _) at e1
    change ((t'.full, t.full) ∈ D ↔ _) at e2
    rw [e1, e2, d1 _ _ ha hb' (fun h => hne (congrArg (fun x => x.name) h)) rfl (checked _ ha)]
    constructor
    · rintro ⟨e, m1, m2⟩
      obtain ⟨E, hE⟩ := end_of L2 hC hd m1
      obtain ⟨s, hs, ha'⟩ := (selected_iff L2 hC hB (ht t htm) hq hE).1 m1
      have h2 := (selected_iff L2 hC hB (ht t' htm') hq' hE).1 m2
      cases E with
      | ip x => exact ha'.elim
      | peer a => exact ⟨a, hE.1, ⟨s, hs, ha'⟩, h2⟩
    · rintro ⟨a, hac, h1, h2⟩
      obtain ⟨z, hz⟩ := within_at (X2 := X2) hC (E := .peer a) hac
      exact ⟨_, (selected_iff L2 hC hB (ht t htm) hq hz).2 h1, (selected_iff L2 hC hB (ht t' htm') hq' hz).2 h2⟩
  · intro n n' h
    obtain ⟨⟨a, b⟩, hm, he⟩ := List.mem_map.1 h
    obtain ⟨m1, m2, m3, _, _, m4⟩ := d2 a b hm
    obtain ⟨rfl, rfl⟩ := Prod.mk.inj he
    obtain ⟨t, htm, hn, _⟩ := text_of hp m1
    obtain ⟨t', htm', hn', _⟩ := text_of hp m2
    exact ⟨⟨t, htm, hn.symm⟩, ⟨t', htm', hn'.symm⟩, fun h => m3 (inj m1 m2 h), fun h => m4 ((memD m2 m1).1 h)⟩

end
end K8sParser
end Verif
