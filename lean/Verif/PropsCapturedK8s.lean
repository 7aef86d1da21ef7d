import Verif.PropsOneK8s
/-!
C45, captured pods from the texts of Kubernetes policies.
-/
namespace Verif
namespace K8sParser
open ISet

section
variable {V2 X2 : Type} {A2 : VAlg Dim V2 X2} {W2 : Dim → V2 → Prop} (L2 : A2.Lawful W2) {B : PeerDom} {ord : SetOrder} {rg : PodReg} {c : Container}
  {ts : List PolicyText} {pols : List (Policy (HC Dim (ISet ⊕ V2)) (ConnPeers W2 B))} {st : PolicyStore (HC Dim (ISet ⊕ V2)) (ConnPeers W2 B)}

/-- A policy of the configuration captures an end exactly if a text isolates it. -/
theorem captured_iff (hC : Cluster rg c) (hd : queryDom rg [c] = some B.idx) (ht : ∀ t ∈ ts, TameText c t)
    (hp : policiesOf A2 W2 B ord rg c ts = some pols) (hb : PolicyStore.build pols = some st) (d : Bool) {E : End} {z : Int} (hz : Mem z B.idx)
    (hE : E.At (X2 := X2) rg c (.inl z)) :
    CapturedIn (connNet L2 B) (k8sConfig A2 W2 B rg c st) .k8sCalico d (.inl z) ↔ Isolated ts d E := by
  have hB := covers_of_query hC hd
  obtain ⟨p, h1, h2, _⟩ := some_point (A2 := A2) L2 hz hz (q := 6) (by decide)
  obtain ⟨_, _, proto, port, hcn, _, _⟩ := conn_of (A2 := A2) hC hd p
  have he : endpoint (connNet L2 B).toNet d p = (.inl z : Int ⊕ X2) := by
    cases d
    · exact h1
    · exact h2
  have sem : ∀ t ∈ ts, ∀ q, parsePolicy A2 PeerDom.default ord rg c t = some q →
      ((toPolicy A2 W2 B rg t q).captures (connNet L2 B).toNet d (.inl z) = true ↔ ∃ s, t.spec = some s ∧ s.Governs d ∧ Applies t.ns s.podSelector E) := by
    intro t htm q hq
    have := ((policy_sem L2 hC hB (ht t htm) hq).2 p E E proto port (by rw [h1]; exact hE) (by rw [h2]; exact hE) hcn.proto hcn.port d).1
    rw [he, ite_self] at this
    exact this
  unfold CapturedIn
  rw [store_pols hb]
  constructor
  · rintro ⟨pol, hpol, _, hc⟩
    obtain ⟨t, htm, q, hq, rfl⟩ := policies_of hp hpol
    exact ⟨t, htm, (sem t htm q hq).1 hc⟩
  · rintro ⟨t, htm, h⟩
    obtain ⟨pol, hpol, hm⟩ := (mapM_some_mem hp).2 t htm
    rw [Option.map_eq_some_iff] at hm
    obtain ⟨q, hq, rfl⟩ := hm
    exact ⟨_, hpol, rfl, (sem t htm q hq).2 h⟩

/-- C45, captured pods: the query that asks whether all pods are captured by Kubernetes policies answers so exactly if
there is a policy and, in both directions, each pod is isolated by the texts; and it reports, per direction, exactly the
pods that are not.  Partial: as C45_config_partial. -/
theorem C45_captured_partial (hC : Cluster rg c) (hd : queryDom rg [c] = some B.idx) (hpod : ∃ a ∈ c, a.kind = .pod)
    (ht : ∀ t ∈ ts, TameText c t) (hp : policiesOf A2 W2 B ord rg c ts = some pols) (hb : PolicyStore.build pols = some st) :
    ((allCapturedQuery (connNet L2 B) (k8sConfig A2 W2 B rg c st)).1 = true ↔
      ts ≠ [] ∧ ∀ a ∈ c, a.kind = .pod → Isolated ts true (.peer a) ∧ Isolated ts false (.peer a)) ∧
    (ts ≠ [] → ∃ x y z, (allCapturedQuery (connNet L2 B) (k8sConfig A2 W2 B rg c st)).2 = [x, y, z] ∧
      ∀ (E : End) (e : Int ⊕ X2), E.At rg c e →
        ((connNet L2 B).Q.mem e x = true ↔ E.IsPod ∧ ¬ Isolated ts true E) ∧
        ((connNet L2 B).Q.mem e y = true ↔ E.IsPod ∧ ¬ Isolated ts false E) ∧
        (connNet L2 B).Q.mem e z = false) := by
  have hB := covers_of_query hC hd
  have hk := all_k8s hp
  obtain ⟨G, _, _⟩ := C45_good_partial L2 hC hd hpod ts ht hp hb
  obtain ⟨q1, q2⟩ := C41_captured G (by
    intro pol hpol
    rw [store_pols hb] at hpol
    refine ⟨fun h => ?_, fun h => ?_⟩ <;> (rw [hk pol hpol] at h; cases h))
  rw [store_pols hb] at q1 q2
  have some_pol : (∃ pol ∈ pols, layerOf pol.kind = .k8sCalico) ↔ ts ≠ [] := by
    rw [← List.length_pos_iff_ne_nil (l := ts), ← pols_length hp, List.length_pos_iff_exists_mem]
    exact ⟨fun ⟨pol, h, _⟩ => ⟨pol, h⟩, fun ⟨pol, h⟩ => ⟨pol, h, by rw [hk pol h]; rfl⟩⟩
  have chk : (∃ pol ∈ pols, (layerOf pol.kind).checked) ↔ ts ≠ [] := by
    rw [← some_pol]
    refine exists_congr fun pol => and_congr_right fun h => ?_
    rw [hk pol h]
    exact ⟨fun _ => rfl, fun _ => by unfold LayerName.checked; decide⟩
  have no_istio : ¬ ∃ pol ∈ pols, layerOf pol.kind = .istio := by
    rintro ⟨pol, h, h'⟩
    rw [hk pol h] at h'; cases h'
  have work : ∀ {E : End} {e : Int ⊕ X2}, E.At rg c e → ((clusterPeers A2 W2 B rg c).workload (connNet L2 B).toNet e ↔ E.IsPod) := by
    intro E e hE
    unfold Peers.workload
    rw [(cluster_classes (A2 := A2) L2 hC hB hE).1]
    refine ⟨fun h => h.elim id fun h => ?_, Or.inl⟩
    have h' := no_heps (A2 := A2) L2 hC hB e
    rw [show (connNet L2 B).toNet.Q.mem e (clusterPeers A2 W2 B rg c).heps = (connNet L2 B).Q.mem e (clusterPeers A2 W2 B rg c).heps from rfl, h'] at h
    cases h
  have inl_of : ∀ {E : End} {e : Int ⊕ X2}, E.At rg c e → ∃ z, e = .inl z := by
    intro E e hE
    cases E with
    | ip x => exact ⟨_, hE⟩
    | peer a => obtain ⟨_, n, k, h, _⟩ := hE; exact ⟨_, h⟩
  have cap : ∀ d {E : End} {e : Int ⊕ X2}, E.At rg c e → (CapturedIn (connNet L2 B) (k8sConfig A2 W2 B rg c st) .k8sCalico d e ↔ Isolated ts d E) := by
    intro d E e hE
    obtain ⟨z, rfl⟩ := inl_of hE
    exact captured_iff L2 hC hd ht hp hb d ((domain_exact hC hd z).2 ⟨_, hE⟩) hE
  rw [chk, some_pol] at q1
  rw [chk, some_pol] at q2
  constructor
  · rw [q1]
    refine and_congr_right fun hts => ⟨fun h a ha hk' => ?_, fun h e he => ⟨fun _ => ?_, fun h' => absurd h' no_istio⟩⟩
    · obtain ⟨z, hz⟩ := within_at (X2 := X2) hC (E := .peer a) ha
      have := (h (.inl z) ((work hz).2 hk')).1 hts
      exact ⟨(cap true hz).1 this.1, (cap false hz).1 this.2⟩
    · obtain ⟨E, hE⟩ : ∃ E : End, E.At rg c e := he.elim (end_of L2 hC hd) (end_of L2 hC hd)
      rw [cap true hE, cap false hE]
      have hpd := (work hE).1 he
      cases E with
      | ip x => exact hpd.elim
      | peer a => exact h a hE.1 hpd
  · intro hts
    obtain ⟨x, y, z, h1, h2⟩ := q2 hts
    refine ⟨x, y, z, h1, fun E e hE => ?_⟩
    obtain ⟨e1, e2, e3⟩ := h2 e
    change _ ↔ _ ∧ (clusterPeers A2 W2 B rg c).workload (connNet L2 B).toNet e ∧ _ at e1
    change _ ↔ _ ∧ (clusterPeers A2 W2 B rg c).workload (connNet L2 B).toNet e ∧ _ at e2
    rw [work hE, cap true hE] at e1
    rw [work hE, cap false hE] at e2
    refine ⟨e1.trans ⟨fun h => h.2, fun h => ⟨hts, h⟩⟩, e2.trans ⟨fun h => h.2, fun h => ⟨hts, h⟩⟩, ?_⟩
    rw [← Bool.not_eq_true, e3]
    exact fun h => no_istio h.1

end
end K8sParser
end Verif
