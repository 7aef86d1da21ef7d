import Verif.PropsK8sConfig
import Verif.PropsMap
/-!
The configuration of Kubernetes documents meets what the theorems on queries ask of configurations (`Config.Good`), for the
connection sets of the program.
-/
namespace Verif
namespace K8sParser
open ISet

section
variable {V2 X2 : Type} {A2 : VAlg Dim V2 X2} {W2 : Dim → V2 → Prop} (L2 : A2.Lawful W2) {B : PeerDom} {ord : SetOrder} {rg : PodReg} {c : Container}

/-- The domain of a query on the one configuration. -/
theorem domain_exact (hC : Cluster rg c) (hd : queryDom rg [c] = some B.idx) (z : Int) :
    Mem z B.idx ↔ ∃ E : End, E.At (X2 := X2) rg c (.inl z) := by
  obtain ⟨B', h1, h2⟩ := C46_domain (cs := [c]) (fun c' hc => by rw [List.mem_singleton.1 hc]; exact hC) (by simp)
  rw [hd] at h1
  rw [Option.some.inj h1, h2]
  simp only [List.mem_singleton, exists_eq_left]
  refine exists_congr fun E => ?_
  cases E with
  | ip x => exact ⟨fun h => congrArg Sum.inl (Sum.inl.inj h), fun h => congrArg Sum.inl (Sum.inl.inj h)⟩
  | peer p =>
    refine and_congr_right fun _ => exists_congr fun n => exists_congr fun k => and_congr_left fun _ => ?_
    exact ⟨fun h => congrArg Sum.inl (Sum.inl.inj h), fun h => congrArg Sum.inl (Sum.inl.inj h)⟩

theorem covers_of_query (hC : Cluster rg c) (hd : queryDom rg [c] = some B.idx) : Covers rg c B :=
  fun z E hE => (domain_exact (X2 := Empty) hC hd z).2 ⟨E, hE⟩

/-- The members of peer sets are peers of the configuration or addresses. -/
theorem end_of (hC : Cluster rg c) (hd : queryDom rg [c] = some B.idx) {v : ConnPeers W2 B} {e : Int ⊕ X2}
    (h : (connNet L2 B).Q.mem e v = true) : ∃ E : End, E.At rg c e := by
  obtain ⟨l, hv, hc, hs⟩ := v.legal
  have h' : (connA A2 B).mem e v.1 = true := h
  rw [hv] at h'
  rcases e with z | x
  · exact (domain_exact hC hd z).1 (hs z ((mem_inl A2 B z l hc).1 h'))
  · change false = true at h'; cases h'

theorem end_of_dom (hC : Cluster rg c) (hd : queryDom rg [c] = some B.idx) {e : Int ⊕ X2} (h : (connA A2 B).mem e (.inl B.idx) = true) :
    ∃ E : End, E.At rg c e := by
  rcases e with z | x
  · exact (domain_exact hC hd z).1 ((mem_inl A2 B z _ B.canon).1 h)
  · change false = true at h; cases h

/-- Indices of addresses. -/
theorem address_iff (z : Int) : (∃ x : Ip, z = x.idx) ↔ (0 ≤ z ∧ z ≤ maxIpv4Index) ∨ (minIpv6Index ≤ z ∧ z ≤ maxIpv6Index) := by
  have h1 := (Base.mem_all z).symm.trans (Base.all_mem z)
  have h2 : maxIpv4Index < minPodIndex := by decide
  have h3 : maxIpv6Index < minPodIndex := by decide
  constructor
  · rintro ⟨x, rfl⟩
    have := Base.idx_lt x
    rcases h1.1 (Or.inl ⟨x, rfl⟩) with h | h | h
    · exact Or.inl h
    · exact Or.inr h
    · omega
  · intro h
    rcases h1.2 (h.elim Or.inl (fun h => Or.inr (Or.inl h))) with h' | h'
    · exact h'
    · rcases h with h | h <;> omega

/-- The ends that are addresses. -/
theorem ip_end {e : Int ⊕ X2} {E : End} (hE : E.At rg c e) : (connNet L2 B).ip e = true ↔ ∃ x, E = .ip x := by
  cases E with
  | ip x =>
    have : e = .inl x.idx := hE
    subst this
    simp only [End.ip.injEq, exists_eq', iff_true]
    exact decide_eq_true ((address_iff _).1 ⟨x, rfl⟩)
  | peer p =>
    obtain ⟨_, n, k, rfl, _⟩ := hE
    simp only [reduceCtorEq, exists_false, iff_false]
    intro h
    obtain ⟨x, hx⟩ := (address_iff _).2 (of_decide_eq_true h)
    have := Base.idx_lt x
    omega

include L2 in
/-- There are connections between any two indices of the domain, of every protocol. -/
theorem some_point {s d q : Int} (hs : Mem s B.idx) (hd : Mem d B.idx) (hq : 0 ≤ q ∧ q ≤ 255) :
    ∃ p : Point (connA A2 B), p.1 .srcPeers = .inl s ∧ p.1 .dstPeers = .inl d ∧ p.1 .protocols = .inl q := by
  have L := connA_lawful B L2
  have hx : ∀ x : Dim, ∃ v, (connA A2 B).mem v ((connA A2 B).dom x) = true := fun x => (L.truthy_iff (L.wf_dom x)).1 (L.dom_truthy x)
  choose f hf using hx
  refine ⟨⟨fun x => if x = .srcPeers then .inl s else if x = .dstPeers then .inl d else if x = .protocols then .inl q else f x, ?_⟩, rfl, rfl, rfl⟩
  intro x
  dsimp only
  split
  · rename_i h; subst h; exact (mem_inl A2 B _ _ B.canon).2 hs
  split
  · rename_i h; subst h; exact (mem_inl A2 B _ _ B.canon).2 hd
  split
  · rename_i h; subst h; exact (mem_inl A2 B _ _ (canonical_singleton.2 (by decide))).2 (mem_singleton.2 hq)
  · exact hf x

theorem tcp_iff {p : Point (connA A2 B)} {q : Int} (h : p.1 .protocols = .inl q) : (connNet L2 B).isTcp p = true ↔ q = 6 := by
  change (connA A2 B).mem (p.1 .protocols) (.inl [⟨6, 6⟩]) = true ↔ q = 6
  rw [h, mem_inl A2 B _ _ (canonical_singleton.2 (by decide)), mem_singleton]
  unfold Iv.Mem
  dsimp only
  omega

theorem kinds (hC : Cluster rg c) {E : End} {e : Int ⊕ X2} (hE : E.At rg c e) : E.IsPod ∨ (∃ x, E = .ip x) ∨ ∃ p, E = .peer p ∧ p.kind = .dns := by
  cases E with
  | ip x => exact Or.inr (Or.inl ⟨x, rfl⟩)
  | peer a =>
    rcases hC.kind a hE.1 with h | h
    · exact Or.inl h.1
    · exact Or.inr (Or.inr ⟨a, rfl, h.1⟩)

theorem end_known (hC : Cluster rg c) (hB : Covers rg c B) {E : End} {e : Int ⊕ X2} (hE : E.At rg c e) :
    (clusterPeers A2 W2 B rg c).known (connNet L2 B).toNet e := by
  obtain ⟨s1, s2, s3, s4⟩ := cluster_classes (A2 := A2) L2 hC hB hE
  unfold Peers.known Peers.nonDns Peers.workload
  rw [s1, s3, s4]
  rcases kinds hC hE with h | h | h
  · exact Or.inl (Or.inl (Or.inl h))
  · exact Or.inl (Or.inr h)
  · exact Or.inr h

theorem anySource (L2 : A2.Lawful W2) (B : PeerDom) : AnySource (connNet L2 B) := by
  intro p
  have h : (connA A2 B).mem (p.1 .dstPeers) (.inl B.idx) = true := p.2 .dstPeers
  change ∃ q : Point (connA A2 B), q.1 .srcPeers = p.1 .dstPeers
  generalize p.1 .dstPeers = e at h
  rcases e with z | x
  · have hz := (mem_inl A2 B z _ B.canon).1 h
    obtain ⟨q, h1, _⟩ := some_point L2 hz hz (q := 0) (by decide)
    exact ⟨q, h1⟩
  · change false = true at h; cases h

/-- The peers of a configuration with a pod. -/
theorem k8s_world (hC : Cluster rg c) (hd : queryDom rg [c] = some B.idx) (hpod : ∃ a ∈ c, a.kind = .pod) :
    World (connNet L2 B) (clusterPeers A2 W2 B rg c) := by
  have hB := covers_of_query hC hd
  have adr : ∀ x : Ip, Mem x.idx B.idx := fun x => (domain_exact (X2 := X2) hC hd _).2 ⟨.ip x, rfl⟩
  refine ⟨fun e => ?_, fun e h => ?_, fun e h => ?_, fun e h => ?_, ?_, ?_, ?_, ?_⟩
  · constructor
    · intro h
      obtain ⟨E, hE⟩ := end_of L2 hC hd h
      exact (ip_end L2 hE).2 ((cluster_classes (A2 := A2) L2 hC hB hE).2.2.1.1 h)
    · intro h
      rcases e with z | x
      · obtain ⟨x, rfl⟩ := (address_iff z).2 (of_decide_eq_true h)
        exact (cluster_classes (A2 := A2) (X2 := X2) L2 hC hB (E := .ip x) (e := .inl x.idx) rfl).2.2.1.2 ⟨x, rfl⟩
      · change false = true at h; cases h
  · obtain ⟨E, hE⟩ := end_of L2 hC hd h
    obtain ⟨s1, s2, s3, s4⟩ := cluster_classes (A2 := A2) L2 hC hB hE
    have hp := s1.1 h
    rw [← Bool.not_eq_true, ← Bool.not_eq_true, ip_end L2 hE, s4]
    constructor
    · rintro ⟨x, rfl⟩; exact hp
    · rintro ⟨a, rfl, ha⟩
      rw [show a.kind = .pod from hp] at ha; cases ha
  · rw [no_heps L2 hC hB e] at h; cases h
  · obtain ⟨E, hE⟩ := end_of L2 hC hd h
    obtain ⟨a, rfl, _⟩ := (cluster_classes (A2 := A2) L2 hC hB hE).2.2.2.1 h
    rw [← Bool.not_eq_true, ip_end L2 hE]
    rintro ⟨x, hx⟩; cases hx
  · obtain ⟨a, ha, hk⟩ := hpod
    obtain ⟨k, he, hkm⟩ := hC.elem a ha
    obtain ⟨n, hn⟩ := List.mem_iff_getElem?.1 hkm
    have hE : (End.peer a).At (X2 := X2) rg c (.inl (minPodIndex + n)) := ⟨ha, n, k, rfl, hn, he⟩
    have hz := (domain_exact hC hd _).2 ⟨_, hE⟩
    obtain ⟨p, h1, _⟩ := some_point L2 hz hz (q := 0) (by decide)
    refine ⟨p, Or.inl ?_⟩
    change (connNet L2 B).Q.mem (p.1 .srcPeers) _ = true
    rw [h1]
    exact (cluster_classes (A2 := A2) L2 hC hB hE).1.2 hk
  · obtain ⟨p, h1, h2, h3⟩ := some_point L2 (adr ⟨false, 0, by decide⟩) (adr ⟨false, 0, by decide⟩) (q := 0) (by decide)
    refine ⟨p, ?_, ?_, ?_⟩
    · change (connNet L2 B).ip (p.1 .srcPeers) = true
      rw [h1]; exact (ip_end (rg := rg) (c := c) L2 (E := .ip ⟨false, 0, by decide⟩) rfl).2 ⟨_, rfl⟩
    · change (connNet L2 B).ip (p.1 .dstPeers) = true
      rw [h2]; exact (ip_end (rg := rg) (c := c) L2 (E := .ip ⟨false, 0, by decide⟩) rfl).2 ⟨_, rfl⟩
    · rw [← Bool.not_eq_true, tcp_iff L2 h3]; decide
  · obtain ⟨p, h1, _⟩ := some_point L2 (adr ⟨true, 0, by decide⟩) (adr ⟨true, 0, by decide⟩) (q := 0) (by decide)
    refine ⟨p, ?_⟩
    have : (connA A2 B).mem (p.1 .srcPeers) ((peersOf W2 B B.idx ⟨B.canon, fun _ h => h⟩).part (a := minIpv6Index) (b := maxIpv6Index) (by decide)).1 = true :=
      (ConnPeers.mem_part (A2 := A2) _ _ _).2 ⟨_, h1, adr _, by decide, by decide⟩
    exact this
  · obtain ⟨p, h1, h2, h3⟩ := some_point L2 (adr ⟨false, 0, by decide⟩) (adr ⟨false, 0, by decide⟩) (q := 6) (by decide)
    refine ⟨p, ?_, ?_, (tcp_iff L2 h3).2 rfl⟩
    · change (connNet L2 B).ip (p.1 .srcPeers) = true
      rw [h1]; exact (ip_end (rg := rg) (c := c) L2 (E := .ip ⟨false, 0, by decide⟩) rfl).2 ⟨_, rfl⟩
    · change (connNet L2 B).ip (p.1 .dstPeers) = true
      rw [h2]; exact (ip_end (rg := rg) (c := c) L2 (E := .ip ⟨false, 0, by decide⟩) rfl).2 ⟨_, rfl⟩

/-- The configuration of the documents (`NetworkConfig.__init__`, NetworkConfig.py 51-60): its peers and its policies.  Its
services, which Kubernetes policies do not name, are left out. -/
noncomputable def k8sConfig (A2 : VAlg Dim V2 X2) (W2 : Dim → V2 → Prop) (B : PeerDom) (rg : PodReg) (c : Container)
    (st : PolicyStore (HC Dim (ISet ⊕ V2)) (ConnPeers W2 B)) : Config (HC Dim (ISet ⊕ V2)) (ConnPeers W2 B) where
  peers := clusterPeers A2 W2 B rg c
  services := []
  store := st

theorem policies_of {ts : List PolicyText} {pols : List (Policy (HC Dim (ISet ⊕ V2)) (ConnPeers W2 B))}
    (hp : policiesOf A2 W2 B ord rg c ts = some pols) {pol : Policy (HC Dim (ISet ⊕ V2)) (ConnPeers W2 B)} (h : pol ∈ pols) :
    ∃ t ∈ ts, ∃ q, parsePolicy A2 PeerDom.default ord rg c t = some q ∧ toPolicy A2 W2 B rg t q = pol := by
  obtain ⟨t, ht', h⟩ := (mapM_some_mem hp).1 pol h
  rw [Option.map_eq_some_iff] at h
  obtain ⟨q, hq, h⟩ := h
  exact ⟨t, ht', q, hq, h⟩

/-- C45: the configurations of documents, with a pod, meet what the theorems on queries and maps ask for; so these hold
for documents.  Partial: as C45_config_partial. -/
theorem C45_good_partial (hC : Cluster rg c) (hd : queryDom rg [c] = some B.idx) (hpod : ∃ a ∈ c, a.kind = .pod)
    (ts : List PolicyText) (ht : ∀ t ∈ ts, TameText c t)
    {pols : List (Policy (HC Dim (ISet ⊕ V2)) (ConnPeers W2 B))} (hp : policiesOf A2 W2 B ord rg c ts = some pols)
    {st : PolicyStore (HC Dim (ISet ⊕ V2)) (ConnPeers W2 B)} (hb : PolicyStore.build pols = some st) :
    (k8sConfig A2 W2 B rg c st).Good (connNet L2 B) (HcOkT (connA A2 B) (connWf W2 B) allDims) (HcStrongT (connA A2 B) (connWf W2 B) allDims) ∧
    (k8sConfig A2 W2 B rg c st).Solid (connNet L2 B) ∧ hasIstio st.layers = false := by
  have hB := covers_of_query hC hd
  have hb' := build_built _ hb
  have hk : ∀ pol ∈ pols, pol.kind = .k8s := fun pol hpol => by obtain ⟨t, _, q, _, rfl⟩ := policies_of hp hpol; rfl
  have one : ∀ l ∈ st.layers, l.1 = .k8sCalico := by
    by_cases hp0 : pols = []
    · intro l hl
      rw [hb'.init hp0] at hl
      simp only [initLayers, List.mem_singleton] at hl
      subst hl; rfl
    · rintro ⟨n, a⟩ hl
      obtain ⟨h1, h2⟩ := (hb'.mem_layers hp0 n a).1 hl
      rw [h1] at h2
      obtain ⟨pol, hpol, hn⟩ := (hb'.list_ne n).1 h2
      rw [hk pol hpol] at hn
      exact hn.symm
  have hlen : st.layers.length ≤ 1 := by
    have hd' := hb'.distinct
    unfold DistinctLayers at hd'
    match hst : st.layers, one, hd' with
    | [], _, _ => simp
    | [_], _, _ => simp
    | a :: b :: l, one, hd' =>
      exfalso
      rw [List.map_cons, List.map_cons, List.nodup_cons] at hd'
      exact hd'.1 (List.mem_cons.2 (Or.inl ((one a (by simp)).trans (one b (by simp)).symm)))
  refine ⟨⟨?_, ⟨fun pol hpol => ?_, Or.inr ?_⟩, k8s_world L2 hC hd hpod, fun pol hpol dir r hr p hp' => ?_, fun pol hpol e he => ?_, fun n p => ?_⟩, Or.inr ?_, ?_⟩
  · change PolicyStore.build st.policies = some st
    rw [hb'.policies]; exact hb
  · rw [show (k8sConfig A2 W2 B rg c st).store.policies = pols from hb'.policies] at hpol
    obtain ⟨t, ht', q, hq, rfl⟩ := policies_of hp hpol
    exact (policy_sem L2 hC hB (ht t ht') hq).1
  · rw [show (k8sConfig A2 W2 B rg c st).store.policies = pols from hb'.policies]
    exact k8s_noPass hk
  · obtain ⟨E, hE⟩ := end_of_dom (X2 := X2) (A2 := A2) hC hd (p.2 .srcPeers)
    obtain ⟨E', hE'⟩ := end_of_dom (X2 := X2) (A2 := A2) hC hd (p.2 .dstPeers)
    exact ⟨end_known L2 hC hB hE, end_known L2 hC hB hE'⟩
  · rw [show (k8sConfig A2 W2 B rg c st).store.policies = pols from hb'.policies] at hpol
    obtain ⟨t, ht', q, hq, rfl⟩ := policies_of hp hpol
    obtain ⟨E, hE⟩ := end_of L2 hC hd he
    refine Or.inl ((cluster_classes (A2 := A2) L2 hC hB hE).1.2 ?_)
    cases hs : t.spec with
    | none =>
      unfold parsePolicy at hq
      rw [hs] at hq
      cases hq
      rcases (peersVal_mem L2 hC hB (S := []) ⟨fun b hb => (by cases hb), fun k hk => (by cases hk)⟩ e).1 he with ⟨x, _, hx⟩ | ⟨n, k, _, _, hk⟩
      · obtain ⟨b, hb, _⟩ := hx; cases hb
      · cases hk
    | some s =>
      unfold parsePolicy at hq
      rw [hs] at hq
      dsimp only at hq
      obtain ⟨h1, _, _, _⟩ := parseSpec_some hq
      obtain ⟨b1, b2, _, _⟩ := selectedPods_sem hC h1
      obtain ⟨hem, htm⟩ := ht t ht' s hs
      have ha := ((C44_policy_partial L2 hC hq htm hem).2.1 _ _ hE).1 ((peersVal_mem L2 hC hB ⟨b1, b2⟩ _).1 he)
      cases E with
      | ip x => exact ha
      | peer a => exact ha.1
  · change DnsOk (connNet L2 B).toNet n (layerList st.layers n) _ p
    have emp : ∀ m, m ≠ .k8sCalico → layerList st.layers m = [] := by
      intro m hm
      by_contra hne
      obtain ⟨pol, hpol, h⟩ := (hb'.list_ne m).1 hne
      rw [hk pol hpol] at h
      exact hm h.symm
    have open' : SomeOpen (connNet L2 B).toNet [] (clusterPeers A2 W2 B rg c) := by
      obtain ⟨p, hw⟩ := (k8s_world L2 hC hd hpod).work
      rcases hw with h | h
      · exact ⟨_, Or.inl h, fun _ h => by cases h⟩
      · exact ⟨_, Or.inr h, fun _ h => by cases h⟩
    cases n
    case k8sCalico => trivial
    case k8sGateway => trivial
    all_goals
      rw [emp _ (by decide)]
      exact Or.inl open'
  · change (effectiveLayers (connNet L2 B).toNet (clusterPeers A2 W2 B rg c) st.layers).length ≤ 1
    unfold effectiveLayers
    have : (connNet L2 B).Q.truthy (clusterPeers A2 W2 B rg c).heps = false := by
      rw [← Bool.not_eq_true, (connNet L2 B).Q.truthy_iff]
      rintro ⟨e, he⟩
      rw [no_heps L2 hC hB e] at he; cases he
    rw [this]
    simpa using hlen
  · unfold hasIstio
    rw [List.any_eq_false]
    intro l hl
    rw [one l hl]; decide

end
end K8sParser
end Verif
