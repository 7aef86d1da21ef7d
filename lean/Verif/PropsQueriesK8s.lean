import Verif.PropsPlainK8s
import Verif.PropsDiff
/-!
C31, C32 and C33 from the texts of Kubernetes policies: what queries answer on two configurations of one cluster.
-/
namespace Verif
namespace K8sParser
open ISet

section
/-- The end is a peer of the cluster or an address. -/
def End.Within (c : Container) : End → Prop
  | .ip _ => True
  | .peer a => a ∈ c

/-- The connections that queries are about: one end is a pod, the source is no DNS entry, and addresses are of IPv4 if
those of IPv6 are left out. -/
def Talks (c : Container) (excl : Bool) (src dst : End) : Prop :=
  src.Within c ∧ dst.Within c ∧ (src.IsPod ∨ dst.IsPod) ∧ (∀ a, src = .peer a → a.kind ≠ .dns) ∧ (excl = true → src.Plain ∧ dst.Plain)

/-- Kubernetes says the same of both lists of policies. -/
def SaySame (rg : PodReg) (c : Container) (excl : Bool) (ts ts' : List PolicyText) : Prop :=
  ∀ src dst proto port, Talks c excl src dst → (0 ≤ proto ∧ proto ≤ 255) → (1 ≤ port ∧ port ≤ 65535) →
    (K8sSays rg ts src dst proto port ↔ K8sSays rg ts' src dst proto port)

/-- All that Kubernetes allows by the first list of policies it allows by the second. -/
def SayMore (rg : PodReg) (c : Container) (excl : Bool) (ts ts' : List PolicyText) : Prop :=
  ∀ src dst proto port, Talks c excl src dst → (0 ≤ proto ∧ proto ≤ 255) → (1 ≤ port ∧ port ≤ 65535) →
    K8sSays rg ts src dst proto port → K8sSays rg ts' src dst proto port

variable {V2 X2 : Type} {A2 : VAlg Dim V2 X2} {W2 : Dim → V2 → Prop} (L2 : A2.Lawful W2) {B : PeerDom} {ord : SetOrder} {rg : PodReg} {c : Container}

/-- The ends, the protocol and the port of a connection. -/
structure Conn (rg : PodReg) (c : Container) (p : Point (connA A2 B)) (src dst : End) (proto port : Int) : Prop where
  src : src.At rg c (p.1 .srcPeers)
  dst : dst.At rg c (p.1 .dstPeers)
  proto : p.1 .protocols = .inl proto
  port : p.1 .dstPorts = .inl port

theorem conn_of (hC : Cluster rg c) (hd : queryDom rg [c] = some B.idx) (p : Point (connA A2 B)) :
    ∃ src dst proto port, Conn rg c p src dst proto port ∧ (0 ≤ proto ∧ proto ≤ 255) ∧ (1 ≤ port ∧ port ≤ 65535) := by
  obtain ⟨E, hE⟩ := end_of_dom (X2 := X2) (A2 := A2) hC hd (p.2 .srcPeers)
  obtain ⟨E', hE'⟩ := end_of_dom (X2 := X2) (A2 := A2) hC hd (p.2 .dstPeers)
  have num : ∀ {e : Int ⊕ X2} {i : Iv}, i.s ≤ i.e → (connA A2 B).mem e (.inl [i]) = true → ∃ z, e = .inl z ∧ i.s ≤ z ∧ z ≤ i.e := by
    intro e i hi h
    rcases e with z | x
    · exact ⟨z, rfl, mem_singleton.1 ((mem_inl A2 B z _ (canonical_singleton.2 hi)).1 h)⟩
    · change false = true at h; cases h
  obtain ⟨q, h1, h2⟩ := num (i := ⟨0, 255⟩) (by decide) (p.2 .protocols)
  obtain ⟨r, h3, h4⟩ := num (i := ⟨1, 65535⟩) (by decide) (p.2 .dstPorts)
  exact ⟨E, E', q, r, ⟨hE, hE', h1, h3⟩, h2, h4⟩

theorem within_at (hC : Cluster rg c) {E : End} (h : E.Within c) : ∃ z : Int, E.At (X2 := X2) rg c (.inl z) := by
  cases E with
  | ip x => exact ⟨_, rfl⟩
  | peer a =>
    obtain ⟨k, he, hk⟩ := hC.elem a h
    obtain ⟨n, hn⟩ := List.mem_iff_getElem?.1 hk
    exact ⟨_, h, n, k, rfl, hn, he⟩

theorem at_within {E : End} {e : Int ⊕ X2} (h : E.At rg c e) : E.Within c := by
  cases E with
  | ip x => trivial
  | peer a => exact h.1

include L2 in
theorem conn_some (hC : Cluster rg c) (hd : queryDom rg [c] = some B.idx) {src dst : End} {proto port : Int} (h1 : src.Within c) (h2 : dst.Within c)
    (hq : 0 ≤ proto ∧ proto ≤ 255) (hr : 1 ≤ port ∧ port ≤ 65535) : ∃ p : Point (connA A2 B), Conn rg c p src dst proto port := by
  obtain ⟨s, hs⟩ := within_at (X2 := X2) hC h1
  obtain ⟨d, hd'⟩ := within_at (X2 := X2) hC h2
  obtain ⟨p, e1, e2, e3⟩ := some_point (A2 := A2) L2 ((domain_exact hC hd s).2 ⟨_, hs⟩) ((domain_exact hC hd d).2 ⟨_, hd'⟩) hq
  refine ⟨⟨fun x => if x = .dstPorts then .inl port else p.1 x, fun x => ?_⟩, ?_, ?_, ?_, rfl⟩
  · dsimp only
    split
    · rename_i h; subst h; exact (mem_inl A2 B _ _ (canonical_singleton.2 (by decide))).2 (mem_singleton.2 hr)
    · exact p.2 x
  · change src.At rg c (p.1 .srcPeers); rw [e1]; exact hs
  · change dst.At rg c (p.1 .dstPeers); rw [e2]; exact hd'
  · exact e3

theorem v6_iff (hC : Cluster rg c) (hd : queryDom rg [c] = some B.idx) {E : End} {e : Int ⊕ X2} (hE : E.At rg c e) :
    (connNet L2 B).Q.mem e (connNet L2 B).v6 = false ↔ E.Plain := by
  refine ⟨fun h => ?_, not_v6 L2 hE⟩
  cases E with
  | peer a => trivial
  | ip x =>
    by_contra hx
    have hx : x.six = true := by
      change ¬ x.six = false at hx
      simpa using hx
    have he : e = .inl x.idx := hE
    subst he
    have h3 := x.le_top
    rw [hx] at h3
    have hi : x.idx = 4294967300 + x.val := by unfold Ip.idx; rw [hx]; rfl
    have : (connA A2 B).mem (.inl x.idx) ((peersOf W2 B B.idx ⟨B.canon, fun _ h => h⟩).part (a := minIpv6Index) (b := maxIpv6Index) (by decide)).1 = true := by
      refine (ConnPeers.mem_part (A2 := A2) _ _ _).2 ⟨_, rfl, (domain_exact (X2 := X2) hC hd _).2 ⟨.ip x, rfl⟩, ?_, ?_⟩
      · rw [hi]; unfold minIpv6Index; omega
      · rw [hi]
        have h4 : (4294967300 : Int) + topOf true ≤ maxIpv6Index := by decide
        omega
    have h' : (connA A2 B).mem (.inl x.idx) ((peersOf W2 B B.idx ⟨B.canon, fun _ h => h⟩).part (a := minIpv6Index) (b := maxIpv6Index) (by decide)).1 = false := h
    rw [this] at h'; cases h'

/-- What a query is about. -/
theorem relevant_iff (hC : Cluster rg c) (hd : queryDom rg [c] = some B.idx) {p : Point (connA A2 B)} {src dst : End} {proto port : Int}
    (h : Conn rg c p src dst proto port) (excl : Bool) :
    Relevant (connNet L2 B) (clusterPeers A2 W2 B rg c) excl p ↔ Talks c excl src dst := by
  have hB := covers_of_query hC hd
  obtain ⟨s1, _, _, s4⟩ := cluster_classes (A2 := A2) L2 hC hB h.src
  obtain ⟨d1, _, _, d4⟩ := cluster_classes (A2 := A2) L2 hC hB h.dst
  have i1 := ip_end (A2 := A2) (B := B) L2 h.src
  have i2 := ip_end (A2 := A2) (B := B) L2 h.dst
  unfold Relevant Talks
  constructor
  · rintro ⟨r1, r2, r3⟩
    have hn : ∀ a, src = .peer a → a.kind ≠ .dns := by
      intro a ha hk
      have := s4.2 ⟨a, ha, hk⟩
      exact Bool.eq_false_iff.1 r2 this
    refine ⟨at_within h.src, at_within h.dst, ?_, hn, fun he => ⟨(v6_iff L2 hC hd h.src).1 (r3 he).1, (v6_iff L2 hC hd h.dst).1 (r3 he).2⟩⟩
    rcases kinds hC h.src with k | k | ⟨a, ha, hk⟩
    · exact Or.inl k
    · rcases kinds hC h.dst with k' | k' | k'
      · exact Or.inr k'
      · exact absurd ⟨i1.2 k, Or.inl (i2.2 k')⟩ r1
      · exact absurd ⟨i1.2 k, Or.inr (d4.2 k')⟩ r1
    · exact absurd hk (hn a ha)
  · rintro ⟨_, _, hpod, hn, hx⟩
    refine ⟨?_, ?_, fun he => ⟨not_v6 L2 h.src (hx he).1, not_v6 L2 h.dst (hx he).2⟩⟩
    · rintro ⟨j1, j2⟩
      obtain ⟨x, rfl⟩ := i1.1 j1
      rcases hpod with hp | hp
      · exact hp
      · rcases j2 with j2 | j2
        · obtain ⟨y, rfl⟩ := i2.1 j2
          exact hp
        · obtain ⟨a, rfl, ha⟩ := d4.1 j2
          rw [show a.kind = .pod from hp] at ha; cases ha
    · rw [← Bool.not_eq_true]
      intro hm
      obtain ⟨a, ha, hk⟩ := s4.1 hm
      exact hn a ha hk

/-- What the configuration of the documents allows. -/
theorem allows_iff (hC : Cluster rg c) (hd : queryDom rg [c] = some B.idx) (ts : List PolicyText) (ht : ∀ t ∈ ts, TameText c t)
    {pols : List (Policy (HC Dim (ISet ⊕ V2)) (ConnPeers W2 B))} (hp : policiesOf A2 W2 B ord rg c ts = some pols)
    {st : PolicyStore (HC Dim (ISet ⊕ V2)) (ConnPeers W2 B)} (hb : PolicyStore.build pols = some st)
    {p : Point (connA A2 B)} {src dst : End} {proto port : Int} (h : Conn rg c p src dst proto port) (hpod : src.IsPod ∨ dst.IsPod) :
    (k8sConfig A2 W2 B rg c st).allows (connNet L2 B) p ↔ K8sSays rg ts src dst proto port := by
  have hex : ∃ a ∈ c, a.kind = .pod := by
    have : ∀ {E : End} {e : Int ⊕ X2}, E.At rg c e → E.IsPod → ∃ a ∈ c, a.kind = .pod := by
      intro E e hE hk
      cases E with
      | ip x => exact absurd hk (fun h => h)
      | peer a => exact ⟨a, hE.1, hk⟩
    exact hpod.elim (this h.src) (this h.dst)
  have G := (C45_good_partial L2 hC hd hex ts ht hp hb).1
  rw [← (G.conns_ok (connNet_lawful L2 B).1).2 p]
  exact C45_config_partial L2 hC (covers_of_query hC hd) ts ht hp hb ConnFilter.onlyAllAllowed onlyAllAllowed_calc.1 p src dst proto port
    h.src h.dst h.proto h.port hpod

/-- The order of Kubernetes policies does not matter. -/
theorem k8s_order_free {pols : List (Policy (HC Dim (ISet ⊕ V2)) (ConnPeers W2 B))} (hk : ∀ pol ∈ pols, pol.kind = .k8s) :
    OrderFree (connNet L2 B) pols := by
  have one : ∀ a ∈ pols, ∀ dir p v, a.speaks (connNet L2 B) dir p = some v → v = .allow := by
    intro a ha dir p v h
    unfold Policy.speaks Policy.ruleVerdict at h
    rw [hk a ha] at h
    dsimp only at h
    split at h
    · split at h
      · exact (Option.some.inj h).symm
      · cases h
    · cases h
  rintro a ha b hb _ ⟨dir, p, v, w, h1, h2, hne⟩
  exact absurd ((one a ha dir p v h1).trans (one b hb dir p w h2).symm) hne

section
variable (hC : Cluster rg c) (hd : queryDom rg [c] = some B.idx) (hpod : ∃ a ∈ c, a.kind = .pod)
  {ts ts' : List PolicyText} (ht : ∀ t ∈ ts, TameText c t) (ht' : ∀ t ∈ ts', TameText c t)
  {pols pols' : List (Policy (HC Dim (ISet ⊕ V2)) (ConnPeers W2 B))} (hp : policiesOf A2 W2 B ord rg c ts = some pols)
  (hp' : policiesOf A2 W2 B ord rg c ts' = some pols')
  {st st' : PolicyStore (HC Dim (ISet ⊕ V2)) (ConnPeers W2 B)} (hb : PolicyStore.build pols = some st) (hb' : PolicyStore.build pols' = some st')

include hC hd ht ht' hp hp' hb hb' in
theorem more_iff (excl : Bool) :
    (∀ p, Relevant (connNet L2 B) (clusterPeers A2 W2 B rg c) excl p → (k8sConfig A2 W2 B rg c st).allows (connNet L2 B) p →
      (k8sConfig A2 W2 B rg c st').allows (connNet L2 B) p) ↔ SayMore rg c excl ts ts' := by
  constructor
  · intro h src dst proto port htk hq hr hs
    obtain ⟨p, hcn⟩ := conn_some (A2 := A2) L2 hC hd htk.1 htk.2.1 hq hr
    exact (allows_iff L2 hC hd ts' ht' hp' hb' hcn htk.2.2.1).1 (h p ((relevant_iff L2 hC hd hcn excl).2 htk) ((allows_iff L2 hC hd ts ht hp hb hcn htk.2.2.1).2 hs))
  · intro h p hr ha
    obtain ⟨src, dst, proto, port, hcn, h1, h2⟩ := conn_of (A2 := A2) hC hd p
    have htk := (relevant_iff L2 hC hd hcn excl).1 hr
    exact (allows_iff L2 hC hd ts' ht' hp' hb' hcn htk.2.2.1).2 (h src dst proto port htk h1 h2 ((allows_iff L2 hC hd ts ht hp hb hcn htk.2.2.1).1 ha))

include hC hd ht ht' hp hp' hb hb' in
theorem same_iff (excl : Bool) :
    SameAllowed (connNet L2 B) excl none (k8sConfig A2 W2 B rg c st) (k8sConfig A2 W2 B rg c st') ↔ SaySame rg c excl ts ts' := by
  have h1 := more_iff L2 hC hd ht ht' hp hp' hb hb' excl
  have h2 := more_iff L2 hC hd ht' ht hp' hp hb' hb excl
  constructor
  · intro h src dst proto port htk hq hr
    exact ⟨h1.1 (fun p hr ha => (h p hr).1 ha) src dst proto port htk hq hr, h2.1 (fun p hr ha => (h p hr).2 ha) src dst proto port htk hq hr⟩
  · intro h p hr
    exact ⟨h1.2 (fun s d q r htk a b => (h s d q r htk a b).1) p hr, h2.2 (fun s d q r htk a b => (h s d q r htk a b).2) p hr⟩

theorem same_topology (st st' : PolicyStore (HC Dim (ISet ⊕ V2)) (ConnPeers W2 B)) :
    SameTopology (connNet L2 B) (k8sConfig A2 W2 B rg c st) (k8sConfig A2 W2 B rg c st') :=
  ⟨fun _ => rfl, fun _ => rfl, fun _ => rfl, rfl⟩

include hC hd hpod ht ht' hp hp' hb hb' in
/-- C31 from documents: for two lists of Kubernetes policies of one cluster, the query answers "equivalent" only if
Kubernetes says the same of both, and exactly then if addresses of IPv6 are left out, as by default; a negative answer
comes with the connections that Kubernetes allows by one of the lists only.  Partial: as C45_config_partial, and with
addresses of IPv6 as C31_equivalent_exact_partial. -/
theorem C31_k8s_partial (excl : Bool) :
    let a := equivQuery (connNet L2 B) excl none (k8sConfig A2 W2 B rg c st) (k8sConfig A2 W2 B rg c st')
    (a.bool = true → SaySame rg c excl ts ts') ∧ (excl = true → SaySame rg c excl ts ts' → a.bool = true) ∧ a.notExecuted = false ∧
    (a.bool = false → ∃ x y, a.expl = [x, y] ∧ ∀ p src dst proto port, Conn rg c p src dst proto port →
      ((connNet L2 B).K.mem p x = true ↔ Talks c excl src dst ∧ K8sSays rg ts src dst proto port ∧ ¬ K8sSays rg ts' src dst proto port) ∧
      ((connNet L2 B).K.mem p y = true ↔ Talks c excl src dst ∧ K8sSays rg ts' src dst proto port ∧ ¬ K8sSays rg ts src dst proto port)) := by
  intro a
  obtain ⟨L, X⟩ := connNet_lawful L2 B
  obtain ⟨G, s, _⟩ := C45_good_partial L2 hC hd hpod ts ht hp hb
  obtain ⟨G', s', _⟩ := C45_good_partial L2 hC hd hpod ts' ht' hp' hb'
  have hst := same_topology L2 (rg := rg) (c := c) st st'
  have ho : SameOrder (connNet L2 B) (k8sConfig A2 W2 B rg c st) (k8sConfig A2 W2 B rg c st') := by
    refine Or.inr (k8s_order_free L2 fun pol hpol => ?_)
    rw [show (k8sConfig A2 W2 B rg c st).store.policies = pols from (build_built _ hb).policies] at hpol
    obtain ⟨t, _, q, _, rfl⟩ := policies_of hp hpol; rfl
  have hsame := same_iff L2 hC hd ht ht' hp hp' hb hb' excl
  refine ⟨fun h => hsame.1 (C31_equivalent_sound_partial L excl none G G' (fun _ => ⟨s, s'⟩) ho h),
    fun he h => (C31_equivalent_exact_partial L X excl none G G' (fun _ => ⟨s, s'⟩) ho (Or.inl he) hst).2 (hsame.2 h), ?_, fun h => ?_⟩
  · rw [← Bool.not_eq_true]
    exact fun h => (C31_not_executed excl none _ _).1 h hst
  · obtain ⟨x, y, h1, h2, h3⟩ := C31_explanation_partial L excl none G G' (fun _ => ⟨s, s'⟩) hst h
    refine ⟨x, y, h1, fun p src dst proto port hcn => ⟨(h2 p).trans ?_, (h3 p).trans ?_⟩⟩
    all_goals
      rw [show (k8sConfig A2 W2 B rg c st).peers = clusterPeers A2 W2 B rg c from rfl, relevant_iff L2 hC hd hcn excl]
      refine and_congr_right fun htk => ?_
      have a1 := allows_iff L2 hC hd ts ht hp hb hcn htk.2.2.1
      have a2 := allows_iff L2 hC hd ts' ht' hp' hb' hcn htk.2.2.1
      change _ ∧ ¬ _ ↔ _
      unfold Config.allowsIn
      dsimp only
      rw [a1, a2]

theorem kinds_agree (hC : Cluster rg c) (hd : queryDom rg [c] = some B.idx) (hpod : ∃ a ∈ c, a.kind = .pod)
    (st st' : PolicyStore (HC Dim (ISet ⊕ V2)) (ConnPeers W2 B)) : KindsAgree (connNet L2 B) (k8sConfig A2 W2 B rg c st) (k8sConfig A2 W2 B rg c st') :=
  fun _ he => ((k8s_world L2 hC hd hpod).work_ip he).2

include hC hd hpod ht ht' hp hp' hb hb' in
/-- C32 from documents: the containment query on two lists of Kubernetes policies of one cluster answers positively
exactly if all that Kubernetes allows by the first it allows by the second; a negative answer comes with the connections
of which this is not so.  Partial: as C45_config_partial. -/
theorem C32_k8s_partial (excl cmd : Bool) :
    let a := containQuery (connNet L2 B) excl cmd false (k8sConfig A2 W2 B rg c st) (k8sConfig A2 W2 B rg c st')
    (a.bool = true ↔ SayMore rg c excl ts ts') ∧ (a.num = if a.bool = cmd then 0 else 1) ∧ (a.bool = true → a.expl = []) ∧
    (a.bool = false → ∃ x, a.expl = [x] ∧ ∀ p src dst proto port, Conn rg c p src dst proto port →
      ((connNet L2 B).K.mem p x = true ↔ Talks c excl src dst ∧ K8sSays rg ts src dst proto port ∧ ¬ K8sSays rg ts' src dst proto port)) := by
  intro a
  obtain ⟨L, _⟩ := connNet_lawful L2 B
  obtain ⟨G, s, _⟩ := C45_good_partial L2 hC hd hpod ts ht hp hb
  obtain ⟨G', s', _⟩ := C45_good_partial L2 hC hd hpod ts' ht' hp' hb'
  have hw : PeersWithin (connNet L2 B) (k8sConfig A2 W2 B rg c st) (k8sConfig A2 W2 B rg c st') := fun _ h => h
  obtain ⟨h1, h2, _, h4, h5⟩ := C32_containment_partial L excl cmd false G G' s s' (kinds_agree L2 hC hd hpod st st')
  refine ⟨h1.trans ⟨fun h => (more_iff L2 hC hd ht ht' hp hp' hb hb' excl).1 h.2, fun h => ⟨hw, (more_iff L2 hC hd ht ht' hp hp' hb hb' excl).2 h⟩⟩, h2, h4, fun h => ?_⟩
  obtain ⟨x, hx, hm⟩ := h5 h hw
  refine ⟨x, hx, fun p src dst proto port hcn => (hm p).trans ?_⟩
  rw [show (k8sConfig A2 W2 B rg c st).peers = clusterPeers A2 W2 B rg c from rfl, relevant_iff L2 hC hd hcn excl]
  refine and_congr_right fun htk => ?_
  have a1 := allows_iff L2 hC hd ts ht hp hb hcn htk.2.2.1
  have a2 := allows_iff L2 hC hd ts' ht' hp' hb' hcn htk.2.2.1
  unfold compareWhat
  rw [if_neg (by decide), a1, a2]

/-- What Kubernetes forbids has an end that a policy selects. -/
theorem selected_end (hC : Cluster rg c) (hd : queryDom rg [c] = some B.idx) {ts : List PolicyText} (ht : ∀ t ∈ ts, TameText c t)
    {pols : List (Policy (HC Dim (ISet ⊕ V2)) (ConnPeers W2 B))} (hp : policiesOf A2 W2 B ord rg c ts = some pols)
    {st : PolicyStore (HC Dim (ISet ⊕ V2)) (ConnPeers W2 B)} (hb : PolicyStore.build pols = some st)
    {p : Point (connA A2 B)} {src dst : End} {proto port : Int} (hcn : Conn rg c p src dst proto port) (hn : ¬ K8sSays rg ts src dst proto port) :
    ∃ e, (e = (connNet L2 B).src p ∨ e = (connNet L2 B).dst p) ∧ Captured (connNet L2 B) (k8sConfig A2 W2 B rg c st) e := by
  have key : ∀ d, Isolated ts d (if d then dst else src) →
      Captured (connNet L2 B) (k8sConfig A2 W2 B rg c st) (endpoint (connNet L2 B).toNet d p) := by
    rintro d ⟨t, htm, s, hs, hg, ha⟩
    obtain ⟨pol, hpol, h⟩ := (mapM_some_mem hp).2 t htm
    rw [Option.map_eq_some_iff] at h
    obtain ⟨q, hq, rfl⟩ := h
    have hsem := ((policy_sem L2 hC (covers_of_query hC hd) (ht t htm) hq).2 p src dst proto port hcn.src hcn.dst hcn.proto hcn.port d).1.2 ⟨s, hs, hg, ha⟩
    refine ⟨toPolicy A2 W2 B rg t q, ?_, ?_⟩
    · rw [show (k8sConfig A2 W2 B rg c st).store.policies = pols from (build_built _ hb).policies]; exact hpol
    · unfold Policy.captures at hsem
      simp only [Bool.and_eq_true] at hsem
      exact hsem.2
  by_contra hne
  simp only [not_exists, not_and] at hne
  refine hn ⟨fun h => ?_, fun h => ?_⟩
  · exact absurd (key false h) (hne _ (Or.inl rfl))
  · exact absurd (key true h) (hne _ (Or.inr rfl))

include hC hd hpod ht ht' hp hp' hb hb' in
/-- C33 from documents: the semantic difference of two lists of Kubernetes policies of one cluster reports a connection
between two different peers as removed, in exactly one category, if Kubernetes allows it by the first list only, as added
if it does by the second only, and else not at all.  Partial: as C45_config_partial; connections of a pod with itself are
never reported. -/
theorem C33_k8s_partial (excl : Bool) (p : Point (connA A2 B)) (src dst : End) (proto port : Int) (hcn : Conn rg c p src dst proto port)
    (hne : p.1 .srcPeers ≠ p.1 .dstPeers) :
    let D := computeDiff (connNet L2 B) excl (k8sConfig A2 W2 B rg c st) (k8sConfig A2 W2 B rg c st')
    ((∃ k, Reported (connNet L2 B) D false k p) ↔ Talks c excl src dst ∧ K8sSays rg ts src dst proto port ∧ ¬ K8sSays rg ts' src dst proto port) ∧
    ((∃ k, Reported (connNet L2 B) D true k p) ↔ Talks c excl src dst ∧ K8sSays rg ts' src dst proto port ∧ ¬ K8sSays rg ts src dst proto port) ∧
    ∀ added k k', Reported (connNet L2 B) D added k p → Reported (connNet L2 B) D added k' p → k = k' := by
  intro D
  obtain ⟨L, _⟩ := connNet_lawful L2 B
  obtain ⟨G, s, _⟩ := C45_good_partial L2 hC hd hpod ts ht hp hb
  obtain ⟨G', s', _⟩ := C45_good_partial L2 hC hd hpod ts' ht' hp' hb'
  have k12 := kinds_agree L2 hC hd hpod st st'
  have k21 := kinds_agree L2 hC hd hpod st' st
  have H := fun k => C33_exact_partial L excl G G' s s' k12 k21 k p
  have O := C33_once_partial L excl G G' s s' k12 k21 p hne
  have l1 : Lost (connNet L2 B) excl (k8sConfig A2 W2 B rg c st) (k8sConfig A2 W2 B rg c st') p ↔
      Talks c excl src dst ∧ K8sSays rg ts src dst proto port ∧ ¬ K8sSays rg ts' src dst proto port := by
    unfold Lost
    rw [show (k8sConfig A2 W2 B rg c st).peers = clusterPeers A2 W2 B rg c from rfl, relevant_iff L2 hC hd hcn excl]
    refine and_congr_right fun htk => ?_
    rw [allows_iff L2 hC hd ts ht hp hb hcn htk.2.2.1, allows_iff L2 hC hd ts' ht' hp' hb' hcn htk.2.2.1]
  have l2 : Lost (connNet L2 B) excl (k8sConfig A2 W2 B rg c st') (k8sConfig A2 W2 B rg c st) p ↔
      Talks c excl src dst ∧ K8sSays rg ts' src dst proto port ∧ ¬ K8sSays rg ts src dst proto port := by
    unfold Lost
    rw [show (k8sConfig A2 W2 B rg c st').peers = clusterPeers A2 W2 B rg c from rfl, relevant_iff L2 hC hd hcn excl]
    refine and_congr_right fun htk => ?_
    rw [allows_iff L2 hC hd ts ht hp hb hcn htk.2.2.1, allows_iff L2 hC hd ts' ht' hp' hb' hcn htk.2.2.1]
  have u1 : Lost (connNet L2 B) excl (k8sConfig A2 W2 B rg c st) (k8sConfig A2 W2 B rg c st') p → ∃! k, Reported (connNet L2 B) D false k p := by
    intro h
    obtain ⟨e, he, hc⟩ := selected_end L2 hC hd ht' hp' hb' hcn (l1.1 h).2.2
    exact (O ⟨e, he, Or.inr (Or.inr (Or.inr hc))⟩).1 h
  have u2 : Lost (connNet L2 B) excl (k8sConfig A2 W2 B rg c st') (k8sConfig A2 W2 B rg c st) p → ∃! k, Reported (connNet L2 B) D true k p := by
    intro h
    obtain ⟨e, he, hc⟩ := selected_end L2 hC hd ht hp hb hcn (l2.1 h).2.2
    exact (O ⟨e, he, Or.inr (Or.inr (Or.inl hc))⟩).2 h
  refine ⟨⟨fun ⟨k, h⟩ => l1.1 ((H k).1.1 h).1, fun h => (u1 (l1.2 h)).exists⟩, ⟨fun ⟨k, h⟩ => l2.1 ((H k).2.1 h).1, fun h => (u2 (l2.2 h)).exists⟩, fun added k k' h h' => ?_⟩
  cases added
  · exact (u1 ((H k).1.1 h).1).unique h h'
  · exact (u2 ((H k).2.1 h).1).unique h h'

end
end
end K8sParser
end Verif
