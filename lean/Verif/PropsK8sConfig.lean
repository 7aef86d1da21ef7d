import Verif.QueryDom
import Verif.PropsConfig
/-!
C45: the connections of a configuration of Kubernetes policies, from the texts of the policies.

The parsed policies (`Verif.K8sParseModel`) are put into the model of configurations (`Verif.PolicyModel`) over the
connection sets of the program (`Verif.ConnNet`).
-/
namespace Verif
open ISet PeerSet

namespace K8sParser
open Container

section
variable {V2 X2 : Type} {A2 : VAlg Dim V2 X2} {W2 : Dim → V2 → Prop} (L2 : A2.Lawful W2) {B : PeerDom} {ord : SetOrder} {rg : PodReg} {c : Container}

/-- A set of peers as a value of the peer dimensions (`BasePeerSet.get_peer_interval_of`, Peer.py 730-755). -/
noncomputable def peersVal (A2 : VAlg Dim V2 X2) (W2 : Dim → V2 → Prop) (B : PeerDom) (rg : PodReg) (S : PeerSet String) : ConnPeers W2 B :=
  (connExtra A2 W2 B).clip (.inl ((Base.toIndices rg.keys S).getD []))

/-- The policy object: `K8sNetworkPolicy` with the parsed attributes. -/
noncomputable def toPolicy (A2 : VAlg Dim V2 X2) (W2 : Dim → V2 → Prop) (B : PeerDom) (rg : PodReg) (t : PolicyText) (q : Parsed V2) :
    Policy (HC Dim (ISet ⊕ V2)) (ConnPeers W2 B) where
  name := t.ns.name ++ "/" ++ t.name
  kind := .k8s
  order := none
  action := .allow
  selected := peersVal A2 W2 B rg q.selected
  affectsIngress := q.affectsIngress
  affectsEgress := q.affectsEgress
  ingressRules := q.ingress.map (fun h => ⟨.allow, HC.reduce (connA A2 B) allDims h⟩)
  egressRules := q.egress.map (fun h => ⟨.allow, HC.reduce (connA A2 B) allDims h⟩)

/-- The policies of the texts, in order; `none` if one of them is rejected. -/
noncomputable def policiesOf (A2 : VAlg Dim V2 X2) (W2 : Dim → V2 → Prop) (B : PeerDom) (ord : SetOrder) (rg : PodReg) (c : Container) (ts : List PolicyText) :
    Option (List (Policy (HC Dim (ISet ⊕ V2)) (ConnPeers W2 B))) :=
  ts.mapM (fun t => (parsePolicy A2 PeerDom.default ord rg c t).map (toPolicy A2 W2 B rg t))

/-- The peers of the configuration, by class (`get_all_peers_group`, PeerContainer.py 299-317). -/
noncomputable def clusterPeers (A2 : VAlg Dim V2 X2) (W2 : Dim → V2 → Prop) (B : PeerDom) (rg : PodReg) (c : Container) : Peers (ConnPeers W2 B) where
  pods := peersVal A2 W2 B rg (c.sel (fun p => decide (p.kind = .pod)))
  heps := peersVal A2 W2 B rg (c.sel (fun p => decide (p.kind = .hep)))
  dns := peersVal A2 W2 B rg (c.sel (fun p => decide (p.kind = .dns)))
  ips := peersVal A2 W2 B rg [.ip (IpBlock.allIps false false)]

/-! ### Specification -/

/-- Some policy applies to the end and governs the direction. -/
def Isolated (ts : List PolicyText) (d : Bool) (E : End) : Prop :=
  ∃ t ∈ ts, ∃ s, t.spec = some s ∧ s.Governs d ∧ Applies t.ns s.podSelector E

/-- Some policy that applies to the end and governs the direction has a rule that covers the connection. -/
def Covered (rg : PodReg) (ts : List PolicyText) (d : Bool) (E other dst : End) (proto port : Int) : Prop :=
  ∃ t ∈ ts, ∃ s, t.spec = some s ∧ s.Governs d ∧ Applies t.ns s.podSelector E ∧
    ∃ r ∈ s.rules d, RuleSays rg t.ns r other dst proto port

/-- Kubernetes: the connection is allowed if at each end some policy covers it or none isolates the end. -/
def K8sSays (rg : PodReg) (ts : List PolicyText) (src dst : End) (proto port : Int) : Prop :=
  (Isolated ts false src → Covered rg ts false src dst dst proto port) ∧
  (Isolated ts true dst → Covered rg ts true dst src dst proto port)

/-- The end is a pod. -/
def End.IsPod : End → Prop
  | .peer p => p.kind = .pod
  | .ip _ => False

/-- The texts have none of the known defects. -/
def TameText (c : Container) (t : PolicyText) : Prop :=
  ∀ s, t.spec = some s → ¬ s.EmptyEgress ∧ ∀ d, ∀ r ∈ s.rules d, r.Tame c t.ns

/-! ### Proofs -/

theorem peersVal_mem (hC : Cluster rg c) (hB : Covers rg c B) {S : PeerSet String} (hS : S.Ok ∧ ∀ k, S.HasPod k → ∃ p ∈ c, p.elem = .pod k) (e : Int ⊕ X2) :
    (connNet L2 B).Q.mem e (peersVal A2 W2 B rg S) = true ↔ S.At rg.keys e := by
  have reg : ∀ k, S.HasPod k → k ∈ rg.keys := by
    intro k hk
    obtain ⟨p, hp, he⟩ := hS.2 k hk
    obtain ⟨j, hj, hm⟩ := hC.elem p hp
    rw [he] at hj; cases hj; exact hm
  obtain ⟨l, hl⟩ := (Base.C22_to_indices_defined hC.reach hS.1).2 reg
  have hcan := (Base.C22_to_indices_exact hC.reach hS.1 hl).1
  have hwf : connWf W2 B .srcPeers (.inl l) :=
    ⟨rfl, hcan, fun z hz => hB.at hS.2 ((at_iff (X2 := X2) hC.reach hS.1 hl z).1 hz)⟩
  have hv : (peersVal A2 W2 B rg S).1 = .inl l := by
    unfold peersVal
    rw [hl]
    exact (connExtra A2 W2 B).clip_src _ hwf
  have hm : (connNet L2 B).Q.mem e (peersVal A2 W2 B rg S) = (connA A2 B).mem e (peersVal A2 W2 B rg S).1 := rfl
  rw [hm, hv]
  rcases e with z | x
  · rw [← at_iff hC.reach hS.1 hl]
    exact mem_inl A2 _ z l hcan
  · constructor
    · intro h; change false = true at h; cases h
    · rintro (⟨_, h, _⟩ | ⟨_, _, h, _⟩) <;> cases h

theorem peersVal_end (hC : Cluster rg c) (hB : Covers rg c B) {S : PeerSet String} (hS : S.Ok ∧ ∀ k, S.HasPod k → ∃ p ∈ c, p.elem = .pod k) {e : Int ⊕ X2} {E : End}
    (hE : E.At rg c e) : (connNet L2 B).Q.mem e (peersVal A2 W2 B rg S) = true ↔ E.In S :=
  (peersVal_mem L2 hC hB hS e).trans (at_end hC hE S)

theorem sel_legal (hC : Cluster rg c) (f : PeerInfo → Bool) : (c.sel f).Ok ∧ ∀ k, (c.sel f).HasPod k → ∃ p ∈ c, p.elem = .pod k :=
  ⟨sel_ok hC.ok f, fun _ hk => hasPod_sel_mem f hk⟩

theorem in_sel (hC : Cluster rg c) {e : Int ⊕ X2} (f : PeerInfo → Bool) {E : End} (hE : E.At rg c e) :
    E.In (c.sel f) ↔ match E with | .peer p => f p = true | .ip _ => False := by
  cases E with
  | ip x => exact ⟨fun h => hC.not_ip f x h, fun h => h.elim⟩
  | peer p =>
    obtain ⟨hp, n, k, _, _, he⟩ := hE
    change (∃ k, p.elem = .pod k ∧ (c.sel f).HasPod k) ↔ f p = true
    rw [← hasPod_sel hC.uniq hp he f]
    constructor
    · rintro ⟨j, hj, h⟩; rw [he] at hj; cases hj; exact h
    · intro h; exact ⟨k, he, h⟩

theorem ips_legal : PeerSet.Ok ([.ip (IpBlock.allIps false false)] : PeerSet String) ∧
    ∀ k, PeerSet.HasPod ([.ip (IpBlock.allIps false false)] : PeerSet String) k → ∃ p ∈ c, p.elem = .pod k := by
  refine ⟨?_, fun k hk => ?_⟩
  · intro b hb
    rw [List.mem_singleton] at hb; cases hb
    exact .all _ _
  · unfold PeerSet.HasPod at hk
    rw [List.mem_singleton] at hk; cases hk

/-- The class of an end. -/
theorem cluster_classes (hC : Cluster rg c) (hB : Covers rg c B) {e : Int ⊕ X2} {E : End} (hE : E.At rg c e) :
    ((connNet L2 B).Q.mem e (clusterPeers A2 W2 B rg c).pods = true ↔ E.IsPod) ∧
    (connNet L2 B).Q.mem e (clusterPeers A2 W2 B rg c).heps = false ∧
    ((connNet L2 B).Q.mem e (clusterPeers A2 W2 B rg c).ips = true ↔ ∃ x, E = .ip x) ∧
    ((connNet L2 B).Q.mem e (clusterPeers A2 W2 B rg c).dns = true ↔ ∃ p, E = .peer p ∧ p.kind = .dns) := by
  have h1 := (peersVal_end L2 hC hB (sel_legal hC (fun p => decide (p.kind = .pod))) hE).trans (in_sel hC _ hE)
  have h2 := (peersVal_end L2 hC hB (sel_legal hC (fun p => decide (p.kind = .hep))) hE).trans (in_sel hC _ hE)
  have h3 := (peersVal_end L2 hC hB (sel_legal hC (fun p => decide (p.kind = .dns))) hE).trans (in_sel hC _ hE)
  have h4 := peersVal_end L2 hC hB ips_legal hE
  refine ⟨h1.trans ?_, ?_, h4.trans ?_, h3.trans ?_⟩
  · cases E <;> simp [End.IsPod]
  · rw [← Bool.not_eq_true]
    refine fun h => ?_
    have := h2.1 h
    cases E with
    | ip x => exact this
    | peer p =>
      simp only [decide_eq_true_eq] at this
      rcases hC.kind p hE.1 with h | h
      · rw [this] at h; cases h.1
      · rw [this] at h; cases h.1
  · cases E with
    | ip x =>
      simp only [End.ip.injEq, exists_eq', iff_true]
      exact ⟨_, List.mem_singleton.2 rfl, (IpBlock.C21_all_exact false false x).2 (by simp)⟩
    | peer p =>
      simp only [reduceCtorEq, exists_false, iff_false]
      rintro ⟨k, _, hk⟩
      unfold PeerSet.HasPod at hk
      rw [List.mem_singleton] at hk; cases hk
  · cases E <;> simp

theorem no_heps (hC : Cluster rg c) (hB : Covers rg c B) (e : Int ⊕ X2) : (connNet L2 B).Q.mem e (clusterPeers A2 W2 B rg c).heps = false := by
  rw [← Bool.not_eq_true]
  intro h
  rcases (peersVal_mem L2 hC hB (sel_legal hC _) e).1 h with ⟨x, _, hx⟩ | ⟨n, k, _, _, hk⟩
  · exact hC.not_ip _ x hx
  · obtain ⟨p, hp, hf, _⟩ := (mem_sel c _ _).1 hk
    simp only [decide_eq_true_eq] at hf
    rcases hC.kind p hp with h | h
    · rw [hf] at h; cases h.1
    · rw [hf] at h; cases h.1

theorem toPolicy_rules (t : PolicyText) (q : Parsed V2) (d : Bool) :
    (toPolicy A2 W2 B rg t q).rules d = (q.rules d).map (fun h => ⟨.allow, HC.reduce (connA A2 B) allDims h⟩) := by
  cases d <;> rfl

theorem toPolicy_governs (t : PolicyText) (q : Parsed V2) (d : Bool) : (toPolicy A2 W2 B rg t q).governs d = q.governs d := by
  cases d <;> rfl

/-- What a parsed policy is, in terms of its text. -/
theorem policy_sem (hC : Cluster rg c) (hB : Covers rg c B) {t : PolicyText} (ht : TameText c t) {q : Parsed V2} (h : parsePolicy A2 PeerDom.default ord rg c t = some q) :
    (toPolicy A2 W2 B rg t q).Legal (connNet L2 B).toNet (HcStrongT (connA A2 B) (connWf W2 B) allDims) ∧
    ∀ (p : Point (connA A2 B)) (src dst : End) (proto port : Int), src.At rg c (p.1 .srcPeers) → dst.At rg c (p.1 .dstPeers) →
      p.1 .protocols = .inl proto → p.1 .dstPorts = .inl port → ∀ d,
      ((toPolicy A2 W2 B rg t q).captures (connNet L2 B).toNet d (endpoint (connNet L2 B).toNet d p) = true ↔
        ∃ s, t.spec = some s ∧ s.Governs d ∧ Applies t.ns s.podSelector (if d then dst else src)) ∧
      ((∃ r ∈ (toPolicy A2 W2 B rg t q).rules d, (connNet L2 B).K.mem p r.props = true) ↔
        ∃ s, t.spec = some s ∧ Applies t.ns s.podSelector (if d then dst else src) ∧
          ∃ r ∈ s.rules d, RuleSays rg t.ns r (if d then src else dst) dst proto port) := by
  cases hs : t.spec with
  | none =>
    unfold parsePolicy at h
    rw [hs] at h
    cases h
    refine ⟨⟨fun d r hr => ?_, fun d r hr => ?_⟩, fun p src dst proto port _ _ _ _ d => ⟨?_, ?_⟩⟩
    · rw [toPolicy_rules] at hr; cases d <;> cases hr
    · rw [toPolicy_rules] at hr; cases d <;> cases hr
    · simp only [Policy.captures, toPolicy_governs]
      cases d <;> simp [Parsed.governs]
    · rw [toPolicy_rules]
      cases d <;> simp [Parsed.rules]
  | some s =>
    unfold parsePolicy at h
    rw [hs] at h
    dsimp only at h
    obtain ⟨h1, h2, _, _⟩ := parseSpec_some h
    obtain ⟨b1, b2, _, _⟩ := selectedPods_sem hC h1
    obtain ⟨hem, htm⟩ := ht s hs
    obtain ⟨c1, c2, c3⟩ := C44_policy_partial L2 hC h htm hem
    refine ⟨⟨fun d r hr => ?_, fun d r hr p hp => ?_⟩, fun p src dst proto port e1 e2 e3 e4 d => ⟨?_, ?_⟩⟩
    · rw [toPolicy_rules] at hr
      obtain ⟨b, hb, rfl⟩ := List.mem_map.1 hr
      obtain ⟨a, _, ha⟩ := (mapM_some_mem (h2 d)).1 b hb
      exact (rule_query L2 hC hB ⟨b1, b2⟩ ha).1
    · rw [toPolicy_rules] at hr
      obtain ⟨b, hb, rfl⟩ := List.mem_map.1 hr
      obtain ⟨a, _, ha⟩ := (mapM_some_mem (h2 d)).1 b hb
      obtain ⟨_, q', _, hm⟩ := rule_raw L2 hC ⟨b1, b2⟩ ha
      refine (peersVal_mem L2 hC hB ⟨b1, b2⟩ _).2 ?_
      have := (hm p.toDefault).1 (((rule_query L2 hC hB ⟨b1, b2⟩ ha).2 p).1 hp)
      cases d
      · exact this.1
      · exact this.2.1
    · unfold Policy.captures
      rw [toPolicy_governs, Bool.and_eq_true, c1 d]
      have hend : End.At rg c (endpoint (connNet L2 B).toNet d p) (if d then dst else src) := by
        cases d
        · exact e1
        · exact e2
      have : (connNet L2 B).Q.mem (endpoint (connNet L2 B).toNet d p) (toPolicy A2 W2 B rg t q).selected = true ↔ _ :=
        (peersVal_mem L2 hC hB ⟨b1, b2⟩ _).trans (c2 _ _ hend)
      rw [this]
      simp
    · rw [toPolicy_rules]
      simp only [List.mem_map, exists_exists_and_eq_and, Option.some.injEq, exists_eq_left']
      refine Iff.trans ?_ (c3 p.toDefault src dst proto port e1 e2 e3 e4 d)
      refine exists_congr fun b => and_congr_right fun hb => ?_
      obtain ⟨a, _, ha⟩ := (mapM_some_mem (h2 d)).1 b hb
      exact (rule_query L2 hC hB ⟨b1, b2⟩ ha).2 p

/-- C45: in a configuration of Kubernetes policies, a connection with a pod at one of its ends is allowed exactly if
Kubernetes says so of the texts of the policies.  Partial: the known defects of single texts are excluded
(`TameText`), and clusters have pods and DNS entries only. -/
theorem C45_config_partial (hC : Cluster rg c) (hB : Covers rg c B) (ts : List PolicyText) (ht : ∀ t ∈ ts, TameText c t)
    {pols : List (Policy (HC Dim (ISet ⊕ V2)) (ConnPeers W2 B))} (hp : policiesOf A2 W2 B ord rg c ts = some pols)
    {st : PolicyStore (HC Dim (ISet ⊕ V2)) (ConnPeers W2 B)} (hb : PolicyStore.build pols = some st)
    (f : ConnFilter) (hf : f.calcAllAllowed = true)
    (p : Point (connA A2 B)) (src dst : End) (proto port : Int) (e1 : src.At rg c (p.1 .srcPeers)) (e2 : dst.At rg c (p.1 .dstPeers))
    (e3 : p.1 .protocols = .inl proto) (e4 : p.1 .dstPorts = .inl port) (hpod : src.IsPod ∨ dst.IsPod) :
    (connNet L2 B).K.mem p
        (configConns (connNet L2 B).toNet (clusterPeers A2 W2 B rg c) st.layers f).allAllowed = true ↔
      K8sSays rg ts src dst proto port := by
  obtain ⟨m1, m2⟩ := mapM_some_mem hp
  have n1 : ∀ pol ∈ pols, ∃ t ∈ ts, ∃ q, parsePolicy A2 PeerDom.default ord rg c t = some q ∧ toPolicy A2 W2 B rg t q = pol := by
    intro pol hpol
    obtain ⟨t, ht', h⟩ := m1 pol hpol
    rw [Option.map_eq_some_iff] at h
    obtain ⟨q, hq, h⟩ := h
    exact ⟨t, ht', q, hq, h⟩
  have n2 : ∀ t ∈ ts, ∃ q, parsePolicy A2 PeerDom.default ord rg c t = some q ∧ toPolicy A2 W2 B rg t q ∈ pols := by
    intro t ht'
    obtain ⟨pol, hpol, h⟩ := m2 t ht'
    rw [Option.map_eq_some_iff] at h
    obtain ⟨q, hq, h⟩ := h
    exact ⟨q, hq, by rw [h]; exact hpol⟩
  rw [C27_additive (connNet_lawful L2 B).1.net pols
    (fun pol hpol => by obtain ⟨t, _, q, _, rfl⟩ := n1 pol hpol; rfl)
    (fun pol hpol => by obtain ⟨t, ht', q, hq, rfl⟩ := n1 pol hpol; exact (policy_sem L2 hC hB (ht t ht') hq).1)
    hb (clusterPeers A2 W2 B rg c) f hf (Or.inr (no_heps L2 hC hB)) p]
  -- capture and cover, in terms of the texts
  have hcap : ∀ d, (∃ pol ∈ pols, pol.captures (connNet L2 B).toNet d (endpoint (connNet L2 B).toNet d p) = true) ↔
      Isolated ts d (if d then dst else src) := by
    intro d
    constructor
    · rintro ⟨pol, hpol, h⟩
      obtain ⟨t, ht', q, hq, rfl⟩ := n1 pol hpol
      exact ⟨t, ht', (((policy_sem L2 hC hB (ht t ht') hq).2 p src dst proto port e1 e2 e3 e4 d).1).1 h⟩
    · rintro ⟨t, ht', h⟩
      obtain ⟨q, hq, hpol⟩ := n2 t ht'
      exact ⟨_, hpol, (((policy_sem L2 hC hB (ht t ht') hq).2 p src dst proto port e1 e2 e3 e4 d).1).2 h⟩
  have hcov : ∀ d, (∃ pol ∈ pols, pol.captures (connNet L2 B).toNet d (endpoint (connNet L2 B).toNet d p) = true ∧
      ∃ r ∈ pol.rules d, (connNet L2 B).K.mem p r.props = true) ↔
      Covered rg ts d (if d then dst else src) (if d then src else dst) dst proto port := by
    intro d
    constructor
    · rintro ⟨pol, hpol, h, hr⟩
      obtain ⟨t, ht', q, hq, rfl⟩ := n1 pol hpol
      have hm := (policy_sem L2 hC hB (ht t ht') hq).2 p src dst proto port e1 e2 e3 e4 d
      obtain ⟨s, hs, hg, ha⟩ := hm.1.1 h
      obtain ⟨s', hs', _, hr⟩ := hm.2.1 hr
      rw [hs] at hs'; cases hs'
      exact ⟨t, ht', s, hs, hg, ha, hr⟩
    · rintro ⟨t, ht', s, hs, hg, ha, hr⟩
      obtain ⟨q, hq, hpol⟩ := n2 t ht'
      have hm := (policy_sem L2 hC hB (ht t ht') hq).2 p src dst proto port e1 e2 e3 e4 d
      exact ⟨_, hpol, hm.1.2 ⟨s, hs, hg, ha⟩, hm.2.2 ⟨s, hs, ha, hr⟩⟩
  have hnone : ∀ d, (∀ pol ∈ pols, pol.captures (connNet L2 B).toNet d (endpoint (connNet L2 B).toNet d p) = false) ↔
      ¬ Isolated ts d (if d then dst else src) := by
    intro d
    rw [← hcap d]
    simp
  obtain ⟨s1, s2, s3, s4⟩ := cluster_classes (A2 := A2) L2 hC hB e1
  obtain ⟨d1, d2, d3, d4⟩ := cluster_classes (A2 := A2) L2 hC hB e2
  have kind_cases : ∀ (E : End) (e : Int ⊕ X2), E.At rg c e → E.IsPod ∨ (∃ x, E = .ip x) ∨ ∃ p, E = .peer p ∧ p.kind = .dns := by
    intro E e hE
    cases E with
    | ip x => exact Or.inr (Or.inl ⟨x, rfl⟩)
    | peer a =>
      rcases hC.kind a hE.1 with h | h
      · exact Or.inl h.1
      · exact Or.inr (Or.inr ⟨a, rfl, h.1⟩)
  have ks := kind_cases src _ e1
  have kd := kind_cases dst _ e2
  have hsrc : (connNet L2 B).src p = p.1 .srcPeers := rfl
  have hdst : (connNet L2 B).dst p = p.1 .dstPeers := rfl
  have known : ∀ (E : End) (e : Int ⊕ X2), E.At rg c e → (clusterPeers A2 W2 B rg c).known (connNet L2 B).toNet e := by
    intro E e hE
    obtain ⟨s1, s2, s3, s4⟩ := cluster_classes (A2 := A2) L2 hC hB hE
    unfold Peers.known Peers.nonDns Peers.workload
    rw [s1, s3, s4]
    rcases kind_cases E e hE with h | h | h
    · exact Or.inl (Or.inl (Or.inl h))
    · exact Or.inl (Or.inr h)
    · exact Or.inr h
  have hno : ∀ d x, ¬ Isolated ts d (.ip x) := by
    rintro d x ⟨t, _, s, _, _, ha⟩; exact ha
  -- one direction
  have hdir : ∀ d, k8sAllows (connNet L2 B).toNet pols (clusterPeers A2 W2 B rg c) d p ↔
      Covered rg ts d (if d then dst else src) (if d then src else dst) dst proto port ∨
      (¬ Isolated ts d (if d then dst else src) ∧ ¬ ∃ x, (if d then dst else src) = .ip x) := by
    intro d
    unfold k8sAllows
    rw [hcov d, hnone d]
    refine or_congr Iff.rfl (and_congr_right fun _ => ?_)
    have hend : End.At rg c (endpoint (connNet L2 B).toNet d p) (if d then dst else src) := by
      cases d
      · exact e1
      · exact e2
    have hoth : End.At rg c (otherEnd (connNet L2 B).toNet d p) (if d then src else dst) := by
      cases d
      · exact e2
      · exact e1
    obtain ⟨g1, g2, g3, g4⟩ := cluster_classes (A2 := A2) L2 hC hB hend
    unfold Peers.hasDefault
    rw [g1, g4]
    have kc := kind_cases _ _ hend
    constructor
    · rintro ⟨h | ⟨q, h, _⟩, _⟩ ⟨x, hx⟩
      · rw [hx] at h; exact h
      · rw [hx] at h; cases h
    · intro h
      refine ⟨?_, known _ _ hoth⟩
      rcases kc with h' | h' | h'
      · exact Or.inl h'
      · exact absurd h' h
      · exact Or.inr h'
  unfold k8sConfigAllows
  rw [hdir true, hdir false]
  simp only [if_true, Bool.false_eq_true, if_false]
  have hw : ∀ e, (clusterPeers A2 W2 B rg c).workload (connNet L2 B).toNet e ↔
      (connNet L2 B).Q.mem e (clusterPeers A2 W2 B rg c).pods = true := by
    intro e
    unfold Peers.workload
    rw [no_heps L2 hC hB e]; simp
  rw [hw, hw, hsrc, hdst, s1, d1, s3, d3]
  have k1 := known _ _ e1
  have k2 := known _ _ e2
  unfold K8sSays
  constructor
  · rintro ⟨_, _, h1, h2⟩
    refine ⟨fun hi => ?_, fun hi => ?_⟩
    · rcases h2 with (h | h) | h
      · exact h
      · exact absurd hi h.1
      · obtain ⟨⟨x, rfl⟩, _⟩ := h
        exact absurd hi (hno _ x)
    · rcases h1 with (h | h) | h
      · exact h
      · exact absurd hi h.1
      · obtain ⟨_, ⟨x, rfl⟩⟩ := h
        exact absurd hi (hno _ x)
  · rintro ⟨h1, h2⟩
    refine ⟨k1, k2, ?_, ?_⟩
    · by_cases hi : Isolated ts true dst
      · exact Or.inl (Or.inl (h2 hi))
      · by_cases hx : ∃ x, dst = .ip x
        · right
          refine ⟨?_, hx⟩
          rcases hpod with h | h
          · exact h
          · obtain ⟨x, rfl⟩ := hx; exact h.elim
        · exact Or.inl (Or.inr ⟨hi, hx⟩)
    · by_cases hi : Isolated ts false src
      · exact Or.inl (Or.inl (h1 hi))
      · by_cases hx : ∃ x, src = .ip x
        · right
          refine ⟨hx, ?_⟩
          rcases hpod with h | h
          · obtain ⟨x, rfl⟩ := hx; exact h.elim
          · exact h
        · exact Or.inl (Or.inr ⟨hi, hx⟩)

/-! ### Accepted configurations -/

/-- A spec the parser accepts. -/
def PolicySpec.Legal (s : PolicySpec) : Prop :=
  (s.types = [] ∨ s.types = [.ingress] ∨ s.types = [.egress] ∨ s.types = [.ingress, .egress]) ∧
  (s.ingress.notNull = true → s.types = [] ∨ .ingress ∈ s.types) ∧
  (s.egress.notNull = true → s.types = [] ∨ .egress ∈ s.types) ∧
  Selector.Legal s.podSelector ∧ ∀ d, ∀ r ∈ s.rules d, r.Legal

theorem mapM_names {ts : List PolicyText} {pols : List (Policy (HC Dim (ISet ⊕ V2)) (ConnPeers W2 B))}
    (h : policiesOf A2 W2 B ord rg c ts = some pols) :
    pols.map (fun pol => (pol.name, pol.kind)) = ts.map (fun t => (t.ns.name ++ "/" ++ t.name, PolicyKind.k8s)) := by
  unfold policiesOf at h
  induction ts generalizing pols with
  | nil => simp at h; subst h; rfl
  | cons t ts ih =>
    rw [List.mapM_cons] at h
    simp only [Option.bind_eq_bind, Option.bind_eq_some_iff, Option.map_eq_some_iff, Option.pure_def, Option.some.injEq] at h
    obtain ⟨a, ⟨q, _, rfl⟩, l, hl, rfl⟩ := h
    rw [List.map_cons, List.map_cons, ih hl]
    rfl

/-- C45: a configuration is accepted exactly if every text is legal and no two policies of a namespace have one
name. -/
theorem C45_accepted (L2 : A2.Lawful W2) (hC : Cluster rg c) (ts : List PolicyText) :
    (∃ pols st, policiesOf A2 W2 B ord rg c ts = some pols ∧ PolicyStore.build pols = some st) ↔
      (∀ t ∈ ts, ∀ s, t.spec = some s → s.Legal) ∧
      ts.Pairwise (fun a b => a.ns.name ++ "/" ++ a.name ≠ b.ns.name ++ "/" ++ b.name) := by
  have hone : ∀ t : PolicyText, (∃ a, (parsePolicy A2 PeerDom.default ord rg c t).map (toPolicy A2 W2 B rg t) = some a) ↔
      ∀ s, t.spec = some s → s.Legal := by
    intro t
    cases hs : t.spec with
    | none => simp [parsePolicy, hs]
    | some s =>
      have := C44_accepted (ord := ord) L2 hC t.ns s
      simp only [Option.some.injEq, forall_eq']
      unfold PolicySpec.Legal
      rw [← this]
      unfold parsePolicy
      rw [hs]
      simp only [Option.map_eq_some_iff]
      constructor
      · rintro ⟨a, q, hq, _⟩; exact ⟨q, hq⟩
      · rintro ⟨q, hq⟩; exact ⟨_, q, hq, rfl⟩
  have hall : (∃ pols, policiesOf A2 W2 B ord rg c ts = some pols) ↔ ∀ t ∈ ts, ∀ s, t.spec = some s → s.Legal := by
    unfold policiesOf
    rw [mapM_defined]
    exact forall_congr' fun t => imp_congr_right fun _ => hone t
  have hnames : ∀ pols : List (Policy (HC Dim (ISet ⊕ V2)) (ConnPeers W2 B)), policiesOf A2 W2 B ord rg c ts = some pols →
      ((∃ st, PolicyStore.build pols = some st) ↔
        ts.Pairwise (fun a b => a.ns.name ++ "/" ++ a.name ≠ b.ns.name ++ "/" ++ b.name)) := by
    intro pols hp
    rw [build_some_iff]
    have e1 : pols.Pairwise (fun a b => ¬ (a.name = b.name ∧ a.kind = b.kind)) ↔
        (pols.map (fun pol => (pol.name, pol.kind))).Pairwise (fun a b => a ≠ b) := by
      rw [List.pairwise_map]
      simp only [ne_eq, Prod.mk.injEq]
    rw [e1, mapM_names hp, List.pairwise_map]
    simp only [ne_eq, Prod.mk.injEq, and_true]
  rw [← hall]
  constructor
  · rintro ⟨pols, st, h1, h2⟩
    exact ⟨⟨pols, h1⟩, (hnames pols h1).1 ⟨st, h2⟩⟩
  · rintro ⟨⟨pols, h1⟩, h2⟩
    obtain ⟨st, h3⟩ := (hnames pols h1).2 h2
    exact ⟨pols, st, h1, h3⟩

end
end K8sParser
end Verif
