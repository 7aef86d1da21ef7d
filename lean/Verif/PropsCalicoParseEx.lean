import Verif.PropsCalicoParse
import Verif.PropsNamedPortsEx
import Mathlib.Data.Finset.Sort
import Mathlib.Data.String.Basic
/-!
C48: witnesses and examples.
-/
namespace Verif
open ISet PeerSet

namespace CalicoParser
open Container NamedEx

namespace Ex

/-- Two pods and a network set in the namespace `default`. -/
def podA : PeerInfo := K8sParser.exPod "a" K8sParser.nsDefault [("app", "web")]
def podB : PeerInfo := K8sParser.exPod "b" K8sParser.nsDefault [("app", "db")]
def netS : PeerInfo := K8sParser.exSetPeer (K8sParser.exIv 0 9 (by decide) (by decide)) [("app", "net")]
def cl : Container := [podA, podB, netS]
def reg : PodReg := [("default/a", [("out", 1000, "TCP")]), ("default/b", [("http", 80, "TCP"), ("alt", 8080, "TCP")])]

/-- A connection between the pods. -/
def rawC (q : Conn) : Dim → Int ⊕ Int
  | .srcPeers => .inl (minPodIndex + (0 : Nat)) | .dstPeers => .inl (minPodIndex + (1 : Nat)) | .protocols => .inl q.proto
  | .srcPorts => .inl q.srcPort | .dstPorts => .inl q.dstPort
  | .methods => .inl 0 | .hosts => .inr 0 | .paths => .inr 0 | .icmpType => .inl q.icmpType | .icmpCode => .inl q.icmpCode

/-- The attributes are in range. -/
def _root_.Verif.CalicoParser.Conn.Good (q : Conn) : Prop :=
  (1 ≤ q.srcPort ∧ q.srcPort ≤ 65535) ∧ (1 ≤ q.dstPort ∧ q.dstPort ≤ 65535) ∧ (0 ≤ q.proto ∧ q.proto ≤ 255) ∧
  (0 ≤ q.icmpType ∧ q.icmpType ≤ 254) ∧ (0 ≤ q.icmpCode ∧ q.icmpCode ≤ 255)

instance (q : Conn) : Decidable q.Good := by unfold Conn.Good; infer_instance

theorem rawC_dom {q : Conn} (h : q.Good) : InDom (connA A2 PeerDom.default) (rawC q) := by
  obtain ⟨h1, h2, h3, h4, h5⟩ := h
  intro x
  cases x
  case srcPeers => exact (mem_inl A2 _ _ _ Base.all_canonical).2 (pod_mem 0 (by decide))
  case dstPeers => exact (mem_inl A2 _ _ _ Base.all_canonical).2 (pod_mem 1 (by decide))
  case dstPorts => exact (mem_inl A2 PeerDom.default _ _ (canonical_singleton.2 (by decide))).2 (mem_singleton.2 h2)
  case srcPorts => exact (mem_inl A2 PeerDom.default _ _ (canonical_singleton.2 (by decide))).2 (mem_singleton.2 h1)
  case protocols => exact (mem_inl A2 PeerDom.default _ _ (canonical_singleton.2 (by decide))).2 (mem_singleton.2 h3)
  case icmpType => exact (mem_inl A2 PeerDom.default _ _ (canonical_singleton.2 (by decide))).2 (mem_singleton.2 h4)
  case icmpCode => exact (mem_inl A2 PeerDom.default _ _ (canonical_singleton.2 (by decide))).2 (mem_singleton.2 h5)
  all_goals rfl

def ptC (q : Conn) (h : q.Good) : Point (connA A2 PeerDom.default) := ⟨rawC q, rawC_dom h⟩

/-- The alphabetical order. -/
def ord : SetOrder := ⟨fun s => s.sort (· ≤ ·), fun s x => Finset.mem_sort _⟩

/-- What the parsed ingress rule of a policy for `default/b` says of a connection from `default/a` to `default/b`. -/
noncomputable def verdict (t : CalicoRule) (q : Conn) (h : q.Good) : Option Bool :=
  (parseRule asc cl (some K8sParser.nsDefault) A2 PeerDom.default ord reg true [.pod "default/b"] t).map
    (fun r => (connNet L2 PeerDom.default).K.mem (ptC q h) r.props)

/-- The rule is legal and means `m`; the parsed rule and `m` do not say the same of the connection. -/
def Misread (t : CalicoRule) (m : RuleSpec) (q : Conn) : Prop :=
  RuleMeans asc t m ∧ m.Legal ∧ ∃ h b, verdict t q h = some b ∧
    ¬ (b = true ↔ RuleSays reg cl (some K8sParser.nsDefault) m (.pod "default/a") (.pod "default/b") q)

theorem cluster : CalCluster reg cl where
  reach := keys_reach
  room := by decide
  ports := legal_ports (by decide)
  ok := by
    intro p hp b h
    simp only [cl, List.mem_cons, List.not_mem_nil, or_false] at hp
    rcases hp with rfl | rfl | rfl <;> cases h
    exact .range _ rfl (by decide)
  uniq := by
    intro p hp q hq h
    simp only [cl, List.mem_cons, List.not_mem_nil, or_false] at hp hq
    rcases hp with rfl | rfl | rfl <;> rcases hq with rfl | rfl | rfl <;> first | rfl | exact absurd h (by decide +kernel)
  disj := by
    intro p hp q hq a b ha hb x _ _
    simp only [cl, List.mem_cons, List.not_mem_nil, or_false] at hp hq
    rcases hp with rfl | rfl | rfl <;> cases ha
    rcases hq with rfl | rfl | rfl <;> cases hb
    rfl
  spaces := by
    constructor <;> intro p hp <;> simp only [cl, List.mem_cons, List.not_mem_nil, or_false] at hp <;>
      rcases hp with rfl | rfl | rfl <;> simp [podA, podB, netS, K8sParser.exPod, K8sParser.exSetPeer]
  reg := by
    intro p hp k h
    simp only [cl, List.mem_cons, List.not_mem_nil, or_false] at hp
    rcases hp with rfl | rfl | rfl
    · have : podA.elem = .pod "default/a" := by decide +kernel
      rw [this] at h; cases h; decide
    · have : podB.elem = .pod "default/b" := by decide +kernel
      rw [this] at h; cases h; decide
    · cases h
  sets := by
    intro p hp
    simp only [cl, List.mem_cons, List.not_mem_nil, or_false] at hp
    rcases hp with rfl | rfl | rfl <;> simp [podA, podB, netS, K8sParser.exPod, K8sParser.exSetPeer]

theorem isConn (q : Conn) (h : q.Good) : IsConn reg cl (ptC q h) (.pod "default/a") (.pod "default/b") q where
  src := ⟨⟨podA, by simp [cl], by decide +kernel⟩, 0, rfl, rfl⟩
  dst := ⟨⟨podB, by simp [cl], by decide +kernel⟩, 1, rfl, rfl⟩
  proto := rfl
  srcPort := rfl
  dstPort := rfl
  icmpType := rfl
  icmpCode := rfl

/-- No source and no destination. -/
def bare (p n : Option ProtoArg) (i j : Option Icmp) : CalicoRule := ⟨"Allow", p, n, i, j, none, none⟩

/-! ### Where the code fails -/

/-- C48, finding: ICMP type 0 (echo reply) is read as no type: `icmp: {type: 0}` also allows type 8. -/
theorem C48_icmp_zero_wrong : Misread (bare (some (.name "ICMP")) none (some ⟨some 0, none⟩) none)
    ⟨.allow, some 1, none, some ⟨some 0, none⟩, none, none, none⟩ ⟨1, 1, 1, 8, 0⟩ := by
  refine ⟨⟨.allow, .some .icmp, .none, rfl, rfl, .none, .none⟩, ⟨fun e h => (by rcases h with h | h <;> cases h), fun i h => ?_⟩,
    by decide, true, by decide +kernel, fun h => ?_⟩
  · rcases h with h | h <;> cases h
    exact ⟨⟨⟨0, rfl, by decide⟩, fun d h => (by cases h)⟩, Or.inl rfl⟩
  · have := (h.1 rfl).2.2.2.2.1 _ rfl
    exact absurd (this.1 0 rfl) (by decide)

/-- C48, finding: likewise code 0: `icmp: {type: 3, code: 0}` also allows code 1. -/
theorem C48_icmp_code_zero_wrong : Misread (bare (some (.name "ICMP")) none (some ⟨some 3, some 0⟩) none)
    ⟨.allow, some 1, none, some ⟨some 3, some 0⟩, none, none, none⟩ ⟨1, 1, 1, 3, 1⟩ := by
  refine ⟨⟨.allow, .some .icmp, .none, rfl, rfl, .none, .none⟩, ⟨fun e h => (by rcases h with h | h <;> cases h), fun i h => ?_⟩,
    by decide, true, by decide +kernel, fun h => ?_⟩
  · rcases h with h | h <;> cases h
    exact ⟨⟨⟨3, rfl, by decide⟩, fun d h => (by cases h; decide)⟩, Or.inl rfl⟩
  · have := (h.1 rfl).2.2.2.2.1 _ rfl
    exact absurd (this.2 0 rfl) (by decide)

/-- C48, finding: `notICMP: {type: 0}` excludes every type, so the rule allows no ICMP at all. -/
theorem C48_not_icmp_zero_wrong : Misread (bare (some (.name "ICMP")) none none (some ⟨some 0, none⟩))
    ⟨.allow, some 1, none, none, some ⟨some 0, none⟩, none, none⟩ ⟨1, 1, 1, 8, 0⟩ := by
  refine ⟨⟨.allow, .some .icmp, .none, rfl, rfl, .none, .none⟩, ⟨fun e h => (by rcases h with h | h <;> cases h), fun i h => ?_⟩,
    by decide, false, by decide +kernel, fun h => ?_⟩
  · rcases h with h | h <;> cases h
    exact ⟨⟨⟨0, rfl, by decide⟩, fun d h => (by cases h)⟩, Or.inl rfl⟩
  · have : (false = true) := h.2 ⟨fun e h => (by cases h), fun e h => (by cases h), fun p h => (by cases h; rfl), fun p h => (by cases h), fun i h => (by cases h),
      fun i h => by cases h; exact fun h => absurd (h.1 0 rfl) (by decide)⟩
    cases this

/-- C48, finding: what `notICMP` excludes stays in the rule if it is all of `icmp`. -/
theorem C48_icmp_excluded_wrong : Misread (bare (some (.name "ICMP")) none (some ⟨some 3, some 1⟩) (some ⟨some 3, none⟩))
    ⟨.allow, some 1, none, some ⟨some 3, some 1⟩, some ⟨some 3, none⟩, none, none⟩ ⟨1, 1, 1, 3, 1⟩ := by
  refine ⟨⟨.allow, .some .icmp, .none, rfl, rfl, .none, .none⟩, ⟨fun e h => (by rcases h with h | h <;> cases h), fun i h => ?_⟩,
    by decide, true, by decide +kernel, fun h => ?_⟩
  · rcases h with h | h <;> cases h
    · exact ⟨⟨⟨3, rfl, by decide⟩, fun d h => (by cases h; decide)⟩, Or.inl rfl⟩
    · exact ⟨⟨⟨3, rfl, by decide⟩, fun d h => (by cases h)⟩, Or.inl rfl⟩
  · exact (h.1 rfl).2.2.2.2.2 _ rfl ⟨fun t h => (by cases h; rfl), fun d h => (by cases h)⟩

/-- C48, finding: `protocol: TCP` with `notProtocol: UDP` is reported to have no effect, and the rule has no connections. -/
theorem C48_both_protocols_wrong : Misread (bare (some (.name "TCP")) (some (.name "UDP")) none none)
    ⟨.allow, some 6, some 17, none, none, none, none⟩ ⟨6, 1, 1, 0, 0⟩ := by
  refine ⟨⟨.allow, .some .tcp, .some .udp, rfl, rfl, .none, .none⟩, ⟨fun e h => (by rcases h with h | h <;> cases h), fun i h => (by rcases h with h | h <;> cases h)⟩,
    by decide, false, by decide +kernel, fun h => ?_⟩
  have : (false = true) := h.2 ⟨fun e h => (by cases h), fun e h => (by cases h), fun p h => (by cases h; rfl), fun p h => (by cases h; decide),
    fun i h => (by cases h), fun i h => (by cases h)⟩
  cases this

/-- An entity rule with ports only. -/
def portsE (l l' : Option (List PortText)) : Entity := ⟨[], [], none, none, none, l, l'⟩
def portsS (l l' : Option (List PortSpec)) : EntitySpec := ⟨[], [], none, none, none, l, l'⟩

theorem portsS_says (c : Container) (ns : Option Ns) (l l' : Option (List PortSpec)) (E : Place) : EntitySays c ns (portsS l l') E :=
  ⟨fun h => absurd rfl h, fun h => absurd rfl h, fun s h => (by cases h), fun s h => (by cases h), fun s h => (by cases h)⟩

theorem num80 : IsNum "80".toList 80 := ⟨by decide, by decide, by decide⟩

/-- C48, finding: a port written as the text `"80"` is read as the name of a port. -/
theorem C48_quoted_port_wrong : Misread ⟨"Allow", some (.name "TCP"), none, none, none, none, some (portsE (some [.text "80"]) none)⟩
    ⟨.allow, some 6, none, none, none, none, some (portsS (some [.num 80]) none)⟩ ⟨6, 1, 80, 0, 0⟩ := by
  refine ⟨⟨.allow, .some .tcp, .none, rfl, rfl, .none, .some ⟨rfl, rfl, .none, .none, .none, .some (.cons (.digits num80) .nil), .none⟩⟩,
    ⟨fun e h => ?_, fun i h => (by rcases h with h | h <;> cases h)⟩, by decide, false, by decide +kernel, fun h => ?_⟩
  · rcases h with h | h <;> cases h
    refine ⟨fun l h => ⟨Or.inl rfl, ?_⟩, fun s h => (by rcases h with h | h <;> cases h)⟩
    rcases h with h | h <;> cases h
    intro q hq; rw [List.mem_singleton] at hq; subst hq; exact ⟨by decide, by decide⟩
  · have : (false = true) := h.2 ⟨fun e h => (by cases h), fun e h => (by
      cases h
      exact ⟨portsS_says .., fun l h => by cases h; exact ⟨_, List.mem_singleton.2 rfl, rfl⟩, fun l h => (by cases h)⟩),
      fun p h => (by cases h; rfl), fun p h => (by cases h), fun i h => (by cases h), fun i h => (by cases h)⟩
    cases this

theorem isName {s : String} (h1 : ':' ∉ s.toList) (h2 : ∃ a ∈ s.toList, a.isDigit = false) : PortMeans (.text s) (.name s) :=
  .name h1 (fun ⟨_, _, h, _⟩ => by
    obtain ⟨a, ha, hd⟩ := h2
    rw [h a ha] at hd; cases hd)

/-- C48, finding: the name of a port of the source is dropped, and the rule covers no connection. -/
theorem C48_source_port_name_wrong : Misread ⟨"Allow", some (.name "TCP"), none, none, none, some (portsE (some [.text "out"]) none), none⟩
    ⟨.allow, some 6, none, none, none, some (portsS (some [.name "out"]) none), none⟩ ⟨6, 1000, 80, 0, 0⟩ := by
  refine ⟨⟨.allow, .some .tcp, .none, rfl, rfl, .some ⟨rfl, rfl, .none, .none, .none, .some (.cons (isName (by decide) (by decide)) .nil), .none⟩, .none⟩,
    ⟨fun e h => ?_, fun i h => (by rcases h with h | h <;> cases h)⟩, by decide, false, by decide +kernel, fun h => ?_⟩
  · rcases h with h | h <;> cases h
    refine ⟨fun l h => ⟨Or.inl rfl, ?_⟩, fun s h => (by rcases h with h | h <;> cases h)⟩
    rcases h with h | h <;> cases h
    intro q hq; rw [List.mem_singleton] at hq; subst hq; trivial
  · have : (false = true) := h.2 ⟨fun e h => (by
      cases h
      exact ⟨portsS_says .., fun l h => by cases h; exact ⟨_, List.mem_singleton.2 rfl, "default/a", "TCP", rfl, by decide, by decide⟩,
        fun l h => (by cases h)⟩), fun e h => (by cases h),
      fun p h => (by cases h; rfl), fun p h => (by cases h), fun i h => (by cases h), fun i h => (by cases h)⟩
    cases this

/-- C48, finding: a number in `notPorts` is not excluded where a name in `ports` means it. -/
theorem C48_name_minus_number_wrong : Misread ⟨"Allow", some (.name "TCP"), none, none, none, none, some (portsE (some [.text "http"]) (some [.num 80]))⟩
    ⟨.allow, some 6, none, none, none, none, some (portsS (some [.name "http"]) (some [.num 80]))⟩ ⟨6, 1, 80, 0, 0⟩ := by
  refine ⟨⟨.allow, .some .tcp, .none, rfl, rfl, .none, .some ⟨rfl, rfl, .none, .none, .none, .some (.cons (isName (by decide) (by decide)) .nil), .some (.cons (.num _) .nil)⟩⟩,
    ⟨fun e h => ?_, fun i h => (by rcases h with h | h <;> cases h)⟩, by decide, true, by decide +kernel, fun h => ?_⟩
  · rcases h with h | h <;> cases h
    refine ⟨fun l h => ⟨Or.inl rfl, ?_⟩, fun s h => (by rcases h with h | h <;> cases h)⟩
    rcases h with h | h <;> cases h
    · intro q hq; rw [List.mem_singleton] at hq; subst hq; trivial
    · intro q hq; rw [List.mem_singleton] at hq; subst hq; exact ⟨by decide, by decide⟩
  · exact ((h.1 rfl).2.1 _ rfl).2.2 _ rfl ⟨_, List.mem_singleton.2 rfl, rfl⟩

/-- A selector of one label. -/
theorem isEq {k v : String} (h1 : k.toList ≠ [] ∧ k.toList.all asc.lab = true) (h2 : v.toList ≠ [] ∧ v.toList.all asc.lab = true) :
    Denotes asc (k.toList ++ " == '".toList ++ v.toList ++ "'".toList) (.atom (.eq k v)) := by
  have h := Core.eq (K := asc) (k := k.toList) (w1 := [' ']) (w2 := [' ']) (v := v.toList) (asc_word h1) (asc_blank (by decide)) (asc_blank (by decide)) (asc_word h2)
  rw [String.ofList_toList, String.ofList_toList] at h
  exact ⟨[], _, [], asc_blank (by decide), asc_blank (by decide), .and (.un (.atom h)), by simp⟩

/-- The address 5, as a place. -/
def addr5 : Place := .ip ⟨false, 5, by decide⟩

theorem has5 : (K8sParser.exIv 0 9 (by decide) (by decide)).Has ⟨false, 5, by decide⟩ := ⟨_, List.mem_singleton.2 rfl, rfl, rfl, by decide, by decide⟩

/-- An entity rule with a network and a selector. -/
def mixedE : Entity := ⟨[⟨⟨false, 0, by decide⟩, 28, by decide⟩], [], some "app == 'net'".toList, none, none, none, none⟩
def mixedS : EntitySpec := ⟨[⟨⟨false, 0, by decide⟩, 28, by decide⟩], [], some (.atom (.eq "app" "net")), none, none, none, none⟩

/-- C48, finding: a network with a selector covers nothing; Calico takes the addresses of the network that the selector
chooses, here the network set with `app: net`. -/
theorem C48_nets_with_selector_wrong : EntityMeans asc mixedE mixedS ∧ mixedS.Legal none ∧
    rulePeers asc cl (some K8sParser.nsDefault) mixedE = some [] ∧ EntitySays cl (some K8sParser.nsDefault) mixedS addr5 := by
  refine ⟨⟨rfl, rfl, .some (isEq (k := "app") (v := "net") (by decide) (by decide)), .none, .none, .none, .none⟩,
    ⟨fun l h => (by rcases h with h | h <;> cases h), fun s h => (by rcases h with h | h <;> cases h; simp [Sel.Mentions])⟩, by decide +kernel,
    fun _ => ⟨_, rfl, _, List.mem_singleton.2 rfl, ?_⟩, fun h => absurd rfl h, fun s h => (by cases h), fun s h => ?_, fun s h => (by cases h)⟩
  · refine ⟨rfl, fun i hi => ?_⟩
    have hi : 4 ≤ i := hi
    show Nat.testBit 5 i = Nat.testBit 0 i
    rw [Nat.zero_testBit, Nat.testBit_lt_two_pow]
    calc 5 < 2 ^ 4 := by decide
      _ ≤ 2 ^ i := Nat.pow_le_pow_right (by decide) hi
  · cases h
    refine ⟨netS, by simp [cl], ⟨_, rfl, has5⟩, by simp [netS, K8sParser.exSetPeer], fun n h => ?_, ?_⟩
    · cases h
      exact ⟨_, rfl, rfl⟩
    · exact Or.inl (by decide)

/-- A policy that selects the network set. -/
def netT : CalicoText := ⟨false, some K8sParser.nsDefault, none, some "app == 'net'".toList, none, none, none, ["Ingress"]⟩
def netM : PolicyMeaning := ⟨some K8sParser.nsDefault, some (.atom (.eq "app" "net")), none, [], []⟩

/-- C48, finding: policies apply to the addresses of network sets; Calico applies them to pods and host endpoints. -/
theorem C48_network_set_selected_wrong : PolicyMeans asc K8sParser.nsDefault netT netM ∧ PolicyLegal netT netM ∧
    (∃ P, parsePolicy asc cl A2 PeerDom.default ord reg K8sParser.nsDefault netT = some P ∧ addr5.In P.selected) ∧ ¬ Applies cl netM addr5 := by
  refine ⟨⟨rfl, .some (isEq (k := "app") (v := "net") (by decide) (by decide)), .none, .nil, .nil⟩,
    ⟨fun h => (by cases h), fun _ => rfl, fun s hs => ?_, fun s h => (by cases h; simp [Sel.Mentions]), fun r hr => by simp [netM] at hr⟩, ?_, ?_⟩
  · rw [List.mem_singleton.1 hs]; exact Or.inl rfl
  · have : (parsePolicy asc cl A2 PeerDom.default ord reg K8sParser.nsDefault netT).map ParsedPolicy.selected =
        some [.ip (K8sParser.exIv 0 9 (by decide) (by decide))] := by decide +kernel
    obtain ⟨P, h1, h2⟩ := Option.map_eq_some_iff.1 this
    refine ⟨P, h1, ?_⟩
    rw [h2]
    exact ⟨_, List.mem_singleton.2 rfl, has5⟩
  · rintro ⟨p, hp, hh, hk, _⟩
    obtain ⟨b, hb, _⟩ := hh
    rcases hk with hk | hk
    · exact absurd ((cluster.sets p hp).2 ⟨b, hb⟩) (by rw [hk]; decide)
    · exact absurd ((cluster.sets p hp).2 ⟨b, hb⟩) (by rw [hk]; decide)

/-- A policy without `types`. -/
def typesT (i e : Option (List CalicoRule)) : CalicoText := ⟨false, some K8sParser.nsDefault, none, none, none, i, e, []⟩

/-- C48, finding: without `types`, an empty list of egress rules makes the policy govern egress. -/
theorem C48_empty_egress_wrong :
    (parsePolicy asc cl A2 PeerDom.default ord reg K8sParser.nsDefault (typesT none (some []))).map
      (fun P => (P.affectsIngress, P.affectsEgress)) = some (false, true) ∧
    GovernsIngress (typesT none (some [])) ∧ ¬ GovernsEgress (typesT none (some [])) := by
  refine ⟨by decide +kernel, Or.inr ⟨rfl, Or.inr rfl⟩, ?_⟩
  rintro (h | ⟨_, h⟩)
  · cases h
  · exact h rfl

/-- C48, finding: without `types`, an empty list of ingress rules beside egress rules makes the policy govern ingress. -/
theorem C48_empty_ingress_wrong :
    (parsePolicy asc cl A2 PeerDom.default ord reg K8sParser.nsDefault (typesT (some []) (some [bare none none none none]))).map
      (fun P => (P.affectsIngress, P.affectsEgress)) = some (true, true) ∧
    ¬ GovernsIngress (typesT (some []) (some [bare none none none none])) := by
  refine ⟨by decide +kernel, ?_⟩
  rintro (h | ⟨_, h | h⟩)
  · cases h
  · exact h rfl
  · cases h

/-- C48: rules of a direction that `types` does not name are an error. -/
theorem C48_other_direction_rejected (t : CalicoText) (h0 : t.types ≠ []) (h : "Ingress" ∉ t.types ∧ t.ingress.isSome ∨ "Egress" ∉ t.types ∧ t.egress.isSome)
    (dflt : Ns) : parsePolicy asc cl A2 PeerDom.default ord reg dflt t = none := by
  unfold parsePolicy
  cases policyNs dflt t with
  | none => rfl
  | some ns =>
    rw [Option.bind_eq_bind, Option.bind_some]
    split
    · rfl
    split
    · rfl
    split
    · rfl
    split
    · rfl
    rename_i h1 h2 h3 h4
    exfalso
    rcases h with ⟨g1, g2⟩ | ⟨g1, g2⟩
    · exact h3 (by simp [affectsIngress, g1, g2, h0])
    · exact h4 (by simp [affectsEgress, g1, g2, h0])

/-! ### Non-vacuity -/

/-- Pods with `app: db` take TCP connections from pods with `app: web` to the port `http` and to the ports 5000 to 5010,
and deny what comes from 10.0.0.0/8. -/
def rule1 : CalicoRule := ⟨"Allow", some (.name "TCP"), none, none, none, some ⟨[], [], some "app == 'web'".toList, none, none, none, none⟩,
  some (portsE (some [.text "http", .text "5000:5010"]) none)⟩
def rule2 : CalicoRule := ⟨"Deny", none, none, none, none, some ⟨[⟨⟨false, 10 * 2 ^ 24, by decide⟩, 8, by decide⟩], [], none, none, none, none, none⟩, none⟩
def spec1 : RuleSpec := ⟨.allow, some 6, none, none, none, some ⟨[], [], some (.atom (.eq "app" "web")), none, none, none, none⟩,
  some (portsS (some [.name "http", .range 5000 5010]) none)⟩
def spec2 : RuleSpec := ⟨.deny, none, none, none, none, some ⟨[⟨⟨false, 10 * 2 ^ 24, by decide⟩, 8, by decide⟩], [], none, none, none, none, none⟩, none⟩
def text : CalicoText := ⟨false, none, some 10, some "app == 'db'".toList, none, some [rule1, rule2], none, ["Ingress"]⟩
def meaning : PolicyMeaning := ⟨some K8sParser.nsDefault, some (.atom (.eq "app" "db")), none, [spec1, spec2], []⟩

theorem rule1_means : RuleMeans asc rule1 spec1 :=
  ⟨.allow, .some .tcp, .none, rfl, rfl, .some ⟨rfl, rfl, .some (isEq (k := "app") (v := "web") (by decide) (by decide)), .none, .none, .none, .none⟩,
    .some ⟨rfl, rfl, .none, .none, .none, .some (.cons (isName (by decide) (by decide)) (.cons
      (.range (a := "5000".toList) (b := "5010".toList) rfl ⟨by decide, by decide, by decide⟩ ⟨by decide, by decide, by decide⟩) .nil)), .none⟩⟩

theorem rule2_means : RuleMeans asc rule2 spec2 := ⟨.deny, .none, .none, rfl, rfl, .some ⟨rfl, rfl, .none, .none, .none, .none, .none⟩, .none⟩

theorem text_means : PolicyMeans asc K8sParser.nsDefault text meaning :=
  ⟨rfl, .some (isEq (k := "app") (v := "db") (by decide) (by decide)), .none, .cons rule1_means (.cons rule2_means .nil), .nil⟩

theorem text_legal : PolicyLegal text meaning := by
  refine ⟨fun h => (by cases h), fun _ => rfl, fun s hs => Or.inl (List.mem_singleton.1 hs), fun s h => (by cases h; simp [Sel.Mentions]), fun r hr => ?_⟩
  simp only [meaning, List.append_nil, List.mem_cons, List.not_mem_nil, or_false] at hr
  rcases hr with rfl | rfl
  · refine ⟨fun e he => ?_, fun i h => (by rcases h with h | h <;> cases h)⟩
    rcases he with he | he <;> cases he
    · exact ⟨fun l h => (by rcases h with h | h <;> cases h), fun s h => (by rcases h with h | h <;> cases h; simp [Sel.Mentions])⟩
    · refine ⟨fun l h => ⟨Or.inl rfl, ?_⟩, fun s h => (by rcases h with h | h <;> cases h)⟩
      rcases h with h | h <;> cases h
      intro q hq
      simp only [List.mem_cons, List.not_mem_nil, or_false] at hq
      rcases hq with rfl | rfl
      · trivial
      · exact ⟨by decide, by decide, by decide⟩
  · refine ⟨fun e he => ?_, fun i h => (by rcases h with h | h <;> cases h)⟩
    rcases he with he | he <;> cases he
    exact ⟨fun l h => (by rcases h with h | h <;> cases h), fun s h => (by rcases h with h | h <;> cases h)⟩

theorem text_tame : PolicyTame cl text meaning := by
  refine ⟨fun p hp hc => ?_, fun h => (by cases h), fun _ _ => List.mem_singleton.2 rfl, fun _ h => (by cases h), ?_, .nil⟩
  · simp only [cl, List.mem_cons, List.not_mem_nil, or_false] at hp
    rcases hp with rfl | rfl | rfl
    · simp [podA, K8sParser.exPod]
    · simp [podB, K8sParser.exPod]
    · have := (hc.2.2.1 _ rfl).2.2
      rcases this with h | h <;> exact absurd h (by decide)
  · refine .cons ?_ (.cons ?_ .nil)
    · refine ⟨fun e he => ?_, fun e l he h => ?_, fun e l l' he h h' => ?_, fun p q hp hq => (by cases hq), fun i h => (by rcases h with h | h <;> cases h), fun i j h => (by cases h)⟩
      · rcases he with he | he <;> cases he
        · exact ⟨Or.inl ⟨rfl, rfl⟩, fun l h => (by rcases h with h | h <;> cases h)⟩
        · refine ⟨Or.inl ⟨rfl, rfl⟩, fun l h => ?_⟩
          rcases h with h | h <;> cases h
          intro q hq
          simp only [List.mem_cons, List.not_mem_nil, or_false] at hq
          rcases hq with rfl | rfl
          · rintro ⟨n, _, h, _⟩; exact absurd (h 'h' (by decide)) (by decide)
          · rintro ⟨n, _, h, _⟩; exact absurd (h ':' (by decide)) (by decide)
      · cases he; rcases h with h | h <;> cases h
      · cases he; cases h'
    · refine ⟨fun e he => ?_, fun e l he h => ?_, fun e l l' he h h' => ?_, fun p q hp hq => (by cases hq), fun i h => (by rcases h with h | h <;> cases h), fun i j h => (by cases h)⟩
      · rcases he with he | he <;> cases he
        exact ⟨Or.inr ⟨rfl, rfl⟩, fun l h => (by rcases h with h | h <;> cases h)⟩
      · cases he; rcases h with h | h <;> cases h
      · cases he

theorem appliesB : Applies cl meaning (.pod "default/b") :=
  ⟨podB, by simp [cl], (by decide +kernel : podB.elem = .pod "default/b"), Or.inl rfl, by simp [podB, K8sParser.exPod], fun n h => (by cases h; exact ⟨_, rfl, rfl⟩),
    fun s h => by
      cases h
      exact ⟨by simp [podB, K8sParser.exPod], fun n h => (by cases h; exact ⟨_, rfl, rfl⟩), Or.inl (by decide)⟩,
    fun s h => (by cases h)⟩

/-- The theorem applies; by it the first rule of the parsed policy covers a connection to port 80 of `default/b`, which the
pod calls `http`, and none to port 81. -/
example (ord : SetOrder) : ∃ P r1 r2, parsePolicy asc cl A2 PeerDom.default ord reg K8sParser.nsDefault text = some P ∧ P.ingress = [r1, r2] ∧
    r1.action = .allow ∧ r2.action = .deny ∧ P.affectsIngress = true ∧ P.affectsEgress = false ∧
    (connNet L2 PeerDom.default).K.mem (ptC ⟨6, 1, 80, 0, 0⟩ (by decide)) r1.props = true ∧
    (connNet L2 PeerDom.default).K.mem (ptC ⟨6, 1, 81, 0, 0⟩ (by decide)) r1.props = false := by
  obtain ⟨P, e, _, hi, he, _, _, f, _⟩ := C48_policy_partial L2 (ord := ord) asc_ok cluster K8sParser.nsDefault text_means text_legal text_tame
  generalize hP : P.ingress = k at f
  cases f with
  | @cons r1 _ k _ h1 f =>
    cases f with
    | @cons r2 _ k _ h2 f =>
      cases f
      refine ⟨P, r1, r2, e, hP, h1.action, h2.action, hi.2 (Or.inl (List.mem_singleton.2 rfl)), ?_, ?_, ?_⟩
      · rw [← Bool.not_eq_true, he]
        rintro (h | h)
        · exact absurd h (by decide)
        · cases h.1
      · rw [h1.mem _ _ _ _ (isConn _ _)]
        refine ⟨appliesB, fun e he => ?_, fun e he => ?_, fun p h => (by cases h; rfl), fun p h => (by cases h), fun i h => (by cases h), fun i h => (by cases h)⟩
        · cases he
          refine ⟨⟨fun h => absurd rfl h, fun h => absurd rfl h, fun s h => (by cases h), fun s h => ?_, fun s h => (by cases h)⟩, fun l h => (by cases h), fun l h => (by cases h)⟩
          cases h
          exact ⟨podA, by simp [cl], (by decide +kernel : podA.elem = .pod "default/a"), by simp [podA, K8sParser.exPod], fun n h => (by cases h; exact ⟨_, rfl, rfl⟩), Or.inl (by decide)⟩
        · cases he
          refine ⟨portsS_says .., fun l h => ?_, fun l h => (by cases h)⟩
          cases h
          exact ⟨.name "http", by simp, "default/b", "TCP", rfl, by decide, by decide⟩
      · rw [← Bool.not_eq_true, h1.mem _ _ _ _ (isConn _ _)]
        rintro ⟨_, _, h, _⟩
        obtain ⟨q, hq, hs⟩ := (h _ rfl).2.1 _ rfl
        simp only [List.mem_cons, List.not_mem_nil, or_false] at hq
        rcases hq with rfl | rfl
        · obtain ⟨k, pr, hk, hl, _⟩ := hs
          cases hk
          have hl : ((reg.named "default/b").lookup "http") = some (81, pr) := hl
          have hx : ((reg.named "default/b").lookup "http") = some (80, "TCP") := by decide
          rw [hx] at hl; cases hl
        · exact absurd hs.1 (by decide)

/-- The program agrees. -/
example : (verdict rule1 ⟨6, 1, 80, 0, 0⟩ (by decide), verdict rule1 ⟨6, 1, 81, 0, 0⟩ (by decide), verdict rule1 ⟨6, 1, 5010, 0, 0⟩ (by decide),
    verdict rule1 ⟨17, 1, 5010, 0, 0⟩ (by decide), verdict rule2 ⟨6, 1, 80, 0, 0⟩ (by decide)) =
    (some true, some false, some true, some false, some false) := by decide +kernel

end Ex
end CalicoParser
end Verif
