import Verif.CalicoParseModel
import Verif.PropsCalicoSel
import Verif.PropsK8sParse
/-!
Specification of Calico's network policies, from its documentation ("Network policy" and "Global network policy" in the
reference): what the texts of a policy mean, and which connections a rule covers.  It speaks of one connection: its two
ends, its protocol, ports and ICMP type and code.  It mentions no sets of peers and no connection sets.
-/
namespace Verif
namespace CalicoParser
open Container

/-- The place is at the index `e`: an address, or a peer of the cluster. -/
def _root_.Verif.Place.At {X2 : Type} (rg : PodReg) (c : Container) (e : Int ⊕ X2) : Place → Prop
  | .pod k => (∃ p ∈ c, p.elem = .pod k) ∧ ∃ n : Nat, e = .inl (minPodIndex + n) ∧ rg.keys[n]? = some k
  | .ip x => e = .inl x.idx

/-! ### Texts and their meaning -/

/-- A port, a range of ports, or the name of a port. -/
inductive PortSpec where
  | num (n : Int)
  | range (lo hi : Int)
  | name (s : String)

/-- The decimal text of a number. -/
def IsNum (s : List Char) (n : Int) : Prop :=
  s ≠ [] ∧ (∀ a ∈ s, a.isDigit = true) ∧ n = s.foldl (fun v a => 10 * v + ((a.toNat - 48 : Nat) : Int)) 0

/-- What an entry of `ports` or `notPorts` means. -/
inductive PortMeans : PortText → PortSpec → Prop
  | num (n) : PortMeans (.num n) (.num n)
  | digits {s n} : IsNum s.toList n → PortMeans (.text s) (.num n)
  | range {s a b lo hi} : s.toList = a ++ ':' :: b → IsNum a lo → IsNum b hi → PortMeans (.text s) (.range lo hi)
  | name {s} : ':' ∉ s.toList → (¬ ∃ n, IsNum s.toList n) → PortMeans (.text s) (.name s)

/-- An entity rule, read. -/
structure EntitySpec where
  nets : List IpBlock.Cidr
  notNets : List IpBlock.Cidr
  selector : Option Sel
  notSelector : Option Sel
  nsSelector : Option Sel
  ports : Option (List PortSpec)
  notPorts : Option (List PortSpec)

/-- What an entity rule means. -/
structure EntityMeans (K : CharCls) (t : Entity) (m : EntitySpec) : Prop where
  nets : t.nets = m.nets
  notNets : t.notNets = m.notNets
  selector : Option.Rel (Denotes K) t.selector m.selector
  notSelector : Option.Rel (Denotes K) t.notSelector m.notSelector
  nsSelector : Option.Rel (Denotes K) t.nsSelector m.nsSelector
  ports : Option.Rel (List.Forall₂ PortMeans) t.ports m.ports
  notPorts : Option.Rel (List.Forall₂ PortMeans) t.notPorts m.notPorts

/-- The names of protocols. -/
inductive ProtoMeans : ProtoArg → Int → Prop
  | num {n} : 0 ≤ n → n ≤ 255 → ProtoMeans (.num n) n
  | tcp : ProtoMeans (.name "TCP") 6
  | udp : ProtoMeans (.name "UDP") 17
  | icmp : ProtoMeans (.name "ICMP") 1
  | icmp6 : ProtoMeans (.name "ICMPv6") 58
  | sctp : ProtoMeans (.name "SCTP") 132
  | lite : ProtoMeans (.name "UDPLite") 136

/-- The names of actions. -/
inductive ActionMeans : String → RuleAction → Prop
  | allow : ActionMeans "Allow" .allow
  | deny : ActionMeans "Deny" .deny
  | log : ActionMeans "Log" .log
  | pass : ActionMeans "Pass" .pass

/-- A rule, read. -/
structure RuleSpec where
  action : RuleAction
  protocol : Option Int
  notProtocol : Option Int
  icmp : Option Icmp
  notIcmp : Option Icmp
  source : Option EntitySpec
  destination : Option EntitySpec

/-- What a rule means. -/
structure RuleMeans (K : CharCls) (t : CalicoRule) (m : RuleSpec) : Prop where
  action : ActionMeans t.action m.action
  protocol : Option.Rel ProtoMeans t.protocol m.protocol
  notProtocol : Option.Rel ProtoMeans t.notProtocol m.notProtocol
  icmp : t.icmp = m.icmp
  notIcmp : t.notIcmp = m.notIcmp
  source : Option.Rel (EntityMeans K) t.source m.source
  destination : Option.Rel (EntityMeans K) t.destination m.destination

/-- A policy, read; `ns` is its namespace (`none` for global policies). -/
structure PolicyMeaning where
  ns : Option Ns
  selector : Option Sel
  nsSelector : Option Sel
  ingress : List RuleSpec
  egress : List RuleSpec

/-- What a policy means; `dflt` is the namespace named `default`. -/
structure PolicyMeans (K : CharCls) (dflt : Ns) (t : CalicoText) (m : PolicyMeaning) : Prop where
  ns : m.ns = if t.isGlobal then none else some (t.ns.getD dflt)
  selector : Option.Rel (Denotes K) t.selector m.selector
  nsSelector : Option.Rel (Denotes K) t.nsSelector m.nsSelector
  ingress : List.Forall₂ (RuleMeans K) (t.ingress.getD []) m.ingress
  egress : List.Forall₂ (RuleMeans K) (t.egress.getD []) m.egress

/-! ### Connections -/

/-- The attributes of a connection besides its ends. -/
structure Conn where
  proto : Int
  srcPort : Int
  dstPort : Int
  icmpType : Int
  icmpCode : Int

/-- The endpoint at a place is one that `T` says. -/
def AtSome (c : Container) (E : Place) (T : PeerInfo → Prop) : Prop := ∃ p ∈ c, p.Holds E ∧ T p

/-- The entity rule covers the place.  A selector stays within the namespace of the policy unless there is a namespace
selector.  Networks cover addresses only: the addresses of pods are not known. -/
def EntitySays (c : Container) (ns : Option Ns) (m : EntitySpec) (E : Place) : Prop :=
  (m.nets ≠ [] → ∃ x, E = .ip x ∧ ∃ n ∈ m.nets, n.Has x) ∧
  (m.notNets ≠ [] → ∃ x, E = .ip x ∧ ∀ n ∈ m.notNets, ¬ n.Has x) ∧
  (∀ s, m.nsSelector = some s → AtSome c E s.PicksNs) ∧
  (∀ s, m.selector = some s → AtSome c E (s.Picks (if m.nsSelector.isSome then none else ns))) ∧
  (∀ s, m.notSelector = some s → ¬ AtSome c E (s.Picks (if m.nsSelector.isSome then none else ns)))

/-- A port entry covers the port at the place. -/
def PortSays (rg : PodReg) (E : Place) (proto port : Int) : PortSpec → Prop
  | .num n => port = n
  | .range lo hi => lo ≤ port ∧ port ≤ hi
  | .name s => ∃ k pr, E = .pod k ∧ (rg.named k).lookup s = some (port, pr) ∧ Proto.getNumber pr = some proto

/-- The entity rule covers the port at the place. -/
def PortsSay (rg : PodReg) (m : EntitySpec) (E : Place) (proto port : Int) : Prop :=
  (∀ l, m.ports = some l → ∃ q ∈ l, PortSays rg E proto port q) ∧
  (∀ l, m.notPorts = some l → ¬ ∃ q ∈ l, PortSays rg E proto port q)

/-- The ICMP type and code are as asked. -/
def Icmp.Says (i : Icmp) (q : Conn) : Prop :=
  (∀ t, i.type = some t → q.icmpType = t) ∧ (∀ d, i.code = some d → q.icmpCode = d)

/-- The rule covers the connection. -/
def RuleSays (rg : PodReg) (c : Container) (ns : Option Ns) (m : RuleSpec) (src dst : Place) (q : Conn) : Prop :=
  (∀ e, m.source = some e → EntitySays c ns e src ∧ PortsSay rg e src q.proto q.srcPort) ∧
  (∀ e, m.destination = some e → EntitySays c ns e dst ∧ PortsSay rg e dst q.proto q.dstPort) ∧
  (∀ p, m.protocol = some p → q.proto = p) ∧ (∀ p, m.notProtocol = some p → q.proto ≠ p) ∧
  (∀ i, m.icmp = some i → i.Says q) ∧ (∀ i, m.notIcmp = some i → ¬ i.Says q)

/-- The selectors of a policy choose the endpoint. -/
def PolicyMeaning.Chooses (m : PolicyMeaning) (p : PeerInfo) : Prop :=
  p.kind ≠ .dns ∧ (∀ n, m.ns = some n → p.InNs n) ∧
  (∀ s, m.selector = some s → s.Picks m.ns p) ∧ (∀ s, m.nsSelector = some s → s.PicksNs p)

/-- The policy applies to the place: a pod or a host endpoint that its selectors choose. -/
def Applies (c : Container) (m : PolicyMeaning) (E : Place) : Prop :=
  AtSome c E (fun p => (p.kind = .pod ∨ p.kind = .hep) ∧ m.Chooses p)

/-- The policy governs ingress. -/
def GovernsIngress (t : CalicoText) : Prop :=
  "Ingress" ∈ t.types ∨ t.types = [] ∧ (t.ingress.getD [] ≠ [] ∨ t.egress.getD [] = [])

/-- The policy governs egress. -/
def GovernsEgress (t : CalicoText) : Prop := "Egress" ∈ t.types ∨ t.types = [] ∧ t.egress.getD [] ≠ []

/-! ### Legal policies, and those that the code reads wrongly -/

/-- The port is legal. -/
def PortSpec.Legal : PortSpec → Prop
  | .num n => 1 ≤ n ∧ n ≤ 65535
  | .range lo hi => 1 ≤ lo ∧ lo ≤ hi ∧ hi ≤ 65535
  | .name _ => True

/-- All ports are legal, and given only for protocols that have ports; `global()` is not in selectors of endpoints. -/
structure EntitySpec.Legal (protocol : Option Int) (m : EntitySpec) : Prop where
  ports : ∀ l, m.ports = some l ∨ m.notPorts = some l →
    (protocol = some 6 ∨ protocol = some 17 ∨ protocol = some 132) ∧ ∀ q ∈ l, q.Legal
  selectors : ∀ s, m.selector = some s ∨ m.notSelector = some s → ¬ s.Mentions

/-- ICMP types are from 0 to 254 and must be given; codes are from 0 to 255. -/
def Icmp.Legal (i : Icmp) : Prop :=
  (∃ t, i.type = some t ∧ 0 ≤ t ∧ t ≤ 254) ∧ ∀ d, i.code = some d → 0 ≤ d ∧ d ≤ 255

/-- A rule that Calico accepts. -/
structure RuleSpec.Legal (m : RuleSpec) : Prop where
  entities : ∀ e, m.source = some e ∨ m.destination = some e → e.Legal m.protocol
  icmp : ∀ i, m.icmp = some i ∨ m.notIcmp = some i → i.Legal ∧ (m.protocol = some 1 ∨ m.protocol = some 58)

/-- The number is not written as a text. -/
def PortText.Plain : PortText → Prop
  | .num _ => True
  | .text s => ¬ ∃ n, IsNum s.toList n

/-- The port is no name. -/
def PortSpec.IsNumber : PortSpec → Prop
  | .name _ => False
  | _ => True

/-- Entity rules that the code reads as Calico does: no network together with a selector
(`C48_nets_with_selector_wrong`), no number of a port as a text (`C48_quoted_port_wrong`). -/
structure Entity.Tame (t : Entity) : Prop where
  mixed : t.nets = [] ∧ t.notNets = [] ∨ t.nsSelector = none ∧ t.selector = none
  quoted : ∀ l, t.ports = some l ∨ t.notPorts = some l → ∀ q ∈ l, q.Plain

/-- ICMP types and codes other than 0 (`C48_icmp_zero_wrong`). -/
def Icmp.Tame (i : Icmp) : Prop := i.type ≠ some 0 ∧ i.code ≠ some 0

/-- Rules that the code reads as Calico does. -/
structure RuleTame (t : CalicoRule) (m : RuleSpec) : Prop where
  entities : ∀ e, t.source = some e ∨ t.destination = some e → e.Tame
  /-- no names of ports at sources (`C48_source_port_name_wrong`) -/
  srcNames : ∀ e l, m.source = some e → (e.ports = some l ∨ e.notPorts = some l) → ∀ q ∈ l, q.IsNumber
  /-- no names of ports together with excluded numbers (`C48_name_minus_number_wrong`) -/
  dstNames : ∀ e l l', m.destination = some e → e.ports = some l → e.notPorts = some l' →
    (∀ q ∈ l, q.IsNumber) ∨ ∀ q ∈ l', ¬ q.IsNumber
  /-- not both protocols, unless they are the same (`C48_both_protocols_wrong`) -/
  protocols : ∀ p q, m.protocol = some p → m.notProtocol = some q → p = q
  icmp : ∀ i, m.icmp = some i ∨ m.notIcmp = some i → i.Tame
  /-- what `notICMP` excludes is not all of `icmp` (`C48_icmp_excluded_wrong`) -/
  icmps : ∀ i j, m.icmp = some i → m.notIcmp = some j → ¬ (i.type = j.type ∧ (j.code = none ∨ i.code = j.code))

/-- A cluster of pods, host endpoints, network sets and names of domains.  All but the network sets are registered, and
there is room for one more.  Named ports are legal, network sets do not overlap. -/
structure CalCluster (rg : PodReg) (c : Container) : Prop where
  reach : Base.Reach rg.keys
  room : rg.keys.length < maxPods
  ports : ∀ k, LegalPorts (rg.named k)
  ok : c.Ok
  uniq : c.Uniq
  disj : c.DisjointSets
  spaces : c.Spaces
  reg : ∀ p ∈ c, ∀ k, p.elem = .pod k → k ∈ rg.keys
  sets : ∀ p ∈ c, p.kind = .netset ↔ ∃ b, p.elem = .ip b

end CalicoParser
end Verif
