import Verif.CalicoSelModel
import Verif.K8sParseModel
/-!
Model of the parser of Calico's network policies (nca/Parsers/CalicoPolicyYamlParser.py 231-656): entity rules, ports,
ICMP, protocols, rules and policies.  Selectors are in `Verif.CalicoSelModel`, connection sets in `Verif.NamedPorts`.

Not modelled: the checks of field names and types and of the texts of addresses (they only reject input), warnings, and
profiles (they are parsed first and only set extra labels of the peers, which are given with the peers here; see
`Verif.ProfileModel`).  Absent, null and empty values are one value where the code does not tell them apart.
`none` is a reported error.
-/
namespace Verif
open ISet

namespace CalicoParser
open Container K8sParser

/-- An entry of `ports` or `notPorts`: a number or a text. -/
inductive PortText where
  | num (n : Int)
  | text (s : String)

/-- An entity rule (the fields of `source` and `destination`, 301-333). -/
structure Entity where
  nets : List IpBlock.Cidr
  notNets : List IpBlock.Cidr
  selector : Option (List Char)
  notSelector : Option (List Char)
  nsSelector : Option (List Char)
  ports : Option (List PortText)
  notPorts : Option (List PortText)

/-- The fields `icmp` and `notICMP` of a rule. -/
structure Icmp where
  type : Option Int
  code : Option Int
  deriving DecidableEq

/-- A rule of `ingress` or `egress`; an empty `source` or `destination` is an absent one (`if src_entity_rule`).
`ipVersion` is accepted and not read by the code (466). -/
structure CalicoRule where
  action : String
  protocol : Option ProtoArg
  notProtocol : Option ProtoArg
  icmp : Option Icmp
  notIcmp : Option Icmp
  source : Option Entity
  destination : Option Entity

/-- A policy as the user writes it.  `ingress` and `egress` are `none` if the field is absent. -/
structure CalicoText where
  isGlobal : Bool
  ns : Option Ns
  order : Option Int
  selector : Option (List Char)
  nsSelector : Option (List Char)
  ingress : Option (List CalicoRule)
  egress : Option (List CalicoRule)
  types : List String

/-- `port.count(':') == 1` and `port.split(':')` (243-244). -/
def splitColon (s : List Char) : Option (List Char × List Char) :=
  if s.count ':' = 1 then some (s.takeWhile (· ≠ ':'), (s.dropWhile (· ≠ ':')).drop 1) else none

/-- `_parse_port` (231-258). -/
def parsePort : PortText → Option PortSet
  | .num n => if validPort n then some ((PortSet.make false).addPort (.num n)) else none
  | .text s =>
    match splitColon s.toList with
    | none => some ((PortSet.make false).addPort (.name s))
    | some (a, b) =>
      match Proto.pyInt (String.ofList a), Proto.pyInt (String.ofList b) with
      | some lo, some hi =>
        if validPort lo && validPort hi && !decide (hi < lo) then some ((PortSet.make false).addPortRange lo hi) else none
      | _, _ => some ((PortSet.make false).addPort (.name s))

/-- The truth value of a text that may be absent. -/
def given : Option (List Char) → Option (List Char)
  | some [] => none
  | o => o

/-- `IpBlock(cidr)` (IpBlock of one network). -/
def netBlock (c : IpBlock.Cidr) : Option IpBlock := IpBlock.addCidr [] c []

/-- The addresses of `nets` (267-273). -/
def netsIps : List IpBlock.Cidr → Option IpBlock
  | [] => some (IpBlock.allIps false false)
  | c :: cs => (netBlock c).bind fun b => cs.foldlM (fun acc c => (netBlock c).map (IpBlock.union acc)) b

/-- The addresses of `nets` and `notNets` (267-277). -/
def ruleIps (nets notNets : List IpBlock.Cidr) : Option IpBlock :=
  (netsIps nets).bind fun ips => notNets.foldlM (fun acc c => (netBlock c).map (IpBlock.diff acc)) ips

section
variable (K : CharCls) (c : Container) (ns : Option Ns)

/-- The peers before the selectors (280-291). -/
def startPeers (byIp : Bool) (ips : IpBlock) (e : Entity) : Option (PeerSet String) :=
  match given e.nsSelector, given e.selector with
  | some s, _ => selector K c none true s
  | none, some _ => some (c.nsPods ns)
  | none, none => some (if byIp then [.ip ips] else c.allPeers true true true)

/-- The effect of `selector` (292-296). -/
def keepPeers (res : PeerSet String) : Option (List Char) → Option (PeerSet String)
  | none => some res
  | some s => (selector K c ns false s).map res.and

/-- The effect of `notSelector` (297-300). -/
def dropPeers (res : PeerSet String) : Option (List Char) → Option (PeerSet String)
  | none => some res
  | some s => (selector K c ns false s).map res.sub

/-- `_get_rule_peers` (260-310); `ns` is the namespace of the policy. -/
def rulePeers (e : Entity) : Option (PeerSet String) := do
  let ips ← ruleIps e.nets e.notNets
  let byIp := !e.nets.isEmpty || !e.notNets.isEmpty
  let base ← startPeers K c ns byIp ips e
  let nsToUse := if (given e.nsSelector).isSome then none else ns
  let res ← keepPeers K c nsToUse base e.selector
  let res ← dropPeers K c nsToUse res (given e.notSelector)
  return if byIp && ((given e.nsSelector).isSome || (given e.selector).isSome) then [] else res

/-- The effect of `ports` (312-325). -/
def startPorts (supports : Bool) : Option (List PortText) → Option PortSet
  | none => some (PortSet.make true)
  | some l => if supports then l.foldlM (fun acc p => (parsePort p).map acc.or) (PortSet.make false) else none

/-- The effect of `notPorts` (326-337). -/
def dropPorts (supports : Bool) (res : PortSet) : Option (List PortText) → Option PortSet
  | none => some res
  | some l => if supports then l.foldlM (fun acc p => (parsePort p).map acc.sub) res else none

/-- `_get_rule_ports` (312-337). -/
def rulePorts (supports : Bool) (e : Entity) : Option PortSet :=
  (startPorts supports e.ports).bind fun res => dropPorts supports res e.notPorts

/-- `_parse_entity_rule` (339-351), and the case of no entity rule (479-491). -/
def entity (supports : Bool) : Option Entity → Option (PeerSet String × PortSet)
  | none => some (c.allPeers true true true, PortSet.make true)
  | some e => do
    let peers ← rulePeers K c ns e
    let ports ← rulePorts supports e
    return (peers, ports)

/-- `check_icmp_code_type_validity` (353-374); a missing type is an assertion failure of the domain check. -/
def icmpOk (i : Icmp) : Bool :=
  match i.type with
  | none => false
  | some t => decide (0 ≤ t) && decide (t ≤ 254) &&
    match i.code with | none => true | some d => decide (0 ≤ d) && decide (d ≤ 255)

/-- `if icmp_type: …; if icmp_code: …` (409-416): zero counts as absent. -/
def icmpDims (i : Option Icmp) : Option Int × Option Int :=
  match i with
  | none => (none, none)
  | some i =>
    match i.type with
    | none => (none, none)
    | some t => if t = 0 then (none, none) else (some t, i.code.bind (fun d => if d = 0 then none else some d))

/-- `_parse_protocol` (440-458): `none` is an error, `some none` an absent protocol. -/
def parseProtocol : Option ProtoArg → Option (Option Int)
  | none => some none
  | some (.num n) => if Proto.isValid n then some (some n) else none
  | some (.name s) =>
    if s ∈ ["TCP", "UDP", "ICMP", "ICMPv6", "SCTP", "UDPLite"] then (Proto.getNumber s).map some else none

/-- `protocol_supports_ports` (ProtocolSet.py 154-164). -/
def supportsPorts (p : Option Int) : Bool := decide (p = some 6) || decide (p = some 17) || decide (p = some 132)

/-- `protocol_is_icmp` (ProtocolSet.py 166-176). -/
def isIcmp (p : Int) : Bool := decide (p = 1) || decide (p = 58)

/-- `action_str_to_action_type` (CalicoNetworkPolicy.py 51-68). -/
def actionOf (s : String) : Option RuleAction :=
  if s = "Deny" then some .deny else if s = "Allow" then some .allow else if s = "Log" then some .log
  else if s = "Pass" then some .pass else none

/-- The values a rule gives to the dimensions of a cube; absent keys are `none`. -/
structure RuleDict where
  srcPeers : PeerSet String
  dstPeers : PeerSet String
  protocols : Option ISet
  srcPorts : Option PortSet
  dstPorts : Option PortSet
  icmpType : Option Int
  icmpCode : Option Int

section
variable {V2 X2 : Type} (A2 : VAlg Dim V2 X2) (B : PeerDom) (ord : SetOrder) (rg : PodReg)

/-- `self["src_ports"] = …` (ConnectivityCube.py 97-101): named ports of sources are not kept. -/
def setSrcPorts (q : ConnCube V2) : Option PortSet → ConnCube V2
  | none => q
  | some P => q.set .srcPorts P.ports

/-- `self["icmp_type"] = …` (ConnectivityCube.py 102-104). -/
def setIcmp (q : ConnCube V2) (d : Dim) : Option Int → ConnCube V2
  | none => q
  | some n => q.set d (single n n)

/-- The cube of a rule (`make_from_dict`, and `update` after the ICMP dimensions, 409-418). -/
def ruleCube (d : RuleDict) : Option (ConnCube V2) := do
  let q ← (ConnCube.full A2 B).setPeers rg .srcPeers (some d.srcPeers)
  let q ← q.setPeers rg .dstPeers (some d.dstPeers)
  let q := setSrcPorts (q.setProtocols d.protocols) d.srcPorts
  return setIcmp (setIcmp (q.setPorts d.dstPorts) .icmpType d.icmpType) .icmpCode d.icmpCode

/-- The connections of a cube of a rule. -/
def makeRule (d : RuleDict) : Option (HC Dim (ISet ⊕ V2)) := (ruleCube A2 B rg d).bind (makeConnProps A2 B ord rg)

/-- `_parse_icmp` (376-438). -/
def parseIcmp (icmp notIcmp : Option Icmp) (protocols : ISet) (src dst : PeerSet String) : Option (HC Dim (ISet ⊕ V2)) :=
  let cube (i : Option Icmp) := makeRule A2 B ord rg ⟨src, dst, some protocols, none, none, (icmpDims i).1, (icmpDims i).2⟩
  let minus := do
    let a ← cube icmp
    let b ← cube notIcmp
    return HC.sub (connA A2 B) allDims a b
  if (icmp.all icmpOk) && (notIcmp.all icmpOk) then
    match icmp, notIcmp with
    | some i, some n =>
      if i.type = n.type ∧ i.code = n.code then cube icmp
      else if i.type = n.type ∧ i.code = none then minus
      else cube icmp
    | none, some _ => minus
    | _, none => cube icmp
  else none

/-- A parsed rule (`CalicoPolicyRule`, CalicoNetworkPolicy.py 25-39). -/
structure ParsedRule (V2 : Type) where
  src : PeerSet String
  dst : PeerSet String
  action : RuleAction
  props : HC Dim (ISet ⊕ V2)

/-- The connections of a rule (500-530). -/
def ruleProps (r : CalicoRule) (protocol notProtocol : Option Int) (src dst : PeerSet String) (srcPorts dstPorts : PortSet) :
    Option (HC Dim (ISet ⊕ V2)) :=
  match protocol, notProtocol with
  | some _, some _ => some (HC.empty allDims true)
  | some p, none => do
    let protocols ← ProtocolSet.add (ProtocolSet.make false) (.num p)
    if supportsPorts (some p) then makeRule A2 B ord rg ⟨src, dst, some protocols, some srcPorts, some dstPorts, none, none⟩
    else if isIcmp p then parseIcmp A2 B ord rg r.icmp r.notIcmp protocols src dst
    else makeRule A2 B ord rg ⟨src, dst, some protocols, none, none, none, none⟩
  | none, some q =>
    if !src.isEmpty && !dst.isEmpty then do
      let protocols ← ProtocolSet.remove (ProtocolSet.make true) (.num q)
      makeRule A2 B ord rg ⟨src, dst, some protocols, none, none, none, none⟩
    else some (HC.empty allDims true)
  | none, none => makeRule A2 B ord rg ⟨src, dst, none, none, none, none, none⟩

/-- `_parse_xgress_rule` (460-537). -/
def parseRule (isIngress : Bool) (selected : PeerSet String) (r : CalicoRule) : Option (ParsedRule V2) := do
  let action ← actionOf r.action
  let protocol ← parseProtocol r.protocol
  let notProtocol ← parseProtocol r.notProtocol
  let (src, srcPorts) ← entity K c ns (supportsPorts protocol) r.source
  let (dst, dstPorts) ← entity K c ns (supportsPorts protocol) r.destination
  let src := if isIngress then src else src.and selected
  let dst := if isIngress then dst.and selected else dst
  let props ← ruleProps A2 B ord rg r protocol notProtocol src dst srcPorts dstPorts
  return ⟨src, dst, action, props⟩

/-- The result of `parse_policy`: the attributes of `CalicoNetworkPolicy` the parser sets. -/
structure ParsedPolicy (V2 : Type) where
  order : Option Int
  selected : PeerSet String
  affectsIngress : Bool
  affectsEgress : Bool
  ingress : List (ParsedRule V2)
  egress : List (ParsedRule V2)

/-- `affects_ingress` (585-586). -/
def affectsIngress (t : CalicoText) : Bool :=
  t.types.contains "Ingress" || (t.types.isEmpty && (t.ingress.isSome || !t.egress.isSome))

/-- `affects_egress` (589). -/
def affectsEgress (t : CalicoText) : Bool := t.types.contains "Egress" || (t.types.isEmpty && t.egress.isSome)

/-- The effect of the selector of a policy. -/
def startSelected : Option (List Char) → Option (PeerSet String)
  | some s => (selector K c ns false s).map (c.allPeers false true false).and
  | none => some (c.nsPods ns)

/-- `_get_selected_peers` (593-620), for policies other than profiles. -/
def selectedPeers (t : CalicoText) : Option (PeerSet String) :=
  (startSelected K c ns (given t.selector)).bind fun peers =>
    match given t.nsSelector with
    | some s => (selector K c none true s).map peers.and
    | none => some peers

/-- The namespace of a policy (634-643); `none` is the error of a global policy with a namespace.  `dflt` is the
namespace named `default`. -/
def policyNs (dflt : Ns) (t : CalicoText) : Option (Option Ns) :=
  match t.ns with
  | some n => if t.isGlobal then none else some (some n)
  | none => some (if t.isGlobal then none else some dflt)

/-- `parse_policy` (622-669) with `_set_affects_ingress_egress` (558-591).  `namespaceSelector` is a field of global
policies only (571-573). -/
def parsePolicy (dflt : Ns) (t : CalicoText) : Option (ParsedPolicy V2) := do
  let ns ← policyNs dflt t
  if !t.isGlobal && t.nsSelector.isSome then none
  else if !t.types.all (fun s => decide (s ∈ ["Egress", "Ingress"])) then none
  else if !affectsIngress t && t.ingress.isSome then none
  else if !affectsEgress t && t.egress.isSome then none
  else do
    let selected ← selectedPeers K c ns t
    let ingress ← (t.ingress.getD []).mapM (parseRule K c ns A2 B ord rg true selected)
    let egress ← (t.egress.getD []).mapM (parseRule K c ns A2 B ord rg false selected)
    return ⟨t.order, selected, affectsIngress t, affectsEgress t, ingress, egress⟩

end
end
end CalicoParser
end Verif
