import Verif.SelectorModel
import Verif.NamedPorts
import Verif.PolicyModel
/-!
Model of the parser of Kubernetes network policies: `K8sPolicyYamlParser.parse_port`,
`parse_ingress_egress_rule` and `parse_policy` (nca/Parsers/K8sPolicyYamlParser.py 260-436).  Selectors and peers are in
`Verif.SelectorModel`, connection sets in `Verif.NamedPorts`.

Not modelled: the checks of field names and types, of the names of policies and namespaces, and of the texts of
addresses (they only reject input), and warnings.  Absent, null and empty lists are one value where the code does not
tell them apart.  `none` is a reported error.
-/
namespace Verif
open ISet

namespace K8sParser

/-- A `NetworkPolicyPort`. -/
structure PolicyPort where
  port : Option Port
  protocol : Option String
  endPort : Option Int

/-- An ingress or egress rule; an absent or null list is the empty one (`if peer_array`, `if ports_array`). -/
structure PolicyRule where
  peers : List PolicyPeer
  ports : List PolicyPort

/-- The entries of `policyTypes`. -/
inductive PolicyType where
  | ingress | egress
  deriving DecidableEq

/-- The fields `ingress` and `egress` of a spec. -/
inductive RuleField where
  | absent | null | list (l : List PolicyRule)

/-- The rules of the field. -/
def RuleField.rules : RuleField → List PolicyRule
  | .list l => l
  | _ => []

/-- The `spec` of a policy; an absent or null `policyTypes` is the empty list. -/
structure PolicySpec where
  podSelector : Selector
  ingress : RuleField
  egress : RuleField
  types : List PolicyType

/-- A policy as the user writes it; `none` is an absent or null spec. -/
structure PolicyText where
  name : String
  ns : Ns
  spec : Option PolicySpec

/-- The characters `[a-z\d]`.  SIMPLIFICATION: `\d` also matches digits of other scripts. -/
def alnum (c : Char) : Bool := c.isLower || c.isDigit

/-- The length check and `re.fullmatch(r"[a-z\d]([-a-z\d]*[a-z\d])?", port_id)` (289-294): a word of letters, digits and
hyphens that begins and ends with no hyphen. -/
def validName (s : String) : Bool :=
  decide (s.length ≤ 15) &&
  match s.toList with
  | [] => false
  | a :: l => alnum a && (a :: l).all (fun x => x == '-' || alnum x) && alnum ((a :: l).getLastD a)

/-- `validate_value_in_domain(value, 'dst_ports', …)` (GenericYamlParser.py 211-223). -/
def validPort (n : Int) : Bool := decide (1 ≤ n) && decide (n ≤ 65535)

/-- The check of `protocol` (268-269) and the default (273-274). -/
def portProtocol : Option String → Option String
  | none => some "TCP"
  | some s => if s = "" then some "TCP" else if s ∈ ["TCP", "UDP", "SCTP"] then some s else none

/-- The set of ports (276-301). -/
def portSet (port : Option Port) (endPort : Option Int) : Option PortSet :=
  match port, endPort with
  | some (.name _), some _ => none
  | some (.num n), some e =>
    if validPort n && validPort e && !decide (n > e) then some ((PortSet.make false).addPortRange n e) else none
  | some (.num n), none => if validPort n then some ((PortSet.make false).addPort (.num n)) else none
  | some (.name s), none => if validName s then some ((PortSet.make false).addPort (.name s)) else none
  | none, some e => if e ≠ 0 then none else some (PortSet.make true)
  | none, none => some (PortSet.make true)

/-- `parse_port` (260-303). -/
def parsePort (p : PolicyPort) : Option (String × PortSet) := do
  let protocol ← portProtocol p.protocol
  let ports ← portSet p.port p.endPort
  return (protocol, ports)

/-- The peers of a rule (316-322). -/
def rulePeers (c : Container) (ns : Ns) (peers : List PolicyPeer) : Option (PeerSet String) :=
  if peers.isEmpty then some (c.allPeers true true true)
  else peers.foldlM (fun res pp => (peer c ns pp).map res.or) []

section
variable {V2 X2 : Type} (A2 : VAlg Dim V2 X2) (B : PeerDom) (ord : SetOrder) (rg : PodReg)

/-- One step of the loop over the ports (334-343). -/
def portStep (src dst : PeerSet String) (res : HC Dim (ISet ⊕ V2)) (p : PolicyPort) : Option (HC Dim (ISet ⊕ V2)) := do
  let (protocol, ports) ← parsePort p
  let number ← Proto.getNumber protocol
  if !src.isEmpty && !dst.isEmpty then
    let protocols ← ProtocolSet.add (ProtocolSet.make false) (.num number)
    let props ← makeFromDict A2 B ord rg ⟨some src, some dst, some protocols, some ports⟩
    return HC.or (connA A2 B) allDims res props
  else return res

/-- `parse_ingress_egress_rule` (305-349). -/
def parseRule (c : Container) (ns : Ns) (isIngress : Bool) (selected : PeerSet String) (r : PolicyRule) :
    Option (HC Dim (ISet ⊕ V2)) := do
  let peers ← rulePeers c ns r.peers
  let src := if isIngress then peers else selected
  let dst := if isIngress then selected else peers
  if r.ports.isEmpty then makeFromDict A2 B ord rg ⟨some src, some dst, none, none⟩
  else r.ports.foldlM (portStep A2 B ord rg src dst) (HC.empty allDims true)

/-- The result of `parse_policy`: the attributes of `K8sNetworkPolicy` the parser sets. -/
structure Parsed (V2 : Type) where
  selected : PeerSet String
  affectsIngress : Bool
  affectsEgress : Bool
  ingress : List (HC Dim (ISet ⊕ V2))
  egress : List (HC Dim (ISet ⊕ V2))

/-- `not policy_types or 'Ingress' in policy_types` (406). -/
def affectsIngress (s : PolicySpec) : Bool := s.types.isEmpty || s.types.contains .ingress

/-- `'egress' in policy_spec`. -/
def RuleField.present : RuleField → Bool
  | .absent => false
  | _ => true

/-- `policy_spec.get('egress') is not None`. -/
def RuleField.notNull : RuleField → Bool
  | .list _ => true
  | _ => false

/-- `affects_egress` (409-410). -/
def affectsEgress (s : PolicySpec) : Bool :=
  (!s.types.isEmpty && s.types.contains .egress) || (s.types.isEmpty && s.egress.present)

/-- `parse_policy` (377-436), from the spec on; the check of `policyTypes` against the allowed lists is at 399-400. -/
def parseSpec (c : Container) (ns : Ns) (s : PolicySpec) : Option (Parsed V2) :=
  if !(s.types.isEmpty || decide (s.types ∈ [[.ingress], [.egress], [.ingress, .egress]])) then none
  else if !affectsIngress s && s.ingress.notNull then none
  else if !affectsEgress s && s.egress.notNull then none
  else do
    let selected ← selectedPods c ns (some s.podSelector)
    let ingress ← s.ingress.rules.mapM (parseRule A2 B ord rg c ns true selected)
    let egress ← s.egress.rules.mapM (parseRule A2 B ord rg c ns false selected)
    return ⟨selected, affectsIngress s, affectsEgress s, ingress, egress⟩

/-- `parse_policy`; without a spec the policy keeps the attributes of its constructor (391-394, NetworkPolicy.py
50-70). -/
def parsePolicy (c : Container) (t : PolicyText) : Option (Parsed V2) :=
  match t.spec with
  | none => some ⟨[], false, false, [], []⟩
  | some s => parseSpec A2 B ord rg c t.ns s

end
end K8sParser
end Verif
