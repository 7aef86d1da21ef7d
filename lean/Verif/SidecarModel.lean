import Verif.IngressModel
/-!
Model of the parser of Istio's Sidecar resources (nca/Parsers/IstioSidecarYamlParser.py,
nca/Resources/PolicyResources/IstioSidecar.py, nca/NetworkConfig/PeerContainer.py 198-255, nca/CoreDS/Peer.py 476, 506-520).

Hosts are lists of characters.  `none` is a reported error (`syntax_error` raises an exception).  Not modelled: the checks
of field names and types (they only reject input) and warnings.  The name of a DNS entry is its key.
-/
namespace Verif
open ISet

namespace SidecarParser
open Container IstioParser IngressParser

/-- A Sidecar as the user writes it (IstioSidecarYamlParser.py 221-253): its name and namespace, the selector, the hosts
of each egress listener, and the mode of `outboundTrafficPolicy`. -/
structure SidecarText where
  name : String
  ns : Ns
  selector : Workloads
  egress : Option (List (List (List Char)))
  mode : Option String

/-! ### Hosts -/

/-- `_validate_and_partition_host_format` (34-48). -/
def partitionHost (h : List Char) : Option (List Char × List Char) :=
  if h.count '/' ≠ 1 then none
  else
    let a := h.takeWhile (· ≠ '/')
    let b := (h.dropWhile (· ≠ '/')).tail
    if a.isEmpty || b.isEmpty then none else some (a, b)

/-- `get_all_dns_entries` (PeerContainer.py 321-326), and the loops of `get_all_services_target_peers` and
`get_services_target_peers_in_namespace` (249-251, 268-270). -/
def dnsPeers (c : Container) : PeerSet String := c.sel fun p => decide (p.kind = .dns)

/-- The pods of the services that pass the test. -/
def targets (svcs : List (String × Svc)) (f : Svc → Bool) : PeerSet String :=
  svcs.foldl (fun res e => if f e.2 then res.or e.2.pods else res) []

/-- `get_all_services_target_peers` (239-252). -/
def allTargets (svcs : List (String × Svc)) (c : Container) : PeerSet String := (targets svcs fun _ => true).or (dnsPeers c)

/-- `get_services_target_peers_in_namespace` (254-271); namespaces are compared by their names. -/
def nsTargets (svcs : List (String × Svc)) (c : Container) (ns : List Char) : PeerSet String :=
  (targets svcs fun s => decide (s.ns.name.toList = ns)).or (dnsPeers c)

/-- `get_target_pods_with_service_name` (198-208). -/
def byName (svcs : List (String × Svc)) (name : List Char) : PeerSet String := targets svcs fun s => decide (s.name.toList = name)

/-- `_get_peers_from_host_namespace` (IstioSidecarYamlParser.py 50-79). -/
def hostNs (svcs : List (String × Svc)) (c : Container) (own : Ns) (ns : List Char) : Option (PeerSet String × Bool) :=
  if (decide ('*' ∈ ns) || decide ('.' ∈ ns) || decide ('~' ∈ ns)) && decide (ns.length ≠ 1) then none
  else if ns = ['*'] then some (allTargets svcs c, false)
  else if ns = ['.'] then
    if own.name = rootNamespace then some (allTargets svcs c, true) else some (nsTargets svcs c own.name.toList, false)
  else if ns = ['~'] then some ([], false)
  else some (nsTargets svcs c ns, false)

/-- The letters of `[A-Za-z0-9]`. -/
def alnum (a : Char) : Bool := a.isAlphanum

/-- `s.split('.')`. -/
def splitDots : List Char → List (List Char)
  | [] => [[]]
  | a :: t =>
    if a = '.' then [] :: splitDots t
    else match splitDots t with
      | [] => [[a]]
      | e :: l => (a :: e) :: l

/-- `[A-Za-z0-9]([-A-Za-z0-9]*[A-Za-z0-9])?` (100). -/
def fqdnLabel (s : List Char) : Bool :=
  (match s.head? with | some a => alnum a | none => false) && (match s.getLast? with | some a => alnum a | none => false) &&
    s.all fun a => alnum a || decide (a = '-')

/-- The regular expression of names (100). -/
def fqdn (s : List Char) : Bool :=
  decide (1 ≤ s.length) && decide (s.length ≤ 254) &&
    ((splitDots s).all fqdnLabel || (decide (s.getLast? = some '.') && (splitDots s.dropLast).all fqdnLabel))

/-- `_validate_dns_name_pattern` (81-103): whether it finds no error. -/
def validDns (d : List Char) : Bool :=
  if d = ['*'] then true
  else if '*' ∈ d ∧ ¬ (['*', '.'] <+: d ∧ d.count '*' = 1) then false
  else
    let s := if '*' ∈ d then d.drop 2 else d
    s.isEmpty || (decide ('.' ∈ s) && fqdn s)

/-- `DNSEntry.dns_pattern` (nca/CoreDS/Peer.py 476). -/
def dnsPattern (u : List Char) : Bool :=
  u.isEmpty || ((match u.head? with | some a => alnum a | none => false) && (match u.getLast? with | some a => alnum a | none => false) &&
    u.all fun a => alnum a || decide (a = '-') || decide (a = '_') || decide (a = '.'))

/-- `re.fullmatch(compute_re_pattern_from_host_name(host), name)` (PeerContainer.py 223, Peer.py 506-520). -/
def hostPattern (h name : List Char) : Bool :=
  match h with
  | '*' :: t => decide (t <:+ name) && dnsPattern (name.take (name.length - t.length))
  | _ => decide (name = h)

/-- `get_dns_entry_peers_matching_host_name` (PeerContainer.py 210-225). -/
def matchingDns (c : Container) (h : List Char) : PeerSet String :=
  c.sel fun p => decide (p.kind = .dns) && match p.elem with
    | .pod k => decide (k.toList = h) || hostPattern h k.toList
    | .ip _ => false

/-- The end of the names of services. -/
def svcSuffix : List Char := "svc.cluster.local".toList

/-- `_get_peers_from_host_dns_name` (IstioSidecarYamlParser.py 105-129). -/
def hostDns (svcs : List (String × Svc)) (c : Container) (d : List Char) (peers : PeerSet String) : PeerSet String :=
  if d = ['*'] then peers
  else if svcSuffix <:+: d then
    if ['*', '.'] <+: d then peers else peers.and (byName svcs (d.takeWhile (· ≠ '.')))
  else peers.and (matchingDns c d)

/-- `IstioSidecarRule` (IstioSidecar.py 14-34): the peers of a listener, and those that are compared by their namespaces. -/
structure SidecarRule where
  peers : PeerSet String
  special : PeerSet String

/-- One step of the loop over the hosts (IstioSidecarYamlParser.py 148-158). -/
def hostStep (svcs : List (String × Svc)) (c : Container) (own : Ns) (r : SidecarRule) (h : List Char) : Option SidecarRule :=
  (partitionHost h).bind fun x =>
    (hostNs svcs c own x.1).bind fun y =>
      if !validDns x.2 then none
      else
        let peers := if y.1.isEmpty then y.1 else hostDns svcs c x.2 y.1
        some (if y.2 then { r with special := r.special.or peers } else { r with peers := r.peers.or peers })

/-- `_parse_egress_rule` (131-160). -/
def parseRule (svcs : List (String × Svc)) (c : Container) (own : Ns) (hosts : List (List Char)) : Option SidecarRule :=
  if hosts.isEmpty then none else hosts.foldlM (hostStep svcs c own) ⟨[], []⟩

/-! ### Sidecars -/

/-- `IstioSidecar` (IstioSidecar.py 37-49) with the attributes the parser sets. -/
structure Sidecar where
  name : String
  ns : Ns
  affectsEgress : Bool
  selected : PeerSet String
  rules : List SidecarRule
  registryOnly : Bool

/-- The attributes of the parser that live longer than one resource (IstioSidecarYamlParser.py 16-26). -/
structure ParserState where
  byLabels : PeerSet String
  nss : List String
  specific : List Sidecar
  defaults : List Sidecar
  globals : List Sidecar

/-- `_parse_outbound_traffic_policy` (193-211): whether the mode is REGISTRY_ONLY; an absent mode is ALLOW_ANY. -/
def parseMode : Option String → Option Bool
  | none => some false
  | some s => if s = "ALLOW_ANY" then some false else if s = "REGISTRY_ONLY" then some true else none

/-- The selector is absent (`default_sidecar`, 233). -/
def isDefault : Workloads → Bool
  | .absent => true
  | _ => false

/-- `_check_and_save_sidecar_if_top_priority` (162-191). -/
def checkPriority (st : ParserState) (t : SidecarText) (selected : PeerSet String) : Option ParserState :=
  if isDefault t.selector then
    if t.ns.name ∈ st.nss then none else some { st with nss := st.nss ++ [t.ns.name] }
  else if !(selected.and st.byLabels).isEmpty then none
  else some { st with byLabels := st.byLabels.or selected }

/-- The lists of sidecars (252-259). -/
def save (st : ParserState) (t : SidecarText) (s : Sidecar) : ParserState :=
  if isDefault t.selector then
    if t.ns.name = rootNamespace then { st with globals := st.globals ++ [s] } else { st with defaults := st.defaults ++ [s] }
  else { st with specific := st.specific ++ [s] }

/-- `parse_policy` (213-259). -/
def parseSidecar (svcs : List (String × Svc)) (c : Container) (st : ParserState) (t : SidecarText) : Option ParserState :=
  if t.ns.name = rootNamespace ∧ isDefault t.selector = false then none
  else
    (selectedPeers c t.ns t.selector).bind fun selected =>
      (checkPriority st t selected).bind fun st =>
        ((t.egress.getD []).mapM (parseRule svcs c t.ns)).bind fun rules =>
          (parseMode t.mode).map fun m => save st t ⟨t.name, t.ns, t.egress.isSome, selected, rules, m⟩

/-- One step of the loops over the selector-less sidecars (280-285, 289-294): the peers of other sidecars are removed. -/
def refineStep (st : PeerSet String × List Sidecar) (s : Sidecar) : PeerSet String × List Sidecar :=
  let selected := if (s.selected.and st.1).isEmpty then s.selected else s.selected.sub st.1
  (st.1.or selected, st.2 ++ [{ s with selected }])

/-- `get_istio_sidecars` (261-296). -/
def getSidecars (st : ParserState) : List Sidecar :=
  (st.globals.foldl refineStep (st.defaults.foldl refineStep (st.byLabels, st.specific))).2

/-- The sidecars of a list of resources. -/
def sidecars (svcs : List (String × Svc)) (c : Container) (l : List SidecarText) : Option (List Sidecar) :=
  (l.foldlM (parseSidecar svcs c) ⟨[], [], [], [], []⟩).map getSidecars

/-! ### Connections -/

/-- The namespace of a peer. -/
def peerNs (c : Container) (e : PeerElem String) : Option Ns := (c.find? fun p => decide (p.elem = e)).bind PeerInfo.ns

/-- `combine_peer_sets_by_ns` (IstioSidecar.py 117-129); the number bounds the iterations of the loop. -/
def combineByNs (c : Container) (dst : PeerSet String) : Nat → PeerSet String → List (PeerSet String × PeerSet String)
  | 0, _ => []
  | _, [] => []
  | n + 1, .ip _ :: l => combineByNs c dst n l
  | n + 1, .pod k :: l =>
    let here := c.nsPods (peerNs c (.pod k))
    (PeerSet.and (.pod k :: l) here, dst.and here) :: combineByNs c dst n (PeerSet.sub (.pod k :: l) here)

section
variable {V2 X2 : Type} (A2 : VAlg Dim V2 X2) (B : PeerDom) (ord : SetOrder) (rg : PodReg) (c : Container)

/-- `rule.props |= make_conn_props_from_dict(...)`. -/
def addProps (h : HC Dim (ISet ⊕ V2)) (src dst : PeerSet String) (protocols : Option ISet) : Option (HC Dim (ISet ⊕ V2)) :=
  (makeFromDict A2 B ord rg ⟨some src, some dst, protocols, none⟩).map (HC.or (connA A2 B) allDims h)

/-- The connections of a rule (`create_opt_egress_props`, 131-165). -/
def ruleProps (s : Sidecar) (r : SidecarRule) : Option (HC Dim (ISet ⊕ V2)) :=
  let dns := (dnsPeers c).and (r.peers.or r.special)
  (if s.registryOnly then some (HC.empty allDims true)
    else addProps A2 B ord rg (HC.empty allDims true) s.selected [.ip (IpBlock.allIps false false)] none).bind fun h =>
  (if s.selected.isEmpty || dns.isEmpty then some h
    else (ProtocolSet.add (ProtocolSet.make false) (.name "TCP")).bind fun tcp => addProps A2 B ord rg h s.selected dns (some tcp)).bind fun h =>
  (if s.selected.isEmpty || r.peers.isEmpty then some h else addProps A2 B ord rg h s.selected r.peers none).bind fun h =>
  (combineByNs c r.special s.selected.length s.selected).foldlM
    (fun h x => if x.1.isEmpty || x.2.isEmpty then some h else addProps A2 B ord rg h x.1 x.2 none) h

end
end SidecarParser
end Verif
