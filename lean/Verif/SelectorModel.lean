import Verif.PeerProofs
/-!
Model of `PeerContainer`'s peer queries (nca/NetworkConfig/PeerContainer.py 86-190, 265-339) and of label
selectors and peers of Kubernetes policies (nca/Parsers/K8sPolicyYamlParser.py 118-258).

Not modelled: the checks of field names, types and label syntax (they only reject input), warnings, and the
bookkeeping of referenced labels.  `none` is a reported syntax error.
-/
namespace Verif

/-- A Python dict of labels; the first entry of a key counts. -/
abbrev Labels := List (String × String)

/-- `K8sNamespace` (K8sNamespace.py 6-27); compared by name. -/
structure Ns where
  name : String
  labels : Labels
  deriving DecidableEq

/-- The classes of peers a container can hold: `Pod`, `HostEP`, `DNSEntry`, `IpBlock` (network sets). -/
inductive PeerKind where
  | pod | hep | dns | netset
  deriving DecidableEq

/-- A peer object of the container: its identity inside peer sets, and what selectors read of it. -/
structure PeerInfo where
  elem : PeerElem String
  kind : PeerKind
  ns : Option Ns
  labels : Labels
  /-- labels applied by Calico profiles -/
  extra : Labels
  /-- `is_global_peer()` (Peer.py 47-48, 187-188, 297-298) -/
  isGlobal : Bool

abbrev Container := List PeerInfo

namespace Container

/-- All query functions loop over the peers and add those that pass a test. -/
def sel (c : Container) (f : PeerInfo → Bool) : PeerSet String := (c.filter f).map PeerInfo.elem

/-- `peer.namespace == namespace`. -/
def sameNs (p : PeerInfo) (ns : Ns) : Bool := match p.ns with | some n => decide (n.name = ns.name) | none => false

/-- Python's `x.get(key) in values`; an absent key gives `None`, which is no string. -/
def getIn (l : Labels) (key : String) (values : List String) : Bool :=
  match l.lookup key with | some v => decide (v ∈ values) | none => false

/-- `get_peers_with_label` with action In / NotIn (PeerContainer.py 86-107); `namespace` is not passed by the
callers modelled here. -/
def withLabel (c : Container) (key : String) (values : List String) (notIn : Bool) : PeerSet String :=
  c.sel (fun p => if notIn then !getIn p.labels key values && !getIn p.extra key values
    else getIn p.labels key values || getIn p.extra key values)

/-- `key in dict`. -/
def hasKey (l : Labels) (key : String) : Bool := (l.lookup key).isSome

/-- `get_peers_with_key` (PeerContainer.py 120-135). -/
def withKey (c : Container) (ns : Option Ns) (key : String) (doesNotExist : Bool) : PeerSet String :=
  c.sel (fun p => (match ns with | some n => sameNs p n | none => true) &&
    ((hasKey p.labels key || hasKey p.extra key) ^^ doesNotExist))

/-- `get_namespace_pods_with_label` with action In / NotIn (PeerContainer.py 137-165): an absent key counts
as the empty string. -/
def nsWithLabel (c : Container) (key : String) (values : List String) (notIn : Bool) : PeerSet String :=
  c.sel (fun p => match p.ns with
    | none => false
    | some n => decide (((n.labels.lookup key).getD "") ∈ values) ^^ notIn)

/-- `get_namespace_pods_with_key` (PeerContainer.py 167-180). -/
def nsWithKey (c : Container) (key : String) (doesNotExist : Bool) : PeerSet String :=
  c.sel (fun p => match p.ns with | none => false | some n => hasKey n.labels key ^^ doesNotExist)

/-- `get_all_peers_group` (PeerContainer.py 299-317). -/
def allPeers (c : Container) (externalIps includeGlobals includeDns : Bool) : PeerSet String :=
  let r := c.sel (fun p => !(decide (p.kind = .dns) && !includeDns) && (includeGlobals || !p.isGlobal))
  if externalIps then setAdd r (.ip (IpBlock.allIps false false)) else r

/-- `get_namespace_pods` (PeerContainer.py 182-194). -/
def nsPods (c : Container) (ns : Option Ns) : PeerSet String :=
  match ns with
  | none => c.allPeers false true false
  | some n => c.sel (fun p => sameNs p n)

end Container

/-- Operators of a `LabelSelectorRequirement`. -/
inductive SelOp where
  | In | NotIn | Exists | DoesNotExist
  deriving DecidableEq

/-- A `LabelSelectorRequirement`. -/
structure Req where
  key : String
  op : SelOp
  values : List String
  deriving DecidableEq

/-- A `LabelSelector`. -/
structure Selector where
  matchLabels : Labels
  matchExpressions : List Req
  deriving DecidableEq

namespace K8sParser
open Container

/-- `parse_label_selector_requirement` (K8sPolicyYamlParser.py 118-150); `ns` is the namespace of the policy. -/
def requirement (c : Container) (ns : Ns) (nsSel : Bool) (r : Req) : Option (PeerSet String) :=
  match r.op with
  | .In | .NotIn =>
    if r.values.isEmpty then none
    else if nsSel then some (c.nsWithLabel r.key r.values (decide (r.op = .NotIn)))
    else some (c.withLabel r.key r.values (decide (r.op = .NotIn)))
  | .Exists | .DoesNotExist =>
    if !r.values.isEmpty then none
    else if nsSel then some (c.nsWithKey r.key (decide (r.op = .DoesNotExist)))
    else some (c.withKey (some ns) r.key (decide (r.op = .DoesNotExist)))

/-- The loop over `matchLabels` (K8sPolicyYamlParser.py 172-184). -/
def labelStep (c : Container) (nsSel : Bool) (res : PeerSet String) (kv : String × String) : PeerSet String :=
  if nsSel then res.and (c.nsWithLabel kv.1 [kv.2] false) else res.and (c.withLabel kv.1 [kv.2] false)

/-- `parse_label_selector` (K8sPolicyYamlParser.py 152-202). -/
def selector (c : Container) (ns : Ns) (nsSel : Bool) : Option Selector → Option (PeerSet String)
  | none => some []
  | some s =>
    let res := s.matchLabels.foldl (labelStep c nsSel) (c.allPeers false true false)
    s.matchExpressions.foldlM (fun res r => (requirement c ns nsSel r).map res.and) res

/-- A `NetworkPolicyPeer`. -/
structure PolicyPeer where
  podSelector : Option Selector
  nsSelector : Option Selector
  ipBlock : Option (IpBlock.Cidr × List IpBlock.Cidr)

/-- `parse_ip_block` (K8sPolicyYamlParser.py 204-223). -/
def ipBlock (b : IpBlock.Cidr × List IpBlock.Cidr) : Option (PeerSet String) :=
  (IpBlock.addCidr [] b.1 b.2).map (fun l => [.ip l])

/-- The peers of the namespaces of a rule's peer (K8sPolicyYamlParser.py 246-249). -/
def nsPart (c : Container) (ns : Ns) : Option Selector → Option (PeerSet String)
  | some s => selector c ns true (some s)
  | none => some (c.nsPods (some ns))

/-- The pods of a rule's peer among these (K8sPolicyYamlParser.py 251-257). -/
def podPart (c : Container) (ns : Ns) (res : PeerSet String) : Option Selector → Option (PeerSet String)
  | some s => (selector c ns false (some s)).map (fun selected => selected.and res)
  | none => some res

/-- `parse_peer` (K8sPolicyYamlParser.py 225-258). -/
def peer (c : Container) (ns : Ns) (p : PolicyPeer) : Option (PeerSet String) :=
  match p.ipBlock with
  | some b => if p.podSelector.isSome || p.nsSelector.isSome then none else ipBlock b
  | none =>
    if p.podSelector.isNone && p.nsSelector.isNone then none
    else (nsPart c ns p.nsSelector).bind (fun res => podPart c ns res p.podSelector)

/-- The selected pods of a policy (`parse_policy`, K8sPolicyYamlParser.py 417-419). -/
def selectedPods (c : Container) (ns : Ns) (s : Option Selector) : Option (PeerSet String) :=
  (selector c ns false s).map (fun r => r.and (c.nsPods (some ns)))

end K8sParser
end Verif
