import Verif.ConnNet
/-!
Model of `ConnectivityProperties.make_conn_props` (nca/CoreDS/ConnectivityProperties.py 256-329) over
`ConnectivityCube` (nca/CoreDS/ConnectivityCube.py): connection sets from the values of the dimensions, with named
ports resolved at each destination.
-/
namespace Verif
open ISet

/-- `ClusterEP.named_ports` (Peer.py 66, 83-96): a dict from names to a number and a protocol; the first entry of a
name counts (the code overwrites an earlier entry of the name).  Peers of other classes have none (Peer.py 54-56). -/
abbrev NamedPorts := List (String × Int × String)

/-- One call of `add_named_port` (Peer.py 83-96): a port of a container, with its name, number and protocol
(`port.get('protocol', 'TCP')`, TopologyObjectsFinder.py 110-113). -/
def addNamedPort (l : NamedPorts) (p : Option String × Int × Option String) : NamedPorts :=
  match p.1 with
  | none => l
  | some name => if name = "" then l else (name, p.2.1, p.2.2.getD "TCP") :: l

/-- The named ports of a pod, from the ports of its containers. -/
def podPorts (ports : List (Option String × Int × Option String)) : NamedPorts := ports.foldl addNamedPort []

/-- `BasePeerSet.ordered_peer_list` (Peer.py 717-719) with the named ports of the registered objects.  Objects of the
same name in several configurations are equal (Peer.py 69-72), so the first one stays in the list. -/
abbrev PodReg := List (String × NamedPorts)

/-- `add_peer` (Peer.py 721-729); `none` is the failed assertion. -/
def PodReg.add (r : PodReg) (k : String) (ports : NamedPorts) : Option PodReg :=
  if k ∈ r.map (·.1) then some r else if r.length < maxPods then some (r ++ [(k, ports)]) else none

/-- The names of the registered peers. -/
def PodReg.keys (r : PodReg) : List String := r.map (·.1)

/-- The named ports of a registered peer. -/
def PodReg.named (r : PodReg) (k : String) : NamedPorts := (r.lookup k).getD []

/-- An order in which Python may go through a set of strings. -/
structure SetOrder where
  list : Finset String → List String
  mem : ∀ s x, x ∈ list s ↔ x ∈ s

/-- `ConnectivityCube` (ConnectivityCube.py 23-36): a value for each dimension, and the named ports of "dst_ports". -/
structure ConnCube (V2 : Type) where
  val : Dim → ISet ⊕ V2
  named : Finset String
  excluded : Finset String

/-- The interval set stored for a dimension (`get_dim_directly`, 76-82). -/
def ConnCube.ints {V2 : Type} (c : ConnCube V2) (d : Dim) : ISet := match c.val d with | .inl l => l | .inr _ => []

/-- `set_dim_directly` (67-74). -/
def ConnCube.set {V2 : Type} (c : ConnCube V2) (d : Dim) (l : ISet) : ConnCube V2 :=
  { c with val := fun x => if x = d then .inl l else c.val x }

/-- The values `make_conn_props_from_dict` is called with by the parsers of Kubernetes policies; absent keys are
`none`. -/
structure ConnDict where
  srcPeers : Option (PeerSet String)
  dstPeers : Option (PeerSet String)
  protocols : Option ISet
  dstPorts : Option PortSet

section
variable {V2 X2 : Type} (A2 : VAlg Dim V2 X2) (B : PeerDom) (ord : SetOrder) (rg : PodReg)

/-- `self["src_peers"] = …` (`__setitem__`, 84-96); `none` is the failed assertion of the conversion. -/
def ConnCube.setPeers (c : ConnCube V2) (d : Dim) : Option (PeerSet String) → Option (ConnCube V2)
  | none => some c
  | some p => (Base.toIndices rg.keys p).map (c.set d)

/-- `self["dst_ports"] = …` (97-101). -/
def ConnCube.setPorts (c : ConnCube V2) : Option PortSet → ConnCube V2
  | none => c
  | some p => { c.set .dstPorts p.ports with named := p.named, excluded := p.excluded }

/-- `self["protocols"] = …` (105-106). -/
def ConnCube.setProtocols (c : ConnCube V2) : Option ISet → ConnCube V2
  | none => c
  | some l => c.set .protocols l

/-- `ConnectivityCube()` (23-36): every dimension unconstrained. -/
def ConnCube.full : ConnCube V2 := ⟨(connA A2 B).dom, ∅, ∅⟩

/-- `make_from_dict` (203-207). -/
def ConnCube.ofDict (d : ConnDict) : Option (ConnCube V2) := do
  let c ← (ConnCube.full A2 B).setPeers rg .srcPeers d.srcPeers
  let c ← c.setPeers rg .dstPeers d.dstPeers
  return (c.setProtocols d.protocols).setPorts d.dstPorts

/-- One step of the loop of `_resolve_named_ports` (ConnectivityProperties.py 260-270); `none` is the exception for
an unknown protocol name. -/
def resolveStep (ports : NamedPorts) (protocols : ISet) (r : PortSet) (name : String) : Option PortSet :=
  match ports.lookup name with
  | none => some r
  | some (num, pr) => (ProtocolSet.contains protocols (.name pr)).map (fun b => if b then r.addPort (.num num) else r)

/-- `_resolve_named_ports` (256-271). -/
def resolveNamed (ports : NamedPorts) (protocols : ISet) (names : List String) : Option PortSet :=
  names.foldlM (resolveStep ports protocols) (PortSet.make false)

/-- `peer.get_named_ports()` (Peer.py 54-56, 98-99). -/
def namedOf : PeerElem String → NamedPorts
  | .pod k => rg.named k
  | .ip _ => []

/-- The cube with the given ports at one destination (ConnectivityProperties.py 314, 319). -/
def ConnCube.at (c : ConnCube V2) (dst : ISet) (ports : PortSet) : ConnCube V2 :=
  (c.set .dstPorts ports.ports).set .dstPeers dst

/-- One step of the loop over the destinations (310-320). -/
def destStep (c : ConnCube V2) (res : HC Dim (ISet ⊕ V2)) (e : PeerElem String) : Option (HC Dim (ISet ⊕ V2)) := do
  let one ← Base.toIndices rg.keys [e]
  let real ← resolveNamed (namedOf rg e) (c.ints .protocols) (ord.list c.named)
  let res := if real.toBool then HC.or (connA A2 B) allDims res (hcOfCube (connA A2 B) allDims (c.at one real).val) else res
  let excl ← resolveNamed (namedOf rg e) (c.ints .protocols) (ord.list c.excluded)
  return if excl.toBool then HC.sub (connA A2 B) allDims res (hcOfCube (connA A2 B) allDims (c.at one excl).val) else res

/-- `make_conn_props` (273-324).  The cube is changed in place by the loop, but only at the dimensions that each use
sets again. -/
def makeConnProps (c : ConnCube V2) : Option (HC Dim (ISet ⊕ V2)) :=
  if c.named = ∅ ∧ c.excluded = ∅ then some (hcOfCube (connA A2 B) allDims c.val)
  else do
    let init := if ISet.truthy (c.ints .dstPorts) then hcOfCube (connA A2 B) allDims c.val else HC.empty allDims true
    let dst ← Base.fromIndices rg.keys (c.ints .dstPeers)
    dst.foldlM (destStep A2 B ord rg c) init

/-- `make_conn_props_from_dict` (326-329). -/
def makeFromDict (d : ConnDict) : Option (HC Dim (ISet ⊕ V2)) :=
  (ConnCube.ofDict A2 B rg d).bind (makeConnProps A2 B ord rg)

end
end Verif
