import Verif.SidecarModel
/-!
Model of the reading of namespaces and endpoints (nca/NetworkConfig/TopologyObjectsFinder.py 17-343,
nca/Parsers/IstioServiceEntryYamlParser.py, nca/CoreDS/Peer.py 12-188, 290-297 and 456-504,
nca/Resources/OtherResources/K8sNamespace.py, and the loop of `_parse_resources_path`,
nca/NetworkConfig/ResourcesHandler.py 384-424).

Not modelled: live clusters, missing or ill-typed fields that are exceptions, the checks of field names and versions of
service entries (they only reject input), warnings, lists inside lists, and lists of Calico resources (`NetworkSetList` and
so on; `List` is modelled).
-/
namespace Verif

namespace Topology

/-! ### Texts -/

/-- The ports of containers and endpoints: name, number and protocol. -/
abbrev PortTexts := List (Option String × Int × Option String)

/-- A `Namespace`: its name and labels. -/
structure NsText where
  name : String
  labels : Labels

/-- A `Pod`.  `owner`: name and kind of the first owner. -/
structure PodText where
  name : String
  ns : Option String
  labels : Labels
  owner : Option (String × String)
  account : Option String
  ports : PortTexts

/-- A workload (`pod_creation_resources`, 26-27): `kind` is one of `Deployment`, `ReplicaSet`, `StatefulSet`, `DaemonSet`, `Job`,
`CronJob`, `ReplicationController`.  `parallelism` is that of the job or of the job template; labels, account and ports are
those of the template of pods. -/
structure WorkText where
  kind : String
  name : String
  ns : Option String
  replicas : Option Nat
  parallelism : Option Nat
  labels : Labels
  account : Option String
  ports : PortTexts

/-- A `WorkloadEndpoint`; `pod` is the name of its pod. -/
structure WepText where
  pod : String
  ns : Option String
  labels : Labels
  ports : PortTexts
  profiles : List String

/-- A `HostEndpoint`. -/
structure HepText where
  name : String
  labels : Labels
  ports : PortTexts
  profiles : List String

/-- A `NetworkSet` or `GlobalNetworkSet`. -/
structure SetText where
  name : String
  isGlobal : Bool
  ns : Option String
  labels : Labels
  nets : List IpBlock.Cidr

/-- A `ServiceEntry`. -/
structure EntryText where
  hosts : List String

/-- A resource. -/
inductive Item where
  | ns (t : NsText)
  | pod (t : PodText)
  | work (t : WorkText)
  | wep (t : WepText)
  | hep (t : HepText)
  | set (t : SetText)
  | entry (t : EntryText)

/-- A document: a resource, a `List`, or a `PodList`, whose items have no `kind`. -/
inductive Doc where
  | one (i : Item)
  | list (l : List Item)
  | pods (l : List PodText)

/-! ### Objects -/

/-- A peer object: what the container knows of it, and its named ports, service account, profiles and workload. -/
structure PeerObj where
  info : PeerInfo
  ports : NamedPorts
  account : String
  profiles : List String
  workload : String
  /-- `canonical_form()` -/
  form : String

/-- `K8sNamespace` (K8sNamespace.py 10-27) with `set_label` for the labels of the text: given labels replace that of the
name. -/
def newNs (name : String) (labels : Labels) : Ns :=
  ⟨if name = "" then "default" else name, labels ++ [("kubernetes.io/metadata.name", name)]⟩

/-- `string.hexdigits`. -/
def hexDigit (a : Char) : Bool := a ∈ "0123456789abcdefABCDEF".toList

/-- `owner_name[owner_name.rfind('-') + 1:]` (Peer.py 158). -/
def afterDash (s : List Char) : List Char := (s.reverse.takeWhile (· ≠ '-')).reverse

/-- `owner_name[:owner_name.rfind("-")]` (Peer.py 160): without a dash `rfind` is `-1`. -/
def beforeDash (s : List Char) : List Char :=
  if '-' ∈ s then ((s.reverse.dropWhile (· ≠ '-')).drop 1).reverse else s.dropLast

/-- `workload_name` (Peer.py 151-165). -/
def workloadName (ns name owner kind : String) : String :=
  if owner = "" then ns ++ "/" ++ name ++ "(Pod)"
  else if kind = "ReplicaSet" then
    if (afterDash owner.toList).all hexDigit then ns ++ "/" ++ String.ofList (beforeDash owner.toList) ++ "(Deployment-StatefulSet)"
    else ns ++ "/" ++ owner ++ "(ReplicaSet)"
  else ns ++ "/" ++ owner ++ "(" ++ kind ++ ")"

/-- The order of pairs of strings. -/
def pairLe (a b : String × String) : Bool := decide (a.1 < b.1 ∨ (a.1 = b.1 ∧ a.2 ≤ b.2))

/-- `ClusterEP.canonical_form` (Peer.py 114-134). -/
def epForm (profiles : List String) (labels : Labels) : String :=
  (match profiles with
    | [] => ""
    | p :: ps => "," ++ p ++ String.join ((ps.mergeSort fun a b => decide (a ≤ b)).map fun q => "," ++ q)) ++
  String.join ((labels.mergeSort pairLe).map fun l => ",(" ++ l.1 ++ "," ++ l.2 ++ ")")

/-- A `Pod` object (Peer.py 137-176) with its labels, ports and profiles. -/
def podObj (n : Ns) (name owner kind account : String) (labels : Labels) (ports : PortTexts) (profiles : List String) : PeerObj :=
  let w := workloadName n.name name owner kind
  ⟨⟨.pod (n.name ++ "/" ++ name), .pod, some n, labels, [], false⟩, podPorts ports, account, profiles, w,
    n.name ++ "_" ++ w ++ "_" ++ epForm profiles labels⟩

/-- A `HostEP` object (Peer.py 182-188). -/
def hepObj (t : HepText) : PeerObj :=
  ⟨⟨.pod t.name, .hep, none, t.labels, [], true⟩, podPorts t.ports, "", t.profiles, "", epForm t.profiles t.labels⟩

/-- A `DNSEntry` object (Peer.py 464-504). -/
def dnsObj (host : String) : PeerObj := ⟨⟨.pod host, .dns, none, [], [], false⟩, [], "", [], "", host⟩

/-- The addresses of a network set (200-202). -/
def setBlock (nets : List IpBlock.Cidr) : Option IpBlock := nets.foldlM (fun b c => IpBlock.addCidr b c []) []

/-- The `IpBlock` object of a network set (196-202, Peer.py 254-299); `cidrs` is `get_cidr_list_str` (Peer.py 311-313). -/
def setObj (cidrs : IpBlock → String) (t : SetText) (n : Option Ns) (b : IpBlock) : PeerObj :=
  ⟨⟨.ip b, .netset, n, t.labels, [], t.isGlobal⟩, [], "", [], "", n.elim t.name fun n => n.name ++ "_" ++ cidrs b⟩

/-! ### State -/

/-- The state of the finders: `namespaces` (286), `representative_peers` (32; a form occurs as often as it was counted),
`peer_set` (31), and `BasePeerSet`.  A Python set keeps the object that was added first. -/
structure Topo where
  nss : List (String × Ns)
  counted : List String
  peers : List PeerObj
  reg : PodReg

/-- `_add_namespace` (314-329). -/
def addNs (t : Topo) (x : NsText) : Topo := { t with nss := (x.name, newNs x.name x.labels) :: t.nss }

/-- `get_or_update_namespace` (331-343). -/
def Topo.ns (t : Topo) (name : String) : Ns := (t.nss.lookup name).getD (newNs name [])

/-- The effect of `get_or_update_namespace` on the namespaces. -/
def Topo.touch (t : Topo) (name : String) : Topo :=
  if (t.nss.lookup name).isSome then t else { t with nss := (name, newNs name []) :: t.nss }

/-- `_add_peer` (118-131); `none` is the failed assertion of `BasePeerSet.add_peer`. -/
def addPeer (t : Topo) (p : PeerObj) : Option Topo :=
  if 2 ≤ t.counted.count p.form then some t
  else (match p.info.elem with | .ip _ => some t.reg | .pod k => t.reg.add k p.ports).map fun reg =>
    ⟨t.nss, p.form :: t.counted, if t.peers.any (fun q => decide (q.info.elem = p.info.elem)) then t.peers else t.peers ++ [p], reg⟩

/-- `_add_pod_from_yaml` (78-116).  `typed`: the object has a `kind`. -/
def addPod (typed : Bool) (t : Topo) (x : PodText) : Option Topo :=
  let ns := x.ns.getD "default"
  addPeer (t.touch ns) (podObj (t.ns ns) x.name (x.owner.elim "" (·.1)) (x.owner.elim "" (·.2)) (if typed then x.account.getD "default" else "")
    x.labels x.ports [])

/-- The number of pods made for a workload (143-158). -/
def WorkText.made (x : WorkText) : Nat := min (if x.kind = "Job" then x.parallelism.getD 1 else x.replicas.getD 1) 2

/-- The pod of a workload with a number (159-170). -/
def workObj (n : Ns) (x : WorkText) (i : Nat) : PeerObj :=
  podObj n (x.name ++ "-" ++ toString (i + 1)) x.name x.kind (x.account.getD "default") x.labels x.ports []

/-- `_add_pod_from_workload_yaml` (133-177). -/
def addWork (t : Topo) (x : WorkText) : Option Topo :=
  let ns := x.ns.getD "default"
  (List.range x.made).foldlM (fun s i => addPeer s (workObj (t.ns ns) x i)) (t.touch ns)

/-- `_add_wep_from_yaml` (236-262). -/
def addWep (t : Topo) (x : WepText) : Option Topo :=
  let ns := x.ns.getD "default"
  addPeer (t.touch ns) (podObj (t.ns ns) x.pod "" "" "" x.labels x.ports x.profiles)

/-- `_add_networkset_from_yaml` (179-209). -/
def addSet (cidrs : IpBlock → String) (t : Topo) (x : SetText) : Option Topo :=
  if x.name = "" then some t
  else (setBlock x.nets).bind fun b =>
    if x.isGlobal then addPeer t (setObj cidrs x none b)
    else addPeer (t.touch (x.ns.getD "default")) (setObj cidrs x (some (t.ns (x.ns.getD "default"))) b)

/-- `_parse_host_and_get_dns_entry` (IstioServiceEntryYamlParser.py 20-56): is the host legal? -/
def legalHost (h : List Char) : Bool :=
  !decide (h = ['*']) && SidecarParser.dnsPattern (if ['*', '.'] <+: h then h.drop 2 else h)

/-- `_add_dns_entries_from_yaml` (264-276) with `parse_serviceentry` (IstioServiceEntryYamlParser.py 58-102).  A DNS entry
that is known is used again, which is the same as a new one of the same name. -/
def addEntry (ord : SetOrder) (t : Topo) (x : EntryText) : Option Topo :=
  if x.hosts.isEmpty || !(x.hosts.all fun h => legalHost h.toList) then none
  else (ord.list x.hosts.toFinset).foldlM (fun s h => addPeer s (dnsObj h)) t

/-- `add_eps_from_yaml` (47-76) for one resource. -/
def addItem (cidrs : IpBlock → String) (ord : SetOrder) (t : Topo) : Item → Option Topo
  | .ns _ => some t
  | .pod x => addPod true t x
  | .work x => addWork t x
  | .wep x => addWep t x
  | .hep x => addPeer t (hepObj x)
  | .set x => addSet cidrs t x
  | .entry x => addEntry ord t x

/-- The namespaces in a document. -/
def Doc.nss : Doc → List NsText
  | .one (.ns x) => [x]
  | .one _ => []
  | .list l => l.filterMap fun i => match i with | .ns x => some x | _ => none
  | .pods _ => []

/-- `parse_yaml_code_for_ns` (288-295) and `set_namespaces` (302-312). -/
def nsPass (t : Topo) (d : Doc) : Topo := d.nss.foldl addNs t

/-- `add_eps_from_yaml` (47-76). -/
def epPass (cidrs : IpBlock → String) (ord : SetOrder) (t : Topo) : Doc → Option Topo
  | .one i => addItem cidrs ord t i
  | .list l => l.foldlM (addItem cidrs ord) t
  | .pods l => l.foldlM (addPod false) t

/-- Documents and what is read from them: namespaces, endpoints or both (ResourcesHandler.py 397-415). -/
structure Step where
  doc : Doc
  nss : Bool
  eps : Bool

/-- The body of the loop over the documents (ResourcesHandler.py 407-415). -/
def step (cidrs : IpBlock → String) (ord : SetOrder) (t : Topo) (s : Step) : Option Topo :=
  let t := if s.nss then nsPass t s.doc else t
  if s.eps then epPass cidrs ord t s.doc else some t

/-- The reading of all documents.  `reg`: the peers of configurations that were read before. -/
def read (cidrs : IpBlock → String) (ord : SetOrder) (reg : PodReg) (l : List Step) : Option Topo :=
  l.foldlM (step cidrs ord) ⟨[], [], [], reg⟩

/-- `parse_lists_for_topology` (ResourcesHandler.py 276-321) with one list of resources. -/
def together (l : List Doc) : List Step := l.map fun d => ⟨d, true, true⟩

/-- `parse_lists_for_topology` with a list of namespaces and a list of pods: "we always want to parse for namespaces first". -/
def apart (nss eps : List Doc) : List Step := nss.map (fun d => ⟨d, true, false⟩) ++ eps.map fun d => ⟨d, false, true⟩

/-- The container. -/
def Topo.container (t : Topo) : Container := t.peers.map PeerObj.info

/-- What the parser of Istio policies reads besides: `get_all_namespaces_str_list` (PeerContainer.py 338-339) and
`service_account_name` of pods (Peer.py 146); `word` is the class of letters. -/
def Topo.env (word : Char → Bool) (t : Topo) : IstioParser.Env where
  nss := t.nss.map fun x => x.2.name.toList
  sa k := ((t.peers.find? fun p => decide (p.info.elem = .pod k)).map fun p => p.account.toList).getD []
  word := word

end Topology
end Verif
