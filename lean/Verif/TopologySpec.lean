import Verif.TopologyModel
import Verif.PropsNamedPorts
import Verif.PropsIp
/-!
Specification of the reading of namespaces and endpoints: which endpoints a cluster has, and which namespaces, labels,
ports, service accounts and profiles they have, by the documentation of Kubernetes, Calico and Istio.
-/
namespace Verif

namespace Topology

/-! ### The endpoints of a cluster -/

/-- An endpoint of the cluster: a pod, a host endpoint, a network set or an external host. -/
structure Member where
  kind : PeerKind
  ns : Option String
  name : String
  labels : Labels
  profiles : List String
  ports : PortTexts
  /-- the service account, where it is given -/
  account : Option String
  /-- name and kind of the owner, empty if there is none -/
  owner : String × String
  nets : List IpBlock.Cidr

/-- The full name. -/
def Member.key (m : Member) : String :=
  match m.ns with
  | some n => n ++ "/" ++ m.name
  | none => m.name

/-- The resources in a document. -/
def Doc.items : Doc → List Item
  | .one i => [i]
  | .list l => l
  | .pods l => l.map .pod

/-- The number of pods of a workload, in a cluster with some number of nodes. -/
def WorkText.count (nodes : Nat) (x : WorkText) : Nat :=
  if x.kind = "DaemonSet" then nodes
  else if x.kind = "Job" ∨ x.kind = "CronJob" then x.parallelism.getD 1
  else x.replicas.getD 1

/-- One of the pods of a workload. -/
def WorkText.member (x : WorkText) (i : Nat) : Member :=
  ⟨.pod, some (x.ns.getD "default"), x.name ++ "-" ++ toString (i + 1), x.labels, [], x.ports, some (x.account.getD "default"), (x.name, x.kind), []⟩

/-- The endpoints of a resource. -/
def Item.members (nodes : Nat) : Item → List Member
  | .ns _ => []
  | .pod x => [⟨.pod, some (x.ns.getD "default"), x.name, x.labels, [], x.ports, some (x.account.getD "default"), x.owner.getD ("", ""), []⟩]
  | .work x => (List.range (x.count nodes)).map x.member
  | .wep x => [⟨.pod, some (x.ns.getD "default"), x.pod, x.labels, x.profiles, x.ports, none, ("", ""), []⟩]
  | .hep x => [⟨.hep, none, x.name, x.labels, x.profiles, x.ports, none, ("", ""), []⟩]
  | .set x => [⟨.netset, if x.isGlobal then none else some (x.ns.getD "default"), x.name, x.labels, [], [], none, ("", ""), x.nets⟩]
  | .entry x => x.hosts.map fun h => ⟨.dns, none, h, [], [], [], none, ("", ""), []⟩

/-- The endpoints of the documents that are read for endpoints. -/
def members (nodes : Nat) (l : List Step) : List Member :=
  (l.filter (·.eps)).flatMap fun s => s.doc.items.flatMap (Item.members nodes)

/-- The namespaces of a resource. -/
def Item.ns? : Item → Option NsText
  | .ns x => some x
  | _ => none

/-- The namespaces of the documents that are read for namespaces. -/
def nsTexts (l : List Step) : List NsText := (l.filter (·.nss)).flatMap fun s => s.doc.items.filterMap Item.ns?

/-- The label of a namespace: the one it has in its document; every namespace has a label with its name. -/
def nsLabel (l : List Step) (ns key : String) : Option String :=
  (((nsTexts l).find? fun x => decide (x.name = ns)).bind fun x => x.labels.lookup key).or
    (if key = "kubernetes.io/metadata.name" then some ns else none)

/-! ### What the program has to know of an endpoint -/

/-- The object describes the endpoint. -/
structure Describes (l : List Step) (m : Member) (o : PeerObj) : Prop where
  kind : o.info.kind = m.kind
  name : m.kind ≠ .netset → o.info.elem = .pod m.key
  nets : m.kind = .netset → ∃ b, o.info.elem = .ip b ∧ IpBlock.Built b ∧ ∀ x, b.Has x ↔ ∃ c ∈ m.nets, c.Has x
  ns : o.info.ns.map Ns.name = m.ns
  nsLabels : ∀ n, o.info.ns = some n → ∀ k, n.labels.lookup k = nsLabel l n.name k
  labels : o.info.labels = m.labels
  extra : o.info.extra = []
  isGlobal : o.info.isGlobal = true ↔ m.ns = none ∧ m.kind ≠ .dns
  ports : o.ports = podPorts m.ports
  account : ∀ a, m.account = some a → o.account = a
  profiles : o.profiles = m.profiles

/-- Endpoints that no policy tells apart: of the same kind, namespace, labels and profiles (the first of which counts more
than the others), and in the same workload. -/
structure Alike (m m' : Member) : Prop where
  kind : m.kind = m'.kind
  ns : m.ns = m'.ns
  labels : ∀ k, m.labels.lookup k = m'.labels.lookup k
  profile : m.profiles.head? = m'.profiles.head?
  profiles : m.profiles.Perm m'.profiles
  workload : ∀ n, m.kind = .pod → m.ns = some n → workloadName n m.name m.owner.1 m.owner.2 = workloadName n m'.name m'.owner.1 m'.owner.2
  /-- external hosts and network sets stand for themselves -/
  same : m.kind = .dns ∨ m.kind = .netset → m = m'

/-! ### Legal documents, and what the code reads wrongly -/

/-- Texts as Kubernetes, Calico and Istio allow them, as far as it matters. -/
structure Member.Plain (m : Member) : Prop where
  name : m.name ≠ "" ∧ ∀ a ∈ m.name.toList, a ∉ [',', '(', '/']
  ns : ∀ n, m.ns = some n → n ≠ "" ∧ ∀ a ∈ n.toList, a ∉ [',', '(', '/', '_']
  simple : m.kind ≠ .dns → '_' ∉ m.name.toList
  owner : ∀ a ∈ m.owner.1.toList ++ m.owner.2.toList, a ≠ '_'
  keys : (m.labels.map (·.1)).Nodup
  labels : ∀ l ∈ m.labels, ∀ a ∈ l.1.toList ++ l.2.toList, a ∉ [',', '(', ')']
  profiles : ∀ p ∈ m.profiles, ∀ a ∈ p.toList, a ∉ [',', '(']
  nets : m.kind = .netset → m.nets ≠ []

/-- Workloads with a name, for which the number of pods is read right: not a DaemonSet in a cluster of several nodes
(`C61_daemonset_wrong`), not a CronJob with parallel pods (`C61_cronjob_wrong`). -/
def WorkText.Tame (nodes : Nat) (x : WorkText) : Prop :=
  x.name ≠ "" ∧ (x.kind = "DaemonSet" → nodes = 1 ∧ x.replicas = none) ∧ (x.kind = "CronJob" → x.parallelism.getD 1 = 1 ∧ x.replicas = none)

/-- Documents that the code reads right. -/
structure TameDocs (nodes : Nat) (l : List Step) : Prop where
  plain : ∀ m ∈ members nodes l, m.Plain
  /-- names differ, but for hosts, which may be given several times (`C61_same_name_wrong`) -/
  names : (members nodes l).Pairwise fun m m' => m.kind ≠ .netset → m'.kind ≠ .netset → m.key = m'.key → m.kind = .dns ∧ m'.kind = .dns
  /-- network sets do not overlap -/
  sets : (members nodes l).Pairwise fun m m' => m.kind = .netset → m'.kind = .netset → ∀ c ∈ m.nets, ∀ c' ∈ m'.nets, ∀ x, ¬ (c.Has x ∧ c'.Has x)
  /-- names of global network sets differ, also from hosts -/
  global : (members nodes l).Pairwise fun m m' => m.kind = .netset ∨ m'.kind = .netset → m.kind ≠ .hep → m'.kind ≠ .hep → m.ns = none → m'.ns = none → m.name ≠ m'.name
  workloads : ∀ s ∈ l, s.eps = true → ∀ x, Item.work x ∈ s.doc.items → x.Tame nodes
  /-- items of a `PodList` have no kind, and then their service account is lost (`C61_pod_list_wrong`) -/
  typed : ∀ s ∈ l, s.eps = true → ∀ p, s.doc ≠ .pods p
  /-- namespaces have different names -/
  spaces : ((nsTexts l).map NsText.name).Nodup
  named : ∀ x ∈ nsTexts l, x.name ≠ ""
  /-- a namespace is not read after a document with endpoints in it (`C61_namespace_after_wrong`) -/
  first : ∀ a s b, l = a ++ s :: b → s.nss = true → ∀ x, Item.ns x ∈ s.doc.items → ∀ m ∈ members nodes a, m.ns ≠ some x.name

/-- Documents that the code reads right, with a way to print blocks of addresses; the one of the code will do (`C64_tame`). -/
structure Tame (nodes : Nat) (cidrs : IpBlock → String) (l : List Step) : Prop extends TameDocs nodes l where
  /-- the text of different blocks -/
  texts : ∀ b b', IpBlock.Built b → IpBlock.Built b' → b ≠ [] → cidrs b = cidrs b' → b = b'
  chars : ∀ b, IpBlock.Built b → b ≠ [] → '(' ∉ (cidrs b).toList ∧ '/' ∈ (cidrs b).toList

/-- The namespace of a resource. -/
def Item.space? : Item → Option String
  | .ns x => some x.name
  | .pod x => some (x.ns.getD "default")
  | .work x => some (x.ns.getD "default")
  | .wep x => some (x.ns.getD "default")
  | .hep _ => none
  | .set x => if x.isGlobal then none else some (x.ns.getD "default")
  | .entry _ => none

/-- Service entries have hosts, and these are legal. -/
def EntriesLegal (l : List Step) : Prop :=
  ∀ s ∈ l, s.eps = true → ∀ x, Item.entry x ∈ s.doc.items → x.hosts ≠ [] ∧ ∀ h ∈ x.hosts, legalHost h.toList = true

/-- Pods of a workload with the same labels and profiles are alike in all (`C61_ports_lost_wrong`). -/
def Uniform (nodes : Nat) (l : List Step) : Prop :=
  ∀ m ∈ members nodes l, ∀ m' ∈ members nodes l, Alike m m' → podPorts m.ports = podPorts m'.ports ∧ m.account = m'.account

end Topology
end Verif
