import Verif.PropsTopology
/-!
C61: what the code reads wrongly of namespaces and endpoints.
-/
namespace Verif

namespace Topology
namespace Bad

/-- A `Pod` without an owner. -/
def pod (name : String) (labels : Labels) : PodText := ⟨name, some "shop", labels, none, some "seller", []⟩

/-- C61, finding: a namespace whose document comes after that of a pod of it, in the same list of resources: the pod
stays in a namespace without the labels. -/
theorem C61_namespace_after_wrong (ord : SetOrder) : ∃ l t, l = together [.one (.pod (pod "a" [])), .one (.ns ⟨"shop", [("team", "x")]⟩)] ∧
    read (fun _ => "") ord [] l = some t ∧ nsLabel l "shop" "team" = some "x" ∧
    ∃ p ∈ t.peers, ∃ n, p.info.ns = some n ∧ n.name = "shop" ∧ n.labels.lookup "team" = none := by
  refine ⟨_, _, rfl, rfl, by decide, ?_⟩
  refine ⟨_, List.mem_singleton.2 rfl, _, rfl, by decide, by decide⟩

/-- C61, finding: items of a `PodList` have no kind, and their service account is lost. -/
theorem C61_pod_list_wrong (ord : SetOrder) : ∃ l t, l = together [.pods [pod "a" []]] ∧ read (fun _ => "") ord [] l = some t ∧
    (∀ m ∈ members 1 l, m.account = some "seller") ∧ ∃ p ∈ t.peers, p.account = "" := by
  refine ⟨_, _, rfl, rfl, ?_, ?_⟩
  · intro m hm
    have : m = ⟨.pod, some "shop", "a", [], [], [], some "seller", ("", ""), []⟩ := by simpa [members, together, Doc.items, Item.members, pod] using hm
    rw [this]
  · exact ⟨_, List.mem_singleton.2 rfl, rfl⟩

/-- C61, finding: two replica sets whose names are hexadecimal and differ in the last character only have the
same workload; the second letter is taken for a hash, and is cut. -/
theorem C61_workload_wrong : workloadName "shop" "cafe-1" "cafe" "ReplicaSet" = "shop/caf(Deployment-StatefulSet)" ∧
    workloadName "shop" "caff-1" "caff" "ReplicaSet" = "shop/caf(Deployment-StatefulSet)" := by decide

/-- A workload of the namespace. -/
def work (kind : String) (replicas : Option Nat) (labels : Labels) (ports : PortTexts) : WorkText := ⟨kind, "web", some "shop", replicas, none, labels, none, ports⟩

/-- C61, finding: a deployment and a stateful set of the same name: both have pods of the same names, and only those of the
first are there. -/
theorem C61_same_name_wrong (ord : SetOrder) : ∃ l t, l = together [.one (.work (work "Deployment" none [("app", "a")] [])), .one (.work (work "StatefulSet" none [("app", "b")] []))] ∧
    read (fun _ => "") ord [] l = some t ∧ (∃ m ∈ members 1 l, m.labels = [("app", "b")]) ∧ ∀ p ∈ t.peers, p.info.labels = [("app", "a")] := by
  refine ⟨_, _, rfl, rfl, ?_, ?_⟩
  · exact ⟨(work "StatefulSet" none [("app", "b")] []).member 0, by simp [members, together, Doc.items, Item.members, work, WorkText.count], rfl⟩
  · intro p hp
    rw [List.mem_singleton.1 hp]
    rfl

/-- C61, finding: a `DaemonSet` has a pod on each of the nodes, but only one is there, so connections between its pods are
not seen. -/
theorem C61_daemonset_wrong (ord : SetOrder) : ∃ l t, l = together [.one (.work (work "DaemonSet" none [] []))] ∧ read (fun _ => "") ord [] l = some t ∧
    (members 3 l).length = 3 ∧ t.peers.length = 1 := ⟨_, _, rfl, rfl, by decide, rfl⟩

/-- C61, finding: the `parallelism` of a `CronJob` is not read. -/
theorem C61_cronjob_wrong (ord : SetOrder) : ∃ l t, l = together [.one (.work ⟨"CronJob", "job", some "shop", none, some 2, [], none, []⟩)] ∧
    read (fun _ => "") ord [] l = some t ∧ (members 1 l).length = 2 ∧ t.peers.length = 1 := ⟨_, _, rfl, rfl, by decide, rfl⟩

/-- C61, finding: host endpoints (or pods) that differ in their ports only count as the same; of three, one is dropped, and
its ports with it. -/
theorem C61_ports_lost_wrong (ord : SetOrder) : ∃ l t, l = together [
      .one (.hep ⟨"a", [], [], []⟩), .one (.hep ⟨"b", [], [], []⟩), .one (.hep ⟨"c", [], [(some "http", 80, none)], []⟩)] ∧
    read (fun _ => "") ord [] l = some t ∧ (∃ m ∈ members 1 l, podPorts m.ports = [("http", 80, "TCP")]) ∧ ∀ p ∈ t.peers, p.ports = [] := by
  refine ⟨_, ⟨[], [epForm [] [], epForm [] []], [hepObj ⟨"a", [], [], []⟩, hepObj ⟨"b", [], [], []⟩], [("a", []), ("b", [])]⟩, rfl, ?_, ?_, ?_⟩
  · simp [read, together, step, epPass, addItem, addPeer, hepObj, nsPass, Doc.nss, PodReg.add, maxPods, podPorts]
  · exact ⟨⟨.hep, none, "c", [], [], [(some "http", 80, none)], none, ("", ""), []⟩, by simp [members, together, Doc.items, Item.members], rfl⟩
  · intro p hp
    simp only [List.mem_cons, List.not_mem_nil, or_false] at hp
    rcases hp with rfl | rfl <;> rfl

/-- A network. -/
def net : IpBlock.Cidr := ⟨⟨false, 0x0a000000, by decide⟩, 8, by decide⟩

/-- C61, finding: of two network sets with the same addresses, the labels of the second are lost. -/
theorem C61_same_nets_wrong (ord : SetOrder) : ∃ l t, l = together [.one (.set ⟨"a", true, none, [("x", "1")], [net]⟩), .one (.set ⟨"b", true, none, [("y", "2")], [net]⟩)] ∧
    read (fun _ => "") ord [] l = some t ∧ (∃ m ∈ members 1 l, m.labels = [("y", "2")]) ∧ ∀ p ∈ t.peers, p.info.labels = [("x", "1")] := by
  refine ⟨_, ⟨[], ["b", "a"], [setObj (fun _ => "") ⟨"a", true, none, [("x", "1")], [net]⟩ none (blockOf [net])], []⟩, rfl, ?_, ?_, ?_⟩
  · simp [read, together, step, epPass, addItem, addSet, (setBlock_sem [net]).1, addPeer, setObj, nsPass, Doc.nss]
  · exact ⟨⟨.netset, none, "b", [("y", "2")], [], [], none, ("", ""), [net]⟩, by simp [members, together, Doc.items, Item.members], rfl⟩
  · intro p hp
    rw [List.mem_singleton.1 hp]
    rfl

/-- C61, finding: the same pod in two documents uses up the two places for its workload, and another pod of the workload is
dropped: connections between pods of the workload are not seen. -/
theorem C61_twice_wrong (ord : SetOrder) : ∃ l t, l = together [.one (.pod ⟨"a", some "shop", [], some ("web", "Job"), none, []⟩),
      .one (.pod ⟨"a", some "shop", [], some ("web", "Job"), none, []⟩), .one (.pod ⟨"b", some "shop", [], some ("web", "Job"), none, []⟩)] ∧
    read (fun _ => "") ord [] l = some t ∧ (∃ m ∈ members 1 l, m.key = "shop/b") ∧ t.peers.length = 1 := by
  have hf : ∀ n : Ns, n.name = "shop" → ∀ x y, (podObj n x "web" "Job" "default" [] [] []).form = (podObj n y "web" "Job" "default" [] [] []).form := by
    intro n hn x y
    simp [podObj, workloadName]
  obtain ⟨f, hfd⟩ : ∃ f, f = (podObj (newNs "shop" []) "a" "web" "Job" "default" [] [] []).form := ⟨_, rfl⟩
  refine ⟨_, ⟨[("shop", newNs "shop" [])], [f, f], [podObj (newNs "shop" []) "a" "web" "Job" "default" [] [] []], [("shop/a", [])]⟩, rfl, ?_, ?_, rfl⟩
  · have hb : (podObj (newNs "shop" []) "b" "web" "Job" "default" [] [] []).form = f := by rw [hfd]; exact hf _ rfl _ _
    have ha : (podObj (newNs "shop" []) "a" "web" "Job" "default" [] [] []).form = f := hfd.symm
    have ea : ∀ x, (podObj (newNs "shop" []) x "web" "Job" "default" [] [] []).info.elem = .pod ("shop" ++ "/" ++ x) := fun _ => rfl
    have ep : ∀ x, (podObj (newNs "shop" []) x "web" "Job" "default" [] [] []).ports = [] := fun _ => rfl
    simp [read, together, step, epPass, addItem, addPod, addPeer, Topo.touch, Topo.ns, nsPass, Doc.nss, PodReg.add, maxPods, ha, hb, ea, ep, List.lookup]
  · exact ⟨⟨.pod, some "shop", "b", [], [], [], some "default", ("web", "Job"), []⟩, by simp [members, together, Doc.items, Item.members], rfl⟩

end Bad
end Topology
end Verif
