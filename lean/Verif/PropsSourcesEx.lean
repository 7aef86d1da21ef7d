import Verif.PropsSourcesFind
import Verif.PropsTopologyEx
/-!
C67: findings, and configurations that meet the assumptions.
-/
namespace Verif

namespace Sources
open Topology
namespace Ex

/-- A pod. -/
def pod (name ns : String) (labels : Labels) : Piece String String := .topo (.one (.pod ⟨name, some ns, labels, none, none, []⟩))
/-- A namespace. -/
def space (name : String) (labels : Labels) : Piece String String := .topo (.one (.ns ⟨name, labels⟩))

/-- Files of a user, and files that may be added. -/
def files (path : String) : List (Piece String String) :=
  if path = "all" then [space "shop" [("team", "x")], pod "a" "shop" [("app", "a")], .svc "shop" "front"]
  else if path = "ns" then [space "shop" [("team", "y")]]
  else if path = "pods" then [pod "b" "shop" [("app", "b")]]
  else if path = "hosts" then [.topo (.one (.hep ⟨"h", [("role", "w")], [], []⟩))]
  else if path = "dnspol" then [.pol "dns"]
  else if path = "twopol" then [.pol "two"]
  else if path = "gwpol" then [.pol "gateway"]
  else if path = "ingress" then [.pol "ingress"]
  else if path = "live/dns" then [space "kube-system" [], pod "coredns" "kube-system" [("k8s-app", "kube-dns")]]
  else if path = "live/gw" then [space "istio-system" [], pod "gw" "istio-system" [("istio", "ingressgateway")]]
  else if path = "live/nginx" then [space "ingress-nginx" [], pod "nginx" "ingress-nginx" [("app", "nginx")], .svc "ingress-nginx" "ingress-nginx"]
  else []

/-- The files, and what the policies need. -/
def world (ord : SetOrder) : World String String where
  files := files
  cidrs := IpBlock.cidrText
  ord := ord
  need p := if p = "dns" then .k8s [(false, [("k8s-app", "kube-dns")])] else if p = "two" then .k8s [(false, [("app", "foo"), ("k8s-app", "kube-dns")])]
    else if p = "gateway" then .gateway [("istio", "ingressgateway")] else if p = "ingress" then .ingress else .other
  nginx c := c.svcs.any fun s => decide (s.2 = "ingress-nginx")
  dns := ["live/dns"]
  gateways := ["live/gw"]
  controller := "live/nginx"
  some_order l := l

theorem fair (ord : SetOrder) : (world ord).Fair := fun _ _ => Iff.rfl

/-- The namespace of the global configuration. -/
def shop : Ns := newNs "shop" [("team", "x")]
/-- The pod of the global configuration. -/
def a : PeerObj := podObj shop "a" "" "" "default" [("app", "a")] [] []
/-- The global configuration. -/
def glob : Global String := ⟨⟨[("shop", shop)], [a], [(shop, "front")]⟩, [("shop", shop)], [a]⟩

theorem global_ok (ord : SetOrder) : setGlobal (world ord) [] none none (some ["all"]) = some (some glob, [("shop/a", [])]) := rfl

end Ex
open Ex

/-- C67, finding: a configuration names its own namespaces, and has the pods of the global configuration.  The pods stay in the
global namespaces: the labels the user gave do not count. -/
theorem C67_own_namespaces_wrong (ord : SetOrder) : ∃ G reg r, setGlobal (world ord) [] none none (some ["all"]) = some (some G, reg) ∧
    getConfig (world ord) (some G) reg ⟨none, some ["ns"], none, none⟩ false = some r ∧
    (∃ n ∈ r.1.cont.nss, n.1 = "shop" ∧ n.2.labels.lookup "team" = some "y") ∧
    ∃ p ∈ r.1.cont.infos, ∃ n, p.ns = some n ∧ n.name = "shop" ∧ n.labels.lookup "team" = some "x" :=
  ⟨_, _, _, global_ok ord, rfl, ⟨_, List.mem_singleton.2 rfl, rfl, by decide⟩, _, List.mem_singleton.2 rfl, _, rfl, rfl, by decide⟩

/-- C67, finding: in the same situation the services of the global configuration are lost. -/
theorem C67_services_lost_wrong (ord : SetOrder) : ∃ G reg r, setGlobal (world ord) [] none none (some ["all"]) = some (some G, reg) ∧
    getConfig (world ord) (some G) reg ⟨none, some ["ns"], none, none⟩ false = some r ∧
    r.1.cont.peers = G.cont.peers ∧ G.cont.svcs.map (fun s => s.2) = ["front"] ∧ r.1.cont.svcs = [] :=
  ⟨_, _, _, global_ok ord, rfl, rfl, rfl, rfl⟩

/-- C67, finding: a configuration whose resources are host endpoints, without namespaces, gets the global endpoints
instead of its own. -/
theorem C67_host_endpoints_wrong (ord : SetOrder) : ∃ G reg r t, setGlobal (world ord) [] none none (some ["all"]) = some (some G, reg) ∧
    getConfig (world ord) (some G) reg ⟨none, none, none, some ["hosts"]⟩ false = some r ∧
    Topology.read IpBlock.cidrText ord reg (Lists.steps (world ord) ⟨none, none, none, some ["hosts"]⟩) = some t ∧
    t.peers.map (fun p => p.info.elem) = [.pod "h"] ∧ r.1.cont.peers.map (fun p => p.info.elem) = [.pod "shop/a"] :=
  ⟨_, _, _, _, global_ok ord, rfl, rfl, rfl, rfl⟩

/-- C67, finding: a configuration names its own pods, and no namespaces.  The manual says that these are then the global ones, but
their labels are lost. -/
theorem C67_pod_list_wrong (ord : SetOrder) : ∃ G reg r, setGlobal (world ord) [] none none (some ["all"]) = some (some G, reg) ∧
    getConfig (world ord) (some G) reg ⟨none, none, some ["pods"], none⟩ false = some r ∧
    (∃ n ∈ G.nss, n.1 = "shop" ∧ n.2.labels.lookup "team" = some "x") ∧
    (∃ n ∈ r.1.cont.nss, n.1 = "shop" ∧ n.2.labels.lookup "team" = none) ∧
    ∃ p ∈ r.1.cont.infos, ∃ n, p.ns = some n ∧ n.name = "shop" ∧ n.labels.lookup "team" = none :=
  ⟨_, _, _, global_ok ord, rfl, ⟨_, List.mem_singleton.2 rfl, rfl, by decide⟩, ⟨_, List.mem_singleton.2 rfl, rfl, by decide⟩,
    _, List.mem_singleton.2 rfl, _, rfl, rfl, by decide⟩

/-- C67, finding: with a global topology and a list of policies only, pods for DNS are found to be missing and the file with them
is chosen (and announced), but they are not added. -/
theorem C67_livesim_global_wrong (ord : SetOrder) : ∃ G reg q r, setGlobal (world ord) [] none none (some ["all"]) = some (some G, reg) ∧
    parseElements (world ord) (some G) reg ⟨some ["dnspol"], none, none, none⟩ false = some q ∧ addons (world ord) q.1.cont q.1.pols = ["live/dns"] ∧
    getConfig (world ord) (some G) reg ⟨some ["dnspol"], none, none, none⟩ false = some r ∧ r.1.cont.peers = G.cont.peers ∧
    ∀ p ∈ r.1.cont.infos, p.labels.lookup "k8s-app" = none := by
  refine ⟨_, _, _, _, global_ok ord, rfl, rfl, rfl, rfl, ?_⟩
  intro p hp
  rw [List.mem_singleton.1 hp]
  decide

/-- A pod for DNS. -/
def Ex.coredns : PeerObj := podObj (newNs "kube-system" []) "coredns" "" "" "default" [("k8s-app", "kube-dns")] [] []

/-- A cluster with pods for DNS. -/
def Ex.withDns : Cont String := ⟨[("kube-system", newNs "kube-system" []), ("shop", shop)], [a, coredns], [(shop, "front")]⟩

/-- All endpoints are pods. -/
theorem Ex.dns_pods : AllPods withDns.infos ∧ withDns.infos.Uniq := by
  constructor
  · intro p hp
    simp only [Cont.infos, withDns, List.map_cons, List.map_nil, List.mem_cons, List.not_mem_nil, or_false] at hp
    rcases hp with rfl | rfl <;> exact ⟨_, rfl⟩
  · intro p hp q hq h
    simp only [Cont.infos, withDns, List.map_cons, List.map_nil, List.mem_cons, List.not_mem_nil, or_false] at hp hq
    rcases hp with rfl | rfl <;> rcases hq with rfl | rfl
    · rfl
    · exact absurd h (by decide)
    · exact absurd h (by decide)
    · rfl

/-- C67, finding: pods for DNS are added although there are some: the selector of a policy asks for another label first, which nobody
has. -/
theorem C67_livesim_extra_wrong (ord : SetOrder) : ∃ q, parseElements (world ord) none [] ⟨some ["twopol"], none, none, some ["all", "live/dns"]⟩ false = some q ∧
    (∃ p ∈ q.1.cont.infos, p.labels.lookup "k8s-app" = some "kube-dns") ∧ "live/dns" ∈ addons (world ord) q.1.cont q.1.pols := by
  refine ⟨(⟨withDns, ["two"], some "twopol"⟩, none, [("shop/a", []), ("kube-system/coredns", [])]), rfl, ?_, ?_⟩
  · exact ⟨coredns.info, by simp [Cont.infos, withDns], by decide⟩
  · have key : ("k8s-app", "kube-dns") ∈ missingK8s withDns.infos (false, [("app", "foo"), ("k8s-app", "kube-dns")]) := by
      refine (C67_missing_k8s_partial dns_pods.1 dns_pods.2 _ _ _).2 ⟨[("app", "foo")], [], rfl, ?_⟩
      intro p hp _ h
      have := h ("app", "foo") (by simp)
      simp only [Cont.infos, withDns, List.map_cons, List.map_nil, List.mem_cons, List.not_mem_nil, or_false] at hp
      rcases hp with rfl | rfl <;> simp [Asks, a, coredns, podObj] at this
    refine List.mem_append_left _ (List.mem_append_left _ ((relevant_iff (fair ord) _ _ _).2 ⟨List.mem_singleton.2 rfl, ("k8s-app", "kube-dns"), ?_, List.mem_cons_of_mem _ (List.mem_singleton.2 rfl)⟩))
    unfold missingDns
    refine List.mem_flatMap.2 ⟨"two", List.mem_singleton.2 rfl, ?_⟩
    exact List.mem_flatMap.2 ⟨_, List.mem_singleton.2 rfl, key⟩

namespace Ex
variable (ord : SetOrder)

/-- What is registered after the global configuration. -/
abbrev reg0 : PodReg := [("shop/a", [])]

/-! ### Which lists count -/

/-- The same files, where the one for namespaces has a pod too, and the one for pods a namespace and a policy. -/
def files' (path : String) : List (Piece String String) :=
  if path = "ns" then [space "shop" [("team", "y")], pod "extra" "shop" []]
  else if path = "pods" then [space "other" [], .pol "gateway", pod "b" "shop" [("app", "b")]]
  else files path

theorem agree : Agree (world ord) files' ⟨none, some ["ns"], some ["pods"], none⟩ where
  nss := by intro p hp; rw [List.mem_singleton.1 hp]; rfl
  pods := by intro p hp; rw [List.mem_singleton.1 hp]; rfl
  pols := by intro p hp; cases hp
  both := by intro h; exact absurd h (by decide)
  live := by rintro p (h | h | rfl) <;> first | rfl | (rw [List.mem_singleton.1 h]; rfl)

example : getConfig { world ord with files := files' } (some glob) reg0 ⟨none, some ["ns"], some ["pods"], none⟩ false =
    getConfig (world ord) (some glob) reg0 ⟨none, some ["ns"], some ["pods"], none⟩ false := C67_override (fair ord) (agree ord) _ _ _

/-- It has a pod in a namespace with the label. -/
example : ∃ r, getConfig (world ord) (some glob) reg0 ⟨none, some ["ns"], some ["pods"], none⟩ false = some r ∧
    ∃ p ∈ r.1.cont.infos, p.elem = .pod "shop/b" ∧ ∃ n, p.ns = some n ∧ n.labels.lookup "team" = some "y" :=
  ⟨_, rfl, _, List.mem_singleton.2 rfl, rfl, _, rfl, by decide⟩

/-! ### Own or global topology -/

/-- The pod of the list of pods, in a namespace without labels. -/
def b : PeerObj := podObj (newNs "shop" []) "b" "" "" "default" [("app", "b")] [] []

/-- The namespace of the list of namespaces. -/
def shopY : Ns := newNs "shop" [("team", "y")]

/-- Own pods. -/
theorem set_pods : setContainer (world ord) (some glob) reg0 none (some ["pods"]) none false =
    some (⟨[("shop", newNs "shop" [])], [b], []⟩, some glob, [("shop/a", []), ("shop/b", [])]) := rfl

theorem read_pods : Topology.read (world ord).cidrs (world ord).ord reg0 (Lists.steps (world ord) ⟨none, none, some ["pods"], none⟩) =
    some ⟨[("shop", newNs "shop" [])], [b.form], [b], [("shop/a", []), ("shop/b", [])]⟩ := rfl

example : ([b] : List PeerObj) = [b] ∧ ([] : List (Ns × String)).map (fun s => s.2) = (servicesIn (world ord) ["pods"]).map fun s => s.2 :=
  C67_own_pods_partial (set_pods ord) (read_pods ord) (by simp) (.inr (by simp))

/-- Own namespaces. -/
theorem set_ns : setContainer (world ord) (some glob) reg0 (some ["ns"]) none none false = some (⟨[("shop", shopY)], [a], []⟩, some glob, reg0) := rfl

theorem read_ns : Topology.read (world ord).cidrs (world ord).ord reg0 (Lists.steps (world ord) ⟨none, some ["ns"], none, none⟩) =
    some ⟨[("shop", shopY)], [], [], reg0⟩ := rfl

example : ([a] : List PeerObj) = glob.peers ∧ [("shop", shopY)] = [("shop", shopY)] :=
  ⟨C67_global_pods (set_ns ord) (read_ns ord) rfl rfl rfl rfl, C67_own_namespaces (set_ns ord) (read_ns ord) (by simp)⟩

/-- A list of pods without any. -/
theorem set_none : setContainer (world ord) (some glob) reg0 none (some ["ns"]) none false = some (⟨[("shop", shop)], [], []⟩, some glob, reg0) := rfl

theorem read_none : Topology.read (world ord).cidrs (world ord).ord reg0 (Lists.steps (world ord) ⟨none, none, some ["ns"], none⟩) = some ⟨[], [], [], reg0⟩ := rfl

example : (⟨[("shop", shop)], [], []⟩ : Cont String).peers = [] := C67_no_pods (set_none ord) (read_none ord) (by simp) rfl

/-- All is global. -/
theorem set_glob : setContainer (world ord) (some glob) reg0 none none (some ["dnspol"]) false = some (glob.cont, some glob, reg0) := rfl

theorem read_glob : Topology.read (world ord).cidrs (world ord).ord reg0 (Lists.steps (world ord) ⟨none, none, none, some ["dnspol"]⟩) = some ⟨[], [], [], reg0⟩ := rfl

example : glob.cont.nss = glob.nss ∧ glob.cont.peers = glob.peers :=
  ⟨C67_global_namespaces (set_glob ord) (read_glob ord) rfl rfl rfl rfl, C67_global_pods (set_glob ord) (read_glob ord) rfl rfl rfl rfl⟩

/-- Without a global configuration; and what is kept. -/
theorem set_all : setContainer (world ord) none [] none none (some ["all"]) true = some (glob.cont, some glob, reg0) := rfl

theorem read_all : Topology.read (world ord).cidrs (world ord).ord [] (Lists.steps (world ord) ⟨none, none, none, some ["all"]⟩) =
    some ⟨[("shop", shop)], [a.form], [a], reg0⟩ := rfl

example : glob.cont.peers = [a] ∧ glob.cont.nss = [("shop", shop)] ∧ ∃ G, some glob = some G ∧ G.cont = glob.cont := by
  obtain ⟨h1, h2, _⟩ := C67_alone (set_all ord) (read_all ord) rfl
  obtain ⟨G, h4, h5, _⟩ := C67_kept (set_all ord) (read_all ord) rfl rfl
  exact ⟨h1, h2, G, h4, h5⟩

/-! ### Schemes -/

/-- Two configurations; the second is the same as alone. -/
example : ∃ rs out r, getConfigs (world ord) (some glob) reg0 [⟨none, none, some ["pods"], none⟩, ⟨none, some ["ns"], none, none⟩] = some (rs, out) ∧
    getConfig (world ord) (some glob) [] ⟨none, some ["ns"], none, none⟩ false = some r ∧ rs[1]? = some r.1 :=
  ⟨_, _, _, rfl, rfl, (C67_independent (W := world ord) (g := some glob) (reg := reg0) (reg' := [])
      (Ls := [⟨none, none, some ["pods"], none⟩, ⟨none, some ["ns"], none, none⟩]) rfl).2 1 ⟨none, some ["ns"], none, none⟩ rfl _ rfl⟩

/-! ### Missing resources -/

/-- The global cluster has pods only. -/
theorem glob_pods : AllPods glob.cont.infos ∧ glob.cont.infos.Uniq := by
  constructor
  · intro p hp
    rw [List.mem_singleton.1 hp]; exact ⟨_, rfl⟩
  · intro p hp q hq _
    rw [List.mem_singleton.1 hp, List.mem_singleton.1 hq]

/-- Its pod has no such label. -/
theorem glob_not (kv : String × String) (h : kv.1 ≠ "app") : ∀ p ∈ glob.cont.infos, ¬ Asks false kv p := by
  intro p hp
  rw [List.mem_singleton.1 hp]
  simp [Asks, a, podObj, beq_eq_false_iff_ne.2 h]

example : ("k8s-app", "kube-dns") ∈ missingK8s withDns.infos (false, [("app", "foo"), ("k8s-app", "kube-dns")]) ∧
    ("k8s-app", "kube-dns") ∉ missingK8s withDns.infos (false, [("k8s-app", "kube-dns"), ("app", "foo")]) := by
  constructor
  · refine (C67_missing_k8s_partial dns_pods.1 dns_pods.2 _ _ _).2 ⟨[("app", "foo")], [], rfl, ?_⟩
    intro p hp _ h
    have := h ("app", "foo") (by simp)
    simp only [Cont.infos, withDns, List.map_cons, List.map_nil, List.mem_cons, List.not_mem_nil, or_false] at hp
    rcases hp with rfl | rfl <;> simp [Asks, a, coredns, podObj] at this
  · intro h
    obtain ⟨x, y, e, hn⟩ := (C67_missing_k8s_partial dns_pods.1 dns_pods.2 _ _ _).1 h
    rcases x with _ | ⟨z, x⟩
    · refine hn coredns.info (by simp [Cont.infos, withDns]) (by decide) ?_
      simp [Asks, coredns, podObj]
    · simp only [List.cons_append, List.cons.injEq] at e
      rcases x with _ | ⟨z', x⟩
      · simp at e
      · simp at e

example : ("istio", "ingressgateway") ∈ missingGateway glob.cont.infos [("istio", "ingressgateway"), ("app", "a")] ∧
    ("app", "a") ∉ missingGateway glob.cont.infos [("istio", "ingressgateway"), ("app", "a")] := by
  rw [C67_missing_gateway, C67_missing_gateway]
  refine ⟨⟨by simp, glob_not _ (by decide)⟩, fun h => h.2 a.info (List.mem_singleton.2 rfl) ?_⟩
  simp [Asks, a, podObj]

/-- The three kinds of additions. -/
example : "live/dns" ∈ addons (world ord) glob.cont ["dns"] ∧ "live/gw" ∈ addons (world ord) glob.cont ["gateway"] ∧ "live/nginx" ∈ addons (world ord) glob.cont ["ingress"] :=
  ⟨(C67_added_partial (fair ord) glob_pods.1 glob_pods.2 (q := "dns") (by simp)).1 _ _ ("k8s-app", "kube-dns") rfl (List.mem_singleton.2 rfl) (List.mem_singleton.2 rfl)
      (fun p hp _ => glob_not _ (by decide) p hp) _ (List.mem_singleton.2 rfl) (List.mem_cons_of_mem _ (List.mem_singleton.2 rfl)),
    (C67_added_partial (fair ord) glob_pods.1 glob_pods.2 (q := "gateway") (by simp)).2.1 _ ("istio", "ingressgateway") rfl (List.mem_singleton.2 rfl)
      (glob_not _ (by decide)) _ (List.mem_singleton.2 rfl) (List.mem_cons_of_mem _ (List.mem_singleton.2 rfl)),
    (C67_added_partial (fair ord) glob_pods.1 glob_pods.2 (q := "ingress") (by simp)).2.2 rfl rfl⟩

/-- Nothing is added for policies without needs. -/
example (p : String) : p ∉ addons (world ord) glob.cont ["other"] := by
  intro h
  rcases C67_needed_partial (fair ord) glob_pods.1 glob_pods.2 h with ⟨_, kv, _, q, hq, h⟩ | ⟨_, kv, _, q, hq, h⟩ | ⟨_, ⟨q, hq, h⟩, _⟩ <;>
    rw [List.mem_singleton.1 hq] at h
  · rcases h with ⟨_, sels, s, e, _⟩ | ⟨_, sel, e, _⟩ <;> cases e
  · rcases h with ⟨_, sels, s, e, _⟩ | ⟨_, sel, e, _⟩ <;> cases e
  · cases h

/-- The lists of a configuration with a Gateway. -/
def gwLists : Lists := ⟨some ["gwpol"], none, none, some ["all"]⟩

/-- What is read first. -/
theorem gw_first : parseElements (world ord) none [] gwLists false = some (⟨glob.cont, ["gateway"], some "gwpol"⟩, none, reg0) := rfl

theorem gw_addons : addons (world ord) glob.cont ["gateway"] = ["live/gw"] := rfl

/-- The documents that are read then. -/
theorem gw_steps : Lists.steps (world ord) (gwLists.extend ["live/gw"]) = together [.one (.ns ⟨"shop", [("team", "x")]⟩),
    .one (.pod ⟨"a", some "shop", [("app", "a")], none, none, []⟩), .one (.work ⟨"Service", "service", some "shop", some 0, none, [], none, []⟩),
    .one (.ns ⟨"istio-system", []⟩), .one (.pod ⟨"gw", some "istio-system", [("istio", "ingressgateway")], none, none, []⟩)] := rfl

/-- The two pods. -/
theorem gw_members : members 1 (Lists.steps (world ord) (gwLists.extend ["live/gw"])) =
    [⟨.pod, some "shop", "a", [("app", "a")], [], [], some "default", ("", ""), []⟩,
      ⟨.pod, some "istio-system", "gw", [("istio", "ingressgateway")], [], [], some "default", ("", ""), []⟩] := rfl

theorem gw_tame : Topology.Tame 1 IpBlock.cidrText (Lists.steps (world ord) (gwLists.extend ["live/gw"])) := by
  refine C64_tame ?_
  constructor
  · rw [gw_members]
    intro m hm
    simp only [List.mem_cons, List.not_mem_nil, or_false] at hm
    rcases hm with rfl | rfl <;> exact ⟨by decide, by rintro _ ⟨⟩; decide, by decide, by decide, by decide, by decide, by decide, fun h => by cases h⟩
  · rw [gw_members]; simp [Member.key]
  · rw [gw_members]; simp
  · rw [gw_members]; simp
  · intro s hs _ x hx
    rw [gw_steps] at hs
    simp only [together, List.map_cons, List.map_nil, List.mem_cons, List.not_mem_nil, or_false] at hs
    rcases hs with rfl | rfl | rfl | rfl | rfl <;> simp [Doc.items] at hx
    rw [hx]; exact ⟨by decide, fun h => absurd h (by decide), fun h => absurd h (by decide)⟩
  · intro s hs _ p
    rw [gw_steps] at hs
    simp only [together, List.map_cons, List.map_nil, List.mem_cons, List.not_mem_nil, or_false] at hs
    rcases hs with rfl | rfl | rfl | rfl | rfl <;> simp
  · rw [gw_steps]; decide
  · intro x hx
    have : x = ⟨"shop", [("team", "x")]⟩ ∨ x = ⟨"istio-system", []⟩ := by simpa [gw_steps, nsTexts, together, Doc.items, Item.ns?] using hx
    rcases this with rfl | rfl <;> decide
  · intro l s b h hn x hx m hm
    rw [gw_steps] at h
    simp only [together, List.map_cons, List.map_nil] at h
    rcases l with _ | ⟨s1, l⟩
    · cases hm
    rcases l with _ | ⟨s2, l⟩
    · simp at h; obtain ⟨_, rfl, _⟩ := h; simp [Doc.items] at hx
    rcases l with _ | ⟨s3, l⟩
    · simp at h; obtain ⟨_, _, rfl, _⟩ := h; simp [Doc.items] at hx
    rcases l with _ | ⟨s4, l⟩
    · simp at h
      obtain ⟨rfl, rfl, rfl, rfl, _⟩ := h
      simp [Doc.items] at hx
      subst hx
      have : m = ⟨.pod, some "shop", "a", [("app", "a")], [], [], some "default", ("", ""), []⟩ := by
        simpa [members, Doc.items, Item.members, WorkText.count] using hm
      rw [this]; decide
    rcases l with _ | ⟨s5, l⟩
    · simp at h; obtain ⟨_, _, _, _, rfl, _⟩ := h; simp [Doc.items] at hx
    · simp at h

/-- The pod of the gateway is missing, and is added. -/
example : ∃ r, getConfig (world ord) none [] gwLists false = some r ∧ ∃ e ∈ r.1.cont.infos, Asks false ("istio", "ingressgateway") e := by
  refine ⟨_, rfl, ?_⟩
  exact C67_found_partial (fair ord) rfl (gw_first ord) (x := "gateway") (by simp) rfl (List.mem_singleton.2 rfl) (glob_not _ (by decide)) (p := "live/gw") (List.mem_singleton.2 rfl)
    (List.mem_cons_of_mem _ (List.mem_singleton.2 rfl)) (by decide) (nodes := 1) (l0 := [("shop/a", [])]) (.add (r := []) (l := []) _ _ .empty rfl) (gw_tame ord)
    (m := ⟨.pod, some "istio-system", "gw", [("istio", "ingressgateway")], [], [], some "default", ("", ""), []⟩) (List.mem_singleton.2 rfl) (by simp) rfl

/-- The configuration with a Gateway can be read. -/
theorem gw_reads : ∃ r, getConfig (world ord) none [] gwLists false = some r := ⟨_, rfl⟩

/-- The second reading. -/
example : ∃ r L' reg', getConfig (world ord) none [] gwLists false = some r ∧ parseElements (world ord) none reg' L' false = some r ∧ L'.res.getD [] = ["all", "live/gw"] := by
  obtain ⟨r, hr⟩ := gw_reads ord
  obtain ⟨q, hq, _, h⟩ := C67_livesim hr
  rw [gw_first, Option.some.injEq] at hq
  subst hq
  rcases h with ⟨h, _⟩ | ⟨_, L', reg', h1, _, h2⟩
  · rw [gw_addons] at h; cases h
  · refine ⟨r, L', reg', hr, h1, ?_⟩
    have := h2 Lists.res (by simp)
    rw [gw_addons] at this
    exact this

end Ex

end Sources
end Verif
