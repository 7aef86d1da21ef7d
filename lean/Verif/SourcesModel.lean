import Verif.TopologyModel
import Verif.GatewayModel
/-!
Model of where the resources of a configuration come from: the switches of the command line or fields of a scheme that
name files, the topology kept from the global configuration, and the resources that are added when they are missing
(nca/NetworkConfig/ResourcesHandler.py 41-352 and 387-419, the fields `missing_...` of nca/NetworkConfig/PoliciesFinder.py
32-34, 80 and 99, nca/Parsers/K8sPolicyYamlParser.py 170-182, nca/Parsers/IstioGatewayYamlParser.py 69-86,
nca/Parsers/IngressPolicyYamlParser.py 269-273).

Not modelled: live clusters (entries are paths; where the code would ask a cluster, there is none), messages,
namespaces that policies add to the container, profiles.
-/
namespace Verif

namespace Sources
open Topology

/-- What a document is for the readers.  A `List` with resources of several kinds is a `topo` with its namespaces and endpoints,
followed by its services and its policies: each reader takes its own (ResourcesHandler.py 405-417). -/
inductive Piece (σ π : Type) where
  | topo (d : Doc)
  /-- a `Service` and its namespace -/
  | svc (ns : String) (s : σ)
  | pol (p : π)

/-- `PeerContainer` (PeerContainer.py 19-34): namespaces, peers, and services with their namespaces. -/
structure Cont (σ : Type) where
  nss : List (String × Ns)
  peers : List PeerObj
  svcs : List (Ns × σ)

/-- What a policy may miss: a Kubernetes policy has selectors (of namespaces, if the flag is set) with `matchLabels`, a Gateway
has a selector. -/
inductive Need where
  | k8s (sels : List (Bool × Labels))
  | ingress
  | gateway (sel : Labels)
  | other

/-- The files, and what the readers know of them. -/
structure World (σ π : Type) where
  /-- the documents of the files below a path; none if there is nothing to read (ResourcesHandler.py 402-407) -/
  files : String → List (Piece σ π)
  /-- `get_cidr_list_str` -/
  cidrs : IpBlock → String
  ord : SetOrder
  need : π → Need
  /-- `get_pods_with_service_name_containing_given_string('ingress-nginx')` is not empty -/
  nginx : Cont σ → Bool
  /-- the files of `LiveSim/dns` -/
  dns : List String
  /-- the files of `LiveSim/istio_gateway` -/
  gateways : List String
  /-- the directory `LiveSim/ingress_controller` -/
  controller : String
  /-- `list(res)` of a set of paths (ResourcesHandler.py 89) -/
  some_order : List String → List String

variable {σ π : Type} (W : World σ π)

/-! ### Reading -/

/-- The finders of namespaces, endpoints and services. -/
structure Found (σ : Type) where
  topo : Topo
  svcs : List (Ns × σ)

/-- New finders (ResourcesHandler.py 255-259); `BasePeerSet` is kept. -/
def Found.new (reg : PodReg) : Found σ := ⟨⟨[], [], [], reg⟩, []⟩

/-- The body of the loop over documents, for namespaces (`nss`) and for endpoints and services (`eps`)
(ResourcesHandler.py 409-415, TopologyObjectsFinder.py 374-391). -/
def readPiece (nss eps : Bool) (f : Found σ) : Piece σ π → Option (Found σ)
  | .topo d => (step W.cidrs W.ord f.topo ⟨d, nss, eps⟩).map fun t => { f with topo := t }
  | .svc n s => if eps then some ⟨f.topo.touch n, f.svcs ++ [(f.topo.ns n, s)]⟩ else some f
  | .pol _ => some f

/-- `_parse_resources_path` (ResourcesHandler.py 384-417) for namespaces, endpoints and services. -/
def readPaths (nss eps : Bool) (f : Found σ) (l : List String) : Option (Found σ) :=
  (l.flatMap W.files).foldlM (readPiece W nss eps) f

/-- `_determine_topology_resource` (ResourcesHandler.py 261-274). -/
def determine (specific general : Option (List String)) : Option (List String) × Bool :=
  match specific with
  | some (a :: l) => (some (a :: l), true)
  | _ => (general, false)

/-- The kind of topology objects that were found, if only one was (`ResourceType`, 18-22). -/
inductive ResType where
  | pods | namespaces
  deriving DecidableEq

/-- The value returned by `parse_lists_for_topology` (ResourcesHandler.py 305-321). -/
def verdict (hasPods hasNs specificPods specificNs : Bool) : Bool × Option ResType :=
  if (hasPods && hasNs) || (specificPods && specificNs) then (true, none)
  else if specificPods && hasNs then (true, none)
  else if !hasPods && hasNs then (false, some .namespaces)
  else if !hasNs && specificPods then (false, some .pods)
  else (false, none)

/-- `parse_lists_for_topology` (ResourcesHandler.py 276-321); `none` is an exception of a reader. -/
def parseTopology (reg : PodReg) (ns pods res : Option (List String)) : Option (Found σ × Bool × Option ResType) :=
  let n := determine ns res
  let p := determine pods res
  if p.1.isNone && n.1.isNone then some (Found.new reg, false, none)
  else
    (if p.1 = res ∧ n.1 = res then readPaths W true true (Found.new reg) (res.getD [])
      else (readPaths W true false (Found.new reg) (n.1.getD [])).bind fun f => readPaths W false true f (p.1.getD [])).map fun f =>
    (f, verdict (!f.topo.peers.isEmpty) (!f.topo.nss.isEmpty) p.2 n.2)

/-- What `ResourcesHandler` keeps (44-47): the global container, and the namespaces and peers of the finders. -/
structure Global (σ : Type) where
  cont : Cont σ
  nss : List (String × Ns)
  peers : List PeerObj

/-- `_set_config_peer_container` (ResourcesHandler.py 205-230) with `_fill_empty_finder` (232-249) and `build_peer_container`
(480-486).  Without a global container and without lists the code tries the live cluster; here nothing is found. -/
def setContainer (g : Option (Global σ)) (reg : PodReg) (ns pods res : Option (List String)) (save : Bool) :
    Option (Cont σ × Option (Global σ) × PodReg) :=
  (parseTopology W reg ns pods res).map fun r =>
    let f := r.1
    let fill := r.2.1 || r.2.2.isSome
    let nss := if r.2.2 = some .pods then g.elim f.topo.nss Global.nss else f.topo.nss
    let peers := if r.2.2 = some .namespaces then g.elim f.topo.peers Global.peers else f.topo.peers
    let own : Cont σ := ⟨nss, peers, f.svcs⟩
    let c := if fill then own else g.elim own Global.cont
    (c, if save then some ⟨c, nss, peers⟩ else g, f.topo.reg)

/-- The policies in files. -/
def polsOf (l : List String) : List π := (l.flatMap W.files).filterMap fun x => match x with | .pol p => some p | _ => none

/-- `parse_lists_for_policies` (ResourcesHandler.py 323-352): the policies, and the name of the configuration. -/
def parsePolicies (np res : Option (List String)) : List π × Option String :=
  match np with
  | some l => (polsOf W l, l.head?)
  | none => match res with
    | some (a :: l) => (polsOf W (a :: l), some a)
    | _ => ([], none)

/-- The lists of a configuration. -/
structure Lists where
  np : Option (List String)
  ns : Option (List String)
  pods : Option (List String)
  res : Option (List String)

/-- What is read for a configuration: container, policies, and the name. -/
structure Parsed (σ π : Type) where
  cont : Cont σ
  pols : List π
  name : Option String

/-- `parse_elements` (ResourcesHandler.py 128-150). -/
def parseElements (g : Option (Global σ)) (reg : PodReg) (L : Lists) (save : Bool) : Option (Parsed σ π × Option (Global σ) × PodReg) :=
  (setContainer W g reg L.ns L.pods L.res save).map fun r =>
    (⟨r.1, (parsePolicies W L.np L.res).1, (parsePolicies W L.np L.res).2⟩, r.2)

/-! ### Missing resources -/

/-- The loop over `matchLabels` (K8sPolicyYamlParser.py 171-182) with the labels that are recorded when nobody is left. -/
def missingLoop (c : Container) (nsSel : Bool) : PeerSet String → Labels → Labels
  | _, [] => []
  | res, kv :: l =>
    let r := K8sParser.labelStep c nsSel res kv
    if r.isEmpty then kv :: missingLoop c nsSel r l else missingLoop c nsSel r l

/-- The labels that a selector of a Kubernetes policy records. -/
def missingK8s (c : Container) (s : Bool × Labels) : Labels := missingLoop c s.1 (c.allPeers false true false) s.2

/-- The labels that a Gateway records (IstioGatewayYamlParser.py 71-84). -/
def missingGateway (c : Container) (sel : Labels) : Labels := sel.filter fun kv => (c.withLabel kv.1 [kv.2] false).isEmpty

/-- The container as selectors see it. -/
def Cont.infos (c : Cont σ) : Container := c.peers.map PeerObj.info

/-- `missing_dns_pods_with_labels` (PoliciesFinder.py 80). -/
def missingDns (c : Cont σ) (pols : List π) : Labels :=
  pols.flatMap fun p => match W.need p with | .k8s l => l.flatMap (missingK8s c.infos) | _ => []

/-- `missing_k8s_ingress_peers` (PoliciesFinder.py 96). -/
def missingIngress (c : Cont σ) (pols : List π) : Bool :=
  pols.any fun p => match W.need p with | .ingress => !W.nginx c | _ => false

/-- `missing_istio_gw_pods_with_labels` (PoliciesFinder.py 102). -/
def missingGateways (c : Cont σ) (pols : List π) : Labels :=
  pols.flatMap fun p => match W.need p with | .gateway l => missingGateway c.infos l | _ => []

/-- `parse_livesim_yamls` (ResourcesHandler.py 354-381) for one file: the labels of its namespaces and endpoints. -/
def fileLabels (path : String) : Labels :=
  (readPaths W true true (Found.new []) [path]).elim [] fun f => f.topo.nss.flatMap (fun n => n.2.labels) ++ f.topo.peers.flatMap fun p => p.info.labels

/-- `get_relevant_livesim_resources_paths_by_labels_matching` (ResourcesHandler.py 70-89). -/
def relevant (dir : List String) (missing : Labels) : List String :=
  W.some_order (dir.filter fun path => missing.any fun kv => decide (kv ∈ fileLabels W path))

/-- `analyze_livesim` (ResourcesHandler.py 91-126). -/
def addons (c : Cont σ) (pols : List π) : List String :=
  relevant W W.dns (missingDns W c pols) ++ (if missingIngress W c pols then [W.controller] else []) ++
    relevant W W.gateways (missingGateways W c pols)

/-- `if l: l += addons` (ResourcesHandler.py 178-185). -/
def extend (add : List String) : Option (List String) → Option (List String)
  | some (a :: l) => some (a :: l ++ add)
  | o => o

/-- The lists with the additional files; that of policies stays. -/
def Lists.extend (add : List String) (L : Lists) : Lists := ⟨L.np, Sources.extend add L.ns, Sources.extend add L.pods, Sources.extend add L.res⟩

/-- `get_network_config` (ResourcesHandler.py 152-203), without the choice of the name, which is `RunnerModel.configName`. -/
def getConfig (g : Option (Global σ)) (reg : PodReg) (L : Lists) (save : Bool) : Option (Parsed σ π × Option (Global σ) × PodReg) :=
  (parseElements W g reg L save).bind fun r =>
    let add := addons W r.1.cont r.1.pols
    if add.isEmpty then some r else parseElements W r.2.1 r.2.2 (L.extend add) save

/-- `set_global_peer_container` (ResourcesHandler.py 49-61). -/
def setGlobal (reg : PodReg) (ns pods res : Option (List String)) : Option (Option (Global σ) × PodReg) :=
  (setContainer W none reg ns pods res true).map fun r => r.2

/-- The configurations of a scheme, after its global topology (SchemeRunner.py 141-153). -/
def getConfigs (g : Option (Global σ)) : PodReg → List Lists → Option (List (Parsed σ π) × PodReg)
  | reg, [] => some ([], reg)
  | reg, L :: ls => (getConfig W g reg L false).bind fun r => (getConfigs g r.2.2 ls).map fun s => (r.1 :: s.1, s.2)

end Sources
end Verif
