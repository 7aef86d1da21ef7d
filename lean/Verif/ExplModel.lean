/-!
Model of the explanations of a connectivity map (`--explain`; nca/Utils/ExplTracker.py 1-477) and of the places that feed
them: readers of pods (nca/NetworkConfig/TopologyObjectsFinder.py 116-117, 172-177), readers of policies
(nca/NetworkConfig/PoliciesFinder.py 115-126), the layer of Kubernetes and Calico policies
(nca/NetworkConfig/NetworkLayer.py 205-229, called twice in 144-145), the connectivity query
(nca/NetworkConfig/NetworkConfigQuery.py 776-777) and runs of schemes (nca/SchemeRunner.py 186-197).

Peers are their full names (`Peer.full_name()`); a block of addresses is the text of its CIDRs.  Not modelled: messages of the
logger, the normalisation of paths (ExplTracker.py 144-151: paths are given as they are kept), the layers of Istio and of
gateways, the XML around the texts of `explain_all`.
-/
namespace Verif

namespace Expl

/-- An entry of `ExplDescriptorContainer` (ExplTracker.py 152). -/
structure Item where
  path : String
  line : Nat
  workload : String
  deriving DecidableEq, Repr

/-- Assignment to a key of a `dict`: the place of a key that is there is kept. -/
def put {V : Type} : List (String × V) → String → V → List (String × V)
  | [], k, v => [(k, v)]
  | (k', w) :: r, k, v => if k' = k then (k, v) :: r else (k', w) :: put r k v

/-- `set.add`. -/
def sadd (s : List String) (x : String) : List String := if x ∈ s then s else s ++ [x]

/-- `DEFAULT_POLICY` (ExplTracker.py 45). -/
def dflt : String := "Default-Policy"

/-- `ExplPolicies` (ExplTracker.py 57-68). -/
structure Pols where
  egress : List (String × List String) := []
  ingress : List (String × List String) := []
  all : List String := []
  deriving DecidableEq, Repr

/-- `_add_policy_to_map` (ExplTracker.py 69-85). -/
def addToMap (names : List String) (m : List (String × List String)) (pol : String) : List (String × List String) :=
  names.foldl (fun m n => put m n (sadd (((m.lookup n).getD []).filter (fun k => decide (k ≠ dflt))) pol)) m

/-- `add_policy` (ExplTracker.py 87-100). -/
def Pols.add (P : Pols) (pol : String) (egr ing : List String) : Pols :=
  { egress := addToMap egr P.egress pol, ingress := addToMap ing P.ingress pol, all := sadd P.all pol }

/-- A peer of the map: its full name; blocks of addresses have a field `name` of their own (Peer.py 275-292). -/
structure Peer where
  name : String
  block : Bool
  bname : String
  deriving DecidableEq, Repr

/-- `ExplTracker` (ExplTracker.py 47-55).  `conns a b` says whether `all_conns` has connections from `a` to `b`
(`are_peers_connected`, 224-238). -/
structure Tracker where
  items : List (String × Item)
  pols : List (String × Pols)
  conns : String → String → Bool
  peers : List Peer
  ep : String

/-- `add_item` (ExplTracker.py 135-154). -/
def Tracker.addItem (t : Tracker) (name : String) (i : Item) : Tracker :=
  if name = "" then t else { t with items := put t.items name i }

/-- `activate` and `_reset` (ExplTracker.py 102-117). -/
def activate (ep : String) : Tracker :=
  Tracker.addItem { items := [], pols := [], conns := fun _ _ => false, peers := [], ep := ep } dflt ⟨"", 0, ""⟩

/-- `add_peer_policy` (ExplTracker.py 156-173). -/
def Tracker.addPeerPolicy (t : Tracker) (n pol : String) (egr ing : List String) : Tracker :=
  if (t.items.lookup n).isSome then
    { t with pols := put t.pols n (((t.pols.lookup n).getD {}).add pol egr ing) }
  else t

/-- What a policy gives to the tracker: its name (without its namespace), the place it comes from, the peers it selects, the
peers of the cubes of its allowed connections, and the directions it affects. -/
structure Pol where
  name : String
  path : String
  line : Nat
  sel : List String
  egr : List (List String × List String)
  ing : List (List String × List String)
  affE : Bool
  affI : Bool
  deriving Repr

/-- `extract_peers` (ExplTracker.py 175-188), sources.  No cube has an empty dimension, so the other branch is never taken
(ConnectivityCube.py 119-131 gives all peers for a dimension that is full). -/
def srcs (cubes : List (List String × List String)) : List String := cubes.flatMap (·.1)

/-- `extract_peers`, destinations. -/
def dsts (cubes : List (List String × List String)) : List String := cubes.flatMap (·.2)

/-- `add_policy_to_peers` (ExplTracker.py 240-245). -/
def Tracker.addPolicy (t : Tracker) (p : Pol) : Tracker :=
  p.sel.foldl (fun t n => t.addPeerPolicy n p.name (dsts p.egr) (srcs p.ing)) t

/-- What happens when a policy is read (PoliciesFinder.py 115-126). -/
def Tracker.readPolicy (t : Tracker) (p : Pol) : Tracker := (t.addPolicy p).addItem p.name ⟨p.path, p.line, ""⟩

/-- `ExplPeerToPolicyContainer[n]`, or a new entry. -/
def Tracker.sees (t : Tracker) (n : String) : Pols := (t.pols.lookup n).getD {}

/-- `is_policy_list_empty` (ExplTracker.py 274-287). -/
def Tracker.listEmpty (t : Tracker) (n : String) (ingress : Bool) : Bool :=
  if ingress then (t.sees n).ingress.isEmpty else (t.sees n).egress.isEmpty

/-- `add_default_policy` (ExplTracker.py 247-272). -/
def Tracker.addDefault (t : Tracker) (src dst : List String) (ingress : Bool) : Tracker :=
  (if ingress then dst else src).foldl (fun t n =>
    if t.listEmpty n ingress then
      t.addPeerPolicy n dflt (if ingress then [] else dst) (if ingress then src else [])
    else t) t

/-- `captured` of a direction (NetworkLayer.py 205, `collect_policies_conns_optimized`). -/
def captured (pols : List Pol) (ingress : Bool) (n : String) : Bool :=
  pols.any (fun p => (if ingress then p.affI else p.affE) && decide (n ∈ p.sel))

/-- One direction of the layer of Kubernetes and Calico policies (NetworkLayer.py 207-228): `nodes` are the peers that are
neither blocks nor host endpoints, `everyone` all peers and addresses. -/
def Tracker.layer (t : Tracker) (pols : List Pol) (nodes everyone : List String) (ingress : Bool) : Tracker :=
  let free := nodes.filter (fun n => !captured pols ingress n)
  if free.isEmpty then t
  else if ingress then t.addDefault everyone free true else t.addDefault free everyone false

/-- The body of the loop in `set_connections_and_peers` (ExplTracker.py 205-211). -/
def Tracker.special (t : Tracker) (peers : List Peer) (x : Peer) : Tracker :=
  if (t.pols.lookup x.name).isSome then t
  else
    let t := if (t.items.lookup x.name).isSome then t else t.addItem x.name ⟨"", 0, ""⟩
    (t.addDefault [x.name] (peers.map (·.name)) false).addDefault (peers.map (·.name)) [x.name] true

/-- `set_connections_and_peers` (ExplTracker.py 196-211). -/
def Tracker.setConns (t : Tracker) (conns : String → String → Bool) (peers : List Peer) : Tracker :=
  peers.foldl (fun t x => t.special peers x) { t with conns := conns, peers := peers }

/-- A configuration, as far as its explanation goes. -/
structure World where
  ep : String
  /-- the endpoints that are read, in their order (also those that are dropped as isomorphic to two others) -/
  pods : List (String × Item)
  pols : List Pol
  /-- the peers of the configuration but for host endpoints -/
  nodes : List String
  /-- all peers and the block of all addresses -/
  everyone : List String
  /-- whether the map has connections from the one to the other -/
  conns : String → String → Bool
  /-- the peers of the map -/
  peers : List Peer

/-- Reading the endpoints and policies of a configuration. -/
def Tracker.read (t : Tracker) (W : World) : Tracker :=
  W.pols.foldl (fun t p => t.readPolicy p) (W.pods.foldl (fun t e => t.addItem e.1 e.2) t)

/-- The connectivity query on a configuration (NetworkLayer.py 144-145: ingress first; NetworkConfigQuery.py 776-777). -/
def Tracker.query (t : Tracker) (W : World) : Tracker :=
  ((t.layer W.pols W.nodes W.everyone true).layer W.pols W.nodes W.everyone false).setConns W.conns W.peers

/-- A run with one configuration (nca_cli.py 188-193 activates the tracker before anything is read). -/
def run (W : World) : Tracker := ((activate W.ep).read W).query W

/-- A run with several configurations: all are read before the first query (SchemeRunner.py 147-152), and the tracker is not
reset between them (NetworkConfigQueryRunner.py 170-178). -/
def runAll (ep : String) (Ws : List World) : Tracker :=
  Ws.foldl (fun t W => t.query W) (Ws.foldl (fun t W => t.read W) (activate ep))

/-! ### Explanations -/

def ins (x : String) : List String → List String
  | [] => [x]
  | y :: r => if x ≤ y then x :: y :: r else y :: ins x r

/-- `sorted`. -/
def sortNames (l : List String) : List String := l.foldr ins []

/-- What is shown for two nodes: whether they are connected, and what is listed on either side. -/
structure Found where
  connected : Bool
  src : List String
  dst : List String
  deriving DecidableEq, Repr

/-- `explain` for two full names (ExplTracker.py 436-468): nothing if one of them is not known. -/
def Tracker.explain2 (t : Tracker) (src dst : String) : Option Found :=
  if (t.items.lookup src).isSome && (t.pols.lookup src).isSome && (t.items.lookup dst).isSome && (t.pols.lookup dst).isSome then
    if t.conns src dst then
      some ⟨true, sortNames (((t.sees src).egress.lookup dst).getD []) ++ [src],
        sortNames (((t.sees dst).ingress.lookup src).getD []) ++ [dst]⟩
    else some ⟨false, sortNames (t.sees src).all ++ [src], sortNames (t.sees dst).all ++ [dst]⟩
  else none

/-- `explain` for one full name (ExplTracker.py 469-474). -/
def Tracker.explain1 (t : Tracker) (n : String) : Option (List String) :=
  if (t.items.lookup n).isSome && (t.pols.lookup n).isSome then some (sortNames (t.sees n).all ++ [n]) else none

/-- `get_printout_ep_name` (ExplTracker.py 330-344). -/
def Tracker.printed (t : Tracker) (n : String) : String :=
  if t.ep = "deployments" then
    match t.items.lookup n with
    | some i => if i.workload = "" then n else i.workload
    | none => n
  else n

/-- `get_working_ep_name` (ExplTracker.py 388-409), after brackets are replaced. -/
def Tracker.working (t : Tracker) (name : String) : String :=
  if t.ep = "deployments" then
    match t.items.find? (fun e => decide (name = e.2.workload ∨ name = e.1)) with
    | some e => e.1
    | none => ""
  else name

/-- The line of a policy or a resource (ExplTracker.py 314-326). -/
def Tracker.entry (t : Tracker) (name shown : String) : String :=
  match t.items.lookup name with
  | none => shown ++ " - explainability entry not found"
  | some i => if i.path = "" then shown else shown ++ ": line " ++ toString i.line ++ " in file " ++ i.path

/-- The lines from an index on (ExplTracker.py 306-326). -/
def Tracker.entries (t : Tracker) (len : Nat) : Nat → List String → List String
  | _, [] => []
  | i, n :: r =>
    (if i = 0 then ["Policy Configurations:"] else []) ++
    (if 0 < i ∧ i + 1 = len then ["Resource Configurations:"] else []) ++
    [t.entry n (if 0 < i ∧ i + 1 = len then t.printed n else n)] ++ t.entries len (i + 1) r

/-- `prepare_node_str` (ExplTracker.py 289-328): nothing for a node without a file. -/
def Tracker.nodeLines (t : Tracker) (node : String) (results : List String) (dir : Option String) : List String :=
  if ((t.items.lookup node).map (·.path)) = some "" then []
  else (match dir with | some d => ["\n(" ++ d ++ ")" ++ t.printed node ++ ":"] | none => []) ++ t.entries results.length 0 results

/-- The lines of `explain` for two full names (ExplTracker.py 449-468). -/
def Tracker.lines2 (t : Tracker) (src dst : String) : List String :=
  match t.explain2 src dst with
  | none => []
  | some f =>
    [(if f.connected then "\nConfigurations affecting the connectivity between " else
        "Configurations affecting the LACK of connectivity between ")
      ++ "(src)" ++ t.printed src ++ " and (dst)" ++ t.printed dst ++ ":"]
      ++ t.nodeLines src f.src (some "src") ++ t.nodeLines dst f.dst (some "dst")

/-- The lines of `explain` for one full name (ExplTracker.py 469-474). -/
def Tracker.lines1 (t : Tracker) (n : String) : List String :=
  match t.explain1 n with
  | none => []
  | some l => ["Configurations affecting " ++ t.printed n ++ ":"] ++ t.nodeLines n l none

/-- The peers of `explain_all` (ExplTracker.py 355-366): names of peers, and the names that are taken. -/
def Tracker.allNames (t : Tracker) : List Peer → List String → List String → List String
  | [], _, names => names
  | x :: r, taken, names =>
    let d := if x.block then x.bname else t.printed x.name
    if t.ep = "deployments" ∧ d ∈ taken then t.allNames r taken names
    else t.allNames r (sadd taken d) (sadd names x.name)

/-- `explain_all` (ExplTracker.py 346-386): sources, destinations and the lines between them. -/
def Tracker.explainAll (t : Tracker) : List (String × String × List String) :=
  let names := sortNames (t.allNames t.peers [] [])
  names.flatMap (fun a => names.map (fun b =>
    (t.printed a, t.printed b, if a = b then t.lines1 (t.working a) else t.lines2 (t.working a) (t.working b))))

/-- `activate_exp_tracker` of a scheme (SchemeRunner.py 186-197): the mode of endpoints it passes, for the output formats of the
queries (189: `and` of two lists is the second); `none` if the tracker is not activated. -/
def schemeEp (outputs : List String) : Option String :=
  match outputs with
  | "html" :: r => if r.any (fun f => f == "html") then none else some "html"
  | _ => none

end Expl

end Verif
