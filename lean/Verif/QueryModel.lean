import Verif.PolicyModel
import Mathlib.Data.List.Dedup
/-!
Model of the queries on configurations: nca/NetworkConfig/NetworkConfigQuery.py, and of the functions
of nca/NetworkConfig/NetworkConfig.py they use.

Answers keep `bool_result`, `numerical_result`, `query_not_executed` and, instead of the printed
explanation, the connection sets from which it is printed.  SIMPLIFICATIONS: warnings and printed texts are not modelled; the option
`excludeIPv6Range` together with `check_for_excluding_ipv6_addresses` is one parameter `excl`
(whether IPv6 addresses are excluded); services are compared as texts; the flag `default_sidecar` of a
sidecar is not modelled.
-/
namespace Verif

/-- What the query code uses of connection sets and peer sets beyond `Net`. -/
structure NetQ (C P E S : Type) extends Net C P E S where
  /-- `ConnectivityProperties.make_all_props()` (ConnectivityProperties.py 362-368). -/
  all : C
  /-- `project_on_one_dimension("src_peers")` (ConnectivityProperties.py 227-254). -/
  srcs : C → S
  /-- `project_on_one_dimension("dst_peers")`. -/
  dsts : C → S
  /-- Iteration over a peer set: the sets `PeerSet({peer})` for `peer` in the set. -/
  elems : S → List S
  /-- All IPv6 addresses. -/
  v6 : S
  /-- Whether an endpoint is an IP address. -/
  ip : E → Bool

/-- A `NetworkConfig` (NetworkConfig.py 51-60). -/
structure Config (C S : Type) where
  peers : Peers S
  services : List String
  store : PolicyStore C S

section
variable {C P E S : Type} (N : NetQ C P E S)

/-- `PeerSet.__eq__`, which is extensional (`C22_eq_extensional`). -/
def peersEq (a b : S) : Bool := !N.Q.truthy (N.Q.sub a b) && !N.Q.truthy (N.Q.sub b a)

/-- The Python class of a policy; `NetworkPolicy.__eq__` (NetworkPolicy.py 118-136) and
CalicoNetworkPolicy.py 77-79 require equal classes. -/
def PolicyKind.cls : PolicyKind → Nat
  | .k8s => 0
  | .calico | .calicoGlobal | .calicoProfile => 1
  | .istioAuthz => 2
  | .istioSidecar => 3
  | .ingress | .gateway => 4

/-- `__eq__` of the rule classes: K8sNetworkPolicy.py 24-25, CalicoNetworkPolicy.py 39-40,
IstioNetworkPolicy.py 27-28, GatewayPolicy.py 26-27.  `IstioSidecarRule` (IstioSidecar.py 14-34) is a
dataclass without fields, hence any two of its rules are equal. -/
def ruleEq (k : PolicyKind) (r s : Rule C) : Bool :=
  match k with
  | .istioSidecar => true
  | .calico | .calicoGlobal | .calicoProfile => N.K.eq r.props s.props && decide (r.action = s.action)
  | _ => N.K.eq r.props s.props

/-- Equality of lists of rules. -/
def rulesEq (k : PolicyKind) : List (Rule C) → List (Rule C) → Bool
  | [], [] => true
  | r :: rs, s :: ss => ruleEq N k r s && rulesEq k rs ss
  | _, _ => false

/-- Equality of the synchronised connection sets of a direction (NetworkPolicy.py 130-135). -/
def syncedEq (p q : Policy C S) (dir : Bool) : Bool :=
  N.K.eq (policyConns N.toNet p dir).allowed (policyConns N.toNet q dir).allowed &&
  N.K.eq (policyConns N.toNet p dir).denied (policyConns N.toNet q dir).denied &&
  N.K.eq (policyConns N.toNet p dir).pass (policyConns N.toNet q dir).pass

/-- `NetworkPolicy.__eq__` (NetworkPolicy.py 118-136) with the additions of CalicoNetworkPolicy.py
77-79, IstioNetworkPolicy.py 59-60 and GatewayPolicy.py 75-76. -/
def policyEq (p q : Policy C S) : Bool :=
  decide (p.kind.cls = q.kind.cls) && decide (p.name = q.name) &&
  decide (p.affectsEgress = q.affectsEgress) && decide (p.affectsIngress = q.affectsIngress) &&
  peersEq N p.selected q.selected &&
  rulesEq N p.kind p.ingressRules q.ingressRules && rulesEq N p.kind p.egressRules q.egressRules &&
  syncedEq N p q true && syncedEq N p q false &&
  (match p.kind with
   | .calico | .calicoGlobal | .calicoProfile => decide (p.order = q.order)
   | .istioAuthz | .ingress | .gateway => decide (p.action = q.action)
   | _ => true)

/-- Equality of the dicts `policies_container.policies`: same keys, equal values, whatever the order. -/
def policiesEq (ps qs : List (Policy C S)) : Bool :=
  decide (ps.length = qs.length) &&
  ps.all (fun p => qs.any (fun q => decide (q.name = p.name ∧ q.kind = p.kind) && policyEq N p q))

/-- `is_comparable_with_other_container` (PeerContainer.py 40-46): same peers, same services. -/
def comparable (c1 c2 : Config C S) : Bool :=
  peersEq N c1.peers.pods c2.peers.pods && peersEq N c1.peers.heps c2.peers.heps &&
  peersEq N c1.peers.dns c2.peers.dns && decide (c1.services = c2.services)

/-- `clone_without_policies` (NetworkConfig.py 102-110): same peers, no policies. -/
def Config.withoutPolicies (c : Config C S) : Config C S := { c with store := PolicyStore.empty }

/-- A clone with the given policies appended in order (NetworkConfig.py 118-121, 138-139,
NetworkConfigQuery.py 1023-1026). -/
def Config.withPolicies (c : Config C S) (ps : List (Policy C S)) : Option (Config C S) :=
  (PolicyStore.build ps).map (fun st => { c with store := st })

/-- `clone_without_policy` (NetworkConfig.py 112-122). -/
def Config.withoutPolicy (c : Config C S) (pol : Policy C S) : Option (Config C S) :=
  c.withPolicies (c.store.policies.filter (fun q => !policyEq N q pol))

/-- `isinstance(policy, GatewayPolicy)`. -/
def Policy.isGateway (pol : Policy C S) : Bool := decide (pol.kind.cls = 4)

/-- `clone_without_gateway_layers` (NetworkConfigQuery.py 1011-1029). -/
def Config.withoutGateways (c : Config C S) : Option (Config C S) :=
  if c.store.layers.any (fun l => (l.1 = .k8sGateway || l.1 = .istioGateway) && !l.2.isEmpty) then
    c.withPolicies (c.store.policies.filter (fun q => !q.isGateway))
  else some c

/-- `does_contain_only_gateway_layers` (NetworkLayer.py 86-91). -/
def onlyGateways (ls : Layers C S) : Bool :=
  !ls.isEmpty && ls.all (fun l => l.1 = .k8sGateway || l.1 = .istioGateway)

/-- `NetworkConfig.allowed_connections` (NetworkConfig.py 202-257). -/
def Config.conns (c : Config C S) (layer : Option LayerName) (f : ConnFilter) : PolicyConns C S :=
  match layer with
  | none => configConns N.toNet c.peers c.store.layers f
  | some n => configLayerConns N.toNet c.peers c.store.layers n f

/-- `get_all_peers` (ConnectivityProperties.py 370-374). -/
def NetQ.peersOf (c : C) : S := N.Q.or (N.srcs c) (N.dsts c)

/-- `conns_filter` in `filter_conns_by_input_or_internal_constraints` (NetworkConfigQuery.py 974-981);
`filter_ip_blocks_by_mask` keeps exactly the endpoints that are no IPv6 addresses (`C22_mask_exact`). -/
def connsFilter (excl : Bool) (a b : C) : C :=
  if excl then
    let all := N.Q.sub (N.Q.or (N.peersOf a) (N.peersOf b)) N.v6
    N.rect (some all) (some all) .any
  else N.all

/-- `filter_conns_by_input_or_internal_constraints` (NetworkConfigQuery.py 964-984). -/
def filterBoth (excl : Bool) (c1 c2 : Config C S) (a b : C) : C × C :=
  let flt := connsFilter N excl a b
  (N.K.and (filterConns N.toNet c1.peers a) flt, N.K.and (filterConns N.toNet c2.peers b) flt)

/-- `QueryAnswer` (QueryOutputHandler.py 313-321); `expl` are the connection sets printed in the
explanation. -/
structure Answer (C : Type) where
  bool : Bool
  num : Int
  notExecuted : Bool
  expl : List C

/-! ### Two configurations -/

/-- Answer of `is_identical_topologies` (NetworkConfigQuery.py 955-962) with a non-empty
`output_result`; `none` otherwise. -/
def identical (samePolicies : Bool) (c1 c2 : Config C S) : Option (Answer C) :=
  if !comparable N c1 c2 then some ⟨false, 0, true, []⟩
  else if samePolicies && policiesEq N c1.store.policies c2.store.policies then some ⟨true, 0, false, []⟩
  else none

/-- `check_equivalence` (NetworkConfigQuery.py 1055-1078). -/
def checkEquiv (excl : Bool) (layer : Option LayerName) (c1 c2 : Config C S) : Answer C :=
  let r := filterBoth N excl c1 c2 (c1.conns N layer ConnFilter.onlyAllAllowed).allAllowed
    (c2.conns N layer ConnFilter.onlyAllAllowed).allAllowed
  if N.K.eq r.1 r.2 then ⟨true, 0, false, []⟩
  else ⟨false, 1, false, [N.K.sub r.1 r.2, N.K.sub r.2 r.1]⟩

/-- `EquivalenceQuery.exec` (NetworkConfigQuery.py 1048-1053). -/
def equivQuery (excl : Bool) (layer : Option LayerName) (c1 c2 : Config C S) : Answer C :=
  match identical N true c1 c2 with
  | some a => { a with num := if a.bool then 0 else 1 }
  | none => checkEquiv N excl layer c1 c2

/-- `ContainmentQuery.exec` and `check_containment` (NetworkConfigQuery.py 1432-1472).  The list of peers
missing in the second configuration is not kept: its explanation is the empty set. -/
def containQuery (excl cmd onlyCaptured : Bool) (c1 c2 : Config C S) : Answer C :=
  if N.Q.truthy (N.Q.sub (c1.peers.group N.toNet false true) (c2.peers.group N.toNet false true)) then
    ⟨false, if cmd then 1 else 0, false, [N.K.empty]⟩
  else
    let p1 := c1.conns N none (if onlyCaptured then ConnFilter.onlyAllowed else ConnFilter.onlyAllAllowed)
    let p2 := c2.conns N none ConnFilter.onlyAllAllowed
    let r := filterBoth N excl c1 c2 (if onlyCaptured then p1.allowed else p1.allAllowed) p2.allAllowed
    if N.K.contained r.1 r.2 then ⟨true, if cmd then 0 else 1, false, []⟩
    else ⟨false, if cmd then 1 else 0, false, [N.K.sub r.1 r.2]⟩

/-- `TwoWayContainmentQuery.exec` (NetworkConfigQuery.py 1484-1517). -/
def twoWayQuery (excl cmd : Bool) (c1 c2 : Config C S) : Answer C :=
  match identical N true c1 c2 with
  | some a => if a.bool then a else rest
  | none => rest
where
  rest : Answer C :=
    let a12 := containQuery N excl cmd false c1 c2
    let a21 := containQuery N excl cmd false c2 c1
    if a12.bool && a21.bool then ⟨true, if cmd then 0 else 3, false, []⟩
    else if !a12.bool && !a21.bool then ⟨false, if cmd then 1 else 0, false, a21.expl ++ a12.expl⟩
    else if a12.bool then ⟨false, if cmd then 1 else 2, false, a21.expl⟩
    else ⟨false, 1, false, a12.expl⟩

/-- `PermitsQuery.exec` (NetworkConfigQuery.py 1525-1552).  `none`: the clone cannot be built. -/
def permitsQuery (excl cmd : Bool) (c1 c2 : Config C S) : Option (Answer C) :=
  if c1.store.policies.isEmpty then some ⟨false, 0, true, []⟩
  else match identical N false c1 c2 with
    | some a => some { a with num := if cmd then (if a.bool then 0 else 1) else 0 }
    | none =>
      if onlyGateways c1.store.layers then some ⟨false, 0, true, []⟩
      else c1.withoutGateways.map (fun g =>
        let a := containQuery N excl cmd true g c2
        if cmd then a else { a with num := if a.expl.isEmpty then 0 else 1 })

/-- `InterferesQuery.exec` (NetworkConfigQuery.py 1560-1593). -/
def interferesQuery (excl cmd : Bool) (c1 c2 : Config C S) : Answer C :=
  match identical N false c1 c2 with
  | some a => { a with num := if cmd then (if a.bool then 0 else 1) else (if a.bool then 1 else 0) }
  | none =>
    let r := filterBoth N excl c1 c2 (c1.conns N none ConnFilter.onlyAllowed).allowed
      (c2.conns N none ConnFilter.onlyAllowed).allowed
    if N.K.contained r.1 r.2 then ⟨false, if cmd then 1 else 0, false, []⟩
    else ⟨true, if cmd then 0 else 1, false, [N.K.sub r.1 r.2]⟩

/-- `IntersectsQuery.exec` with `only_captured` (NetworkConfigQuery.py 1616-1647). -/
def intersectsQuery (excl : Bool) (c1 c2 : Config C S) : Answer C :=
  match identical N false c1 c2 with
  | some a => a
  | none =>
    let r := filterBoth N excl c1 c2 (c1.conns N none ConnFilter.onlyAllowed).allowed
      (c2.conns N none ConnFilter.onlyAllAllowed).allAllowed
    let both := N.K.and r.1 r.2
    if N.K.truthy both then ⟨true, 0, false, [both]⟩ else ⟨false, 1, false, []⟩

/-- `ForbidsQuery.exec` (NetworkConfigQuery.py 1655-1677). -/
def forbidsQuery (excl : Bool) (c1 c2 : Config C S) : Option (Answer C) :=
  if c1.store.policies.isEmpty then some ⟨false, 0, true, []⟩
  else if onlyGateways c1.store.layers then some ⟨false, 0, true, []⟩
  else c1.withoutGateways.map (fun g =>
    let a := intersectsQuery N excl g c2
    { a with num := if a.bool then 1 else 0 })

/-- The printed names of the policies, as a set: `policies1` (NetworkConfigQuery.py 1399-1404). -/
def policyKeys (ps : List (Policy C S)) : List (String × PolicyKind) := ps.map (fun p => (p.name, p.kind))

/-- `NetworkConfig.find_policy(name)` (NetworkConfig.py 83-100) for a full name.  SIMPLIFICATION: names
without namespace that match the short name of a policy are not modelled (the query passes full
names). -/
def findPolicy (c : Config C S) (name : String) : List (Policy C S) := c.store.policies.filter (fun p => decide (p.name = name))

/-- `clone_with_just_one_policy` (NetworkConfig.py 124-140); `none`: exception. -/
def Config.justOne (c : Config C S) (name : String) : Option (Config C S) :=
  match findPolicy c name with
  | [p] => c.withPolicies [p]
  | _ => none

/-- The loop of `StrongEquivalenceQuery.exec` (NetworkConfigQuery.py 1414-1424). -/
def strongLoop (excl : Bool) (c1 c2 : Config C S) : List (Policy C S) → Option (Answer C)
  | [] => some ⟨true, 0, false, []⟩
  | p :: ps =>
    match c1.justOne p.name, c2.justOne p.name with
    | some s1, some s2 =>
      let a := equivQuery N excl none s1 s2
      if a.bool then strongLoop excl c1 c2 ps else some ⟨false, 1, false, a.expl⟩
    | _, _ => none

/-- `StrongEquivalenceQuery.exec` (NetworkConfigQuery.py 1393-1424). -/
def strongQuery (excl : Bool) (c1 c2 : Config C S) : Option (Answer C) :=
  match identical N true c1 c2 with
  | some a => some { a with num := if a.bool then 0 else 1 }
  | none =>
    if (policyKeys c1.store.policies).all (fun k => decide (k ∈ policyKeys c2.store.policies)) &&
       (policyKeys c2.store.policies).all (fun k => decide (k ∈ policyKeys c1.store.policies)) then
      strongLoop N excl c1 c2 c1.store.policies
    else some ⟨false, 1, false, []⟩

/-! ### Semantic diff -/

/-- `get_auto_conns_from_peers` (ConnectivityProperties.py 402-412). -/
def autoConns (c : C) : C :=
  (N.elems (N.peersOf c)).foldl (fun acc a => N.K.or acc (N.rect (some a) (some a) .any)) N.K.empty

/-- `props_without_auto_conns` (ConnectivityProperties.py 396-400). -/
def withoutAuto (c : C) : C := N.K.sub c (autoConns N c)

/-- `get_captured_pods()` (NetworkConfig.py 142-160). -/
def capturedPods (c : Config C S) : S := c.store.policies.foldl (fun acc p => N.Q.or acc p.selected) N.Q.empty

/-- The categories of changes (keys 1.1 to 5.2). -/
inductive DiffKey
  | removedRemoved | removedIps | removedPersistent | persistent | persistentIps | persistentAdded | addedAdded | addedIps
  deriving DecidableEq, Repr

/-- The two rectangles between two sets of peers. -/
def between (a b : S) : C := N.K.or (N.rect (some a) (some b) .any) (N.rect (some b) (some a) .any)

/-- `compute_diff` (NetworkConfigQuery.py 1214-1360): per category, the removed and the added
connections. -/
def computeDiff (excl : Bool) (c1 c2 : Config C S) : List (DiffKey × Option C × Option C) :=
  let old := c1.peers.group N.toNet false true
  let new := c2.peers.group N.toNet false true
  let inter := N.Q.and old new
  let removed := N.Q.sub old inter
  let added := N.Q.sub new inter
  let captured := N.Q.and (N.Q.or (capturedPods N c1) (capturedPods N c2)) inter
  let ips := if excl then N.Q.sub c1.peers.ips N.v6 else c1.peers.ips
  let r := filterBoth N excl c1 c2 (c1.conns N none ConnFilter.onlyAllAllowed).allAllowed
    (c2.conns N none ConnFilter.onlyAllAllowed).allAllowed
  let lost := N.K.sub r.1 r.2
  let gained := N.K.sub r.2 r.1
  [(.removedRemoved, some (withoutAuto N (N.K.and (N.rect (some removed) (some removed) .any) r.1)), none),
   (.removedIps, some (N.K.and (between N removed ips) r.1), none),
   (.removedPersistent, some (withoutAuto N (N.K.and (between N removed inter) r.1)), none),
   (.persistent, some (withoutAuto N (N.K.and lost (between N captured inter))),
     some (withoutAuto N (N.K.and gained (between N captured inter)))),
   (.persistentIps, some (N.K.and lost (between N captured ips)), some (N.K.and gained (between N captured ips))),
   (.persistentAdded, none, some (withoutAuto N (N.K.and (between N inter added) r.2))),
   (.addedAdded, none, some (withoutAuto N (N.K.and (N.rect (some added) (some added) .any) r.2))),
   (.addedIps, none, some (N.K.and (between N added ips) r.2))]

/-- `get_results_for_computed_fw_rules` (NetworkConfigQuery.py 1156-1188): the number of non-empty
parts. -/
def diffCount (d : List (DiffKey × Option C × Option C)) : Nat :=
  (d.map (fun e => (if (e.2.2.map N.K.truthy).getD false then 1 else 0) + (if (e.2.1.map N.K.truthy).getD false then 1 else 0))).sum

/-- `SemanticDiffQuery.exec` (NetworkConfigQuery.py 1364-1381); also returns the diff, if computed. -/
def diffQuery (excl cmd : Bool) (c1 c2 : Config C S) : Answer C × List (DiffKey × Option C × Option C) :=
  match identical N true c1 c2 with
  | some a => if a.bool then (a, []) else rest
  | none => rest
where
  rest : Answer C × List (DiffKey × Option C × Option C) :=
    let d := computeDiff N excl c1 c2
    let n := diffCount N d
    if n > 0 then (⟨false, if cmd then 1 else n, false, []⟩, d) else (⟨true, n, false, []⟩, d)

/-! ### One configuration -/

/-- `VacuityQuery.exec` (NetworkConfigQuery.py 291-306). -/
def vacuityQuery (excl : Bool) (c : Config C S) : Option Bool :=
  c.withoutGateways.map (fun g => (equivQuery N excl none g c.withoutPolicies).bool)

/-- Inner loop of `DisjointnessQuery.exec` (NetworkConfigQuery.py 221-231): the policies before
`policy1` with a common peer. -/
def overlaps (p1 : Policy C S) : List (Policy C S) → List (Policy C S)
  | [] => []
  | p2 :: ps =>
    if policyEq N p1 p2 then []
    else if N.Q.truthy (N.Q.and p1.selected p2.selected) then p2 :: overlaps p1 ps else overlaps p1 ps

/-- `DisjointnessQuery.exec` (NetworkConfigQuery.py 211-241): the reported pairs. -/
def disjointnessQuery (c : Config C S) : List (Policy C S × Policy C S) :=
  c.store.layers.flatMap (fun l =>
    if l.1 = .k8sGateway ∨ l.1 = .istioGateway then []
    else l.2.flatMap (fun p1 => if !N.Q.truthy p1.selected then [] else (overlaps N p1 l.2).map (fun p2 => (p1, p2))))

/-- The peer sets of a rule tested by `has_empty_rules`: `peer_set` for Kubernetes, Istio and gateway
rules, `src_peers` and `dst_peers` for Calico rules, `egress_peer_set` for sidecar rules. -/
abbrev RulePeers (S : Type) := List S

/-- A policy with the peer sets of its rules. -/
structure EPolicy (C S : Type) where
  pol : Policy C S
  ingressPeers : List (RulePeers S)
  egressPeers : List (RulePeers S)

/-- Indices (from 1) of the rules with an empty peer set: the loops of `has_empty_rules`
(K8sNetworkPolicy.py 105-115, CalicoNetworkPolicy.py 174-192, IstioNetworkPolicy.py 115-119,
IstioSidecar.py 88-92, GatewayPolicy.py 144-154). -/
def emptyIdx (i : Nat) : List (RulePeers S) → List Nat
  | [] => []
  | r :: rs => if r.any (fun s => !N.Q.truthy s) then i :: emptyIdx (i + 1) rs else emptyIdx (i + 1) rs

/-- `has_empty_rules`: authorization policies report ingress rules only, sidecars egress rules only. -/
def hasEmptyRules (e : EPolicy C S) : List Nat × List Nat :=
  match e.pol.kind with
  | .istioAuthz => (emptyIdx N 1 e.ingressPeers, [])
  | .istioSidecar => ([], emptyIdx N 1 e.egressPeers)
  | _ => (emptyIdx N 1 e.ingressPeers, emptyIdx N 1 e.egressPeers)

/-- What `EmptinessQuery.exec` (NetworkConfigQuery.py 249-283) finds for one policy. -/
structure EmptyFinding where
  name : String
  kind : PolicyKind
  emptyPolicy : Bool
  ingress : List Nat
  egress : List Nat
  deriving DecidableEq

/-- The loop body of `EmptinessQuery.exec`. -/
def emptinessOf (e : EPolicy C S) : EmptyFinding :=
  ⟨e.pol.name, e.pol.kind, !N.Q.truthy e.pol.selected, (hasEmptyRules N e).1, (hasEmptyRules N e).2⟩

/-- Number of findings of a policy. -/
def EmptyFinding.count (f : EmptyFinding) : Nat := (if f.emptyPolicy then 1 else 0) + f.ingress.length + f.egress.length

/-- `EmptinessQuery.exec`: the findings of all policies of all layers, and their number. -/
def emptinessQuery (es : List (EPolicy C S)) : List EmptyFinding × Nat :=
  let fs := es.map (emptinessOf N)
  (fs, (fs.map EmptyFinding.count).sum)

/-! ### Redundancy -/

/-- `redundant_policies` (NetworkConfigQuery.py 314-335): a set of full names (policies of different
kinds may share one). -/
def redundantPolicies (excl : Bool) (c : Config C S) (pols : List (Policy C S)) (n : LayerName) : Option (List String) :=
  if pols.length > 1 then
    (pols.mapM (fun p => (c.withoutPolicy N p).map (fun c' => (p.name, (equivQuery N excl (some n) c c').bool)))).map
      (fun l => ((l.filter (fun e => e.2)).map (·.1)).dedup)
  else some []

/-- `clone_without_rule`: K8sNetworkPolicy.py 73-92, CalicoNetworkPolicy.py 141-161,
IstioNetworkPolicy.py 123-142 (drops all egress rules), IstioSidecar.py 96-115 (drops all ingress
rules), GatewayPolicy.py 158-177. -/
def Policy.withoutRule (p : Policy C S) (r : Rule C) (dir : Bool) : Policy C S :=
  match p.kind with
  | .istioAuthz => { p with ingressRules := p.ingressRules.filter (fun s => !ruleEq N p.kind s r), egressRules := [] }
  | .istioSidecar => { p with ingressRules := [], egressRules := p.egressRules.filter (fun s => !ruleEq N p.kind s r) }
  | _ =>
    if dir then { p with ingressRules := p.ingressRules.filter (fun s => !ruleEq N p.kind s r) }
    else { p with egressRules := p.egressRules.filter (fun s => !ruleEq N p.kind s r) }

/-- Rules of a direction. -/
def Policy.dirRules (p : Policy C S) (dir : Bool) : List (Rule C) := if dir then p.ingressRules else p.egressRules

/-- One iteration of the loops of `find_redundant_rules` (NetworkConfigQuery.py 351-360, 361-369):
whether the rule is reported.  `none`: the clone cannot be built. -/
def ruleRedundant (excl : Bool) (c : Config C S) (n : LayerName) (p : Policy C S) (dir : Bool) (r : Rule C) : Option Bool :=
  let m := p.withoutRule N r dir
  if (m.dirRules dir).length + 1 < (p.dirRules dir).length then some true
  else (c.withPolicies (c.store.policies.filter (fun q => !policyEq N q p) ++ [m])).map
    (fun c' => (equivQuery N excl (some n) c c').bool)

/-- Indices from `i` of the elements with a true flag. -/
def trueIdx (i : Nat) : List Bool → List Nat
  | [] => []
  | b :: bs => if b then i :: trueIdx (i + 1) bs else trueIdx (i + 1) bs

/-- `find_redundant_rules` (NetworkConfigQuery.py 337-370), one direction. -/
def redundantRules (excl : Bool) (c : Config C S) (n : LayerName) (p : Policy C S) (dir : Bool) : Option (List Nat) :=
  ((p.dirRules dir).mapM (ruleRedundant N excl c n p dir)).map (trueIdx 1)

/-- Report of `RedundancyQuery.exec`. -/
structure RedReport (C S : Type) where
  count : Nat
  policies : List String
  rules : List (Policy C S × List Nat × List Nat)

/-- Body of the outer loop of `RedundancyQuery.exec` (NetworkConfigQuery.py 378-395); note that
`redundant_policies` is overwritten for every layer (382). -/
def redStep (excl : Bool) (c : Config C S) (rep : RedReport C S) (l : LayerName × List (Policy C S)) : Option (RedReport C S) :=
  if l.1 = .k8sGateway ∨ l.1 = .istioGateway then some rep
  else
    (redundantPolicies N excl c l.2 l.1).bind (fun rp =>
      ((l.2.filter (fun p => !rp.any (fun q => decide (q = p.name)))).mapM (fun p =>
        (redundantRules N excl c l.1 p true).bind (fun i =>
          (redundantRules N excl c l.1 p false).map (fun e => (p, i, e))))).map (fun rr =>
        { count := rep.count + rp.length + (rr.map (fun x => x.2.1.length + x.2.2.length)).sum
          policies := rp
          rules := rep.rules ++ rr.filter (fun x => !(x.2.1.isEmpty && x.2.2.isEmpty)) }))

/-- `RedundancyQuery.exec` (NetworkConfigQuery.py 372-405). -/
def redundancyQuery (excl : Bool) (c : Config C S) : Option (RedReport C S) :=
  c.store.layers.foldlM (redStep N excl c) ⟨0, [], []⟩

/-! ### Captured pods -/

/-- `get_affected_pods` (NetworkConfig.py 162-176). -/
def affectedPods (dir : Bool) (pols : List (Policy C S)) : S :=
  pols.foldl (fun acc p => if (if dir then p.affectsIngress else p.affectsEgress) then N.Q.or acc p.selected else acc) N.Q.empty

/-- `_get_uncaptured_xgress_pods` (NetworkConfigQuery.py 1694-1710), as a set of peers. -/
def uncaptured (c : Config C S) (n : LayerName) (dir : Bool) : S :=
  match c.store.layers.find? (fun l => l.1 = n) with
  | none => N.Q.empty
  | some l => N.Q.sub (c.peers.group N.toNet false false) (affectedPods N dir l.2)

/-- `AllCapturedQuery.exec` (NetworkConfigQuery.py 1741-1768) with `_compute_uncaptured_pods_by_layer`
(1712-1739): the answer and the reported peers, of the Kubernetes/Calico layer on ingress and egress
and of the Istio layer on ingress.  SIMPLIFICATION: the peers are reported as sets, their names are not
modelled. -/
def allCapturedQuery (c : Config C S) : Bool × List S :=
  if c.store.policies.isEmpty || onlyGateways c.store.layers then (false, [c.peers.group N.toNet false false])
  else
    let u := [uncaptured N c .k8sCalico true, uncaptured N c .k8sCalico false, uncaptured N c .istio true]
    (!u.any N.Q.truthy, u)

end
end Verif
