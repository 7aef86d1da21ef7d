import Verif.ConnAlg
/-!
Model of policies, network layers and network configurations:
nca/Resources/PolicyResources/{NetworkPolicy,K8sNetworkPolicy,CalicoNetworkPolicy,IstioNetworkPolicy,
IstioSidecar,GatewayPolicy}.py, nca/NetworkConfig/{NetworkLayer,NetworkConfig}.py.

Connection sets and peer sets are the algebras of `Verif.ConnAlg`.  In-place updates (`|=`, `-=`, `&=`)
are modelled by new values; the code works on copies (`allowed_connections` copies the cached sets),
so no other object is affected.  The lazy cache `props_in_sync` of a policy is modelled in
`Verif.SyncModel`; here a policy's sets are recomputed from its rules at each use.  The explanation
tracker (`ExplTracker`) is not modelled: it does not influence the sets.
-/
namespace Verif

/-- `CalicoPolicyRule.ActionType`, CalicoNetworkPolicy.py 16-23.  Rules of the other policy classes
have no action; their `action` field is not read. -/
inductive RuleAction | deny | allow | log | pass
  deriving DecidableEq, Repr

/-- `IstioNetworkPolicy.ActionType` (IstioNetworkPolicy.py 45-52), `GatewayPolicy.ActionType`
(GatewayPolicy.py 56-61). -/
inductive PolicyAction | deny | allow
  deriving DecidableEq, Repr

/-- `NetworkPolicy.PolicyType` (NetworkPolicy.py 25-45), for the kinds that reach a layer. -/
inductive PolicyKind
  | k8s | calico | calicoGlobal | calicoProfile | istioAuthz | istioSidecar | ingress | gateway
  deriving DecidableEq, Repr

/-- A rule: its connections (`props`) and, for Calico rules, its action. -/
structure Rule (C : Type) where
  action : RuleAction
  props : C

/-- A policy: the attributes of `NetworkPolicy.__init__` (NetworkPolicy.py 50-70) that the evaluation
reads; `action` is read for Istio and gateway policies, `order` for Calico policies. -/
structure Policy (C S : Type) where
  name : String
  kind : PolicyKind
  order : Option Int
  action : PolicyAction
  selected : S
  affectsIngress : Bool
  affectsEgress : Bool
  ingressRules : List (Rule C)
  egressRules : List (Rule C)

/-- `PolicyConnections` (NetworkPolicy.py 342-354). -/
structure PolicyConns (C S : Type) where
  captured : S
  allowed : C
  denied : C
  pass : C
  allAllowed : C

/-- `PolicyConnectionsFilter` fields (NetworkPolicy.py 389-398). -/
structure ConnFilter where
  calcAllowed : Bool
  calcDenied : Bool
  calcPass : Bool
  calcAllAllowed : Bool
  deriving DecidableEq, Repr

namespace ConnFilter

/-- The constructor, with `__post_init__` (NetworkPolicy.py 400-402). -/
def make (a d p all : Bool) : ConnFilter := ⟨a, d, p, all || a⟩

/-- The default filter. -/
def default : ConnFilter := make true true true true
/-- `only_allowed_connections` 404-406. -/
def onlyAllowed : ConnFilter := make true false false false
/-- `only_denied_connections` 408-410. -/
def onlyDenied : ConnFilter := make false true false false
/-- `only_all_allowed_connections` 412-414. -/
def onlyAllAllowed : ConnFilter := make false false false true

/-- `replace(res_conns_filter, calc_all_allowed=False)` (NetworkConfig.py 232 and 242): dataclasses'
`replace` calls the constructor, hence `__post_init__`, again. -/
def replaceAllAllowedFalse (f : ConnFilter) : ConnFilter := make f.calcAllowed f.calcDenied f.calcPass false

end ConnFilter

section
variable {C P E S : Type} (N : Net C P E S)

/-- The three connection sets of a Calico policy in one direction. -/
structure CalicoState (C : Type) where
  allow : C
  deny : C
  pass : C

/-- One iteration of `_update_opt_props_by_order` (CalicoNetworkPolicy.py 83-105). -/
def calicoStep (st : CalicoState C) (r : Rule C) : CalicoState C :=
  match r.action with
  | .allow => { st with allow := N.K.or st.allow (N.K.sub (N.K.sub r.props st.deny) st.pass) }
  | .deny => { st with deny := N.K.or st.deny (N.K.sub (N.K.sub r.props st.allow) st.pass) }
  | .pass => { st with pass := N.K.or st.pass (N.K.sub (N.K.sub r.props st.allow) st.deny) }
  | .log => st

/-- `_update_opt_props_by_order` for one direction, from empty sets (81-105, 107-117). -/
def calicoSync (rules : List (Rule C)) : CalicoState C :=
  rules.foldl (calicoStep N) ⟨N.K.empty, N.K.empty, N.K.empty⟩

/-- Union of the connections of all rules: the loops of K8sNetworkPolicy.sync_props 48-51,
IstioNetworkPolicy.sync_props 76-80, IstioSidecar.sync_props 62-63, GatewayPolicy.sync_props 102-111. -/
def unionRules (rules : List (Rule C)) : C := rules.foldl (fun acc r => N.K.or acc r.props) N.K.empty

/-- `allowed_connections(is_ingress)` of the policy classes: K8sNetworkPolicy.py 54-71,
CalicoNetworkPolicy.py 119-139, IstioNetworkPolicy.py 85-103, IstioSidecar.py 66-76,
GatewayPolicy.py 114-131. -/
def policyConns (pol : Policy C S) (isIngress : Bool) : PolicyConns C S :=
  let rules := if isIngress then pol.ingressRules else pol.egressRules
  let affects := if isIngress then pol.affectsIngress else pol.affectsEgress
  let captured := if affects then pol.selected else N.Q.empty
  match pol.kind with
  | .k8s => ⟨captured, unionRules N rules, N.K.empty, N.K.empty, N.K.empty⟩
  | .calico | .calicoGlobal | .calicoProfile =>
    let st := calicoSync N rules
    ⟨captured, st.allow, st.deny, st.pass, N.K.empty⟩
  | .istioAuthz =>
    if isIngress then
      match pol.action with
      | .allow => ⟨pol.selected, unionRules N pol.ingressRules, N.K.empty, N.K.empty, N.K.empty⟩
      | .deny => ⟨pol.selected, N.K.empty, unionRules N pol.ingressRules, N.K.empty, N.K.empty⟩
    else ⟨N.Q.empty, N.K.empty, N.K.empty, N.K.empty, N.K.empty⟩
  | .istioSidecar =>
    if isIngress then ⟨N.Q.empty, N.rect none none .any, N.K.empty, N.K.empty, N.K.empty⟩
    else ⟨captured, unionRules N pol.egressRules, N.K.empty, N.K.empty, N.K.empty⟩
  | .ingress | .gateway =>
    match pol.action with
    | .allow => ⟨captured, unionRules N rules, N.K.empty, N.K.empty, N.K.empty⟩
    | .deny => ⟨captured, N.K.empty, unionRules N rules, N.K.empty, N.K.empty⟩

/-- `PolicyConnections()` (NetworkPolicy.py 349-354). -/
def emptyConns : PolicyConns C S := ⟨N.Q.empty, N.K.empty, N.K.empty, N.K.empty, N.K.empty⟩

/-- One iteration of `collect_policies_conns_optimized` (NetworkLayer.py 184-197). -/
def collectStep (isIngress : Bool) (capturedFunc : Policy C S → Bool) (res : PolicyConns C S) (pol : Policy C S) :
    PolicyConns C S :=
  let pc := policyConns N pol isIngress
  if N.Q.truthy pc.captured then
    let cap := if capturedFunc pol then N.Q.or res.captured pc.captured else res.captured
    let denied := N.K.sub (N.K.sub pc.denied res.allowed) res.pass
    let allowed := N.K.sub (N.K.sub pc.allowed res.denied) res.pass
    let pass := N.K.sub (N.K.sub pc.pass res.denied) res.allowed
    { res with captured := cap
               allowed := N.K.or res.allowed allowed
               denied := N.K.or res.denied denied
               pass := N.K.or res.pass pass }
  else res

/-- `collect_policies_conns_optimized` (NetworkLayer.py 173-199). -/
def collect (isIngress : Bool) (capturedFunc : Policy C S → Bool) (pols : List (Policy C S)) : PolicyConns C S :=
  pols.foldl (collectStep N isIngress capturedFunc) (emptyConns N)

/-- The peers of a `PeerContainer` as seen by the layer code: `get_all_peers_group` (PeerContainer.py
302-319), `get_all_dns_entries` (321-326) and `IpBlock.get_all_ips_block_peer_set`.  `pods` are the
peers that are neither host endpoints nor DNS entries. -/
structure Peers (S : Type) where
  pods : S
  heps : S
  dns : S
  ips : S

/-- `get_all_peers_group(add_external_ips, include_globals=True, include_dns_entries)`
(PeerContainer.py 302-319); `include_globals` is True in all calls of the layer code. -/
def Peers.group (t : Peers S) (addIps addDns : Bool) : S :=
  let r := N.Q.or t.pods t.heps
  let r := if addDns then N.Q.or r t.dns else r
  if addIps then N.Q.or r t.ips else r

/-- The connection set with the given peers on the evaluated side and on the other side. -/
def rectDir (isIngress : Bool) (here other : S) (k : ProtoSel) : C :=
  if isIngress then N.rect (some other) (some here) k else N.rect (some here) (some other) k

/-- `K8sCalicoNetworkLayer._allowed_xgress_conns` (NetworkLayer.py 204-245). -/
def calicoLayerXgress (pols : List (Policy C S)) (isIngress : Bool) (t : Peers S) (f : ConnFilter) : PolicyConns C S :=
  let res := collect N isIngress (fun _ => true) pols
  let allPeers := t.group N true true
  let noHep := N.Q.or t.pods t.dns                       -- base_peer_set_no_hep, 212
  let notCaptured := N.Q.sub noHep res.captured
  let all1 := if N.Q.truthy notCaptured && f.calcAllAllowed then
      N.K.or res.allAllowed (rectDir N isIngress notCaptured allPeers .any) else res.allAllowed
  let capturedNotHep := N.Q.and noHep res.captured
  let allowed1 := if N.Q.truthy capturedNotHep && N.K.truthy res.pass then
      N.K.or res.allowed (N.K.and res.pass (rectDir N isIngress capturedNotHep allPeers .any)) else res.allowed
  let all2 := if f.calcAllAllowed then N.K.or all1 allowed1 else all1
  { res with allowed := allowed1, allAllowed := all2 }

/-- `IstioNetworkLayer.captured_cond_func` (NetworkLayer.py 249-255). -/
def istioCaptured (pol : Policy C S) : Bool :=
  match pol.kind with
  | .istioAuthz | .gateway => decide (pol.action = .allow)
  | _ => true

/-- `IstioNetworkLayer._allowed_xgress_conns` (NetworkLayer.py 257-303). -/
def istioLayerXgress (pols : List (Policy C S)) (isIngress : Bool) (t : Peers S) (f : ConnFilter) : PolicyConns C S :=
  let res := collect N isIngress istioCaptured pols
  if !f.calcAllAllowed then res
  else
    let allPeersIps := t.group N true false
    let allPeers := t.group N false false
    let all1 := N.K.or res.allAllowed (N.K.or res.allowed (N.rect (some allPeersIps) (some allPeersIps) .nonTcp))
    let nonCaptured := N.Q.sub allPeers res.captured
    if !N.Q.truthy nonCaptured then { res with allAllowed := all1 }
    else
      let nc :=
        if isIngress then
          let nc1 := N.K.sub (N.rect (some allPeersIps) (some nonCaptured) .any) res.denied
          let ncDns := N.Q.sub t.dns res.captured
          if N.Q.truthy ncDns then
            N.K.or nc1 (N.K.sub (N.rect (some allPeersIps) (some ncDns) .tcp) res.denied)
          else nc1
        else
          N.K.sub (N.K.or (N.rect (some nonCaptured) (some allPeersIps) .any)
            (N.rect (some nonCaptured) (some t.dns) .tcp)) res.denied
      { res with allAllowed := N.K.or all1 nc }

/-- `NetworkLayerName` (NetworkLayer.py 22-26). -/
inductive LayerName | k8sCalico | istio | k8sGateway | istioGateway
  deriving DecidableEq, Repr

/-- `create_network_layer` 28-37 with the class hierarchy (K8sGatewayLayer and IstioGatewayLayer
inherit everything, 306-311). -/
def layerXgress (n : LayerName) : List (Policy C S) → Bool → Peers S → ConnFilter → PolicyConns C S :=
  match n with
  | .k8sCalico | .k8sGateway => calicoLayerXgress N
  | .istio | .istioGateway => istioLayerXgress N

/-- `NetworkLayer.allowed_connections` (NetworkLayer.py 133-164). -/
def layerConns (n : LayerName) (pols : List (Policy C S)) (t : Peers S) (f : ConnFilter) : PolicyConns C S :=
  let ing := layerXgress N n pols true t f
  let eg := layerXgress N n pols false t f
  let pods := t.group N false false
  let ingAll := if f.calcAllAllowed then N.K.or ing.allAllowed (N.rect (some pods) (some t.ips) .any) else ing.allAllowed
  let egAll := if f.calcAllAllowed then N.K.or eg.allAllowed (N.rect (some t.ips) (some pods) .any) else eg.allAllowed
  { captured := N.Q.or ing.captured eg.captured
    allowed := if f.calcAllowed then N.K.or (N.K.and ing.allowed egAll) (N.K.and eg.allowed ingAll) else N.K.empty
    denied := if f.calcDenied then N.K.or ing.denied eg.denied else N.K.empty
    pass := N.K.empty
    allAllowed := if f.calcAllAllowed then N.K.and ingAll egAll else N.K.empty }

/-- `and_by_filter` (NetworkPolicy.py 356-370). -/
def PolicyConns.andByFilter (r : PolicyConns C S) (c : C) (f : ConnFilter) : PolicyConns C S :=
  { captured := r.captured
    allowed := if f.calcAllowed then N.K.and r.allowed c else r.allowed
    denied := if f.calcDenied then N.K.and r.denied c else r.denied
    pass := if f.calcPass then N.K.and r.pass c else r.pass
    allAllowed := if f.calcAllAllowed then N.K.and r.allAllowed c else r.allAllowed }

/-- `sub_by_filter` (NetworkPolicy.py 372-386). -/
def PolicyConns.subByFilter (r : PolicyConns C S) (c : C) (f : ConnFilter) : PolicyConns C S :=
  { captured := r.captured
    allowed := if f.calcAllowed then N.K.sub r.allowed c else r.allowed
    denied := if f.calcDenied then N.K.sub r.denied c else r.denied
    pass := if f.calcPass then N.K.sub r.pass c else r.pass
    allAllowed := if f.calcAllAllowed then N.K.sub r.allAllowed c else r.allAllowed }

/-- `NetworkLayersContainer` (NetworkLayer.py 53-68): a dict from layer names to layers, in insertion
order; a layer is its list of policies. -/
abbrev Layers (C S : Type) := List (LayerName × List (Policy C S))

/-- One iteration of the loop of `NetworkConfig.allowed_connections` (NetworkConfig.py 237-252). -/
def configStep (t : Peers S) (f : ConnFilter) (connHep : C) (res : PolicyConns C S)
    (l : LayerName × List (Policy C S)) : PolicyConns C S :=
  let pl := layerConns N l.1 l.2 t f
  let pl := if l.1 ≠ .k8sCalico then pl.subByFilter N connHep f.replaceAllAllowedFalse else pl
  { captured := N.Q.or res.captured pl.captured
    allowed := if f.calcAllowed then N.K.or res.allowed pl.allowed else res.allowed
    denied := if f.calcDenied then N.K.or res.denied pl.denied else res.denied
    pass := res.pass
    allAllowed := if f.calcAllAllowed then N.K.and res.allAllowed pl.allAllowed else res.allAllowed }

/-- `NetworkConfig.allowed_connections(layer_name=None)` (NetworkConfig.py 221-257);
`get_all_conns_props_per_config_peers` is ConnectivityProperties.py 343-351. -/
def configConns (t : Peers S) (layers : Layers C S) (f : ConnFilter) : PolicyConns C S :=
  let connHep := N.K.or (N.rect (some t.heps) none .any) (N.rect none (some t.heps) .any)
  let init := if N.Q.truthy t.heps && !(layers.any (fun l => l.1 = .k8sCalico)) then
      (layerConns N .k8sCalico [] t f).andByFilter N connHep f.replaceAllAllowedFalse
    else
      { emptyConns N with
        allAllowed := if f.calcAllAllowed then
          N.rect (some (t.group N true true)) (some (t.group N true true)) .any else N.K.empty }
  let res := layers.foldl (configStep N t f connHep) init
  { res with allowed := if f.calcAllowed then N.K.and res.allowed res.allAllowed else res.allowed }

/-- `NetworkConfig.allowed_connections(layer_name)` (NetworkConfig.py 213-219). -/
def configLayerConns (t : Peers S) (layers : Layers C S) (n : LayerName) (f : ConnFilter) : PolicyConns C S :=
  match layers.find? (fun l => l.1 = n) with
  | none => layerConns N n [] t f
  | some l => layerConns N n l.2 t f

/-- `NetworkConfig.filter_conns_by_peer_types` (NetworkConfig.py 267-285). -/
def filterConns (t : Peers S) (c : C) : C :=
  let c1 := N.K.sub c (N.rect (some t.ips) (some (N.Q.or t.ips t.dns)) .any)
  N.K.sub c1 (N.rect (some t.dns) none .any)

/-! ### Building the layers -/

/-- `NetworkPolicy.get_order` (NetworkPolicy.py 318-323, K8sNetworkPolicy.py 161-166,
CalicoNetworkPolicy.py 279-284).  SIMPLIFICATION: orders are integers (Calico allows any number). -/
def Policy.getOrder (pol : Policy C S) : Option Int :=
  match pol.kind with
  | .k8s => some 1000
  | .calico | .calicoGlobal | .calicoProfile => pol.order
  | _ => none

/-- `__lt__`: NetworkPolicy.py 138-151, overridden in IstioNetworkPolicy.py 62-66. -/
def Policy.lt (x y : Policy C S) : Bool :=
  match x.kind with
  | .istioAuthz =>
    match y.kind with
    | .istioAuthz => decide (x.action = .deny)
    | _ => false
  | _ =>
    match x.getOrder, y.getOrder with
    | none, _ => false
    | some _, none => true
    | some a, some b => decide (a < b)

/-- The loop of Python's `bisect.bisect_right(a, x)` with `x < a[mid]`. -/
def bisectRight {α : Type} (lt : α → α → Bool) (a : List α) (x : α) (lo hi : Nat) : Nat :=
  if _h : lo < hi then
    let mid := (lo + hi) / 2
    match a[mid]? with
    | some y => if lt x y then bisectRight lt a x lo mid else bisectRight lt a x (mid + 1) hi
    | none => lo
  else lo
termination_by hi - lo
decreasing_by all_goals omega

/-- `insort(self.policies_list, policy)` (NetworkLayer.py 126-131): `a.insert(bisect_right(a, x), x)`. -/
def insort {α : Type} (lt : α → α → Bool) (a : List α) (x : α) : List α :=
  let i := bisectRight lt a x 0 a.length
  a.take i ++ x :: a.drop i

/-- `policy_type_to_layer` (NetworkLayer.py 39-50). -/
def layerOf : PolicyKind → LayerName
  | .k8s | .calico | .calicoGlobal | .calicoProfile => .k8sCalico
  | .istioAuthz | .istioSidecar => .istio
  | .ingress => .k8sGateway
  | .gateway => .istioGateway

/-- `NetworkLayersContainer.__init__` 63-65. -/
def initLayers : Layers C S := [(.k8sCalico, [])]

/-- `NetworkLayersContainer.add_policy` (NetworkLayer.py 70-84). -/
def addToLayers (ls : Layers C S) (pol : Policy C S) (n : LayerName) : Layers C S :=
  let ls1 := if ls.any (fun l => l.1 = n) then
      ls.map (fun l => if l.1 = n then (l.1, insort Policy.lt l.2 pol) else l)
    else ls ++ [(n, [pol])]
  ls1.filter (fun l => !(decide (l.1 = .k8sCalico) && l.2.isEmpty))

/-- `PoliciesContainer` (NetworkConfig.py 14-22); the dict `policies` as the list of its values in
insertion order. -/
structure PolicyStore (C S : Type) where
  policies : List (Policy C S)
  layers : Layers C S

/-- `PoliciesContainer()`. -/
def PolicyStore.empty : PolicyStore C S := ⟨[], initLayers⟩

/-- `append_policy` (NetworkConfig.py 24-41); `none` is the exception for a duplicate name.  (The kinds
of `PolicyKind` are never `Unknown`.) -/
def PolicyStore.append (st : PolicyStore C S) (pol : Policy C S) : Option (PolicyStore C S) :=
  if st.policies.any (fun q => q.name = pol.name ∧ q.kind = pol.kind) then none
  else some ⟨st.policies ++ [pol], addToLayers st.layers pol (layerOf pol.kind)⟩

/-- A configuration built by appending policies one after the other (NetworkConfig.py 259-265). -/
def PolicyStore.build (pols : List (Policy C S)) : Option (PolicyStore C S) :=
  pols.foldlM PolicyStore.append PolicyStore.empty

/-- The order in which `PoliciesFinder.parse_policies_in_parse_queue` (PoliciesFinder.py 68-139) adds
policies: `queue` stands for all policies obtained from the parse queue, in queue order.  Kubernetes,
Calico, authorization and Ingress policies are added as they are parsed; gateway policies after the
queue (122-130), sidecars last (131-136); profiles are not added (74-77). -/
def loadOrder (queue : List (Policy C S)) : List (Policy C S) :=
  queue.filter (fun q => decide (q.kind ≠ .gateway ∧ q.kind ≠ .istioSidecar ∧ q.kind ≠ .calicoProfile)) ++
  queue.filter (fun q => decide (q.kind = .gateway)) ++
  queue.filter (fun q => decide (q.kind = .istioSidecar))

end
end Verif
