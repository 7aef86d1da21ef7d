import Verif.PolicyModel
/-!
Meaning of policies and layers on a single connection, written without any of the set computations of
the model: which rule matches first, which policy decides, who is captured.
-/
namespace Verif

section
variable {C P E S : Type} (N : Net C P E S)

/-- First rule that matches the connection and is not a Log rule. -/
def firstMatch (p : P) : List (Rule C) → Option RuleAction
  | [] => none
  | r :: rs => if r.action ≠ .log ∧ N.K.mem p r.props = true then some r.action else firstMatch p rs

/-- Some rule matches the connection. -/
def anyMatch (p : P) (rs : List (Rule C)) : Bool := rs.any (fun r => N.K.mem p r.props)

/-- The rules of a direction. -/
def Policy.rules (pol : Policy C S) (isIngress : Bool) : List (Rule C) :=
  if isIngress then pol.ingressRules else pol.egressRules

/-- The end of a connection that a direction is about. -/
def endpoint (isIngress : Bool) (p : P) : E := if isIngress then N.dst p else N.src p

/-- The other end. -/
def otherEnd (isIngress : Bool) (p : P) : E := if isIngress then N.src p else N.dst p

/-- Whether a policy governs a direction: authorization policies are about ingress only, sidecars
about egress only. -/
def Policy.governs (pol : Policy C S) (isIngress : Bool) : Bool :=
  match pol.kind with
  | .istioAuthz => isIngress
  | .istioSidecar => !isIngress && pol.affectsEgress
  | _ => if isIngress then pol.affectsIngress else pol.affectsEgress

/-- A policy captures an endpoint in a direction. -/
def Policy.captures (pol : Policy C S) (isIngress : Bool) (e : E) : Bool :=
  pol.governs isIngress && N.Q.mem e pol.selected

/-- What the rules of a policy say about a connection, if anything. -/
def Policy.ruleVerdict (pol : Policy C S) (isIngress : Bool) (p : P) : Option RuleAction :=
  match pol.kind with
  | .k8s | .istioSidecar => if anyMatch N p (pol.rules isIngress) then some .allow else none
  | .calico | .calicoGlobal | .calicoProfile => firstMatch N p (pol.rules isIngress)
  | .istioAuthz | .ingress | .gateway =>
    if anyMatch N p (pol.rules isIngress) then
      some (match pol.action with | .allow => .allow | .deny => .deny)
    else none

/-- The verdict of the first policy, in the given order, that captures the endpoint and has a rule
for the connection. -/
def layerVerdict (pols : List (Policy C S)) (isIngress : Bool) (p : P) : Option RuleAction :=
  pols.findSome? (fun pol => if pol.captures N isIngress (endpoint N isIngress p) then pol.ruleVerdict N isIngress p else none)

/-- Calico policies, the only ones whose rules have actions. -/
def Policy.isCalico (pol : Policy C S) : Bool :=
  match pol.kind with
  | .calico | .calicoGlobal | .calicoProfile => true
  | _ => false

/-- Legal policies: rule connections are sets that may be subtracted from, and concern only the
peers selected by the policy (the parsers intersect every rule with the selected peers). -/
structure Policy.Legal (Strong : C → Prop) (pol : Policy C S) : Prop where
  strong : ∀ isIngress, ∀ r ∈ pol.rules isIngress, Strong r.props
  selected : ∀ isIngress, ∀ r ∈ pol.rules isIngress, ∀ p, N.K.mem p r.props = true →
    N.Q.mem (endpoint N isIngress p) pol.selected = true

/-- No Calico rule passes. -/
def NoPass (pols : List (Policy C S)) : Prop :=
  ∀ pol ∈ pols, pol.isCalico = true → ∀ isIngress, ∀ r ∈ pol.rules isIngress, r.action ≠ .pass

/-- The condition under which chained subtractions are exact: either subtraction is exact on every
set (true of mathematical sets, false of the hyper-cube sets, see `C11_sub_from_empty_wrong`), or no
Pass rule occurs. -/
def SubExact (Ok Strong : C → Prop) (pols : List (Policy C S)) : Prop :=
  (∀ a, Ok a → Strong a) ∨ NoPass pols

/-! ### Layers -/

/-- Pods and host endpoints. -/
def Peers.workload (t : Peers S) (e : E) : Prop := N.Q.mem e t.pods = true ∨ N.Q.mem e t.heps = true

/-- Peers known to the configuration other than DNS entries. -/
def Peers.nonDns (t : Peers S) (e : E) : Prop := t.workload N e ∨ N.Q.mem e t.ips = true

/-- Peers known to the configuration. -/
def Peers.known (t : Peers S) (e : E) : Prop := t.nonDns N e ∨ N.Q.mem e t.dns = true

/-- Peers with a default-allow profile: pods and DNS entries, not host endpoints. -/
def Peers.hasDefault (t : Peers S) (e : E) : Prop := N.Q.mem e t.pods = true ∨ N.Q.mem e t.dns = true

/-- A direction of a Kubernetes/Calico layer allows a connection: the deciding policy allows it, or
the endpoint has a default profile and either no policy captures it or the deciding policy passes. -/
def calicoAllows (pols : List (Policy C S)) (t : Peers S) (dir : Bool) (p : P) : Prop :=
  layerVerdict N pols dir p = some .allow ∨
  ((layerVerdict N pols dir p = some .pass ∨ ∀ pol ∈ pols, pol.captures N dir (endpoint N dir p) = false) ∧
    t.hasDefault N (endpoint N dir p) ∧ t.known N (otherEnd N dir p))

/-- Policies that turn off the default of an Istio layer: all but DENY authorization and gateway
policies. -/
def Policy.restricts (pol : Policy C S) : Prop :=
  (pol.kind = .istioAuthz ∨ pol.kind = .gateway) → pol.action = .allow

/-- No restricting policy captures the endpoint. -/
def istioOpen (pols : List (Policy C S)) (dir : Bool) (e : E) : Prop :=
  ∀ pol ∈ pols, pol.restricts → pol.captures N dir e = false

/-- Kind of connections an Istio layer allows by default in a direction: of workloads, with non-DNS
peers, and TCP to DNS entries. -/
def istioDefault (t : Peers S) (dir : Bool) (p : P) : Prop :=
  if dir then
    t.nonDns N (N.src p) ∧ (t.workload N (N.dst p) ∨ (N.Q.mem (N.dst p) t.dns = true ∧ N.isTcp p = true))
  else
    t.workload N (N.src p) ∧ (t.nonDns N (N.dst p) ∨ (N.Q.mem (N.dst p) t.dns = true ∧ N.isTcp p = true))

/-- A direction of an Istio layer allows a connection: the deciding policy allows it, or it is not TCP,
or no restricting policy captures the endpoint and no policy denies the connection. -/
def istioAllows (pols : List (Policy C S)) (t : Peers S) (dir : Bool) (p : P) : Prop :=
  layerVerdict N pols dir p = some .allow ∨
  (N.isTcp p = false ∧ t.nonDns N (N.src p) ∧ t.nonDns N (N.dst p)) ∨
  (istioOpen N pols dir (endpoint N dir p) ∧ layerVerdict N pols dir p ≠ some .deny ∧ istioDefault N t dir p)

/-- A direction of a layer allows a connection. -/
def layerDirAllows (n : LayerName) : List (Policy C S) → Peers S → Bool → P → Prop :=
  match n with
  | .k8sCalico | .k8sGateway => calicoAllows N
  | .istio | .istioGateway => istioAllows N

/-- A layer allows a connection: on ingress and on egress; external addresses are not policed. -/
def layerAllows (n : LayerName) (pols : List (Policy C S)) (t : Peers S) (p : P) : Prop :=
  (layerDirAllows N n pols t true p ∨ (t.workload N (N.src p) ∧ N.Q.mem (N.dst p) t.ips = true)) ∧
  (layerDirAllows N n pols t false p ∨ (N.Q.mem (N.src p) t.ips = true ∧ t.workload N (N.dst p)))

/-- The layers that matter: host endpoints bring in the Kubernetes/Calico layer. -/
def effectiveLayers (t : Peers S) (layers : Layers C S) : Layers C S :=
  if N.Q.truthy t.heps && !(layers.any (fun l => l.1 = .k8sCalico)) then (.k8sCalico, []) :: layers else layers

/-- A configuration allows a connection: both ends are known and every layer allows it. -/
def configAllows (t : Peers S) (layers : Layers C S) (p : P) : Prop :=
  t.known N (N.src p) ∧ t.known N (N.dst p) ∧ ∀ l ∈ effectiveLayers N t layers, layerAllows N l.1 l.2 t p

/-- Legal configurations. -/
structure LegalLayers (Ok Strong : C → Prop) (layers : Layers C S) : Prop where
  legal : ∀ l ∈ layers, ∀ pol ∈ l.2, pol.Legal N Strong
  exact : ∀ l ∈ layers, SubExact Ok Strong l.2

/-- Some workload is not captured on ingress by the restricting policies.  The layer code adds the
default for DNS destinations only in this case. -/
def SomeOpen (pols : List (Policy C S)) (t : Peers S) : Prop :=
  ∃ e, t.workload N e ∧ istioOpen N pols true e

/-- Excludes the case in which the layer code forgets the default for a DNS destination. -/
def DnsOk (n : LayerName) (pols : List (Policy C S)) (t : Peers S) (p : P) : Prop :=
  match n with
  | .k8sCalico | .k8sGateway => True
  | .istio | .istioGateway => SomeOpen N pols t ∨ N.Q.mem (N.dst p) t.dns = false

/-- A layer captures an endpoint in a direction. -/
def layerCaptures (n : LayerName) (pols : List (Policy C S)) (dir : Bool) (e : E) : Prop :=
  match n with
  | .k8sCalico | .k8sGateway => ∃ pol ∈ pols, pol.captures N dir e = true
  | .istio | .istioGateway => ∃ pol ∈ pols, pol.restricts ∧ pol.captures N dir e = true

/-- A direction of a layer allows a connection because of a policy. -/
def explicitAllows (n : LayerName) (pols : List (Policy C S)) (t : Peers S) (dir : Bool) (p : P) : Prop :=
  match n with
  | .k8sCalico | .k8sGateway => layerVerdict N pols dir p = some .allow ∨
      (layerVerdict N pols dir p = some .pass ∧ t.hasDefault N (endpoint N dir p) ∧ t.known N (otherEnd N dir p))
  | .istio | .istioGateway => layerVerdict N pols dir p = some .allow

/-- A configuration denies a connection: a policy of some layer denies it in some direction; policies
outside the Kubernetes/Calico layer do not concern host endpoints. -/
def configDenies (t : Peers S) (layers : Layers C S) (p : P) : Prop :=
  ∃ l ∈ layers, (l.1 ≠ .k8sCalico → N.Q.mem (N.src p) t.heps = false ∧ N.Q.mem (N.dst p) t.heps = false) ∧
    (layerVerdict N l.2 true p = some .deny ∨ layerVerdict N l.2 false p = some .deny)

/-- Some policy of some layer explicitly allows the connection. -/
def configDecides (t : Peers S) (layers : Layers C S) (p : P) : Prop :=
  ∃ l ∈ layers, explicitAllows N l.1 l.2 t true p ∨ explicitAllows N l.1 l.2 t false p

end
end Verif
