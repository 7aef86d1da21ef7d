import Verif.GatewayModel
import Verif.SidecarSpec
/-!
Specification of Istio's gateways, from its reference ("Gateway", "Virtual Service"): which pods are gateways, to which of
them a virtual service is bound, and where a gateway sends a request.  It speaks of one request: its two ends, its port,
host, path and method.  It mentions no automata, no sets of peers and no connection sets.

As the code, it takes the pods of a gateway to which some virtual service is bound to send nothing but what the routes tell
them to, takes routes of all three kinds to apply to all connections (ports of servers are not looked at), and takes the
egress flow to be in use only if both of its parts are configured: routes of the mesh to the service of the egress gateway,
and routes of an egress gateway.
-/
namespace Verif
namespace GtwParser
open Container CalicoParser IstioParser IngressParser SidecarParser

/-! ### Gateways -/

/-- The selector asks for the standard gateway of the kind. -/
def GatewayText.Kind (g : GatewayText) (kind : String) : Prop := ("istio", kind) ∈ g.selector

/-- The place is a pod of the gateway: it has all the labels. -/
def GatewayText.Runs (c : Container) (g : GatewayText) (E : Place) : Prop :=
  AtSome c E fun p => p.kind ≠ .dns ∧ ∀ kv ∈ g.selector, p.HasVal kv.1 kv.2

/-- Some server of the gateway is for the host. -/
def GatewayText.Serves (g : GatewayText) (w : List Char) : Prop := ∃ hosts ∈ g.servers, ∃ h ∈ hosts, NameSays h w

/-- The gateway is a standard one, and it has pods. -/
def GatewayText.Works (c : Container) (g : GatewayText) : Prop := (g.Kind "ingressgateway" ∨ g.Kind "egressgateway") ∧ ∃ E, g.Runs c E

/-- In a virtual service of the namespace, the name is that of the gateway: with or without its namespace. -/
def GatewayText.Named (g : GatewayText) (ns : Ns) (n : String) : Prop :=
  n = g.ns.name ++ "/" ++ g.name ∨ n = g.name ∧ n ≠ "mesh" ∧ g.ns.name = ns.name

/-! ### Routes -/

/-- A condition of a route: for which gateways (all of the virtual service, if empty), which names of TLS, and which paths
and methods. -/
structure Cond where
  gateways : List String
  sni : Option (List (List Char))
  rest : List Char → String → Prop

/-- A route: one of its conditions has to hold. -/
structure RouteView where
  conds : List Cond
  dests : List DestText

/-- A StringMatch. -/
def StrMatch.Says (m : StrMatch) (w : List Char) : Prop :=
  match m.kind with
  | .exact => w = m.text
  | .prefix => m.text <+: w
  | _ => False

/-- The condition of an HTTP route. -/
def HttpMatch.view (m : HttpMatch) : Cond :=
  ⟨m.gateways, none, fun path method => (∀ s, m.uri = some s → s.Says path) ∧ ∀ s, m.method = some s → s.Says method.toList⟩

/-- The condition of a TLS route. -/
def TlsMatch.view (m : TlsMatch) : Cond := ⟨m.gateways, some m.sniHosts, fun _ _ => True⟩

/-- The condition of a TCP route. -/
def tcpView (m : List String) : Cond := ⟨m, none, fun _ _ => True⟩

/-- HTTP routes without conditions are for all requests. -/
def HttpText.view (t : HttpText) : RouteView := ⟨if t.items = [] then [⟨[], none, fun _ _ => True⟩] else t.items.map HttpMatch.view, t.dests⟩

/-- TLS routes have conditions. -/
def TlsText.view (t : TlsText) : RouteView := ⟨t.items.map TlsMatch.view, t.dests⟩

/-- TCP routes without conditions are for all requests. -/
def TcpText.view (t : TcpText) : RouteView := ⟨if t.items = [] then [⟨[], none, fun _ _ => True⟩] else t.items.map tcpView, t.dests⟩

/-- The routes of a virtual service, by their kinds. -/
def VsText.groups (v : VsText) : List (List RouteView) := [v.http.map HttpText.view, v.tls.map TlsText.view, v.tcp.map TcpText.view]

/-- The virtual service is for the host. -/
def VsText.For (v : VsText) (w : List Char) : Prop := ∃ h ∈ v.hosts, NameSays h w

/-- The name of TLS fits. -/
def Cond.Sni (i : Cond) (w : List Char) : Prop := ∀ l, i.sni = some l → ∃ h ∈ l, NameSays h w

/-- The names of the gateways of a condition: its own, those of the virtual service, or that of the mesh. -/
def Cond.names (v : VsText) (i : Cond) : List String :=
  if i.gateways = [] then if v.gateways = [] then ["mesh"] else v.gateways else i.gateways

/-- The condition is for requests at the gateway. -/
def Cond.At (v : VsText) (g : GatewayText) (i : Cond) : Prop := ∃ n ∈ i.names v, g.Named v.ns n

/-- The condition is for requests in the mesh. -/
def Cond.Mesh (v : VsText) (i : Cond) : Prop := "mesh" ∈ i.names v

/-- A condition, among those that count, holds for the request. -/
def RouteView.Fits (on : Cond → Prop) (r : RouteView) (q : Request) : Prop := ∃ i ∈ r.conds, on i ∧ i.Sni q.host ∧ i.rest q.path q.method

/-- The route is the one that decides: the first one that fits. -/
def Decides (on : Cond → Prop) (group : List RouteView) (r : RouteView) (q : Request) : Prop :=
  ∃ a b, group = a ++ r :: b ∧ r.Fits on q ∧ ∀ r' ∈ a, ¬ r'.Fits on q

/-! ### Destinations -/

/-- The destination is the service: by its full name, or by its name in the same namespace. -/
def DestText.Service (ns : Ns) (d : DestText) (s : SvcText) : Prop := d.host = svcName s ∨ d.host = s.name.toList ∧ s.ns.name = ns.name

/-- The destination is the port of the service: that of its number, or the only one. -/
def DestText.Port (d : DestText) (s : SvcText) (p : SvcPortText) : Prop :=
  match d.port with
  | none => s.ports = [p]
  | some n => p.num = some n

/-- The destination leads to port `x` of the place: a pod of a service, or a DNS entry. -/
def DestText.Leads (rg : PodReg) (c : Container) (l : List SvcText) (ns : Ns) (d : DestText) (E : Place) (x : Int) : Prop :=
  (∃ s ∈ l, d.Service ns s ∧ ∃ p ∈ s.ports, d.Port s p ∧ Picks c s E ∧ TargetIs rg p E x) ∨ IsDns c E d.host ∧ d.port = some x

/-- The destination is the service of the egress gateway. -/
def DestText.ToEgress (d : DestText) (s : SvcText) : Prop :=
  d.host = "istio-egressgateway.istio-system.svc.cluster.local".toList ∧ d.host = svcName s

/-! ### What gateways let through -/

/-- The route binds the virtual service to the gateway: it is for the gateway, and some host fits them. -/
def Binds (c : Container) (v : VsText) (r : RouteView) (g : GatewayText) : Prop :=
  g.Works c ∧ ∃ i ∈ r.conds, i.At v g ∧ ∃ w, v.For w ∧ g.Serves w ∧ i.Sni w

/-- The place is a pod of a gateway of the kind, to which some virtual service is bound. -/
def GatewayPod (c : Container) (gs : List GatewayText) (vs : List VsText) (kind : String) (E : Place) : Prop :=
  ∃ v ∈ vs, ∃ group ∈ v.groups, ∃ r ∈ group, ∃ g ∈ gs, g.Kind kind ∧ Binds c v r g ∧ g.Runs c E

/-- A gateway of the kind sends the request to `dst`. -/
def Forwards (rg : PodReg) (c : Container) (l : List SvcText) (gs : List GatewayText) (vs : List VsText) (kind : String) (src dst : Place)
    (q : Request) : Prop :=
  ∃ v ∈ vs, v.For q.host ∧ ∃ g ∈ gs, g.Kind kind ∧ g.Runs c src ∧ g.Serves q.host ∧
    ∃ group ∈ v.groups, ∃ r, Decides (Cond.At v g) group r q ∧ ∃ d ∈ r.dests, d.Leads rg c l v.ns dst q.port

/-- A route of the mesh leads to the service of the egress gateway. -/
def MeshRoute (l : List SvcText) (vs : List VsText) (s : SvcText) : Prop :=
  s ∈ l ∧ ∃ v ∈ vs, ∃ group ∈ v.groups, ∃ r ∈ group, (∃ i ∈ r.conds, i.Mesh v) ∧ ∃ d ∈ r.dests, d.ToEgress s

/-- The place is in the mesh: all pods are. -/
def InMesh (c : Container) (E : Place) : Prop := AtSome c E fun p => p.kind ≠ .dns

/-- The mesh sends the request to the service of the egress gateway. -/
def FromMesh (rg : PodReg) (c : Container) (l : List SvcText) (vs : List VsText) (src dst : Place) (q : Request) : Prop :=
  InMesh c src ∧ ∃ v ∈ vs, v.For q.host ∧ ∃ group ∈ v.groups, ∃ r, Decides (Cond.Mesh v) group r q ∧
    ∃ d ∈ r.dests, (∃ s ∈ l, d.ToEgress s) ∧ d.Leads rg c l v.ns dst q.port

/-- The egress flow is in use. -/
def EgressFlow (c : Container) (l : List SvcText) (gs : List GatewayText) (vs : List VsText) : Prop :=
  (∃ s, MeshRoute l vs s) ∧ ∃ v ∈ vs, ∃ group ∈ v.groups, ∃ r ∈ group, ∃ g ∈ gs, g.Kind "egressgateway" ∧ Binds c v r g

/-- The place is a DNS entry that an egress gateway is for. -/
def ViaEgress (c : Container) (gs : List GatewayText) (vs : List VsText) (E : Place) : Prop :=
  ∃ v ∈ vs, ∃ group ∈ v.groups, ∃ r ∈ group, ∃ g ∈ gs, g.Kind "egressgateway" ∧ Binds c v r g ∧ ∃ d ∈ r.dests, IsDns c E d.host

/-- The pod is one of a gateway in use. -/
def IsGateway (c : Container) (l : List SvcText) (gs : List GatewayText) (vs : List VsText) (E : Place) : Prop :=
  GatewayPod c gs vs "ingressgateway" E ∨ EgressFlow c l gs vs ∧ GatewayPod c gs vs "egressgateway" E

/-- The gateways let the request through: those in use send only what their routes tell them to; if the egress flow is in
use, other sources do not reach its destinations themselves, and the egress gateway gets only what the routes of the mesh
send. -/
def GatewaysSay (rg : PodReg) (c : Container) (l : List SvcText) (gs : List GatewayText) (vs : List VsText) (src dst : Place) (q : Request) : Prop :=
  (IsGateway c l gs vs src → Forwards rg c l gs vs "ingressgateway" src dst q ∨ EgressFlow c l gs vs ∧ Forwards rg c l gs vs "egressgateway" src dst q) ∧
  (EgressFlow c l gs vs → (¬ IsGateway c l gs vs src → ¬ ViaEgress c gs vs dst) ∧
    ((∃ s, MeshRoute l vs s ∧ Picks c s dst) → FromMesh rg c l vs src dst q))

/-! ### Legal texts, and those that the code reads wrongly -/

/-- A legal host; hosts with namespaces are ignored (`C59_host_namespace_wrong`). -/
def HostOk (h : List Char) : Prop := h = ['*'] ∨ HostLegal h ∧ '/' ∉ h ∧ h.head? ≠ some '.'

/-- The wildcards of the host stand for letters, digits and `_` only in `w` (`C59_wildcard_wrong`). -/
def Plain (h w : List Char) : Prop := ∀ s u, h = '*' :: '.' :: s → w = u ++ '.' :: s → u ≠ [] ∧ ∀ a ∈ u, WordChar a

/-- The gateway is legal. -/
structure GatewayText.Tame (g : GatewayText) : Prop where
  name : '/' ∉ g.name.toList
  ns : '/' ∉ g.ns.name.toList
  keys : (g.selector.map (·.1)).Nodup
  servers : g.servers ≠ []
  hosts : ∀ hosts ∈ g.servers, hosts ≠ [] ∧ ∀ h ∈ hosts, HostOk h

/-- The destination is a port of a service, for TCP. -/
inductive DestText.Local (c : Container) (l : List SvcText) (ns : Ns) (d : DestText) : Prop
  | short : d.host ≠ [] → '.' ∉ d.host → (∀ E, ¬ IsDns c E d.host) → '*' ∉ d.host →
      (∀ s ∈ l, d.Service ns s → ∃ p ∈ s.ports, d.Port s p ∧ p.protocol.getD "TCP" = "TCP" ∧ p.target ≠ some (.inr "")) → d.Local c l ns
  | long {a b : List Char} : d.host = a ++ '.' :: (b ++ '.' :: "svc.cluster.local".toList) → a ≠ [] → '.' ∉ a → '.' ∉ b → '/' ∉ b → '*' ∉ d.host →
      (∀ s ∈ l, d.Service ns s → ∃ p ∈ s.ports, d.Port s p ∧ p.protocol.getD "TCP" = "TCP" ∧ p.target ≠ some (.inr "")) → d.Local c l ns

/-- The destination is the given port of a name outside of the mesh. -/
structure DestText.External (d : DestText) : Prop where
  dot : '.' ∈ d.host
  star : '*' ∉ d.host
  name : ¬ "svc.cluster.local".toList <:+: d.host
  port : ∃ n, d.port = some n ∧ 1 ≤ n ∧ n ≤ 65535

/-- The path of a StringMatch is one that the code reads as Istio does: letters without dots.  The code takes paths as regular
expressions, where dots stand for any character. -/
def StrMatch.UriTame (m : StrMatch) : Prop := (m.kind = .exact ∨ m.kind = .prefix) ∧ ∃ t, m.text = '/' :: t ∧ ∀ a ∈ t, Letter a ∧ a ≠ '.'

/-- The method of a StringMatch is one that the code reads as Istio does: it is known (`C59_unknown_method_wrong`). -/
def StrMatch.MethodTame (m : StrMatch) : Prop :=
  (∀ a ∈ m.text, a.isUpper = true) ∧ (m.kind = .exact ∧ (∃ x ∈ MethodSet.allMethods, m.text = x.toList) ∨ m.kind = .prefix ∧ ∃ x ∈ MethodSet.allMethods, m.text <+: x.toList)

/-- The HTTP route is one that the code reads as Istio does: its conditions are for the same gateways
(`C59_match_gateways_wrong`), all have paths or none (`C59_no_uri_wrong`), and every path goes with every method
(`C59_product_wrong`). -/
structure HttpText.Tame (t : HttpText) : Prop where
  gateways : ∀ i ∈ t.items, ∀ j ∈ t.items, i.gateways = j.gateways
  uris : ∀ i ∈ t.items, ∀ j ∈ t.items, i.uri = none → j.uri = none
  product : ∀ i ∈ t.items, ∀ j ∈ t.items, ∃ k ∈ t.items, k.uri = i.uri ∧ k.method = j.method
  uri : ∀ i ∈ t.items, ∀ s, i.uri = some s → s.UriTame
  method : ∀ i ∈ t.items, ∀ s, i.method = some s → s.MethodTame

/-- The name of TLS is covered by a host of the virtual service. -/
def Within (h h' : List Char) : Prop := h' = ['*'] ∨ h' = h ∨ '*' ∉ h ∧ ∃ s u, h' = '*' :: '.' :: s ∧ h = u ++ '.' :: s ∧ ∀ a ∈ u, WordChar a

/-- The TLS route is legal, and its conditions are for the same gateways. -/
structure TlsText.Tame (v : VsText) (t : TlsText) : Prop where
  gateways : ∀ i ∈ t.items, ∀ j ∈ t.items, i.gateways = j.gateways
  hosts : ∀ i ∈ t.items, i.sniHosts ≠ [] ∧ ∀ h ∈ i.sniHosts, HostOk h ∧ ∃ h' ∈ v.hosts, Within h h'

/-- The conditions of the TCP route are for the same gateways. -/
def TcpText.Tame (t : TcpText) : Prop := ∀ i ∈ t.items, ∀ j ∈ t.items, i = j

/-- The destinations of the route are of one kind (`C59_mixed_rejected`), and outside of the mesh for egress gateways
(`C59_egress_internal_rejected`). -/
structure RouteView.Tame (c : Container) (l : List SvcText) (gs : List GatewayText) (v : VsText) (r : RouteView) : Prop where
  dests : (∀ d ∈ r.dests, d.Local c l v.ns) ∨ ∀ d ∈ r.dests, d.External
  egress : ∀ g ∈ gs, g.Kind "egressgateway" → ∀ i ∈ r.conds, i.At v g → ∀ d ∈ r.dests, d.External
  overlap : ∀ g ∈ gs, ∀ i ∈ r.conds, ∀ w, v.For w → g.Serves w → i.Sni w → ∃ w', v.For w' ∧ g.Serves w' ∧ i.Sni w' ∧ (∀ a ∈ w', Letter a) ∧
    (∀ h ∈ v.hosts, Plain h w') ∧ (∀ hosts ∈ g.servers, ∀ h ∈ hosts, Plain h w') ∧ ∀ l, i.sni = some l → ∀ h ∈ l, Plain h w'

/-- The virtual service is legal, and one that the code reads as Istio does. -/
structure VsText.Tame (c : Container) (l : List SvcText) (gs : List GatewayText) (v : VsText) : Prop where
  ns : '/' ∉ v.ns.name.toList
  given : v.hosts ≠ []
  hosts : ∀ h ∈ v.hosts, HostOk h
  http : ∀ t ∈ v.http, t.Tame
  tls : ∀ t ∈ v.tls, t.Tame v
  tcp : ∀ t ∈ v.tcp, t.Tame
  routes : ∀ group ∈ v.groups, ∀ r ∈ group, r.Tame c l gs v

/-- No two gateways have the same name. -/
def NamesDiffer (l : List GatewayText) : Prop := l.Pairwise fun t t' => ¬ (t.name = t'.name ∧ t.ns.name = t'.ns.name)

/-- No two virtual services have the same name. -/
def VsDiffer (l : List VsText) : Prop := l.Pairwise fun t t' => ¬ (t.name = t'.name ∧ t.ns.name = t'.ns.name)

/-! ### When the names of the policies differ -/

/-- The lists of routes that the code counts, each from one: routes of HTTP, of TLS and of TCP.  It leaves out routes of TLS
without matches. -/
def VsText.numbered (v : VsText) : List (List RouteView) :=
  [v.http.map HttpText.view, (v.tls.map TlsText.view).filter fun r => !r.conds.isEmpty, v.tcp.map TcpText.view]

/-- No two routes with the same number are both bound to the gateway. -/
def Apart (c : Container) (v : VsText) (g : GatewayText) (A B : List RouteView) : Prop :=
  ∀ (n : Nat) (r r' : RouteView), A[n]? = some r → B[n]? = some r' → ¬ (Binds c v r g ∧ Binds c v r' g)

/-- The route is one of the mesh, with the egress gateway as a destination. -/
def RouteView.ToEgress (l : List SvcText) (v : VsText) (r : RouteView) : Prop := (∃ i ∈ r.conds, i.Mesh v) ∧ ∃ d ∈ r.dests, ∃ s ∈ l, d.ToEgress s

/-- No two routes with the same number both lead from the mesh to the egress gateway. -/
def ApartMesh (l : List SvcText) (v : VsText) (A B : List RouteView) : Prop :=
  ∀ (n : Nat) (r r' : RouteView), A[n]? = some r → B[n]? = some r' → ¬ (r.ToEgress l v ∧ r'.ToEgress l v)

/-- At most one destination of the route is the egress gateway. -/
def RouteView.OneEgress (l : List SvcText) (v : VsText) (r : RouteView) : Prop :=
  (∃ i ∈ r.conds, i.Mesh v) → r.dests.Pairwise fun d d' => ¬ ((∃ s ∈ l, d.ToEgress s) ∧ ∃ s ∈ l, d'.ToEgress s)

/-- The policies made from the virtual service have different names.  A name has the virtual service, the number of the route,
and the gateway or the destination, but not the kind of the route (`C60_numbers_wrong`). -/
structure VsText.Distinct (c : Container) (l : List SvcText) (gts : List GatewayText) (vts : List VsText) (v : VsText) : Prop where
  gateways : ∀ g ∈ gts, g.Kind "ingressgateway" ∨ EgressFlow c l gts vts → v.numbered.Pairwise (Apart c v g)
  mesh : EgressFlow c l gts vts → v.numbered.Pairwise (ApartMesh l v)
  one : EgressFlow c l gts vts → ∀ group ∈ v.numbered, ∀ r ∈ group, r.OneEgress l v

/-- The name can be read: neither a slash nor a comma ends a part of it early. -/
structure Readable (v : VsText) : Prop where
  slash : '/' ∉ v.ns.name.toList
  name : ',' ∉ v.name.toList
  ns : ',' ∉ v.ns.name.toList

/-- The path of the request is one for which the code reads the StringMatch as Istio does: prefixes end at the ends of
elements (`C59_prefix_wrong`). -/
def UriPlain (m : StrMatch) (w : List Char) : Prop :=
  m.kind = .prefix → (m.text = ['/'] → ['/'] <+: w) ∧ (m.text ≠ ['/'] → trim m.text <+: w → w = m.text ∨ trim m.text ++ ['/'] <+: w)

/-- The request to `dst` is one for which the code reads the virtual service as Istio does: if it is for its host, no two
routes fit (`C59_order_wrong`); and if it fits a route of the mesh to the egress gateway there, it is for its host
(`C59_mesh_host_wrong`). -/
structure ReqTame (rg : PodReg) (c : Container) (l : List SvcText) (gs : List GatewayText) (v : VsText) (dst : Place) (q : Request) : Prop where
  hosts : ∀ h ∈ v.hosts, Plain h q.host
  sni : ∀ t ∈ v.tls, ∀ i ∈ t.items, ∀ h ∈ i.sniHosts, Plain h q.host
  uri : ∀ t ∈ v.http, ∀ i ∈ t.items, ∀ s, i.uri = some s → UriPlain s q.path
  one : v.For q.host → ∀ group ∈ v.groups, ∀ g ∈ gs, group.Pairwise fun r r' => ¬ (r.Fits (Cond.At v g) q ∧ r'.Fits (Cond.At v g) q)
  oneMesh : v.For q.host → ∀ group ∈ v.groups, group.Pairwise fun r r' => ¬ (r.Fits (Cond.Mesh v) q ∧ r'.Fits (Cond.Mesh v) q)
  mesh : ∀ group ∈ v.groups, ∀ r ∈ group, r.Fits (Cond.Mesh v) q → ∀ d ∈ r.dests, (∃ s ∈ l, d.ToEgress s) → d.Leads rg c l v.ns dst q.port → v.For q.host

/-- The request is one for which the code reads all gateways and virtual services as Istio does. -/
def ReqsTame (rg : PodReg) (c : Container) (l : List SvcText) (gs : List GatewayText) (vs : List VsText) (dst : Place) (q : Request) : Prop :=
  (∀ v ∈ vs, ReqTame rg c l gs v dst q) ∧ ∀ g ∈ gs, ∀ hosts ∈ g.servers, ∀ h ∈ hosts, Plain h q.host

/-- The egress gateway keeps the place from reaching the DNS entry itself. -/
def Kept (c : Container) (gs : List GatewayText) (vs : List VsText) (src dst : Place) : Prop :=
  ∃ v ∈ vs, ∃ group ∈ v.groups, ∃ r ∈ group, ∃ g ∈ gs, g.Kind "egressgateway" ∧ Binds c v r g ∧ InMesh c src ∧ ¬ g.Runs c src ∧ ∃ d ∈ r.dests, IsDns c dst d.host

/-- What is assumed of `re.match` for methods: letters stand for themselves, and only the beginning has to match. -/
def RxOk (rx : List Char → String → Bool) : Prop :=
  ∀ s, (∀ a ∈ s, a.isUpper = true) → ∀ m, (rx s m = true ↔ s <+: m.toList) ∧ (rx (s ++ "[.\\w/\\-]*".toList) m = true ↔ s <+: m.toList)

end GtwParser
end Verif
