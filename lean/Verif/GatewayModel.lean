import Verif.SidecarModel
/-!
Model of Istio's Gateway and VirtualService resources: their parsers (nca/Parsers/IstioGatewayYamlParser.py,
nca/Parsers/IstioVirtualServiceYamlParser.py, nca/Parsers/GenericGatewayYamlParser.py, nca/Resources/OtherResources/Gateway.py,
nca/Resources/OtherResources/VirtualService.py) and the generator of their policies
(nca/Parsers/IstioGatewayPolicyGenerator.py).

Hosts and paths are lists of characters.  `none` is a reported error or an exception.  Not modelled: the checks of field
names and types (they only reject input), ports of servers (they are read but not used), warnings, and the peers of a rule
(they are only used to report empty rules).
-/
namespace Verif
open ISet

namespace GtwParser
open Container IstioParser IngressParser SidecarParser

/-! ### Texts -/

/-- A Gateway as the user writes it: its name and namespace, the selector, and the hosts of each server. -/
structure GatewayText where
  name : String
  ns : Ns
  selector : Labels
  servers : List (List (List Char))

/-- The key of a StringMatch (IstioVirtualServiceYamlParser.py 168-184). -/
inductive MatchKind | exact | «prefix» | regex | other
  deriving DecidableEq

/-- A StringMatch; those with no key or with several ones are treated as those with an unknown key (162-167). -/
structure StrMatch where
  kind : MatchKind
  text : List Char

/-- An element of `match` of an HTTP route (201-206). -/
structure HttpMatch where
  uri : Option StrMatch
  method : Option StrMatch
  gateways : List String

/-- An element of `match` of a TLS route (231-234). -/
structure TlsMatch where
  sniHosts : List (List Char)
  gateways : List String

/-- A destination (310-316); the port is its number. -/
structure DestText where
  host : List Char
  port : Option Int

/-- An HTTP route. -/
structure HttpText where
  items : List HttpMatch
  dests : List DestText

/-- A TLS route. -/
structure TlsText where
  items : List TlsMatch
  dests : List DestText

/-- A TCP route; only the gateways of its matches are read (267-271). -/
structure TcpText where
  items : List (List String)
  dests : List DestText

/-- A VirtualService as the user writes it. -/
structure VsText where
  name : String
  ns : Ns
  hosts : List (List Char)
  gateways : List String
  http : List HttpText
  tls : List TlsText
  tcp : List TcpText

/-! ### Gateways -/

/-- `Gateway` (Gateway.py 47-64): its full name, whether it is an egress gateway, its pods, and `all_hosts_dfa`. -/
structure Gtw (V2 : Type) where
  key : String
  egress : Bool
  peers : PeerSet String
  hosts : Option V2

/-- The type of a gateway (IstioGatewayYamlParser.py 72-79): the last one that the selector asks for. -/
def gtwType (selector : Labels) : Option Bool :=
  selector.foldl (fun t kv => if kv.1 = "istio" then if kv.2 = "ingressgateway" then some false else if kv.2 = "egressgateway" then some true else t else t) none

/-- The pods of a gateway (71-85). -/
def gtwPeers (c : Container) (selector : Labels) : PeerSet String :=
  selector.foldl (fun peers kv => let s := c.withLabel kv.1 [kv.2] false; if s.isEmpty then [] else peers.and s) (c.allPeers false true false)

section
variable {V2 X2 : Type} (A2 : VAlg Dim V2 X2) (dfa : List Char → V2) (word : Char → Bool)

/-- `parse_host_value` (GenericGatewayYamlParser.py 59-70); `some none` is an ignored host. -/
def parseHost (h : List Char) : Option (Option V2) := if '/' ∈ h then some none else hostValue A2 dfa word (some h)

/-- One step of the loop over the hosts of a server (IstioGatewayYamlParser.py 113-116, `add_host`, Gateway.py 38-45). -/
def hostStep (acc : Option V2) (h : List Char) : Option (Option V2) :=
  (parseHost A2 dfa word h).map fun v => match v.filter A2.truthy with
    | none => acc
    | some v => some (joinDfa A2 acc v)

/-- One step of the loop over the servers (IstioGatewayYamlParser.py 105-120, `add_server`, Gateway.py 72-81). -/
def serverStep (acc : Option V2) (hosts : List (List Char)) : Option (Option V2) :=
  (hosts.foldlM (hostStep A2 dfa word) none).bind fun v => match v.filter A2.truthy with
    | none => none
    | some v => some (some (joinDfa A2 acc v))

/-- `parse_gateway` (IstioGatewayYamlParser.py 52-95); `some none` is an ignored gateway. -/
def parseGateway (c : Container) (t : GatewayText) : Option (Option (Gtw V2)) :=
  match gtwType t.selector with
  | none => some none
  | some egress =>
    if (gtwPeers c t.selector).isEmpty then some none
    else (t.servers.foldlM (serverStep A2 dfa word) none).map fun hosts => some ⟨fullName t.name t.ns, egress, gtwPeers c t.selector, hosts⟩

/-- `self.gateways[gateway.full_name()] = gateway` (30-36). -/
def putGateway (l : List (Gtw V2)) (g : Gtw V2) : List (Gtw V2) :=
  if l.any (fun e => decide (e.key = g.key)) then l.map fun e => if e.key = g.key then g else e else l ++ [g]

/-- The gateways of the parser, after all resources. -/
def gateways (c : Container) (l : List GatewayText) : Option (List (Gtw V2)) :=
  (l.mapM (parseGateway A2 dfa word c)).map fun l => (l.filterMap id).foldl putGateway []

/-! ### VirtualServices -/

/-- `VirtualService.Destination` (VirtualService.py): its host, pods and ports. -/
structure Dest where
  host : List Char
  pods : PeerSet String
  ports : PortSet

/-- `VirtualService.Route`: `internal` is `is_internal_dest`, `none` before the first destination. -/
structure Route (V2 : Type) where
  dests : List Dest
  internal : Option Bool
  uri : Option V2
  sni : Option V2
  methods : Option ISet
  gateways : List String

/-- `VirtualService`; the key is its full name. -/
structure Vs (V2 : Type) where
  key : String
  ns : Ns
  hosts : List V2
  gateways : List String
  http : List (Route V2)
  tls : List (Route V2)
  tcp : List (Route V2)

/-- The name of a gateway of `gateways` (IstioVirtualServiceYamlParser.py 95-102, VirtualService.py 158-166). -/
def gtwRef (ns : Ns) (g : String) : String := if '/' ∈ g.toList then g else fullName g ns

/-- `parse_vs_gateways` (IstioVirtualServiceYamlParser.py 74-102) for a list that is given, with `add_mesh` and `add_gateway`
(VirtualService.py 158-175). -/
def addGateways (ns : Ns) (acc : List String) (l : List String) : List String :=
  l.foldl (fun acc g => if g = "mesh" then if "mesh" ∈ acc then acc else acc ++ ["mesh"] else acc ++ [gtwRef ns g]) acc

variable (rx : List Char → String → Bool)

/-- `default_alphabet_regex` (nca/CoreDS/MinDFA.py). -/
def anyText : List Char := alphabet ++ ['*']

/-- `parse_istio_regex_string` for `uri` (IstioVirtualServiceYamlParser.py 151-188).  `ignoreUriCase` is not an allowed
field, and the result of `regex.replace` (176) is not used. -/
def uriDfa : Option StrMatch → Option V2
  | none => none
  | some m => match m.kind with
    | .exact => some (dfa m.text)
    | .prefix => some (prefixDfa A2 dfa m.text)
    | .regex => some (dfa m.text)
    | .other => none

/-- `parse_istio_regex_string` for `method`; `rx` is `re.match`. -/
def methodSet : Option StrMatch → Option ISet
  | none => none
  | some m => match m.kind with
    | .exact => some (MethodSet.addRegex (MethodSet.make false) (rx m.text))
    | .prefix => some (MethodSet.addRegex (MethodSet.make false) (rx (m.text ++ anyText)))
    | .regex => some (MethodSet.addRegex (MethodSet.make false) (rx m.text))
    | .other => none

/-- `add_methods` (VirtualService.py): `|=` if there are methods. -/
def joinMethods : Option ISet → ISet → ISet
  | none, m => m
  | some a, m => if ISet.truthy a then union a m else m

/-- One step of the loop over the matches of an HTTP route (200-217). -/
def httpStep (ns : Ns) (r : Route V2) (m : HttpMatch) : Route V2 :=
  { r with
    uri := match (uriDfa A2 dfa m.uri).filter A2.truthy with | none => r.uri | some v => some (joinDfa A2 r.uri v)
    methods := some (joinMethods r.methods (((methodSet rx m.method).filter ISet.truthy).getD (MethodSet.make true)))
    gateways := addGateways ns r.gateways m.gateways }

/-- One step of the loop over `sniHosts` (236-242).  A host with a slash is `None` here, for which the next `|` or
`contained_in` is an exception. -/
def sniStep (acc : Option V2) (h : List Char) : Option (Option V2) :=
  (parseHost A2 dfa word h).bind fun v => v.map fun v => some (joinDfa A2 acc v)

/-- `reduce(MinDFA.__or__, vs.hosts_dfa)`: an exception for the empty list. -/
def allHosts : List V2 → Option V2
  | [] => none
  | v :: l => some (l.foldl A2.or v)

/-- One step of the loop over the matches of a TLS route (230-250); `some none` is "not a subset" (244-247). -/
def tlsStep (ns : Ns) (hosts : List V2) (r : Option (Route V2)) (m : TlsMatch) : Option (Option (Route V2)) :=
  match r with
  | none => some none
  | some r =>
    (m.sniHosts.foldlM (sniStep A2 dfa word) r.sni).bind fun sni => sni.bind fun v => (allHosts A2 hosts).map fun h =>
      if A2.contained v h then some { r with sni := some v, gateways := addGateways ns r.gateways m.gateways } else none

/-- The host is `<service>.<namespace>.svc.cluster.local` (353-354). -/
def longName : List (List Char) → Option (List Char × List Char)
  | [a, b, s, c, d] => if s = "svc".toList ∧ c = "cluster".toList ∧ d = "local".toList then some (a, b) else none
  | _ => none

/-- `is_local_service` and `get_local_service` (347-375): the name and the namespace of the service; `none` if the host is
not that of a service. -/
def localName (ns : Ns) (h : List Char) : Option (List Char × List Char) :=
  match longName (splitDots h) with
  | some x => some x
  | none => if (splitDots h).length > 1 then none else some (h, ns.name.toList)

/-- The ports of `add_destination` (VirtualService.py): a port that is `None`, 0 or "" is no port. -/
def destPorts : Option (Int ⊕ String) → PortSet
  | none => PortSet.make false
  | some (.inl n) => if n = 0 then PortSet.make false else (PortSet.make false).addPort (.num n)
  | some (.inr t) => if t = "" then PortSet.make false else (PortSet.make false).addPort (.name t)

/-- `get_single_port` (K8sService.py 83-84). -/
def singlePort (s : Svc) : Option SvcPort := match s.ports with | [p] => some p | _ => none

/-- The port that a destination asks for (IstioVirtualServiceYamlParser.py 326-331); the outer `none` is a missing port. -/
def askedPort (s : Svc) (port : Option Int) : Option (Option (Int ⊕ String)) :=
  match port.filter (· ≠ 0) with
  | none => some none
  | some n => (portByNumber s n).map fun p => some p.target

/-- The target port of a destination (326-341): that of the only port, if there is none. -/
def targetPort (s : Svc) (port : Option Int) : Option (Option (Int ⊕ String)) :=
  (askedPort s port).map fun t =>
    match t with
    | some (.inl n) => if n = 0 then (singlePort s).map SvcPort.target else t
    | some (.inr x) => if x = "" then (singlePort s).map SvcPort.target else t
    | none => (singlePort s).map SvcPort.target

/-- `add_destination` (VirtualService.py): all destinations of a route are of the same kind. -/
def addDest (r : Route V2) (d : Dest) (internal : Bool) : Option (Route V2) :=
  if r.internal = some (!internal) then none else some { r with dests := r.dests ++ [d], internal := some internal }

/-- `parse_destination` (IstioVirtualServiceYamlParser.py 300-345). -/
def destStep (svcs : List (String × Svc)) (c : Container) (ns : Ns) (r : Route V2) (t : DestText) : Option (Route V2) :=
  if '*' ∈ t.host then none
  else match localName ns t.host with
    | some (name, n) =>
      if name.isEmpty then none
      else match svcs.lookup (String.ofList (n ++ '/' :: name)) with
        | none => some r
        | some s => (targetPort s t.port).bind fun target => addDest r ⟨t.host, s.pods, destPorts target⟩ true
    | none =>
      if (matchingDns c t.host).isEmpty then some r
      else addDest r ⟨t.host, matchingDns c t.host, destPorts (t.port.map .inl)⟩ false

/-- `Route.__init__`. -/
def Route.new : Route V2 := ⟨[], none, none, none, none, []⟩

/-- `parse_vs_http_route` (104-119). -/
def parseHttp (svcs : List (String × Svc)) (c : Container) (ns : Ns) (t : HttpText) : Option (Route V2) :=
  t.dests.foldlM (destStep svcs c ns) (t.items.foldl (httpStep A2 dfa rx ns) Route.new)

/-- `parse_vs_tls_route` (121-134); `some none` is an ignored route. -/
def parseTls (svcs : List (String × Svc)) (c : Container) (ns : Ns) (hosts : List V2) (t : TlsText) : Option (Option (Route V2)) :=
  if t.items.isEmpty then some none
  else (t.items.foldlM (tlsStep A2 dfa word ns hosts) (some Route.new)).bind fun r => match r with
    | none => some none
    | some r => (t.dests.foldlM (destStep svcs c ns) r).map some

/-- `parse_vs_tcp_route` (136-149, 253-271). -/
def parseTcp (svcs : List (String × Svc)) (c : Container) (ns : Ns) (t : TcpText) : Option (Route V2) :=
  t.dests.foldlM (destStep svcs c ns) { (Route.new : Route V2) with gateways := t.items.foldl (addGateways ns) [] }

/-- `parse_virtual_service` (34-72). -/
def parseVs (svcs : List (String × Svc)) (c : Container) (t : VsText) : Option (Vs V2) :=
  (t.hosts.mapM (parseHost A2 dfa word)).bind fun hs =>
    let hosts := (hs.filterMap id).filter A2.truthy
    (t.http.mapM (parseHttp A2 dfa rx svcs c t.ns)).bind fun http =>
      (t.tls.mapM (parseTls A2 dfa word svcs c t.ns hosts)).bind fun tls =>
        (t.tcp.mapM (parseTcp svcs c t.ns)).map fun tcp =>
          ⟨fullName t.name t.ns, t.ns, hosts, if t.gateways.isEmpty then ["mesh"] else addGateways t.ns [] t.gateways, http, tls.filterMap id, tcp⟩

/-- `self.virtual_services[vs.full_name()] = vs` (26-32). -/
def putVs (l : List (Vs V2)) (v : Vs V2) : List (Vs V2) :=
  if l.any (fun e => decide (e.key = v.key)) then l.map fun e => if e.key = v.key then v else e else l ++ [v]

/-- The virtual services of the parser, after all resources. -/
def virtualServices (svcs : List (String × Svc)) (c : Container) (l : List VsText) : Option (List (Vs V2)) :=
  (l.mapM (parseVs A2 dfa word rx svcs c)).map fun l => l.foldl putVs []

/-! ### Policies -/

/-- One step of `pick_vs_gateways_by_hosts` (IstioGatewayPolicyGenerator.py 129-146).  A gateway without servers has no hosts;
`None & …` is an exception. -/
def pickStep (gs : List (Gtw V2)) (h : V2) (acc : List (Gtw V2 × V2)) (name : String) : Option (List (Gtw V2 × V2)) :=
  if name = "mesh" then some acc
  else match gs.find? fun g => decide (g.key = name) with
    | none => some acc
    | some g => g.hosts.map fun gh =>
      if !A2.truthy (A2.and gh h) then acc
      else if acc.any (fun e => decide (e.1.key = g.key)) then acc
      else acc ++ [(g, A2.and gh h)]

/-- `pick_vs_gateways_by_hosts` (117-146). -/
def pick (gs : List (Gtw V2)) (v : Vs V2) (names : List String) : Option (List (Gtw V2 × V2)) :=
  (allHosts A2 v.hosts).bind fun h => names.foldlM (pickStep A2 gs h) []

variable (B : PeerDom) (ord : SetOrder) (rg : PodReg)

/-- `init_route_conn_cube` (148-162). -/
def routeCube (r : Route V2) : ConnCube V2 :=
  let q := setDfa (setDfa (ConnCube.full A2 B) .hosts (r.sni.filter A2.truthy)) .paths (r.uri.filter A2.truthy)
  match r.methods.filter ISet.truthy with
  | none => q
  | some m => q.set .methods m

/-- `create_allow_rule` (203-219); `self.protocols` is TCP (35). -/
def allowRule (src : PeerSet String) (d : Dest) (q : ConnCube V2) : Option (HC Dim (ISet ⊕ V2)) :=
  (ProtocolSet.add (ProtocolSet.make false) (.name "TCP")).bind fun tcp =>
    ((q.setPorts (some d.ports)).setPeers rg .srcPeers (some src)).bind fun q =>
      (q.setPeers rg .dstPeers (some d.pods)).bind fun q => makeConnProps A2 B ord rg (q.setProtocols (some tcp))

/-- `create_deny_rule` (221-229). -/
def denyRule (src : PeerSet String) (d : Dest) : Option (HC Dim (ISet ⊕ V2)) := makeFromDict A2 B ord rg ⟨some src, some d.pods, none, none⟩

/-- A generated `GatewayPolicy`: its full name, action, direction, pods and rules. -/
structure GPol (V2 : Type) where
  key : String
  deny : Bool
  ingress : Bool
  selected : PeerSet String
  rules : List (HC Dim (ISet ⊕ V2))

/-- The lists of policies of the generator (28-34). -/
structure Out (V2 : Type) where
  ing : List (GPol V2)
  mesh : List (GPol V2)
  egr : List (GPol V2)
  deny : List (GPol V2)

/-- Policies are appended to the lists. -/
def Out.append (a b : Out V2) : Out V2 := ⟨a.ing ++ b.ing, a.mesh ++ b.mesh, a.egr ++ b.egr, a.deny ++ b.deny⟩

/-- All policies of some steps, in order. -/
def Out.join (l : List (Out V2)) : Out V2 := l.foldl Out.append ⟨[], [], [], []⟩

/-- The full name of a policy: the namespace, what it is, and its origin (172-174, 193-195, 294-296). -/
def polKey (v : Vs V2) (what : String) (n : Nat) (kind of : String) : String :=
  v.ns.name ++ "/" ++ what ++ " for virtual service " ++ v.key ++ ", route number " ++ toString n ++ ", " ++ kind ++ " " ++ of

/-- The body of the loop over the gateways (`create_gtw_to_mesh_and_deny_policies`, 250-280). -/
def gtwOut (c : Container) (v : Vs V2) (n : Nat) (r : Route V2) (x : Gtw V2 × V2) : Option (Out V2) :=
  let h := (r.sni.filter A2.truthy).elim x.2 (A2.and x.2)
  if (r.sni.filter A2.truthy).isSome && !A2.truthy h then some ⟨[], [], [], []⟩
  else
    (r.dests.mapM fun d => allowRule A2 B ord rg x.1.peers d (setDfa (routeCube A2 B r) .hosts (some h))).bind fun rules =>
      let allow : GPol V2 := ⟨polKey v "Allow policy" n "gateway" x.1.key, false, false, x.1.peers, rules⟩
      if x.1.egress then
        if r.internal = some true then none
        else
          let rest := (c.allPeers false true false).sub x.1.peers
          (r.dests.mapM fun d => denyRule A2 B ord rg rest d).map fun denied =>
            ⟨[], [], [allow], [⟨polKey v "Deny policy from mesh to DNS entries" n "gateway" x.1.key, true, false, rest, denied⟩]⟩
      else some ⟨[allow], [], [], []⟩

/-- `is_egress_gateway` (VirtualService.py). -/
def egressHost : List Char := "istio-egressgateway.istio-system.svc.cluster.local".toList

/-- `create_mesh_to_egress_policy` (284-302) for the destinations of egress gateways (341-347). -/
def meshOut (c : Container) (v : Vs V2) (n : Nat) (r : Route V2) (d : Dest) : Option (Out V2) :=
  if d.host = egressHost then
    (allowRule A2 B ord rg (c.allPeers false true false) d (routeCube A2 B r)).map fun h =>
      ⟨[], [⟨polKey v "Allow policy" n "destination" (String.ofList d.host), false, true, d.pods, [h]⟩], [], []⟩
  else some ⟨[], [], [], []⟩

/-- The body of the loop of `create_route_policies` (322-355).  The names of gateways of a virtual service are never
empty, so `not has_mesh and not has_gateways` (330) never holds. -/
def routeOut (gs : List (Gtw V2)) (c : Container) (v : Vs V2) (global : List (Gtw V2 × V2)) (x : Route V2 × Nat) : Option (Out V2) :=
  (if x.1.gateways.isEmpty then some global else pick A2 gs v x.1.gateways).bind fun picked =>
    (picked.mapM (gtwOut A2 B ord rg c v x.2 x.1)).bind fun l =>
      (if x.1.internal = some true ∧ "mesh" ∈ (if x.1.gateways.isEmpty then v.gateways else x.1.gateways) then
          x.1.dests.mapM (meshOut A2 B ord rg c v x.2 x.1) else some []).map fun m => (Out.join l).append (Out.join m)

/-- `create_route_policies` (304-361); routes are counted from 1. -/
def routesOut (gs : List (Gtw V2)) (c : Container) (v : Vs V2) (global : List (Gtw V2 × V2)) (l : List (Route V2)) : Option (Out V2) :=
  ((l.zipIdx 1).mapM (routeOut A2 B ord rg gs c v global)).map Out.join

/-- The body of the loop over the virtual services (54-76). -/
def vsOut (gs : List (Gtw V2)) (c : Container) (v : Vs V2) : Option (Out V2) :=
  (pick A2 gs v v.gateways).bind fun global =>
    (routesOut A2 B ord rg gs c v global v.http).bind fun a =>
      (routesOut A2 B ord rg gs c v global v.tls).bind fun b =>
        (routesOut A2 B ord rg gs c v global v.tcp).map fun d => (a.append b).append d

/-- The policies of the lists (83-92): those of the egress flow only if both of its parts are there. -/
def Out.all (o : Out V2) : List (GPol V2) :=
  o.ing ++ if o.mesh.isEmpty || o.egr.isEmpty then [] else o.mesh ++ o.egr ++ o.deny

/-- The policy "Dummy empty gateway policy" (108-113). -/
def dummy : GPol V2 := ⟨"default/Dummy empty gateway policy", false, false, [], []⟩

/-- `create_istio_gateway_policies` (37-115) with `parse_policies_in_parse_queue` (nca/NetworkConfig/PoliciesFinder.py 125-130)
for the resources of a configuration.  Without valid gateways, `self.vs_parser.warning` is an exception if there is no
parser (44-46). -/
def gatewayPols (svcs : List (String × Svc)) (c : Container) (gts : List GatewayText) (vts : List VsText) : Option (List (GPol V2)) :=
  (gateways A2 dfa word c gts).bind fun gs =>
    (virtualServices A2 dfa word rx svcs c vts).bind fun vs =>
      if gs.isEmpty then if vts.isEmpty && !gts.isEmpty then none else some []
      else if vs.isEmpty then some []
      else (vs.mapM (vsOut A2 B ord rg gs c)).map fun l =>
        let pols := (Out.join l).all
        if pols.isEmpty then [dummy] else pols

end
end GtwParser
end Verif
