import Verif.IstioParseModel
import Verif.FwCube
/-!
Model of Kubernetes services (nca/Parsers/K8sServiceYamlParser.py, nca/Resources/OtherResources/K8sService.py,
nca/NetworkConfig/PeerContainer.py 227-237, 341-386) and of the parser of Ingress resources
(nca/Parsers/IngressPolicyYamlParser.py, nca/Parsers/GenericGatewayYamlParser.py).

Hosts and paths are lists of characters.  `none` is a reported error or an exception.  Not modelled: the checks of field
names and types (they only reject input), warnings, and the set of destination peers of a rule (it is only used to report
empty rules).
-/
namespace Verif
open ISet

namespace IngressParser
open Container IstioParser

/-! ### Services -/

/-- An element of `ports` of a service (K8sServiceYamlParser.py 51-65). -/
structure SvcPortText where
  num : Option Int
  name : Option String
  protocol : Option String
  target : Option (Int ⊕ String)

/-- A service as the user writes it; `ns` is its namespace.  The type is read but not used. -/
structure SvcText where
  name : String
  ns : Ns
  selector : Labels
  ports : List SvcPortText

/-- `ServicePort` (K8sService.py 23-31). -/
structure SvcPort where
  num : Int
  name : String
  protocol : String
  target : Int ⊕ String

/-- `K8sService` (33-46) with its target pods. -/
structure Svc where
  name : String
  ns : Ns
  ports : List SvcPort
  pods : PeerSet String

/-- One step of the loop over the ports (K8sServiceYamlParser.py 56-65) with `add_port` (K8sService.py 95-104): ports
without a number, and those of a name that is already there, are ignored. -/
def addSvcPort (l : List SvcPort) (p : SvcPortText) : List SvcPort :=
  match p.num with
  | none => l
  | some n =>
    if n = 0 then l
    else if l.any (fun q => decide (q.name = p.name.getD "")) then l
    else l ++ [⟨n, p.name.getD "", p.protocol.getD "TCP", p.target.getD (.inl n)⟩]

/-- The ports of a service. -/
def svcPorts (l : List SvcPortText) : List SvcPort := l.foldl addSvcPort []

/-- `get_peers_with_label` with action In and a namespace (PeerContainer.py 86-107). -/
def withLabelIn (c : Container) (key : String) (values : List String) (ns : Ns) : PeerSet String :=
  c.sel fun p => sameNs p ns && (getIn p.labels key values || getIn p.extra key values)

/-- The pods of the selector (PeerContainer.py 360-365); without a selector there are none. -/
def selectorPods (c : Container) (s : SvcText) : PeerSet String :=
  if s.selector.isEmpty then []
  else s.selector.foldl (fun res kv => res.and (withLabelIn c kv.1 [kv.2] s.ns)) (c.sel fun _ => true)

/-- The pod has no port of the name, or one of another protocol (373-382); sets of addresses have no ports to ask for. -/
def lacksPort (rg : PodReg) (name protocol : String) : PeerElem String → Option Bool
  | .ip _ => none
  | .pod k =>
    match (rg.named k).lookup name with
    | none => some true
    | some (_, pr) => some (decide (pr ≠ protocol))

/-- One step of the loop over the ports of a service (367-383). -/
def removeLacking (rg : PodReg) (pods : PeerSet String) (p : SvcPort) : Option (PeerSet String) :=
  match p.target with
  | .inl _ => some pods
  | .inr name => (pods.filterM (lacksPort rg name p.protocol)).map pods.sub

/-- `_set_services_and_populate_target_pods` (351-386) for one service. -/
def populate (rg : PodReg) (c : Container) (s : SvcText) : Option Svc :=
  ((svcPorts s.ports).foldlM (removeLacking rg) (selectorPods c s)).map fun pods => ⟨s.name, s.ns, svcPorts s.ports, pods⟩

/-- `service_full_name` (K8sService.py 59-64); the namespace is set in nca/NetworkConfig/TopologyObjectsFinder.py 390. -/
def fullName (name : String) (ns : Ns) : String := ns.name ++ "/" ++ name

/-- `self.services[srv.full_name()] = srv` (PeerContainer.py 386). -/
def putService (l : List (String × Svc)) (s : Svc) : List (String × Svc) :=
  if l.any (fun e => decide (e.1 = fullName s.name s.ns)) then
    l.map fun e => if e.1 = fullName s.name s.ns then (e.1, s) else e
  else l ++ [(fullName s.name s.ns, s)]

/-- The services of a configuration (351-386). -/
def services (rg : PodReg) (c : Container) (l : List SvcText) : Option (List (String × Svc)) :=
  (l.mapM (populate rg c)).map fun l => l.foldl putService []

/-- `get_service_by_name_and_ns` (341-349). -/
def getService (l : List (String × Svc)) (name : String) (ns : Ns) : Option Svc := l.lookup (fullName name ns)

/-- `get_pods_with_service_name_containing_given_string` (227-237). -/
def podsOfServices (l : List (String × Svc)) (s : String) : PeerSet String :=
  l.foldl (fun res e => if s.toList <:+: e.1.toList then res.or e.2.pods else res) []

/-- `get_port_by_name` (K8sService.py 86-87). -/
def portByName (s : Svc) (name : String) : Option SvcPort := s.ports.find? fun p => decide (p.name = name)

/-- `get_port_by_number` (89-93). -/
def portByNumber (s : Svc) (n : Int) : Option SvcPort := s.ports.find? fun p => decide (p.num = n)

/-! ### Ingress resources -/

/-- `service` of a backend (IngressPolicyYamlParser.py 71-78). -/
structure SvcRef where
  name : String
  portName : Option String
  portNumber : Option Int

/-- A backend (61-64). -/
structure Backend where
  resource : Bool
  service : Option SvcRef

/-- `pathType` (114-116). -/
inductive PathType | exact | «prefix» | implementationSpecific
  deriving DecidableEq

/-- An element of `paths` (114-116). -/
structure PathText where
  path : Option (List Char)
  type : PathType
  backend : Backend

/-- A rule (213); `http` may be absent, and so may its `paths`. -/
structure IngressRule where
  host : Option (List Char)
  http : Option (Option (List PathText))

/-- An Ingress resource; `ns` is its namespace. -/
structure IngressText where
  ns : Ns
  defaultBackend : Option Backend
  rules : List IngressRule

/-- The result of `parse_backend`: peers, ports and the flag. -/
structure Target where
  peers : Option (PeerSet String)
  ports : Option PortSet
  found : Bool

/-- A result of `parse_ingress_path`. -/
structure ParsedPath where
  text : List Char
  exact : Bool
  peers : Option (PeerSet String)
  ports : Option PortSet

/-- `if peers`. -/
def somePeers : Option (PeerSet String) → Bool
  | none => false
  | some S => !S.isEmpty

/-- The port of the service that a backend asks for (95); empty names and the number 0 count as absent. -/
def refPort (s : Svc) (r : SvcRef) : Option SvcPort :=
  match r.portName.filter (· ≠ "") with
  | some name => portByName s name
  | none => r.portNumber.bind (portByNumber s)

/-- `parse_backend` (44-105). -/
def parseBackend (svcs : List (String × Svc)) (ns : Ns) (isDefault : Bool) : Option Backend → Option Target
  | none => some ⟨none, if isDefault then some (PortSet.make true) else none, true⟩
  | some b =>
    if b.resource then
      if b.service.isSome then none else some ⟨none, if isDefault then some (PortSet.make true) else none, true⟩
    else
      match b.service with
      | none => none
      | some r =>
        if (r.portName.filter (· ≠ "")).isSome && (r.portNumber.filter (· ≠ 0)).isSome then none
        else if (match r.portNumber.filter (· ≠ 0) with | some n => !K8sParser.validPort n | none => false) then none
        else
          match getService svcs r.name ns with
          | none => some ⟨none, none, false⟩
          | some s =>
            match refPort s r with
            | none => some ⟨none, none, false⟩
            | some p => some ⟨some s.pods, some ((PortSet.make false).addPort (match p.target with | .inl n => .num n | .inr t => .name t)), true⟩

/-- `validate_path_value` (37-42); `word` is the class `\w` of Python's regular expressions. -/
def validPath (word : Char → Bool) (s : List Char) : Bool :=
  decide (s.head? = some '/') && s.all fun a => word a || decide (a ∈ ['.', '/', '-'])

/-- `if s.endswith('/'): s = s[:-1]`. -/
def dropSlash (s : List Char) : List Char := if s.getLast? = some '/' then s.dropLast else s

/-- `parse_ingress_path` (107-146); `some none` is an ignored path. -/
def parsePath (word : Char → Bool) (svcs : List (String × Svc)) (ns : Ns) (dflt : Target) (p : PathText) : Option (Option ParsedPath) :=
  (parseBackend svcs ns false (some p.backend)).bind fun t =>
    if !somePeers t.peers && !t.found then some none
    else
      let t := if somePeers t.peers then t else dflt
      match p.path with
      | none => none
      | some s =>
        if !validPath word s then none
        else some (some ⟨if p.type = .exact then s else dropSlash s, decide (p.type = .exact), t.peers, t.ports⟩)

section
variable {V2 X2 : Type} (A2 : VAlg Dim V2 X2) (dfa : List Char → V2)

/-- `get_path_prefix_dfa` (GenericGatewayYamlParser.py 94-107). -/
def prefixDfa (s : List Char) : V2 :=
  if s = ['/'] then A2.dom .paths else dfa (dropSlash s ++ ("(/".toList ++ (alphabet ++ "*)?".toList)))

/-- The text of a path in `segregate_longest_paths_and_make_dfa` (IngressPolicyYamlParser.py 162). -/
def ParsedPath.key (p : ParsedPath) : List Char := if p.exact then p.text else if p.text.isEmpty then ['/'] else p.text

/-- The automaton of a path (158-164). -/
def pathDfa (p : ParsedPath) : V2 := if p.exact then dfa p.text else prefixDfa A2 dfa p.key

/-- `segregate_longest_paths_and_make_dfa` (148-183). -/
def segregate (l : List ParsedPath) : List (ParsedPath × V2) :=
  l.zipIdx.map fun x =>
    (x.1, if x.1.exact then pathDfa A2 dfa x.1
      else l.zipIdx.foldl (fun v y => if y.2 ≠ x.2 ∧ x.1.key <+: y.1.key then A2.sub v (pathDfa A2 dfa y.1) else v) (pathDfa A2 dfa x.1))

/-- `parse_regex_host_value` (GenericGatewayYamlParser.py 33-57); `some none` is "all hosts". -/
def hostValue (word : Char → Bool) : Option (List Char) → Option (Option V2)
  | none => some none
  | some h =>
    if h = ['*'] then some (some (A2.dom .hosts))
    else if !h.all (fun a => word a || decide (a ∈ ['*', '.', '/', '-'])) then none
    else
      let r := replaceChar '.' "[.]".toList h
      if '*' ∈ r then
        if r.head? ≠ some '*' then none else some (some (dfa (replaceChar '*' "[\\w]*".toList r)))
      else some (some (dfa r))

variable (B : PeerDom) (ord : SetOrder) (rg : PodReg)

/-- What `make_conn_props` leaves of its argument (nca/CoreDS/ConnectivityProperties.py 288-320). -/
def leftCube (c : ConnCube V2) : Option (ConnCube V2) :=
  if c.named = ∅ ∧ c.excluded = ∅ then some c
  else
    (Base.fromIndices rg.keys (c.ints .dstPeers)).bind fun dst =>
      dst.foldlM (fun cur e =>
        (Base.toIndices rg.keys [e]).bind fun one =>
          (resolveNamed (namedOf rg e) (c.ints .protocols) (ord.list c.named)).bind fun real =>
            (resolveNamed (namedOf rg e) (c.ints .protocols) (ord.list c.excluded)).map fun excl =>
              let cur := if real.toBool then (cur.setPorts (some real)).set .dstPeers one else cur
              if excl.toBool then (cur.setPorts (some excl)).set .dstPeers one else cur)
        (if ISet.truthy (c.ints .dstPorts) then c.setPorts (some ⟨c.ints .dstPorts, ∅, ∅⟩) else c)

/-- `_make_default_connections` (IngressPolicyYamlParser.py 185-201). -/
def defaultConns (dflt : Target) (hosts paths : Option V2) : Option (HC Dim (ISet ⊕ V2)) :=
  if somePeers dflt.peers then
    (((ConnCube.full A2 B).setPorts dflt.ports).setPeers rg .dstPeers dflt.peers).bind fun q =>
      makeConnProps A2 B ord rg (setDfa (setDfa q .hosts (hosts.filter A2.truthy)) .paths (paths.filter A2.truthy))
  else some (HC.empty allDims true)

/-- The variables of the loop over the paths of a rule (217-237). -/
structure PathState (V2 : Type) where
  cube : ConnCube V2
  conns : HC Dim (ISet ⊕ V2)
  all : Option V2

/-- `if not x: x = y else: x = x | y` (234-237). -/
def joinDfa : Option V2 → V2 → V2
  | none, v => v
  | some a, v => if A2.truthy a then A2.or a v else v

/-- One step of the loop over the paths of a rule (229-237). -/
def pathStep (st : PathState V2) (x : ParsedPath × V2) : Option (PathState V2) :=
  ((st.cube.setPorts x.1.ports).setPeers rg .dstPeers x.1.peers).bind fun q =>
    (makeConnProps A2 B ord rg (setDfa q .paths (some x.2))).bind fun h =>
      (leftCube ord rg (setDfa q .paths (some x.2))).map fun cube =>
        ⟨cube, HC.or (connA A2 B) allDims st.conns h, some (joinDfa A2 st.all x.2)⟩

/-- The connections of the paths of a rule (220-243), for a list that is not empty. -/
def pathsConns (word : Char → Bool) (svcs : List (String × Svc)) (ns : Ns) (dflt : Target) (hosts : Option V2) (paths : List PathText) :
    Option (HC Dim (ISet ⊕ V2)) :=
  (paths.mapM (parsePath word svcs ns dflt)).bind fun parsed =>
    match parsed.filterMap id with
    | [] => some (HC.empty allDims true)
    | l =>
      ((segregate A2 dfa l).foldlM (pathStep A2 B ord rg) ⟨setDfa (ConnCube.full A2 B) .hosts hosts, HC.empty allDims true, none⟩).bind fun st =>
        match st.all with
        | none => none
        | some a => (defaultConns A2 B ord rg dflt hosts (some (A2.sub (A2.dom .paths) a))).map (HC.or (connA A2 B) allDims st.conns)

/-- `parse_rule` (203-244).  Without `http` it is an exception (`get_key_array_and_validate_not_empty` of `None`,
nca/Parsers/GenericYamlParser.py 187-198), an empty list is an error. -/
def parseRule (word : Char → Bool) (svcs : List (String × Svc)) (ns : Ns) (dflt : Target) (r : IngressRule) : Option (HC Dim (ISet ⊕ V2) × Option V2) :=
  (hostValue A2 dfa word r.host).bind fun hosts =>
    match r.http with
    | none => none
    | some none => (defaultConns A2 B ord rg dflt hosts none).map fun h => (HC.or (connA A2 B) allDims (HC.empty allDims true) h, hosts)
    | some (some []) => none
    | some (some paths) => (pathsConns A2 dfa B ord rg word svcs ns dflt hosts paths).map fun h => (h, hosts)

/-- One step of the loop over the rules (276-285). -/
def ruleStep (word : Char → Bool) (svcs : List (String × Svc)) (ns : Ns) (dflt : Target) (st : HC Dim (ISet ⊕ V2) × Option V2) (r : IngressRule) :
    Option (HC Dim (ISet ⊕ V2) × Option V2) :=
  (parseRule A2 dfa B ord rg word svcs ns dflt r).map fun x =>
    (HC.or (connA A2 B) allDims st.1 x.1,
      match x.2.filter A2.truthy with
      | some v => some (joinDfa A2 st.2 v)
      | none => some (A2.dom .hosts))

/-- The connections of the default backend for other hosts (287-290); subtraction of `None` is an exception. -/
def otherHosts (dflt : Target) (st : HC Dim (ISet ⊕ V2) × Option V2) : Option (HC Dim (ISet ⊕ V2)) :=
  if somePeers dflt.peers then
    st.2.bind fun a => (defaultConns A2 B ord rg dflt (some (A2.sub (A2.dom .hosts) a)) none).map (HC.or (connA A2 B) allDims st.1)
  else some st.1

/-- The cube of a rule in `_make_allow_rules` (GenericGatewayYamlParser.py 85-88). -/
def allowRule (src : PeerSet String) (v : Dim → ISet ⊕ V2) : Option (HC Dim (ISet ⊕ V2)) :=
  (ProtocolSet.add (ProtocolSet.make false) (.name "TCP")).bind fun tcp =>
    (ConnCube.setPeers rg ⟨v, ∅, ∅⟩ .srcPeers (some src)).bind fun q => makeConnProps A2 B ord rg (q.setProtocols (some tcp))

/-- `_make_allow_rules` (73-92). -/
def allowRules (h : HC Dim (ISet ⊕ V2)) (src : PeerSet String) : Option (List (HC Dim (ISet ⊕ V2))) :=
  if .srcPeers ∈ h.act then none
  else (HC.cubes (connA A2 B) allDims h).mapM fun cube => allowRule A2 B ord rg src (Fw.cubeVal (connA A2 B) h.act cube)

/-- The result of `parse_policy`: the attributes of `GatewayPolicy` that the parser sets. -/
structure ParsedIngress (V2 : Type) where
  selected : PeerSet String
  rules : List (HC Dim (ISet ⊕ V2))

/-- `parse_policy` (IngressPolicyYamlParser.py 246-296). -/
def parseIngress (word : Char → Bool) (svcs : List (String × Svc)) (t : IngressText) : Option (ParsedIngress V2) :=
  (parseBackend svcs t.ns true t.defaultBackend).bind fun dflt =>
    (t.rules.foldlM (ruleStep A2 dfa B ord rg word svcs t.ns dflt) (HC.empty allDims true, none)).bind fun st =>
      (otherHosts A2 B ord rg dflt st).bind fun h =>
        let selected := podsOfServices svcs "ingress-nginx"
        if h.truthy then (allowRules A2 B ord rg h selected).map fun rules => ⟨selected, rules⟩
        else some ⟨selected, []⟩

end
end IngressParser
end Verif
