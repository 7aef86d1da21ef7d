import Verif.CalicoParseModel
/-!
Model of the parser of Istio's authorization policies (nca/Parsers/IstioPolicyYamlParser.py, and the selectors of
nca/Parsers/IstioGenericYamlParser.py 30-77): sources, operations, conditions, rules and policies.

Texts are lists of characters, addresses are already read.  `none` is a reported error or an exception.  Not modelled:
the checks of field names and types (they only reject input), warnings, and the bookkeeping of referenced labels and of
IPv6.
-/
namespace Verif
open ISet

namespace IstioParser
open Container K8sParser CalicoParser

/-- The fields of `source` (420-423; the other four are not supported and rejected). -/
structure Source where
  namespaces : Option (List (List Char))
  notNamespaces : Option (List (List Char))
  principals : Option (List (List Char))
  notPrincipals : Option (List (List Char))
  ipBlocks : Option (List IpBlock.Cidr)
  notIpBlocks : Option (List IpBlock.Cidr)

/-- The fields of `operation` (386-388). -/
structure Operation where
  ports : Option (List PortText)
  notPorts : Option (List PortText)
  methods : Option (List (List Char))
  notMethods : Option (List (List Char))
  hosts : Option (List (List Char))
  notHosts : Option (List (List Char))
  paths : Option (List (List Char))
  notPaths : Option (List (List Char))

/-- An element of `when`: the key (208), `values` and `notValues`. -/
inductive Condition where
  | ip (values notValues : Option (List IpBlock.Cidr))
  | namespace (values notValues : Option (List (List Char)))
  | principal (values notValues : Option (List (List Char)))
  | port (values notValues : Option (List PortText))

/-- A rule (473). -/
structure AuthRule where
  sources : Option (List Source)
  operations : Option (List Operation)
  conditions : Option (List Condition)

/-- `selector`: absent, `{}`, or with `matchLabels` (IstioGenericYamlParser.py 38-47, 67). -/
inductive Workloads where
  | absent
  | empty
  | labels (l : Labels)

/-- The spec of a policy (557). -/
structure AuthSpec where
  action : Option String
  selector : Workloads
  rules : List AuthRule

/-- A policy as the user writes it; `ns` is its namespace. -/
structure AuthText where
  ns : Ns
  spec : Option AuthSpec

/-- What the parser reads of the cluster besides the peers: the names of the namespaces
(`get_all_namespaces_str_list`, PeerContainer.py 338-339) and the service account of a pod; and the class `\w` of
Python's regular expressions, which does not have `/` and `-`. -/
structure Env where
  nss : List (List Char)
  sa : String → List Char
  word : Char → Bool

/-- `_validate_istio_regex_pattern` (25-33). -/
def validPattern (s : List Char) : Bool :=
  !decide ('*' ∈ s) || (decide (s.count '*' = 1) && (decide (s.head? = some '*') || decide (s.getLast? = some '*')))

/-- `_parse_istio_regex_from_enumerated_domain` (47-75), from the list of values on. -/
def matching (vals : List (List Char)) (s : List Char) : Option (List (List Char)) :=
  if !validPattern s then none
  else if '*' ∉ s then some (if s ∈ vals then [s] else [])
  else if s = ['*'] then some vals
  else if s.head? = some '*' then some (vals.filter (s.tail.isSuffixOf ·))
  else if s.getLast? = some '*' then some (vals.filter (s.dropLast.isPrefixOf ·))
  else some []

section
variable (V : Env) (c : Container)

/-- `get_namespace_pods(get_namespace(name))`; namespaces are compared by name. -/
def podsOfNs (name : List Char) : PeerSet String := c.nsPods (some ⟨String.ofList name, []⟩)

/-- `_parse_ns_str` (77-90). -/
def nsStr (s : List Char) : Option (PeerSet String) :=
  (matching V.nss s).map fun l => l.foldl (fun res n => res.or (podsOfNs c n)) []

/-- The text before the namespace of a principal (44). -/
def beforeNs : List Char := "cluster.local/ns/".toList

/-- The text before the service account of a principal (44). -/
def beforeSa : List Char := "/sa/".toList

/-- The principal of a pod (44); peers without service accounts raise an exception.  Pods have namespaces. -/
def principalOf (p : PeerInfo) : Option (List Char) :=
  match p.kind, p.elem, p.ns with
  | .pod, .pod k, some n => some (beforeNs ++ (n.name.toList ++ (beforeSa ++ V.sa k)))
  | _, _, _ => none

/-- `_get_all_principals_str_list_from_topology` (35-45). -/
def allPrincipals : Option (List (List Char)) := (c.filter fun p => !decide (p.kind = .dns)).mapM (principalOf V)

/-- `[\w-]+`.  What follows it in the expression is `/` or the end, so that the greedy match decides. -/
def words (s : List Char) : Option (List Char × List Char) :=
  let f : Char → Bool := fun a => V.word a || decide (a = '-')
  if (s.takeWhile f).isEmpty then none else some (s.takeWhile f, s.dropWhile f)

/-- `.` -/
def anyChar : List Char → Option (List Char)
  | [] => none
  | a :: t => if a = '\n' then none else some t

/-- A match of `cluster.local/ns/([\w-]+)/sa/([\w-]+)` at the begin of the text (104). -/
def componentsAt (s : List Char) : Option (List Char × List Char) := do
  let s ← lit "cluster".toList s
  let s ← anyChar s
  let s ← lit "local/ns/".toList s
  let (ns, s) ← words V s
  let s ← lit beforeSa s
  let (sa, _) ← words V s
  return (ns, sa)

/-- `_get_principal_str_components` (93-109): the first match. -/
def components : List Char → Option (List Char × List Char)
  | [] => none
  | a :: t => (componentsAt V (a :: t)).or (components t)

/-- `get_pods_with_service_account_name` (PeerContainer.py 271-282). -/
def podsWithAccount (sa ns : List Char) : PeerSet String :=
  c.sel fun p => decide (p.kind = .pod) && (match p.elem with | .pod k => decide (V.sa k = sa) | .ip _ => false) &&
    sameNs p ⟨String.ofList ns, []⟩

/-- The loop of `_parse_principal_str` (122-125). -/
def principalStep (res : PeerSet String) (s : List Char) : PeerSet String :=
  match components V s with
  | some (ns, sa) => res.or (podsWithAccount V c sa ns)
  | none => res

/-- `_parse_principal_str` (111-126). -/
def principalStr (s : List Char) : Option (PeerSet String) :=
  (allPrincipals V c).bind fun vals => (matching vals s).map fun l => l.foldl (principalStep V c) []

/-- `for x in …: res |= …`. -/
def orAll {α : Type} (f : α → Option (PeerSet String)) (l : List α) (res : PeerSet String) : Option (PeerSet String) :=
  l.foldlM (fun acc x => (f x).map acc.or) res

/-- `for x in …: res -= …`. -/
def subAll {α : Type} (f : α → Option (PeerSet String)) (l : List α) (res : PeerSet String) : Option (PeerSet String) :=
  l.foldlM (fun acc x => (f x).map acc.sub) res

/-- The positive list in `parse_principals` (136-138). -/
def positivePrincipals : Option (List (List Char)) → Option (PeerSet String)
  | some l => orAll (principalStr V c) l []
  | none => some (c.allPeers false true false)

/-- `parse_principals` (128-141). -/
def parsePrincipals (pos neg : Option (List (List Char))) : Option (PeerSet String) :=
  (positivePrincipals V c pos).bind (subAll (principalStr V c) (neg.getD []))

/-- `parse_namespaces` (143-159). -/
def parseNamespaces (pos neg : Option (List (List Char))) : Option (PeerSet String) :=
  (orAll (nsStr V c) (pos.getD V.nss) []).bind (subAll (nsStr V c) (neg.getD []))

/-- `parse_ip_block` (161-180).  If the positive list is absent, the loop goes over the intervals of a block, and
`IpBlock(interval)` is an exception of `ip_network`. -/
def parseIpBlock (pos neg : Option (List IpBlock.Cidr)) : Option (PeerSet String) :=
  match pos with
  | none => none
  | some l =>
    (l.foldlM (fun acc n => (netBlock n).map (IpBlock.union acc)) []).bind fun b =>
      ((neg.getD []).foldlM (fun acc n => (netBlock n).map (IpBlock.diff acc)) b).map fun b => PeerSet.split [.ip b]

/-- The list is given and not empty. -/
def full {α : Type} (o : Option (List α)) : Bool := match o with | some (_ :: _) => true | _ => false

/-- `parse_source` (403-458). -/
def source (s : Source) : Option (PeerSet String) :=
  let hasNs := s.namespaces.isSome || s.notNamespaces.isSome
  let hasIp := s.ipBlocks.isSome || s.notIpBlocks.isSome
  let hasPrincipals := s.principals.isSome || s.notPrincipals.isSome
  if !(full s.namespaces || full s.notNamespaces || full s.ipBlocks || full s.notIpBlocks || full s.principals || full s.notPrincipals) then none
  else if hasIp && (hasPrincipals || hasNs) then some []
  else (if hasPrincipals then (parsePrincipals V c s.principals s.notPrincipals).map (c.allPeers true true false).and
      else some (c.allPeers true true false)).bind fun res =>
    if hasNs then (parseNamespaces V c s.namespaces s.notNamespaces).map res.and
    else if hasIp then (parseIpBlock s.ipBlocks s.notIpBlocks).map res.and
    else some res

end

/-- `_parse_port` (225-241). -/
def parsePort (p : PortText) : Option PortSet :=
  (match p with | .num n => some n | .text s => Proto.pyInt s).bind fun n =>
    if validPort n then some ((PortSet.make false).addPort (.num n)) else none

/-- The positive list in `get_rule_ports` (252-259). -/
def positivePorts : Option (List PortText) → Option PortSet
  | some l => l.foldlM (fun (acc : PortSet) p => (parsePort p).map acc.or) (PortSet.make false)
  | none => some (PortSet.make true)

/-- `get_rule_ports` (244-263). -/
def rulePorts (pos neg : Option (List PortText)) : Option PortSet :=
  (positivePorts pos).bind fun r => (neg.getD []).foldlM (fun (acc : PortSet) p => (parsePort p).map acc.sub) r

/-- `_parse_method` (332-348). -/
def parseMethod (s : List Char) : Option ISet :=
  (matching (MethodSet.allMethods.map String.toList) s).bind fun l =>
    l.foldlM (fun res m => MethodSet.add res (String.ofList m)) (MethodSet.make false)

/-- The positive list in `_get_methods_set` (357-364). -/
def positiveMethods : Option (List (List Char)) → Option ISet
  | some l => l.foldlM (fun acc m => (parseMethod m).map (union acc)) (MethodSet.make false)
  | none => some (MethodSet.make true)

/-- `_get_methods_set` (350-369). -/
def methodsSet (pos neg : Option (List (List Char))) : Option ISet :=
  (positiveMethods pos).bind fun r => (neg.getD []).foldlM (fun acc m => (parseMethod m).map (diff acc)) r

/-- `"[" + MinDFA.default_dfa_alphabet_chars + "]"` (273, MinDFA.py 45). -/
def alphabet : List Char := "[.\\w/\\-]".toList

/-- `str.replace` for one character. -/
def replaceChar (a : Char) (t : List Char) (s : List Char) : List Char := s.flatMap fun b => if b = a then t else [b]

/-- `_parse_str_value` (265-286). -/
def strValue (V : Env) (s : List Char) : Option (List Char) :=
  if !s.all (fun a => V.word a || decide (a ∈ ['*', '.', '/', '-'])) then none
  else
    let res := replaceChar '.' "[.]".toList s
    if '*' ∈ res then
      if !validPattern res then none
      else if res = ['*'] then some (alphabet ++ ['+'])
      else if res.head? = some '*' ∨ res.getLast? = some '*' then some (replaceChar '*' (alphabet ++ ['*']) res)
      else some res
    else some res

/-- `get_values_list_regex` (288-298); an empty list is a failed assertion. -/
def valuesRegex (V : Env) (l : List (List Char)) : Option (List Char) :=
  if l.isEmpty then none else (l.mapM (strValue V)).map (List.intercalate ['|'])

section
variable {V2 X2 : Type} (A2 : VAlg Dim V2 X2) (dfa : List Char → V2) (V : Env)

/-- The positive list in `parse_regex_dimension_values` (315-320). -/
def positiveDfa (d : Dim) : Option (List (List Char)) → Option V2
  | some l => (valuesRegex V l).map dfa
  | none => some (A2.dom d)

/-- `parse_regex_dimension_values` (300-330); `dfa` is `MinDFA.dfa_from_regex`.  `some none` is "all is allowed". -/
def dimValues (d : Dim) (pos neg : Option (List (List Char))) : Option (Option V2) :=
  match pos, neg with
  | none, none => some none
  | _, _ =>
    (positiveDfa A2 dfa V d pos).bind fun v =>
      match neg with
      | none => some (some v)
      | some l => (valuesRegex V l).map fun r => some (A2.sub v (dfa r))

variable (B : PeerDom) (ord : SetOrder) (rg : PodReg) (c : Container)

/-- `self["paths"] = …` (ConnectivityCube.py 105-106). -/
def setDfa (q : ConnCube V2) (d : Dim) : Option V2 → ConnCube V2
  | none => q
  | some v => { q with val := fun x => if x = d then .inr v else q.val x }

/-- `parse_operation` (371-401). -/
def operation (o : Operation) : Option (HC Dim (ISet ⊕ V2)) :=
  if !(full o.ports || full o.notPorts || full o.methods || full o.notMethods || full o.hosts || full o.notHosts || full o.paths || full o.notPaths)
  then none
  else do
    let ports ← rulePorts o.ports o.notPorts
    let methods ← methodsSet o.methods o.notMethods
    let paths ← dimValues A2 dfa V .paths o.paths o.notPaths
    let hosts ← dimValues A2 dfa V .hosts o.hosts o.notHosts
    makeConnProps A2 B ord rg (setDfa (setDfa (((ConnCube.full A2 B).setPorts (some ports)).set .methods methods) .paths paths) .hosts hosts)

/-- `tcp_props` (491-492). -/
def tcpProps : Option (HC Dim (ISet ⊕ V2)) :=
  (ProtocolSet.add (ProtocolSet.make false) (.name "TCP")).bind fun l => makeFromDict A2 B ord rg ⟨none, none, some l, none⟩

/-- `parse_condition` and `parse_key_values` (182-222). -/
def condition : Condition → Option (PeerSet String ⊕ HC Dim (ISet ⊕ V2))
  | .ip v n => if full v || full n then (parseIpBlock v n).map .inl else none
  | .namespace v n => if full v || full n then (parseNamespaces V c v n).map .inl else none
  | .principal v n => if full v || full n then (parsePrincipals V c v n).map .inl else none
  | .port v n =>
    if full v || full n then (rulePorts v n).bind fun P => (makeFromDict A2 B ord rg ⟨none, none, none, some P⟩).map .inr else none

/-- One step of the loop over `when` (507-512). -/
def conditionStep (st : PeerSet String × HC Dim (ISet ⊕ V2)) (x : Condition) : Option (PeerSet String × HC Dim (ISet ⊕ V2)) :=
  (condition A2 V B ord rg c x).map fun r =>
    match r with
    | .inl p => (st.1.and p, st.2)
    | .inr h => (st.1, HC.and (connA A2 B) allDims st.2 h)

/-- The peers of `from` (479-485). -/
def fromPeers : Option (List Source) → Option (PeerSet String)
  | none => some (c.allPeers true true false)
  | some l => if l.isEmpty then none else orAll (source V c) l []

/-- The connections of `to` (487-498). -/
def toProps : Option (List Operation) → Option (HC Dim (ISet ⊕ V2))
  | none => makeFromDict A2 B ord rg ⟨some (c.allPeers true true true), some (c.allPeers true true true), none, none⟩
  | some l =>
    if l.isEmpty then none
    else do
      let h ← l.foldlM (fun acc o => (operation A2 dfa V B ord rg o).map (HC.or (connA A2 B) allDims acc)) (HC.empty allDims true)
      let tcp ← tcpProps A2 B ord rg
      return HC.and (connA A2 B) allDims h tcp

/-- The peers and the connections of `when` (503-513). -/
def whenProps (peers : PeerSet String) : Option (List Condition) → Option (PeerSet String × HC Dim (ISet ⊕ V2))
  | none => some (peers, HC.full true)
  | some l => do
    let st ← l.foldlM (conditionStep A2 V B ord rg c) (peers, HC.full true)
    let tcp ← tcpProps A2 B ord rg
    return (st.1, HC.and (connA A2 B) allDims st.2 tcp)

/-- `parse_ingress_rule` (462-522): the connections of the rule. -/
def parseRule (selected : PeerSet String) (r : AuthRule) : Option (HC Dim (ISet ⊕ V2)) := do
  let peers ← fromPeers V c r.sources
  let props ← toProps A2 dfa V B ord rg c r.operations
  let (peers, cond) ← whenProps A2 V B ord rg c peers r.conditions
  let cond ← if peers.isEmpty || selected.isEmpty then some (HC.empty allDims true)
    else (makeFromDict A2 B ord rg ⟨some peers, some selected, none, none⟩).map (HC.and (connA A2 B) allDims cond)
  return HC.and (connA A2 B) allDims props cond

/-- `_parse_workload_selector` (IstioGenericYamlParser.py 30-57) and the case of no selector (67-72). -/
def workloads : Workloads → Option (PeerSet String)
  | .absent => some (c.allPeers false false false)
  | .empty => some (c.allPeers false true false)
  | .labels l => if l.isEmpty then none
    else some (l.foldl (fun res kv => res.and (c.withLabel kv.1 [kv.2] false)) (c.allPeers false true false))

/-- `istio_root_namespace` (IstioGenericYamlParser.py 10). -/
def rootNamespace : String := "istio-config"

/-- `update_policy_peers` (IstioGenericYamlParser.py 59-77). -/
def selectedPeers (ns : Ns) (s : Workloads) : Option (PeerSet String) :=
  (workloads c s).map fun r => if ns.name = rootNamespace then r else r.and (c.nsPods (some ns))

/-- The result of `parse_policy`: the attributes of `IstioNetworkPolicy` the parser sets. -/
structure ParsedAuth (V2 : Type) where
  deny : Bool
  affectsIngress : Bool
  selected : PeerSet String
  rules : List (HC Dim (ISet ⊕ V2))

/-- `action` (562-564); the default of the class is to allow (IstioNetworkPolicy.py 33). -/
def parseAction : Option String → Option Bool
  | none => some false
  | some s => if s = "ALLOW" then some false else if s = "DENY" then some true else none

/-- `parse_policy` (536-578); without a spec the policy keeps the attributes of its constructor. -/
def parsePolicy (t : AuthText) : Option (ParsedAuth V2) :=
  match t.spec with
  | none => some ⟨false, false, [], []⟩
  | some s => do
    let deny ← parseAction s.action
    let selected ← selectedPeers c t.ns s.selector
    let rules ← s.rules.mapM (parseRule A2 dfa V B ord rg c selected)
    if rules.isEmpty && deny then none else return ⟨deny, true, selected, rules⟩

end
end IstioParser
end Verif
