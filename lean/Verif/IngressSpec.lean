import Verif.IngressModel
import Verif.PropsIstioParse
/-!
Specification of Kubernetes services and Ingress resources, from the documentation of Kubernetes ("Service", "Ingress"):
which pods and ports a service stands for, and to which of them the Ingress controller forwards a request.  It speaks of
one request: its two ends, its protocol, port, host and path.  It mentions no sets of peers and no connection sets.
-/
namespace Verif
namespace IngressParser
open Container CalicoParser IstioParser

/-! ### Services -/

/-- The selector of the service picks the place: a pod of its namespace with all the labels.  A service without a
selector picks nothing. -/
def Picks (c : Container) (s : SvcText) (E : Place) : Prop :=
  s.selector ≠ [] ∧ AtSome c E fun p => p.InNs s.ns ∧ ∀ kv ∈ s.selector, p.HasVal kv.1 kv.2

/-- The port of the service leads to the port `x` of the place: a number, by default the one of the service, or the
port to which the pod gives the name, with the same protocol. -/
def TargetIs (rg : PodReg) (p : SvcPortText) (E : Place) (x : Int) : Prop :=
  match p.target with
  | none => p.num = some x
  | some (.inl n) => x = n
  | some (.inr name) => ∃ k, E = .pod k ∧ (rg.named k).lookup name = some (x, p.protocol.getD "TCP")

/-- The reference is to the port, by its name or its number. -/
def Refers (r : SvcRef) (p : SvcPortText) : Prop :=
  (∃ n, n ≠ "" ∧ r.portName = some n ∧ r.portNumber = none ∧ p.name = some n) ∨
  ∃ n, r.portName = none ∧ r.portNumber = some n ∧ p.num = some n

/-- The services are those of the configuration; the reference, in a namespace, leads to port `x` of the place. -/
def LeadsTo (rg : PodReg) (c : Container) (l : List SvcText) (ns : Ns) (r : SvcRef) (E : Place) (x : Int) : Prop :=
  ∃ s ∈ l, s.name = r.name ∧ s.ns.name = ns.name ∧ ∃ p ∈ s.ports, Refers r p ∧ Picks c s E ∧ TargetIs rg p E x

/-- The backend is the port `x` of the place. -/
def BackendIs (rg : PodReg) (c : Container) (l : List SvcText) (ns : Ns) (b : Backend) (E : Place) (x : Int) : Prop :=
  ∃ r, b.service = some r ∧ LeadsTo rg c l ns r E x

/-- The place is a pod of the Ingress controller: of a service with `ingress-nginx` in its name, as the code assumes. -/
def Controller (c : Container) (l : List SvcText) (E : Place) : Prop :=
  ∃ s ∈ l, "ingress-nginx".toList <:+: s.name.toList ∧ Picks c s E

/-! ### Hosts and paths -/

/-- The host of a rule: absent (all hosts), precise, or with a wildcard for the first label. -/
def HostSays : Option (List Char) → List Char → Prop
  | none, _ => True
  | some h, w => '*' ∉ h ∧ w = h ∨ ∃ s l, h = '*' :: '.' :: s ∧ w = l ++ '.' :: s ∧ l ≠ [] ∧ '.' ∉ l

/-- The elements of a path: the parts between the slashes. -/
def elems : List Char → List (List Char)
  | [] => [[]]
  | a :: t =>
    if a = '/' then [] :: elems t
    else match elems t with
      | [] => [[a]]
      | e :: l => (a :: e) :: l

/-- Without a slash at the end. -/
def trim (s : List Char) : List Char :=
  match s.reverse with
  | '/' :: r => r.reverse
  | _ => s

/-- The text of a path; slashes at the end do not matter for prefixes. -/
def PathText.norm (p : PathText) : List Char := if p.type = .exact then p.path.getD [] else trim (p.path.getD [])

/-- The path of the rule matches: it is equal, or its elements are the first ones.  What `ImplementationSpecific` means
is up to the controller; for `ingress-nginx` it is a prefix. -/
def PathSays (p : PathText) (w : List Char) : Prop :=
  if p.type = .exact then p.path = some w else ∃ s, p.path = some s ∧ elems (trim s) <+: elems w

/-- The first path is weaker: shorter, or as long, but a prefix while the other one is exact. -/
def Weaker (p p' : PathText) : Prop :=
  p.norm.length < p'.norm.length ∨ p.norm.length = p'.norm.length ∧ p.type ≠ .exact ∧ p'.type = .exact

/-- The path is the one of the list that decides about the request: it matches, and all others that match are
weaker. -/
def Wins (l : List PathText) (p : PathText) (w : List Char) : Prop :=
  p ∈ l ∧ PathSays p w ∧ ∀ p' ∈ l, PathSays p' w → p' = p ∨ Weaker p' p

/-- The paths of a rule. -/
def IngressRule.paths (r : IngressRule) : List PathText := (r.http.getD none).getD []

/-- The request matches a rule with one of its paths. -/
def Matched (t : IngressText) (host path : List Char) : Prop := ∃ r ∈ t.rules, HostSays r.host host ∧ ∃ p ∈ r.paths, PathSays p path

/-- The controller forwards the request to port `x` of the place: to the backend of the path that decides, or to the
default backend if the request matches no rule. -/
def Routes (rg : PodReg) (c : Container) (l : List SvcText) (t : IngressText) (host path : List Char) (E : Place) (x : Int) : Prop :=
  (∃ r ∈ t.rules, HostSays r.host host ∧ ∃ p, Wins r.paths p path ∧ BackendIs rg c l t.ns p.backend E x) ∨
  ¬ Matched t host path ∧ ∃ b, t.defaultBackend = some b ∧ BackendIs rg c l t.ns b E x

/-! ### Legal texts, and those that the code reads wrongly -/

/-- The service is legal: its ports have numbers, and no two have the same name or number. -/
structure SvcText.Legal (s : SvcText) : Prop where
  nums : ∀ p ∈ s.ports, ∃ n, p.num = some n ∧ 1 ≤ n ∧ n ≤ 65535
  targets : ∀ p ∈ s.ports, ∀ n, p.target = some (.inl n) → 1 ≤ n ∧ n ≤ 65535
  names : (s.ports.map fun p => p.name.getD "").Nodup
  numbers : (s.ports.map fun p => p.num).Nodup

/-- The service is legal, and every pod it picks has all the ports it names (`C52_missing_port_wrong`). -/
structure SvcText.Tame (rg : PodReg) (c : Container) (s : SvcText) : Prop extends s.Legal where
  whole : ∀ p ∈ s.ports, ∀ name, p.target = some (.inr name) → ∀ E, Picks c s E → ∃ x, TargetIs rg p E x

/-- The services are legal, no two have the same name and namespace, and the services of namespaces with
`ingress-nginx` in their names belong to the controller (`C53_controller_namespace_wrong`). -/
structure SvcsTame (rg : PodReg) (c : Container) (l : List SvcText) : Prop where
  each : ∀ s ∈ l, s.Tame rg c
  ns : ∀ s ∈ l, '/' ∉ s.ns.name.toList
  uniq : l.Pairwise fun s s' => ¬ (s.name = s'.name ∧ s.ns.name = s'.ns.name)
  controller : ∀ s ∈ l, "ingress-nginx".toList <:+: s.ns.name.toList → "ingress-nginx".toList <:+: s.name.toList

/-- The backend is a port of a service (`C53_resource_wrong`, `C53_missing_service_wrong`) with at least one pod
(`C53_no_pods_wrong`), and for TCP. -/
def Backend.Tame (c : Container) (l : List SvcText) (ns : Ns) (b : Backend) : Prop :=
  b.resource = false ∧ ∃ r, b.service = some r ∧ ∃ s ∈ l, s.name = r.name ∧ s.ns.name = ns.name ∧ (∃ E, Picks c s E) ∧
    ∃ p ∈ s.ports, Refers r p ∧ p.protocol.getD "TCP" = "TCP"

/-- The path is legal, and one that the code reads as Kubernetes does: no dots (`C53_dot_wrong`), and no two slashes at
the end of a prefix. -/
def PathText.Tame (p : PathText) : Prop :=
  ∃ t, p.path = some ('/' :: t) ∧ (∀ a ∈ t, Letter a ∧ a ≠ '.') ∧ (p.type = .exact ∨ ¬ ['/', '/'] <:+ '/' :: t)

/-- A legal host. -/
def HostLegal (h : List Char) : Prop :=
  h ≠ [] ∧ (('*' ∉ h ∧ ∀ a ∈ h, Letter a) ∨ ∃ s, h = '*' :: '.' :: s ∧ '*' ∉ s ∧ ∀ a ∈ s, Letter a)

/-- The rule is legal: `http` is given (`C53_no_http_rejected`), and no two of its paths are the same
(`C53_same_prefix_wrong`). -/
structure IngressRule.Tame (c : Container) (l : List SvcText) (ns : Ns) (r : IngressRule) : Prop where
  host : ∀ h, r.host = some h → HostLegal h
  http : r.http ≠ none
  given : r.http ≠ some (some [])
  paths : ∀ p ∈ r.paths, p.Tame ∧ p.backend.Tame c l ns
  differ : r.paths.Pairwise fun p p' => ¬ (p.norm = p'.norm ∧ (p.type = .exact ↔ p'.type = .exact))

/-- The Ingress is legal; if there is a default backend, there are rules (`C53_default_only_rejected`). -/
structure IngressText.Legal (c : Container) (l : List SvcText) (t : IngressText) : Prop where
  ns : '/' ∉ t.ns.name.toList
  rules : ∀ r ∈ t.rules, r.Tame c l t.ns
  dflt : ∀ b, t.defaultBackend = some b → b.Tame c l t.ns ∧ t.rules ≠ []

/-- The Ingress is legal, and one that the code reads as Kubernetes does: if there is a default backend, all rules have
hosts (`C53_no_host_default_wrong`) and none has the prefix `/` (`C53_root_default_wrong`). -/
structure IngressText.Tame (c : Container) (l : List SvcText) (t : IngressText) : Prop extends t.Legal c l where
  rest : ∀ b, t.defaultBackend = some b → ∀ r ∈ t.rules, r.host ≠ none ∧ ∀ p ∈ r.paths, p.type = .exact ∨ p.path ≠ some ['/']

/-- The letters of `\w`. -/
def WordChar (a : Char) : Prop := a.isAlphanum = true ∨ a = '_'

/-- The host of the request is one for which the code reads the Ingress as Kubernetes does: at most one rule is for it
(`C53_two_rules_wrong`), and if there are wildcards, its first label has letters, digits and `_` only
(`C53_wildcard_wrong`). -/
structure HostTame (t : IngressText) (w : List Char) : Prop where
  one : t.rules.Pairwise fun r r' => ¬ (HostSays r.host w ∧ HostSays r'.host w)
  label : ∀ r ∈ t.rules, ∀ s, r.host = some ('*' :: '.' :: s) → w.takeWhile (· ≠ '.') ≠ [] ∧ ∀ a ∈ w.takeWhile (· ≠ '.'), WordChar a

/-- What is assumed of the library of automata, besides the assumptions for Istio's policies: the words of `[\w]*` and of
an optional suffix; and every text of letters is a word. -/
structure IngressLib {V2 X2 : Type} (A2 : VAlg Dim V2 X2) (W2 : Dim → V2 → Prop) (dfa : List Char → V2) (word : X2 → List Char)
    (D : V2 → Prop) : Prop extends DfaLib A2 W2 dfa word D where
  wild : ∀ t, rxPlain t → D (dfa ("[\\w]*".toList ++ rxText t)) ∧
    ∀ x, A2.mem x (dfa ("[\\w]*".toList ++ rxText t)) = true ↔ ∃ u v, word x = u ++ v ∧ (∀ a ∈ u, WordChar a) ∧ rxLang t v
  opt : ∀ s, (∀ a ∈ s, Letter a ∧ a ≠ '.') → D (dfa (s ++ "(/[.\\w/\\-]*)?".toList)) ∧
    ∀ x, A2.mem x (dfa (s ++ "(/[.\\w/\\-]*)?".toList)) = true ↔ word x = s ∨ ∃ r, word x = s ++ '/' :: r ∧ ∀ a ∈ r, Letter a
  every : ∀ w, (∀ a ∈ w, Letter a) → ∃ x, word x = w

end IngressParser
end Verif
