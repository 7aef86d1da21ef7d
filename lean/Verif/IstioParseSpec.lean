import Verif.IstioParseModel
import Verif.PropsCalicoParse
/-!
Specification of Istio's authorization policies, from its reference ("Authorization Policy", "Authorization Policy
Conditions", "Value matching"): what the texts of a policy mean, and which requests a rule matches.  It speaks of one
request: its two ends, its protocol, port, method, host and path.  It mentions no sets of peers and no connection sets.

All traffic between pods is taken to carry the identities of the pods (mutual TLS), as the code does.  Names of
hosts are compared as they are written.
-/
namespace Verif
namespace IstioParser
open Container CalicoParser

/-! ### Texts -/

/-- Value matching: a text, any value that is not empty, an end, or a begin. -/
inductive Matches : List Char → List Char → Prop
  | exact {s} : '*' ∉ s → Matches s s
  | presence {v} : v ≠ [] → Matches ['*'] v
  | suffix {s t} : s ≠ [] → '*' ∉ s → Matches ('*' :: s) (t ++ s)
  | prefix {s t} : s ≠ [] → '*' ∉ s → Matches (s ++ ['*']) (s ++ t)

/-- The text can be used for value matching. -/
def Pattern (s : List Char) : Prop :=
  '*' ∉ s ∨ s = ['*'] ∨ ∃ t, t ≠ [] ∧ '*' ∉ t ∧ (s = '*' :: t ∨ s = t ++ ['*'])

/-- The port is the number that is written. -/
def PortIs (x : Int) : PortText → Prop
  | .num n => x = n
  | .text s => IsNum s.toList x

/-- One of the list; an absent or empty list asks nothing. -/
def Among {α : Type} (o : Option (List α)) (P : α → Prop) : Prop := ∀ l, o = some l → l ≠ [] → ∃ x ∈ l, P x

/-- None of the list. -/
def Apart {α : Type} (o : Option (List α)) (P : α → Prop) : Prop := ∀ l, o = some l → ∀ x ∈ l, ¬ P x

/-! ### Requests -/

/-- The attributes of a request besides its ends. -/
structure Request where
  proto : Int
  port : Int
  method : String
  host : List Char
  path : List Char

/-- The place is in a namespace whose name matches. -/
def FromNs (c : Container) (E : Place) (s : List Char) : Prop :=
  AtSome c E fun p => ∃ n, p.ns = some n ∧ Matches s n.name.toList

/-- The place has a principal that matches. -/
def FromPrincipal (sa : String → List Char) (c : Container) (E : Place) (s : List Char) : Prop :=
  AtSome c E fun p => ∃ k n, p.elem = .pod k ∧ p.ns = some n ∧
    Matches s ("cluster.local/ns/".toList ++ (n.name.toList ++ ("/sa/".toList ++ sa k)))

/-- The place is an address of the network.  The addresses of pods are not known. -/
def FromNet (E : Place) (n : IpBlock.Cidr) : Prop := ∃ x, E = .ip x ∧ n.Has x

/-- The source matches. -/
structure SourceSays (sa : String → List Char) (c : Container) (s : Source) (E : Place) : Prop where
  namespaces : Among s.namespaces (FromNs c E)
  notNamespaces : Apart s.notNamespaces (FromNs c E)
  principals : Among s.principals (FromPrincipal sa c E)
  notPrincipals : Apart s.notPrincipals (FromPrincipal sa c E)
  ipBlocks : Among s.ipBlocks (FromNet E)
  notIpBlocks : Apart s.notIpBlocks (FromNet E)

/-- The operation matches. -/
structure OperationSays (o : Operation) (q : Request) : Prop where
  ports : Among o.ports (PortIs q.port)
  notPorts : Apart o.notPorts (PortIs q.port)
  methods : Among o.methods (Matches · q.method.toList)
  notMethods : Apart o.notMethods (Matches · q.method.toList)
  hosts : Among o.hosts (Matches · q.host)
  notHosts : Apart o.notHosts (Matches · q.host)
  paths : Among o.paths (Matches · q.path)
  notPaths : Apart o.notPaths (Matches · q.path)

/-- The condition holds. -/
def ConditionSays (sa : String → List Char) (c : Container) (E : Place) (q : Request) : Condition → Prop
  | .ip v n => Among v (FromNet E) ∧ Apart n (FromNet E)
  | .namespace v n => Among v (FromNs c E) ∧ Apart n (FromNs c E)
  | .principal v n => Among v (FromPrincipal sa c E) ∧ Apart n (FromPrincipal sa c E)
  | .port v n => Among v (PortIs q.port) ∧ Apart n (PortIs q.port)

/-- The rule matches: at least one source, one operation and all conditions do. -/
structure RuleSays (sa : String → List Char) (c : Container) (r : AuthRule) (src : Place) (q : Request) : Prop where
  sources : ∀ l, r.sources = some l → ∃ s ∈ l, SourceSays sa c s src
  operations : ∀ l, r.operations = some l → ∃ o ∈ l, OperationSays o q
  conditions : ∀ l, r.conditions = some l → ∀ x ∈ l, ConditionSays sa c src q x

/-- The selector chooses the endpoint. -/
def Chosen (w : Workloads) (p : PeerInfo) : Prop :=
  match w with
  | .labels l => ∀ kv ∈ l, p.HasVal kv.1 kv.2
  | _ => True

/-- The policy applies to the place: a pod of its namespace that the selector chooses.  Policies of the root namespace,
which the code takes to be named `istio-config`, apply in all namespaces. -/
def AuthApplies (c : Container) (ns : Ns) (w : Workloads) (E : Place) : Prop :=
  AtSome c E fun p => p.kind = .pod ∧ (ns.name ≠ "istio-config" → p.InNs ns) ∧ Chosen w p

/-- Requests come from pods and addresses, not from names of domains. -/
def Sender (c : Container) : Place → Prop
  | .pod k => ∃ p ∈ c, p.elem = .pod k ∧ p.kind ≠ .dns
  | .ip _ => True

/-! ### Legal texts, and those that the code reads wrongly -/

/-- The letters of hosts and paths. -/
def Letter (a : Char) : Prop := a.isAlphanum = true ∨ a = '_' ∨ a = '.' ∨ a = '/' ∨ a = '-'

/-- A text for hosts or paths. -/
def StrPattern (s : List Char) : Prop := Pattern s ∧ ∀ a ∈ s, Letter a ∨ a = '*'

/-- The text is the number of a port. -/
def PortLegal (t : PortText) : Prop := ∃ n, PortIs n t ∧ 1 ≤ n ∧ n ≤ 65535

/-- The list, if given, is not empty, and its elements are legal. -/
def ListOk {α : Type} (o : Option (List α)) (P : α → Prop) : Prop := ∀ l, o = some l → l ≠ [] ∧ ∀ x ∈ l, P x

/-- The source is legal, and one that the code reads as Istio does, at this place: no list is empty
(`C50_empty_list_wrong`), excluded networks come with networks (`C50_not_ip_blocks_rejected`), and excluded namespaces
and principals come with namespaces or principals (`C50_negative_misses_outside`), unless the place is a pod. -/
structure Source.Tame (s : Source) (E : Place) : Prop where
  namespaces : ListOk s.namespaces Pattern
  notNamespaces : ListOk s.notNamespaces Pattern
  principals : ListOk s.principals Pattern
  notPrincipals : ListOk s.notPrincipals Pattern
  ipBlocks : ListOk s.ipBlocks fun _ => True
  notIpBlocks : ListOk s.notIpBlocks fun _ => True
  given : s.namespaces ≠ none ∨ s.notNamespaces ≠ none ∨ s.principals ≠ none ∨ s.notPrincipals ≠ none ∨ s.ipBlocks ≠ none
  nets : s.notIpBlocks ≠ none → s.ipBlocks ≠ none
  outside : s.notNamespaces ≠ none ∨ s.notPrincipals ≠ none → s.namespaces ≠ none ∨ s.principals ≠ none ∨ ∃ k, E = .pod k

/-- The operation is legal, and one that the code reads as Istio does: no list is empty, and paths begin with `/`
(`C50_path_presence_wrong`). -/
structure Operation.Tame (o : Operation) : Prop where
  ports : ListOk o.ports PortLegal
  notPorts : ListOk o.notPorts PortLegal
  methods : ListOk o.methods Pattern
  notMethods : ListOk o.notMethods Pattern
  hosts : ListOk o.hosts StrPattern
  notHosts : ListOk o.notHosts StrPattern
  paths : ListOk o.paths fun s => StrPattern s ∧ s.head? = some '/'
  notPaths : ListOk o.notPaths StrPattern
  given : o.ports ≠ none ∨ o.notPorts ≠ none ∨ o.methods ≠ none ∨ o.notMethods ≠ none ∨ o.hosts ≠ none ∨ o.notHosts ≠ none ∨
    o.paths ≠ none ∨ o.notPaths ≠ none

/-- The condition is legal, and one that the code reads as Istio does, at this place. -/
def Condition.Tame (E : Place) : Condition → Prop
  | .ip v n => ListOk v (fun _ => True) ∧ ListOk n (fun _ => True) ∧ v ≠ none
  | .namespace v n => ListOk v Pattern ∧ ListOk n Pattern ∧ (v ≠ none ∨ n ≠ none ∧ ∃ k, E = .pod k)
  | .principal v n => ListOk v Pattern ∧ ListOk n Pattern ∧ (v ≠ none ∨ n ≠ none ∧ ∃ k, E = .pod k)
  | .port v n => ListOk v PortLegal ∧ ListOk n PortLegal ∧ (v ≠ none ∨ n ≠ none)

/-- The rule is legal, and one that the code reads as Istio does, for requests from this place. -/
structure AuthRule.Tame (r : AuthRule) (E : Place) : Prop where
  sources : ListOk r.sources (Source.Tame · E)
  operations : ListOk r.operations Operation.Tame
  conditions : ∀ l, r.conditions = some l → ∀ x ∈ l, x.Tame E

/-- The cluster, as the code needs it for Istio: pods are not global peers (Peer.py 47-48), there is a number that no peer has, the namespaces of the pods are known, and the names of namespaces and
service accounts have letters, digits, `_` and `-` only (`C50_dotted_account_wrong`). -/
structure IstioCluster (V : Env) (rg : PodReg) (c : Container) : Prop where
  cluster : K8sParser.Cluster rg c
  inNs : ∀ p ∈ c, p.kind = .pod → p.isGlobal = false
  room : rg.keys.length < maxPods
  known : ∀ p ∈ c, ∀ n, p.ns = some n → n.name.toList ∈ V.nss
  plain : ∀ p ∈ c, ∀ n, p.ns = some n → n.name.toList ≠ [] ∧ ∀ a ∈ n.name.toList, V.word a = true ∨ a = '-'
  names : ∀ s ∈ V.nss, '*' ∉ s ∧ s ≠ []
  accounts : ∀ p ∈ c, ∀ k, p.kind = .pod → p.elem = .pod k → V.sa k ≠ [] ∧ ∀ a ∈ V.sa k, V.word a = true ∨ a = '-'
  word : ∀ a, Letter a → a ∉ ['.', '/', '-'] → V.word a = true
  notWord : V.word '/' = false

/-! ### Regular expressions, as far as the code writes them -/

/-- A part of a regular expression: a character, `[.]`, `[.\w/\-]*` or `[.\w/\-]+`. -/
inductive RxAtom where
  | chr (a : Char)
  | dot
  | star
  | plus

/-- The text of a part. -/
def RxAtom.text : RxAtom → List Char
  | .chr a => [a]
  | .dot => "[.]".toList
  | .star => "[.\\w/\\-]*".toList
  | .plus => "[.\\w/\\-]+".toList

/-- The words of a part. -/
def RxAtom.Lang : RxAtom → List Char → Prop
  | .chr a, w => w = [a]
  | .dot, w => w = ['.']
  | .star, w => ∀ a ∈ w, Letter a
  | .plus, w => w ≠ [] ∧ ∀ a ∈ w, Letter a

/-- A sequence of parts: its text and its words. -/
def rxText (t : List RxAtom) : List Char := t.flatMap RxAtom.text

/-- The words of a sequence. -/
def rxLang : List RxAtom → List Char → Prop
  | [], w => w = []
  | a :: t, w => ∃ u v, w = u ++ v ∧ a.Lang u ∧ rxLang t v

/-- The characters of a sequence stand for themselves. -/
def rxPlain (t : List RxAtom) : Prop := ∀ a, .chr a ∈ t → Letter a ∧ a ≠ '.'

/-- What is assumed of the library of automata (greenery, and `MinDFA` on top of it): `dfa` gives the words of an
alternative of sequences, and subtraction is exact for all automata (`D`); automata within the domain of a dimension are
legal values of it.  The domains are those of DimensionsManager.py 42-68, 88-97. -/
structure DfaLib {V2 X2 : Type} (A2 : VAlg Dim V2 X2) (W2 : Dim → V2 → Prop) (dfa : List Char → V2) (word : X2 → List Char)
    (D : V2 → Prop) : Prop where
  regex : ∀ r : List (List RxAtom), r ≠ [] → (∀ t ∈ r, rxPlain t) → D (dfa (List.intercalate ['|'] (r.map rxText))) ∧
    ∀ x, A2.mem x (dfa (List.intercalate ['|'] (r.map rxText))) = true ↔ ∃ t ∈ r, rxLang t (word x)
  dom : ∀ d, d.isDfa = true → D (A2.dom d)
  sub : ∀ {a b}, D a → D b → D (A2.sub a b) ∧ ∀ x, A2.mem x (A2.sub a b) = (A2.mem x a && !A2.mem x b)
  legal : ∀ {d v}, d.isDfa = true → D v → (∀ x, A2.mem x v = true → A2.mem x (A2.dom d) = true) → W2 d v
  hosts : ∀ x, A2.mem x (A2.dom .hosts) = true ↔ ∀ a ∈ word x, Letter a
  paths : ∀ x, A2.mem x (A2.dom .paths) = true ↔ ∃ t, word x = '/' :: t ∧ ∀ a ∈ t, Letter a

/-- The point is the request between the two places. -/
structure IsRequest {V2 X2 : Type} (word : X2 → List Char) (rg : PodReg) (c : Container) {A : VAlg Dim (ISet ⊕ V2) (Int ⊕ X2)}
    (p : Point A) (src dst : Place) (q : Request) : Prop where
  src : src.At rg c (p.1 .srcPeers)
  dst : dst.At rg c (p.1 .dstPeers)
  proto : p.1 .protocols = .inl q.proto
  port : p.1 .dstPorts = .inl q.port
  method : ∃ n : Nat, p.1 .methods = .inl (n : Int) ∧ MethodSet.allMethods[n]? = some q.method
  host : ∃ x, p.1 .hosts = .inr x ∧ word x = q.host
  path : ∃ x, p.1 .paths = .inr x ∧ word x = q.path

end IstioParser
end Verif
