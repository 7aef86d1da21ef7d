import Verif.QueryDom
/-!
Model of what a query changes and restores: the domains of the peer dimensions
(nca/NetworkConfig/NetworkConfigQuery.py 60-100, nca/CoreDS/DimensionsManager.py), the connections of the rules and
their saved copies (nca/Resources/PolicyResources/NetworkPolicy.py 189-219), and the lazily computed connections of the
policies (`props_in_sync`, NetworkPolicy.py 57-112, and `sync_props` of the derived classes).

Rules and policies are objects in a heap, so that configurations may share policies and policies may share rules.
Connection sets are values: `copy` is deep (CanonicalHyperCubeSet.py 206-211), and `|=` on the cached sets does not change
the operands.
-/
namespace Verif

/-- A rule object (K8sNetworkPolicy.py 10-22 and the other rule classes): `props` and `props_copy`. -/
structure RuleObj (C : Type) where
  props : C
  copy : C

/-- A policy object: references to its rules, `props_in_sync` and the cached sets `_allow_ingress_props` etc. -/
structure PolObj (K : Type) where
  ingress : List Nat
  egress : List Nat
  inSync : Bool
  cache : K

/-- The rules and policies of all configurations, and the domain of the peer dimensions
(`DimensionsManager.instance`). -/
structure ObjHeap (C K M : Type) where
  rules : Nat → RuleObj C
  pols : Nat → PolObj K
  dom : M

/-- The operations on connection sets; `sets i m l k` are the sets `sync_props` of policy `i` computes from the
connections of its ingress and egress rules under the domain `m`. -/
structure SyncOps (C K M : Type) where
  truthy : C → Bool
  empty : C
  reduce : M → C → C
  dflt : M
  sets : Nat → M → List C → List C → K

/-- What a query may do: look at the domain, at the connections of rules (as policies made by the query do, which have
no caches yet) and, through the getters, at the cached sets of policies. -/
inductive Prog (C K M A : Type) where
  | ret (a : A)
  | dom (k : M → Prog C K M A)
  | rule (i : Nat) (k : C → Prog C K M A)
  | pol (i : Nat) (k : K → Prog C K M A)

/-- A configuration: whether it has peers, and its policies (`policies_container.policies`). -/
structure ConfigObj where
  hasPeers : Bool
  pols : List Nat

/-- A query: its configurations, whether it supports the output format, its domain and what `execute` does. -/
structure QueryRun (C K M A : Type) where
  configs : List ConfigObj
  supported : Bool
  dom : M
  exec : Prog C K M A

/-- The outcome: an error message, not executed, or the answer. -/
inductive Outcome (A : Type) where
  | noPeers
  | unsupported
  | answer (a : A)

section
variable {C K M A : Type} (O : SyncOps C K M)

def ObjHeap.setRule (w : ObjHeap C K M) (i : Nat) (r : RuleObj C) : ObjHeap C K M :=
  { w with rules := fun j => if j = i then r else w.rules j }

def ObjHeap.setPol (w : ObjHeap C K M) (i : Nat) (p : PolObj K) : ObjHeap C K M :=
  { w with pols := fun j => if j = i then p else w.pols j }

/-- The connections of the rules. -/
def ObjHeap.props (w : ObjHeap C K M) (i : Nat) : C := (w.rules i).props

/-- `sync_props` of the derived classes (K8sNetworkPolicy.py 40-52, CalicoNetworkPolicy.py 107-117, …). -/
def ObjHeap.sync (w : ObjHeap C K M) (i : Nat) : ObjHeap C K M :=
  let p := w.pols i
  if p.inSync then w
  else w.setPol i { p with inSync := true, cache := O.sets i w.dom (p.ingress.map w.props) (p.egress.map w.props) }

/-- One round of the loop of `reorganize_props_by_new_domains` (NetworkPolicy.py 199-203). -/
def ObjHeap.reorgRule (w : ObjHeap C K M) (i : Nat) : ObjHeap C K M :=
  let r := w.rules i
  if !O.truthy r.copy then w.setRule i ⟨O.reduce w.dom r.props, r.props⟩ else w

/-- `reorganize_props_by_new_domains` (189-204). -/
def ObjHeap.reorg (w : ObjHeap C K M) (i : Nat) : ObjHeap C K M :=
  let p := w.pols i
  let w := (p.ingress ++ p.egress).foldl (ObjHeap.reorgRule O) w
  w.setPol i { w.pols i with inSync := false }

/-- One round of the loop of `restore_props` (214-218). -/
def ObjHeap.restoreRule (w : ObjHeap C K M) (i : Nat) : ObjHeap C K M :=
  let r := w.rules i
  if O.truthy r.copy then w.setRule i ⟨r.copy, O.empty⟩ else w

/-- `restore_props` (206-219). -/
def ObjHeap.restore (w : ObjHeap C K M) (i : Nat) : ObjHeap C K M :=
  let p := w.pols i
  let w := (p.ingress ++ p.egress).foldl (ObjHeap.restoreRule O) w
  w.setPol i { w.pols i with inSync := false }

/-- The effects of `execute`: the getters fill the caches (NetworkPolicy.py 84-106). -/
def Prog.run : Prog C K M A → ObjHeap C K M → A × ObjHeap C K M
  | .ret a, w => (a, w)
  | .dom k, w => (k w.dom).run w
  | .rule i k, w => (k (w.props i)).run w
  | .pol i k, w =>
    let w := w.sync O i
    (k (w.pols i).cache).run w

/-- The policies of the configurations of the query, in the order of the loops. -/
def QueryRun.pols (q : QueryRun C K M A) : List Nat := q.configs.flatMap (·.pols)

/-- `execute_and_compute_output_in_required_format` (NetworkConfigQuery.py 60-100).  Exceptions of `execute`
are not modelled. -/
def QueryRun.run (q : QueryRun C K M A) (w : ObjHeap C K M) : Outcome A × ObjHeap C K M :=
  if q.configs.any (fun c => !c.hasPeers) then (.noPeers, w)
  else if !q.supported then (.unsupported, w)
  else
    let w := { w with dom := q.dom }
    let w := q.pols.foldl (ObjHeap.reorg O) w
    let (a, w) := q.exec.run O w
    let w := { w with dom := O.dflt }
    (.answer a, q.pols.foldl (ObjHeap.restore O) w)

/-- A sequence of queries. -/
def runAll : List (QueryRun C K M A) → ObjHeap C K M → List (Outcome A) × ObjHeap C K M
  | [], w => ([], w)
  | q :: qs, w =>
    let (a, w) := q.run O w
    let (l, w) := runAll qs w
    (a :: l, w)

end
end Verif
