import Verif.QueryModel
/-!
Model of the connectivity map: `ConnectivityMapQuery` (nca/NetworkConfig/NetworkConfigQuery.py 673-920)
up to the connection sets handed to the output formats.  The formats are modelled elsewhere.
SIMPLIFICATION: names are lists of characters only where the code looks inside them.
-/
namespace Verif

/-! ### The subset of peers to show -/

/-- What `is_in_subset` looks at in a peer (Peer.py 17-56, 59-110): whether it is a `Pod`, the printed
namespace ("None" if there is none), the owner and workload names, the labels. -/
structure PeerAttrs where
  isPod : Bool
  ns : String
  owner : Option (List Char)
  workload : List Char
  labels : List (String × String)

/-- The entries of `output_config.subset`, split at the commas (NetworkConfigQuery.py 697-718);
an empty list stands for an absent entry. -/
structure SubsetSpec where
  namespaces : List String
  deployments : List (List Char)
  labels : List (List (String × String))

/-- The operator `in` on strings: `x` is a contiguous part of `y`. -/
def isPart (x y : List Char) : Bool := y.tails.any (fun z => x.isPrefixOf z)

/-- `are_labels_all_included` (NetworkConfigQuery.py 737-742); `lookup` is `dict.get`. -/
def labelsIncluded (want have_ : List (String × String)) : Bool :=
  want.all (fun kv => have_.lookup kv.1 == some kv.2)

/-- `is_in_subset` (NetworkConfigQuery.py 683-720). -/
def inSubset (sp : Option SubsetSpec) (i : PeerAttrs) : Bool :=
  match sp with
  | none => true
  | some sp =>
    sp.namespaces.contains i.ns ||
    (i.isPod && match i.owner with
      | none => false
      | some o => !o.isEmpty && sp.deployments.any (fun d => isPart d (if d.contains '/' then i.workload else o))) ||
    (!i.labels.isEmpty && sp.labels.any (fun ls => labelsIncluded ls i.labels))

section
variable {C P E S : Type} (N : NetQ C P E S)

/-- `compute_subset` (NetworkConfigQuery.py 722-735); `info` gives the attributes of an element of a
peer set. -/
def computeSubset (info : S → PeerAttrs) (sp : Option SubsetSpec) (peers : S) : S :=
  match sp with
  | none => peers
  | some _ => ((N.elems peers).filter (fun a => inSubset sp (info a))).foldl (fun acc a => N.Q.or acc a) N.Q.empty

/-- The connections `compute_connectivity_output` gives to the output formats (NetworkConfigQuery.py
744-780).  The test on the numbers of peers, 766, is whether some peer is out of the subset. -/
def connMap (excl : Bool) (info : S → PeerAttrs) (sp : Option SubsetSpec) (c : Config C S) : C :=
  let a := (c.conns N none ConnFilter.onlyAllAllowed).allAllowed
  let peers := N.Q.or (c.peers.group N.toNet false true) (N.peersOf a)
  let peers := if excl then N.Q.sub peers N.v6 else peers
  let a := if excl then N.K.and a (N.rect (some peers) (some peers) .any) else a
  let sub := computeSubset N info sp peers
  let a := if (N.elems peers).any (fun x => !inSubset sp (info x)) then
    N.K.and a (N.K.or (N.rect (some sub) none .any) (N.rect none (some sub) .any)) else a
  filterConns N.toNet c.peers a

/-- `convert_props_to_split_by_tcp` (NetworkConfigQuery.py 906-920). -/
def splitTcp (a : C) : C × C :=
  let tcp := N.K.and a (N.rect none none .tcp)
  (tcp, N.K.sub a tcp)

/-- `does_contain_istio_layers` (NetworkLayer.py 93-98). -/
def hasIstio (ls : Layers C S) : Bool := ls.any (fun l => l.1 = .istio || l.1 = .istioGateway)

/-- The maps shown: one, or the TCP and the non-TCP part (NetworkConfigQuery.py 773-777, 800-860). -/
def shownMaps (excl : Bool) (info : S → PeerAttrs) (sp : Option SubsetSpec) (c : Config C S) : List C :=
  let a := connMap N excl info sp c
  if hasIstio c.store.layers then [(splitTcp N a).1, (splitTcp N a).2] else [a]

end
end Verif
