import Verif.QueryModel
import Verif.LabelModel
/-!
Model of the computation of firewall rules from a connectivity map: `get_minimized_firewall_rules_from_props`,
`minimize_firewall_rules` (nca/FWRules/MinimizeFWRules.py 131-206) and `MinimizeCsFwRules`
(nca/FWRules/MinimizeCsFWRules.py).

Sets and dictionaries are lists in the order of iteration; where the order is that of a Python set of
namespaces it is an arbitrary one (`FwCfg.ord`).  The rules are the objects `FWRule`; their text is not modelled
here (label expressions: `Verif.LabelModel`, connections: `Verif.ReprModel`), nor the filtering of rules of
system namespaces (option fwRulesFilterSystemNs) and the removal of rules with equal text
(MinimizeFWRules.py 97-129).
-/
namespace Verif.Fw

/-- The classes of peers (nca/CoreDS/Peer.py 135, 184, 470, 269). -/
inductive PeerKind | pod | hep | dns | ip
  deriving DecidableEq, Repr

/-- `isinstance(peer, ClusterEP)`. -/
def PeerKind.isEp : PeerKind → Bool
  | .pod => true
  | .hep => true
  | _ => false

/-- What the computation of firewall rules uses besides the operations of `NetQ`. -/
structure FwNet (C P E S : Type) extends NetQ C P E S where
  kind : E → PeerKind
  /-- `get_set_without_ip_block` (Peer.py 637-641). -/
  members : S → List E
  /-- `get_ip_block_canonical_form().get_peer_set()` (Peer.py 655-663). -/
  ips : S → S
  /-- `PeerSet` of a set of peers that are no IP blocks. -/
  ofList : List E → S
  /-- `IpBlock.get_all_ips_block_peer_set()` (Peer.py 349-358). -/
  allIps : S
  /-- `is_full_ipblock` of the IP block of a peer set (MinimizeCsFWRules.py 173-176). -/
  isFull : S → Bool
  /-- The sources and destinations of the cubes of a set in which only these are constrained; with `true`, after
  `reorder_by_switching_src_dst_peers` (ConnectivityProperties.py 421-466). -/
  cubes : Bool → C → List (S × S)
  /-- The cubes of a set, each as the set of its peers (`make_conn_props` after `unset_all_but_peers`) and the
  rest, without the protocols if they are the relevant ones (ConnectivityProperties.py 468-489;
  MinimizeFWRules.py 143-148). -/
  split : ProtoSel → C → List (C × C)

/-- Options: `auto`: there are fewer than 500 peers (MinimizeCsFWRules.py 127); `single`:
fwRulesGroupByLabelSinglePod; `sort`: the sorting of the options for labels; `ord`: the order of
iteration of a set of namespaces; `rel`: the relevant protocols. -/
structure FwCfg (E : Type) where
  auto : Bool
  single : Bool
  sort : List (Key × List Val × List E) → List (Key × List Val × List E)
  ord : ∀ {α : Type}, List α → List α
  rel : ProtoSel

/-- An element of a rule: `FWRuleElement` (all of some namespaces), `PodLabelsElement`, `PeerSetElement`,
`IPBlockElement` or `DNSElement` (nca/FWRules/FWRule.py 135-565). -/
inductive Elem (E S ν : Type) where
  | nss (l : List ν)
  | labels (m : ν) (key : Key) (vals : List Val)
  | pods (l : List E)
  | block (s : S)

/-- `FWRule` (FWRule.py 568-610). -/
structure FwRule (C E S ν : Type) where
  src : Elem E S ν
  dst : Elem E S ν
  props : C

/-- A base element: a set of namespaces (`frozenset`) or a peer set. -/
inductive Base (S ν : Type) where
  | nss (l : List ν)
  | peers (s : S)

/-- `d[k] |= v` for a `defaultdict`. -/
def dictAdd {κ υ : Type} (eq : κ → κ → Bool) (upd : υ → υ → υ) (init : υ) (k : κ) (v : υ) : List (κ × υ) → List (κ × υ)
  | [] => [(k, upd init v)]
  | (k', v') :: d => if eq k' k then (k', upd v' v) :: d else (k', v') :: dictAdd eq upd init k v d

section
variable {C P E S ν : Type} [DecidableEq E] [DecidableEq ν] (N : FwNet C P E S) (I : Cluster E ν) (cfg : FwCfg E)

/-- `PeerSet(self.cluster_info.ns_dict[ns])`. -/
def nsSet (m : ν) : S := N.ofList (I.nsPods m)

/-- `PeerSet(set.union(*[ns_dict[ns] for ns in ns_set]))` (MinimizeCsFWRules.py 207). -/
def nssSet (l : List ν) : S := N.ofList (l.flatMap I.nsPods)

/-- `make_conn_props_from_dict({"src_peers": s, "dst_peers": d})`. -/
def pairSet (s d : S) : C := N.rect (some s) (some d) .any

/-- `make_conn_props_from_dict({dim_name: dim, other_dim_name: other})`. -/
def dimSet (isSrc : Bool) (dim other : S) : C := if isSrc then pairSet N dim other else pairSet N other dim

/-- `_compute_covered_peer_props` (MinimizeCsFWRules.py 119-134). -/
def coveredProps (pp cont : C) : C :=
  let cov := N.K.or pp cont
  if cfg.auto then
    ((N.members (N.Q.or (N.srcs pp) (N.dsts pp))).filter (fun e => (N.kind e).isEp)).foldl
      (fun c e => N.K.or c (pairSet N (N.ofList [e]) (N.ofList [e]))) cov
  else cov

/-- The namespaces of the pods of a peer set (MinimizeCsFWRules.py 96-99). -/
def podNss (s : S) : List ν := ((N.members s).filter (fun e => N.kind e = .pod)).map I.ns |>.dedup

/-- The state: `covered_peer_props`, `peer_props_without_ns_expr` and the pairs of namespaces. -/
structure NsState (C ν : Type) where
  cov : C
  rest : C
  pairs : List (ν × ν)

/-- One step of the loop of `_compute_full_ns_grouping` (MinimizeCsFWRules.py 147-158). -/
def nsStep (pp : C) (st : NsState C ν) (sd : ν × ν) : NsState C ν :=
  let prod := pairSet N (nsSet N I sd.1) (nsSet N I sd.2)
  if N.K.contained prod st.cov then
    { cov := N.K.sub st.cov prod
      rest := st.rest
      pairs := if N.K.truthy (N.K.and prod pp) then st.pairs ++ [sd] else st.pairs }
  else { st with rest := N.K.or st.rest (N.K.and prod pp) }

/-- The grouping of pairs by equal sets of second components (MinimizeCsFWRules.py 160-165): a list of
(second components, first components). -/
def groupPairs {α : Type} [DecidableEq α] (pairs : List (α × α)) : List (List α × List α) :=
  ((pairs.map (·.1)).dedup).foldl
    (fun d a => dictAdd sameSet (fun acc x => acc ++ x) [] ((pairs.filter (fun e => e.1 = a)).map (·.2)) [a] d) []

/-- `ns_set_pairs` from the pairs (MinimizeCsFWRules.py 159-171). -/
def nsSetPairs (pairs : List (ν × ν)) : List (Base S ν × Base S ν) :=
  let bySrc := groupPairs pairs
  let byDst := groupPairs (pairs.map (fun e => (e.2, e.1)))
  if bySrc.length ≤ byDst.length then bySrc.map (fun e => (.nss e.2, .nss e.1))
  else byDst.map (fun e => (.nss e.1, .nss e.2))

/-- `_compute_full_ns_grouping` (MinimizeCsFWRules.py 136-171), before the pairs are grouped. -/
def fullNs (pp cov : C) (srcNs dstNs : List ν) : NsState C ν :=
  (srcNs.flatMap (fun s => dstNs.map (fun d => (s, d)))).foldl (nsStep N I pp) ⟨cov, N.K.empty, []⟩

/-- The peers of a peer set that have no namespace (MinimizeCsFWRules.py 101-104). -/
def noNs (s : S) : S := N.Q.or (N.ofList ((N.members s).filter (fun e => N.kind e ≠ .pod))) (N.ips s)

/-- `canonical_form` (Peer.py 540-542). -/
def canon (s : S) : S := N.Q.or (N.ofList (N.members s)) (N.ips s)

/-- The state of the later groupings: `peer_props_without_ns_expr` and `base_elem_pairs`. -/
structure RestState (C S ν : Type) where
  rest : C
  pairs : List (Base S ν × Base S ν)

/-- `(x, y) if is_src_ns else (y, x)`. -/
def dimPair {β : Type} (isSrc : Bool) (x y : β) : β × β := if isSrc then (x, y) else (y, x)

/-- The first loop of `_compute_partial_ns_grouping` (MinimizeCsFWRules.py 190-205). -/
def partialDict (isSrc : Bool) (nss : List ν) (cov rest : C) : List (List ν × S) :=
  (N.cubes isSrc cov).foldl (fun dict sd =>
    let dim := if isSrc then sd.1 else sd.2
    let other := canon N (if isSrc then sd.2 else sd.1)
    let cur := nss.filter (fun m => !N.Q.truthy (N.Q.sub (nsSet N I m) dim) &&
      N.K.truthy (N.K.and (dimSet N isSrc (nsSet N I m) other) rest))
    if cur.isEmpty then dict else dictAdd sameSet N.Q.or N.Q.empty cur other dict) []

/-- A pair is taken if it covers something of the rest (MinimizeCsFWRules.py 219-223, 224-228). -/
def takePair (isSrc : Bool) (l : List ν) (other : S) (st : RestState C S ν) : RestState C S ν :=
  let rest' := N.K.sub st.rest (dimSet N isSrc (nssSet N I l) other)
  if N.K.eq st.rest rest' then st
  else ⟨rest', st.pairs ++ [dimPair isSrc (.nss l) (.peers other)]⟩

/-- `_compute_partial_ns_grouping` (MinimizeCsFWRules.py 178-228). -/
def partialNs (isSrc : Bool) (nss : List ν) (cov : C) (st : RestState C S ν) : RestState C S ν :=
  (partialDict N I isSrc nss cov st.rest).foldl (fun st e =>
    takePair N I isSrc e.1 (N.ips e.2) (takePair N I isSrc e.1 (N.ofList (N.members e.2)) st)) st

/-- `_add_to_map_if_covered` (MinimizeCsFWRules.py 264-277). -/
def addIfCovered (isSrc : Bool) (rest : C) (dim other : S) (d : List (S × S)) : List (S × S) :=
  if N.K.truthy (N.K.and (dimSet N isSrc dim other) rest) then
    dictAdd (peersEq N.toNetQ) N.Q.or N.Q.empty dim other d
  else d

/-- The first loop of `_compute_full_ipblock_and_dns_grouping` (MinimizeCsFWRules.py 243-256). -/
def blockDict (isSrc : Bool) (cov rest : C) : List (S × S) :=
  (N.cubes isSrc cov).foldl (fun d sd =>
    let dim := if isSrc then sd.1 else sd.2
    let other := canon N (if isSrc then sd.2 else sd.1)
    let d := if N.isFull (N.ips dim) then addIfCovered N isSrc rest (N.ips dim) other d else d
    ((N.members dim).filter (fun e => N.kind e = .dns)).foldl
      (fun d e => addIfCovered N isSrc rest (N.ofList [e]) other d) d) []

/-- `_compute_full_ipblock_and_dns_grouping` (MinimizeCsFWRules.py 230-262). -/
def fullBlocks (isSrc : Bool) (cov : C) (st : RestState C S ν) : RestState C S ν :=
  (blockDict N isSrc cov st.rest).foldl (fun st e =>
    ⟨N.K.sub st.rest (dimSet N isSrc e.1 e.2), st.pairs ++ [dimPair isSrc (.peers e.1) (.peers e.2)]⟩) st

/-- A step that is skipped when nothing remains (MinimizeCsFWRules.py 112-117). -/
def whenRest (f : RestState C S ν → RestState C S ν) (st : RestState C S ν) : RestState C S ν :=
  if N.K.truthy st.rest then f st else st

/-- `_compute_basic_grouping` (MinimizeCsFWRules.py 88-117): the pairs of sets of namespaces, and the state after
the groupings. -/
def basicGrouping (pp cont : C) : List (Base S ν × Base S ν) × RestState C S ν :=
  let cov := coveredProps N cfg pp cont
  let srcNs := cfg.ord (podNss N I (N.srcs cov))
  let dstNs := cfg.ord (podNss N I (N.dsts cov))
  let st := fullNs N I pp cov srcNs dstNs
  let noNsProps := N.K.or (N.rect (some (noNs N (N.srcs pp))) none .any) (N.rect none (some (noNs N (N.dsts pp))) .any)
  let rest := N.K.or st.rest (N.K.and noNsProps pp)
  let s1 := partialNs N I false dstNs st.cov ⟨rest, []⟩
  let s2 := whenRest N (partialNs N I true srcNs st.cov) s1
  let s3 := whenRest N (fullBlocks N false st.cov) s2
  let s4 := whenRest N (fullBlocks N true st.cov) s3
  (nsSetPairs st.pairs, s4)

/-- `_create_fw_elements_by_pods_grouping_by_labels` (MinimizeCsFWRules.py 279-294). -/
def labelElems (pods : List E) : List (Elem E S ν) :=
  let r := I.groupMain cfg.single cfg.sort pods []
  r.1.map (fun g => .labels g.2.2 g.1 g.2.1) ++ (if r.2.isEmpty then [] else [.pods r.2])

/-- The loop `while pods` (MinimizeCsFWRules.py 378-382).  SIMPLIFICATION: it is left after as many rounds as there
are pods; every round removes at least one pod, if the pods are in the cluster. -/
def podElems : Nat → List E → List (Elem E S ν)
  | 0, _ => []
  | _, [] => []
  | n + 1, p :: ps =>
    let here := (p :: ps).filter (I.nsPods (I.ns p)).contains
    labelElems I cfg here ++ podElems n ((p :: ps).filter (fun q => !here.contains q))

/-- `_create_fw_elements_from_base_element` (MinimizeCsFWRules.py 357-389). -/
def baseElems : Base S ν → List (Elem E S ν)
  | .nss l => [.nss l]
  | .peers s =>
    let pods := (N.members s).filter (fun e => (N.kind e).isEp)
    podElems I cfg pods.length pods ++ (N.elems (N.Q.sub s (N.ofList pods))).map .block

/-- `_create_fw_rules_from_base_elements` (MinimizeCsFWRules.py 340-355). -/
def pairRules (k : C) (b : Base S ν × Base S ν) : List (FwRule C E S ν) :=
  (baseElems N I cfg b.1).flatMap (fun s => (baseElems N I cfg b.2).map (fun d => ⟨s, d, k⟩))

/-- `_create_fw_rules_from_peer_props_aux` (MinimizeCsFWRules.py 328-338).  The assertion in it: with a source or
destination that is not constrained the peer set would be absent; here it is that of all peers. -/
def cubeRules (k : C) (switched : Bool) (c : C) : List (FwRule C E S ν) :=
  (N.cubes switched c).flatMap (fun sd => pairRules N I cfg k (.peers sd.1, .peers sd.2))

/-- `_create_fw_rules_from_peer_props` (MinimizeCsFWRules.py 309-326, with `minimize`, ConnectivityProperties.py
414-419). -/
def restRules (k rest : C) : List (FwRule C E S ν) :=
  let a := N.K.and (N.rect (some N.allIps) none .any) rest
  let r1 := if N.K.truthy a then N.K.sub rest a else rest
  let b := N.K.and (N.rect none (some N.allIps) .any) r1
  let r2 := if N.K.truthy b then N.K.sub r1 b else r1
  (if N.K.truthy a then cubeRules N I cfg k true a else []) ++
  (if N.K.truthy b then cubeRules N I cfg k false b else []) ++
  (if N.K.truthy r2 then
    cubeRules N I cfg k (!decide ((N.cubes false r2).length ≤ (N.cubes true r2).length)) r2 else [])

/-- `compute_minimized_fw_rules_per_prop` (MinimizeCsFWRules.py 38-86). -/
def rulesPerProp (k pp cont : C) : List (FwRule C E S ν) :=
  let g := basicGrouping N I cfg pp cont
  g.1.flatMap (pairRules N I cfg k) ++ restRules N I cfg k g.2.rest ++ g.2.pairs.flatMap (pairRules N I cfg k)

/-- `props_to_peers` (MinimizeFWRules.py 141-152). -/
def propsToPeers (c : C) : List (C × C) :=
  let peersToProps := (N.split cfg.rel c).foldl (fun d e => dictAdd N.K.eq N.K.or N.K.empty e.1 e.2 d) []
  peersToProps.foldl (fun d e => dictAdd N.K.eq N.K.or N.K.empty e.2 e.1 d) []

/-- `props_containment_map[props]` (MinimizeFWRules.py 194-206). -/
def containing (d : List (C × C)) (k : C) : C :=
  d.foldl (fun acc e => if !N.K.eq e.1 k && N.K.contained k e.1 then N.K.or acc e.2 else acc) N.K.empty

/-- `get_minimized_firewall_rules_from_props` (MinimizeFWRules.py 131-183): the rules of all connections. -/
def fwRules (c : C) : List (FwRule C E S ν) :=
  let d := cfg.ord (propsToPeers N cfg c)
  d.flatMap (fun e => if N.K.truthy e.1 then rulesPerProp N I cfg e.1 e.2 (containing N d e.1) else [])

end
end Verif.Fw
