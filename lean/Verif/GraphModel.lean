import Mathlib.Data.List.Dedup
/-!
Model of the connectivity graph drawn for the formats dot, jpg and html: `ConnectivityGraph`
(nca/FWRules/ConnectivityGraph.py 37-70, 104-304, 337-395) and the nodes and edges of `DotGraph`
(nca/FWRules/DotGraph.py 70-98).  Python sets are lists here, and only the membership of them is ever
used.  NOT MODELLED: the text of the dot file (for the legend see LegendModel).
-/
namespace Verif.Graph

/-! ### Directed and undirected edges -/

section Edges
variable {α : Type} [DecidableEq α]

/-- `reformat_graph` (ConnectivityGraph.py 104-122); `lt` is `<` on the pairs (name, namespace). -/
def reformat (lt : α → α → Bool) (und dir : List (α × α)) (allowU : Bool) : List (α × α) × List (α × α) :=
  if allowU then
    let u := dir.filter (fun e => dir.contains (e.2, e.1)) ++ und
    (u.filter (fun e => lt e.2 e.1), dir.filter (fun e => !u.contains e))
  else ([], dir ++ und ++ und.map (fun e => (e.2, e.1)))

end Edges

/-- The nodes of the drawing, by the names given to them: a peer; `clique_{n}` (166); `clique_{conn_str}{n}`
(180); `biclique_{conn_str}{n}` (232).  SIMPLIFICATION: the four kinds of names are taken to be different,
and the connection string and the number to be determined by the name. -/
inductive GNode (α L : Type) where
  | peer (a : α)
  | clq (n : Nat)
  | top (l : L) (n : Nat)
  | bi (l : L) (n : Nat)
deriving DecidableEq

namespace GNode
variable {α L : Type}

/-- The node type `Clique` of DotGraph.py 19. -/
def isClique : GNode α L → Bool
  | clq _ => true
  | top _ _ => true
  | _ => false

/-- The node type `BiClique` of DotGraph.py 20. -/
def isBi : GNode α L → Bool
  | bi _ _ => true
  | _ => false

end GNode

section Cliques
variable {α L ν : Type} [DecidableEq α] [DecidableEq ν]

/-- The variables `cliques_nodes` and `cliques_edges` (ConnectivityGraph.py 153-154). -/
structure ClqSt (α L : Type) where
  nodes : List (GNode α L)
  edges : List (GNode α L × GNode α L)

/-- The body of the loop over the namespaces of a clique (ConnectivityGraph.py 162-176); the second
component is `clique_namespaces_nodes`. -/
def nsStep (ns : α → ν) (K : List α) (s : ClqSt α L × List (GNode α L)) (m : ν) : ClqSt α L × List (GNode α L) :=
  let ps := K.filter (fun p => ns p = m)
  if ps.length > 1 then
    let c : GNode α L := .clq s.1.nodes.length
    (⟨s.1.nodes ++ [c], s.1.edges ++ ps.map (fun p => (c, .peer p))⟩, s.2 ++ [c])
  else (s.1, s.2 ++ (ps.take 1).map .peer)

/-- The end of the body of the loop over the cliques (ConnectivityGraph.py 178-186). -/
def topStep (l : L) (s : ClqSt α L × List (GNode α L)) : ClqSt α L :=
  if s.2.length > 2 then
    let c : GNode α L := .top l s.1.nodes.length
    ⟨s.1.nodes ++ [c], s.1.edges ++ s.2.map (fun r => (r, c))⟩
  else match s.2 with
    | [r, r'] => ⟨s.1.nodes, s.1.edges ++ [(r, r')]⟩
    | _ => s.1

/-- The body of the loop over the cliques (ConnectivityGraph.py 156-189); the second component is
`undirected_edges`.  SIMPLIFICATION: the namespaces are not sorted (the order only changes the numbers
in the names). -/
def cliqueStep (ns : α → ν) (l : L) (s : ClqSt α L × List (α × α)) (K : List α) : ClqSt α L × List (α × α) :=
  if K.length < 4 then s else
    (topStep l ((K.map ns).dedup.foldl (nsStep ns K) (s.1, [])),
     s.2.filter (fun e => !(K.contains e.1 && K.contains e.2)))

/-- `_creates_cliqued_graph` (ConnectivityGraph.py 124-190); `find` is `networkx.find_cliques` with the
sorting. -/
def cliqued (ns : α → ν) (find : List (α × α) → List (List α)) (l : L) (und : List (α × α)) :
    ClqSt α L × List (α × α) :=
  (find und).foldl (cliqueStep ns l) (⟨[], []⟩, und)

end Cliques

section Bicliques
variable {α L : Type} [DecidableEq α]

/-- `all_sources` (ConnectivityGraph.py 215). -/
def sources (D : List (α × α)) : List α := (D.map (·.1)).dedup

/-- `src_to_dst_set[src]` (ConnectivityGraph.py 216). -/
def dstsOf (D : List (α × α)) (s : α) : List α := ((D.filter (fun e => e.1 = s)).map (·.2)).dedup

/-- `all_bicliques` (ConnectivityGraph.py 217-223).  SIMPLIFICATION: a pair appears once for every source
with that set of destinations, not once in all. -/
def bicliques (D : List (α × α)) : List (List α × List α) :=
  (sources D).map (fun s =>
    ((sources D).filter (fun s' => (dstsOf D s).all (fun d => (dstsOf D s').contains d)), dstsOf D s))

/-- The rank of a biclique (ConnectivityGraph.py 225). -/
def rank (b : List α × List α) : Int :=
  (b.1.length : Int) * b.2.length - b.1.length - b.2.length

/-- The loop of `_creates_bicliqued_graph` (ConnectivityGraph.py 213-236): the edges left, the new edges
and the new nodes.  `pick D` is the best biclique (227); which one of several best ones it is depends on
the iteration order of a set.  The first argument bounds the number of rounds; `biLoop_done` proves that
the bound given in `bicliqued` is never met. -/
def biLoop (pick : List (α × α) → List α × List α) (l : L) :
    Nat → List (α × α) → Nat → List (α × α) × List (GNode α L × GNode α L) × List (GNode α L)
  | 0, D, _ => (D, [], [])
  | f + 1, D, n =>
    if D.isEmpty then (D, [], []) else
    if rank (pick D) < 1 then (D, [], []) else
      let b := pick D
      let r := biLoop pick l f (D.filter (fun e => !(b.1.contains e.1 && b.2.contains e.2))) (n + 1)
      (r.1, b.1.map (fun s => (.peer s, .bi l n)) ++ b.2.map (fun d => (.bi l n, .peer d)) ++ r.2.1,
       .bi l n :: r.2.2)

/-- `_creates_bicliqued_graph` (ConnectivityGraph.py 192-237). -/
def bicliqued (pick : List (α × α) → List α × List α) (l : L) (D : List (α × α)) :
    List (α × α) × List (GNode α L × GNode α L) × List (GNode α L) :=
  biLoop pick l D.length D 0

/-- `max(bicliques_ranks, key=bicliques_ranks.get)` for one iteration order (ConnectivityGraph.py 227):
the first pair of the greatest rank. -/
def pickFirst (D : List (α × α)) : List α × List α :=
  match bicliques D with
  | [] => ([], [])
  | b :: bs => bs.foldl (fun m b => if rank m < rank b then b else m) b

end Bicliques

/-! ### The drawing -/

/-- What `DotGraph` holds in the end (DotGraph.py 33-50, 70-98): the boxes of peers with the lines of
text in them, the clique and biclique nodes with their labels, the directed and the undirected edges. -/
structure Drawn (α L τ : Type) where
  boxes : List (α × List τ)
  nodes : List (GNode α L × L)
  dir : List (GNode α L × GNode α L × L)
  und : List (GNode α L × GNode α L × L)
deriving DecidableEq

/-- The choices the code takes from outside: the order of the names, the namespaces, the cliques found by
networkx and the best biclique taken. -/
structure Env (α ν : Type) where
  lt : α → α → Bool
  ns : α → ν
  find : List (α × α) → List (List α)
  pick : List (α × α) → List α × List α

section Draw
variable {α L ν τ : Type} [DecidableEq α] [DecidableEq ν]

/-- What is drawn for the connection `l` whose edges are `E` (ConnectivityGraph.py 381-394). -/
def drawConn (V : Env α ν) (l : L) (E : List (α × α)) : Drawn α L τ :=
  let r1 := reformat V.lt [] E true
  let c := cliqued V.ns V.find l r1.1
  let r2 := reformat V.lt c.2 r1.2 false
  let b := bicliqued V.pick l r2.2
  let r3 := reformat V.lt r2.1 b.1 true
  { boxes := []
    nodes := (c.1.nodes ++ b.2.2).map (fun n => (n, l))
    dir := r3.2.map (fun e => (.peer e.1, .peer e.2, l)) ++ b.2.1.map (fun e => (e.1, e.2, l))
    und := r3.1.map (fun e => (.peer e.1, .peer e.2, l)) ++ c.1.edges.map (fun e => (e.1, e.2, l)) }

end Draw

/-! ### Groups of equal peers -/

section Groups
variable {ρ L ν : Type} [DecidableEq ρ] [DecidableEq L] [DecidableEq ν]

/-- `props_to_peers` (ConnectivityGraph.py 31, 37-70): the pairs of peers of every connection, in
insertion order.  SIMPLIFICATION: a connection is identified with its printed form `conn_str`, and the
empty connection, which the code skips, is left out. -/
abbrev Pairs (ρ L : Type) := List (L × List (ρ × ρ))

/-- The edges of a peer: the other end, the connection, whether incoming (ConnectivityGraph.py 274-284). -/
def edgesOf (G : Pairs ρ L) (p : ρ) : List (ρ × L × Bool) :=
  G.flatMap (fun lp => lp.2.flatMap (fun e =>
    if e.1 = e.2 then [] else
      (if e.1 = p then [(e.2, lp.1, false)] else []) ++ (if e.2 = p then [(e.1, lp.1, true)] else [])))

/-- The edges of a peer with the self edges added (ConnectivityGraph.py 286-291). -/
def edgesSelf (G : Pairs ρ L) (p : ρ) : List (ρ × L × Bool) :=
  edgesOf G p ++ (edgesOf G p).flatMap (fun c => [(p, c.2.1, false), (p, c.2.1, true)])

/-- Equality of the frozensets of edges (ConnectivityGraph.py 250). -/
def sameEdges (a b : List (ρ × L × Bool)) : Bool := a.all (fun x => b.contains x) && b.all (fun x => a.contains x)

/-- One insertion into `groups_dict` (ConnectivityGraph.py 250): a key is represented by the peers that have
it. -/
def insertGroup (key : ρ → ρ → Bool) (gs : List (List ρ)) (p : ρ) : List (List ρ) :=
  match gs with
  | [] => [[p]]
  | g :: gs => if g.any (fun q => key q p) then (g ++ [p]) :: gs else g :: insertGroup key gs p

/-- `groups_dict.values()` (ConnectivityGraph.py 248-250). -/
def groupsDict (key : ρ → ρ → Bool) (ps : List ρ) : List (List ρ) := ps.foldl (insertGroup key) []

/-- `edges_props.get((a, b))` (ConnectivityGraph.py 275, 283-284, 296): the entry written last. -/
def edgeProp (G : Pairs ρ L) (a b : ρ) : Option L :=
  G.foldl (fun acc lp => lp.2.foldl (fun acc e =>
    if e.1 ≠ e.2 ∧ (e = (a, b) ∨ e = (b, a)) then some lp.1 else acc) acc) none

/-- `_get_equals_groups` with `_find_equal_groups` (ConnectivityGraph.py 239-304); `sort` is the sorting
by name (251). -/
def equalGroups (nsp : ρ → ν) (sort : List ρ → List ρ) (peers : List ρ) (G : Pairs ρ L) : List (List ρ × Option L) :=
  let d1 := groupsDict (fun p q => decide (nsp p = nsp q) && sameEdges (edgesSelf G p) (edgesSelf G q)) peers
  let left1 := (d1.filter (fun g => g.length = 1)).flatten
  let d2 := groupsDict (fun p q => decide (nsp p = nsp q) &&
    sameEdges ((edgesSelf G p).filter (fun e => e.1 ≠ p)) ((edgesSelf G q).filter (fun e => e.1 ≠ q))) left1
  ((d1.filter (fun g => g.length > 1)).map sort).map (fun g => (g, match g with
    | a :: b :: _ => edgeProp G a b
    | _ => none)) ++
  ((d2.filter (fun g => g.length > 1)).map sort).map (fun g => (g, none)) ++
  (d2.filter (fun g => g.length = 1)).map (fun g => (g, none))

end Groups

section Dot
variable {ρ α L ν τ : Type} [DecidableEq ρ] [DecidableEq α] [DecidableEq L] [DecidableEq ν] [DecidableEq τ]

/-- How the peers appear in the drawing (ConnectivityGraph.py 72-102): the namespace, the name of the
node, the line of text. -/
structure Look (ρ α ν τ : Type) where
  nsp : ρ → ν
  name : ρ → α
  text : ρ → τ
  sort : List ρ → List ρ

/-- The edges between representing peers of one connection (ConnectivityGraph.py 368-379). -/
def repEdges (look : Look ρ α ν τ) (reps : List ρ) (pairs : List (ρ × ρ)) : List (α × α) :=
  (pairs.filter (fun e => decide (e.1 ≠ e.2) && reps.contains e.1 && reps.contains e.2)).map
    (fun e => (look.name e.1, look.name e.2))

/-- The box of a group and its self edge (ConnectivityGraph.py 354-366). -/
def drawGroup (look : Look ρ α ν τ) (g : List ρ × Option L) : Drawn α L τ :=
  match g.1 with
  | [] => ⟨[], [], [], []⟩
  | r :: _ =>
    let text := (g.1.map look.text).dedup
    { boxes := [(look.name r, text)], nodes := [], dir := []
      und := if text.length > 1 then g.2.toList.map (fun l => (.peer (look.name r), .peer (look.name r), l)) else [] }

/-- Adding to a drawing (DotGraph.py 70-98). -/
def Drawn.add (a b : Drawn α L τ) : Drawn α L τ :=
  ⟨a.boxes ++ b.boxes, a.nodes ++ b.nodes, a.dir ++ b.dir, a.und ++ b.und⟩

/-- The parts of the drawing of `get_connectivity_dot_format_str` (ConnectivityGraph.py 350-394). -/
def dotParts (V : Env α ν) (look : Look ρ α ν τ) (peers : List ρ) (G : Pairs ρ L) : List (Drawn α L τ) :=
  let gs := equalGroups look.nsp look.sort peers G
  let reps := gs.flatMap (fun g => g.1.take 1)
  gs.map (drawGroup look) ++ G.map (fun lp => drawConn V lp.1 (repEdges look reps lp.2))

/-- `get_connectivity_dot_format_str` (ConnectivityGraph.py 337-395).  `none`: a `KeyError` is raised at
281-282, as an end of an edge is not among the peers given. -/
def dotGraph (V : Env α ν) (look : Look ρ α ν τ) (peers : List ρ) (G : Pairs ρ L) : Option (Drawn α L τ) :=
  if G.all (fun lp => lp.2.all (fun e => decide (e.1 = e.2) || (peers.contains e.1 && peers.contains e.2))) then
    some ((dotParts V look peers G).foldl Drawn.add ⟨[], [], [], []⟩)
  else none

/-- `add_props_to_graph` (ConnectivityGraph.py 37-70): the pairs of the connections of all cubes;
`split` is what `PeerSet.split` makes of one element (Peer.py 360-368, 544-555).  A cube is its connection
without the peers, its sources and its destinations (ConnectivityProperties.py 464-489). -/
def addPair (G : Pairs ρ L) (l : L) (es : List (ρ × ρ)) : Pairs ρ L :=
  match G with
  | [] => [(l, es)]
  | (l', es') :: G => if l' = l then (l', es' ++ es) :: G else (l', es') :: addPair G l es

/-- See `addPair`. -/
def cubePairs (split : ρ → List ρ) (cubes : List (L × List ρ × List ρ)) : Pairs ρ L :=
  cubes.foldl (fun G c => addPair G c.1
    ((c.2.1.flatMap split).flatMap (fun s => (c.2.2.flatMap split).map (fun d => (s, d))))) []

/-- The peers `get_props_output_full` gives to the graph (NetworkConfigQuery.py 792, 864;
ConnectivityProperties.py 227-254, 369-374): the elements of the sets of peers of all cubes. -/
def cubePeers (cubes : List (L × List ρ × List ρ)) : List ρ :=
  (cubes.flatMap (fun c => c.2.1 ++ c.2.2)).dedup

/-- The lines of `get_connections_without_fw_rules_txt_format` (ConnectivityGraph.py 306-335), as triples
of the names of source and destination and the connection; `name` is the name of a peer with
`format_requirement` (72-102). -/
def txtLines (name : ρ → α) (exclSelf : Bool) (G : Pairs ρ L) : List (α × α × L) :=
  G.flatMap (fun lp => (lp.2.filter (fun e => decide (e.1 ≠ e.2) &&
    !(exclSelf && decide (name e.1 = name e.2)))).map (fun e => (name e.1, name e.2, lp.1)))

end Dot
end Verif.Graph
