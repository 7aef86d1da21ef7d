/-!
The texts on the arrows of a dot graph and its legend.  /repo/nca/FWRules/DotGraph.py.

MODELLED: `add_node`, `add_edge`, `_set_labels_dict`, `get_val_by_key_from_list`, the rows of
`_labels_dict_to_str`, and what `_subgraph_to_str`, `_node_to_str` and `_edge_to_str` write that depends on
the graph: names, texts, tooltips, kinds of nodes, heads of arrows.
NOT MODELLED: the fixed text around these, the title, the order of lines of nodes and of edges (they are
sorted as texts), colours and fonts.  Which nodes and edges are added is C39.
Labels are strings; `strip` takes spaces, tabs and ends of lines; `lower` is that of ASCII letters.
-/
namespace Verif.Legend

/-! ### Texts -/

/-- `text.split(c)` of Python: never empty. -/
def split (c : Char) : List Char → List (List Char)
  | [] => [[]]
  | a :: t =>
    if a = c then [] :: split c t
    else match split c t with
      | [] => [[a]]
      | w :: r => (a :: w) :: r

/-- `key in text`. -/
def has (key : List Char) : List Char → Bool
  | [] => key.isEmpty
  | a :: t => key.isPrefixOf (a :: t) || has key t

/-- A character that `strip` takes. -/
def isBlank (c : Char) : Bool := c = ' ' || c = '\t' || c = '\n' || c = '\r'

/-- `text.strip()`. -/
def strip (s : String) : String :=
  String.ofList ((s.toList.dropWhile isBlank).reverse.dropWhile isBlank).reverse

/-- `list.sort()`: insertion. -/
def insBy {α : Type} (le : α → α → Bool) (x : α) : List α → List α
  | [] => [x]
  | y :: r => if le x y then x :: y :: r else y :: insBy le x r

/-- `list.sort()`. -/
def sortBy {α : Type} (le : α → α → Bool) (l : List α) : List α := l.foldr (insBy le) []

/-- Order of texts. -/
def leText (a b : String) : Bool := decide (a ≤ b)

/-- Order of pairs of texts. -/
def lePair (a b : String × String) : Bool := decide (a.1 < b.1) || (decide (a.1 = b.1) && decide (a.2 ≤ b.2))

/-! ### Short names of labels -/

/-- DotGraph.py 215-218 (`get_val_by_key_from_list`): the text after the first colon of the first item that
contains the key, up to the next colon; nothing if no item contains it; `none` if the item has no colon
(an `IndexError`). -/
def valByKey (items : List (List Char)) (key : List Char) : Option (List Char) :=
  match items.find? (has key) with
  | none => some []
  | some item => (split ':' item)[1]?

/-- DotGraph.py 234: a label without braces, split at commas. -/
def items (label : String) : List (List Char) :=
  split ',' (label.toList.filter fun c => !(c = '{') && !(c = '}'))

/-- DotGraph.py 236-239: the port in a short name; a long one is cut at the first comma and hyphen. -/
def trimPort (port : List Char) : List Char :=
  if port.length > 6 then ((split '-' ((split ',' port).headD [])).headD []) else port

/-- DotGraph.py 234-241: the short name of a label before it is told apart from others. -/
def short (label : String) : Option String := do
  let t ← valByKey (items label) "protocols".toList
  let typ := if t = [] then "TCP".toList else t
  let p ← valByKey (items label) "dst_ports".toList
  let port := trimPort p
  return if label = "All" then "All"
    else if port = [] then String.ofList typ
    else String.ofList (typ.map Char.toLower ++ port)

/-- `string.ascii_lowercase[i]`. -/
def letter (i : Nat) : Char := Char.ofNat (97 + i)

/-- DotGraph.py 244-256: what is added to a short name: nothing if no other label has it, else a letter, or
the number if there are many. -/
def tag (sorted : List String) (label : String) : List Char :=
  if sorted.length = 1 then []
  else if sorted.length < 26 then [letter (sorted.idxOf label)]
  else '_' :: (toString (sorted.idxOf label)).toList

/-- DotGraph.py 243-256: the final name of a label. `shorts` has the short name of every label. -/
def named (shorts : List (String × String)) (label s : String) : String :=
  String.ofList (s.toList ++ tag (sortBy leText ((shorts.filter (·.2 = s)).map (·.1))) label)

/-- DotGraph.py 220-258 (`_set_labels_dict`): whether a legend is shown, and the name of each label;
`none` is an error. -/
def names (labels : List String) : Option (Bool × List (String × String)) :=
  if labels = [] then some (false, [])
  else if labels.length = 1 ∧ (labels.headD "").length ≤ 11 then some (false, labels.map fun l => (l, l))
  else do
    let shorts ← labels.mapM fun l => (short l).map fun s => (l, s)
    return (true, shorts.map fun ls => (ls.1, named shorts ls.1 ls.2))

/-! ### The graph -/

/-- DotGraph.py 14-20. -/
inductive Kind
  | block | pod | livesim | clique | biclique | multi
  deriving DecidableEq, Repr

/-- Nodes that stand for connections between others. -/
def Kind.joint : Kind → Bool
  | .clique => true
  | .biclique => true
  | _ => false

/-- DotGraph.py 27-32. -/
structure Node where
  name : String
  kind : Kind
  label : List String
  title : String
  deriving DecidableEq, Repr

/-- DotGraph.py 34-39. -/
structure Edge where
  src : Node
  dst : Node
  label : String
  dir : Bool
  deriving DecidableEq, Repr

/-- DotGraph.py 41-48. `nodes` has the namespace of each node beside it. -/
structure Graph where
  flat : Bool
  nodes : List (String × Node)
  edges : List Edge
  labels : List String
  deriving DecidableEq, Repr

/-- What the caller adds. -/
inductive Op
  | node (space name : String) (kind : Kind) (label : List String)
  | edge (src dst label : String) (dir : Bool)
  deriving DecidableEq, Repr

/-- `set.add`. -/
def sadd (l : String) (s : List String) : List String := if l ∈ s then s else s ++ [l]

/-- `self.all_nodes[name]`: the last node added under the name. -/
def Graph.find (g : Graph) (name : String) : Option Node :=
  (g.nodes.reverse.find? (·.2.name = name)).map (·.2)

/-- DotGraph.py 69-100 (`add_node`, `add_edge`); `none` is a `KeyError` or `IndexError`. -/
def Graph.step (g : Graph) : Op → Option Graph
  | .node space name kind label =>
    let label := (label.filter (· ≠ "")).map strip
    let n : Node := { name := name, kind := kind, label := label, title := if g.flat then space else "" }
    let g' := { g with nodes := g.nodes ++ [(if g.flat then "" else space, n)] }
    if kind.joint then
      match label with
      | [] => none
      | l :: _ => some { g' with labels := sadd l g.labels }
    else some g'
  | .edge src dst label dir => do
    let s ← g.find src
    let d ← g.find dst
    return { g with edges := g.edges ++ [{ src := s, dst := d, label := strip label, dir := dir }],
                    labels := sadd (strip label) g.labels }

/-- All that is added to an empty graph. -/
def build (flat : Bool) (ops : List Op) : Option Graph :=
  ops.foldlM Graph.step { flat := flat, nodes := [], edges := [], labels := [] }

/-! ### The drawing -/

/-- A row of the legend: the text shown and the tooltip. -/
structure Row where
  short : String
  shown : String
  tooltip : String
  deriving DecidableEq, Repr

/-- DotGraph.py 146: a label in the legend, cut if it is long. -/
def cut (label : String) : String :=
  if label.length > 32 then String.ofList (label.toList.take 30) ++ "..." else label

/-- DotGraph.py 140-148: the rows of the legend. -/
def rows (dict : List (String × String)) : List Row :=
  (sortBy lePair (dict.map fun d => (d.2, d.1))).map fun r => { short := r.1, shown := cut r.2, tooltip := r.2 }

/-- What a node shows. -/
inductive Box
  | cells (name : String) (kind : Kind) (lines : List String)
  | joint (name : String) (kind : Kind) (text tooltip : String)
  deriving DecidableEq, Repr

/-- DotGraph.py 175-196 (`_node_to_str`). -/
def drawNode (dict : List (String × String)) (n : Node) : Option Box :=
  if n.kind.joint then
    match n.label with
    | [] => none
    | l :: _ => (dict.lookup l).map fun s => .joint n.name n.kind s l
  else some (.cells n.name n.kind ((n.label.filter (· ≠ "")).map fun t => if n.title = "" then t else n.title ++ "/" ++ t))

/-- What an arrow shows: text and tooltip unless it goes to a clique or biclique, and which ends have heads. -/
structure Arrow where
  src : String
  dst : String
  text : Option (String × String)
  head : Bool
  tail : Bool
  deriving DecidableEq, Repr

/-- DotGraph.py 203: an end of the edge is a clique. -/
def Edge.clq (e : Edge) : Bool := e.src.kind = .clique || e.dst.kind = .clique

/-- DotGraph.py 204: an end of the edge is a biclique. -/
def Edge.biclq (e : Edge) : Bool := e.src.kind = .biclique || e.dst.kind = .biclique

/-- DotGraph.py 209-210: the text and the tooltip. -/
def edgeText (dict : List (String × String)) (e : Edge) : Option (Option (String × String)) :=
  if e.clq || e.biclq then some none else (dict.lookup e.label).map fun s => some (s, e.label)

/-- DotGraph.py 198-213 (`_edge_to_str`). -/
def drawEdge (dict : List (String × String)) (e : Edge) : Option Arrow :=
  (edgeText dict e).map fun text =>
    { src := e.src.name, dst := e.dst.name, text := text, head := !e.clq, tail := !e.clq && !e.dir }

/-- DotGraph.py 160-163: the name of the cluster of a namespace. -/
def cluster (space : String) : String :=
  if space = "" then "" else "cluster_" ++ String.ofList (space.toList.map fun c => if c = '-' then '_' else c) ++ "_namespace"

/-- The drawing: the legend if there is one, the nodes by clusters, the arrows. -/
structure Drawing where
  legend : Option (List Row)
  boxes : List (String × Box)
  arrows : List Arrow
  deriving DecidableEq, Repr

/-- DotGraph.py 102-131 (`to_str`). -/
def Graph.draw (g : Graph) : Option Drawing := do
  let nm ← names g.labels
  let boxes ← g.nodes.mapM fun n => (drawNode nm.2 n.2).map fun b => (cluster n.1, b)
  let arrows ← g.edges.mapM (drawEdge nm.2)
  return { legend := if nm.1 then some (rows nm.2) else none, boxes := boxes, arrows := arrows }

/-- DotGraph.py as it is used: build the graph, then draw it. -/
def drawing (flat : Bool) (ops : List Op) : Option Drawing := (build flat ops).bind Graph.draw

end Verif.Legend
