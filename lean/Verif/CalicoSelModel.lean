import Verif.SelectorModel
/-!
Model of Calico's selector expressions: `_parse_selector_expr`, `_strip_selector`, `_split_selector`,
`_recursive_parse_label_selector` and `_parse_label_selector` (nca/Parsers/CalicoPolicyYamlParser.py 37-227).

Texts are lists of characters.  `none` is a reported syntax error (or, for an empty sub-expression, the `IndexError` of
line 197).  Not modelled: warnings and the bookkeeping of referenced labels.
-/
namespace Verif

/-- Python's classes of characters: `lab` is `[\w./\-]`, `ws` is `\s` (also what `strip`, `split` and `isspace` take
for white space). -/
structure CharCls where
  lab : Char → Bool
  ws : Char → Bool

namespace Container

/-- How `get_peers_with_label` compares a label with its text (PeerContainer.py 107-116). -/
inductive StrOp where
  | contain | startWith | endWith
  deriving DecidableEq

/-- Python's `v in s` for strings. -/
def infixB (v : List Char) : List Char → Bool
  | [] => v.isPrefixOf []
  | c :: t => v.isPrefixOf (c :: t) || infixB v t

/-- The comparisons of PeerContainer.py 107-116. -/
def strTest : StrOp → String → String → Bool
  | .contain, v, s => infixB v.toList s.toList
  | .startWith, v, s => v.toList.isPrefixOf s.toList
  | .endWith, v, s => v.toList.isSuffixOf s.toList

/-- `get_peers_with_label` with action Contain / StartWith / EndWith (PeerContainer.py 107-116). -/
def withStr (c : Container) (key : String) (op : StrOp) (v : String) : PeerSet String :=
  c.sel (fun p => strTest op v ((p.labels.lookup key).getD "") || strTest op v ((p.extra.lookup key).getD ""))

/-- `get_namespace_pods_with_label` with action Contain / StartWith / EndWith (PeerContainer.py 155-163). -/
def nsWithStr (c : Container) (key : String) (op : StrOp) (v : String) : PeerSet String :=
  c.sel (fun p => match p.ns with
    | none => false
    | some n => strTest op v ((n.labels.lookup key).getD ""))

/-- `get_all_global_peers` (PeerContainer.py 327-336). -/
def globals (c : Container) : PeerSet String := c.sel (fun p => p.isGlobal)

end Container

namespace CalicoParser
open Container

/-- What an expression without operators says. -/
inductive Atom where
  | all
  | glob
  | has (key : String)
  | eq (key val : String)
  | ne (key val : String)
  | mem (key : String) (vals : List String)
  | notMem (key : String) (vals : List String)
  | str (key : String) (op : StrOp) (val : String)
  deriving DecidableEq

variable (K : CharCls)

/-- `str.strip()`. -/
def strip (s : List Char) : List Char := ((s.dropWhile K.ws).reverse.dropWhile K.ws).reverse

/-- The loop of `squeeze`: white space is remembered until the next other character. -/
def squeezeFrom : Bool → List Char → List Char
  | _, [] => []
  | p, a :: t => if K.ws a then squeezeFrom true t else (if p then [' '] else []) ++ a :: squeezeFrom false t

/-- `' '.join(expr.split())` (48). -/
def squeeze (s : List Char) : List Char := squeezeFrom K false (s.dropWhile K.ws)

/-- A literal of a regular expression; the result is the rest of the text. -/
def lit : List Char → List Char → Option (List Char)
  | [], t => some t
  | _ :: _, [] => none
  | a :: l, b :: t => if a = b then lit l t else none

/-- `\s?`.  What follows it in the expressions never begins with white space, so that the greedy match decides. -/
def optWs : List Char → List Char
  | [] => []
  | a :: t => if K.ws a then t else a :: t

/-- `\s`. -/
def oneWs : List Char → Option (List Char)
  | [] => none
  | a :: t => if K.ws a then some t else none

/-- `([\w./\-]+)`, greedy, where what follows does not begin with a character of a label. -/
def label (s : List Char) : Option (List Char × List Char) :=
  if s.takeWhile K.lab = [] then none else some (s.takeWhile K.lab, s.dropWhile K.lab)

/-- `'([\w./\-]+)'`. -/
def quoted (s : List Char) : Option (List Char × List Char) := do
  let s ← lit ['\''] s
  let (v, s) ← label K s
  let s ← lit ['\''] s
  return (v, s)

/-- `has\(([\w./\-]+)\)` (60). -/
def hasRe (s : List Char) : Option (List Char) := do
  let s ← lit ['h', 'a', 's', '('] s
  let (k, s) ← label K s
  let _ ← lit [')'] s
  return k

/-- `[=!]=` (71). -/
def eqOp : List Char → Option (Bool × List Char)
  | '=' :: '=' :: t => some (true, t)
  | '!' :: '=' :: t => some (false, t)
  | _ => none

/-- `([\w./\-]+)\s?([=!])=\s?'([\w./\-]+)'` (71). -/
def keyValRe (s : List Char) : Option (List Char × Bool × List Char) := do
  let (k, s) ← label K s
  let (b, s) ← eqOp (optWs K s)
  let (v, _) ← quoted K (optWs K s)
  return (k, b, v)

/-- `(,\s?'[\w./\-]+'\s?)*}` (84); the number bounds the repetitions. -/
def inTail : Nat → List Char → Bool
  | 0, _ => false
  | n + 1, s => match s with
    | ',' :: t => (match quoted K (optWs K t) with
        | some (_, r) => inTail n (optWs K r)
        | none => false)
    | '}' :: _ => true
    | _ => false

/-- `(not\s)?` (84); white space must follow, else nothing is taken. -/
def optNot (s : List Char) : Bool × List Char :=
  match (lit ['n', 'o', 't'] s).bind (oneWs K) with
  | some r => (true, r)
  | none => (false, s)

/-- `([\w./\-]+)\s(not\s)?in\s?{\s?'[\w./\-]+'\s?(,\s?'[\w./\-]+'\s?)*}` (84). -/
def inRe (s : List Char) : Option (List Char × Bool) := do
  let (k, s) ← label K s
  let s ← oneWs K s
  let (n, s) := optNot K s
  let s ← lit ['i', 'n'] s
  let s ← lit ['{'] (optWs K s)
  let (_, s) ← quoted K (optWs K s)
  if inTail K (s.length + 1) (optWs K s) then some (k, n) else none

/-- `re.findall("'([\w./\-]*)'", expr)` (89); the number bounds the length of the text. -/
def findVals : Nat → List Char → List (List Char)
  | 0, _ => []
  | _ + 1, [] => []
  | n + 1, a :: t => if a = '\'' then (match lit ['\''] (t.dropWhile K.lab) with
        | some r => t.takeWhile K.lab :: findVals n r
        | none => findVals n t)
      else findVals n t

/-- `(contains|starts\swith|ends\swith)` (97). -/
def strOp (s : List Char) : Option (StrOp × List Char) :=
  match lit ['c', 'o', 'n', 't', 'a', 'i', 'n', 's'] s with
  | some r => some (.contain, r)
  | none => match (lit ['s', 't', 'a', 'r', 't', 's'] s).bind (oneWs K) |>.bind (lit ['w', 'i', 't', 'h']) with
    | some r => some (.startWith, r)
    | none => match (lit ['e', 'n', 'd', 's'] s).bind (oneWs K) |>.bind (lit ['w', 'i', 't', 'h']) with
      | some r => some (.endWith, r)
      | none => none

/-- What follows the key in the expression of line 97. -/
def strRest (s : List Char) : Option (StrOp × List Char) := do
  let (o, s) ← strOp K (optWs K s)
  let (v, _) ← quoted K (optWs K s)
  return (o, v)

/-- `([\w./\-]+)\s?(contains|…)\s?'([\w./\-]+)'` (97): keys are tried from the longest on, since the operator may
follow the key without white space. -/
def strRe (s : List Char) : Option (List Char × StrOp × List Char) :=
  (List.range (s.takeWhile K.lab).length).reverse.findSome? (fun i => (strRest K (s.drop (i + 1))).map
    (fun r => (s.take (i + 1), r.1, r.2)))

/-- The regular expressions of `_parse_selector_expr` (57-111); `re.match` accepts any text after the match. -/
def atomOf (nsSel : Bool) (s : List Char) : Option Atom :=
  if nsSel ∧ s = ['g', 'l', 'o', 'b', 'a', 'l', '(', ')'] then some .glob
  else if s = ['a', 'l', 'l', '(', ')'] then some .all
  else match hasRe K s with
  | some k => some (.has (String.ofList k))
  | none => match keyValRe K s with
    | some (k, true, v) => some (.eq (String.ofList k) (String.ofList v))
    | some (k, false, v) => some (.ne (String.ofList k) (String.ofList v))
    | none => match inRe K s with
      | some (k, false) => some (.mem (String.ofList k) ((findVals K s.length s).map String.ofList))
      | some (k, true) => some (.notMem (String.ofList k) ((findVals K s.length s).map String.ofList))
      | none => match strRe K s with
        | some (k, o, v) => some (.str (String.ofList k) o (String.ofList v))
        | none => none

/-- The peers of each kind of expression (49-109). -/
def atomPeers (c : Container) (ns : Option Ns) (nsSel : Bool) (a : Atom) : PeerSet String :=
  let all := if nsSel then c.allPeers false false false else c.nsPods ns
  match a with
  | .glob => c.globals
  | .all => all
  | .has k => all.and (if nsSel then c.nsWithKey k false else c.withKey ns k false)
  | .eq k v => all.and (if nsSel then c.nsWithLabel k [v] false else c.withLabel k [v] false)
  | .ne k v => all.and (if nsSel then c.nsWithLabel k [v] true else c.withLabel k [v] true)
  | .mem k vs => all.and (if nsSel then c.nsWithLabel k vs false else c.withLabel k vs false)
  | .notMem k vs => all.and (if nsSel then c.nsWithLabel k vs true else c.withLabel k vs true)
  | .str k o v => all.and (if nsSel then c.nsWithStr k o v else c.withStr k o v)

/-- `_parse_selector_expr` (37-112). -/
def parseAtom (c : Container) (ns : Option Ns) (nsSel : Bool) (s : List Char) : Option (PeerSet String) :=
  (atomOf K nsSel (squeeze K s)).map (atomPeers c ns nsSel)

/-- `expression.count('(') == expression.count(')')`. -/
def even (s : List Char) : Bool := s.count '(' == s.count ')'

/-- The loop that looks for brackets that close before the end (126-133). -/
def closes : Int → List Char → Bool
  | _, [] => false
  | n, a :: t =>
    let n := if a = '(' then n + 1 else if a = ')' then n - 1 else n
    decide (n = 0) || closes n t

/-- The test of the loop of `_strip_selector` (125-135). -/
def peelable (s : List Char) : Bool :=
  decide (s.head? = some '(') && decide (s.getLast? = some ')') && !closes 0 s.dropLast

/-- The loop of `_strip_selector` (125-137); every round shortens the text, so its length bounds the rounds. -/
def peel : Nat → List Char → List Char
  | 0, s => s
  | n + 1, s => if peelable s then peel n (strip K s.tail.dropLast) else s

/-- `_strip_selector` (114-138). -/
def stripSel (s : List Char) : Option (List Char) :=
  let s := strip K s
  if even s then some (peel K s.length s) else none

/-- `expression.split(operator)`, where the operator is the character twice. -/
def splitOp (o : Char) : List Char → List (List Char)
  | [] => [[]]
  | [a] => [[a]]
  | a :: b :: t =>
    if a = o ∧ b = o then [] :: splitOp o t
    else match splitOp o (b :: t) with
      | [] => [[a]]
      | p :: ps => (a :: p) :: ps

/-- The loop of `_split_selector` (150-159): parts are joined again until their brackets are even. -/
def joinParts (o : Char) : List Char → List (List Char) → List (List Char)
  | _, [] => []
  | cur, p :: ps => if even (cur ++ p) then (cur ++ p) :: joinParts o [] ps else joinParts o (cur ++ p ++ [o, o]) ps

/-- `_split_selector` (140-160). -/
def splitSel (o : Char) (s : List Char) : List (List Char) := joinParts o [] (splitOp o s)

/-- `_recursive_parse_label_selector` (162-205).  Every nested call is on a shorter text; the number bounds the depth
of the calls. -/
def recParse (c : Container) (ns : Option Ns) (nsSel : Bool) : Nat → List Char → Option (PeerSet String)
  | 0, _ => none
  | n + 1, s0 => do
    let incl := !nsSel || infixB ['g', 'l', 'o', 'b', 'a', 'l', '(', ')'] s0
    let s ← stripSel K s0
    let ors := splitSel '|' s
    if ors.length ≠ 1 then
      ors.foldlM (fun res e => (recParse c ns nsSel n e).map res.or) []
    else
      let ands := splitSel '&' s
      if ands.length ≠ 1 then
        ands.foldlM (fun res e => (recParse c ns nsSel n e).map res.and) (c.allPeers false incl false)
      else match s with
        | [] => none
        | a :: t =>
          if a = '!' then
            (recParse c ns nsSel n t).map (if nsSel then c.allPeers false incl false else c.nsPods ns).sub
          else (ands.head?).bind (parseAtom K c ns nsSel)

/-- `_parse_label_selector` (207-227). -/
def selector (c : Container) (ns : Option Ns) (nsSel : Bool) (s : List Char) : Option (PeerSet String) :=
  if s.all K.ws then none else recParse K c ns nsSel (s.length + 1) s

end CalicoParser
end Verif
