import Verif.CalicoSelModel
import Verif.PropsSelectors
/-!
Specification of Calico's selectors, from its documentation ("Selector" in the reference of the network policy
resource): syntax trees, their meaning over labels, and the texts that denote them.
-/
namespace Verif
namespace CalicoParser
open Container

/-- What the parser needs to know about Python's classes of characters. -/
structure _root_.Verif.CharCls.Ok (K : CharCls) : Prop where
  disj : ∀ a, K.lab a = true → K.ws a = false
  space : K.ws ' ' = true
  punct : ∀ a ∈ ['(', ')', '!', '&', '|', '=', '\'', '{', '}', ','], K.lab a = false ∧ K.ws a = false
  letters : ∀ a ∈ ['a', 'b', 'c', 'd', 'e', 'g', 'h', 'i', 'l', 'n', 'o', 'r', 's', 't', 'w'], K.lab a = true

/-- A selector. -/
inductive Sel where
  | atom (a : Atom)
  | not (e : Sel)
  | and (e f : Sel)
  | or (e f : Sel)

/-- The text stands where the operator says inside the value. -/
def StrRel : StrOp → String → String → Prop
  | .contain, v, s => v.toList <:+: s.toList
  | .startWith, v, s => v.toList <+: s.toList
  | .endWith, v, s => v.toList <:+ s.toList

/-- An expression without operators, over the labels `val` of an endpoint or namespace. -/
def Atom.Holds (val : String → String → Prop) : Atom → Prop
  | .all => True
  | .glob => False
  | .has k => ∃ v, val k v
  | .eq k v => val k v
  | .ne k v => ¬ val k v
  | .mem k vs => ∃ v ∈ vs, val k v
  | .notMem k vs => ¬ ∃ v ∈ vs, val k v
  | .str k o v => ∃ s, val k s ∧ StrRel o v s

/-- A selector over the labels `val`. -/
def Sel.Holds (val : String → String → Prop) : Sel → Prop
  | .atom a => a.Holds val
  | .not e => ¬ e.Holds val
  | .and e f => e.Holds val ∧ f.Holds val
  | .or e f => e.Holds val ∨ f.Holds val

/-- `global()` occurs in the selector. -/
def Sel.Mentions : Sel → Prop
  | .atom a => a = .glob
  | .not e => e.Mentions
  | .and e f => e.Mentions ∨ f.Mentions
  | .or e f => e.Mentions ∨ f.Mentions

/-- A namespace selector at an endpoint outside of all namespaces: labels of namespaces never match, and a negation
reaches such endpoints only if it is about `global()`. -/
def Sel.HoldsGlobal : Sel → Prop
  | .atom a => a = .glob
  | .not e => e.Mentions ∧ ¬ e.HoldsGlobal
  | .and e f => e.HoldsGlobal ∧ f.HoldsGlobal
  | .or e f => e.HoldsGlobal ∨ f.HoldsGlobal

/-- The endpoint is chosen by a selector, where `ns` restricts the choice to a namespace. -/
def Sel.Picks (ns : Option Ns) (e : Sel) (p : PeerInfo) : Prop :=
  p.kind ≠ .dns ∧ (∀ n, ns = some n → p.InNs n) ∧ e.Holds p.HasVal

/-- The endpoint is chosen by a namespace selector. -/
def Sel.PicksNs (e : Sel) (p : PeerInfo) : Prop :=
  p.kind ≠ .dns ∧ ((p.isGlobal = true ∧ e.HoldsGlobal) ∨ (p.isGlobal = false ∧ ∃ n, p.ns = some n ∧ e.Holds n.HasVal))

section
variable (K : CharCls)

/-- White space, possibly none. -/
def Blank (w : List Char) : Prop := ∀ a ∈ w, K.ws a = true

/-- A name of a label, or a value. -/
def Word (k : List Char) : Prop := k ≠ [] ∧ ∀ a ∈ k, K.lab a = true

/-- `'a', 'b', 'c'`. -/
inductive Vals : List (List Char) → List Char → Prop
  | one {w1 v w2} : Blank K w1 → Word K v → Blank K w2 → Vals [v] (w1 ++ '\'' :: v ++ '\'' :: w2)
  | cons {w1 v w2 vs s} : Blank K w1 → Word K v → Blank K w2 → Vals vs s →
      Vals (v :: vs) (w1 ++ '\'' :: v ++ '\'' :: (w2 ++ ',' :: s))

/-- The texts of an expression without operators. -/
inductive Core : Atom → List Char → Prop
  | all : Core .all "all()".toList
  | glob : Core .glob "global()".toList
  | has {k} : Word K k → Core (.has (String.ofList k)) ("has(".toList ++ k ++ ")".toList)
  | eq {k w1 w2 v} : Word K k → Blank K w1 → Blank K w2 → Word K v →
      Core (.eq (String.ofList k) (String.ofList v)) (k ++ w1 ++ "==".toList ++ w2 ++ '\'' :: v ++ ['\''])
  | ne {k w1 w2 v} : Word K k → Blank K w1 → Blank K w2 → Word K v →
      Core (.ne (String.ofList k) (String.ofList v)) (k ++ w1 ++ "!=".toList ++ w2 ++ '\'' :: v ++ ['\''])
  | mem {k w1 w2 vs s} : Word K k → Blank K w1 → w1 ≠ [] → Blank K w2 → Vals K vs s →
      Core (.mem (String.ofList k) (vs.map String.ofList)) (k ++ w1 ++ "in".toList ++ w2 ++ '{' :: s ++ ['}'])
  | notMem {k w1 w2 w3 vs s} : Word K k → Blank K w1 → w1 ≠ [] → Blank K w2 → w2 ≠ [] → Blank K w3 → Vals K vs s →
      Core (.notMem (String.ofList k) (vs.map String.ofList))
        (k ++ w1 ++ "not".toList ++ w2 ++ "in".toList ++ w3 ++ '{' :: s ++ ['}'])
  | contains {k w1 w2 v} : Word K k → Blank K w1 → w1 ≠ [] → Blank K w2 → Word K v →
      Core (.str (String.ofList k) .contain (String.ofList v)) (k ++ w1 ++ "contains".toList ++ w2 ++ '\'' :: v ++ ['\''])
  | starts {k w1 w2 w3 v} : Word K k → Blank K w1 → w1 ≠ [] → Blank K w2 → w2 ≠ [] → Blank K w3 → Word K v →
      Core (.str (String.ofList k) .startWith (String.ofList v))
        (k ++ w1 ++ "starts".toList ++ w2 ++ "with".toList ++ w3 ++ '\'' :: v ++ ['\''])
  | ends {k w1 w2 w3 v} : Word K k → Blank K w1 → w1 ≠ [] → Blank K w2 → w2 ≠ [] → Blank K w3 → Word K v →
      Core (.str (String.ofList k) .endWith (String.ofList v))
        (k ++ w1 ++ "ends".toList ++ w2 ++ "with".toList ++ w3 ++ '\'' :: v ++ ['\''])

/-- Levels of the grammar, from the operator that binds weakest on. -/
inductive Lv where
  | or | and | un

/-- The texts of a selector: `!` binds strongest, then `&&`, then `||`; brackets and white space are free. -/
inductive Text : Lv → Sel → List Char → Prop
  | atom {a s} : Core K a s → Text .un (.atom a) s
  | not {w e s} : Blank K w → Text .un e s → Text .un (.not e) ('!' :: (w ++ s))
  | paren {w1 e s w2} : Blank K w1 → Blank K w2 → Text .or e s → Text .un e ('(' :: (w1 ++ s ++ w2) ++ [')'])
  | un {e s} : Text .un e s → Text .and e s
  | conj {e f s w1 w2 t} : Text .un e s → Blank K w1 → Blank K w2 → Text .and f t →
      Text .and (.and e f) (s ++ w1 ++ '&' :: '&' :: (w2 ++ t))
  | and {e s} : Text .and e s → Text .or e s
  | disj {e f s w1 w2 t} : Text .and e s → Blank K w1 → Blank K w2 → Text .or f t →
      Text .or (.or e f) (s ++ w1 ++ '|' :: '|' :: (w2 ++ t))

/-- The text of a selector, with white space around it. -/
def Denotes (s : List Char) (e : Sel) : Prop :=
  ∃ w1 t w2, Blank K w1 ∧ Blank K w2 ∧ Text K .or e t ∧ s = w1 ++ t ++ w2

end
end CalicoParser
end Verif
