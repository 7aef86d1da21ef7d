import Verif.CubeModel

/-!
# Objects of class `MinDFA` (nca/CoreDS/MinDFA.py)

`MinDFA` wraps a finite automaton of the library `greenery`.  Beside the automaton an object carries a
ternary mark (`is_all_words`) and a reference to another object (`complement_dfa`), both changed after the
object was created, and the methods that create objects are memoized (`functools.lru_cache`).  The state of
a Python process, as far as this class sees it, is modelled by a `Heap`: the objects created so far and the
contents of the memo tables.

Not modelled: the text `regex_expr` and the printing methods, `get_fsm_str`, `copy`.
-/
namespace Verif
namespace MinDfa

/-- `MinDFA.Ternary` (MinDFA.py 48-51). -/
inductive Tern
  | no
  | yes
  | unknown
  deriving DecidableEq, Repr

/-- The operations of `greenery` used by the class: `parse(s).to_fsm()` (MinDFA.py 111), `|`, `&`, `-`
(229, 246, 262), `empty` (207), `issubset` (220), whether `len` ends without `OverflowError` (175-179),
`string in fsm` (74), the first word of `strings()` (289-291).  `F` is the type of automata as compared by `__eq__` (86-91: states, initial state,
final states, transitions). -/
structure FsmLib (F X : Type) where
  parse : String → F
  or : F → F → F
  and : F → F → F
  sub : F → F → F
  empty : F → Bool
  subset : F → F → Bool
  finite : F → Bool
  acc : F → X → Bool
  first : F → Option X
  decEq : DecidableEq F

/-- A `MinDFA` object (MinDFA.py 53-71): `fsm`, `is_all_words`, `complement_dfa` (`none` for `None`). -/
structure Obj (F : Type) where
  fsm : F
  mark : Tern
  comp : Option Nat

/-- The process: the object with each address below `size`, and the memo tables of `dfa_from_regex`
(MinDFA.py 101), `__or__` (223), `__and__` (240) and `__sub__` (257).  The tables of the three operators
are looked up with `__eq__` of both operands, which compares automata only, so the automata are the
keys. -/
structure Heap (F : Type) where
  obj : Nat → Obj F
  size : Nat
  rx : List (String × Nat)
  orC : List ((F × F) × Nat)
  andC : List ((F × F) × Nat)
  subC : List ((F × F) × Nat)

section
variable {F X : Type} (L : FsmLib F X)

/-- `MinDFA.dfa_from_fsm` (MinDFA.py 76-83) followed by the marking done by its callers: a new object. -/
def alloc (h : Heap F) (o : Obj F) : Heap F × Nat :=
  ({ h with obj := fun i => if i = h.size then o else h.obj i, size := h.size + 1 }, h.size)

/-- Assignment to `complement_dfa` of the object `r`. -/
def setComp (h : Heap F) (r c : Nat) : Heap F :=
  { h with obj := fun i => if i = r then { h.obj i with comp := some c } else h.obj i }

/-- Assignment of `Ternary.TRUE` to `is_all_words` of the object `r`. -/
def setAll (h : Heap F) (r : Nat) : Heap F :=
  { h with obj := fun i => if i = r then { h.obj i with mark := .yes } else h.obj i }

/-- `has_finite_len` (MinDFA.py 168-179). -/
def finiteLen (o : Obj F) : Bool := if o.mark = .yes then false else L.finite o.fsm

/-- The object `dfa_from_regex` makes (MinDFA.py 111-117): no star in the text, not all words. -/
def regexObj (s : String) : Obj F :=
  { fsm := L.parse s, mark := if '*' ∈ s.toList then .unknown else .no, comp := none }

/-- `MinDFA.dfa_from_regex` (MinDFA.py 101-119) with its memo table. -/
def fromRegex (h : Heap F) (s : String) : Heap F × Nat :=
  match h.rx.find? (fun e => e.1 == s) with
  | some e => (h, e.2)
  | none =>
    let res := alloc h (regexObj L s)
    ({ res.1 with rx := (s, res.2) :: res.1.rx }, res.2)

/-- `MinDFA.dfa_all_words` (MinDFA.py 121-131); the domain of the paths is made in the same way
(DimensionsManager.py 89-98). -/
def allWords (h : Heap F) (s : String) : Heap F × Nat :=
  let res := fromRegex L h s
  (setAll res.1 res.2, res.2)

/-- Lookup in the memo table of an operator. -/
def find (t : List ((F × F) × Nat)) (a b : F) : Option Nat :=
  letI := L.decEq
  (t.find? (fun e => decide (e.1 = (a, b)))).map Prod.snd

/-- The body of `__or__` (MinDFA.py 224-238). -/
def orBody (h : Heap F) (a b : Nat) : Heap F × Nat :=
  if (h.obj a).mark = .yes then (h, a)
  else if (h.obj b).mark = .yes then (h, b)
  else
    let f := L.or (h.obj a).fsm (h.obj b).fsm
    alloc h { fsm := f, mark := if L.finite f then .no else .unknown, comp := none }

/-- The body of `__and__` (MinDFA.py 241-255). -/
def andBody (h : Heap F) (a b : Nat) : Heap F × Nat :=
  if (h.obj a).mark = .yes then (h, b)
  else if (h.obj b).mark = .yes then (h, a)
  else
    let f := L.and (h.obj a).fsm (h.obj b).fsm
    alloc h { fsm := f, mark := if (h.obj a).mark = .no ∨ (h.obj b).mark = .no then .no else .unknown, comp := none }

/-- The mark of the result of `__sub__` (MinDFA.py 267-272 and 277-278), from the marks of the operands. -/
def subMark (ma mb : Tern) (fb f : F) : Tern :=
  let m1 := if mb = .yes then Tern.no else if !L.empty fb then Tern.no else Tern.unknown
  let m2 := if ma = .yes ∧ L.empty fb = true then Tern.yes else m1
  if m2 = .yes then m2 else if L.finite f then .no else m2

/-- The body of `__sub__` (MinDFA.py 258-279). -/
def subBody (h : Heap F) (a b : Nat) : Heap F × Nat :=
  match (h.obj a).mark, (h.obj b).comp with
  | .yes, some c => (h, c)
  | m, _ =>
    let f := L.sub (h.obj a).fsm (h.obj b).fsm
    let o : Obj F := { fsm := f, mark := subMark L m (h.obj b).mark (h.obj b).fsm f, comp := if m = .yes then some b else none }
    let res := alloc h o
    (if m = .yes then setComp res.1 b res.2 else res.1, res.2)

/-- `self | other` through the memo table. -/
def or (h : Heap F) (a b : Nat) : Heap F × Nat :=
  match find L h.orC (h.obj a).fsm (h.obj b).fsm with
  | some r => (h, r)
  | none =>
    let res := orBody L h a b
    ({ res.1 with orC := (((h.obj a).fsm, (h.obj b).fsm), res.2) :: res.1.orC }, res.2)

/-- `self & other` through the memo table. -/
def and (h : Heap F) (a b : Nat) : Heap F × Nat :=
  match find L h.andC (h.obj a).fsm (h.obj b).fsm with
  | some r => (h, r)
  | none =>
    let res := andBody L h a b
    ({ res.1 with andC := (((h.obj a).fsm, (h.obj b).fsm), res.2) :: res.1.andC }, res.2)

/-- `self - other` through the memo table. -/
def sub (h : Heap F) (a b : Nat) : Heap F × Nat :=
  match find L h.subC (h.obj a).fsm (h.obj b).fsm with
  | some r => (h, r)
  | none =>
    let res := subBody L h a b
    ({ res.1 with subC := (((h.obj a).fsm, (h.obj b).fsm), res.2) :: res.1.subC }, res.2)

/-- `string in self` (MinDFA.py 73-74). -/
def accepts (h : Heap F) (a : Nat) (x : X) : Bool := L.acc (h.obj a).fsm x

/-- `__eq__` (MinDFA.py 86-91). -/
def eq (h : Heap F) (a b : Nat) : Bool :=
  letI := L.decEq
  decide ((h.obj a).fsm = (h.obj b).fsm)

/-- `__bool__` (MinDFA.py 206-207). -/
def truthy (h : Heap F) (a : Nat) : Bool := !L.empty (h.obj a).fsm

/-- `rep` (MinDFA.py 282-291); `none` for `NotImplemented`. -/
def rep (h : Heap F) (a : Nat) : Option X := if truthy L h a then L.first (h.obj a).fsm else none

/-- `contained_in` (MinDFA.py 209-220). -/
def contained (h : Heap F) (a b : Nat) : Bool :=
  if (h.obj b).mark = .yes then true
  else if (h.obj a).mark = .yes ∧ (h.obj b).mark = .no then false
  else L.subset (h.obj a).fsm (h.obj b).fsm

/-- `is_dfa_wll_words` (MinDFA.py 134-145). -/
def isAll (h : Heap F) (a dom : Nat) : Bool :=
  if (h.obj a).mark = .yes then true
  else if (h.obj a).mark = .no then false
  else !finiteLen L (h.obj a) && eq L h a dom

end

end MinDfa
end Verif
