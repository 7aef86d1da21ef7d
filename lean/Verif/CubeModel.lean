/-
Model of nca/CoreDS/CanonicalHyperCubeSet.py and of the parts of
nca/CoreDS/ConnectivityProperties.py that override it (`__eq__` 158-161, `copy` 178-186).

Representation.  A Python object holds `active_dimensions` and a dict `layers` from values of the
first active dimension to sub-objects over the remaining active dimensions; below the last
dimension the value is the constant `empty_interval`.  Every sub-object has as active dimensions
the tail of its parent's list (create: 110-117, build_new: 708-741, remove: 757-793; the debug
function `_check_active_dimensions` 743-755 asserts the same), so the tree is typed by the list:
`Tree V (d :: ds)` is the dict at that level in insertion order, and `Tree V []` is the constant
below the last dimension.

Each sub-object also has a Python class: plain `CanonicalHyperCubeSet` (`false`) or
`ConnectivityProperties` (`true`).  The class matters because `ConnectivityProperties.__eq__`
answers False for an object of the other class.  It is stored beside the sub-object.

Values of a dimension (interval sets or DFAs) are an abstract algebra `VAlg`, see `Verif.CubeSpec`
for its laws, `Verif.CubeInst` for the instance by the interval sets of `Verif.IntervalSet`.

In-place mutation is modelled by returning the new object.  Python asserts and exceptions are
`none`.
-/
namespace Verif

/-- Operations on the values of the dimensions: those of `CanonicalIntervalSet` /
`MinDFA` used by CanonicalHyperCubeSet.py, and
`DimensionsManager.get_dimension_domain_by_name` (`dom`). -/
structure VAlg (D V X : Type) where
  and : V → V → V
  or : V → V → V
  sub : V → V → V
  truthy : V → Bool
  contained : V → V → Bool
  mem : X → V → Bool
  rep : V → Option X
  dom : D → V
  decEq : DecidableEq V

/-- `layers` of an object with the given active dimensions, with the class of each sub-object. -/
def Tree {D : Type} (V : Type) : List D → Type
  | [] => Unit
  | _ :: ds => List (V × Bool × Tree V ds)

/-- One item of a `layers` dict: key, class of the sub-object, sub-object. -/
abbrev Entry {D : Type} (V : Type) (ds : List D) := V × Bool × Tree V ds

/-- The attribute `layers`, as a list of items in insertion order. -/
abbrev layers {D V : Type} {d : D} {ds : List D} (t : Tree V (d :: ds)) : List (Entry V ds) := t

section
variable {D V X : Type} [DecidableEq D] (A : VAlg D V X)

/-- `res_layers[k] = v` on a dict: replace the value of an equal key, else append. -/
def dictSet {S : Type} (dec : DecidableEq V) : List (V × S) → V × S → List (V × S)
  | [], e => [e]
  | x :: xs, e => if x.1 = e.1 then (x.1, e.2) :: xs else x :: dictSet dec xs e

/-- A dict built by a sequence of assignments. -/
def dictOf {S : Type} (dec : DecidableEq V) (l : List (V × S)) : List (V × S) :=
  l.foldl (dictSet dec) []

/-- `bool(sub_elem)`: `__bool__` 52-56. -/
def neT : (ds : List D) → Tree V ds → Bool
  | [], _ => true
  | _ :: _, t => !(List.isEmpty t)

/-- Equality of two sub-objects, as used by dict lookups in `_apply_layer_elements_union` and by
`==`: `CanonicalHyperCubeSet.__eq__` 58-66 and `ConnectivityProperties.__eq__` 158-161 (an
object of one class never equals one of the other, in either operand order).  Dicts compare equal
when they have the same number of keys and every key of one is found in the other with an equal
value.  Hash consistency (`__hash__` 188-194) is assumed. -/
def subEq : (ds : List D) → Bool × Tree V ds → Bool × Tree V ds → Bool
  | [], _, _ => true
  | _ :: ds, (c1, t1), (c2, t2) =>
    c1 == c2 && (List.length t1 == List.length t2) &&
      (List.all t1 fun e1 =>
        match List.find? (fun e2 => @decide (e2.1 = e1.1) (A.decEq _ _)) t2 with
        | some e2 => subEq ds e1.2 e2.2
        | none => false)

/-- The class table of `_apply_layer_elements_union` 844-861, lines 851-857, with the
`layer_0_new_elem |= elem` of lines 858-860 performed as soon as the element is put in its class
(same order of `|=`). -/
def insClass (ds : List D) : List (Entry V ds) → Entry V ds → List (Entry V ds)
  | [], e => [e]
  | c :: cs, e => if subEq A ds c.2 e.2 then (A.or c.1 e.1, c.2) :: cs else c :: insClass ds cs e

/-- `_apply_layer_elements_union` 844-861. -/
def mergeL (ds : List D) (l : List (Entry V ds)) : List (Entry V ds) :=
  dictOf A.decEq (l.foldl (insClass A ds) [])

/-- The full cube over `ds` (`_create_from_cube_aux` 93-109 on `_get_entire_space_cube`
164-177; also the sub-object built for a last dimension in `build_new_active_dimensions`
723-731). -/
def fullT : (ds : List D) → Tree V ds
  | [] => ()
  | d :: ds => ([(A.dom d, false, fullT ds)] : List (Entry V ds))

/-- `_create_from_cube_aux` 93-109 for a cube given by its value at each dimension. -/
def cubeT (c : D → V) : (ds : List D) → Tree V ds
  | [] => ()
  | d :: ds => ([(c d, false, cubeT c ds)] : List (Entry V ds))

/-- `build_new_active_dimensions` 708-741 (and `_set_active_dimensions` 681-706 on an "all"
object).  `c` is the class of the object, needed because line 737 stores `self.copy()` as the
new sub-object.  The early return for equal dimension lists is `expand_self` in the proofs.
The last two lines of the match are unreachable (the active dimensions are a subset of the new
ones). -/
def expand (c : Bool) : (as new : List D) → Tree V as → Tree V new
  | _, [], _ => ()
  | [], n :: ns, _ => fullT A (n :: ns)
  | a :: as, n :: ns, t =>
    if a = n then
      ((List.map (fun (e : Entry V as) => (e.1, e.2.1, expand e.2.1 as ns e.2.2)) t) : List (Entry V ns))
    else ([(A.dom n, c, expand c (a :: as) ns t)] : List (Entry V ns))

/-- `_and_aux` 274-302. -/
def andT : (ds : List D) → Tree V ds → Tree V ds → Tree V ds
  | [], _, _ => ()
  | _ :: ds, t1, t2 =>
    mergeL A ds (dictOf A.decEq
      (List.flatMap (fun (e1 : Entry V ds) =>
        List.filterMap (fun (e2 : Entry V ds) =>
          let common := A.and e1.1 e2.1
          if !A.truthy common then none
          else
            let n := andT ds e1.2.2 e2.2.2
            if neT ds n then some (common, false, n) else none) t2) t1))

/-- What is left of a layer key after removing its common part with every layer of the other
object (`remaining_self_layer`, `remaining_other_layers`; 338-348, 388-394). -/
def remaining {S : Type} (k : V) (others : List (V × S)) (f : V → V → V) : V :=
  others.foldl (fun r e => let common := f k e.1
    if !A.truthy common then r else A.sub r common) k

/-- `or_aux` 325-359. -/
def orT : (ds : List D) → Tree V ds → Tree V ds → Tree V ds
  | [], _, _ => ()
  | _ :: ds, t1, t2 =>
    let selfPart := List.flatMap (fun (e1 : Entry V ds) =>
      (List.filterMap (fun (e2 : Entry V ds) =>
        let common := A.and e1.1 e2.1
        if !A.truthy common then none
        else some (common, false, orT ds e1.2.2 e2.2.2)) t2) ++
      (let r := remaining A e1.1 t2 A.and
       if A.truthy r then [(r, e1.2)] else [])) t1
    let otherPart := List.filterMap (fun (e2 : Entry V ds) =>
      let r := remaining A e2.1 t1 (fun k2 k1 => A.and k1 k2)
      if A.truthy r then some (r, e2.2) else none) t2
    mergeL A ds (dictOf A.decEq (selfPart ++ otherPart))

/-- `sub_aux` 378-408.  At the last dimension nothing is added under the common part
(lines 396-398). -/
def subT : (ds : List D) → Tree V ds → Tree V ds → Tree V ds
  | [], _, _ => ()
  | _ :: ds, t1, t2 =>
    let pairs := List.flatMap (fun (e1 : Entry V ds) =>
      (List.filterMap (fun (e2 : Entry V ds) =>
        let common := A.and e1.1 e2.1
        if !A.truthy common then none
        else if ds.isEmpty then none
        else
          let n := subT ds e1.2.2 e2.2.2
          if neT ds n then some (common, false, n) else none) t2) ++
      (let r := remaining A e1.1 t2 A.and
       if A.truthy r then [(r, e1.2)] else [])) t1
    mergeL A ds (dictOf A.decEq pairs)

/-- `_get_values_sets_per_active_dimension` 808-824, as the list of all (dimension, key) pairs. -/
def vals : (ds : List D) → Tree V ds → List (D × V)
  | [], _ => []
  | d :: ds, t => List.flatMap (fun (e : Entry V ds) => (d, e.1) :: vals ds e.2.2) t

/-- `new_layers.update(sub_elem.layers)` for every sub-object, 787-790. -/
def joinSubs : (ds : List D) → List (Tree V ds) → Tree V ds
  | [], _ => ()
  | _ :: ds, l => dictOf A.decEq (List.flatten (α := Entry V ds) l)

/-- `_remove_some_active_dimensions` 757-793.  The early return for equal dimension lists is
`removeT_self`; the case "no dimension left but some to keep" is unreachable (assert 764). -/
def removeT : (as keep : List D) → Tree V as → Tree V keep
  | _, [], _ => ()
  | [], _ :: ks, _ => ([] : List (Entry V ks))
  | a :: as, k :: ks, t =>
    if a = k then
      ((List.map (fun (e : Entry V as) => (e.1, e.2.1, removeT as ks e.2.2)) t) : List (Entry V ks))
    else removeT as (k :: ks) (joinSubs A as (List.map (fun (e : Entry V as) => e.2.2) t))

/-- `__contains__` 220-251 below the length and type checks: the first layer whose key contains
the coordinate decides. -/
def containsT : (ds : List D) → Tree V ds → (D → X) → Bool
  | [], _, _ => true
  | d :: ds, t, p =>
    match List.find? (fun (e : Entry V ds) => A.mem (p d) e.1) t with
    | some e => containsT ds e.2.2 p
    | none => false

/-- `_get_cubes_list_from_layers` 137-150. -/
def cubesT : (ds : List D) → Tree V ds → List (List V)
  | [], _ => [[]]
  | _ :: ds, t => List.flatMap (fun (e : Entry V ds) => (cubesT ds e.2.2).map (e.1 :: ·)) t

/-- `_is_sub_elem_entire_sub_space` 469-480, on an object of class `c`. -/
def isFullT (ds : List D) (c : Bool) (t : Tree V ds) : Bool := subEq A ds (false, fullT A ds) (c, t)

/-- Inner loop of case 3 of `_contained_in_aux`, 543-563, for one layer of self.
`none`: exception; `some none`: `return False`; `some (some b)`: loop ended, counted iff `b`. -/
def coverLoop {S : Type} (f : V × S → Option Bool) : V → List (V × S) → Option (Option Bool)
  | _, [] => some (some false)
  | cur, e :: rest =>
    let common := A.and cur e.1
    if !A.truthy common then coverLoop f cur rest
    else match f e with
      | none => none
      | some false => some none
      | some true =>
        let rem := A.sub cur common
        if A.truthy rem then coverLoop f rem rest else some (some true)

/-- Outer loop of case 3 of `_contained_in_aux`, 539-565; `count` is `is_subset_count`. -/
def outerLoop {S : Type} (g : V × S → Option (Option Bool)) (total : Nat) :
    Nat → List (V × S) → Option Bool
  | count, [] => some (count == total)
  | count, e :: rest =>
    match g e with
    | none => none
    | some none => some false
    | some (some b) => outerLoop g total (if b then count + 1 else count) rest

/-- Loop of case 1(b) of `_contained_in_aux`, 503-506 (`res &= ...`, no early exit). -/
def allLoop {S : Type} (f : S → Option Bool) : Bool → List S → Option Bool
  | res, [] => some res
  | res, e :: rest => match f e with
    | none => none
    | some b => allLoop f (res && b) rest

/-- Loop of case 2(b) of `_contained_in_aux`, 519-529. -/
def case2Loop {S : Type} (f : V × S → Option Bool) (d : D) :
    Option V → List (V × S) → Option Bool
  | cov, [] => match cov with
    | none => none
    | some v => some (@decide (v = A.dom d) (A.decEq _ _))
  | cov, e :: rest => match f e with
    | none => none
    | some false => some false
    | some true => case2Loop f d (some (match cov with | none => e.1 | some v => A.or v e.1)) rest

/-- `_contained_in_aux` 482-565.  The first list is `all_active_dims`; `c2` is the class of
`other`. -/
def containedAux : (cur : List D) → (as bs : List D) → Tree V as → Bool → Tree V bs → Option Bool
  | [], _, _, _, _, _ => none                                     -- assert all_active_dims
  | cur :: rest, as, bs, s, c2, o =>
    if cur ∉ bs then
      match as, s with
      | [], _ => none
      | [a], _ => if cur :: rest = [a] then some true else some (isFullT A bs c2 o)
      | _ :: a' :: as', s =>
        allLoop (fun (e : Entry V (a' :: as')) => containedAux rest (a' :: as') bs e.2.2 c2 o) true s
    else if cur ∉ as then
      match bs, o with
      | [], _ => none
      | [b], o => some (isFullT A [b] c2 o)
      | _ :: b' :: bs', o =>
        case2Loop A (fun (e : Entry V (b' :: bs')) =>
          containedAux rest as (b' :: bs') s e.2.1 e.2.2) cur none o
    else
      match as, bs, s, o with
      | [], _, _, _ => none
      | _ :: _, [], _, _ => none
      | [_], [_], s, o =>
        match (s : List (Entry V ([] : List D))), (o : List (Entry V ([] : List D))) with
        | [k1], [k2] => some (A.contained k1.1 k2.1)
        | _, _ => none                                             -- assert 467
      | _ :: as', _ :: bs', s, o =>
        outerLoop (fun (e : Entry V as') =>
          coverLoop A (fun (e2 : Entry V bs') =>
            if !as'.isEmpty && !bs'.isEmpty then containedAux rest as' bs' e.2.2 e2.2.1 e2.2.2
            else if as'.isEmpty && !bs'.isEmpty then some (isFullT A bs' e2.2.1 e2.2.2)
            else some true) e.1 o) (List.length s) 0 s

/-- A `CanonicalHyperCubeSet` / `ConnectivityProperties` object: class, `active_dimensions`,
`layers`.  (`all_dimensions_list` is the parameter `all` of the operations: both operands of every
operation have the same list.) -/
structure HC (D V : Type) where
  cls : Bool
  act : List D
  tree : Tree V act

namespace HC

variable (all : List D)

/-- `__init__` 41-50 without `allow_all`; `clear` 587-592. -/
def empty (cls : Bool) : HC D V :=
  ⟨cls, all, match all with | [] => () | _ :: ds => ([] : List (Entry V ds))⟩

/-- `__init__` 41-50 with `allow_all`; `set_all` 435-440. -/
def full (cls : Bool) : HC D V := ⟨cls, [], ()⟩

/-- `is_all` 429-433. -/
def isAll (h : HC D V) : Bool := h.act.isEmpty

/-- `__bool__` 52-56. -/
def truthy (h : HC D V) : Bool := neT h.act h.tree

/-- The dimensions `reduce_active_dimensions` finds reducible: 833-839. -/
def reducible (h : HC D V) (d : D) : Bool :=
  let vs := (vals h.act h.tree).filter (fun e => e.1 = d)
  !vs.isEmpty && vs.all (fun e => @decide (e.2 = A.dom d) (A.decEq _ _))

/-- `reduce_active_dimensions` 826-842 with `_set_inactive_dimensions` 795-806. -/
def reduce (h : HC D V) : HC D V :=
  if !h.truthy || h.act.isEmpty then h
  else
    let keep := all.filter (fun d => decide (d ∈ h.act) && !reducible A h d)
    if keep.isEmpty then ⟨h.cls, [], ()⟩ else ⟨h.cls, keep, removeT A h.act keep h.tree⟩

/-- `_get_dimensions_subset_by_order` 158-162 of the union of active dimensions, 418 and 456. -/
def common (as bs : List D) : List D := all.filter (fun d => decide (d ∈ as) || decide (d ∈ bs))

/-- `_prepare_common_active_dimensions` 410-427 followed by an operation on the common dimensions
and `reduce_active_dimensions`: lines 266-272, 317-323, 371-376. -/
def onCommon (f : (ds : List D) → Tree V ds → Tree V ds → Tree V ds) (self other : HC D V) : HC D V :=
  let c := common all self.act other.act
  reduce A all ⟨self.cls, c, f c (expand A self.cls self.act c self.tree)
    (expand A other.cls other.act c other.tree)⟩

/-- `__iand__` 258-272 / `__and__` 253-256. -/
def and (self other : HC D V) : HC D V :=
  if other.isAll then self
  else if !other.truthy || !self.truthy then empty all self.cls
  else if self.isAll then ⟨self.cls, other.act, other.tree⟩
  else onCommon A all (andT A) self other

/-- `__ior__` 309-323 / `__or__` 304-307. -/
def or (self other : HC D V) : HC D V :=
  if other.isAll || self.isAll then full self.cls
  else if !other.truthy then self
  else if !self.truthy then ⟨self.cls, other.act, other.tree⟩
  else onCommon A all (orT A) self other

/-- `__isub__` 366-376 / `__sub__` 361-364.  Note that the code does not return after `clear()`
and has no guard for an empty `self`. -/
def sub (self other : HC D V) : HC D V :=
  let self := if other.isAll then empty all self.cls else self
  if !other.truthy then self
  else onCommon A all (subT A) self other

/-- `contained_in` 443-458. -/
def containedIn (self other : HC D V) : Option Bool :=
  if other.isAll || !self.truthy then some true
  else if !other.truthy || self.isAll then some false
  else containedAux A (common all self.act other.act) self.act other.act self.tree other.cls other.tree

/-- `__contains__` 220-251 (for items with all dimensions of the right type). -/
def contains (h : HC D V) (p : D → X) : Bool :=
  if h.isAll then true
  else if !h.truthy then false
  else containsT A h.act h.tree p

/-- `__eq__` 58-66 / ConnectivityProperties `__eq__` 158-161. -/
def eq (a b : HC D V) : Bool :=
  if a.cls != b.cls then false
  else if !a.truthy && !b.truthy then true
  else if h : a.act = b.act then
    subEq A b.act (false, h ▸ a.tree) (false, b.tree)
  else false

/-- `create_from_cube` 68-90 with `_reduce_cube` 111-135: dimensions whose value is the whole
domain are dropped, an empty value makes the set empty.  The cube is given by the list of its
dimensions (in the order of `all`; the code asserts that it is not empty) and the value at each
of them.  For DFA dimensions the code tests `is_dfa_wll_words(domain)` instead of `==`. -/
def fromCube (c : D → V) (dims : List D) : HC D V :=
  if dims.any (fun d => !A.truthy (c d)) then empty all false
  else
    let keep := dims.filter (fun d => !@decide (c d = A.dom d) (A.decEq _ _))
    if keep.isEmpty then full false else ⟨false, keep, cubeT c keep⟩

/-- `add_cube` 622-638. -/
def addCube (h : HC D V) (c : D → V) (dims : List D) : HC D V :=
  if dims.isEmpty || dims.any (fun d => !A.truthy (c d)) then h
  else or A all h (fromCube A all c dims)

/-- `add_hole` 640-656. -/
def addHole (h : HC D V) (c : D → V) (dims : List D) : HC D V :=
  if dims.isEmpty || dims.any (fun d => !A.truthy (c d)) then h
  else sub A all h (fromCube A all c dims)

/-- `__iter__` 196-200: the cubes of a set, each as the values at the active dimensions; for the
whole space the code returns the single cube of all domains. -/
def cubes (h : HC D V) : List (List V) :=
  if h.isAll then [all.map A.dom] else cubesT h.act h.tree

/-- `get_first_item` 567-585 for all dimensions.  Outer `none`: the IndexError of taking the
first cube of an empty cube list, or of `rep` on an empty value; inner `none`: the value
`NotImplemented` returned for an empty set. -/
def firstItem (h : HC D V) : Option (Option (List X)) :=
  if !h.truthy then some none
  else
    match cubesT h.act h.tree with
    | [] => none
    | cube :: _ =>
      let v := fun d => match (h.act.zip cube).find? (fun e => e.1 = d) with
        | some e => e.2
        | none => A.dom d
      (all.mapM (fun d => A.rep (v d))).map some

end HC
end
end Verif
