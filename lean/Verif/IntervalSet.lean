/-
Model of nca/CoreDS/CanonicalIntervalSet.py (whole file).

Bounds are mathematical integers (the class is generic over bounds; the ports,
methods, protocols, ICMP and peer dimensions all use Python ints).  IP address
bounds, whose `+1`/`-1` saturate, are treated in `Verif.IpModel`.
In-place mutation is modelled by returning the new list.
-/
namespace Verif

/-- `CanonicalIntervalSet.Interval`, CanonicalIntervalSet.py 133-141. -/
structure Iv where
  s : Int
  e : Int
deriving DecidableEq, Repr, Inhabited

namespace Iv

/-- `Interval.overlaps`, CanonicalIntervalSet.py 195-201. -/
def overlaps (a b : Iv) : Bool := decide (b.e ≥ a.s) && decide (b.s ≤ a.e)

/-- `Interval.touches`, CanonicalIntervalSet.py 203-213. -/
def touches (a b : Iv) : Bool :=
  if a.s > b.e then a.s == b.e + 1
  else if b.s > a.e then b.s == a.e + 1
  else false

/-- `Interval.is_subset`, CanonicalIntervalSet.py 215-221. -/
def isSubset (a b : Iv) : Bool := decide (b.s ≤ a.s) && decide (b.e ≥ a.e)

/-- `Interval.__and__`, CanonicalIntervalSet.py 158-163. -/
def and (a b : Iv) : List Iv :=
  let maxStart := max a.s b.s
  let minEnd := min a.e b.e
  if minEnd < maxStart then [] else [⟨maxStart, minEnd⟩]

/-- `Interval.__or__`, CanonicalIntervalSet.py 165-174. -/
def or (a b : Iv) : List Iv :=
  if a.isSubset b then [b]
  else if b.isSubset a then [a]
  else if a.overlaps b || a.touches b then [⟨min a.s b.s, max a.e b.e⟩]
  else [a, b]

/-- `Interval.__sub__`, CanonicalIntervalSet.py 176-186. -/
def sub (a b : Iv) : List Iv :=
  if !a.overlaps b then [a]
  else if a.isSubset b then []
  else if a.s < b.s ∧ a.e > b.e then [⟨a.s, b.s - 1⟩, ⟨b.e + 1, a.e⟩]
  else if a.s < b.s then [⟨a.s, min a.e (b.s - 1)⟩]
  else [⟨max a.s (b.e + 1), a.e⟩]

/-- `Interval.is_single_value`, CanonicalIntervalSet.py 223-227. -/
def isSingleValue (a : Iv) : Bool := a.s == a.e

end Iv

/-- The attribute `interval_set` of `CanonicalIntervalSet`, CanonicalIntervalSet.py 15-16. -/
abbrev ISet := List Iv

namespace ISet

/-- The `while` loop of `find_interval_left`, CanonicalIntervalSet.py 241-253.
`sm1` is `interval.start - 1`.  Indices stay below `len` (`mid < high ≤ len`). -/
def findLeftLoop (l : ISet) (sm1 : Int) (low high : Nat) : Int :=
  if low < high then
    let mid := (low + high) / 2
    if (l[mid]!).e < sm1 then
      if mid = l.length - 1 ∨ (l[mid+1]!).e ≥ sm1 then (mid : Int)
      else findLeftLoop l sm1 (mid + 1) high
    else findLeftLoop l sm1 low mid
  else
    let low' := if low = l.length then low - 1 else low
    if (l[low']!).e ≥ sm1 then -1 else (low' : Int)
termination_by high - low
decreasing_by all_goals omega

/-- `find_interval_left`, CanonicalIntervalSet.py 229-253. -/
def findLeft (l : ISet) (iv : Iv) : Int :=
  if l.isEmpty then -1 else findLeftLoop l (iv.s - 1) 0 l.length

/-- The `while` loop of `find_interval_right`, CanonicalIntervalSet.py 267-279. `ep1` is
`interval.end + 1`. -/
def findRightLoop (l : ISet) (ep1 : Int) (low high : Nat) : Int :=
  if low < high then
    let mid := (low + high) / 2
    if (l[mid]!).s > ep1 then
      if mid = 0 ∨ (l[mid-1]!).s ≤ ep1 then (mid : Int)
      else findRightLoop l ep1 low mid
    else findRightLoop l ep1 (mid + 1) high
  else
    let low' := if low = l.length then low - 1 else low
    if (l[low']!).s ≤ ep1 then -1 else (low' : Int)
termination_by high - low
decreasing_by all_goals omega

/-- `find_interval_right`, CanonicalIntervalSet.py 255-279. -/
def findRight (l : ISet) (iv : Iv) : Int :=
  if l.isEmpty then -1 else findRightLoop l (iv.e + 1) 0 l.length

/-- `add_interval`, CanonicalIntervalSet.py 281-323.
`list.insert(i, x)` is `take i ++ [x] ++ drop i`; `del l[i:j+1]` followed by `insert(i, x)`
is `take i ++ [x] ++ drop (j+1)`. -/
def addInterval (l : ISet) (iv : Iv) : ISet :=
  if l.isEmpty then [iv]
  else
    let left := findLeft l iv
    let right := findRight l iv
    if left ≥ 0 ∧ right ≥ 0 ∧ right - left = 1 then
      l.take (left + 1).toNat ++ [iv] ++ l.drop (left + 1).toNat
    else if left = -1 ∧ right = 0 then iv :: l
    else if right = -1 ∧ left = (l.length : Int) - 1 then l ++ [iv]
    else
      let left' := (left + 1).toNat
      let right' := (if right ≥ 0 then right - 1 else (l.length : Int) - 1).toNat
      let lI := l[left']!
      let rI := l[right']!
      let leftOverlaps := lI.overlaps iv || lI.touches iv
      let rightOverlaps := rI.overlaps iv || rI.touches iv
      let ns := if leftOverlaps then min iv.s lI.s else iv.s
      let ne := if rightOverlaps then max iv.e rI.e else iv.e
      l.take left' ++ [⟨ns, ne⟩] ++ l.drop (right' + 1)

/-- `add_hole`, CanonicalIntervalSet.py 325-334. -/
def addHole (l : ISet) (hole : Iv) : ISet := l.flatMap (fun i => i.sub hole)

/-- `__and__` / `__iand__`, CanonicalIntervalSet.py 53-58, 70-76. -/
def inter (l m : ISet) : ISet := l.flatMap (fun a => m.flatMap (fun b => a.and b))

/-- `__or__` / `__ior__`, CanonicalIntervalSet.py 60-63, 78-81. -/
def union (l m : ISet) : ISet := m.foldl addInterval l

/-- `__sub__` / `__isub__`, CanonicalIntervalSet.py 65-68, 83-86. -/
def diff (l m : ISet) : ISet := m.foldl addHole l

/-- The loop of `contained_in`, CanonicalIntervalSet.py 106-113. -/
def containedLoop (m : ISet) : ISet → Bool
  | [] => true
  | a :: rest =>
    let left := findLeft m a
    if left = (m.length : Int) - 1 then false
    else if !a.isSubset (m[(left + 1).toNat]!) then false
    else containedLoop m rest

/-- `contained_in`, CanonicalIntervalSet.py 98-113. -/
def containedIn (l m : ISet) : Bool :=
  if l.length = 1 ∧ m.length = 1 then (l[0]!).isSubset (m[0]!)
  else containedLoop m l

/-- `get_interval_set`, CanonicalIntervalSet.py 336-347. -/
def single (s e : Int) : ISet := addInterval [] ⟨s, e⟩

/-- `__contains__`, CanonicalIntervalSet.py 49-51. -/
def contains (l : ISet) (x : Int) : Bool := containedIn (single x x) l

/-- `overlaps`, CanonicalIntervalSet.py 115-125. -/
def overlaps (l m : ISet) : Bool := l.any (fun a => m.any (fun b => a.overlaps b))

/-- `__bool__`, CanonicalIntervalSet.py 18-19. -/
def truthy (l : ISet) : Bool := !l.isEmpty

/-- `rep`, CanonicalIntervalSet.py 127-131; `none` is the IndexError on an empty set. -/
def rep (l : ISet) : Option Int := l.head?.map (·.s)

/-- `is_single_value`, CanonicalIntervalSet.py 364-368. -/
def isSingleValue (l : ISet) : Bool :=
  match l with
  | [a] => a.isSingleValue
  | _ => false

end ISet
end Verif
