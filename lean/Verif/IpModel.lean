import Verif.IntervalProofs
/-!
Model of `IPNetworkAddress` and `IpBlock` (nca/CoreDS/Peer.py 193-441) and of the methods of
`CanonicalIntervalSet` that `IpBlock` inherits, now with addresses as bounds: `+ 1` and `- 1` saturate
at the ends of an address family, and every IPv4 address is smaller than every IPv6 address.
-/
namespace Verif

/-- The largest address of a family (`false`: IPv4, `true`: IPv6). -/
def topOf (six : Bool) : Nat := if six then 340282366920938463463374607431768211455 else 4294967295

/-- `IPNetworkAddress` (Peer.py 193-202) with `ipaddress.IPv4Address` / `IPv6Address`. -/
structure Ip where
  six : Bool
  val : Nat
  le_top : val ≤ topOf six
  deriving DecidableEq

namespace Ip

instance : Inhabited Ip := ⟨⟨false, 0, by decide⟩⟩

/-- `__lt__` (Peer.py 210-215): IPv4 before IPv6. -/
def lt (a b : Ip) : Bool := if a.six = b.six then decide (a.val < b.val) else !a.six && b.six

/-- `__le__` (Peer.py 217-222). -/
def le (a b : Ip) : Bool := if a.six = b.six then decide (a.val ≤ b.val) else !a.six && b.six

/-- `__add__` with 1 (Peer.py 238-245): the `AddressValueError` of the last address is caught and the
address itself returned. -/
def succ (a : Ip) : Ip := if h : a.val + 1 ≤ topOf a.six then ⟨a.six, a.val + 1, h⟩ else a

/-- `__sub__` with 1 (Peer.py 247-254). -/
def pred (a : Ip) : Ip := if a.val = 0 then a else ⟨a.six, a.val - 1, Nat.le_trans (Nat.sub_le _ _) a.le_top⟩

/-- Python's `min(a, b)`: `b` if `b < a`, else `a`. -/
def min (a b : Ip) : Ip := if lt b a then b else a

/-- Python's `max(a, b)`: `b` if `b > a`, else `a` (`__gt__`, Peer.py 224-229, is `lt` reversed). -/
def max (a b : Ip) : Ip := if lt a b then b else a

end Ip

/-- `CanonicalIntervalSet.Interval` with addresses as bounds. -/
structure IpIv where
  s : Ip
  e : Ip
  deriving DecidableEq, Inhabited

namespace IpIv

/-- `Interval.overlaps`, CanonicalIntervalSet.py 195-201. -/
def overlaps (a b : IpIv) : Bool := a.s.le b.e && b.s.le a.e

/-- `Interval.touches`, CanonicalIntervalSet.py 203-213. -/
def touches (a b : IpIv) : Bool :=
  if b.e.lt a.s then a.s == b.e.succ
  else if a.e.lt b.s then b.s == a.e.succ
  else false

/-- `Interval.is_subset`, CanonicalIntervalSet.py 215-221. -/
def isSubset (a b : IpIv) : Bool := b.s.le a.s && a.e.le b.e

/-- `Interval.__and__`, CanonicalIntervalSet.py 158-163. -/
def and (a b : IpIv) : List IpIv :=
  let maxStart := a.s.max b.s
  let minEnd := a.e.min b.e
  if minEnd.lt maxStart then [] else [⟨maxStart, minEnd⟩]

/-- `Interval.__sub__`, CanonicalIntervalSet.py 176-186. -/
def sub (a b : IpIv) : List IpIv :=
  if !a.overlaps b then [a]
  else if a.isSubset b then []
  else if a.s.lt b.s && b.e.lt a.e then [⟨a.s, b.s.pred⟩, ⟨b.e.succ, a.e⟩]
  else if a.s.lt b.s then [⟨a.s, a.e.min b.s.pred⟩]
  else [⟨a.s.max b.e.succ, a.e⟩]

end IpIv

/-- `IpBlock`: its `interval_set`.  (`name`, `namespace` and `is_global` do not influence the set.) -/
abbrev IpBlock := List IpIv

namespace IpBlock

/-- The loop of `find_interval_left`, CanonicalIntervalSet.py 241-253. -/
def findLeftLoop (l : IpBlock) (sm1 : Ip) (low high : Nat) : Int :=
  if low < high then
    let mid := (low + high) / 2
    if (l[mid]!).e.lt sm1 then
      if mid = l.length - 1 ∨ sm1.le (l[mid+1]!).e then (mid : Int)
      else findLeftLoop l sm1 (mid + 1) high
    else findLeftLoop l sm1 low mid
  else
    let low' := if low = l.length then low - 1 else low
    if sm1.le (l[low']!).e then -1 else (low' : Int)
termination_by high - low
decreasing_by all_goals omega

/-- `find_interval_left`, CanonicalIntervalSet.py 229-253. -/
def findLeft (l : IpBlock) (iv : IpIv) : Int :=
  if l.isEmpty then -1 else findLeftLoop l iv.s.pred 0 l.length

/-- The loop of `find_interval_right`, CanonicalIntervalSet.py 267-279. -/
def findRightLoop (l : IpBlock) (ep1 : Ip) (low high : Nat) : Int :=
  if low < high then
    let mid := (low + high) / 2
    if ep1.lt (l[mid]!).s then
      if mid = 0 ∨ (l[mid-1]!).s.le ep1 then (mid : Int)
      else findRightLoop l ep1 low mid
    else findRightLoop l ep1 (mid + 1) high
  else
    let low' := if low = l.length then low - 1 else low
    if (l[low']!).s.le ep1 then -1 else (low' : Int)
termination_by high - low
decreasing_by all_goals omega

/-- `find_interval_right`, CanonicalIntervalSet.py 255-279. -/
def findRight (l : IpBlock) (iv : IpIv) : Int :=
  if l.isEmpty then -1 else findRightLoop l iv.e.succ 0 l.length

/-- `add_interval`, CanonicalIntervalSet.py 281-323. -/
def addInterval (l : IpBlock) (iv : IpIv) : IpBlock :=
  if l.isEmpty then [iv]
  else
    let left := findLeft l iv
    let right := findRight l iv
    if left ≥ 0 ∧ right ≥ 0 ∧ right - left = 1 then
      l.take (left + 1).toNat ++ [iv] ++ l.drop (left + 1).toNat
    else if left = -1 ∧ right = 0 then iv :: l
    else if right = -1 ∧ left = (l.length : Int) - 1 then l ++ [iv]
    else
      let left' := (left + 1).toNat
      let right' := (if right ≥ 0 then right - 1 else (l.length : Int) - 1).toNat
      let lI := l[left']!
      let rI := l[right']!
      let leftOverlaps := lI.overlaps iv || lI.touches iv
      let rightOverlaps := rI.overlaps iv || rI.touches iv
      let ns := if leftOverlaps then iv.s.min lI.s else iv.s
      let ne := if rightOverlaps then iv.e.max rI.e else iv.e
      l.take left' ++ [⟨ns, ne⟩] ++ l.drop (right' + 1)

/-- `add_hole`, CanonicalIntervalSet.py 325-334. -/
def addHole (l : IpBlock) (hole : IpIv) : IpBlock := l.flatMap (fun i => i.sub hole)

/-- `__and__` / `__iand__`, CanonicalIntervalSet.py 53-58, 70-76. -/
def inter (l m : IpBlock) : IpBlock := l.flatMap (fun a => m.flatMap (fun b => a.and b))

/-- `__or__` / `__ior__`, CanonicalIntervalSet.py 60-63, 78-81. -/
def union (l m : IpBlock) : IpBlock := m.foldl addInterval l

/-- `__sub__` / `__isub__`, CanonicalIntervalSet.py 65-68, 83-86. -/
def diff (l m : IpBlock) : IpBlock := m.foldl addHole l

/-- The loop of `contained_in`, CanonicalIntervalSet.py 106-113. -/
def containedLoop (m : IpBlock) : IpBlock → Bool
  | [] => true
  | a :: rest =>
    let left := findLeft m a
    if left = (m.length : Int) - 1 then false
    else if !a.isSubset (m[(left + 1).toNat]!) then false
    else containedLoop m rest

/-- `contained_in`, CanonicalIntervalSet.py 98-113. -/
def containedIn (l m : IpBlock) : Bool :=
  if l.length = 1 ∧ m.length = 1 then (l[0]!).isSubset (m[0]!)
  else containedLoop m l

/-- `overlaps`, CanonicalIntervalSet.py 115-125. -/
def overlaps (l m : IpBlock) : Bool := l.any (fun a => m.any (fun b => a.overlaps b))

/-- `__bool__`, CanonicalIntervalSet.py 18-19. -/
def truthy (l : IpBlock) : Bool := !l.isEmpty

/-! ### CIDR blocks -/

/-- Number of bits of an address of a family. -/
def bitsOf (six : Bool) : Nat := if six then 128 else 32

/-- `ip_network(cidr, strict=False)`: an address and a prefix length (Python's `ipaddress`; parsing of the
text is not modelled). -/
structure Cidr where
  addr : Ip
  len : Nat
  le_bits : len ≤ bitsOf addr.six
  deriving DecidableEq

/-- Number of addresses of the network. -/
def Cidr.size (c : Cidr) : Nat := 2 ^ (bitsOf c.addr.six - c.len)

/-- `network_address`: the host bits cleared. -/
def Cidr.lo (c : Cidr) : Nat := c.addr.val / c.size * c.size

/-- `broadcast_address`: the host bits set. -/
def Cidr.hi (c : Cidr) : Nat := c.lo + (c.size - 1)

theorem topOf_eq (six : Bool) : topOf six + 1 = 2 ^ bitsOf six := by cases six <;> decide +kernel

theorem Cidr.size_pos (c : Cidr) : 0 < c.size := Nat.pow_pos (by decide)

theorem Cidr.hi_le (c : Cidr) : c.hi ≤ topOf c.addr.six := by
  have h1 := topOf_eq c.addr.six
  have h2 := c.addr.le_top
  have h3 := c.size_pos
  have h4 : c.size * 2 ^ c.len = 2 ^ bitsOf c.addr.six := by
    rw [Cidr.size, ← Nat.pow_add, Nat.sub_add_cancel c.le_bits]
  have h5 : c.addr.val / c.size < 2 ^ c.len := by
    apply Nat.div_lt_of_lt_mul; omega
  have h6 : (c.addr.val / c.size + 1) * c.size ≤ 2 ^ c.len * c.size := Nat.mul_le_mul_right _ h5
  rw [Nat.mul_comm (2 ^ c.len), h4, Nat.succ_mul] at h6
  unfold Cidr.hi Cidr.lo; omega

theorem Cidr.lo_le (c : Cidr) : c.lo ≤ topOf c.addr.six := Nat.le_trans (Nat.le_add_right _ _) c.hi_le

/-- The interval of the addresses of a network (`add_cidr`, Peer.py 381-383). -/
def Cidr.iv (c : Cidr) : IpIv := ⟨⟨c.addr.six, c.lo, c.lo_le⟩, ⟨c.addr.six, c.hi, c.hi_le⟩⟩

/-- `add_cidr` (Peer.py 380-390); `none` is the `TypeError` of `subnet_of` for networks of different
families.  (`subnet_of` returns a value that is ignored; an exception outside the network is legal.) -/
def addCidr (l : IpBlock) (c : Cidr) (exceptions : List Cidr) : Option IpBlock :=
  exceptions.foldlM (fun l x => if x.addr.six = c.addr.six then some (addHole l x.iv) else none) (addInterval l c.iv)

/-- `remove_cidr` (Peer.py 392-396). -/
def removeCidr (l : IpBlock) (c : Cidr) : IpBlock := addHole l c.iv

/-- `0.0.0.0/0` and `::/0`. -/
def allOf (six : Bool) : Cidr := ⟨⟨six, 0, Nat.zero_le _⟩, 0, Nat.zero_le _⟩

/-- `get_all_ips_block` (Peer.py 334-347). -/
def allIps (exclude6 exclude4 : Bool) : IpBlock :=
  let l : IpBlock := if exclude4 then [] else addInterval [] (allOf false).iv
  if exclude6 then l else addInterval l (allOf true).iv

/-- `ip_count` (Peer.py 370-378). -/
def ipCount (l : IpBlock) : Int := (l.map (fun i => (i.e.val : Int) - i.s.val + 1)).sum

/-- `split` (Peer.py 360-368): one block per range. -/
def split (l : IpBlock) : List IpBlock := l.map (fun i => [i])

/-- `is_ipv4_block` (Peer.py 427-440). -/
def isIpv4 (l : IpBlock) : Bool := decide ((l.filter (fun i => !i.s.six)).length = l.length)

end IpBlock
end Verif
