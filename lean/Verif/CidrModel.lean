import Mathlib.Data.Nat.Bitwise
import Verif.IpModel
import Verif.ReprModel
/-!
Model of the texts of blocks of addresses: `get_cidr_list`, `get_cidr_list_str` and `get_ip_range_or_cidr_str`
(nca/CoreDS/Peer.py 308-331), `CanonicalIntervalSet.__repr__` (nca/CoreDS/CanonicalIntervalSet.py 38-47), and of the functions
of Python's `ipaddress` (CPython 3.11, Lib/ipaddress.py) that they call.

Simplification: `interval.start.address.__class__(interval.start)` (Peer.py 311-312) prints an address and reads it again; in the
model it is the address.  (`C64_text` and `C64_unambiguous` are what this needs of the text.)
-/
namespace Verif

/-- `int.bit_length()` of a natural number. -/
def bitLength (n : Nat) : Nat := if n = 0 then 0 else n.log2 + 1

/-- `_count_righthand_zero_bits` (ipaddress.py 184-197); `~number & (number-1)` is `Nat.ldiff (number - 1) number`. -/
def zeroBits (n bits : Nat) : Nat := if n = 0 then bits else Nat.min bits (bitLength (Nat.ldiff (n - 1) n))

namespace IpBlock

/-- `IPv4Network((addr, len))`, `IPv6Network((addr, len))` (ipaddress.py 1500-1550, 2240-2285): `none` is the `ValueError`,
also for an address with host bits. -/
def network (six : Bool) (addr len : Nat) : Option Cidr :=
  if h : addr ≤ topOf six ∧ len ≤ bitsOf six then
    if addr % 2 ^ (bitsOf six - len) = 0 then some ⟨⟨six, addr, h.1⟩, len, h.2⟩ else none
  else none

/-- The loop of `summarize_address_range` (ipaddress.py 243-252). -/
def summarizeLoop (six : Bool) (first last : Nat) : Option (List Cidr) :=
  if first ≤ last then
    let nbits := Nat.min (zeroBits first (bitsOf six)) (bitLength (last - first + 1) - 1)
    (network six first (bitsOf six - nbits)).bind fun net =>
      if first + 2 ^ nbits - 1 = topOf six then some [net]
      else (summarizeLoop six (first + 2 ^ nbits) last).map (net :: ·)
  else some []
termination_by last + 1 - first
decreasing_by
  have := Nat.two_pow_pos (Nat.min (zeroBits first (bitsOf six)) (bitLength (last - first + 1) - 1))
  omega

/-- `summarize_address_range` (ipaddress.py 200-252); `none` is the `TypeError` or `ValueError`. -/
def summarize (first last : Ip) : Option (List Cidr) :=
  if first.six = last.six then
    if last.val < first.val then none else summarizeLoop first.six first.val last.val
  else none

/-- The networks of `get_cidr_list` (Peer.py 308-315), before they are printed. -/
def cidrList (b : IpBlock) : Option (List Cidr) := (b.mapM fun i => summarize i.s i.e).map List.flatten

end IpBlock

/-! ### Texts of addresses -/

/-- `IPv4Address._string_from_ip_int` (ipaddress.py 1249-1260): the four bytes, in decimal. -/
def text4 (v : Nat) : List Char :=
  joinText '.' ([v / 2 ^ 24, v / 2 ^ 16 % 2 ^ 8, v / 2 ^ 8 % 2 ^ 8, v % 2 ^ 8].map (Nat.toDigits 10))

/-- The eight groups of sixteen bits (ipaddress.py 1850-1851): `'%032x'`, cut in pieces of four digits, is the value in base
2^16. -/
def hextets (v : Nat) : List Nat := (List.range 8).map fun i => v / 2 ^ (16 * (7 - i)) % 2 ^ 16

/-- The variables of the loop of `_compress_hextets` (ipaddress.py 1799-1802). -/
structure Colons where
  bestStart : Int
  bestLen : Nat
  start : Int
  len : Nat

/-- One turn of the loop (ipaddress.py 1803-1815). -/
def Colons.step (s : Colons) (index : Nat) (hextet : List Char) : Colons :=
  if hextet = ['0'] then
    let len := s.len + 1
    let start := if s.start = -1 then (index : Int) else s.start
    if len > s.bestLen then ⟨start, len, start, len⟩ else ⟨s.bestStart, s.bestLen, start, len⟩
  else ⟨s.bestStart, s.bestLen, -1, 0⟩

/-- The loop over `enumerate(hextets)`. -/
def Colons.run (s : Colons) : Nat → List (List Char) → Colons
  | _, [] => s
  | i, h :: l => Colons.run (s.step i h) (i + 1) l

/-- `_compress_hextets` (ipaddress.py 1782-1827). -/
def compress (l : List (List Char)) : List (List Char) :=
  let s := Colons.run ⟨-1, 0, -1, 0⟩ 0 l
  if s.bestLen > 1 then
    let stop := s.bestStart.toNat + s.bestLen
    let l1 := if stop = l.length then l ++ [[]] else l
    let l2 := l1.take s.bestStart.toNat ++ [] :: l1.drop stop
    if s.bestStart = 0 then [] :: l2 else l2
  else l

/-- `IPv6Address._string_from_ip_int` (ipaddress.py 1829-1853). -/
def text6 (v : Nat) : List Char := joinText ':' (compress ((hextets v).map (Nat.toDigits 16)))

/-- `str` of an address; `IPNetworkAddress.__str__` (Peer.py 259-260) is `str(self.address)`.  There is no scope id. -/
def Ip.text (a : Ip) : List Char := if a.six then text6 a.val else text4 a.val

/-- `str` of a network (`_BaseNetwork.__str__`, ipaddress.py 682-683). -/
def IpBlock.Cidr.text (c : IpBlock.Cidr) : List Char := c.addr.text ++ '/' :: Nat.toDigits 10 c.len

/-! ### Texts of blocks -/
namespace IpBlock

/-- `get_cidr_list_str` (Peer.py 317-319). -/
def cidrListStr (b : IpBlock) : Option (List Char) := (cidrList b).map fun l => joinText ',' (l.map Cidr.text)

/-- `CanonicalIntervalSet.__repr__` (CanonicalIntervalSet.py 38-47) of a block. -/
def rangeText (b : IpBlock) : List Char :=
  if b.isEmpty then "Empty".toList
  else ((b.map fun i => i.s.text ++ (if i.s ≠ i.e then '-' :: i.e.text else []) ++ [',']).flatten).dropLast

/-- `get_ip_range_or_cidr_str` (Peer.py 321-331). -/
def shortText (b : IpBlock) (rangeOnly : Bool) : Option (List Char) :=
  (cidrList b).bind fun l => if b.length * 2 ≤ l.length ∨ rangeOnly = true then some (rangeText b) else cidrListStr b

/-- `get_cidr_list_str` as a string, for the names of network sets (the text for an error does not matter: `C64_list`). -/
def cidrText (b : IpBlock) : String := String.ofList ((cidrListStr b).getD [])

end IpBlock
end Verif
