import Verif.PropsIp
/-!
Model of `PeerSet` and `BasePeerSet` (nca/CoreDS/Peer.py 521-811).

Peers that are not IP blocks are represented by keys `κ` (`ClusterEP`, `Pod`, `HostEP` and `DNSEntry`
objects are compared and hashed by class and name, Peer.py 66-75, 491-497).  A Python set is a list in
an arbitrary iteration order; theorems hold for every order.
-/
namespace Verif

variable {κ : Type} [DecidableEq κ]

/-- An element of a `PeerSet`. -/
inductive PeerElem (κ : Type) where
  | pod (k : κ)
  | ip (b : IpBlock)
  deriving DecidableEq

abbrev PeerSet (κ : Type) := List (PeerElem κ)

namespace PeerSet

/-- `get_set_without_ip_block` (Peer.py 637-641). -/
def pods (p : PeerSet κ) : List κ := p.filterMap (fun e => match e with | .pod k => some k | .ip _ => none)

/-- One step of the loop of `get_ip_block_canonical_form` (Peer.py 660-662). -/
def ipStep (r : IpBlock) : PeerElem κ → IpBlock
  | .pod _ => r
  | .ip b => r.union b

/-- `get_ip_block_canonical_form` (Peer.py 655-663). -/
def ipForm (p : PeerSet κ) : IpBlock := p.foldl ipStep []

/-- `IpBlock.get_peer_set` (Peer.py 398-402). -/
def ofBlock (b : IpBlock) : PeerSet κ := if b.truthy then [.ip b] else []

/-- `__contains__` (Peer.py 532-538). -/
def contains (p : PeerSet κ) : PeerElem κ → Bool
  | .ip b => p.any (fun e => match e with | .pod _ => false | .ip c => b.containedIn c)
  | .pod k => decide (.pod k ∈ p)

/-- `__eq__` (Peer.py 557-564): equality of Python sets, then of canonical blocks. -/
def eq (p q : PeerSet κ) : Bool :=
  (p.pods.all (fun k => decide (k ∈ q.pods)) && q.pods.all (fun k => decide (k ∈ p.pods))) && decide (p.ipForm = q.ipForm)

/-- `__iand__`, `__and__` (Peer.py 576-591). -/
def and (p q : PeerSet κ) : PeerSet κ :=
  (p.pods.filter (fun k => decide (k ∈ q.pods))).map .pod ++ ofBlock (p.ipForm.inter q.ipForm)

/-- `__or__` (Peer.py 593-601): union of Python sets (equal elements kept once). -/
def or (p q : PeerSet κ) : PeerSet κ := p ++ q.filter (fun e => decide (e ∉ p))

/-- `__isub__`, `__sub__` (Peer.py 603-618). -/
def sub (p q : PeerSet κ) : PeerSet κ :=
  (p.pods.filter (fun k => decide (k ∉ q.pods))).map .pod ++ ofBlock (p.ipForm.diff q.ipForm)

/-- `canonical_form` (Peer.py 540-542). -/
def canonicalForm (p : PeerSet κ) : PeerSet κ := p.pods.map .pod ++ ofBlock p.ipForm

/-- `split` (Peer.py 544-555). -/
def split (p : PeerSet κ) : PeerSet κ :=
  p.flatMap (fun e => match e with | .pod k => [.pod k] | .ip b => b.split.map .ip)

/-- `filter_ip_blocks_by_mask` (Peer.py 665-685). -/
def filterMask (p : PeerSet κ) (mask : IpBlock) : PeerSet κ :=
  let toRemove := p.filter (fun e => match e with | .pod _ => false | .ip b => !b.containedIn mask)
  let toAdd := p.filterMap (fun e => match e with
    | .pod _ => none
    | .ip b => if !b.containedIn mask && b.overlaps mask then some (PeerElem.ip (b.inter mask)) else none)
  toAdd.foldl (fun p e => if e ∈ p then p else p ++ [e]) (p.filter (fun e => decide (e ∉ toRemove)))

end PeerSet

/-! ### BasePeerSet -/

/-- The constants of `BasePeerSet` (Peer.py 706-715). -/
def minIpv6Index : Int := 4294967300
def maxIpv4Index : Int := 4294967295
def maxIpv6Index : Int := 4294967300 + 340282366920938463463374607431768211455
def minPodIndex : Int := maxIpv6Index + 5
def maxPods : Nat := 10000
def maxPodIndex : Int := minPodIndex + maxPods - 1

/-- `add_peer` (Peer.py 721-729); `none` is the failed assertion. -/
def Base.addPeer (reg : List κ) : PeerElem κ → Option (List κ)
  | .ip _ => some reg
  | .pod k => if k ∈ reg then some reg else if reg.length < maxPods then some (reg ++ [k]) else none

/-- The registries the program can reach. -/
inductive Base.Reach : List κ → Prop
  | empty : Reach []
  | add {reg reg' : List κ} (e : PeerElem κ) : Reach reg → Base.addPeer reg e = some reg' → Reach reg'

/-- The interval of indices of an address range (Peer.py 738-745); only the family of the start is asked. -/
def Base.ivIndex (i : IpIv) : Iv :=
  if i.s.six then ⟨minIpv6Index + i.s.val, minIpv6Index + i.e.val⟩ else ⟨i.s.val, i.e.val⟩

/-- One step of the loop of `get_peer_interval_of` (Peer.py 738-753); `none` is the failed assertion. -/
def Base.toStep (reg : List κ) (r : ISet) : PeerElem κ → Option ISet
  | .ip b => some (b.foldl (fun r i => r.addInterval (Base.ivIndex i)) r)
  | .pod k => (reg.findIdx? (· == k)).map (fun (n : Nat) => r.addInterval ⟨minPodIndex + (n : Int), minPodIndex + (n : Int)⟩)

/-- `get_peer_interval_of` (Peer.py 731-754); `none`: a peer is not registered. -/
def Base.toIndices (reg : List κ) (p : PeerSet κ) : Option ISet := p.foldlM (Base.toStep reg) []

/-- An address from an integer; `none` is Python's `AddressValueError`. -/
def Ip.ofInt (six : Bool) (z : Int) : Option Ip :=
  if h : 0 ≤ z ∧ z.toNat ≤ topOf six then some ⟨six, z.toNat, h.2⟩ else none

/-- Python's list indexing: negative indices count from the end; `none` is `IndexError`. -/
def pyGet {α : Type} (l : List α) (z : Int) : Option α :=
  if 0 ≤ z then l[z.toNat]? else if 0 ≤ z + l.length then l[(z + l.length).toNat]? else none

/-- Python's `range(a, b)`. -/
def pyRangeInt (a b : Int) : List Int := (List.range (b - a).toNat).map (fun (n : Nat) => a + (n : Int))

/-- Accumulated result of `get_peer_set_by_indices`: pods, IPv4 block, IPv6 block. -/
structure Base.Acc (κ : Type) where
  pods : List κ
  b4 : IpBlock
  b6 : IpBlock

/-- `set.add`. -/
def setAdd {α : Type} [DecidableEq α] (l : List α) (a : α) : List α := if a ∈ l then l else l ++ [a]

/-- One step of the loop of `get_peer_set_by_indices` (Peer.py 765-782). -/
def Base.fromStep (reg : List κ) (a : Base.Acc κ) (i : Iv) : Option (Base.Acc κ) :=
  if i.e ≤ maxIpv4Index then do
    let s ← Ip.ofInt false i.s
    let e ← Ip.ofInt false i.e
    return { a with b4 := a.b4.addInterval ⟨s, e⟩ }
  else if i.e ≤ maxIpv6Index then do
    let s ← Ip.ofInt true (i.s - minIpv6Index)
    let e ← Ip.ofInt true (i.e - minIpv6Index)
    return { a with b6 := a.b6.addInterval ⟨s, e⟩ }
  else if i.e ≤ maxPodIndex then do
    let m : Int := (reg.length : Int) - 1
    let pods ← (pyRangeInt (min (i.s - minPodIndex) m) (min (i.e - minPodIndex) m + 1)).foldlM
      (fun ps z => (pyGet reg z).map (setAdd ps)) a.pods
    return { a with pods := pods }
  else none

/-- `get_peer_set_by_indices` (Peer.py 756-787). -/
def Base.fromIndices (reg : List κ) (l : ISet) : Option (PeerSet κ) := do
  let a ← l.foldlM (Base.fromStep reg) ⟨[], [], []⟩
  return a.pods.map .pod ++ (if a.b4.truthy then [.ip a.b4] else []) ++ (if a.b6.truthy then [.ip a.b6] else [])

/-- `get_all_peers_and_ip_blocks_interval` (Peer.py 802-811). -/
def Base.all : ISet :=
  ((ISet.addInterval [] ⟨0, maxIpv4Index⟩).addInterval ⟨minIpv6Index, maxIpv6Index⟩).addInterval ⟨minPodIndex, maxPodIndex⟩

end Verif
