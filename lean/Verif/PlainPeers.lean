import Verif.PlainModel
import Verif.PeerModel
import Verif.CidrModel
/-!
The peers in the plain list of connections: sets of peers as the program has them, as indices of registered peers and of
addresses (`BasePeerSet`, nca/CoreDS/Peer.py 687-811).
-/
namespace Verif.PlainList

section
variable {κ V2 X2 : Type} [DecidableEq κ]

/-- `get_peer_set_by_indices` (Peer.py 756-787), which `ConnectivityCube.__getitem__` applies to values of peer dimensions
(nca/CoreDS/ConnectivityCube.py 128-140), then `split` (Peer.py 544-555).  An error is no piece here (`pieces_spec`: there is
none). -/
def realPieces (reg : List κ) : ISet ⊕ V2 → List (PeerElem κ)
  | .inl l => ((Base.fromIndices reg l).map PeerSet.split).getD []
  | .inr _ => []

/-- The index is that of the peer, or of an address of the block (Peer.py 731-754). -/
def realIn (reg : List κ) : Int ⊕ X2 → PeerElem κ → Bool
  | .inl z, .pod k => decide (minPodIndex ≤ z) && decide (reg[(z - minPodIndex).toNat]? = some k)
  | .inl z, .ip b => b.any fun i => decide ((Base.ivIndex i).s ≤ z ∧ z ≤ (Base.ivIndex i).e)
  | .inr _, _ => false

/-- The names (`_get_peer_details(peer, True)[0]`, nca/FWRules/ConnectivityGraph.py 87-101): ranges for blocks of addresses
(`get_ip_range_or_cidr_str(True)`); for other peers a text `nm`. -/
def realName (nm : κ → String) : PeerElem κ → String
  | .pod k => nm k
  | .ip b => String.ofList ((IpBlock.shortText b true).getD [])

/-- The peers of the program. -/
def real (reg : List κ) (nm : κ → String) : Named (ISet ⊕ V2) (Int ⊕ X2) (PeerElem κ) where
  pieces := realPieces reg
  isIn := realIn reg
  name := realName nm

end
end Verif.PlainList
