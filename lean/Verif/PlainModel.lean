import Verif.FwCube
import Verif.ReprModel
import Verif.LegendModel
/-!
Model of the plain list of connections (output format `txt_no_fw_rules`): `ConnectivityGraph.add_props_to_graph` and
`get_connections_without_fw_rules_txt_format` (nca/FWRules/ConnectivityGraph.py 37-70, 306-335), and of the connectivity
map in this format (nca/NetworkConfig/NetworkConfigQuery.py 796-838, 868-880, 906-920).

NOT MODELLED: the texts of the values inside a printed connection set (`Verif.ReprModel`, `Verif.BaseSets`), which enter
as a function `text`.
-/
namespace Verif.PlainList
open Fw

section
variable {D V X π : Type} [DecidableEq D] [DecidableEq π]

/-- What the list needs to know about peers. -/
structure Named (V X π : Type) where
  /-- `PeerSet.split` (nca/CoreDS/Peer.py 360-368, 544-555) of a value of a peer dimension: the endpoints, and the address
  ranges, each of one interval. -/
  pieces : V → List π
  /-- The peer or address is (in) this piece. -/
  isIn : X → π → Bool
  /-- The first component of `_get_peer_details(peer, True)` (ConnectivityGraph.py 72-102). -/
  name : π → String

/-- A line `src => dst : conns`. -/
structure Line (D V : Type) where
  src : String
  dst : String
  conns : Rep D V

/-- The attributes of the connections of a cube, without the peers (`add_edges_from_cube_dict`, ConnectivityGraph.py
37-59, with `extract_src_dst_peers_from_cube`, nca/CoreDS/ConnectivityProperties.py 468-489). -/
def propsOf (A : VAlg D V X) (all : List D) (srcD dstD protD : D) (tcp nonTcp : V) (r : ProtoSel) (v : D → V) : HC D V :=
  hcOfCube A all (withoutPeers A srcD dstD protD tcp nonTcp r v)

/-- The lines for a pair of pieces (ConnectivityGraph.py 320-329). -/
def pairLine (N : Named V X π) (excl : Bool) (rep : Rep D V) (s d : π) : Option (Line D V) :=
  if s = d then none
  else if excl && decide (N.name s = N.name d) then none
  else some ⟨N.name s, N.name d, rep⟩

/-- The lines for one cube (ConnectivityGraph.py 53-59 and 317-329). -/
def cubeLines (A : VAlg D V X) (all : List D) (srcD dstD protD : D) (tcp nonTcp : V) (N : Named V X π)
    (len : List (List (D × V)) → Nat) (excl : Bool) (r : ProtoSel) (v : D → V) : List (Line D V) :=
  let props := propsOf A all srcD dstD protD tcp nonTcp r v
  if !props.truthy then []
  else (N.pieces (v srcD)).flatMap fun s => (N.pieces (v dstD)).filterMap fun d =>
    pairLine N excl (simplified A all protD len true props) s d

/-- The lines for a connection set (`add_props_to_graph` 61-70 and `get_connections_without_fw_rules_txt_format` 306-329).
The code groups pairs by equal attributes before it writes the lines; the set of lines is the same.  For the set of all
connections the code raises IndexError in `get_connectivity_cube`; here the result is that of the cube of all domains. -/
def lines (A : VAlg D V X) (all : List D) (srcD dstD protD : D) (tcp nonTcp : V) (N : Named V X π)
    (len : List (List (D × V)) → Nat) (excl : Bool) (r : ProtoSel) (h : HC D V) : List (Line D V) :=
  (HC.cubes A all h).flatMap fun cube => cubeLines A all srcD dstD protD tcp nonTcp N len excl r (cubeVal A h.act cube)

/-- `convert_props_to_split_by_tcp` (NetworkConfigQuery.py 906-920). -/
def splitHc (A : VAlg D V X) (all : List D) (protD : D) (tcp : V) (h : HC D V) : HC D V × HC D V :=
  let t := HC.and A all h (hcOfCube A all (fun d => if d = protD then tcp else A.dom d))
  (t, HC.sub A all h t)

/-- The name of a restriction (NetworkConfigQuery.py 825-826, 879-880). -/
def header : ProtoSel → Option String
  | .any => none
  | .tcp => some "TCP Connections:"
  | .nonTcp => some "non-TCP Connections:"

/-- The parts of the list: one, or two with headers if the configuration has policies of Istio
(NetworkConfigQuery.py 775-779, 796-838). -/
def sections (A : VAlg D V X) (all : List D) (srcD dstD protD : D) (tcp nonTcp : V) (N : Named V X π)
    (len : List (List (D × V)) → Nat) (istio : Bool) (h : HC D V) : List (ProtoSel × List (Line D V)) :=
  if istio then
    let t := splitHc A all protD tcp h
    [(.tcp, lines A all srcD dstD protD tcp nonTcp N len true .tcp t.1),
     (.nonTcp, lines A all srcD dstD protD tcp nonTcp N len true .nonTcp t.2)]
  else [(.any, lines A all srcD dstD protD tcp nonTcp N len true .any h)]

/-- The text of a line (ConnectivityGraph.py 329). -/
def Line.text (text : Rep D V → String) (l : Line D V) : String := l.src ++ " => " ++ l.dst ++ " : " ++ text l.conns

/-- The lines of text (ConnectivityGraph.py 316, 329-335): header, then the set of lines, sorted. -/
def textLines (text : Rep D V → String) (msg : Option String) (ls : List (Line D V)) : List String :=
  msg.toList ++ Legend.sortBy Legend.leText (ls.foldl (fun acc l => Legend.sadd (l.text text) acc) [])

end
end Verif.PlainList
