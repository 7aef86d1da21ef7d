import Verif.IntervalProofs
import Mathlib.Data.Finset.Basic
/-!
Model of nca/CoreDS/PortSet.py, nca/CoreDS/MethodSet.py, nca/CoreDS/ProtocolSet.py and
nca/CoreDS/ProtocolNameResolver.py.  Python sets of strings are `Finset String`.
In-place updates are modelled by new values.
-/
namespace Verif
open ISet

/-! ### PortSet -/

/-- The argument of `add_port`/`remove_port`: a number or a name (`isinstance(port, str)`). -/
inductive Port | num (n : Int) | name (s : String)
  deriving DecidableEq

/-- `PortSet` (PortSet.py 16-23). -/
structure PortSet where
  ports : ISet
  named : Finset String
  excluded : Finset String
  deriving DecidableEq

namespace PortSet

/-- `all_ports_interval`: the domain of "dst_ports" (PortSet.py 15, DimensionsManager.py 44). -/
def allPorts : ISet := single 1 65535

/-- `PortSet(all_ports)` (PortSet.py 17-23). -/
def make (all : Bool) : PortSet := ⟨if all then allPorts else [], ∅, ∅⟩

/-- `add_port` (PortSet.py 51-57). -/
def addPort (p : PortSet) : Port → PortSet
  | .name s => { p with named := insert s p.named, excluded := p.excluded.erase s }
  | .num n => { p with ports := addInterval p.ports ⟨n, n⟩ }

/-- `add_ports` (PortSet.py 59-60). -/
def addPorts (p : PortSet) (s : ISet) : PortSet := { p with ports := union p.ports s }

/-- `remove_port` (PortSet.py 62-68). -/
def removePort (p : PortSet) : Port → PortSet
  | .name s => { p with named := p.named.erase s, excluded := insert s p.excluded }
  | .num n => { p with ports := addHole p.ports ⟨n, n⟩ }

/-- `add_port_range` (PortSet.py 70-72). -/
def addPortRange (p : PortSet) (lo hi : Int) : PortSet := { p with ports := addInterval p.ports ⟨lo, hi⟩ }

/-- `__ior__` (PortSet.py 74-78). -/
def or (p q : PortSet) : PortSet := ⟨union p.ports q.ports, p.named ∪ q.named, p.excluded \ q.named⟩

/-- `__isub__` (PortSet.py 80-84). -/
def sub (p q : PortSet) : PortSet := ⟨diff p.ports q.ports, p.named \ q.named, p.excluded ∪ q.named⟩

/-- `is_all` (PortSet.py 86-87). -/
def isAll (p : PortSet) : Bool := decide (p.ports = allPorts)

/-- `is_empty` (PortSet.py 89-90). -/
def isEmpty (p : PortSet) : Bool := !truthy p.ports && decide (p.named = ∅)

/-- `__bool__` (PortSet.py 31-32). -/
def toBool (p : PortSet) : Bool := truthy p.ports || decide (p.named ≠ ∅)

/-- `__eq__` (PortSet.py 25-29). -/
def eq (p q : PortSet) : Bool := decide (p.ports = q.ports) && decide (p.named = q.named) && decide (p.excluded = q.excluded)

end PortSet

/-! ### ProtocolNameResolver -/

namespace Proto

/-- `_protocol_name_to_number_dict` (ProtocolNameResolver.py 10-33). -/
def nameToNumber : List (String × Int) :=
  [("HOPOPT", 0), ("ICMP", 1), ("IGMP", 2), ("GGP", 3), ("IPv4", 4), ("ST", 5), ("TCP", 6), ("CBT", 7),
   ("EGP", 8), ("IGP", 9), ("BBNRCCMON", 10), ("NVPII", 11), ("PUP", 12), ("ARGUSdeprecated", 13), ("EMCON", 14),
   ("XNET", 15), ("CHAOS", 16), ("UDP", 17), ("MUX", 18), ("DCNMEAS", 19), ("HMP", 20), ("PRM", 21),
   ("XNSIDP", 22), ("TRUNK1", 23), ("TRUNK2", 24), ("LEAF1", 25), ("LEAF2", 26), ("RDP", 27), ("IRTP", 28),
   ("ISOTP4", 29), ("NETBLT", 30), ("MFENSP", 31), ("MERITINP", 32), ("DCCP", 33), ("3PC", 34), ("IDPR", 35),
   ("XTP", 36), ("DDP", 37), ("IDPRCMTP", 38), ("TP", 39), ("IL", 40), ("IPv6", 41), ("SDRP", 42),
   ("IPv6Route", 43), ("IPv6Frag", 44), ("IDRP", 45), ("RSVP", 46), ("GRE", 47), ("DSR", 48), ("BNA", 49),
   ("ESP", 50), ("AH", 51), ("INLSP", 52), ("SWIPEdeprecated", 53), ("NARP", 54), ("MOBILE", 55), ("TLSP", 56),
   ("SKIP", 57), ("ICMPv6", 58), ("IPv6NoNxt", 59), ("IPv6Opts", 60), ("CFTP", 62), ("SATEXPAK", 64),
   ("KRYPTOLAN", 65), ("RVD", 66), ("IPPC", 67), ("SATMON", 69), ("VISA", 70), ("IPCV", 71), ("CPNX", 72),
   ("CPHB", 73), ("WSN", 74), ("PVP", 75), ("BRSATMON", 76), ("SUNND", 77), ("WBMON", 78), ("WBEXPAK", 79),
   ("ISOIP", 80), ("VMTP", 81), ("SECUREVMTP", 82), ("VINES", 83), ("TTP", 84), ("IPTM", 84), ("NSFNETIGP", 85),
   ("DGP", 86), ("TCF", 87), ("EIGRP", 88), ("OSPFIGP", 89), ("SpriteRPC", 90), ("LARP", 91), ("MTP", 92),
   ("AX25", 93), ("IPIP", 94), ("MICPdeprecated", 95), ("SCCSP", 96), ("ETHERIP", 97), ("ENCAP", 98),
   ("GMTP", 100), ("IFMP", 101), ("PNNI", 102), ("PIM", 103), ("ARIS", 104), ("SCPS", 105), ("QNX", 106),
   ("AN", 107), ("IPComp", 108), ("SNP", 109), ("CompaqPeer", 110), ("IPXinIP", 111), ("VRRP", 112), ("PGM", 113),
   ("L2TP", 115), ("DDX", 116), ("IATP", 117), ("STP", 118), ("SRP", 119), ("UTI", 120), ("SMP", 121),
   ("SMdeprecated", 122), ("PTP", 123), ("ISISoverIPv4", 124), ("FIRE", 125), ("CRTP", 126), ("CRUDP", 127),
   ("SSCOPMCE", 128), ("IPLT", 129), ("SPS", 130), ("PIPE", 131), ("SCTP", 132), ("FC", 133),
   ("RSVPE2EIGNORE", 134), ("MobilityHeader", 135), ("UDPLite", 136), ("MPLSinIP", 137), ("manet", 138),
   ("HIP", 139), ("Shim6", 140), ("WESP", 141), ("ROHC", 142), ("Ethernet", 143)]

/-- `_protocol_number_to_name_dict` (ProtocolNameResolver.py 34-62). -/
def numberToName : List (Int × String) :=
  [(0, "HOPOPT"), (1, "ICMP"), (2, "IGMP"), (3, "GGP"), (4, "IPv4"), (5, "ST"), (6, "TCP"), (7, "CBT"),
   (8, "EGP"), (9, "IGP"), (10, "BBNRCCMON"), (11, "NVPII"), (12, "PUP"), (13, "ARGUSdeprecated"), (14, "EMCON"),
   (15, "XNET"), (16, "CHAOS"), (17, "UDP"), (18, "MUX"), (19, "DCNMEAS"), (20, "HMP"), (21, "PRM"),
   (22, "XNSIDP"), (23, "TRUNK1"), (24, "TRUNK2"), (25, "LEAF1"), (26, "LEAF2"), (27, "RDP"), (28, "IRTP"),
   (29, "ISOTP4"), (30, "NETBLT"), (31, "MFENSP"), (32, "MERITINP"), (33, "DCCP"), (34, "3PC"), (35, "IDPR"),
   (36, "XTP"), (37, "DDP"), (38, "IDPRCMTP"), (39, "TP"), (40, "IL"), (41, "IPv6"), (42, "SDRP"),
   (43, "IPv6Route"), (44, "IPv6Frag"), (45, "IDRP"), (46, "RSVP"), (47, "GRE"), (48, "DSR"), (49, "BNA"),
   (50, "ESP"), (51, "AH"), (52, "INLSP"), (53, "SWIPEdeprecated"), (54, "NARP"), (55, "MOBILE"), (56, "TLSP"),
   (57, "SKIP"), (58, "ICMPv6"), (59, "IPv6NoNxt"), (60, "IPv6Opts"), (62, "CFTP"), (64, "SATEXPAK"),
   (65, "KRYPTOLAN"), (66, "RVD"), (67, "IPPC"), (69, "SATMON"), (70, "VISA"), (71, "IPCV"), (72, "CPNX"),
   (73, "CPHB"), (74, "WSN"), (75, "PVP"), (76, "BRSATMON"), (77, "SUNND"), (78, "WBMON"), (79, "WBEXPAK"),
   (80, "ISOIP"), (81, "VMTP"), (82, "SECUREVMTP"), (83, "VINES"), (84, "IPTM"), (85, "NSFNETIGP"), (86, "DGP"),
   (87, "TCF"), (88, "EIGRP"), (89, "OSPFIGP"), (90, "SpriteRPC"), (91, "LARP"), (92, "MTP"), (93, "AX25"),
   (94, "IPIP"), (95, "MICPdeprecated"), (96, "SCCSP"), (97, "ETHERIP"), (98, "ENCAP"), (100, "GMTP"),
   (101, "IFMP"), (102, "PNNI"), (103, "PIM"), (104, "ARIS"), (105, "SCPS"), (106, "QNX"), (107, "AN"),
   (108, "IPComp"), (109, "SNP"), (110, "CompaqPeer"), (111, "IPXinIP"), (112, "VRRP"), (113, "PGM"),
   (115, "L2TP"), (116, "DDX"), (117, "IATP"), (118, "STP"), (119, "SRP"), (120, "UTI"), (121, "SMP"),
   (122, "SMdeprecated"), (123, "PTP"), (124, "ISISoverIPv4"), (125, "FIRE"), (126, "CRTP"), (127, "CRUDP"),
   (128, "SSCOPMCE"), (129, "IPLT"), (130, "SPS"), (131, "PIPE"), (132, "SCTP"), (133, "FC"),
   (134, "RSVPE2EIGNORE"), (135, "MobilityHeader"), (136, "UDPLite"), (137, "MPLSinIP"), (138, "manet"),
   (139, "HIP"), (140, "Shim6"), (141, "WESP"), (142, "ROHC"), (143, "Ethernet")]

/-- The value of a non-empty string of decimal digits. -/
def digits : List Char → Option Int
  | [] => none
  | cs => cs.foldl (fun acc c => acc.bind fun n => if c.isDigit then some (10 * n + (c.toNat - 48 : Nat)) else none) (some 0)

/-- Python's `int(s)`; `none` is the ValueError.  SIMPLIFICATION: surrounding white space and digit
separators (`_`), which Python accepts, are errors here. -/
def pyInt (s : String) : Option Int :=
  match s.toList with
  | '-' :: cs => (digits cs).map (fun n => -n)
  | '+' :: cs => digits cs
  | cs => digits cs

/-- `is_valid_protocol` (ProtocolNameResolver.py 59-61). -/
def isValid (n : Int) : Bool := decide (n ≥ 0) && decide (n ≤ 255)

/-- `get_protocol_name` (67-79); `none` is the exception. -/
def getName (n : Int) : Option String :=
  if !isValid n then none
  else some ((numberToName.lookup n).getD (toString n.toNat))

/-- `get_protocol_number` for a string (81-96); `none` is an exception (unknown name or number out of
range). -/
def getNumber (s : String) : Option Int :=
  match nameToNumber.lookup s with
  | some n => some n
  | none => match pyInt s with
    | none => none
    | some n => if !isValid n then none else some n

end Proto

/-- A protocol argument: number or name. -/
inductive ProtoArg | num (n : Int) | name (s : String)
  deriving DecidableEq

/-- `isinstance(protocol, str)` and the conversion (ProtocolSet.py 39-42, 51-54, 66-69). -/
def ProtoArg.number : ProtoArg → Option Int
  | .num n => some n
  | .name s => Proto.getNumber s

namespace ProtocolSet

/-- `_whole_range_interval_set` (ProtocolSet.py 90-96). -/
def whole : ISet := single 0 255

/-- `ProtocolSet(all_protocols)` (ProtocolSet.py 19-25). -/
def make (all : Bool) : ISet := if all then addInterval [] ⟨0, 255⟩ else []

/-- `add_protocol` (ProtocolSet.py 45-58); `none` is an exception. -/
def add (s : ISet) (p : ProtoArg) : Option ISet :=
  p.number.bind fun n => if Proto.isValid n then some (addInterval s ⟨n, n⟩) else none

/-- `remove_protocol` (ProtocolSet.py 60-73). -/
def remove (s : ISet) (p : ProtoArg) : Option ISet :=
  p.number.bind fun n => if Proto.isValid n then some (addHole s ⟨n, n⟩) else none

/-- `__contains__` (ProtocolSet.py 38-43). -/
def contains (s : ISet) (p : ProtoArg) : Option Bool := p.number.map (ISet.contains s)

/-- `set_protocols` (ProtocolSet.py 75-81). -/
def setProtocols (s t : ISet) : ISet := t.foldl addInterval s

/-- `get_non_tcp_protocols` (ProtocolSet.py 27-31). -/
def nonTcp : Option ISet := remove (make true) (.name "TCP")

/-- `is_whole_range` (ProtocolSet.py 98-102). -/
def isWhole (s : ISet) : Bool := decide (s = whole)

/-- `range(start, end + 1)` -/
def pyRange (a b : Int) : List Int := (List.range (b + 1 - a).toNat).map (fun i => a + (i : Nat))

/-- `get_protocol_names_from_interval_set` (ProtocolSet.py 104-117); `none` is the failed assertion.
(`name if name else str(index)`: names are never empty.) -/
def names (s : ISet) : Option (List String) :=
  if s.all (fun i => decide (i.s ≥ 0) && decide (i.e ≤ 255)) then
    (s.flatMap (fun i => pyRange i.s i.e)).mapM Proto.getName
  else none

/-- The text printed for a set of names: `*`, `Empty`, a list of names, or `all but` a list of names.
SIMPLIFICATION: the list is kept as a list instead of being joined with `', '`. -/
inductive Printed | star | empty | list (l : List String) | allBut (l : List String)
  deriving DecidableEq

/-- `__str__` (ProtocolSet.py 131-148) with `_get_compl_protocol_names_from_interval_set` (119-129). -/
def str (s : ISet) : Option Printed :=
  if isWhole s then some .star
  else if !truthy s then some .empty
  else do
    let ns ← names s
    let cs ← names (diff whole s)
    if ns.length ≤ cs.length then some (.list ns) else some (.allBut cs)

end ProtocolSet

namespace MethodSet

/-- `all_methods_list` (MethodSet.py 14). -/
def allMethods : List String := ["GET", "HEAD", "POST", "PUT", "DELETE", "CONNECT", "OPTIONS", "TRACE", "PATCH"]

/-- `_whole_range_interval_set` (MethodSet.py 51-64). -/
def whole : ISet := single 0 ((allMethods.length : Int) - 1)

/-- `MethodSet(all_methods)` (MethodSet.py 16-22). -/
def make (all : Bool) : ISet := if all then addInterval [] ⟨0, (allMethods.length : Int) - 1⟩ else []

/-- `add_method` (MethodSet.py 24-31); `none` is the ValueError of `index`. -/
def add (s : ISet) (m : String) : Option ISet :=
  if allMethods.idxOf m < allMethods.length then
    some (addInterval s ⟨(allMethods.idxOf m : Nat), (allMethods.idxOf m : Nat)⟩) else none

/-- `add_methods_from_regex` (MethodSet.py 33-40); `re.match(methods_regex, ·)` is an arbitrary
predicate `r`. -/
def addRegex (s : ISet) (r : String → Bool) : ISet :=
  (allMethods.zipIdx).foldl (fun s mi => if r mi.1 then addInterval s ⟨(mi.2 : Nat), (mi.2 : Nat)⟩ else s) s

/-- `is_whole_range` (MethodSet.py 66-70). -/
def isWhole (s : ISet) : Bool := decide (s = whole)

/-- `_get_method_names_from_interval_set` (MethodSet.py 72-84); `none` is the failed assertion. -/
def names (s : ISet) : Option (List String) :=
  if s.all (fun i => decide (i.s ≥ 0) && decide (i.e < (allMethods.length : Int))) then
    some ((s.flatMap (fun i => ProtocolSet.pyRange i.s i.e)).map (fun n => allMethods[n.toNat]!))
  else none

/-- `_get_compl_method_names_from_interval_set` (MethodSet.py 86-96): remove the names one by one from a
copy of the list (`list.remove` removes the first occurrence). -/
def complNames (s : ISet) : Option (List String) :=
  (names s).map (fun ns => ns.foldl (fun res m => res.erase m) allMethods)

/-- `__str__` (MethodSet.py 98-112). -/
def str (s : ISet) : Option ProtocolSet.Printed :=
  if isWhole s then some .star
  else if !truthy s then some .empty
  else do
    let ns ← names s
    let cs ← complNames s
    if ns.length ≤ cs.length then some (.list ns) else some (.allBut cs)

end MethodSet
end Verif
