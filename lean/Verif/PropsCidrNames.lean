import Verif.PropsCidrText
import Verif.PropsProfilesConfig
/-!
Property theorems C64, third part: the names of endpoints are built from texts of blocks of addresses.  With the text of the
code, all that C61-C63 assume about it holds.
-/
namespace Verif
open Topology

/-- C64: the text of a block of addresses, as the code prints it, can be used in names: documents that the code reads right are
read right with it. -/
theorem C64_tame {nodes : Nat} {l : List Step} (h : TameDocs nodes l) : Topology.Tame nodes IpBlock.cidrText l where
  toTameDocs := h
  texts := fun _ _ hb hb' _ e => IpBlock.cidrText_inj hb hb' e
  chars := fun _ hb hne => IpBlock.cidrText_chars hb hne

end Verif
