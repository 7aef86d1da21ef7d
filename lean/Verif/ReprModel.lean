import Verif.CubeModel
import Verif.IntervalSet
/-!
Model of the printed representations of connection sets:
nca/CoreDS/ConnectivityProperties.py 74-88, 113-145, 490-530, and of interval sets:
nca/CoreDS/CanonicalIntervalSet.py 39-48, 349-362.  (`get_properties_obj` is not called anywhere.)

A representation keeps the values of the dimensions; how protocols and methods are printed is modelled
in `Verif.BaseSets` (`ProtocolSet.str`, `MethodSet.str`).
-/
namespace Verif

section
variable {D V X : Type} [DecidableEq D] (A : VAlg D V X)

/-- `get_cube_dict` (ConnectivityProperties.py 113-145): the active dimensions with their values,
except those whose value is the whole domain. -/
def cubeDict (act : List D) (cube : List V) : List (D × V) :=
  (act.zip cube).filter (fun e => !@decide (A.dom e.1 = e.2) (A.decEq _ _))

/-- What is printed for a connection set. -/
inductive Rep (D V : Type)
  | all                                    -- "All connections"
  | none                                   -- "No connections"
  | cubes (l : List (List (D × V)))        -- the cubes
  | allBut (l : List (List (D × V)))       -- "All but", the cubes of the complement
  | values (v : V)                         -- the values of the only active dimension

/-- `_get_connections_representation` (ConnectivityProperties.py 517-521). -/
def cubeDicts (all : List D) (h : HC D V) : List (List (D × V)) := (HC.cubes A all h).map (cubeDict A h.act)

/-- `get_simplified_connections_representation` (ConnectivityProperties.py 490-515).  `len` is the length of the
representation, of the text or of the list. -/
def simplified (all : List D) (prot : D) (len : List (List (D × V)) → Nat) (useCompl : Bool) (h : HC D V) : Rep D V :=
  if h.isAll then .all
  else if !h.truthy then .none
  else
    let rep := cubeDicts A all h
    if useCompl && decide (prot ∈ h.act) then
      let compl := cubeDicts A all (HC.sub A all (HC.full true) h)
      if len rep > len compl then .allBut compl else .cubes rep
    else .cubes rep

/-- `__str__` (ConnectivityProperties.py 74-88); `Option.none` is the failed assertion. -/
def connStr (all : List D) (dstPorts : D) (h : HC D V) : Option (Rep D V) :=
  if h.isAll then some .all
  else if !h.truthy then some .none
  else if h.act = [dstPorts] then
    match HC.cubes A all h with
    | [[v]] => some (.values v)
    | _ => none
  else some (.cubes (cubeDicts A all h))

end

/-! ### Interval sets -/

/-- `str(n)` for an integer. -/
def intText (n : Int) : List Char := if n < 0 then '-' :: Nat.toDigits 10 n.natAbs else Nat.toDigits 10 n.natAbs

/-- The text of an interval: the number, or start and end with a dash (CanonicalIntervalSet.py 43-46 and
358-361). -/
def ivText (i : Iv) : List Char := if i.s = i.e then intText i.s else intText i.s ++ '-' :: intText i.e

/-- `sep.join(...)`. -/
def joinText (sep : Char) : List (List Char) → List Char
  | [] => []
  | [x] => x
  | x :: y :: l => x ++ sep :: joinText sep (y :: l)

/-- `','.join(str(i) for i in get_interval_set_list_numbers_and_ranges())` (ConnectivityProperties.py 82-84,
138-139, CanonicalIntervalSet.py 349-362). -/
def ISet.text (s : ISet) : List Char := joinText ',' (s.map ivText)

end Verif
