import Mathlib.Data.List.Dedup
/-!
Model of the grouping of pods by labels in firewall rules: `ClusterInfo` (nca/FWRules/ClusterInfo.py),
`_get_pods_grouping_by_labels` (nca/FWRules/MinimizeCsFWRules.py 413-475), `LabelExpr` and
`PodLabelsElement.get_pods_set` (nca/FWRules/FWRule.py 11-126, 352-363).

Sets are lists in the order of iteration.  A pod is anything with a namespace and labels.  A label key of
the code is the list of its parts here (`'app:role'` is `["app", "role"]`), a value the list of the values of
the parts (`'frontend:dev'` is `[some "frontend", some "dev"]`), and `none` is `invalid_val`
('#NO_LABEL_VALUE').  SIMPLIFICATION: keys and values of labels contain no ':', as Kubernetes demands, and no
label has the value '#NO_LABEL_VALUE', so that texts and lists correspond.
-/
namespace Verif.Fw

/-- A key of `pods_labels_map`, by its parts. -/
abbrev Key := List String
/-- A value of `pods_labels_map`, by its parts. -/
abbrev Val := List (Option String)

/-- What `ClusterInfo` is made from (ClusterInfo.py 24-35): the peers that are no IP blocks with their
namespaces and labels, and the allowed labels. -/
structure Cluster (ρ ν : Type) where
  all : List ρ
  ns : ρ → ν
  labels : ρ → List (String × String)
  allowed : List Key

section
variable {ρ ν : Type} [DecidableEq ρ] [DecidableEq ν] (I : Cluster ρ ν)

/-- `ns_dict[ns]` (ClusterInfo.py 41). -/
def Cluster.nsPods (m : ν) : List ρ := I.all.filter (fun p => I.ns p = m)

/-- `_get_allowed_labels_flattened` (ClusterInfo.py 142-154). -/
def Cluster.flat : List String := I.allowed.flatten

/-- Some pod has the label key (the keys of `pods_labels_map` at ClusterInfo.py 62). -/
def Cluster.used (k : String) : Bool := I.all.any (fun p => ((I.labels p).lookup k).isSome)

/-- `pods_labels_map[(k, v)]` for a simple key: ClusterInfo.py 42-43 for a value, 61-79 for the invalid
value. -/
def Cluster.simplePods (k : String) : Option String → List ρ
  | some v => I.all.filter (fun p => (I.labels p).lookup k = some v)
  | none =>
    if I.flat.contains k && I.used k then
      let having := I.all.filter (fun p => ((I.labels p).lookup k).isSome)
      let nss := having.map I.ns
      (I.all.filter (fun p => !having.contains p)).filter (fun p => nss.contains (I.ns p))
    else []

/-- `get_values_set_for_key` for a simple key (ClusterInfo.py 123-130). -/
def Cluster.simpleValues (k : String) : List (Option String) :=
  (I.all.filterMap (fun p => (I.labels p).lookup k)).dedup.map some ++
    (if I.flat.contains k && I.used k then [none] else [])

/-- `itertools.product` (ClusterInfo.py 91). -/
def product {β : Type} : List (List β) → List (List β)
  | [] => [[]]
  | l :: ls => l.flatMap (fun x => (product ls).map (fun xs => x :: xs))

/-- `pods_labels_map[(key, v)]` for any key: a simple one, or the intersection for a conjunction
(ClusterInfo.py 95-103). -/
def Cluster.podsFor : Key → Val → List ρ
  | [], _ => []
  | _ :: _, [] => []
  | [k], v :: _ => I.simplePods k v
  | k :: k' :: ks, v :: vs => (I.simplePods k v).filter (fun p => (podsFor (k' :: ks) vs).contains p)

/-- The values of a key in the cluster (ClusterInfo.py 44, 80, 90-91): of a simple key, or all combinations. -/
def Cluster.values (key : Key) : List Val := product (key.map I.simpleValues)

/-- `get_all_values_set_for_key_per_namespace(key, {ns})` (ClusterInfo.py 132-140, with 44, 80, 104 and
106-121): the values that some pod of the namespace has. -/
def Cluster.nsValues (key : Key) (m : ν) : List Val :=
  (I.values key).filter (fun v => (I.podsFor key v).any (fun p => I.ns p = m))

/-- Equality of Python sets. -/
def sameSet {β : Type} [DecidableEq β] (a b : List β) : Bool := a.all b.contains && b.all a.contains

/-- The values of a key that are fully covered, with their pods (MinimizeCsFWRules.py 434-448). -/
def Cluster.covered (pods extra : List ρ) (m : ν) (key : Key) : List Val × List ρ :=
  (I.nsValues key m).foldl (fun acc v =>
    let allV := (I.podsFor key v).filter (I.nsPods m).contains
    if allV.isEmpty then acc else
    let fromList := allV.filter (pods ++ extra).contains
    let fromOrig := allV.filter pods.contains
    if sameSet allV fromList && !fromOrig.isEmpty then (acc.1 ++ [v], acc.2 ++ fromList) else acc) ([], [])

/-- `labels_rep_options` (MinimizeCsFWRules.py 431-457); `single` is the option `fwRulesGroupByLabelSinglePod`. -/
def Cluster.options (single : Bool) (pods extra : List ρ) (m : ν) : List (Key × List Val × List ρ) :=
  I.allowed.filterMap (fun key =>
    let r := I.covered pods extra m key
    if !r.1.isEmpty && decide (r.2.dedup.length > (if single then 0 else 1)) then some (key, r) else none)

/-- The loop over the sorted options (MinimizeCsFWRules.py 459-475): chosen keys with values, and the
remaining pods. -/
def chooseReps (pods : List ρ) : List (Key × List Val × List ρ) → List ρ → List (Key × List Val) × List ρ
  | [], rem => ([], rem)
  | (k, vals, ps) :: opts, rem =>
    if (ps.filter pods.contains).all rem.contains then
      let rem' := rem.filter (fun p => !ps.contains p)
      if rem'.isEmpty then ([(k, vals)], rem') else
        let r := chooseReps pods opts rem'
        ((k, vals) :: r.1, r.2)
    else if rem.isEmpty then ([], rem) else chooseReps pods opts rem

/-- `_get_pods_grouping_by_labels` (MinimizeCsFWRules.py 413-475); `sort` is the sorting by the number of
pods (463). -/
def Cluster.group (single : Bool) (sort : List (Key × List Val × List ρ) → List (Key × List Val × List ρ))
    (pods extra : List ρ) (m : ν) : List (Key × List Val) × List ρ :=
  chooseReps pods (sort (I.options single pods extra m)) pods

/-- `_get_pods_grouping_by_labels_main` (MinimizeCsFWRules.py 391-411): the groups of every namespace, and the
pods that remain. -/
def Cluster.groupMain (single : Bool) (sort : List (Key × List Val × List ρ) → List (Key × List Val × List ρ))
    (pods extra : List ρ) : List (Key × List Val × ν) × List ρ :=
  (pods.map I.ns).dedup.foldl (fun acc m =>
    let r := I.group single sort (pods.filter (I.nsPods m).contains) (extra.filter (I.nsPods m).contains) m
    (acc.1 ++ r.1.map (fun kv => (kv.1, kv.2, m)), acc.2 ++ r.2)) ([], [])

/-- `PodLabelsElement.get_pods_set` for one namespace (FWRule.py 352-363). -/
def Cluster.labelPods (m : ν) (key : Key) (vals : List Val) : List ρ :=
  vals.flatMap (fun v => (I.podsFor key v).filter (I.nsPods m).contains)

end

/-! ### The printed expression -/

/-- A printed label expression.  `ands` and `ors` are joined by " and " and " or ". -/
inductive LExpr where
  | has (k : String)                        -- has(k)
  | nhas (k : String)                       -- !has(k)
  | isIn (k : String) (vs : List String)    -- k in (v1,v2), k=v
  | notIn (k : String) (vs : List String)   -- k not in (v1,v2), k!=v
  | ands (l : List LExpr)
  | ors (l : List LExpr)

section
variable {ρ ν : Type} [DecidableEq ρ] [DecidableEq ν] (I : Cluster ρ ν)

/-- `get_valid_values_expr_str` (FWRule.py 46-76). -/
def validExpr (k : String) (vals compl : List String) (without : Bool) : LExpr :=
  if !compl.isEmpty && decide (compl.length < vals.length) then
    if without then .ands [.has k, .notIn k compl] else .notIn k compl
  else .isIn k vals

/-- `get_values_expr_str_per_simple_key` (FWRule.py 78-103); `allv` is `map_simple_keys_to_all_values[k]`. -/
def simpleExpr (k : String) (vals allv : List (Option String)) : LExpr :=
  let valid := (vals.filterMap id).dedup
  let allValid := (allv.filterMap id).dedup
  .ors ((if vals.contains none then [.nhas k] else []) ++
    (if valid.isEmpty then [] else
      if sameSet valid allValid && decide (allValid.length > 1) then [.has k]
      else [validExpr k valid (allValid.filter (fun v => !valid.contains v)) (allv.contains none)]))

/-- `LabelExpr.__str__` with the arguments given by `_create_fw_elements_by_pods_grouping_by_labels`
(FWRule.py 105-126, MinimizeCsFWRules.py 279-294, ClusterInfo.py 156-168). -/
def Cluster.expr (m : ν) (key : Key) (vals : List Val) : LExpr :=
  let allValid := ((I.nsValues key m).filter (fun v => !v.contains none)).dedup
  if sameSet vals allValid && decide (allValid.length > 1) then .ands (key.map .has)
  else .ands (key.zipIdx.map (fun ki =>
    simpleExpr ki.1 (vals.map (fun v => (v[ki.2]?).getD none)) ((I.nsValues [ki.1] m).map (fun v => (v[0]?).getD none))))

end
end Verif.Fw
