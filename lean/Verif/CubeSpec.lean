import Verif.CubeModel
/-!
Specification vocabulary for hyper-cube sets: laws of the dimension values, the set of points a
tree denotes, and the well-formedness notions.
-/
namespace Verif

/-- The laws the values of a dimension must satisfy.  `Wf d v` says that `v` is a legal value of
dimension `d` (for interval sets: canonical and within the domain of the dimension). -/
structure VAlg.Lawful {D V X : Type} (A : VAlg D V X) (Wf : D → V → Prop) : Prop where
  wf_and : ∀ {d a b}, Wf d a → Wf d b → Wf d (A.and a b)
  wf_or : ∀ {d a b}, Wf d a → Wf d b → Wf d (A.or a b)
  wf_sub : ∀ {d a b}, Wf d a → Wf d b → Wf d (A.sub a b)
  mem_and : ∀ {d a b}, Wf d a → Wf d b → ∀ x, A.mem x (A.and a b) = (A.mem x a && A.mem x b)
  mem_or : ∀ {d a b}, Wf d a → Wf d b → ∀ x, A.mem x (A.or a b) = (A.mem x a || A.mem x b)
  mem_sub : ∀ {d a b}, Wf d a → Wf d b → ∀ x, A.mem x (A.sub a b) = (A.mem x a && !A.mem x b)
  truthy_iff : ∀ {d a}, Wf d a → (A.truthy a = true ↔ ∃ x, A.mem x a = true)
  contained_iff : ∀ {d a b}, Wf d a → Wf d b →
    (A.contained a b = true ↔ ∀ x, A.mem x a = true → A.mem x b = true)
  rep_mem : ∀ {d a}, Wf d a → A.truthy a = true → ∃ x, A.rep a = some x ∧ A.mem x a = true
  wf_dom : ∀ d, Wf d (A.dom d)
  dom_truthy : ∀ d, A.truthy (A.dom d) = true
  sub_dom : ∀ {d a}, Wf d a → ∀ x, A.mem x a = true → A.mem x (A.dom d) = true
  ext : ∀ {d a b}, Wf d a → Wf d b → (∀ x, A.mem x a = A.mem x b) → a = b

section
variable {D V X : Type} [DecidableEq D] (A : VAlg D V X)

/-- The points denoted by a tree: at each active dimension the coordinate lies in the key of some
layer whose sub-tree contains the point. -/
def Den : (ds : List D) → Tree V ds → (D → X) → Prop
  | [], _, _ => True
  | d :: ds, t, p => ∃ e ∈ layers t, A.mem (p d) e.1 = true ∧ Den ds e.2.2 p

/-- Points whose every coordinate lies in the domain of its dimension. -/
def InDom (p : D → X) : Prop := ∀ d, A.mem (p d) (A.dom d) = true

/-- A tree containing every point of the space. -/
def FullD (ds : List D) (t : Tree V ds) : Prop := ∀ p, InDom A p → Den A ds t p

/-- Legal, non-empty keys, pairwise disjoint ("(1) No two interval-sets/dfas in layers overlap",
CanonicalHyperCubeSet.py 27), at every level. -/
def WfT (Wf : D → V → Prop) : (ds : List D) → Tree V ds → Prop
  | [], _ => True
  | d :: ds, t =>
    (∀ e ∈ layers t, Wf d e.1 ∧ A.truthy e.1 = true ∧ WfT Wf ds e.2.2) ∧
    List.Pairwise (fun (e1 e2 : Entry V ds) => ∀ x, ¬ (A.mem x e1.1 = true ∧ A.mem x e2.1 = true)) (layers t)

/-- Every sub-tree is non-empty. -/
def NeT : (ds : List D) → Tree V ds → Prop
  | [], _ => True
  | _ :: ds, t => ∀ e ∈ layers t, neT ds e.2.2 = true ∧ NeT ds e.2.2

/-- What remains, for objects of both Python classes, of "(2) no two pairs in layers with
identical sub-cube" (CanonicalHyperCubeSet.py 28): sub-objects of class
`ConnectivityProperties` are not full, and at most one layer has a full sub-object. -/
def OneFull : (ds : List D) → Tree V ds → Prop
  | [], _ => True
  | _ :: ds, t =>
    (∀ e ∈ layers t, OneFull ds e.2.2 ∧ (e.2.1 = true → ¬ FullD A ds e.2.2)) ∧
    List.Pairwise (fun (e1 e2 : Entry V ds) => ¬ (FullD A ds e1.2.2 ∧ FullD A ds e2.2.2)) (layers t)

/-- The full canonical form for objects all of whose sub-objects are of the plain class: no two
layers have equal sub-objects. -/
def CanT : (ds : List D) → Tree V ds → Prop
  | [], _ => True
  | _ :: ds, t =>
    (∀ e ∈ layers t, CanT ds e.2.2 ∧ e.2.1 = false) ∧
    List.Pairwise (fun (e1 e2 : Entry V ds) => subEq A ds e1.2 e2.2 = false) (layers t)

/-- The points of an object. -/
def HC.Pt (h : HC D V) (p : D → X) : Prop := Den A h.act h.tree p

end
end Verif
