import Verif.ConnAlg

/-!
# C56: a rectangle of values denotes exactly its connections

`ConnectivityCube.is_empty` compares the value of every dimension with the "empty value" of the dimension
(nca/CoreDS/ConnectivityCube.py 168-179, nca/CoreDS/DimensionsManager.py 52-74).  For dimensions of strings
this is the automaton of the regular expression `""`, which accepts the empty word: not an empty set.
-/
namespace Verif
variable {D V X : Type} [DecidableEq D]

/-- `ConnectivityProperties._make_conn_props_no_named_ports_resolution`
(nca/CoreDS/ConnectivityProperties.py 48-71) on a `ConnectivityCube` given by its value at each dimension:
nothing if some value equals the empty value `emp` of its dimension (`is_empty`), everything if every value
is the whole domain, else the set made by `add_cube` from the dimensions whose value is not the whole
domain (`get_ordered_cube_and_active_dims`, nca/CoreDS/ConnectivityCube.py 181-199).  No named ports. -/
def rectangle (A : VAlg D V X) (emp : D → V) (all : List D) (c : D → V) : HC D V :=
  if all.any (fun d => @decide (c d = emp d) (A.decEq _ _)) then HC.empty all true
  else
    let active := all.filter (fun d => !@decide (c d = A.dom d) (A.decEq _ _))
    if active.isEmpty then HC.full true
    else HC.addCube A all (HC.empty all true) c active

section
variable {A : VAlg D V X} {Wf : D → V → Prop} (L : A.Lawful Wf) {emp : D → V} {all : List D} (hnd : all.Nodup) (hall : all ≠ [])
  {c : D → V} (hw : ∀ d ∈ all, Wf d (c d))
include L hnd hall hw

/-- **C56.**  If no value of the rectangle is a non-empty "empty value", the set has exactly the connections
with every coordinate in the value of its dimension. -/
theorem C56_rectangle_partial (he : ∀ d ∈ all, c d = emp d → A.truthy (c d) = false) (p : D → X) (hp : InDom A p) :
    HC.contains A (rectangle A emp all c) p = true ↔ ∀ d ∈ all, A.mem (p d) (c d) = true := by
  unfold rectangle
  split
  · rename_i ha
    obtain ⟨d, hd, hf⟩ := List.any_eq_true.1 ha
    have hemp := HC.empty_inv (V := V) L all hall true
    rw [HC.contains_spec hemp.1]
    refine ⟨fun h => absurd h (HC.falsy_pt hemp.2 p), fun h => ?_⟩
    have h1 := (L.truthy_iff (hw d hd)).2 ⟨p d, h d hd⟩
    have h2 : c d = emp d := by simpa using hf
    rw [he d hd h2] at h1
    cases h1
  · have hsub : (all.filter (fun d => !@decide (c d = A.dom d) (A.decEq _ _))).Sublist all := List.filter_sublist
    have hmem : (∀ d ∈ all.filter (fun d => !@decide (c d = A.dom d) (A.decEq _ _)), A.mem (p d) (c d) = true) ↔
        ∀ d ∈ all, A.mem (p d) (c d) = true := by
      constructor
      · intro h d hd
        by_cases hdd : c d = A.dom d
        · rw [hdd]; exact hp d
        · exact h d (List.mem_filter.2 ⟨hd, by simp [hdd]⟩)
      · intro h d hd; exact h d (List.mem_filter.1 hd).1
    dsimp only
    split
    · rename_i hemp
      have hnil : all.filter (fun d => !@decide (c d = A.dom d) (A.decEq _ _)) = [] := by simpa using hemp
      rw [HC.contains_spec (HC.full_inv (Wf := Wf) all true), ← hmem, hnil]
      exact ⟨fun _ d hd => absurd hd (by simp), fun _ => trivial⟩
    · rename_i hemp
      have hne : all.filter (fun d => !@decide (c d = A.dom d) (A.decEq _ _)) ≠ [] := by simpa using hemp
      have H : HC.Hist A Wf all false (HC.addCube A all (HC.empty all true) c _)
          (fun p => False ∨ HC.CubePts A c (all.filter (fun d => !@decide (c d = A.dom d) (A.decEq _ _))) p) :=
        .addCube c _ (.empty true (by simp)) hne hsub (fun d hd => hw d (List.mem_filter.1 hd).1)
      have hs := H.spec L hnd hall
      rw [HC.contains_spec hs.1, hs.2.1 p hp, ← hmem, false_or]
      rfl

/-- Under the same hypothesis the set is the one of the other theorems (`hcOfCube`, ConnAlg.lean). -/
theorem rectangle_same (he : ∀ d ∈ all, c d = emp d → A.truthy (c d) = false) (p : D → X) (hp : InDom A p) :
    HC.contains A (rectangle A emp all c) p = HC.contains A (hcOfCube A all c) p := by
  rw [Bool.eq_iff_iff, C56_rectangle_partial L hnd hall hw he p hp]
  exact ((hcOfCube_spec L hnd hall c hw).2 p hp).symm

omit hnd hw in
/-- **C56 fails for the empty word.**  If the value of a dimension is the non-empty "empty value" of that
dimension, the set is empty, although the rectangle may have connections. -/
theorem C56_empty_word_wrong {d : D} (hd : d ∈ all) (he : c d = emp d) (p : D → X) :
    HC.contains A (rectangle A emp all c) p = false := by
  have hemp := HC.empty_inv (V := V) L all hall true
  unfold rectangle
  rw [if_pos (List.any_eq_true.2 ⟨d, hd, by simp [he]⟩)]
  refine Bool.eq_false_iff.2 (fun h => ?_)
  exact HC.falsy_pt hemp.2 p ((HC.contains_spec hemp.1 p).1 h)

end
end Verif
