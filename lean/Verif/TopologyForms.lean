import Verif.TopologySpec
import Verif.GatewayKeys
/-!
Canonical forms of endpoints: endpoints of the same form are alike.
-/
namespace Verif

namespace Topology
open GtwParser (split_char)

/-! ### Texts -/

/-- A text that starts with a comma, or is empty. -/
def Comma (l : List Char) : Prop := l = [] ∨ ∃ r, l = ',' :: r

/-- The text of profiles. -/
def profText (l : List String) : List Char := l.flatMap fun p => ',' :: p.toList

/-- The text of labels. -/
def labText (l : Labels) : List Char := l.flatMap fun x => ',' :: '(' :: (x.1.toList ++ ',' :: (x.2.toList ++ [')']))

/-- The profiles in the order of the text. -/
def profTok : List String → List String
  | [] => []
  | p :: ps => p :: ps.mergeSort fun a b => decide (a ≤ b)

theorem join_toList {α : Type} (f : α → String) (l : List α) : (String.join (l.map f)).toList = l.flatMap fun a => (f a).toList := by
  rw [String.toList_join, List.flatMap_map]

theorem epForm_toList (profiles : List String) (labels : Labels) :
    (epForm profiles labels).toList = profText (profTok profiles) ++ labText (labels.mergeSort pairLe) := by
  unfold epForm
  rw [String.toList_append, join_toList]
  congr 1
  · cases profiles with
    | nil => rfl
    | cons p ps => simp [profText, profTok, String.toList_append, List.flatMap_map]
  · unfold labText
    congr 1
    funext a
    simp [String.toList_append]

theorem profText_comma (l : List String) {r : List Char} (hr : Comma r) : Comma (profText l ++ r) := by
  cases l with
  | nil => simpa [profText] using hr
  | cons p l => exact Or.inr ⟨_, by simp [profText]; rfl⟩

theorem labText_comma (l : Labels) : Comma (labText l) := by
  cases l with
  | nil => exact Or.inl rfl
  | cons p l => exact Or.inr ⟨_, by simp [labText]; rfl⟩

theorem split_comma {a b r s : List Char} (ha : ',' ∉ a) (hb : ',' ∉ b) (hr : Comma r) (hs : Comma s) (h : a ++ r = b ++ s) : a = b ∧ r = s := by
  rcases hr with rfl | ⟨r, rfl⟩
  · rcases hs with rfl | ⟨s, rfl⟩
    · simpa using h
    · rw [List.append_nil] at h
      rw [h] at ha
      simp at ha
  · rcases hs with rfl | ⟨s, rfl⟩
    · rw [List.append_nil] at h
      rw [← h] at hb
      simp at hb
    · obtain ⟨h1, h2⟩ := split_char ha hb h
      exact ⟨h1, by rw [h2]⟩

theorem labText_inj {l m : Labels} (hl : ∀ x ∈ l, ∀ a ∈ x.1.toList ++ x.2.toList, a ∉ [',', '(', ')'])
    (hm : ∀ x ∈ m, ∀ a ∈ x.1.toList ++ x.2.toList, a ∉ [',', '(', ')']) (h : labText l = labText m) : l = m := by
  induction l generalizing m with
  | nil =>
    cases m with
    | nil => rfl
    | cons x m => simp [labText] at h
  | cons x l ih =>
    cases m with
    | nil => simp [labText] at h
    | cons y m =>
      have e : x.1.toList ++ ',' :: (x.2.toList ++ ')' :: labText l) = y.1.toList ++ ',' :: (y.2.toList ++ ')' :: labText m) := by
        simpa [labText] using h
      have nx := hl x List.mem_cons_self
      have ny := hm y List.mem_cons_self
      obtain ⟨e1, e2⟩ := split_char (fun hc => nx ',' (List.mem_append_left _ hc) (by simp)) (fun hc => ny ',' (List.mem_append_left _ hc) (by simp)) e
      obtain ⟨e3, e4⟩ := split_char (fun hc => nx ')' (List.mem_append_right _ hc) (by simp)) (fun hc => ny ')' (List.mem_append_right _ hc) (by simp)) e2
      rw [ih (fun z hz => hl z (List.mem_cons_of_mem _ hz)) (fun z hz => hm z (List.mem_cons_of_mem _ hz)) e4]
      congr 1
      exact Prod.ext (String.toList_inj.1 e1) (String.toList_inj.1 e3)

theorem profText_inj {p q : List String} {l m : Labels} (hp : ∀ x ∈ p, ∀ a ∈ x.toList, a ∉ [',', '(']) (hq : ∀ x ∈ q, ∀ a ∈ x.toList, a ∉ [',', '('])
    (h : profText p ++ labText l = profText q ++ labText m) : p = q ∧ labText l = labText m := by
  have bad : ∀ (x : String) (q : List String) (l m : Labels), (∀ a ∈ x.toList, a ∉ [',', '(']) → labText l ≠ profText (x :: q) ++ labText m := by
    intro x q l m hx e
    cases l with
    | nil => simp [labText, profText] at e
    | cons y l =>
      simp only [labText, profText, List.flatMap_cons, List.cons_append, List.cons.injEq, true_and, List.append_assoc] at e
      cases hx' : x.toList with
      | cons a t =>
        rw [hx'] at e
        simp only [List.cons_append, List.cons.injEq] at e
        exact hx a (by rw [hx']; simp) (by rw [← e.1]; simp)
      | nil =>
        rw [hx', List.nil_append] at e
        rcases profText_comma q (labText_comma m) with h0 | ⟨r, h0⟩
        · have h0' : List.flatMap (fun p : String => ',' :: p.toList) q ++ labText m = [] := h0
          unfold labText at h0'
          rw [h0'] at e; simp at e
        · have h0' : List.flatMap (fun p : String => ',' :: p.toList) q ++ labText m = ',' :: r := h0
          unfold labText at h0'
          rw [h0'] at e; simp at e
  induction p generalizing q with
  | nil =>
    cases q with
    | nil => exact ⟨rfl, by simpa [profText] using h⟩
    | cons y q => exact absurd (by simpa [profText] using h) (bad y q l m (hq y List.mem_cons_self))
  | cons x p ih =>
    cases q with
    | nil => exact absurd (by simpa [profText] using h.symm) (bad x p m l (hp x List.mem_cons_self))
    | cons y q =>
      have e : x.toList ++ (profText p ++ labText l) = y.toList ++ (profText q ++ labText m) := by simpa [profText] using h
      obtain ⟨e1, e2⟩ := split_comma (fun hc => hp x List.mem_cons_self ',' hc (by simp)) (fun hc => hq y List.mem_cons_self ',' hc (by simp))
        (profText_comma p (labText_comma l)) (profText_comma q (labText_comma m)) e
      obtain ⟨i1, i2⟩ := ih (fun z hz => hp z (List.mem_cons_of_mem _ hz)) (fun z hz => hq z (List.mem_cons_of_mem _ hz)) e2
      exact ⟨by rw [String.toList_inj.1 e1, i1], i2⟩

/-! ### Labels -/

theorem lookup_iff {α : Type} {l : List (String × α)} (h : (l.map (·.1)).Nodup) {k : String} {v : α} : l.lookup k = some v ↔ (k, v) ∈ l := by
  induction l with
  | nil => simp
  | cons x l ih =>
    obtain ⟨a, b⟩ := x
    rw [List.map_cons, List.nodup_cons] at h
    by_cases hk : k = a
    · subst hk
      simp only [List.lookup, beq_self_eq_true, List.mem_cons, Prod.mk.injEq, true_and]
      constructor
      · intro e; cases e; exact Or.inl rfl
      · rintro (rfl | hm)
        · rfl
        · exact absurd (List.mem_map.2 ⟨_, hm, rfl⟩) h.1
    · have : (k == a) = false := by simpa using hk
      simp only [List.lookup, this, List.mem_cons, Prod.mk.injEq, hk, false_and, false_or]
      exact ih h.2

theorem lookup_perm {α : Type} {l m : List (String × α)} (h : (l.map (·.1)).Nodup) (hm : (m.map (·.1)).Nodup) (p : l.Perm m) (k : String) : l.lookup k = m.lookup k := by
  cases e : l.lookup k with
  | some v => exact ((lookup_iff hm).2 (p.mem_iff.1 ((lookup_iff h).1 e))).symm
  | none =>
    cases e' : m.lookup k with
    | none => rfl
    | some v => rw [(lookup_iff h).2 (p.mem_iff.2 ((lookup_iff hm).1 e'))] at e; cases e

theorem epForm_inj {p q : List String} {l m : Labels} (hp : ∀ x ∈ p, ∀ a ∈ x.toList, a ∉ [',', '(']) (hq : ∀ x ∈ q, ∀ a ∈ x.toList, a ∉ [',', '('])
    (hl : ∀ x ∈ l, ∀ a ∈ x.1.toList ++ x.2.toList, a ∉ [',', '(', ')']) (hm : ∀ x ∈ m, ∀ a ∈ x.1.toList ++ x.2.toList, a ∉ [',', '(', ')'])
    (h : epForm p l = epForm q m) : p.head? = q.head? ∧ p.Perm q ∧ l.Perm m := by
  have h' := congrArg String.toList h
  rw [epForm_toList, epForm_toList] at h'
  have tok : ∀ (p : List String) x, x ∈ profTok p ↔ x ∈ p := by
    intro p x
    cases p with
    | nil => rfl
    | cons a p => simp [profTok]
  obtain ⟨e1, e2⟩ := profText_inj (fun x hx => hp x ((tok p x).1 hx)) (fun x hx => hq x ((tok q x).1 hx)) h'
  have e3 := labText_inj (fun x hx => hl x (List.mem_mergeSort.1 hx)) (fun x hx => hm x (List.mem_mergeSort.1 hx)) e2
  have el : l.Perm m := (List.mergeSort_perm l pairLe).symm.trans (e3 ▸ List.mergeSort_perm m pairLe)
  cases p with
  | nil =>
    cases q with
    | nil => exact ⟨rfl, .rfl, el⟩
    | cons b q => simp [profTok] at e1
  | cons a p =>
    cases q with
    | nil => simp [profTok] at e1
    | cons b q =>
      simp only [profTok, List.cons.injEq] at e1
      obtain ⟨rfl, e4⟩ := e1
      exact ⟨rfl, (((List.mergeSort_perm p _).symm.trans (e4 ▸ List.mergeSort_perm q _))).cons a, el⟩

theorem epForm_comma (p : List String) (l : Labels) : Comma (epForm p l).toList := by
  rw [epForm_toList]
  exact profText_comma _ (labText_comma _)

/-! ### Workloads -/

theorem workload_chars {ns name owner kind : String} (h1 : ∀ a ∈ ns.toList, a ≠ '_') (h2 : '_' ∉ name.toList)
    (h3 : ∀ a ∈ owner.toList ++ kind.toList, a ≠ '_') : '_' ∉ (workloadName ns name owner kind).toList := by
  have n1 : '_' ∉ ns.toList := fun h => h1 _ h rfl
  have n3 : '_' ∉ owner.toList := fun h => h3 _ (List.mem_append_left _ h) rfl
  have n4 : '_' ∉ kind.toList := fun h => h3 _ (List.mem_append_right _ h) rfl
  have n5 : '_' ∉ beforeDash owner.toList := by
    intro h
    unfold beforeDash at h
    split at h
    · rw [List.mem_reverse] at h
      exact n3 (List.mem_reverse.1 ((List.dropWhile_sublist _).mem ((List.drop_sublist _ _).mem h)))
    · exact n3 ((List.dropLast_sublist _).mem h)
  unfold workloadName
  split
  · simp [n1, h2]
  · split
    · split
      · simp [n1, n5]
      · simp [n1, n3]
    · simp [n1, n3, n4]

theorem workload_paren (ns name owner kind : String) : '(' ∈ (workloadName ns name owner kind).toList := by
  unfold workloadName
  split
  · simp
  · split
    · split <;> simp
    · simp

end Topology
end Verif
