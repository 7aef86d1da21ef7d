import Verif.PolicySpec
import Mathlib.Data.List.Perm.Basic
/-! Proofs about insertion of policies into layers (`bisect.insort`) and about the layers container. -/
namespace Verif

section
variable {α : Type} {lt : α → α → Bool}

theorem bisectRight_eq (a : List α) (x : α) (k : Nat) (hk : k ≤ a.length)
    (h1 : ∀ i (hi : i < a.length), i < k → lt x a[i] = false) (h2 : ∀ i (hi : i < a.length), k ≤ i → lt x a[i] = true) :
    ∀ n lo hi, hi - lo ≤ n → lo ≤ k → k ≤ hi → hi ≤ a.length → bisectRight lt a x lo hi = k := by
  intro n
  induction n with
  | zero =>
    intro lo hi hn h3 h4 h5
    unfold bisectRight
    have : ¬ lo < hi := by omega
    simp only [this, dif_neg, not_false_eq_true]
    omega
  | succ n ih =>
    intro lo hi hn h3 h4 h5
    unfold bisectRight
    by_cases hlt : lo < hi
    · simp only [hlt, dif_pos]
      have hm : (lo + hi) / 2 < a.length := by omega
      rw [List.getElem?_eq_getElem hm]
      simp only
      by_cases hc : (lo + hi) / 2 < k
      · rw [h1 _ hm hc]
        simp only [Bool.false_eq_true, if_false]
        exact ih _ _ (by omega) (by omega) h4 h5
      · rw [h2 _ hm (by omega)]
        simp only [if_true]
        exact ih _ _ (by omega) h3 (by omega) (by omega)
    · simp only [hlt, dif_neg, not_false_eq_true]
      omega

theorem insort_perm (a : List α) (x : α) : (insort lt a x).Perm (x :: a) := by
  unfold insort
  refine List.perm_middle.trans ?_
  rw [List.take_append_drop]

theorem mem_insort (a : List α) (x y : α) : y ∈ insort lt a x ↔ y = x ∨ y ∈ a := by
  rw [(insort_perm a x).mem_iff, List.mem_cons]

theorem insort_at (a : List α) (x : α) (k : Nat) (hk : k ≤ a.length)
    (h1 : ∀ i (hi : i < a.length), i < k → lt x a[i] = false) (h2 : ∀ i (hi : i < a.length), k ≤ i → lt x a[i] = true) :
    insort lt a x = a.take k ++ x :: a.drop k := by
  unfold insort
  rw [bisectRight_eq a x k hk h1 h2 _ 0 a.length (Nat.le_refl _) (by omega) hk (Nat.le_refl _)]

/-- When the new element is smaller than none, it goes last. -/
theorem insort_last (a : List α) (x : α) (h : ∀ y ∈ a, lt x y = false) : insort lt a x = a ++ [x] := by
  rw [insort_at a x a.length (Nat.le_refl _) (fun i hi _ => h _ (List.getElem_mem _)) (fun i hi h => absurd h (by omega))]
  simp

/-- When the new element is smaller than all, it goes first. -/
theorem insort_first (a : List α) (x : α) (h : ∀ y ∈ a, lt x y = true) : insort lt a x = x :: a := by
  rw [insort_at a x 0 (by omega) (fun i hi h => absurd h (by omega)) (fun i hi _ => h _ (List.getElem_mem _))]
  simp

/-- Split point: a prefix that is not greater, a suffix that is greater. -/
theorem insort_split (u v : List α) (x : α) (h1 : ∀ y ∈ u, lt x y = false) (h2 : ∀ y ∈ v, lt x y = true) :
    insort lt (u ++ v) x = u ++ x :: v := by
  rw [insort_at (u ++ v) x u.length (by simp)]
  · simp
  · intro i hi h
    rw [List.getElem_append_left h]
    exact h1 _ (List.getElem_mem _)
  · intro i hi h
    rw [List.getElem_append_right h]
    exact h2 _ (List.getElem_mem _)

end

section
variable {α : Type} (rank : α → Option Int)

/-- Comparison of orders, unspecified meaning infinity. -/
def rankLt : Option Int → Option Int → Bool
  | none, _ => false
  | some _, none => true
  | some a, some b => decide (a < b)

theorem rankLt_trans_left {x y z : Option Int} (h1 : rankLt x y = true) (h2 : rankLt z y = false) : rankLt x z = true := by
  cases x <;> cases y <;> cases z <;> simp_all [rankLt]
  omega

/-- Sorted by order, smaller first. -/
def RankSorted (a : List α) : Prop := a.Pairwise (fun u v => rankLt (rank v) (rank u) = false)

theorem rank_split (a : List α) (hs : RankSorted rank a) (x : α) :
    ∃ u v, a = u ++ v ∧ (∀ y ∈ u, rankLt (rank x) (rank y) = false) ∧ (∀ y ∈ v, rankLt (rank x) (rank y) = true) := by
  induction a with
  | nil => exact ⟨[], [], rfl, by simp, by simp⟩
  | cons b a ih =>
    obtain ⟨hb, ha⟩ := List.pairwise_cons.1 hs
    by_cases h : rankLt (rank x) (rank b) = true
    · refine ⟨[], b :: a, rfl, by simp, ?_⟩
      intro y hy
      rcases List.mem_cons.1 hy with rfl | hy
      · exact h
      · exact rankLt_trans_left h (hb y hy)
    · obtain ⟨u, v, rfl, h1, h2⟩ := ih ha
      refine ⟨b :: u, v, rfl, ?_, h2⟩
      intro y hy
      rcases List.mem_cons.1 hy with rfl | hy
      · simpa using h
      · exact h1 y hy

theorem rankLt_asymm {x y : Option Int} (h : rankLt x y = true) : rankLt y x = false := by
  cases x <;> cases y <;> simp_all [rankLt]
  omega

/-- Insertion keeps the list sorted and puts the new element after all those of the same order. -/
theorem insort_rank {lt : α → α → Bool} (a : List α) (hs : RankSorted rank a) (x : α)
    (hlt : ∀ y ∈ a, lt x y = rankLt (rank x) (rank y)) :
    RankSorted rank (insort lt a x) ∧
    ∀ r, (insort lt a x).filter (fun y => decide (rank y = r)) =
      a.filter (fun y => decide (rank y = r)) ++ (if rank x = r then [x] else []) := by
  obtain ⟨u, v, rfl, h1, h2⟩ := rank_split rank a hs x
  rw [insort_split u v x (fun y hy => by rw [hlt y (by simp [hy])]; exact h1 y hy) (fun y hy => by rw [hlt y (by simp [hy])]; exact h2 y hy)]
  obtain ⟨hu, hv, huv⟩ := List.pairwise_append.1 hs
  refine ⟨?_, fun r => ?_⟩
  · refine List.pairwise_append.2 ⟨hu, List.pairwise_cons.2 ⟨fun y hy => rankLt_asymm (h2 y hy), hv⟩, ?_⟩
    intro y hy z hz
    rcases List.mem_cons.1 hz with rfl | hz
    · exact h1 y hy
    · exact huv y hy z hz
  · rw [List.filter_append, List.filter_cons, List.filter_append]
    by_cases hr : rank x = r
    · have hv0 : v.filter (fun y => decide (rank y = r)) = [] := by
        rw [List.filter_eq_nil_iff]
        intro y hy
        have := h2 y hy
        simp only [decide_eq_true_eq]
        intro h
        rw [h, hr] at this
        cases r <;> simp [rankLt] at this
      simp [hr, hv0]
    · simp [hr]

end

/-! ### The layers container -/
section
variable {C P E S : Type}

/-- The policies of a layer, none if the layer is absent. -/
def layerList (ls : Layers C S) (n : LayerName) : List (Policy C S) := ((ls.find? (fun l => l.1 = n)).map (·.2)).getD []

/-- Each layer at most once. -/
def DistinctLayers (ls : Layers C S) : Prop := (ls.map (·.1)).Nodup

/-- No layer without policies, except for the initial container. -/
def NoEmpty (ls : Layers C S) : Prop := ∀ l ∈ ls, l.2 ≠ []

theorem layerList_of_mem {ls : Layers C S} (hd : DistinctLayers ls) {n : LayerName} {a : List (Policy C S)} (h : (n, a) ∈ ls) :
    layerList ls n = a := by
  unfold layerList
  induction ls with
  | nil => simp at h
  | cons l ls ih =>
    unfold DistinctLayers at hd
    rw [List.map_cons, List.nodup_cons] at hd
    rw [List.find?_cons]
    rcases List.mem_cons.1 h with rfl | h'
    · simp
    · have : l.1 ≠ n := by
        rintro rfl
        exact hd.1 (List.mem_map.2 ⟨_, h', rfl⟩)
      simp only [this, decide_false]
      exact ih hd.2 h'

theorem layerList_of_not_mem {ls : Layers C S} {n : LayerName} (h : ∀ l ∈ ls, l.1 ≠ n) : layerList ls n = [] := by
  unfold layerList
  have : ls.find? (fun l => l.1 = n) = none := by
    rw [List.find?_eq_none]; intro l hl; simpa using h l hl
  rw [this]; rfl

theorem layerList_mem {ls : Layers C S} {n : LayerName} (h : layerList ls n ≠ []) : (n, layerList ls n) ∈ ls := by
  unfold layerList at h ⊢
  cases hf : ls.find? (fun l => l.1 = n) with
  | none => rw [hf] at h; exact absurd rfl h
  | some l =>
    have h1 := List.find?_some hf
    have h2 := List.mem_of_find?_eq_some hf
    simp only [decide_eq_true_eq] at h1
    simp only [Option.map_some, Option.getD_some]
    rw [← h1]; exact h2

theorem layerList_filter {ls : Layers C S} (hd : DistinctLayers ls) (n : LayerName) :
    layerList (ls.filter (fun l => !(decide (l.1 = .k8sCalico) && l.2.isEmpty))) n = layerList ls n := by
  by_cases h : ∃ a, (n, a) ∈ ls
  · obtain ⟨a, ha⟩ := h
    rw [layerList_of_mem hd ha]
    by_cases hk : (!(decide (n = LayerName.k8sCalico) && a.isEmpty)) = true
    · refine layerList_of_mem ?_ (List.mem_filter.2 ⟨ha, hk⟩)
      exact (List.Sublist.map _ List.filter_sublist).nodup hd
    · have hae : a = [] := by
        simp only [Bool.not_eq_true', Bool.not_eq_false, Bool.and_eq_true, List.isEmpty_iff] at hk
        exact hk.2
      subst hae
      apply layerList_of_not_mem
      rintro ⟨m, b⟩ hb rfl
      obtain ⟨hb1, hb2⟩ := List.mem_filter.1 hb
      have : b = [] := by rw [← layerList_of_mem hd hb1, layerList_of_mem hd ha]
      subst this
      exact hk hb2
  · have : ∀ l ∈ ls, l.1 ≠ n := by
      rintro ⟨m, b⟩ hb rfl
      exact h ⟨b, hb⟩
    rw [layerList_of_not_mem this, layerList_of_not_mem]
    intro l hl
    exact this l (List.mem_filter.1 hl).1

/-- Adding a policy inserts it in its layer and leaves the other layers alone. -/
theorem addToLayers_spec (ls : Layers C S) (hd : DistinctLayers ls) (pol : Policy C S) (n : LayerName) :
    DistinctLayers (addToLayers ls pol n) ∧
    (∀ m, layerList (addToLayers ls pol n) m = if m = n then insort Policy.lt (layerList ls n) pol else layerList ls m) ∧
    ((∀ l ∈ ls, l.2 = [] → l.1 = .k8sCalico) → NoEmpty (addToLayers ls pol n)) := by
  have hins : ∀ a : List (Policy C S), insort Policy.lt a pol ≠ [] := by
    intro a h
    have : pol ∈ insort Policy.lt a pol := (mem_insort a pol pol).2 (Or.inl rfl)
    rw [h] at this; simp at this
  -- before the removal of an empty default layer
  have key : ∀ ls1, ls1 = (if ls.any (fun l => l.1 = n) then
      ls.map (fun l => if l.1 = n then (l.1, insort Policy.lt l.2 pol) else l) else ls ++ [(n, [pol])]) →
      DistinctLayers ls1 ∧ (∀ m, layerList ls1 m = if m = n then insort Policy.lt (layerList ls n) pol else layerList ls m) ∧
      ((∀ l ∈ ls, l.2 = [] → l.1 = .k8sCalico) → ∀ l ∈ ls1, l.2 = [] → l.1 = .k8sCalico) := by
    rintro ls1 rfl
    split
    · rename_i hany
      have hkeys : (ls.map (fun l => if l.1 = n then (l.1, insort Policy.lt l.2 pol) else l)).map (·.1) = ls.map (·.1) := by
        rw [List.map_map]
        apply List.map_congr_left
        intro l _
        simp only [Function.comp]
        split <;> rfl
      have hd1 : DistinctLayers (ls.map (fun l => if l.1 = n then (l.1, insort Policy.lt l.2 pol) else l)) := by
        unfold DistinctLayers; rw [hkeys]; exact hd
      refine ⟨hd1, fun m => ?_, fun he l hl hn => ?_⟩
      · by_cases hm : ∃ a, (m, a) ∈ ls
        · obtain ⟨a, ha⟩ := hm
          rw [layerList_of_mem hd ha]
          have : (m, if m = n then insort Policy.lt a pol else a) ∈ ls.map (fun l => if l.1 = n then (l.1, insort Policy.lt l.2 pol) else l) := by
            refine List.mem_map.2 ⟨(m, a), ha, ?_⟩
            by_cases h : m = n <;> simp [h]
          rw [layerList_of_mem hd1 this]
          split
          · rename_i h; subst h; rw [layerList_of_mem hd ha]
          · rfl
        · have hno : ∀ l ∈ ls, l.1 ≠ m := by
            rintro ⟨x, b⟩ hb rfl
            exact hm ⟨b, hb⟩
          have hmn : m ≠ n := by
            rintro rfl
            obtain ⟨l, hl, h⟩ := List.any_eq_true.1 hany
            exact hno l hl (by simpa using h)
          rw [if_neg hmn, layerList_of_not_mem hno, layerList_of_not_mem]
          intro l hl
          obtain ⟨l', hl', rfl⟩ := List.mem_map.1 hl
          have := hno l' hl'
          split <;> exact this
      · obtain ⟨l', hl', rfl⟩ := List.mem_map.1 hl
        split at hn
        · exact absurd hn (hins _)
        · rename_i h
          simp only [h, if_false]
          exact he l' hl' hn
    · rename_i hany
      have hno : ∀ l ∈ ls, l.1 ≠ n := by
        intro l hl h
        exact hany (List.any_eq_true.2 ⟨l, hl, by simpa using h⟩)
      have hd1 : DistinctLayers (ls ++ [(n, [pol])]) := by
        unfold DistinctLayers
        rw [List.map_append, List.nodup_append]
        refine ⟨hd, by simp, ?_⟩
        intro a ha b hb
        obtain ⟨l, hl, rfl⟩ := List.mem_map.1 ha
        simp only [List.map_cons, List.map_nil, List.mem_singleton] at hb
        subst hb
        exact hno l hl
      refine ⟨hd1, fun m => ?_, fun he l hl hn => ?_⟩
      · by_cases hm : m = n
        · subst hm
          rw [if_pos rfl, layerList_of_mem hd1 (a := [pol]) (by simp), layerList_of_not_mem hno, insort_last [] pol (by simp)]
          rfl
        · rw [if_neg hm]
          by_cases h : ∃ a, (m, a) ∈ ls
          · obtain ⟨a, ha⟩ := h
            rw [layerList_of_mem hd ha, layerList_of_mem hd1 (a := a) (by simp [ha])]
          · have hno' : ∀ l ∈ ls, l.1 ≠ m := by
              rintro ⟨x, b⟩ hb rfl
              exact h ⟨b, hb⟩
            rw [layerList_of_not_mem hno', layerList_of_not_mem]
            intro l hl
            rcases List.mem_append.1 hl with hl | hl
            · exact hno' l hl
            · simp only [List.mem_singleton] at hl
              subst hl
              exact fun h => hm h.symm
      · rcases List.mem_append.1 hl with hl | hl
        · exact he l hl hn
        · simp only [List.mem_singleton] at hl
          subst hl
          simp at hn
  obtain ⟨k1, k2, k3⟩ := key _ rfl
  unfold addToLayers
  dsimp only
  refine ⟨?_, fun m => ?_, fun he l hl hn => ?_⟩
  · exact (List.Sublist.map _ List.filter_sublist).nodup k1
  · rw [layerList_filter k1, k2]
  · obtain ⟨h1, h2⟩ := List.mem_filter.1 hl
    have := k3 he l h1 hn
    simp [this, hn] at h2

/-- What is known of a store built by appending `pols`. -/
structure Built (pols : List (Policy C S)) (st : PolicyStore C S) : Prop where
  policies : st.policies = pols
  distinct : DistinctLayers st.layers
  lists : ∀ n, layerList st.layers n = (pols.filter (fun pol => decide (layerOf pol.kind = n))).foldl (insort Policy.lt) []
  init : pols = [] → st.layers = initLayers
  noEmpty : pols ≠ [] → NoEmpty st.layers

theorem append_built {pols : List (Policy C S)} {st st' : PolicyStore C S} (h : Built pols st) {pol : Policy C S}
    (ha : st.append pol = some st') : Built (pols ++ [pol]) st' := by
  unfold PolicyStore.append at ha
  split at ha
  · exact absurd ha (by simp)
  · simp only [Option.some.injEq] at ha
    subst ha
    have hs := addToLayers_spec st.layers h.distinct pol (layerOf pol.kind)
    refine ⟨by rw [h.policies], hs.1, fun n => ?_, fun h => by simp at h, fun _ => hs.2.2 ?_⟩
    · rw [hs.2.1, List.filter_append, List.foldl_append]
      by_cases hn : n = layerOf pol.kind
      · subst hn
        simp [h.lists]
      · rw [if_neg hn, h.lists]
        have : layerOf pol.kind ≠ n := fun h => hn h.symm
        simp [this]
    · intro l hl hn
      by_cases hp : pols = []
      · rw [h.init hp] at hl
        simp only [initLayers, List.mem_singleton] at hl
        subst hl; rfl
      · exact absurd hn (h.noEmpty hp l hl)

theorem build_built (pols : List (Policy C S)) {st : PolicyStore C S} (h : PolicyStore.build pols = some st) : Built pols st := by
  have aux : ∀ (qs ps : List (Policy C S)) (s s' : PolicyStore C S), Built ps s → qs.foldlM PolicyStore.append s = some s' → Built (ps ++ qs) s' := by
    intro qs
    induction qs with
    | nil => intro ps s s' hb h; simp only [List.foldlM_nil, Option.pure_def, Option.some.injEq] at h; subst h; simpa using hb
    | cons q qs ih =>
      intro ps s s' hb h
      rw [List.foldlM_cons] at h
      cases hq : s.append q with
      | none => rw [hq] at h; simp at h
      | some s1 =>
        rw [hq] at h
        have := ih (ps ++ [q]) s1 s' (append_built hb hq) h
        simpa using this
  have h0 : Built ([] : List (Policy C S)) PolicyStore.empty := by
    refine ⟨rfl, ?_, fun n => ?_, fun _ => rfl, fun h => absurd rfl h⟩
    · simp [DistinctLayers, PolicyStore.empty, initLayers]
    · cases n <;> simp [layerList, PolicyStore.empty, initLayers]
  simpa using aux pols [] _ _ h0 h

/-- Policies can be appended iff no two share name and kind. -/
theorem build_some_iff (pols : List (Policy C S)) :
    (∃ st, PolicyStore.build pols = some st) ↔ pols.Pairwise (fun a b => ¬ (a.name = b.name ∧ a.kind = b.kind)) := by
  have aux : ∀ (qs ps : List (Policy C S)) (s : PolicyStore C S), Built ps s →
      ((∃ s', qs.foldlM PolicyStore.append s = some s') ↔
        qs.Pairwise (fun a b => ¬ (a.name = b.name ∧ a.kind = b.kind)) ∧ ∀ a ∈ ps, ∀ b ∈ qs, ¬ (a.name = b.name ∧ a.kind = b.kind)) := by
    intro qs
    induction qs with
    | nil => intro ps s hb; simp
    | cons q qs ih =>
      intro ps s hb
      rw [List.foldlM_cons, List.pairwise_cons]
      by_cases hq : s.policies.any (fun r => decide (r.name = q.name ∧ r.kind = q.kind)) = true
      · have : s.append q = none := by unfold PolicyStore.append; rw [if_pos hq]
        rw [this]
        constructor
        · rintro ⟨s', h⟩; simp at h
        · rintro ⟨_, h⟩
          obtain ⟨r, hr, hrq⟩ := List.any_eq_true.1 hq
          rw [hb.policies] at hr
          exact absurd (by simpa using hrq) (h r hr q (by simp))
      · have hs : ∃ s1, s.append q = some s1 := by unfold PolicyStore.append; rw [if_neg hq]; exact ⟨_, rfl⟩
        obtain ⟨s1, hs1⟩ := hs
        rw [hs1]
        have := ih (ps ++ [q]) s1 (append_built hb hs1)
        simp only [Option.bind_eq_bind, Option.bind_some]
        rw [this]
        have hnp : ∀ a ∈ ps, ¬ (a.name = q.name ∧ a.kind = q.kind) := by
          intro a ha h
          apply hq
          rw [List.any_eq_true]
          exact ⟨a, by rw [hb.policies]; exact ha, by simpa using h⟩
        constructor
        · rintro ⟨h1, h2⟩
          refine ⟨⟨fun b hb => h2 q (by simp) b hb, h1⟩, fun a ha b hb => ?_⟩
          rcases List.mem_cons.1 hb with rfl | hb
          · exact hnp a ha
          · exact h2 a (by simp [ha]) b hb
        · rintro ⟨⟨h1, h2⟩, h3⟩
          refine ⟨h2, fun a ha b hb => ?_⟩
          rcases List.mem_append.1 ha with ha | ha
          · exact h3 a ha b (by simp [hb])
          · simp only [List.mem_singleton] at ha
            subst ha
            exact h1 b hb
  have h0 : Built ([] : List (Policy C S)) PolicyStore.empty := by
    refine ⟨rfl, ?_, fun n => ?_, fun _ => rfl, fun h => absurd rfl h⟩
    · simp [DistinctLayers, PolicyStore.empty, initLayers]
    · cases n <;> simp [layerList, PolicyStore.empty, initLayers]
  have := aux pols [] _ h0
  simpa [PolicyStore.build] using this

theorem Built.mem_layers {pols : List (Policy C S)} {st : PolicyStore C S} (h : Built pols st) (hp : pols ≠ [])
    (n : LayerName) (a : List (Policy C S)) : (n, a) ∈ st.layers ↔ a = layerList st.layers n ∧ a ≠ [] := by
  constructor
  · intro hm
    exact ⟨(layerList_of_mem h.distinct hm).symm, h.noEmpty hp _ hm⟩
  · rintro ⟨rfl, hne⟩
    exact layerList_mem hne

theorem foldl_insort_perm {α : Type} {lt : α → α → Bool} (l : List α) : ∀ acc, (l.foldl (insort lt) acc).Perm (acc ++ l) := by
  induction l with
  | nil => intro acc; simp
  | cons x l ih =>
    intro acc
    refine (ih _).trans ?_
    refine ((insort_perm acc x).append_right l).trans ?_
    rw [List.cons_append]
    exact List.perm_middle.symm

/-- The policies of a layer are those of its kinds. -/
theorem Built.mem_list {pols : List (Policy C S)} {st : PolicyStore C S} (h : Built pols st) (n : LayerName) (pol : Policy C S) :
    pol ∈ layerList st.layers n ↔ pol ∈ pols ∧ layerOf pol.kind = n := by
  rw [h.lists, (foldl_insort_perm _ _).mem_iff]
  simp

end
end Verif
