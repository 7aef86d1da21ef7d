import Verif.ExplModel
/-!
C68: what an explanation lists.
-/
namespace Verif

namespace Expl

/-! ### Dictionaries and sets -/

theorem lookup_put {V : Type} (d : List (String × V)) (k : String) (v : V) (x : String) :
    (put d k v).lookup x = if x = k then some v else d.lookup x := by
  induction d with
  | nil =>
    by_cases h : x = k
    · subst h; simp [put, List.lookup]
    · have : (x == k) = false := by simpa using h
      simp [put, List.lookup, this, h]
  | cons e r ih =>
    obtain ⟨k', w⟩ := e
    by_cases hk : k' = k
    · subst hk
      by_cases h : x = k'
      · subst h; simp [put, List.lookup]
      · have : (x == k') = false := by simpa using h
        simp [put, List.lookup, this, h]
    · by_cases h : x = k'
      · subst h
        simp [put, hk, List.lookup]
      · have : (x == k') = false := by simpa using h
        simp [put, hk, List.lookup, this, ih]

theorem put_ne_nil {V : Type} (d : List (String × V)) (k : String) (v : V) : put d k v ≠ [] := by
  cases d with
  | nil => simp [put]
  | cons e r => obtain ⟨k', w⟩ := e; simp only [put]; split <;> simp

theorem mem_sadd (s : List String) (x k : String) : k ∈ sadd s x ↔ k ∈ s ∨ k = x := by
  unfold sadd
  split
  · constructor
    · exact Or.inl
    · rintro (h | rfl) <;> assumption
  · simp

theorem sadd_sadd (s : List String) (x : String) : sadd (sadd s x) x = sadd s x := by
  generalize hs : sadd s x = u
  have hx : x ∈ u := hs ▸ (mem_sadd s x x).2 (Or.inr rfl)
  unfold sadd
  exact if_pos hx

theorem nodup_sadd {s : List String} (h : s.Nodup) (x : String) : (sadd s x).Nodup := by
  unfold sadd
  split
  · exact h
  · rename_i hx
    rw [List.nodup_append]
    refine ⟨h, by simp, ?_⟩
    intro a ha b hb
    simp only [List.mem_singleton] at hb
    subst hb
    rintro rfl
    exact hx ha

/-! ### Sorting -/

theorem mem_ins (x k : String) (l : List String) : k ∈ ins x l ↔ k = x ∨ k ∈ l := by
  induction l with
  | nil => simp [ins]
  | cons y r ih =>
    simp only [ins]
    split
    · simp
    · simp only [List.mem_cons, ih]
      constructor
      · rintro (h | h | h) <;> simp [h]
      · rintro (h | h | h) <;> simp [h]

theorem mem_sortNames (l : List String) (k : String) : k ∈ sortNames l ↔ k ∈ l := by
  induction l with
  | nil => simp [sortNames]
  | cons y r ih =>
    show k ∈ ins y (sortNames r) ↔ _
    rw [mem_ins, ih, List.mem_cons]

theorem sorted_ins (x : String) (l : List String) (h : l.Pairwise (· < ·)) (hx : x ∉ l) : (ins x l).Pairwise (· < ·) := by
  induction l with
  | nil => simp [ins]
  | cons y r ih =>
    simp only [List.mem_cons, not_or] at hx
    rw [List.pairwise_cons] at h
    simp only [ins]
    split
    · rename_i hle
      have hlt : x < y := by
        rcases Decidable.em (x < y) with h' | h'
        · exact h'
        · exact absurd (String.le_antisymm hle (String.not_lt.1 h')) hx.1
      rw [List.pairwise_cons]
      refine ⟨?_, List.pairwise_cons.2 h⟩
      intro a ha
      rcases List.mem_cons.1 ha with rfl | ha
      · exact hlt
      · exact String.lt_trans hlt (h.1 a ha)
    · rename_i hle
      rw [List.pairwise_cons]
      refine ⟨?_, ih h.2 hx.2⟩
      intro a ha
      rcases (mem_ins x a r).1 ha with rfl | ha
      · exact String.not_le.1 hle
      · exact h.1 a ha

theorem sorted_sortNames (l : List String) (h : l.Nodup) : (sortNames l).Pairwise (· < ·) := by
  induction l with
  | nil => simp [sortNames]
  | cons y r ih =>
    rw [List.nodup_cons] at h
    show (ins y (sortNames r)).Pairwise (· < ·)
    exact sorted_ins y _ (ih h.2) (fun hy => h.1 ((mem_sortNames r y).1 hy))

/-- A list shows a set of names: in increasing order, each once. -/
structure Shows (l : List String) (S : String → Prop) : Prop where
  increasing : l.Pairwise (· < ·)
  exact : ∀ k, k ∈ l ↔ S k

/-- A set is shown in one way only. -/
theorem Shows.unique {l l' : List String} {S : String → Prop} (h : Shows l S) (h' : Shows l' S) : l = l' := by
  have hm : ∀ k, k ∈ l ↔ k ∈ l' := fun k => (h.exact k).trans (h'.exact k).symm
  have h1 := h.increasing
  have h2 := h'.increasing
  clear h h'
  induction l generalizing l' with
  | nil =>
    cases l' with
    | nil => rfl
    | cons y r => exact absurd ((hm y).2 List.mem_cons_self) List.not_mem_nil
  | cons x l ih =>
    cases l' with
    | nil => exact absurd ((hm x).1 List.mem_cons_self) List.not_mem_nil
    | cons y r =>
      rw [List.pairwise_cons] at h1 h2
      have hxy : x = y := by
        rcases List.mem_cons.1 ((hm x).1 List.mem_cons_self) with h | h
        · exact h
        · rcases List.mem_cons.1 ((hm y).2 List.mem_cons_self) with h' | h'
          · exact h'.symm
          · exact absurd (String.lt_trans (h2.1 x h) (h1.1 y h')) (String.lt_irrefl y)
      subst hxy
      have : l = r := by
        refine ih (fun k => ?_) h1.2 h2.2
        constructor
        · intro hk
          rcases List.mem_cons.1 ((hm k).1 (List.mem_cons_of_mem _ hk)) with h | h
          · subst h; exact absurd (h1.1 k hk) (String.lt_irrefl k)
          · exact h
        · intro hk
          rcases List.mem_cons.1 ((hm k).2 (List.mem_cons_of_mem _ hk)) with h | h
          · subst h; exact absurd (h2.1 k hk) (String.lt_irrefl k)
          · exact h
      rw [this]

theorem shows_sortNames {l : List String} (h : l.Nodup) {S : String → Prop} (hS : ∀ k, k ∈ l ↔ S k) : Shows (sortNames l) S :=
  ⟨sorted_sortNames l h, fun k => (mem_sortNames l k).trans (hS k)⟩

/-! ### Maps of peers to policies -/

/-- The policies kept for a peer. -/
def at_ (m : List (String × List String)) (d : String) : List String := (m.lookup d).getD []

theorem addToMap_at (pol : String) (hp : pol ≠ dflt) (names : List String) (m : List (String × List String))
    (d k : String) (hm : dflt ∉ at_ m d) :
    dflt ∉ at_ (addToMap names m pol) d ∧ (k ∈ at_ (addToMap names m pol) d ↔ k ∈ at_ m d ∨ (d ∈ names ∧ k = pol)) := by
  induction names generalizing m with
  | nil => simp [addToMap, hm]
  | cons n r ih =>
    have e : addToMap (n :: r) m pol =
        addToMap r (put m n (sadd ((at_ m n).filter (fun k => decide (k ≠ dflt))) pol)) pol := rfl
    have hat : ∀ x, at_ (put m n (sadd ((at_ m n).filter (fun k => decide (k ≠ dflt))) pol)) x =
        if x = n then sadd ((at_ m n).filter (fun k => decide (k ≠ dflt))) pol else at_ m x := by
      intro x
      unfold at_
      rw [lookup_put]
      split <;> rfl
    have hm' : dflt ∉ at_ (put m n (sadd ((at_ m n).filter (fun k => decide (k ≠ dflt))) pol)) d := by
      rw [hat]
      split
      · rw [mem_sadd]
        rintro (h | h)
        · simp at h
        · exact hp h.symm
      · exact hm
    obtain ⟨h1, h2⟩ := ih _ hm'
    rw [e]
    refine ⟨h1, h2.trans ?_⟩
    rw [hat]
    by_cases hd : d = n
    · subst hd
      rw [if_pos rfl, mem_sadd, List.mem_filter]
      have hne : k ∈ at_ m d → k ≠ dflt := fun hk he => hm (he ▸ hk)
      constructor
      · rintro ((⟨h, -⟩ | h) | ⟨h, h'⟩)
        · exact Or.inl h
        · exact Or.inr ⟨List.mem_cons_self, h⟩
        · exact Or.inr ⟨List.mem_cons_self, h'⟩
      · rintro (h | ⟨-, h⟩)
        · exact Or.inl (Or.inl ⟨h, by simpa using hne h⟩)
        · exact Or.inl (Or.inr h)
    · rw [if_neg hd]
      simp [hd]

theorem addToMap_nodup (pol : String) (names : List String) (m : List (String × List String)) (d : String)
    (hm : (at_ m d).Nodup) : (at_ (addToMap names m pol) d).Nodup := by
  induction names generalizing m with
  | nil => exact hm
  | cons n r ih =>
    have e : addToMap (n :: r) m pol =
        addToMap r (put m n (sadd ((at_ m n).filter (fun k => decide (k ≠ dflt))) pol)) pol := rfl
    rw [e]
    apply ih
    unfold at_
    rw [lookup_put]
    split
    · rename_i h
      subst h
      exact nodup_sadd (hm.filter _) pol
    · exact hm

theorem addToMap_nil (pol : String) (names : List String) (m : List (String × List String)) :
    addToMap names m pol = [] ↔ m = [] ∧ names = [] := by
  induction names generalizing m with
  | nil => simp [addToMap]
  | cons n r ih =>
    have e : addToMap (n :: r) m pol =
        addToMap r (put m n (sadd ((at_ m n).filter (fun k => decide (k ≠ dflt))) pol)) pol := rfl
    rw [e, ih]
    simp [put_ne_nil]

/-- The default policy is put where nothing is. -/
theorem addToMap_dflt (names : List String) (d : String) :
    ∀ m : List (String × List String), (∀ x, at_ m x = [] ∨ at_ m x = [dflt]) →
      at_ (addToMap names m dflt) d = if d ∈ names then [dflt] else at_ m d := by
  induction names with
  | nil => intro m _; simp [addToMap]
  | cons n r ih =>
    intro m hm
    have e : addToMap (n :: r) m dflt =
        addToMap r (put m n (sadd ((at_ m n).filter (fun k => decide (k ≠ dflt))) dflt)) dflt := rfl
    have hs : sadd ((at_ m n).filter (fun k => decide (k ≠ dflt))) dflt = [dflt] := by
      rcases hm n with h | h <;> rw [h] <;> simp [sadd]
    have hat : ∀ x, at_ (put m n [dflt]) x = if x = n then [dflt] else at_ m x := by
      intro x
      unfold at_
      rw [lookup_put]
      split <;> rfl
    rw [e, hs, ih]
    · rw [hat]
      by_cases hd : d = n
      · subst hd; simp
      · simp [hd]
    · intro x
      rw [hat]
      split
      · exact Or.inr rfl
      · exact hm x

/-! ### Steps of the tracker -/

/-- A name with a descriptor. -/
def Tracker.knows (t : Tracker) (n : String) : Prop := (t.items.lookup n).isSome = true

/-- A name with an entry. -/
def Tracker.has (t : Tracker) (n : String) : Prop := (t.pols.lookup n).isSome = true

theorem addItem_knows (t : Tracker) (n x : String) (i : Item) :
    (t.addItem n i).knows x ↔ t.knows x ∨ (n ≠ "" ∧ x = n) := by
  unfold Tracker.addItem Tracker.knows
  by_cases hn : n = ""
  · simp [hn]
  · rw [if_neg hn]
    simp only [lookup_put]
    by_cases h : x = n <;> simp [h, hn]

theorem addItem_pols (t : Tracker) (n : String) (i : Item) : (t.addItem n i).pols = t.pols := by
  unfold Tracker.addItem; split <;> rfl

theorem addPeerPolicy_items (t : Tracker) (n pol : String) (egr ing : List String) :
    (t.addPeerPolicy n pol egr ing).items = t.items := by
  unfold Tracker.addPeerPolicy; split <;> rfl

theorem addPeerPolicy_sees (t : Tracker) (n pol : String) (egr ing : List String) (hn : t.knows n) (x : String) :
    (t.addPeerPolicy n pol egr ing).sees x = if x = n then (t.sees n).add pol egr ing else t.sees x := by
  unfold Tracker.knows at hn
  unfold Tracker.addPeerPolicy Tracker.sees
  rw [if_pos hn]
  simp only [lookup_put]
  split <;> rfl

theorem addPeerPolicy_has (t : Tracker) (n pol : String) (egr ing : List String) (hn : t.knows n) (x : String) :
    (t.addPeerPolicy n pol egr ing).has x ↔ t.has x ∨ x = n := by
  unfold Tracker.knows at hn
  unfold Tracker.addPeerPolicy Tracker.has
  rw [if_pos hn]
  simp only [lookup_put]
  by_cases h : x = n <;> simp [h]

theorem addPeerPolicy_unknown (t : Tracker) (n pol : String) (egr ing : List String) (hn : ¬ t.knows n) :
    t.addPeerPolicy n pol egr ing = t := by
  unfold Tracker.addPeerPolicy; exact if_neg hn

/-- What an entry says, given which policies are in it: `E d k` and `I d k` say that the policy `k` is kept for the peer `d`. -/
structure Says (P : Pols) (ps : List Pol) (x : String) : Prop where
  egress : ∀ d k, k ∈ at_ P.egress d ↔ ∃ p ∈ ps, p.name = k ∧ x ∈ p.sel ∧ d ∈ dsts p.egr
  ingress : ∀ d k, k ∈ at_ P.ingress d ↔ ∃ p ∈ ps, p.name = k ∧ x ∈ p.sel ∧ d ∈ srcs p.ing
  all : ∀ k, k ∈ P.all ↔ ∃ p ∈ ps, p.name = k ∧ x ∈ p.sel
  egressNil : P.egress = [] ↔ ∀ p ∈ ps, x ∈ p.sel → dsts p.egr = []
  ingressNil : P.ingress = [] ↔ ∀ p ∈ ps, x ∈ p.sel → srcs p.ing = []
  nodupE : ∀ d, (at_ P.egress d).Nodup
  nodupI : ∀ d, (at_ P.ingress d).Nodup
  nodupA : P.all.Nodup

theorem says_nil (x : String) : Says {} [] x := by
  constructor <;> simp [at_]

/-- Adding a policy that selects the peer. -/
theorem Says.add {P : Pols} {ps : List Pol} {x : String} (h : Says P ps x) (p : Pol) (hx : x ∈ p.sel)
    (hps : ∀ q ∈ ps, q.name ≠ dflt) (hp : p.name ≠ dflt) :
    Says (P.add p.name (dsts p.egr) (srcs p.ing)) (ps ++ [p]) x := by
  have hE : ∀ d, dflt ∉ at_ P.egress d := fun d hd => by
    obtain ⟨q, hq, hn, _⟩ := (h.egress d dflt).1 hd
    exact hps q hq hn
  have hI : ∀ d, dflt ∉ at_ P.ingress d := fun d hd => by
    obtain ⟨q, hq, hn, _⟩ := (h.ingress d dflt).1 hd
    exact hps q hq hn
  constructor
  · intro d k
    refine (addToMap_at p.name hp (dsts p.egr) P.egress d k (hE d)).2.trans ?_
    rw [h.egress]
    constructor
    · rintro (⟨q, hq, hr⟩ | ⟨hd, hk⟩)
      · exact ⟨q, List.mem_append_left _ hq, hr⟩
      · exact ⟨p, by simp, hk.symm, hx, hd⟩
    · rintro ⟨q, hq, hn, hs, hd⟩
      rcases List.mem_append.1 hq with hq | hq
      · exact Or.inl ⟨q, hq, hn, hs, hd⟩
      · obtain rfl := List.mem_singleton.1 hq
        exact Or.inr ⟨hd, hn.symm⟩
  · intro d k
    refine (addToMap_at p.name hp (srcs p.ing) P.ingress d k (hI d)).2.trans ?_
    rw [h.ingress]
    constructor
    · rintro (⟨q, hq, hr⟩ | ⟨hd, hk⟩)
      · exact ⟨q, List.mem_append_left _ hq, hr⟩
      · exact ⟨p, by simp, hk.symm, hx, hd⟩
    · rintro ⟨q, hq, hn, hs, hd⟩
      rcases List.mem_append.1 hq with hq | hq
      · exact Or.inl ⟨q, hq, hn, hs, hd⟩
      · obtain rfl := List.mem_singleton.1 hq
        exact Or.inr ⟨hd, hn.symm⟩
  · intro k
    show k ∈ sadd P.all p.name ↔ _
    rw [mem_sadd, h.all]
    constructor
    · rintro (⟨q, hq, hr⟩ | hk)
      · exact ⟨q, List.mem_append_left _ hq, hr⟩
      · exact ⟨p, by simp, hk.symm, hx⟩
    · rintro ⟨q, hq, hn, hs⟩
      rcases List.mem_append.1 hq with hq | hq
      · exact Or.inl ⟨q, hq, hn, hs⟩
      · obtain rfl := List.mem_singleton.1 hq
        exact Or.inr hn.symm
  · refine (addToMap_nil p.name (dsts p.egr) P.egress).trans ?_
    rw [h.egressNil]
    constructor
    · rintro ⟨h1, h2⟩ q hq hs
      rcases List.mem_append.1 hq with hq | hq
      · exact h1 q hq hs
      · obtain rfl := List.mem_singleton.1 hq
        exact h2
    · intro ha
      exact ⟨fun q hq => ha q (List.mem_append_left _ hq), ha p (by simp) hx⟩
  · refine (addToMap_nil p.name (srcs p.ing) P.ingress).trans ?_
    rw [h.ingressNil]
    constructor
    · rintro ⟨h1, h2⟩ q hq hs
      rcases List.mem_append.1 hq with hq | hq
      · exact h1 q hq hs
      · obtain rfl := List.mem_singleton.1 hq
        exact h2
    · intro ha
      exact ⟨fun q hq => ha q (List.mem_append_left _ hq), ha p (by simp) hx⟩
  · exact fun d => addToMap_nodup p.name _ _ d (h.nodupE d)
  · exact fun d => addToMap_nodup p.name _ _ d (h.nodupI d)
  · exact nodup_sadd h.nodupA p.name

/-- The same policies in the same places. -/
theorem Says.congr {P : Pols} {ps qs : List Pol} {x : String} (h : Says P ps x) (hm : ∀ p, x ∈ p.sel → (p ∈ ps ↔ p ∈ qs)) :
    Says P qs x := by
  have e : ∀ (F : Pol → Prop), (∃ p ∈ ps, x ∈ p.sel ∧ F p) ↔ ∃ p ∈ qs, x ∈ p.sel ∧ F p := fun F =>
    ⟨fun ⟨p, h1, h2, h3⟩ => ⟨p, (hm p h2).1 h1, h2, h3⟩, fun ⟨p, h1, h2, h3⟩ => ⟨p, (hm p h2).2 h1, h2, h3⟩⟩
  constructor
  · intro d k
    rw [h.egress]
    have := e (fun p => p.name = k ∧ d ∈ dsts p.egr)
    constructor
    · rintro ⟨p, h1, h2, h3, h4⟩
      exact ⟨p, (hm p h3).1 h1, h2, h3, h4⟩
    · rintro ⟨p, h1, h2, h3, h4⟩
      exact ⟨p, (hm p h3).2 h1, h2, h3, h4⟩
  · intro d k
    rw [h.ingress]
    constructor
    · rintro ⟨p, h1, h2, h3, h4⟩
      exact ⟨p, (hm p h3).1 h1, h2, h3, h4⟩
    · rintro ⟨p, h1, h2, h3, h4⟩
      exact ⟨p, (hm p h3).2 h1, h2, h3, h4⟩
  · intro k
    rw [h.all]
    constructor
    · rintro ⟨p, h1, h2, h3⟩
      exact ⟨p, (hm p h3).1 h1, h2, h3⟩
    · rintro ⟨p, h1, h2, h3⟩
      exact ⟨p, (hm p h3).2 h1, h2, h3⟩
  · rw [h.egressNil]
    exact ⟨fun H p hp hs => H p ((hm p hs).2 hp) hs, fun H p hp hs => H p ((hm p hs).1 hp) hs⟩
  · rw [h.ingressNil]
    exact ⟨fun H p hp hs => H p ((hm p hs).2 hp) hs, fun H p hp hs => H p ((hm p hs).1 hp) hs⟩
  · exact h.nodupE
  · exact h.nodupI
  · exact h.nodupA

/-- The entries after a policy is added to the peers it selects. -/
theorem addPolicy_says (t : Tracker) (p : Pol) (ps : List Pol) (x : String) (hk : t.knows x)
    (h : Says (t.sees x) ps x) (hps : ∀ q ∈ ps, q.name ≠ dflt) (hp : p.name ≠ dflt) :
    (t.addPolicy p).items = t.items ∧ Says ((t.addPolicy p).sees x) (ps ++ [p]) x ∧
      ((t.addPolicy p).has x ↔ t.has x ∨ x ∈ p.sel) := by
  have key : ∀ (l : List String) (t : Tracker) (done : Bool), t.knows x →
      (∀ n ∈ l, n ∈ p.sel) →
      Says (t.sees x) (if done then ps ++ [p] else ps) x → (done = true → x ∈ p.sel) →
      (l.foldl (fun t n => t.addPeerPolicy n p.name (dsts p.egr) (srcs p.ing)) t).items = t.items ∧
      Says ((l.foldl (fun t n => t.addPeerPolicy n p.name (dsts p.egr) (srcs p.ing)) t).sees x)
        (if done ∨ x ∈ l then ps ++ [p] else ps) x ∧
      ((l.foldl (fun t n => t.addPeerPolicy n p.name (dsts p.egr) (srcs p.ing)) t).has x ↔ t.has x ∨ x ∈ l) := by
    intro l
    induction l with
    | nil => intro t done hk hl hs hd; cases done <;> simpa using hs
    | cons n r ih =>
      intro t done hk hl hs hd
      simp only [List.foldl_cons]
      have hl' : ∀ m ∈ r, m ∈ p.sel := fun m hm => hl m (List.mem_cons_of_mem _ hm)
      have hi := addPeerPolicy_items t n p.name (dsts p.egr) (srcs p.ing)
      have hk' : (t.addPeerPolicy n p.name (dsts p.egr) (srcs p.ing)).knows x := by
        unfold Tracker.knows; rw [hi]; exact hk
      by_cases hn : x = n
      · subst hn
        have hx : x ∈ p.sel := hl x List.mem_cons_self
        have hs' : Says ((t.addPeerPolicy x p.name (dsts p.egr) (srcs p.ing)).sees x) (if true then ps ++ [p] else ps) x := by
          rw [addPeerPolicy_sees t x _ _ _ hk, if_pos rfl]
          cases done with
          | false => exact Says.add hs p hx hps hp
          | true =>
            have := Says.add (P := t.sees x) (ps := ps ++ [p]) (x := x) (by simpa using hs) p hx
              (by
                intro q hq
                rcases List.mem_append.1 hq with hq | hq
                · exact hps q hq
                · obtain rfl := List.mem_singleton.1 hq
                  exact hp) hp
            refine this.congr (fun q _ => ?_)
            simp
        obtain ⟨h1, h2, h3⟩ := ih _ true hk' hl' hs' (fun _ => hx)
        refine ⟨h1.trans hi, ?_, ?_⟩
        · simpa using h2
        · rw [h3, addPeerPolicy_has t x _ _ _ hk]
          simp
      · have hsame : (t.addPeerPolicy n p.name (dsts p.egr) (srcs p.ing)).sees x = t.sees x ∧
            ((t.addPeerPolicy n p.name (dsts p.egr) (srcs p.ing)).has x ↔ t.has x) := by
          rcases Classical.em (t.knows n) with hkn | hkn
          · refine ⟨?_, ?_⟩
            · rw [addPeerPolicy_sees t n _ _ _ hkn, if_neg hn]
            · rw [addPeerPolicy_has t n _ _ _ hkn]
              simp [hn]
          · rw [addPeerPolicy_unknown t n _ _ _ hkn]
            exact ⟨rfl, Iff.rfl⟩
        obtain ⟨h1, h2, h3⟩ := ih _ done hk' hl' (by rw [hsame.1]; exact hs) hd
        refine ⟨h1.trans hi, ?_, ?_⟩
        · have e : (x ∈ n :: r) ↔ x ∈ r := by simp [hn]
          simpa only [e] using h2
        · rw [h3, hsame.2]
          simp [hn]
  obtain ⟨h1, h2, h3⟩ := key p.sel t false hk (fun _ h => h) (by simpa using h) (fun h => absurd h (by simp))
  refine ⟨h1, ?_, h3⟩
  by_cases hx : x ∈ p.sel
  · simpa [hx, Tracker.addPolicy] using h2
  · have h2' : Says ((t.addPolicy p).sees x) ps x := by simpa [hx, Tracker.addPolicy] using h2
    refine h2'.congr (fun q hq => ?_)
    constructor
    · exact fun h => List.mem_append_left _ h
    · intro h
      rcases List.mem_append.1 h with h | h
      · exact h
      · obtain rfl := List.mem_singleton.1 h
        exact absurd hq hx

theorem readPolicy_says (t : Tracker) (p : Pol) (ps : List Pol) (x : String) (hk : t.knows x)
    (h : Says (t.sees x) ps x) (hps : ∀ q ∈ ps, q.name ≠ dflt) (hp : p.name ≠ dflt) :
    (t.readPolicy p).knows x ∧ Says ((t.readPolicy p).sees x) (ps ++ [p]) x ∧
      ((t.readPolicy p).has x ↔ t.has x ∨ x ∈ p.sel) := by
  obtain ⟨h1, h2, h3⟩ := addPolicy_says t p ps x hk h hps hp
  refine ⟨?_, ?_, ?_⟩
  · unfold Tracker.readPolicy
    rw [addItem_knows]
    left
    unfold Tracker.knows
    rw [h1]
    exact hk
  · unfold Tracker.readPolicy Tracker.sees
    rw [addItem_pols]
    exact h2
  · unfold Tracker.readPolicy Tracker.has
    rw [addItem_pols]
    exact h3

/-- The entries after all policies are read. -/
theorem readPolicies_says (x : String) (qs : List Pol) :
    ∀ (t : Tracker) (ps : List Pol), t.knows x → Says (t.sees x) ps x → (∀ q ∈ ps ++ qs, q.name ≠ dflt) →
      (qs.foldl (fun t p => t.readPolicy p) t).knows x ∧
      Says ((qs.foldl (fun t p => t.readPolicy p) t).sees x) (ps ++ qs) x ∧
      ((qs.foldl (fun t p => t.readPolicy p) t).has x ↔ t.has x ∨ ∃ q ∈ qs, x ∈ q.sel) := by
  induction qs with
  | nil => intro t ps hk h _; simpa [hk] using h
  | cons q r ih =>
    intro t ps hk h hq
    obtain ⟨h1, h2, h3⟩ := readPolicy_says t q ps x hk h (fun a ha => hq a (List.mem_append_left _ ha))
      (hq q (List.mem_append_right _ List.mem_cons_self))
    obtain ⟨h4, h5, h6⟩ := ih (t.readPolicy q) (ps ++ [q]) h1 h2 (fun a ha => hq a (by simpa using ha))
    refine ⟨h4, by simpa using h5, ?_⟩
    simp only [List.foldl_cons]
    rw [h6, h3]
    simp [or_assoc]

/-- The tracker after the endpoints are read. -/
theorem readPods_says (es : List (String × Item)) :
    ∀ (t : Tracker), (es.foldl (fun t e => t.addItem e.1 e.2) t).pols = t.pols ∧
      ∀ x, (es.foldl (fun t e => t.addItem e.1 e.2) t).knows x ↔ t.knows x ∨ (x ≠ "" ∧ ∃ i, (x, i) ∈ es) := by
  induction es with
  | nil => intro t; simp
  | cons e r ih =>
    intro t
    obtain ⟨h1, h2⟩ := ih (t.addItem e.1 e.2)
    simp only [List.foldl_cons]
    refine ⟨h1.trans (addItem_pols _ _ _), fun x => ?_⟩
    rw [h2, addItem_knows]
    obtain ⟨n, i⟩ := e
    constructor
    · rintro ((h | ⟨h, rfl⟩) | ⟨h, i', h'⟩)
      · exact Or.inl h
      · exact Or.inr ⟨h, i, List.mem_cons_self⟩
      · exact Or.inr ⟨h, i', List.mem_cons_of_mem _ h'⟩
    · rintro (h | ⟨h, i', h'⟩)
      · exact Or.inl (Or.inl h)
      · rcases List.mem_cons.1 h' with h' | h'
        · obtain ⟨rfl, rfl⟩ := Prod.mk.inj h'
          exact Or.inl (Or.inr ⟨h, rfl⟩)
        · exact Or.inr ⟨h, i', h'⟩

end Expl

end Verif
