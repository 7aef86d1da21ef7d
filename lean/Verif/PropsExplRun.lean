import Verif.PropsExpl
/-!
C68: what an explanation lists, for runs on configurations with Kubernetes policies.
-/
namespace Verif

namespace Expl

/-! ### What the claims talk about -/

/-- A policy with these allowed connections lets the one reach the other. -/
def Lets (cubes : List (List String × List String)) (s d : String) : Prop := ∃ c ∈ cubes, s ∈ c.1 ∧ d ∈ c.2

/-- Some policy restricts what goes out of a peer. -/
def World.LimitsOut (W : World) (x : String) : Prop := ∃ p ∈ W.pols, p.affE = true ∧ x ∈ p.sel

/-- Some policy restricts what comes to a peer. -/
def World.LimitsIn (W : World) (x : String) : Prop := ∃ p ∈ W.pols, p.affI = true ∧ x ∈ p.sel

/-- The reasons at the source: policies that select it and let it reach the destination, or the default if nothing limits it. -/
def World.ReasonOut (W : World) (x y k : String) : Prop :=
  (∃ p ∈ W.pols, p.name = k ∧ x ∈ p.sel ∧ Lets p.egr x y) ∨ (k = "Default-Policy" ∧ ¬ W.LimitsOut x)

/-- The reasons at the destination. -/
def World.ReasonIn (W : World) (x y k : String) : Prop :=
  (∃ p ∈ W.pols, p.name = k ∧ y ∈ p.sel ∧ Lets p.ing x y) ∨ (k = "Default-Policy" ∧ ¬ W.LimitsIn y)

/-- All that applies to a peer. -/
def World.Applies (W : World) (x k : String) : Prop :=
  (∃ p ∈ W.pols, p.name = k ∧ x ∈ p.sel) ∨ (k = "Default-Policy" ∧ (¬ W.LimitsOut x ∨ ¬ W.LimitsIn x))

/-- Configurations whose policies allow something only in directions they affect. -/
structure World.Fair (W : World) : Prop where
  named : ∀ p ∈ W.pols, p.name ≠ "Default-Policy"
  quietE : ∀ p ∈ W.pols, p.affE = false → p.egr = []
  quietI : ∀ p ∈ W.pols, p.affI = false → p.ing = []
  read : ∀ x ∈ W.nodes, x ≠ "" ∧ ∃ i, (x, i) ∈ W.pods
  everyone : ∀ x ∈ W.nodes, x ∈ W.everyone

/-- Every policy allows the same peers to all the peers it selects (no named ports). -/
structure World.Even (W : World) : Prop where
  out : ∀ p ∈ W.pols, ∀ s ∈ p.sel, ∀ s' d, Lets p.egr s' d → Lets p.egr s d
  inn : ∀ p ∈ W.pols, ∀ d ∈ p.sel, ∀ s d', Lets p.ing s d' → Lets p.ing s d
  /-- no cube is empty -/
  solid : ∀ p ∈ W.pols, ∀ c ∈ p.egr ++ p.ing, c.1 ≠ [] ∧ c.2 ≠ []

/-! ### The default policy -/

/-- Nothing is kept in a direction. -/
def Pols.none_ (P : Pols) (ingress : Bool) : Bool := if ingress then P.ingress.isEmpty else P.egress.isEmpty

/-- An entry with the default policy added. -/
def Pols.deflt (P : Pols) (others : List String) (ingress : Bool) : Pols :=
  P.add dflt (if ingress then [] else others) (if ingress then others else [])

theorem deflt_deflt (P : Pols) (ingress : Bool) (others : List String) (h : (P.deflt others ingress).none_ ingress = true) :
    (P.deflt others ingress).deflt others ingress = P.deflt others ingress := by
  cases ingress with
  | true =>
    have h' : addToMap others P.ingress dflt = [] := by
      simpa [Pols.none_, Pols.deflt, Pols.add] using h
    have ho : others = [] := ((addToMap_nil _ _ _).1 h').2
    subst ho
    simp [Pols.deflt, Pols.add, addToMap, sadd_sadd]
  | false =>
    have h' : addToMap others P.egress dflt = [] := by
      simpa [Pols.none_, Pols.deflt, Pols.add] using h
    have ho : others = [] := ((addToMap_nil _ _ _).1 h').2
    subst ho
    simp [Pols.deflt, Pols.add, addToMap, sadd_sadd]

theorem sees_of_not_has (t : Tracker) (x : String) (h : ¬ t.has x) : t.sees x = {} := by
  unfold Tracker.has at h
  unfold Tracker.sees
  cases hl : t.pols.lookup x with
  | none => rfl
  | some P => rw [hl] at h; exact absurd rfl h

theorem has_of_not_none (t : Tracker) (x : String) (b : Bool) (h : (t.sees x).none_ b = false) : t.has x := by
  rcases Classical.em (t.has x) with h' | h'
  · exact h'
  · rw [sees_of_not_has t x h'] at h
    cases b <;> simp [Pols.none_] at h

/-- The loop of `add_default_policy`. -/
def defLoop (others : List String) (b : Bool) (l : List String) (t : Tracker) : Tracker :=
  l.foldl (fun t n => if t.listEmpty n b then t.addPeerPolicy n dflt (if b then [] else others) (if b then others else []) else t) t

theorem addDefault_eq (t : Tracker) (src dst : List String) (b : Bool) :
    t.addDefault src dst b = defLoop (if b then src else dst) b (if b then dst else src) t := by
  cases b <;> rfl

theorem defLoop_other (others : List String) (b : Bool) (l : List String) (x : String) :
    ∀ t : Tracker, x ∉ l → (defLoop others b l t).items = t.items ∧ (defLoop others b l t).sees x = t.sees x ∧
      ((defLoop others b l t).has x ↔ t.has x) := by
  induction l with
  | nil => intro t _; exact ⟨rfl, rfl, Iff.rfl⟩
  | cons n r ih =>
    intro t hx
    simp only [List.mem_cons, not_or] at hx
    have e : defLoop others b (n :: r) t = defLoop others b r
        (if t.listEmpty n b then t.addPeerPolicy n dflt (if b then [] else others) (if b then others else []) else t) := rfl
    rw [e]
    obtain ⟨h1, h2, h3⟩ := ih (if t.listEmpty n b then
      t.addPeerPolicy n dflt (if b then [] else others) (if b then others else []) else t) hx.2
    split at h1 <;> rename_i hc
    · rw [if_pos hc] at h2 h3
      rw [if_pos hc]
      refine ⟨h1.trans (addPeerPolicy_items _ _ _ _ _), ?_, ?_⟩
      · rw [h2]
        rcases Classical.em (t.knows n) with hk | hk
        · rw [addPeerPolicy_sees t n _ _ _ hk, if_neg hx.1]
        · rw [addPeerPolicy_unknown t n _ _ _ hk]
      · rw [h3]
        rcases Classical.em (t.knows n) with hk | hk
        · rw [addPeerPolicy_has t n _ _ _ hk]
          simp [hx.1]
        · rw [addPeerPolicy_unknown t n _ _ _ hk]
    · rw [if_neg hc] at h2 h3
      rw [if_neg hc]
      exact ⟨h1, h2, h3⟩

theorem defLoop_items (others : List String) (b : Bool) (l : List String) :
    ∀ t : Tracker, (defLoop others b l t).items = t.items := by
  induction l with
  | nil => intro t; rfl
  | cons n r ih =>
    intro t
    have e : defLoop others b (n :: r) t = defLoop others b r
        (if t.listEmpty n b then t.addPeerPolicy n dflt (if b then [] else others) (if b then others else []) else t) := rfl
    rw [e, ih]
    split
    · exact addPeerPolicy_items _ _ _ _ _
    · rfl

theorem defLoop_self (others : List String) (b : Bool) (l : List String) (x : String) :
    ∀ t : Tracker, t.knows x → x ∈ l →
      (defLoop others b l t).sees x = (if (t.sees x).none_ b then (t.sees x).deflt others b else t.sees x) ∧
      (defLoop others b l t).has x := by
  induction l with
  | nil => intro t _ h; exact absurd h List.not_mem_nil
  | cons n r ih =>
    intro t hk hx
    have e : defLoop others b (n :: r) t = defLoop others b r
        (if t.listEmpty n b then t.addPeerPolicy n dflt (if b then [] else others) (if b then others else []) else t) := rfl
    rw [e]
    have hle : t.listEmpty n b = (t.sees n).none_ b := rfl
    by_cases hn : n = x
    · subst hn
      by_cases hc : (t.sees n).none_ b = true
      · rw [hle, if_pos hc, if_pos hc]
        have hs : (t.addPeerPolicy n dflt (if b then [] else others) (if b then others else [])).sees n =
            (t.sees n).deflt others b := by
          rw [addPeerPolicy_sees t n _ _ _ hk, if_pos rfl]; rfl
        have hh : (t.addPeerPolicy n dflt (if b then [] else others) (if b then others else [])).has n :=
          (addPeerPolicy_has t n _ _ _ hk n).2 (Or.inr rfl)
        have hk' : (t.addPeerPolicy n dflt (if b then [] else others) (if b then others else [])).knows n := by
          unfold Tracker.knows; rw [addPeerPolicy_items]; exact hk
        by_cases hr : n ∈ r
        · obtain ⟨h1, h2⟩ := ih _ hk' hr
          refine ⟨?_, h2⟩
          rw [h1, hs]
          split
          · rename_i hd; exact deflt_deflt _ _ _ hd
          · rfl
        · obtain ⟨-, h1, h2⟩ := defLoop_other others b r n
            (t.addPeerPolicy n dflt (if b then [] else others) (if b then others else [])) hr
          exact ⟨h1.trans hs, h2.2 hh⟩
      · have hc' : (t.sees n).none_ b = false := by simpa using hc
        rw [hle, if_neg hc, if_neg hc]
        have hh : t.has n := has_of_not_none t n b hc'
        by_cases hr : n ∈ r
        · obtain ⟨h1, h2⟩ := ih t hk hr
          rw [if_neg hc] at h1
          exact ⟨h1, h2⟩
        · obtain ⟨-, h1, h2⟩ := defLoop_other others b r n t hr
          exact ⟨h1, h2.2 hh⟩
    · have hr : x ∈ r := by
        rcases List.mem_cons.1 hx with h | h
        · exact absurd h.symm hn
        · exact h
      split
      · have hs : (t.addPeerPolicy n dflt (if b then [] else others) (if b then others else [])).sees x = t.sees x := by
          rcases Classical.em (t.knows n) with h | h
          · rw [addPeerPolicy_sees t n _ _ _ h, if_neg (Ne.symm hn)]
          · rw [addPeerPolicy_unknown t n _ _ _ h]
        have hk' : (t.addPeerPolicy n dflt (if b then [] else others) (if b then others else [])).knows x := by
          unfold Tracker.knows; rw [addPeerPolicy_items]; exact hk
        obtain ⟨h1, h2⟩ := ih _ hk' hr
        rw [hs] at h1
        exact ⟨h1, h2⟩
      · exact ih t hk hr

/-! ### Layers and the query -/

theorem layer_items (t : Tracker) (pols : List Pol) (nodes everyone : List String) (b : Bool) :
    (t.layer pols nodes everyone b).items = t.items := by
  unfold Tracker.layer
  dsimp only
  split
  · rfl
  · split <;> rw [addDefault_eq, defLoop_items]

theorem layer_self (t : Tracker) (pols : List Pol) (nodes everyone : List String) (b : Bool) (x : String)
    (hk : t.knows x) (hx : x ∈ nodes) :
    (t.layer pols nodes everyone b).sees x =
      (if captured pols b x = false ∧ (t.sees x).none_ b = true then (t.sees x).deflt everyone b else t.sees x) ∧
    (captured pols b x = false → (t.layer pols nodes everyone b).has x) ∧
    (t.has x → (t.layer pols nodes everyone b).has x) := by
  by_cases hc : captured pols b x = false
  · have hf : x ∈ nodes.filter (fun n => !captured pols b n) := List.mem_filter.2 ⟨hx, by simp [hc]⟩
    have hne : (nodes.filter (fun n => !captured pols b n)).isEmpty = false := by
      cases h : nodes.filter (fun n => !captured pols b n) with
      | nil => rw [h] at hf; exact absurd hf List.not_mem_nil
      | cons a r => rfl
    have e : t.layer pols nodes everyone b = defLoop everyone b (nodes.filter (fun n => !captured pols b n)) t := by
      unfold Tracker.layer
      dsimp only
      rw [hne]
      cases b <;> rfl
    obtain ⟨h1, h2⟩ := defLoop_self everyone b _ x t hk hf
    rw [e]
    refine ⟨?_, fun _ => h2, fun _ => h2⟩
    rw [h1]
    by_cases hn : (t.sees x).none_ b = true
    · rw [if_pos hn, if_pos ⟨hc, hn⟩]
    · rw [if_neg hn, if_neg (fun h => hn h.2)]
  · have hf : x ∉ nodes.filter (fun n => !captured pols b n) := by
      intro h
      have := (List.mem_filter.1 h).2
      simp at this
      exact hc this
    rw [if_neg (fun h => hc h.1)]
    unfold Tracker.layer
    dsimp only
    split
    · exact ⟨rfl, fun h => absurd h hc, id⟩
    · cases b with
      | true =>
        simp only [if_true, addDefault_eq]
        obtain ⟨-, h2, h3⟩ := defLoop_other everyone true _ x t hf
        exact ⟨h2, fun h => absurd h hc, h3.2⟩
      | false =>
        simp only [Bool.false_eq_true, if_false, addDefault_eq]
        obtain ⟨-, h2, h3⟩ := defLoop_other everyone false _ x t hf
        exact ⟨h2, fun h => absurd h hc, h3.2⟩

theorem special_same (t : Tracker) (peers : List Peer) (y : Peer) (x : String) (h : t.has x) :
    (t.special peers y).sees x = t.sees x ∧ (t.special peers y).has x ∧
      (∀ n i, t.items.lookup n = some i → (t.special peers y).items.lookup n = some i) := by
  unfold Tracker.special
  split
  · exact ⟨rfl, h, fun _ _ h => h⟩
  · rename_i hy
    have hne : x ≠ y.name := by rintro rfl; exact hy h
    dsimp only
    rw [addDefault_eq, addDefault_eq]
    simp only [if_true, Bool.false_eq_true, if_false]
    generalize hu : (if (t.items.lookup y.name).isSome then t else t.addItem y.name ⟨"", 0, ""⟩) = u
    have hup : u.pols = t.pols := by
      rw [← hu]; split
      · rfl
      · exact addItem_pols _ _ _
    have hui : ∀ n i, t.items.lookup n = some i → u.items.lookup n = some i := by
      intro n i hn
      rw [← hu]
      split
      · exact hn
      · rename_i hk
        unfold Tracker.addItem
        split
        · exact hn
        · simp only [lookup_put]
          split
          · rename_i hny
            rw [← hny, hn] at hk
            exact absurd rfl hk
          · exact hn
    obtain ⟨h1, h2, h3⟩ := defLoop_other (peers.map (·.name)) false [y.name] x u (by simpa using hne)
    obtain ⟨h4, h5, h6⟩ := defLoop_other (peers.map (·.name)) true [y.name] x
      (defLoop (peers.map (·.name)) false [y.name] u) (by simpa using hne)
    refine ⟨?_, ?_, ?_⟩
    · rw [h5, h2]; unfold Tracker.sees; rw [hup]
    · rw [h6, h3]; unfold Tracker.has; rw [hup]; exact h
    · intro n i hn
      rw [h4, h1]
      exact hui n i hn

theorem special_conns (t : Tracker) (peers : List Peer) (y : Peer) :
    (t.special peers y).conns = t.conns ∧ (t.special peers y).peers = t.peers ∧ (t.special peers y).ep = t.ep := by
  have hp : ∀ (t : Tracker) n pol egr ing, (t.addPeerPolicy n pol egr ing).conns = t.conns ∧
      (t.addPeerPolicy n pol egr ing).peers = t.peers ∧ (t.addPeerPolicy n pol egr ing).ep = t.ep := by
    intro t n pol egr ing; unfold Tracker.addPeerPolicy; split <;> exact ⟨rfl, rfl, rfl⟩
  have hl : ∀ others b l (t : Tracker), (defLoop others b l t).conns = t.conns ∧ (defLoop others b l t).peers = t.peers ∧
      (defLoop others b l t).ep = t.ep := by
    intro others b l
    induction l with
    | nil => intro t; exact ⟨rfl, rfl, rfl⟩
    | cons n r ih =>
      intro t
      have e : defLoop others b (n :: r) t = defLoop others b r
        (if t.listEmpty n b then t.addPeerPolicy n dflt (if b then [] else others) (if b then others else []) else t) := rfl
      rw [e]
      obtain ⟨h1, h2, h3⟩ := ih (if t.listEmpty n b then
        t.addPeerPolicy n dflt (if b then [] else others) (if b then others else []) else t)
      rw [h1, h2, h3]
      split
      · exact hp _ _ _ _ _
      · exact ⟨rfl, rfl, rfl⟩
  have hi : ∀ (t : Tracker) n i, (t.addItem n i).conns = t.conns ∧ (t.addItem n i).peers = t.peers ∧ (t.addItem n i).ep = t.ep := by
    intro t n i; unfold Tracker.addItem; split <;> exact ⟨rfl, rfl, rfl⟩
  unfold Tracker.special
  split
  · exact ⟨rfl, rfl, rfl⟩
  · dsimp only
    rw [addDefault_eq, addDefault_eq]
    generalize hu : (if (t.items.lookup y.name).isSome then t else t.addItem y.name ⟨"", 0, ""⟩) = u
    have huu : u.conns = t.conns ∧ u.peers = t.peers ∧ u.ep = t.ep := by
      rw [← hu]; split
      · exact ⟨rfl, rfl, rfl⟩
      · exact hi _ _ _
    obtain ⟨a1, a2, a3⟩ := hl (if false = true then [y.name] else peers.map (·.name)) false
      (if false = true then peers.map (·.name) else [y.name]) u
    obtain ⟨b1, b2, b3⟩ := hl (if true = true then peers.map (·.name) else [y.name]) true
      (if true = true then [y.name] else peers.map (·.name))
      (defLoop (if false = true then [y.name] else peers.map (·.name)) false
        (if false = true then peers.map (·.name) else [y.name]) u)
    exact ⟨(b1.trans a1).trans huu.1, (b2.trans a2).trans huu.2.1, (b3.trans a3).trans huu.2.2⟩

theorem setConns_same (t : Tracker) (conns : String → String → Bool) (peers : List Peer) (x : String) (h : t.has x) :
    (t.setConns conns peers).sees x = t.sees x ∧ (t.setConns conns peers).has x ∧
      (∀ n i, t.items.lookup n = some i → (t.setConns conns peers).items.lookup n = some i) := by
  have key : ∀ (l : List Peer) (u : Tracker), u.has x →
      (l.foldl (fun t y => t.special peers y) u).sees x = u.sees x ∧ (l.foldl (fun t y => t.special peers y) u).has x ∧
      (∀ n i, u.items.lookup n = some i → (l.foldl (fun t y => t.special peers y) u).items.lookup n = some i) := by
    intro l
    induction l with
    | nil => intro u hu; exact ⟨rfl, hu, fun _ _ h => h⟩
    | cons y r ih =>
      intro u hu
      obtain ⟨h1, h2, h3⟩ := special_same u peers y x hu
      obtain ⟨h4, h5, h6⟩ := ih _ h2
      exact ⟨h4.trans h1, h5, fun n i hn => h6 n i (h3 n i hn)⟩
  exact key peers _ h

theorem setConns_conns (t : Tracker) (conns : String → String → Bool) (peers : List Peer) :
    (t.setConns conns peers).conns = conns ∧ (t.setConns conns peers).peers = peers ∧ (t.setConns conns peers).ep = t.ep := by
  have key : ∀ (l : List Peer) (u : Tracker),
      (l.foldl (fun t y => t.special peers y) u).conns = u.conns ∧ (l.foldl (fun t y => t.special peers y) u).peers = u.peers ∧
      (l.foldl (fun t y => t.special peers y) u).ep = u.ep := by
    intro l
    induction l with
    | nil => intro u; exact ⟨rfl, rfl, rfl⟩
    | cons y r ih =>
      intro u
      obtain ⟨h1, h2, h3⟩ := special_conns u peers y
      obtain ⟨h4, h5, h6⟩ := ih (u.special peers y)
      exact ⟨h4.trans h1, h5.trans h2, h6.trans h3⟩
  exact key peers _

/-! ### Runs -/

theorem captured_eq (pols : List Pol) (x : String) :
    (captured pols true x = false ↔ ¬ ∃ p ∈ pols, p.affI = true ∧ x ∈ p.sel) ∧
    (captured pols false x = false ↔ ¬ ∃ p ∈ pols, p.affE = true ∧ x ∈ p.sel) := by
  unfold captured
  constructor <;> simp [List.any_eq_false]

theorem activate_knows (ep : String) : ∀ x, (activate ep).has x ↔ False := by
  intro x
  unfold activate Tracker.has
  rw [addItem_pols]
  simp [List.lookup]

/-- What is kept of a node at the end of a run. -/
theorem run_node (W : World) (hW : W.Fair) (x : String) (hx : x ∈ W.nodes) :
    (run W).knows x ∧ (run W).has x ∧
    (∀ d k, k ∈ at_ ((run W).sees x).egress d ↔
      (∃ p ∈ W.pols, p.name = k ∧ x ∈ p.sel ∧ d ∈ dsts p.egr) ∨ (k = dflt ∧ ¬ W.LimitsOut x ∧ d ∈ W.everyone)) ∧
    (∀ d k, k ∈ at_ ((run W).sees x).ingress d ↔
      (∃ p ∈ W.pols, p.name = k ∧ x ∈ p.sel ∧ d ∈ srcs p.ing) ∨ (k = dflt ∧ ¬ W.LimitsIn x ∧ d ∈ W.everyone)) ∧
    (∀ k, k ∈ ((run W).sees x).all ↔ W.Applies x k) ∧
    (∀ d, (at_ ((run W).sees x).egress d).Nodup) ∧ (∀ d, (at_ ((run W).sees x).ingress d).Nodup) ∧
    ((run W).sees x).all.Nodup := by
  classical
  obtain ⟨hne, i, hi⟩ := hW.read x hx
  -- reading
  obtain ⟨p1, p2⟩ := readPods_says W.pods (activate W.ep)
  have k0 : (W.pods.foldl (fun t e => t.addItem e.1 e.2) (activate W.ep)).knows x := (p2 x).2 (Or.inr ⟨hne, i, hi⟩)
  have n0 : ¬ (W.pods.foldl (fun t e => t.addItem e.1 e.2) (activate W.ep)).has x := by
    unfold Tracker.has; rw [p1]; exact (activate_knows W.ep x).1
  have s0 : Says ((W.pods.foldl (fun t e => t.addItem e.1 e.2) (activate W.ep)).sees x) [] x := by
    rw [sees_of_not_has _ _ n0]; exact says_nil x
  obtain ⟨k1, s1, h1⟩ := readPolicies_says x W.pols _ [] k0 s0 (fun q hq => hW.named q (by simpa using hq))
  change ((activate W.ep).read W).knows x at k1
  change Says (((activate W.ep).read W).sees x) ([] ++ W.pols) x at s1
  change ((activate W.ep).read W).has x ↔ _ at h1
  rw [List.nil_append] at s1
  have hrun : run W = ((((activate W.ep).read W).layer W.pols W.nodes W.everyone true).layer W.pols W.nodes W.everyone
    false).setConns W.conns W.peers := rfl
  rw [hrun]
  generalize (activate W.ep).read W = t1 at k1 s1 h1
  -- ingress
  obtain ⟨a1, a2, a3⟩ := layer_self t1 W.pols W.nodes W.everyone true x k1 hx
  have k2 : (t1.layer W.pols W.nodes W.everyone true).knows x := by unfold Tracker.knows; rw [layer_items]; exact k1
  obtain ⟨b1, b2, b3⟩ := layer_self _ W.pols W.nodes W.everyone false x k2 hx
  have k3 : ((t1.layer W.pols W.nodes W.everyone true).layer W.pols W.nodes W.everyone false).knows x := by
    unfold Tracker.knows; rw [layer_items]; exact k2
  have c1 := (captured_eq W.pols x).1
  have c2 := (captured_eq W.pols x).2
  have h3 : ((t1.layer W.pols W.nodes W.everyone true).layer W.pols W.nodes W.everyone false).has x := by
    apply b3
    rcases Classical.em (W.LimitsIn x) with hl | hl
    · obtain ⟨p, hp, -, hs⟩ := hl
      exact a3 (h1.2 (Or.inr ⟨p, hp, hs⟩))
    · exact a2 (c1.2 hl)
  have hIn : ¬ W.LimitsIn x → (t1.sees x).ingress = [] := by
    intro hl
    rw [s1.ingressNil]
    intro p hp hs
    have : p.affI = false := by
      cases h : p.affI with
      | false => rfl
      | true => exact absurd ⟨p, hp, h, hs⟩ hl
    rw [hW.quietI p hp this]; rfl
  have hOut : ¬ W.LimitsOut x → (t1.sees x).egress = [] := by
    intro hl
    rw [s1.egressNil]
    intro p hp hs
    have : p.affE = false := by
      cases h : p.affE with
      | false => rfl
      | true => exact absurd ⟨p, hp, h, hs⟩ hl
    rw [hW.quietE p hp this]; rfl
  obtain ⟨e1, e2, e3⟩ := setConns_same _ W.conns W.peers x h3
  rw [e1]
  have a1' : (t1.layer W.pols W.nodes W.everyone true).sees x =
      if W.LimitsIn x then t1.sees x else (t1.sees x).deflt W.everyone true := by
    rw [a1]
    by_cases hl : W.LimitsIn x
    · rw [if_pos hl, if_neg (fun h => c1.1 h.1 hl)]
    · rw [if_neg hl, if_pos ⟨c1.2 hl, by simp [Pols.none_, hIn hl]⟩]
  have aE : ((t1.layer W.pols W.nodes W.everyone true).sees x).egress = (t1.sees x).egress := by
    rw [a1']; split <;> rfl
  have b1' : ((t1.layer W.pols W.nodes W.everyone true).layer W.pols W.nodes W.everyone false).sees x =
      if W.LimitsOut x then (t1.layer W.pols W.nodes W.everyone true).sees x
      else ((t1.layer W.pols W.nodes W.everyone true).sees x).deflt W.everyone false := by
    rw [b1]
    by_cases hl : W.LimitsOut x
    · rw [if_pos hl, if_neg (fun h => c2.1 h.1 hl)]
    · rw [if_neg hl, if_pos ⟨c2.2 hl, by simp [Pols.none_, aE, hOut hl]⟩]
  have fE : (((t1.layer W.pols W.nodes W.everyone true).layer W.pols W.nodes W.everyone false).sees x).egress =
      if W.LimitsOut x then (t1.sees x).egress else addToMap W.everyone [] dflt := by
    rw [b1']
    by_cases hl : W.LimitsOut x
    · rw [if_pos hl, if_pos hl, aE]
    · rw [if_neg hl, if_neg hl]
      show addToMap W.everyone _ dflt = _
      rw [aE, hOut hl]
  have fI : (((t1.layer W.pols W.nodes W.everyone true).layer W.pols W.nodes W.everyone false).sees x).ingress =
      if W.LimitsIn x then (t1.sees x).ingress else addToMap W.everyone [] dflt := by
    have : (((t1.layer W.pols W.nodes W.everyone true).layer W.pols W.nodes W.everyone false).sees x).ingress =
        ((t1.layer W.pols W.nodes W.everyone true).sees x).ingress := by
      rw [b1']; split <;> rfl
    rw [this, a1']
    by_cases hl : W.LimitsIn x
    · rw [if_pos hl, if_pos hl]
    · rw [if_neg hl, if_neg hl]
      show addToMap W.everyone _ dflt = _
      rw [hIn hl]
  have fA : ∀ k, k ∈ (((t1.layer W.pols W.nodes W.everyone true).layer W.pols W.nodes W.everyone false).sees x).all ↔
      k ∈ (t1.sees x).all ∨ (k = dflt ∧ (¬ W.LimitsOut x ∨ ¬ W.LimitsIn x)) := by
    intro k
    rw [b1', a1']
    by_cases hl : W.LimitsOut x <;> by_cases hl' : W.LimitsIn x
    · simp [hl, hl']
    · rw [if_pos hl, if_neg hl']
      show k ∈ sadd _ dflt ↔ _
      rw [mem_sadd]; simp [hl, hl']
    · rw [if_neg hl, if_pos hl']
      show k ∈ sadd _ dflt ↔ _
      rw [mem_sadd]; simp [hl, hl']
    · rw [if_neg hl, if_neg hl']
      show k ∈ sadd (sadd _ dflt) dflt ↔ _
      rw [sadd_sadd, mem_sadd]; simp [hl, hl']
  have fN : (((t1.layer W.pols W.nodes W.everyone true).layer W.pols W.nodes W.everyone false).sees x).all.Nodup := by
    have u : ((t1.layer W.pols W.nodes W.everyone true).sees x).all.Nodup := by
      rw [a1']; split
      · exact s1.nodupA
      · exact nodup_sadd s1.nodupA _
    rw [b1']; split
    · exact u
    · exact nodup_sadd u _
  have fD : ∀ d, at_ (addToMap W.everyone [] dflt) d = if d ∈ W.everyone then [dflt] else [] := by
    intro d
    rw [addToMap_dflt W.everyone d [] (fun _ => Or.inl rfl)]
    rfl
  refine ⟨?_, e2, ?_, ?_, ?_, ?_, ?_, ?_⟩
  · obtain ⟨v, hv⟩ := Option.isSome_iff_exists.1 k3
    unfold Tracker.knows
    rw [e3 x v hv]; rfl
  · intro d k
    rw [fE]
    by_cases hl : W.LimitsOut x
    · rw [if_pos hl, s1.egress]
      simp [hl]
    · rw [if_neg hl, fD]
      have hno : ¬ ∃ p ∈ W.pols, p.name = k ∧ x ∈ p.sel ∧ d ∈ dsts p.egr := by
        rintro ⟨p, hp, hn, hs, hd⟩
        have h0 := (s1.egress d k).2 ⟨p, hp, hn, hs, hd⟩
        rw [hOut hl] at h0
        exact absurd h0 (by simp [at_])
      by_cases hd : d ∈ W.everyone
      · rw [if_pos hd, List.mem_singleton]
        exact ⟨fun h => Or.inr ⟨h, hl, hd⟩, fun h => h.elim (fun h => absurd h hno) (·.1)⟩
      · rw [if_neg hd]
        exact ⟨fun h => absurd h List.not_mem_nil, fun h => h.elim (fun h => absurd h hno) (fun h => absurd h.2.2 hd)⟩
  · intro d k
    rw [fI]
    by_cases hl : W.LimitsIn x
    · rw [if_pos hl, s1.ingress]
      simp [hl]
    · rw [if_neg hl, fD]
      have hno : ¬ ∃ p ∈ W.pols, p.name = k ∧ x ∈ p.sel ∧ d ∈ srcs p.ing := by
        rintro ⟨p, hp, hn, hs, hd⟩
        have h0 := (s1.ingress d k).2 ⟨p, hp, hn, hs, hd⟩
        rw [hIn hl] at h0
        exact absurd h0 (by simp [at_])
      by_cases hd : d ∈ W.everyone
      · rw [if_pos hd, List.mem_singleton]
        exact ⟨fun h => Or.inr ⟨h, hl, hd⟩, fun h => h.elim (fun h => absurd h hno) (·.1)⟩
      · rw [if_neg hd]
        exact ⟨fun h => absurd h List.not_mem_nil, fun h => h.elim (fun h => absurd h hno) (fun h => absurd h.2.2 hd)⟩
  · intro k
    rw [fA, s1.all]
    rfl
  · intro d
    rw [fE]; split
    · exact s1.nodupE d
    · rw [fD]; split <;> simp
  · intro d
    rw [fI]; split
    · exact s1.nodupI d
    · rw [fD]; split <;> simp
  · exact fN

theorem run_conns (W : World) : (run W).conns = W.conns := (setConns_conns _ _ _).1

/-! ### Claims -/

/-- What an explanation of two connected nodes lists, whatever the other end of the cubes is. -/
theorem explain2_connected (W : World) (hW : W.Fair) (x y : String) (hx : x ∈ W.nodes) (hy : y ∈ W.nodes)
    (hc : W.conns x y = true) :
    ∃ ls ld, (run W).explain2 x y = some ⟨true, ls ++ [x], ld ++ [y]⟩ ∧
      Shows ls (fun k => (∃ p ∈ W.pols, p.name = k ∧ x ∈ p.sel ∧ y ∈ dsts p.egr) ∨ (k = dflt ∧ ¬ W.LimitsOut x)) ∧
      Shows ld (fun k => (∃ p ∈ W.pols, p.name = k ∧ y ∈ p.sel ∧ x ∈ srcs p.ing) ∨ (k = dflt ∧ ¬ W.LimitsIn y)) := by
  obtain ⟨kx, hx', ex, _, _, nx, _, _⟩ := run_node W hW x hx
  obtain ⟨ky, hy', _, iy, _, _, ny, _⟩ := run_node W hW y hy
  refine ⟨_, _, ?_, shows_sortNames (nx y) (fun k => ?_), shows_sortNames (ny x) (fun k => ?_)⟩
  · unfold Tracker.explain2
    rw [run_conns, hc]
    unfold Tracker.knows Tracker.has at *
    rw [kx, hx', ky, hy']
    rfl
  · rw [ex]; simp [hW.everyone y hy]
  · rw [iy]; simp [hW.everyone x hx]

theorem mem_dsts_iff {W : World} (hE : W.Even) {p : Pol} (hp : p ∈ W.pols) {x y : String} (hx : x ∈ p.sel) :
    y ∈ dsts p.egr ↔ Lets p.egr x y := by
  unfold dsts
  rw [List.mem_flatMap]
  constructor
  · rintro ⟨c, hc, hy⟩
    obtain ⟨s, hs⟩ := List.exists_mem_of_ne_nil _ (hE.solid p hp c (List.mem_append_left _ hc)).1
    exact hE.out p hp x hx s y ⟨c, hc, hs, hy⟩
  · rintro ⟨c, hc, -, hy⟩; exact ⟨c, hc, hy⟩

theorem mem_srcs_iff {W : World} (hE : W.Even) {p : Pol} (hp : p ∈ W.pols) {x y : String} (hy : y ∈ p.sel) :
    x ∈ srcs p.ing ↔ Lets p.ing x y := by
  unfold srcs
  rw [List.mem_flatMap]
  constructor
  · rintro ⟨c, hc, hx⟩
    obtain ⟨s, hs⟩ := List.exists_mem_of_ne_nil _ (hE.solid p hp c (List.mem_append_right _ hc)).2
    exact hE.inn p hp y hy x s ⟨c, hc, hx, hs⟩
  · rintro ⟨c, hc, hx, -⟩; exact ⟨c, hc, hx⟩

/-- **C68 (connected).**  For two connected nodes, an explanation lists at the source exactly the policies that select the source
and let it reach the destination — or the default policy, if no policy limits the source — and at the destination exactly the
policies that select it and let it be reached from the source, or the default policy.  Names are listed in increasing order, each
once, followed by the node. -/
theorem C68_connected_partial (W : World) (hW : W.Fair) (hE : W.Even) (x y : String) (hx : x ∈ W.nodes) (hy : y ∈ W.nodes)
    (hc : W.conns x y = true) :
    ∃ ls ld, (run W).explain2 x y = some ⟨true, ls ++ [x], ld ++ [y]⟩ ∧
      Shows ls (W.ReasonOut x y) ∧ Shows ld (W.ReasonIn x y) := by
  obtain ⟨ls, ld, h, h1, h2⟩ := explain2_connected W hW x y hx hy hc
  refine ⟨ls, ld, h, ⟨h1.increasing, fun k => (h1.exact k).trans ?_⟩, ⟨h2.increasing, fun k => (h2.exact k).trans ?_⟩⟩
  · unfold World.ReasonOut
    refine or_congr ⟨?_, ?_⟩ Iff.rfl
    · rintro ⟨p, hp, hn, hs, hd⟩; exact ⟨p, hp, hn, hs, (mem_dsts_iff hE hp hs).1 hd⟩
    · rintro ⟨p, hp, hn, hs, hd⟩; exact ⟨p, hp, hn, hs, (mem_dsts_iff hE hp hs).2 hd⟩
  · unfold World.ReasonIn
    refine or_congr ⟨?_, ?_⟩ Iff.rfl
    · rintro ⟨p, hp, hn, hs, hd⟩; exact ⟨p, hp, hn, hs, (mem_srcs_iff hE hp hs).1 hd⟩
    · rintro ⟨p, hp, hn, hs, hd⟩; exact ⟨p, hp, hn, hs, (mem_srcs_iff hE hp hs).2 hd⟩

/-- **C68 (complete).**  Also without a condition on the ends of cubes: no policy that lets the source reach the destination is
left out at the source, and none that lets the destination be reached is left out there. -/
theorem C68_complete_partial (W : World) (hW : W.Fair) (x y : String) (hx : x ∈ W.nodes) (hy : y ∈ W.nodes)
    (hc : W.conns x y = true) :
    ∃ ls ld, (run W).explain2 x y = some ⟨true, ls ++ [x], ld ++ [y]⟩ ∧
      (∀ k, W.ReasonOut x y k → k ∈ ls) ∧ (∀ k, W.ReasonIn x y k → k ∈ ld) ∧
      (∀ k ∈ ls ++ ld, k = "Default-Policy" ∨ ∃ p ∈ W.pols, p.name = k ∧ (x ∈ p.sel ∨ y ∈ p.sel)) := by
  obtain ⟨ls, ld, h, h1, h2⟩ := explain2_connected W hW x y hx hy hc
  refine ⟨ls, ld, h, ?_, ?_, ?_⟩
  · rintro k (⟨p, hp, hn, hs, c, hc, -, hd⟩ | hk)
    · exact (h1.exact k).2 (Or.inl ⟨p, hp, hn, hs, List.mem_flatMap.2 ⟨c, hc, hd⟩⟩)
    · exact (h1.exact k).2 (Or.inr hk)
  · rintro k (⟨p, hp, hn, hs, c, hc, hd, -⟩ | hk)
    · exact (h2.exact k).2 (Or.inl ⟨p, hp, hn, hs, List.mem_flatMap.2 ⟨c, hc, hd⟩⟩)
    · exact (h2.exact k).2 (Or.inr hk)
  · intro k hk
    rcases List.mem_append.1 hk with hk | hk
    · rcases (h1.exact k).1 hk with ⟨p, hp, hn, hs, -⟩ | ⟨hd, -⟩
      · exact Or.inr ⟨p, hp, hn, Or.inl hs⟩
      · exact Or.inl hd
    · rcases (h2.exact k).1 hk with ⟨p, hp, hn, hs, -⟩ | ⟨hd, -⟩
      · exact Or.inr ⟨p, hp, hn, Or.inr hs⟩
      · exact Or.inl hd

/-- **C68 (lack).**  For two nodes that are not connected, an explanation lists at either side exactly the policies that select
it, and the default policy if some direction is not limited. -/
theorem C68_lack_partial (W : World) (hW : W.Fair) (x y : String) (hx : x ∈ W.nodes) (hy : y ∈ W.nodes)
    (hc : W.conns x y = false) :
    ∃ ls ld, (run W).explain2 x y = some ⟨false, ls ++ [x], ld ++ [y]⟩ ∧ Shows ls (W.Applies x) ∧ Shows ld (W.Applies y) := by
  obtain ⟨kx, hx', _, _, ax, _, _, nx⟩ := run_node W hW x hx
  obtain ⟨ky, hy', _, _, ay, _, _, ny⟩ := run_node W hW y hy
  refine ⟨_, _, ?_, shows_sortNames nx ax, shows_sortNames ny ay⟩
  unfold Tracker.explain2
  rw [run_conns, hc]
  unfold Tracker.knows Tracker.has at *
  rw [kx, hx', ky, hy']
  rfl

/-- **C68 (single).**  The explanation of one node lists exactly the policies that select it, and the default policy if some
direction is not limited. -/
theorem C68_single_partial (W : World) (hW : W.Fair) (x : String) (hx : x ∈ W.nodes) :
    ∃ ls, (run W).explain1 x = some (ls ++ [x]) ∧ Shows ls (W.Applies x) := by
  obtain ⟨kx, hx', _, _, ax, _, _, nx⟩ := run_node W hW x hx
  refine ⟨_, ?_, shows_sortNames nx ax⟩
  unfold Tracker.explain1
  unfold Tracker.knows Tracker.has at *
  rw [kx, hx']
  rfl

/-- **C68 (reason).**  If the map is that of the policies — two nodes are connected only if each end is not limited or has a policy
that lets them, and two ends that are not limited are connected — then an explanation gives a reason: at both ends of a
connection there is one, and if there is no connection, a policy that limits one of the ends is listed at that end. -/
theorem C68_reason_partial (W : World) (hW : W.Fair) (x y : String) (hx : x ∈ W.nodes) (hy : y ∈ W.nodes)
    (hout : W.conns x y = true → ¬ W.LimitsOut x ∨ ∃ p ∈ W.pols, x ∈ p.sel ∧ Lets p.egr x y)
    (hin : W.conns x y = true → ¬ W.LimitsIn y ∨ ∃ p ∈ W.pols, y ∈ p.sel ∧ Lets p.ing x y)
    (hfree : ¬ W.LimitsOut x → ¬ W.LimitsIn y → W.conns x y = true) :
    ∃ f ls ld, (run W).explain2 x y = some f ∧ f = ⟨W.conns x y, ls ++ [x], ld ++ [y]⟩ ∧
      (W.conns x y = true → (∃ k ∈ ls, W.ReasonOut x y k) ∧ ∃ k ∈ ld, W.ReasonIn x y k) ∧
      (W.conns x y = false →
        (∃ p ∈ W.pols, p.affE = true ∧ x ∈ p.sel ∧ p.name ∈ ls) ∨ ∃ p ∈ W.pols, p.affI = true ∧ y ∈ p.sel ∧ p.name ∈ ld) := by
  cases hc : W.conns x y with
  | true =>
    obtain ⟨ls, ld, h, h1, h2, -⟩ := C68_complete_partial W hW x y hx hy hc
    refine ⟨_, ls, ld, h, rfl, fun _ => ⟨?_, ?_⟩, fun h => absurd h (by simp)⟩
    · rcases hout hc with hl | ⟨p, hp, hs, hd⟩
      · exact ⟨_, h1 _ (Or.inr ⟨rfl, hl⟩), Or.inr ⟨rfl, hl⟩⟩
      · exact ⟨_, h1 _ (Or.inl ⟨p, hp, rfl, hs, hd⟩), Or.inl ⟨p, hp, rfl, hs, hd⟩⟩
    · rcases hin hc with hl | ⟨p, hp, hs, hd⟩
      · exact ⟨_, h2 _ (Or.inr ⟨rfl, hl⟩), Or.inr ⟨rfl, hl⟩⟩
      · exact ⟨_, h2 _ (Or.inl ⟨p, hp, rfl, hs, hd⟩), Or.inl ⟨p, hp, rfl, hs, hd⟩⟩
  | false =>
    obtain ⟨ls, ld, h, h1, h2⟩ := C68_lack_partial W hW x y hx hy hc
    refine ⟨_, ls, ld, h, rfl, fun h => absurd h (by simp), fun _ => ?_⟩
    rcases Classical.em (W.LimitsOut x) with ⟨p, hp, ha, hs⟩ | hl
    · exact Or.inl ⟨p, hp, ha, hs, (h1.exact _).2 (Or.inl ⟨p, hp, rfl, hs⟩)⟩
    · rcases Classical.em (W.LimitsIn y) with ⟨p, hp, ha, hs⟩ | hl'
      · exact Or.inr ⟨p, hp, ha, hs, (h2.exact _).2 (Or.inl ⟨p, hp, rfl, hs⟩)⟩
      · rw [hfree hl hl'] at hc; exact absurd hc (by simp)

/-- **C68 (default).**  Beside an explicit policy the default policy is never given as a reason for a connection. -/
theorem C68_default (W : World) (hW : W.Fair) (x y : String) (hx : x ∈ W.nodes) (hy : y ∈ W.nodes)
    (hc : W.conns x y = true) :
    ∃ ls ld, (run W).explain2 x y = some ⟨true, ls ++ [x], ld ++ [y]⟩ ∧
      ("Default-Policy" ∈ ls → ls = ["Default-Policy"]) ∧ ("Default-Policy" ∈ ld → ld = ["Default-Policy"]) := by
  obtain ⟨ls, ld, h, h1, h2⟩ := explain2_connected W hW x y hx hy hc
  refine ⟨ls, ld, h, ?_, ?_⟩
  · intro hd
    have hl : ¬ W.LimitsOut x := by
      rcases (h1.exact _).1 hd with ⟨p, hp, hn, -⟩ | ⟨-, hl⟩
      · exact absurd hn (hW.named p hp)
      · exact hl
    refine h1.unique ⟨by simp, fun k => ?_⟩
    rw [List.mem_singleton]
    constructor
    · rintro rfl; exact Or.inr ⟨rfl, hl⟩
    · rintro (⟨p, hp, -, hs, hd⟩ | ⟨hk, -⟩)
      · cases ha : p.affE with
        | true => exact absurd ⟨p, hp, ha, hs⟩ hl
        | false => rw [hW.quietE p hp ha] at hd; exact absurd hd (by simp [dsts])
      · exact hk
  · intro hd
    have hl : ¬ W.LimitsIn y := by
      rcases (h2.exact _).1 hd with ⟨p, hp, hn, -⟩ | ⟨-, hl⟩
      · exact absurd hn (hW.named p hp)
      · exact hl
    refine h2.unique ⟨by simp, fun k => ?_⟩
    rw [List.mem_singleton]
    constructor
    · rintro rfl; exact Or.inr ⟨rfl, hl⟩
    · rintro (⟨p, hp, -, hs, hd⟩ | ⟨hk, -⟩)
      · cases ha : p.affI with
        | true => exact absurd ⟨p, hp, ha, hs⟩ hl
        | false => rw [hW.quietI p hp ha] at hd; exact absurd hd (by simp [srcs])
      · exact hk

/-- **C68 (order).**  Explanations do not depend on the order in which policies, endpoints and peers are read. -/
theorem C68_order (W W' : World) (hW : W.Fair) (hW' : W'.Fair) (hp : ∀ p, p ∈ W.pols ↔ p ∈ W'.pols)
    (hn : ∀ x, x ∈ W.nodes ↔ x ∈ W'.nodes) (hc : ∀ x y, W.conns x y = W'.conns x y) (x y : String) (hx : x ∈ W.nodes)
    (hy : y ∈ W.nodes) : (run W).explain2 x y = (run W').explain2 x y := by
  have hO : ∀ z, W.LimitsOut z ↔ W'.LimitsOut z := fun z => by unfold World.LimitsOut; simp only [hp]
  have hI : ∀ z, W.LimitsIn z ↔ W'.LimitsIn z := fun z => by unfold World.LimitsIn; simp only [hp]
  cases h : W.conns x y with
  | true =>
    obtain ⟨ls, ld, h1, h2, h3⟩ := explain2_connected W hW x y hx hy h
    obtain ⟨ls', ld', h1', h2', h3'⟩ := explain2_connected W' hW' x y ((hn x).1 hx) ((hn y).1 hy) (by rw [← hc]; exact h)
    simp only [← hp, ← hO, ← hI] at h2' h3'
    rw [h1, h1', h2.unique h2', h3.unique h3']
  | false =>
    obtain ⟨ls, ld, h1, h2, h3⟩ := C68_lack_partial W hW x y hx hy h
    obtain ⟨ls', ld', h1', h2', h3'⟩ := C68_lack_partial W' hW' x y ((hn x).1 hx) ((hn y).1 hy) (by rw [← hc]; exact h)
    have e : ∀ z, W'.Applies z = W.Applies z := fun z => by
      funext k; unfold World.Applies; simp only [← hp, ← hO, ← hI]
    rw [e] at h2' h3'
    rw [h1, h1', h2.unique h2', h3.unique h3']

end Expl

end Verif
