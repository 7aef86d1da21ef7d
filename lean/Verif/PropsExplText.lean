import Verif.PropsExplRun
/-!
C68: texts of explanations, places of policies and resources, and explanations of all pairs.
-/
namespace Verif

namespace Expl

theorem entries_tail (t : Tracker) (x : String) (r : List String) : ∀ (i len : Nat), 0 < i → len = i + r.length + 1 →
    t.entries len i (r ++ [x]) = r.map (fun k => t.entry k k) ++ ["Resource Configurations:", t.entry x (t.printed x)] := by
  induction r with
  | nil =>
    intro i len hi hl
    have h1 : i ≠ 0 := by omega
    have h2 : i + 1 = len := by simpa using hl.symm
    simp [Tracker.entries, h1, hi, h2]
  | cons k r ih =>
    intro i len hi hl
    have h1 : i ≠ 0 := by omega
    have h2 : i + 1 ≠ len := by simp at hl; omega
    have h3 := ih (i + 1) len (by omega) (by simp at hl ⊢; omega)
    simp [Tracker.entries, h1, h2, h3]

/-- **C68 (text).**  The text of a node with a file: a headline, the line of each policy that is listed, in their order, and
the line of the node, which is shown by its name in the mode of endpoints. -/
theorem C68_text (t : Tracker) (x d : String) (ls : List String) (hf : ∀ i, t.items.lookup x = some i → i.path ≠ "")
    (hne : ls ≠ []) :
    t.nodeLines x (ls ++ [x]) (some d) =
      ["\n(" ++ d ++ ")" ++ t.printed x ++ ":", "Policy Configurations:"] ++ ls.map (fun k => t.entry k k) ++
        ["Resource Configurations:", t.entry x (t.printed x)] := by
  cases ls with
  | nil => exact absurd rfl hne
  | cons k r =>
    unfold Tracker.nodeLines
    have hp : ¬ ((t.items.lookup x).map (·.path)) = some "" := by
      intro h
      cases hl : t.items.lookup x with
      | none => rw [hl] at h; simp at h
      | some i => rw [hl] at h; simp at h; exact hf i hl h
    rw [if_neg hp]
    have h := entries_tail t x r 1 ((k :: r) ++ [x]).length (by omega) (by simp; omega)
    simp only [List.cons_append, Tracker.entries]
    simp only [List.cons_append] at h
    rw [h]
    simp

/-! ### Where policies and resources are -/

theorem special_items (t : Tracker) (peers : List Peer) (y : Peer) (n : String) (i : Item) (hn : t.items.lookup n = some i) :
    (t.special peers y).items.lookup n = some i := by
  unfold Tracker.special
  split
  · exact hn
  · dsimp only
    rw [addDefault_eq, addDefault_eq, defLoop_items, defLoop_items]
    split
    · exact hn
    · rename_i hk
      unfold Tracker.addItem
      split
      · exact hn
      · simp only [lookup_put]
        split
        · rename_i hny
          rw [← hny, hn] at hk
          exact absurd rfl hk
        · exact hn

theorem setConns_items (t : Tracker) (conns : String → String → Bool) (peers : List Peer) (n : String) (i : Item)
    (hn : t.items.lookup n = some i) : (t.setConns conns peers).items.lookup n = some i := by
  have key : ∀ (l : List Peer) (u : Tracker), u.items.lookup n = some i →
      (l.foldl (fun t y => t.special peers y) u).items.lookup n = some i := by
    intro l
    induction l with
    | nil => intro u h; exact h
    | cons y r ih => intro u h; exact ih _ (special_items u peers y n i h)
  exact key peers _ hn

theorem run_items (W : World) (n : String) (i : Item) (h : ((activate W.ep).read W).items.lookup n = some i) :
    (run W).items.lookup n = some i := by
  apply setConns_items
  rw [layer_items, layer_items]
  exact h

theorem addItem_lookup (t : Tracker) (n x : String) (i : Item) :
    (t.addItem n i).items.lookup x = if n ≠ "" ∧ x = n then some i else t.items.lookup x := by
  unfold Tracker.addItem
  by_cases hn : n = ""
  · simp [hn]
  · rw [if_neg hn]
    simp only [lookup_put]
    by_cases h : x = n <;> simp [h, hn]

theorem addPolicy_items (t : Tracker) (p : Pol) : (t.addPolicy p).items = t.items := by
  unfold Tracker.addPolicy
  generalize p.sel = l
  induction l generalizing t with
  | nil => rfl
  | cons n r ih => rw [List.foldl_cons, ih, addPeerPolicy_items]

theorem readPolicies_other (qs : List Pol) (x : String) : ∀ (t : Tracker), (∀ q ∈ qs, q.name ≠ x) →
    (qs.foldl (fun t p => t.readPolicy p) t).items.lookup x = t.items.lookup x := by
  induction qs with
  | nil => intro t _; rfl
  | cons q r ih =>
    intro t h
    rw [List.foldl_cons, ih _ (fun a ha => h a (List.mem_cons_of_mem _ ha))]
    unfold Tracker.readPolicy
    rw [addItem_lookup, if_neg (fun hx => h q List.mem_cons_self hx.2.symm), addPolicy_items]

theorem readPolicies_self (qs : List Pol) (p : Pol) : ∀ (t : Tracker), p ∈ qs → p.name ≠ "" →
    (∀ q ∈ qs, q.name = p.name → q = p) →
    (qs.foldl (fun t p => t.readPolicy p) t).items.lookup p.name = some ⟨p.path, p.line, ""⟩ := by
  induction qs with
  | nil => intro t h; exact absurd h List.not_mem_nil
  | cons q r ih =>
    intro t hp hne hu
    rw [List.foldl_cons]
    rcases Classical.em (p ∈ r) with hr | hr
    · exact ih _ hr hne (fun a ha => hu a (List.mem_cons_of_mem _ ha))
    · have hq : p = q := by
        rcases List.mem_cons.1 hp with h | h
        · exact h
        · exact absurd h hr
      subst hq
      rw [readPolicies_other r p.name]
      · unfold Tracker.readPolicy
        rw [addItem_lookup, if_pos ⟨hne, rfl⟩]
      · intro a ha hn
        exact hr (hu a (List.mem_cons_of_mem _ ha) hn ▸ ha)

theorem readPods_self (es : List (String × Item)) (x : String) (i : Item) : ∀ (t : Tracker), (x, i) ∈ es → x ≠ "" →
    (∀ j, (x, j) ∈ es → j = i) → (es.foldl (fun t e => t.addItem e.1 e.2) t).items.lookup x = some i := by
  induction es with
  | nil => intro t h; exact absurd h List.not_mem_nil
  | cons e r ih =>
    intro t he hne hu
    rw [List.foldl_cons]
    rcases Classical.em (∃ j, (x, j) ∈ r) with ⟨j, hr⟩ | hr
    · have : j = i := hu j (List.mem_cons_of_mem _ hr)
      subst this
      exact ih _ hr hne (fun a ha => hu a (List.mem_cons_of_mem _ ha))
    · have hq : (x, i) = e := by
        rcases List.mem_cons.1 he with h | h
        · exact h
        · exact absurd ⟨i, h⟩ hr
      subst hq
      have key : ∀ (es : List (String × Item)) (t : Tracker), (¬ ∃ j, (x, j) ∈ es) →
          (es.foldl (fun t e => t.addItem e.1 e.2) t).items.lookup x = t.items.lookup x := by
        intro es
        induction es with
        | nil => intro t _; rfl
        | cons e r ih =>
          intro t h
          rw [List.foldl_cons, ih _ (fun ⟨j, hj⟩ => h ⟨j, List.mem_cons_of_mem _ hj⟩), addItem_lookup, if_neg]
          rintro ⟨-, rfl⟩
          exact h ⟨e.2, List.mem_cons_self⟩
      rw [key r _ hr, addItem_lookup, if_pos ⟨hne, rfl⟩]

/-- **C68 (place of a policy).**  If no other policy has its name, the line of a policy gives the file and the line it was read
from. -/
theorem C68_policy_place_partial (W : World) (p : Pol) (hp : p ∈ W.pols) (hne : p.name ≠ "") (hf : p.path ≠ "")
    (hu : ∀ q ∈ W.pols, q.name = p.name → q = p) :
    (run W).entry p.name p.name = p.name ++ ": line " ++ toString p.line ++ " in file " ++ p.path := by
  have h := run_items W p.name ⟨p.path, p.line, ""⟩ (readPolicies_self W.pols p _ hp hne hu)
  unfold Tracker.entry
  rw [h]
  exact if_neg hf

/-- **C68 (place of a resource).**  If nothing else has its name, the line of an endpoint gives the file and the line of the
resource it was read from. -/
theorem C68_resource_place_partial (W : World) (x : String) (i : Item) (hx : (x, i) ∈ W.pods) (hne : x ≠ "") (hf : i.path ≠ "")
    (hu : ∀ j, (x, j) ∈ W.pods → j = i) (hp : ∀ q ∈ W.pols, q.name ≠ x) (shown : String) :
    (run W).entry x shown = shown ++ ": line " ++ toString i.line ++ " in file " ++ i.path := by
  have h := run_items W x i ((readPolicies_other W.pols x _ hp).trans (readPods_self W.pods x i _ hx hne hu))
  unfold Tracker.entry
  rw [h]
  exact if_neg hf

/-! ### Explanations of all pairs -/

theorem allNames_pods (t : Tracker) (he : t.ep ≠ "deployments") : ∀ (l : List Peer) (taken names : List String), names.Nodup →
    (t.allNames l taken names).Nodup ∧ ∀ n, n ∈ t.allNames l taken names ↔ n ∈ names ∨ ∃ p ∈ l, p.name = n := by
  intro l
  induction l with
  | nil => intro taken names h; exact ⟨h, fun n => by simp [Tracker.allNames]⟩
  | cons x r ih =>
    intro taken names h
    have e : t.allNames (x :: r) taken names =
        t.allNames r (sadd taken (if x.block then x.bname else t.printed x.name)) (sadd names x.name) := by
      conv => lhs; unfold Tracker.allNames
      dsimp only
      rw [if_neg (fun h => he h.1)]
    rw [e]
    obtain ⟨h1, h2⟩ := ih (sadd taken (if x.block then x.bname else t.printed x.name)) (sadd names x.name) (nodup_sadd h _)
    refine ⟨h1, fun n => ?_⟩
    rw [h2, mem_sadd]
    constructor
    · rintro ((h | h) | ⟨p, hp, hn⟩)
      · exact Or.inl h
      · exact Or.inr ⟨x, List.mem_cons_self, h.symm⟩
      · exact Or.inr ⟨p, List.mem_cons_of_mem _ hp, hn⟩
    · rintro (h | ⟨p, hp, hn⟩)
      · exact Or.inl (Or.inl h)
      · rcases List.mem_cons.1 hp with rfl | hp
        · exact Or.inl (Or.inr hn.symm)
        · exact Or.inr ⟨p, hp, hn⟩

/-- **C68 (all).**  In the mode of pods, the explanation of everything has one entry for every ordered pair of peers of the map,
in the order of their names, and it is the explanation of the pair, or of the peer for a pair of the same. -/
theorem C68_all (t : Tracker) (he : t.ep ≠ "deployments") :
    ∃ names, Shows names (fun n => ∃ p ∈ t.peers, p.name = n) ∧
      t.explainAll = names.flatMap (fun a => names.map (fun b => (a, b, if a = b then t.lines1 a else t.lines2 a b))) := by
  obtain ⟨h1, h2⟩ := allNames_pods t he t.peers [] [] List.nodup_nil
  refine ⟨sortNames (t.allNames t.peers [] []), shows_sortNames h1 (fun n => (h2 n).trans (by simp)), ?_⟩
  have hp : ∀ n, t.printed n = n := fun n => by unfold Tracker.printed; exact if_neg he
  have hw : ∀ n, t.working n = n := fun n => by unfold Tracker.working; exact if_neg he
  unfold Tracker.explainAll
  simp only [hp, hw]

theorem allNames_deployments (t : Tracker) : ∀ (l : List Peer) (taken names : List String),
    (∀ n ∈ names, n ∈ t.allNames l taken names) ∧
    (∀ x ∈ l, (if x.block then x.bname else t.printed x.name) ∈ taken ∨
      ∃ y ∈ l, y.name ∈ t.allNames l taken names ∧
        (if y.block then y.bname else t.printed y.name) = (if x.block then x.bname else t.printed x.name)) := by
  intro l
  induction l with
  | nil => intro taken names; exact ⟨fun n h => h, fun x h => absurd h List.not_mem_nil⟩
  | cons z r ih =>
    intro taken names
    by_cases hc : t.ep = "deployments" ∧ (if z.block then z.bname else t.printed z.name) ∈ taken
    · have e : t.allNames (z :: r) taken names = t.allNames r taken names := by
        conv => lhs; unfold Tracker.allNames
        dsimp only
        rw [if_pos hc]
      rw [e]
      obtain ⟨h1, h2⟩ := ih taken names
      refine ⟨h1, fun x hx => ?_⟩
      rcases List.mem_cons.1 hx with rfl | hx
      · exact Or.inl hc.2
      · rcases h2 x hx with h | ⟨y, hy, h⟩
        · exact Or.inl h
        · exact Or.inr ⟨y, List.mem_cons_of_mem _ hy, h⟩
    · have e : t.allNames (z :: r) taken names =
          t.allNames r (sadd taken (if z.block then z.bname else t.printed z.name)) (sadd names z.name) := by
        conv => lhs; unfold Tracker.allNames
        dsimp only
        rw [if_neg hc]
      rw [e]
      obtain ⟨h1, h2⟩ := ih (sadd taken (if z.block then z.bname else t.printed z.name)) (sadd names z.name)
      have hz : z.name ∈ t.allNames r (sadd taken (if z.block then z.bname else t.printed z.name)) (sadd names z.name) :=
        h1 _ ((mem_sadd _ _ _).2 (Or.inr rfl))
      refine ⟨fun n hn => h1 n ((mem_sadd _ _ _).2 (Or.inl hn)), fun x hx => ?_⟩
      rcases List.mem_cons.1 hx with rfl | hx
      · exact Or.inr ⟨x, List.mem_cons_self, hz, rfl⟩
      · rcases h2 x hx with h | ⟨y, hy, h⟩
        · rcases (mem_sadd _ _ _).1 h with h | h
          · exact Or.inl h
          · exact Or.inr ⟨z, List.mem_cons_self, hz, h.symm⟩
        · exact Or.inr ⟨y, List.mem_cons_of_mem _ hy, h⟩

/-- **C68 (all, by deployments).**  In either mode, the explanation of everything has an entry for every two endpoints by the
names they are shown with. -/
theorem C68_all_shown_partial (t : Tracker) (hb : ∀ b ∈ t.peers, b.block = true → ∀ x ∈ t.peers, b.bname ≠ t.printed x.name)
    (x y : Peer) (hx : x ∈ t.peers) (hy : y ∈ t.peers) (bx : x.block = false) (by_ : y.block = false) :
    ∃ lines, (t.printed x.name, t.printed y.name, lines) ∈ t.explainAll := by
  have key : ∀ z ∈ t.peers, z.block = false → ∃ n ∈ sortNames (t.allNames t.peers [] []), t.printed n = t.printed z.name := by
    intro z hz bz
    obtain ⟨-, h2⟩ := allNames_deployments t t.peers [] []
    rcases h2 z hz with h | ⟨w, hw, hn, he⟩
    · exact absurd h List.not_mem_nil
    · rw [bz] at he
      simp only [Bool.false_eq_true, if_false] at he
      cases hwb : w.block with
      | true => rw [hwb] at he; simp only [if_true] at he; exact absurd he (hb w hw hwb z hz)
      | false =>
        rw [hwb] at he
        simp only [Bool.false_eq_true, if_false] at he
        exact ⟨w.name, (mem_sortNames _ _).2 hn, he⟩
  obtain ⟨n, hn, en⟩ := key x hx bx
  obtain ⟨m, hm, em⟩ := key y hy by_
  unfold Tracker.explainAll
  exact ⟨_, List.mem_flatMap.2 ⟨n, hn, List.mem_map.2 ⟨m, hm, by rw [en, em]⟩⟩⟩

/-- **C68 (names).**  A name given by a user stands for an endpoint with that name or of that workload; if there is one, it is
found. -/
theorem C68_names (t : Tracker) (a : String) (he : t.ep = "deployments") (h : ∃ e ∈ t.items, a = e.2.workload ∨ a = e.1) :
    ∃ e ∈ t.items, t.working a = e.1 ∧ (a = e.2.workload ∨ a = e.1) := by
  unfold Tracker.working
  rw [if_pos he]
  cases hf : t.items.find? (fun e => decide (a = e.2.workload ∨ a = e.1)) with
  | none =>
    obtain ⟨e, he, ha⟩ := h
    have := List.find?_eq_none.1 hf e he
    simp only [decide_eq_true_eq] at this
    exact absurd ha this
  | some e =>
    have := List.find?_some hf
    exact ⟨e, List.mem_of_find?_eq_some hf, rfl, by simpa using this⟩

/-! ### Whole texts -/

/-- An endpoint that was read from a file, and whose name nothing else has. -/
structure World.Filed (W : World) (x : String) (i : Item) : Prop where
  read : (x, i) ∈ W.pods
  file : i.path ≠ ""
  once : ∀ j, (x, j) ∈ W.pods → j = i
  other : ∀ q ∈ W.pols, q.name ≠ x

/-- The name an endpoint is shown with: its workload if endpoints are deployments. -/
def World.Shown (W : World) (x : String) (i : Item) : String :=
  if W.ep = "deployments" ∧ i.workload ≠ "" then i.workload else x

theorem addItem_ep (t : Tracker) (n : String) (i : Item) : (t.addItem n i).ep = t.ep := by
  unfold Tracker.addItem; split <;> rfl

theorem addPeerPolicy_ep (t : Tracker) (n pol : String) (egr ing : List String) :
    (t.addPeerPolicy n pol egr ing).ep = t.ep := by
  unfold Tracker.addPeerPolicy; split <;> rfl

theorem defLoop_ep (others : List String) (b : Bool) (l : List String) : ∀ t : Tracker, (defLoop others b l t).ep = t.ep := by
  induction l with
  | nil => intro t; rfl
  | cons n r ih =>
    intro t
    have e : defLoop others b (n :: r) t = defLoop others b r
        (if t.listEmpty n b then t.addPeerPolicy n dflt (if b then [] else others) (if b then others else []) else t) := rfl
    rw [e, ih]
    split
    · exact addPeerPolicy_ep _ _ _ _ _
    · rfl

theorem layer_ep (t : Tracker) (pols : List Pol) (nodes everyone : List String) (b : Bool) :
    (t.layer pols nodes everyone b).ep = t.ep := by
  unfold Tracker.layer
  dsimp only
  split
  · rfl
  · split <;> rw [addDefault_eq, defLoop_ep]

theorem addPolicy_ep (t : Tracker) (p : Pol) : (t.addPolicy p).ep = t.ep := by
  unfold Tracker.addPolicy
  generalize p.sel = l
  induction l generalizing t with
  | nil => rfl
  | cons n r ih => rw [List.foldl_cons, ih, addPeerPolicy_ep]

theorem run_ep (W : World) : (run W).ep = W.ep := by
  have h1 : ∀ (es : List (String × Item)) (t : Tracker), (es.foldl (fun t e => t.addItem e.1 e.2) t).ep = t.ep := by
    intro es
    induction es with
    | nil => intro t; rfl
    | cons e r ih => intro t; rw [List.foldl_cons, ih, addItem_ep]
  have h2 : ∀ (ps : List Pol) (t : Tracker), (ps.foldl (fun t p => t.readPolicy p) t).ep = t.ep := by
    intro ps
    induction ps with
    | nil => intro t; rfl
    | cons p r ih => intro t; rw [List.foldl_cons, ih]; unfold Tracker.readPolicy; rw [addItem_ep, addPolicy_ep]
  unfold run Tracker.query
  rw [(setConns_conns _ _ _).2.2, layer_ep, layer_ep]
  unfold Tracker.read
  rw [h2, h1]
  unfold activate
  rw [addItem_ep]

theorem run_item (W : World) (x : String) (i : Item) (hne : x ≠ "") (h : W.Filed x i) : (run W).items.lookup x = some i :=
  run_items W x i ((readPolicies_other W.pols x _ h.other).trans (readPods_self W.pods x i _ h.read hne h.once))

theorem run_printed (W : World) (x : String) (i : Item) (hne : x ≠ "") (h : W.Filed x i) : (run W).printed x = W.Shown x i := by
  unfold Tracker.printed World.Shown
  rw [run_ep, run_item W x i hne h]
  by_cases he : W.ep = "deployments"
  · by_cases hw : i.workload = "" <;> simp [he, hw]
  · simp [he]

/-- What is written about one end: the policies with their places (`place`), and the endpoint with the place of its resource. -/
def endText (place : String → String) (dir shown : String) (ls : List String) (i : Item) : List String :=
  ["\n(" ++ dir ++ ")" ++ shown ++ ":", "Policy Configurations:"] ++ ls.map place ++
    ["Resource Configurations:", shown ++ ": line " ++ toString i.line ++ " in file " ++ i.path]

/-- The place of a policy: of the default there is none. -/
def World.IsPlace (W : World) (place : String → String) : Prop :=
  ∀ k, (∀ p ∈ W.pols, p.name = k → p.name ≠ "" → p.path ≠ "" → (∀ q ∈ W.pols, q.name = k → q = p) →
    place k = k ++ ": line " ++ toString p.line ++ " in file " ++ p.path)

theorem nodeLines_run (W : World) (x d : String) (i : Item) (hne : x ≠ "") (h : W.Filed x i) (ls : List String) (hl : ls ≠ []) :
    (run W).nodeLines x (ls ++ [x]) (some d) = endText (fun k => (run W).entry k k) d (W.Shown x i) ls i := by
  have hi := run_item W x i hne h
  rw [C68_text (run W) x d ls (by intro j hj; rw [hi] at hj; cases hj; exact h.file) hl, run_printed W x i hne h]
  have he : (run W).entry x (W.Shown x i) = W.Shown x i ++ ": line " ++ toString i.line ++ " in file " ++ i.path := by
    unfold Tracker.entry; rw [hi]; exact if_neg h.file
  rw [he]
  rfl

theorem run_places (W : World) : W.IsPlace (fun k => (run W).entry k k) := by
  rintro k p hp rfl hne hf hu
  exact C68_policy_place_partial W p hp hne hf hu

/-- **C68 (shown, connected).**  The text for two connected endpoints: a headline that says so, then what is listed at the source
and what is listed at the destination, each with the places of policies and of the resource. -/
theorem C68_shown_connected_partial (W : World) (hW : W.Fair) (x y : String) (hx : x ∈ W.nodes) (hy : y ∈ W.nodes) (i j : Item)
    (fx : W.Filed x i) (fy : W.Filed y j) (hc : W.conns x y = true)
    (hout : ¬ W.LimitsOut x ∨ ∃ p ∈ W.pols, x ∈ p.sel ∧ Lets p.egr x y)
    (hin : ¬ W.LimitsIn y ∨ ∃ p ∈ W.pols, y ∈ p.sel ∧ Lets p.ing x y) :
    ∃ ls ld place, (run W).explain2 x y = some ⟨true, ls ++ [x], ld ++ [y]⟩ ∧ W.IsPlace place ∧
      (run W).lines2 x y =
        ["\nConfigurations affecting the connectivity between (src)" ++ W.Shown x i ++ " and (dst)" ++ W.Shown y j ++ ":"] ++
          endText place "src" (W.Shown x i) ls i ++ endText place "dst" (W.Shown y j) ld j := by
  have nx := (hW.read x hx).1
  have ny := (hW.read y hy).1
  obtain ⟨ls, ld, h, h1, h2, -⟩ := C68_complete_partial W hW x y hx hy hc
  have l1 : ls ≠ [] := by
    rcases hout with hl | ⟨p, hp, hs, hd⟩
    · exact List.ne_nil_of_mem (h1 _ (Or.inr ⟨rfl, hl⟩))
    · exact List.ne_nil_of_mem (h1 _ (Or.inl ⟨p, hp, rfl, hs, hd⟩))
  have l2 : ld ≠ [] := by
    rcases hin with hl | ⟨p, hp, hs, hd⟩
    · exact List.ne_nil_of_mem (h2 _ (Or.inr ⟨rfl, hl⟩))
    · exact List.ne_nil_of_mem (h2 _ (Or.inl ⟨p, hp, rfl, hs, hd⟩))
  refine ⟨ls, ld, _, h, run_places W, ?_⟩
  unfold Tracker.lines2
  rw [h]
  dsimp only
  rw [nodeLines_run W x "src" i nx fx ls l1, nodeLines_run W y "dst" j ny fy ld l2, run_printed W x i nx fx,
    run_printed W y j ny fy]
  have e : ("\nConfigurations affecting the connectivity between " ++ "(src)" : String) =
    "\nConfigurations affecting the connectivity between (src)" := by decide +kernel
  rw [if_pos rfl, e]

theorem applies_ne (W : World) (x : String) : ∃ k, W.Applies x k := by
  rcases Classical.em (W.LimitsOut x) with ⟨p, hp, -, hs⟩ | h
  · exact ⟨p.name, Or.inl ⟨p, hp, rfl, hs⟩⟩
  · exact ⟨_, Or.inr ⟨rfl, Or.inl h⟩⟩

/-- **C68 (shown, lack).**  The text for two endpoints that are not connected. -/
theorem C68_shown_lack_partial (W : World) (hW : W.Fair) (x y : String) (hx : x ∈ W.nodes) (hy : y ∈ W.nodes) (i j : Item)
    (fx : W.Filed x i) (fy : W.Filed y j) (hc : W.conns x y = false) :
    ∃ ls ld place, (run W).explain2 x y = some ⟨false, ls ++ [x], ld ++ [y]⟩ ∧ W.IsPlace place ∧
      (run W).lines2 x y =
        ["Configurations affecting the LACK of connectivity between (src)" ++ W.Shown x i ++ " and (dst)" ++ W.Shown y j ++ ":"] ++
          endText place "src" (W.Shown x i) ls i ++ endText place "dst" (W.Shown y j) ld j := by
  have nx := (hW.read x hx).1
  have ny := (hW.read y hy).1
  obtain ⟨ls, ld, h, h1, h2⟩ := C68_lack_partial W hW x y hx hy hc
  have l1 : ls ≠ [] := by
    obtain ⟨k, hk⟩ := applies_ne W x
    exact List.ne_nil_of_mem ((h1.exact k).2 hk)
  have l2 : ld ≠ [] := by
    obtain ⟨k, hk⟩ := applies_ne W y
    exact List.ne_nil_of_mem ((h2.exact k).2 hk)
  refine ⟨ls, ld, _, h, run_places W, ?_⟩
  unfold Tracker.lines2
  rw [h]
  dsimp only
  rw [nodeLines_run W x "src" i nx fx ls l1, nodeLines_run W y "dst" j ny fy ld l2, run_printed W x i nx fx,
    run_printed W y j ny fy]
  have e : ("Configurations affecting the LACK of connectivity between " ++ "(src)" : String) =
    "Configurations affecting the LACK of connectivity between (src)" := by decide +kernel
  rw [if_neg (by simp), e]

/-! ### Blocks of addresses and other special peers -/

theorem special_other (t : Tracker) (peers : List Peer) (z : Peer) (y : String) (h : y ≠ z.name) :
    (t.special peers z).sees y = t.sees y ∧ ((t.special peers z).has y ↔ t.has y) := by
  unfold Tracker.special
  split
  · exact ⟨rfl, Iff.rfl⟩
  · dsimp only
    rw [addDefault_eq, addDefault_eq]
    simp only [if_true, Bool.false_eq_true, if_false]
    generalize hu : (if (t.items.lookup z.name).isSome then t else t.addItem z.name ⟨"", 0, ""⟩) = u
    have hup : u.pols = t.pols := by
      rw [← hu]; split
      · rfl
      · exact addItem_pols _ _ _
    obtain ⟨h1, h2, h3⟩ := defLoop_other (peers.map (·.name)) false [z.name] y u (by simpa using h)
    obtain ⟨h4, h5, h6⟩ := defLoop_other (peers.map (·.name)) true [z.name] y
      (defLoop (peers.map (·.name)) false [z.name] u) (by simpa using h)
    refine ⟨?_, ?_⟩
    · rw [h5, h2]; unfold Tracker.sees; rw [hup]
    · rw [h6, h3]; unfold Tracker.has; rw [hup]

theorem special_self (t : Tracker) (peers : List Peer) (z : Peer) (hne : z.name ≠ "") (h : ¬ t.has z.name) :
    (t.special peers z).sees z.name =
      { egress := addToMap (peers.map (·.name)) [] dflt, ingress := addToMap (peers.map (·.name)) [] dflt, all := [dflt] } ∧
    (t.special peers z).has z.name ∧ (t.special peers z).knows z.name := by
  have h0 : ¬ (t.pols.lookup z.name).isSome = true := h
  unfold Tracker.special
  rw [if_neg h0]
  dsimp only
  rw [addDefault_eq, addDefault_eq]
  simp only [if_true, Bool.false_eq_true, if_false]
  generalize hu : (if (t.items.lookup z.name).isSome then t else t.addItem z.name ⟨"", 0, ""⟩) = u
  have hup : u.pols = t.pols := by
    rw [← hu]; split
    · rfl
    · exact addItem_pols _ _ _
  have hk : u.knows z.name := by
    rw [← hu]; split
    · rename_i hk; exact hk
    · exact (addItem_knows _ _ _ _).2 (Or.inr ⟨hne, rfl⟩)
  have hs : u.sees z.name = {} := sees_of_not_has u _ (by unfold Tracker.has; rw [hup]; exact h)
  obtain ⟨h1, h2⟩ := defLoop_self (peers.map (·.name)) false [z.name] z.name u hk List.mem_cons_self
  have hk' : (defLoop (peers.map (·.name)) false [z.name] u).knows z.name := by
    unfold Tracker.knows; rw [defLoop_items]; exact hk
  obtain ⟨h3, h4⟩ := defLoop_self (peers.map (·.name)) true [z.name] z.name _ hk' List.mem_cons_self
  refine ⟨?_, h4, ?_⟩
  · rw [h3, h1, hs]
    rfl
  · unfold Tracker.knows; rw [defLoop_items]; exact hk'

theorem specials_self (peers : List Peer) (y : String) (hne : y ≠ "") : ∀ (l : List Peer) (t : Tracker), ¬ t.has y →
    (∃ z ∈ l, z.name = y) →
    (l.foldl (fun t z => t.special peers z) t).sees y =
      { egress := addToMap (peers.map (·.name)) [] dflt, ingress := addToMap (peers.map (·.name)) [] dflt, all := [dflt] } ∧
    (l.foldl (fun t z => t.special peers z) t).has y ∧ (l.foldl (fun t z => t.special peers z) t).knows y := by
  intro l
  induction l with
  | nil => rintro t _ ⟨z, hz, -⟩; exact absurd hz List.not_mem_nil
  | cons z r ih =>
    intro t hh hz
    rw [List.foldl_cons]
    by_cases hzy : z.name = y
    · subst hzy
      obtain ⟨h1, h2, h3⟩ := special_self t peers z hne hh
      have key : ∀ (l : List Peer) (u : Tracker), u.has z.name →
          (l.foldl (fun t y => t.special peers y) u).sees z.name = u.sees z.name ∧
          (l.foldl (fun t y => t.special peers y) u).has z.name ∧
          (∀ n i, u.items.lookup n = some i → (l.foldl (fun t y => t.special peers y) u).items.lookup n = some i) := by
        intro l
        induction l with
        | nil => intro u hu; exact ⟨rfl, hu, fun _ _ h => h⟩
        | cons y r ih =>
          intro u hu
          obtain ⟨h1, h2, h3⟩ := special_same u peers y z.name hu
          obtain ⟨h4, h5, h6⟩ := ih _ h2
          exact ⟨h4.trans h1, h5, fun n i hn => h6 n i (h3 n i hn)⟩
      obtain ⟨h4, h5, h6⟩ := key r _ h2
      refine ⟨h4.trans h1, h5, ?_⟩
      obtain ⟨v, hv⟩ := Option.isSome_iff_exists.1 h3
      unfold Tracker.knows
      rw [h6 _ v hv]; rfl
    · obtain ⟨-, h2⟩ := special_other t peers z y (Ne.symm hzy)
      refine ih _ (fun h => hh (h2.1 h)) ?_
      obtain ⟨w, hw, he⟩ := hz
      rcases List.mem_cons.1 hw with rfl | hw
      · exact absurd he hzy
      · exact ⟨w, hw, he⟩

/-- Nothing is recorded at a peer that no policy selects and that gets no default from the layer. -/
theorem read_has (W : World) (y : String) (hs : ∀ p ∈ W.pols, y ∉ p.sel) (hn : y ∉ W.nodes) :
    ¬ ((((activate W.ep).read W).layer W.pols W.nodes W.everyone true).layer W.pols W.nodes W.everyone false).has y := by
  have hp : ∀ (l : List String) (p : Pol) (t : Tracker), y ∉ l → ¬ t.has y →
      ¬ (l.foldl (fun t n => t.addPeerPolicy n p.name (dsts p.egr) (srcs p.ing)) t).has y := by
    intro l p
    induction l with
    | nil => intro t _ h; exact h
    | cons n r ih =>
      intro t hy h
      simp only [List.mem_cons, not_or] at hy
      refine ih _ hy.2 (fun h' => ?_)
      rcases Classical.em (t.knows n) with hk | hk
      · rw [addPeerPolicy_has t n _ _ _ hk] at h'
        rcases h' with h' | h'
        · exact h h'
        · exact hy.1 h'
      · have e := addPeerPolicy_unknown t n p.name (dsts p.egr) (srcs p.ing) hk
        dsimp only at h'
        rw [e] at h'; exact h h'
  have hq : ∀ (ps : List Pol) (t : Tracker), (∀ p ∈ ps, y ∉ p.sel) → ¬ t.has y →
      ¬ (ps.foldl (fun t p => t.readPolicy p) t).has y := by
    intro ps
    induction ps with
    | nil => intro t _ h; exact h
    | cons p r ih =>
      intro t hy h
      refine ih _ (fun q hq => hy q (List.mem_cons_of_mem _ hq)) ?_
      unfold Tracker.readPolicy Tracker.has
      rw [addItem_pols]
      exact hp p.sel p t (hy p List.mem_cons_self) h
  have h0 : ¬ ((activate W.ep).read W).has y := by
    refine hq W.pols _ hs ?_
    unfold Tracker.has
    rw [(readPods_says W.pods (activate W.ep)).1]
    exact (activate_knows W.ep y).1
  have hl : ∀ (b : Bool) (t : Tracker), ¬ t.has y → ¬ (t.layer W.pols W.nodes W.everyone b).has y := by
    intro b t h
    have hf : y ∉ W.nodes.filter (fun n => !captured W.pols b n) := fun h => hn (List.mem_filter.1 h).1
    unfold Tracker.layer
    dsimp only
    split
    · exact h
    · cases b with
      | true =>
        simp only [if_true, addDefault_eq]
        exact fun h' => h ((defLoop_other W.everyone true _ y t hf).2.2.1 h')
      | false =>
        simp only [Bool.false_eq_true, if_false, addDefault_eq]
        exact fun h' => h ((defLoop_other W.everyone false _ y t hf).2.2.1 h')
  exact hl false _ (hl true _ h0)

/-- **C68 (blocks).**  A peer of the map that no policy selects and that is no node of the cluster, such as a block of addresses, is
explained by the default policy: alone, and at its end of every connection with an endpoint of the map. -/
theorem C68_block_partial (W : World) (hW : W.Fair) (x y : String) (hx : x ∈ W.nodes) (hxp : ∃ z ∈ W.peers, z.name = x)
    (hyp : ∃ z ∈ W.peers, z.name = y) (hne : y ≠ "") (hs : ∀ p ∈ W.pols, y ∉ p.sel) (hn : y ∉ W.nodes) :
    (run W).explain1 y = some ["Default-Policy", y] ∧
    (W.conns x y = true → ∃ ls, (run W).explain2 x y = some ⟨true, ls, ["Default-Policy", y]⟩) ∧
    (W.conns y x = true → ∃ ld, (run W).explain2 y x = some ⟨true, ["Default-Policy", y], ld⟩) := by
  obtain ⟨kx, hx', -⟩ := run_node W hW x hx
  obtain ⟨s, h, k⟩ := specials_self W.peers y hne W.peers
    { ((((activate W.ep).read W).layer W.pols W.nodes W.everyone true).layer W.pols W.nodes W.everyone false) with
      conns := W.conns, peers := W.peers } (read_has W y hs hn) hyp
  change (run W).sees y = _ at s
  change (run W).has y at h
  change (run W).knows y at k
  have hat : at_ (addToMap (W.peers.map (·.name)) [] dflt) x = [dflt] := by
    rw [addToMap_dflt _ x [] (fun _ => Or.inl rfl), if_pos]
    obtain ⟨z, hz, he⟩ := hxp
    exact List.mem_map.2 ⟨z, hz, he⟩
  refine ⟨?_, fun hc => ?_, fun hc => ?_⟩
  · unfold Tracker.explain1
    unfold Tracker.knows at k
    unfold Tracker.has at h
    rw [k, h, s]
    rfl
  · refine ⟨sortNames (((((run W).sees x).egress).lookup y).getD []) ++ [x], ?_⟩
    · unfold Tracker.explain2
      rw [run_conns, hc]
      unfold Tracker.knows at k kx
      unfold Tracker.has at h hx'
      rw [k, h, kx, hx', s]
      show some (Found.mk true _ (sortNames (at_ (addToMap (W.peers.map (·.name)) [] dflt) x) ++ [y])) = _
      rw [hat]
      rfl
  · refine ⟨sortNames (((((run W).sees x).ingress).lookup y).getD []) ++ [x], ?_⟩
    · unfold Tracker.explain2
      rw [run_conns, hc]
      unfold Tracker.knows at k kx
      unfold Tracker.has at h hx'
      rw [k, h, kx, hx', s]
      show some (Found.mk true (sortNames (at_ (addToMap (W.peers.map (·.name)) [] dflt) x) ++ [y]) _) = _
      rw [hat]
      rfl

end Expl

end Verif
