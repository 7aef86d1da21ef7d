import Verif.GraphModel
import Mathlib.Tactic.ByContra
import Mathlib.Tactic.Tauto
import Mathlib.Data.List.Forall2
import Mathlib.Data.List.Perm.Subperm
/-!
C39: the connectivity graph that is drawn shows exactly the connections it is made from.  The
specification is how a reader takes the drawing, following the tooltips of DotGraph.py 55-66.
-/
namespace Verif.Graph

/-! ### Specification -/

section Spec
variable {α L τ : Type}

/-- There is an undirected edge between `x` and `y`. -/
def Drawn.Joins (P : Drawn α L τ) (x y : GNode α L) : Prop :=
  ∃ l, (x, y, l) ∈ P.und ∨ (y, x, l) ∈ P.und

/-- From `x` one gets to `c` through clique nodes labelled `l` only. -/
inductive Drawn.Path (P : Drawn α L τ) (lab : GNode α L → L) (l : L) (x : GNode α L) : GNode α L → Prop
  | one {c} : P.Joins x c → c.isClique = true → lab c = l → P.Path lab l x c
  | next {c d} : P.Path lab l x c → P.Joins c d → d.isClique = true → lab d = l → P.Path lab l x d

/-- What the drawing says about the traffic `l` from the box `x` to the box `y`: an arrow with this label,
one with two heads, a biclique node with this label between them ("traffic allowed from any source
workload of the biclique to any of its destination workloads"), or a clique both are connected to
("traffic allowed between any two workloads connected to the clique"). -/
def Drawn.Reads (P : Drawn α L τ) (lab : GNode α L → L) (l : L) (x y : α) : Prop :=
  (.peer x, .peer y, l) ∈ P.dir ∨ (.peer x, .peer y, l) ∈ P.und ∨ (.peer y, .peer x, l) ∈ P.und ∨
  (∃ b : GNode α L, b.isBi = true ∧ lab b = l ∧
    (∃ l', (.peer x, b, l') ∈ P.dir) ∧ ∃ l', (b, .peer y, l') ∈ P.dir) ∨
  (x ≠ y ∧ ∃ c, P.Path lab l (.peer x) c ∧ P.Joins c (.peer y))

/-- A node shows one of the labels given to it. -/
def Drawn.Labels (P : Drawn α L τ) (lab : GNode α L → L) : Prop :=
  ∀ n l, (n, l) ∈ P.nodes → (n, lab n) ∈ P.nodes

/-- No node has two labels. -/
def Drawn.NoClash (P : Drawn α L τ) : Prop :=
  ∀ n l l', (n, l) ∈ P.nodes → (n, l') ∈ P.nodes → l = l'

end Spec

/-- What is asked of the outside choices: `<` is a total order, networkx returns cliques (maximal or
not), and a best biclique is taken. -/
structure Env.Fair {α ν : Type} [DecidableEq α] (V : Env α ν) : Prop where
  lt_irrefl : ∀ x, V.lt x x = false
  lt_total : ∀ x y, x ≠ y → (V.lt x y = true ∨ V.lt y x = true)
  find_nodup : ∀ und, ∀ K ∈ V.find und, K.Nodup
  find_clique : ∀ und, ∀ K ∈ V.find und, ∀ x ∈ K, ∀ y ∈ K, x ≠ y → (x, y) ∈ und ∨ (y, x) ∈ und
  pick_mem : ∀ D, D ≠ [] → V.pick D ∈ bicliques D
  pick_best : ∀ D, ∀ b ∈ bicliques D, rank b ≤ rank (V.pick D)

/-! ### Cliques -/

section Cliques
variable {α L ν : Type} [DecidableEq α] [DecidableEq ν]

/-- `Drawn.Joins` for a list of edges. -/
def J (CE : List (GNode α L × GNode α L)) (x y : GNode α L) : Prop := (x, y) ∈ CE ∨ (y, x) ∈ CE

/-- `Drawn.Path` for a list of edges. -/
inductive Walk (CE : List (GNode α L × GNode α L)) (x : GNode α L) : GNode α L → Prop
  | one {c} : J CE x c → c.isClique = true → Walk CE x c
  | next {c d} : Walk CE x c → J CE c d → d.isClique = true → Walk CE x d

omit [DecidableEq α] in
theorem J.mono {CE CE' : List (GNode α L × GNode α L)} (h : ∀ e ∈ CE, e ∈ CE') {x y} (j : J CE x y) : J CE' x y :=
  j.imp (h _) (h _)

omit [DecidableEq α] in
theorem Walk.mono {CE CE' : List (GNode α L × GNode α L)} (h : ∀ e ∈ CE, e ∈ CE') {x y} (w : Walk CE x y) :
    Walk CE' x y := by
  induction w with
  | one j hc => exact .one (j.mono h) hc
  | next _ j hc ih => exact .next ih (j.mono h) hc

/-- Two peers are connected through clique nodes. -/
def Via (CE : List (GNode α L × GNode α L)) (x y : α) : Prop :=
  ∃ c, Walk CE (.peer x) c ∧ J CE c (.peer y)

omit [DecidableEq α] in
theorem Via.mono {CE CE' : List (GNode α L × GNode α L)} (h : ∀ e ∈ CE, e ∈ CE') {x y} (w : Via CE x y) :
    Via CE' x y := by
  obtain ⟨c, hw, hj⟩ := w
  exact ⟨c, hw.mono h, hj.mono h⟩

/-- How a clique node stands for the peers of the clique with the namespace `m`. -/
def Stands (ns : α → ν) (K : List α) (s : ClqSt α L) (old : List (GNode α L)) (m : ν) (r : GNode α L) : Prop :=
  (∃ p, K.filter (fun p => ns p = m) = [p] ∧ r = .peer p) ∨
  (r.isClique = true ∧ r ∈ s.nodes ∧ r ∉ old ∧ ∀ p ∈ K, ns p = m → (r, .peer p) ∈ s.edges)

/-- A node of the state carries a number below the count. -/
def Small (nodes : List (GNode α L)) : Prop :=
  ∀ n ∈ nodes, (∃ i < nodes.length, n = .clq i) ∨ (∃ l, ∃ i < nodes.length, n = .top l i)

/-- The new edges of the loop over the namespaces. -/
def NewEdges (K : List α) (s0 s : ClqSt α L) : Prop :=
  ∀ e ∈ s.edges, e ∈ s0.edges ∨ ∃ c p, e = (c, .peer p) ∧ c ∈ s.nodes ∧ c ∉ s0.nodes ∧ p ∈ K

omit [DecidableEq α] in
theorem nsFold (ns : α → ν) (K : List α) (s0 : ClqSt α L) (hsm0 : Small s0.nodes) :
    ∀ (ms : List ν) (s : ClqSt α L) (done : List ν) (reps : List (GNode α L)),
      (∀ m ∈ ms, ∃ p ∈ K, ns p = m) →
      (s0.nodes ⊆ s.nodes ∧ s0.edges ⊆ s.edges ∧ Small s.nodes ∧ s0.nodes.length ≤ s.nodes.length ∧
        NewEdges K s0 s ∧ List.Forall₂ (Stands ns K s s0.nodes) done reps) →
      ∃ s' reps', ms.foldl (nsStep ns K) (s, reps) = (s', reps') ∧
        (s0.nodes ⊆ s'.nodes ∧ s0.edges ⊆ s'.edges ∧ Small s'.nodes ∧ s0.nodes.length ≤ s'.nodes.length ∧
          NewEdges K s0 s' ∧ List.Forall₂ (Stands ns K s' s0.nodes) (done ++ ms) reps') := by
  intro ms
  induction ms with
  | nil =>
    intro s done reps _ h
    exact ⟨s, reps, rfl, by simpa using h⟩
  | cons m ms ih =>
    intro s done reps hne h
    obtain ⟨h1, h2, h3, h4, h5, h6⟩ := h
    obtain ⟨p0, hp0, hm0⟩ := hne m (by simp)
    have hmem0 : p0 ∈ K.filter (fun p => ns p = m) := by simp [hp0, hm0]
    have hdone : done ++ m :: ms = (done ++ [m]) ++ ms := by simp
    rw [List.foldl_cons, hdone]
    by_cases hl : (K.filter (fun p => ns p = m)).length > 1
    · have hst : nsStep ns K (s, reps) m =
          (⟨s.nodes ++ [.clq s.nodes.length], s.edges ++ (K.filter (fun p => ns p = m)).map
            (fun p => (.clq s.nodes.length, .peer p))⟩, reps ++ [.clq s.nodes.length]) := by
        simp only [nsStep]
        rw [if_pos hl]
      rw [hst]
      have hfresh : (GNode.clq s.nodes.length : GNode α L) ∉ s0.nodes := by
        intro hc
        rcases hsm0 _ hc with ⟨i, hi, he⟩ | ⟨l, i, hi, he⟩
        · simp only [GNode.clq.injEq] at he
          omega
        · simp at he
      refine ih _ _ _ (fun m' hm' => hne m' (by simp [hm'])) ⟨?_, ?_, ?_, ?_, ?_, ?_⟩
      · exact fun x hx => by simp [h1 hx]
      · exact fun x hx => by simp [h2 hx]
      · intro n hn
        rcases List.mem_append.1 hn with hn | hn
        · rcases h3 n hn with ⟨i, hi, he⟩ | ⟨l, i, hi, he⟩
          · exact .inl ⟨i, by simp; omega, he⟩
          · exact .inr ⟨l, i, by simp; omega, he⟩
        · exact .inl ⟨s.nodes.length, by simp, by simpa using hn⟩
      · simp; omega
      · intro e he
        rcases List.mem_append.1 he with he | he
        · rcases h5 e he with h | ⟨c, p, h, hc, hc', hp⟩
          · exact .inl h
          · exact .inr ⟨c, p, h, by simp [hc], hc', hp⟩
        · obtain ⟨p, hp, he⟩ := List.mem_map.1 he
          exact .inr ⟨_, p, he.symm, by simp, hfresh, (List.mem_filter.1 hp).1⟩
      · refine List.rel_append (R := Stands ns K _ s0.nodes) ?_ ?_
        · refine h6.imp ?_
          rintro m' r (h | ⟨ha, hb, hc, hd⟩)
          · exact .inl h
          · exact .inr ⟨ha, by simp [hb], hc, fun p hp hn => by simp [hd p hp hn]⟩
        · refine .cons (.inr ⟨rfl, by simp, hfresh, ?_⟩) .nil
          intro p hp hn
          simp [hp, hn]
    · have hst : nsStep ns K (s, reps) m = (s, reps ++ ((K.filter (fun p => ns p = m)).take 1).map .peer) := by
        simp only [nsStep]
        rw [if_neg hl]
      rw [hst]
      obtain ⟨p, hp⟩ : ∃ p, K.filter (fun p => ns p = m) = [p] := by
        cases hK : K.filter (fun p => ns p = m) with
        | nil => rw [hK] at hmem0; simp at hmem0
        | cons p ps =>
          cases ps with
          | nil => exact ⟨p, rfl⟩
          | cons q qs => rw [hK] at hl; simp at hl
      refine ih _ _ _ (fun m' hm' => hne m' (by simp [hm'])) ⟨h1, h2, h3, h4, h5, ?_⟩
      refine List.rel_append (R := Stands ns K _ s0.nodes) h6 ?_
      rw [hp]
      exact .cons (.inl ⟨p, hp, rfl⟩) .nil

/-- The invariant of the loop over the cliques: every clique node belongs to a clique, edges stay within
the peers and nodes of one clique, and the peers of a clique are connected. -/
structure ClqInv (Ks : List (List α)) (s : ClqSt α L) (own : GNode α L → List α) : Prop where
  small : Small s.nodes
  own_mem : ∀ c ∈ s.nodes, own c ∈ Ks ∧ 4 ≤ (own c).length
  edge : ∀ e ∈ s.edges, (e.1 ∈ s.nodes ∧ ∃ p, e.2 = .peer p ∧ p ∈ own e.1) ∨
    (e.2 ∈ s.nodes ∧ ∃ p, e.1 = .peer p ∧ p ∈ own e.2) ∨ (e.1 ∈ s.nodes ∧ e.2 ∈ s.nodes ∧ own e.1 = own e.2)
  via : ∀ K ∈ Ks, 4 ≤ K.length → ∀ x ∈ K, ∀ y ∈ K, x ≠ y → Via s.edges x y

omit [DecidableEq α] in
theorem Small.clique {nodes : List (GNode α L)} (h : Small nodes) {c} (hc : c ∈ nodes) : c.isClique = true := by
  rcases h c hc with ⟨i, _, rfl⟩ | ⟨l, i, _, rfl⟩ <;> rfl

theorem forall₂_left {β γ : Type} {R : β → γ → Prop} {l : List β} {r : List γ} (h : List.Forall₂ R l r)
    {a : β} (ha : a ∈ l) : ∃ b ∈ r, R a b := by
  induction h with
  | nil => simp at ha
  | cons hd _ ih =>
    rcases List.mem_cons.1 ha with rfl | ha
    · exact ⟨_, by simp, hd⟩
    · obtain ⟨b, hb, h⟩ := ih ha
      exact ⟨b, by simp [hb], h⟩

theorem forall₂_right {β γ : Type} {R : β → γ → Prop} {l : List β} {r : List γ} (h : List.Forall₂ R l r)
    {b : γ} (hb : b ∈ r) : ∃ a ∈ l, R a b := by
  induction h with
  | nil => simp at hb
  | cons hd _ ih =>
    rcases List.mem_cons.1 hb with rfl | hb
    · exact ⟨_, by simp, hd⟩
    · obtain ⟨a, ha, h⟩ := ih hb
      exact ⟨a, by simp [ha], h⟩

/-- In the case of two namespaces of a clique of at least four peers, not both are represented by a peer. -/
theorem not_both_peers {ns : α → ν} {K : List α} (hnd : K.Nodup) (h4 : 4 ≤ K.length) {m m' : ν}
    (hms : ∀ p ∈ K, ns p = m ∨ ns p = m') {p p' : α} (h : K.filter (fun p => ns p = m) = [p])
    (h' : K.filter (fun p => ns p = m') = [p']) : False := by
  have hs : K ⊆ [p, p'] := by
    intro q hq
    rcases hms q hq with hm | hm
    · have : q ∈ K.filter (fun p => ns p = m) := by simp [hq, hm]
      rw [h] at this
      simp at this
      simp [this]
    · have : q ∈ K.filter (fun p => ns p = m') := by simp [hq, hm]
      rw [h'] at this
      simp at this
      simp [this]
  have := (hnd.subperm hs).length_le
  simp at this
  omega

open Classical in
/-- The loop body keeps the invariant. -/
theorem clqStep_inv (ns : α → ν) (l : L) {Ks : List (List α)} {s : ClqSt α L} {own : GNode α L → List α}
    (I : ClqInv Ks s own) {K : List α} (hnd : K.Nodup) (h4 : 4 ≤ K.length) :
    ClqInv (Ks ++ [K]) (topStep l ((K.map ns).dedup.foldl (nsStep ns K) (s, [])))
      (fun c => if c ∈ s.nodes then own c else K) := by
  obtain ⟨s', reps, he, hn, hE, hsm, hlen, hnew, hF⟩ := nsFold ns K s I.small (K.map ns).dedup s [] []
    (by
      intro m hm
      obtain ⟨p, hp, h⟩ := List.mem_map.1 (List.mem_dedup.1 hm)
      exact ⟨p, hp, h⟩)
    ⟨fun _ h => h, fun _ h => h, I.small, Nat.le_refl _, fun e he => .inl he, .nil⟩
  rw [he]
  rw [List.nil_append] at hF
  have hms : ∀ p ∈ K, ns p ∈ (K.map ns).dedup := fun p hp => List.mem_dedup.2 (List.mem_map_of_mem hp)
  -- the peer `p` and a representative of it
  have hrep : ∀ r ∈ reps, (∃ p ∈ K, r = .peer p) ∨ (r.isClique = true ∧ r ∈ s'.nodes ∧ r ∉ s.nodes) := by
    intro r hr
    obtain ⟨m, hm, h | ⟨ha, hb, hc, _⟩⟩ := forall₂_right hF hr
    · obtain ⟨p, hp, rfl⟩ := h
      have : p ∈ K.filter (fun p => ns p = m) := by simp [hp]
      exact .inl ⟨p, (List.mem_filter.1 this).1, rfl⟩
    · exact .inr ⟨ha, hb, hc⟩
  have hnotboth : ∀ r r', reps = [r, r'] → ∀ p p', r = .peer p → r' = .peer p' → False := by
    intro r r' hr p p' h h'
    subst h h'
    rw [hr] at hF
    generalize hmm : (K.map ns).dedup = ms at hF
    cases hF with
    | cons h1 h2 =>
      cases h2 with
      | cons h2 h3 =>
        cases h3
        rename_i m m'
        rcases h1 with ⟨q, hq, _⟩ | ⟨ha, _⟩
        · rcases h2 with ⟨q', hq', _⟩ | ⟨ha, _⟩
          · refine not_both_peers hnd h4 (m := m) (m' := m') ?_ hq hq'
            intro p hp
            have := hms p hp
            rw [hmm] at this
            simpa using this
          · simp [GNode.isClique] at ha
        · simp [GNode.isClique] at ha
  -- the edges of the state before, lifted
  have hold : ∀ e ∈ s.edges, ∀ nodes : List (GNode α L), s.nodes ⊆ nodes →
      (e.1 ∈ nodes ∧ ∃ p, e.2 = .peer p ∧ p ∈ (if e.1 ∈ s.nodes then own e.1 else K)) ∨
      (e.2 ∈ nodes ∧ ∃ p, e.1 = .peer p ∧ p ∈ (if e.2 ∈ s.nodes then own e.2 else K)) ∨
      (e.1 ∈ nodes ∧ e.2 ∈ nodes ∧ (if e.1 ∈ s.nodes then own e.1 else K) = (if e.2 ∈ s.nodes then own e.2 else K)) := by
    intro e he nodes hsub
    rcases I.edge e he with ⟨h1, p, h2, h3⟩ | ⟨h1, p, h2, h3⟩ | ⟨h1, h2, h3⟩
    · exact .inl ⟨hsub h1, p, h2, by rwa [if_pos h1]⟩
    · exact .inr (.inl ⟨hsub h1, p, h2, by rwa [if_pos h1]⟩)
    · exact .inr (.inr ⟨hsub h1, hsub h2, by rw [if_pos h1, if_pos h2, h3]⟩)
  have hmid : ∀ e ∈ s'.edges, ∀ nodes : List (GNode α L), s'.nodes ⊆ nodes →
      (e.1 ∈ nodes ∧ ∃ p, e.2 = .peer p ∧ p ∈ (if e.1 ∈ s.nodes then own e.1 else K)) ∨
      (e.2 ∈ nodes ∧ ∃ p, e.1 = .peer p ∧ p ∈ (if e.2 ∈ s.nodes then own e.2 else K)) ∨
      (e.1 ∈ nodes ∧ e.2 ∈ nodes ∧ (if e.1 ∈ s.nodes then own e.1 else K) = (if e.2 ∈ s.nodes then own e.2 else K)) := by
    intro e he nodes hsub
    rcases hnew e he with h | ⟨c, p, rfl, hc, hc', hp⟩
    · exact hold e h nodes (fun _ hx => hsub (hn hx))
    · exact .inl ⟨hsub hc, p, rfl, by simpa [hc'] using hp⟩
  -- two peers of one namespace
  have hsame : ∀ x ∈ K, ∀ y ∈ K, x ≠ y → ns x = ns y → Via s'.edges x y := by
    intro x hx y hy hxy hns
    obtain ⟨r, hr, ⟨p, hp, _⟩ | ⟨ha, hb, hc, hd⟩⟩ := forall₂_left hF (hms x hx)
    · have h1 : x ∈ K.filter (fun p => ns p = ns x) := by simp [hx]
      have h2 : y ∈ K.filter (fun p => ns p = ns x) := by simp [hy, hns]
      rw [hp] at h1 h2
      simp at h1 h2
      exact absurd (h1.trans h2.symm) hxy
    · exact ⟨r, .one (.inr (hd x hx rfl)) ha, .inl (hd y hy hns.symm)⟩
  -- a representative of a peer
  have hat : ∀ x ∈ K, ∃ r ∈ reps, r = .peer x ∨ (r.isClique = true ∧ (r, .peer x) ∈ s'.edges) := by
    intro x hx
    obtain ⟨r, hr, ⟨p, hp, rfl⟩ | ⟨ha, hb, hc, hd⟩⟩ := forall₂_left hF (hms x hx)
    · have h1 : x ∈ K.filter (fun p => ns p = ns x) := by simp [hx]
      rw [hp] at h1
      simp at h1
      exact ⟨_, hr, .inl (by rw [h1])⟩
    · exact ⟨r, hr, .inr ⟨ha, hd x hx rfl⟩⟩
  have hviaold : ∀ E' : List (GNode α L × GNode α L), (∀ e ∈ s'.edges, e ∈ E') →
      (∀ x ∈ K, ∀ y ∈ K, x ≠ y → Via E' x y) →
      ∀ K' ∈ Ks ++ [K], 4 ≤ K'.length → ∀ x ∈ K', ∀ y ∈ K', x ≠ y → Via E' x y := by
    intro E' hsub hK K' hK' h4' x hx y hy hxy
    rcases List.mem_append.1 hK' with h | h
    · exact (I.via K' h h4' x hx y hy hxy).mono (fun e he => hsub e (hE he))
    · have : K' = K := by simpa using h
      subst this
      exact hK x hx y hy hxy
  have hown : ∀ c : GNode α L, (if c ∈ s.nodes then own c else K) ∈ Ks ++ [K] ∧
      4 ≤ (if c ∈ s.nodes then own c else K).length := by
    intro c
    split
    · rename_i h
      exact ⟨by simp [(I.own_mem c h).1], (I.own_mem c h).2⟩
    · exact ⟨by simp, h4⟩
  unfold topStep
  by_cases hl : reps.length > 2
  · rw [if_pos hl]
    set t : GNode α L := .top l s'.nodes.length with ht
    have htn : t ∉ s.nodes := by
      intro hc
      rcases I.small _ hc with ⟨i, hi, he⟩ | ⟨l', i, hi, he⟩
      · simp [ht] at he
      · simp only [ht, GNode.top.injEq] at he
        omega
    refine ⟨?_, fun c _ => hown c, ?_, ?_⟩
    · intro n hn
      rcases List.mem_append.1 hn with hn | hn
      · rcases hsm n hn with ⟨i, hi, he⟩ | ⟨l, i, hi, he⟩
        · exact .inl ⟨i, by simp; omega, he⟩
        · exact .inr ⟨l, i, by simp; omega, he⟩
      · exact .inr ⟨l, s'.nodes.length, by simp, by simpa [ht] using hn⟩
    · intro e he
      rcases List.mem_append.1 he with he | he
      · exact hmid e he _ (fun _ h => by simp [h])
      · obtain ⟨r, hr, rfl⟩ := List.mem_map.1 he
        rcases hrep r hr with ⟨p, hp, rfl⟩ | ⟨ha, hb, hc⟩
        · exact .inr (.inl ⟨by simp, p, rfl, by simpa [htn] using hp⟩)
        · exact .inr (.inr ⟨by simp [hb], by simp, by simp [hc, htn]⟩)
    · have hup : ∀ e ∈ s'.edges, e ∈ s'.edges ++ reps.map (fun r => (r, t)) := fun e he => by simp [he]
      have htop : ∀ r ∈ reps, (r, t) ∈ s'.edges ++ reps.map (fun r => (r, t)) := by
        intro r hr
        simp only [List.mem_append, List.mem_map, Prod.mk.injEq, and_true, exists_eq_right]
        exact .inr hr
      refine hviaold _ hup ?_
      intro x hx y hy hxy
      obtain ⟨r, hr, hxr⟩ := hat x hx
      obtain ⟨r', hr', hyr⟩ := hat y hy
      have hw : Walk (s'.edges ++ reps.map (fun r => (r, t))) (.peer x) t := by
        rcases hxr with rfl | ⟨hc, hxr⟩
        · exact .one (.inl (htop _ hr)) rfl
        · exact .next (.one (.inr (hup _ hxr)) hc) (.inl (htop _ hr)) rfl
      rcases hyr with rfl | ⟨hc, hyr⟩
      · exact ⟨t, hw, .inr (htop _ hr')⟩
      · exact ⟨r', .next hw (.inr (htop _ hr')) hc, .inl (hup _ hyr)⟩
  · rw [if_neg hl]
    split
    · rename_i r r' hreps
      simp only at hreps
      refine ⟨hsm, fun c _ => hown c, ?_, ?_⟩
      · intro e he
        rcases List.mem_append.1 he with he | he
        · exact hmid e he _ (fun _ h => h)
        · simp only [List.mem_singleton] at he
          subst he
          rcases hrep r (by simp [hreps]) with ⟨p, hp, rfl⟩ | ⟨ha, hb, hc⟩
          · rcases hrep r' (by simp [hreps]) with ⟨p', hp', rfl⟩ | ⟨ha', hb', hc'⟩
            · exact (hnotboth _ _ hreps _ _ rfl rfl).elim
            · exact .inr (.inl ⟨hb', p, rfl, by simpa [hc'] using hp⟩)
          · rcases hrep r' (by simp [hreps]) with ⟨p', hp', rfl⟩ | ⟨ha', hb', hc'⟩
            · exact .inl ⟨hb, p', rfl, by simpa [hc] using hp'⟩
            · exact .inr (.inr ⟨hb, hb', by simp [hc, hc']⟩)
      · have hup : ∀ e ∈ s'.edges, e ∈ s'.edges ++ [(r, r')] := fun e he => by simp [he]
        refine hviaold _ hup ?_
        intro x hx y hy hxy
        by_cases hns : ns x = ns y
        · exact (hsame x hx y hy hxy hns).mono hup
        have hj : (r, r') ∈ s'.edges ++ [(r, r')] := by simp
        -- the two representatives of `x` and `y` are `r` and `r'`
        rw [hreps] at hF
        cases hF' : (K.map ns).dedup with
        | nil => rw [hF'] at hF; cases hF
        | cons m ms =>
          rw [hF'] at hF
          cases hF with
          | cons h1 h2 =>
            cases h2 with
            | cons h2 h3 =>
              cases h3
              rename_i m'
              have key : ∀ x ∈ K, ∀ m r, Stands ns K s' s.nodes m r → ns x = m →
                  r = .peer x ∨ (r.isClique = true ∧ (r, .peer x) ∈ s'.edges) := by
                intro x hx m r h hm
                rcases h with ⟨p, hp, rfl⟩ | ⟨ha, hb, hc, hd⟩
                · have h1 : x ∈ K.filter (fun p => ns p = m) := by simp [hx, hm]
                  rw [hp] at h1
                  simp at h1
                  exact .inl (by rw [h1])
                · exact .inr ⟨ha, hd x hx hm⟩
              have fin : ∀ x ∈ K, ∀ y ∈ K, (r = .peer x ∨ (r.isClique = true ∧ (r, .peer x) ∈ s'.edges)) →
                  (r' = .peer y ∨ (r'.isClique = true ∧ (r', .peer y) ∈ s'.edges)) →
                  Via (s'.edges ++ [(r, r')]) x y ∧ Via (s'.edges ++ [(r, r')]) y x := by
                intro x _ y _ hx hy
                rcases hx with hx | ⟨hc, hx⟩
                · rcases hy with hy | ⟨hc', hy⟩
                  · exact (hnotboth _ _ hreps _ _ hx hy).elim
                  · rw [hx] at hj ⊢
                    exact ⟨⟨r', .one (.inl hj) hc', .inl (by simp [hy])⟩,
                      ⟨r', .one (.inr (by simp [hy])) hc', .inr hj⟩⟩
                · rcases hy with hy | ⟨hc', hy⟩
                  · rw [hy] at hj ⊢
                    exact ⟨⟨r, .one (.inr (by simp [hx])) hc, .inl hj⟩,
                      ⟨r, .one (.inr hj) hc, .inl (by simp [hx])⟩⟩
                  · exact ⟨⟨r', .next (.one (.inr (hup _ hx)) hc) (.inl hj) hc', .inl (hup _ hy)⟩,
                      ⟨r, .next (.one (.inr (hup _ hy)) hc') (.inr hj) hc, .inl (hup _ hx)⟩⟩
              have hx' := hms x hx
              have hy' := hms y hy
              rw [hF'] at hx' hy'
              simp only [List.mem_cons, List.not_mem_nil, or_false] at hx' hy'
              rcases hx' with hx' | hx' <;> rcases hy' with hy' | hy'
              · exact absurd (hx'.trans hy'.symm) hns
              · exact (fin x hx y hy (key x hx _ _ h1 hx') (key y hy _ _ h2 hy')).1
              · exact (fin y hy x hx (key y hy _ _ h1 hy') (key x hx _ _ h2 hx')).2
              · exact absurd (hx'.trans hy'.symm) hns
    · rename_i hne
      simp only at hne
      refine ⟨hsm, fun c _ => hown c, fun e he => hmid e he _ (fun _ h => h), hviaold _ (fun _ h => h) ?_⟩
      intro x hx y hy hxy
      by_cases hns : ns x = ns y
      · exact hsame x hx y hy hxy hns
      exfalso
      have hlen := hF.length_eq
      have h2 : 2 ≤ (K.map ns).dedup.length := by
        have := ((List.nodup_cons.2 ⟨by simpa using hns, List.pairwise_singleton _ (ns y)⟩ : [ns x, ns y].Nodup).subperm
          (l₂ := (K.map ns).dedup) (by
            intro m hm
            simp only [List.mem_cons, List.not_mem_nil, or_false] at hm
            rcases hm with rfl | rfl
            · exact hms x hx
            · exact hms y hy)).length_le
        simpa using this
      match reps, hne, hl, hlen with
      | [], _, _, hlen => simp only [List.length_nil] at hlen; omega
      | [a], _, _, hlen => simp only [List.length_singleton] at hlen; omega
      | [a, b], hne, _, _ => exact hne a b rfl
      | a :: b :: c :: r, _, hl, _ => simp at hl

/-- What `_creates_cliqued_graph` adds connects two peers exactly if they are in one of the cliques that
were replaced, and what is left are the edges within none of them. -/
theorem cliqued_spec (ns : α → ν) (l : L) (Ks : List (List α)) (hnd : ∀ K ∈ Ks, K.Nodup) :
    ∀ (done : List (List α)) (s : ClqSt α L) (own : GNode α L → List α) (und : List (α × α)),
      ClqInv done s own →
      ∃ s' own', Ks.foldl (cliqueStep ns l) (s, und) =
          (s', und.filter (fun e => !(Ks.any (fun K => decide (4 ≤ K.length) && K.contains e.1 && K.contains e.2)))) ∧
        ClqInv (done ++ Ks) s' own' := by
  induction Ks with
  | nil =>
    intro done s own und I
    exact ⟨s, own, by simp, by simpa using I⟩
  | cons K Ks ih =>
    intro done s own und I
    rw [List.foldl_cons]
    by_cases h4 : K.length < 4
    · have hst : cliqueStep ns l (s, und) K = (s, und) := by simp [cliqueStep, h4]
      have I' : ClqInv (done ++ [K]) s own :=
        ⟨I.small, fun c hc => ⟨by simp [(I.own_mem c hc).1], (I.own_mem c hc).2⟩, I.edge, by
          intro K' hK' h4'
          rcases List.mem_append.1 hK' with h | h
          · exact I.via K' h h4'
          · have : K' = K := by simpa using h
            subst this
            omega⟩
      obtain ⟨s', own', he, I''⟩ := ih (fun K' h => hnd K' (by simp [h])) _ s own und I'
      refine ⟨s', own', ?_, by simpa using I''⟩
      rw [hst, he]
      congr 1
      refine List.filter_congr ?_
      intro e _
      have : decide (4 ≤ K.length) = false := by simpa using h4
      simp [this]
    · have hst : cliqueStep ns l (s, und) K = (topStep l ((K.map ns).dedup.foldl (nsStep ns K) (s, [])),
          und.filter (fun e => !(K.contains e.1 && K.contains e.2))) := by simp [cliqueStep, h4]
      obtain ⟨s', own', he, I''⟩ := ih (fun K' h => hnd K' (by simp [h])) _ _ _
        (und.filter (fun e => !(K.contains e.1 && K.contains e.2))) (clqStep_inv ns l I (hnd K (by simp)) (by omega))
      refine ⟨s', own', ?_, by simpa using I''⟩
      rw [hst, he, List.filter_filter]
      congr 1
      refine List.filter_congr ?_
      intro e _
      have : decide (4 ≤ K.length) = true := by simpa using h4
      rw [List.any_cons, this, Bool.true_and, Bool.not_or, Bool.and_comm]

theorem ClqInv.start (l : L) : ClqInv (α := α) (L := L) [] ⟨[], []⟩ (fun _ => []) :=
  ⟨fun _ h => by simp at h, fun _ h => by simp at h, fun _ h => by simp at h, fun _ h => by simp at h⟩

omit [DecidableEq α] in
theorem ClqInv.peer_not {Ks : List (List α)} {s : ClqSt α L} {own} (I : ClqInv Ks s own) (x : α) :
    GNode.peer x ∉ s.nodes := by
  intro h
  have := I.small.clique h
  simp [GNode.isClique] at this

omit [DecidableEq α] in
theorem ClqInv.walk {Ks : List (List α)} {s : ClqSt α L} {own} (I : ClqInv Ks s own) {x : α} {c}
    (w : Walk s.edges (.peer x) c) : c ∈ s.nodes ∧ x ∈ own c := by
  induction w with
  | one j hc =>
    rename_i c
    rcases j with j | j
    · rcases I.edge _ j with ⟨h1, _⟩ | ⟨h1, p, h2, h3⟩ | ⟨h1, _⟩
      · exact absurd h1 (I.peer_not x)
      · simp only [GNode.peer.injEq] at h2
        subst h2
        exact ⟨h1, h3⟩
      · exact absurd h1 (I.peer_not x)
    · rcases I.edge _ j with ⟨h1, p, h2, h3⟩ | ⟨h1, _⟩ | ⟨_, h1, _⟩
      · simp only [GNode.peer.injEq] at h2
        subst h2
        exact ⟨h1, h3⟩
      · exact absurd h1 (I.peer_not x)
      · exact absurd h1 (I.peer_not x)
  | next _ j hd ih =>
    rename_i c d _
    have hpd : ∀ p, d ≠ GNode.peer p := by
      rintro p rfl
      simp [GNode.isClique] at hd
    have hpc : ∀ p, c ≠ GNode.peer p := by
      rintro p rfl
      exact I.peer_not p ih.1
    rcases j with j | j
    · rcases I.edge _ j with ⟨_, p, h2, _⟩ | ⟨_, p, h2, _⟩ | ⟨_, h2, h3⟩
      · exact absurd h2 (hpd p)
      · exact absurd h2 (hpc p)
      · exact ⟨h2, h3 ▸ ih.2⟩
    · rcases I.edge _ j with ⟨_, p, h2, _⟩ | ⟨_, p, h2, _⟩ | ⟨h2, _, h3⟩
      · exact absurd h2 (hpc p)
      · exact absurd h2 (hpd p)
      · exact ⟨h2, h3 ▸ ih.2⟩

omit [DecidableEq α] in
theorem ClqInv.via_iff {Ks : List (List α)} {s : ClqSt α L} {own} (I : ClqInv Ks s own) {x y : α} (hxy : x ≠ y) :
    Via s.edges x y ↔ ∃ K ∈ Ks, 4 ≤ K.length ∧ x ∈ K ∧ y ∈ K := by
  constructor
  · rintro ⟨c, w, j⟩
    obtain ⟨hc, hx⟩ := I.walk w
    have hpc : ∀ p, c ≠ GNode.peer p := by
      rintro p rfl
      exact I.peer_not p hc
    refine ⟨own c, (I.own_mem c hc).1, (I.own_mem c hc).2, hx, ?_⟩
    rcases j with j | j
    · rcases I.edge _ j with ⟨_, p, h2, h3⟩ | ⟨_, p, h2, _⟩ | ⟨_, h2, h3⟩
      · simp only [GNode.peer.injEq] at h2
        subst h2
        exact h3
      · exact absurd h2 (hpc p)
      · exact absurd h2 (I.peer_not y)
    · rcases I.edge _ j with ⟨h2, _⟩ | ⟨_, p, h2, h3⟩ | ⟨h2, _, h3⟩
      · exact absurd h2 (I.peer_not y)
      · simp only [GNode.peer.injEq] at h2
        subst h2
        exact h3
      · exact absurd h2 (I.peer_not y)
  · rintro ⟨K, hK, h4, hx, hy⟩
    exact I.via K hK h4 x hx y hy hxy

omit [DecidableEq α] in
theorem ClqInv.no_peers {Ks : List (List α)} {s : ClqSt α L} {own} (I : ClqInv Ks s own) (x y : α) :
    (GNode.peer x, GNode.peer y) ∉ s.edges := by
  intro h
  rcases I.edge _ h with ⟨h1, _⟩ | ⟨h1, _⟩ | ⟨h1, _⟩
  · exact I.peer_not x h1
  · exact I.peer_not y h1
  · exact I.peer_not x h1

end Cliques

/-! ### Bicliques -/

section Bicliques
variable {α L : Type} [DecidableEq α]

theorem mem_dstsOf {D : List (α × α)} {s d : α} : d ∈ dstsOf D s ↔ (s, d) ∈ D := by
  simp only [dstsOf, List.mem_dedup, List.mem_map, List.mem_filter, decide_eq_true_eq]
  constructor
  · rintro ⟨⟨a, b⟩, ⟨h, rfl⟩, rfl⟩
    exact h
  · intro h
    exact ⟨(s, d), ⟨h, rfl⟩, rfl⟩

theorem bicliques_sub {D : List (α × α)} {b} (hb : b ∈ bicliques D) {x y} (hx : x ∈ b.1) (hy : y ∈ b.2) :
    (x, y) ∈ D := by
  obtain ⟨s, hs, rfl⟩ := List.mem_map.1 hb
  simp only [List.mem_filter, List.all_eq_true, List.contains_iff_mem] at hx
  exact mem_dstsOf.1 (hx.2 y hy)

/-- What the loop over the bicliques returns. -/
structure BiSpec (l : L) (D : List (α × α)) (n : Nat)
    (r : List (α × α) × List (GNode α L × GNode α L) × List (GNode α L)) : Prop where
  sub : ∀ e ∈ r.1, e ∈ D
  cover : ∀ e ∈ D, e ∈ r.1 ∨ ∃ i, (.peer e.1, .bi l i) ∈ r.2.1 ∧ (.bi l i, .peer e.2) ∈ r.2.1
  sound : ∀ x y i, (.peer x, .bi l i) ∈ r.2.1 → (.bi l i, .peer y) ∈ r.2.1 → (x, y) ∈ D
  shape : ∀ e ∈ r.2.1, ∃ p i, n ≤ i ∧ .bi l i ∈ r.2.2 ∧ (e = (.peer p, .bi l i) ∨ e = (.bi l i, .peer p))
  nodes : ∀ c ∈ r.2.2, c.isBi = true

theorem biLoop_spec (pick : List (α × α) → List α × List α) (hp : ∀ D, D ≠ [] → pick D ∈ bicliques D) (l : L) :
    ∀ f D n, BiSpec l D n (biLoop pick l f D n) := by
  intro f
  have stop : ∀ (D : List (α × α)) n, BiSpec l D n (D, [], []) := fun D n =>
    ⟨fun _ h => h, fun _ h => .inl h, fun _ _ _ h => by simp at h, fun _ h => by simp at h, fun _ h => by simp at h⟩
  induction f with
  | zero => exact fun D n => stop D n
  | succ f ih =>
    intro D n
    unfold biLoop
    split
    · exact stop D n
    split
    · exact stop D n
    rename_i hD _
    have hD : D ≠ [] := by simpa using hD
    have hb := hp D hD
    generalize pick D = b at hb ⊢
    have I := ih (D.filter (fun e => !(b.1.contains e.1 && b.2.contains e.2))) (n + 1)
    dsimp only
    generalize biLoop pick l f (D.filter (fun e => !(b.1.contains e.1 && b.2.contains e.2))) (n + 1) = r at I ⊢
    have hnew : ∀ p, (.peer p, .bi l n) ∉ r.2.1 ∧ (.bi l n, .peer p) ∉ r.2.1 := by
      intro p
      constructor
      all_goals
        intro h
        obtain ⟨q, i, hi, _, h | h⟩ := I.shape _ h
        all_goals
          simp only [Prod.mk.injEq, GNode.peer.injEq, GNode.bi.injEq, true_and, reduceCtorEq, false_and, and_false] at h
        all_goals omega
    refine ⟨?_, ?_, ?_, ?_, ?_⟩
    · intro e he
      exact (List.mem_filter.1 (I.sub e he)).1
    · intro e he
      by_cases h : (b.1.contains e.1 && b.2.contains e.2) = true
      · simp only [Bool.and_eq_true, List.contains_iff_mem] at h
        refine .inr ⟨n, ?_, ?_⟩ <;> simp [h.1, h.2]
      · rcases I.cover e (List.mem_filter.2 ⟨he, by rw [Bool.not_eq_true] at h; rw [h]; rfl⟩) with h | ⟨i, h1, h2⟩
        · exact .inl h
        · refine .inr ⟨i, ?_, ?_⟩ <;> simp [h1, h2]
    · intro x y i hx hy
      simp only [List.mem_append, List.mem_map, Prod.mk.injEq, GNode.peer.injEq, GNode.bi.injEq, true_and,
        reduceCtorEq, false_and, and_false, exists_false, or_false, false_or] at hx hy
      rcases hx with ⟨s, hs, rfl, rfl⟩ | hx
      · rcases hy with ⟨d, hd, _, rfl⟩ | hy
        · exact bicliques_sub hb hs hd
        · exact absurd hy (hnew y).2
      · rcases hy with ⟨d, hd, rfl, rfl⟩ | hy
        · exact absurd hx (hnew x).1
        · exact (List.mem_filter.1 (I.sound x y i hx hy)).1
    · intro e he
      simp only [List.mem_append, List.mem_map] at he
      rcases he with (⟨s, hs, rfl⟩ | ⟨d, hd, rfl⟩) | he
      · exact ⟨s, n, Nat.le_refl _, by simp, .inl rfl⟩
      · exact ⟨d, n, Nat.le_refl _, by simp, .inr rfl⟩
      · obtain ⟨p, i, hi, hm, h⟩ := I.shape e he
        exact ⟨p, i, by omega, by simp [hm], h⟩
    · intro c hc
      rcases List.mem_cons.1 hc with rfl | hc
      · rfl
      · exact I.nodes c hc

/-- A best biclique of rank at least one takes away at least one edge. -/
theorem biStep_lt {D : List (α × α)} {b : List α × List α} (hb : b ∈ bicliques D) (hr : ¬ rank b < 1) :
    (D.filter (fun e => !(b.1.contains e.1 && b.2.contains e.2))).length < D.length := by
  have h1 : b.1 ≠ [] := by
    intro h
    apply hr
    simp only [rank, h, List.length_nil]
    have := Int.natCast_nonneg b.2.length
    omega
  have h2 : b.2 ≠ [] := by
    intro h
    apply hr
    simp only [rank, h, List.length_nil]
    have := Int.natCast_nonneg b.1.length
    simp
    omega
  obtain ⟨x, hx⟩ := List.exists_mem_of_ne_nil _ h1
  obtain ⟨y, hy⟩ := List.exists_mem_of_ne_nil _ h2
  refine List.length_filter_lt_length_iff_exists.2 ⟨(x, y), bicliques_sub hb hx hy, ?_⟩
  simp [hx, hy]

/-- The loop ends because no edge or no biclique worth a node is left, not because of the bound. -/
theorem biLoop_done (pick : List (α × α) → List α × List α) (hp : ∀ D, D ≠ [] → pick D ∈ bicliques D) (l : L) :
    ∀ f D n, D.length ≤ f → (biLoop pick l f D n).1 = [] ∨ rank (pick (biLoop pick l f D n).1) < 1 := by
  intro f
  induction f with
  | zero =>
    intro D n h
    left
    have : D = [] := List.length_eq_zero_iff.1 (by omega)
    simp [biLoop, this]
  | succ f ih =>
    intro D n h
    unfold biLoop
    split
    · rename_i h
      exact .inl (by simpa using h)
    split
    · rename_i h
      exact .inr h
    · rename_i hD hr
      have hlt := biStep_lt (hp D (by simpa using hD)) hr
      exact ih _ _ (by omega)

theorem foldl_best {b : List α × List α} (bs : List (List α × List α)) :
    let m := bs.foldl (fun m b => if rank m < rank b then b else m) b
    m ∈ b :: bs ∧ ∀ b' ∈ b :: bs, rank b' ≤ rank m := by
  induction bs generalizing b with
  | nil => simp
  | cons c bs ih =>
    simp only [List.foldl_cons]
    have := ih (b := if rank b < rank c then c else b)
    simp only at this
    obtain ⟨h1, h2⟩ := this
    constructor
    · rcases List.mem_cons.1 h1 with h | h
      · rw [h]
        split <;> simp
      · simp [h]
    · intro b' hb'
      have h3 := h2 (if rank b < rank c then c else b) (by simp)
      rcases List.mem_cons.1 hb' with rfl | hb'
      · refine Int.le_trans ?_ h3
        split <;> omega
      · rcases List.mem_cons.1 hb' with rfl | hb'
        · refine Int.le_trans ?_ h3
          split <;> omega
        · exact h2 b' (by simp [hb'])

theorem bicliques_ne {D : List (α × α)} (h : D ≠ []) : bicliques D ≠ [] := by
  obtain ⟨e, he⟩ := List.exists_mem_of_ne_nil _ h
  intro hn
  have : e.1 ∈ sources D := List.mem_dedup.2 (List.mem_map_of_mem he)
  simp only [bicliques, List.map_eq_nil_iff] at hn
  rw [hn] at this
  simp at this

/-- The first best biclique is a best biclique. -/
theorem pickFirst_best (D : List (α × α)) :
    (D ≠ [] → pickFirst D ∈ bicliques D) ∧ ∀ b ∈ bicliques D, rank b ≤ rank (pickFirst D) := by
  unfold pickFirst
  split
  · rename_i h
    exact ⟨fun hD => absurd h (bicliques_ne hD), fun b hb => by rw [h] at hb; simp at hb⟩
  · rename_i b bs h
    rw [h]
    exact ⟨fun _ => (foldl_best bs).1, (foldl_best bs).2⟩

end Bicliques

/-! ### One connection -/

section Conn
variable {α L ν τ : Type} [DecidableEq α] [DecidableEq ν]

/-- The labels and nodes used by the part of the drawing made for the connection `l`. -/
structure PartOf (l : L) (Q : Drawn α L τ) : Prop where
  node : ∀ n l', (n, l') ∈ Q.nodes → l' = l
  dir : ∀ x y l', (x, y, l') ∈ Q.dir → l' = l ∧ (x.isBi = true → (x, l) ∈ Q.nodes) ∧ (y.isBi = true → (y, l) ∈ Q.nodes)
  und : ∀ x y l', (x, y, l') ∈ Q.und →
    l' = l ∧ (x.isClique = true → (x, l) ∈ Q.nodes) ∧ (y.isClique = true → (y, l) ∈ Q.nodes)

omit [DecidableEq α] in
theorem drawConn_path {l : L} {Q : Drawn α L τ} {R : List (α × α)} {CE : List (GNode α L × GNode α L)}
    (hu : Q.und = R.map (fun e => (.peer e.1, .peer e.2, l)) ++ CE.map (fun e => (e.1, e.2, l))) {x c : GNode α L} :
    Q.Path (fun _ => l) l x c ↔ Walk CE x c := by
  have hj : ∀ x y : GNode α L, y.isClique = true → (Q.Joins x y ↔ J CE x y) := by
    intro x y hy
    unfold Drawn.Joins J
    rw [hu]
    simp only [List.mem_append, List.mem_map, Prod.mk.injEq]
    constructor
    · rintro ⟨l', (⟨e, he, _, rfl, _⟩ | ⟨e, he, rfl, rfl, _⟩) | (⟨e, he, rfl, _⟩ | ⟨e, he, rfl, rfl, _⟩)⟩
      · simp [GNode.isClique] at hy
      · exact .inl he
      · simp [GNode.isClique] at hy
      · exact .inr he
    · rintro (h | h)
      · exact ⟨l, .inl (.inr ⟨_, h, rfl, rfl, rfl⟩)⟩
      · exact ⟨l, .inr (.inr ⟨_, h, rfl, rfl, rfl⟩)⟩
  constructor
  · intro h
    induction h with
    | one j hc _ => exact .one ((hj _ _ hc).1 j) hc
    | next _ j hc _ ih => exact .next ih ((hj _ _ hc).1 j) hc
  · intro h
    induction h with
    | one j hc => exact .one ((hj _ _ hc).2 j) hc rfl
    | next _ j hc ih => exact .next ih ((hj _ _ hc).2 j) hc rfl

/-- What is drawn for one connection is read as its edges. -/
theorem drawConn_spec (V : Env α ν) (hV : V.Fair) (l : L) (E : List (α × α)) :
    PartOf l (drawConn V l E : Drawn α L τ) ∧
    ∀ x y, (drawConn V l E : Drawn α L τ).Reads (fun _ => l) l x y ↔ x ≠ y ∧ (x, y) ∈ E := by
  have h1u : ∀ x y, (x, y) ∈ (reformat V.lt [] E true).1 ↔ (x, y) ∈ E ∧ (y, x) ∈ E ∧ V.lt y x = true := by
    intro x y
    simp only [reformat, if_true, List.append_nil, List.mem_filter, List.contains_eq_mem, decide_eq_true_eq]
    tauto
  have h1d : ∀ x y, (x, y) ∈ (reformat V.lt [] E true).2 ↔ (x, y) ∈ E ∧ (y, x) ∉ E := by
    intro x y
    simp only [reformat, if_true, List.append_nil, List.mem_filter, Bool.not_eq_true', List.contains_eq_mem,
      decide_eq_false_iff_not, decide_eq_true_eq]
    tauto
  set r1 := reformat V.lt [] E true
  obtain ⟨s, own, hcl, I⟩ := cliqued_spec V.ns l (V.find r1.1) (hV.find_nodup r1.1) [] _ _ r1.1 (ClqInv.start l)
  rw [List.nil_append] at I
  have hc2 : ∀ x y, (x, y) ∈ (cliqued V.ns V.find l r1.1).2 ↔
      (x, y) ∈ r1.1 ∧ ¬ ∃ K ∈ V.find r1.1, 4 ≤ K.length ∧ x ∈ K ∧ y ∈ K := by
    intro x y
    unfold cliqued
    rw [hcl]
    simp [and_assoc]
  have hc1 : (cliqued V.ns V.find l r1.1).1 = s := by
    unfold cliqued
    rw [hcl]
  set c := cliqued V.ns V.find l r1.1
  have h2u : (reformat V.lt c.2 r1.2 false).1 = [] := rfl
  have h2d : ∀ x y, (x, y) ∈ (reformat V.lt c.2 r1.2 false).2 ↔ (x, y) ∈ r1.2 ∨ (x, y) ∈ c.2 ∨ (y, x) ∈ c.2 := by
    intro x y
    simp [reformat]
  set r2 := reformat V.lt c.2 r1.2 false
  have B : BiSpec l r2.2 0 (bicliqued V.pick l r2.2) := biLoop_spec V.pick hV.pick_mem l _ _ _
  set b := bicliqued V.pick l r2.2
  have h3u : ∀ x y, (x, y) ∈ (reformat V.lt r2.1 b.1 true).1 ↔ (x, y) ∈ b.1 ∧ (y, x) ∈ b.1 ∧ V.lt y x = true := by
    intro x y
    simp only [h2u, reformat, if_true, List.append_nil, List.mem_filter, List.contains_eq_mem, decide_eq_true_eq]
    tauto
  have h3d : ∀ x y, (x, y) ∈ (reformat V.lt r2.1 b.1 true).2 ↔ (x, y) ∈ b.1 ∧ (y, x) ∉ b.1 := by
    intro x y
    simp only [h2u, reformat, if_true, List.append_nil, List.mem_filter, Bool.not_eq_true', List.contains_eq_mem,
      decide_eq_false_iff_not, decide_eq_true_eq]
    tauto
  set r3 := reformat V.lt r2.1 b.1 true
  set Q : Drawn α L τ := drawConn V l E
  have hQn : Q.nodes = (c.1.nodes ++ b.2.2).map (fun n => (n, l)) := rfl
  have hQd : Q.dir = r3.2.map (fun e => (.peer e.1, .peer e.2, l)) ++ b.2.1.map (fun e => (e.1, e.2, l)) := rfl
  have hQu : Q.und = r3.1.map (fun e => (.peer e.1, .peer e.2, l)) ++ c.1.edges.map (fun e => (e.1, e.2, l)) := rfl
  rw [hc1] at hQn hQu
  constructor
  · refine ⟨?_, ?_, ?_⟩
    · intro n l' h
      rw [hQn] at h
      obtain ⟨m, _, h⟩ := List.mem_map.1 h
      simp only [Prod.mk.injEq] at h
      exact h.2.symm
    · intro x y l' h
      rw [hQd] at h
      rcases List.mem_append.1 h with h | h
      · obtain ⟨e, _, h⟩ := List.mem_map.1 h
        simp only [Prod.mk.injEq] at h
        obtain ⟨rfl, rfl, rfl⟩ := h
        exact ⟨rfl, by simp [GNode.isBi], by simp [GNode.isBi]⟩
      · obtain ⟨e, he, h⟩ := List.mem_map.1 h
        simp only [Prod.mk.injEq] at h
        obtain ⟨rfl, rfl, rfl⟩ := h
        obtain ⟨p, i, _, hm, rfl | rfl⟩ := B.shape e he
        · exact ⟨rfl, by simp [GNode.isBi], fun _ => by simp [hQn, hm]⟩
        · exact ⟨rfl, fun _ => by simp [hQn, hm], by simp [GNode.isBi]⟩
    · intro x y l' h
      rw [hQu] at h
      rcases List.mem_append.1 h with h | h
      · obtain ⟨e, _, h⟩ := List.mem_map.1 h
        simp only [Prod.mk.injEq] at h
        obtain ⟨rfl, rfl, rfl⟩ := h
        exact ⟨rfl, by simp [GNode.isClique], by simp [GNode.isClique]⟩
      · obtain ⟨e, he, h⟩ := List.mem_map.1 h
        simp only [Prod.mk.injEq] at h
        obtain ⟨rfl, rfl, rfl⟩ := h
        refine ⟨rfl, ?_, ?_⟩
        · intro hx
          rcases I.edge e he with ⟨h1, _⟩ | ⟨_, p, h1, _⟩ | ⟨h1, _⟩
          · simp [hQn, h1]
          · rw [h1] at hx
            simp [GNode.isClique] at hx
          · simp [hQn, h1]
        · intro hx
          rcases I.edge e he with ⟨_, p, h1, _⟩ | ⟨h1, _⟩ | ⟨_, h1, _⟩
          · rw [h1] at hx
            simp [GNode.isClique] at hx
          · simp [hQn, h1]
          · simp [hQn, h1]
  · intro x y
    -- the directed edges before the bicliques
    have hD : ∀ x y, x ≠ y → ((x, y) ∈ r2.2 ∨ (∃ K ∈ V.find r1.1, 4 ≤ K.length ∧ x ∈ K ∧ y ∈ K) ↔ (x, y) ∈ E) := by
      intro x y hxy
      rw [h2d, h1d, hc2, hc2, h1u, h1u]
      constructor
      · rintro ((h | h | h) | ⟨K, hK, _, hx, hy⟩)
        · exact h.1
        · exact h.1.1
        · exact h.1.2.1
        · rcases hV.find_clique r1.1 K hK x hx y hy hxy with h | h
          · exact ((h1u _ _).1 h).1
          · exact ((h1u _ _).1 h).2.1
      · intro h
        by_cases h' : (y, x) ∈ E
        · by_cases hk : ∃ K ∈ V.find r1.1, 4 ≤ K.length ∧ x ∈ K ∧ y ∈ K
          · exact .inr hk
          · have hk' : ¬ ∃ K ∈ V.find r1.1, 4 ≤ K.length ∧ y ∈ K ∧ x ∈ K := by
              rintro ⟨K, hK, h4, hy, hx⟩
              exact hk ⟨K, hK, h4, hx, hy⟩
            rcases hV.lt_total x y hxy with hl | hl
            · exact .inl (.inr (.inr ⟨⟨h', h, hl⟩, hk'⟩))
            · exact .inl (.inr (.inl ⟨⟨h, h', hl⟩, hk⟩))
        · exact .inl (.inl ⟨h, h'⟩)
    have hself : ∀ x, (x, x) ∉ r2.2 := by
      intro x h
      rw [h2d, h1d, hc2, h1u] at h
      rcases h with h | h | h
      · exact h.2 h.1
      · simp [hV.lt_irrefl] at h
      · simp [hV.lt_irrefl] at h
    have hbi : ∀ x y, ((x, y) ∈ b.1 ∨ ∃ i, (.peer x, .bi l i) ∈ b.2.1 ∧ (.bi l i, .peer y) ∈ b.2.1) ↔ (x, y) ∈ r2.2 := by
      intro x y
      constructor
      · rintro (h | ⟨i, h1, h2⟩)
        · exact B.sub _ h
        · exact B.sound x y i h1 h2
      · intro h
        exact B.cover _ h
    have hvia : x ≠ y → ((∃ c, Q.Path (fun _ => l) l (.peer x) c ∧ Q.Joins c (.peer y)) ↔
        ∃ K ∈ V.find r1.1, 4 ≤ K.length ∧ x ∈ K ∧ y ∈ K) := by
      intro hxy
      rw [← I.via_iff hxy]
      refine exists_congr fun d => ?_
      rw [drawConn_path hQu]
      refine and_congr_right fun hw => ?_
      have hd := (I.walk hw).1
      unfold Drawn.Joins J
      rw [hQu]
      simp only [List.mem_append, List.mem_map, Prod.mk.injEq]
      constructor
      · rintro ⟨l', (⟨e, he, rfl, _, _⟩ | ⟨e, he, rfl, h, _⟩) | (⟨e, he, _, rfl, _⟩ | ⟨e, he, h, rfl, _⟩)⟩
        · exact absurd hd (I.peer_not _)
        · exact .inl (by rw [← h]; exact he)
        · exact absurd hd (I.peer_not _)
        · exact .inr (by rw [← h]; exact he)
      · rintro (h | h)
        · exact ⟨l, .inl (.inr ⟨_, h, rfl, rfl, rfl⟩)⟩
        · exact ⟨l, .inr (.inr ⟨_, h, rfl, rfl, rfl⟩)⟩
    have hd1 : (.peer x, .peer y, l) ∈ Q.dir ↔ (x, y) ∈ b.1 ∧ (y, x) ∉ b.1 := by
      rw [← h3d, hQd]
      simp only [List.mem_append, List.mem_map, Prod.mk.injEq, GNode.peer.injEq]
      constructor
      · rintro (⟨e, he, rfl, rfl, _⟩ | ⟨e, he, h1, h2, _⟩)
        · exact he
        · obtain ⟨p, i, _, _, rfl | rfl⟩ := B.shape e he
          · simp at h2
          · simp at h1
      · intro h
        exact .inl ⟨_, h, by simp⟩
    have hu1 : ∀ x y, (.peer x, .peer y, l) ∈ Q.und ↔ (x, y) ∈ b.1 ∧ (y, x) ∈ b.1 ∧ V.lt y x = true := by
      intro x y
      rw [← h3u, hQu]
      simp only [List.mem_append, List.mem_map, Prod.mk.injEq, GNode.peer.injEq]
      constructor
      · rintro (⟨e, he, rfl, rfl, _⟩ | ⟨e, he, h1, h2, _⟩)
        · exact he
        · exact absurd (show (GNode.peer x, GNode.peer y) ∈ s.edges by rw [← h1, ← h2]; exact he) (I.no_peers x y)
      · intro h
        exact .inl ⟨_, h, by simp⟩
    have hb1 : (∃ b : GNode α L, b.isBi = true ∧ l = l ∧ (∃ l', (.peer x, b, l') ∈ Q.dir) ∧
        ∃ l', (b, .peer y, l') ∈ Q.dir) ↔ ∃ i, (.peer x, .bi l i) ∈ b.2.1 ∧ (.bi l i, .peer y) ∈ b.2.1 := by
      rw [hQd]
      simp only [List.mem_append, List.mem_map, Prod.mk.injEq]
      constructor
      · rintro ⟨d, hd, _, ⟨l1, h1⟩, ⟨l2, h2⟩⟩
        have hdp : ∀ p, GNode.peer p ≠ d := by
          rintro p rfl
          simp [GNode.isBi] at hd
        rcases h1 with ⟨e, he, _, h, _⟩ | ⟨⟨e1, e2⟩, he, h1, h3, _⟩
        · exact absurd h (hdp _)
        rcases h2 with ⟨e, he, h, _⟩ | ⟨⟨e1', e2'⟩, he', h2, h4, _⟩
        · exact absurd h (hdp _)
        simp only at h1 h2 h3 h4
        subst h1 h2 h3 h4
        obtain ⟨p, i, _, _, h | h⟩ := B.shape _ he
        · simp only [Prod.mk.injEq] at h
          obtain ⟨_, rfl⟩ := h
          exact ⟨i, he, he'⟩
        · simp at h
      · rintro ⟨i, h1, h2⟩
        exact ⟨.bi l i, rfl, by simp, ⟨l, .inr ⟨_, h1, by simp⟩⟩, ⟨l, .inr ⟨_, h2, by simp⟩⟩⟩
    unfold Drawn.Reads
    rw [hd1, hu1, hu1, hb1]
    constructor
    · rintro (h | h | h | h | ⟨hxy, h⟩)
      · have hr := (hbi x y).1 (.inl h.1)
        have hxy : x ≠ y := by
          rintro rfl
          exact hself _ hr
        exact ⟨hxy, (hD x y hxy).1 (.inl hr)⟩
      · have hr := (hbi x y).1 (.inl h.1)
        have hxy : x ≠ y := by
          rintro rfl
          exact hself _ hr
        exact ⟨hxy, (hD x y hxy).1 (.inl hr)⟩
      · have hr := (hbi x y).1 (.inl h.2.1)
        have hxy : x ≠ y := by
          rintro rfl
          exact hself _ hr
        exact ⟨hxy, (hD x y hxy).1 (.inl hr)⟩
      · have hr := (hbi x y).1 (.inr h)
        have hxy : x ≠ y := by
          rintro rfl
          exact hself _ hr
        exact ⟨hxy, (hD x y hxy).1 (.inl hr)⟩
      · exact ⟨hxy, (hD x y hxy).1 (.inr ((hvia hxy).1 h))⟩
    · rintro ⟨hxy, h⟩
      rcases (hD x y hxy).2 h with h | h
      · rcases (hbi x y).2 h with h | h
        · by_cases h' : (y, x) ∈ b.1
          · rcases hV.lt_total x y hxy with hl | hl
            · exact .inr (.inr (.inl ⟨h', h, hl⟩))
            · exact .inr (.inl ⟨h, h', hl⟩)
          · exact .inl ⟨h, h'⟩
        · exact .inr (.inr (.inr (.inl h)))
      · exact .inr (.inr (.inr (.inr ⟨hxy, (hvia hxy).2 h⟩)))

end Conn
end Verif.Graph
