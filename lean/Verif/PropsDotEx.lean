import Verif.PropsDot
/-!
C39: when the drawing can be made at all, examples, and the three ways in which it goes wrong.
-/
namespace Verif.Graph

/-! ### When the drawing is made -/

section Made
variable {ρ α L ν τ : Type} [DecidableEq ρ] [DecidableEq α] [DecidableEq L] [DecidableEq ν] [DecidableEq τ]

/-- C39.  The drawing is made if and only if both ends of every connection between different peers are
among the peers given. -/
theorem C39_made_iff (V : Env α ν) (look : Look ρ α ν τ) (peers : List ρ) (G : Pairs ρ L) :
    (∃ P, dotGraph V look peers G = some P) ↔ ∀ l u v, Conn G l u v → u ≠ v → u ∈ peers ∧ v ∈ peers := by
  have h : (G.all (fun lp => lp.2.all (fun e => decide (e.1 = e.2) || (peers.contains e.1 && peers.contains e.2))))
      = true ↔ ∀ l u v, Conn G l u v → u ≠ v → u ∈ peers ∧ v ∈ peers := by
    simp only [List.all_eq_true, Bool.or_eq_true, decide_eq_true_eq, Bool.and_eq_true, List.contains_iff_mem, Conn]
    constructor
    · rintro h l u v ⟨es, h1, h2⟩ hne
      exact (h _ h1 _ h2).resolve_left hne
    · rintro h ⟨l, es⟩ h1 ⟨u, v⟩ h2
      by_cases hne : u = v
      · exact .inl hne
      · exact .inr (h l u v ⟨es, h1, h2⟩ hne)
  unfold dotGraph
  split
  · rename_i h'
    exact ⟨fun _ => h.1 h', fun _ => ⟨_, rfl⟩⟩
  · rename_i h'
    exact ⟨fun ⟨P, hP⟩ => by simp at hP, fun h'' => absurd (h.2 h'') h'⟩

omit [DecidableEq ρ] in
theorem conn_addPair (G : Pairs ρ L) (l : L) (es : List (ρ × ρ)) (l' : L) (u v : ρ) :
    Conn (addPair G l es) l' u v ↔ Conn G l' u v ∨ (l' = l ∧ (u, v) ∈ es) := by
  induction G with
  | nil => simp [addPair, Conn]
  | cons a G ih =>
    obtain ⟨l0, es0⟩ := a
    have hc : ∀ (e : List (ρ × ρ)) (G : Pairs ρ L), Conn ((l0, e) :: G) l' u v ↔ (l' = l0 ∧ (u, v) ∈ e) ∨ Conn G l' u v := by
      intro e G
      simp only [Conn, List.mem_cons, Prod.mk.injEq]
      constructor
      · rintro ⟨e', ⟨rfl, rfl⟩ | h1, h2⟩
        · exact .inl ⟨rfl, h2⟩
        · exact .inr ⟨e', h1, h2⟩
      · rintro (⟨rfl, h⟩ | ⟨e', h1, h2⟩)
        · exact ⟨e, .inl ⟨rfl, rfl⟩, h⟩
        · exact ⟨e', .inr h1, h2⟩
    unfold addPair
    split
    · rename_i h
      subst h
      rw [hc, hc, List.mem_append]
      tauto
    · rw [hc, hc, ih]
      tauto

omit [DecidableEq ρ] in
/-- The connections the graph is made from: those of the cubes, between the parts of their peers. -/
theorem conn_cubePairs (split : ρ → List ρ) (cubes : List (L × List ρ × List ρ)) (l : L) (u v : ρ) :
    Conn (cubePairs split cubes) l u v ↔
      ∃ S D, (l, S, D) ∈ cubes ∧ (∃ s ∈ S, u ∈ split s) ∧ ∃ d ∈ D, v ∈ split d := by
  have h : ∀ (cubes : List (L × List ρ × List ρ)) (G : Pairs ρ L),
      Conn (cubes.foldl (fun G c => addPair G c.1
        ((c.2.1.flatMap split).flatMap (fun s => (c.2.2.flatMap split).map (fun d => (s, d))))) G) l u v ↔
      Conn G l u v ∨ ∃ S D, (l, S, D) ∈ cubes ∧ (∃ s ∈ S, u ∈ split s) ∧ ∃ d ∈ D, v ∈ split d := by
    intro cubes
    induction cubes with
    | nil => simp
    | cons c cubes ih =>
      intro G
      obtain ⟨l0, S0, D0⟩ := c
      rw [List.foldl_cons, ih, conn_addPair]
      simp only [List.mem_flatMap, List.mem_map, Prod.mk.injEq, List.mem_cons]
      constructor
      · rintro ((h | ⟨rfl, s, hs, d, hd, rfl, rfl⟩) | ⟨S, D, h⟩)
        · exact .inl h
        · exact .inr ⟨S0, D0, .inl ⟨rfl, rfl, rfl⟩, hs, hd⟩
        · exact .inr ⟨S, D, .inr h.1, h.2⟩
      · rintro (h | ⟨S, D, ⟨rfl, rfl, rfl⟩ | h, hs, hd⟩)
        · exact .inl (.inl h)
        · exact .inl (.inr ⟨rfl, u, hs, v, hd, rfl, rfl⟩)
        · exact .inr ⟨S, D, h, hs, hd⟩
  rw [cubePairs, h]
  simp [Conn]

/-- C39.  The drawing is made whenever no block of addresses among the peers has several ranges. -/
theorem C39_made (V : Env α ν) (look : Look ρ α ν τ) (split : ρ → List ρ) (cubes : List (L × List ρ × List ρ))
    (hs : ∀ p ∈ cubePeers cubes, split p = [p]) : ∃ P, dotGraph V look (cubePeers cubes) (cubePairs split cubes) = some P := by
  rw [C39_made_iff]
  intro l u v h _
  rw [conn_cubePairs] at h
  obtain ⟨S, D, hc, ⟨s, hsS, hu⟩, d, hdD, hv⟩ := h
  have h1 : s ∈ cubePeers cubes := List.mem_dedup.2 (List.mem_flatMap.2 ⟨_, hc, by simp [hsS]⟩)
  have h2 : d ∈ cubePeers cubes := List.mem_dedup.2 (List.mem_flatMap.2 ⟨_, hc, by simp [hdD]⟩)
  rw [hs s h1, List.mem_singleton] at hu
  rw [hs d h2, List.mem_singleton] at hv
  exact ⟨hu ▸ h1, hv ▸ h2⟩

end Made

/-! ### Examples -/

namespace Ex

/-- The cliques found when there is one clique of all nodes only. -/
def findWhole (und : List (Nat × Nat)) : List (List Nat) :=
  let K := (und.map (·.1) ++ und.map (·.2)).dedup
  if ∀ x ∈ K, ∀ y ∈ K, x ≠ y → (x, y) ∈ und ∨ (y, x) ∈ und then [K] else []

/-- The peer `n` has the namespace `n / 10`. -/
def V : Env Nat Nat := ⟨fun x y => decide (x < y), (· / 10), findWhole, pickFirst⟩

theorem fair : V.Fair where
  lt_irrefl x := by simp [V]
  lt_total x y h := by
    simp only [V, decide_eq_true_eq]
    omega
  find_nodup und K h := by
    simp only [V, findWhole] at h
    split at h
    · rw [List.mem_singleton.1 h]
      exact List.nodup_dedup _
    · simp at h
  find_clique und K h := by
    simp only [V, findWhole] at h
    split at h
    · rename_i hc
      rw [List.mem_singleton.1 h]
      exact hc
    · simp at h
  pick_mem D h := (pickFirst_best D).1 h
  pick_best D := (pickFirst_best D).2

def look : Look Nat Nat Nat Nat := ⟨(· / 10), id, id, id⟩

theorem replicas (peers : List Nat) (G : Pairs Nat Nat) : Replicas look peers G := by
  intro p _ q _ h
  have : p = q := h
  subst this
  exact ⟨rfl, rfl, fun l w _ _ => ⟨Iff.rfl, Iff.rfl⟩⟩

/-- All pairs of different elements. -/
def full (K : List Nat) : List (Nat × Nat) := K.flatMap (fun x => (K.filter (· ≠ x)).map (fun y => (x, y)))

/-- A clique with two namespaces of two peers and one of one peer, a biclique, and a single arrow. -/
def G1 : Pairs Nat Nat :=
  [(1, full [0, 1, 10, 11, 20]), (2, [(0, 10), (0, 20), (0, 30), (10, 0), (10, 20), (10, 30)]), (3, [(1, 30)])]

def peers1 : List Nat := [0, 1, 10, 11, 20, 30]

/-- The drawing of `G1`. -/
def P1 : Drawn Nat Nat Nat := (dotGraph V look peers1 G1).getD ⟨[], [], [], []⟩

theorem P1_eq : dotGraph V look peers1 G1 = some P1 := by decide +kernel

-- the hypotheses of `C39_dot_partial` hold, and the drawing has clique nodes of both kinds
example : V.Fair ∧ peers1.Nodup ∧ (G1.map (·.1)).Nodup ∧ Replicas look peers1 G1 ∧ P1.NoClash ∧
    P1.Labels (fun n => match n with | .clq _ => 1 | .top l _ => l | .bi l _ => l | .peer _ => 0) := by
  refine ⟨fair, by decide +kernel, by decide +kernel, replicas _ _, ?_, ?_⟩
  · have h : ∀ x ∈ P1.nodes, ∀ y ∈ P1.nodes, x.1 = y.1 → x.2 = y.2 := by decide +kernel
    intro n l l' h1 h2
    exact h _ h1 _ h2 rfl
  · have h : ∀ x ∈ P1.nodes, (x.1, (match x.1 with | .clq _ => 1 | .top l _ => l | .bi l _ => l | .peer _ => 0)) ∈
      P1.nodes := by decide +kernel
    intro n l h1
    exact h _ h1

example : ((GNode.clq 0 : GNode Nat Nat), 1) ∈ P1.nodes ∧ ((GNode.top 1 2 : GNode Nat Nat), 1) ∈ P1.nodes := by
  decide +kernel

-- peers 0 and 1 are not drawn as one: 0 has more connections
example : P1.boxes = [(0, [0]), (1, [1]), (10, [10]), (11, [11]), (20, [20]), (30, [30])] := by decide +kernel

-- two peers with the same connections share a box with a self edge
example : ∃ P, dotGraph V look [0, 1, 10] [(5, [(0, 1), (1, 0), (0, 10), (1, 10), (10, 0), (10, 1)])] = some P ∧
    (0, [0, 1]) ∈ P.boxes ∧ (.peer 0, .peer 0, 5) ∈ P.und :=
  ⟨_, rfl, by decide +kernel, by decide +kernel⟩

/-! ### A connection of a group that is lost -/

/-- Two peers connected by `1` and by `2`. -/
def G2 : Pairs Nat Nat := [(1, [(0, 1), (1, 0)]), (2, [(0, 1), (1, 0)])]

/-- NOT C39 in full: two peers in one box are connected by `1` and `2`, all other hypotheses of
`C39_dot_partial` hold, and the drawing shows `2` only (the dictionary `edges_props` keeps one connection
for a pair of peers). -/
theorem C39_group_label_lost_wrong :
    ∃ P : Drawn Nat Nat Nat, dotGraph V look [0, 1] G2 = some P ∧ P.boxes = [(0, [0, 1])] ∧ P.NoClash ∧
      Conn G2 1 0 1 ∧ ∀ lab, P.Labels lab ∧ ¬ P.Reads lab 1 0 0 := by
  refine ⟨⟨[(0, [0, 1])], [], [], [(.peer 0, .peer 0, 2)]⟩, by decide +kernel, rfl, ?_, ⟨[(0, 1), (1, 0)], by simp [G2], by simp⟩, ?_⟩
  · intro n l l' h
    simp at h
  · intro lab
    refine ⟨fun n l h => by simp at h, ?_⟩
    rintro (h | h | h | ⟨b, -, -, ⟨l', h⟩, -⟩ | ⟨h, -⟩)
    · simp at h
    · simp at h
    · simp at h
    · simp at h
    · exact h rfl

/-! ### Two cliques with one name -/

/-- A clique of `1` and a clique of `2`, each with two namespaces of two peers; `3` keeps the peers of a
namespace apart. -/
def G3 : Pairs Nat Nat :=
  [(1, full [0, 1, 10, 11]), (2, full [20, 21, 30, 31]), (3, [(0, 40), (10, 40), (20, 40), (30, 40)])]

def peers3 : List Nat := [0, 1, 10, 11, 20, 21, 30, 31, 40]

/-- The drawing of `G3`. -/
def P3 : Drawn Nat Nat Nat := (dotGraph V look peers3 G3).getD ⟨[], [], [], []⟩

/-- NOT C39 in full: the clique nodes of two connections have the same name `clique_0`, so that they are
one node of the drawing; whichever label it shows, the drawing says that there is traffic between peers
that have none. -/
theorem C39_clique_names_clash_wrong :
    dotGraph V look peers3 G3 = some P3 ∧ (∀ p ∈ peers3, (p, [p]) ∈ P3.boxes) ∧
      ∀ lab, P3.Labels lab → ∃ l, P3.Reads lab l 0 20 ∧ ¬ Conn G3 l 0 20 := by
  refine ⟨by decide +kernel, by decide +kernel, ?_⟩
  intro lab hlab
  have hno : ∀ l, l = 1 ∨ l = 2 → ¬ Conn G3 l 0 20 := by
    rintro l hl ⟨es, h1, h2⟩
    have : ∀ x ∈ G3, (x.1 = 1 ∨ x.1 = 2) → (0, 20) ∉ x.2 := by decide +kernel
    exact this _ h1 hl h2
  have hl : lab (.clq 0) = 1 ∨ lab (.clq 0) = 2 := by
    have h := hlab (.clq 0) 1 (by decide +kernel)
    have : ∀ x ∈ P3.nodes, x.1 = .clq 0 → x.2 = 1 ∨ x.2 = 2 := by decide +kernel
    exact this _ h rfl
  refine ⟨lab (.clq 0), ?_, hno _ hl⟩
  refine .inr (.inr (.inr (.inr ⟨by decide, .clq 0, .one ⟨1, .inr (by decide +kernel)⟩ rfl rfl, ⟨2, .inl (by decide +kernel)⟩⟩)))

/-! ### Blocks of addresses with several ranges -/

/-- A pod, or a block of addresses given by its ranges. -/
inductive P where
  | pod (n : Nat)
  | ip (rs : List (Nat × Nat))
deriving DecidableEq

/-- `split` of one peer (Peer.py 360-368): one block for every range. -/
def split : P → List P
  | .pod n => [.pod n]
  | .ip rs => rs.map (fun r => .ip [r])

/-- NOT C39 in full: whenever the destinations of a pod are a block of addresses with several ranges (all
addresses but those of one network, say), the code raises: the edges are between the single ranges, and
these are not among the peers the graph was given. -/
theorem C39_multi_range_raises {α ν τ : Type} [DecidableEq α] [DecidableEq ν] [DecidableEq τ] (V : Env α ν)
    (look : Look P α ν τ) (n l : Nat) (r1 r2 : Nat × Nat) (rs : List (Nat × Nat)) :
    dotGraph V look (cubePeers [(l, [.pod n], [.ip (r1 :: r2 :: rs)])])
      (cubePairs split [(l, [.pod n], [.ip (r1 :: r2 :: rs)])]) = none := by
  by_contra h
  obtain ⟨Q, hQ⟩ := Option.ne_none_iff_exists'.1 h
  have := (C39_made_iff V look _ _).1 ⟨Q, hQ⟩ l (.pod n) (.ip [r1])
    ((conn_cubePairs _ _ _ _ _).2 ⟨_, _, List.mem_singleton.2 rfl, ⟨_, List.mem_singleton.2 rfl, by simp [split]⟩,
      _, List.mem_singleton.2 rfl, by simp [split]⟩) (by simp)
  have h2 := this.2
  simp [cubePeers] at h2

-- a block with one range is drawn
example : ∃ Q, dotGraph (⟨fun _ _ => false, fun _ => 0, fun _ => [], pickFirst⟩ : Env Nat Nat)
    (⟨fun _ => 0, fun p => match p with | .pod n => n | .ip _ => 100, fun p => match p with | .pod n => n | .ip _ => 100,
      id⟩ : Look P Nat Nat Nat) (cubePeers [(7, [.pod 1, .pod 2], [.ip [(0, 5)]])])
    (cubePairs split [(7, [.pod 1, .pod 2], [.ip [(0, 5)]])]) = some Q ∧ Q.boxes ≠ [] :=
  ⟨_, rfl, by decide +kernel⟩

end Ex
end Verif.Graph
