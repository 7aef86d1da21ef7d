import Verif.PropsGraph
/-!
C39, the whole drawing: the parts made for the connections put together, and the groups of peers that
share a box.
-/
namespace Verif.Graph

/-! ### Specification -/

/-- There is traffic `l` from `u` to `v` in the connections the graph is made from. -/
def Conn {ρ L : Type} (G : Pairs ρ L) (l : L) (u v : ρ) : Prop := ∃ es, (l, es) ∈ G ∧ (u, v) ∈ es

/-- Peers drawn under one name (the replicas of a workload) look the same and have the same connections
to all other peers. -/
def Replicas {ρ α L ν τ : Type} (look : Look ρ α ν τ) (peers : List ρ) (G : Pairs ρ L) : Prop :=
  ∀ p ∈ peers, ∀ q ∈ peers, look.name p = look.name q → look.nsp p = look.nsp q ∧ look.text p = look.text q ∧
    ∀ l w, w ≠ p → w ≠ q → (Conn G l p w ↔ Conn G l q w) ∧ (Conn G l w p ↔ Conn G l w q)

/-! ### The parts together -/

section Union
variable {ρ α L ν τ : Type} [DecidableEq ρ] [DecidableEq α] [DecidableEq L] [DecidableEq ν] [DecidableEq τ]

omit [DecidableEq ρ] [DecidableEq α] [DecidableEq L] [DecidableEq ν] [DecidableEq τ] in
theorem foldl_add (Qs : List (Drawn α L τ)) (P0 : Drawn α L τ) :
    (∀ x, x ∈ (Qs.foldl Drawn.add P0).boxes ↔ x ∈ P0.boxes ∨ ∃ Q ∈ Qs, x ∈ Q.boxes) ∧
    (∀ x, x ∈ (Qs.foldl Drawn.add P0).nodes ↔ x ∈ P0.nodes ∨ ∃ Q ∈ Qs, x ∈ Q.nodes) ∧
    (∀ x, x ∈ (Qs.foldl Drawn.add P0).dir ↔ x ∈ P0.dir ∨ ∃ Q ∈ Qs, x ∈ Q.dir) ∧
    (∀ x, x ∈ (Qs.foldl Drawn.add P0).und ↔ x ∈ P0.und ∨ ∃ Q ∈ Qs, x ∈ Q.und) := by
  induction Qs generalizing P0 with
  | nil => simp
  | cons Q Qs ih =>
    obtain ⟨h1, h2, h3, h4⟩ := ih (P0.add Q)
    rw [List.foldl_cons]
    refine ⟨fun x => ?_, fun x => ?_, fun x => ?_, fun x => ?_⟩
    · rw [h1]; simp [Drawn.add, or_assoc]
    · rw [h2]; simp [Drawn.add, or_assoc]
    · rw [h3]; simp [Drawn.add, or_assoc]
    · rw [h4]; simp [Drawn.add, or_assoc]

omit [DecidableEq L] [DecidableEq ν] in
theorem drawGroup_facts (look : Look ρ α ν τ) (g : List ρ × Option L) :
    (drawGroup look g : Drawn α L τ).nodes = [] ∧ (drawGroup look g : Drawn α L τ).dir = [] ∧
    ∀ x y l, (x, y, l) ∈ (drawGroup look g : Drawn α L τ).und ↔ ∃ r rs, g.1 = r :: rs ∧ x = .peer (look.name r) ∧
      y = .peer (look.name r) ∧ g.2 = some l ∧ (g.1.map look.text).dedup.length > 1 := by
  unfold drawGroup
  cases hg : g.1 with
  | nil => simp
  | cons r rs =>
    refine ⟨rfl, rfl, ?_⟩
    intro x y l
    simp only
    split
    · rename_i h
      simp only [List.mem_map, Option.mem_toList, Option.mem_def, Prod.mk.injEq, List.cons.injEq]
      constructor
      · rintro ⟨l', h', rfl, rfl, rfl⟩
        exact ⟨r, rs, ⟨rfl, rfl⟩, rfl, rfl, h', h⟩
      · rintro ⟨_, _, ⟨rfl, rfl⟩, rfl, rfl, h', _⟩
        exact ⟨l, h', rfl, rfl, rfl⟩
    · rename_i h
      simp only [List.not_mem_nil, false_iff]
      rintro ⟨_, _, _, _, _, _, h'⟩
      exact h h'

/-- What the whole drawing is read as: the edges of the connections between the representing peers, and
the self edges of the groups. -/
theorem dotGraph_reads (V : Env α ν) (hV : V.Fair) (look : Look ρ α ν τ) (peers : List ρ) (G : Pairs ρ L)
    (hG : (G.map (·.1)).Nodup) {P : Drawn α L τ} (hP : dotGraph V look peers G = some P) (lab : GNode α L → L)
    (hlab : P.Labels lab) (hclash : P.NoClash) (l : L) (x y : α) :
    P.Reads lab l x y ↔
      (x ≠ y ∧ ∃ es, (l, es) ∈ G ∧ (x, y) ∈ repEdges look
        ((equalGroups look.nsp look.sort peers G).flatMap (fun g => g.1.take 1)) es) ∨
      (x = y ∧ ∃ g ∈ equalGroups look.nsp look.sort peers G, ∃ r rs, g.1 = r :: rs ∧ look.name r = x ∧
        g.2 = some l ∧ (g.1.map look.text).dedup.length > 1) := by
  unfold dotGraph at hP
  split at hP
  swap
  · simp at hP
  simp only [Option.some.injEq] at hP
  obtain ⟨-, hn, hd, hu⟩ := foldl_add (dotParts V look peers G) (⟨[], [], [], []⟩ : Drawn α L τ)
  rw [hP] at hn hd hu
  set gs := equalGroups look.nsp look.sort peers G with hgs
  set reps := gs.flatMap (fun g => g.1.take 1) with hreps
  have hparts : dotParts V look peers G =
    gs.map (drawGroup look) ++ G.map (fun lp => drawConn V lp.1 (repEdges look reps lp.2)) := rfl
  rw [hparts] at hn hd hu
  have hn' : ∀ n l, (n, l) ∈ P.nodes ↔ ∃ es, (l, es) ∈ G ∧ (n, l) ∈ (drawConn V l (repEdges look reps es) : Drawn α L τ).nodes := by
    intro n l
    rw [hn]
    simp only [List.not_mem_nil, false_or, List.mem_append, List.mem_map]
    constructor
    · rintro ⟨Q, ⟨g, hg, rfl⟩ | ⟨⟨l', es⟩, he, rfl⟩, h⟩
      · rw [(drawGroup_facts look g).1] at h
        simp at h
      · have := (drawConn_spec (τ := τ) V hV l' (repEdges look reps es)).1.node n l h
        subst this
        exact ⟨es, he, h⟩
    · rintro ⟨es, he, h⟩
      exact ⟨_, .inr ⟨(l, es), he, rfl⟩, h⟩
  have hd' : ∀ a b l, (a, b, l) ∈ P.dir ↔ ∃ es, (l, es) ∈ G ∧ (a, b, l) ∈ (drawConn V l (repEdges look reps es) : Drawn α L τ).dir := by
    intro a b l
    rw [hd]
    simp only [List.not_mem_nil, false_or, List.mem_append, List.mem_map]
    constructor
    · rintro ⟨Q, ⟨g, hg, rfl⟩ | ⟨⟨l', es⟩, he, rfl⟩, h⟩
      · rw [(drawGroup_facts look g).2.1] at h
        simp at h
      · have := ((drawConn_spec (τ := τ) V hV l' (repEdges look reps es)).1.dir a b l h).1
        subst this
        exact ⟨es, he, h⟩
    · rintro ⟨es, he, h⟩
      exact ⟨_, .inr ⟨(l, es), he, rfl⟩, h⟩
  have hu' : ∀ a b l, (a, b, l) ∈ P.und ↔
      (∃ es, (l, es) ∈ G ∧ (a, b, l) ∈ (drawConn V l (repEdges look reps es) : Drawn α L τ).und) ∨
      (∃ g ∈ gs, ∃ r rs, g.1 = r :: rs ∧ a = .peer (look.name r) ∧ b = .peer (look.name r) ∧ g.2 = some l ∧
        (g.1.map look.text).dedup.length > 1) := by
    intro a b l
    rw [hu]
    simp only [List.not_mem_nil, false_or, List.mem_append, List.mem_map]
    constructor
    · rintro ⟨Q, ⟨g, hg, rfl⟩ | ⟨⟨l', es⟩, he, rfl⟩, h⟩
      · exact .inr ⟨g, hg, ((drawGroup_facts look g).2.2 a b l).1 h⟩
      · have := ((drawConn_spec (τ := τ) V hV l' (repEdges look reps es)).1.und a b l h).1
        subst this
        exact .inl ⟨es, he, h⟩
    · rintro (⟨es, he, h⟩ | ⟨g, hg, h⟩)
      · exact ⟨_, .inr ⟨(l, es), he, rfl⟩, h⟩
      · exact ⟨_, .inl ⟨g, hg, rfl⟩, ((drawGroup_facts look g).2.2 a b l).2 h⟩
  -- the label of a node of a part
  have hl : ∀ n l', (n, l') ∈ P.nodes → lab n = l' := fun n l' h => hclash n _ _ (hlab n l' h) h
  have huniq : ∀ l' es es', (l', es) ∈ G → (l', es') ∈ G → es = es' := by
    intro l' es es' h h'
    have := List.inj_on_of_nodup_map hG h h' rfl
    simpa using this
  -- an undirected edge at a clique node belongs to the part of the label of the node
  have hju : ∀ a c, c.isClique = true → lab c = l → (P.Joins a c ∨ P.Joins c a) →
      ∃ es, (l, es) ∈ G ∧ (drawConn V l (repEdges look reps es) : Drawn α L τ).Joins a c ∧
        (drawConn V l (repEdges look reps es) : Drawn α L τ).Joins c a := by
    intro a c hc hlc hj
    have one : ∀ l', ((a, c, l') ∈ P.und ∨ (c, a, l') ∈ P.und) →
        ∃ es, (l, es) ∈ G ∧ (drawConn V l (repEdges look reps es) : Drawn α L τ).Joins a c ∧
          (drawConn V l (repEdges look reps es) : Drawn α L τ).Joins c a := by
      rintro l' (h | h)
      · rcases (hu' _ _ _).1 h with ⟨es, he, h⟩ | ⟨g, _, r, rs, _, _, rfl, _⟩
        · have h1 := ((drawConn_spec (τ := τ) V hV l' (repEdges look reps es)).1.und _ _ _ h).2.2 hc
          have h2 := hl c l' ((hn' c l').2 ⟨es, he, h1⟩)
          rw [hlc] at h2
          subst h2
          exact ⟨es, he, ⟨_, .inl h⟩, ⟨_, .inr h⟩⟩
        · simp [GNode.isClique] at hc
      · rcases (hu' _ _ _).1 h with ⟨es, he, h⟩ | ⟨g, _, r, rs, _, rfl, _⟩
        · have h1 := ((drawConn_spec (τ := τ) V hV l' (repEdges look reps es)).1.und _ _ _ h).2.1 hc
          have h2 := hl c l' ((hn' c l').2 ⟨es, he, h1⟩)
          rw [hlc] at h2
          subst h2
          exact ⟨es, he, ⟨_, .inr h⟩, ⟨_, .inl h⟩⟩
        · simp [GNode.isClique] at hc
    rcases hj with ⟨l', h⟩ | ⟨l', h⟩
    · exact one l' h
    · exact one l' h.symm
  have hbi : ∀ b : GNode α L, b.isBi = true → lab b = l → ∀ a l',
      ((a, b, l') ∈ P.dir → ∃ es, (l, es) ∈ G ∧ ∃ l'', (a, b, l'') ∈ (drawConn V l (repEdges look reps es) : Drawn α L τ).dir) ∧
      ((b, a, l') ∈ P.dir → ∃ es, (l, es) ∈ G ∧ ∃ l'', (b, a, l'') ∈ (drawConn V l (repEdges look reps es) : Drawn α L τ).dir) := by
    intro b hb hlb a l'
    constructor
    · intro h
      obtain ⟨es, he, h⟩ := (hd' _ _ _).1 h
      have h1 := ((drawConn_spec (τ := τ) V hV l' (repEdges look reps es)).1.dir _ _ _ h).2.2 hb
      have h2 := hl b l' ((hn' b l').2 ⟨es, he, h1⟩)
      rw [hlb] at h2
      subst h2
      exact ⟨es, he, _, h⟩
    · intro h
      obtain ⟨es, he, h⟩ := (hd' _ _ _).1 h
      have h1 := ((drawConn_spec (τ := τ) V hV l' (repEdges look reps es)).1.dir _ _ _ h).2.1 hb
      have h2 := hl b l' ((hn' b l').2 ⟨es, he, h1⟩)
      rw [hlb] at h2
      subst h2
      exact ⟨es, he, _, h⟩
  have hself : ∀ (a b : α), (.peer a, .peer b, l) ∈ P.und →
      (∃ es, (l, es) ∈ G ∧ (.peer a, .peer b, l) ∈ (drawConn V l (repEdges look reps es) : Drawn α L τ).und) ∨
      (a = b ∧ ∃ g ∈ gs, ∃ r rs, g.1 = r :: rs ∧ look.name r = a ∧ g.2 = some l ∧
        (g.1.map look.text).dedup.length > 1) := by
    intro a b h
    rcases (hu' _ _ _).1 h with h | ⟨g, hg, r, rs, h1, h2, h3, h4, h5⟩
    · exact .inl h
    · simp only [GNode.peer.injEq] at h2 h3
      exact .inr ⟨h2.trans h3.symm, g, hg, r, rs, h1, h2.symm, h4, h5⟩
  constructor
  · intro h
    have fin : ∀ es, (l, es) ∈ G → (drawConn V l (repEdges look reps es) : Drawn α L τ).Reads (fun _ => l) l x y →
        x ≠ y ∧ ∃ es, (l, es) ∈ G ∧ (x, y) ∈ repEdges look reps es := by
      intro es he h
      have := ((drawConn_spec V hV l (repEdges look reps es)).2 x y).1 h
      exact ⟨this.1, es, he, this.2⟩
    rcases h with h | h | h | ⟨b, hb, hlb, ⟨l1, h1⟩, ⟨l2, h2⟩⟩ | ⟨hxy, c, hp, hj⟩
    · obtain ⟨es, he, h⟩ := (hd' _ _ _).1 h
      exact .inl (fin es he (.inl h))
    · rcases hself _ _ h with ⟨es, he, h⟩ | h
      · exact .inl (fin es he (.inr (.inl h)))
      · exact .inr h
    · rcases hself _ _ h with ⟨es, he, h⟩ | ⟨rfl, h'⟩
      · exact .inl (fin es he (.inr (.inr (.inl h))))
      · exact .inr ⟨rfl, h'⟩
    · obtain ⟨es, he, l1', h1⟩ := (hbi b hb hlb _ _).1 h1
      obtain ⟨es', he', l2', h2⟩ := (hbi b hb hlb _ _).2 h2
      have := huniq l es es' he he'
      subst this
      exact .inl (fin es he (.inr (.inr (.inr (.inl ⟨b, hb, rfl, ⟨_, h1⟩, ⟨_, h2⟩⟩)))))
    · have hw : ∃ es, (l, es) ∈ G ∧ (drawConn V l (repEdges look reps es) : Drawn α L τ).Path (fun _ => l) l (.peer x) c ∧
          c.isClique = true ∧ lab c = l := by
        clear hj
        induction hp with
        | one j hc hlc =>
          obtain ⟨es, he, h1, _⟩ := hju _ _ hc hlc (.inl j)
          exact ⟨es, he, .one h1 hc rfl, hc, hlc⟩
        | next _ j hc hlc ih =>
          obtain ⟨es, he, h, _⟩ := ih
          obtain ⟨es', he', h1, _⟩ := hju _ _ hc hlc (.inl j)
          have := huniq l es es' he he'
          subst this
          exact ⟨es, he, .next h h1 hc rfl, hc, hlc⟩
      obtain ⟨es, he, hw, hc, hlc⟩ := hw
      obtain ⟨es', he', _, h1⟩ := hju _ _ hc hlc (.inr hj)
      have := huniq l es es' he he'
      subst this
      exact .inl (fin es he (.inr (.inr (.inr (.inr ⟨hxy, c, hw, h1⟩)))))
  · rintro (⟨hxy, es, he, h⟩ | ⟨rfl, g, hg, r, rs, h1, h2, h3, h4⟩)
    · have hr := ((drawConn_spec (τ := τ) V hV l (repEdges look reps es)).2 x y).2 ⟨hxy, h⟩
      have hpart := (drawConn_spec (τ := τ) V hV l (repEdges look reps es)).1
      set Q : Drawn α L τ := drawConn V l (repEdges look reps es)
      have hjoin : ∀ a b, Q.Joins a b → P.Joins a b := by
        rintro a b ⟨l', h⟩
        rcases h with h | h
        · have := (hpart.und _ _ _ h).1
          subst this
          exact ⟨l', .inl ((hu' _ _ _).2 (.inl ⟨es, he, h⟩))⟩
        · have := (hpart.und _ _ _ h).1
          subst this
          exact ⟨l', .inr ((hu' _ _ _).2 (.inl ⟨es, he, h⟩))⟩
      have hlabc : ∀ a c, Q.Joins a c → c.isClique = true → lab c = l := by
        rintro a c ⟨l', h⟩ hc
        rcases h with h | h
        · exact hl c l ((hn' c l).2 ⟨es, he, (hpart.und _ _ _ h).2.2 hc⟩)
        · exact hl c l ((hn' c l).2 ⟨es, he, (hpart.und _ _ _ h).2.1 hc⟩)
      rcases hr with h | h | h | ⟨b, hb, _, ⟨l1, h1⟩, ⟨l2, h2⟩⟩ | ⟨hxy, c, hp, hj⟩
      · exact .inl ((hd' _ _ _).2 ⟨es, he, h⟩)
      · exact .inr (.inl ((hu' _ _ _).2 (.inl ⟨es, he, h⟩)))
      · exact .inr (.inr (.inl ((hu' _ _ _).2 (.inl ⟨es, he, h⟩))))
      · refine .inr (.inr (.inr (.inl ⟨b, hb, ?_, ⟨l, ?_⟩, ⟨l, ?_⟩⟩)))
        · exact hl b l ((hn' b l).2 ⟨es, he, (hpart.dir _ _ _ h1).2.2 hb⟩)
        · have := (hpart.dir _ _ _ h1).1
          subst this
          exact (hd' _ _ _).2 ⟨es, he, h1⟩
        · have := (hpart.dir _ _ _ h2).1
          subst this
          exact (hd' _ _ _).2 ⟨es, he, h2⟩
      · refine .inr (.inr (.inr (.inr ⟨hxy, c, ?_, hjoin _ _ hj⟩)))
        clear hj
        induction hp with
        | one j hc _ => exact .one (hjoin _ _ j) hc (hlabc _ _ j hc)
        | next _ j hc _ ih => exact .next ih (hjoin _ _ j) hc (hlabc _ _ j hc)
    · refine .inr (.inl ((hu' _ _ _).2 (.inr ⟨g, hg, r, rs, h1, ?_, ?_, h3, h4⟩))) <;> rw [h2]

end Union

/-! ### Groups -/

section Groups
variable {ρ L ν : Type} [DecidableEq ρ] [DecidableEq L] [DecidableEq ν]

omit [DecidableEq L] in
theorem mem_edgesOf {G : Pairs ρ L} {p q : ρ} {l : L} :
    ((q, l, false) ∈ edgesOf G p ↔ q ≠ p ∧ Conn G l p q) ∧ ((q, l, true) ∈ edgesOf G p ↔ q ≠ p ∧ Conn G l q p) := by
  constructor
  · simp only [edgesOf, List.mem_flatMap, Conn]
    constructor
    · rintro ⟨⟨l', es⟩, he, ⟨a, b⟩, hab, h⟩
      simp only at h
      split at h
      · simp at h
      · rename_i hne
        rcases List.mem_append.1 h with h1 | h1 <;> clear h
        · split at h1
          · rename_i hp
            simp only [List.mem_singleton, Prod.mk.injEq, and_true] at h1
            subst hp
            obtain ⟨rfl, rfl⟩ := h1
            exact ⟨fun h => hne h.symm, es, he, hab⟩
          · simp at h1
        · split at h1 <;> simp at h1
    · rintro ⟨hne, es, he, h⟩
      refine ⟨(l, es), he, (p, q), h, ?_⟩
      simp [Ne.symm hne]
  · simp only [edgesOf, List.mem_flatMap, Conn]
    constructor
    · rintro ⟨⟨l', es⟩, he, ⟨a, b⟩, hab, h⟩
      simp only at h
      split at h
      · simp at h
      · rename_i hne
        rcases List.mem_append.1 h with h1 | h1 <;> clear h
        · split at h1 <;> simp at h1
        · split at h1
          · rename_i hp
            simp only [List.mem_singleton, Prod.mk.injEq, and_true] at h1
            subst hp
            obtain ⟨rfl, rfl⟩ := h1
            exact ⟨hne, es, he, hab⟩
          · simp at h1
    · rintro ⟨hne, es, he, h⟩
      refine ⟨(l, es), he, (q, p), h, ?_⟩
      simp [hne]

/-- The peer has traffic `l` with some other peer. -/
def Has (G : Pairs ρ L) (p : ρ) (l : L) : Prop := ∃ w, w ≠ p ∧ (Conn G l p w ∨ Conn G l w p)

omit [DecidableEq L] in
theorem mem_edgesSelf {G : Pairs ρ L} {p q : ρ} {l : L} {d : Bool} :
    (q, l, d) ∈ edgesSelf G p ↔ (q ≠ p ∧ (if d then Conn G l q p else Conn G l p q)) ∨ (q = p ∧ Has G p l) := by
  have hraw : (q, l, d) ∈ edgesOf G p ↔ q ≠ p ∧ (if d then Conn G l q p else Conn G l p q) := by
    cases d
    · simpa using mem_edgesOf.1
    · simpa using mem_edgesOf.2
  unfold edgesSelf
  rw [List.mem_append, hraw]
  refine or_congr Iff.rfl ?_
  simp only [List.mem_flatMap]
  constructor
  · rintro ⟨⟨w, l', d'⟩, hw, h⟩
    simp only [List.mem_cons, Prod.mk.injEq, List.not_mem_nil, or_false] at h
    have hq : q = p ∧ l = l' := by rcases h with ⟨h1, h2, _⟩ | ⟨h1, h2, _⟩ <;> exact ⟨h1, h2⟩
    obtain ⟨rfl, rfl⟩ := hq
    refine ⟨rfl, w, ?_⟩
    cases d'
    · have := mem_edgesOf.1.1 hw
      exact ⟨this.1, .inl this.2⟩
    · have := mem_edgesOf.2.1 hw
      exact ⟨this.1, .inr this.2⟩
  · rintro ⟨rfl, w, hw, h | h⟩
    · exact ⟨_, mem_edgesOf.1.2 ⟨hw, h⟩, by cases d <;> simp⟩
    · exact ⟨_, mem_edgesOf.2.2 ⟨hw, h⟩, by cases d <;> simp⟩

theorem sameEdges_iff {a b : List (ρ × L × Bool)} : sameEdges a b = true ↔ ∀ x, x ∈ a ↔ x ∈ b := by
  unfold sameEdges
  simp only [Bool.and_eq_true, List.all_eq_true, List.contains_iff_mem]
  exact ⟨fun h x => ⟨h.1 x, h.2 x⟩, fun h => ⟨fun x => (h x).1, fun x => (h x).2⟩⟩

/-- Same edges with the self edges. -/
def Tight (G : Pairs ρ L) (p q : ρ) : Prop := ∀ x, x ∈ edgesSelf G p ↔ x ∈ edgesSelf G q

omit [DecidableEq L] in
theorem Tight.outside {G : Pairs ρ L} {p q : ρ} (h : Tight G p q) {l w} (hp : w ≠ p) (hq : w ≠ q) :
    (Conn G l p w ↔ Conn G l q w) ∧ (Conn G l w p ↔ Conn G l w q) := by
  have h1 := h (w, l, false)
  have h2 := h (w, l, true)
  rw [mem_edgesSelf, mem_edgesSelf] at h1 h2
  simpa [hp, hq] using And.intro h1 h2

omit [DecidableEq L] in
theorem Tight.has {G : Pairs ρ L} {p q : ρ} (h : Tight G p q) (l) : Has G p l ↔ Has G q l := by
  have half : ∀ p q : ρ, Tight G p q → Has G p l → Has G q l := by
    intro p q h hp
    have h1 := (h (p, l, false)).1 (mem_edgesSelf.2 (.inr ⟨rfl, hp⟩))
    rcases mem_edgesSelf.1 h1 with ⟨hne, h1⟩ | ⟨_, h1⟩
    · exact ⟨p, hne, .inl h1⟩
    · exact h1
  exact ⟨half p q h, half q p (fun x => (h x).symm)⟩

omit [DecidableEq L] in
/-- Two peers with the same edges, self edges included, are connected by all they have. -/
theorem Tight.inside {G : Pairs ρ L} {p q : ρ} (h : Tight G p q) (hne : p ≠ q) (l) :
    (Conn G l p q ↔ Has G p l) ∧ (Conn G l q p ↔ Has G p l) := by
  constructor
  · constructor
    · intro hc
      exact ⟨q, hne.symm, .inl hc⟩
    · intro hp
      have h1 := (h (p, l, true)).1 (mem_edgesSelf.2 (.inr ⟨rfl, hp⟩))
      rcases mem_edgesSelf.1 h1 with ⟨_, h1⟩ | ⟨h1, _⟩
      · simpa using h1
      · exact absurd h1 hne
  · constructor
    · intro hc
      exact ⟨q, hne.symm, .inr hc⟩
    · intro hp
      have h1 := (h (p, l, false)).1 (mem_edgesSelf.2 (.inr ⟨rfl, hp⟩))
      rcases mem_edgesSelf.1 h1 with ⟨_, h1⟩ | ⟨h1, _⟩
      · simpa using h1
      · exact absurd h1 hne

/-- Same edges without the self edges. -/
def Loose (G : Pairs ρ L) (p q : ρ) : Prop :=
  ∀ x, x ∈ (edgesSelf G p).filter (fun e => e.1 ≠ p) ↔ x ∈ (edgesSelf G q).filter (fun e => e.1 ≠ q)

omit [DecidableEq L] in
theorem mem_loose {G : Pairs ρ L} {p q : ρ} {l : L} {d : Bool} :
    (q, l, d) ∈ (edgesSelf G p).filter (fun e => e.1 ≠ p) ↔ q ≠ p ∧ (if d then Conn G l q p else Conn G l p q) := by
  rw [List.mem_filter, mem_edgesSelf]
  simp only [decide_eq_true_eq]
  tauto

omit [DecidableEq L] in
theorem Loose.outside {G : Pairs ρ L} {p q : ρ} (h : Loose G p q) {l w} (hp : w ≠ p) (hq : w ≠ q) :
    (Conn G l p w ↔ Conn G l q w) ∧ (Conn G l w p ↔ Conn G l w q) := by
  have h1 := h (w, l, false)
  have h2 := h (w, l, true)
  rw [mem_loose, mem_loose] at h1 h2
  simpa [hp, hq] using And.intro h1 h2

omit [DecidableEq L] in
theorem Loose.inside {G : Pairs ρ L} {p q : ρ} (h : Loose G p q) (hne : p ≠ q) (l) :
    ¬ Conn G l p q ∧ ¬ Conn G l q p := by
  constructor
  · intro hc
    have h1 := (h (q, l, false)).1 (mem_loose.2 ⟨hne.symm, by simpa using hc⟩)
    exact (mem_loose.1 h1).1 rfl
  · intro hc
    have h1 := (h (q, l, true)).1 (mem_loose.2 ⟨hne.symm, by simpa using hc⟩)
    exact (mem_loose.1 h1).1 rfl

omit [DecidableEq ρ] in
theorem insertGroup_perm (key : ρ → ρ → Bool) (gs : List (List ρ)) (p : ρ) :
    (insertGroup key gs p).flatten.Perm (p :: gs.flatten) := by
  induction gs with
  | nil => simp [insertGroup]
  | cons g gs ih =>
    unfold insertGroup
    split
    · simp only [List.flatten_cons, List.append_assoc, List.singleton_append]
      exact List.perm_middle
    · simp only [List.flatten_cons]
      exact (ih.append_left g).trans List.perm_middle

/-- The dictionary of groups: the groups are not empty, their members have the same key, and the keys of
two groups differ. -/
structure DictInv (key : ρ → ρ → Bool) (gs : List (List ρ)) : Prop where
  ne : ∀ g ∈ gs, g ≠ []
  same : ∀ g ∈ gs, ∀ p ∈ g, ∀ q ∈ g, key p q = true
  diff : gs.Pairwise (fun g g' => ∀ p ∈ g, ∀ q ∈ g', key p q = false)

omit [DecidableEq ρ] in
theorem insertGroup_mem {key : ρ → ρ → Bool} {gs : List (List ρ)} {p b : ρ} {g : List ρ}
    (hg : g ∈ insertGroup key gs p) (hb : b ∈ g) : b = p ∨ ∃ g' ∈ gs, b ∈ g' := by
  have h1 : b ∈ (insertGroup key gs p).flatten := List.mem_flatten.2 ⟨g, hg, hb⟩
  have h2 := (insertGroup_perm key gs p).mem_iff.1 h1
  rcases List.mem_cons.1 h2 with h | h
  · exact .inl h
  · exact .inr (List.mem_flatten.1 h)

omit [DecidableEq ρ] in
theorem insertGroup_inv {key : ρ → ρ → Bool} (hr : ∀ p, key p p = true) (hs : ∀ p q, key p q = true → key q p = true)
    (ht : ∀ p q r, key p q = true → key q r = true → key p r = true) {gs : List (List ρ)} (I : DictInv key gs) (p : ρ) :
    DictInv key (insertGroup key gs p) := by
  induction gs with
  | nil =>
    refine ⟨by simp [insertGroup], ?_, by simp [insertGroup]⟩
    intro g hg a ha b hb
    simp only [insertGroup, List.mem_singleton] at hg
    subst hg
    simp only [List.mem_singleton] at ha hb
    subst ha hb
    exact hr _
  | cons g0 gs ih =>
    have I' : DictInv key gs := ⟨fun g h => I.ne g (by simp [h]), fun g h => I.same g (by simp [h]),
      (List.pairwise_cons.1 I.diff).2⟩
    have hd := (List.pairwise_cons.1 I.diff).1
    unfold insertGroup
    split
    · rename_i hany
      obtain ⟨q0, hq0, hk⟩ := List.any_eq_true.1 hany
      have hp : ∀ q ∈ g0, key q p = true := fun q hq => ht q q0 p (I.same g0 (by simp) q hq q0 hq0) hk
      refine ⟨?_, ?_, ?_⟩
      · intro g hg
        rcases List.mem_cons.1 hg with rfl | hg
        · simp
        · exact I'.ne g hg
      · intro g hg a ha b hb
        rcases List.mem_cons.1 hg with rfl | hg
        · simp only [List.mem_append, List.mem_singleton] at ha hb
          rcases ha with ha | rfl <;> rcases hb with hb | rfl
          · exact I.same g0 (by simp) a ha b hb
          · exact hp a ha
          · exact hs _ _ (hp b hb)
          · exact hr _
        · exact I'.same g hg a ha b hb
      · refine List.pairwise_cons.2 ⟨?_, I'.diff⟩
        intro g' hg' a ha b hb
        rcases List.mem_append.1 ha with ha | ha
        · exact hd g' hg' a ha b hb
        · simp only [List.mem_singleton] at ha
          subst ha
          by_contra hk'
          rw [Bool.not_eq_false] at hk'
          have := hd g' hg' q0 hq0 b hb
          rw [ht q0 a b hk hk'] at this
          simp at this
    · rename_i hany
      have hany : ∀ q ∈ g0, key q p = false := by
        intro q hq
        by_contra hk
        exact hany (List.any_eq_true.2 ⟨q, hq, by simpa using hk⟩)
      have I2 := ih I'
      refine ⟨?_, ?_, ?_⟩
      · intro g hg
        rcases List.mem_cons.1 hg with rfl | hg
        · exact I.ne g (by simp)
        · exact I2.ne g hg
      · intro g hg
        rcases List.mem_cons.1 hg with rfl | hg
        · exact I.same g (by simp)
        · exact I2.same g hg
      · refine List.pairwise_cons.2 ⟨?_, I2.diff⟩
        intro g' hg' a ha b hb
        rcases insertGroup_mem hg' hb with rfl | ⟨g'', hg'', hb'⟩
        · exact hany a ha
        · exact hd g'' hg'' a ha b hb'

omit [DecidableEq ρ] in
theorem groupsDict_spec {key : ρ → ρ → Bool} (hr : ∀ p, key p p = true) (hs : ∀ p q, key p q = true → key q p = true)
    (ht : ∀ p q r, key p q = true → key q r = true → key p r = true) (ps : List ρ) :
    DictInv key (groupsDict key ps) ∧ (groupsDict key ps).flatten.Perm ps := by
  have gen : ∀ (ps : List ρ) (gs : List (List ρ)), DictInv key gs →
      DictInv key (ps.foldl (insertGroup key) gs) ∧ (ps.foldl (insertGroup key) gs).flatten.Perm (gs.flatten ++ ps) := by
    intro ps
    induction ps with
    | nil => exact fun gs I => ⟨I, by simp⟩
    | cons p ps ih =>
      intro gs I
      rw [List.foldl_cons]
      obtain ⟨h1, h2⟩ := ih _ (insertGroup_inv hr hs ht I p)
      refine ⟨h1, h2.trans ?_⟩
      exact ((insertGroup_perm key gs p).append_right ps).trans List.perm_middle.symm
  have := gen ps [] ⟨by simp, by simp, .nil⟩
  simpa [groupsDict] using this

omit [DecidableEq ρ] in
/-- Members with the same key are in one group. -/
theorem DictInv.one {key : ρ → ρ → Bool} {gs : List (List ρ)} (I : DictInv key gs) (hs : ∀ p q, key p q = true → key q p = true)
    {g g'} (hg : g ∈ gs) (hg' : g' ∈ gs) {p q} (hp : p ∈ g) (hq : q ∈ g') (h : key p q = true) : g = g' := by
  obtain ⟨-, -, hd⟩ := I
  induction gs with
  | nil => simp at hg
  | cons g0 gs ih =>
    obtain ⟨h1, h2⟩ := List.pairwise_cons.1 hd
    rcases List.mem_cons.1 hg with hg1 | hg1 <;> rcases List.mem_cons.1 hg' with hg2 | hg2
    · rw [hg1, hg2]
    · have := h1 g' hg2 p (hg1 ▸ hp) q hq
      rw [h] at this
      simp at this
    · have := h1 g hg1 q (hg2 ▸ hq) p hp
      rw [hs _ _ h] at this
      simp at this
    · exact ih hg1 hg2 h2

omit [DecidableEq ρ] in
theorem flatten_filter_perm (f : List ρ → Bool) (gs : List (List ρ)) :
    ((gs.filter f).flatten ++ (gs.filter (fun g => !f g)).flatten).Perm gs.flatten := by
  rw [← List.flatten_append]
  exact (List.filter_append_perm f gs).flatten

omit [DecidableEq ρ] in
theorem flatten_map_sort (sort : List ρ → List ρ) (hsort : ∀ l, (sort l).Perm l) (gs : List (List ρ)) :
    (gs.map sort).flatten.Perm gs.flatten := by
  induction gs with
  | nil => simp
  | cons g gs ih => simpa using (hsort g).append ih

/-- What `_get_equals_groups` returns. -/
structure GroupsSpec (nsp : ρ → ν) (peers : List ρ) (G : Pairs ρ L) (gs : List (List ρ × Option L)) : Prop where
  perm : (gs.flatMap (·.1)).Perm peers
  ne : ∀ g ∈ gs, g.1 ≠ []
  kind : ∀ g ∈ gs,
    ((∃ a b r, g.1 = a :: b :: r ∧ g.2 = edgeProp G a b) ∧ (∀ p ∈ g.1, ∀ q ∈ g.1, nsp p = nsp q ∧ Tight G p q) ∧
      ∀ p ∈ g.1, ∀ q ∈ peers, nsp p = nsp q → Tight G p q → q ∈ g.1) ∨
    (g.2 = none ∧ ∀ p ∈ g.1, ∀ q ∈ g.1, p ≠ q → nsp p = nsp q ∧ Loose G p q)

theorem equalGroups_spec (nsp : ρ → ν) (sort : List ρ → List ρ) (hsort : ∀ l, (sort l).Perm l) (peers : List ρ)
    (G : Pairs ρ L) : GroupsSpec nsp peers G (equalGroups nsp sort peers G) := by
  set key1 : ρ → ρ → Bool := fun p q => decide (nsp p = nsp q) && sameEdges (edgesSelf G p) (edgesSelf G q) with hk1
  set key2 : ρ → ρ → Bool := fun p q => decide (nsp p = nsp q) &&
    sameEdges ((edgesSelf G p).filter (fun e => e.1 ≠ p)) ((edgesSelf G q).filter (fun e => e.1 ≠ q)) with hk2
  have e1 : ∀ p q, key1 p q = true ↔ nsp p = nsp q ∧ Tight G p q := by
    intro p q
    simp only [hk1, Bool.and_eq_true, decide_eq_true_eq, sameEdges_iff]
    rfl
  have e2 : ∀ p q, key2 p q = true ↔ nsp p = nsp q ∧ Loose G p q := by
    intro p q
    simp only [hk2, Bool.and_eq_true, decide_eq_true_eq, sameEdges_iff]
    rfl
  have s1 : ∀ p q, key1 p q = true → key1 q p = true := by
    intro p q h
    rw [e1] at h ⊢
    exact ⟨h.1.symm, fun x => (h.2 x).symm⟩
  have s2 : ∀ p q, key2 p q = true → key2 q p = true := by
    intro p q h
    rw [e2] at h ⊢
    exact ⟨h.1.symm, fun x => (h.2 x).symm⟩
  obtain ⟨I1, p1⟩ := groupsDict_spec (key := key1) (fun p => (e1 p p).2 ⟨rfl, fun _ => Iff.rfl⟩) s1
    (fun p q r h h' => by
      rw [e1] at h h' ⊢
      exact ⟨h.1.trans h'.1, fun x => (h.2 x).trans (h'.2 x)⟩) peers
  set d1 := groupsDict key1 peers
  obtain ⟨I2, p2⟩ := groupsDict_spec (key := key2) (fun p => (e2 p p).2 ⟨rfl, fun _ => Iff.rfl⟩) s2
    (fun p q r h h' => by
      rw [e2] at h h' ⊢
      exact ⟨h.1.trans h'.1, fun x => (h.2 x).trans (h'.2 x)⟩) (d1.filter (fun g => g.length = 1)).flatten
  set d2 := groupsDict key2 (d1.filter (fun g => g.length = 1)).flatten
  have heq : equalGroups nsp sort peers G =
      ((d1.filter (fun g => g.length > 1)).map sort).map (fun g => (g, match g with
        | a :: b :: _ => edgeProp G a b
        | _ => none)) ++
      ((d2.filter (fun g => g.length > 1)).map sort).map (fun g => (g, none)) ++
      (d2.filter (fun g => g.length = 1)).map (fun g => (g, none)) := rfl
  have hone : ∀ d : List (List ρ), (∀ g ∈ d, g ≠ []) →
      d.filter (fun g => decide (g.length = 1)) = d.filter (fun g => !decide (g.length > 1)) := by
    intro d hd
    refine List.filter_congr ?_
    intro g hg
    have := List.length_pos_iff.2 (hd g hg)
    rw [← decide_not]
    exact decide_eq_decide.2 (by omega)
  refine ⟨?_, ?_, ?_⟩
  · rw [heq]
    simp only [List.flatMap_append, List.flatMap_map, List.flatMap_id']
    have hA : ((d1.filter (fun g => decide (g.length > 1))).flatMap sort).Perm
        (d1.filter (fun g => decide (g.length > 1))).flatten := by
      rw [List.flatMap_def]
      exact flatten_map_sort sort hsort _
    have hB : ((d2.filter (fun g => decide (g.length > 1))).flatMap sort).Perm
        (d2.filter (fun g => decide (g.length > 1))).flatten := by
      rw [List.flatMap_def]
      exact flatten_map_sort sort hsort _
    have h2 : ((d2.filter (fun g => decide (g.length > 1))).flatten ++
        (d2.filter (fun g => decide (g.length = 1))).flatten).Perm d2.flatten := by
      rw [hone d2 I2.ne]
      exact flatten_filter_perm _ d2
    have h1 : ((d1.filter (fun g => decide (g.length > 1))).flatten ++
        (d1.filter (fun g => decide (g.length = 1))).flatten).Perm d1.flatten := by
      rw [hone d1 I1.ne]
      exact flatten_filter_perm _ d1
    rw [List.append_assoc]
    exact (hA.append (((hB.append_right _).trans h2).trans p2)).trans (h1.trans p1)
  · intro g hg
    rw [heq] at hg
    simp only [List.mem_append, List.mem_map, List.mem_filter, decide_eq_true_eq] at hg
    rcases hg with (⟨_, ⟨g', ⟨hg', hl⟩, rfl⟩, rfl⟩ | ⟨_, ⟨g', ⟨hg', hl⟩, rfl⟩, rfl⟩) | ⟨g', ⟨hg', hl⟩, rfl⟩
    · intro h
      have := (hsort g').length_eq
      simp only at h
      rw [h] at this
      simp at this
      omega
    · intro h
      have := (hsort g').length_eq
      simp only at h
      rw [h] at this
      simp at this
      omega
    · exact I2.ne g' hg'
  · intro g hg
    rw [heq] at hg
    simp only [List.mem_append, List.mem_map, List.mem_filter, decide_eq_true_eq] at hg
    rcases hg with (⟨_, ⟨g', ⟨hg', hl⟩, rfl⟩, rfl⟩ | ⟨_, ⟨g', ⟨hg', hl⟩, rfl⟩, rfl⟩) | ⟨g', ⟨hg', hl⟩, rfl⟩
    · left
      have hmem : ∀ x, x ∈ sort g' ↔ x ∈ g' := fun x => (hsort g').mem_iff
      have hlen := (hsort g').length_eq
      refine ⟨?_, ?_, ?_⟩
      · cases hg0 : sort g' with
        | nil => rw [hg0] at hlen; simp at hlen; omega
        | cons a r =>
          cases r with
          | nil => rw [hg0] at hlen; simp at hlen; omega
          | cons b r => exact ⟨a, b, r, rfl, rfl⟩
      · intro p hp q hq
        exact (e1 p q).1 (I1.same g' hg' p ((hmem p).1 hp) q ((hmem q).1 hq))
      · intro p hp q hq hns ht
        obtain ⟨g2, hg2, hq2⟩ := List.mem_flatten.1 (p1.mem_iff.2 hq)
        have := I1.one s1 hg' hg2 ((hmem p).1 hp) hq2 ((e1 p q).2 ⟨hns, ht⟩)
        subst this
        exact (hmem q).2 hq2
    · right
      have hmem : ∀ x, x ∈ sort g' ↔ x ∈ g' := fun x => (hsort g').mem_iff
      refine ⟨rfl, fun p hp q hq _ => ?_⟩
      exact (e2 p q).1 (I2.same g' hg' p ((hmem p).1 hp) q ((hmem q).1 hq))
    · right
      refine ⟨rfl, fun p hp q hq _ => ?_⟩
      exact (e2 p q).1 (I2.same g' hg' p hp q hq)

omit [DecidableEq L] in
theorem edgeProp_spec (G : Pairs ρ L) (a b : ρ) (hab : a ≠ b) :
    (∀ l, edgeProp G a b = some l → Conn G l a b ∨ Conn G l b a) ∧
    (∀ l, Conn G l a b → edgeProp G a b ≠ none) := by
  have inner : ∀ (l : L) (es : List (ρ × ρ)) (acc : Option L),
      (es.foldl (fun acc e => if e.1 ≠ e.2 ∧ (e = (a, b) ∨ e = (b, a)) then some l else acc) acc) =
        (if (a, b) ∈ es ∨ (b, a) ∈ es then some l else acc) := by
    intro l es
    induction es with
    | nil => simp
    | cons e es ih =>
      intro acc
      rw [List.foldl_cons]
      by_cases he : e = (a, b) ∨ e = (b, a)
      · have hne : e.1 ≠ e.2 := by rcases he with rfl | rfl <;> simp [hab, Ne.symm hab]
        rw [if_pos ⟨hne, he⟩, ih]
        have : (a, b) ∈ e :: es ∨ (b, a) ∈ e :: es := by
          rcases he with rfl | rfl <;> simp
        rw [if_pos this]
        split <;> rfl
      · rw [if_neg (fun h => he h.2), ih]
        have hn1 : (a, b) ≠ e := fun h => he (.inl h.symm)
        have hn2 : (b, a) ≠ e := fun h => he (.inr h.symm)
        simp [hn1, hn2]
  have outer : ∀ (G : Pairs ρ L) (acc : Option L),
      (∀ l, (G.foldl (fun acc lp => lp.2.foldl (fun acc e =>
        if e.1 ≠ e.2 ∧ (e = (a, b) ∨ e = (b, a)) then some lp.1 else acc) acc) acc) = some l →
        acc = some l ∨ Conn G l a b ∨ Conn G l b a) ∧
      ((acc ≠ none ∨ ∃ l, Conn G l a b) → (G.foldl (fun acc lp => lp.2.foldl (fun acc e =>
        if e.1 ≠ e.2 ∧ (e = (a, b) ∨ e = (b, a)) then some lp.1 else acc) acc) acc) ≠ none) := by
    intro G
    induction G with
    | nil => simp [Conn]
    | cons lp G ih =>
      intro acc
      rw [List.foldl_cons, inner]
      obtain ⟨h1, h2⟩ := ih (if (a, b) ∈ lp.2 ∨ (b, a) ∈ lp.2 then some lp.1 else acc)
      constructor
      · intro l hl
        rcases h1 l hl with h | ⟨es, he, h⟩ | ⟨es, he, h⟩
        · split at h
          · rename_i hm
            simp only [Option.some.injEq] at h
            subst h
            rcases hm with hm | hm
            · exact .inr (.inl ⟨lp.2, by simp, hm⟩)
            · exact .inr (.inr ⟨lp.2, by simp, hm⟩)
          · exact .inl h
        · exact .inr (.inl ⟨es, by simp [he], h⟩)
        · exact .inr (.inr ⟨es, by simp [he], h⟩)
      · intro h
        apply h2
        split
        · exact .inl (by simp)
        · rename_i hm
          rcases h with h | ⟨l, es, he, h⟩
          · exact .inl h
          · rcases List.mem_cons.1 he with he | he
            · exact absurd (.inl (by rw [← he]; exact h)) hm
            · exact .inr ⟨l, es, he, h⟩
  constructor
  · intro l hl
    rcases (outer G none).1 l hl with h | h
    · simp at h
    · exact h
  · intro l hl
    exact (outer G none).2 (.inr ⟨l, hl⟩)

end Groups

/-! ### The theorem -/

section Main
variable {ρ α L ν τ : Type} [DecidableEq ρ] [DecidableEq α] [DecidableEq L] [DecidableEq ν] [DecidableEq τ]

omit [DecidableEq ρ] in
theorem flatMap_uniq {β : Type} {f : β → List ρ} {gs : List β} (h : (gs.flatMap f).Nodup) {g g' : β} (hg : g ∈ gs)
    (hg' : g' ∈ gs) {x : ρ} (hx : x ∈ f g) (hx' : x ∈ f g') : g = g' := by
  induction gs with
  | nil => simp at hg
  | cons g0 gs ih =>
    rw [List.flatMap_cons, List.nodup_append] at h
    obtain ⟨-, h2, h3⟩ := h
    rcases List.mem_cons.1 hg with hg1 | hg1 <;> rcases List.mem_cons.1 hg' with hg2 | hg2
    · rw [hg1, hg2]
    · exact absurd rfl (h3 x (hg1 ▸ hx) x (List.mem_flatMap.2 ⟨g', hg2, hx'⟩))
    · exact absurd rfl (h3 x (hg2 ▸ hx') x (List.mem_flatMap.2 ⟨g, hg1, hx⟩))
    · exact ih h2 hg1 hg2

omit [DecidableEq α] [DecidableEq L] [DecidableEq ν] [DecidableEq τ] in
/-- A group of connected peers with peers of different names has all replicas of its members. -/
theorem replicas_tight {look : Look ρ α ν τ} {peers : List ρ} {G : Pairs ρ L} (hR : Replicas look peers G)
    {p t y : ρ} (hp : p ∈ peers) (ht : t ∈ peers) (hpt : look.name p = look.name t) (hne : p ≠ t) (hyt : y ≠ t)
    (hyp : y ≠ p) (hty : Tight G t y) : Tight G t p := by
  obtain ⟨-, -, hw⟩ := hR p hp t ht hpt
  have hin := hty.inside (Ne.symm hyt)
  have hyp' : ∀ l, (Conn G l y p ↔ Has G t l) ∧ (Conn G l p y ↔ Has G t l) := by
    intro l
    obtain ⟨h1, h2⟩ := hw l y hyp hyt
    exact ⟨h2.trans (hin l).2, h1.trans (hin l).1⟩
  have htp : ∀ l, (Conn G l t p ↔ Has G t l) ∧ (Conn G l p t ↔ Has G t l) := by
    intro l
    obtain ⟨h1, h2⟩ := hty.outside (l := l) hne hyp.symm
    exact ⟨h1.trans (hyp' l).1, h2.trans (hyp' l).2⟩
  have hhas : ∀ l, Has G p l ↔ Has G t l := by
    intro l
    constructor
    · rintro ⟨w, hwp, h⟩
      by_cases hwt : w = t
      · subst hwt
        rcases h with h | h
        · exact (htp l).2.1 h
        · exact (htp l).1.1 h
      · obtain ⟨h1, h2⟩ := hw l w hwp hwt
        exact ⟨w, hwt, h.imp h1.1 h2.1⟩
    · intro h
      exact ⟨y, hyp, .inl ((hyp' l).2.2 h)⟩
  rintro ⟨w, l, d⟩
  rw [mem_edgesSelf, mem_edgesSelf, hhas]
  by_cases hwt : w = t
  · subst hwt
    have := htp l
    cases d <;> simp [Ne.symm hne, this]
  · by_cases hwp : w = p
    · subst hwp
      have := htp l
      cases d <;> simp [hne, this]
    · obtain ⟨h1, h2⟩ := hw l w hwp hwt
      cases d <;> simp [hwt, hwp, h1, h2]

omit [DecidableEq L] [DecidableEq ν] [DecidableEq α] in
theorem mem_repEdges {look : Look ρ α ν τ} {reps : List ρ} {es : List (ρ × ρ)} {x y : α} :
    (x, y) ∈ repEdges look reps es ↔
      ∃ r r', (r, r') ∈ es ∧ r ≠ r' ∧ r ∈ reps ∧ r' ∈ reps ∧ look.name r = x ∧ look.name r' = y := by
  simp only [repEdges, List.mem_map, List.mem_filter, Bool.and_eq_true, decide_eq_true_eq, List.contains_iff_mem,
    Prod.mk.injEq, Prod.exists]
  constructor
  · rintro ⟨a, b, ⟨h1, ⟨h2, h3⟩, h4⟩, h5, h6⟩
    exact ⟨a, b, h1, h2, h3, h4, h5, h6⟩
  · rintro ⟨a, b, h1, h2, h3, h4, h5, h6⟩
    exact ⟨a, b, ⟨h1, ⟨h2, h3⟩, h4⟩, h5, h6⟩

omit [DecidableEq L] [DecidableEq ν] [DecidableEq α] [DecidableEq ρ] in
theorem two_texts {f : ρ → τ} {g : List ρ} {u v : ρ} (hu : u ∈ g) (hv : v ∈ g) (h : f u ≠ f v) :
    (g.map f).dedup.length > 1 := by
  have hn : [f u, f v].Nodup := by simpa using h
  have := (hn.subperm (l₂ := (g.map f).dedup) (by
    intro x hx
    simp only [List.mem_cons, List.not_mem_nil, or_false] at hx
    rcases hx with rfl | rfl
    · exact List.mem_dedup.2 (List.mem_map_of_mem hu)
    · exact List.mem_dedup.2 (List.mem_map_of_mem hv))).length_le
  simp only [List.length_cons, List.length_nil] at this
  omega

omit [DecidableEq L] [DecidableEq ν] [DecidableEq α] [DecidableEq ρ] in
theorem texts_two {f : ρ → τ} {g : List ρ} (h : (g.map f).dedup.length > 1) (r : ρ) : ∃ y ∈ g, f y ≠ f r := by
  by_contra hc
  have hsub : (g.map f).dedup ⊆ [f r] := by
    intro x hx
    obtain ⟨y, hy, rfl⟩ := List.mem_map.1 (List.mem_dedup.1 hx)
    by_contra hne
    exact hc ⟨y, hy, by simpa using hne⟩
  have := ((List.nodup_dedup (g.map f)).subperm hsub).length_le
  simp at this
  omega

/-- C39.  The drawing has every peer in one box, and what it says about two boxes is what holds between any
two peers in them: if the drawing says that there is traffic `l` from the box of `u` to the box of `v` then
there is, and if there is it says so.  MISSING (so `_partial`): nodes of two connections may have one name
(`hclash`; `C39_clique_names_clash_wrong`), two peers of one box connected by several connections are shown
with one of them (the last hypothesis; `C39_group_label_lost_wrong`), and the code may raise
(`C39_multi_range_raises`). -/
theorem C39_dot_partial (V : Env α ν) (hV : V.Fair) (look : Look ρ α ν τ) (hsort : ∀ l, (look.sort l).Perm l)
    (peers : List ρ) (hpeers : peers.Nodup) (G : Pairs ρ L) (hG : (G.map (·.1)).Nodup)
    (hR : Replicas look peers G) {P : Drawn α L τ} (hP : dotGraph V look peers G = some P)
    (lab : GNode α L → L) (hlab : P.Labels lab) (hclash : P.NoClash) :
    ∃ box : ρ → α,
      (∀ p ∈ peers, ∃ ts, (box p, ts) ∈ P.boxes ∧ look.text p ∈ ts) ∧
      (∀ x ts, (x, ts) ∈ P.boxes → ∀ t ∈ ts, ∃ p ∈ peers, box p = x ∧ look.text p = t) ∧
      ∀ u ∈ peers, ∀ v ∈ peers, u ≠ v → (box u = box v → look.text u ≠ look.text v) → ∀ l,
        (P.Reads lab l (box u) (box v) → Conn G l u v) ∧
        ((box u = box v → ∀ l l', Conn G l u v → Conn G l' u v → l = l') →
          Conn G l u v → P.Reads lab l (box u) (box v)) := by
  have S := equalGroups_spec look.nsp look.sort hsort peers G
  have hreads := fun l x y => dotGraph_reads V hV look peers G hG hP lab hlab hclash l x y
  have hboxes : ∀ x, x ∈ P.boxes ↔ ∃ g ∈ equalGroups look.nsp look.sort peers G, ∃ r rs, g.1 = r :: rs ∧
      x = (look.name r, (g.1.map look.text).dedup) := by
    unfold dotGraph at hP
    split at hP
    swap
    · simp at hP
    simp only [Option.some.injEq] at hP
    intro x
    rw [← hP, (foldl_add _ _).1]
    simp only [List.not_mem_nil, false_or, dotParts, List.mem_append, List.mem_map]
    constructor
    · rintro ⟨Q, ⟨g, hg, rfl⟩ | ⟨lp, _, rfl⟩, h⟩
      · refine ⟨g, hg, ?_⟩
        unfold drawGroup at h
        cases hg1 : g.1 with
        | nil => rw [hg1] at h; simp at h
        | cons r rs =>
          rw [hg1] at h
          simp only [List.mem_singleton] at h
          exact ⟨r, rs, rfl, h⟩
      · simp [drawConn] at h
    · rintro ⟨g, hg, r, rs, h1, rfl⟩
      refine ⟨_, .inl ⟨g, hg, rfl⟩, ?_⟩
      unfold drawGroup
      rw [h1]
      simp
  set gs := equalGroups look.nsp look.sort peers G
  have hnd : (gs.flatMap (·.1)).Nodup := S.perm.nodup_iff.2 hpeers
  have hin : ∀ p ∈ peers, ∃ g ∈ gs, p ∈ g.1 := fun p hp => List.mem_flatMap.1 (S.perm.mem_iff.2 hp)
  have hpeer : ∀ g ∈ gs, ∀ p ∈ g.1, p ∈ peers := fun g hg p hp => S.perm.mem_iff.1 (List.mem_flatMap.2 ⟨g, hg, hp⟩)
  have huniq : ∀ {g g'}, g ∈ gs → g' ∈ gs → ∀ {x}, x ∈ g.1 → x ∈ g'.1 → g = g' :=
    fun hg hg' _ hx hx' => flatMap_uniq hnd hg hg' hx hx'
  have hhead : ∀ p ∈ peers, ∃ r, ∃ g ∈ gs, p ∈ g.1 ∧ ∃ rs, g.1 = r :: rs := by
    intro p hp
    obtain ⟨g, hg, hpg⟩ := hin p hp
    cases hg1 : g.1 with
    | nil => rw [hg1] at hpg; simp at hpg
    | cons r rs => exact ⟨r, g, hg, by rwa [hg1] at hpg ⊢, rs, hg1⟩
  classical
  let head : ρ → ρ := fun p => if hp : p ∈ peers then Classical.choose (hhead p hp) else p
  have hheadS : ∀ p ∈ peers, ∃ g ∈ gs, p ∈ g.1 ∧ ∃ rs, g.1 = head p :: rs := by
    intro p hp
    have : head p = Classical.choose (hhead p hp) := by simp only [head, dif_pos hp]
    rw [this]
    exact Classical.choose_spec (hhead p hp)
  -- what holds of one group holds of all members
  have hout : ∀ g ∈ gs, ∀ p ∈ g.1, ∀ q ∈ g.1, ∀ l w, w ≠ p → w ≠ q →
      (Conn G l p w ↔ Conn G l q w) ∧ (Conn G l w p ↔ Conn G l w q) := by
    intro g hg p hp q hq l w hwp hwq
    by_cases hpq : p = q
    · subst hpq
      exact ⟨Iff.rfl, Iff.rfl⟩
    rcases S.kind g hg with ⟨-, h, -⟩ | ⟨-, h⟩
    · exact (h p hp q hq).2.outside hwp hwq
    · exact (h p hp q hq hpq).2.outside hwp hwq
  have hrep : ∀ r, r ∈ gs.flatMap (fun g => g.1.take 1) ↔ ∃ g ∈ gs, ∃ rs, g.1 = r :: rs := by
    intro r
    rw [List.mem_flatMap]
    refine exists_congr fun g => and_congr_right fun hg => ?_
    cases g.1 with
    | nil => simp
    | cons a rs => simp [eq_comm]
  -- a group with two texts and self edges takes in all peers of the name of its head
  have hfull : ∀ g ∈ gs, ∀ r rs, g.1 = r :: rs → g.2 ≠ none → (g.1.map look.text).dedup.length > 1 →
      ∀ p ∈ peers, look.name p = look.name r → p ∈ g.1 := by
    intro g hg r rs h1 h2 h3 p hp hpr
    have hr : r ∈ g.1 := by rw [h1]; simp
    rcases S.kind g hg with ⟨-, h, hmax⟩ | ⟨h, -⟩
    · obtain ⟨y, hy, hty⟩ := texts_two h3 r
      by_cases hprr : p = r
      · rw [hprr]; exact hr
      have hRp := hR p hp r (hpeer g hg r hr) hpr
      have hyr : y ≠ r := fun h => hty (by rw [h])
      have hyp : y ≠ p := fun h => hty (by rw [h, hRp.2.1])
      refine hmax r hr p hp hRp.1.symm ?_
      exact replicas_tight hR hp (hpeer g hg r hr) hpr hprr hyr hyp (h r hr y hy).2
    · exact absurd h h2
  refine ⟨fun p => look.name (head p), ?_, ?_, ?_⟩
  · intro p hp
    obtain ⟨g, hg, hpg, rs, h1⟩ := hheadS p hp
    exact ⟨_, (hboxes _).2 ⟨g, hg, _, rs, h1, rfl⟩, List.mem_dedup.2 (List.mem_map_of_mem hpg)⟩
  · intro x ts hx t ht
    obtain ⟨g, hg, r, rs, h1, h⟩ := (hboxes _).1 hx
    simp only [Prod.mk.injEq] at h
    obtain ⟨rfl, rfl⟩ := h
    obtain ⟨p, hp, rfl⟩ := List.mem_map.1 (List.mem_dedup.1 ht)
    refine ⟨p, hpeer g hg p hp, ?_, rfl⟩
    obtain ⟨g', hg', hpg', rs', h1'⟩ := hheadS p (hpeer g hg p hp)
    have := huniq hg hg' hp hpg'
    subst this
    rw [h1] at h1'
    simp only [List.cons.injEq] at h1'
    simp only [← h1'.1]
  · intro u hu v hv huv htext l
    obtain ⟨g, hg, hug, rs, hgh⟩ := hheadS u hu
    obtain ⟨g', hg', hvg, rs', hgh'⟩ := hheadS v hv
    beta_reduce at htext ⊢
    generalize head u = a at hgh htext ⊢
    generalize head v = b at hgh' htext ⊢
    have ha : a ∈ g.1 := by rw [hgh]; simp
    have hb : b ∈ g'.1 := by rw [hgh']; simp
    have haP := hpeer g hg a ha
    have hbP := hpeer g' hg' b hb
    rw [hreads]
    by_cases hab : look.name a = look.name b
    · -- one box
      have htuv := htext hab
      have hRab := hR a haP b hbP hab
      -- the group is the same if it has a self edge
      have hself : ∀ l, (look.name a = look.name b ∧ ∃ g0 ∈ gs, ∃ r rs, g0.1 = r :: rs ∧ look.name r = look.name a ∧
          g0.2 = some l ∧ (g0.1.map look.text).dedup.length > 1) ↔ (g = g' ∧ g.2 = some l) := by
        intro l
        constructor
        · rintro ⟨_, g0, hg0, r, rs0, h1, h2, h3, h4⟩
          have hall := hfull g0 hg0 r rs0 h1 (by rw [h3]; simp) h4
          have e1 := huniq hg0 hg (hall a haP h2.symm) ha
          have e2 := huniq hg0 hg' (hall b hbP (hab.symm.trans h2.symm)) hb
          subst e1
          exact ⟨e2, h3⟩
        · rintro ⟨rfl, h⟩
          exact ⟨hab, g, hg, a, rs, hgh, rfl, h, two_texts hug hvg htuv⟩
      have hnoedge : ¬ (look.name a ≠ look.name b ∧ ∃ es, (l, es) ∈ G ∧ (look.name a, look.name b) ∈ repEdges look
        (gs.flatMap (fun g => g.1.take 1)) es) := fun h => h.1 hab
      rw [hself l]
      constructor
      · rintro (h | ⟨rfl, h⟩)
        · exact absurd h hnoedge
        · rcases S.kind g hg with ⟨⟨p, q, r, h1, h2⟩, ht, -⟩ | ⟨h1, -⟩
          · have hpg : p ∈ g.1 := by rw [h1]; simp
            have hqg : q ∈ g.1 := by rw [h1]; simp
            have hpq : p ≠ q := by
              have hgn : g.1.Nodup := (List.nodup_flatMap.1 hnd).1 g hg
              rw [h1] at hgn
              rintro rfl
              simp at hgn
            rw [h] at h2
            have hcl := (edgeProp_spec G p q hpq).1 l h2.symm
            have hhas : Has G p l := by
              have hin := (ht p hpg q hqg).2.inside hpq l
              rcases hcl with hcl | hcl
              · exact hin.1.1 hcl
              · exact hin.2.1 hcl
            have := ((ht p hpg u hug).2.has l).1 hhas
            exact ((ht u hug v hvg).2.inside huv l).1.2 this
          · rw [h] at h1
            simp at h1
      · intro hone hc
        have hone := hone hab
        right
        -- the groups are the same
        have hgg : g = g' := by
          by_contra hne
          have hnotin : ∀ x ∈ g.1, x ∉ g'.1 := fun x hx hx' => hne (huniq hg hg' hx hx')
          have habne : a ≠ b := fun h => hnotin a ha (h ▸ hb)
          -- no tight group with a text other than that of its head
          have hloose : ∀ g0 ∈ gs, ∀ r rs, g0.1 = r :: rs → ∀ w ∈ g0.1, look.text w ≠ look.text r →
              (look.name r = look.name a) → ∀ l, ¬ Conn G l w r ∧ ¬ Conn G l r w := by
            intro g0 hg0 r rs0 h1 w hw htw hra l
            have hr : r ∈ g0.1 := by rw [h1]; simp
            have hwr : w ≠ r := fun h => htw (by rw [h])
            rcases S.kind g0 hg0 with ⟨-, ht, hmax⟩ | ⟨-, h⟩
            · exfalso
              have hall : ∀ p ∈ peers, look.name p = look.name r → p ∈ g0.1 := by
                intro p hp hpr
                by_cases hprr : p = r
                · rw [hprr]; exact hr
                have hRp := hR p hp r (hpeer g0 hg0 r hr) hpr
                have hwp : w ≠ p := fun h => htw (by rw [h, hRp.2.1])
                exact hmax r hr p hp hRp.1.symm
                  (replicas_tight hR hp (hpeer g0 hg0 r hr) hpr hprr hwr hwp (ht r hr w hw).2)
              have e1 := huniq hg0 hg (hall a haP hra.symm) ha
              have e2 := huniq hg0 hg' (hall b hbP (hab.symm.trans hra.symm)) hb
              exact hne (e1.symm.trans e2)
            · exact (h w hw r hr hwr).2.inside hwr l
          by_cases hua : look.text u = look.text a
          · -- then `v` differs
            have hvb : look.text v ≠ look.text b := fun h => htuv (by rw [hua, hRab.2.1, h])
            have hvnb : v ≠ b := fun h => hvb (by rw [h])
            have hvna : v ≠ a := fun h => hnotin a ha (h ▸ hvg)
            have hno := hloose g' hg' b rs' hgh' v hvg hvb hab.symm l
            -- `u → v` iff `a → v` iff `b → v`
            have h1 := (hout g hg u hug a ha l v (fun h => hnotin u hug (h ▸ hvg)) hvna).1.1 hc
            have h2 := (hRab.2.2 l v hvna hvnb).1.1 h1
            exact hno.2 h2
          · have huna : u ≠ a := fun h => hua (by rw [h])
            have hunb : u ≠ b := fun h => hnotin u hug (h ▸ hb)
            have hno := hloose g hg a rs hgh u hug hua rfl l
            have h1 := (hout g' hg' v hvg b hb l u huv hunb).2.1 hc
            have h2 := (hRab.2.2 l u huna hunb).2.2 h1
            exact hno.1 h2
        refine ⟨hgg, ?_⟩
        subst hgg
        rcases S.kind g hg with ⟨⟨p, q, r, h1, h2⟩, ht, -⟩ | ⟨-, h⟩
        · have hpg : p ∈ g.1 := by rw [h1]; simp
          have hqg : q ∈ g.1 := by rw [h1]; simp
          have hpq : p ≠ q := by
            have hgn : g.1.Nodup := (List.nodup_flatMap.1 hnd).1 g hg
            rw [h1] at hgn
            rintro rfl
            simp at hgn
          have hhas : Has G p l := ((ht u hug p hpg).2.has l).1 (((ht u hug v hvg).2.inside huv l).1.1 hc)
          have hpc : Conn G l p q := ((ht p hpg q hqg).2.inside hpq l).1.2 hhas
          cases he : edgeProp G p q with
          | none => exact absurd he ((edgeProp_spec G p q hpq).2 l hpc)
          | some l' =>
            have hhas' : Has G p l' := by
              have hin := (ht p hpg q hqg).2.inside hpq l'
              rcases (edgeProp_spec G p q hpq).1 l' he with h | h
              · exact hin.1.1 h
              · exact hin.2.1 h
            have hc' : Conn G l' u v :=
              ((ht u hug v hvg).2.inside huv l').1.2 (((ht p hpg u hug).2.has l').1 hhas')
            rw [h2, he, hone l l' hc hc']
        · exact absurd hc ((h u hug v hvg huv).2.inside huv l).1
    · -- two boxes
      have hne : g ≠ g' := by
        rintro rfl
        rw [hgh] at hgh'
        simp only [List.cons.injEq] at hgh'
        exact hab (by rw [hgh'.1])
      have hnotin : ∀ x ∈ g.1, x ∉ g'.1 := fun x hx hx' => hne (huniq hg hg' hx hx')
      have habne : a ≠ b := fun h => hab (by rw [h])
      have key : (∃ es, (l, es) ∈ G ∧ (look.name a, look.name b) ∈ repEdges look
          (gs.flatMap (fun g => g.1.take 1)) es) ↔ Conn G l a b := by
        constructor
        · rintro ⟨es, he, h⟩
          obtain ⟨r, r', h1, h2, h3, h4, h5, h6⟩ := mem_repEdges.1 h
          obtain ⟨g1, hg1, rs1, hr1⟩ := (hrep r).1 h3
          obtain ⟨g2, hg2, rs2, hr2⟩ := (hrep r').1 h4
          have hrP := hpeer g1 hg1 r (by rw [hr1]; simp)
          have hrP' := hpeer g2 hg2 r' (by rw [hr2]; simp)
          have hc : Conn G l r r' := ⟨es, he, h1⟩
          have hr'a : r' ≠ a := fun h => hab (by rw [← h, h6])
          have har' : a ≠ r' := hr'a.symm
          have h7 := ((hR r hrP a haP h5).2.2 l r' h2.symm hr'a).1.1 hc
          exact ((hR r' hrP' b hbP h6).2.2 l a har' habne).2.1 h7
        · rintro ⟨es, he, h⟩
          exact ⟨es, he, mem_repEdges.2 ⟨a, b, h, habne, (hrep a).2 ⟨g, hg, rs, hgh⟩, (hrep b).2 ⟨g', hg', rs', hgh'⟩,
            rfl, rfl⟩⟩
      have huv' : Conn G l u v ↔ Conn G l a b := by
        have hva : v ≠ a := fun h => hnotin a ha (h ▸ hvg)
        have hab' : a ≠ v := hva.symm
        exact ((hout g hg u hug a ha l v huv.symm hva).1).trans ((hout g' hg' v hvg b hb l a hab' habne).2)
      rw [huv', key]
      constructor
      · rintro (h | h)
        · exact h.2
        · exact absurd h.1 hab
      · intro _ h
        exact .inl ⟨hab, h⟩

end Main
end Verif.Graph
