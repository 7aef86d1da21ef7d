import Verif.PropsLegend
/-!
C69: the texts on arrows and the legend: theorems on drawings.
-/
namespace Verif.Legend

/-! ### Specification -/

/-- What is drawn under a name: the kind of the nodes added under it. -/
def IsKind (ops : List Op) (name : String) (k : Kind) : Prop := ∃ space label, Op.node space name k label ∈ ops

/-- Nodes of one name are of one kind. -/
def OneKind (ops : List Op) : Prop := ∀ name k k', IsKind ops name k → IsKind ops name k' → k = k'

/-- An arrow that shows an edge: with a text and the label as tooltip unless it leads to a clique or a
biclique; with a head where traffic goes to, unless it leads to a clique. -/
def ShowsEdge (ops : List Op) (s d l : String) (dir : Bool) (a : Arrow) : Prop :=
  a.src = s ∧ a.dst = d ∧ (∃ k, IsKind ops s k) ∧ (∃ k, IsKind ops d k) ∧
  ∀ ks kd, IsKind ops s ks → IsKind ops d kd →
    ((ks = .clique ∨ kd = .clique) → a.text = none ∧ a.head = false ∧ a.tail = false) ∧
    ((ks = .biclique ∨ kd = .biclique) → a.text = none) ∧
    (ks ≠ .clique → kd ≠ .clique → a.head = true ∧ (a.tail = true ↔ dir = false)) ∧
    (ks ≠ .clique → kd ≠ .clique → ks ≠ .biclique → kd ≠ .biclique → ∃ t, a.text = some (t, strip l))

/-- A text in a drawing that stands for a label: on an arrow or on a clique or biclique. -/
def Stands (d : Drawing) (text label : String) : Prop :=
  (∃ a ∈ d.arrows, a.text = some (text, label)) ∨ (∃ space name kind, (space, Box.joint name kind text label) ∈ d.boxes)

/-- The lines of a node: not the empty ones, and in a flat graph with the namespace. -/
def nodeText (flat : Bool) (space : String) (label : List String) : List String :=
  (((label.filter (· ≠ "")).map strip).filter (· ≠ "")).map fun t => if flat ∧ space ≠ "" then space ++ "/" ++ t else t

/-- A box that shows a node. -/
def ShowsNode (flat : Bool) (space name : String) (kind : Kind) (label : List String) (b : Box) : Prop :=
  ((kind = .clique ∨ kind = .biclique) → ∃ s t r, label.filter (· ≠ "") = t :: r ∧ b = .joint name kind s (strip t)) ∧
  (¬ (kind = .clique ∨ kind = .biclique) → b = .cells name kind (nodeText flat space label))

/-! ### What was added -/

theorem mem_sadd (l x : String) (s : List String) : x ∈ sadd l s ↔ x = l ∨ x ∈ s := by
  unfold sadd
  split
  · constructor
    · exact .inr
    · rintro (rfl | h) <;> assumption
  · simp [or_comm]

theorem nodup_sadd {l : String} {s : List String} (h : s.Nodup) : (sadd l s).Nodup := by
  unfold sadd
  split
  · exact h
  · rename_i hl
    rw [List.nodup_append]
    refine ⟨h, by simp, ?_⟩
    intro a ha b hb
    rw [List.mem_singleton] at hb
    subst hb
    rintro rfl
    exact hl ha

theorem joint_iff (k : Kind) : k.joint = true ↔ k = .clique ∨ k = .biclique := by cases k <;> simp [Kind.joint]

/-- What holds of a graph after some steps. -/
structure Built (flat : Bool) (ops : List Op) (g : Graph) : Prop where
  flat_eq : g.flat = flat
  nodup : g.labels.Nodup
  labels : ∀ l, l ∈ g.labels ↔ Used ops l
  nodes : ∀ x ∈ g.nodes, ∃ space label, Op.node space x.2.name x.2.kind label ∈ ops ∧ x.1 = (if flat then "" else space) ∧
    x.2.label = (label.filter (· ≠ "")).map strip ∧ x.2.title = if flat then space else ""
  edges : ∀ e ∈ g.edges, (∃ l, Op.edge e.src.name e.dst.name l e.dir ∈ ops ∧ e.label = strip l) ∧
    IsKind ops e.src.name e.src.kind ∧ IsKind ops e.dst.name e.dst.kind
  all : ∀ s d l dir, Op.edge s d l dir ∈ ops → ∃ e ∈ g.edges, e.src.name = s ∧ e.dst.name = d ∧ e.label = strip l ∧ e.dir = dir
  allNodes : ∀ space name kind label, Op.node space name kind label ∈ ops →
    ∃ x ∈ g.nodes, x.2.name = name ∧ x.2.kind = kind ∧ x.1 = (if flat then "" else space) ∧
      x.2.label = (label.filter (· ≠ "")).map strip ∧ x.2.title = if flat then space else ""

theorem find_mem {g : Graph} {name : String} {n : Node} (h : g.find name = some n) : n.name = name ∧ ∃ x ∈ g.nodes, x.2 = n := by
  unfold Graph.find at h
  obtain ⟨x, hx, rfl⟩ := Option.map_eq_some_iff.1 h
  refine ⟨by simpa using List.find?_some hx, x, List.mem_reverse.1 (List.mem_of_find?_eq_some hx), rfl⟩

theorem IsKind.mono {ops : List Op} {name : String} {k : Kind} (op : Op) (h : IsKind ops name k) : IsKind (ops ++ [op]) name k := by
  obtain ⟨s, l, h⟩ := h
  exact ⟨s, l, List.mem_append_left _ h⟩

theorem used_append (ops : List Op) (op : Op) (l : String) : Used (ops ++ [op]) l ↔ Used ops l ∨ Used [op] l := by
  unfold Used
  constructor
  · rintro (⟨s, d, t, dir, hm, e⟩ | ⟨sp, nm, k, ts, t, r, hm, e⟩)
    · rcases List.mem_append.1 hm with hm | hm
      · exact .inl (.inl ⟨s, d, t, dir, hm, e⟩)
      · exact .inr (.inl ⟨s, d, t, dir, hm, e⟩)
    · rcases List.mem_append.1 hm with hm | hm
      · exact .inl (.inr ⟨sp, nm, k, ts, t, r, hm, e⟩)
      · exact .inr (.inr ⟨sp, nm, k, ts, t, r, hm, e⟩)
  · rintro ((⟨s, d, t, dir, hm, e⟩ | ⟨sp, nm, k, ts, t, r, hm, e⟩) | (⟨s, d, t, dir, hm, e⟩ | ⟨sp, nm, k, ts, t, r, hm, e⟩))
    · exact .inl ⟨s, d, t, dir, List.mem_append_left _ hm, e⟩
    · exact .inr ⟨sp, nm, k, ts, t, r, List.mem_append_left _ hm, e⟩
    · exact .inl ⟨s, d, t, dir, List.mem_append_right _ hm, e⟩
    · exact .inr ⟨sp, nm, k, ts, t, r, List.mem_append_right _ hm, e⟩

theorem used_edge (s d t : String) (dir : Bool) (l : String) : Used [.edge s d t dir] l ↔ l = strip t := by
  unfold Used
  simp only [List.mem_singleton, Op.edge.injEq, reduceCtorEq, false_and, exists_false, or_false]
  constructor
  · rintro ⟨_, _, _, _, ⟨-, -, rfl, -⟩, h⟩; exact h
  · intro h; exact ⟨s, d, t, dir, ⟨rfl, rfl, rfl, rfl⟩, h⟩

theorem used_node (sp nm : String) (k : Kind) (ts : List String) (l : String) :
    Used [.node sp nm k ts] l ↔ (k = .clique ∨ k = .biclique) ∧ ∃ t r, ts.filter (· ≠ "") = t :: r ∧ l = strip t := by
  unfold Used
  simp only [List.mem_singleton, reduceCtorEq, false_and, exists_false, false_or, Op.node.injEq]
  constructor
  · rintro ⟨_, _, _, _, t, r, ⟨-, -, rfl, rfl⟩, h, h', e⟩; exact ⟨h, t, r, h', e⟩
  · rintro ⟨h, t, r, h', e⟩; exact ⟨sp, nm, k, ts, t, r, ⟨rfl, rfl, rfl, rfl⟩, h, h', e⟩

theorem built_step {flat : Bool} {ops : List Op} {g g' : Graph} {op : Op} (hb : Built flat ops g) (h : g.step op = some g') :
    Built flat (ops ++ [op]) g' := by
  have nodesMono : ∀ x ∈ g.nodes, ∃ space label, Op.node space x.2.name x.2.kind label ∈ ops ++ [op] ∧
      x.1 = (if flat then "" else space) ∧ x.2.label = (label.filter (· ≠ "")).map strip ∧ x.2.title = if flat then space else "" := by
    intro x hx
    obtain ⟨sp, lb, hm, h⟩ := hb.nodes x hx
    exact ⟨sp, lb, List.mem_append_left _ hm, h⟩
  have edgesMono : ∀ e ∈ g.edges, (∃ l, Op.edge e.src.name e.dst.name l e.dir ∈ ops ++ [op] ∧ e.label = strip l) ∧
      IsKind (ops ++ [op]) e.src.name e.src.kind ∧ IsKind (ops ++ [op]) e.dst.name e.dst.kind := by
    intro e he
    obtain ⟨⟨l, hm, h⟩, h1, h2⟩ := hb.edges e he
    exact ⟨⟨l, List.mem_append_left _ hm, h⟩, h1.mono op, h2.mono op⟩
  cases op with
  | node space name kind label =>
    have parts : g'.flat = g.flat ∧ g'.edges = g.edges ∧
        g'.nodes = g.nodes ++ [(if g.flat then "" else space,
          ⟨name, kind, (label.filter (· ≠ "")).map strip, if g.flat then space else ""⟩)] ∧
        g'.labels.Nodup ∧ ∀ l, l ∈ g'.labels ↔ l ∈ g.labels ∨ Used [.node space name kind label] l := by
      simp only [Graph.step] at h
      split at h
      · rename_i hj
        split at h
        · exact absurd h (by simp)
        · rename_i l r hl
          simp only [Option.some.injEq] at h
          subst h
          refine ⟨rfl, rfl, rfl, nodup_sadd hb.nodup, ?_⟩
          intro x
          rw [mem_sadd, used_node]
          cases hf : label.filter (· ≠ "") with
          | nil => rw [hf] at hl; simp at hl
          | cons t r' =>
            rw [hf] at hl
            simp only [List.map_cons, List.cons.injEq] at hl
            constructor
            · rintro (rfl | hx)
              · exact .inr ⟨(joint_iff kind).1 hj, t, r', rfl, hl.1.symm⟩
              · exact .inl hx
            · rintro (hx | ⟨-, t', r'', e, rfl⟩)
              · exact .inr hx
              · simp only [List.cons.injEq] at e
                exact .inl (by rw [← e.1, hl.1])
      · rename_i hj
        simp only [Option.some.injEq] at h
        subst h
        refine ⟨rfl, rfl, rfl, hb.nodup, ?_⟩
        intro x
        rw [used_node, ← joint_iff]
        simp [hj]
    obtain ⟨p1, p2, p3, p4, p5⟩ := parts
    refine ⟨p1.trans hb.flat_eq, p4, ?_, ?_, ?_, ?_, ?_⟩
    · intro l; rw [p5, used_append, hb.labels]
    · intro x hx
      rw [p3] at hx
      rcases List.mem_append.1 hx with hx | hx
      · exact nodesMono x hx
      · rw [List.mem_singleton] at hx
        subst hx
        exact ⟨space, label, by simp, by rw [hb.flat_eq], rfl, by simp only [hb.flat_eq]⟩
    · intro e he; rw [p2] at he; exact edgesMono e he
    · intro s d l dir hm
      rcases List.mem_append.1 hm with hm | hm
      · rw [p2]; exact hb.all s d l dir hm
      · simp at hm
    · intro sp nm k lb hm
      rw [p3]
      rcases List.mem_append.1 hm with hm | hm
      · obtain ⟨x, hx, h⟩ := hb.allNodes sp nm k lb hm
        exact ⟨x, List.mem_append_left _ hx, h⟩
      · simp only [List.mem_singleton, Op.node.injEq] at hm
        obtain ⟨rfl, rfl, rfl, rfl⟩ := hm
        exact ⟨_, List.mem_append_right _ (List.mem_singleton.2 rfl), rfl, rfl, by rw [hb.flat_eq], rfl, by simp only [hb.flat_eq]⟩
  | edge src dst label dir =>
    simp only [Graph.step] at h
    cases hs : g.find src with
    | none => simp [hs] at h
    | some s =>
      cases hd : g.find dst with
      | none => simp [hs, hd] at h
      | some d =>
        simp only [hs, hd, Option.pure_def, Option.bind_eq_bind, Option.bind_some, Option.some.injEq] at h
        subst h
        obtain ⟨n1, x1, hx1, rfl⟩ := find_mem hs
        obtain ⟨n2, x2, hx2, rfl⟩ := find_mem hd
        refine ⟨hb.flat_eq, nodup_sadd hb.nodup, ?_, nodesMono, ?_, ?_, ?_⟩
        · intro l
          show l ∈ sadd (strip label) g.labels ↔ _
          rw [mem_sadd, used_append, hb.labels, used_edge]
          exact or_comm
        · intro e he
          rcases List.mem_append.1 he with he | he
          · exact edgesMono e he
          · rw [List.mem_singleton] at he
            subst he
            refine ⟨⟨label, by simp [n1, n2], rfl⟩, ?_, ?_⟩
            · obtain ⟨sp, lb, hm, _⟩ := nodesMono x1 hx1; exact ⟨sp, lb, hm⟩
            · obtain ⟨sp, lb, hm, _⟩ := nodesMono x2 hx2; exact ⟨sp, lb, hm⟩
        · intro s' d' l' dir' hm
          rcases List.mem_append.1 hm with hm | hm
          · obtain ⟨e, he, h⟩ := hb.all s' d' l' dir' hm
            exact ⟨e, List.mem_append_left _ he, h⟩
          · simp only [List.mem_singleton, Op.edge.injEq] at hm
            obtain ⟨rfl, rfl, rfl, rfl⟩ := hm
            exact ⟨_, List.mem_append_right _ (List.mem_singleton.2 rfl), n1, n2, rfl, rfl⟩
        · intro sp nm k lb hm
          rcases List.mem_append.1 hm with hm | hm
          · exact hb.allNodes sp nm k lb hm
          · simp at hm

/-- Cliques and bicliques have a label. -/
theorem nodes_label {flat : Bool} {ops : List Op} {g : Graph} (h : build flat ops = some g) :
    ∀ x ∈ g.nodes, x.2.kind.joint = true → x.2.label ≠ [] := by
  have key : ∀ (rest : List Op) (g0 g : Graph), (∀ x ∈ g0.nodes, x.2.kind.joint = true → x.2.label ≠ []) →
      rest.foldlM Graph.step g0 = some g → ∀ x ∈ g.nodes, x.2.kind.joint = true → x.2.label ≠ [] := by
    intro rest
    induction rest with
    | nil => intro g0 g hb h; simp at h; subst h; exact hb
    | cons op rest ih =>
      intro g0 g hb h
      rw [List.foldlM_cons] at h
      cases hs : g0.step op with
      | none => simp [hs] at h
      | some g1 =>
        simp only [hs, Option.bind_eq_bind, Option.bind_some] at h
        refine ih g1 g ?_ h
        intro x hx hj
        cases op with
        | node space name kind label =>
          simp only [Graph.step] at hs
          split at hs
          · split at hs
            · simp at hs
            · rename_i l r hl
              simp only [Option.some.injEq] at hs
              subst hs
              rcases List.mem_append.1 hx with hx | hx
              · exact hb x hx hj
              · rw [List.mem_singleton] at hx
                subst hx
                rw [hl]; simp
          · rename_i hk
            simp only [Option.some.injEq] at hs
            subst hs
            rcases List.mem_append.1 hx with hx | hx
            · exact hb x hx hj
            · rw [List.mem_singleton] at hx
              subst hx
              exact absurd hj hk
        | edge src dst label dir =>
          simp only [Graph.step, Option.pure_def, Option.bind_eq_bind] at hs
          obtain ⟨_, _, hs⟩ := Option.bind_eq_some_iff.1 hs
          obtain ⟨_, _, hs⟩ := Option.bind_eq_some_iff.1 hs
          simp only [Option.some.injEq] at hs
          subst hs
          exact hb x hx hj
  exact key ops _ g (by simp) h

theorem built {flat : Bool} {ops : List Op} {g : Graph} (h : build flat ops = some g) : Built flat ops g := by
  have key : ∀ (rest done : List Op) (g0 g : Graph), Built flat done g0 → rest.foldlM Graph.step g0 = some g → Built flat (done ++ rest) g := by
    intro rest
    induction rest with
    | nil => intro done g0 g hb h; simp at h; subst h; simpa using hb
    | cons op rest ih =>
      intro done g0 g hb h
      rw [List.foldlM_cons] at h
      cases hs : g0.step op with
      | none => simp [hs] at h
      | some g1 =>
        simp only [hs, Option.bind_eq_bind, Option.bind_some] at h
        have := ih (done ++ [op]) g1 g (built_step hb hs) h
        simpa using this
  have h0 : Built flat [] { flat := flat, nodes := [], edges := [], labels := [] } :=
    ⟨rfl, by simp, by simp [Used], by simp, by simp, by simp, by simp⟩
  simpa using key ops [] _ g h0 h

/-! ### What is drawn -/

theorem mapM_mem {α β : Type} {f : α → Option β} {l : List α} {r : List β} (h : l.mapM f = some r) :
    (∀ b ∈ r, ∃ a ∈ l, f a = some b) ∧ (∀ a ∈ l, ∃ b ∈ r, f a = some b) := by
  induction l generalizing r with
  | nil => simp at h; simp [h]
  | cons x l ih =>
    rw [List.mapM_cons] at h
    cases hx : f x with
    | none => simp [hx] at h
    | some y =>
      cases hl : l.mapM f with
      | none => simp [hx, hl] at h
      | some r' =>
        simp only [hx, hl, Option.pure_def, Option.bind_eq_bind, Option.bind_some, Option.some.injEq] at h
        subst h
        obtain ⟨h1, h2⟩ := ih hl
        constructor
        · intro b hb
          rcases List.mem_cons.1 hb with rfl | hb
          · exact ⟨x, List.mem_cons_self, hx⟩
          · obtain ⟨a, ha, e⟩ := h1 b hb; exact ⟨a, List.mem_cons_of_mem _ ha, e⟩
        · intro a ha
          rcases List.mem_cons.1 ha with rfl | ha
          · exact ⟨y, List.mem_cons_self, hx⟩
          · obtain ⟨b, hb, e⟩ := h2 a ha; exact ⟨b, List.mem_cons_of_mem _ hb, e⟩

theorem lookup_map (f : String → String) (l : List String) (x s : String) :
    (l.map fun y => (y, f y)).lookup x = some s ↔ x ∈ l ∧ s = f x := by
  induction l with
  | nil => simp
  | cons y l ih =>
    rw [List.map_cons, List.lookup_cons]
    by_cases h : x = y
    · subst h
      simp [eq_comm]
    · have : (x == y) = false := by simp [h]
      rw [this, ih]
      simp [h]

/-- A drawing with the graph it is of and the names of the labels. -/
theorem drawing_parts {flat : Bool} {ops : List Op} {d : Drawing} (h : drawing flat ops = some d) :
    ∃ g b f, Built flat ops g ∧ names g.labels = some (b, g.labels.map fun l => (l, f l)) ∧
      d.legend = (if b then some (rows (g.labels.map fun l => (l, f l))) else none) ∧
      (b = false → ∀ l, f l = l) ∧ (b = true → f = nameOf g.labels) ∧
      g.nodes.mapM (fun n => (drawNode (g.labels.map fun l => (l, f l)) n.2).map fun x => (cluster n.1, x)) = some d.boxes ∧
      g.edges.mapM (drawEdge (g.labels.map fun l => (l, f l))) = some d.arrows := by
  unfold drawing at h
  cases hg : build flat ops with
  | none => simp [hg] at h
  | some g =>
    simp only [hg, Option.bind_some] at h
    unfold Graph.draw at h
    cases hn : names g.labels with
    | none => simp [hn] at h
    | some nm =>
      obtain ⟨b, dict⟩ := nm
      simp only [hn, Option.pure_def, Option.bind_eq_bind, Option.bind_some] at h
      cases hb : g.nodes.mapM (fun n => (drawNode dict n.2).map fun x => (cluster n.1, x)) with
      | none => simp [hb] at h
      | some boxes =>
        cases he : g.edges.mapM (drawEdge dict) with
        | none => simp [hb, he] at h
        | some arrows =>
          simp only [hb, he, Option.bind_some, Option.some.injEq] at h
          subst h
          rcases names_cases hn with ⟨rfl, _, e⟩ | ⟨rfl, _, _, e, _⟩
          · subst e
            exact ⟨g, false, fun l => l, built hg, hn, rfl, fun _ _ => rfl, by simp, hb, he⟩
          · subst e
            exact ⟨g, true, nameOf g.labels, built hg, hn, rfl, by simp, fun _ => rfl, hb, he⟩

theorem stands {flat : Bool} {ops : List Op} {g : Graph} {d : Drawing} {f : String → String} (hb : Built flat ops g)
    (h1 : g.nodes.mapM (fun n => (drawNode (g.labels.map fun l => (l, f l)) n.2).map fun x => (cluster n.1, x)) = some d.boxes)
    (h2 : g.edges.mapM (drawEdge (g.labels.map fun l => (l, f l))) = some d.arrows) {t l : String} (h : Stands d t l) :
    l ∈ g.labels ∧ t = f l := by
  rcases h with ⟨a, ha, e⟩ | ⟨sp, nm, k, hm⟩
  · obtain ⟨x, hx, hd⟩ := (mapM_mem h2).1 a ha
    obtain ⟨tx, ht, rfl⟩ := Option.map_eq_some_iff.1 hd
    simp only at e
    subst e
    unfold edgeText at ht
    split at ht
    · simp at ht
    · obtain ⟨s, hs, e⟩ := Option.map_eq_some_iff.1 ht
      simp only [Option.some.injEq, Prod.mk.injEq] at e
      obtain ⟨rfl, rfl⟩ := e
      exact (lookup_map f _ _ _).1 hs
  · obtain ⟨x, hx, hd⟩ := (mapM_mem h1).1 _ hm
    obtain ⟨bx, hd, e⟩ := Option.map_eq_some_iff.1 hd
    simp only [Prod.mk.injEq] at e
    obtain ⟨-, rfl⟩ := e
    unfold drawNode at hd
    split at hd
    · split at hd
      · simp at hd
      · obtain ⟨s, hs, e⟩ := Option.map_eq_some_iff.1 hd
        simp only [Box.joint.injEq] at e
        obtain ⟨-, -, rfl, rfl⟩ := e
        exact (lookup_map f _ _ _).1 hs
    · simp at hd

theorem mem_rows (f : String → String) (ls : List String) (r : Row) :
    r ∈ rows (ls.map fun l => (l, f l)) ↔ ∃ l ∈ ls, r = ⟨f l, cut l, l⟩ := by
  unfold rows
  rw [List.mem_map]
  constructor
  · rintro ⟨x, hx, rfl⟩
    rw [(sortBy_perm lePair _).mem_iff, List.map_map, List.mem_map] at hx
    obtain ⟨l, hl, rfl⟩ := hx
    exact ⟨l, hl, rfl⟩
  · rintro ⟨l, hl, rfl⟩
    refine ⟨(f l, l), ?_, rfl⟩
    rw [(sortBy_perm lePair _).mem_iff, List.map_map, List.mem_map]
    exact ⟨l, hl, rfl⟩

/-! ### Theorems -/

/-- C69: every text on an arrow or a clique is in the legend beside the label it stands for, and in no
other row; and no other row is for that label. Without a legend the text is the label. PARTIAL: labels are
usual ones. -/
theorem C69_legend_partial (flat : Bool) (ops : List Op) (d : Drawing) (h : drawing flat ops = some d)
    (hu : ∀ l, Used ops l → Usual l) (t l : String) (hs : Stands d t l) :
    Used ops l ∧ (d.legend = none → t = l) ∧
    (∀ rs, d.legend = some rs → (∃ r ∈ rs, r.short = t ∧ r.tooltip = l) ∧ ∀ r ∈ rs, r.short = t ↔ r.tooltip = l) := by
  obtain ⟨g, b, f, hb, hn, hl, hf, ht, h1, h2⟩ := drawing_parts h
  obtain ⟨hm, rfl⟩ := stands hb h1 h2 hs
  refine ⟨(hb.labels l).1 hm, ?_, ?_⟩
  · intro e
    cases b with
    | false => exact hf rfl l
    | true => rw [hl] at e; simp at e
  · intro rs e
    rw [hl] at e
    cases b with
    | false => simp at e
    | true =>
      simp only [if_true, Option.some.injEq] at e
      subst e
      have hft := ht rfl
      refine ⟨⟨_, (mem_rows f _ _).2 ⟨l, hm, rfl⟩, rfl, rfl⟩, ?_⟩
      intro r hr
      obtain ⟨l', hl', rfl⟩ := (mem_rows f _ _).1 hr
      constructor
      · intro e
        simp only at e
        rw [hft] at e
        exact nameOf_inj (fun x hx => usual_firm (hu x ((hb.labels x).1 hx))) hl' hm e
      · intro e
        simp only at e
        subst e
        rfl

/-- C69: texts are the same for the same labels only. PARTIAL: labels are usual ones. -/
theorem C69_same_partial (flat : Bool) (ops : List Op) (d : Drawing) (h : drawing flat ops = some d)
    (hu : ∀ l, Used ops l → Usual l) (t l t' l' : String) (hs : Stands d t l) (hs' : Stands d t' l') : t = t' ↔ l = l' := by
  obtain ⟨g, b, f, hb, hn, hl, hf, ht, h1, h2⟩ := drawing_parts h
  obtain ⟨hm, rfl⟩ := stands hb h1 h2 hs
  obtain ⟨hm', rfl⟩ := stands hb h1 h2 hs'
  constructor
  · intro e
    cases b with
    | false => rwa [hf rfl, hf rfl] at e
    | true =>
      rw [ht rfl] at e
      exact nameOf_inj (fun x hx => usual_firm (hu x ((hb.labels x).1 hx))) hm hm' e
  · rintro rfl; rfl

/-- C69: the legend has one row for every label in use, in the order of the texts, and the label is cut only
if it has more than 32 characters. There is none only if at most one label is in use, of at most 11
characters. -/
theorem C69_rows (flat : Bool) (ops : List Op) (d : Drawing) (h : drawing flat ops = some d) :
    (∀ rs, d.legend = some rs → (∀ l, Used ops l ↔ ∃ r ∈ rs, r.tooltip = l) ∧ (rs.map (·.tooltip)).Nodup ∧
      (rs.map (·.short)).Pairwise (· ≤ ·) ∧
      ∀ r ∈ rs, (r.tooltip.length ≤ 32 → r.shown = r.tooltip) ∧
        (32 < r.tooltip.length → ∃ p, p.length = 30 ∧ p <+: r.tooltip.toList ∧ r.shown = String.ofList p ++ "...")) ∧
    (d.legend = none ↔ (∀ l, ¬ Used ops l) ∨ ∃ l, l.length ≤ 11 ∧ ∀ l', Used ops l' ↔ l' = l) := by
  obtain ⟨g, b, f, hb, hn, hl, hf, ht, h1, h2⟩ := drawing_parts h
  constructor
  · intro rs e
    rw [hl] at e
    cases b with
    | false => simp at e
    | true =>
      simp only [if_true, Option.some.injEq] at e
      subst e
      refine ⟨?_, ?_, ?_, ?_⟩
      · intro l
        constructor
        · intro hu
          exact ⟨_, (mem_rows f _ _).2 ⟨l, (hb.labels l).2 hu, rfl⟩, rfl⟩
        · rintro ⟨r, hr, rfl⟩
          obtain ⟨l', hl', rfl⟩ := (mem_rows f _ _).1 hr
          exact (hb.labels l').1 hl'
      · have : List.Perm ((rows (g.labels.map fun l => (l, f l))).map (·.tooltip)) g.labels := by
          unfold rows
          rw [List.map_map]
          refine ((sortBy_perm lePair _).map _).trans ?_
          rw [List.map_map, List.map_map]
          have e : (((fun r : Row => r.tooltip) ∘ fun r : String × String => (⟨r.1, cut r.2, r.2⟩ : Row)) ∘ fun d : String × String => (d.2, d.1)) ∘
              (fun l => (l, f l)) = id := rfl
          rw [e, List.map_id]
        exact this.nodup_iff.2 hb.nodup
      · unfold rows
        rw [List.map_map]
        rw [List.pairwise_map]
        refine (sortBy_sorted lePair lePair_total lePair_trans _).imp ?_
        intro x y hxy
        rcases (lePair_iff x y).1 hxy with h | ⟨h, _⟩
        · exact String.not_lt.1 fun h' => String.lt_irrefl _ (String.lt_trans h h')
        · show x.1 ≤ y.1
          rw [h]
          exact String.le_refl _
      · intro r hr
        obtain ⟨l', hl', rfl⟩ := (mem_rows f _ _).1 hr
        constructor
        · intro h
          show cut l' = l'
          unfold cut
          rw [if_neg (by simp only at h; omega)]
        · intro h
          simp only at h
          refine ⟨l'.toList.take 30, ?_, List.take_prefix _ _, ?_⟩
          · rw [List.length_take, String.length_toList]; omega
          · show cut l' = _
            unfold cut
            rw [if_pos h]
  · rw [hl]
    have hnone : (if b = true then some (rows (g.labels.map fun l => (l, f l))) else none) = none ↔ b = false := by
      cases b <;> simp
    rw [hnone]
    rcases names_cases hn with ⟨rfl, hc, _⟩ | ⟨rfl, hne, hno, _⟩
    · simp only [true_iff]
      rcases hc with hc | ⟨l, hc, hlen⟩
      · left; intro l hu
        have := (hb.labels l).2 hu
        rw [hc] at this; simp at this
      · right
        refine ⟨l, hlen, fun l' => ?_⟩
        rw [← hb.labels, hc, List.mem_singleton]
    · simp only [reduceCtorEq, false_iff]
      rintro (hc | ⟨l, hlen, hc⟩)
      · cases hg : g.labels with
        | nil => exact hne hg
        | cons x r => exact hc x ((hb.labels x).1 (by rw [hg]; simp))
      · refine hno ⟨l, ?_, hlen⟩
        have hmem : ∀ x, x ∈ g.labels ↔ x = l := fun x => (hb.labels x).trans (hc x)
        have hnd := hb.nodup
        cases hg : g.labels with
        | nil => exact absurd hg hne
        | cons x r =>
          rw [hg] at hmem hnd
          have hx : x = l := (hmem x).1 List.mem_cons_self
          cases r with
          | nil => rw [hx]
          | cons y r =>
            have hy : y = l := (hmem y).1 (by simp)
            rw [hx, hy] at hnd
            simp at hnd

/-- C69: the texts and the legend depend on which labels are in use, not on the order in which nodes and
edges are added nor on what else is drawn. -/
theorem C69_order (flat flat' : Bool) (ops ops' : List Op) (d d' : Drawing) (h : drawing flat ops = some d)
    (h' : drawing flat' ops' = some d') (hu : ∀ l, Used ops l ↔ Used ops' l) :
    d.legend = d'.legend ∧ ∀ t t' l, Stands d t l → Stands d' t' l → t = t' := by
  obtain ⟨g, b, f, hb, hn, hl, hf, ht, h1, h2⟩ := drawing_parts h
  obtain ⟨g', b', f', hb', hn', hl', hf', ht', h1', h2'⟩ := drawing_parts h'
  have hp : List.Perm g.labels g'.labels := (List.perm_ext_iff_of_nodup hb.nodup hb'.nodup).2 fun l => by rw [hb.labels, hb'.labels, hu]
  have hnone : d.legend = none ↔ d'.legend = none := by
    rw [(C69_rows flat ops d h).2, (C69_rows flat' ops' d' h').2]
    simp only [hu]
  have hbb : b = b' := by
    rw [hl, hl'] at hnone
    cases b <;> cases b' <;> simp_all
  subst hbb
  have hff : ∀ l, f l = f' l := by
    cases b with
    | false => intro l; rw [hf rfl, hf' rfl]
    | true =>
      intro l
      rw [ht rfl, ht' rfl]
      unfold nameOf
      rw [sortBy_eq leText leText_total leText_trans leText_anti (hp.filter _)]
  have hff : f = f' := funext hff
  subst hff
  constructor
  · rw [hl, hl']
    cases b with
    | false => rfl
    | true =>
      simp only [if_true, Option.some.injEq]
      unfold rows
      rw [sortBy_eq lePair lePair_total lePair_trans lePair_anti ((hp.map _).map _)]
  · intro t t' l hs hs'
    rw [(stands hb h1 h2 hs).2, (stands hb' h1' h2' hs').2]

/-- C69: every edge is drawn as an arrow, and every arrow is an edge. PARTIAL: nodes of one name are of one
kind. -/
theorem C69_arrows_partial (flat : Bool) (ops : List Op) (d : Drawing) (h : drawing flat ops = some d) (hk : OneKind ops) :
    (∀ s t l dir, Op.edge s t l dir ∈ ops → ∃ a ∈ d.arrows, ShowsEdge ops s t l dir a) ∧
    (∀ a ∈ d.arrows, ∃ s t l dir, Op.edge s t l dir ∈ ops ∧ ShowsEdge ops s t l dir a) := by
  obtain ⟨g, b, f, hb, hn, hl, hf, ht, h1, h2⟩ := drawing_parts h
  have key : ∀ e ∈ g.edges, ∀ a, drawEdge (g.labels.map fun l => (l, f l)) e = some a → ∀ l, e.label = strip l →
      ShowsEdge ops e.src.name e.dst.name l e.dir a := by
    intro e he a ha l hlab
    obtain ⟨-, k1, k2⟩ := hb.edges e he
    obtain ⟨tx, htx, rfl⟩ := Option.map_eq_some_iff.1 ha
    unfold edgeText at htx
    refine ⟨rfl, rfl, ⟨_, k1⟩, ⟨_, k2⟩, ?_⟩
    intro ks kd k1' k2'
    obtain rfl := hk _ _ _ k1 k1'
    obtain rfl := hk _ _ _ k2 k2'
    refine ⟨?_, ?_, ?_, ?_⟩
    · intro hc
      have hc' : e.clq = true := by simpa [Edge.clq] using hc
      rw [if_pos (by simp [hc'])] at htx
      simp only [Option.some.injEq] at htx
      simp [hc', htx.symm]
    · intro hc
      have hc' : e.biclq = true := by simpa [Edge.biclq] using hc
      rw [if_pos (by simp [hc'])] at htx
      simp only [Option.some.injEq] at htx
      simp [htx.symm]
    · intro c1 c2
      simp [Edge.clq, c1, c2]
    · intro c1 c2 c3 c4
      rw [if_neg (by simp [Edge.clq, Edge.biclq, c1, c2, c3, c4])] at htx
      obtain ⟨s, _, rfl⟩ := Option.map_eq_some_iff.1 htx
      exact ⟨s, by rw [hlab]⟩
  constructor
  · intro s t l dir hm
    obtain ⟨e, he, rfl, rfl, hlab, rfl⟩ := hb.all s t l dir hm
    obtain ⟨a, ha, hd⟩ := (mapM_mem h2).2 e he
    exact ⟨a, ha, key e he a hd l hlab⟩
  · intro a ha
    obtain ⟨e, he, hd⟩ := (mapM_mem h2).1 a ha
    obtain ⟨⟨l, hm, hlab⟩, -, -⟩ := hb.edges e he
    exact ⟨_, _, l, _, hm, key e he a hd l hlab⟩

/-- C69: every node is drawn, in the cluster of its namespace or, in a flat graph, with the namespace before
each line; a clique or biclique has its label as tooltip; and nothing else is drawn. -/
theorem C69_boxes (flat : Bool) (ops : List Op) (d : Drawing) (h : drawing flat ops = some d) :
    (∀ space name kind label, Op.node space name kind label ∈ ops → ∃ b, (cluster (if flat then "" else space), b) ∈ d.boxes ∧
      ShowsNode flat space name kind label b) ∧
    (∀ c b, (c, b) ∈ d.boxes → ∃ space name kind label, Op.node space name kind label ∈ ops ∧
      c = cluster (if flat then "" else space) ∧ ShowsNode flat space name kind label b) := by
  obtain ⟨g, b, f, hb, hn, hl, hf, ht, h1, h2⟩ := drawing_parts h
  have key : ∀ (n : Node) (bx : Box) (space : String) (label : List String), drawNode (g.labels.map fun l => (l, f l)) n = some bx →
      n.label = (label.filter (· ≠ "")).map strip → n.title = (if flat then space else "") →
      ShowsNode flat space n.name n.kind label bx := by
    intro n bx space label hd hlab htit
    unfold drawNode at hd
    split at hd
    · rename_i hj
      refine ⟨fun _ => ?_, fun h' => absurd ((joint_iff _).1 hj) h'⟩
      cases hfl : label.filter (· ≠ "") with
      | nil => rw [hlab, hfl] at hd; simp at hd
      | cons t r =>
        rw [hlab, hfl] at hd
        obtain ⟨s, _, rfl⟩ := Option.map_eq_some_iff.1 hd
        exact ⟨s, t, r, rfl, rfl⟩
    · rename_i hj
      refine ⟨fun h' => absurd ((joint_iff _).2 h') hj, fun _ => ?_⟩
      simp only [Option.some.injEq] at hd
      rw [← hd, hlab, htit]
      congr 1
      apply List.map_congr_left
      intro t _
      cases flat <;> simp
  constructor
  · intro space name kind label hm
    obtain ⟨x, hx, rfl, rfl, e1, e2, e3⟩ := hb.allNodes space name kind label hm
    obtain ⟨bx, hbx, hd⟩ := (mapM_mem h1).2 x hx
    obtain ⟨b', hd', rfl⟩ := Option.map_eq_some_iff.1 hd
    exact ⟨b', by rw [← e1]; exact hbx, key _ _ _ _ hd' e2 e3⟩
  · intro c bx hm
    obtain ⟨x, hx, hd⟩ := (mapM_mem h1).1 _ hm
    obtain ⟨b', hd', e⟩ := Option.map_eq_some_iff.1 hd
    simp only [Prod.mk.injEq] at e
    obtain ⟨rfl, rfl⟩ := e
    obtain ⟨space, label, hm, e1, e2, e3⟩ := hb.nodes x hx
    exact ⟨space, _, _, label, hm, by rw [e1], key _ _ _ _ hd' e2 e3⟩

/-- C69: a graph of usual labels is drawn: if ends of edges are added before and cliques have a label. -/
theorem C69_answers_partial (flat : Bool) (ops : List Op) (g : Graph) (h : build flat ops = some g)
    (hu : ∀ l, Used ops l → Usual l) : (drawing flat ops).isSome := by
  have hb := built h
  have hshort : ∀ l ∈ g.labels, (short l).isSome := by
    intro l hl
    obtain ⟨s, e, _⟩ := usual_short (hu l ((hb.labels l).1 hl))
    simp [e]
  have hn : ∃ (b : Bool) (f : String → String), names g.labels = some (b, g.labels.map fun l => (l, f l)) := by
    have : (names g.labels).isSome := by
      unfold names
      split
      · rfl
      · split
        · rfl
        · rw [mapM_shorts_some _ hshort]; rfl
    obtain ⟨⟨b, dict⟩, hn⟩ := Option.isSome_iff_exists.1 this
    rcases names_cases hn with ⟨_, _, e⟩ | ⟨_, _, _, e, _⟩
    · exact ⟨b, fun l => l, by rw [hn, e]⟩
    · exact ⟨b, nameOf g.labels, by rw [hn, e]⟩
  obtain ⟨b, f, hn⟩ := hn
  have mapSome : ∀ {α β : Type} (F : α → Option β) (l : List α), (∀ a ∈ l, (F a).isSome) → (l.mapM F).isSome := by
    intro α β F l hl
    induction l with
    | nil => rfl
    | cons x l ih =>
      rw [List.mapM_cons]
      obtain ⟨y, hy⟩ := Option.isSome_iff_exists.1 (hl x List.mem_cons_self)
      obtain ⟨r, hr⟩ := Option.isSome_iff_exists.1 (ih fun a ha => hl a (List.mem_cons_of_mem _ ha))
      simp [hy, hr]
  have look : ∀ l ∈ g.labels, ((g.labels.map fun l => (l, f l)).lookup l).isSome := by
    intro l hl
    rw [(lookup_map f g.labels l (f l)).2 ⟨hl, rfl⟩]; rfl
  have hnodes : (g.nodes.mapM (fun n => (drawNode (g.labels.map fun l => (l, f l)) n.2).map fun x => (cluster n.1, x))).isSome := by
    apply mapSome
    intro n hn
    rw [Option.isSome_map]
    obtain ⟨sp, lb, hm, -, e, -⟩ := hb.nodes n hn
    unfold drawNode
    split
    · rename_i hj
      cases hl : n.2.label with
      | nil =>
        exfalso
        have := nodes_label h n hn hj
        exact this hl
      | cons t r =>
        simp only [Option.isSome_map]
        apply look
        rw [hb.labels]
        cases hf : lb.filter (· ≠ "") with
        | nil => rw [hf, hl] at e; simp at e
        | cons t' r' =>
          rw [hf, hl] at e
          simp only [List.map_cons, List.cons.injEq] at e
          exact .inr ⟨sp, _, _, lb, t', r', hm, (joint_iff _).1 hj, hf, e.1⟩
    · rfl
  have hedges : (g.edges.mapM (drawEdge (g.labels.map fun l => (l, f l)))).isSome := by
    apply mapSome
    intro e he
    obtain ⟨⟨l, hm, hlab⟩, -, -⟩ := hb.edges e he
    have hin : e.label ∈ g.labels := (hb.labels _).2 (.inl ⟨_, _, l, _, hm, hlab⟩)
    obtain ⟨s, hs⟩ := Option.isSome_iff_exists.1 (look _ hin)
    unfold drawEdge edgeText
    rw [Option.isSome_map, hs]
    split <;> rfl
  obtain ⟨bx, hbx⟩ := Option.isSome_iff_exists.1 hnodes
  obtain ⟨ar, har⟩ := Option.isSome_iff_exists.1 hedges
  unfold drawing
  rw [h]
  simp [Graph.draw, hn, hbx, har]

/-- C69: namespaces without `_` have clusters of their own. -/
theorem C69_clusters (a b : String) (ha : '_' ∉ a.toList) (hb : '_' ∉ b.toList) (h : cluster a = cluster b) : a = b := by
  have pre : ∀ x y z : String, x ++ y ++ z = "" → x = "" := by
    intro x y z e
    have := congrArg String.toList e
    simp only [String.toList_append, String.toList_empty, List.append_eq_nil_iff] at this
    exact String.toList_inj.1 (by rw [this.1.1]; rfl)
  unfold cluster at h
  split at h
  · split at h
    · simp_all
    · exact absurd (pre _ _ _ h.symm) (by decide)
  · split at h
    · exact absurd (pre _ _ _ h) (by decide)
    · have h := congrArg String.toList h
      simp only [String.toList_append, String.toList_ofList] at h
      have h := List.append_cancel_left (List.append_cancel_right h)
      apply String.toList_inj.1
      revert ha hb h
      generalize a.toList = x
      generalize b.toList = y
      intro hx hy h
      induction x generalizing y with
      | nil => cases y with
        | nil => rfl
        | cons _ _ => simp at h
      | cons p x ih =>
        cases y with
        | nil => simp at h
        | cons q y =>
          simp only [List.map_cons, List.cons.injEq] at h
          simp only [List.mem_cons, not_or] at hx hy
          rw [ih y hx.2 hy.2 h.2]
          have h1 := h.1
          split at h1
          · split at h1
            · simp_all
            · exact absurd h1 hy.1
          · split at h1
            · exact absurd h1.symm hx.1
            · rw [h1]

/-! ### What a text says -/

/-- A label without braces. -/
def bare (l : String) : List Char := l.toList.filter fun c => !(c = '{') && !(c = '}')

/-- What follows a piece of a label. -/
def Ends (r : List Char) : Prop := r = [] ∨ ∃ r', r = ',' :: r'

theorem split_ends {a r : List Char} (ha : ',' ∉ a) (hr : Ends r) : ∃ rest, split ',' (a ++ r) = a :: rest := by
  rcases hr with rfl | ⟨r', rfl⟩
  · rw [List.append_nil, split_none ha]; exact ⟨[], rfl⟩
  · rw [split_append _ ha]; exact ⟨_, rfl⟩

theorem takeWhile_first {q r : List Char} {c : Char} (hq : c ∉ q) (hr : r = [] ∨ ∃ r', r = c :: r') :
    (q ++ r).takeWhile (fun x => !(x = c)) = q := by
  induction q with
  | nil =>
    rcases hr with rfl | ⟨r', rfl⟩
    · rfl
    · simp
  | cons x q ih =>
    simp only [List.mem_cons, not_or] at hq
    rw [List.cons_append, List.takeWhile_cons_of_pos (by simpa using fun e : x = c => hq.1 e.symm), ih hq.2]

/-- The port in a short name starts with the first port. -/
theorem trimPort_prefix {q r : List Char} (hq : '-' ∉ q) (hq' : ',' ∉ q) (hr : r = [] ∨ ∃ r', r = '-' :: r') (hr' : ',' ∉ r) :
    q <+: trimPort (q ++ r) := by
  unfold trimPort
  split
  · rw [split_none (c := ',') (t := q ++ r) (by simp [hq', hr']), List.headD_cons, split_head, takeWhile_first hq hr]
    exact List.prefix_rfl
  · exact List.prefix_append _ _

theorem nameOf_prefix (ls : List String) (l : String) : (sh l).toList <+: (nameOf ls l).toList := by
  unfold nameOf
  rw [String.toList_ofList]
  exact List.prefix_append _ _

theorem stands_prefix {flat : Bool} {ops : List Op} {d : Drawing} (h : drawing flat ops = some d) {t l : String} (hs : Stands d t l)
    (hl : d.legend ≠ none) : (sh l).toList <+: t.toList := by
  obtain ⟨g, b, f, hb, hn, hlg, hf, ht, h1, h2⟩ := drawing_parts h
  obtain ⟨_, rfl⟩ := stands hb h1 h2 hs
  cases b with
  | false => exact absurd (by rw [hlg]; rfl) hl
  | true => rw [ht rfl]; exact nameOf_prefix _ _

/-- C69: the text for a label of a protocol and ports starts with the protocol, in small letters, and the
first port. -/
theorem C69_protocol_port (flat : Bool) (ops : List Op) (d : Drawing) (h : drawing flat ops = some d) (t l : String)
    (hs : Stands d t l) (hl : d.legend ≠ none) (P q r rest : List Char)
    (e : bare l = "protocols:".toList ++ P ++ ',' :: ("dst_ports:".toList ++ (q ++ r) ++ rest)) (hrest : Ends rest)
    (hP : P ≠ [] ∧ ',' ∉ P ∧ ':' ∉ P) (hd : ¬ "dst_ports".toList <:+: "protocols:".toList ++ P)
    (hq : q ≠ [] ∧ ∀ c ∈ q, c.isDigit = true) (hr : r = [] ∨ ∃ r', r = '-' :: r' ∧ ∀ c ∈ r', c.isDigit = true) :
    P.map Char.toLower ++ q <+: t.toList := by
  have hdig : ∀ c ∈ q ++ r, c.isDigit = true ∨ c = '-' := by
    intro c hc
    rcases List.mem_append.1 hc with hc | hc
    · exact .inl (hq.2 c hc)
    · rcases hr with rfl | ⟨r', rfl, hr⟩
      · simp at hc
      · rcases List.mem_cons.1 hc with rfl | hc
        · exact .inr rfl
        · exact .inl (hr c hc)
  have no : ∀ x : Char, x.isDigit = false → x ≠ '-' → x ∉ q ++ r := by
    intro x h1 h2 hm
    rcases hdig x hm with h | h
    · rw [h1] at h; exact absurd h (by decide)
    · exact h2 h
  have nodash : '-' ∉ q := fun hm => absurd (hq.2 _ hm) (by decide)
  have c1 : ',' ∉ "protocols:".toList ++ P := by
    intro hm
    rcases List.mem_append.1 hm with hm | hm
    · exact absurd hm (by decide)
    · exact hP.2.1 hm
  have c2 : ',' ∉ "dst_ports:".toList ++ (q ++ r) := by
    intro hm
    rcases List.mem_append.1 hm with hm | hm
    · exact absurd hm (by decide)
    · exact no ',' (by decide) (by decide) hm
  obtain ⟨more, hmore⟩ := split_ends c2 hrest
  have hitems : items l = ("protocols:".toList ++ P) :: ("dst_ports:".toList ++ (q ++ r)) :: more := by
    unfold items
    rw [show (l.toList.filter fun c => !(c = '{') && !(c = '}')) = bare l from rfl, e, split_append _ c1, hmore]
  have hv1 : valByKey (items l) "protocols".toList = some P := by
    rw [hitems]
    unfold valByKey
    rw [List.find?_cons_of_pos (by rw [has_iff]; exact ⟨[], ':' :: P, by simp⟩)]
    simp only
    rw [show "protocols:".toList ++ P = "protocols".toList ++ ':' :: P by simp, split_append _ (by decide), split_none hP.2.2]
    rfl
  have hv2 : valByKey (items l) "dst_ports".toList = some (q ++ r) := by
    rw [hitems]
    unfold valByKey
    rw [List.find?_cons_of_neg (by rw [has_iff]; exact hd),
      List.find?_cons_of_pos (by rw [has_iff]; exact ⟨[], ':' :: (q ++ r), by simp⟩)]
    simp only
    rw [show "dst_ports:".toList ++ (q ++ r) = "dst_ports".toList ++ ':' :: (q ++ r) by simp, split_append _ (by decide),
      split_none (no ':' (by decide) (by decide))]
    rfl
  have hnall : l ≠ "All" := by
    rintro rfl
    have : bare "All" = "All".toList := by decide
    rw [this] at e
    simp at e
  have hpre : q <+: trimPort (q ++ r) := by
    apply trimPort_prefix nodash
    · exact fun hm => no ',' (by decide) (by decide) (List.mem_append_left _ hm)
    · rcases hr with h | ⟨r', h, _⟩
      · exact .inl h
      · exact .inr ⟨r', h⟩
    · exact fun hm => no ',' (by decide) (by decide) (List.mem_append_right _ hm)
  have hne : trimPort (q ++ r) ≠ [] := by
    intro h0
    rw [h0] at hpre
    exact hq.1 (List.prefix_nil.1 hpre)
  have hsh : sh l = String.ofList (P.map Char.toLower ++ trimPort (q ++ r)) := by
    unfold sh short
    simp only [hv1, hv2, Option.pure_def, Option.bind_eq_bind, Option.bind_some, Option.getD_some]
    rw [if_neg hnall, if_neg hne, if_neg hP.1]
  have := stands_prefix h hs hl
  rw [hsh, String.toList_ofList] at this
  exact (List.prefix_append_right_inj _ |>.2 hpre).trans this

/-- C69: the text for a label of ports only starts with `tcp` and the first port. -/
theorem C69_port (flat : Bool) (ops : List Op) (d : Drawing) (h : drawing flat ops = some d) (t l : String)
    (hs : Stands d t l) (hl : d.legend ≠ none) (q r rest : List Char)
    (e : bare l = "dst_ports:".toList ++ (q ++ r) ++ rest) (hrest : Ends rest)
    (hd : ∀ item ∈ items l, ¬ "protocols".toList <:+: item)
    (hq : q ≠ [] ∧ ∀ c ∈ q, c.isDigit = true) (hr : r = [] ∨ ∃ r', r = '-' :: r' ∧ ∀ c ∈ r', c.isDigit = true) :
    "tcp".toList ++ q <+: t.toList := by
  have hdig : ∀ c ∈ q ++ r, c.isDigit = true ∨ c = '-' := by
    intro c hc
    rcases List.mem_append.1 hc with hc | hc
    · exact .inl (hq.2 c hc)
    · rcases hr with rfl | ⟨r', rfl, hr⟩
      · simp at hc
      · rcases List.mem_cons.1 hc with rfl | hc
        · exact .inr rfl
        · exact .inl (hr c hc)
  have no : ∀ x : Char, x.isDigit = false → x ≠ '-' → x ∉ q ++ r := by
    intro x h1 h2 hm
    rcases hdig x hm with h | h
    · rw [h1] at h; exact absurd h (by decide)
    · exact h2 h
  have nodash : '-' ∉ q := fun hm => absurd (hq.2 _ hm) (by decide)
  have c2 : ',' ∉ "dst_ports:".toList ++ (q ++ r) := by
    intro hm
    rcases List.mem_append.1 hm with hm | hm
    · exact absurd hm (by decide)
    · exact no ',' (by decide) (by decide) hm
  obtain ⟨more, hmore⟩ := split_ends c2 hrest
  have hitems : items l = ("dst_ports:".toList ++ (q ++ r)) :: more := by
    unfold items
    rw [show (l.toList.filter fun c => !(c = '{') && !(c = '}')) = bare l from rfl, e, hmore]
  have hv1 : valByKey (items l) "protocols".toList = some [] := by
    unfold valByKey
    rw [List.find?_eq_none.2 (fun x hx => by rw [has_iff]; exact hd x hx)]
  have hv2 : valByKey (items l) "dst_ports".toList = some (q ++ r) := by
    rw [hitems]
    unfold valByKey
    rw [List.find?_cons_of_pos (by rw [has_iff]; exact ⟨[], ':' :: (q ++ r), by simp⟩)]
    simp only
    rw [show "dst_ports:".toList ++ (q ++ r) = "dst_ports".toList ++ ':' :: (q ++ r) by simp, split_append _ (by decide),
      split_none (no ':' (by decide) (by decide))]
    rfl
  have hnall : l ≠ "All" := by
    rintro rfl
    have : bare "All" = "All".toList := by decide
    rw [this] at e
    simp at e
  have hpre : q <+: trimPort (q ++ r) := by
    apply trimPort_prefix nodash
    · exact fun hm => no ',' (by decide) (by decide) (List.mem_append_left _ hm)
    · rcases hr with h | ⟨r', h, _⟩
      · exact .inl h
      · exact .inr ⟨r', h⟩
    · exact fun hm => no ',' (by decide) (by decide) (List.mem_append_right _ hm)
  have hne : trimPort (q ++ r) ≠ [] := by
    intro h0
    rw [h0] at hpre
    exact hq.1 (List.prefix_nil.1 hpre)
  have hsh : sh l = String.ofList ("TCP".toList.map Char.toLower ++ trimPort (q ++ r)) := by
    unfold sh short
    simp only [hv1, hv2, Option.pure_def, Option.bind_eq_bind, Option.bind_some, Option.getD_some]
    rw [if_neg hnall, if_neg hne, if_pos trivial]
  have := stands_prefix h hs hl
  rw [hsh, String.toList_ofList, show "TCP".toList.map Char.toLower = "tcp".toList by decide] at this
  exact (List.prefix_append_right_inj _ |>.2 hpre).trans this

/-! ### Texts of labels -/

theorem drop_blank (f : Char → Bool) (l : List Char) :
    ∃ a, l = a ++ l.dropWhile f ∧ (∀ c ∈ a, f c = true) ∧ ∀ c, (l.dropWhile f).head? = some c → f c = false := by
  induction l with
  | nil => exact ⟨[], rfl, by simp, by simp⟩
  | cons x l ih =>
    obtain ⟨a, h1, h2, h3⟩ := ih
    by_cases hx : f x = true
    · rw [List.dropWhile_cons_of_pos hx]
      refine ⟨x :: a, by rw [List.cons_append, ← h1], ?_, h3⟩
      intro c hc
      rcases List.mem_cons.1 hc with rfl | hc
      · exact hx
      · exact h2 c hc
    · rw [List.dropWhile_cons_of_neg hx]
      exact ⟨[], rfl, by simp, by intro c hc; simp at hc; subst hc; simpa using hx⟩

/-- A blank: space, tab or end of line. -/
def Blank (c : Char) : Prop := c = ' ' ∨ c = '\t' ∨ c = '\n' ∨ c = '\r'

theorem isBlank_iff (c : Char) : isBlank c = true ↔ Blank c := by
  simp [isBlank, Blank, or_assoc]

/-- C69: labels are taken without the blanks at both ends, and otherwise unchanged. -/
theorem C69_strip (s : String) :
    (∃ a b, s.toList = a ++ (strip s).toList ++ b ∧ (∀ c ∈ a, Blank c) ∧ ∀ c ∈ b, Blank c) ∧
      ∀ c, (strip s).toList.head? = some c ∨ (strip s).toList.getLast? = some c → ¬ Blank c := by
  obtain ⟨a, h1, h2, h3⟩ := drop_blank isBlank s.toList
  obtain ⟨b, g1, g2, g3⟩ := drop_blank isBlank (s.toList.dropWhile isBlank).reverse
  have hl : (strip s).toList = ((s.toList.dropWhile isBlank).reverse.dropWhile isBlank).reverse := by simp [strip]
  have hm : s.toList.dropWhile isBlank = (strip s).toList ++ b.reverse := by
    rw [hl, ← List.reverse_append, ← g1, List.reverse_reverse]
  refine ⟨⟨a, b.reverse, ?_, fun c hc => (isBlank_iff c).1 (h2 c hc), fun c hc => (isBlank_iff c).1 (g2 c (List.mem_reverse.1 hc))⟩, ?_⟩
  · rw [List.append_assoc, ← hm]; exact h1
  · intro c hc hb
    have hb := (isBlank_iff c).2 hb
    rcases hc with hc | hc
    · have := h3 c (by rw [hm, List.head?_append, hc]; rfl)
      rw [this] at hb; simp at hb
    · rw [hl, List.getLast?_reverse] at hc
      rw [g3 c hc] at hb; simp at hb

end Verif.Legend
