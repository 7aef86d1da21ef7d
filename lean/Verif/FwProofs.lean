import Verif.FwModel
import Verif.PropsLabels
import Verif.QueryProofs2
import Mathlib.Tactic.ByContra
/-!
Firewall rules: what they say, the laws they rely on, and the proofs of the groupings.
-/
namespace Verif.Fw

section
variable {C P E S ν : Type}

/-! ### Specification -/

/-- The endpoints an element of a rule stands for. -/
def Elem.has (Q : PAlg E S) (I : Cluster E ν) (e : E) : Elem E S ν → Prop
  | .nss l => e ∈ I.all ∧ I.ns e ∈ l
  | .labels m key vals => e ∈ I.all ∧ I.ns e = m ∧ HasOne I e (key, vals)
  | .pods l => e ∈ l
  | .block s => Q.mem e s = true

/-- The connections a rule allows. -/
def FwRule.allows (N : Net C P E S) (I : Cluster E ν) (p : P) (r : FwRule C E S ν) : Prop :=
  r.src.has N.Q I (N.src p) ∧ r.dst.has N.Q I (N.dst p) ∧ N.K.mem p r.props = true

/-! ### Laws -/

/-- The set depends on the endpoints only. -/
def PeerOnly (N : Net C P E S) (c : C) : Prop :=
  ∀ p q, N.src p = N.src q → N.dst p = N.dst q → N.K.mem p c = N.K.mem q c

/-- A peer that is no address. -/
def Known (N : FwNet C P E S) (e : E) : Prop := ∃ s, e ∈ N.members s

/-- Laws of an `FwNet`. -/
structure FwNet.Laws (N : FwNet C P E S) (Ok Strong Wide : C → Prop) : Prop where
  q : N.toNetQ.Lawful Ok Strong Wide
  members_iff : ∀ s e, e ∈ N.members s ↔ N.Q.mem e s = true ∧ N.kind e ≠ .ip
  ips_iff : ∀ s e, N.Q.mem e (N.ips s) = true ↔ N.Q.mem e s = true ∧ N.kind e = .ip
  ofList_iff : ∀ l e, (∀ x ∈ l, Known N x) → (N.Q.mem e (N.ofList l) = true ↔ e ∈ l)
  /-- The cubes of a set of pairs of peers, not all of them, are these pairs, in any order of the dimensions. -/
  cubes_iff : ∀ {c} b, Ok c → PeerOnly N.toNet c → (∃ q, N.K.mem q c = false) → ∀ p, N.K.mem p c = true ↔
    ∃ sd ∈ N.cubes b c, N.Q.mem (N.src p) sd.1 = true ∧ N.Q.mem (N.dst p) sd.2 = true
  /-- No cube is empty: its peers are endpoints of connections in it. -/
  cubes_src : ∀ {c b sd e}, Ok c → (∃ q, N.K.mem q c = false) → sd ∈ N.cubes b c → N.Q.mem e sd.1 = true →
    ∃ p, N.src p = e ∧ N.Q.mem (N.dst p) sd.2 = true
  cubes_dst : ∀ {c b sd e}, Ok c → (∃ q, N.K.mem q c = false) → sd ∈ N.cubes b c → N.Q.mem e sd.2 = true →
    ∃ p, N.dst p = e ∧ N.Q.mem (N.src p) sd.1 = true
  split_ok : ∀ {c r e}, Ok c → e ∈ N.split r c → Ok e.1 ∧ Ok e.2 ∧ PeerOnly N.toNet e.1 ∧ ∃ p, N.K.mem p e.1 = true
  split_back : ∀ {c r e p}, Ok c → e ∈ N.split r c → N.K.mem p e.1 = true →
    ∃ q, N.src q = N.src p ∧ N.dst q = N.dst p ∧ N.K.mem q c = true
  /-- The parts make up the set, as far as the relevant protocols go. -/
  split_iff : ∀ {c r p}, Ok c → r.sel (N.isTcp p) = true →
    (N.K.mem p c = true ↔ ∃ e ∈ N.split r c, N.K.mem p e.1 = true ∧ N.K.mem p e.2 = true)
  srcs_exact : ∀ {c e}, Ok c → N.K.truthy c = true → N.Q.mem e (N.srcs c) = true → ∃ p, N.src p = e ∧ N.K.mem p c = true
  dsts_exact : ∀ {c e}, Ok c → N.K.truthy c = true → N.Q.mem e (N.dsts c) = true → ∃ p, N.dst p = e ∧ N.K.mem p c = true

/-! ### Dictionaries -/

theorem dictAdd_inv {κ υ : Type} {eq : κ → κ → Bool} {upd : υ → υ → υ} {init : υ} {k : κ} {v : υ} {R : κ → υ → Prop} :
    ∀ {d : List (κ × υ)}, (∀ e ∈ d, R e.1 e.2) → R k (upd init v) →
      (∀ e ∈ d, eq e.1 k = true → R e.1 (upd e.2 v)) → ∀ e ∈ dictAdd eq upd init k v d, R e.1 e.2
  | [], _, h2, _ => by
    intro e he
    simp only [dictAdd, List.mem_singleton] at he
    rw [he]
    exact h2
  | (k', v') :: d, h1, h2, h3 => by
    intro e he
    unfold dictAdd at he
    split at he
    · rename_i hk
      rcases List.mem_cons.1 he with rfl | he
      · exact h3 (k', v') List.mem_cons_self hk
      · exact h1 e (List.mem_cons_of_mem _ he)
    · rcases List.mem_cons.1 he with rfl | he
      · exact h1 _ List.mem_cons_self
      · exact dictAdd_inv (fun e he => h1 e (List.mem_cons_of_mem _ he)) h2
          (fun e he => h3 e (List.mem_cons_of_mem _ he)) e he

theorem dictAdd_keep {κ υ : Type} {eq : κ → κ → Bool} {upd : υ → υ → υ} {init : υ} {k : κ} {v : υ} {e : κ × υ} :
    ∀ {d : List (κ × υ)}, e ∈ d → ∃ e' ∈ dictAdd eq upd init k v d, e'.1 = e.1 ∧ (e'.2 = e.2 ∨ e'.2 = upd e.2 v)
  | [], h => absurd h (by simp)
  | (k', v') :: d, h => by
    unfold dictAdd
    split
    · rcases List.mem_cons.1 h with rfl | h
      · exact ⟨_, List.mem_cons_self, rfl, .inr rfl⟩
      · exact ⟨e, List.mem_cons_of_mem _ h, rfl, .inl rfl⟩
    · rcases List.mem_cons.1 h with rfl | h
      · exact ⟨_, List.mem_cons_self, rfl, .inl rfl⟩
      · obtain ⟨e', h1, h2⟩ := dictAdd_keep (eq := eq) (upd := upd) (init := init) (k := k) (v := v) h
        exact ⟨e', List.mem_cons_of_mem _ h1, h2⟩

theorem dictAdd_new {κ υ : Type} {eq : κ → κ → Bool} {upd : υ → υ → υ} {init : υ} {k : κ} {v : υ} :
    ∀ {d : List (κ × υ)}, ∃ e' ∈ dictAdd eq upd init k v d,
      (e'.1 = k ∧ e'.2 = upd init v) ∨ (eq e'.1 k = true ∧ ∃ e ∈ d, e.1 = e'.1 ∧ e'.2 = upd e.2 v)
  | [] => ⟨(k, upd init v), by simp [dictAdd], .inl ⟨rfl, rfl⟩⟩
  | (k', v') :: d => by
    unfold dictAdd
    split
    · rename_i hk
      exact ⟨_, List.mem_cons_self, .inr ⟨hk, (k', v'), List.mem_cons_self, rfl, rfl⟩⟩
    · obtain ⟨e', h1, h2⟩ := dictAdd_new (eq := eq) (upd := upd) (init := init) (k := k) (v := v) (d := d)
      refine ⟨e', List.mem_cons_of_mem _ h1, h2.imp id ?_⟩
      rintro ⟨h3, e, h4, h5⟩
      exact ⟨h3, e, List.mem_cons_of_mem _ h4, h5⟩

/-! ### Grouping of pairs -/

theorem groupPairs_spec {α : Type} [DecidableEq α] (pairs : List (α × α)) (a b : α) :
    (∃ g ∈ groupPairs pairs, a ∈ g.2 ∧ b ∈ g.1) ↔ (a, b) ∈ pairs := by
  have hrow : ∀ a b, b ∈ (pairs.filter (fun e => e.1 = a)).map (·.2) ↔ (a, b) ∈ pairs := by
    intro a b
    rw [List.mem_map]
    constructor
    · rintro ⟨⟨x, y⟩, h, rfl⟩
      rw [List.mem_filter, decide_eq_true_eq] at h
      obtain ⟨h, rfl⟩ := h
      exact h
    · intro h
      exact ⟨(a, b), List.mem_filter.2 ⟨h, by simp⟩, rfl⟩
  have key : ∀ (l : List α) (d : List (List α × List α)),
      (∀ g ∈ d, ∀ a ∈ g.2, ∀ b, b ∈ g.1 ↔ (a, b) ∈ pairs) →
      let r := l.foldl (fun d a => dictAdd sameSet (fun acc x => acc ++ x) [] ((pairs.filter (fun e => e.1 = a)).map (·.2)) [a] d) d
      (∀ g ∈ r, ∀ a ∈ g.2, ∀ b, b ∈ g.1 ↔ (a, b) ∈ pairs) ∧ (∀ a, (a ∈ l ∨ ∃ g ∈ d, a ∈ g.2) → ∃ g ∈ r, a ∈ g.2) := by
    intro l
    induction l with
    | nil => intro d h; exact ⟨h, by simp⟩
    | cons x l ih =>
      intro d h
      rw [List.foldl_cons]
      obtain ⟨h1, h2⟩ := ih (dictAdd sameSet (fun acc x => acc ++ x) [] ((pairs.filter (fun e => e.1 = x)).map (·.2)) [x] d) (by
        refine dictAdd_inv (R := fun k v => ∀ a ∈ v, ∀ b, b ∈ k ↔ (a, b) ∈ pairs) h ?_ ?_
        · intro a ha b
          simp only [List.nil_append, List.mem_singleton] at ha
          rw [ha]
          exact hrow x b
        · intro e he heq a ha b
          rcases List.mem_append.1 ha with ha | ha
          · exact h e he a ha b
          · rw [List.mem_singleton.1 ha, sameSet_iff.1 heq b]
            exact hrow x b)
      refine ⟨h1, fun a ha => h2 a ?_⟩
      rcases ha with ha | ⟨g, hg, ha⟩
      · rcases List.mem_cons.1 ha with rfl | ha
        · right
          obtain ⟨e', he', h3⟩ := dictAdd_new (eq := sameSet) (upd := fun acc x => acc ++ x) (init := [])
            (k := (pairs.filter (fun e => e.1 = a)).map (·.2)) (v := [a]) (d := d)
          refine ⟨e', he', ?_⟩
          rcases h3 with ⟨-, h3⟩ | ⟨-, e, -, -, h3⟩ <;> rw [h3] <;> simp
        · exact .inl ha
      · right
        obtain ⟨e', he', -, h3⟩ := dictAdd_keep (eq := sameSet) (upd := fun acc x => acc ++ x) (init := [])
          (k := (pairs.filter (fun e => e.1 = x)).map (·.2)) (v := [x]) hg
        refine ⟨e', he', ?_⟩
        rcases h3 with h3 | h3 <;> rw [h3]
        · exact ha
        · exact List.mem_append.2 (.inl ha)
  obtain ⟨h1, h2⟩ := key (pairs.map (·.1)).dedup [] (by simp)
  constructor
  · rintro ⟨g, hg, ha, hb⟩
    exact (h1 g hg a ha b).1 hb
  · intro h
    obtain ⟨g, hg, ha⟩ := h2 a (.inl (List.mem_dedup.2 (List.mem_map.2 ⟨(a, b), h, rfl⟩)))
    exact ⟨g, hg, ha, (h1 g hg a ha b).2 h⟩

variable [DecidableEq E] [DecidableEq ν]

/-! ### Base elements -/

/-- The endpoints of a base element. -/
def Base.has (Q : PAlg E S) (I : Cluster E ν) (e : E) : Base S ν → Prop
  | .nss l => e ∈ I.all ∧ I.ns e ∈ l
  | .peers s => Q.mem e s = true

/-- What is assumed of the options: sorting is sorting, the order of iteration is that of a set. -/
structure FwCfg.Fair (cfg : FwCfg E) : Prop where
  sort : ∀ l, ∀ o ∈ cfg.sort l, o ∈ l
  ord : ∀ {α : Type} (l : List α) x, x ∈ cfg.ord l ↔ x ∈ l

omit [DecidableEq E] [DecidableEq ν] in
theorem isEp_iff {k : PeerKind} : k.isEp = true ↔ k ≠ .ip ∧ k ≠ .dns := by cases k <;> simp [PeerKind.isEp]

theorem labelElems_has {Q : PAlg E S} {I : Cluster E ν} {cfg : FwCfg E} (F : cfg.Fair) (hk : ∀ key ∈ I.allowed, key ≠ [])
    {pods : List E} (hp : ∀ p ∈ pods, p ∈ I.all) (e : E) :
    (∃ el ∈ (labelElems I cfg pods : List (Elem E S ν)), el.has Q I e) ↔ e ∈ pods := by
  obtain ⟨h1, h2, h3, -⟩ := C38_grouping_main I hk cfg.single cfg.sort F.sort pods []
  unfold labelElems
  dsimp only
  generalize I.groupMain cfg.single cfg.sort pods [] = r at h1 h2 h3
  constructor
  · rintro ⟨el, hel, h⟩
    rcases List.mem_append.1 hel with hel | hel
    · obtain ⟨g, hg, rfl⟩ := List.mem_map.1 hel
      obtain ⟨ha, hm, ho⟩ := h
      simpa using h3 g hg e ha hm ho
    · split at hel
      · simp at hel
      · rw [List.mem_singleton.1 hel] at h
        exact h2 e h
  · intro he
    rcases h1 e (hp e he) he with h | ⟨g, hg, hm, ho⟩
    · refine ⟨.pods r.2, List.mem_append.2 (.inr ?_), h⟩
      rw [if_neg (by intro hn; rw [List.isEmpty_iff.1 hn] at h; simp at h)]
      simp
    · exact ⟨.labels g.2.2 g.1 g.2.1, List.mem_append.2 (.inl (List.mem_map.2 ⟨g, hg, rfl⟩)), hp e he, hm, ho⟩

theorem podElems_has {Q : PAlg E S} {I : Cluster E ν} {cfg : FwCfg E} (F : cfg.Fair) (hk : ∀ key ∈ I.allowed, key ≠ [])
    (e : E) : ∀ (n : Nat) (pods : List E), pods.length ≤ n → (∀ p ∈ pods, p ∈ I.all) →
    ((∃ el ∈ (podElems I cfg n pods : List (Elem E S ν)), el.has Q I e) ↔ e ∈ pods)
  | 0, pods, hn, _ => by
    have : pods = [] := List.length_eq_zero_iff.1 (Nat.le_zero.1 hn)
    subst this
    simp [podElems]
  | n + 1, [], _, _ => by simp [podElems]
  | n + 1, p :: ps, hn, hp => by
    have hhere : ∀ q, q ∈ (p :: ps).filter (I.nsPods (I.ns p)).contains ↔ q ∈ p :: ps ∧ I.ns q = I.ns p := by
      intro q
      rw [List.mem_filter, List.contains_iff_mem, mem_nsPods]
      exact and_congr_right fun h => ⟨fun h' => h'.2, fun h' => ⟨hp q h, h'⟩⟩
    have hrest : ∀ q, q ∈ (p :: ps).filter (fun q => !((p :: ps).filter (I.nsPods (I.ns p)).contains).contains q) ↔
        q ∈ p :: ps ∧ ¬ I.ns q = I.ns p := by
      intro q
      rw [mem_filter_not, hhere]
      tauto
    have hlen : ((p :: ps).filter (fun q => !((p :: ps).filter (I.nsPods (I.ns p)).contains).contains q)).length ≤ n := by
      rw [List.filter_cons_of_neg]
      · exact Nat.le_trans (List.length_filter_le _ _) (Nat.le_of_succ_le_succ hn)
      · rw [Bool.not_eq_true', ← Bool.not_eq_true, List.contains_iff_mem, hhere]
        simp
    have ih := podElems_has (Q := Q) F hk e n _ hlen (fun q hq => hp q ((hrest q).1 hq).1)
    have ll := labelElems_has (S := S) (Q := Q) (cfg := cfg) F hk (pods := (p :: ps).filter (I.nsPods (I.ns p)).contains)
      (fun q hq => hp q ((hhere q).1 hq).1) e
    rw [hhere] at ll
    rw [hrest] at ih
    unfold podElems
    dsimp only
    simp only [List.mem_append, or_and_right, exists_or, ll, ih]
    tauto

variable {N : FwNet C P E S} {Ok Strong Wide : C → Prop} {I : Cluster E ν} {cfg : FwCfg E}

/-- The workloads of a base element are in the cluster. -/
def Base.Good (N : FwNet C P E S) (I : Cluster E ν) (b : Base S ν) : Prop :=
  ∀ e, b.has N.Q I e → (N.kind e).isEp = true → e ∈ I.all

theorem baseElems_has (L : N.Laws Ok Strong Wide) (F : cfg.Fair) (hk : ∀ key ∈ I.allowed, key ≠ []) {b : Base S ν}
    (hb : b.Good N I) (e : E) : (∃ el ∈ baseElems N I cfg b, el.has N.Q I e) ↔ b.has N.Q I e := by
  cases b with
  | nss l => simp [baseElems, Elem.has, Base.has]
  | peers s =>
    unfold baseElems
    dsimp only
    have hm : ∀ q, q ∈ (N.members s).filter (fun e => (N.kind e).isEp) ↔ N.Q.mem q s = true ∧ (N.kind q).isEp = true := by
      intro q
      rw [List.mem_filter, L.members_iff]
      refine ⟨fun h => ⟨h.1.1, h.2⟩, fun h => ⟨⟨h.1, (isEp_iff.1 h.2).1⟩, h.2⟩⟩
    have hkn : ∀ x ∈ (N.members s).filter (fun e => (N.kind e).isEp), Known N x := fun x hx => ⟨s, (List.mem_filter.1 hx).1⟩
    generalize hpods : (N.members s).filter (fun e => (N.kind e).isEp) = pods at hm hkn
    have h1 := podElems_has (S := S) (Q := N.Q) (I := I) (cfg := cfg) F hk e pods.length pods (Nat.le_refl _)
      (fun q hq => hb q ((hm q).1 hq).1 ((hm q).1 hq).2)
    have h2 : (∃ el ∈ (N.elems (N.Q.sub s (N.ofList pods))).map (Elem.block (E := E) (ν := ν)), el.has N.Q I e) ↔
        N.Q.mem e s = true ∧ e ∉ pods := by
      rw [← L.ofList_iff pods e hkn, Bool.not_eq_true, ← Bool.not_eq_true', ← Bool.and_eq_true, ← N.Q.mem_sub, L.q.elems_mem]
      constructor
      · rintro ⟨el, hel, h⟩
        obtain ⟨a, ha, rfl⟩ := List.mem_map.1 hel
        exact ⟨a, ha, h⟩
      · rintro ⟨a, ha, h⟩
        exact ⟨_, List.mem_map.2 ⟨a, ha, rfl⟩, h⟩
    simp only [List.mem_append, or_and_right, exists_or, h1, h2, Base.has]
    have := hm e
    tauto

theorem pairRules_allows (L : N.Laws Ok Strong Wide) (F : cfg.Fair) (hk : ∀ key ∈ I.allowed, key ≠ [])
    {b : Base S ν × Base S ν} (h1 : b.1.Good N I) (h2 : b.2.Good N I) (k : C) (p : P) :
    (∃ r ∈ pairRules N I cfg k b, r.allows N.toNet I p) ↔
      b.1.has N.Q I (N.src p) ∧ b.2.has N.Q I (N.dst p) ∧ N.K.mem p k = true := by
  rw [← baseElems_has L F hk h1, ← baseElems_has L F hk h2]
  unfold pairRules FwRule.allows
  constructor
  · rintro ⟨r, hr, h⟩
    obtain ⟨s, hs, hr⟩ := List.mem_flatMap.1 hr
    obtain ⟨d, hd, rfl⟩ := List.mem_map.1 hr
    exact ⟨⟨s, hs, h.1⟩, ⟨d, hd, h.2.1⟩, h.2.2⟩
  · rintro ⟨⟨s, hs, h1⟩, ⟨d, hd, h2⟩, h3⟩
    exact ⟨⟨s, d, k⟩, List.mem_flatMap.2 ⟨s, hs, List.mem_map.2 ⟨d, hd, rfl⟩⟩, h1, h2, h3⟩

/-! ### Sets of pairs of peers -/

omit [DecidableEq E] [DecidableEq ν] in
theorem pairSet_iff (L : N.Laws Ok Strong Wide) (s d : S) (p : P) : N.K.mem p (pairSet N s d) = true ↔
    N.Q.mem (N.src p) s = true ∧ N.Q.mem (N.dst p) d = true := by
  unfold pairSet
  rw [mem_rect_some L.q.net]
  simp [ProtoSel.sel]

theorem nsSet_iff (L : N.Laws Ok Strong Wide) (hI : ∀ e ∈ I.all, Known N e) (m : ν) (e : E) : N.Q.mem e (nsSet N I m) = true ↔ e ∈ I.all ∧ I.ns e = m := by
  unfold nsSet
  rw [L.ofList_iff _ _ (fun x hx => hI x ((mem_nsPods I).1 hx).1), mem_nsPods]

theorem nssSet_iff (L : N.Laws Ok Strong Wide) (hI : ∀ e ∈ I.all, Known N e) (l : List ν) (e : E) :
    N.Q.mem e (nssSet N I l) = true ↔ e ∈ I.all ∧ I.ns e ∈ l := by
  unfold nssSet
  rw [L.ofList_iff _ _ (fun x hx => by
    obtain ⟨m, -, h⟩ := List.mem_flatMap.1 hx
    exact hI x ((mem_nsPods I).1 h).1), List.mem_flatMap]
  simp only [mem_nsPods]
  exact ⟨fun ⟨m, hm, h1, h2⟩ => ⟨h1, h2 ▸ hm⟩, fun ⟨h1, h2⟩ => ⟨_, h2, h1, rfl⟩⟩

omit [DecidableEq E] [DecidableEq ν] in
theorem canon_iff (L : N.Laws Ok Strong Wide) (s : S) (e : E) : N.Q.mem e (canon N s) = true ↔ N.Q.mem e s = true := by
  unfold canon
  rw [N.Q.mem_or, Bool.or_eq_true, L.ofList_iff _ _ (fun x hx => ⟨s, hx⟩), L.members_iff, L.ips_iff]
  tauto

section
omit [DecidableEq E] [DecidableEq ν]

theorem PeerOnly.pairSet (L : N.Laws Ok Strong Wide) (s d : S) : PeerOnly N.toNet (pairSet N s d) := by
  intro p q h1 h2
  rw [Bool.eq_iff_iff, pairSet_iff L, pairSet_iff L, h1, h2]

theorem PeerOnly.or (L : N.Laws Ok Strong Wide) {a b : C} (ha : Ok a) (hb : Ok b) (h : PeerOnly N.toNet a)
    (h' : PeerOnly N.toNet b) : PeerOnly N.toNet (N.K.or a b) := by
  intro p q h1 h2
  rw [L.q.net.mem_or ha hb, L.q.net.mem_or ha hb, h p q h1 h2, h' p q h1 h2]

theorem PeerOnly.and (L : N.Laws Ok Strong Wide) {a b : C} (ha : Ok a) (hb : Ok b) (h : PeerOnly N.toNet a)
    (h' : PeerOnly N.toNet b) : PeerOnly N.toNet (N.K.and a b) := by
  intro p q h1 h2
  rw [L.q.net.mem_and ha hb, L.q.net.mem_and ha hb, h p q h1 h2, h' p q h1 h2]

theorem PeerOnly.sub (L : N.Laws Ok Strong Wide) {a b : C} (ha : Strong a) (hb : Ok b) (h : PeerOnly N.toNet a)
    (h' : PeerOnly N.toNet b) : PeerOnly N.toNet (N.K.sub a b) := by
  intro p q h1 h2
  rw [L.q.net.mem_sub ha hb, L.q.net.mem_sub ha hb, h p q h1 h2, h' p q h1 h2]

theorem PeerOnly.empty (L : N.Laws Ok Strong Wide) : PeerOnly N.toNet N.K.empty := by
  intro p q _ _
  rw [L.q.net.mem_empty, L.q.net.mem_empty]

theorem PeerOnly.rect (L : N.Laws Ok Strong Wide) (s d : Option S) : PeerOnly N.toNet (N.rect s d .any) := by
  intro p q h1 h2
  rw [L.q.net.mem_rect, L.q.net.mem_rect, h1, h2]
  rfl

theorem mem_or_iff' (L : N.Laws Ok Strong Wide) {a b : C} (ha : Ok a) (hb : Ok b) (p : P) :
    N.K.mem p (N.K.or a b) = true ↔ N.K.mem p a = true ∨ N.K.mem p b = true := by
  rw [L.q.net.mem_or ha hb, Bool.or_eq_true]

theorem pair_ok (L : N.Laws Ok Strong Wide) (s d : S) : Ok (pairSet N s d) := L.q.net.strong_ok (L.q.net.rect_strong _ _ _)

/-- Subtracting pairs whose sources are not everything keeps a set fit for further subtractions. -/
theorem sub_pair_strong (L : N.Laws Ok Strong Wide) {a : C} (ha : Strong a) {s d : S} {p0 : P}
    (h0 : N.Q.mem (N.src p0) s = false) : Strong (N.K.sub a (pairSet N s d)) := by
  by_cases h : N.K.truthy (pairSet N s d) = true
  · obtain ⟨p, hp⟩ := (L.q.net.truthy_iff (pair_ok L s d)).1 h
    exact L.q.sub_wide ha (pair_ok L s d) (.inr (rect_wide L.q hp h0))
  · rw [L.q.net.sub_falsy (by simpa using h)]
    exact ha

end

/-! ### The groupings

`A` are the connections that may be reported: from addresses only to workloads.  The point `p0` is a connection between
addresses. -/

/-- What is known of the reportable pairs. -/
structure Scope (N : FwNet C P E S) (I : Cluster E ν) (A : P → Prop) (p0 : P) : Prop where
  only : ∀ {p q}, N.src p = N.src q → N.dst p = N.dst q → A p → A q
  src_ep : ∀ {p}, A p → (N.kind (N.src p)).isEp = true → N.src p ∈ I.all
  dst_ep : ∀ {p}, A p → (N.kind (N.dst p)).isEp = true → N.dst p ∈ I.all
  ext : ∀ {p}, A p → N.kind (N.src p) = .ip → (N.kind (N.dst p)).isEp = true
  p0_src : N.kind (N.src p0) = .ip
  p0_dst : N.kind (N.dst p0) = .ip
  ep : ∃ q, (N.kind (N.src q)).isEp = true

/-- A set of reportable pairs. -/
structure InScope (N : FwNet C P E S) (Ok : C → Prop) (A : P → Prop) (c : C) : Prop where
  ok : Ok c
  only : PeerOnly N.toNet c
  sub : ∀ {p}, N.K.mem p c = true → A p

/-- A pair of base elements within the reportable pairs. -/
structure PairOk (N : FwNet C P E S) (I : Cluster E ν) (A : P → Prop) (b : Base S ν × Base S ν) : Prop where
  src : b.1.Good N I
  dst : b.2.Good N I
  sub : ∀ {p}, b.1.has N.Q I (N.src p) → b.2.has N.Q I (N.dst p) → A p

/-- A connection between the two elements. -/
def PairHas (N : FwNet C P E S) (I : Cluster E ν) (b : Base S ν × Base S ν) (p : P) : Prop :=
  b.1.has N.Q I (N.src p) ∧ b.2.has N.Q I (N.dst p)

omit [DecidableEq E] [DecidableEq ν] in
theorem nss_good (l : List ν) : (Base.nss l : Base S ν).Good N I := fun _ h _ => h.1

section
omit [DecidableEq E] [DecidableEq ν]
variable {A : P → Prop} {p0 : P}

theorem InScope.out (W : Scope N I A p0) {c : C} (hc : InScope N Ok A c) : ∃ q, N.K.mem q c = false :=
  ⟨p0, by rw [← Bool.not_eq_true]; exact fun h => absurd (W.ext (hc.sub h) W.p0_src) (by rw [W.p0_dst]; simp [PeerKind.isEp])⟩

/-- The cubes of a reportable set. -/
theorem cube_scope (L : N.Laws Ok Strong Wide) (W : Scope N I A p0) {c : C} (hc : InScope N Ok A c) {b : Bool} {sd : S × S}
    (h : sd ∈ N.cubes b c) : (∀ {p}, N.Q.mem (N.src p) sd.1 = true → N.Q.mem (N.dst p) sd.2 = true → A p) ∧
    (∀ e, N.Q.mem e sd.1 = true → (N.kind e).isEp = true → e ∈ I.all) ∧
    (∀ e, N.Q.mem e sd.2 = true → (N.kind e).isEp = true → e ∈ I.all) := by
  have h1 : ∀ {p}, N.Q.mem (N.src p) sd.1 = true → N.Q.mem (N.dst p) sd.2 = true → A p := fun {p} hs hd =>
    hc.sub ((L.cubes_iff b hc.ok hc.only (hc.out W) p).2 ⟨sd, h, hs, hd⟩)
  refine ⟨h1, ?_, ?_⟩
  · intro e he hk
    obtain ⟨p, rfl, hd⟩ := L.cubes_src hc.ok (hc.out W) h he
    exact W.src_ep (h1 he hd) hk
  · intro e he hk
    obtain ⟨p, rfl, hd⟩ := L.cubes_dst hc.ok (hc.out W) h he
    exact W.dst_ep (h1 hd he) hk

end

theorem cubeRules_allows (L : N.Laws Ok Strong Wide) (F : cfg.Fair) (hk : ∀ key ∈ I.allowed, key ≠ []) {A : P → Prop} {p0 : P}
    (W : Scope N I A p0) {c : C} (hc : InScope N Ok A c) (k : C) (b : Bool) (p : P) :
    (∃ r ∈ cubeRules N I cfg k b c, r.allows N.toNet I p) ↔ N.K.mem p c = true ∧ N.K.mem p k = true := by
  rw [L.cubes_iff b hc.ok hc.only (hc.out W) p]
  unfold cubeRules
  have hsd : ∀ sd ∈ N.cubes b c, ((∃ r ∈ pairRules N I cfg k (.peers sd.1, .peers sd.2), r.allows N.toNet I p) ↔
      N.Q.mem (N.src p) sd.1 = true ∧ N.Q.mem (N.dst p) sd.2 = true ∧ N.K.mem p k = true) := by
    intro sd h
    obtain ⟨-, h1, h2⟩ := cube_scope L W hc h
    exact pairRules_allows L F hk (b := (.peers sd.1, .peers sd.2)) h1 h2 k p
  constructor
  · rintro ⟨r, hr, h⟩
    obtain ⟨sd, hs, hr⟩ := List.mem_flatMap.1 hr
    obtain ⟨h1, h2, h3⟩ := (hsd sd hs).1 ⟨r, hr, h⟩
    exact ⟨⟨sd, hs, h1, h2⟩, h3⟩
  · rintro ⟨⟨sd, hs, h1, h2⟩, h3⟩
    obtain ⟨r, hr, h⟩ := (hsd sd hs).2 ⟨h1, h2, h3⟩
    exact ⟨r, List.mem_flatMap.2 ⟨sd, hs, hr⟩, h⟩

omit [DecidableEq E] [DecidableEq ν] in
theorem inter_scope (L : N.Laws Ok Strong Wide) {A : P → Prop} {x : C} (s d : Option S) (hx : InScope N Ok A x) :
    InScope N Ok A (N.K.and (N.rect s d .any) x) ∧
      ∀ p, N.K.mem p (N.K.and (N.rect s d .any) x) = true → N.K.mem p x = true := by
  have ho := L.q.net.strong_ok (L.q.net.rect_strong s d .any)
  have hle : ∀ p, N.K.mem p (N.K.and (N.rect s d .any) x) = true → N.K.mem p x = true := fun p h =>
    ((mem_and_iff L.q.net ho hx.ok _).1 h).2
  exact ⟨⟨L.q.net.and_ok ho hx.ok, PeerOnly.and L ho hx.ok (PeerOnly.rect L s d) hx.only, fun h => hx.sub (hle _ h)⟩, hle⟩

omit [DecidableEq E] [DecidableEq ν] in
theorem sub_scope (L : N.Laws Ok Strong Wide) {A : P → Prop} {x y : C} (hx : InScope N Ok A x) (hy : InScope N Ok A y)
    (hyx : ∀ p, N.K.mem p y = true → N.K.mem p x = true) (ht : N.K.truthy y = true) : InScope N Ok A (N.K.sub x y) ∧
      ∀ p, N.K.mem p x = true ↔ N.K.mem p y = true ∨ N.K.mem p (N.K.sub x y) = true := by
  obtain ⟨q, hq⟩ := (L.q.net.truthy_iff hy.ok).1 ht
  have hs := L.q.net.truthy_strong hx.ok ((L.q.net.truthy_iff hx.ok).2 ⟨q, hyx q hq⟩)
  refine ⟨⟨L.q.net.sub_ok hs hy.ok, PeerOnly.sub L hs hy.ok hx.only hy.only,
    fun h => hx.sub ((mem_sub_iff L.q.net hs hy.ok _).1 h).1⟩, fun p => ?_⟩
  rw [mem_sub_iff L.q.net hs hy.ok]
  have := hyx p
  tauto

/-- One step of `restRules`: the part with addresses on one side. -/
theorem rest_step (L : N.Laws Ok Strong Wide) (F : cfg.Fair) (hk : ∀ key ∈ I.allowed, key ≠ []) {A : P → Prop} {p0 : P}
    (W : Scope N I A p0) {rest : C} (hc : InScope N Ok A rest) (k : C) (b : Bool) (s d : Option S) (p : P) {a r1 : C}
    (ha : N.K.and (N.rect s d .any) rest = a) (hr : (if N.K.truthy a = true then N.K.sub rest a else rest) = r1) :
    InScope N Ok A r1 ∧ ((N.K.mem p rest = true ∧ N.K.mem p k = true) ↔
      (∃ r ∈ (if N.K.truthy a = true then cubeRules N I cfg k b a else []), r.allows N.toNet I p) ∨
        (N.K.mem p r1 = true ∧ N.K.mem p k = true)) := by
  obtain ⟨h1, h2⟩ := inter_scope L s d hc
  rw [ha] at h1 h2
  by_cases ht : N.K.truthy a = true
  · rw [if_pos ht] at hr
    subst hr
    rw [if_pos ht]
    obtain ⟨h3, h4⟩ := sub_scope L hc h1 h2 ht
    refine ⟨h3, ?_⟩
    rw [cubeRules_allows L F hk W h1, h4 p]
    exact or_and_right
  · rw [if_neg ht] at hr
    subst hr
    rw [if_neg ht]
    exact ⟨hc, by simp⟩

/-- The rules made of what no grouping covered. -/
theorem restRules_allows (L : N.Laws Ok Strong Wide) (F : cfg.Fair) (hk : ∀ key ∈ I.allowed, key ≠ []) {A : P → Prop} {p0 : P}
    (W : Scope N I A p0) {rest : C} (hc : InScope N Ok A rest) (k : C) (p : P) :
    (∃ r ∈ restRules N I cfg k rest, r.allows N.toNet I p) ↔ N.K.mem p rest = true ∧ N.K.mem p k = true := by
  unfold restRules
  extract_lets a r1 b r2
  obtain ⟨hr1, h1⟩ := rest_step (a := a) (r1 := r1) L F hk W hc k true (some N.allIps) none p rfl rfl
  obtain ⟨hr2, h2⟩ := rest_step (a := b) (r1 := r2) L F hk W hr1 k false none (some N.allIps) p rfl rfl
  rw [h1, h2]
  clear_value a r1 b r2
  have h3 : (N.K.mem p r2 = true ∧ N.K.mem p k = true) ↔
      (∃ r ∈ (if N.K.truthy r2 = true then cubeRules N I cfg k
        (!decide ((N.cubes false r2).length ≤ (N.cubes true r2).length)) r2 else []), r.allows N.toNet I p) := by
    split
    · rw [cubeRules_allows L F hk W hr2]
    · rename_i ht
      constructor
      · rintro ⟨h, -⟩
        exact absurd ((L.q.net.truthy_iff hr2.ok).2 ⟨p, h⟩) ht
      · simp
  rw [h3]
  simp only [List.mem_append, or_and_right, exists_or, or_assoc]

/-! ### Whole namespaces -/

section
variable {A : P → Prop} {p0 : P}

/-- The invariant of the loop over pairs of namespaces; `done` are the pairs seen. -/
structure NsInv (N : FwNet C P E S) (I : Cluster E ν) (Ok Strong : C → Prop) (A : P → Prop) (pp : C) (st : NsState C ν)
    (done : List (ν × ν)) : Prop where
  cov : InScope N Ok A st.cov
  strong : Strong st.rest
  only : PeerOnly N.toNet st.rest
  sub : ∀ {p}, N.K.mem p st.rest = true → N.K.mem p pp = true
  pairs : ∀ sd ∈ st.pairs, ∀ {p}, N.src p ∈ I.all → N.dst p ∈ I.all → I.ns (N.src p) = sd.1 → I.ns (N.dst p) = sd.2 → A p
  full : ∀ {p}, N.K.mem p pp = true → N.src p ∈ I.all → N.dst p ∈ I.all → (I.ns (N.src p), I.ns (N.dst p)) ∈ done →
    N.K.mem p st.rest = true ∨ (I.ns (N.src p), I.ns (N.dst p)) ∈ st.pairs

theorem nsStep_inv (L : N.Laws Ok Strong Wide) (hI : ∀ e ∈ I.all, Known N e) {pp : C} (hpp : InScope N Ok A pp) {st : NsState C ν} {done : List (ν × ν)}
    (h : NsInv N I Ok Strong A pp st done) (sd : ν × ν) : NsInv N I Ok Strong A pp (nsStep N I pp st sd) (done ++ [sd]) := by
  have hprod : ∀ p, N.K.mem p (pairSet N (nsSet N I sd.1) (nsSet N I sd.2)) = true ↔
      (N.src p ∈ I.all ∧ I.ns (N.src p) = sd.1) ∧ (N.dst p ∈ I.all ∧ I.ns (N.dst p) = sd.2) := by
    intro p
    rw [pairSet_iff L, nsSet_iff L hI, nsSet_iff L hI]
  have hok := pair_ok L (nsSet N I sd.1) (nsSet N I sd.2)
  have hpo := PeerOnly.pairSet L (nsSet N I sd.1) (nsSet N I sd.2)
  unfold nsStep
  dsimp only
  generalize pairSet N (nsSet N I sd.1) (nsSet N I sd.2) = prod at hprod hok hpo
  have hao := L.q.net.and_ok hok hpp.ok
  have hand := mem_and_iff L.q.net hok hpp.ok
  split
  · rename_i hc
    have hcont := (L.q.net.contained_iff hok h.cov.ok).1 hc
    have hnew : ∀ {p}, N.K.mem p pp = true → N.src p ∈ I.all → N.dst p ∈ I.all → (I.ns (N.src p), I.ns (N.dst p)) = sd →
        N.K.truthy (N.K.and prod pp) = true := by
      intro p hp h1 h2 h3
      refine (L.q.net.truthy_iff hao).2 ⟨p, (hand p).2 ⟨(hprod p).2 ⟨⟨h1, ?_⟩, h2, ?_⟩, hp⟩⟩
      · rw [← h3]
      · rw [← h3]
    refine ⟨?_, h.strong, h.only, h.sub, ?_, ?_⟩
    · by_cases ht : N.K.truthy prod = true
      · obtain ⟨q, hq⟩ := (L.q.net.truthy_iff hok).1 ht
        have hs := L.q.net.truthy_strong h.cov.ok ((L.q.net.truthy_iff h.cov.ok).2 ⟨q, hcont q hq⟩)
        exact ⟨L.q.net.sub_ok hs hok, PeerOnly.sub L hs hok h.cov.only hpo,
          fun hp => h.cov.sub ((mem_sub_iff L.q.net hs hok _).1 hp).1⟩
      · rw [L.q.net.sub_falsy (by simpa using ht)]
        exact h.cov
    · intro x hx p h1 h2 h3 h4
      dsimp only at hx
      have : x ∈ st.pairs ++ [sd] := by
        split at hx
        · exact hx
        · exact List.mem_append.2 (.inl hx)
      rcases List.mem_append.1 this with hx | hx
      · exact h.pairs x hx h1 h2 h3 h4
      · rw [List.mem_singleton.1 hx] at h3 h4
        exact h.cov.sub (hcont p ((hprod p).2 ⟨⟨h1, h3⟩, h2, h4⟩))
    · intro p hp h1 h2 h3
      rcases List.mem_append.1 h3 with h3 | h3
      · refine (h.full hp h1 h2 h3).imp id fun h' => ?_
        split
        · exact List.mem_append.2 (.inl h')
        · exact h'
      · right
        have h3 := List.mem_singleton.1 h3
        rw [if_pos (hnew hp h1 h2 h3)]
        exact List.mem_append.2 (.inr (List.mem_singleton.2 h3))
  · have hor := mem_or_iff' L (L.q.net.strong_ok h.strong) hao
    refine ⟨h.cov, L.q.net.or_strong h.strong hao,
      PeerOnly.or L (L.q.net.strong_ok h.strong) hao h.only (PeerOnly.and L hok hpp.ok hpo hpp.only), ?_, h.pairs, ?_⟩
    · intro p hp
      rcases (hor p).1 hp with hp | hp
      · exact h.sub hp
      · exact ((hand p).1 hp).2
    · intro p hp h1 h2 h3
      dsimp only
      rcases List.mem_append.1 h3 with h3 | h3
      · exact (h.full hp h1 h2 h3).imp (fun h' => (hor p).2 (.inl h')) id
      · left
        have h3 := List.mem_singleton.1 h3
        refine (hor p).2 (.inr ((hand p).2 ⟨(hprod p).2 ⟨⟨h1, ?_⟩, h2, ?_⟩, hp⟩))
        · rw [← h3]
        · rw [← h3]

theorem fullNs_inv (L : N.Laws Ok Strong Wide) (hI : ∀ e ∈ I.all, Known N e) {pp cov : C} (hpp : InScope N Ok A pp) (hcov : InScope N Ok A cov) (l l' : List ν) :
    NsInv N I Ok Strong A pp (fullNs N I pp cov l l') (l.flatMap (fun s => l'.map (fun d => (s, d)))) := by
  have key : ∀ (todo done : List (ν × ν)) (st : NsState C ν), NsInv N I Ok Strong A pp st done →
      NsInv N I Ok Strong A pp (todo.foldl (nsStep N I pp) st) (done ++ todo) := by
    intro todo
    induction todo with
    | nil => intro done st h; simpa using h
    | cons x todo ih =>
      intro done st h
      have := ih _ _ (nsStep_inv L hI hpp h x)
      rwa [List.append_assoc] at this
  exact key _ [] _ ⟨hcov, L.q.net.empty_strong, PeerOnly.empty L, fun {p} h => by simp [L.q.net.mem_empty] at h,
    fun _ h => by simp at h, fun _ _ _ h => by simp at h⟩

omit [DecidableEq E] in
theorem nsSetPairs_iff (pairs : List (ν × ν)) {a b : E} (ha : a ∈ I.all) (hb : b ∈ I.all) :
    (∃ x ∈ (nsSetPairs pairs : List (Base S ν × Base S ν)), x.1.has N.Q I a ∧ x.2.has N.Q I b) ↔ (I.ns a, I.ns b) ∈ pairs := by
  unfold nsSetPairs
  dsimp only
  split
  · rw [← groupPairs_spec]
    constructor
    · rintro ⟨x, hx, h1, h2⟩
      obtain ⟨g, hg, rfl⟩ := List.mem_map.1 hx
      exact ⟨g, hg, h1.2, h2.2⟩
    · rintro ⟨g, hg, h1, h2⟩
      exact ⟨_, List.mem_map.2 ⟨g, hg, rfl⟩, ⟨ha, h1⟩, ⟨hb, h2⟩⟩
  · have : (I.ns a, I.ns b) ∈ pairs ↔ (I.ns b, I.ns a) ∈ pairs.map (fun e => (e.2, e.1)) := by
      rw [List.mem_map]
      constructor
      · intro h; exact ⟨_, h, rfl⟩
      · rintro ⟨⟨x, y⟩, h, he⟩
        simp only [Prod.mk.injEq] at he
        rw [← he.1, ← he.2]
        exact h
    rw [this, ← groupPairs_spec]
    constructor
    · rintro ⟨x, hx, h1, h2⟩
      obtain ⟨g, hg, rfl⟩ := List.mem_map.1 hx
      exact ⟨g, hg, h2.2, h1.2⟩
    · rintro ⟨g, hg, h1, h2⟩
      exact ⟨_, List.mem_map.2 ⟨g, hg, rfl⟩, ⟨ha, h2⟩, ⟨hb, h1⟩⟩

omit [DecidableEq E] in
theorem nsSetPairs_nss {pairs : List (ν × ν)} {x : Base S ν × Base S ν} (h : x ∈ nsSetPairs pairs) : ∃ l l', x = (.nss l, .nss l') := by
  unfold nsSetPairs at h
  dsimp only at h
  split at h
  · obtain ⟨g, -, rfl⟩ := List.mem_map.1 h
    exact ⟨_, _, rfl⟩
  · obtain ⟨g, -, rfl⟩ := List.mem_map.1 h
    exact ⟨_, _, rfl⟩

/-! ### Later groupings -/

/-- The endpoint of the dimension at hand. -/
def dimEnd (N : FwNet C P E S) (isSrc : Bool) (p : P) : E := if isSrc then N.src p else N.dst p

/-- The other endpoint. -/
def otherEnd (N : FwNet C P E S) (isSrc : Bool) (p : P) : E := if isSrc then N.dst p else N.src p

omit [DecidableEq E] [DecidableEq ν] in
theorem dimSet_iff (L : N.Laws Ok Strong Wide) (b : Bool) (dim other : S) (p : P) : N.K.mem p (dimSet N b dim other) = true ↔
    N.Q.mem (dimEnd N b p) dim = true ∧ N.Q.mem (otherEnd N b p) other = true := by
  cases b
  · simp only [dimSet, Bool.false_eq_true, if_false, dimEnd, otherEnd, pairSet_iff L]
    exact and_comm
  · simp only [dimSet, if_true, dimEnd, otherEnd, pairSet_iff L]

omit [DecidableEq E] [DecidableEq ν] in
theorem dimSet_ok (L : N.Laws Ok Strong Wide) (b : Bool) (dim other : S) : Ok (dimSet N b dim other) := by
  cases b
  · exact pair_ok L other dim
  · exact pair_ok L dim other

omit [DecidableEq E] [DecidableEq ν] in
theorem dimSet_only (L : N.Laws Ok Strong Wide) (b : Bool) (dim other : S) : PeerOnly N.toNet (dimSet N b dim other) := by
  cases b
  · exact PeerOnly.pairSet L other dim
  · exact PeerOnly.pairSet L dim other

/-- A pair of peer sets within the reportable pairs, in terms of the dimension at hand. -/
structure DimOk (N : FwNet C P E S) (I : Cluster E ν) (A : P → Prop) (b : Bool) (dim other : S) : Prop where
  sub : ∀ {p}, N.Q.mem (dimEnd N b p) dim = true → N.Q.mem (otherEnd N b p) other = true → A p
  dim_ep : ∀ e, N.Q.mem e dim = true → (N.kind e).isEp = true → e ∈ I.all
  other_ep : ∀ e, N.Q.mem e other = true → (N.kind e).isEp = true → e ∈ I.all

omit [DecidableEq E] [DecidableEq ν] in
theorem cube_dim (L : N.Laws Ok Strong Wide) (W : Scope N I A p0) {c : C} (hc : InScope N Ok A c) {b : Bool} {sd : S × S}
    (h : sd ∈ N.cubes b c) :
    DimOk N I A b (if b then sd.1 else sd.2) (canon N (if b then sd.2 else sd.1)) := by
  obtain ⟨h1, h3, h4⟩ := cube_scope L W hc h
  cases b
  · simp only [Bool.false_eq_true, if_false]
    exact ⟨fun {p} hd ho => h1 ((canon_iff L _ _).1 ho) hd, h4, fun e he => h3 e ((canon_iff L _ _).1 he)⟩
  · simp only [if_true]
    exact ⟨fun {p} hd ho => h1 hd ((canon_iff L _ _).1 ho), h3, fun e he => h4 e ((canon_iff L _ _).1 he)⟩

/-- The state between the later groupings. -/
structure RestInv (N : FwNet C P E S) (I : Cluster E ν) (Strong : C → Prop) (A : P → Prop) (rest0 : C) (st : RestState C S ν) :
    Prop where
  strong : Strong st.rest
  only : PeerOnly N.toNet st.rest
  sub : ∀ {p}, N.K.mem p st.rest = true → N.K.mem p rest0 = true
  pairs : ∀ b ∈ st.pairs, PairOk N I A b
  full : ∀ {p}, N.K.mem p rest0 = true → N.K.mem p st.rest = true ∨ ∃ b ∈ st.pairs, PairHas N I b p

omit [DecidableEq E] [DecidableEq ν] in
theorem sub_dim_strong (L : N.Laws Ok Strong Wide) {a : C} (ha : Strong a) {b : Bool} {dim other : S}
    (h0 : (∃ q, N.Q.mem (N.src q) (if b then dim else other) = false) ∨ N.K.truthy (dimSet N b dim other) = false) :
    Strong (N.K.sub a (dimSet N b dim other)) := by
  rcases h0 with ⟨q, h0⟩ | h0
  · cases b
    · exact sub_pair_strong L ha (by simpa using h0)
    · exact sub_pair_strong L ha (by simpa using h0)
  · rw [L.q.net.sub_falsy h0]
    exact ha

omit [DecidableEq E] [DecidableEq ν] in
/-- Taking a pair and subtracting its connections. -/
theorem RestInv.take (L : N.Laws Ok Strong Wide) {rest0 : C} {st : RestState C S ν} (h : RestInv N I Strong A rest0 st)
    {b : Bool} {dim other : S}
    (h0 : (∃ q, N.Q.mem (N.src q) (if b then dim else other) = false) ∨ N.K.truthy (dimSet N b dim other) = false) {x y : Base S ν}
    (hp : PairOk N I A (dimPair b x y)) (hx : ∀ e, N.Q.mem e dim = true ↔ x.has N.Q I e) (hy : ∀ e, N.Q.mem e other = true ↔ y.has N.Q I e) :
    RestInv N I Strong A rest0 ⟨N.K.sub st.rest (dimSet N b dim other), st.pairs ++ [dimPair b x y]⟩ := by
  have hok := dimSet_ok L b dim other
  have hsub := mem_sub_iff L.q.net h.strong hok
  refine ⟨sub_dim_strong L h.strong h0, PeerOnly.sub L h.strong hok h.only (dimSet_only L b dim other),
    fun hp => h.sub ((hsub _).1 hp).1, ?_, ?_⟩
  · intro z hz
    rcases List.mem_append.1 hz with hz | hz
    · exact h.pairs z hz
    · rw [List.mem_singleton.1 hz]
      exact hp
  · intro p hp
    rcases h.full hp with h1 | ⟨z, hz, h1⟩
    · by_cases h2 : N.K.mem p (dimSet N b dim other) = true
      · right
        refine ⟨dimPair b x y, by simp, ?_⟩
        rw [dimSet_iff L, hx, hy] at h2
        cases b
        · exact ⟨h2.2, h2.1⟩
        · exact h2
      · exact .inl ((hsub p).2 ⟨h1, h2⟩)
    · exact .inr ⟨z, List.mem_append.2 (.inl hz), h1⟩

omit [DecidableEq E] [DecidableEq ν] in
theorem dimPair_ok {b : Bool} {x y : Base S ν} (hx : x.Good N I) (hy : y.Good N I)
    (h : ∀ {p}, x.has N.Q I (dimEnd N b p) → y.has N.Q I (otherEnd N b p) → A p) : PairOk N I A (dimPair b x y) := by
  cases b
  · exact ⟨hy, hx, fun h1 h2 => h h2 h1⟩
  · exact ⟨hx, hy, fun h1 h2 => h h1 h2⟩

theorem takePair_inv (L : N.Laws Ok Strong Wide) (hI : ∀ e ∈ I.all, Known N e) {rest0 : C} {st : RestState C S ν} (h : RestInv N I Strong A rest0 st)
    {b : Bool} {l : List ν} {other : S} (h0 : ∃ q, N.Q.mem (N.src q) (if b then nssSet N I l else other) = false)
    (hy : (Base.peers other : Base S ν).Good N I)
    (hA : ∀ {p}, dimEnd N b p ∈ I.all → I.ns (dimEnd N b p) ∈ l → N.Q.mem (otherEnd N b p) other = true → A p) :
    RestInv N I Strong A rest0 (takePair N I b l other st) := by
  unfold takePair
  dsimp only
  split
  · exact h
  · exact h.take L (.inl h0) (dimPair_ok (nss_good l) hy (fun h1 h2 => hA h1.1 h1.2 h2)) (fun e => nssSet_iff L hI l e) (fun e => Iff.rfl)

/-- An entry of the dictionary of whole namespaces on one side. -/
structure NsEntry (N : FwNet C P E S) (I : Cluster E ν) (A : P → Prop) (b : Bool) (l : List ν) (other : S) : Prop where
  sub : ∀ {p}, dimEnd N b p ∈ I.all → I.ns (dimEnd N b p) ∈ l → N.Q.mem (otherEnd N b p) other = true → A p
  other_ep : ∀ e, N.Q.mem e other = true → (N.kind e).isEp = true → e ∈ I.all

theorem partialDict_ok (L : N.Laws Ok Strong Wide) (hI : ∀ e ∈ I.all, Known N e) (W : Scope N I A p0) {cov : C} (hc : InScope N Ok A cov) (b : Bool)
    (nss : List ν) (rest : C) : ∀ e ∈ partialDict N I b nss cov rest, NsEntry N I A b e.1 e.2 := by
  unfold partialDict
  have key : ∀ (cs : List (S × S)), (∀ sd ∈ cs, sd ∈ N.cubes b cov) → ∀ (d : List (List ν × S)),
      (∀ e ∈ d, NsEntry N I A b e.1 e.2) → ∀ e ∈ cs.foldl (fun dict sd =>
        let dim := if b then sd.1 else sd.2
        let other := canon N (if b then sd.2 else sd.1)
        let cur := nss.filter (fun m => !N.Q.truthy (N.Q.sub (nsSet N I m) dim) &&
          N.K.truthy (N.K.and (dimSet N b (nsSet N I m) other) rest))
        if cur.isEmpty then dict else dictAdd sameSet N.Q.or N.Q.empty cur other dict) d, NsEntry N I A b e.1 e.2 := by
    intro cs
    induction cs with
    | nil => intro _ d h; exact h
    | cons sd cs ih =>
      intro hcs d hd
      rw [List.foldl_cons]
      refine ih (fun x hx => hcs x (List.mem_cons_of_mem _ hx)) _ ?_
      have hD := cube_dim L W hc (hcs sd List.mem_cons_self)
      dsimp only
      generalize (if b = true then sd.1 else sd.2) = dim at hD ⊢
      generalize canon N (if b = true then sd.2 else sd.1) = other at hD ⊢
      have hcur : ∀ m ∈ nss.filter (fun m => !N.Q.truthy (N.Q.sub (nsSet N I m) dim) &&
          N.K.truthy (N.K.and (dimSet N b (nsSet N I m) other) rest)), ∀ e, e ∈ I.all → I.ns e = m → N.Q.mem e dim = true := by
        intro m hm e h1 h2
        rw [List.mem_filter, Bool.and_eq_true, Bool.not_eq_true', ← Bool.not_eq_true, N.Q.truthy_iff] at hm
        by_contra hn
        refine hm.2.1 ⟨e, ?_⟩
        rw [N.Q.mem_sub, Bool.and_eq_true, nsSet_iff L hI]
        exact ⟨⟨h1, h2⟩, by simpa using hn⟩
      generalize nss.filter (fun m => !N.Q.truthy (N.Q.sub (nsSet N I m) dim) &&
          N.K.truthy (N.K.and (dimSet N b (nsSet N I m) other) rest)) = cur at hcur ⊢
      split
      · exact hd
      · refine dictAdd_inv (R := fun l o => NsEntry N I A b l o) hd ?_ ?_
        · refine ⟨fun {p} h1 h2 h3 => ?_, fun e he => ?_⟩
          · rw [N.Q.mem_or, N.Q.mem_empty, Bool.false_or] at h3
            exact hD.sub (hcur _ h2 _ h1 rfl) h3
          · rw [N.Q.mem_or, N.Q.mem_empty, Bool.false_or] at he
            exact hD.other_ep e he
        · intro x hx heq
          have hx := hd x hx
          refine ⟨fun {p} h1 h2 h3 => ?_, fun e he => ?_⟩
          · rw [N.Q.mem_or, Bool.or_eq_true] at h3
            rcases h3 with h3 | h3
            · exact hx.sub h1 h2 h3
            · exact hD.sub (hcur _ ((sameSet_iff.1 heq _).1 h2) _ h1 rfl) h3
          · rw [N.Q.mem_or, Bool.or_eq_true] at he
            exact he.elim (hx.other_ep e) (hD.other_ep e)
  exact key _ (fun _ h => h) [] (by simp)

omit [DecidableEq ν] in
theorem foldl_inv {α β : Type} {R : β → Prop} {f : β → α → β} : ∀ (l : List α), (∀ x ∈ l, ∀ b, R b → R (f b x)) → ∀ b, R b → R (l.foldl f b)
  | [], _, _, h => h
  | x :: l, hf, b, h => foldl_inv l (fun y hy => hf y (List.mem_cons_of_mem _ hy)) _ (hf x List.mem_cons_self b h)

theorem partialNs_inv (L : N.Laws Ok Strong Wide) (hI : ∀ e ∈ I.all, Known N e) (W : Scope N I A p0) {cov : C} (hc : InScope N Ok A cov) (b : Bool)
    (nss : List ν) {rest0 : C} {st : RestState C S ν} (h : RestInv N I Strong A rest0 st) :
    RestInv N I Strong A rest0 (partialNs N I b nss cov st) := by
  have hd := partialDict_ok L hI W hc b nss st.rest
  unfold partialNs
  generalize partialDict N I b nss cov st.rest = d at hd
  refine foldl_inv (R := RestInv N I Strong A rest0) d ?_ st h
  intro e he st h
  have hE := hd e he
  have hout : ∀ o q, N.Q.mem (N.src q) o = false → ∃ q, N.Q.mem (N.src q) (if b then nssSet N I e.1 else o) = false := by
    intro o q ho
    cases b
    · exact ⟨q, ho⟩
    · refine ⟨p0, ?_⟩
      rw [← Bool.not_eq_true]
      simp only [if_true]
      rw [nssSet_iff L hI]
      intro h
      obtain ⟨s, hs⟩ := hI _ h.1
      exact ((L.members_iff _ _).1 hs).2 W.p0_src
  obtain ⟨q, hq⟩ := W.ep
  have h1 : ∀ x, N.Q.mem x (N.ofList (N.members e.2)) = true → N.Q.mem x e.2 = true := by
    intro x hx
    rw [L.ofList_iff _ _ (fun y hy => ⟨_, hy⟩), L.members_iff] at hx
    exact hx.1
  have h2 : ∀ x, N.Q.mem x (N.ips e.2) = true → N.Q.mem x e.2 = true := fun x hx => ((L.ips_iff _ _).1 hx).1
  have n1 : N.Q.mem (N.src p0) (N.ofList (N.members e.2)) = false := by
    rw [← Bool.not_eq_true, L.ofList_iff _ _ (fun y hy => ⟨_, hy⟩), L.members_iff]
    exact fun h => h.2 W.p0_src
  have n2 : N.Q.mem (N.src q) (N.ips e.2) = false := by
    rw [← Bool.not_eq_true, L.ips_iff]
    exact fun h => (isEp_iff.1 hq).1 h.2
  refine takePair_inv L hI (takePair_inv L hI h (hout _ p0 n1) (fun x hx => hE.other_ep x (h1 x hx)) (fun a b c => hE.sub a b (h1 _ c)))
    (hout _ q n2) (fun x hx => hE.other_ep x (h2 x hx)) (fun a b c => hE.sub a b (h2 _ c))

omit [DecidableEq E] [DecidableEq ν] in
theorem DimOk.mono {b : Bool} {dim other : S} (h : DimOk N I A b dim other) {dim' : S} (hd : ∀ e, N.Q.mem e dim' = true → N.Q.mem e dim = true) :
    DimOk N I A b dim' other := by
  exact ⟨fun h1 h2 => h.sub (hd _ h1) h2, fun e he => h.dim_ep e (hd e he), h.other_ep⟩

/-- An entry of the dictionary of address blocks and DNS entries. -/
structure BlockOk (N : FwNet C P E S) (I : Cluster E ν) (A : P → Prop) (b : Bool) (dim other : S) : Prop where
  dimOk : DimOk N I A b dim other
  ext : ∀ e, N.Q.mem e dim = true → (N.kind e).isEp = false

omit [DecidableEq E] [DecidableEq ν] in
theorem addIfCovered_ok {b : Bool} {rest : C} {dim other : S} (h : BlockOk N I A b dim other) {d : List (S × S)}
    (hd : ∀ e ∈ d, BlockOk N I A b e.1 e.2) : ∀ e ∈ addIfCovered N b rest dim other d, BlockOk N I A b e.1 e.2 := by
  unfold addIfCovered
  obtain ⟨h, hext⟩ := h
  split
  · refine dictAdd_inv (R := fun l o => BlockOk N I A b l o) hd ?_ ?_
    · have hm : ∀ e, N.Q.mem e (N.Q.or N.Q.empty other) = N.Q.mem e other := by
        intro e
        rw [N.Q.mem_or, N.Q.mem_empty, Bool.false_or]
      exact ⟨⟨fun h1 h2 => h.sub h1 (hm _ ▸ h2), h.dim_ep, fun e he => h.other_ep e (hm _ ▸ he)⟩, hext⟩
    · intro x hx heq
      obtain ⟨hx, hxe⟩ := hd x hx
      have heq := (peersEq_iff _ _).1 heq
      refine ⟨⟨fun h1 h2 => ?_, hx.dim_ep, fun e he => ?_⟩, hxe⟩
      · rw [N.Q.mem_or, Bool.or_eq_true] at h2
        rcases h2 with h2 | h2
        · exact hx.sub h1 h2
        · exact h.sub (heq _ ▸ h1) h2
      · rw [N.Q.mem_or, Bool.or_eq_true] at he
        exact he.elim (hx.other_ep e) (h.other_ep e)
  · exact hd

theorem blockDict_ok (L : N.Laws Ok Strong Wide) (W : Scope N I A p0) {cov : C} (hc : InScope N Ok A cov) (b : Bool)
    (rest : C) : ∀ e ∈ blockDict N b cov rest, BlockOk N I A b e.1 e.2 := by
  unfold blockDict
  refine foldl_inv (R := fun d : List (S × S) => ∀ e ∈ d, BlockOk N I A b e.1 e.2) _ ?_ [] (by simp)
  intro sd hsd d hd
  have hD := cube_dim L W hc hsd
  dsimp only
  generalize (if b = true then sd.1 else sd.2) = dim at hD ⊢
  generalize canon N (if b = true then sd.2 else sd.1) = other at hD ⊢
  refine foldl_inv (R := fun d : List (S × S) => ∀ e ∈ d, BlockOk N I A b e.1 e.2) _ ?_ _ ?_
  · intro x hx d hd
    have hof : ∀ e, N.Q.mem e (N.ofList [x]) = true → e = x := by
      intro e he
      rw [L.ofList_iff _ _ (fun y hy => ⟨dim, by rw [List.mem_singleton.1 hy]; exact (List.mem_filter.1 hx).1⟩), List.mem_singleton] at he
      exact he
    refine addIfCovered_ok ⟨hD.mono ?_, ?_⟩ hd
    · intro e he
      rw [hof e he]
      exact ((L.members_iff _ _).1 (List.mem_filter.1 hx).1).1
    · intro e he
      have := (List.mem_filter.1 hx).2
      rw [decide_eq_true_eq] at this
      rw [hof e he, this]
      rfl
  · split
    · refine addIfCovered_ok ⟨hD.mono fun e he => ((L.ips_iff _ _).1 he).1, fun e he => ?_⟩ hd
      rw [((L.ips_iff _ _).1 he).2]
      rfl
    · exact hd

theorem fullBlocks_inv (L : N.Laws Ok Strong Wide) (W : Scope N I A p0) {cov : C} (hc : InScope N Ok A cov) (b : Bool)
    {rest0 : C} {st : RestState C S ν} (h : RestInv N I Strong A rest0 st) :
    RestInv N I Strong A rest0 (fullBlocks N b cov st) := by
  have hd := blockDict_ok L W hc b st.rest
  unfold fullBlocks
  refine foldl_inv (R := RestInv N I Strong A rest0) _ ?_ st h
  intro e he st h
  obtain ⟨hE, hext⟩ := hd e he
  refine h.take L (x := .peers e.1) (y := .peers e.2) ?_ (dimPair_ok hE.dim_ep hE.other_ep (fun h1 h2 => hE.sub h1 h2)) (fun _ => Iff.rfl) (fun _ => Iff.rfl)
  obtain ⟨q, hq⟩ := W.ep
  cases b
  · by_cases h0 : N.Q.mem (N.src p0) e.2 = true
    · right
      rw [← Bool.not_eq_true, L.q.net.truthy_iff (dimSet_ok L _ _ _)]
      rintro ⟨p, hp⟩
      obtain ⟨h1, -⟩ := (dimSet_iff L _ _ _ _).1 hp
      obtain ⟨r, hr1, hr2, -⟩ := L.q.splice p p0
      have h1 : N.Q.mem (N.dst r) e.1 = true := hr2 ▸ h1
      have := W.ext (hE.sub (p := r) h1 (show N.Q.mem (N.src r) e.2 = true from hr1 ▸ h0)) (hr1 ▸ W.p0_src)
      rw [hext _ h1] at this
      exact absurd this (by simp)
    · exact .inl ⟨p0, by simpa using h0⟩
  · refine .inl ⟨q, ?_⟩
    rw [← Bool.not_eq_true]
    intro hn
    rw [hext _ hn] at hq
    exact absurd hq (by simp)

omit [DecidableEq E] [DecidableEq ν] in
theorem whenRest_inv {f : RestState C S ν → RestState C S ν} {rest0 : C}
    (hf : ∀ {st}, RestInv N I Strong A rest0 st → RestInv N I Strong A rest0 (f st)) {st : RestState C S ν}
    (h : RestInv N I Strong A rest0 st) : RestInv N I Strong A rest0 (whenRest N f st) := by
  unfold whenRest
  split
  · exact hf h
  · exact h

end

end
end Verif.Fw
