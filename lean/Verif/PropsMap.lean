import Verif.MapModel
import Verif.QueryProofs
import Mathlib.Tactic.Tauto
import Mathlib.Data.List.Infix
/-!
C36: the connectivity map shows exactly the relevant allowed connections with a peer of the chosen
subset; its TCP and non-TCP parts partition it.
-/
namespace Verif

section
variable {C P E S : Type} {N : NetQ C P E S} {Ok Strong Wide : C → Prop}

/-! ### Specification -/

/-- The peers a subset specification selects: by namespace, by (part of) the name of the deployment,
or by one of the sets of labels. -/
def Selected (sp : SubsetSpec) (i : PeerAttrs) : Prop :=
  i.ns ∈ sp.namespaces ∨
  (i.isPod = true ∧ ∃ o, i.owner = some o ∧ o ≠ [] ∧ ∃ d ∈ sp.deployments, ∃ pre post,
    (if '/' ∈ d then i.workload else o) = pre ++ d ++ post) ∨
  (i.labels ≠ [] ∧ ∃ ls ∈ sp.labels, ∀ k v, (k, v) ∈ ls → i.labels.lookup k = some v)

/-- Without a specification every peer is shown. -/
def Shown (sp : Option SubsetSpec) (i : PeerAttrs) : Prop := ∀ s, sp = some s → Selected s i

/-- `info` tells the attributes of the peers in the elements of peer sets. -/
def Describes (N : NetQ C P E S) (info : S → PeerAttrs) (attr : E → PeerAttrs) : Prop :=
  ∀ s, ∀ a ∈ N.elems s, ∀ e, N.Q.mem e a = true → info a = attr e

/-- Every destination may be a source: both dimensions have the same domain. -/
def AnySource (N : NetQ C P E S) : Prop := ∀ p, ∃ q, N.src q = N.dst p

/-! ### Proofs -/

theorem isPart_iff (x y : List Char) : isPart x y = true ↔ ∃ pre post, y = pre ++ x ++ post := by
  unfold isPart
  rw [List.any_eq_true]
  constructor
  · rintro ⟨z, hz, hx⟩
    obtain ⟨pre, rfl⟩ := (List.mem_tails _ _).1 hz
    obtain ⟨post, rfl⟩ := List.isPrefixOf_iff_prefix.1 hx
    exact ⟨pre, post, by simp⟩
  · rintro ⟨pre, post, rfl⟩
    refine ⟨x ++ post, (List.mem_tails _ _).2 ⟨pre, by simp⟩, ?_⟩
    exact List.isPrefixOf_iff_prefix.2 ⟨post, rfl⟩

theorem inSubset_iff (sp : Option SubsetSpec) (i : PeerAttrs) : inSubset sp i = true ↔ Shown sp i := by
  cases sp with
  | none => simp [inSubset, Shown]
  | some sp =>
    unfold inSubset Shown Selected labelsIncluded
    simp only [Option.some.injEq, forall_eq', Bool.or_eq_true, Bool.and_eq_true, Bool.not_eq_true', List.isEmpty_eq_false_iff, List.any_eq_true,
      List.all_eq_true, beq_iff_eq, List.contains_iff_mem, or_assoc, Prod.forall]
    refine or_congr Iff.rfl (or_congr (and_congr_right fun _ => ?_) Iff.rfl)
    cases i.owner with
    | none => simp
    | some o => simp [isPart_iff]

/-- Splitting by TCP partitions a connection set. -/
theorem C36_split (L : N.Lawful Ok Strong Wide) {a : C} (ha : Strong a) (p : P) :
    (N.K.mem p (splitTcp N a).1 = true ↔ N.K.mem p a = true ∧ N.isTcp p = true) ∧
    (N.K.mem p (splitTcp N a).2 = true ↔ N.K.mem p a = true ∧ N.isTcp p = false) := by
  have ro := L.net.strong_ok (L.net.rect_strong none none .tcp)
  have h1 : N.K.mem p (splitTcp N a).1 = true ↔ N.K.mem p a = true ∧ N.isTcp p = true := by
    unfold splitTcp
    rw [mem_and_iff L.net (L.net.strong_ok ha) ro, L.net.mem_rect]
    simp [ProtoSel.sel]
  refine ⟨h1, ?_⟩
  have h2 : N.K.mem p (splitTcp N a).2 = true ↔ N.K.mem p a = true ∧ ¬ N.K.mem p (splitTcp N a).1 = true := by
    unfold splitTcp
    exact mem_sub_iff L.net ha (L.net.and_ok (L.net.strong_ok ha) ro) (p := p)
  rw [h2, h1]
  simp only [← Bool.not_eq_true]
  tauto

theorem computeSubset_mem {info : S → PeerAttrs} {attr : E → PeerAttrs} (L : N.Lawful Ok Strong Wide) (hd : Describes N info attr)
    (sp : Option SubsetSpec) (s : S) (e : E) :
    N.Q.mem e (computeSubset N info sp s) = true ↔ N.Q.mem e s = true ∧ Shown sp (attr e) := by
  cases sp with
  | none => simp [computeSubset, Shown]
  | some sp =>
    unfold computeSubset
    rw [foldl_or_mem N.Q (fun a => a), N.Q.mem_empty]
    simp only [Bool.false_eq_true, false_or, List.mem_filter, inSubset_iff]
    constructor
    · rintro ⟨a, ⟨ha, hs⟩, he⟩
      rw [hd s a ha e he] at hs
      exact ⟨(L.elems_mem s e).2 ⟨a, ha, he⟩, hs⟩
    · rintro ⟨he, hs⟩
      obtain ⟨a, ha, hea⟩ := (L.elems_mem s e).1 he
      refine ⟨a, ⟨ha, ?_⟩, hea⟩
      rwa [hd s a ha e hea]

theorem and_subset_strong (L : N.Lawful Ok Strong Wide) (hA : AnySource N) {a : C} (ha : Strong a) (s : S) :
    Strong (N.K.and a (N.K.or (N.rect (some s) none .any) (N.rect none (some s) .any))) := by
  have r1 := L.net.rect_strong (some s) none .any
  have r2 := L.net.strong_ok (L.net.rect_strong none (some s) .any)
  generalize hf : N.K.or (N.rect (some s) none .any) (N.rect none (some s) .any) = f
  have fo : Ok f := hf ▸ L.net.or_ok (L.net.strong_ok r1) r2
  have fm : ∀ p, N.K.mem p f = true ↔ N.Q.mem (N.src p) s = true ∨ N.Q.mem (N.dst p) s = true := by
    intro p
    rw [← hf, L.net.mem_or (L.net.strong_ok r1) r2, L.net.mem_rect, L.net.mem_rect]
    simp [ProtoSel.sel]
  have ao := L.net.strong_ok ha
  by_cases hft : N.K.truthy f = true
  swap
  · exact L.and_falsy ao fo (by simpa using hft)
  by_cases hat : N.K.truthy a = true
  swap
  · rcases (L.strong_iff.1 ha).2 with h | h
    · exact absurd h hat
    · exact L.and_wide ao fo (Or.inl h)
  by_cases hrt : N.K.truthy (N.K.and a f) = true
  · exact L.net.truthy_strong (L.net.and_ok ao fo) hrt
  obtain ⟨q, hq⟩ := (L.net.truthy_iff ao).1 hat
  have hqf : ¬ N.K.mem q f = true := fun h =>
    hrt ((L.net.truthy_iff (L.net.and_ok ao fo)).2 ⟨q, (mem_and_iff L.net ao fo q).2 ⟨hq, h⟩⟩)
  rw [fm] at hqf
  obtain ⟨p, hp⟩ := (L.net.truthy_iff fo).1 hft
  rw [fm] at hp
  refine L.and_wide ao fo (Or.inr ?_)
  have key : ∀ p, N.Q.mem (N.src p) s = true → Wide f := by
    intro p hp
    obtain ⟨x, hx1, hx2, -, -⟩ := L.splice q p
    obtain ⟨r, hr1, hr2, -, hr3⟩ := L.splice x q
    refine hr3 fo ((fm x).2 (Or.inl (by rw [hx1]; exact hp))) ?_
    rw [← Bool.not_eq_true, fm, hr1, hr2, hx2]
    exact hqf
  rcases hp with hp | hp
  · exact key p hp
  · obtain ⟨p', h'⟩ := hA p
    exact key p' (by rw [h']; exact hp)

/-- Connections of a configuration, without a condition on the configuration. -/
theorem Config.Good.conns_ok {c : Config C S} (G : c.Good N Ok Strong) (L : N.Lawful Ok Strong Wide) :
    Ok (c.conns N none ConnFilter.onlyAllAllowed).allAllowed ∧
    ∀ p, N.K.mem p (c.conns N none ConnFilter.onlyAllAllowed).allAllowed = true ↔ c.allows N p := by
  have hf := onlyAllAllowed_calc.1
  have hT : Tame N.toNet c.peers ConnFilter.onlyAllAllowed := Or.inl onlyAllAllowed_calc.2
  obtain ⟨ho, h1, h2⟩ := configConns_all L.net hT hf c.store.layers (G.B.legal G.legal)
  exact ⟨ho, fun p => ⟨h1 p, h2 p (G.dns_layers p)⟩⟩

theorem connMap_spec {c : Config C S} (G : c.Good N Ok Strong) (L : N.Lawful Ok Strong Wide) (hA : AnySource N)
    {info : S → PeerAttrs} {attr : E → PeerAttrs} (hd : Describes N info attr) (sp : Option SubsetSpec) (excl : Bool)
    (hs : excl = true ∨ c.Solid N) :
    Strong (connMap N excl info sp c) ∧ ∀ p, N.K.mem p (connMap N excl info sp c) = true ↔
      c.allows N p ∧ Relevant N c.peers excl p ∧ (Shown sp (attr (N.src p)) ∨ Shown sp (attr (N.dst p))) := by
  obtain ⟨ao, am⟩ := G.conns_ok L
  have W := G.world
  unfold connMap
  simp only
  generalize ha : (c.conns N none ConnFilter.onlyAllAllowed).allAllowed = a at ao am
  generalize hp : (if excl = true then N.Q.sub (N.Q.or (c.peers.group N.toNet false true) (N.peersOf a)) N.v6
    else N.Q.or (c.peers.group N.toNet false true) (N.peersOf a)) = peers
  have pm : ∀ p, N.K.mem p a = true → (excl = true → N.Q.mem (N.src p) N.v6 = false ∧ N.Q.mem (N.dst p) N.v6 = false) →
      N.Q.mem (N.src p) peers = true ∧ N.Q.mem (N.dst p) peers = true := by
    intro p h hx
    have h1 := L.srcs_sup ao h
    have h2 := L.dsts_sup ao h
    rw [← hp]
    cases excl with
    | false => simp [NetQ.peersOf, N.Q.mem_or, h1, h2]
    | true => simp [NetQ.peersOf, N.Q.mem_or, N.Q.mem_sub, h1, h2, (hx rfl).1, (hx rfl).2]
  generalize hb : (if excl = true then N.K.and a (N.rect (some peers) (some peers) .any) else a) = b
  have hbs : Strong b ∧ ∀ p, N.K.mem p b = true ↔ N.K.mem p a = true ∧
      (excl = true → N.Q.mem (N.src p) N.v6 = false ∧ N.Q.mem (N.dst p) N.v6 = false) := by
    cases excl with
    | false =>
      simp only [Bool.false_eq_true, if_false] at hb
      subst hb
      refine ⟨?_, fun p => by simp⟩
      rw [← ha]
      rcases hs with hs | hs
      · exact absurd hs (by simp)
      · exact (G.conns L none (fun _ => hs)).1
    | true =>
      simp only [if_true] at hb hp
      subst hb
      have ro := L.net.strong_ok (L.net.rect_strong (some peers) (some peers) .any)
      constructor
      · by_cases htr : N.K.truthy (N.rect (some peers) (some peers) .any) = true
        · obtain ⟨p, hpm⟩ := (L.net.truthy_iff ro).1 htr
          obtain ⟨q, hq⟩ := W.six
          refine L.and_wide ao ro (Or.inr (rect_wide L (p := p) (q := q) hpm ?_))
          rw [← hp, N.Q.mem_sub, hq]; simp
        · exact L.and_falsy ao ro (by simpa using htr)
      · intro p
        rw [mem_and_iff L.net ao ro, mem_rect_some L.net]
        simp only [ProtoSel.sel, and_true, true_implies]
        refine and_congr_right fun h => ⟨?_, fun hx => pm p h (fun _ => hx)⟩
        rw [← hp, N.Q.mem_sub, N.Q.mem_sub]
        simp only [Bool.and_eq_true, Bool.not_eq_true']
        exact fun h => ⟨h.1.2, h.2.2⟩
  generalize hc : (if ((N.elems peers).any fun x => !inSubset sp (info x)) = true then
      N.K.and b (N.K.or (N.rect (some (computeSubset N info sp peers)) none .any) (N.rect none (some (computeSubset N info sp peers)) .any))
      else b) = d
  have hcs : Strong d ∧ ∀ p, N.K.mem p d = true ↔ N.K.mem p b = true ∧ (Shown sp (attr (N.src p)) ∨ Shown sp (attr (N.dst p))) := by
    split at hc
    · subst hc
      refine ⟨and_subset_strong L hA hbs.1 _, fun p => ?_⟩
      have r1 := L.net.strong_ok (L.net.rect_strong (some (computeSubset N info sp peers)) none .any)
      have r2 := L.net.strong_ok (L.net.rect_strong none (some (computeSubset N info sp peers)) .any)
      rw [mem_and_iff L.net (L.net.strong_ok hbs.1) (L.net.or_ok r1 r2), L.net.mem_or r1 r2, L.net.mem_rect, L.net.mem_rect]
      simp only [ProtoSel.sel, Bool.and_true, Bool.true_and, Bool.or_eq_true, computeSubset_mem L hd]
      refine and_congr_right fun h => ?_
      have := pm p ((hbs.2 p).1 h).1 ((hbs.2 p).1 h).2
      simp [this.1, this.2]
    · rename_i hall
      subst hc
      refine ⟨hbs.1, fun p => ⟨fun h => ⟨h, Or.inl ?_⟩, fun h => h.1⟩⟩
      have hm := (pm p ((hbs.2 p).1 h).1 ((hbs.2 p).1 h).2).1
      obtain ⟨x, hx, hex⟩ := (L.elems_mem _ _).1 hm
      simp only [List.any_eq_true, Bool.not_eq_true', not_exists, not_and, Bool.not_eq_false] at hall
      have := (inSubset_iff _ _).1 (hall x hx)
      rwa [hd _ x hx _ hex] at this
  have hfin := filterConns_spec L W hcs.1
  refine ⟨hfin.1, fun p => ?_⟩
  rw [hfin.2, hcs.2, hbs.2, am, relevant_excl (excl := excl)]
  tauto

/-- The connectivity map is exact: a connection is shown if and only if the configuration allows it,
it is relevant (not between addresses, not from a DNS entry, not with an excluded IPv6 address), and
one of its ends is in the chosen subset.
If IPv6 addresses are shown, the configuration must allow some connection or have a single layer. -/
theorem C36_map_partial {c : Config C S} (G : c.Good N Ok Strong) (L : N.Lawful Ok Strong Wide) (hA : AnySource N)
    {info : S → PeerAttrs} {attr : E → PeerAttrs} (hd : Describes N info attr) (sp : Option SubsetSpec) (excl : Bool)
    (hs : excl = true ∨ c.Solid N) (p : P) :
    (∃ m ∈ shownMaps N excl info sp c, N.K.mem p m = true) ↔
      c.allows N p ∧ Relevant N c.peers excl p ∧ (Shown sp (attr (N.src p)) ∨ Shown sp (attr (N.dst p))) := by
  have h := connMap_spec G L hA hd sp excl hs
  rw [← h.2 p]
  unfold shownMaps
  simp only
  split
  · have := C36_split L h.1 p
    simp only [List.mem_cons, List.not_mem_nil, or_false, exists_eq_or_imp, exists_eq_left, this.1, this.2]
    cases N.isTcp p <;> simp
  · simp

/-- With Istio layers there are two maps, of the TCP and of the other connections, without common
connections; otherwise there is one map. -/
theorem C36_parts_partial {c : Config C S} (G : c.Good N Ok Strong) (L : N.Lawful Ok Strong Wide) (hA : AnySource N)
    {info : S → PeerAttrs} {attr : E → PeerAttrs} (hd : Describes N info attr) (sp : Option SubsetSpec) (excl : Bool)
    (hs : excl = true ∨ c.Solid N) :
    if ∃ pol ∈ c.store.policies, layerOf pol.kind = .istio ∨ layerOf pol.kind = .istioGateway then
      ∃ m1 m2, shownMaps N excl info sp c = [m1, m2] ∧ ∀ p, (N.K.mem p m1 = true → N.isTcp p = true) ∧ (N.K.mem p m2 = true → N.isTcp p = false)
    else ∃ m, shownMaps N excl info sp c = [m] := by
  have h := connMap_spec G L hA hd sp excl hs
  have hi : hasIstio c.store.layers = true ↔ ∃ pol ∈ c.store.policies, layerOf pol.kind = .istio ∨ layerOf pol.kind = .istioGateway := by
    unfold hasIstio
    rw [List.any_eq_true]
    have B := G.B
    constructor
    · rintro ⟨⟨n, ps⟩, hl, hn⟩
      simp only [Bool.or_eq_true, decide_eq_true_eq] at hn
      have hps := layerList_of_mem B.distinct hl
      by_cases hp : c.store.policies = []
      · rw [B.init hp] at hl
        simp only [initLayers, List.mem_singleton, Prod.mk.injEq] at hl
        rcases hn with h | h <;> exact absurd (hl.1.symm.trans h) (by decide)
      · have hne : layerList c.store.layers n ≠ [] := by rw [hps]; exact B.noEmpty hp _ hl
        obtain ⟨pol, hpol, rfl⟩ := (B.list_ne n).1 hne
        exact ⟨pol, hpol, hn⟩
    · rintro ⟨pol, hpol, hk⟩
      have := layerList_mem ((B.list_ne (layerOf pol.kind)).2 ⟨pol, hpol, rfl⟩)
      refine ⟨_, this, ?_⟩
      simpa using hk
  split
  · rename_i hp
    refine ⟨_, _, by unfold shownMaps; simp only [hi.2 hp, if_true]; rfl, fun p => ?_⟩
    have := C36_split L h.1 p
    exact ⟨fun hm => (this.1.1 hm).2, fun hm => (this.2.1 hm).2⟩
  · rename_i hp
    refine ⟨_, by unfold shownMaps; rw [if_neg (fun h => hp (hi.1 h))]⟩

end
end Verif
