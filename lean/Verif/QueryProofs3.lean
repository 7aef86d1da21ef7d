import Verif.QueryProofs2
/-!
The comparisons made by the queries, the explicitly allowed connections, and configurations with part
of the policies.
-/
namespace Verif

section
variable {C P E S : Type} {N : NetQ C P E S} {Ok Strong Wide : C → Prop}

/-- All the tests queries make on a pair of filtered sets. -/
structure Compared (N : NetQ C P E S) (Strong : C → Prop) (x y : C) (A B : P → Prop) : Prop where
  sx : Strong x
  sy : Strong y
  mx : ∀ p, N.K.mem p x = true ↔ A p
  my : ∀ p, N.K.mem p y = true ↔ B p

namespace Compared
variable {x y : C} {A B : P → Prop}

theorem contained (K : Compared N Strong x y A B) (L : N.Lawful Ok Strong Wide) : N.K.contained x y = true ↔ ∀ p, A p → B p := by
  rw [L.net.contained_iff (L.net.strong_ok K.sx) (L.net.strong_ok K.sy)]
  simp only [K.mx, K.my]

theorem sub (K : Compared N Strong x y A B) (L : N.Lawful Ok Strong Wide) (p : P) : N.K.mem p (N.K.sub x y) = true ↔ A p ∧ ¬ B p := by
  rw [mem_sub_iff L.net K.sx (L.net.strong_ok K.sy), K.mx, K.my]

theorem sub' (K : Compared N Strong x y A B) (L : N.Lawful Ok Strong Wide) (p : P) : N.K.mem p (N.K.sub y x) = true ↔ B p ∧ ¬ A p := by
  rw [mem_sub_iff L.net K.sy (L.net.strong_ok K.sx), K.mx, K.my]

theorem eq (K : Compared N Strong x y A B) (L : N.Lawful Ok Strong Wide) (h : N.K.eq x y = true) (p : P) : A p ↔ B p := by
  rw [← K.mx, ← K.my, L.net.eq_sound (L.net.strong_ok K.sx) (L.net.strong_ok K.sy) h]

theorem and (K : Compared N Strong x y A B) (L : N.Lawful Ok Strong Wide) :
    Ok (N.K.and x y) ∧ (∀ p, N.K.mem p (N.K.and x y) = true ↔ A p ∧ B p) ∧ (N.K.truthy (N.K.and x y) = true ↔ ∃ p, A p ∧ B p) := by
  have ho := L.net.and_ok (L.net.strong_ok K.sx) (L.net.strong_ok K.sy)
  have hm : ∀ p, N.K.mem p (N.K.and x y) = true ↔ A p ∧ B p := fun p => by
    rw [mem_and_iff L.net (L.net.strong_ok K.sx) (L.net.strong_ok K.sy), K.mx, K.my]
  refine ⟨ho, hm, ?_⟩
  rw [L.net.truthy_iff ho]
  simp only [hm]

end Compared

theorem compared (L : N.Lawful Ok Strong Wide) (excl : Bool) {c1 c2 : Config C S} (W1 : World N c1.peers) (W2 : World N c2.peers)
    {a b : C} {A B : P → Prop} (ha : Strong a ∧ ∀ p, N.K.mem p a = true ↔ A p) (hb : Strong b ∧ ∀ p, N.K.mem p b = true ↔ B p) :
    Compared N Strong (filterBoth N excl c1 c2 a b).1 (filterBoth N excl c1 c2 a b).2
      (fun p => A p ∧ Relevant N c1.peers excl p) (fun p => B p ∧ Relevant N c2.peers excl p) := by
  have h := filterBoth_spec L excl W1 W2 ha.1 hb.1
  exact ⟨h.1.1, h.2.1, fun p => by rw [h.1.2, ha.2], fun p => by rw [h.2.2, hb.2]⟩

/-! ### Explicitly allowed connections -/

theorem onlyAllowed_calc : ConnFilter.onlyAllowed.calcAllAllowed = true ∧ ConnFilter.onlyAllowed.calcAllowed = true := by
  decide

/-- The configuration explicitly allows some connection, or has a single layer. -/
def Config.SolidX (N : NetQ C P E S) (c : Config C S) : Prop := (∃ p, c.explicit N p) ∨ c.store.layers.length ≤ 1

theorem Config.Good.explicitConns {c : Config C S} (G : c.Good N Ok Strong) (L : N.Lawful Ok Strong Wide)
    (hheps : ∀ e, N.Q.mem e c.peers.heps = false) (hs : c.SolidX N) :
    Strong (c.conns N none ConnFilter.onlyAllowed).allowed ∧
    ∀ p, N.K.mem p (c.conns N none ConnFilter.onlyAllowed).allowed = true ↔ c.explicit N p := by
  obtain ⟨hall, ha⟩ := onlyAllowed_calc
  have hh : N.Q.truthy c.peers.heps = false := by
    rw [← Bool.not_eq_true, N.Q.truthy_iff]
    rintro ⟨e, he⟩
    rw [hheps e] at he; exact absurd he (by simp)
  have hl := G.B.legal G.legal
  obtain ⟨ho, h1, h2⟩ := configConns_allowed L.net c.peers ha hall hh c.store.layers hl
  have hmem : ∀ p, N.K.mem p (configConns N.toNet c.peers c.store.layers ConnFilter.onlyAllowed).allowed = true ↔ c.explicit N p :=
    fun p => ⟨h1 p, fun h => h2 p (G.dns_layers p) h.1 h.2⟩
  refine ⟨?_, hmem⟩
  change Strong (configConns N.toNet c.peers c.store.layers ConnFilter.onlyAllowed).allowed
  by_cases hx : ∃ p, c.explicit N p
  · obtain ⟨p, hp⟩ := hx
    apply L.net.truthy_strong ho
    rw [L.net.truthy_iff ho]
    exact ⟨p, (hmem p).2 hp⟩
  · have hlen := hs.resolve_left hx
    have hI : (N.Q.truthy c.peers.heps && !(c.store.layers.any (fun l => l.1 = .k8sCalico))) = false := by rw [hh]; rfl
    have heff : effectiveLayers N.toNet c.peers c.store.layers = c.store.layers := by unfold effectiveLayers; rw [hI]; simp
    have hT : Tame N.toNet c.peers ConnFilter.onlyAllowed := Or.inr hh
    obtain ⟨ao, a1, a2⟩ := configConns_all L.net hT hall c.store.layers hl
    have hr : (configConns N.toNet c.peers c.store.layers ConnFilter.onlyAllowed).allowed = N.K.and
        (c.store.layers.foldl (configStep N.toNet c.peers ConnFilter.onlyAllowed (N.K.or (N.rect (some c.peers.heps) none .any) (N.rect none (some c.peers.heps) .any)))
          { emptyConns N.toNet with allAllowed := N.rect (some (c.peers.group N.toNet true true)) (some (c.peers.group N.toNet true true)) .any }).allowed
        (configConns N.toNet c.peers c.store.layers ConnFilter.onlyAllowed).allAllowed := by
      simp only [configConns, hI, ha, hall, if_true, Bool.false_eq_true, if_false]
    generalize hR : (c.store.layers.foldl (configStep N.toNet c.peers ConnFilter.onlyAllowed (N.K.or (N.rect (some c.peers.heps) none .any) (N.rect none (some c.peers.heps) .any)))
          { emptyConns N.toNet with allAllowed := N.rect (some (c.peers.group N.toNet true true)) (some (c.peers.group N.toNet true true)) .any }).allowed = R at hr
    have key : Strong R ∧ ∀ p, N.K.mem p R = true → c.explicit N p := by
      match hcl : c.store.layers, hlen with
      | [], _ =>
        rw [hcl, List.foldl_nil] at hR
        rw [← hR]
        refine ⟨L.net.empty_strong, fun p hp => ?_⟩
        change N.K.mem p N.K.empty = true at hp
        rw [L.net.mem_empty] at hp; exact absurd hp (by simp)
      | [l], _ =>
        rw [hcl, List.foldl_cons, List.foldl_nil] at hR
        have hlm : l ∈ c.store.layers := by rw [hcl]; simp
        obtain ⟨s1, s2, s3⟩ := (layerConns_spec L.net l.1 l.2 (hl.legal l hlm) (hl.exact l hlm) c.peers ConnFilter.onlyAllowed).2.2.2 ha hall
        have he : R = N.K.or N.K.empty (layerConns N.toNet l.1 l.2 c.peers ConnFilter.onlyAllowed).allowed := by
          rw [← hR]
          unfold configStep
          simp only [ha, if_true]
          rw [subByFilter_falsy L.net _ (connHep_falsy L.net hh)]
          split <;> rfl
        rw [he]
        refine ⟨L.net.or_strong L.net.empty_strong s1, fun p hp => ?_⟩
        rw [mem_or_iff L.net (L.net.strong_ok L.net.empty_strong) s1, L.net.mem_empty] at hp
        have hp' := hp.resolve_left (by simp)
        obtain ⟨hla, hex⟩ := s2 p hp'
        have hkn := layer_known (fun pol h => G.within pol (G.layer_mem hlm h)) hla
        refine ⟨⟨hkn.1, hkn.2, ?_⟩, ⟨l, hlm, hex⟩⟩
        rw [heff, hcl]
        intro l' hl'
        simp only [List.mem_singleton] at hl'
        subst hl'; exact hla
    have hf : ¬ N.K.truthy R = true := by
      rw [L.net.truthy_iff (L.net.strong_ok key.1)]
      rintro ⟨p, hp⟩
      exact hx ⟨p, key.2 p hp⟩
    rw [hr]
    exact L.and_wide (L.net.strong_ok key.1) ao (Or.inl (((L.strong_iff).1 key.1).2.resolve_left hf))

/-! ### Configurations with part of the policies -/

theorem build_sublist {ps qs : List (Policy C S)} (h : ps.Sublist qs) {st : PolicyStore C S} (hb : PolicyStore.build qs = some st) :
    ∃ st', PolicyStore.build ps = some st' := by
  rw [build_some_iff]
  exact ((build_some_iff qs).1 ⟨st, hb⟩).sublist h

/-- Dropping policies gives a good configuration. -/
theorem Config.Good.part {c : Config C S} (G : c.Good N Ok Strong) {ps : List (Policy C S)} (h : ps.Sublist c.store.policies) :
    ∃ st, PolicyStore.build ps = some st ∧ ({ c with store := st } : Config C S).Good N Ok Strong ∧ st.policies = ps := by
  obtain ⟨st, hst⟩ := build_sublist h G.built
  have hB := build_built _ hst
  have hp := hB.policies
  refine ⟨st, hst, ?_, hp⟩
  refine ⟨by rw [hp]; exact hst, ⟨fun pol hm => G.legal.legal pol (h.subset (by rw [← hp]; exact hm)),
    G.legal.exact.mono (fun pol hm => h.subset (by rw [← hp]; exact hm))⟩, G.world,
    fun pol hm => G.within pol (h.subset (by rw [← hp]; exact hm)), fun pol hm => G.selects pol (h.subset (by rw [← hp]; exact hm)), ?_⟩
  intro n p
  have hsub : ∀ pol ∈ layerList st.layers n, pol ∈ layerList c.store.layers n := by
    intro pol hm
    obtain ⟨h1, h2⟩ := (hB.mem_list n pol).1 hm
    exact (G.B.mem_list n pol).2 ⟨h.subset h1, h2⟩
  have hopen : SomeOpen N.toNet (layerList c.store.layers n) c.peers → SomeOpen N.toNet (layerList st.layers n) c.peers := by
    rintro ⟨e, he, ho⟩
    exact ⟨e, he, fun pol hm => ho pol (hsub pol hm)⟩
  have := G.dns n p
  cases n
  case k8sCalico | k8sGateway => trivial
  case istio | istioGateway => exact this.imp hopen id

theorem withPolicies_part {c : Config C S} (G : c.Good N Ok Strong) {ps : List (Policy C S)} (h : ps.Sublist c.store.policies) :
    ∃ c', c.withPolicies ps = some c' ∧ c'.Good N Ok Strong ∧ c'.peers = c.peers ∧ c'.services = c.services ∧ c'.store.policies = ps := by
  obtain ⟨st, h1, h2, h3⟩ := G.part h
  exact ⟨_, by unfold Config.withPolicies; rw [h1]; rfl, h2, rfl, rfl, h3⟩

/-- `withoutGateways` drops exactly the Ingress and Gateway policies. -/
theorem withoutGateways_spec {c : Config C S} (G : c.Good N Ok Strong) :
    ∃ g, c.withoutGateways = some g ∧ g.Good N Ok Strong ∧ g.peers = c.peers ∧ g.services = c.services ∧
      g.store.policies = c.store.policies.filter (fun q => decide (q.kind ≠ .ingress ∧ q.kind ≠ .gateway)) := by
  have hfun : (fun q : Policy C S => !q.isGateway) = (fun q => decide (q.kind ≠ .ingress ∧ q.kind ≠ .gateway)) := by
    funext q
    unfold Policy.isGateway
    cases q.kind <;> simp [PolicyKind.cls]
  unfold Config.withoutGateways
  split
  · rw [hfun]
    exact withPolicies_part G List.filter_sublist
  · rename_i hno
    refine ⟨c, rfl, G, rfl, rfl, ?_⟩
    symm
    rw [List.filter_eq_self]
    intro q hq
    by_contra hk
    apply hno
    rw [List.any_eq_true]
    have hm := (G.B.mem_list (layerOf q.kind) q).2 ⟨hq, rfl⟩
    refine ⟨(layerOf q.kind, layerList c.store.layers (layerOf q.kind)), layerList_mem (List.ne_nil_of_mem hm), ?_⟩
    have hne : (layerList c.store.layers (layerOf q.kind)).isEmpty = false := by
      rw [← Bool.not_eq_true, List.isEmpty_iff]; exact List.ne_nil_of_mem hm
    cases hkk : q.kind <;> simp_all [layerOf]

end
end Verif
