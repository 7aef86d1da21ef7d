import Verif.QuerySpec
/-!
The sets compared by the queries contain exactly the relevant allowed connections.
-/
namespace Verif

section
variable {C P E S : Type} {N : NetQ C P E S} {Ok Strong Wide : C → Prop}

theorem World.work_ip {t : Peers S} (W : World N t) {e : E} (h : t.workload N.toNet e) : N.ip e = false ∧ N.Q.mem e t.dns = false := by
  rcases h with h | h
  · exact W.pods e h
  · exact W.heps e h

theorem verdict_rule {pols : List (Policy C S)} {dir : Bool} {p : P} {a : RuleAction}
    (h : layerVerdict N.toNet pols dir p = some a) : ∃ pol ∈ pols, ∃ r ∈ pol.rules dir, N.K.mem p r.props = true := by
  unfold layerVerdict at h
  obtain ⟨pol, hp, hv⟩ := List.exists_of_findSome?_eq_some h
  refine ⟨pol, hp, ?_⟩
  by_cases hc : pol.captures N.toNet dir (endpoint N.toNet dir p) = true
  · rw [if_pos hc] at hv
    have hany : anyMatch N.toNet p (pol.rules dir) = true → ∃ r ∈ pol.rules dir, N.K.mem p r.props = true := by
      intro h; exact List.any_eq_true.1 h
    have hfirst : ∀ rs : List (Rule C), firstMatch N.toNet p rs = some a → ∃ r ∈ rs, N.K.mem p r.props = true := by
      intro rs
      induction rs with
      | nil => intro h; simp [firstMatch] at h
      | cons r rs ih =>
        intro h
        unfold firstMatch at h
        split at h
        · rename_i h1; exact ⟨r, by simp, h1.2⟩
        · obtain ⟨r', h1, h2⟩ := ih h; exact ⟨r', by simp [h1], h2⟩
    unfold Policy.ruleVerdict at hv
    cases hk : pol.kind <;> rw [hk] at hv <;> simp only at hv
    case calico | calicoGlobal | calicoProfile => exact hfirst _ hv
    all_goals
      by_cases hm : anyMatch N.toNet p (pol.rules dir) = true
      · exact hany hm
      · rw [if_neg hm] at hv; exact absurd hv (by simp)
  · rw [if_neg hc] at hv; exact absurd hv (by simp)

theorem World.workload_ips {t : Peers S} (W : World N t) {e : E} (h : N.ip e = true) : ¬ t.workload N.toNet e := by
  intro hw
  rw [(W.work_ip hw).1] at h; exact absurd h (by simp)

/-- Layers of good configurations allow connections between known peers only. -/
theorem layer_known {t : Peers S} {n : LayerName} {pols : List (Policy C S)}
    (hw : ∀ pol ∈ pols, ∀ dir, ∀ r ∈ pol.rules dir, ∀ p, N.K.mem p r.props = true → t.known N.toNet (N.src p) ∧ t.known N.toNet (N.dst p))
    {p : P} (h : layerAllows N.toNet n pols t p) : t.known N.toNet (N.src p) ∧ t.known N.toNet (N.dst p) := by
  have hv : ∀ {dir a}, layerVerdict N.toNet pols dir p = some a → t.known N.toNet (N.src p) ∧ t.known N.toNet (N.dst p) := by
    intro dir a h
    obtain ⟨pol, h1, r, h2, h3⟩ := verdict_rule h
    exact hw pol h1 dir r h2 p h3
  have hk : ∀ e, t.hasDefault N.toNet e → t.known N.toNet e := by
    intro e h
    exact h.elim (fun h => Or.inl (Or.inl (Or.inl h))) Or.inr
  rcases h.1 with h | h
  · cases n
    case k8sCalico | k8sGateway =>
      rcases h with h | ⟨_, h2, h3⟩
      · exact hv h
      · exact ⟨h3, hk _ h2⟩
    case istio | istioGateway =>
      rcases h with h | ⟨_, h2, h3⟩ | ⟨_, _, h3⟩
      · exact hv h
      · exact ⟨Or.inl h2, Or.inl h3⟩
      · refine ⟨Or.inl h3.1, ?_⟩
        rcases h3.2 with h | h
        · exact Or.inl (Or.inl h)
        · exact Or.inr h.1
  · exact ⟨Or.inl (Or.inl h.1), Or.inl (Or.inr h.2)⟩

/-- The connections a layer allows may stand on the left of a subtraction. -/
theorem layer_strong (L : N.Lawful Ok Strong Wide) {t : Peers S} (W : World N t) (n : LayerName) (pols : List (Policy C S))
    (hl : ∀ pol ∈ pols, pol.Legal N.toNet Strong) (hx : SubExact Ok Strong pols)
    (hs : ∀ pol ∈ pols, ∀ e, N.Q.mem e pol.selected = true → t.workload N.toNet e) (f : ConnFilter) (hf : f.calcAllAllowed = true) :
    Strong (layerConns N.toNet n pols t f).allAllowed := by
  have hspec := (layerConns_spec L.net n pols hl hx t f).2.1 hf
  obtain ⟨x, hx1, hx2, hx3⟩ := W.ext
  obtain ⟨w, hw⟩ := W.work
  by_cases hn : n = .istio ∨ n = .istioGateway
  · apply L.net.truthy_strong hspec.1
    rw [L.net.truthy_iff hspec.1]
    have hnd : N.Q.mem (N.dst x) t.dns = false := by
      rw [← Bool.not_eq_true]; intro h; rw [W.dns _ h] at hx2; exact absurd hx2 (by simp)
    have hi1 : t.nonDns N.toNet (N.src x) := Or.inr ((W.ips _).2 hx1)
    have hi2 : t.nonDns N.toNet (N.dst x) := Or.inr ((W.ips _).2 hx2)
    refine ⟨x, hspec.2.2 x ?_ ?_⟩
    · rcases hn with rfl | rfl <;> exact Or.inr hnd
    · rcases hn with rfl | rfl <;> exact ⟨Or.inl (Or.inr (Or.inl ⟨hx3, hi1, hi2⟩)), Or.inl (Or.inr (Or.inl ⟨hx3, hi1, hi2⟩))⟩
  · have hk : ∀ dir p, layerDirAllows N.toNet n pols t dir p = calicoAllows N.toNet pols t dir p := by
      intro dir p; cases n <;> simp_all [layerDirAllows]
    have hi := layerXgress_spec L.net n pols hl hx true t f
    have he := layerXgress_spec L.net n pols hl hx false t f
    have oi := L.net.strong_ok (hi.2.2.2.1 hf).1
    have oe := L.net.strong_ok (he.2.2.2.1 hf).1
    have o1 := L.net.strong_ok (L.net.rect_strong (some (t.group N.toNet false false)) (some t.ips) .any)
    have o2 := L.net.strong_ok (L.net.rect_strong (some t.ips) (some (t.group N.toNet false false)) .any)
    have heq : (layerConns N.toNet n pols t f).allAllowed =
        N.K.and (N.K.or (layerXgress N.toNet n pols true t f).allAllowed (N.rect (some (t.group N.toNet false false)) (some t.ips) .any))
          (N.K.or (layerXgress N.toNet n pols false t f).allAllowed (N.rect (some t.ips) (some (t.group N.toNet false false)) .any)) := by
      simp only [layerConns, hf, if_true]
    rw [heq]
    refine L.and_wide (L.net.or_ok oi o1) (L.net.or_ok oe o2) (Or.inl ?_)
    -- a workload to an address is there, an address to an address is not
    obtain ⟨y, hy1, hy2, _, _⟩ := L.splice x w
    obtain ⟨z, hz1, hz2, _, hz⟩ := L.splice y x
    refine hz (L.net.or_ok oi o1) ?_ ?_
    · rw [mem_or_iff L.net oi o1, mem_rect_some L.net, Peers.mem_group_ff]
      refine Or.inr ⟨by rw [hy1]; exact hw, by rw [hy2]; exact (W.ips _).2 hx2, rfl⟩
    · rw [← Bool.not_eq_true, mem_or_iff L.net oi o1, mem_rect_some L.net, Peers.mem_group_ff]
      have hd : N.ip (N.dst z) = true := by rw [hz2, hy2]; exact hx2
      rintro (h | h)
      · have := hi.2.2.2.2 hf z h
        rw [hk] at this
        rcases this with h | ⟨_, h, _⟩
        · obtain ⟨pol, h1, h2⟩ := verdict_captured h
          have := hs pol h1 _ (by
            unfold Policy.captures at h2
            rw [Bool.and_eq_true] at h2; exact h2.2)
          exact W.workload_ips hd this
        · rcases h with h | h
          · exact absurd (hd.symm.trans (W.pods _ h).1) (by simp)
          · exact absurd (hd.symm.trans (W.dns _ h)) (by simp)
      · rw [hz1] at h
        exact W.workload_ips hx1 h.1

theorem onlyAllAllowed_calc : ConnFilter.onlyAllAllowed.calcAllAllowed = true ∧ ConnFilter.onlyAllAllowed.calcAllowed = false := by
  decide

namespace Config.Good
variable {c : Config C S}

theorem B (G : c.Good N Ok Strong) : Built c.store.policies c.store := build_built _ G.built

theorem list_mem (G : c.Good N Ok Strong) {n : LayerName} {pol : Policy C S} (h : pol ∈ layerList c.store.layers n) :
    pol ∈ c.store.policies := ((G.B.mem_list n pol).1 h).1

theorem layer_mem (G : c.Good N Ok Strong) {l : LayerName × List (Policy C S)} (hl : l ∈ c.store.layers) {pol : Policy C S} (h : pol ∈ l.2) :
    pol ∈ c.store.policies := by
  obtain ⟨n, a⟩ := l
  have := layerList_of_mem G.B.distinct hl
  subst this
  exact G.list_mem h

theorem dns_layers (G : c.Good N Ok Strong) (p : P) : ∀ l ∈ c.store.layers, DnsOk N.toNet l.1 l.2 c.peers p := by
  rintro ⟨n, a⟩ hm
  have := G.dns n p
  rwa [layerList_of_mem G.B.distinct hm] at this

theorem layerStrong (G : c.Good N Ok Strong) (L : N.Lawful Ok Strong Wide) (n : LayerName) (f : ConnFilter) (hf : f.calcAllAllowed = true) :
    Strong (layerConns N.toNet n (layerList c.store.layers n) c.peers f).allAllowed :=
  layer_strong L G.world n _ (fun pol h => G.legal.legal pol (G.list_mem h)) (G.legal.exact.mono (fun pol h => G.list_mem h))
    (fun pol h => G.selects pol (G.list_mem h)) f hf

/-- The computed connections of a configuration or layer are what it allows. -/
theorem conns (G : c.Good N Ok Strong) (L : N.Lawful Ok Strong Wide) (layer : Option LayerName) (hs : layer = none → c.Solid N) :
    Strong (c.conns N layer ConnFilter.onlyAllAllowed).allAllowed ∧
    ∀ p, N.K.mem p (c.conns N layer ConnFilter.onlyAllAllowed).allAllowed = true ↔ c.allowsIn N layer p := by
  have hf := onlyAllAllowed_calc.1
  cases layer with
  | some n =>
    have heq : c.conns N (some n) ConnFilter.onlyAllAllowed = layerConns N.toNet n (layerList c.store.layers n) c.peers ConnFilter.onlyAllAllowed := by
      simp only [Config.conns, configLayerConns, layerList]
      cases c.store.layers.find? (fun l => l.1 = n) <;> rfl
    rw [heq]
    refine ⟨G.layerStrong L n _ hf, fun p => ?_⟩
    have := (layerConns_spec L.net n (layerList c.store.layers n) (fun pol h => G.legal.legal pol (G.list_mem h))
      (G.legal.exact.mono (fun pol h => G.list_mem h)) c.peers ConnFilter.onlyAllAllowed).2.1 hf
    exact ⟨this.2.1 p, this.2.2 p (G.dns n p)⟩
  | none =>
    have hT : Tame N.toNet c.peers ConnFilter.onlyAllAllowed := Or.inl onlyAllAllowed_calc.2
    obtain ⟨ho, h1, h2⟩ := configConns_all L.net hT hf c.store.layers (G.B.legal G.legal)
    have hmem : ∀ p, N.K.mem p (configConns N.toNet c.peers c.store.layers ConnFilter.onlyAllAllowed).allAllowed = true ↔ c.allows N p :=
      fun p => ⟨h1 p, h2 p (G.dns_layers p)⟩
    refine ⟨?_, hmem⟩
    change Strong (configConns N.toNet c.peers c.store.layers ConnFilter.onlyAllAllowed).allAllowed
    rcases hs rfl with ⟨p, hp⟩ | hlen
    · apply L.net.truthy_strong ho
      rw [L.net.truthy_iff ho]
      exact ⟨p, (hmem p).2 hp⟩
    · have hne : c.store.layers ≠ [] := by
        by_cases hp : c.store.policies = []
        · rw [G.B.init hp]; simp [initLayers]
        · obtain ⟨pol, hpol⟩ := List.exists_mem_of_ne_nil _ hp
          have := layerList_mem ((G.B.list_ne (layerOf pol.kind)).2 ⟨pol, hpol, rfl⟩)
          exact List.ne_nil_of_mem this
      have hh : ¬ (N.Q.truthy c.peers.heps && !(c.store.layers.any (fun l => l.1 = .k8sCalico))) = true := by
        intro hh
        unfold effectiveLayers at hlen
        rw [if_pos hh, List.length_cons] at hlen
        exact hne (List.length_eq_zero_iff.1 (by omega))
      have heff : effectiveLayers N.toNet c.peers c.store.layers = c.store.layers := by
        unfold effectiveLayers; rw [if_neg hh]
      rw [heff] at hlen
      obtain ⟨l, hl⟩ : ∃ l, c.store.layers = [l] := by
        match hcs : c.store.layers, hne, hlen with
        | [l], _, _ => exact ⟨l, rfl⟩
      obtain ⟨n, a⟩ := l
      have ha : layerList c.store.layers n = a := layerList_of_mem G.B.distinct (by rw [hl]; simp)
      have hr : (configConns N.toNet c.peers c.store.layers ConnFilter.onlyAllAllowed).allAllowed =
          N.K.and (N.rect (some (c.peers.group N.toNet true true)) (some (c.peers.group N.toNet true true)) .any)
            (layerConns N.toNet n a c.peers ConnFilter.onlyAllAllowed).allAllowed := by
        simp only [configConns, hh, hf, if_true, Bool.false_eq_true, if_false]
        rw [hl, List.foldl_cons, List.foldl_nil, configStep_all L.net hT hf]
      have ro := L.net.strong_ok (L.net.rect_strong (some (c.peers.group N.toNet true true)) (some (c.peers.group N.toNet true true)) .any)
      have lst := G.layerStrong L n _ hf
      rw [ha] at lst
      have lo := L.net.strong_ok lst
      by_cases htr : N.K.truthy (layerConns N.toNet n a c.peers ConnFilter.onlyAllAllowed).allAllowed = true
      · obtain ⟨p, hp⟩ := (L.net.truthy_iff lo).1 htr
        apply L.net.truthy_strong ho
        rw [L.net.truthy_iff ho, hr]
        refine ⟨p, ?_⟩
        rw [mem_and_iff L.net ro lo, mem_rect_some L.net, Peers.mem_group_tt, Peers.mem_group_tt]
        have hall := ((layerConns_spec L.net n (layerList c.store.layers n) (fun pol h => G.legal.legal pol (G.list_mem h))
          (G.legal.exact.mono (fun pol h => G.list_mem h)) c.peers ConnFilter.onlyAllAllowed).2.1 hf).2.1 p (by rw [ha]; exact hp)
        have hk := layer_known (fun pol h => G.within pol (G.list_mem h)) hall
        exact ⟨⟨hk.1, hk.2, rfl⟩, hp⟩
      · rw [hr]
        exact L.and_falsy ro lo (by simpa using htr)

end Config.Good

/-! ### Filtering -/

theorem rect_wide (L : N.Lawful Ok Strong Wide) {s : S} {d : Option S} {k : ProtoSel} {p q : P}
    (hp : N.K.mem p (N.rect (some s) d k) = true) (hq : N.Q.mem (N.src q) s = false) : Wide (N.rect (some s) d k) := by
  obtain ⟨r, h1, h2, h3, h4⟩ := L.splice p q
  refine h4 (L.net.strong_ok (L.net.rect_strong _ _ _)) hp ?_
  rw [← Bool.not_eq_true, L.net.mem_rect, h1]
  simp [hq]

theorem filterConns_spec (L : N.Lawful Ok Strong Wide) {t : Peers S} (W : World N t) {a : C} (ha : Strong a) :
    Strong (filterConns N.toNet t a) ∧ ∀ p, N.K.mem p (filterConns N.toNet t a) = true ↔ N.K.mem p a = true ∧ Relevant N t false p := by
  obtain ⟨x, hx1, hx2, _⟩ := W.ext
  obtain ⟨w, hw⟩ := W.work
  have r1 := L.net.rect_strong (some t.ips) (some (N.Q.or t.ips t.dns)) .any
  have r2 := L.net.rect_strong (some t.dns) none .any
  have hnw : N.Q.mem (N.src w) t.ips = false := by
    rw [← Bool.not_eq_true, W.ips]; rw [(W.work_ip hw).1]; simp
  have w1 : Wide (N.rect (some t.ips) (some (N.Q.or t.ips t.dns)) .any) := by
    refine rect_wide L (p := x) (q := w) ?_ hnw
    rw [mem_rect_some L.net]
    refine ⟨(W.ips _).2 hx1, ?_, rfl⟩
    rw [N.Q.mem_or, (W.ips _).2 hx2]; rfl
  have s1 := L.sub_wide ha (L.net.strong_ok r1) (Or.inr w1)
  have s2 : Strong (filterConns N.toNet t a) := by
    unfold filterConns
    by_cases htr : N.K.truthy (N.rect (some t.dns) none .any) = true
    · obtain ⟨p, hp⟩ := (L.net.truthy_iff (L.net.strong_ok r2)).1 htr
      refine L.sub_wide s1 (L.net.strong_ok r2) (Or.inr ?_)
      refine rect_wide L (p := p) (q := x) hp ?_
      rw [← Bool.not_eq_true]; intro h; rw [W.dns _ h] at hx1; exact absurd hx1 (by simp)
    · rw [L.net.sub_falsy (by simpa using htr)]
      exact s1
  refine ⟨s2, fun p => ?_⟩
  unfold filterConns Relevant
  rw [mem_sub_iff L.net s1 (L.net.strong_ok r2), mem_sub_iff L.net ha (L.net.strong_ok r1), mem_rect_some L.net, L.net.mem_rect, N.Q.mem_or,
    Bool.or_eq_true, W.ips, W.ips]
  simp only [ProtoSel.sel, Bool.and_true, Bool.not_eq_true, and_true, Bool.false_eq_true, false_implies]
  tauto

theorem connsFilter_excl (excl : Bool) (a b : C) : connsFilter N excl a b =
    if excl then N.rect (some (N.Q.sub (N.Q.or (N.peersOf a) (N.peersOf b)) N.v6)) (some (N.Q.sub (N.Q.or (N.peersOf a) (N.peersOf b)) N.v6)) .any
    else N.all := rfl

/-- The filter keeps the connections of either set that are not with excluded addresses. -/
theorem and_connsFilter (L : N.Lawful Ok Strong Wide) {t : Peers S} (W : World N t) (excl : Bool) {a b x : C} (ha : Ok a) (hb : Ok b) (hx : Strong x)
    (hsub : ∀ p, N.K.mem p x = true → N.K.mem p a = true ∨ N.K.mem p b = true) :
    Strong (N.K.and x (connsFilter N excl a b)) ∧ ∀ p, N.K.mem p (N.K.and x (connsFilter N excl a b)) = true ↔
      N.K.mem p x = true ∧ (excl = true → N.Q.mem (N.src p) N.v6 = false ∧ N.Q.mem (N.dst p) N.v6 = false) := by
  rw [connsFilter_excl]
  cases excl with
  | false =>
    simp only [Bool.false_eq_true, if_false]
    rw [L.and_all]
    exact ⟨hx, fun p => by simp⟩
  | true =>
    simp only [if_true]
    generalize hs : N.Q.sub (N.Q.or (N.peersOf a) (N.peersOf b)) N.v6 = s
    have ro := L.net.strong_ok (L.net.rect_strong (some s) (some s) .any)
    have xo := L.net.strong_ok hx
    constructor
    · by_cases htr : N.K.truthy (N.rect (some s) (some s) .any) = true
      · obtain ⟨p, hp⟩ := (L.net.truthy_iff ro).1 htr
        obtain ⟨q, hq⟩ := W.six
        refine L.and_wide xo ro (Or.inr (rect_wide L (p := p) (q := q) hp ?_))
        rw [← hs, N.Q.mem_sub, hq]; simp
      · exact L.and_falsy xo ro (by simpa using htr)
    · intro p
      rw [mem_and_iff L.net xo ro, mem_rect_some L.net, ← hs, N.Q.mem_sub, N.Q.mem_sub]
      simp only [ProtoSel.sel, and_true, Bool.and_eq_true, Bool.not_eq_true', true_implies]
      constructor
      · rintro ⟨h1, h2, h3⟩; exact ⟨h1, h2.2, h3.2⟩
      · rintro ⟨h1, h2, h3⟩
        refine ⟨h1, ⟨?_, h2⟩, ⟨?_, h3⟩⟩
        all_goals
          unfold NetQ.peersOf
          simp only [N.Q.mem_or, Bool.or_eq_true]
          rcases hsub p h1 with h | h
        · exact Or.inl (Or.inl (L.srcs_sup ha h))
        · exact Or.inr (Or.inl (L.srcs_sup hb h))
        · exact Or.inl (Or.inr (L.dsts_sup ha h))
        · exact Or.inr (Or.inr (L.dsts_sup hb h))

theorem relevant_excl {t : Peers S} {excl : Bool} {p : P} : Relevant N t excl p ↔
    Relevant N t false p ∧ (excl = true → N.Q.mem (N.src p) N.v6 = false ∧ N.Q.mem (N.dst p) N.v6 = false) := by
  unfold Relevant; simp [and_assoc]

/-- The two sets queries compare: the relevant connections of each. -/
theorem filterBoth_spec (L : N.Lawful Ok Strong Wide) (excl : Bool) {c1 c2 : Config C S} (W1 : World N c1.peers) (W2 : World N c2.peers)
    {a b : C} (ha : Strong a) (hb : Strong b) :
    (Strong (filterBoth N excl c1 c2 a b).1 ∧ ∀ p, N.K.mem p (filterBoth N excl c1 c2 a b).1 = true ↔ N.K.mem p a = true ∧ Relevant N c1.peers excl p) ∧
    (Strong (filterBoth N excl c1 c2 a b).2 ∧ ∀ p, N.K.mem p (filterBoth N excl c1 c2 a b).2 = true ↔ N.K.mem p b = true ∧ Relevant N c2.peers excl p) := by
  have f1 := filterConns_spec L W1 ha
  have f2 := filterConns_spec L W2 hb
  have g1 := and_connsFilter L W1 excl (L.net.strong_ok ha) (L.net.strong_ok hb) f1.1 (fun p h => Or.inl ((f1.2 p).1 h).1)
  have g2 := and_connsFilter L W1 excl (L.net.strong_ok ha) (L.net.strong_ok hb) f2.1 (fun p h => Or.inr ((f2.2 p).1 h).1)
  refine ⟨⟨g1.1, fun p => ?_⟩, ⟨g2.1, fun p => ?_⟩⟩
  · rw [relevant_excl, ← and_assoc, ← f1.2 p]; exact g1.2 p
  · rw [relevant_excl, ← and_assoc, ← f2.2 p]; exact g2.2 p

end
end Verif
