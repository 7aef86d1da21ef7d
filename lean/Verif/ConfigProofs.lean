import Verif.LayerProofs
/-! Proofs about the remaining fields of a configuration's result, and about filters. -/
namespace Verif

section
variable {C P E S : Type} {N : Net C P E S} {Ok Strong : C → Prop}

/-! ### Denied and captured -/

theorem layerConns_denied_strong (L : N.Lawful Ok Strong) (n : LayerName) (pols : List (Policy C S)) (hl : ∀ pol ∈ pols, pol.Legal N Strong)
    (hx : SubExact Ok Strong pols) (t : Peers S) {f : ConnFilter} (hf : f.calcDenied = true) : Strong (layerConns N n pols t f).denied := by
  obtain ⟨_, _, di, _, _⟩ := layerXgress_spec L n pols hl hx true t f
  obtain ⟨_, _, de, _, _⟩ := layerXgress_spec L n pols hl hx false t f
  have : (layerConns N n pols t f).denied = N.K.or (layerXgress N n pols true t f).denied (layerXgress N n pols false t f).denied := by
    simp only [layerConns, hf, if_true]
  rw [this]
  exact L.or_strong di.1 (L.strong_ok de.1)

theorem mem_connHep (L : N.Lawful Ok Strong) (t : Peers S) (p : P) :
    N.K.mem p (N.K.or (N.rect (some t.heps) none .any) (N.rect none (some t.heps) .any)) = true ↔
      N.Q.mem (N.src p) t.heps = true ∨ N.Q.mem (N.dst p) t.heps = true := by
  have o1 := L.strong_ok (L.rect_strong (some t.heps) none .any)
  have o2 := L.strong_ok (L.rect_strong none (some t.heps) .any)
  rw [mem_or_iff L o1 o2, L.mem_rect, L.mem_rect]
  simp [ProtoSel.sel]

theorem connHep_ok (L : N.Lawful Ok Strong) (t : Peers S) :
    Ok (N.K.or (N.rect (some t.heps) none .any) (N.rect none (some t.heps) .any)) :=
  L.or_ok (L.strong_ok (L.rect_strong _ _ _)) (L.strong_ok (L.rect_strong _ _ _))

/-- `denied_conns` of a configuration. -/
theorem configConns_denied (L : N.Lawful Ok Strong) (t : Peers S) {f : ConnFilter} (hf : f.calcDenied = true)
    (layers : Layers C S) (hl : LegalLayers N Ok Strong layers) :
    Ok (configConns N t layers f).denied ∧
    ∀ p, N.K.mem p (configConns N t layers f).denied = true ↔ configDenies N t layers p := by
  have hfold : ∀ (layers : Layers C S) (res : PolicyConns C S), LegalLayers N Ok Strong layers → Ok res.denied →
      let r := layers.foldl (configStep N t f (N.K.or (N.rect (some t.heps) none .any) (N.rect none (some t.heps) .any))) res
      Ok r.denied ∧ ∀ p, N.K.mem p r.denied = true ↔ N.K.mem p res.denied = true ∨ configDenies N t layers p := by
    intro layers
    induction layers with
    | nil => intro res _ ho; exact ⟨ho, fun p => ⟨Or.inl, fun h => h.elim id (fun ⟨l, h, _⟩ => absurd h (by simp))⟩⟩
    | cons l layers ih =>
      intro res hl ho
      have hs := (layerConns_spec L l.1 l.2 (hl.legal l (by simp)) (hl.exact l (by simp)) t f).2.2.1 hf
      have hst := layerConns_denied_strong L l.1 l.2 (hl.legal l (by simp)) (hl.exact l (by simp)) t hf
      have hd : ∃ d, (configStep N t f (N.K.or (N.rect (some t.heps) none .any) (N.rect none (some t.heps) .any)) res l).denied =
          N.K.or res.denied d ∧ Ok d ∧ ∀ p, N.K.mem p d = true ↔
            ((l.1 ≠ .k8sCalico → N.Q.mem (N.src p) t.heps = false ∧ N.Q.mem (N.dst p) t.heps = false) ∧
            (layerVerdict N l.2 true p = some .deny ∨ layerVerdict N l.2 false p = some .deny)) := by
        unfold configStep
        simp only [hf, if_true]
        by_cases hc : l.1 ≠ .k8sCalico
        · have hfr : f.replaceAllAllowedFalse.calcDenied = true := by simpa [ConnFilter.replaceAllAllowedFalse, ConnFilter.make] using hf
          refine ⟨N.K.sub (layerConns N l.1 l.2 t f).denied (N.K.or (N.rect (some t.heps) none .any) (N.rect none (some t.heps) .any)), ?_,
            L.sub_ok hst (connHep_ok L t), fun p => ?_⟩
          · rw [if_pos hc]
            simp [PolicyConns.subByFilter, hfr]
          · rw [mem_sub_iff L hst (connHep_ok L t), mem_connHep L, hs.2]
            simp only [not_or, Bool.not_eq_true]
            tauto
        · refine ⟨(layerConns N l.1 l.2 t f).denied, by rw [if_neg hc], hs.1, fun p => ?_⟩
          rw [hs.2]; tauto
      obtain ⟨d, hd1, hd2, hd3⟩ := hd
      obtain ⟨i1, i2⟩ := ih _ ⟨fun l' h' => hl.legal l' (by simp [h']), fun l' h' => hl.exact l' (by simp [h'])⟩
        (by rw [hd1]; exact L.or_ok ho hd2)
      refine ⟨i1, fun p => (i2 p).trans ?_⟩
      rw [hd1, mem_or_iff L ho hd2, hd3]
      unfold configDenies
      simp only [List.mem_cons, exists_eq_or_imp]
      rw [or_assoc]
  have hempty : ∀ p, ¬ N.K.mem p N.K.empty = true := fun p => by rw [L.mem_empty]; simp
  -- the initial value denies nothing
  have hinit : ∀ b : Bool, ∃ i : PolicyConns C S, (configConns N t layers f).denied =
      (layers.foldl (configStep N t f (N.K.or (N.rect (some t.heps) none .any) (N.rect none (some t.heps) .any))) i).denied ∧
      Ok i.denied ∧ ∀ p, ¬ N.K.mem p i.denied = true := by
    intro _
    by_cases hh : (N.Q.truthy t.heps && !(layers.any (fun l => l.1 = .k8sCalico))) = true
    · refine ⟨_, by simp only [configConns, hh, if_true]; rfl, ?_⟩
      have hfr : f.replaceAllAllowedFalse.calcDenied = true := by simpa [ConnFilter.replaceAllAllowedFalse, ConnFilter.make] using hf
      have hs := (layerConns_spec L .k8sCalico ([] : List (Policy C S)) (by simp) (Or.inr (by intro p hp; simp at hp)) t f).2.2.1 hf
      simp only [PolicyConns.andByFilter, hfr, if_true]
      refine ⟨L.and_ok hs.1 (connHep_ok L t), fun p h => ?_⟩
      rw [mem_and_iff L hs.1 (connHep_ok L t), hs.2] at h
      simp [layerVerdict] at h
    · refine ⟨_, by simp only [configConns, hh, Bool.false_eq_true, if_false]; rfl, L.strong_ok L.empty_strong, hempty⟩
  obtain ⟨i, h1, h2, h3⟩ := hinit true
  obtain ⟨f1, f2⟩ := hfold layers i hl h2
  rw [h1]
  refine ⟨f1, fun p => (f2 p).trans ?_⟩
  have := h3 p
  tauto

/-- `captured` of a configuration. -/
theorem configConns_captured (L : N.Lawful Ok Strong) (t : Peers S) (f : ConnFilter)
    (layers : Layers C S) (hl : LegalLayers N Ok Strong layers) (e : E) :
    N.Q.mem e (configConns N t layers f).captured = true ↔
      ∃ l ∈ layers, layerCaptures N l.1 l.2 true e ∨ layerCaptures N l.1 l.2 false e := by
  have hfold : ∀ (layers : Layers C S) (res : PolicyConns C S), LegalLayers N Ok Strong layers →
      (N.Q.mem e (layers.foldl (configStep N t f (N.K.or (N.rect (some t.heps) none .any) (N.rect none (some t.heps) .any))) res).captured = true ↔
        N.Q.mem e res.captured = true ∨ ∃ l ∈ layers, layerCaptures N l.1 l.2 true e ∨ layerCaptures N l.1 l.2 false e) := by
    intro layers
    induction layers with
    | nil => intro res _; simp
    | cons l layers ih =>
      intro res hl
      have hs := (layerConns_spec L l.1 l.2 (hl.legal l (by simp)) (hl.exact l (by simp)) t f).1 e
      rw [List.foldl_cons, ih _ ⟨fun l' h' => hl.legal l' (by simp [h']), fun l' h' => hl.exact l' (by simp [h'])⟩]
      have : (configStep N t f (N.K.or (N.rect (some t.heps) none .any) (N.rect none (some t.heps) .any)) res l).captured =
          N.Q.or res.captured (layerConns N l.1 l.2 t f).captured := by
        unfold configStep
        dsimp only
        split
        · simp [PolicyConns.subByFilter]
        · rfl
      rw [this, N.Q.mem_or, Bool.or_eq_true, hs]
      simp only [List.mem_cons, exists_eq_or_imp]
      rw [or_assoc]
  by_cases hh : (N.Q.truthy t.heps && !(layers.any (fun l => l.1 = .k8sCalico))) = true
  · have : (configConns N t layers f).captured = (layers.foldl (configStep N t f (N.K.or (N.rect (some t.heps) none .any) (N.rect none (some t.heps) .any)))
        ((layerConns N .k8sCalico [] t f).andByFilter N (N.K.or (N.rect (some t.heps) none .any) (N.rect none (some t.heps) .any)) f.replaceAllAllowedFalse)).captured := by
      simp only [configConns, hh, if_true]
    rw [this, hfold layers _ hl]
    have hs := (layerConns_spec L .k8sCalico ([] : List (Policy C S)) (by simp) (Or.inr (by intro p hp; simp at hp)) t f).1 e
    simp only [PolicyConns.andByFilter, hs]
    simp [layerCaptures]
  · have : (configConns N t layers f).captured = (layers.foldl (configStep N t f (N.K.or (N.rect (some t.heps) none .any) (N.rect none (some t.heps) .any)))
        { emptyConns N with allAllowed := if f.calcAllAllowed then N.rect (some (t.group N true true)) (some (t.group N true true)) .any else N.K.empty }).captured := by
      simp only [configConns, hh, Bool.false_eq_true, if_false]
    rw [this, hfold layers _ hl]
    simp [emptyConns, N.Q.mem_empty]

/-- `allowed_conns` of a configuration without host endpoints. -/
theorem configConns_allowed (L : N.Lawful Ok Strong) (t : Peers S) {f : ConnFilter} (ha : f.calcAllowed = true) (hall : f.calcAllAllowed = true)
    (hh : N.Q.truthy t.heps = false) (layers : Layers C S) (hl : LegalLayers N Ok Strong layers) :
    Ok (configConns N t layers f).allowed ∧
    (∀ p, N.K.mem p (configConns N t layers f).allowed = true → configAllows N t layers p ∧ configDecides N t layers p) ∧
    (∀ p, (∀ l ∈ layers, DnsOk N l.1 l.2 t p) → configAllows N t layers p → configDecides N t layers p →
      N.K.mem p (configConns N t layers f).allowed = true) := by
  have hfold : ∀ (layers : Layers C S) (res : PolicyConns C S), LegalLayers N Ok Strong layers → Ok res.allowed →
      let r := layers.foldl (configStep N t f (N.K.or (N.rect (some t.heps) none .any) (N.rect none (some t.heps) .any))) res
      Ok r.allowed ∧
      (∀ p, N.K.mem p r.allowed = true → N.K.mem p res.allowed = true ∨ configDecides N t layers p) ∧
      (∀ p, (∀ l ∈ layers, DnsOk N l.1 l.2 t p ∧ layerAllows N l.1 l.2 t p) → (N.K.mem p res.allowed = true ∨ configDecides N t layers p) →
        N.K.mem p r.allowed = true) := by
    intro layers
    induction layers with
    | nil => intro res _ ho; exact ⟨ho, fun p h => Or.inl h, fun p _ h => h.elim id (fun ⟨l, h, _⟩ => absurd h (by simp))⟩
    | cons l layers ih =>
      intro res hl ho
      obtain ⟨s1, s2, s3⟩ := (layerConns_spec L l.1 l.2 (hl.legal l (by simp)) (hl.exact l (by simp)) t f).2.2.2 ha hall
      have he : (configStep N t f (N.K.or (N.rect (some t.heps) none .any) (N.rect none (some t.heps) .any)) res l).allowed =
          N.K.or res.allowed (layerConns N l.1 l.2 t f).allowed := by
        unfold configStep
        simp only [ha, if_true]
        rw [subByFilter_falsy L _ (connHep_falsy L hh)]
        split <;> rfl
      obtain ⟨i1, i2, i3⟩ := ih _ ⟨fun l' h' => hl.legal l' (by simp [h']), fun l' h' => hl.exact l' (by simp [h'])⟩
        (by rw [he]; exact L.or_ok ho s1)
      refine ⟨i1, fun p hp => ?_, fun p hd hp => ?_⟩
      · have := i2 p hp
        rw [he, mem_or_iff L ho s1] at this
        rcases this with (h | h) | ⟨l', h', h⟩
        · exact Or.inl h
        · exact Or.inr ⟨l, by simp, (s2 p h).2⟩
        · exact Or.inr ⟨l', by simp [h'], h⟩
      · apply i3 p (fun l' h' => hd l' (by simp [h']))
        rw [he, mem_or_iff L ho s1]
        rcases hp with h | ⟨l', h', h⟩
        · exact Or.inl (Or.inl h)
        · rcases List.mem_cons.1 h' with rfl | h'
          · exact Or.inl (Or.inr (s3 p (hd _ (by simp)).1 ⟨(hd _ (by simp)).2, h⟩))
          · exact Or.inr ⟨l', h', h⟩
  obtain ⟨a1, a2, a3⟩ := configConns_all L (Or.inr hh : Tame N t f) hall layers hl
  have hI : (N.Q.truthy t.heps && !(layers.any (fun l => l.1 = .k8sCalico))) = false := by rw [hh]; rfl
  have heff : effectiveLayers N t layers = layers := by unfold effectiveLayers; rw [hI]; simp
  obtain ⟨f1, f2, f3⟩ := hfold layers { emptyConns N with allAllowed := N.rect (some (t.group N true true)) (some (t.group N true true)) .any } hl
    (L.strong_ok L.empty_strong)
  have hr : (configConns N t layers f).allowed = N.K.and
      (layers.foldl (configStep N t f (N.K.or (N.rect (some t.heps) none .any) (N.rect none (some t.heps) .any)))
        { emptyConns N with allAllowed := N.rect (some (t.group N true true)) (some (t.group N true true)) .any }).allowed
      (configConns N t layers f).allAllowed := by
    simp only [configConns, hI, ha, hall, if_true, Bool.false_eq_true, if_false]
  rw [hr]
  refine ⟨L.and_ok f1 a1, fun p hp => ?_, fun p hd h1 h2 => ?_⟩
  · rw [mem_and_iff L f1 a1] at hp
    refine ⟨a2 p hp.2, (f2 p hp.1).resolve_left ?_⟩
    change ¬ N.K.mem p N.K.empty = true
    rw [L.mem_empty]; simp
  · rw [mem_and_iff L f1 a1]
    refine ⟨f3 p (fun l hl => ⟨hd l hl, ?_⟩) (Or.inr h2), a3 p hd h1⟩
    have := h1.2.2
    rw [heff] at this
    exact this l hl

/-! ### Filters -/

/-- Filters the constructor can produce (`__post_init__`). -/
def ConnFilter.Legal (f : ConnFilter) : Prop := f.calcAllowed = true → f.calcAllAllowed = true

/-- Two results agree on the fields requested by both filters. -/
structure AgreeOn (f g : ConnFilter) (all : Prop) (r s : PolicyConns C S) : Prop where
  captured : r.captured = s.captured
  allowed : f.calcAllowed = true → g.calcAllowed = true → r.allowed = s.allowed
  denied : f.calcDenied = true → g.calcDenied = true → r.denied = s.denied
  allAllowed : all → f.calcAllAllowed = true → g.calcAllAllowed = true → r.allAllowed = s.allAllowed

theorem layerXgress_filter (n : LayerName) (pols : List (Policy C S)) (dir : Bool) (t : Peers S) (f g : ConnFilter) :
    (layerXgress N n pols dir t f).captured = (layerXgress N n pols dir t g).captured ∧
    (layerXgress N n pols dir t f).allowed = (layerXgress N n pols dir t g).allowed ∧
    (layerXgress N n pols dir t f).denied = (layerXgress N n pols dir t g).denied ∧
    (f.calcAllAllowed = g.calcAllAllowed → layerXgress N n pols dir t f = layerXgress N n pols dir t g) := by
  cases n
  case k8sCalico | k8sGateway =>
    refine ⟨rfl, rfl, rfl, fun h => ?_⟩
    simp only [layerXgress, calicoLayerXgress, h]
  case istio | istioGateway =>
    have aux : ∀ f : ConnFilter, (istioLayerXgress N pols dir t f).captured = (collect N dir istioCaptured pols).captured ∧
        (istioLayerXgress N pols dir t f).allowed = (collect N dir istioCaptured pols).allowed ∧
        (istioLayerXgress N pols dir t f).denied = (collect N dir istioCaptured pols).denied := by
      intro f
      unfold istioLayerXgress
      dsimp only
      split
      · exact ⟨rfl, rfl, rfl⟩
      · split <;> exact ⟨rfl, rfl, rfl⟩
    refine ⟨?_, ?_, ?_, fun h => ?_⟩
    · exact (aux f).1.trans (aux g).1.symm
    · exact (aux f).2.1.trans (aux g).2.1.symm
    · exact (aux f).2.2.trans (aux g).2.2.symm
    · simp only [layerXgress, istioLayerXgress, h]

theorem layerConns_filter (n : LayerName) (pols : List (Policy C S)) (t : Peers S) {f g : ConnFilter} (hf : f.Legal) (hg : g.Legal) :
    AgreeOn f g True (layerConns N n pols t f) (layerConns N n pols t g) := by
  have hi := layerXgress_filter (N := N) n pols true t f g
  have he := layerXgress_filter (N := N) n pols false t f g
  constructor
  · simp only [layerConns, hi.1, he.1]
  · intro a b
    have h : f.calcAllAllowed = g.calcAllAllowed := by rw [hf a, hg b]
    simp only [layerConns, hi.2.2.2 h, he.2.2.2 h, a, b, hf a, hg b]
  · intro a b
    simp only [layerConns, hi.2.2.1, he.2.2.1, a, b]
  · intro _ a b
    have h : f.calcAllAllowed = g.calcAllAllowed := by rw [a, b]
    simp only [layerConns, hi.2.2.2 h, he.2.2.2 h, a, b]

theorem configConns_filter (L : N.Lawful Ok Strong) (t : Peers S) (layers : Layers C S) {f g : ConnFilter} (hf : f.Legal) (hg : g.Legal) :
    AgreeOn f g (N.Q.truthy t.heps = false ∨ f.calcAllowed = g.calcAllowed) (configConns N t layers f) (configConns N t layers g) := by
  have hfr : ∀ f : ConnFilter, f.replaceAllAllowedFalse.calcAllowed = f.calcAllowed ∧ f.replaceAllAllowedFalse.calcDenied = f.calcDenied ∧
      f.replaceAllAllowedFalse.calcAllAllowed = f.calcAllowed := by
    intro f; simp [ConnFilter.replaceAllAllowedFalse, ConnFilter.make]
  have hsub : ∀ r s : PolicyConns C S, AgreeOn f g True r s → AgreeOn f g (N.Q.truthy t.heps = false ∨ f.calcAllowed = g.calcAllowed)
      (r.subByFilter N (N.K.or (N.rect (some t.heps) none .any) (N.rect none (some t.heps) .any)) f.replaceAllAllowedFalse)
      (s.subByFilter N (N.K.or (N.rect (some t.heps) none .any) (N.rect none (some t.heps) .any)) g.replaceAllAllowedFalse) := by
    intro r s h
    constructor
    · exact h.captured
    · intro a b
      simp only [PolicyConns.subByFilter, (hfr f).1, (hfr g).1, a, b, h.allowed a b]
    · intro a b
      simp only [PolicyConns.subByFilter, (hfr f).2.1, (hfr g).2.1, a, b, h.denied a b]
    · intro hor a b
      rcases hor with hh | hh
      · rw [subByFilter_falsy L r (connHep_falsy L hh), subByFilter_falsy L s (connHep_falsy L hh)]
        exact h.allAllowed trivial a b
      · simp only [PolicyConns.subByFilter, (hfr f).2.2, (hfr g).2.2, hh, h.allAllowed trivial a b]
  have hstep : ∀ (r s : PolicyConns C S) l, AgreeOn f g (N.Q.truthy t.heps = false ∨ f.calcAllowed = g.calcAllowed) r s →
      AgreeOn f g (N.Q.truthy t.heps = false ∨ f.calcAllowed = g.calcAllowed)
        (configStep N t f (N.K.or (N.rect (some t.heps) none .any) (N.rect none (some t.heps) .any)) r l)
        (configStep N t g (N.K.or (N.rect (some t.heps) none .any) (N.rect none (some t.heps) .any)) s l) := by
    intro r s l h
    have hl : AgreeOn f g (N.Q.truthy t.heps = false ∨ f.calcAllowed = g.calcAllowed)
        (if l.1 ≠ .k8sCalico then (layerConns N l.1 l.2 t f).subByFilter N (N.K.or (N.rect (some t.heps) none .any) (N.rect none (some t.heps) .any)) f.replaceAllAllowedFalse
          else layerConns N l.1 l.2 t f)
        (if l.1 ≠ .k8sCalico then (layerConns N l.1 l.2 t g).subByFilter N (N.K.or (N.rect (some t.heps) none .any) (N.rect none (some t.heps) .any)) g.replaceAllAllowedFalse
          else layerConns N l.1 l.2 t g) := by
      have hlc := layerConns_filter (N := N) l.1 l.2 t hf hg
      split
      · exact hsub _ _ hlc
      · exact ⟨hlc.captured, hlc.allowed, hlc.denied, fun _ => hlc.allAllowed trivial⟩
    unfold configStep
    dsimp only
    generalize (if l.1 ≠ .k8sCalico then _ else layerConns N l.1 l.2 t f) = x at hl ⊢
    generalize (if l.1 ≠ .k8sCalico then _ else layerConns N l.1 l.2 t g) = y at hl ⊢
    constructor
    · simp only [h.captured, hl.captured]
    · intro a b; simp only [a, b, h.allowed a b, hl.allowed a b]
    · intro a b; simp only [a, b, h.denied a b, hl.denied a b]
    · intro o a b; simp only [a, b, h.allAllowed o a b, hl.allAllowed o a b]
  have hfold : ∀ (layers : Layers C S) (r s : PolicyConns C S), AgreeOn f g (N.Q.truthy t.heps = false ∨ f.calcAllowed = g.calcAllowed) r s →
      AgreeOn f g (N.Q.truthy t.heps = false ∨ f.calcAllowed = g.calcAllowed)
        (layers.foldl (configStep N t f (N.K.or (N.rect (some t.heps) none .any) (N.rect none (some t.heps) .any))) r)
        (layers.foldl (configStep N t g (N.K.or (N.rect (some t.heps) none .any) (N.rect none (some t.heps) .any))) s) := by
    intro layers
    induction layers with
    | nil => intro r s h; exact h
    | cons l layers ih => intro r s h; exact ih _ _ (hstep r s l h)
  have hinit : AgreeOn f g (N.Q.truthy t.heps = false ∨ f.calcAllowed = g.calcAllowed)
      (if N.Q.truthy t.heps && !(layers.any (fun l => l.1 = .k8sCalico)) then
        (layerConns N .k8sCalico [] t f).andByFilter N (N.K.or (N.rect (some t.heps) none .any) (N.rect none (some t.heps) .any)) f.replaceAllAllowedFalse
      else { emptyConns N with allAllowed := if f.calcAllAllowed then N.rect (some (t.group N true true)) (some (t.group N true true)) .any else N.K.empty })
      (if N.Q.truthy t.heps && !(layers.any (fun l => l.1 = .k8sCalico)) then
        (layerConns N .k8sCalico [] t g).andByFilter N (N.K.or (N.rect (some t.heps) none .any) (N.rect none (some t.heps) .any)) g.replaceAllAllowedFalse
      else { emptyConns N with allAllowed := if g.calcAllAllowed then N.rect (some (t.group N true true)) (some (t.group N true true)) .any else N.K.empty }) := by
    have hlc := layerConns_filter (N := N) .k8sCalico ([] : List (Policy C S)) t hf hg
    split
    · rename_i hh
      constructor
      · exact hlc.captured
      · intro a b
        simp only [PolicyConns.andByFilter, (hfr f).1, (hfr g).1, a, b, hlc.allowed a b]
      · intro a b
        simp only [PolicyConns.andByFilter, (hfr f).2.1, (hfr g).2.1, a, b, hlc.denied a b]
      · intro o a b
        rcases o with o | o
        · rw [o] at hh; simp at hh
        · simp only [PolicyConns.andByFilter, (hfr f).2.2, (hfr g).2.2, o, hlc.allAllowed trivial a b]
    · constructor
      · rfl
      · intro a b; rfl
      · intro a b; rfl
      · intro o a b; simp only [a, b]
  have h := hfold layers _ _ hinit
  unfold configConns
  dsimp only
  constructor
  · exact h.captured
  · intro a b
    simp only [a, b, if_true]
    rw [h.allowed a b, h.allAllowed (Or.inr (by rw [a, b])) (hf a) (hg b)]
  · exact h.denied
  · exact h.allAllowed

end
end Verif
