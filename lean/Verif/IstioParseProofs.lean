import Verif.IstioParseSpec
/-!
Lemmas for C50: value matching, and the peers of sources and conditions of Istio's rules.
-/
namespace Verif
open ISet IpBlock PeerSet

namespace IstioParser
open Container CalicoParser

/-! ### Value matching -/

theorem matches_exact {s v : List Char} (h : '*' ∉ s) : Matches s v ↔ v = s := by
  constructor
  · intro hm
    cases hm with
    | exact => rfl
    | presence => simp at h
    | suffix => simp at h
    | «prefix» => simp at h
  · rintro rfl; exact .exact h

theorem matches_presence {v : List Char} : Matches ['*'] v ↔ v ≠ [] := by
  constructor
  · intro hm
    generalize hs : ['*'] = s at hm
    cases hm with
    | exact h => subst hs; simp at h
    | presence h => exact h
    | suffix h1 => simp only [List.cons.injEq, true_and] at hs; exact absurd hs.symm h1
    | @«prefix» s t h1 h2 =>
      cases s with
      | nil => exact absurd rfl h1
      | cons a s => simp at hs
  · exact .presence

theorem matches_suffix {s v : List Char} (h : s ≠ []) (hs : '*' ∉ s) : Matches ('*' :: s) v ↔ s <:+ v := by
  constructor
  · intro hm
    generalize hp : '*' :: s = p at hm
    cases hm with
    | exact h' => subst hp; simp at h'
    | presence h' => simp at hp; exact absurd hp h
    | @suffix s' t h1 h2 =>
      simp only [List.cons.injEq, true_and] at hp
      subst hp; exact ⟨t, rfl⟩
    | @«prefix» s' t h1 h2 =>
      cases s' with
      | nil => exact absurd rfl h1
      | cons a s' =>
        simp only [List.cons_append, List.cons.injEq] at hp
        rw [← hp.1] at h2
        simp at h2
  · rintro ⟨t, rfl⟩
    exact .suffix h hs

theorem matches_prefix {s v : List Char} (h : s ≠ []) (hs : '*' ∉ s) : Matches (s ++ ['*']) v ↔ s <+: v := by
  constructor
  · intro hm
    generalize hp : s ++ ['*'] = p at hm
    cases hm with
    | exact h' => subst hp; simp at h'
    | presence h' =>
      cases s with
      | nil => exact absurd rfl h
      | cons a s => simp at hp
    | @suffix s' t h1 h2 =>
      cases s with
      | nil => exact absurd rfl h
      | cons a s =>
        simp only [List.cons_append, List.cons.injEq] at hp
        rw [hp.1] at hs
        simp at hs
    | @«prefix» s' t h1 h2 =>
      rw [List.append_left_inj] at hp
      subst hp; exact ⟨t, rfl⟩
  · rintro ⟨t, rfl⟩
    exact .prefix h hs

theorem valid_iff (s : List Char) : validPattern s = true ↔ Pattern s := by
  unfold validPattern Pattern
  rw [Bool.or_eq_true, Bool.and_eq_true, Bool.or_eq_true, Bool.not_eq_true', decide_eq_false_iff_not, decide_eq_true_eq,
    decide_eq_true_eq, decide_eq_true_eq]
  refine or_congr_right ?_
  constructor
  · rintro ⟨h1, h2 | h2⟩
    · cases s with
      | nil => simp at h2
      | cons a t =>
        simp only [List.head?_cons, Option.some.injEq] at h2
        subst h2
        rw [List.count_cons_self] at h1
        have h3 : '*' ∉ t := List.count_eq_zero.1 (by omega)
        by_cases ht : t = []
        · left; rw [ht]
        · exact Or.inr ⟨t, ht, h3, Or.inl rfl⟩
    · obtain ⟨t, rfl⟩ : ∃ t, s = t ++ ['*'] := List.getLast?_eq_some_iff.1 h2
      rw [List.count_append] at h1
      have h3 : '*' ∉ t := List.count_eq_zero.1 (by simpa using h1)
      by_cases ht : t = []
      · left; rw [ht]; rfl
      · exact Or.inr ⟨t, ht, h3, Or.inr rfl⟩
  · rintro (rfl | ⟨t, ht, h1, rfl | rfl⟩)
    · decide
    · exact ⟨by rw [List.count_cons_self, List.count_eq_zero.2 h1], Or.inl rfl⟩
    · exact ⟨by rw [List.count_append, List.count_eq_zero.2 h1]; decide, Or.inr (by simp)⟩

/-- The values that match. -/
theorem matching_sem {vals : List (List Char)} (hv : ∀ v ∈ vals, v ≠ []) {s : List Char} (hs : Pattern s) :
    ∃ l, matching vals s = some l ∧ ∀ v, v ∈ l ↔ v ∈ vals ∧ Matches s v := by
  have hval : (!validPattern s) = false := by rw [(valid_iff s).2 hs]; rfl
  unfold matching
  rw [if_neg (by rw [hval]; simp)]
  rcases hs with h | rfl | ⟨t, ht, h1, rfl | rfl⟩
  · rw [if_pos h]
    refine ⟨_, rfl, fun v => ?_⟩
    rw [matches_exact h]
    by_cases hm : s ∈ vals
    · rw [if_pos hm, List.mem_singleton]
      exact ⟨fun e => ⟨e ▸ hm, e⟩, And.right⟩
    · rw [if_neg hm]
      simp only [List.not_mem_nil, false_iff, not_and]
      rintro h' rfl; exact hm h'
  · refine ⟨vals, rfl, fun v => ?_⟩
    rw [matches_presence]
    exact ⟨fun h => ⟨h, hv v h⟩, And.left⟩
  · rw [if_neg (by simp), if_neg (by simpa using ht), if_pos (by rfl)]
    refine ⟨_, rfl, fun v => ?_⟩
    rw [List.mem_filter, matches_suffix ht h1, List.isSuffixOf_iff_suffix, List.tail_cons]
  · rw [if_neg (by simp), if_neg, if_neg, if_pos (by simp)]
    · refine ⟨_, rfl, fun v => ?_⟩
      rw [List.mem_filter, matches_prefix ht h1, List.isPrefixOf_iff_prefix, List.dropLast_concat]
    · cases t with
      | nil => exact absurd rfl ht
      | cons a t => simp only [List.cons_append, List.head?_cons, Option.some.injEq]; rintro rfl; simp at h1
    · cases t with
      | nil => exact absurd rfl ht
      | cons a t => simp

/-! ### Sets of peers -/

section
variable {V : Env} {c : Container} {rg : PodReg}

theorem foldl_or {α : Type} {T : α → PeerInfo → Prop} {f : PeerSet String → α → PeerSet String} (l : List α)
    (hf : ∀ x ∈ l, ∀ q S, Sem c S q → Sem c (fun p => S p ∨ T x p) (f q x)) {S : PeerInfo → Prop} {q : PeerSet String} (hq : Sem c S q) :
    Sem c (fun p => S p ∨ ∃ x ∈ l, T x p) (l.foldl f q) := by
  induction l generalizing S q with
  | nil => exact hq.congr fun p _ => by simp
  | cons x l ih =>
    rw [List.foldl_cons]
    refine (ih (fun y hy => hf y (List.mem_cons_of_mem _ hy)) (hf x List.mem_cons_self q S hq)).congr fun p _ => ?_
    simp only [List.mem_cons, exists_eq_or_imp, or_assoc]

theorem sem_podsOfNs (hC : K8sParser.Cluster rg c) (s : List Char) :
    Sem c (fun p => ∃ n, p.ns = some n ∧ n.name.toList = s) (podsOfNs c s) := by
  refine (sem_sel hC.ok _).congr fun p _ => ?_
  unfold sameNs
  cases p.ns with
  | none => simp
  | some n =>
    simp only [decide_eq_true_eq, Option.some.injEq, exists_eq_left']
    constructor
    · intro h; rw [h, String.toList_ofList]
    · intro h; rw [← h, String.ofList_toList]

theorem nsStr_sem (hI : IstioCluster V rg c) {s : List Char} (hs : Pattern s) :
    ∃ q, nsStr V c s = some q ∧ Sem c (fun p => ∃ n, p.ns = some n ∧ Matches s n.name.toList) q := by
  obtain ⟨l, e, hl⟩ := matching_sem (vals := V.nss) (fun v hv => (hI.names v hv).2) hs
  refine ⟨_, by unfold nsStr; rw [e]; rfl, ?_⟩
  refine (foldl_or (T := fun s p => ∃ n, p.ns = some n ∧ n.name.toList = s) l (fun x _ q S hq => hq.or (sem_podsOfNs hI.cluster x)) sem_empty).congr
    fun p hp => ?_
  constructor
  · rintro (h | ⟨x, hx, n, hn, rfl⟩)
    · exact h.elim
    · exact ⟨n, hn, ((hl _).1 hx).2⟩
  · rintro ⟨n, hn, hm⟩
    exact Or.inr ⟨_, (hl _).2 ⟨hI.known p hp n hn, hm⟩, n, hn, rfl⟩

/-- The principal of a pod. -/
abbrev principal (V : Env) (n : Ns) (k : String) : List Char :=
  "cluster.local/ns/".toList ++ (n.name.toList ++ ("/sa/".toList ++ V.sa k))

theorem lit_append (a b : List Char) : lit a (a ++ b) = some b := by
  induction a with
  | nil => rfl
  | cons x a ih => rw [List.cons_append, lit, if_pos rfl, ih]

theorem words_append {a b : List Char} (ha : a ≠ []) (h : ∀ x ∈ a, V.word x = true ∨ x = '-')
    (hb : ∀ x, b.head? = some x → V.word x = false ∧ x ≠ '-') : words V (a ++ b) = some (a, b) := by
  have hp : ∀ x ∈ a, (V.word x || decide (x = '-')) = true := fun x hx => by
    rw [Bool.or_eq_true, decide_eq_true_eq]; exact h x hx
  have h1 : List.takeWhile (fun x => V.word x || decide (x = '-')) b = [] ∧ List.dropWhile (fun x => V.word x || decide (x = '-')) b = b := by
    cases b with
    | nil => exact ⟨rfl, rfl⟩
    | cons x b =>
      obtain ⟨g1, g2⟩ := hb x rfl
      have : (V.word x || decide (x = '-')) = false := by rw [g1, Bool.false_or, decide_eq_false_iff_not]; exact g2
      rw [List.takeWhile_cons, List.dropWhile_cons, this]
      exact ⟨rfl, rfl⟩
  unfold words
  dsimp only
  rw [List.takeWhile_append_of_pos hp, List.dropWhile_append_of_pos hp, h1.1, h1.2, List.append_nil]
  rw [if_neg]
  rw [List.isEmpty_iff]; exact ha

theorem components_principal (hI : IstioCluster V rg c) {p : PeerInfo} (hp : p ∈ c) {k : String} {n : Ns} (hk : p.kind = .pod) (he : p.elem = .pod k)
    (hn : p.ns = some n) : components V (principal V n k) = some (n.name.toList, V.sa k) := by
  obtain ⟨n1, n2⟩ := hI.plain p hp n hn
  obtain ⟨s1, s2⟩ := hI.accounts p hp k hk he
  have hat : componentsAt V (principal V n k) = some (n.name.toList, V.sa k) := by
    unfold componentsAt principal
    rw [show "cluster.local/ns/".toList = "cluster".toList ++ ('.' :: "local/ns/".toList) by rfl, List.append_assoc, List.cons_append]
    simp only [Option.bind_eq_bind]
    rw [lit_append, Option.bind_some]
    rw [show anyChar ('.' :: ("local/ns/".toList ++ (n.name.toList ++ ("/sa/".toList ++ V.sa k)))) =
      some ("local/ns/".toList ++ (n.name.toList ++ ("/sa/".toList ++ V.sa k))) from rfl, Option.bind_some, lit_append, Option.bind_some]
    rw [words_append n1 n2 (fun x hx => by
      have hx : some '/' = some x := hx
      cases hx
      exact ⟨hI.notWord, by decide⟩), Option.bind_some]
    dsimp only
    rw [show beforeSa = "/sa/".toList from rfl, lit_append, Option.bind_some]
    have := words_append (b := []) s1 s2 (fun x hx => by cases hx)
    rw [List.append_nil] at this
    rw [this]; rfl
  have : ∃ a t, principal V n k = a :: t := ⟨_, _, rfl⟩
  obtain ⟨a, t, e⟩ := this
  rw [e] at hat ⊢
  rw [components, hat]; rfl

theorem mem_allPrincipals (hI : IstioCluster V rg c) : ∃ l, allPrincipals V c = some l ∧
    ∀ s, s ∈ l ↔ ∃ p ∈ c, p.kind = .pod ∧ ∃ k n, p.elem = .pod k ∧ p.ns = some n ∧ s = principal V n k := by
  have key : ∀ l : List PeerInfo, (∀ p ∈ l, p ∈ c ∧ p.kind = .pod) → ∃ r, l.mapM (principalOf V) = some r ∧
      ∀ s, s ∈ r ↔ ∃ p ∈ l, ∃ k n, p.elem = .pod k ∧ p.ns = some n ∧ s = principal V n k := by
    intro l
    induction l with
    | nil => exact fun _ => ⟨[], rfl, by simp⟩
    | cons p l ih =>
      intro h
      obtain ⟨r, e, hr⟩ := ih fun q hq => h q (List.mem_cons_of_mem _ hq)
      obtain ⟨hp, hk⟩ := h p List.mem_cons_self
      obtain ⟨k, he, _⟩ := hI.cluster.elem p hp
      obtain ⟨n, hn⟩ : ∃ n, p.ns = some n := by
        rcases hI.cluster.kind p hp with h | h
        · exact h.2
        · rw [hk] at h; cases h.1
      have e1 : principalOf V p = some (principal V n k) := by
        unfold principalOf
        rw [hk, he, hn]; rfl
      refine ⟨principal V n k :: r, by rw [List.mapM_cons, e1, e]; rfl, fun s => ?_⟩
      simp only [List.mem_cons, hr, exists_eq_or_imp, he, hn, PeerElem.pod.injEq, Option.some.injEq]
      refine or_congr_left ?_
      constructor
      · rintro rfl; exact ⟨k, n, rfl, rfl, rfl⟩
      · rintro ⟨k', n', rfl, rfl, rfl⟩; rfl
  have hkind : ∀ p ∈ c.filter (fun p => !decide (p.kind = .dns)), p ∈ c ∧ p.kind = .pod := by
    intro p hp
    rw [List.mem_filter] at hp
    refine ⟨hp.1, ?_⟩
    rcases hI.cluster.kind p hp.1 with h | h
    · exact h.1
    · rw [h.1] at hp; simp at hp
  obtain ⟨r, e, hr⟩ := key _ hkind
  refine ⟨r, e, fun s => (hr s).trans ?_⟩
  constructor
  · rintro ⟨p, hp, h⟩
    exact ⟨p, (hkind p hp).1, (hkind p hp).2, h⟩
  · rintro ⟨p, hp, hk, h⟩
    exact ⟨p, List.mem_filter.2 ⟨hp, by rw [hk]; decide⟩, h⟩

theorem principalStr_sem (hI : IstioCluster V rg c) {s : List Char} (hs : Pattern s) :
    ∃ q, principalStr V c s = some q ∧ Sem c (fun p => ∃ k n, p.elem = .pod k ∧ p.ns = some n ∧ Matches s (principal V n k)) q := by
  obtain ⟨vals, e0, hv⟩ := mem_allPrincipals hI
  obtain ⟨l, e, hl⟩ := matching_sem (vals := vals) (fun v h => by
    obtain ⟨_, _, _, _, _, _, _, rfl⟩ := (hv v).1 h
    simp) hs
  refine ⟨l.foldl (principalStep V c) [], by unfold principalStr; rw [e0, Option.bind_some, e]; rfl, ?_⟩
  have step : ∀ x ∈ l, ∀ q S, Sem c S q → Sem c (fun p => S p ∨ p.kind = .pod ∧ ∃ k n, p.elem = .pod k ∧ p.ns = some n ∧ x = principal V n k)
      (principalStep V c q x) := by
    intro x hx q S hq
    obtain ⟨p, hp, hk, k, n, he, hn, rfl⟩ := (hv x).1 ((hl x).1 hx).1
    unfold principalStep
    rw [components_principal hI hp hk he hn]
    refine (hq.or (sem_sel hI.cluster.ok _)).congr fun p' hp' => or_congr_right ?_
    rw [Bool.and_eq_true, Bool.and_eq_true, decide_eq_true_eq, and_assoc]
    refine and_congr_right fun hk' => ?_
    obtain ⟨k', he', _⟩ := hI.cluster.elem p' hp'
    rw [he']
    unfold sameNs
    cases hn' : p'.ns with
    | none => simp
    | some n' =>
      simp only [decide_eq_true_eq, PeerElem.pod.injEq, Option.some.injEq]
      constructor
      · rintro ⟨h1, h2⟩
        refine ⟨k', n', rfl, rfl, ?_⟩
        unfold principal
        rw [h1, h2, String.ofList_toList]
      · rintro ⟨k'', n'', rfl, rfl, h⟩
        have g1 := components_principal hI hp hk he hn
        rw [h, components_principal hI hp' hk' he' hn'] at g1
        simp only [Option.some.injEq, Prod.mk.injEq] at g1
        exact ⟨g1.2, by rw [← g1.1, String.ofList_toList]⟩
  refine (foldl_or l step sem_empty).congr fun p hp => ?_
  constructor
  · rintro (h | ⟨x, hx, _, k, n, h1, h2, rfl⟩)
    · exact h.elim
    · exact ⟨k, n, h1, h2, ((hl _).1 hx).2⟩
  · rintro ⟨k, n, h1, h2, hm⟩
    have hk : p.kind = .pod := by
      rcases hI.cluster.kind p hp with h | h
      · exact h.1
      · rw [h.2] at h2; cases h2
    exact Or.inr ⟨_, (hl _).2 ⟨(hv _).2 ⟨p, hp, hk, k, n, h1, h2, rfl⟩, hm⟩, hk, k, n, h1, h2, rfl⟩

/-! ### Lists -/

/-- What a list of texts chooses. -/
theorem orAll_sem {α : Type} {f : α → Option (PeerSet String)} {P : α → Place → Prop} {K : Place → Prop} (l : List α)
    (hf : ∀ x ∈ l, ∃ q, f x = some q ∧ q.Ok ∧ InCluster c q ∧ ∀ E, K E → (E.In q ↔ P x E)) {q0 : PeerSet String} (h0 : q0.Ok) (i0 : InCluster c q0) :
    ∃ q, orAll f l q0 = some q ∧ q.Ok ∧ InCluster c q ∧ ∀ E, K E → (E.In q ↔ E.In q0 ∨ ∃ x ∈ l, P x E) := by
  induction l generalizing q0 with
  | nil => exact ⟨q0, rfl, h0, i0, by simp⟩
  | cons x l ih =>
    obtain ⟨q1, e1, o1, i1, m1⟩ := hf x List.mem_cons_self
    have hor := C22_or_exact h0 o1
    have i2 : InCluster c (q0.or q1) := fun k hk => ((hor.2.1 k).1 hk).elim (i0 k) (i1 k)
    obtain ⟨q, e, o, i, m⟩ := ih (fun y hy => hf y (List.mem_cons_of_mem _ hy)) hor.1 i2
    refine ⟨q, ?_, o, i, fun E hE => ?_⟩
    · unfold orAll at e ⊢
      rw [List.foldlM_cons, e1]; exact e
    · rw [m E hE, in_or h0 o1, m1 E hE, or_assoc]
      simp

theorem subAll_sem {α : Type} {f : α → Option (PeerSet String)} {P : α → Place → Prop} {K : Place → Prop} (l : List α)
    (hf : ∀ x ∈ l, ∃ q, f x = some q ∧ q.Ok ∧ InCluster c q ∧ ∀ E, K E → (E.In q ↔ P x E)) {q0 : PeerSet String} (h0 : q0.Ok) (i0 : InCluster c q0) :
    ∃ q, subAll f l q0 = some q ∧ q.Ok ∧ InCluster c q ∧ ∀ E, K E → (E.In q ↔ E.In q0 ∧ ∀ x ∈ l, ¬ P x E) := by
  induction l generalizing q0 with
  | nil => exact ⟨q0, rfl, h0, i0, by simp⟩
  | cons x l ih =>
    obtain ⟨q1, e1, o1, i1, m1⟩ := hf x List.mem_cons_self
    obtain ⟨q, e, o, i, m⟩ := ih (fun y hy => hf y (List.mem_cons_of_mem _ hy)) (C22_sub_exact h0 o1).1 (InCluster.sub h0 o1 i0)
    refine ⟨q, ?_, o, i, fun E hE => ?_⟩
    · unfold subAll at e ⊢
      rw [List.foldlM_cons, e1]; exact e
    · rw [m E hE, in_sub h0 o1, m1 E hE, and_assoc]
      simp

theorem nsStr_place (hI : IstioCluster V rg c) {s : List Char} (hs : Pattern s) :
    ∃ q, nsStr V c s = some q ∧ q.Ok ∧ InCluster c q ∧ ∀ E, Known c E → (E.In q ↔ FromNs c E s) := by
  obtain ⟨q, e, h⟩ := nsStr_sem hI hs
  exact ⟨q, e, h.1, h.inCluster, fun E _ => h.2 E⟩

theorem principalStr_place (hI : IstioCluster V rg c) {s : List Char} (hs : Pattern s) :
    ∃ q, principalStr V c s = some q ∧ q.Ok ∧ InCluster c q ∧ ∀ E, Known c E → (E.In q ↔ FromPrincipal V.sa c E s) := by
  obtain ⟨q, e, h⟩ := principalStr_sem hI hs
  exact ⟨q, e, h.1, h.inCluster, fun E _ => h.2 E⟩

theorem no_ip (hC : K8sParser.Cluster rg c) {x : Ip} {T : PeerInfo → Prop} : ¬ AtSome c (.ip x) T := by
  rintro ⟨p, hp, ⟨b, hb, _⟩, _⟩
  obtain ⟨k, hk, _⟩ := hC.elem p hp
  rw [hk] at hb; cases hb

theorem empty_ok : PeerSet.Ok ([] : PeerSet String) := fun b hb => by simp at hb

theorem empty_in : InCluster c [] := fun k hk => by
  have : PeerElem.pod k ∈ ([] : PeerSet String) := hk
  simp at this

theorem not_in_empty (E : Place) : ¬ E.In ([] : PeerSet String) := by
  cases E with
  | pod k => simp [Place.In, PeerSet.HasPod]
  | ip x => simp [Place.In, PeerSet.HasIp]

/-- The place is a pod. -/
def IsPod (c : Container) (E : Place) : Prop := AtSome c E fun p => p.kind ≠ .dns

/-- Namespaces or principals: the positive list, or the pods if there is none, without the negative one. -/
def ListSays (c : Container) (pos neg : Option (List (List Char))) (P : Place → List Char → Prop) (E : Place) : Prop :=
  IsPod c E ∧ Among pos (P E) ∧ Apart neg (P E)

theorem among_some {α : Type} {l : List α} (hl : l ≠ []) {P : α → Prop} : Among (some l) P ↔ ∃ x ∈ l, P x :=
  ⟨fun h => h l rfl hl, fun h l' e _ => by cases e; exact h⟩

theorem among_none {α : Type} {P : α → Prop} : Among none P := fun l h => by cases h

theorem apart_iff {α : Type} {o : Option (List α)} {P : α → Prop} : Apart o P ↔ ∀ x ∈ o.getD [], ¬ P x := by
  cases o with
  | none => exact ⟨fun _ x hx => by simp at hx, fun _ l h => by cases h⟩
  | some l => exact ⟨fun h => h l rfl, fun h l' e => by cases e; exact h⟩

theorem listOk_getD {α : Type} {o : Option (List α)} {P : α → Prop} (h : ListOk o P) : ∀ x ∈ o.getD [], P x := by
  cases o with
  | none => intro x hx; simp at hx
  | some l => exact (h l rfl).2

theorem fromNs_pod (hI : IstioCluster V rg c) {E : Place} {s : List Char} (h : FromNs c E s) : IsPod c E := by
  obtain ⟨p, hp, h1, n, hn, _⟩ := h
  refine ⟨p, hp, h1, fun hd => ?_⟩
  rcases hI.cluster.kind p hp with h | h
  · rw [h.1] at hd; cases hd
  · rw [h.2] at hn; cases hn

theorem fromPrincipal_pod (hI : IstioCluster V rg c) {E : Place} {s : List Char} (h : FromPrincipal V.sa c E s) : IsPod c E := by
  obtain ⟨p, hp, h1, _, n, _, hn, _⟩ := h
  refine ⟨p, hp, h1, fun hd => ?_⟩
  rcases hI.cluster.kind p hp with h | h
  · rw [h.1] at hd; cases hd
  · rw [h.2] at hn; cases hn

theorem parseNamespaces_sem (hI : IstioCluster V rg c) {pos neg : Option (List (List Char))} (hp : ListOk pos Pattern) (hn : ListOk neg Pattern) :
    ∃ q, parseNamespaces V c pos neg = some q ∧ q.Ok ∧ InCluster c q ∧ ∀ E, Known c E → (E.In q ↔ ListSays c pos neg (FromNs c) E) := by
  have hpos : ∀ s ∈ pos.getD V.nss, Pattern s := by
    cases pos with
    | none => exact fun s hs => Or.inl (hI.names s hs).1
    | some l => exact (hp l rfl).2
  obtain ⟨q1, e1, o1, i1, m1⟩ := orAll_sem (pos.getD V.nss) (fun s hs => nsStr_place hI (hpos s hs)) empty_ok (empty_in (c := c))
  obtain ⟨q2, e2, o2, i2, m2⟩ := subAll_sem (neg.getD []) (fun s hs => nsStr_place hI (listOk_getD hn s hs)) o1 i1
  refine ⟨q2, by unfold parseNamespaces; rw [e1, Option.bind_some, e2], o2, i2, fun E hE => ?_⟩
  rw [m2 E hE, m1 E hE]
  unfold ListSays
  rw [apart_iff, ← and_assoc]
  refine and_congr_left fun _ => ?_
  rw [or_iff_right (not_in_empty E)]
  cases pos with
  | some l =>
    rw [among_some (hp l rfl).1]
    exact ⟨fun h => ⟨by obtain ⟨s, _, h⟩ := h; exact fromNs_pod hI h, h⟩, And.right⟩
  | none =>
    constructor
    · rintro ⟨s, _, h⟩
      exact ⟨fromNs_pod hI h, among_none⟩
    · rintro ⟨⟨p, hp, h1, h2⟩, _⟩
      rcases hI.cluster.kind p hp with h | h
      · obtain ⟨_, n, hn⟩ := h
        exact ⟨_, hI.known p hp n hn, p, hp, h1, n, hn, .exact (hI.names _ (hI.known p hp n hn)).1⟩
      · exact absurd h.1 h2

theorem parsePrincipals_sem (hI : IstioCluster V rg c) {pos neg : Option (List (List Char))} (hp : ListOk pos Pattern) (hn : ListOk neg Pattern) :
    ∃ q, parsePrincipals V c pos neg = some q ∧ q.Ok ∧ InCluster c q ∧ ∀ E, Known c E → (E.In q ↔ ListSays c pos neg (FromPrincipal V.sa c) E) := by
  have first : ∃ q, positivePrincipals V c pos = some q ∧
      q.Ok ∧ InCluster c q ∧ ∀ E, Known c E → (E.In q ↔ IsPod c E ∧ Among pos (FromPrincipal V.sa c E)) := by
    cases pos with
    | some l =>
      obtain ⟨q1, e1, o1, i1, m1⟩ := orAll_sem l (fun s hs => principalStr_place hI ((hp l rfl).2 s hs)) empty_ok (empty_in (c := c))
      refine ⟨q1, e1, o1, i1, fun E hE => ?_⟩
      rw [m1 E hE, or_iff_right (not_in_empty E), among_some (hp l rfl).1]
      exact ⟨fun h => ⟨by obtain ⟨s, _, h⟩ := h; exact fromPrincipal_pod hI h, h⟩, And.right⟩
    | none =>
      have h := sem_all hI.cluster.ok true
      refine ⟨_, rfl, h.1, h.inCluster, fun E _ => ?_⟩
      rw [h.2 E]
      simp only [true_or, and_true, among_none]
      rfl
  obtain ⟨q1, e1, o1, i1, m1⟩ := first
  obtain ⟨q2, e2, o2, i2, m2⟩ := subAll_sem (neg.getD []) (fun s hs => principalStr_place hI (listOk_getD hn s hs)) o1 i1
  refine ⟨q2, by unfold parsePrincipals; rw [e1, Option.bind_some, e2], o2, i2, fun E hE => ?_⟩
  rw [m2 E hE, m1 E hE]
  unfold ListSays
  rw [apart_iff, and_assoc]

/-- Networks: the addresses of the positive list without those of the negative one. -/
theorem parseIpBlock_sem {l : List Cidr} (hl : l ≠ []) (neg : Option (List Cidr)) :
    ∃ q, parseIpBlock (some l) neg = some q ∧ q.Ok ∧ InCluster c q ∧
      ∀ E, E.In q ↔ Among (some l) (FromNet E) ∧ Apart neg (FromNet E) := by
  have union : ∀ (l : List Cidr) (b : IpBlock), IpBlock.Built b → ∃ r, l.foldlM (fun acc c => (netBlock c).map (IpBlock.union acc)) b = some r ∧
      IpBlock.Built r ∧ ∀ x, r.Has x ↔ b.Has x ∨ ∃ n ∈ l, n.Has x := by
    intro l
    induction l with
    | nil => exact fun b hb => ⟨b, rfl, hb, by simp⟩
    | cons n l ih =>
      intro b hb
      obtain ⟨b', e', hb', hm'⟩ := netBlock_sem n
      obtain ⟨r, e, hr, hx⟩ := ih (b.union b') (.union hb hb')
      refine ⟨r, by rw [List.foldlM_cons, e']; exact e, hr, fun x => ?_⟩
      rw [hx, C21_union_exact hb hb', hm', or_assoc]
      simp
  have diff : ∀ (l : List Cidr) (b : IpBlock), IpBlock.Built b → ∃ r, l.foldlM (fun acc c => (netBlock c).map (IpBlock.diff acc)) b = some r ∧
      IpBlock.Built r ∧ ∀ x, r.Has x ↔ b.Has x ∧ ∀ n ∈ l, ¬ n.Has x := by
    intro l
    induction l with
    | nil => exact fun b hb => ⟨b, rfl, hb, by simp⟩
    | cons n l ih =>
      intro b hb
      obtain ⟨b', e', hb', hm'⟩ := netBlock_sem n
      obtain ⟨r, e, hr, hx⟩ := ih (b.diff b') (.diff hb hb')
      refine ⟨r, by rw [List.foldlM_cons, e']; exact e, hr, fun x => ?_⟩
      rw [hx, C21_diff_exact hb hb', hm', and_assoc]
      simp
  obtain ⟨b1, e1, hb1, m1⟩ := union l [] .empty
  obtain ⟨b2, e2, hb2, m2⟩ := diff (neg.getD []) b1 hb1
  have ok : PeerSet.Ok ([.ip b2] : PeerSet String) := fun b hb => by
    rw [List.mem_singleton] at hb; cases hb; exact hb2
  obtain ⟨s1, s2, s3, _⟩ := C22_split_exact ok
  refine ⟨_, by unfold parseIpBlock; dsimp only; rw [e1, Option.bind_some, e2]; rfl, s1, fun k hk => ?_, fun E => ?_⟩
  · have : PeerElem.pod k ∈ [PeerElem.ip b2] := (s2 k).1 hk
    rw [List.mem_singleton] at this; cases this
  · rw [among_some hl, apart_iff]
    cases E with
    | pod k =>
      constructor
      · intro hk
        have : PeerElem.pod k ∈ [PeerElem.ip b2] := (s2 k).1 hk
        rw [List.mem_singleton] at this; cases this
      · rintro ⟨⟨n, _, x, hx, _⟩, _⟩
        cases hx
    | ip x =>
      have : Place.In (.ip x) (PeerSet.split [PeerElem.ip b2]) ↔ b2.Has x := by
        refine (s3 x).trans ?_
        constructor
        · rintro ⟨b, hb1, hb2⟩
          rw [List.mem_singleton] at hb1
          cases hb1; exact hb2
        · exact fun h => ⟨b2, List.mem_singleton.2 rfl, h⟩
      rw [this, m2, m1]
      have net : ∀ n : Cidr, FromNet (.ip x) n ↔ n.Has x := fun n =>
        ⟨fun ⟨y, hy, h⟩ => by cases hy; exact h, fun h => ⟨x, rfl, h⟩⟩
      simp only [net]
      rw [or_iff_right]
      simp [IpBlock.Has]

/-! ### Sources -/

theorem senders (hC : K8sParser.Cluster rg c) : (c.allPeers true true false).Ok ∧ InCluster c (c.allPeers true true false) ∧
    ∀ E, Known c E → (E.In (c.allPeers true true false) ↔ Sender c E) := by
  have hm : ∀ e, e ∈ c.allPeers true true false ↔ e = .ip (allIps false false) ∨ ∃ p ∈ c, p.kind ≠ .dns ∧ p.elem = e := by
    intro e
    have hs : ∀ e, e ∈ c.sel (fun p => !(decide (p.kind = .dns) && !false) && (true || !p.isGlobal)) ↔ ∃ p ∈ c, p.kind ≠ .dns ∧ p.elem = e := by
      intro e
      rw [mem_sel]
      simp
    unfold allPeers setAdd
    dsimp only
    rw [if_pos rfl]
    split
    · rename_i h
      rw [hs]
      constructor
      · exact Or.inr
      · rintro (rfl | h')
        · exact (hs _).1 h
        · exact h'
    · rw [List.mem_append, List.mem_singleton, hs, or_comm]
  refine ⟨fun b hb => ?_, fun k hk => ?_, fun E hE => ?_⟩
  · rcases (hm _).1 hb with h | ⟨p, hp, _, h⟩
    · cases h; exact .all _ _
    · exact hC.ok p hp b h
  · rcases (hm _).1 hk with h | ⟨p, hp, _, h⟩
    · cases h
    · exact ⟨p, hp, h⟩
  · cases E with
    | pod k =>
      refine (hm _).trans ?_
      constructor
      · rintro (h | ⟨p, hp, h1, h2⟩)
        · cases h
        · exact ⟨p, hp, h2, h1⟩
      · rintro ⟨p, hp, h2, h1⟩
        exact Or.inr ⟨p, hp, h1, h2⟩
    | ip x =>
      refine ⟨fun _ => trivial, fun _ => ⟨_, (hm _).2 (Or.inl rfl), by rw [C21_all_exact]; simp⟩⟩

theorem isPod_iff (hC : K8sParser.Cluster rg c) (E : Place) : IsPod c E ↔ Sender c E ∧ ∃ k, E = .pod k := by
  cases E with
  | pod k => exact ⟨fun ⟨p, hp, h1, h2⟩ => ⟨⟨p, hp, h1, h2⟩, k, rfl⟩, fun ⟨⟨p, hp, h1, h2⟩, _⟩ => ⟨p, hp, h1, h2⟩⟩
  | ip x => exact ⟨fun h => absurd h (no_ip hC), fun ⟨_, k, h⟩ => by cases h⟩

theorem full_iff {α : Type} {o : Option (List α)} {P : α → Prop} (h : ListOk o P) : full o = o.isSome := by
  cases o with
  | none => rfl
  | some l =>
    cases l with
    | nil => exact absurd rfl (h [] rfl).1
    | cons a l => rfl

theorem isSome_iff {α : Type} {o : Option α} : o.isSome = true ↔ o ≠ none := by cases o <;> simp

theorem none_of {α : Type} {o : Option α} (h : o.isSome = false) : o = none := by cases o <;> simp_all

theorem apart_none {α : Type} {P : α → Prop} : Apart none P := fun l h => by cases h

/-- The peers of a source. -/
theorem source_sem (hI : IstioCluster V rg c) {s : Source} {E0 : Place} (h0 : s.Tame E0) :
    ∃ q, source V c s = some q ∧ q.Ok ∧ InCluster c q ∧ ∀ E, s.Tame E → Known c E → (E.In q ↔ Sender c E ∧ SourceSays V.sa c s E) := by
  have hC := hI.cluster
  obtain ⟨ao, ai, am⟩ := senders hC
  have hgiven : (!(full s.namespaces || full s.notNamespaces || full s.ipBlocks || full s.notIpBlocks || full s.principals || full s.notPrincipals)) = false := by
    rw [full_iff h0.namespaces, full_iff h0.notNamespaces, full_iff h0.ipBlocks, full_iff h0.notIpBlocks, full_iff h0.principals, full_iff h0.notPrincipals]
    rw [Bool.not_eq_false']
    simp only [Bool.or_eq_true, isSome_iff]
    have := h0.given
    tauto
  unfold source
  dsimp only
  rw [if_neg (by rw [hgiven]; simp)]
  by_cases hip : (s.ipBlocks.isSome || s.notIpBlocks.isSome) = true
  · have hb : ∃ l, s.ipBlocks = some l ∧ l ≠ [] := by
      have : s.ipBlocks ≠ none := by
        rw [Bool.or_eq_true, isSome_iff, isSome_iff] at hip
        exact hip.elim id h0.nets
      obtain ⟨l, hl⟩ := Option.ne_none_iff_exists'.1 this
      exact ⟨l, hl, (h0.ipBlocks l hl).1⟩
    obtain ⟨l, hl, hne⟩ := hb
    by_cases hmix : ((s.principals.isSome || s.notPrincipals.isSome) || (s.namespaces.isSome || s.notNamespaces.isSome)) = true
    · rw [if_pos (by rw [hip, hmix]; rfl)]
      refine ⟨[], rfl, empty_ok, empty_in, fun E hE hk => ⟨fun h => absurd h (not_in_empty E), ?_⟩⟩
      rintro ⟨_, hs⟩
      exfalso
      obtain ⟨n, _, x, rfl, _⟩ := hs.ipBlocks l hl hne
      simp only [Bool.or_eq_true, isSome_iff] at hmix
      have : s.namespaces ≠ none ∨ s.principals ≠ none := by
        have : s.notNamespaces ≠ none ∨ s.notPrincipals ≠ none → s.namespaces ≠ none ∨ s.principals ≠ none := by
          intro h
          rcases hE.outside h with h | h | ⟨k, h⟩
          · exact Or.inl h
          · exact Or.inr h
          · cases h
        tauto
      rcases this with h | h
      · obtain ⟨m, hm⟩ := Option.ne_none_iff_exists'.1 h
        obtain ⟨_, _, h⟩ := hs.namespaces m hm (hE.namespaces m hm).1
        exact no_ip hC h
      · obtain ⟨m, hm⟩ := Option.ne_none_iff_exists'.1 h
        obtain ⟨_, _, h⟩ := hs.principals m hm (hE.principals m hm).1
        exact no_ip hC h
    · rw [Bool.not_eq_true] at hmix
      rw [if_neg (by rw [hmix]; simp)]
      rw [Bool.or_eq_false_iff, Bool.or_eq_false_iff, Bool.or_eq_false_iff] at hmix
      obtain ⟨⟨p1, p2⟩, p3, p4⟩ := hmix
      rw [p1, p2, p3, p4, hip]
      obtain ⟨q, e, o, i, m⟩ := parseIpBlock_sem (c := c) hne s.notIpBlocks
      refine ⟨(c.allPeers true true false).and q, ?_, (C22_and_exact ao o).1, InCluster.and ao o (Or.inl ai), fun E hE hk => ?_⟩
      · simp only [Bool.or_self, Bool.false_eq_true, if_false, Option.bind_some, if_true]
        rw [hl, e]; rfl
      · rw [in_and ao o, am E hk, m]
        refine and_congr_right fun _ => ?_
        rw [← hl]
        constructor
        · rintro ⟨h1, h2⟩
          exact ⟨none_of p3 ▸ among_none, none_of p4 ▸ apart_none, none_of p1 ▸ among_none, none_of p2 ▸ apart_none, h1, h2⟩
        · exact fun h => ⟨h.ipBlocks, h.notIpBlocks⟩
  · rw [Bool.not_eq_true] at hip
    rw [if_neg (by rw [hip]; simp)]
    have hip' := hip
    rw [Bool.or_eq_false_iff] at hip'
    obtain ⟨i1, i2⟩ := hip'
    -- principals
    have hpr : ∃ q, (if (s.principals.isSome || s.notPrincipals.isSome) = true then
          (parsePrincipals V c s.principals s.notPrincipals).map (c.allPeers true true false).and else some (c.allPeers true true false)) = some q ∧
        q.Ok ∧ InCluster c q ∧ ∀ E, Known c E → (E.In q ↔ Sender c E ∧ ((s.principals.isSome || s.notPrincipals.isSome) = true → IsPod c E) ∧
          Among s.principals (FromPrincipal V.sa c E) ∧ Apart s.notPrincipals (FromPrincipal V.sa c E)) := by
      by_cases hp : (s.principals.isSome || s.notPrincipals.isSome) = true
      · rw [if_pos hp]
        obtain ⟨q, e, o, i, m⟩ := parsePrincipals_sem hI h0.principals h0.notPrincipals
        refine ⟨_, by rw [e]; rfl, (C22_and_exact ao o).1, InCluster.and ao o (Or.inl ai), fun E hk => ?_⟩
        rw [in_and ao o, am E hk, m E hk]
        unfold ListSays
        tauto
      · rw [if_neg hp]
        rw [Bool.not_eq_true, Bool.or_eq_false_iff] at hp
        refine ⟨_, rfl, ao, ai, fun E hk => ?_⟩
        rw [am E hk, none_of hp.1, none_of hp.2]
        simp [among_none, apart_none]
    obtain ⟨q1, e1, o1, in1, m1⟩ := hpr
    rw [e1, Option.bind_some, hip]
    have final : ∃ q, (if (s.namespaces.isSome || s.notNamespaces.isSome) = true then (parseNamespaces V c s.namespaces s.notNamespaces).map q1.and
          else if false = true then (parseIpBlock s.ipBlocks s.notIpBlocks).map q1.and else some q1) = some q ∧
        q.Ok ∧ InCluster c q ∧ ∀ E, Known c E → (E.In q ↔ E.In q1 ∧ ((s.namespaces.isSome || s.notNamespaces.isSome) = true → IsPod c E) ∧
          Among s.namespaces (FromNs c E) ∧ Apart s.notNamespaces (FromNs c E)) := by
      by_cases hp : (s.namespaces.isSome || s.notNamespaces.isSome) = true
      · rw [if_pos hp]
        obtain ⟨q, e, o, i, m⟩ := parseNamespaces_sem hI h0.namespaces h0.notNamespaces
        refine ⟨_, by rw [e]; rfl, (C22_and_exact o1 o).1, InCluster.and o1 o (Or.inl in1), fun E hk => ?_⟩
        rw [in_and o1 o, m E hk]
        unfold ListSays
        tauto
      · rw [if_neg hp, if_neg (by simp)]
        rw [Bool.not_eq_true, Bool.or_eq_false_iff] at hp
        refine ⟨_, rfl, o1, in1, fun E hk => ?_⟩
        rw [none_of hp.1, none_of hp.2]
        simp [among_none, apart_none]
    obtain ⟨q, e, o, i, m⟩ := final
    refine ⟨q, e, o, i, fun E hE hk => ?_⟩
    rw [m E hk, m1 E hk]
    constructor
    · rintro ⟨⟨h1, _, h2, h3⟩, _, h4, h5⟩
      exact ⟨h1, h4, h5, h2, h3, none_of i1 ▸ among_none, none_of i2 ▸ apart_none⟩
    · rintro ⟨h1, hs⟩
      have pod : s.namespaces ≠ none ∨ s.notNamespaces ≠ none ∨ s.principals ≠ none ∨ s.notPrincipals ≠ none → IsPod c E := by
        intro h
        have : s.namespaces ≠ none ∨ s.principals ≠ none ∨ ∃ k, E = .pod k := by
          have := hE.outside
          tauto
        rcases this with h | h | h
        · obtain ⟨m, hm⟩ := Option.ne_none_iff_exists'.1 h
          obtain ⟨_, _, h⟩ := hs.namespaces m hm (hE.namespaces m hm).1
          exact fromNs_pod hI h
        · obtain ⟨m, hm⟩ := Option.ne_none_iff_exists'.1 h
          obtain ⟨_, _, h⟩ := hs.principals m hm (hE.principals m hm).1
          exact fromPrincipal_pod hI h
        · exact (isPod_iff hC E).2 ⟨h1, h⟩
      refine ⟨⟨h1, fun h => pod ?_, hs.principals, hs.notPrincipals⟩, fun h => pod ?_, hs.namespaces, hs.notNamespaces⟩
      · rw [Bool.or_eq_true, isSome_iff, isSome_iff] at h; tauto
      · rw [Bool.or_eq_true, isSome_iff, isSome_iff] at h; tauto

end
end IstioParser
end Verif
