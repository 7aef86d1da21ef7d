import Verif.CubeProofs3
/-! Helper lemmas for hyper-cube sets, part 4: `contained_in`. -/
namespace Verif
section
variable {D V X : Type} [DecidableEq D] {A : VAlg D V X} {Wf : D → V → Prop}

theorem cA_1a {cur a : D} {rest bs : List D} (h : cur ∉ bs) (s : Tree V [a]) (c2 : Bool) (o : Tree V bs) :
    containedAux A (cur :: rest) [a] bs s c2 o =
      if cur :: rest = [a] then some true else some (isFullT A bs c2 o) := by
  conv_lhs => unfold containedAux
  simp only [h, not_false_eq_true, if_true]

theorem cA_1b {cur a a' : D} {rest as bs : List D} (h : cur ∉ bs) (s : Tree V (a :: a' :: as)) (c2 : Bool) (o : Tree V bs) :
    containedAux A (cur :: rest) (a :: a' :: as) bs s c2 o =
      allLoop (fun (e : Entry V (a' :: as)) => containedAux A rest (a' :: as) bs e.2.2 c2 o) true (layers s) := by
  conv_lhs => unfold containedAux
  simp only [h, not_false_eq_true, if_true]

theorem cA_2a {cur b : D} {rest as : List D} (h : cur ∈ [b]) (h2 : cur ∉ as) (s : Tree V as) (c2 : Bool) (o : Tree V [b]) :
    containedAux A (cur :: rest) as [b] s c2 o = some (isFullT A [b] c2 o) := by
  conv_lhs => unfold containedAux
  simp only [h, h2, not_true_eq_false, if_false, not_false_eq_true, if_true]

theorem cA_2b {cur b b' : D} {rest as bs : List D} (h : cur ∈ b :: b' :: bs) (h2 : cur ∉ as) (s : Tree V as) (c2 : Bool)
    (o : Tree V (b :: b' :: bs)) :
    containedAux A (cur :: rest) as (b :: b' :: bs) s c2 o =
      case2Loop A (fun (e : Entry V (b' :: bs)) =>
          containedAux A rest as (b' :: bs) s e.2.1 e.2.2) cur none (layers o) := by
  conv_lhs => unfold containedAux
  simp only [h, h2, not_true_eq_false, if_false, not_false_eq_true, if_true]

theorem cA_3a {cur a b : D} {rest : List D} (h : cur ∈ [b]) (h2 : cur ∈ [a]) (s : Tree V [a]) (c2 : Bool) (o : Tree V [b])
    (k1 k2 : Entry V ([] : List D)) (hs : layers s = [k1]) (ho : layers o = [k2]) :
    containedAux A (cur :: rest) [a] [b] s c2 o = some (A.contained k1.1 k2.1) := by
  conv_lhs => unfold containedAux
  simp only [h, h2, not_true_eq_false, if_false]
  change s = [k1] at hs
  change o = [k2] at ho
  subst hs ho
  rfl

theorem cA_3b {cur a b : D} {rest as bs : List D} (h : cur ∈ b :: bs) (h2 : cur ∈ a :: as) (hn : ¬ (as = [] ∧ bs = []))
    (s : Tree V (a :: as)) (c2 : Bool) (o : Tree V (b :: bs)) :
    containedAux A (cur :: rest) (a :: as) (b :: bs) s c2 o =
     outerLoop (fun (e : Entry V as) =>
          coverLoop A (fun (e2 : Entry V bs) =>
            if !as.isEmpty && !bs.isEmpty then containedAux A rest as bs e.2.2 e2.2.1 e2.2.2
            else if as.isEmpty && !bs.isEmpty then some (isFullT A bs e2.2.1 e2.2.2)
            else some true) e.1 (layers o)) (List.length (layers s)) 0 (layers s) := by
  conv_lhs => unfold containedAux
  simp only [h, h2, not_true_eq_false, if_false]
  cases as <;> cases bs <;> first | exact absurd ⟨rfl, rfl⟩ hn | rfl

/-! ### Loops -/

theorem allLoop_spec {S : Type} (f : S → Option Bool) (P : S → Prop) (l : List S) (r : Bool)
    (h : ∀ e ∈ l, ∃ b, f e = some b ∧ (b = true ↔ P e)) :
    ∃ b, allLoop f r l = some b ∧ (b = true ↔ r = true ∧ ∀ e ∈ l, P e) := by
  induction l generalizing r with
  | nil => exact ⟨r, rfl, by simp⟩
  | cons e l ih =>
    obtain ⟨b, hb, hbp⟩ := h e (by simp)
    obtain ⟨b', hb', hbp'⟩ := ih (r && b) (fun e he => h e (by simp [he]))
    refine ⟨b', by simp only [allLoop, hb]; exact hb', ?_⟩
    rw [hbp', Bool.and_eq_true, hbp]
    simp only [List.mem_cons, forall_eq_or_imp]
    tauto

theorem case2Loop_spec (L : A.Lawful Wf) {d : D} {S : Type} (f : V × S → Option Bool) (P : V × S → Prop) (l : List (V × S)) (v : V)
    (hv : Wf d v) (hw : ∀ e ∈ l, Wf d e.1)
    (h : ∀ e ∈ l, ∃ b, f e = some b ∧ (b = true ↔ P e)) :
    ∃ b, case2Loop A f d (some v) l = some b ∧ (b = true ↔ (∀ e ∈ l, P e) ∧
      ∀ x, A.mem x (A.dom d) = true → A.mem x v = true ∨ ∃ e ∈ l, A.mem x e.1 = true) := by
  induction l generalizing v with
  | nil =>
    refine ⟨_, rfl, ?_⟩
    simp only [decide_eq_true_eq, List.not_mem_nil, false_implies, implies_true, true_and, false_and, exists_false, or_false]
    constructor
    · rintro rfl; exact fun _ h => h
    · intro h
      refine L.ext hv (L.wf_dom d) (fun x => ?_)
      rw [Bool.eq_iff_iff]
      exact ⟨L.sub_dom hv x, h x⟩
  | cons e l ih =>
    obtain ⟨b, hb, hbp⟩ := h e (by simp)
    cases b with
    | false =>
      refine ⟨false, by simp only [case2Loop, hb], ?_⟩
      have : ¬ P e := fun hp => absurd (hbp.2 hp) (by simp)
      simp only [Bool.false_eq_true, List.mem_cons, forall_eq_or_imp, false_iff]
      tauto
    | true =>
      have hwe := hw e (by simp)
      obtain ⟨b', hb', hbp'⟩ := ih (A.or v e.1) (L.wf_or hv hwe) (fun e he => hw e (by simp [he])) (fun e he => h e (by simp [he]))
      refine ⟨b', by simp only [case2Loop, hb]; exact hb', ?_⟩
      rw [hbp']
      have hpe := hbp.1 rfl
      simp only [List.mem_cons, forall_eq_or_imp, hpe, true_and, L.mem_or hv hwe, Bool.or_eq_true, exists_eq_or_imp,
        or_assoc]

theorem case2Loop_spec' (L : A.Lawful Wf) {d : D} {S : Type} (f : V × S → Option Bool) (P : V × S → Prop) (l : List (V × S))
    (hne : l ≠ []) (hw : ∀ e ∈ l, Wf d e.1)
    (h : ∀ e ∈ l, ∃ b, f e = some b ∧ (b = true ↔ P e)) :
    ∃ b, case2Loop A f d none l = some b ∧ (b = true ↔ (∀ e ∈ l, P e) ∧
      ∀ x, A.mem x (A.dom d) = true → ∃ e ∈ l, A.mem x e.1 = true) := by
  cases l with
  | nil => exact absurd rfl hne
  | cons e l =>
    obtain ⟨b, hb, hbp⟩ := h e (by simp)
    cases b with
    | false =>
      refine ⟨false, by simp only [case2Loop, hb], ?_⟩
      have : ¬ P e := fun hp => absurd (hbp.2 hp) (by simp)
      simp only [Bool.false_eq_true, List.mem_cons, forall_eq_or_imp, false_iff]
      tauto
    | true =>
      have hwe := hw e (by simp)
      obtain ⟨b', hb', hbp'⟩ := case2Loop_spec L f P l e.1 hwe (fun e he => hw e (by simp [he])) (fun e he => h e (by simp [he]))
      refine ⟨b', by simp only [case2Loop, hb]; exact hb', ?_⟩
      rw [hbp']
      have hpe := hbp.1 rfl
      simp only [List.mem_cons, forall_eq_or_imp, hpe, true_and, exists_eq_or_imp]

theorem coverLoop_spec (L : A.Lawful Wf) {d : D} {S : Type} (f : V × S → Option Bool) (P : V × S → Prop) (l : List (V × S)) (cur : V)
    (hc : Wf d cur) (ht : A.truthy cur = true) (hw : ∀ e ∈ l, Wf d e.1)
    (hd : l.Pairwise (fun e1 e2 => ∀ x, ¬ (A.mem x e1.1 = true ∧ A.mem x e2.1 = true)))
    (h : ∀ e ∈ l, ∃ b, f e = some b ∧ (b = true ↔ P e)) :
    ∃ r, coverLoop A f cur l = some r ∧ (r = some true ↔
      (∀ x, A.mem x cur = true → ∃ e ∈ l, A.mem x e.1 = true) ∧
      ∀ e ∈ l, (∃ x, A.mem x cur = true ∧ A.mem x e.1 = true) → P e) := by
  induction l generalizing cur with
  | nil =>
    refine ⟨some false, rfl, ?_⟩
    obtain ⟨x, hx⟩ := (L.truthy_iff hc).1 ht
    simp only [Option.some.injEq, Bool.false_eq_true, List.not_mem_nil, false_and, exists_false, imp_false, false_iff]
    intro h; exact h.1 x hx
  | cons e l ih =>
    have hwe := hw e (by simp)
    obtain ⟨hde, hdl⟩ := List.pairwise_cons.1 hd
    have hw' : ∀ e ∈ l, Wf d e.1 := fun e he => hw e (by simp [he])
    have h' : ∀ e ∈ l, ∃ b, f e = some b ∧ (b = true ↔ P e) := fun e he => h e (by simp [he])
    have hand := L.mem_and hc hwe
    have tand := L.truthy_iff (L.wf_and hc hwe)
    by_cases hcm : A.truthy (A.and cur e.1) = true
    · obtain ⟨b, hb, hbp⟩ := h e (by simp)
      obtain ⟨y, hy⟩ := tand.1 hcm
      rw [hand, Bool.and_eq_true] at hy
      cases b with
      | false =>
        refine ⟨none, by simp only [coverLoop, hcm, hb]; rfl, ?_⟩
        have hp : ¬ P e := fun hp => absurd (hbp.2 hp) (by simp)
        simp only [reduceCtorEq, List.mem_cons, forall_eq_or_imp, false_iff]
        rintro ⟨_, h2, _⟩
        exact hp (h2 ⟨y, hy⟩)
      | true =>
        have hpe := hbp.1 rfl
        have hsub := L.mem_sub hc (L.wf_and hc hwe)
        have wsub := L.wf_sub hc (L.wf_and hc hwe)
        have mrem : ∀ x, A.mem x (A.sub cur (A.and cur e.1)) = true ↔ A.mem x cur = true ∧ A.mem x e.1 = false := by
          intro x
          rw [hsub, hand]
          cases A.mem x cur <;> cases A.mem x e.1 <;> simp
        by_cases htr : A.truthy (A.sub cur (A.and cur e.1)) = true
        · obtain ⟨r, hr, hrp⟩ := ih _ wsub htr hw' hdl h'
          refine ⟨r, by simp only [coverLoop, hcm, hb, htr]; exact hr, ?_⟩
          rw [hrp]
          simp only [mrem, List.mem_cons, forall_eq_or_imp, exists_eq_or_imp, hpe, implies_true, true_and]
          constructor
          · rintro ⟨h1, h2⟩
            refine ⟨fun x hx => ?_, fun e' he' => ?_⟩
            · by_cases hxe : A.mem x e.1 = true
              · exact Or.inl hxe
              · exact Or.inr (h1 x ⟨hx, by simpa using hxe⟩)
            · rintro ⟨x, hx, hx'⟩
              refine h2 e' he' ⟨x, ⟨hx, ?_⟩, hx'⟩
              by_contra hxe
              exact hde e' he' x ⟨by simpa using hxe, hx'⟩
          · rintro ⟨h1, h2⟩
            refine ⟨fun x hx => ?_, fun e' he' => ?_⟩
            · rcases h1 x hx.1 with hh | hh
              · rw [hx.2] at hh; exact absurd hh (by simp)
              · exact hh
            · rintro ⟨x, hx, hx'⟩
              exact h2 e' he' ⟨x, hx.1, hx'⟩
        · refine ⟨some true, by
            have htr' : A.truthy (A.sub cur (A.and cur e.1)) = false := by simpa using htr
            simp only [coverLoop, hcm, hb, htr']; rfl, ?_⟩
          have hall : ∀ x, A.mem x cur = true → A.mem x e.1 = true := by
            intro x hx
            by_contra hxe
            exact htr ((L.truthy_iff wsub).2 ⟨x, (mrem x).2 ⟨hx, by simpa using hxe⟩⟩)
          simp only [true_iff, List.mem_cons, forall_eq_or_imp, exists_eq_or_imp, hpe, implies_true, true_and]
          refine ⟨fun x hx => Or.inl (hall x hx), fun e' he' => ?_⟩
          rintro ⟨x, hx, hx'⟩
          exact absurd ⟨hall x hx, hx'⟩ (hde e' he' x)
    · have hcm' : A.truthy (A.and cur e.1) = false := by simpa using hcm
      obtain ⟨r, hr, hrp⟩ := ih cur hc ht hw' hdl h'
      refine ⟨r, by simp only [coverLoop, hcm']; exact hr, ?_⟩
      rw [hrp]
      have hno : ∀ x, ¬ (A.mem x cur = true ∧ A.mem x e.1 = true) := by
        intro x hx
        exact hcm (tand.2 ⟨x, by rw [hand, hx.1, hx.2]; rfl⟩)
      simp only [List.mem_cons, forall_eq_or_imp, exists_eq_or_imp]
      constructor
      · rintro ⟨h1, h2⟩
        exact ⟨fun x hx => Or.inr (h1 x hx), fun ⟨x, hx⟩ => absurd hx (hno x), h2⟩
      · rintro ⟨h1, _, h2⟩
        exact ⟨fun x hx => (h1 x hx).resolve_left (fun hh => hno x ⟨hx, hh⟩), h2⟩

theorem outerLoop_spec {S : Type} (g : V × S → Option (Option Bool)) (Q : V × S → Prop) (total : Nat) (l : List (V × S)) (count : Nat)
    (h : ∀ e ∈ l, ∃ r, g e = some r ∧ (r = some true ↔ Q e)) (hle : count + l.length ≤ total) :
    ∃ b, outerLoop g total count l = some b ∧ (b = true ↔ count + l.length = total ∧ ∀ e ∈ l, Q e) := by
  induction l generalizing count with
  | nil => exact ⟨_, rfl, by simp⟩
  | cons e l ih =>
    obtain ⟨r, hr, hrp⟩ := h e (by simp)
    have h' : ∀ e ∈ l, ∃ r, g e = some r ∧ (r = some true ↔ Q e) := fun e he => h e (by simp [he])
    simp only [List.length_cons] at hle
    match r, hr, hrp with
    | none, hr, hrp =>
      refine ⟨false, by simp only [outerLoop, hr], ?_⟩
      have : ¬ Q e := fun hq => absurd (hrp.2 hq) (by simp)
      simp only [Bool.false_eq_true, List.mem_cons, forall_eq_or_imp, false_iff]
      tauto
    | some false, hr, hrp =>
      obtain ⟨b, hb, hbp⟩ := ih count h' (by omega)
      have : ¬ Q e := fun hq => absurd (hrp.2 hq) (by simp)
      refine ⟨b, by simp only [outerLoop, hr]; exact hb, ?_⟩
      rw [hbp]
      simp only [List.mem_cons, forall_eq_or_imp, List.length_cons]
      constructor
      · rintro ⟨h1, _⟩; omega
      · rintro ⟨_, h2, _⟩; exact absurd h2 this
    | some true, hr, hrp =>
      obtain ⟨b, hb, hbp⟩ := ih (count + 1) h' (by omega)
      have hq := hrp.1 rfl
      refine ⟨b, by simp only [outerLoop, hr]; exact hb, ?_⟩
      rw [hbp]
      simp only [List.mem_cons, forall_eq_or_imp, List.length_cons, hq, true_and]
      rw [show count + 1 + l.length = count + (l.length + 1) by omega]

/-! ### The semantics of each case -/

/-- Containment of the denoted sets. -/
def SubD (A : VAlg D V X) (as bs : List D) (s : Tree V as) (o : Tree V bs) : Prop :=
  ∀ p, InDom A p → Den A as s p → Den A bs o p

theorem subD_case1 (L : A.Lawful Wf) {cur : D} {as bs : List D} (ha : cur ∉ as) (hb : cur ∉ bs)
    (s : Tree V (cur :: as)) (o : Tree V bs) (w : WfT A Wf (cur :: as) s) :
    SubD A (cur :: as) bs s o ↔ ∀ e ∈ layers s, SubD A as bs e.2.2 o := by
  constructor
  · intro h e he p hp hd
    obtain ⟨x, hx⟩ := (L.truthy_iff (w.1 e he).1).1 (w.1 e he).2.1
    have := h _ (upd_inDom hp (L.sub_dom (w.1 e he).1 x hx)) ((den_section ha w he hx p).2 hd)
    exact (den_upd o p x hb).1 this
  · rintro h p hp ⟨e, he, _, hd⟩
    exact h e he p hp hd

theorem subD_nil {bs : List D} (s : Tree V ([] : List D)) (o : Tree V bs) : SubD A [] bs s o ↔ FullD A bs o :=
  ⟨fun h p hp => h p hp trivial, fun h p hp _ => h p hp⟩

theorem subD_case2 (L : A.Lawful Wf) {cur : D} {as bs : List D} (hnd : as.Nodup) (ha : cur ∉ as) (hb : cur ∉ bs)
    (s : Tree V as) (o : Tree V (cur :: bs)) (w : WfT A Wf as s) (n : NeT as s) (hn : neT as s = true)
    (w2 : WfT A Wf (cur :: bs) o) :
    SubD A as (cur :: bs) s o ↔ (∀ e ∈ layers o, SubD A as bs s e.2.2) ∧
      ∀ x, A.mem x (A.dom cur) = true → ∃ e ∈ layers o, A.mem x e.1 = true := by
  constructor
  · intro h
    constructor
    · intro e he p hp hd
      obtain ⟨x, hx⟩ := (L.truthy_iff (w2.1 e he).1).1 (w2.1 e he).2.1
      have := h _ (upd_inDom hp (L.sub_dom (w2.1 e he).1 x hx)) ((den_upd s p x ha).2 hd)
      exact (den_section hb w2 he hx p).1 this
    · intro x hx
      obtain ⟨p0, hp0⟩ := exists_inDom L
      obtain ⟨p, hp, _, hd⟩ := exists_den L hnd s w n hn p0 hp0
      obtain ⟨e, he, hm, _⟩ := h _ (upd_inDom hp hx) ((den_upd s p x ha).2 hd)
      rw [upd_self] at hm
      exact ⟨e, he, hm⟩
  · rintro ⟨h1, h2⟩ p hp hd
    obtain ⟨e, he, hm⟩ := h2 (p cur) (hp cur)
    exact ⟨e, he, hm, h1 e he p hp hd⟩

theorem subD_case3 (L : A.Lawful Wf) {cur : D} {as bs : List D} (hnd : as.Nodup) (ha : cur ∉ as) (hb : cur ∉ bs)
    (s : Tree V (cur :: as)) (o : Tree V (cur :: bs)) (w : WfT A Wf (cur :: as) s) (n : NeT (cur :: as) s)
    (w2 : WfT A Wf (cur :: bs) o) :
    SubD A (cur :: as) (cur :: bs) s o ↔ ∀ e ∈ layers s,
      (∀ x, A.mem x e.1 = true → ∃ e2 ∈ layers o, A.mem x e2.1 = true) ∧
      ∀ e2 ∈ layers o, (∃ x, A.mem x e.1 = true ∧ A.mem x e2.1 = true) → SubD A as bs e.2.2 e2.2.2 := by
  constructor
  · intro h e he
    constructor
    · intro x hx
      obtain ⟨p0, hp0⟩ := exists_inDom L
      obtain ⟨p, hp, _, hd⟩ := exists_den L hnd e.2.2 (w.1 e he).2.2 (n e he).2 (n e he).1 p0 hp0
      obtain ⟨e2, he2, hm, _⟩ := h _ (upd_inDom hp (L.sub_dom (w.1 e he).1 x hx)) ((den_section ha w he hx p).2 hd)
      rw [upd_self] at hm
      exact ⟨e2, he2, hm⟩
    · rintro e2 he2 ⟨x, hx, hx2⟩ p hp hd
      have := h _ (upd_inDom hp (L.sub_dom (w.1 e he).1 x hx)) ((den_section ha w he hx p).2 hd)
      exact (den_section hb w2 he2 hx2 p).1 this
  · rintro h p hp ⟨e, he, hm, hd⟩
    obtain ⟨h1, h2⟩ := h e he
    obtain ⟨e2, he2, hm2⟩ := h1 _ hm
    exact ⟨e2, he2, hm2, h2 e2 he2 ⟨_, hm, hm2⟩ p hp hd⟩

theorem head_of_mem {cur : D} {rest as : List D} (hnd : (cur :: rest).Nodup) (hs : as.Sublist (cur :: rest)) (hm : cur ∈ as) :
    ∃ as', as = cur :: as' ∧ as'.Sublist rest := by
  cases as with
  | nil => simp at hm
  | cons a as =>
    by_cases h : a = cur
    · subst h; exact ⟨as, rfl, List.cons_sublist_cons.1 hs⟩
    · have := List.Sublist.of_cons_of_ne h hs
      exact absurd (this.subset hm) (List.nodup_cons.1 hnd).1

theorem sublist_of_not_mem {cur : D} {rest as : List D} (hs : as.Sublist (cur :: rest)) (hm : cur ∉ as) :
    as.Sublist rest := by
  cases as with
  | nil => simp
  | cons a as =>
    have h : a ≠ cur := fun h => hm (by simp [h])
    exact List.Sublist.of_cons_of_ne h hs

theorem leaf_single {d : D} (t : Tree V [d]) (o : OneFull A [d] t) (hn : neT [d] t = true) :
    ∃ k, layers t = [k] := by
  have hne := neT_iff_ne.1 hn
  have hp := o.2
  generalize layers t = l at hne hp
  match l, hne, hp with
  | [k], _, _ => exact ⟨k, rfl⟩
  | a :: b :: l, _, hp =>
    exact absurd ⟨fun _ _ => trivial, fun _ _ => trivial⟩ ((List.pairwise_cons.1 hp).1 b (by simp))

theorem containedAux_spec (L : A.Lawful Wf) {C as bs : List D} (hC : C.Nodup) (ha : as.Sublist C) (hb : bs.Sublist C)
    (hcov : ∀ d ∈ C, d ∈ as ∨ d ∈ bs) (hne : as ≠ []) (s : Tree V as) (c2 : Bool) (o : Tree V bs)
    (w1 : WfT A Wf as s) (n1 : NeT as s) (ne1 : neT as s = true) (o1 : OneFull A as s)
    (w2 : WfT A Wf bs o) (n2 : NeT bs o) (ne2 : neT bs o = true) (o2 : OneFull A bs o) (hc2 : c2 = true → ¬ FullD A bs o) :
    ∃ b, containedAux A C as bs s c2 o = some b ∧ (b = true ↔ SubD A as bs s o) := by
  induction C generalizing as bs c2 with
  | nil => exact absurd (List.sublist_nil.1 ha) hne
  | cons cur rest ih =>
    have hC' := List.nodup_cons.1 hC
    have hcov' : ∀ as' bs' : List D, (∀ d ∈ as, d ≠ cur → d ∈ as') → (∀ d ∈ bs, d ≠ cur → d ∈ bs') →
        ∀ d ∈ rest, d ∈ as' ∨ d ∈ bs' := by
      intro as' bs' h1 h2 d hd
      have hdc : d ≠ cur := fun h => hC'.1 (h ▸ hd)
      rcases hcov d (by simp [hd]) with h | h
      · exact Or.inl (h1 d h hdc)
      · exact Or.inr (h2 d h hdc)
    have hp := exists_inDom L
    by_cases hcb : cur ∈ bs
    · obtain ⟨bs', rfl, hb'⟩ := head_of_mem hC hb hcb
      have hcb' : cur ∉ bs' := fun h => hC'.1 (hb'.subset h)
      have ndb : bs'.Nodup := hC'.2.sublist hb'
      have ndb1 : (cur :: bs').Nodup := hC.sublist hb
      by_cases hca : cur ∈ as
      · -- both active
        obtain ⟨as', rfl, ha'⟩ := head_of_mem hC ha hca
        have hca' : cur ∉ as' := fun h => hC'.1 (ha'.subset h)
        have nda : as'.Nodup := hC'.2.sublist ha'
        by_cases hboth : as' = [] ∧ bs' = []
        · obtain ⟨rfl, rfl⟩ := hboth
          obtain ⟨k1, hk1⟩ := leaf_single s o1 ne1
          obtain ⟨k2, hk2⟩ := leaf_single o o2 ne2
          refine ⟨_, cA_3a hcb hca s c2 o k1 k2 hk1 hk2, ?_⟩
          have m1 : k1 ∈ layers s := by rw [hk1]; simp
          have m2 : k2 ∈ layers o := by rw [hk2]; simp
          rw [L.contained_iff (w1.1 k1 m1).1 (w2.1 k2 m2).1, subD_case3 L nda hca' hcb' s o w1 n1 w2, hk1, hk2]
          simp only [List.mem_singleton, forall_eq, exists_eq_left]
          constructor
          · intro h; exact ⟨h, fun _ _ _ _ => trivial⟩
          · intro h; exact h.1
        · rw [cA_3b hcb hca hboth]
          have hin : ∀ e ∈ layers s, ∀ e2 ∈ layers o, ∃ b,
              (if !as'.isEmpty && !bs'.isEmpty then containedAux A rest as' bs' e.2.2 e2.2.1 e2.2.2
              else if as'.isEmpty && !bs'.isEmpty then some (isFullT A bs' e2.2.1 e2.2.2)
              else some true) = some b ∧ (b = true ↔ SubD A as' bs' e.2.2 e2.2.2) := by
            intro e he e2 he2
            cases as' with
            | nil =>
              cases bs' with
              | nil => exact absurd ⟨rfl, rfl⟩ hboth
              | cons b bs'' =>
                refine ⟨_, rfl, ?_⟩
                rw [subD_nil]
                exact isFullT_iff L ndb _ _ (w2.1 e2 he2).2.2 (o2.1 e2 he2).1 (o2.1 e2 he2).2 hp
            | cons a as'' =>
              cases bs' with
              | nil =>
                exact ⟨true, rfl, by simp only [true_iff]; exact fun _ _ _ => trivial⟩
              | cons b bs'' =>
                refine ih hC'.2 ha' hb' (hcov' _ _ ?_ ?_) (by simp) e.2.2 e2.2.1 e2.2.2 (w1.1 e he).2.2 (n1 e he).2 (n1 e he).1
                  (o1.1 e he).1 (w2.1 e2 he2).2.2 (n2 e2 he2).2 (n2 e2 he2).1 (o2.1 e2 he2).1 (o2.1 e2 he2).2
                · intro d hd hdc
                  rcases List.mem_cons.1 hd with h | h
                  · exact absurd h hdc
                  · exact h
                · intro d hd hdc
                  rcases List.mem_cons.1 hd with h | h
                  · exact absurd h hdc
                  · exact h
          obtain ⟨b, hb1, hb2⟩ := outerLoop_spec (fun (e : Entry V as') =>
            coverLoop A (fun (e2 : Entry V bs') =>
              if !as'.isEmpty && !bs'.isEmpty then containedAux A rest as' bs' e.2.2 e2.2.1 e2.2.2
              else if as'.isEmpty && !bs'.isEmpty then some (isFullT A bs' e2.2.1 e2.2.2)
              else some true) e.1 (layers o))
            (fun e => (∀ x, A.mem x e.1 = true → ∃ e2 ∈ layers o, A.mem x e2.1 = true) ∧
              ∀ e2 ∈ layers o, (∃ x, A.mem x e.1 = true ∧ A.mem x e2.1 = true) → SubD A as' bs' e.2.2 e2.2.2)
            (List.length (layers s)) (layers s) 0
            (fun e he => coverLoop_spec L (d := cur) _ (fun e2 => SubD A as' bs' e.2.2 e2.2.2) (layers o) e.1 (w1.1 e he).1 (w1.1 e he).2.1
              (fun e2 he2 => (w2.1 e2 he2).1) w2.2 (hin e he)) (by simp)
          refine ⟨b, hb1, ?_⟩
          rw [hb2, subD_case3 L nda hca' hcb' s o w1 n1 w2]
          simp
      · -- current dimension active only in other
        have ha' := sublist_of_not_mem ha hca
        have nda : as.Nodup := hC'.2.sublist ha'
        cases bs' with
        | nil =>
          refine ⟨_, cA_2a hcb hca s c2 o, ?_⟩
          rw [isFullT_iff L ndb1 _ _ w2 o2 hc2 hp]
          constructor
          · intro h p hp _; exact h p hp
          · intro h q hq
            obtain ⟨p0, hp0⟩ := hp
            obtain ⟨p, hp, _, hd⟩ := exists_den L nda s w1 n1 ne1 p0 hp0
            have := h _ (upd_inDom hp (hq cur)) ((den_upd s p (q cur) hca).2 hd)
            refine (den_congr o ?_).1 this
            intro d hd
            have := List.mem_singleton.1 hd
            subst this; simp
        | cons b bs'' =>
          rw [cA_2b hcb hca]
          obtain ⟨r, hr, hrp⟩ := case2Loop_spec' L (d := cur)
            (fun (e : Entry V (b :: bs'')) => containedAux A rest as (b :: bs'') s e.2.1 e.2.2)
            (fun e => SubD A as (b :: bs'') s e.2.2) (layers o) (neT_iff_ne.1 ne2) (fun e he => (w2.1 e he).1) (by
              intro e he
              refine ih hC'.2 ha' hb' (hcov' _ _ ?_ ?_) hne s e.2.1 e.2.2 w1 n1 ne1 o1 (w2.1 e he).2.2 (n2 e he).2 (n2 e he).1
                (o2.1 e he).1 (o2.1 e he).2
              · intro d hd _; exact hd
              · intro d hd hdc
                rcases List.mem_cons.1 hd with h | h
                · exact absurd h hdc
                · exact h)
          exact ⟨r, hr, by rw [hrp, subD_case2 L nda hca hcb' s o w1 n1 ne1 w2]⟩
    · have hb' := sublist_of_not_mem hb hcb
      have hca : cur ∈ as := (hcov cur (by simp)).resolve_right hcb
      obtain ⟨as', rfl, ha'⟩ := head_of_mem hC ha hca
      have hca' : cur ∉ as' := fun h => hC'.1 (ha'.subset h)
      have ndb : bs.Nodup := hC'.2.sublist hb'
      cases as' with
      | nil =>
        rw [cA_1a hcb]
        obtain ⟨e0, he0⟩ := List.exists_mem_of_ne_nil _ (neT_iff_ne.1 ne1)
        have hsub : SubD A [cur] bs s o ↔ FullD A bs o := by
          rw [subD_case1 L hca' hcb s o w1]
          constructor
          · intro h; exact (subD_nil _ _).1 (h e0 he0)
          · intro h e he; exact (subD_nil _ _).2 h
        by_cases hr : cur :: rest = [cur]
        · rw [if_pos hr]
          have hr' : rest = [] := by simpa using hr
          subst hr'
          have := List.sublist_nil.1 hb'
          subst this
          exact ⟨true, rfl, by simp only [true_iff]; exact fun _ _ _ => trivial⟩
        · rw [if_neg hr]
          refine ⟨_, rfl, ?_⟩
          rw [isFullT_iff L ndb _ _ w2 o2 hc2 hp, hsub]
      | cons a as'' =>
        rw [cA_1b hcb]
        obtain ⟨b, hb1, hb2⟩ := allLoop_spec (fun (e : Entry V (a :: as'')) => containedAux A rest (a :: as'') bs e.2.2 c2 o)
          (fun e => SubD A (a :: as'') bs e.2.2 o) (layers s) true (by
            intro e he
            refine ih hC'.2 ha' hb' (hcov' _ _ ?_ ?_) (by simp) e.2.2 c2 o (w1.1 e he).2.2 (n1 e he).2 (n1 e he).1 (o1.1 e he).1
              w2 n2 ne2 o2 hc2
            · intro d hd hdc
              rcases List.mem_cons.1 hd with h | h
              · exact absurd h hdc
              · exact h
            · intro d hd _; exact hd)
        exact ⟨b, hb1, by rw [hb2, subD_case1 L hca' hcb s o w1]; simp⟩

end
end Verif
