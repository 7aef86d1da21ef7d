import Verif.PolicySpec
/-! Proofs about policies and the collection of policies in a layer. -/
namespace Verif

section
variable {C P E S : Type} {N : Net C P E S} {Ok Strong : C → Prop}

/-- Two subtractions in a row. -/
theorem sub2 (L : N.Lawful Ok Strong) {a b c : C} (ha : Strong a) (hb : Ok b) (hc : Ok c)
    (hs : (∀ a, Ok a → Strong a) ∨ N.K.truthy c = false) :
    Ok (N.K.sub (N.K.sub a b) c) ∧
    ∀ p, N.K.mem p (N.K.sub (N.K.sub a b) c) = (N.K.mem p a && !N.K.mem p b && !N.K.mem p c) := by
  have h1 := L.sub_ok ha hb
  rcases hs with ht | hf
  · have h1' := ht _ h1
    exact ⟨L.sub_ok h1' hc, fun p => by rw [L.mem_sub h1' hc, L.mem_sub ha hb]⟩
  · rw [L.sub_falsy hf]
    refine ⟨h1, fun p => ?_⟩
    have : N.K.mem p c = false := by
      rw [← Bool.not_eq_true]
      intro h
      have := (L.truthy_iff hc).2 ⟨p, h⟩
      rw [hf] at this; exact absurd this (by simp)
    rw [L.mem_sub ha hb, this]; simp

/-- A set whose first subtrahend is the one known empty. -/
theorem sub2' (L : N.Lawful Ok Strong) {a b c : C} (ha : Strong a) (hb : Ok b) (hc : Ok c)
    (hs : (∀ a, Ok a → Strong a) ∨ N.K.truthy a = false) :
    Ok (N.K.sub (N.K.sub a b) c) ∧
    ∀ p, N.K.mem p (N.K.sub (N.K.sub a b) c) = (N.K.mem p a && !N.K.mem p b && !N.K.mem p c) := by
  have h1' : Strong (N.K.sub a b) := by
    rcases hs with ht | hf
    · exact ht _ (L.sub_ok ha hb)
    · exact L.sub_empty_strong ha hb hf
  exact ⟨L.sub_ok h1' hc, fun p => by rw [L.mem_sub h1' hc, L.mem_sub ha hb]⟩

theorem falsy_iff (L : N.Lawful Ok Strong) {a : C} (ha : Ok a) : N.K.truthy a = false ↔ ∀ p, N.K.mem p a = false := by
  rw [← Bool.not_eq_true, L.truthy_iff ha]
  simp

/-- The three sets hold exactly the connections with the corresponding verdict. -/
structure Rel (N : Net C P E S) (Ok Strong : C → Prop) (allow deny pass : C) (v : P → Option RuleAction) : Prop where
  sa : Strong allow
  sd : Strong deny
  sp : Strong pass
  ma : ∀ p, N.K.mem p allow = decide (v p = some .allow)
  md : ∀ p, N.K.mem p deny = decide (v p = some .deny)
  mp : ∀ p, N.K.mem p pass = decide (v p = some .pass)
  nl : ∀ p, v p ≠ some .log
  safe : (∀ a, Ok a → Strong a) ∨ N.K.truthy pass = false

theorem Rel.empty (L : N.Lawful Ok Strong) : Rel N Ok Strong N.K.empty N.K.empty N.K.empty (fun _ => none) := by
  refine ⟨L.empty_strong, L.empty_strong, L.empty_strong, ?_, ?_, ?_, ?_, ?_⟩
  all_goals try (intro p; simp [L.mem_empty])
  right
  rw [falsy_iff L (L.strong_ok L.empty_strong)]
  exact fun p => L.mem_empty p

theorem or_rel (L : N.Lawful Ok Strong) {a b : C} (ha : Strong a) (hb : Ok b) (f g : P → Bool)
    (hf : ∀ p, N.K.mem p a = f p) (hg : ∀ p, N.K.mem p b = g p) :
    Strong (N.K.or a b) ∧ ∀ p, N.K.mem p (N.K.or a b) = (f p || g p) :=
  ⟨L.or_strong ha hb, fun p => by rw [L.mem_or (L.strong_ok ha) hb, hf, hg]⟩

/-- The verdict of one rule. -/
def oneRule (N : Net C P E S) (r : Rule C) (p : P) : Option RuleAction :=
  if r.action ≠ .log ∧ N.K.mem p r.props = true then some r.action else none

theorem firstMatch_cons (r : Rule C) (rs : List (Rule C)) (p : P) :
    firstMatch N p (r :: rs) = (oneRule N r p <|> firstMatch N p rs) := by
  unfold oneRule
  rw [firstMatch]
  split <;> rfl

theorem calicoStep_rel (L : N.Lawful Ok Strong) {st : CalicoState C} {v : P → Option RuleAction}
    (h : Rel N Ok Strong st.allow st.deny st.pass v) {r : Rule C} (hr : Strong r.props)
    (hp : (∀ a, Ok a → Strong a) ∨ r.action ≠ .pass) :
    Rel N Ok Strong (calicoStep N st r).allow (calicoStep N st r).deny (calicoStep N st r).pass
      (fun p => v p <|> oneRule N r p) := by
  obtain ⟨sa, sd, sp, ma, md, mp, nl, safe⟩ := h
  obtain ⟨act, props⟩ := r
  cases act
  · -- deny
    have h2 := sub2 L hr (L.strong_ok sa) (L.strong_ok sp) safe
    have h3 := or_rel L sd h2.1 _ _ md h2.2
    refine ⟨sa, h3.1, sp, ?_, ?_, ?_, ?_, safe⟩ <;> intro p
    · rw [show (calicoStep N st ⟨.deny, props⟩).allow = st.allow from rfl, ma]
      unfold oneRule
      rcases v p with _ | _ | _ | _ | _ <;> cases N.K.mem p props <;> simp
    · refine (h3.2 p).trans ?_
      rw [ma, mp]
      have := nl p
      unfold oneRule
      generalize v p = w at this ⊢
      rcases w with _ | _ | _ | _ | _ <;> cases N.K.mem p props <;> simp at this ⊢
    · rw [show (calicoStep N st ⟨.deny, props⟩).pass = st.pass from rfl, mp]
      unfold oneRule
      rcases v p with _ | _ | _ | _ | _ <;> cases N.K.mem p props <;> simp
    · have := nl p
      unfold oneRule
      generalize v p = w at this ⊢
      rcases w with _ | _ | _ | _ | _ <;> cases N.K.mem p props <;> simp at this ⊢
  · -- allow
    have h2 := sub2 L hr (L.strong_ok sd) (L.strong_ok sp) safe
    have h3 := or_rel L sa h2.1 _ _ ma h2.2
    refine ⟨h3.1, sd, sp, ?_, ?_, ?_, ?_, safe⟩ <;> intro p
    · refine (h3.2 p).trans ?_
      rw [md, mp]
      have := nl p
      unfold oneRule
      generalize v p = w at this ⊢
      rcases w with _ | _ | _ | _ | _ <;> cases N.K.mem p props <;> simp at this ⊢
    · rw [show (calicoStep N st ⟨.allow, props⟩).deny = st.deny from rfl, md]
      unfold oneRule
      rcases v p with _ | _ | _ | _ | _ <;> cases N.K.mem p props <;> simp
    · rw [show (calicoStep N st ⟨.allow, props⟩).pass = st.pass from rfl, mp]
      unfold oneRule
      rcases v p with _ | _ | _ | _ | _ <;> cases N.K.mem p props <;> simp
    · have := nl p
      unfold oneRule
      generalize v p = w at this ⊢
      rcases w with _ | _ | _ | _ | _ <;> cases N.K.mem p props <;> simp at this ⊢
  · -- log
    refine ⟨sa, sd, sp, ?_, ?_, ?_, ?_, safe⟩ <;> intro p
    · rw [show (calicoStep N st ⟨.log, props⟩).allow = st.allow from rfl, ma]; simp [oneRule]
    · rw [show (calicoStep N st ⟨.log, props⟩).deny = st.deny from rfl, md]; simp [oneRule]
    · rw [show (calicoStep N st ⟨.log, props⟩).pass = st.pass from rfl, mp]; simp [oneRule]
    · have := nl p; simpa [oneRule] using this
  · -- pass
    have ht : ∀ a, Ok a → Strong a := by
      rcases hp with h | h
      · exact h
      · exact absurd rfl h
    have h2 := sub2 L hr (L.strong_ok sa) (L.strong_ok sd) (Or.inl ht)
    have h3 := or_rel L sp h2.1 _ _ mp h2.2
    refine ⟨sa, sd, h3.1, ?_, ?_, ?_, ?_, Or.inl ht⟩ <;> intro p
    · rw [show (calicoStep N st ⟨.pass, props⟩).allow = st.allow from rfl, ma]
      unfold oneRule
      rcases v p with _ | _ | _ | _ | _ <;> cases N.K.mem p props <;> simp
    · rw [show (calicoStep N st ⟨.pass, props⟩).deny = st.deny from rfl, md]
      unfold oneRule
      rcases v p with _ | _ | _ | _ | _ <;> cases N.K.mem p props <;> simp
    · refine (h3.2 p).trans ?_
      rw [ma, md]
      have := nl p
      unfold oneRule
      generalize v p = w at this ⊢
      rcases w with _ | _ | _ | _ | _ <;> cases N.K.mem p props <;> simp at this ⊢
    · have := nl p
      unfold oneRule
      generalize v p = w at this ⊢
      rcases w with _ | _ | _ | _ | _ <;> cases N.K.mem p props <;> simp at this ⊢

theorem calicoFold_rel (L : N.Lawful Ok Strong) (rs : List (Rule C)) : ∀ {st : CalicoState C} {v : P → Option RuleAction},
    Rel N Ok Strong st.allow st.deny st.pass v → (∀ r ∈ rs, Strong r.props) →
    ((∀ a, Ok a → Strong a) ∨ ∀ r ∈ rs, r.action ≠ .pass) →
    Rel N Ok Strong (rs.foldl (calicoStep N) st).allow (rs.foldl (calicoStep N) st).deny (rs.foldl (calicoStep N) st).pass
      (fun p => v p <|> firstMatch N p rs) := by
  induction rs with
  | nil =>
    intro st v h _ _
    have : (fun p => v p <|> firstMatch N p ([] : List (Rule C))) = v := by
      funext p; cases h : v p <;> simp [firstMatch]
    rw [this]; exact h
  | cons r rs ih =>
    intro st v h hs hp
    have h1 := calicoStep_rel L h (hs r (by simp)) (hp.imp id (fun h => h r (by simp)))
    have h2 := ih h1 (fun r hr => hs r (by simp [hr])) (hp.imp id (fun h r hr => h r (by simp [hr])))
    have : (fun p => v p <|> firstMatch N p (r :: rs)) = (fun p => (v p <|> oneRule N r p) <|> firstMatch N p rs) := by
      funext p
      rw [firstMatch_cons]
      cases v p <;> rfl
    rw [this]; exact h2

theorem calicoSync_rel (L : N.Lawful Ok Strong) (rs : List (Rule C)) (hs : ∀ r ∈ rs, Strong r.props)
    (hp : (∀ a, Ok a → Strong a) ∨ ∀ r ∈ rs, r.action ≠ .pass) :
    Rel N Ok Strong (calicoSync N rs).allow (calicoSync N rs).deny (calicoSync N rs).pass (fun p => firstMatch N p rs) := by
  have := calicoFold_rel L rs (st := ⟨N.K.empty, N.K.empty, N.K.empty⟩) (Rel.empty L) hs hp
  simpa [calicoSync] using this

theorem unionRules_aux (L : N.Lawful Ok Strong) (rs : List (Rule C)) : ∀ acc : C, Strong acc → (∀ r ∈ rs, Ok r.props) →
    Strong (rs.foldl (fun acc r => N.K.or acc r.props) acc) ∧
    ∀ p, N.K.mem p (rs.foldl (fun acc r => N.K.or acc r.props) acc) = (N.K.mem p acc || anyMatch N p rs) := by
  induction rs with
  | nil => intro acc h _; exact ⟨h, fun p => by simp [anyMatch]⟩
  | cons r rs ih =>
    intro acc h hr
    have hro : Ok r.props := hr r (by simp)
    obtain ⟨h1, h2⟩ := ih (N.K.or acc r.props) (L.or_strong h hro) (fun r' h' => hr r' (by simp [h']))
    refine ⟨h1, fun p => ?_⟩
    rw [List.foldl_cons, h2, L.mem_or (L.strong_ok h) hro]
    simp [anyMatch, Bool.or_assoc]

theorem unionRules_spec (L : N.Lawful Ok Strong) (rs : List (Rule C)) (hr : ∀ r ∈ rs, Ok r.props) :
    Strong (unionRules N rs) ∧ ∀ p, N.K.mem p (unionRules N rs) = anyMatch N p rs := by
  have := unionRules_aux L rs N.K.empty L.empty_strong hr
  exact ⟨this.1, fun p => by rw [unionRules, this.2, L.mem_empty, Bool.false_or]⟩

theorem empty_falsy (L : N.Lawful Ok Strong) : N.K.truthy N.K.empty = false :=
  (falsy_iff L (L.strong_ok L.empty_strong)).2 L.mem_empty

/-- allow-only sets -/
theorem Rel.allowOnly (L : N.Lawful Ok Strong) {a : C} {f : P → Bool} (ha : Strong a) (h : ∀ p, N.K.mem p a = f p) :
    Rel N Ok Strong a N.K.empty N.K.empty (fun p => if f p then some .allow else none) := by
  refine ⟨ha, L.empty_strong, L.empty_strong, ?_, ?_, ?_, ?_, Or.inr (empty_falsy L)⟩ <;> intro p
  · rw [h]; cases f p <;> simp
  · rw [L.mem_empty]; cases f p <;> simp
  · rw [L.mem_empty]; cases f p <;> simp
  · cases f p <;> simp

theorem Rel.denyOnly (L : N.Lawful Ok Strong) {a : C} {f : P → Bool} (ha : Strong a) (h : ∀ p, N.K.mem p a = f p) :
    Rel N Ok Strong N.K.empty a N.K.empty (fun p => if f p then some .deny else none) := by
  refine ⟨L.empty_strong, ha, L.empty_strong, ?_, ?_, ?_, ?_, Or.inr (empty_falsy L)⟩ <;> intro p
  · rw [L.mem_empty]; cases f p <;> simp
  · rw [h]; cases f p <;> simp
  · rw [L.mem_empty]; cases f p <;> simp
  · cases f p <;> simp

/-- The captured set of a policy in a direction. -/
theorem policyConns_captured (pol : Policy C S) (dir : Bool) (e : E) :
    N.Q.mem e (policyConns N pol dir).captured = pol.captures N dir e := by
  obtain ⟨name, kind, order, action, sel, ai, ae, ir, er⟩ := pol
  cases kind <;> cases action <;> cases dir <;> cases ai <;> cases ae <;>
    simp [policyConns, Policy.captures, Policy.governs, N.Q.mem_empty]

theorem policyConns_allAllowed (pol : Policy C S) (dir : Bool) : (policyConns N pol dir).allAllowed = N.K.empty := by
  obtain ⟨name, kind, order, action, sel, ai, ae, ir, er⟩ := pol
  cases kind <;> cases action <;> cases dir <;> simp [policyConns]

/-- In a direction the policy governs, its sets are its verdicts. -/
theorem policyConns_rel (L : N.Lawful Ok Strong) (pol : Policy C S) (hl : pol.Legal N Strong)
    (hx : SubExact Ok Strong [pol]) (dir : Bool) (hg : pol.governs dir = true) :
    Rel N Ok Strong (policyConns N pol dir).allowed (policyConns N pol dir).denied (policyConns N pol dir).pass
      (fun p => pol.ruleVerdict N dir p) := by
  have hr := hl.strong dir
  have hu := unionRules_spec L (pol.rules dir) (fun r h => L.strong_ok (hr r h))
  have hA := Rel.allowOnly (Ok := Ok) L hu.1 hu.2
  have hD := Rel.denyOnly (Ok := Ok) L hu.1 hu.2
  have hC : pol.isCalico = true →
      Rel N Ok Strong (calicoSync N (pol.rules dir)).allow (calicoSync N (pol.rules dir)).deny (calicoSync N (pol.rules dir)).pass
        (fun p => firstMatch N p (pol.rules dir)) := by
    intro hc
    exact calicoSync_rel L _ hr (hx.imp id (fun h => h pol (by simp) hc dir))
  obtain ⟨name, kind, order, action, sel, ai, ae, ir, er⟩ := pol
  cases kind
  · exact hA
  · exact hC rfl
  · exact hC rfl
  · exact hC rfl
  · cases dir
    · simp [Policy.governs] at hg
    · cases action
      · exact hD
      · exact hA
  · cases dir
    · exact hA
    · simp [Policy.governs] at hg
  · cases action
    · exact hD
    · exact hA
  · cases action
    · exact hD
    · exact hA

/-- One step of the collection. -/
theorem collectStep_rel (L : N.Lawful Ok Strong) (dir : Bool) (cf : Policy C S → Bool) {res : PolicyConns C S}
    {v : P → Option RuleAction} (h : Rel N Ok Strong res.allowed res.denied res.pass v) (pol : Policy C S)
    (hl : pol.Legal N Strong) (hx : SubExact Ok Strong [pol]) :
    Rel N Ok Strong (collectStep N dir cf res pol).allowed (collectStep N dir cf res pol).denied (collectStep N dir cf res pol).pass
      (fun p => v p <|> (if pol.captures N dir (endpoint N dir p) then pol.ruleVerdict N dir p else none)) := by
  unfold collectStep
  dsimp only
  by_cases ht : N.Q.truthy (policyConns N pol dir).captured = true
  · simp only [ht, if_true]
    have hg : pol.governs dir = true := by
      obtain ⟨e, he⟩ := (N.Q.truthy_iff _).1 ht
      rw [policyConns_captured] at he
      unfold Policy.captures at he
      exact ((Bool.and_eq_true _ _) ▸ he).1
    -- the rules only speak about captured peers
    have hloc : ∀ p, (if pol.captures N dir (endpoint N dir p) then pol.ruleVerdict N dir p else none) = pol.ruleVerdict N dir p := by
      intro p
      by_cases hc : pol.captures N dir (endpoint N dir p) = true
      · simp [hc]
      · have hnm : ∀ r ∈ pol.rules dir, N.K.mem p r.props = false := by
          intro r hr
          rw [← Bool.not_eq_true]
          intro hm
          apply hc
          unfold Policy.captures
          rw [hg, hl.selected dir r hr p hm]; rfl
        have ha : anyMatch N p (pol.rules dir) = false := by
          unfold anyMatch
          rw [List.any_eq_false]
          intro r hr; simp [hnm r hr]
        have hf : firstMatch N p (pol.rules dir) = none := by
          revert hnm
          induction pol.rules dir with
          | nil => intro _; rfl
          | cons r rs ih =>
            intro hnm
            rw [firstMatch, ih (fun r hr => hnm r (by simp [hr])), hnm r (by simp)]
            simp
        simp only [hc, Bool.false_eq_true, if_false]
        unfold Policy.ruleVerdict
        split <;> simp [ha, hf]
    have hp := policyConns_rel L pol hl hx dir hg
    have he : (fun p => v p <|> (if pol.captures N dir (endpoint N dir p) then pol.ruleVerdict N dir p else none)) =
        (fun p => v p <|> (fun p => pol.ruleVerdict N dir p) p) := by
      funext p; rw [hloc]
    rw [he]
    clear he hloc
    generalize policyConns N pol dir = pc at hp
    generalize (fun p => pol.ruleVerdict N dir p) = w at hp ⊢
    obtain ⟨sa, sd, sp, ma, md, mp, nl, safe⟩ := h
    obtain ⟨sa', sd', sp', ma', md', mp', nl', safe'⟩ := hp
    have dA := sub2 L sa' (L.strong_ok sd) (L.strong_ok sp) safe
    have dD := sub2 L sd' (L.strong_ok sa) (L.strong_ok sp) safe
    have dP := sub2' L sp' (L.strong_ok sd) (L.strong_ok sa) safe'
    have oA := or_rel L sa dA.1 _ _ ma dA.2
    have oD := or_rel L sd dD.1 _ _ md dD.2
    have oP := or_rel L sp dP.1 _ _ mp dP.2
    refine ⟨oA.1, oD.1, oP.1, ?_, ?_, ?_, ?_, ?_⟩
    · intro p
      rw [oA.2, ma', md, mp]
      have h1 := nl p; have h2 := nl' p
      rcases hv : v p with _ | _ | _ | _ | _ <;> rcases hw : w p with _ | _ | _ | _ | _ <;> simp_all
    · intro p
      rw [oD.2, md', ma, mp]
      have h1 := nl p; have h2 := nl' p
      rcases hv : v p with _ | _ | _ | _ | _ <;> rcases hw : w p with _ | _ | _ | _ | _ <;> simp_all
    · intro p
      rw [oP.2, mp', ma, md]
      have h1 := nl p; have h2 := nl' p
      rcases hv : v p with _ | _ | _ | _ | _ <;> rcases hw : w p with _ | _ | _ | _ | _ <;> simp_all
    · intro p
      have h1 := nl p; have h2 := nl' p
      rcases hv : v p with _ | _ | _ | _ | _ <;> rcases hw : w p with _ | _ | _ | _ | _ <;> simp_all
    · rcases safe with h | h
      · exact Or.inl h
      · rcases safe' with h' | h'
        · exact Or.inl h'
        · right
          rw [falsy_iff L (L.strong_ok oP.1)]
          intro p
          rw [oP.2, ← mp, (falsy_iff L (L.strong_ok sp)).1 h p, (falsy_iff L (L.strong_ok sp')).1 h' p]
          rfl
  · simp only [ht, Bool.false_eq_true, if_false]
    have hc : ∀ e, pol.captures N dir e = false := by
      intro e
      rw [← policyConns_captured, ← Bool.not_eq_true]
      intro he
      exact ht ((N.Q.truthy_iff _).2 ⟨e, he⟩)
    have : (fun p => v p <|> (if pol.captures N dir (endpoint N dir p) then pol.ruleVerdict N dir p else none)) = v := by
      funext p
      rw [hc]
      cases v p <;> rfl
    rw [this]
    exact h

theorem layerVerdict_cons (pol : Policy C S) (pols : List (Policy C S)) (dir : Bool) (p : P) :
    layerVerdict N (pol :: pols) dir p =
      ((if pol.captures N dir (endpoint N dir p) then pol.ruleVerdict N dir p else none) <|> layerVerdict N pols dir p) := by
  unfold layerVerdict
  rw [List.findSome?_cons]
  cases (if pol.captures N dir (endpoint N dir p) then pol.ruleVerdict N dir p else none) <;> rfl

theorem SubExact.mono {pols pols' : List (Policy C S)} (h : SubExact Ok Strong pols) (hs : ∀ x ∈ pols', x ∈ pols) :
    SubExact Ok Strong pols' := h.imp id (fun h x hx => h x (hs x hx))

theorem collectFold_rel (L : N.Lawful Ok Strong) (dir : Bool) (cf : Policy C S → Bool) (pols : List (Policy C S)) :
    ∀ {res : PolicyConns C S} {v : P → Option RuleAction}, Rel N Ok Strong res.allowed res.denied res.pass v →
    (∀ pol ∈ pols, pol.Legal N Strong) → SubExact Ok Strong pols →
    Rel N Ok Strong (pols.foldl (collectStep N dir cf) res).allowed (pols.foldl (collectStep N dir cf) res).denied
      (pols.foldl (collectStep N dir cf) res).pass (fun p => v p <|> layerVerdict N pols dir p) := by
  induction pols with
  | nil =>
    intro res v h _ _
    have : (fun p => v p <|> layerVerdict N ([] : List (Policy C S)) dir p) = v := by
      funext p; cases h : v p <;> simp [layerVerdict]
    rw [this]; exact h
  | cons pol pols ih =>
    intro res v h hl hx
    have h1 := collectStep_rel L dir cf h pol (hl pol (by simp)) (hx.mono (by simp))
    have h2 := ih h1 (fun q hq => hl q (by simp [hq])) (hx.mono (fun q hq => by simp [hq]))
    have : (fun p => v p <|> layerVerdict N (pol :: pols) dir p) =
        (fun p => (v p <|> (if pol.captures N dir (endpoint N dir p) then pol.ruleVerdict N dir p else none)) <|> layerVerdict N pols dir p) := by
      funext p
      rw [layerVerdict_cons]
      cases v p <;> rfl
    rw [this]; exact h2

/-- The collected sets are the verdicts of the layer. -/
theorem collect_rel (L : N.Lawful Ok Strong) (dir : Bool) (cf : Policy C S → Bool) (pols : List (Policy C S))
    (hl : ∀ pol ∈ pols, pol.Legal N Strong) (hx : SubExact Ok Strong pols) :
    Rel N Ok Strong (collect N dir cf pols).allowed (collect N dir cf pols).denied (collect N dir cf pols).pass
      (fun p => layerVerdict N pols dir p) := by
  have := collectFold_rel L dir cf pols (res := emptyConns N) (Rel.empty L) hl hx
  simpa [collect] using this

theorem collectStep_captured (dir : Bool) (cf : Policy C S → Bool) (res : PolicyConns C S) (pol : Policy C S) (e : E) :
    N.Q.mem e (collectStep N dir cf res pol).captured = (N.Q.mem e res.captured || (cf pol && pol.captures N dir e)) := by
  unfold collectStep
  dsimp only
  by_cases ht : N.Q.truthy (policyConns N pol dir).captured = true
  · simp only [ht, if_true]
    cases cf pol
    · simp
    · simp [N.Q.mem_or, policyConns_captured]
  · simp only [ht, Bool.false_eq_true, if_false]
    have : pol.captures N dir e = false := by
      rw [← policyConns_captured, ← Bool.not_eq_true]
      intro he
      exact ht ((N.Q.truthy_iff _).2 ⟨e, he⟩)
    simp [this]

/-- The collected captured peers. -/
theorem collect_captured (dir : Bool) (cf : Policy C S → Bool) (pols : List (Policy C S)) (e : E) :
    N.Q.mem e (collect N dir cf pols).captured = pols.any (fun pol => cf pol && pol.captures N dir e) := by
  have : ∀ (res : PolicyConns C S), N.Q.mem e (pols.foldl (collectStep N dir cf) res).captured =
      (N.Q.mem e res.captured || pols.any (fun pol => cf pol && pol.captures N dir e)) := by
    induction pols with
    | nil => intro res; simp
    | cons pol pols ih =>
      intro res
      rw [List.foldl_cons, ih, collectStep_captured, List.any_cons, Bool.or_assoc]
  rw [collect, this]
  simp [emptyConns, N.Q.mem_empty]

theorem collect_allAllowed (dir : Bool) (cf : Policy C S → Bool) (pols : List (Policy C S)) :
    (collect N dir cf pols).allAllowed = N.K.empty := by
  have : ∀ (res : PolicyConns C S), (pols.foldl (collectStep N dir cf) res).allAllowed = res.allAllowed := by
    induction pols with
    | nil => intro res; rfl
    | cons pol pols ih =>
      intro res
      rw [List.foldl_cons, ih]
      unfold collectStep
      dsimp only
      split <;> rfl
  exact this _

end
end Verif
