import Verif.SyncModel
/-!
C46: queries leave everything as it was, and do not influence each other.
-/
namespace Verif

section
variable {C K M A : Type} (O : SyncOps C K M)

/-! ### Specification -/

/-- The answer of a query program when the rules have the given connections and every policy has the sets that follow
from its rules. -/
def Prog.eval (m : M) (props : Nat → C) (refs : Nat → List Nat × List Nat) : Prog C K M A → A
  | .ret a => a
  | .dom k => (k m).eval m props refs
  | .rule i k => (k (props i)).eval m props refs
  | .pol i k => (k (O.sets i m ((refs i).1.map props) ((refs i).2.map props))).eval m props refs

/-- The program looks only at the policies in `ps`, and at their rules. -/
def Prog.Within (refs : Nat → List Nat × List Nat) (ps : List Nat) : Prog C K M A → Prop
  | .ret _ => True
  | .dom k => ∀ m, (k m).Within refs ps
  | .rule i k => (∃ p ∈ ps, i ∈ (refs p).1 ++ (refs p).2) ∧ ∀ c, (k c).Within refs ps
  | .pol i k => i ∈ ps ∧ ∀ c, (k c).Within refs ps

/-- The rules of the policies. -/
def ObjHeap.refs (w : ObjHeap C K M) (i : Nat) : List Nat × List Nat := ((w.pols i).ingress, (w.pols i).egress)

/-- The outcome of a query, as a function of the connections of the rules as they were parsed. -/
def QueryRun.spec (q : QueryRun C K M A) (props : Nat → C) (refs : Nat → List Nat × List Nat) : Outcome A :=
  if ∃ c ∈ q.configs, c.hasPeers = false then .noPeers
  else if q.supported = false then .unsupported
  else .answer (q.exec.eval O q.dom (fun i => O.reduce q.dom (props i)) refs)

/-- The state between queries: the default domain, no saved copies, and no stale caches. -/
structure ObjHeap.Idle (w : ObjHeap C K M) : Prop where
  dom : w.dom = O.dflt
  copies : ∀ i, O.truthy (w.rules i).copy = false
  caches : ∀ i, (w.pols i).inSync = true → (w.pols i).cache = O.sets i O.dflt ((w.pols i).ingress.map w.props) ((w.pols i).egress.map w.props)

/-! ### Proofs -/

/-- What the loops over the rules do to each rule. -/
theorem fold_rules (f : ObjHeap C K M → RuleObj C → RuleObj C) (step : ObjHeap C K M → Nat → ObjHeap C K M)
    (hstep : ∀ w i, (step w i).rules = fun j => if j = i then f w (w.rules i) else w.rules j)
    (hpols : ∀ w i, (step w i).pols = w.pols) (hdom : ∀ w i, (step w i).dom = w.dom)
    (hf : ∀ w w' r, w.dom = w'.dom → f w r = f w' r) (P : RuleObj C → Prop)
    (hidem : ∀ w r, P r → f w (f w r) = f w r) (hP : ∀ w r, P r → P (f w r)) :
    ∀ (l : List Nat) (w : ObjHeap C K M), (∀ i, P (w.rules i)) →
      (l.foldl step w).rules = (fun j => if j ∈ l then f w (w.rules j) else w.rules j) ∧
      (l.foldl step w).pols = w.pols ∧ (l.foldl step w).dom = w.dom := by
  intro l
  induction l with
  | nil => intro w _; exact ⟨by simp, rfl, rfl⟩
  | cons i l ih =>
    intro w hw
    have hw' : ∀ j, P ((step w i).rules j) := by
      intro j
      rw [hstep]
      dsimp only
      split
      · exact hP _ _ (hw i)
      · exact hw j
    obtain ⟨h1, h2, h3⟩ := ih (step w i) hw'
    refine ⟨?_, by rw [List.foldl_cons, h2, hpols], by rw [List.foldl_cons, h3, hdom]⟩
    rw [List.foldl_cons, h1]
    funext j
    rw [hstep]
    dsimp only
    by_cases hji : j = i
    · subst hji
      rw [if_pos rfl, if_pos (List.mem_cons_self ..), hf (step w j) w _ (hdom _ _), hidem _ _ (hw j)]
      simp
    · simp only [List.mem_cons, hji, false_or, if_false]
      rw [hf (step w i) w _ (hdom _ _)]

/-- Reduced by the domain, with the original saved. -/
def reduced (m : M) (r : RuleObj C) : RuleObj C := if O.truthy r.copy then r else ⟨O.reduce m r.props, r.props⟩

/-- Restored from the copy. -/
def restored (r : RuleObj C) : RuleObj C := if O.truthy r.copy then ⟨r.copy, O.empty⟩ else r

variable (hred : ∀ m c, O.truthy c = false → O.reduce m c = c) (hempty : O.truthy O.empty = false)

include hred in
theorem reduced_idem (m : M) (r : RuleObj C) : reduced O m (reduced O m r) = reduced O m r := by
  unfold reduced
  by_cases h : O.truthy r.copy = true
  · rw [if_pos h, if_pos h]
  · rw [if_neg h]
    dsimp only
    by_cases h' : O.truthy r.props = true
    · rw [if_pos h']
    · have h' : O.truthy r.props = false := by simpa using h'
      rw [if_neg (by simp [h']), hred m r.props h', hred m r.props h']

include hempty in
theorem restored_idem (r : RuleObj C) : restored O (restored O r) = restored O r := by
  unfold restored
  by_cases h : O.truthy r.copy = true
  · rw [if_pos h]; dsimp only; rw [if_neg (by simp [hempty])]
  · rw [if_neg h, if_neg h]

include hred in
theorem fold_reorg (l : List Nat) (w : ObjHeap C K M) :
    (l.foldl (ObjHeap.reorg O) w).rules = (fun j => if ∃ i ∈ l, j ∈ (w.refs i).1 ++ (w.refs i).2 then reduced O w.dom (w.rules j) else w.rules j) ∧
    (l.foldl (ObjHeap.reorg O) w).pols = (fun i => if i ∈ l then { w.pols i with inSync := false } else w.pols i) ∧
    (l.foldl (ObjHeap.reorg O) w).dom = w.dom := by
  have hone : ∀ (w : ObjHeap C K M) (i : Nat), (w.reorg O i).rules = (fun j => if j ∈ (w.refs i).1 ++ (w.refs i).2 then reduced O w.dom (w.rules j) else w.rules j) ∧
      (w.reorg O i).pols = (fun j => if j = i then { w.pols i with inSync := false } else w.pols j) ∧ (w.reorg O i).dom = w.dom := by
    intro w i
    obtain ⟨h1, h2, h3⟩ := fold_rules (C := C) (K := K) (M := M) (fun w r => reduced O w.dom r) (ObjHeap.reorgRule O)
      (by
        intro w i
        unfold ObjHeap.reorgRule reduced
        dsimp only
        by_cases h : O.truthy (w.rules i).copy = true
        · rw [if_neg (by simp [h]), if_pos h]
          funext j
          split
          · next hj => rw [hj]
          · rfl
        · rw [if_pos (by simpa using h), if_neg h]; rfl)
      (by intro w i; unfold ObjHeap.reorgRule; dsimp only; split <;> rfl)
      (by intro w i; unfold ObjHeap.reorgRule; dsimp only; split <;> rfl)
      (by intro w w' r h; rw [h]) (fun _ => True) (fun w r _ => reduced_idem O hred w.dom r) (fun _ _ _ => trivial)
      ((w.pols i).ingress ++ (w.pols i).egress) w (fun _ => trivial)
    unfold ObjHeap.reorg
    dsimp only
    refine ⟨?_, ?_, ?_⟩
    · unfold ObjHeap.setPol; dsimp only; exact h1
    · unfold ObjHeap.setPol; dsimp only; rw [h2]
    · unfold ObjHeap.setPol; dsimp only; exact h3
  induction l generalizing w with
  | nil => exact ⟨by simp, by simp, rfl⟩
  | cons i l ih =>
    obtain ⟨a1, a2, a3⟩ := hone w i
    obtain ⟨b1, b2, b3⟩ := ih (w.reorg O i)
    have hrefs : ∀ k, (w.reorg O i).refs k = w.refs k := by
      intro k
      unfold ObjHeap.refs
      rw [a2]
      dsimp only
      split
      · next h => rw [h]
      · rfl
    refine ⟨?_, ?_, by rw [List.foldl_cons, b3, a3]⟩
    · rw [List.foldl_cons, b1, a1, a3]
      funext j
      dsimp only
      simp only [hrefs, List.mem_cons, exists_eq_or_imp]
      by_cases h1 : j ∈ (w.refs i).1 ++ (w.refs i).2
      · rw [if_pos h1, if_pos (Or.inl h1), reduced_idem O hred]
        simp
      · rw [if_neg h1]
        simp only [h1, false_or]
    · rw [List.foldl_cons, b2, a2]
      funext j
      dsimp only
      simp only [List.mem_cons]
      by_cases h1 : j = i
      · subst h1; simp
      · simp only [h1, if_false, false_or]

include hempty in
theorem fold_restore (l : List Nat) (w : ObjHeap C K M) :
    (l.foldl (ObjHeap.restore O) w).rules = (fun j => if ∃ i ∈ l, j ∈ (w.refs i).1 ++ (w.refs i).2 then restored O (w.rules j) else w.rules j) ∧
    (l.foldl (ObjHeap.restore O) w).pols = (fun i => if i ∈ l then { w.pols i with inSync := false } else w.pols i) ∧
    (l.foldl (ObjHeap.restore O) w).dom = w.dom := by
  have hone : ∀ (w : ObjHeap C K M) (i : Nat), (w.restore O i).rules = (fun j => if j ∈ (w.refs i).1 ++ (w.refs i).2 then restored O (w.rules j) else w.rules j) ∧
      (w.restore O i).pols = (fun j => if j = i then { w.pols i with inSync := false } else w.pols j) ∧ (w.restore O i).dom = w.dom := by
    intro w i
    obtain ⟨h1, h2, h3⟩ := fold_rules (C := C) (K := K) (M := M) (fun _ r => restored O r) (ObjHeap.restoreRule O)
      (by
        intro w i
        unfold ObjHeap.restoreRule restored
        dsimp only
        by_cases h : O.truthy (w.rules i).copy = true
        · rw [if_pos h, if_pos h]; rfl
        · rw [if_neg h, if_neg h]
          funext j
          split
          · next hj => rw [hj]
          · rfl)
      (by intro w i; unfold ObjHeap.restoreRule; dsimp only; split <;> rfl)
      (by intro w i; unfold ObjHeap.restoreRule; dsimp only; split <;> rfl)
      (by intro w w' r _; rfl) (fun _ => True) (fun w r _ => restored_idem O hempty r) (fun _ _ _ => trivial)
      ((w.pols i).ingress ++ (w.pols i).egress) w (fun _ => trivial)
    unfold ObjHeap.restore
    dsimp only
    refine ⟨?_, ?_, ?_⟩
    · unfold ObjHeap.setPol; dsimp only; exact h1
    · unfold ObjHeap.setPol; dsimp only; rw [h2]
    · unfold ObjHeap.setPol; dsimp only; exact h3
  induction l generalizing w with
  | nil => exact ⟨by simp, by simp, rfl⟩
  | cons i l ih =>
    obtain ⟨a1, a2, a3⟩ := hone w i
    obtain ⟨b1, b2, b3⟩ := ih (w.restore O i)
    have hrefs : ∀ k, (w.restore O i).refs k = w.refs k := by
      intro k
      unfold ObjHeap.refs
      rw [a2]
      dsimp only
      split
      · next h => rw [h]
      · rfl
    refine ⟨?_, ?_, by rw [List.foldl_cons, b3, a3]⟩
    · rw [List.foldl_cons, b1, a1]
      funext j
      dsimp only
      simp only [hrefs, List.mem_cons, exists_eq_or_imp]
      by_cases h1 : j ∈ (w.refs i).1 ++ (w.refs i).2
      · rw [if_pos h1, if_pos (Or.inl h1), restored_idem O hempty]
        simp
      · rw [if_neg h1]
        simp only [h1, false_or]
    · rw [List.foldl_cons, b2, a2]
      funext j
      dsimp only
      simp only [List.mem_cons]
      by_cases h1 : j = i
      · subst h1; simp
      · simp only [h1, if_false, false_or]

/-- Running a program: the answer follows from the rules, if no cache it looks at is stale; only the caches of policies
it looks at change. -/
theorem run_eval (ps : List Nat) (props : Nat → C) (refs : Nat → List Nat × List Nat) (P : Prog C K M A) (hP : P.Within refs ps)
    (w : ObjHeap C K M) (hprops : ∀ i, (∃ p ∈ ps, i ∈ (refs p).1 ++ (refs p).2) → w.props i = props i) (hrefs : ∀ i, w.refs i = refs i)
    (hc : ∀ i ∈ ps, (w.pols i).inSync = true → (w.pols i).cache = O.sets i w.dom ((w.pols i).ingress.map w.props) ((w.pols i).egress.map w.props)) :
    (P.run O w).1 = P.eval O w.dom props refs ∧ (P.run O w).2.rules = w.rules ∧ (P.run O w).2.dom = w.dom ∧
      (∀ i, (P.run O w).2.refs i = refs i) ∧ ∀ i, i ∉ ps → (P.run O w).2.pols i = w.pols i := by
  induction P generalizing w with
  | ret a => exact ⟨rfl, rfl, rfl, hrefs, fun _ _ => rfl⟩
  | dom k ih => exact ih w.dom (hP w.dom) w hprops hrefs hc
  | rule i k ih =>
    have := ih (w.props i) (hP.2 _) w hprops hrefs hc
    refine ⟨?_, this.2⟩
    change ((k (w.props i)).run O w).1 = (k (props i)).eval O w.dom props refs
    rw [this.1, hprops i hP.1]
  | pol i k ih =>
    have hw : (w.sync O i).rules = w.rules ∧ (w.sync O i).dom = w.dom ∧ (∀ j, (w.sync O i).refs j = refs j) ∧
        (∀ j, j ≠ i → (w.sync O i).pols j = w.pols j) ∧
        ((w.sync O i).pols i).cache = O.sets i w.dom ((w.pols i).ingress.map w.props) ((w.pols i).egress.map w.props) := by
      unfold ObjHeap.sync
      dsimp only
      by_cases h : (w.pols i).inSync = true
      · rw [if_pos h]
        exact ⟨rfl, rfl, hrefs, fun _ _ => rfl, hc i hP.1 h⟩
      · rw [if_neg h]
        refine ⟨rfl, rfl, fun j => ?_, fun j hj => ?_, ?_⟩
        · rw [← hrefs j]
          unfold ObjHeap.setPol ObjHeap.refs
          dsimp only
          split
          · next h => rw [h]
          · rfl
        · unfold ObjHeap.setPol; dsimp only; rw [if_neg hj]
        · unfold ObjHeap.setPol; dsimp only; rw [if_pos rfl]
    obtain ⟨w1, w2, w3, w4, w5⟩ := hw
    have hpr : (w.sync O i).props = w.props := by funext j; unfold ObjHeap.props; rw [w1]
    have hcache : ((w.sync O i).pols i).cache = O.sets i w.dom ((refs i).1.map props) ((refs i).2.map props) := by
      rw [w5]
      have e := hrefs i
      unfold ObjHeap.refs at e
      have e1 : (w.pols i).ingress = (refs i).1 := by rw [← e]
      have e2 : (w.pols i).egress = (refs i).2 := by rw [← e]
      rw [e1, e2]
      congr 1
      · exact List.map_congr_left fun j hj => hprops j ⟨i, hP.1, List.mem_append_left _ hj⟩
      · exact List.map_congr_left fun j hj => hprops j ⟨i, hP.1, List.mem_append_right _ hj⟩
    have := ih ((w.sync O i).pols i).cache (hP.2 _) (w.sync O i) (by rw [hpr]; exact hprops) w3 (by
      intro j hj hs
      rw [w2, hpr]
      by_cases hji : j = i
      · subst hji
        rw [w5]
        have e := (w3 j).trans (hrefs j).symm
        unfold ObjHeap.refs at e
        have e1 : ((w.sync O j).pols j).ingress = (w.pols j).ingress := congrArg Prod.fst e
        have e2 : ((w.sync O j).pols j).egress = (w.pols j).egress := congrArg Prod.snd e
        rw [e1, e2]
      · rw [w4 j hji] at hs ⊢
        exact hc j hj hs)
    obtain ⟨t1, t2, t3, t4, t5⟩ := this
    refine ⟨?_, t2.trans w1, t3.trans w2, t4, fun j hj => ?_⟩
    · change ((k ((w.sync O i).pols i).cache).run O (w.sync O i)).1 = (k _).eval O w.dom props refs
      rw [t1, hcache, w2]
    · have hji : j ≠ i := fun h => hj (h ▸ hP.1)
      exact (t5 j hj).trans (w4 j hji)

include hred hempty in
/-- One query: its outcome is the one of the specification, and afterwards everything is as before. -/
theorem query_idle (q : QueryRun C K M A) (w : ObjHeap C K M) (hw : w.Idle O) (hq : q.exec.Within w.refs q.pols) :
    (q.run O w).1 = q.spec O w.props w.refs ∧ (q.run O w).2.Idle O ∧ (q.run O w).2.props = w.props ∧ (q.run O w).2.refs = w.refs := by
  unfold QueryRun.run QueryRun.spec
  have hany : q.configs.any (fun c => !c.hasPeers) = true ↔ ∃ c ∈ q.configs, c.hasPeers = false := by simp
  by_cases h1 : q.configs.any (fun c => !c.hasPeers) = true
  · rw [if_pos h1, if_pos (hany.1 h1)]
    exact ⟨rfl, hw, rfl, rfl⟩
  rw [if_neg h1, if_neg (fun h => h1 (hany.2 h))]
  by_cases h2 : q.supported = true
  swap
  · have h2 : q.supported = false := by simpa using h2
    rw [if_pos (by simp [h2]), if_pos h2]
    exact ⟨rfl, hw, rfl, rfl⟩
  rw [if_neg (by simp [h2]), if_neg (by simp [h2])]
  dsimp only
  obtain ⟨a1, a2, a3⟩ := fold_reorg O hred q.pols { w with dom := q.dom }
  have hr0 : ∀ i, ObjHeap.refs ({ w with dom := q.dom } : ObjHeap C K M) i = w.refs i := fun _ => rfl
  generalize hw1 : q.pols.foldl (ObjHeap.reorg O) { w with dom := q.dom } = w1 at a1 a2 a3
  have hrefs1 : ∀ i, w1.refs i = w.refs i := by
    intro i
    unfold ObjHeap.refs
    rw [a2]
    dsimp only
    split <;> rfl
  have hprops1 : ∀ i, (∃ p ∈ q.pols, i ∈ (w.refs p).1 ++ (w.refs p).2) → w1.props i = O.reduce q.dom (w.props i) := by
    intro i hi
    unfold ObjHeap.props
    rw [a1]
    dsimp only
    simp only [hr0]
    rw [if_pos hi]
    unfold reduced
    rw [if_neg (by simp [hw.copies i])]
  obtain ⟨b1, b2, b3, b4, b5⟩ := run_eval O q.pols (fun i => O.reduce q.dom (w.props i)) w.refs q.exec hq w1 hprops1 hrefs1 (by
    intro i hi hs
    rw [a2] at hs
    dsimp only at hs
    rw [if_pos hi] at hs
    cases hs)
  generalize hw2 : (q.exec.run O w1).2 = w2 at b2 b3 b4 b5
  obtain ⟨c1, c2, c3⟩ := fold_restore O hempty q.pols { w2 with dom := O.dflt }
  generalize hw3 : q.pols.foldl (ObjHeap.restore O) { w2 with dom := O.dflt } = w3 at c1 c2 c3
  have hrules : ∀ j, (w3.rules j).props = (w.rules j).props ∧ O.truthy (w3.rules j).copy = false := by
    intro j
    rw [c1]
    dsimp only
    have hr2 : ∀ i, ObjHeap.refs ({ w2 with dom := O.dflt } : ObjHeap C K M) i = w.refs i := b4
    simp only [hr2]
    by_cases hj : ∃ i ∈ q.pols, j ∈ (w.refs i).1 ++ (w.refs i).2
    · rw [if_pos hj, b2, a1]
      dsimp only
      simp only [hr0]
      rw [if_pos hj]
      unfold reduced
      rw [if_neg (by simp [hw.copies j])]
      unfold restored
      dsimp only
      by_cases ht : O.truthy (w.rules j).props = true
      · rw [if_pos ht]; exact ⟨rfl, hempty⟩
      · have ht : O.truthy (w.rules j).props = false := by simpa using ht
        rw [if_neg (by simp [ht])]
        exact ⟨hred _ _ ht, ht⟩
    · rw [if_neg hj, b2, a1]
      dsimp only
      simp only [hr0]
      rw [if_neg hj]
      exact ⟨rfl, hw.copies j⟩
  have hprops3 : w3.props = w.props := by funext j; exact (hrules j).1
  have hrefs3 : w3.refs = w.refs := by
    funext i
    rw [← b4 i]
    unfold ObjHeap.refs
    rw [c2]
    dsimp only
    split <;> rfl
  refine ⟨by rw [b1, a3], ⟨c3, fun j => (hrules j).2, fun i hs => ?_⟩, hprops3, hrefs3⟩
  rw [c2] at hs ⊢
  dsimp only at hs ⊢
  by_cases hi : i ∈ q.pols
  · rw [if_pos hi] at hs; cases hs
  · rw [if_neg hi] at hs ⊢
    rw [b5 i hi, a2] at hs ⊢
    dsimp only at hs ⊢
    rw [if_neg hi] at hs ⊢
    rw [hprops3]
    exact hw.caches i hs

include hred hempty in
theorem queries_idle (qs : List (QueryRun C K M A)) (w : ObjHeap C K M) (hw : w.Idle O) (hq : ∀ q ∈ qs, q.exec.Within w.refs q.pols) :
    (runAll O qs w).1 = qs.map (fun q => q.spec O w.props w.refs) ∧ (runAll O qs w).2.Idle O ∧
      (runAll O qs w).2.props = w.props ∧ (runAll O qs w).2.refs = w.refs := by
  induction qs generalizing w with
  | nil => exact ⟨rfl, hw, rfl, rfl⟩
  | cons q qs ih =>
    obtain ⟨h1, h2, h3, h4⟩ := query_idle O hred hempty q w hw (hq q (List.mem_cons_self ..))
    obtain ⟨i1, i2, i3, i4⟩ := ih (q.run O w).2 h2 (fun q' h' => by rw [h4]; exact hq q' (List.mem_cons_of_mem _ h'))
    refine ⟨?_, i2, i3.trans h3, i4.trans h4⟩
    change (q.run O w).1 :: (runAll O qs (q.run O w).2).1 = _
    rw [h1, i1, h3, h4]
    rfl

end

/-! ### Over the connection sets of the program -/
section
variable {V2 X2 K A : Type} (A2 : VAlg Dim V2 X2) (sets : Nat → PeerDom → List (HC Dim (ISet ⊕ V2)) → List (HC Dim (ISet ⊕ V2)) → K)

/-- The operations of the program: truth, `ConnectivityProperties()` and `reduce_active_dimensions`. -/
def hcOps : SyncOps (HC Dim (ISet ⊕ V2)) K PeerDom where
  truthy := HC.truthy
  empty := HC.empty allDims true
  reduce := fun B => HC.reduce (connA A2 B) allDims
  dflt := PeerDom.default
  sets := sets

theorem hcOps_red (B : PeerDom) (h : HC Dim (ISet ⊕ V2)) (hf : (hcOps A2 sets).truthy h = false) : (hcOps A2 sets).reduce B h = h :=
  HC.reduce_falsy _ hf

theorem hcOps_empty : (hcOps A2 sets).truthy (hcOps A2 sets).empty = false := rfl

/-- C46: after any sequence of queries, the domain is the default one, the connections of every rule are those parsed,
no copies are left over, and no cached set of a policy is stale. -/
theorem C46_restored (qs : List (QueryRun (HC Dim (ISet ⊕ V2)) K PeerDom A)) (w : ObjHeap (HC Dim (ISet ⊕ V2)) K PeerDom)
    (hw : w.Idle (hcOps A2 sets)) (hq : ∀ q ∈ qs, q.exec.Within w.refs q.pols) :
    (runAll (hcOps A2 sets) qs w).2.Idle (hcOps A2 sets) ∧ ∀ i, ((runAll (hcOps A2 sets) qs w).2.rules i).props = (w.rules i).props := by
  obtain ⟨_, h2, h3, _⟩ := queries_idle _ (hcOps_red A2 sets) (hcOps_empty A2 sets) qs w hw hq
  exact ⟨h2, fun i => congrFun h3 i⟩

/-- C46: every query of a sequence has the outcome it would have alone: the one that follows from the parsed rules,
reduced by the domain of the query. -/
theorem C46_independent (qs : List (QueryRun (HC Dim (ISet ⊕ V2)) K PeerDom A)) (w : ObjHeap (HC Dim (ISet ⊕ V2)) K PeerDom)
    (hw : w.Idle (hcOps A2 sets)) (hq : ∀ q ∈ qs, q.exec.Within w.refs q.pols) :
    (runAll (hcOps A2 sets) qs w).1 = qs.map (fun q => q.spec (hcOps A2 sets) w.props w.refs) ∧
    (runAll (hcOps A2 sets) qs w).1 = qs.map (fun q => (q.run (hcOps A2 sets) w).1) := by
  have h := (queries_idle _ (hcOps_red A2 sets) (hcOps_empty A2 sets) qs w hw hq).1
  refine ⟨h, h.trans (List.map_congr_left fun q hqs => ?_)⟩
  exact (query_idle _ (hcOps_red A2 sets) (hcOps_empty A2 sets) q w hw (hq q hqs)).1.symm

/-- Two policies that share a rule of the connections `h`; the second one has cached its sets. -/
def exHeap (h : HC Dim (ISet ⊕ V2)) : ObjHeap (HC Dim (ISet ⊕ V2)) (List (HC Dim (ISet ⊕ V2))) PeerDom where
  rules := fun i => if i = 0 then ⟨h, HC.empty allDims true⟩ else ⟨HC.empty allDims true, HC.empty allDims true⟩
  pols := fun i => if i = 0 then ⟨[0, 1], [0], false, []⟩ else if i = 1 then ⟨[0], [], true, [h]⟩ else ⟨[], [], false, []⟩
  dom := PeerDom.default

/-- A query on both policies that answers with the sets of the second one. -/
def exQuery (B : PeerDom) : QueryRun (HC Dim (ISet ⊕ V2)) (List (HC Dim (ISet ⊕ V2))) PeerDom (List (HC Dim (ISet ⊕ V2))) :=
  ⟨[⟨true, [0]⟩, ⟨true, [0, 1]⟩], true, B, .pol 0 (fun _ => .pol 1 .ret)⟩

/-- Non-vacuity of C46: two such queries, with different domains, answer with the rule as each of them reduces it,
although the policy had other sets before. -/
example (h : HC Dim (ISet ⊕ V2)) (B1 B2 : PeerDom) :
    (runAll (hcOps A2 (fun _ _ l k => l ++ k)) [exQuery B1, exQuery B2] (exHeap h)).1 =
      [.answer [HC.reduce (connA A2 B1) allDims h], .answer [HC.reduce (connA A2 B2) allDims h]] := by
  rw [(C46_independent A2 _ _ _ ⟨rfl, ?_, ?_⟩ ?_).1]
  · unfold QueryRun.spec
    simp [exQuery, Prog.eval, ObjHeap.refs, ObjHeap.props, exHeap, hcOps]
  · intro i
    unfold exHeap
    dsimp only
    split <;> rfl
  · intro i hi
    unfold exHeap at hi ⊢
    dsimp only at hi ⊢
    by_cases h0 : i = 0
    · subst h0; simp at hi
    · by_cases h1 : i = 1
      · subst h1; simp [hcOps, ObjHeap.props]
      · simp [h0, h1] at hi
  · intro q hq
    simp only [List.mem_cons, List.not_mem_nil, or_false] at hq
    rcases hq with rfl | rfl <;> simp [exQuery, Prog.Within, QueryRun.pols]

end
end Verif
