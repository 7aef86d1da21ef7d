import Verif.CubeSpec
import Verif.IntervalProofs
import Mathlib.Tactic.Tauto
/-!
Instances of the value algebra of hyper-cube dimensions: interval sets, languages, and the
mixture of both that the connection properties use.
-/
namespace Verif

/-- The interval-set dimensions: operations of nca/CoreDS/CanonicalIntervalSet.py; `dom` gives
the domain of each dimension (nca/CoreDS/DimensionsManager.py 36-75). -/
def isetAlg {D : Type} (dom : D → ISet) : VAlg D ISet Int where
  and := ISet.inter
  or := ISet.union
  sub := ISet.diff
  truthy := ISet.truthy
  contained := ISet.containedIn
  mem := fun x v => ISet.contains v x
  rep := ISet.rep
  dom := dom
  decEq := inferInstance

/-- Legal values of an interval dimension: canonical and within the domain. -/
def isetWf {D : Type} (dom : D → ISet) (d : D) (v : ISet) : Prop :=
  ISet.Canonical v ∧ ∀ x, ISet.Mem x v → ISet.Mem x (dom d)

/-- Interval sets satisfy the laws, whatever the (canonical, non-empty) domains. -/
theorem isetAlg_lawful {D : Type} (dom : D → ISet) (hc : ∀ d, ISet.Canonical (dom d)) (hne : ∀ d, ISet.truthy (dom d) = true) :
    (isetAlg dom).Lawful (isetWf dom) := by
  have mem : ∀ {v : ISet}, ISet.Canonical v → ∀ x, ISet.contains v x = true ↔ ISet.Mem x v := fun h x => ISet.contains_spec _ x h
  constructor
  · rintro d a b ⟨ha, sa⟩ ⟨hb, sb⟩
    have h := ISet.inter_spec a b ha hb
    exact ⟨h.1, fun x hx => sa x ((h.2 x).1 hx).1⟩
  · rintro d a b ⟨ha, sa⟩ ⟨hb, sb⟩
    have h := ISet.union_spec a b ha hb.1
    exact ⟨h.1, fun x hx => ((h.2 x).1 hx).elim (sa x) (sb x)⟩
  · rintro d a b ⟨ha, sa⟩ ⟨hb, sb⟩
    have h := ISet.diff_spec a b ha hb.1
    exact ⟨h.1, fun x hx => sa x ((h.2 x).1 hx).1⟩
  · rintro d a b ⟨ha, sa⟩ ⟨hb, sb⟩ x
    have h := ISet.inter_spec a b ha hb
    rw [Bool.eq_iff_iff, Bool.and_eq_true]
    change ISet.contains (ISet.inter a b) x = true ↔ ISet.contains a x = true ∧ ISet.contains b x = true
    rw [mem h.1, mem ha, mem hb, h.2 x]
  · rintro d a b ⟨ha, sa⟩ ⟨hb, sb⟩ x
    have h := ISet.union_spec a b ha hb.1
    rw [Bool.eq_iff_iff, Bool.or_eq_true]
    change ISet.contains (ISet.union a b) x = true ↔ ISet.contains a x = true ∨ ISet.contains b x = true
    rw [mem h.1, mem ha, mem hb, h.2 x]
  · rintro d a b ⟨ha, sa⟩ ⟨hb, sb⟩ x
    have h := ISet.diff_spec a b ha hb.1
    rw [Bool.eq_iff_iff, Bool.and_eq_true, Bool.not_eq_true', ← Bool.not_eq_true]
    change ISet.contains (ISet.diff a b) x = true ↔ ISet.contains a x = true ∧ ¬ ISet.contains b x = true
    rw [mem h.1, mem ha, mem hb, h.2 x]
  · rintro d a ⟨ha, sa⟩
    change ISet.truthy a = true ↔ ∃ x, ISet.contains a x = true
    rw [ISet.truthy_spec a ha]
    exact exists_congr (fun x => (mem ha x).symm)
  · rintro d a b ⟨ha, sa⟩ ⟨hb, sb⟩
    change ISet.containedIn a b = true ↔ ∀ x, ISet.contains a x = true → ISet.contains b x = true
    rw [ISet.containedIn_spec a b ha hb]
    exact forall_congr' (fun x => by rw [mem ha, mem hb])
  · rintro d a ⟨ha, sa⟩ ht
    cases a with
    | nil => exact absurd ht (by simp [isetAlg, ISet.truthy])
    | cons i a =>
      refine ⟨i.s, rfl, ?_⟩
      exact (mem ha _).2 ⟨i, by simp, Int.le_refl _, ha.1 i (by simp)⟩
  · intro d; exact ⟨hc d, fun _ h => h⟩
  · exact hne
  · rintro d a ⟨ha, sa⟩ x hx
    exact (mem (hc d) x).2 (sa x ((mem ha x).1 hx))
  · rintro d a b ⟨ha, sa⟩ ⟨hb, sb⟩ h
    refine ISet.canonical_ext a b ha hb (fun x => ?_)
    rw [← mem ha, ← mem hb]
    exact Bool.eq_iff_iff.1 (h x)

/-- String dimensions: nca/CoreDS/MinDFA.py values are taken to be the languages they accept, with
exact boolean operations (or 224-239, and 241-256, sub 258-273, contained_in 209-222,
`__contains__`, `rep`).  SIMPLIFICATION: the automaton library (greenery) is trusted to implement
these operations and to give equal objects for equal languages; `V` is the set of languages. -/
noncomputable def langAlg {D : Type} (dom : D → (String → Prop)) : VAlg D (String → Prop) String := by
  classical
  exact
  { and := fun a b x => a x ∧ b x
    or := fun a b x => a x ∨ b x
    sub := fun a b x => a x ∧ ¬ b x
    truthy := fun a => decide (∃ x, a x)
    contained := fun a b => decide (∀ x, a x → b x)
    mem := fun x a => decide (a x)
    rep := fun a => if h : ∃ x, a x then some h.choose else none
    dom := dom
    decEq := fun a b => Classical.propDecidable _ }

theorem langAlg_lawful {D : Type} (dom : D → (String → Prop)) (hne : ∀ d, ∃ x, dom d x) :
    (langAlg dom).Lawful (fun d a => ∀ x, a x → dom d x) := by
  classical
  constructor
  · intro d a b ha hb x hx; exact ha x hx.1
  · intro d a b ha hb x hx; exact hx.elim (ha x) (hb x)
  · intro d a b ha hb x hx; exact ha x hx.1
  · intro d a b ha hb x
    rw [Bool.eq_iff_iff]; simp [langAlg]
  · intro d a b ha hb x
    rw [Bool.eq_iff_iff]; simp [langAlg]
  · intro d a b ha hb x
    rw [Bool.eq_iff_iff]; simp [langAlg]
  · intro d a ha
    simp [langAlg]
  · intro d a b ha hb
    simp [langAlg]
  · intro d a ha ht
    simp only [langAlg, decide_eq_true_eq] at ht
    refine ⟨ht.choose, by simp [langAlg, ht], by simpa [langAlg] using ht.choose_spec⟩
  · intro d x hx; exact hx
  · intro d; simpa [langAlg] using hne d
  · intro d a ha x hx
    simp only [langAlg, decide_eq_true_eq] at hx ⊢
    exact ha x hx
  · intro d a b ha hb h
    funext x
    have := h x
    simp only [langAlg, decide_eq_decide] at this
    exact propext this

/-- Dimensions of two kinds together (nca/CoreDS/DimensionsManager.py 32-34: `IntervalSet` or `DFA`),
selected by `kind`; an operation never meets values of different kinds. -/
def sumAlg {D V1 X1 V2 X2 : Type} (kind : D → Bool) (A1 : VAlg D V1 X1) (A2 : VAlg D V2 X2) : VAlg D (V1 ⊕ V2) (X1 ⊕ X2) where
  and := fun a b => match a, b with
    | .inl a, .inl b => .inl (A1.and a b)
    | .inr a, .inr b => .inr (A2.and a b)
    | a, _ => a
  or := fun a b => match a, b with
    | .inl a, .inl b => .inl (A1.or a b)
    | .inr a, .inr b => .inr (A2.or a b)
    | a, _ => a
  sub := fun a b => match a, b with
    | .inl a, .inl b => .inl (A1.sub a b)
    | .inr a, .inr b => .inr (A2.sub a b)
    | a, _ => a
  truthy := fun a => match a with
    | .inl a => A1.truthy a
    | .inr a => A2.truthy a
  contained := fun a b => match a, b with
    | .inl a, .inl b => A1.contained a b
    | .inr a, .inr b => A2.contained a b
    | _, _ => false
  mem := fun x a => match x, a with
    | .inl x, .inl a => A1.mem x a
    | .inr x, .inr a => A2.mem x a
    | _, _ => false
  rep := fun a => match a with
    | .inl a => (A1.rep a).map .inl
    | .inr a => (A2.rep a).map .inr
  dom := fun d => if kind d then .inr (A2.dom d) else .inl (A1.dom d)
  decEq := @instDecidableEqSum _ _ A1.decEq A2.decEq

/-- Legal values of the mixture: of the right kind and legal there. -/
def sumWf {D V1 V2 : Type} (kind : D → Bool) (W1 : D → V1 → Prop) (W2 : D → V2 → Prop) (d : D) (v : V1 ⊕ V2) : Prop :=
  match v with
  | .inl a => kind d = false ∧ W1 d a
  | .inr a => kind d = true ∧ W2 d a

theorem sumAlg_lawful {D V1 X1 V2 X2 : Type} (kind : D → Bool) {A1 : VAlg D V1 X1} {A2 : VAlg D V2 X2}
    {W1 : D → V1 → Prop} {W2 : D → V2 → Prop} (L1 : A1.Lawful W1) (L2 : A2.Lawful W2) :
    (sumAlg kind A1 A2).Lawful (sumWf kind W1 W2) := by
  constructor
  · rintro d (a | a) (b | b) ⟨k1, ha⟩ ⟨k2, hb⟩
    · exact ⟨k1, L1.wf_and ha hb⟩
    · rw [k1] at k2; cases k2
    · rw [k1] at k2; cases k2
    · exact ⟨k1, L2.wf_and ha hb⟩
  · rintro d (a | a) (b | b) ⟨k1, ha⟩ ⟨k2, hb⟩
    · exact ⟨k1, L1.wf_or ha hb⟩
    · rw [k1] at k2; cases k2
    · rw [k1] at k2; cases k2
    · exact ⟨k1, L2.wf_or ha hb⟩
  · rintro d (a | a) (b | b) ⟨k1, ha⟩ ⟨k2, hb⟩
    · exact ⟨k1, L1.wf_sub ha hb⟩
    · rw [k1] at k2; cases k2
    · rw [k1] at k2; cases k2
    · exact ⟨k1, L2.wf_sub ha hb⟩
  · rintro d (a | a) (b | b) ⟨k1, ha⟩ ⟨k2, hb⟩ (x | x)
    · exact L1.mem_and ha hb x
    · rfl
    · rw [k1] at k2; cases k2
    · rw [k1] at k2; cases k2
    · rw [k1] at k2; cases k2
    · rw [k1] at k2; cases k2
    · rfl
    · exact L2.mem_and ha hb x
  · rintro d (a | a) (b | b) ⟨k1, ha⟩ ⟨k2, hb⟩ (x | x)
    · exact L1.mem_or ha hb x
    · rfl
    · rw [k1] at k2; cases k2
    · rw [k1] at k2; cases k2
    · rw [k1] at k2; cases k2
    · rw [k1] at k2; cases k2
    · rfl
    · exact L2.mem_or ha hb x
  · rintro d (a | a) (b | b) ⟨k1, ha⟩ ⟨k2, hb⟩ (x | x)
    · exact L1.mem_sub ha hb x
    · rfl
    · rw [k1] at k2; cases k2
    · rw [k1] at k2; cases k2
    · rw [k1] at k2; cases k2
    · rw [k1] at k2; cases k2
    · rfl
    · exact L2.mem_sub ha hb x
  · rintro d (a | a) ⟨k1, ha⟩
    · change A1.truthy a = true ↔ _
      rw [L1.truthy_iff ha]
      exact ⟨fun ⟨x, hx⟩ => ⟨.inl x, hx⟩, fun ⟨x, hx⟩ => by
        rcases x with x | x
        · exact ⟨x, hx⟩
        · exact absurd hx (by simp [sumAlg])⟩
    · change A2.truthy a = true ↔ _
      rw [L2.truthy_iff ha]
      exact ⟨fun ⟨x, hx⟩ => ⟨.inr x, hx⟩, fun ⟨x, hx⟩ => by
        rcases x with x | x
        · exact absurd hx (by simp [sumAlg])
        · exact ⟨x, hx⟩⟩
  · rintro d (a | a) (b | b) ⟨k1, ha⟩ ⟨k2, hb⟩
    · change A1.contained a b = true ↔ _
      rw [L1.contained_iff ha hb]
      constructor
      · rintro h (x | x) hx
        · exact h x hx
        · exact absurd hx (by simp [sumAlg])
      · intro h x hx; exact h (.inl x) hx
    · rw [k1] at k2; cases k2
    · rw [k1] at k2; cases k2
    · change A2.contained a b = true ↔ _
      rw [L2.contained_iff ha hb]
      constructor
      · rintro h (x | x) hx
        · exact absurd hx (by simp [sumAlg])
        · exact h x hx
      · intro h x hx; exact h (.inr x) hx
  · rintro d (a | a) ⟨k1, ha⟩ ht
    · obtain ⟨x, h1, h2⟩ := L1.rep_mem ha ht
      exact ⟨.inl x, by simp [sumAlg, h1], h2⟩
    · obtain ⟨x, h1, h2⟩ := L2.rep_mem ha ht
      exact ⟨.inr x, by simp [sumAlg, h1], h2⟩
  · intro d
    cases hk : kind d
    · simp [sumWf, sumAlg, hk, L1.wf_dom]
    · simp [sumWf, sumAlg, hk, L2.wf_dom]
  · intro d
    cases hk : kind d
    · simp [sumAlg, hk, L1.dom_truthy]
    · simp [sumAlg, hk, L2.dom_truthy]
  · rintro d (a | a) ⟨k1, ha⟩ (x | x) hx
    · simp only [sumAlg, k1]
      exact L1.sub_dom ha x hx
    · exact absurd hx (by simp [sumAlg])
    · exact absurd hx (by simp [sumAlg])
    · simp only [sumAlg, k1]
      exact L2.sub_dom ha x hx
  · rintro d (a | a) (b | b) ⟨k1, ha⟩ ⟨k2, hb⟩ h
    · exact congrArg _ (L1.ext ha hb (fun x => h (.inl x)))
    · rw [k1] at k2; cases k2
    · rw [k1] at k2; cases k2
    · exact congrArg _ (L2.ext ha hb (fun x => h (.inr x)))

/-- The dimensions of connection properties, in the order of
nca/CoreDS/ConnectivityProperties.py / ConnectivityCube.py `all_dimensions_list`. -/
inductive Dim
  | srcPeers | dstPeers | protocols | srcPorts | dstPorts | methods | hosts | paths | icmpType | icmpCode
  deriving DecidableEq, Repr

/-- `all_dimensions_list` (ConnectivityCube.py 20-21). -/
def allDims : List Dim :=
  [.srcPeers, .dstPeers, .protocols, .srcPorts, .dstPorts, .methods, .hosts, .paths, .icmpType, .icmpCode]

theorem allDims_nodup : allDims.Nodup := by decide
theorem allDims_ne : allDims ≠ [] := by decide

/-- The dimensions whose values are DFAs (DimensionsManager.py 64-67). -/
def Dim.isDfa : Dim → Bool
  | .hosts | .paths => true
  | _ => false

/-- The domains of the interval dimensions (DimensionsManager.py 43-74).  The peer domain is a
parameter (`BasePeerSet` in Peer.py computes it from address ranges and pod slots). -/
def connDom (peers : ISet) : Dim → ISet
  | .srcPeers | .dstPeers => peers
  | .protocols => [⟨0, 255⟩]
  | .srcPorts | .dstPorts => [⟨1, 65535⟩]
  | .methods => [⟨0, 8⟩]
  | .hosts | .paths => [⟨0, 0⟩]
  | .icmpType => [⟨0, 254⟩]
  | .icmpCode => [⟨0, 255⟩]

/-- The value algebra of connection properties. -/
noncomputable def connAlg (peers : ISet) (words : Dim → (String → Prop)) : VAlg Dim (ISet ⊕ (String → Prop)) (Int ⊕ String) :=
  sumAlg Dim.isDfa (isetAlg (connDom peers)) (langAlg words)

/-- The value algebra of connection properties satisfies the laws. -/
theorem connAlg_lawful (peers : ISet) (words : Dim → (String → Prop)) (hp : ISet.Canonical peers) (hpne : ISet.truthy peers = true)
    (hw : ∀ d, ∃ x, words d x) : (connAlg peers words).Lawful
      (sumWf Dim.isDfa (isetWf (connDom peers)) (fun d a => ∀ x, a x → words d x)) := by
  refine sumAlg_lawful _ (isetAlg_lawful _ ?_ ?_) (langAlg_lawful _ hw)
  · intro d; cases d <;> first | exact hp | exact ISet.canonical_singleton.2 (by decide)
  · intro d; cases d <;> first | exact hpne | rfl

end Verif
