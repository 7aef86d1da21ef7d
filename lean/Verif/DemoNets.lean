import Verif.PolicySpec
/-!
Two concrete connection-set structures, used in the non-vacuity examples and in the counterexamples:
hyper-cube sets over four interval dimensions (`demo`), and plain boolean functions over a small
universe (`plainNet`), for which subtraction is exact on every set.
-/
namespace Verif

/-- Four of the dimensions of connections, in the order of nca/CoreDS/DimensionsManager.py 36-75. -/
inductive DemoDim | src | dst | prot | port
  deriving DecidableEq, Repr

namespace Demo

/-- Peers 1..9; all protocols; all ports. -/
def dom : DemoDim → ISet
  | .src => [⟨1, 9⟩]
  | .dst => [⟨1, 9⟩]
  | .prot => [⟨0, 255⟩]
  | .port => [⟨1, 65535⟩]

abbrev alg : VAlg DemoDim ISet Int := isetAlg dom
def dims : List DemoDim := [.src, .dst, .prot, .port]

theorem dims_nodup : dims.Nodup := by decide
theorem dims_ne : dims ≠ [] := by decide

theorem canonical_one (a b : Int) (h : a ≤ b) : ISet.Canonical [⟨a, b⟩] := by
  refine ⟨?_, ?_⟩
  · intro i hi; simp at hi; subst hi; exact h
  · exact List.pairwise_singleton _ _

theorem lawful : alg.Lawful (isetWf dom) := by
  apply isetAlg_lawful
  · intro d; cases d <;> exact canonical_one _ _ (by decide)
  · intro d; cases d <;> rfl

theorem wf_one (d : DemoDim) (a b : Int) (h : a ≤ b) (hd : ∀ x, a ≤ x → x ≤ b → ISet.Mem x (dom d)) : isetWf dom d [⟨a, b⟩] := by
  refine ⟨canonical_one a b h, ?_⟩
  rintro x ⟨i, hi, h1, h2⟩
  simp at hi; subst hi
  exact hd x h1 h2

/-- Peer sets. -/
abbrev PS := PeerVal (isetWf dom) DemoDim.src DemoDim.dst

theorem mem_peers (x : Int) : ISet.Mem x (dom .src) ↔ 1 ≤ x ∧ x ≤ 9 := by
  constructor
  · rintro ⟨i, hi, h1, h2⟩
    simp [dom] at hi; subst hi; exact ⟨h1, h2⟩
  · rintro ⟨h1, h2⟩; exact ⟨⟨1, 9⟩, by simp [dom], h1, h2⟩

/-- The peers a..b. -/
def peers (a b : Int) (h : 1 ≤ a ∧ a ≤ b ∧ b ≤ 9) : PS :=
  ⟨[⟨a, b⟩], wf_one _ a b h.2.1 (fun x h1 h2 => (mem_peers x).2 ⟨by omega, by omega⟩),
   wf_one _ a b h.2.1 (fun x h1 h2 => (mem_peers x).2 ⟨by omega, by omega⟩)⟩

theorem nil_wf : isetWf dom .src [] ∧ isetWf dom .dst [] := by
  refine ⟨⟨⟨by simp, List.Pairwise.nil⟩, ?_⟩, ⟨⟨by simp, List.Pairwise.nil⟩, ?_⟩⟩ <;>
  · rintro x ⟨i, hi, _⟩; simp at hi

/-- No peers. -/
def noPeers : PS := ⟨[], nil_wf⟩

theorem nil_mem (x : Int) : alg.mem x ([] : ISet) = false := rfl

/-- The protocol TCP and its complement. -/
def tcp : ISet := [⟨6, 6⟩]
def nonTcp : ISet := [⟨0, 5⟩, ⟨7, 255⟩]

/-- Hyper-cube connection sets. -/
abbrev net : Net (HC DemoDim ISet) (Point alg) Int PS :=
  hcNet lawful dims .src .dst .prot [] nil_wf nil_mem tcp nonTcp

theorem mem_prot (x : Int) : ISet.Mem x (dom .prot) ↔ 0 ≤ x ∧ x ≤ 255 := by
  constructor
  · rintro ⟨i, hi, h1, h2⟩
    simp [dom] at hi; subst hi; exact ⟨h1, h2⟩
  · rintro ⟨h1, h2⟩; exact ⟨⟨0, 255⟩, by simp [dom], h1, h2⟩

theorem tcp_canonical : ISet.Canonical tcp := canonical_one 6 6 (by decide)
theorem nonTcp_canonical : ISet.Canonical nonTcp := by
  refine ⟨?_, ?_⟩
  · intro i hi; simp [nonTcp] at hi; rcases hi with rfl | rfl <;> decide
  · simp [nonTcp, List.pairwise_cons]

theorem mem_tcp (x : Int) : ISet.Mem x tcp ↔ x = 6 := by
  constructor
  · rintro ⟨i, hi, h1, h2⟩
    simp [tcp] at hi; subst hi; simp at h1 h2; omega
  · rintro rfl; exact ⟨⟨6, 6⟩, by simp [tcp], by decide, by decide⟩

theorem mem_nonTcp (x : Int) : ISet.Mem x nonTcp ↔ (0 ≤ x ∧ x ≤ 5) ∨ (7 ≤ x ∧ x ≤ 255) := by
  constructor
  · rintro ⟨i, hi, h1, h2⟩
    simp [nonTcp] at hi
    rcases hi with rfl | rfl
    · exact Or.inl ⟨h1, h2⟩
    · exact Or.inr ⟨h1, h2⟩
  · rintro (⟨h1, h2⟩ | ⟨h1, h2⟩)
    · exact ⟨⟨0, 5⟩, by simp [nonTcp], h1, h2⟩
    · exact ⟨⟨7, 255⟩, by simp [nonTcp], h1, h2⟩

abbrev Ok := HcOk alg (isetWf dom) dims
abbrev Strong := HcStrong alg (isetWf dom) dims

theorem netLawful : net.Lawful Ok Strong := by
  apply hcNet_lawful lawful dims_nodup dims_ne (by decide) (by decide) (by decide) (by decide) (by decide) (by decide)
  · refine ⟨tcp_canonical, fun x hx => (mem_prot x).2 ?_⟩
    have := (mem_tcp x).1 hx; omega
  · refine ⟨nonTcp_canonical, fun x hx => (mem_prot x).2 ?_⟩
    have := (mem_nonTcp x).1 hx; omega
  · intro x hx
    have hx' := (mem_prot x).1 ((ISet.contains_spec _ x (canonical_one 0 255 (by decide))).1 hx)
    change ISet.contains nonTcp x = !ISet.contains tcp x
    rw [Bool.eq_iff_iff, Bool.not_eq_true', ← Bool.not_eq_true, ISet.contains_spec _ x nonTcp_canonical, ISet.contains_spec _ x tcp_canonical,
      mem_tcp, mem_nonTcp]
    omega

/-- A connection. -/
def coord (s d pr po : Int) : DemoDim → Int
  | .src => s
  | .dst => d
  | .prot => pr
  | .port => po

/-- A connection of the space. -/
def conn (s d pr po : Int) (h : (1 ≤ s ∧ s ≤ 9) ∧ (1 ≤ d ∧ d ≤ 9) ∧ (0 ≤ pr ∧ pr ≤ 255) ∧ (1 ≤ po ∧ po ≤ 65535)) : Point alg :=
  ⟨coord s d pr po, by
    intro x
    cases x
    · exact (ISet.contains_spec _ _ (canonical_one 1 9 (by decide))).2 ⟨⟨1, 9⟩, by simp, h.1.1, h.1.2⟩
    · exact (ISet.contains_spec _ _ (canonical_one 1 9 (by decide))).2 ⟨⟨1, 9⟩, by simp, h.2.1.1, h.2.1.2⟩
    · exact (ISet.contains_spec _ _ (canonical_one 0 255 (by decide))).2 ⟨⟨0, 255⟩, by simp, h.2.2.1.1, h.2.2.1.2⟩
    · exact (ISet.contains_spec _ _ (canonical_one 1 65535 (by decide))).2 ⟨⟨1, 65535⟩, by simp, h.2.2.2.1, h.2.2.2.2⟩⟩

end Demo

/-! ### Boolean functions -/
namespace Plain

/-- Endpoints 0..4; a connection is a source, a destination and whether it is TCP. -/
abbrev Pt := Fin 5 × Fin 5 × Bool

def pts : List Pt := (List.finRange 5).flatMap (fun a => (List.finRange 5).flatMap (fun b => [(a, b, true), (a, b, false)]))

theorem mem_pts (p : Pt) : p ∈ pts := by
  obtain ⟨a, b, c⟩ := p
  simp only [pts, List.mem_flatMap, List.mem_finRange, true_and]
  exact ⟨a, b, by cases c <;> simp⟩

def net : Net (Pt → Bool) Pt (Fin 5) (Fin 5 → Bool) where
  K :=
    { empty := fun _ => false
      or := fun a b p => a p || b p
      and := fun a b p => a p && b p
      sub := fun a b p => a p && !b p
      truthy := fun a => pts.any a
      contained := fun a b => pts.all (fun p => !a p || b p)
      eq := fun a b => pts.all (fun p => a p == b p)
      mem := fun p a => a p }
  Q :=
    { empty := fun _ => false
      or := fun a b p => a p || b p
      and := fun a b p => a p && b p
      sub := fun a b p => a p && !b p
      truthy := fun a => (List.finRange 5).any a
      mem := fun p a => a p
      mem_empty := fun _ => rfl
      mem_or := fun _ _ _ => rfl
      mem_and := fun _ _ _ => rfl
      mem_sub := fun _ _ _ => rfl
      truthy_iff := fun a => by simp [List.any_eq_true] }
  src := fun p => p.1
  dst := fun p => p.2.1
  isTcp := fun p => p.2.2
  rect := fun s d k p => (match s with | .none => true | .some s => s p.1) && (match d with | .none => true | .some d => d p.2.1) && k.sel p.2.2

theorem lawful : net.Lawful (fun _ => True) (fun _ => True) := by
  constructor
  · constructor
    all_goals try (intros; trivial)
    all_goals try (intros; rfl)
    · intro a b hb
      funext p
      change (a p && !b p) = a p
      have : b p = false := by
        rw [← Bool.not_eq_true]
        intro h
        have : net.K.truthy b = true := List.any_eq_true.2 ⟨p, mem_pts p, h⟩
        rw [hb] at this; exact absurd this (by simp)
      rw [this]; simp
    · intro a _
      change pts.any a = true ↔ _
      rw [List.any_eq_true]
      exact ⟨fun ⟨p, _, h⟩ => ⟨p, h⟩, fun ⟨p, h⟩ => ⟨p, mem_pts p, h⟩⟩
    · intro a b _ _
      change pts.all (fun p => !a p || b p) = true ↔ _
      rw [List.all_eq_true]
      constructor
      · intro h p hp
        have := h p (mem_pts p)
        change a p = true at hp
        rw [hp] at this
        have h2 : b p = true := by simpa using this
        exact h2
      · intro h p _
        have := h p
        change a p = true → b p = true at this
        cases ha : a p
        · simp
        · simp [this ha]
    · intro a b _ _ h p
      have := List.all_eq_true.1 h p (mem_pts p)
      have h2 : a p = b p := by simpa using this
      exact h2
  · intros; trivial
  · intro s d k p; cases s <;> cases d <;> rfl

end Plain
end Verif
