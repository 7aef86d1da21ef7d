import Verif.PropsPlainPeers
import Verif.PropsNamedPortsEx
/-!
C70 for the peers of the program: an example.
-/
namespace Verif.PlainList.PeersEx
open ISet NamedEx HC

/-- Three pods, of three workloads. -/
def reg : List String := ["default/a", "default/b", "prod/a"]
theorem reach : Base.Reach reg := .add (.pod "prod/a") (.add (.pod "default/b") (.add (.pod "default/a") .empty rfl) rfl) rfl

def nm (k : String) : String := k ++ "[Deployment]"

theorem good : GoodNames reg nm where
  inj := by
    intro k hk k' hk' h
    simp only [reg, List.mem_cons, List.not_mem_nil, or_false] at hk hk'
    rcases hk with rfl | rfl | rfl <;> rcases hk' with rfl | rfl | rfl <;> first | rfl | exact absurd h (by decide +kernel)
  noText := by
    intro k hk S
    simp only [reg, List.mem_cons, List.not_mem_nil, or_false] at hk
    rcases hk with rfl | rfl | rfl <;> exact not_addresses (c := '[') (by decide +kernel) (by decide) (by decide +kernel) S

/-- The domain of a query: the addresses of IPv4 and the three pods. -/
def B : PeerDom where
  idx := [⟨0, maxIpv4Index⟩, ⟨minPodIndex, minPodIndex + 2⟩]
  canon := canonical_cons.2 ⟨by decide, canonical_singleton.2 (by decide), by intro b hb; rw [List.mem_singleton] at hb; subst hb; decide⟩
  ne := rfl
  sub := by
    intro z hz
    rw [mem_cons, mem_singleton] at hz
    refine (Base.all_mem z).2 ?_
    rcases hz with ⟨h1, h2⟩ | ⟨h1, h2⟩
    · exact Or.inl ⟨h1, h2⟩
    · exact Or.inr (Or.inr ⟨h1, by simp only at h2; unfold maxPodIndex maxPods; omega⟩)

theorem registered : Registered reg B := by
  intro z hz hle
  change Mem z [⟨0, maxIpv4Index⟩, ⟨minPodIndex, minPodIndex + 2⟩] at hz
  rw [mem_cons, mem_singleton] at hz
  rcases hz with ⟨h1, h2⟩ | ⟨h1, h2⟩
  · exfalso
    have : maxIpv4Index < minPodIndex := by decide
    simp only at h2; omega
  · simp only at h2
    have : (reg.length : Int) = 3 := rfl
    omega

/-- The pod of `default/a` may reach that of `prod/a` and 0.0.0.7-0.0.0.9 at ports 80 to 90. -/
def cMap : Dim → ISet ⊕ ISet
  | .srcPeers => .inl [⟨minPodIndex, minPodIndex⟩]
  | .dstPeers => .inl [⟨7, 9⟩, ⟨minPodIndex + 2, minPodIndex + 2⟩]
  | .dstPorts => .inl [⟨80, 90⟩]
  | d => (connA A2 B).dom d

def mdims : List Dim := [.srcPeers, .dstPeers, .dstPorts]

theorem inB (z : Int) (h : (0 ≤ z ∧ z ≤ maxIpv4Index) ∨ (minPodIndex ≤ z ∧ z ≤ minPodIndex + 2)) : Mem z B.idx := by
  change Mem z [⟨0, maxIpv4Index⟩, ⟨minPodIndex, minPodIndex + 2⟩]
  rw [mem_cons, mem_singleton]
  exact h

theorem dst_canonical : Canonical [⟨7, 9⟩, ⟨minPodIndex + 2, minPodIndex + 2⟩] :=
  canonical_cons.2 ⟨by decide, canonical_singleton.2 (by decide), by intro b hb; rw [List.mem_singleton] at hb; subst hb; decide⟩

theorem wfMap : ∀ d ∈ mdims, connWf W2 B d (cMap d) := by
  intro d hd
  simp only [mdims, List.mem_cons, List.not_mem_nil, or_false] at hd
  rcases hd with rfl | rfl | rfl
  · refine ⟨rfl, canonical_singleton.2 (by decide), fun x hx => inB x ?_⟩
    rw [mem_singleton] at hx
    obtain ⟨h1, h2⟩ := hx
    simp only at h1 h2; omega
  · refine ⟨rfl, dst_canonical, fun x hx => inB x ?_⟩
    rw [mem_cons, mem_singleton] at hx
    have : (9 : Int) ≤ maxIpv4Index := by decide
    rcases hx with ⟨h1, h2⟩ | ⟨h1, h2⟩ <;> simp only at h1 h2 <;> omega
  · refine ⟨rfl, canonical_singleton.2 (by decide), fun x hx => ?_⟩
    rw [mem_singleton] at hx
    refine mem_singleton.2 ?_
    unfold Iv.Mem at *; dsimp only at *; omega

def theMap : HC Dim (ISet ⊕ ISet) := HC.fromCube (connA A2 B) allDims cMap mdims

theorem mapHist : HC.Hist (connA A2 B) (connWf W2 B) allDims false theMap (CubePts (connA A2 B) cMap mdims) :=
  .cube _ _ (by decide) wfMap

theorem mapStrong : HcStrong (connA A2 B) (connWf W2 B) allDims theMap :=
  ⟨(mapHist.spec (connA_lawful B L2) allDims_nodup allDims_ne).1, Or.inl (by decide +kernel)⟩

/-- A connection from `default/a`. -/
def q (dst port : Int) : Dim → Int ⊕ Int
  | .srcPeers => .inl minPodIndex
  | .dstPeers => .inl dst
  | .protocols => .inl 6
  | .dstPorts => .inl port
  | .srcPorts => .inl 1
  | .hosts => .inr 0
  | .paths => .inr 0
  | _ => .inl 0

theorem q_dom {dst port : Int} (h1 : (0 ≤ dst ∧ dst ≤ maxIpv4Index) ∨ (minPodIndex ≤ dst ∧ dst ≤ minPodIndex + 2)) (h2 : 1 ≤ port ∧ port ≤ 65535) :
    InDom (connA A2 B) (q dst port) := by
  intro x
  cases x
  case srcPeers => exact (mem_inl A2 B _ _ B.canon).2 (inB _ (Or.inr ⟨by omega, by omega⟩))
  case dstPeers => exact (mem_inl A2 B _ _ B.canon).2 (inB _ h1)
  case dstPorts => exact (mem_inl A2 B _ _ (canonical_singleton.2 (by decide))).2 (mem_singleton.2 h2)
  case hosts => rfl
  case paths => rfl
  all_goals exact (mem_inl A2 B _ _ (canonical_singleton.2 (by decide))).2 (mem_singleton.2 ⟨by decide, by decide⟩)

/-- The list tells that `default/a` may reach 0.0.0.8 at port 85, in the part of TCP and not in the other one; it does
not tell that it may reach 0.0.0.10. -/
example :
    (∃ part ∈ sections (connA A2 B) allDims .srcPeers .dstPeers .protocols tcpVal nonTcpVal (real reg nm) List.length true theMap, ∃ l ∈ part.2,
      Tells (connA A2 B) (connWf W2 B) .srcPeers .dstPeers .protocols tcpVal nonTcpVal (real reg nm) .dstPorts part.1 l (q 8 85)) ∧
    ¬ ∃ part ∈ sections (connA A2 B) allDims .srcPeers .dstPeers .protocols tcpVal nonTcpVal (real reg nm) List.length true theMap, ∃ l ∈ part.2,
      Tells (connA A2 B) (connWf W2 B) .srcPeers .dstPeers .protocols tcpVal nonTcpVal (real reg nm) .dstPorts part.1 l (q 10 85) := by
  constructor
  · rw [(C70_program_partial L2 reach registered good mapHist mapStrong true (q_dom (dst := 8) (port := 85) (Or.inl ⟨by decide, by decide⟩) (by decide))
      ⟨by decide +kernel, minPodIndex, Or.inl rfl, Int.le_refl _⟩).1]
    intro d hd
    simp only [mdims, List.mem_cons, List.not_mem_nil, or_false] at hd
    rcases hd with rfl | rfl | rfl <;> decide +kernel
  · rw [(C70_program_partial L2 reach registered good mapHist mapStrong true (q_dom (dst := 10) (port := 85) (Or.inl ⟨by decide, by decide⟩) (by decide))
      ⟨by decide +kernel, minPodIndex, Or.inl rfl, Int.le_refl _⟩).1]
    intro h
    exact absurd (h .dstPeers (by decide)) (by decide +kernel)

/-- The lines. -/
example : (lines (connA A2 B) allDims .srcPeers .dstPeers .protocols tcpVal nonTcpVal (real (X2 := Int) reg nm) List.length true .any theMap).map
    (fun l => (l.src, l.dst)) = [("default/a[Deployment]", "prod/a[Deployment]"), ("default/a[Deployment]", "0.0.0.7-0.0.0.9")] := by
  decide +kernel

end Verif.PlainList.PeersEx
