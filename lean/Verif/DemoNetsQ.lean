import Verif.PropsQueries
import Verif.PropsPolicyEx
/-!
The two connection-set structures of `Verif.DemoNets` with the operations used by the queries, for
examples and counterexamples.
-/
namespace Verif
namespace Plain

/-- Peers 0, 1, 2: pods; 3: DNS entry; 4: address. -/
def netQ : NetQ (Pt → Bool) Pt (Fin 5) (Fin 5 → Bool) where
  toNet := net
  all := fun _ => true
  srcs := fun c e => pts.any (fun p => c p && p.1 == e)
  dsts := fun c e => pts.any (fun p => c p && p.2.1 == e)
  elems := fun s => ((List.finRange 5).filter s).map (fun e => set [e])
  v6 := set [4]
  ip := fun e => e == 4

theorem lawfulQ : netQ.Lawful (fun _ => True) (fun _ => True) (fun _ => True) := by
  refine ⟨lawful, trivial, fun _ => rfl, ?_, ?_, ?_, ?_, ?_, ?_, ?_, ?_, ?_, ?_, ?_, ?_⟩
  · intro a; funext p; exact Bool.and_true _
  · intro c p _ hp
    exact List.any_eq_true.2 ⟨p, mem_pts p, by simpa [netQ, net] using hp⟩
  · intro c p _ hp
    exact List.any_eq_true.2 ⟨p, mem_pts p, by simpa [netQ, net] using hp⟩
  · intro s e
    change s e = true ↔ ∃ a ∈ ((List.finRange 5).filter s).map (fun e => set [e]), a e = true
    simp [set]
  · intro s a e e' ha he he'
    change a ∈ ((List.finRange 5).filter s).map (fun e => set [e]) at ha
    obtain ⟨x, _, rfl⟩ := List.mem_map.1 ha
    change set [x] e = true at he
    change set [x] e' = true at he'
    simp [set] at he he'
    exact Or.inl (he.trans he'.symm)
  · intro e he
    change set [4] e = true at he
    simpa [set, netQ] using he
  · intro a _; exact List.all_eq_true.2 (fun p _ => by simp)
  · intro a; simp
  · intro p q; exact ⟨(q.1, p.2.1, p.2.2), rfl, rfl, rfl, fun _ _ _ => trivial⟩
  all_goals intros; trivial

theorem eq_complete {a b : Pt → Bool} (h : ∀ p, netQ.K.mem p a = netQ.K.mem p b) : netQ.K.eq a b = true :=
  List.all_eq_true.2 (fun p _ => by rw [show a p = b p from h p]; simp)

theorem exactQ : netQ.Exact (fun _ => True) (fun _ => True) (fun _ => True) := by
  refine ⟨fun _ _ _ _ => trivial, fun _ _ _ _ h => eq_complete h, fun {a b x} _ _ _ h => ?_, fun h => funext h⟩
  have h' := List.all_eq_true.1 h
  refine List.all_eq_true.2 (fun p hp => ?_)
  have : a p = b p := by simpa using h' p hp
  change ((a p && !x p) == (b p && !x p)) = true
  rw [this]; simp

/-- The configuration with the given policies. -/
def cfg (t : Peers (Fin 5 → Bool)) (ps : List (Policy (Pt → Bool) (Fin 5 → Bool))) : Config (Pt → Bool) (Fin 5 → Bool) :=
  ⟨t, [], (PolicyStore.build ps).getD PolicyStore.empty⟩

theorem world : World netQ peers := by
  refine ⟨by decide, by decide, by decide, by decide, ⟨(0, 0, true), Or.inl (by decide)⟩, ⟨(4, 4, false), by decide⟩, ⟨(4, 0, true), by decide⟩, ⟨(4, 4, true), by decide⟩⟩
theorem worldHep : World netQ peersHep := by
  refine ⟨by decide, by decide, by decide, by decide, ⟨(0, 0, true), Or.inl (by decide)⟩, ⟨(4, 4, false), by decide⟩, ⟨(4, 0, true), by decide⟩, ⟨(4, 4, true), by decide⟩⟩

/-- Boolean form of `Policy.restricts`. -/
def restrictsB (pol : Policy (Pt → Bool) (Fin 5 → Bool)) : Bool :=
  !(decide (pol.kind = .istioAuthz) || decide (pol.kind = .gateway)) || decide (pol.action = .allow)

/-- Decidable conditions for `Config.Good`; `w` is a workload not captured by restricting policies. -/
theorem good (t : Peers (Fin 5 → Bool)) (ht : t = peers ∨ t = peersHep) (ps : List (Policy (Pt → Bool) (Fin 5 → Bool))) (w : Fin 5)
    (hb : (PolicyStore.build ps).isSome = true)
    (hl : ∀ pol ∈ ps, ∀ dir, ∀ r ∈ pol.rules dir, ∀ p ∈ pts, r.props p = true → pol.selected (if dir then p.2.1 else p.1) = true)
    (hs : ∀ pol ∈ ps, ∀ e, pol.selected e = true → (t.pods e || t.heps e) = true)
    (hw : (t.pods w || t.heps w) = true) (hc : ∀ pol ∈ ps, restrictsB pol = true → pol.captures net true w = false) :
    (cfg t ps).Good netQ (fun _ => True) (fun _ => True) := by
  obtain ⟨st, h⟩ := Option.isSome_iff_exists.1 hb
  have hst : (cfg t ps).store = st := by unfold cfg; rw [h]; rfl
  have B := build_built _ h
  have hp : (cfg t ps).store.policies = ps := by rw [hst]; exact B.policies
  have hwl : ∀ e, (t.pods e || t.heps e) = true → t.workload netQ.toNet e := by
    intro e he
    rcases Bool.or_eq_true_iff.1 he with h | h
    · exact Or.inl h
    · exact Or.inr h
  have hkn : ∀ e, t.known netQ.toNet e := by
    intro e
    have : ∀ e, (((t.pods e || t.heps e) || t.ips e) || t.dns e) = true := by
      rcases ht with rfl | rfl <;> decide
    have := this e
    simp only [Bool.or_eq_true] at this
    rcases this with (h | h) | h
    · exact Or.inl (Or.inl h)
    · exact Or.inl (Or.inr h)
    · exact Or.inr h
  refine ⟨?_, ?_, ?_, ?_, ?_, ?_⟩
  · rw [hp, hst]; exact h
  · rw [hp]; exact ⟨fun pol hpol => legal_of pol (hl pol hpol), exact_of _⟩
  · rcases ht with rfl | rfl
    · exact world
    · exact worldHep
  · intro pol _ dir r _ p _
    exact ⟨hkn _, hkn _⟩
  · rw [hp]; exact fun pol hpol e he => hwl e (hs pol hpol e he)
  · intro n p
    have : SomeOpen netQ.toNet (layerList (cfg t ps).store.layers n) t := by
      refine ⟨w, hwl w hw, fun pol hpol hr => ?_⟩
      have hm : pol ∈ ps := by
        rw [hst] at hpol
        exact ((B.mem_list n pol).1 hpol).1
      apply hc pol hm
      unfold restrictsB
      unfold Policy.restricts at hr
      rw [Bool.or_eq_true, Bool.not_eq_true', ← Bool.not_eq_true, Bool.or_eq_true, decide_eq_true_eq, decide_eq_true_eq, decide_eq_true_eq]
      by_cases hx : pol.kind = .istioAuthz ∨ pol.kind = .gateway
      · exact Or.inr (hr hx)
      · exact Or.inl hx
    cases n
    · trivial
    · exact Or.inl this
    · trivial
    · exact Or.inl this

end Plain

namespace Demo

/-- Whether a list of intervals is a legal set of peers. -/
def legalPeers (v : ISet) : Bool :=
  v.all (fun i => decide (i.s ≤ i.e ∧ 1 ≤ i.s ∧ i.e ≤ 9)) && decide (v.Pairwise (fun a b => a.e + 1 < b.s))

theorem legalPeers_wf {v : ISet} (h : legalPeers v = true) : isetWf dom .src v ∧ isetWf dom .dst v := by
  simp only [legalPeers, Bool.and_eq_true, List.all_eq_true, decide_eq_true_eq] at h
  have hc : ISet.Canonical v := ⟨fun i hi => (h.1 i hi).1, h.2⟩
  have hm : ∀ x, ISet.Mem x v → ISet.Mem x (dom .src) := by
    rintro x ⟨i, hi, h1, h2⟩
    have := h.1 i hi
    exact (mem_peers x).2 ⟨by omega, by omega⟩
  exact ⟨⟨hc, hm⟩, ⟨hc, hm⟩⟩

theorem wf_legalPeers {v : ISet} (h : isetWf dom .src v) : legalPeers v = true := by
  obtain ⟨⟨h1, h2⟩, h3⟩ := h
  simp only [legalPeers, Bool.and_eq_true, List.all_eq_true, decide_eq_true_eq]
  refine ⟨fun i hi => ?_, h2⟩
  have hi' : i.s ≤ i.e := h1 i hi
  have a := (mem_peers i.s).1 (h3 _ ⟨i, hi, Int.le_refl _, hi'⟩)
  have b := (mem_peers i.e).1 (h3 _ ⟨i, hi, hi', Int.le_refl _⟩)
  exact ⟨hi', a.1, b.2⟩

/-- Peers 1..6 are pods, 7..9 addresses, 8 and 9 IPv6 addresses. -/
def isIp (x : Int) : Bool := decide (7 ≤ x ∧ x ≤ 9)

theorem mem_ps (a b : Int) (h : 1 ≤ a ∧ a ≤ b ∧ b ≤ 9) (x : Int) : alg.mem x (peers a b h).1 = true ↔ a ≤ x ∧ x ≤ b := by
  change ISet.contains [⟨a, b⟩] x = true ↔ _
  rw [ISet.contains_spec _ x (canonical_one a b h.2.1)]
  simp [ISet.Mem, Iv.Mem]

/-- The elements of a set of peers: each pod on its own, the addresses together. -/
def peerElems (s : PS) : List PS :=
  [(peers 1 1 (by decide)), (peers 2 2 (by decide)), (peers 3 3 (by decide)), (peers 4 4 (by decide)), (peers 5 5 (by decide)),
    (peers 6 6 (by decide)), (peers 7 9 (by decide))].map (fun a => net.Q.and s a)

theorem peerElems_mem (s : PS) (e : Int) : alg.mem e s.1 = true ↔ ∃ a ∈ peerElems s, alg.mem e a.1 = true := by
  have hand : ∀ a : PS, alg.mem e (net.Q.and s a).1 = (alg.mem e s.1 && alg.mem e a.1) := fun a => net.Q.mem_and s a e
  simp only [peerElems, List.map_cons, List.map_nil, List.mem_cons, List.not_mem_nil, or_false, exists_eq_or_imp, exists_eq_left,
    hand, Bool.and_eq_true, mem_ps]
  constructor
  · intro h
    have := (mem_peers e).1 (s.2.1.2 e ((ISet.contains_spec _ e s.2.1.1).1 h))
    simp only [h, true_and]
    omega
  · intro h; tauto

theorem peerElems_single {s a : PS} {e e' : Int} (ha : a ∈ peerElems s) (h : alg.mem e a.1 = true) (h' : alg.mem e' a.1 = true) :
    e = e' ∨ (isIp e = true ∧ isIp e' = true) := by
  have hand : ∀ (x : Int) (a : PS), alg.mem x (net.Q.and s a).1 = (alg.mem x s.1 && alg.mem x a.1) := fun x a => net.Q.mem_and s a x
  simp only [peerElems, List.map_cons, List.map_nil, List.mem_cons, List.not_mem_nil, or_false] at ha
  rcases ha with rfl | rfl | rfl | rfl | rfl | rfl | rfl <;> rw [hand, Bool.and_eq_true, mem_ps] at h h' <;>
    simp only [isIp, decide_eq_true_eq] <;> omega

/-- Peers of the demo space. -/
def extra : PeerExtra alg (isetWf dom) DemoDim.src DemoDim.dst where
  clip := fun v => if h : legalPeers v = true then ⟨v, legalPeers_wf h⟩ else noPeers
  clip_src := fun v h => by rw [dif_pos (wf_legalPeers h)]
  clip_dst := fun v h => by rw [dif_pos (wf_legalPeers h)]
  elems := peerElems
  ip := isIp
  v6 := peers 8 9 (by decide)
  elems_mem := peerElems_mem
  elems_single := fun ha h h' => peerElems_single ha h h'
  v6_ip := by
    intro e h
    rw [mem_ps] at h
    simp only [isIp, decide_eq_true_eq]; omega

/-- Hyper-cube connection sets with the operations used by the queries. -/
abbrev netQ : NetQ (HC DemoDim ISet) (Point alg) Int PS :=
  hcNetQ lawful dims .src .dst .prot [] nil_wf nil_mem tcp nonTcp extra

theorem tcp_wf : isetWf dom .prot tcp :=
  ⟨tcp_canonical, fun x hx => (mem_prot x).2 (by have := (mem_tcp x).1 hx; omega)⟩
theorem nonTcp_wf : isetWf dom .prot nonTcp :=
  ⟨nonTcp_canonical, fun x hx => (mem_prot x).2 (by have := (mem_nonTcp x).1 hx; omega)⟩

/-- The invariants with the class of the objects. -/
abbrev OkT := HcOkT alg (isetWf dom) dims
abbrev StrongT := HcStrongT alg (isetWf dom) dims

theorem netQLawful : netQ.Lawful Ok Strong (HcWide dims) := by
  apply hcNetQ_lawful lawful dims_nodup dims_ne (by decide) (by decide) (by decide) (by decide) (by decide) (by decide) nil_wf nil_mem
    tcp_wf nonTcp_wf
  · intro x hx
    have hx' := (mem_prot x).1 ((ISet.contains_spec _ x (canonical_one 0 255 (by decide))).1 hx)
    change ISet.contains nonTcp x = !ISet.contains tcp x
    rw [Bool.eq_iff_iff, Bool.not_eq_true', ← Bool.not_eq_true, ISet.contains_spec _ x nonTcp_canonical, ISet.contains_spec _ x tcp_canonical,
      mem_tcp, mem_nonTcp]
    omega
  · rfl

theorem netQExact : netQ.Lawful OkT StrongT (HcWide dims) ∧ netQ.Exact OkT StrongT (HC.Plain alg) := by
  apply hcNetQ_exact lawful dims_nodup dims_ne (by decide) (by decide) (by decide) (by decide) (by decide) (by decide) nil_wf nil_mem
    tcp_wf nonTcp_wf
  · intro x hx
    have hx' := (mem_prot x).1 ((ISet.contains_spec _ x (canonical_one 0 255 (by decide))).1 hx)
    change ISet.contains nonTcp x = !ISet.contains tcp x
    rw [Bool.eq_iff_iff, Bool.not_eq_true', ← Bool.not_eq_true, ISet.contains_spec _ x nonTcp_canonical, ISet.contains_spec _ x tcp_canonical,
      mem_tcp, mem_nonTcp]
    omega
  · rfl

/-- The configuration with the given policies. -/
def cfg (t : Peers PS) (pols : List (Policy (HC DemoDim ISet) PS)) : Config (HC DemoDim ISet) PS :=
  ⟨t, [], (PolicyStore.build pols).getD PolicyStore.empty⟩

/-- Peers 1..6 and the addresses 7..9. -/
theorem world9 : World netQ peers9 := by
  have hip : ∀ e, netQ.Q.mem e peers9.ips = true ↔ 7 ≤ e ∧ e ≤ 9 := fun e => mem_ps 7 9 (by decide) e
  have hpods : ∀ e, netQ.Q.mem e peers9.pods = true ↔ 1 ≤ e ∧ e ≤ 6 := fun e => mem_ps 1 6 (by decide) e
  refine ⟨?_, ?_, ?_, ?_, ⟨conn 1 1 6 80 (by decide), Or.inl ((hpods 1).2 (by decide))⟩, ⟨conn 7 7 17 80 (by decide), by decide +kernel⟩,
    ⟨conn 8 7 17 80 (by decide), by decide +kernel⟩, ⟨conn 7 7 6 80 (by decide), by decide +kernel⟩⟩
  · intro e
    rw [hip]
    change _ ↔ isIp e = true
    simp [isIp]
  · intro e he
    rw [hpods] at he
    refine ⟨?_, rfl⟩
    change isIp e = false
    simp only [isIp, decide_eq_false_iff_not]; omega
  · intro e he
    exact absurd he (by change ¬ (false = true); simp)
  · intro e he
    exact absurd he (by change ¬ (false = true); simp)

end Demo
end Verif
