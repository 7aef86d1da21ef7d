import Verif.PropsFw
import Verif.FwCube
import Verif.DemoNetsQ
/-!
C37: hyper-cube sets of an example cluster meet the hypotheses of `C37_rules`.
-/
namespace Verif.Demo
open Verif.Fw

/-- 1..5: pods; 6: a DNS entry; the rest: addresses. -/
def fwKind (x : Int) : PeerKind :=
  if 1 ≤ x ∧ x ≤ 5 then .pod else if x = 6 then .dns else .ip

/-- Peers of the demo space, for firewall rules. -/
def fwExtra : FwExtra alg (isetWf dom) DemoDim.src DemoDim.dst where
  kind := fwKind
  peers := [1, 2, 3, 4, 5, 6]
  single := fun x => extra.clip [⟨x, x⟩]
  allIps := peers 7 9 (by decide)
  isFull := fun s => decide (s.1 = [⟨7, 9⟩])
  peers_all := by
    intro e he hk
    have := (mem_peers e).1 ((ISet.contains_spec _ e (canonical_one 1 9 (by decide))).1 he)
    unfold fwKind at hk
    simp only [List.mem_cons, List.not_mem_nil, or_false]
    split at hk
    · omega
    · split at hk
      · omega
      · exact absurd rfl hk
  single_mem := by
    intro e x he _
    have := (mem_peers e).1 ((ISet.contains_spec _ e (canonical_one 1 9 (by decide))).1 he)
    have hl : legalPeers [⟨e, e⟩] = true := by simp [legalPeers]; omega
    change alg.mem x (extra.clip [⟨e, e⟩]).1 = true ↔ x = e
    simp only [extra, dif_pos hl]
    refine (mem_ps e e ⟨this.1, Int.le_refl _, this.2⟩ x).trans ?_
    omega
  allIps_mem := by
    intro e he
    have := (mem_peers e).1 ((ISet.contains_spec _ e (canonical_one 1 9 (by decide))).1 he)
    rw [mem_ps]
    unfold fwKind
    split
    · simp; omega
    · split
      · simp; omega
      · simp; omega

/-- The dimensions with sources and destinations switched. -/
def dims' : List DemoDim := [.dst, .src, .prot, .port]

abbrev fwNet : FwNet (HC DemoDim ISet) (Point alg) Int PS :=
  hcFwNet lawful dims dims' .src .dst .prot [] nil_wf nil_mem tcp nonTcp extra fwExtra

theorem fwLaws : fwNet.Laws Ok Strong (HcWide dims) := by
  apply hcFwNet_laws lawful dims_nodup dims_ne (by decide) (by intro d; cases d <;> decide) (by decide) (by decide) (by decide) (by decide) (by decide) (by decide)
    nil_wf nil_mem tcp_wf nonTcp_wf
  · intro x hx
    have hx' := (mem_prot x).1 ((ISet.contains_spec _ x (canonical_one 0 255 (by decide))).1 hx)
    change ISet.contains nonTcp x = !ISet.contains tcp x
    rw [Bool.eq_iff_iff, Bool.not_eq_true', ← Bool.not_eq_true, ISet.contains_spec _ x nonTcp_canonical, ISet.contains_spec _ x tcp_canonical,
      mem_tcp, mem_nonTcp]
    omega
  · rfl

/-- Pods 1, 2 in one namespace, 3, 4, 5 in the other. -/
def fwCluster : Cluster Int Bool where
  all := [1, 2, 3, 4, 5]
  ns := fun x => decide (x ≤ 2)
  labels := fun x => if x = 3 ∨ x = 4 then [("app", "web")] else if x = 5 then [("app", "db")] else []
  allowed := [["app"]]

/-- The options, with or without connections of a workload to itself. -/
def fwCfg (auto : Bool) (rel : ProtoSel) : FwCfg Int := ⟨auto, false, id, id, rel⟩

/-- 1 and 2 connect to each other and by TCP to 3 and 4; addresses connect to 5, and by another protocol to 1 and 2. -/
def fwConns : HC DemoDim ISet :=
  fwNet.K.or (fwNet.K.or (fwNet.rect (some (peers 1 1 (by decide))) (some (peers 2 2 (by decide))) .any)
      (fwNet.rect (some (peers 2 2 (by decide))) (some (peers 1 1 (by decide))) .any))
    (fwNet.K.or (fwNet.rect (some (peers 1 2 (by decide))) (some (peers 3 4 (by decide))) .tcp)
      (fwNet.K.or (fwNet.rect (some (peers 7 9 (by decide))) (some (peers 5 5 (by decide))) .any)
        (fwNet.rect (some (peers 7 9 (by decide))) (some (peers 1 2 (by decide))) .nonTcp)))

theorem fwConns_ok : Ok fwConns := by
  have L := fwLaws.q.net
  have s : ∀ a b r, Ok (fwNet.rect a b r) := fun a b r => L.strong_ok (L.rect_strong a b r)
  exact L.or_ok (L.or_ok (s _ _ _) (s _ _ _)) (L.or_ok (s _ _ _) (L.or_ok (s _ _ _) (s _ _ _)))

theorem fwConns_ext (p : Point alg) (h : fwNet.K.mem p fwConns = true) (hs : fwNet.kind (fwNet.src p) = .ip) :
    (fwNet.kind (fwNet.dst p)).isEp = true := by
  change fwKind (fwNet.src p) = _ at hs
  change (fwKind (fwNet.dst p)).isEp = _
  have L := fwLaws.q.net
  have s : ∀ a b r, Ok (fwNet.rect a b r) := fun a b r => L.strong_ok (L.rect_strong a b r)
  unfold fwConns at h
  rw [mem_or_iff L (L.or_ok (s _ _ _) (s _ _ _)) (L.or_ok (s _ _ _) (L.or_ok (s _ _ _) (s _ _ _))),
    mem_or_iff L (s _ _ _) (s _ _ _), mem_or_iff L (s _ _ _) (L.or_ok (s _ _ _) (s _ _ _)), mem_or_iff L (s _ _ _) (s _ _ _),
    mem_rect_some L, mem_rect_some L, mem_rect_some L, mem_rect_some L,
    mem_rect_some L] at h
  have m : ∀ a b (h : 1 ≤ a ∧ a ≤ b ∧ b ≤ 9) x, fwNet.Q.mem x (peers a b h) = true ↔ a ≤ x ∧ x ≤ b := mem_ps
  simp only [m] at h
  unfold fwKind at hs ⊢
  split at hs
  · exact absurd hs (by simp)
  · rw [if_pos (by omega)]
    rfl

theorem fwKind_ep {x : Int} (h : (fwKind x).isEp = true) : x ∈ fwCluster.all := by
  unfold fwKind at h
  simp only [fwCluster, List.mem_cons, List.not_mem_nil, or_false]
  split at h
  · omega
  · split at h <;> simp [PeerKind.isEp] at h

/-- The hypotheses of `C37_rules` hold. -/
theorem fwRules_example (auto : Bool) (rel : ProtoSel) (p : Point alg) (hr : rel.sel (fwNet.isTcp p) = true) :
    (fwNet.K.mem p fwConns = true → ∃ r ∈ fwRules fwNet fwCluster (fwCfg auto rel) fwConns, r.allows fwNet.toNet fwCluster p) ∧
    ((∃ r ∈ fwRules fwNet fwCluster (fwCfg auto rel) fwConns, r.allows fwNet.toNet fwCluster p) →
      fwNet.K.mem p fwConns = true ∨ (auto = true ∧ SelfConn fwNet p)) := by
  refine C37_rules (I := fwCluster) (cfg := fwCfg auto rel) fwLaws ?_ ⟨fun _ _ h => h, fun _ _ => Iff.rfl⟩ (by decide) fwConns_ok
    (fun p _ h => fwKind_ep h) (fun p _ h => fwKind_ep h) fwConns_ext
    ⟨conn 7 8 6 80 (by decide), by decide, by decide⟩ ⟨conn 1 1 6 80 (by decide), by decide⟩ p hr
  intro e he
  refine ⟨peers 1 6 (by decide), (fwLaws.members_iff _ e).2 ⟨(mem_ps 1 6 (by decide) e).2 ?_, ?_⟩⟩
  · simp only [fwCluster, List.mem_cons, List.not_mem_nil, or_false] at he
    omega
  · change fwKind e ≠ .ip
    have : ∀ e ∈ fwCluster.all, fwKind e ≠ .ip := by decide
    exact this e he

/-- `Elem.has` is decidable in the example. -/
def hasB (e : Int) : Elem Int PS Bool → Bool
  | .nss l => decide (e ∈ fwCluster.all ∧ fwCluster.ns e ∈ l)
  | .labels m key vals => decide (e ∈ fwCluster.all ∧ fwCluster.ns e = m ∧ HasOne fwCluster e (key, vals))
  | .pods l => decide (e ∈ l)
  | .block s => fwNet.Q.mem e s

theorem hasB_iff (e : Int) (x : Elem Int PS Bool) : hasB e x = true ↔ x.has fwNet.Q fwCluster e := by
  cases x <;> simp [hasB, Elem.has]

def allowsB (p : Point alg) (r : FwRule (HC DemoDim ISet) Int PS Bool) : Bool :=
  hasB (fwNet.src p) r.src && (hasB (fwNet.dst p) r.dst && fwNet.K.mem p r.props)

theorem allowsB_iff (p : Point alg) (r : FwRule (HC DemoDim ISet) Int PS Bool) : allowsB p r = true ↔ r.allows fwNet.toNet fwCluster p := by
  unfold allowsB FwRule.allows
  rw [Bool.and_eq_true, Bool.and_eq_true, hasB_iff, hasB_iff]

theorem any_allows (l : List (FwRule (HC DemoDim ISet) Int PS Bool)) (p : Point alg) :
    l.any (allowsB p) = true ↔ ∃ r ∈ l, r.allows fwNet.toNet fwCluster p := by
  simp only [List.any_eq_true, allowsB_iff]

/-- The exception is real: with connections of a workload to itself, the rules allow 1 to connect to itself, which it
cannot. -/
theorem C37_self_example : fwNet.K.mem (conn 1 1 6 80 (by decide)) fwConns = false ∧
    ∃ r ∈ fwRules fwNet fwCluster (fwCfg true .any) fwConns, r.allows fwNet.toNet fwCluster (conn 1 1 6 80 (by decide)) := by
  refine ⟨by decide +kernel, ?_⟩
  rw [← any_allows]
  decide +kernel

example : fwNet.K.mem (conn 1 3 6 80 (by decide)) fwConns = true ∧ fwNet.K.mem (conn 8 2 17 80 (by decide)) fwConns = true ∧
    (fwRules fwNet fwCluster (fwCfg false .any) fwConns).any (allowsB (conn 1 1 6 80 (by decide))) = false := by decide +kernel

end Verif.Demo
