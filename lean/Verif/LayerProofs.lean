import Verif.PolicyProofs
import Mathlib.Tactic.Tauto
/-! Proofs about layers and configurations. -/
namespace Verif

section
variable {C P E S : Type} {N : Net C P E S} {Ok Strong : C → Prop}

theorem Peers.mem_group (t : Peers S) (ips dns : Bool) (e : E) :
    N.Q.mem e (t.group N ips dns) = true ↔
      (t.workload N e ∨ (dns = true ∧ N.Q.mem e t.dns = true) ∨ (ips = true ∧ N.Q.mem e t.ips = true)) := by
  unfold Peers.group Peers.workload
  cases ips <;> cases dns <;> simp [N.Q.mem_or, or_assoc]

theorem Peers.mem_group_tt (t : Peers S) (e : E) : N.Q.mem e (t.group N true true) = true ↔ t.known N e := by
  rw [Peers.mem_group]; unfold Peers.known Peers.nonDns; tauto
theorem Peers.mem_group_tf (t : Peers S) (e : E) : N.Q.mem e (t.group N true false) = true ↔ t.nonDns N e := by
  rw [Peers.mem_group]; unfold Peers.nonDns; simp
theorem Peers.mem_group_ff (t : Peers S) (e : E) : N.Q.mem e (t.group N false false) = true ↔ t.workload N e := by
  rw [Peers.mem_group]; simp

theorem mem_rect_some (L : N.Lawful Ok Strong) (s d : S) (k : ProtoSel) (p : P) :
    N.K.mem p (N.rect (some s) (some d) k) = true ↔
      N.Q.mem (N.src p) s = true ∧ N.Q.mem (N.dst p) d = true ∧ k.sel (N.isTcp p) = true := by
  rw [L.mem_rect]; simp [and_assoc]

theorem rectDir_strong (L : N.Lawful Ok Strong) (dir : Bool) (a b : S) (k : ProtoSel) : Strong (rectDir N dir a b k) := by
  unfold rectDir; split <;> exact L.rect_strong _ _ _

theorem mem_rectDir (L : N.Lawful Ok Strong) (dir : Bool) (a b : S) (p : P) :
    N.K.mem p (rectDir N dir a b .any) = true ↔
      N.Q.mem (endpoint N dir p) a = true ∧ N.Q.mem (otherEnd N dir p) b = true := by
  unfold rectDir endpoint otherEnd
  cases dir <;> simp [mem_rect_some L, ProtoSel.sel, and_comm]

theorem mem_or_iff (L : N.Lawful Ok Strong) {a b : C} (ha : Ok a) (hb : Ok b) (p : P) :
    N.K.mem p (N.K.or a b) = true ↔ N.K.mem p a = true ∨ N.K.mem p b = true := by
  rw [L.mem_or ha hb, Bool.or_eq_true]

theorem mem_and_iff (L : N.Lawful Ok Strong) {a b : C} (ha : Ok a) (hb : Ok b) (p : P) :
    N.K.mem p (N.K.and a b) = true ↔ N.K.mem p a = true ∧ N.K.mem p b = true := by
  rw [L.mem_and ha hb, Bool.and_eq_true]

theorem mem_sub_iff (L : N.Lawful Ok Strong) {a b : C} (ha : Strong a) (hb : Ok b) (p : P) :
    N.K.mem p (N.K.sub a b) = true ↔ N.K.mem p a = true ∧ ¬ N.K.mem p b = true := by
  rw [L.mem_sub ha hb, Bool.and_eq_true, Bool.not_eq_true', Bool.not_eq_true]

theorem verdict_captured {pols : List (Policy C S)} {dir : Bool} {p : P} {a : RuleAction}
    (h : layerVerdict N pols dir p = some a) : ∃ pol ∈ pols, pol.captures N dir (endpoint N dir p) = true := by
  unfold layerVerdict at h
  obtain ⟨pol, hp, hv⟩ := List.exists_of_findSome?_eq_some h
  refine ⟨pol, hp, ?_⟩
  by_contra hc
  simp [hc] at hv

/-- Everything the Kubernetes/Calico layer computes in a direction. -/
theorem calicoLayerXgress_spec (L : N.Lawful Ok Strong) (pols : List (Policy C S)) (hl : ∀ pol ∈ pols, pol.Legal N Strong)
    (hx : SubExact Ok Strong pols) (dir : Bool) (t : Peers S) (f : ConnFilter) :
    let r := calicoLayerXgress N pols dir t f
    (∀ e, N.Q.mem e r.captured = true ↔ ∃ pol ∈ pols, pol.captures N dir e = true) ∧
    (Strong r.allowed ∧ ∀ p, N.K.mem p r.allowed = true ↔ layerVerdict N pols dir p = some .allow ∨
      (layerVerdict N pols dir p = some .pass ∧ t.hasDefault N (endpoint N dir p) ∧ t.known N (otherEnd N dir p))) ∧
    (Strong r.denied ∧ ∀ p, N.K.mem p r.denied = true ↔ layerVerdict N pols dir p = some .deny) ∧
    (f.calcAllAllowed = true → Strong r.allAllowed ∧ ∀ p, N.K.mem p r.allAllowed = true ↔ calicoAllows N pols t dir p) ∧
    (f.calcAllAllowed = false → r.allAllowed = N.K.empty) := by
  intro r
  have hR := collect_rel L dir (fun _ => true) pols hl hx
  have hC := collect_captured (N := N) dir (fun _ => true) pols
  have hE := collect_allAllowed (N := N) dir (fun _ => true) pols
  have hcap : ∀ e, N.Q.mem e (collect N dir (fun _ => true) pols).captured = true ↔ ∃ pol ∈ pols, pol.captures N dir e = true := by
    intro e; rw [hC, List.any_eq_true]; simp
  have hdef : ∀ e, (N.Q.mem e (N.Q.or t.pods t.dns) = true ↔ t.hasDefault N e) := by
    intro e; rw [N.Q.mem_or, Bool.or_eq_true]; rfl
  generalize hres : collect N dir (fun _ => true) pols = res at *
  -- allowed
  have hA : Strong r.allowed ∧ ∀ p, N.K.mem p r.allowed = true ↔ layerVerdict N pols dir p = some .allow ∨
      (layerVerdict N pols dir p = some .pass ∧ t.hasDefault N (endpoint N dir p) ∧ t.known N (otherEnd N dir p)) := by
    have hra : r.allowed = if N.Q.truthy (N.Q.and (N.Q.or t.pods t.dns) res.captured) && N.K.truthy res.pass then
        N.K.or res.allowed (N.K.and res.pass (rectDir N dir (N.Q.and (N.Q.or t.pods t.dns) res.captured) (t.group N true true) .any))
        else res.allowed := by
      simp only [r, calicoLayerXgress, hres]
    have hrk : Ok (rectDir N dir (N.Q.and (N.Q.or t.pods t.dns) res.captured) (t.group N true true) .any) :=
      L.strong_ok (rectDir_strong L _ _ _ _)
    rw [hra]
    split
    · refine ⟨L.or_strong hR.sa (L.and_ok (L.strong_ok hR.sp) hrk), fun p => ?_⟩
      rw [mem_or_iff L (L.strong_ok hR.sa) (L.and_ok (L.strong_ok hR.sp) hrk), mem_and_iff L (L.strong_ok hR.sp) hrk,
        hR.ma, hR.mp, mem_rectDir L, N.Q.mem_and, Bool.and_eq_true, hdef, hcap, Peers.mem_group_tt]
      simp only [decide_eq_true_eq]
      constructor
      · tauto
      · rintro (h | ⟨h1, h2, h3⟩)
        · exact Or.inl h
        · exact Or.inr ⟨h1, ⟨h2, verdict_captured h1⟩, h3⟩
    · rename_i hn
      refine ⟨hR.sa, fun p => ?_⟩
      rw [hR.ma]
      simp only [decide_eq_true_eq]
      refine ⟨Or.inl, fun h => h.elim id ?_⟩
      rintro ⟨h1, h2, h3⟩
      exfalso
      apply hn
      rw [Bool.and_eq_true]
      refine ⟨(N.Q.truthy_iff _).2 ⟨endpoint N dir p, ?_⟩, (L.truthy_iff (L.strong_ok hR.sp)).2 ⟨p, by rw [hR.mp]; simpa using h1⟩⟩
      rw [N.Q.mem_and, Bool.and_eq_true, hdef, hcap]
      exact ⟨h2, verdict_captured h1⟩
  refine ⟨?_, hA, ?_, ?_, ?_⟩
  · intro e
    have : r.captured = res.captured := by simp only [r, calicoLayerXgress, hres]
    rw [this]; exact hcap e
  · have : r.denied = res.denied := by simp only [r, calicoLayerXgress, hres]
    rw [this]
    exact ⟨hR.sd, fun p => by rw [hR.md]; simp⟩
  · intro hf
    have hra : r.allAllowed = N.K.or (if N.Q.truthy (N.Q.sub (N.Q.or t.pods t.dns) res.captured) then
        N.K.or N.K.empty (rectDir N dir (N.Q.sub (N.Q.or t.pods t.dns) res.captured) (t.group N true true) .any) else N.K.empty) r.allowed := by
      simp only [r, calicoLayerXgress, hres, hf, hE, Bool.and_true, if_true]
    have hrk := rectDir_strong L dir (N.Q.sub (N.Q.or t.pods t.dns) res.captured) (t.group N true true) .any
    have hfirst : Strong (if N.Q.truthy (N.Q.sub (N.Q.or t.pods t.dns) res.captured) then
        N.K.or N.K.empty (rectDir N dir (N.Q.sub (N.Q.or t.pods t.dns) res.captured) (t.group N true true) .any) else N.K.empty) ∧
        ∀ p, N.K.mem p (if N.Q.truthy (N.Q.sub (N.Q.or t.pods t.dns) res.captured) then
        N.K.or N.K.empty (rectDir N dir (N.Q.sub (N.Q.or t.pods t.dns) res.captured) (t.group N true true) .any) else N.K.empty) = true ↔
        ((∀ pol ∈ pols, pol.captures N dir (endpoint N dir p) = false) ∧ t.hasDefault N (endpoint N dir p) ∧ t.known N (otherEnd N dir p)) := by
      have hnc : ∀ e, (¬ ∃ pol ∈ pols, pol.captures N dir e = true) ↔ ∀ pol ∈ pols, pol.captures N dir e = false := by
        intro e; simp
      split
      · refine ⟨L.or_strong L.empty_strong (L.strong_ok hrk), fun p => ?_⟩
        rw [mem_or_iff L (L.strong_ok L.empty_strong) (L.strong_ok hrk), L.mem_empty, mem_rectDir L, N.Q.mem_sub, Bool.and_eq_true,
          Bool.not_eq_true', ← Bool.not_eq_true, hdef, hcap, Peers.mem_group_tt, hnc]
        simp only [Bool.false_eq_true, false_or]
        tauto
      · rename_i hn
        refine ⟨L.empty_strong, fun p => ?_⟩
        rw [L.mem_empty]
        refine ⟨fun h => absurd h (by simp), fun ⟨h1, h2, h3⟩ => ?_⟩
        exfalso
        apply hn
        refine (N.Q.truthy_iff _).2 ⟨endpoint N dir p, ?_⟩
        rw [N.Q.mem_sub, Bool.and_eq_true, Bool.not_eq_true', ← Bool.not_eq_true, hdef, hcap, hnc]
        exact ⟨h2, h1⟩
    rw [hra]
    refine ⟨L.or_strong hfirst.1 (L.strong_ok hA.1), fun p => ?_⟩
    rw [mem_or_iff L (L.strong_ok hfirst.1) (L.strong_ok hA.1), hfirst.2, hA.2]
    unfold calicoAllows
    tauto
  · intro hf
    simp only [r, calicoLayerXgress, hres, hf, hE, Bool.and_false, Bool.false_eq_true, if_false]

theorem istioCaptured_iff (pol : Policy C S) : istioCaptured pol = true ↔ pol.restricts := by
  unfold istioCaptured Policy.restricts
  split <;> simp_all

/-- Everything the Istio layer computes in a direction.  The hypothesis `ho` excludes the case in
which the code forgets the default for DNS destinations. -/
theorem istioLayerXgress_spec (L : N.Lawful Ok Strong) (pols : List (Policy C S)) (hl : ∀ pol ∈ pols, pol.Legal N Strong)
    (hx : SubExact Ok Strong pols) (dir : Bool) (t : Peers S) (f : ConnFilter) :
    let r := istioLayerXgress N pols dir t f
    (∀ e, N.Q.mem e r.captured = true ↔ ∃ pol ∈ pols, pol.restricts ∧ pol.captures N dir e = true) ∧
    (Strong r.allowed ∧ ∀ p, N.K.mem p r.allowed = true ↔ layerVerdict N pols dir p = some .allow) ∧
    (Strong r.denied ∧ ∀ p, N.K.mem p r.denied = true ↔ layerVerdict N pols dir p = some .deny) ∧
    (f.calcAllAllowed = true → Strong r.allAllowed ∧ ∀ p,
      (dir = true → SomeOpen N pols t ∨ N.Q.mem (N.dst p) t.dns = false) →
      (N.K.mem p r.allAllowed = true ↔ istioAllows N pols t dir p)) ∧
    (f.calcAllAllowed = true → ∀ p, N.K.mem p r.allAllowed = true → istioAllows N pols t dir p) ∧
    (f.calcAllAllowed = false → r.allAllowed = N.K.empty) := by
  intro r
  have hR := collect_rel L dir istioCaptured pols hl hx
  have hC := collect_captured (N := N) dir istioCaptured pols
  have hE := collect_allAllowed (N := N) dir istioCaptured pols
  have hcap : ∀ e, N.Q.mem e (collect N dir istioCaptured pols).captured = true ↔
      ∃ pol ∈ pols, pol.restricts ∧ pol.captures N dir e = true := by
    intro e; rw [hC, List.any_eq_true]; simp only [Bool.and_eq_true, istioCaptured_iff]
  have hopen : ∀ e, (¬ ∃ pol ∈ pols, pol.restricts ∧ pol.captures N dir e = true) ↔ istioOpen N pols dir e := by
    intro e; unfold istioOpen; simp
  generalize hres : collect N dir istioCaptured pols = res at *
  have hro : Ok (N.rect (some (t.group N true false)) (some (t.group N true false)) .nonTcp) := L.strong_ok (L.rect_strong _ _ _)
  have h1o : Ok (N.K.or res.allowed (N.rect (some (t.group N true false)) (some (t.group N true false)) .nonTcp)) :=
    L.or_ok (L.strong_ok hR.sa) hro
  have hall1s : Strong (N.K.or N.K.empty (N.K.or res.allowed (N.rect (some (t.group N true false)) (some (t.group N true false)) .nonTcp))) :=
    L.or_strong L.empty_strong h1o
  have hall1 : ∀ p, N.K.mem p (N.K.or N.K.empty (N.K.or res.allowed (N.rect (some (t.group N true false)) (some (t.group N true false)) .nonTcp))) = true ↔
      (layerVerdict N pols dir p = some .allow ∨ (N.isTcp p = false ∧ t.nonDns N (N.src p) ∧ t.nonDns N (N.dst p))) := by
    intro p
    rw [mem_or_iff L (L.strong_ok L.empty_strong) h1o, mem_or_iff L (L.strong_ok hR.sa) hro, L.mem_empty, hR.ma, mem_rect_some L,
      Peers.mem_group_tf, Peers.mem_group_tf]
    simp only [decide_eq_true_eq, ProtoSel.sel, Bool.not_eq_true', Bool.false_eq_true, false_or]
    tauto
  have hden : ∀ p, N.K.mem p res.denied = true ↔ layerVerdict N pols dir p = some .deny := by
    intro p; rw [hR.md]; simp
  have hncm : ∀ e, N.Q.mem e (N.Q.sub (t.group N false false) res.captured) = true ↔ t.workload N e ∧ istioOpen N pols dir e := by
    intro e
    rw [N.Q.mem_sub, Bool.and_eq_true, Bool.not_eq_true', ← Bool.not_eq_true, hcap, hopen, Peers.mem_group_ff]
  have hncd : ∀ e, N.Q.mem e (N.Q.sub t.dns res.captured) = true ↔ N.Q.mem e t.dns = true ∧ istioOpen N pols dir e := by
    intro e
    rw [N.Q.mem_sub, Bool.and_eq_true, Bool.not_eq_true', ← Bool.not_eq_true, hcap, hopen]
  have hallf : f.calcAllAllowed = true → r.allAllowed = if !N.Q.truthy (N.Q.sub (t.group N false false) res.captured) then
      N.K.or N.K.empty (N.K.or res.allowed (N.rect (some (t.group N true false)) (some (t.group N true false)) .nonTcp))
      else N.K.or (N.K.or N.K.empty (N.K.or res.allowed (N.rect (some (t.group N true false)) (some (t.group N true false)) .nonTcp)))
        (if dir then
          (if N.Q.truthy (N.Q.sub t.dns res.captured) then
            N.K.or (N.K.sub (N.rect (some (t.group N true false)) (some (N.Q.sub (t.group N false false) res.captured)) .any) res.denied)
             (N.K.sub (N.rect (some (t.group N true false)) (some (N.Q.sub t.dns res.captured)) .tcp) res.denied)
          else (N.K.sub (N.rect (some (t.group N true false)) (some (N.Q.sub (t.group N false false) res.captured)) .any) res.denied))
        else
          N.K.sub (N.K.or (N.rect (some (N.Q.sub (t.group N false false) res.captured)) (some (t.group N true false)) .any)
            (N.rect (some (N.Q.sub (t.group N false false) res.captured)) (some t.dns) .tcp)) res.denied) := by
    intro hf
    simp only [r, istioLayerXgress, hres, hf, hE, Bool.not_true, Bool.false_eq_true, if_false]
    split <;> rfl
  -- the default part
  have hdefault : ∀ q : C, q = (if dir then
          (if N.Q.truthy (N.Q.sub t.dns res.captured) then
            N.K.or (N.K.sub (N.rect (some (t.group N true false)) (some (N.Q.sub (t.group N false false) res.captured)) .any) res.denied)
             (N.K.sub (N.rect (some (t.group N true false)) (some (N.Q.sub t.dns res.captured)) .tcp) res.denied)
          else (N.K.sub (N.rect (some (t.group N true false)) (some (N.Q.sub (t.group N false false) res.captured)) .any) res.denied))
        else
          N.K.sub (N.K.or (N.rect (some (N.Q.sub (t.group N false false) res.captured)) (some (t.group N true false)) .any)
            (N.rect (some (N.Q.sub (t.group N false false) res.captured)) (some t.dns) .tcp)) res.denied) →
      Ok q ∧ ∀ p, N.K.mem p q = true ↔
        (istioOpen N pols dir (endpoint N dir p) ∧ layerVerdict N pols dir p ≠ some .deny ∧ istioDefault N t dir p) := by
    rintro q rfl
    have hdo := L.strong_ok hR.sd
    cases dir with
    | true =>
      simp only [if_true]
      have r1 := L.rect_strong (some (t.group N true false)) (some (N.Q.sub (t.group N false false) res.captured)) .any
      have r2 := L.rect_strong (some (t.group N true false)) (some (N.Q.sub t.dns res.captured)) .tcp
      have m1 : ∀ p, N.K.mem p (N.K.sub (N.rect (some (t.group N true false)) (some (N.Q.sub (t.group N false false) res.captured)) .any) res.denied) = true ↔
          t.nonDns N (N.src p) ∧ (t.workload N (N.dst p) ∧ istioOpen N pols true (N.dst p)) ∧ layerVerdict N pols true p ≠ some .deny := by
        intro p
        rw [mem_sub_iff L r1 hdo, mem_rect_some L, Peers.mem_group_tf, hncm, hden]
        simp only [ProtoSel.sel, and_true]
        tauto
      have m2 : ∀ p, N.K.mem p (N.K.sub (N.rect (some (t.group N true false)) (some (N.Q.sub t.dns res.captured)) .tcp) res.denied) = true ↔
          t.nonDns N (N.src p) ∧ (N.Q.mem (N.dst p) t.dns = true ∧ istioOpen N pols true (N.dst p)) ∧ N.isTcp p = true ∧ layerVerdict N pols true p ≠ some .deny := by
        intro p
        rw [mem_sub_iff L r2 hdo, mem_rect_some L, Peers.mem_group_tf, hncd, hden]
        simp only [ProtoSel.sel]
        tauto
      split
      · refine ⟨L.or_ok (L.sub_ok r1 hdo) (L.sub_ok r2 hdo), fun p => ?_⟩
        rw [mem_or_iff L (L.sub_ok r1 hdo) (L.sub_ok r2 hdo), m1, m2]
        simp only [istioDefault, endpoint, if_true]
        tauto
      · rename_i hn
        refine ⟨L.sub_ok r1 hdo, fun p => ?_⟩
        rw [m1]
        simp only [istioDefault, endpoint, if_true]
        have : ¬ (N.Q.mem (N.dst p) t.dns = true ∧ istioOpen N pols true (N.dst p)) := fun h =>
          hn ((N.Q.truthy_iff _).2 ⟨_, (hncd _).2 h⟩)
        tauto
    | false =>
      simp only [Bool.false_eq_true, if_false]
      have r1 := L.rect_strong (some (N.Q.sub (t.group N false false) res.captured)) (some (t.group N true false)) .any
      have r2 := L.strong_ok (L.rect_strong (some (N.Q.sub (t.group N false false) res.captured)) (some t.dns) .tcp)
      refine ⟨L.sub_ok (L.or_strong r1 r2) hdo, fun p => ?_⟩
      rw [mem_sub_iff L (L.or_strong r1 r2) hdo, mem_or_iff L (L.strong_ok r1) r2, mem_rect_some L, mem_rect_some L, hncm, hden,
        Peers.mem_group_tf]
      simp only [istioDefault, endpoint, Bool.false_eq_true, if_false, ProtoSel.sel, and_true]
      tauto
  generalize hq : (if dir then
          (if N.Q.truthy (N.Q.sub t.dns res.captured) then
            N.K.or (N.K.sub (N.rect (some (t.group N true false)) (some (N.Q.sub (t.group N false false) res.captured)) .any) res.denied)
             (N.K.sub (N.rect (some (t.group N true false)) (some (N.Q.sub t.dns res.captured)) .tcp) res.denied)
          else (N.K.sub (N.rect (some (t.group N true false)) (some (N.Q.sub (t.group N false false) res.captured)) .any) res.denied))
        else
          N.K.sub (N.K.or (N.rect (some (N.Q.sub (t.group N false false) res.captured)) (some (t.group N true false)) .any)
            (N.rect (some (N.Q.sub (t.group N false false) res.captured)) (some t.dns) .tcp)) res.denied) = q at hallf
  obtain ⟨hqo, hqm⟩ := hdefault q hq.symm
  have hcd : r.captured = res.captured ∧ r.allowed = res.allowed ∧ r.denied = res.denied := by
    simp only [r, istioLayerXgress, hres]
    split
    · exact ⟨rfl, rfl, rfl⟩
    · split <;> exact ⟨rfl, rfl, rfl⟩
  refine ⟨?_, ?_, ?_, ?_, ?_, ?_⟩
  · intro e; rw [hcd.1]; exact hcap e
  · rw [hcd.2.1]; exact ⟨hR.sa, fun p => by rw [hR.ma]; simp⟩
  · rw [hcd.2.2]; exact ⟨hR.sd, hden⟩
  · intro hf
    rw [hallf hf]
    split
    · rename_i hn
      refine ⟨hall1s, fun p ho => ?_⟩
      rw [hall1]
      unfold istioAllows
      have hno : ∀ e, ¬ (t.workload N e ∧ istioOpen N pols dir e) := by
        intro e he
        have := (N.Q.truthy_iff _).2 ⟨e, (hncm e).2 he⟩
        rw [this] at hn; simp at hn
      constructor
      · tauto
      · rintro (h | h | ⟨h1, h2, h3⟩)
        · exact Or.inl h
        · exact Or.inr h
        · exfalso
          unfold istioDefault at h3
          cases dir with
          | true =>
            simp only [if_true, endpoint] at h1 h3
            rcases h3.2 with h | h
            · exact hno _ ⟨h, h1⟩
            · rcases ho rfl with ⟨e, he⟩ | hd
              · exact hno e he
              · rw [hd] at h; exact absurd h.1 (by simp)
          | false =>
            simp only [Bool.false_eq_true, if_false, endpoint] at h1 h3
            exact hno _ ⟨h3.1, h1⟩
    · refine ⟨L.or_strong hall1s hqo, fun p _ => ?_⟩
      rw [mem_or_iff L (L.strong_ok hall1s) hqo, hall1, hqm]
      unfold istioAllows
      tauto
  · intro hf p
    rw [hallf hf]
    unfold istioAllows
    split
    · rw [hall1]; tauto
    · rw [mem_or_iff L (L.strong_ok hall1s) hqo, hall1, hqm]; tauto
  · intro hf
    simp only [r, istioLayerXgress, hres, hf, hE, Bool.not_false, if_true]

/-- `DnsOk`: the Istio default for DNS destinations is not forgotten. -/
theorem layerXgress_spec (L : N.Lawful Ok Strong) (n : LayerName) (pols : List (Policy C S)) (hl : ∀ pol ∈ pols, pol.Legal N Strong)
    (hx : SubExact Ok Strong pols) (dir : Bool) (t : Peers S) (f : ConnFilter) :
    let r := layerXgress N n pols dir t f
    (∀ e, N.Q.mem e r.captured = true ↔ layerCaptures N n pols dir e) ∧
    (Strong r.allowed ∧ ∀ p, N.K.mem p r.allowed = true ↔ explicitAllows N n pols t dir p) ∧
    (Strong r.denied ∧ ∀ p, N.K.mem p r.denied = true ↔ layerVerdict N pols dir p = some .deny) ∧
    (f.calcAllAllowed = true → Strong r.allAllowed ∧ ∀ p, (dir = true → DnsOk N n pols t p) →
      (N.K.mem p r.allAllowed = true ↔ layerDirAllows N n pols t dir p)) ∧
    (f.calcAllAllowed = true → ∀ p, N.K.mem p r.allAllowed = true → layerDirAllows N n pols t dir p) := by
  cases n
  case k8sCalico | k8sGateway =>
    have h := calicoLayerXgress_spec L pols hl hx dir t f
    exact ⟨h.1, h.2.1, h.2.2.1, fun hf => ⟨(h.2.2.2.1 hf).1, fun p _ => (h.2.2.2.1 hf).2 p⟩, fun hf p => ((h.2.2.2.1 hf).2 p).1⟩
  case istio | istioGateway =>
    have h := istioLayerXgress_spec L pols hl hx dir t f
    exact ⟨h.1, h.2.1, h.2.2.1, h.2.2.2.1, h.2.2.2.2.1⟩

theorem explicit_allows {n : LayerName} {pols : List (Policy C S)} {t : Peers S} {dir : Bool} {p : P}
    (h : explicitAllows N n pols t dir p) : layerDirAllows N n pols t dir p := by
  cases n
  case k8sCalico | k8sGateway =>
    rcases h with h | ⟨h1, h2⟩
    · exact Or.inl h
    · exact Or.inr ⟨Or.inl h1, h2⟩
  case istio | istioGateway => exact Or.inl h

/-- What a layer computes. -/
theorem layerConns_spec (L : N.Lawful Ok Strong) (n : LayerName) (pols : List (Policy C S)) (hl : ∀ pol ∈ pols, pol.Legal N Strong)
    (hx : SubExact Ok Strong pols) (t : Peers S) (f : ConnFilter) :
    let r := layerConns N n pols t f
    (∀ e, N.Q.mem e r.captured = true ↔ layerCaptures N n pols true e ∨ layerCaptures N n pols false e) ∧
    (f.calcAllAllowed = true → Ok r.allAllowed ∧
      (∀ p, N.K.mem p r.allAllowed = true → layerAllows N n pols t p) ∧
      (∀ p, DnsOk N n pols t p → layerAllows N n pols t p → N.K.mem p r.allAllowed = true)) ∧
    (f.calcDenied = true → Ok r.denied ∧
      ∀ p, N.K.mem p r.denied = true ↔ layerVerdict N pols true p = some .deny ∨ layerVerdict N pols false p = some .deny) ∧
    (f.calcAllowed = true → f.calcAllAllowed = true → Ok r.allowed ∧
      (∀ p, N.K.mem p r.allowed = true → layerAllows N n pols t p ∧ (explicitAllows N n pols t true p ∨ explicitAllows N n pols t false p)) ∧
      (∀ p, DnsOk N n pols t p → layerAllows N n pols t p ∧ (explicitAllows N n pols t true p ∨ explicitAllows N n pols t false p) →
        N.K.mem p r.allowed = true)) := by
  intro r
  obtain ⟨ci, ai, di, alli, si⟩ := layerXgress_spec L n pols hl hx true t f
  obtain ⟨ce, ae, de, alle, se⟩ := layerXgress_spec L n pols hl hx false t f
  have r1 := L.strong_ok (L.rect_strong (some (t.group N false false)) (some t.ips) .any)
  have r2 := L.strong_ok (L.rect_strong (some t.ips) (some (t.group N false false)) .any)
  have m1 : ∀ p, N.K.mem p (N.rect (some (t.group N false false)) (some t.ips) .any) = true ↔
      t.workload N (N.src p) ∧ N.Q.mem (N.dst p) t.ips = true := by
    intro p; rw [mem_rect_some L, Peers.mem_group_ff]; simp [ProtoSel.sel]
  have m2 : ∀ p, N.K.mem p (N.rect (some t.ips) (some (t.group N false false)) .any) = true ↔
      N.Q.mem (N.src p) t.ips = true ∧ t.workload N (N.dst p) := by
    intro p; rw [mem_rect_some L, Peers.mem_group_ff]; simp [ProtoSel.sel]
  refine ⟨?_, ?_, ?_, ?_⟩
  · intro e
    change N.Q.mem e (N.Q.or _ _) = true ↔ _
    rw [N.Q.mem_or, Bool.or_eq_true, ci, ce]
  · intro hf
    have hr : r.allAllowed = N.K.and (N.K.or (layerXgress N n pols true t f).allAllowed (N.rect (some (t.group N false false)) (some t.ips) .any))
        (N.K.or (layerXgress N n pols false t f).allAllowed (N.rect (some t.ips) (some (t.group N false false)) .any)) := by
      simp only [r, layerConns, hf, if_true]
    have oi := L.strong_ok (alli hf).1
    have oe := L.strong_ok (alle hf).1
    have hm : ∀ p, N.K.mem p r.allAllowed = true ↔
      (N.K.mem p (layerXgress N n pols true t f).allAllowed = true ∨ (t.workload N (N.src p) ∧ N.Q.mem (N.dst p) t.ips = true)) ∧
      (N.K.mem p (layerXgress N n pols false t f).allAllowed = true ∨ (N.Q.mem (N.src p) t.ips = true ∧ t.workload N (N.dst p))) := by
      intro p
      rw [hr, mem_and_iff L (L.or_ok oi r1) (L.or_ok oe r2), mem_or_iff L oi r1, mem_or_iff L oe r2, m1, m2]
    refine ⟨by rw [hr]; exact L.and_ok (L.or_ok oi r1) (L.or_ok oe r2), fun p h => ?_, fun p hd h => ?_⟩
    · exact ⟨((hm p).1 h).1.imp (si hf p) id, ((hm p).1 h).2.imp (se hf p) id⟩
    · exact (hm p).2 ⟨h.1.imp (((alli hf).2 p (fun _ => hd)).2) id, h.2.imp (((alle hf).2 p (fun h => absurd h (by simp))).2) id⟩
  · intro hf
    have hr : r.denied = N.K.or (layerXgress N n pols true t f).denied (layerXgress N n pols false t f).denied := by
      simp only [r, layerConns, hf, if_true]
    rw [hr]
    refine ⟨L.or_ok (L.strong_ok di.1) (L.strong_ok de.1), fun p => ?_⟩
    rw [mem_or_iff L (L.strong_ok di.1) (L.strong_ok de.1), di.2, de.2]
  · intro ha hf
    have hr : r.allowed = N.K.or
        (N.K.and (layerXgress N n pols true t f).allowed
          (N.K.or (layerXgress N n pols false t f).allAllowed (N.rect (some t.ips) (some (t.group N false false)) .any)))
        (N.K.and (layerXgress N n pols false t f).allowed
          (N.K.or (layerXgress N n pols true t f).allAllowed (N.rect (some (t.group N false false)) (some t.ips) .any))) := by
      simp only [r, layerConns, hf, ha, if_true]
    have oi := L.strong_ok (alli hf).1
    have oe := L.strong_ok (alle hf).1
    have o1 := L.and_ok (L.strong_ok ai.1) (L.or_ok oe r2)
    have o2 := L.and_ok (L.strong_ok ae.1) (L.or_ok oi r1)
    have hm : ∀ p, N.K.mem p r.allowed = true ↔
        (explicitAllows N n pols t true p ∧
          (N.K.mem p (layerXgress N n pols false t f).allAllowed = true ∨ (N.Q.mem (N.src p) t.ips = true ∧ t.workload N (N.dst p)))) ∨
        (explicitAllows N n pols t false p ∧
          (N.K.mem p (layerXgress N n pols true t f).allAllowed = true ∨ (t.workload N (N.src p) ∧ N.Q.mem (N.dst p) t.ips = true))) := by
      intro p
      rw [hr, mem_or_iff L o1 o2, mem_and_iff L (L.strong_ok ai.1) (L.or_ok oe r2), mem_and_iff L (L.strong_ok ae.1) (L.or_ok oi r1),
        mem_or_iff L oi r1, mem_or_iff L oe r2, m1, m2, ai.2, ae.2]
    refine ⟨by rw [hr]; exact L.or_ok o1 o2, fun p h => ?_, fun p hd h => ?_⟩
    · rcases (hm p).1 h with ⟨he, h2⟩ | ⟨he, h2⟩
      · exact ⟨⟨Or.inl (explicit_allows he), h2.imp (se hf p) id⟩, Or.inl he⟩
      · exact ⟨⟨h2.imp (si hf p) id, Or.inl (explicit_allows he)⟩, Or.inr he⟩
    · obtain ⟨⟨h1, h2⟩, he⟩ := h
      rw [hm]
      rcases he with he | he
      · exact Or.inl ⟨he, h2.imp (((alle hf).2 p (fun h => absurd h (by simp))).2) id⟩
      · exact Or.inr ⟨he, h1.imp (((alli hf).2 p (fun _ => hd)).2) id⟩

/-! ### Configurations -/

/-- Connections of host endpoints, when there are none. -/
theorem connHep_falsy (L : N.Lawful Ok Strong) {t : Peers S} (h : N.Q.truthy t.heps = false) :
    N.K.truthy (N.K.or (N.rect (some t.heps) none .any) (N.rect none (some t.heps) .any)) = false := by
  have o1 := L.strong_ok (L.rect_strong (some t.heps) none .any)
  have o2 := L.strong_ok (L.rect_strong none (some t.heps) .any)
  have hn : ∀ e, N.Q.mem e t.heps = false := by
    intro e
    rw [← Bool.not_eq_true]
    intro he
    have := (N.Q.truthy_iff _).2 ⟨e, he⟩
    rw [h] at this; exact absurd this (by simp)
  rw [falsy_iff L (L.or_ok o1 o2)]
  intro p
  rw [L.mem_or o1 o2, L.mem_rect, L.mem_rect]
  simp [hn]

theorem subByFilter_falsy (L : N.Lawful Ok Strong) (r : PolicyConns C S) {c : C} (h : N.K.truthy c = false) (f : ConnFilter) :
    r.subByFilter N c f = r := by
  unfold PolicyConns.subByFilter
  simp [L.sub_falsy h]

/-- The filter leaves the all-allowed field alone, or there are no host endpoints. -/
def Tame (N : Net C P E S) (t : Peers S) (f : ConnFilter) : Prop := f.calcAllowed = false ∨ N.Q.truthy t.heps = false

/-- The host-endpoint corrections do not touch `all_allowed_conns`. -/
theorem tame_layer (L : N.Lawful Ok Strong) {t : Peers S} {f : ConnFilter} (h : Tame N t f) (r : PolicyConns C S) :
    (r.subByFilter N (N.K.or (N.rect (some t.heps) none .any) (N.rect none (some t.heps) .any)) f.replaceAllAllowedFalse).allAllowed
      = r.allAllowed ∧
    (r.subByFilter N (N.K.or (N.rect (some t.heps) none .any) (N.rect none (some t.heps) .any)) f.replaceAllAllowedFalse).captured
      = r.captured := by
  rcases h with h | h
  · simp [PolicyConns.subByFilter, ConnFilter.replaceAllAllowedFalse, ConnFilter.make, h]
  · rw [subByFilter_falsy L r (connHep_falsy L h)]; exact ⟨rfl, rfl⟩

theorem configStep_all (L : N.Lawful Ok Strong) {t : Peers S} {f : ConnFilter} (h : Tame N t f) (hf : f.calcAllAllowed = true)
    (res : PolicyConns C S) (l : LayerName × List (Policy C S)) :
    (configStep N t f (N.K.or (N.rect (some t.heps) none .any) (N.rect none (some t.heps) .any)) res l).allAllowed =
      N.K.and res.allAllowed (layerConns N l.1 l.2 t f).allAllowed := by
  unfold configStep
  simp only [hf, if_true]
  split
  · rw [(tame_layer L h _).1]
  · rfl

theorem configFold_all (L : N.Lawful Ok Strong) {t : Peers S} {f : ConnFilter} (h : Tame N t f) (hf : f.calcAllAllowed = true)
    (layers : Layers C S) : ∀ (res : PolicyConns C S), LegalLayers N Ok Strong layers → Ok res.allAllowed →
    let r := layers.foldl (configStep N t f (N.K.or (N.rect (some t.heps) none .any) (N.rect none (some t.heps) .any))) res
    Ok r.allAllowed ∧
    (∀ p, N.K.mem p r.allAllowed = true → N.K.mem p res.allAllowed = true ∧ ∀ l ∈ layers, layerAllows N l.1 l.2 t p) ∧
    (∀ p, (∀ l ∈ layers, DnsOk N l.1 l.2 t p) → N.K.mem p res.allAllowed = true → (∀ l ∈ layers, layerAllows N l.1 l.2 t p) →
      N.K.mem p r.allAllowed = true) := by
  induction layers with
  | nil => intro res _ ho; exact ⟨ho, fun p h => ⟨h, by simp⟩, fun p _ h _ => h⟩
  | cons l layers ih =>
    intro res hl ho
    have hs := layerConns_spec L l.1 l.2 (hl.legal l (by simp)) (hl.exact l (by simp)) t f
    obtain ⟨lo, l1, l2⟩ := hs.2.1 hf
    have he := configStep_all L h hf res l
    have ho' : Ok (configStep N t f (N.K.or (N.rect (some t.heps) none .any) (N.rect none (some t.heps) .any)) res l).allAllowed := by
      rw [he]; exact L.and_ok ho lo
    obtain ⟨i1, i2, i3⟩ := ih _ ⟨fun l' h' => hl.legal l' (by simp [h']), fun l' h' => hl.exact l' (by simp [h'])⟩ ho'
    refine ⟨i1, fun p hp => ?_, fun p hd hp hall => ?_⟩
    · have := i2 p hp
      rw [he, mem_and_iff L ho lo] at this
      refine ⟨this.1.1, fun l' h' => ?_⟩
      rcases List.mem_cons.1 h' with rfl | h'
      · exact l1 p this.1.2
      · exact this.2 l' h'
    · apply i3 p (fun l' h' => hd l' (by simp [h'])) _ (fun l' h' => hall l' (by simp [h']))
      rw [he, mem_and_iff L ho lo]
      exact ⟨hp, l2 p (hd l (by simp)) (hall l (by simp))⟩

theorem calico_nil_known {t : Peers S} {p : P} (h : layerAllows N .k8sCalico [] t p) : t.known N (N.src p) ∧ t.known N (N.dst p) := by
  have hk : ∀ e, t.hasDefault N e → t.known N e := by
    intro e h
    exact h.elim (fun h => Or.inl (Or.inl (Or.inl h))) Or.inr
  rcases h.1 with h | ⟨h1, h2⟩
  · rcases h with h | ⟨_, h2, h3⟩
    · simp [layerVerdict] at h
    · exact ⟨h3, hk _ h2⟩
  · exact ⟨Or.inl (Or.inl h1), Or.inl (Or.inr h2)⟩

/-- `all_allowed_conns` of a configuration. -/
theorem configConns_all (L : N.Lawful Ok Strong) {t : Peers S} {f : ConnFilter} (h : Tame N t f) (hf : f.calcAllAllowed = true)
    (layers : Layers C S) (hl : LegalLayers N Ok Strong layers) :
    let r := configConns N t layers f
    Ok r.allAllowed ∧
    (∀ p, N.K.mem p r.allAllowed = true → configAllows N t layers p) ∧
    (∀ p, (∀ l ∈ layers, DnsOk N l.1 l.2 t p) → configAllows N t layers p → N.K.mem p r.allAllowed = true) := by
  intro r
  by_cases hh : (N.Q.truthy t.heps && !(layers.any (fun l => l.1 = .k8sCalico))) = true
  · -- host endpoints without a Kubernetes/Calico layer
    have hca : f.calcAllowed = false := by
      rcases h with h | h
      · exact h
      · rw [h] at hh; simp at hh
    have hs := layerConns_spec L .k8sCalico ([] : List (Policy C S)) (by simp) (Or.inr (by intro p hp; simp at hp)) t f
    obtain ⟨lo, l1, l2⟩ := hs.2.1 hf
    have hr : r.allAllowed = (layers.foldl (configStep N t f (N.K.or (N.rect (some t.heps) none .any) (N.rect none (some t.heps) .any)))
        ((layerConns N .k8sCalico [] t f).andByFilter N (N.K.or (N.rect (some t.heps) none .any) (N.rect none (some t.heps) .any)) f.replaceAllAllowedFalse)).allAllowed := by
      simp only [r, configConns, hh, if_true]
    have hi : ((layerConns N .k8sCalico ([] : List (Policy C S)) t f).andByFilter N (N.K.or (N.rect (some t.heps) none .any) (N.rect none (some t.heps) .any)) f.replaceAllAllowedFalse).allAllowed
        = (layerConns N .k8sCalico [] t f).allAllowed := by
      simp [PolicyConns.andByFilter, ConnFilter.replaceAllAllowedFalse, ConnFilter.make, hca]
    obtain ⟨f1, f2, f3⟩ := configFold_all L h hf layers _ hl (by rw [hi]; exact lo)
    rw [hr]
    have heff : effectiveLayers N t layers = (.k8sCalico, []) :: layers := by
      unfold effectiveLayers; rw [if_pos hh]
    unfold configAllows
    rw [heff]
    refine ⟨f1, fun p hp => ?_, fun p hd hp => ?_⟩
    · have := f2 p hp
      rw [hi] at this
      have hc := l1 p this.1
      refine ⟨(calico_nil_known hc).1, (calico_nil_known hc).2, fun l hl => ?_⟩
      rcases List.mem_cons.1 hl with rfl | hl
      · exact hc
      · exact this.2 l hl
    · apply f3 p hd _ (fun l hl => hp.2.2 l (by simp [hl]))
      rw [hi]
      exact l2 p trivial (hp.2.2 (.k8sCalico, []) (by simp))
  · have hr : r.allAllowed = (layers.foldl (configStep N t f (N.K.or (N.rect (some t.heps) none .any) (N.rect none (some t.heps) .any)))
        { emptyConns N with allAllowed := N.rect (some (t.group N true true)) (some (t.group N true true)) .any }).allAllowed := by
      simp only [r, configConns, hh, hf, if_true, Bool.false_eq_true, if_false]
    obtain ⟨f1, f2, f3⟩ := configFold_all L h hf layers
      { emptyConns N with allAllowed := N.rect (some (t.group N true true)) (some (t.group N true true)) .any } hl (L.strong_ok (L.rect_strong _ _ _))
    rw [hr]
    have heff : effectiveLayers N t layers = layers := by
      unfold effectiveLayers; rw [if_neg hh]
    unfold configAllows
    rw [heff]
    refine ⟨f1, fun p hp => ?_, fun p hd hp => ?_⟩
    · have := f2 p hp
      rw [mem_rect_some L, Peers.mem_group_tt, Peers.mem_group_tt] at this
      exact ⟨this.1.1, this.1.2.1, this.2⟩
    · apply f3 p hd _ hp.2.2
      rw [mem_rect_some L, Peers.mem_group_tt, Peers.mem_group_tt]
      exact ⟨hp.1, hp.2.1, rfl⟩

end
end Verif
