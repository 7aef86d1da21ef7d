import Verif.QueryProofs
/-!
The shortcut of the queries on two configurations: what equality of the policies tells about the allowed
connections.
-/
namespace Verif

section
variable {C P E S : Type} {N : NetQ C P E S} {Ok Strong Wide : C → Prop}

theorem peersEq_iff (a b : S) : peersEq N a b = true ↔ ∀ e, N.Q.mem e a = N.Q.mem e b := by
  unfold peersEq
  rw [Bool.and_eq_true, Bool.not_eq_true', Bool.not_eq_true', ← Bool.not_eq_true, ← Bool.not_eq_true, N.Q.truthy_iff, N.Q.truthy_iff]
  simp only [N.Q.mem_sub, Bool.and_eq_true, Bool.not_eq_true', not_exists, not_and, Bool.not_eq_false]
  constructor
  · rintro ⟨h1, h2⟩ e
    rw [Bool.eq_iff_iff]
    exact ⟨h1 e, h2 e⟩
  · intro h
    exact ⟨fun e he => by rw [← h e]; exact he, fun e he => by rw [h e]; exact he⟩

/-- What a policy says about a connection in a direction, if it captures the endpoint. -/
def Policy.speaks (N : NetQ C P E S) (pol : Policy C S) (dir : Bool) (p : P) : Option RuleAction :=
  if pol.captures N.toNet dir (endpoint N.toNet dir p) then pol.ruleVerdict N.toNet dir p else none

theorem layerVerdict_speaks (pols : List (Policy C S)) (dir : Bool) (p : P) :
    layerVerdict N.toNet pols dir p = pols.findSome? (fun pol => pol.speaks N dir p) := rfl

/-- Policies with the same meaning. -/
structure PolSame (N : NetQ C P E S) (p q : Policy C S) : Prop where
  kind : p.kind = q.kind
  order : p.getOrder = q.getOrder
  action : p.kind = .istioAuthz ∨ p.kind = .gateway → p.action = q.action
  captures : ∀ dir e, p.captures N.toNet dir e = q.captures N.toNet dir e
  speaks : ∀ dir x, p.speaks N dir x = q.speaks N dir x

theorem policyEq_same (L : N.Lawful Ok Strong Wide) {p q : Policy C S} (hp : p.Legal N.toNet Strong) (hq : q.Legal N.toNet Strong)
    (xp : SubExact Ok Strong [p]) (xq : SubExact Ok Strong [q]) (hk : q.kind = p.kind) (h : policyEq N p q = true) : PolSame N p q := by
  unfold policyEq at h
  simp only [Bool.and_eq_true, decide_eq_true_eq] at h
  obtain ⟨⟨⟨⟨⟨⟨⟨⟨⟨_, _⟩, he⟩, hi⟩, hs⟩, _⟩, _⟩, h1⟩, h2⟩, h3⟩ := h
  have hg : ∀ dir, p.governs dir = q.governs dir := by
    intro dir; unfold Policy.governs; rw [hk, he, hi]
  have hcap : ∀ dir e, p.captures N.toNet dir e = q.captures N.toNet dir e := by
    intro dir e; unfold Policy.captures; rw [hg, (peersEq_iff _ _).1 hs e]
  have hsync : ∀ dir, syncedEq N p q dir = true := by intro dir; cases dir <;> assumption
  refine ⟨hk.symm, ?_, ?_, hcap, ?_⟩
  · unfold Policy.getOrder
    cases hkk : p.kind <;> rw [hk, hkk] <;> rw [hkk] at h3 <;> simp_all
  · rintro (hkk | hkk) <;> rw [hkk] at h3 <;> simpa using h3
  · intro dir x
    unfold Policy.speaks
    rw [← hcap]
    by_cases hc : p.captures N.toNet dir (endpoint N.toNet dir x) = true
    · rw [if_pos hc, if_pos hc]
      have hgp : p.governs dir = true := by
        unfold Policy.captures at hc; rw [Bool.and_eq_true] at hc; exact hc.1
      have r1 := policyConns_rel L.net p hp xp dir hgp
      have r2 := policyConns_rel L.net q hq xq dir (by rw [← hg]; exact hgp)
      have hsy := hsync dir
      unfold syncedEq at hsy
      simp only [Bool.and_eq_true] at hsy
      have ea := L.net.eq_sound (L.net.strong_ok r1.sa) (L.net.strong_ok r2.sa) hsy.1.1 x
      have ed := L.net.eq_sound (L.net.strong_ok r1.sd) (L.net.strong_ok r2.sd) hsy.1.2 x
      have ep := L.net.eq_sound (L.net.strong_ok r1.sp) (L.net.strong_ok r2.sp) hsy.2 x
      rw [r1.ma, r2.ma] at ea
      rw [r1.md, r2.md] at ed
      rw [r1.mp, r2.mp] at ep
      have n1 := r1.nl x
      have n2 := r2.nl x
      generalize p.ruleVerdict N.toNet dir x = v at *
      generalize q.ruleVerdict N.toNet dir x = w at *
      cases v <;> cases w <;> simp_all
      · rename_i a; cases a <;> simp_all
      · rename_i a; cases a <;> simp_all
      · rename_i a b; cases a <;> cases b <;> simp_all
    · rw [if_neg hc, if_neg hc]

/-- Two lists of policies with the same meaning as a layer. -/
structure LayerSame (N : NetQ C P E S) (a b : List (Policy C S)) : Prop where
  verdict : ∀ dir p, layerVerdict N.toNet a dir p = layerVerdict N.toNet b dir p
  uncap : ∀ dir e, (∀ pol ∈ a, pol.captures N.toNet dir e = false) ↔ (∀ pol ∈ b, pol.captures N.toNet dir e = false)
  isOpen : ∀ dir e, istioOpen N.toNet a dir e ↔ istioOpen N.toNet b dir e

/-- Two collections of peers with the same members. -/
structure PeersSame (N : NetQ C P E S) (t u : Peers S) : Prop where
  pods : ∀ e, N.Q.mem e t.pods = N.Q.mem e u.pods
  heps : ∀ e, N.Q.mem e t.heps = N.Q.mem e u.heps
  dns : ∀ e, N.Q.mem e t.dns = N.Q.mem e u.dns
  ips : ∀ e, N.Q.mem e t.ips = N.Q.mem e u.ips

theorem PeersSame.refl (t : Peers S) : PeersSame N t t := ⟨fun _ => rfl, fun _ => rfl, fun _ => rfl, fun _ => rfl⟩

theorem PeersSame.symm {t u : Peers S} (h : PeersSame N t u) : PeersSame N u t :=
  ⟨fun e => (h.pods e).symm, fun e => (h.heps e).symm, fun e => (h.dns e).symm, fun e => (h.ips e).symm⟩

theorem PeersSame.workload {t u : Peers S} (h : PeersSame N t u) (e : E) : t.workload N.toNet e ↔ u.workload N.toNet e := by
  unfold Peers.workload; rw [h.pods, h.heps]
theorem PeersSame.nonDns {t u : Peers S} (h : PeersSame N t u) (e : E) : t.nonDns N.toNet e ↔ u.nonDns N.toNet e := by
  unfold Peers.nonDns; rw [h.workload, h.ips]
theorem PeersSame.known {t u : Peers S} (h : PeersSame N t u) (e : E) : t.known N.toNet e ↔ u.known N.toNet e := by
  unfold Peers.known; rw [h.nonDns, h.dns]
theorem PeersSame.hasDefault {t u : Peers S} (h : PeersSame N t u) (e : E) : t.hasDefault N.toNet e ↔ u.hasDefault N.toNet e := by
  unfold Peers.hasDefault; rw [h.pods, h.dns]
theorem PeersSame.relevant {t u : Peers S} (h : PeersSame N t u) (excl : Bool) (p : P) : Relevant N t excl p ↔ Relevant N u excl p := by
  unfold Relevant; rw [h.dns, h.dns]

theorem layerAllows_same {a b : List (Policy C S)} {t u : Peers S} (h : LayerSame N a b) (ht : PeersSame N t u) (n : LayerName) (p : P) :
    layerAllows N.toNet n a t p ↔ layerAllows N.toNet n b u p := by
  have hd : ∀ dir, layerDirAllows N.toNet n a t dir p ↔ layerDirAllows N.toNet n b u dir p := by
    intro dir
    cases n
    case k8sCalico | k8sGateway =>
      simp only [layerDirAllows, calicoAllows]
      rw [h.verdict, h.uncap, ht.hasDefault, ht.known]
    case istio | istioGateway =>
      simp only [layerDirAllows, istioAllows, istioDefault]
      rw [h.verdict, h.isOpen, ht.nonDns, ht.nonDns, ht.workload, ht.workload, ht.dns]
  unfold layerAllows
  rw [hd, hd, ht.workload, ht.workload, ht.ips, ht.ips]

theorem explicit_same {a b : List (Policy C S)} {t u : Peers S} (h : LayerSame N a b) (ht : PeersSame N t u) (n : LayerName) (dir : Bool) (p : P) :
    explicitAllows N.toNet n a t dir p ↔ explicitAllows N.toNet n b u dir p := by
  cases n
  case k8sCalico | k8sGateway =>
    simp only [explicitAllows]
    rw [h.verdict, ht.hasDefault, ht.known]
  case istio | istioGateway =>
    simp only [explicitAllows]
    rw [h.verdict]

/-- Configurations with layers of the same meaning, over the same peers, allow the same. -/
theorem allowsIn_same {c1 c2 : Config C S} (G1 : c1.Good N Ok Strong) (G2 : c2.Good N Ok Strong) (ht : PeersSame N c1.peers c2.peers)
    (hs : ∀ n, LayerSame N (layerList c1.store.layers n) (layerList c2.store.layers n))
    (hp : ∀ n, (∃ pol ∈ c1.store.policies, layerOf pol.kind = n) ↔ (∃ pol ∈ c2.store.policies, layerOf pol.kind = n))
    (layer : Option LayerName) (p : P) : c1.allowsIn N layer p ↔ c2.allowsIn N layer p := by
  cases layer with
  | some n => exact layerAllows_same (hs n) ht n p
  | none =>
    change configAllows N.toNet c1.peers c1.store.layers p ↔ configAllows N.toNet c2.peers c2.store.layers p
    unfold configAllows
    rw [ht.known, ht.known, G1.B.effective c1.peers (fun n a => layerAllows N.toNet n a c1.peers p),
      G2.B.effective c2.peers (fun n a => layerAllows N.toNet n a c2.peers p)]
    have hpres : ∀ n, Present N.toNet c1.store.policies c1.peers n ↔ Present N.toNet c2.store.policies c2.peers n := by
      intro n
      unfold Present
      have he : c1.store.policies = [] ↔ c2.store.policies = [] := by
        constructor
        · intro h
          by_contra hne
          obtain ⟨pol, hpol⟩ := List.exists_mem_of_ne_nil _ hne
          obtain ⟨q, hq, _⟩ := (hp _).2 ⟨pol, hpol, rfl⟩
          rw [h] at hq; simp at hq
        · intro h
          by_contra hne
          obtain ⟨pol, hpol⟩ := List.exists_mem_of_ne_nil _ hne
          obtain ⟨q, hq, _⟩ := (hp _).1 ⟨pol, hpol, rfl⟩
          rw [h] at hq; simp at hq
      rw [hp n, he]
      simp only [ht.heps]
    simp only [hpres, layerAllows_same (hs _) ht]

theorem comparable_same {c1 c2 : Config C S} (W1 : World N c1.peers) (W2 : World N c2.peers) (h : comparable N c1 c2 = true) :
    PeersSame N c1.peers c2.peers := by
  unfold comparable at h
  simp only [Bool.and_eq_true, peersEq_iff, decide_eq_true_eq] at h
  refine ⟨h.1.1.1, h.1.1.2, h.1.2, fun e => ?_⟩
  rw [Bool.eq_iff_iff, W1.ips, W2.ips]

/-! ### Equal policies -/

/-- Name and type of a policy, its key in the configuration. -/
def Policy.key (p : Policy C S) : String × PolicyKind := (p.name, p.kind)

theorem keys_nodup {pols : List (Policy C S)} {st : PolicyStore C S} (h : PolicyStore.build pols = some st) : (pols.map Policy.key).Nodup := by
  have := (build_some_iff pols).1 ⟨st, h⟩
  unfold List.Nodup
  rw [List.pairwise_map]
  refine this.imp ?_
  intro a b hab he
  simp only [Policy.key, Prod.mk.injEq] at he
  exact hab he

theorem policiesEq_match (L : N.Lawful Ok Strong Wide) {c1 c2 : Config C S} (G1 : c1.Good N Ok Strong) (G2 : c2.Good N Ok Strong)
    (h : policiesEq N c1.store.policies c2.store.policies = true) :
    (∀ p ∈ c1.store.policies, ∃ q ∈ c2.store.policies, p.key = q.key ∧ PolSame N p q) ∧
    (∀ q ∈ c2.store.policies, ∃ p ∈ c1.store.policies, p.key = q.key ∧ PolSame N p q) := by
  unfold policiesEq at h
  simp only [Bool.and_eq_true, decide_eq_true_eq, List.all_eq_true, List.any_eq_true] at h
  have h1 : ∀ p ∈ c1.store.policies, ∃ q ∈ c2.store.policies, p.key = q.key ∧ PolSame N p q := by
    intro p hp
    obtain ⟨q, hq, ⟨hn, hk⟩, he⟩ := h.2 p hp
    refine ⟨q, hq, by simp [Policy.key, hn, hk], ?_⟩
    exact policyEq_same L (G1.legal.legal p hp) (G2.legal.legal q hq) (G1.legal.exact.mono (by simpa using hp))
      (G2.legal.exact.mono (by simpa using hq)) hk he
  refine ⟨h1, ?_⟩
  have hsub : c1.store.policies.map Policy.key ⊆ c2.store.policies.map Policy.key := by
    intro k hk
    obtain ⟨p, hp, rfl⟩ := List.mem_map.1 hk
    obtain ⟨q, hq, he, _⟩ := h1 p hp
    exact List.mem_map.2 ⟨q, hq, he.symm⟩
  have hperm := ((keys_nodup G1.built).subperm hsub).perm_of_length_le (by simp [h.1])
  intro q hq
  obtain ⟨p, hp, he⟩ := List.mem_map.1 (hperm.mem_iff.2 (List.mem_map.2 ⟨q, hq, rfl⟩))
  obtain ⟨q', hq', he', hs⟩ := h1 p hp
  have : q' = q := List.inj_on_of_nodup_map (keys_nodup G2.built) hq' hq (he'.symm.trans he)
  subst this
  exact ⟨p, hp, he, hs⟩

theorem layerSame_of_match {a b : List (Policy C S)} (h1 : ∀ p ∈ a, ∃ q ∈ b, PolSame N p q) (h2 : ∀ q ∈ b, ∃ p ∈ a, PolSame N p q)
    (hv : ∀ dir p, layerVerdict N.toNet a dir p = layerVerdict N.toNet b dir p) : LayerSame N a b := by
  have hr : ∀ {p q : Policy C S}, PolSame N p q → (p.restricts ↔ q.restricts) := by
    intro p q h
    unfold Policy.restricts
    constructor
    · intro hp hk; rw [← h.action (by rw [h.kind]; exact hk)]; exact hp (by rw [h.kind]; exact hk)
    · intro hp hk; rw [h.action hk]; exact hp (by rw [← h.kind]; exact hk)
  refine ⟨hv, ?_, ?_⟩
  · intro dir e
    constructor
    · intro h q hq
      obtain ⟨p, hp, hs⟩ := h2 q hq
      rw [← hs.captures]; exact h p hp
    · intro h p hp
      obtain ⟨q, hq, hs⟩ := h1 p hp
      rw [hs.captures]; exact h q hq
  · intro dir e
    unfold istioOpen
    constructor
    · intro h q hq hq2
      obtain ⟨p, hp, hs⟩ := h2 q hq
      rw [← hs.captures]; exact h p hp ((hr hs).2 hq2)
    · intro h p hp hp2
      obtain ⟨q, hq, hs⟩ := h1 p hp
      rw [hs.captures]; exact h q hq ((hr hs).1 hp2)

/-! Same order -/

theorem bisectRight_rel {α : Type} {R : α → α → Prop} {lt : α → α → Bool} (hlt : ∀ x x' y y', R x x' → R y y' → lt x y = lt x' y')
    {a a' : List α} (h : List.Forall₂ R a a') {x x' : α} (hx : R x x') (lo hi : Nat) :
    bisectRight lt a x lo hi = bisectRight lt a' x' lo hi := by
  fun_induction bisectRight lt a x lo hi with
  | case1 lo hi hlo mid y hy hl ih =>
    conv => rhs; unfold bisectRight
    rw [dif_pos hlo]
    have hlen := h.length_eq
    obtain ⟨hm, rfl⟩ := List.getElem?_eq_some_iff.1 hy
    have hR := List.Forall₂.get h hm (hlen ▸ hm)
    have hy' : a'[(lo + hi) / 2]? = some (a'[mid]'(hlen ▸ hm)) := List.getElem?_eq_getElem _
    simp only [hy']
    simp only [List.get_eq_getElem] at hR
    rw [hlt _ _ _ _ hx hR] at hl
    rw [if_pos hl]; exact ih
  | case2 lo hi hlo mid y hy hl ih =>
    conv => rhs; unfold bisectRight
    rw [dif_pos hlo]
    have hlen := h.length_eq
    obtain ⟨hm, rfl⟩ := List.getElem?_eq_some_iff.1 hy
    have hR := List.Forall₂.get h hm (hlen ▸ hm)
    have hy' : a'[(lo + hi) / 2]? = some (a'[mid]'(hlen ▸ hm)) := List.getElem?_eq_getElem _
    simp only [hy']
    simp only [List.get_eq_getElem] at hR
    rw [hlt _ _ _ _ hx hR] at hl
    rw [if_neg hl]; exact ih
  | case3 lo hi hlo mid hn =>
    conv => rhs; unfold bisectRight
    rw [dif_pos hlo]
    have hlen := h.length_eq
    have : a'[(lo + hi) / 2]? = none := by
      rw [List.getElem?_eq_none_iff] at hn ⊢
      omega
    simp only [this]
  | case4 lo hi hlo =>
    conv => rhs; unfold bisectRight
    rw [dif_neg hlo]

theorem insort_rel {α : Type} {R : α → α → Prop} {lt : α → α → Bool} (hlt : ∀ x x' y y', R x x' → R y y' → lt x y = lt x' y')
    {a a' : List α} (h : List.Forall₂ R a a') {x x' : α} (hx : R x x') : List.Forall₂ R (insort lt a x) (insort lt a' x') := by
  unfold insort
  rw [bisectRight_rel hlt h hx 0 a.length, h.length_eq]
  exact List.rel_append (List.forall₂_take _ h) (List.Forall₂.cons hx (List.forall₂_drop _ h))

theorem PolSame.lt {x x' y y' : Policy C S} (hx : PolSame N x x') (hy : PolSame N y y') : x.lt y = x'.lt y' := by
  unfold Policy.lt
  rw [← hx.kind, ← hy.kind, ← hx.order, ← hy.order]
  cases hk : x.kind <;> simp only
  rw [hx.action (Or.inl hk)]

theorem lists_rel {ps qs : List (Policy C S)} (h : List.Forall₂ (PolSame N) ps qs) (n : LayerName) :
    List.Forall₂ (PolSame N) ((ps.filter (fun pol => decide (layerOf pol.kind = n))).foldl (insort Policy.lt) [])
      ((qs.filter (fun pol => decide (layerOf pol.kind = n))).foldl (insort Policy.lt) []) := by
  have aux : ∀ (ps qs acc acc' : List (Policy C S)), List.Forall₂ (PolSame N) ps qs → List.Forall₂ (PolSame N) acc acc' →
      List.Forall₂ (PolSame N) (ps.foldl (insort Policy.lt) acc) (qs.foldl (insort Policy.lt) acc') := by
    intro ps qs acc acc' h
    induction h generalizing acc acc' with
    | nil => intro h; exact h
    | cons hx _ ih => intro h; exact ih _ _ (insort_rel (fun _ _ _ _ hx hy => hx.lt hy) h hx)
  refine aux _ _ [] [] ?_ List.Forall₂.nil
  induction h with
  | nil => exact List.Forall₂.nil
  | cons hx _ ih =>
    rw [List.filter_cons, List.filter_cons, hx.kind]
    split
    · exact List.Forall₂.cons hx ih
    · exact ih

theorem verdict_rel {a b : List (Policy C S)} (h : List.Forall₂ (PolSame N) a b) (dir : Bool) (p : P) :
    layerVerdict N.toNet a dir p = layerVerdict N.toNet b dir p := by
  rw [layerVerdict_speaks, layerVerdict_speaks]
  induction h with
  | nil => rfl
  | cons hx _ ih => rw [List.findSome?_cons, List.findSome?_cons, hx.speaks, ih]

/-! Order that does not matter -/

/-- The order in which policies of the same precedence were added does not matter: policies of a layer
that disagree on some connection are Kubernetes or Calico policies of different orders, or Istio policies
of a configuration without sidecars. -/
def OrderFree (N : NetQ C P E S) (pols : List (Policy C S)) : Prop :=
  ∀ a ∈ pols, ∀ b ∈ pols, layerOf a.kind = layerOf b.kind →
    (∃ dir p v w, a.speaks N dir p = some v ∧ b.speaks N dir p = some w ∧ v ≠ w) →
    layerOf a.kind = .k8sCalico ∧ a.getOrder ≠ b.getOrder ∨
    layerOf a.kind = .istio ∧ ∀ q ∈ pols, q.kind ≠ .istioSidecar

theorem first_before {α : Type} {R : α → α → Prop} {l : List α} (hR : l.Pairwise R) {β : Type} {f : α → Option β} {v : β}
    (h : l.findSome? f = some v) : ∃ a ∈ l, f a = some v ∧ ∀ b ∈ l, f b ≠ none → b = a ∨ R a b := by
  obtain ⟨l1, a, l2, rfl, h1, h2⟩ := List.findSome?_eq_some_iff.1 h
  refine ⟨a, by simp, h1, fun b hb hn => ?_⟩
  rcases List.mem_append.1 hb with hb | hb
  · exact absurd (h2 b hb) hn
  · rcases List.mem_cons.1 hb with rfl | hb
    · exact Or.inl rfl
    · exact Or.inr ((List.pairwise_cons.1 (List.pairwise_append.1 hR).2.1).1 b hb)

theorem rankLt_total {x y : Option Int} (h : x ≠ y) : rankLt x y = true ∨ rankLt y x = true := by
  cases x <;> cases y <;> simp_all [rankLt]
  omega

/-- Without sidecars no policy that allows comes before one that denies in the Istio layer. -/
theorem istio_sorted {pols : List (Policy C S)} {st : PolicyStore C S} (h : PolicyStore.build pols = some st)
    (hk : ∀ q ∈ pols, q.kind ≠ .istioSidecar) :
    (layerList st.layers .istio).Pairwise (fun u v => ¬ (u.action = .allow ∧ v.action = .deny)) := by
  rw [(build_built pols h).lists]
  have aux : ∀ (qs acc : List (Policy C S)), (∀ q ∈ qs, q.kind = .istioAuthz) → (∀ q ∈ acc, q.kind = .istioAuthz) →
      acc.Pairwise (fun u v => ¬ (u.action = .allow ∧ v.action = .deny)) →
      (qs.foldl (insort Policy.lt) acc).Pairwise (fun u v => ¬ (u.action = .allow ∧ v.action = .deny)) := by
    intro qs
    induction qs with
    | nil => intro acc _ _ h; exact h
    | cons q qs ih =>
      intro acc hq hacc hs
      have hlt : ∀ y ∈ acc, q.lt y = decide (q.action = .deny) := by
        intro y hy
        unfold Policy.lt
        rw [hq q (by simp), hacc y hy]
      refine ih _ (fun x hx => hq x (List.mem_cons_of_mem _ hx)) (fun x hx => ?_) ?_
      · rcases (mem_insort _ _ _).1 hx with rfl | hx
        · exact hq x (by simp)
        · exact hacc x hx
      · cases ha : q.action with
        | deny =>
          rw [insort_first _ _ (fun y hy => by rw [hlt y hy, ha]; rfl)]
          exact List.pairwise_cons.2 ⟨fun y _ h => by rw [ha] at h; exact absurd h.1 (by simp), hs⟩
        | allow =>
          rw [insort_last _ _ (fun y hy => by rw [hlt y hy, ha]; rfl)]
          refine List.pairwise_append.2 ⟨hs, List.pairwise_singleton _ _, fun y _ z hz h => ?_⟩
          rw [List.mem_singleton] at hz
          subst hz
          rw [ha] at h
          exact absurd h.2 (by simp)
  refine aux _ [] (fun q hq => ?_) (by simp) List.Pairwise.nil
  obtain ⟨h1, h2⟩ := List.mem_filter.1 hq
  have h2 : layerOf q.kind = .istio := by simpa using h2
  have h3 := hk q h1
  cases hkk : q.kind <;> rw [hkk] at h2 h3 <;> simp_all [layerOf]

/-- What an authorization policy says. -/
theorem authz_speaks {pol : Policy C S} (hk : pol.kind = .istioAuthz) {dir : Bool} {x : P} {v : RuleAction} (h : pol.speaks N dir x = some v) :
    (v = .allow ∧ pol.action = .allow) ∨ (v = .deny ∧ pol.action = .deny) := by
  unfold Policy.speaks Policy.ruleVerdict at h
  rw [hk] at h
  split at h
  · dsimp only at h
    split at h
    · cases ha : pol.action <;> rw [ha] at h <;> simp at h <;> subst h <;> simp
    · simp at h
  · simp at h

theorem verdict_orderFree {c1 c2 : Config C S} (G1 : c1.Good N Ok Strong) (G2 : c2.Good N Ok Strong)
    (h1 : ∀ p ∈ c1.store.policies, ∃ q ∈ c2.store.policies, p.key = q.key ∧ PolSame N p q)
    (h2 : ∀ q ∈ c2.store.policies, ∃ p ∈ c1.store.policies, p.key = q.key ∧ PolSame N p q)
    (ho : OrderFree N c1.store.policies) (n : LayerName) (dir : Bool) (x : P) :
    layerVerdict N.toNet (layerList c1.store.layers n) dir x = layerVerdict N.toNet (layerList c2.store.layers n) dir x := by
  have m1 : ∀ p ∈ layerList c1.store.layers n, ∃ q ∈ layerList c2.store.layers n, PolSame N p q := by
    intro p hp
    obtain ⟨hp1, hp2⟩ := (G1.B.mem_list n p).1 hp
    obtain ⟨q, hq, _, hs⟩ := h1 p hp1
    exact ⟨q, (G2.B.mem_list n q).2 ⟨hq, by rw [← hs.kind]; exact hp2⟩, hs⟩
  have m2 : ∀ q ∈ layerList c2.store.layers n, ∃ p ∈ layerList c1.store.layers n, PolSame N p q := by
    intro q hq
    obtain ⟨hq1, hq2⟩ := (G2.B.mem_list n q).1 hq
    obtain ⟨p, hp, _, hs⟩ := h2 q hq1
    exact ⟨p, (G1.B.mem_list n p).2 ⟨hp, by rw [hs.kind]; exact hq2⟩, hs⟩
  rw [layerVerdict_speaks, layerVerdict_speaks]
  have sorted : ∀ {c : Config C S}, c.Good N Ok Strong → (layerList c.store.layers n).Pairwise
      (fun u v => n = .k8sCalico → rankLt v.getOrder u.getOrder = false) := by
    intro c G
    by_cases hn : n = .k8sCalico
    · subst hn
      exact (precedence_aux _ G.built).1.imp (fun h _ => h)
    · exact List.pairwise_of_forall (fun _ _ h => absurd h hn)
  cases hv : (layerList c1.store.layers n).findSome? (fun pol => pol.speaks N dir x) with
  | none =>
    symm
    rw [List.findSome?_eq_none_iff] at hv ⊢
    intro q hq
    obtain ⟨p, hp, hs⟩ := m2 q hq
    rw [← hs.speaks]; exact hv p hp
  | some v =>
    obtain ⟨a, ha, hav, hab⟩ := first_before (sorted G1) hv
    cases hw : (layerList c2.store.layers n).findSome? (fun pol => pol.speaks N dir x) with
    | none =>
      obtain ⟨q, hq, hs⟩ := m1 a ha
      have := List.findSome?_eq_none_iff.1 hw q hq
      rw [← hs.speaks, hav] at this; exact absurd this (by simp)
    | some w =>
      obtain ⟨b, hb, hbw, hba⟩ := first_before (sorted G2) hw
      by_contra hne
      have hvw : v ≠ w := fun h => hne (by rw [h])
      obtain ⟨a', ha', hsa⟩ := m1 a ha
      obtain ⟨b', hb', hsb⟩ := m2 b hb
      obtain ⟨hA1, hA2⟩ := (G1.B.mem_list n a).1 ha
      obtain ⟨hB1, hB2⟩ := (G1.B.mem_list n b').1 hb'
      obtain ⟨hkc, hord⟩ | ⟨hki, hsc⟩ := ho a hA1 b' hB1 (by rw [hA2, hB2]) ⟨dir, x, v, w, hav, by rw [hsb.speaks]; exact hbw, hvw⟩
      case inr =>
        rw [hA2] at hki
        subst hki
        have auth : ∀ {q : Policy C S}, layerOf q.kind = .istio → q.kind ≠ .istioSidecar → q.kind = .istioAuthz := by
          intro q h1 h2
          cases hk : q.kind <;> rw [hk] at h1 h2 <;> simp_all [layerOf]
        have hsc2 : ∀ q ∈ c2.store.policies, q.kind ≠ .istioSidecar := by
          intro q hq
          obtain ⟨p, hp, _, hs⟩ := h2 q hq
          rw [← hs.kind]; exact hsc p hp
        have st1 := istio_sorted G1.built hsc
        have st2 := istio_sorted G2.built hsc2
        obtain ⟨a1, ha1, hav1, hab1⟩ := first_before st1 hv
        obtain ⟨b1, hb1, hbw1, hba1⟩ := first_before st2 hw
        obtain ⟨a1', ha1', hsa1⟩ := m1 a1 ha1
        obtain ⟨b1', hb1', hsb1⟩ := m2 b1 hb1
        obtain ⟨hP1, hP2⟩ := (G1.B.mem_list .istio a1).1 ha1
        obtain ⟨hQ1, hQ2⟩ := (G2.B.mem_list .istio b1).1 hb1
        have ka := auth hP2 (hsc a1 hP1)
        have kb := auth hQ2 (hsc2 b1 hQ1)
        have aa := hsa1.action (Or.inl ka)
        have ab := hsb1.action (Or.inl (hsb1.kind.trans kb))
        have e1 := hab1 b1' hb1' (by rw [hsb1.speaks, hbw1]; simp)
        have e2 := hba1 a1' ha1' (by rw [← hsa1.speaks, hav1]; simp)
        rcases authz_speaks ka hav1 with ⟨rfl, ea⟩ | ⟨rfl, ea⟩ <;> rcases authz_speaks kb hbw1 with ⟨rfl, eb⟩ | ⟨rfl, eb⟩
        · exact hvw rfl
        · rcases e1 with e1 | e1
          · rw [e1, ea, eb] at ab; exact absurd ab (by simp)
          · exact e1 ⟨ea, by rw [ab, eb]⟩
        · rcases e2 with e2 | e2
          · rw [e2, ea, eb] at aa; exact absurd aa (by simp)
          · exact e2 ⟨eb, by rw [← aa, ea]⟩
        · exact hvw rfl
      rw [hA2] at hkc
      have e1 : b' = a ∨ (n = .k8sCalico → rankLt b'.getOrder a.getOrder = false) :=
        hab b' hb' (by rw [hsb.speaks, hbw]; simp)
      have e2 : a' = b ∨ (n = .k8sCalico → rankLt a'.getOrder b.getOrder = false) :=
        hba a' ha' (by rw [← hsa.speaks, hav]; simp)
      rw [← hsa.order, ← hsb.order] at e2
      rcases rankLt_total hord with hl | hl
      · rcases e2 with e2 | e2
        · rw [← e2, ← hsa.speaks, hav] at hbw; exact hvw (by simpa using hbw)
        · rw [e2 hkc] at hl; exact absurd hl (by simp)
      · rcases e1 with e1 | e1
        · exact hord (by rw [e1])
        · rw [e1 hkc] at hl; exact absurd hl (by simp)

/-- Same policies, added in the same order, or in an order that does not matter. -/
def SameOrder (N : NetQ C P E S) (c1 c2 : Config C S) : Prop :=
  c1.store.policies.map Policy.key = c2.store.policies.map Policy.key ∨ OrderFree N c1.store.policies

theorem forall2_of_keys {ps qs : List (Policy C S)} (hk : ps.map Policy.key = qs.map Policy.key)
    (hn : (qs.map Policy.key).Nodup) (h1 : ∀ p ∈ ps, ∃ q ∈ qs, p.key = q.key ∧ PolSame N p q) : List.Forall₂ (PolSame N) ps qs := by
  have hlen : ps.length = qs.length := by simpa using congrArg List.length hk
  refine List.forall₂_iff_get.2 ⟨hlen, fun i hi hi' => ?_⟩
  obtain ⟨q, hq, he, hs⟩ := h1 _ (List.get_mem ps ⟨i, hi⟩)
  have hki : (ps.get ⟨i, hi⟩).key = (qs.get ⟨i, hi'⟩).key := by
    have h : (ps.map Policy.key)[i]? = (qs.map Policy.key)[i]? := by rw [hk]
    rw [List.getElem?_map, List.getElem?_map, List.getElem?_eq_getElem hi, List.getElem?_eq_getElem hi'] at h
    simpa using h
  have : q = qs.get ⟨i, hi'⟩ := List.inj_on_of_nodup_map hn hq (List.get_mem _ _) (he.symm.trans hki)
  rw [← this]; exact hs

/-- The shortcut is right when the order of the policies does not matter. -/
theorem policiesEq_allows (L : N.Lawful Ok Strong Wide) {c1 c2 : Config C S} (G1 : c1.Good N Ok Strong) (G2 : c2.Good N Ok Strong)
    (hc : comparable N c1 c2 = true) (h : policiesEq N c1.store.policies c2.store.policies = true) (hord : SameOrder N c1 c2)
    (layer : Option LayerName) (p : P) : c1.allowsIn N layer p ↔ c2.allowsIn N layer p := by
  obtain ⟨h1, h2⟩ := policiesEq_match L G1 G2 h
  have ht := comparable_same G1.world G2.world hc
  refine allowsIn_same G1 G2 ht ?_ ?_ layer p
  · intro n
    refine layerSame_of_match ?_ ?_ ?_
    · intro p hp
      obtain ⟨hp1, hp2⟩ := (G1.B.mem_list n p).1 hp
      obtain ⟨q, hq, _, hs⟩ := h1 p hp1
      exact ⟨q, (G2.B.mem_list n q).2 ⟨hq, by rw [← hs.kind]; exact hp2⟩, hs⟩
    · intro q hq
      obtain ⟨hq1, hq2⟩ := (G2.B.mem_list n q).1 hq
      obtain ⟨p, hp, _, hs⟩ := h2 q hq1
      exact ⟨p, (G1.B.mem_list n p).2 ⟨hp, by rw [hs.kind]; exact hq2⟩, hs⟩
    · intro dir x
      rcases hord with hk | ho
      · have hf := forall2_of_keys hk (keys_nodup G2.built) h1
        rw [G1.B.lists, G2.B.lists]
        exact verdict_rel (lists_rel hf n) dir x
      · exact verdict_orderFree G1 G2 h1 h2 ho n dir x
  · intro n
    constructor
    · rintro ⟨pol, hp, hn⟩
      obtain ⟨q, hq, _, hs⟩ := h1 pol hp
      exact ⟨q, hq, by rw [← hs.kind]; exact hn⟩
    · rintro ⟨pol, hp, hn⟩
      obtain ⟨q, hq, _, hs⟩ := h2 pol hp
      exact ⟨q, hq, by rw [hs.kind]; exact hn⟩

end
end Verif
