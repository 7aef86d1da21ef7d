import Verif.NamedPorts
import Verif.PropsBaseSets
/-!
Property theorems C43 (named ports).
-/
namespace Verif
open ISet

/-- Specification: the pod `k` has a port of one of the given names, with number `x` and a protocol of the set. -/
def NamesPort (rg : PodReg) (protocols : ISet) (names : Finset String) (k : String) (x : Int) : Prop :=
  ∃ name ∈ names, ∃ pr n, (rg.named k).lookup name = some (x, pr) ∧ Proto.getNumber pr = some n ∧ Mem n protocols

/-- Legal named ports: the numbers are ports and the protocols have known names. -/
def LegalPorts (l : NamedPorts) : Prop :=
  ∀ name num pr, l.lookup name = some (num, pr) → (1 ≤ num ∧ num ≤ 65535) ∧ ∃ n, Proto.getNumber pr = some n

section
variable {V2 X2 : Type} {A2 : VAlg Dim V2 X2} {W2 : Dim → V2 → Prop} {B : PeerDom} {ord : SetOrder} {rg : PodReg}

/-- Every value of the cube is legal at its dimension. -/
def ConnCube.Legal (W2 : Dim → V2 → Prop) (B : PeerDom) (c : ConnCube V2) : Prop := ∀ d, connWf W2 B d (c.val d)

theorem ConnCube.Legal.ints {c : ConnCube V2} (h : c.Legal W2 B) {d : Dim} (hd : d.isDfa = false) :
    c.val d = .inl (c.ints d) ∧ Canonical (c.ints d) ∧ ∀ x, Mem x (c.ints d) → Mem x (connDom B.idx d) := by
  have := h d
  unfold ConnCube.ints
  cases hv : c.val d with
  | inl l => rw [hv] at this; exact ⟨rfl, this.2⟩
  | inr v => rw [hv] at this; exact absurd this.1 (by simp [hd])

/-! ### Resolution of names -/

theorem resolve_aux {l : NamedPorts} (hl : LegalPorts l) {P : ISet} (hP : Canonical P) (names : List String) (r : PortSet)
    (hr : Canonical r.ports) (hd : ∀ x, Mem x r.ports → 1 ≤ x ∧ x ≤ 65535) (hn : r.named = ∅) :
    ∃ r', names.foldlM (resolveStep l P) r = some r' ∧ Canonical r'.ports ∧ (∀ x, Mem x r'.ports → 1 ≤ x ∧ x ≤ 65535) ∧ r'.named = ∅ ∧
      ∀ x, Mem x r'.ports ↔ Mem x r.ports ∨ ∃ name ∈ names, ∃ pr n, l.lookup name = some (x, pr) ∧ Proto.getNumber pr = some n ∧ Mem n P := by
  induction names generalizing r with
  | nil => exact ⟨r, rfl, hr, hd, hn, fun x => by simp⟩
  | cons a names ih =>
    have step : ∃ r1, resolveStep l P r a = some r1 ∧ Canonical r1.ports ∧ (∀ x, Mem x r1.ports → 1 ≤ x ∧ x ≤ 65535) ∧ r1.named = ∅ ∧
        ∀ x, Mem x r1.ports ↔ Mem x r.ports ∨ ∃ pr n, l.lookup a = some (x, pr) ∧ Proto.getNumber pr = some n ∧ Mem n P := by
      unfold resolveStep
      cases ha : l.lookup a with
      | none => exact ⟨r, rfl, hr, hd, hn, fun x => by simp⟩
      | some v =>
        obtain ⟨num, pr⟩ := v
        obtain ⟨hnum, n, hpr⟩ := hl a num pr ha
        have hc : ProtocolSet.contains P (.name pr) = some (ISet.contains P n) := by
          simp [ProtocolSet.contains, ProtoArg.number, hpr]
        dsimp only
        rw [hc]
        by_cases hm : Mem n P
        · have hm' := (contains_spec P n hP).2 hm
          have sp := addInterval_spec r.ports ⟨num, num⟩ hr (Int.le_refl _)
          have key : ∀ x, Mem x (addInterval r.ports ⟨num, num⟩) ↔ Mem x r.ports ∨ x = num := by
            intro x
            rw [sp.2]
            unfold Iv.Mem
            constructor
            · rintro (h | h)
              · exact Or.inl h
              · right; dsimp only at h; omega
            · rintro (h | rfl)
              · exact Or.inl h
              · exact Or.inr ⟨Int.le_refl _, Int.le_refl _⟩
          refine ⟨r.addPort (.num num), by simp [hm'], sp.1, fun x hx => ?_, hn, fun x => ?_⟩
          · rcases (key x).1 hx with h | rfl
            · exact hd x h
            · exact hnum
          · refine (key x).trans (or_congr_right ?_)
            constructor
            · rintro rfl; exact ⟨pr, n, rfl, hpr, hm⟩
            · rintro ⟨pr', n', h, _⟩
              simp only [Option.some.injEq, Prod.mk.injEq] at h
              exact h.1.symm
        · have hm' : ISet.contains P n = false := by
            rw [← Bool.not_eq_true]; exact fun h => hm ((contains_spec P n hP).1 h)
          refine ⟨r, by simp [hm'], hr, hd, hn, fun x => ⟨Or.inl, ?_⟩⟩
          rintro (h | ⟨pr', n', h, h2, h3⟩)
          · exact h
          · simp only [Option.some.injEq, Prod.mk.injEq] at h
            rw [← h.2, hpr] at h2
            cases h2
            exact absurd h3 hm
    obtain ⟨r1, e1, c1, d1, n1, m1⟩ := step
    obtain ⟨r2, e2, c2, d2, n2, m2⟩ := ih r1 c1 d1 n1
    refine ⟨r2, by rw [List.foldlM_cons, e1]; exact e2, c2, d2, n2, fun x => ?_⟩
    rw [m2, m1]
    simp [or_assoc]

theorem resolve_spec {k : String} (hl : LegalPorts (rg.named k)) {P : ISet} (hP : Canonical P) (names : Finset String) :
    ∃ r, resolveNamed (rg.named k) P (ord.list names) = some r ∧ Canonical r.ports ∧
      (∀ x, Mem x r.ports → Mem x (connDom B.idx .dstPorts)) ∧ (r.toBool = true ↔ ∃ x, Mem x r.ports) ∧
      ∀ x, Mem x r.ports ↔ NamesPort rg P names k x := by
  obtain ⟨r, e, c, d, n, m⟩ := resolve_aux hl hP (ord.list names) (PortSet.make false) canonical_nil (fun x hx => absurd hx not_mem_nil) rfl
  refine ⟨r, e, c, fun x hx => mem_singleton.2 (d x hx), ?_, fun x => ?_⟩
  · unfold PortSet.toBool
    rw [n, Bool.or_eq_true, truthy_spec _ c]
    simp
  · rw [m]
    unfold NamesPort PortSet.make
    simp only [Bool.false_eq_true, if_false, not_mem_nil, false_or, ord.mem]

theorem resolve_nil (P : ISet) (names : List String) : resolveNamed [] P names = some (PortSet.make false) := by
  unfold resolveNamed
  induction names with
  | nil => rfl
  | cons a names ih => exact ih

/-! ### The cube at one destination -/

/-- All dimensions but that of the destination ports. -/
def OtherDims (A2 : VAlg Dim V2 X2) (B : PeerDom) (c : ConnCube V2) (p : Point (connA A2 B)) : Prop :=
  ∀ d ∈ allDims, d ≠ .dstPorts → (connA A2 B).mem (p.1 d) (c.val d) = true

/-- The destination is the registered peer `k`. -/
def DstPod (A2 : VAlg Dim V2 X2) (B : PeerDom) (rg : PodReg) (p : Point (connA A2 B)) (k : String) : Prop :=
  ∃ n : Nat, p.1 .dstPeers = .inl (minPodIndex + n) ∧ rg.keys[n]? = some k

theorem single_index (hr : Base.Reach rg.keys) {k : String} {n : Nat} (hk : rg.keys[n]? = some k) :
    ∃ one, Base.toIndices rg.keys [.pod k] = some one ∧ Canonical one ∧ ∀ z, Mem z one ↔ z = minPodIndex + n := by
  have hok : PeerSet.Ok ([.pod k] : PeerSet String) := by
    intro b hb; simp at hb
  have hmem : k ∈ rg.keys := List.mem_of_getElem? hk
  obtain ⟨one, h1⟩ := (Base.C22_to_indices_defined hr hok).2 (fun k' hk' => by
    unfold PeerSet.HasPod at hk'; simp at hk'; rw [hk']; exact hmem)
  obtain ⟨h2, h3, h4, h5⟩ := Base.C22_to_indices_exact hr hok h1
  refine ⟨one, h1, h2, fun z => ⟨fun hz => ?_, ?_⟩⟩
  · rcases h5 z hz with ⟨x, rfl⟩ | ⟨m, hm, rfl⟩
    · obtain ⟨b, hb, _⟩ := (h3 x).1 hz
      simp at hb
    · obtain ⟨j, hj, hj2⟩ := (h4 m).1 hz
      unfold PeerSet.HasPod at hj2
      simp at hj2
      subst hj2
      have := (List.nodup_iff_getElem?_ne_getElem?.1 (Base.C22_registry hr).1)
      have hmn : m = n := by
        rcases Nat.lt_trichotomy m n with h | h | h
        · exact absurd (hj.trans hk.symm) (this m n h (List.getElem?_eq_some_iff.1 hk).1)
        · exact h
        · exact absurd (hk.trans hj.symm) (this n m h (List.getElem?_eq_some_iff.1 hj).1)
      rw [hmn]
  · rintro rfl
    exact (h4 n).2 ⟨k, hk, List.mem_singleton.2 rfl⟩

theorem at_val (c : ConnCube V2) (one : ISet) (r : PortSet) (d : Dim) : (c.at one r).val d =
    if d = .dstPeers then .inl one else if d = .dstPorts then .inl r.ports else c.val d := rfl

theorem hcOfCube_cls (A : VAlg Dim V2 X2) (all : List Dim) (c : Dim → V2) : (hcOfCube A all c).cls = true := by
  unfold hcOfCube
  split
  · rfl
  · dsimp only
    split
    · rfl
    · unfold HC.addCube
      split
      · rfl
      · unfold HC.or
        split
        · rfl
        · split
          · rfl
          · split
            · rfl
            · exact reduce_cls A all _

variable (L2 : A2.Lawful W2)
include L2

theorem ofCube_spec {v : Dim → ISet ⊕ V2} (hv : ∀ d, connWf W2 B d (v d)) :
    HcStrongT (connA A2 B) (connWf W2 B) allDims (hcOfCube (connA A2 B) allDims v) ∧
    ∀ p : Point (connA A2 B), (connNet L2 B).K.mem p (hcOfCube (connA A2 B) allDims v) = true ↔
      ∀ d ∈ allDims, (connA A2 B).mem (p.1 d) (v d) = true := by
  have h := hcOfCube_spec (connA_lawful B L2) allDims_nodup allDims_ne v (fun d _ => hv d)
  exact ⟨⟨h.1, hcOfCube_cls _ _ _⟩, fun p => h.2 p.1 p.2⟩

theorem at_spec (hr : Base.Reach rg.keys) {c : ConnCube V2} (hc : c.Legal W2 B) {k : String} {n : Nat} (hk : rg.keys[n]? = some k)
    (hin : Mem (minPodIndex + n) (c.ints .dstPeers)) {one : ISet} (ho : Canonical one) (hone : ∀ z, Mem z one ↔ z = minPodIndex + n)
    {r : PortSet} (hrc : Canonical r.ports) (hrd : ∀ x, Mem x r.ports → Mem x (connDom B.idx .dstPorts)) :
    HcStrongT (connA A2 B) (connWf W2 B) allDims (hcOfCube (connA A2 B) allDims (c.at one r).val) ∧
    ∀ p : Point (connA A2 B), (connNet L2 B).K.mem p (hcOfCube (connA A2 B) allDims (c.at one r).val) = true ↔
      OtherDims A2 B c p ∧ DstPod A2 B rg p k ∧ ∃ x, p.1 .dstPorts = .inl x ∧ Mem x r.ports := by
  have hv : ∀ d, connWf W2 B d ((c.at one r).val d) := by
    intro d
    rw [at_val]
    split
    · rename_i h; subst h
      refine ⟨rfl, ho, fun x hx => ?_⟩
      rw [hone] at hx; subst hx
      exact (hc.ints (d := .dstPeers) rfl).2.2 _ hin
    · split
      · rename_i h; subst h; exact ⟨rfl, hrc, hrd⟩
      · exact hc d
  have h := ofCube_spec L2 hv
  refine ⟨h.1, fun p => (h.2 p).trans ?_⟩
  have dpod : (connA A2 B).mem (p.1 .dstPeers) (.inl one) = true ↔ p.1 .dstPeers = .inl (minPodIndex + n) := by
    cases hp : p.1 Dim.dstPeers with
    | inl z => refine (mem_inl A2 B z _ ho).trans ?_; rw [hone]; simp
    | inr z => constructor <;> intro h
               · change false = true at h; simp at h
               · simp at h
  have dport : (connA A2 B).mem (p.1 .dstPorts) (.inl r.ports) = true ↔ ∃ x, p.1 .dstPorts = .inl x ∧ Mem x r.ports := by
    cases hp : p.1 Dim.dstPorts with
    | inl z => refine (mem_inl A2 B z _ hrc).trans ?_; simp
    | inr z => constructor <;> intro h
               · change false = true at h; simp at h
               · simp at h
  constructor
  · intro hp
    have h1 := hp .dstPeers (by decide)
    have h2 := hp .dstPorts (by decide)
    rw [at_val, if_pos rfl, dpod] at h1
    rw [at_val, if_neg (by decide), if_pos rfl, dport] at h2
    refine ⟨fun d hd hne => ?_, ⟨n, h1, hk⟩, h2⟩
    by_cases hpd : d = .dstPeers
    · subst hpd
      have e := hc.ints (d := .dstPeers) rfl
      rw [h1, e.1]
      exact (mem_inl A2 B _ _ e.2.1).2 hin
    · have := hp d hd
      rw [at_val, if_neg hpd, if_neg hne] at this
      exact this
  · rintro ⟨h1, ⟨m, h2, h2'⟩, h3⟩ d hd
    have hmn : m = n := by
      have := (List.nodup_iff_getElem?_ne_getElem?.1 (Base.C22_registry hr).1)
      rcases Nat.lt_trichotomy m n with h | h | h
      · exact absurd (h2'.trans hk.symm) (this m n h (List.getElem?_eq_some_iff.1 hk).1)
      · exact h
      · exact absurd (hk.trans h2'.symm) (this n m h (List.getElem?_eq_some_iff.1 h2').1)
    subst hmn
    rw [at_val]
    split
    · rename_i h; subst h; exact dpod.2 h2
    · split
      · rename_i h; subst h; exact dport.2 h3
      · rename_i hne; exact h1 d hd hne

/-! ### The loop over the destinations -/

/-- The destination port of the connection is one that the destination pod gives to one of the names. -/
def PortNamed (A2 : VAlg Dim V2 X2) (B : PeerDom) (rg : PodReg) (protocols : ISet) (names : Finset String)
    (p : Point (connA A2 B)) (k : String) : Prop :=
  DstPod A2 B rg p k ∧ ∃ x, p.1 .dstPorts = .inl x ∧ NamesPort rg protocols names k x

omit L2 in
theorem DstPod.unique (hr : Base.Reach rg.keys) {p : Point (connA A2 B)} {k j : String} (h1 : DstPod A2 B rg p k) (h2 : DstPod A2 B rg p j) :
    k = j := by
  obtain ⟨n, hn, hk⟩ := h1
  obtain ⟨m, hm, hj⟩ := h2
  rw [hn] at hm
  have : n = m := by simp only [Sum.inl.injEq] at hm; omega
  subst this
  rw [hk] at hj
  exact Option.some.inj hj

theorem destStep_spec (hr : Base.Reach rg.keys) (hp : ∀ k, LegalPorts (rg.named k)) {c : ConnCube V2} (hc : c.Legal W2 B)
    (hsrc : c.excluded = ∅ ∨ ∃ z, Mem z B.idx ∧ ¬ Mem z (c.ints .srcPeers))
    {res : HC Dim (ISet ⊕ V2)} (hs : HcStrongT (connA A2 B) (connWf W2 B) allDims res) {k : String} {n : Nat}
    (hk : rg.keys[n]? = some k) (hin : Mem (minPodIndex + n) (c.ints .dstPeers)) :
    ∃ res', destStep A2 B ord rg c res (.pod k) = some res' ∧ HcStrongT (connA A2 B) (connWf W2 B) allDims res' ∧
      ∀ p, (connNet L2 B).K.mem p res' = true ↔
        ((connNet L2 B).K.mem p res = true ∨ (OtherDims A2 B c p ∧ PortNamed A2 B rg (c.ints .protocols) c.named p k)) ∧
        ¬ (OtherDims A2 B c p ∧ PortNamed A2 B rg (c.ints .protocols) c.excluded p k) := by
  obtain ⟨one, e1, ho, hone⟩ := single_index hr hk
  have hpc := (hc.ints (d := .protocols) rfl).2.1
  obtain ⟨r, e2, rc, rd, rb, rm⟩ := resolve_spec (B := B) (ord := ord) (hp k) hpc c.named
  obtain ⟨x, e3, xc, xd, xb, xm⟩ := resolve_spec (B := B) (ord := ord) (hp k) hpc c.excluded
  have la := (connNet_lawful L2 B).1
  have a1 := at_spec L2 hr hc hk hin ho hone rc rd
  have a2 := at_spec L2 hr hc hk hin ho hone xc xd
  -- the sum
  obtain ⟨res1, eq1, hs1, hm1⟩ : ∃ res1, (if r.toBool then HC.or (connA A2 B) allDims res (hcOfCube (connA A2 B) allDims (c.at one r).val) else res) = res1 ∧
      HcStrongT (connA A2 B) (connWf W2 B) allDims res1 ∧ ∀ p, (connNet L2 B).K.mem p res1 = true ↔
        (connNet L2 B).K.mem p res = true ∨ (OtherDims A2 B c p ∧ PortNamed A2 B rg (c.ints .protocols) c.named p k) := by
    by_cases hb : r.toBool = true
    · refine ⟨_, if_pos hb, la.net.or_strong hs (la.net.strong_ok a1.1), fun p => ?_⟩
      have := la.net.mem_or (la.net.strong_ok hs) (la.net.strong_ok a1.1) p
      change (connNet L2 B).K.mem p ((connNet L2 B).K.or res _) = true ↔ _
      rw [this, Bool.or_eq_true, a1.2]
      unfold PortNamed
      simp only [rm]
    · refine ⟨_, if_neg hb, hs, fun p => ⟨Or.inl, ?_⟩⟩
      rintro (h | ⟨_, _, y, _, hy⟩)
      · exact h
      · exact absurd (rb.2 ⟨y, (rm y).2 hy⟩) hb
  -- the difference
  obtain ⟨res2, eq2, hs2, hm2⟩ : ∃ res2, (if x.toBool then HC.sub (connA A2 B) allDims res1 (hcOfCube (connA A2 B) allDims (c.at one x).val) else res1) = res2 ∧
      HcStrongT (connA A2 B) (connWf W2 B) allDims res2 ∧ ∀ p, (connNet L2 B).K.mem p res2 = true ↔
        (connNet L2 B).K.mem p res1 = true ∧ ¬ (OtherDims A2 B c p ∧ PortNamed A2 B rg (c.ints .protocols) c.excluded p k) := by
    by_cases hb : x.toBool = true
    · have hsub : HcStrongT (connA A2 B) (connWf W2 B) allDims
          ((connNet L2 B).K.sub res1 (hcOfCube (connA A2 B) allDims (c.at one x).val)) := by
        by_cases ht : (connNet L2 B).K.truthy (hcOfCube (connA A2 B) allDims (c.at one x).val) = true
        · refine la.sub_wide hs1 (la.net.strong_ok a2.1) (Or.inr ?_)
          obtain ⟨p, hpm⟩ := (la.net.truthy_iff (la.net.strong_ok a2.1)).1 ht
          rcases hsrc with he | ⟨z, hz1, hz2⟩
          · obtain ⟨y, hy⟩ := xb.1 hb
            obtain ⟨name, hname, _⟩ := (xm y).1 hy
            rw [he] at hname
            simp at hname
          · let q : Point (connA A2 B) := ⟨fun d => if d = .srcPeers then .inl z else p.1 d, fun d => by
              by_cases hd : d = .srcPeers
              · subst hd
                dsimp only
                rw [if_pos rfl]
                exact (mem_inl A2 B z _ B.canon).2 hz1
              · dsimp only; rw [if_neg hd]; exact p.2 d⟩
            obtain ⟨t, ht1, ht2, ht3, ht4⟩ := la.splice p q
            refine ht4 (la.net.strong_ok a2.1) hpm ?_
            rw [← Bool.not_eq_true, a2.2]
            rintro ⟨hod, _⟩
            have h := hod .srcPeers (by decide) (by decide)
            have hs' : t.1 .srcPeers = .inl z := ht1
            have ec := hc.ints (d := .srcPeers) rfl
            rw [hs', ec.1] at h
            exact hz2 ((mem_inl A2 B z _ ec.2.1).1 h)
        · rw [la.net.sub_falsy (by simpa using ht)]; exact hs1
      refine ⟨_, if_pos hb, hsub, fun p => ?_⟩
      have := la.net.mem_sub hs1 (la.net.strong_ok a2.1) p
      change (connNet L2 B).K.mem p ((connNet L2 B).K.sub res1 _) = true ↔ _
      rw [this, Bool.and_eq_true, Bool.not_eq_true', ← Bool.not_eq_true, a2.2]
      unfold PortNamed
      simp only [xm]
    · refine ⟨_, if_neg hb, hs1, fun p => ⟨fun h => ⟨h, ?_⟩, And.left⟩⟩
      rintro ⟨_, _, y, _, hy⟩
      exact hb (xb.2 ⟨y, (xm y).2 hy⟩)
  refine ⟨res2, ?_, hs2, fun p => by rw [hm2, hm1]⟩
  unfold destStep namedOf
  rw [e1]
  simp only [Option.bind_eq_bind, Option.bind_some, e2, e3, eq1, Option.pure_def, eq2]

theorem destFold_spec (hr : Base.Reach rg.keys) (hp : ∀ k, LegalPorts (rg.named k)) {c : ConnCube V2} (hc : c.Legal W2 B)
    (hsrc : c.excluded = ∅ ∨ ∃ z, Mem z B.idx ∧ ¬ Mem z (c.ints .srcPeers))
    (dst : PeerSet String) (hok : dst.Ok)
    (hdst : ∀ k, dst.HasPod k → ∃ n : Nat, rg.keys[n]? = some k ∧ Mem (minPodIndex + n) (c.ints .dstPeers))
    {res : HC Dim (ISet ⊕ V2)} (hs : HcStrongT (connA A2 B) (connWf W2 B) allDims res) :
    ∃ res', dst.foldlM (destStep A2 B ord rg c) res = some res' ∧ HcStrongT (connA A2 B) (connWf W2 B) allDims res' ∧
      ∀ p, (connNet L2 B).K.mem p res' = true ↔
        ((connNet L2 B).K.mem p res = true ∨ ∃ k, dst.HasPod k ∧ OtherDims A2 B c p ∧ PortNamed A2 B rg (c.ints .protocols) c.named p k) ∧
        ¬ (∃ k, dst.HasPod k ∧ OtherDims A2 B c p ∧ PortNamed A2 B rg (c.ints .protocols) c.excluded p k) := by
  induction dst generalizing res with
  | nil =>
    refine ⟨res, rfl, hs, fun p => ?_⟩
    simp [PeerSet.HasPod]
  | cons e dst ih =>
    have hok' : PeerSet.Ok dst := fun b hb => hok b (List.mem_cons_of_mem _ hb)
    have hdst' : ∀ k, PeerSet.HasPod dst k → _ := fun k hk => hdst k (List.mem_cons_of_mem _ hk)
    cases e with
    | pod k =>
      obtain ⟨n, hk, hin⟩ := hdst k (by simp [PeerSet.HasPod])
      obtain ⟨res1, e1, s1, m1⟩ := destStep_spec L2 (ord := ord) hr hp hc hsrc hs hk hin
      obtain ⟨res2, e2, s2, m2⟩ := ih hok' hdst' s1
      refine ⟨res2, by rw [List.foldlM_cons, e1]; exact e2, s2, fun p => ?_⟩
      rw [m2, m1]
      have hcons : ∀ j, PeerSet.HasPod (.pod k :: dst) j ↔ j = k ∨ PeerSet.HasPod dst j := by
        intro j; unfold PeerSet.HasPod; rw [List.mem_cons]; simp
      simp only [hcons]
      constructor
      · rintro ⟨(⟨h | h, hx⟩ | ⟨j, hj, h⟩), hnx⟩
        · refine ⟨Or.inl h, ?_⟩
          rintro ⟨j, rfl | hj, h'⟩
          · exact hx h'
          · exact hnx ⟨j, hj, h'⟩
        · refine ⟨Or.inr ⟨k, Or.inl rfl, h⟩, ?_⟩
          rintro ⟨j, rfl | hj, h'⟩
          · exact hx h'
          · exact hnx ⟨j, hj, h'⟩
        · refine ⟨Or.inr ⟨j, Or.inr hj, h⟩, ?_⟩
          rintro ⟨i, hi, h'⟩
          have : i = j := h'.2.1.unique hr h.2.1
          subst this
          exact hnx ⟨i, hj, h'⟩
      · rintro ⟨h, hx⟩
        have hx1 : ¬ (OtherDims A2 B c p ∧ PortNamed A2 B rg (c.ints .protocols) c.excluded p k) := fun h => hx ⟨k, Or.inl rfl, h⟩
        have hx2 : ¬ (∃ k, PeerSet.HasPod dst k ∧ OtherDims A2 B c p ∧ PortNamed A2 B rg (c.ints .protocols) c.excluded p k) :=
          fun ⟨j, hj, h⟩ => hx ⟨j, Or.inr hj, h⟩
        refine ⟨?_, hx2⟩
        rcases h with h | ⟨j, rfl | hj, h⟩
        · exact Or.inl ⟨Or.inl h, hx1⟩
        · exact Or.inl ⟨Or.inr h, hx1⟩
        · exact Or.inr ⟨j, hj, h⟩
    | ip b =>
      have hstep : destStep A2 B ord rg c res (.ip b) = some res := by
        have hb1 : PeerSet.Ok ([.ip b] : PeerSet String) := by
          intro b' hb'
          simp at hb'
          rw [hb']
          exact hok b (by simp)
        obtain ⟨one, h1⟩ := (Base.C22_to_indices_defined hr hb1).2 (fun k' hk' => by
          unfold PeerSet.HasPod at hk'; simp at hk')
        unfold destStep namedOf
        rw [h1]
        simp only [Option.bind_eq_bind, Option.bind_some, resolve_nil, Option.pure_def]
        rfl
      obtain ⟨res2, e2, s2, m2⟩ := ih hok' hdst' hs
      refine ⟨res2, by rw [List.foldlM_cons, hstep]; exact e2, s2, fun p => ?_⟩
      rw [m2]
      have hcons : ∀ j, PeerSet.HasPod (.ip b :: dst) j ↔ PeerSet.HasPod dst j := by
        intro j; unfold PeerSet.HasPod; rw [List.mem_cons]; simp
      simp only [hcons]

/-- C43: the connection set made of a cube with named ports holds exactly the connections that agree with the
cube at the other dimensions and whose destination port is one of the numbers, or a port to which the
destination pod gives one of the names (with a protocol of the cube), and not one to which it gives an excluded
name. -/
theorem C43_named_ports (hr : Base.Reach rg.keys) (hp : ∀ k, LegalPorts (rg.named k)) {c : ConnCube V2} (hc : c.Legal W2 B)
    (hv : ∀ z, Mem z (c.ints .dstPeers) → (∃ x : Ip, z = x.idx) ∨ ∃ n : Nat, n < rg.keys.length ∧ z = minPodIndex + n)
    (hsrc : c.excluded = ∅ ∨ ∃ z, Mem z B.idx ∧ ¬ Mem z (c.ints .srcPeers)) :
    ∃ h, makeConnProps A2 B ord rg c = some h ∧ HcStrongT (connA A2 B) (connWf W2 B) allDims h ∧
      ∀ p, (connNet L2 B).K.mem p h = true ↔
        (∀ d ∈ allDims, d ≠ .dstPorts → (connA A2 B).mem (p.1 d) (c.val d) = true) ∧
        ∃ x, p.1 .dstPorts = .inl x ∧
          (Mem x (c.ints .dstPorts) ∨ ∃ n k, p.1 .dstPeers = .inl (minPodIndex + (n : Nat)) ∧ rg.keys[n]? = some k ∧
            NamesPort rg (c.ints .protocols) c.named k x) ∧
          ¬ ∃ n k, p.1 .dstPeers = .inl (minPodIndex + (n : Nat)) ∧ rg.keys[n]? = some k ∧
            NamesPort rg (c.ints .protocols) c.excluded k x := by
  have la := (connNet_lawful L2 B).1
  have ep := hc.ints (d := .dstPorts) rfl
  have ed := hc.ints (d := .dstPeers) rfl
  have hcube := ofCube_spec L2 hc
  have hcm : ∀ p, (connNet L2 B).K.mem p (hcOfCube (connA A2 B) allDims c.val) = true ↔
      OtherDims A2 B c p ∧ ∃ x, p.1 .dstPorts = .inl x ∧ Mem x (c.ints .dstPorts) := by
    intro p
    rw [hcube.2]
    have dport : (connA A2 B).mem (p.1 .dstPorts) (c.val .dstPorts) = true ↔ ∃ x, p.1 .dstPorts = .inl x ∧ Mem x (c.ints .dstPorts) := by
      rw [ep.1]
      cases hp : p.1 Dim.dstPorts with
      | inl z => refine (mem_inl A2 B z _ ep.2.1).trans ?_; simp
      | inr z => constructor <;> intro h
                 · change false = true at h; simp at h
                 · simp at h
    refine ⟨fun h => ⟨fun d hd _ => h d hd, dport.1 (h _ (by decide))⟩, fun ⟨h1, h2⟩ d hd => ?_⟩
    by_cases hdp : d = .dstPorts
    · subst hdp; exact dport.2 h2
    · exact h1 d hd hdp
  have hport : ∀ p : Point (connA A2 B), ∃ x, p.1 .dstPorts = .inl x := by
    intro p
    have := p.2 .dstPorts
    cases hp : p.1 Dim.dstPorts with
    | inl z => exact ⟨z, rfl⟩
    | inr z => rw [hp] at this; change false = true at this; simp at this
  unfold makeConnProps
  by_cases hn : c.named = ∅ ∧ c.excluded = ∅
  · rw [if_pos hn]
    refine ⟨_, rfl, hcube.1, fun p => (hcm p).trans (and_congr_right (fun _ => exists_congr (fun x => and_congr_right (fun _ => ?_))))⟩
    simp [NamesPort, hn.1, hn.2]
  · rw [if_neg hn]
    obtain ⟨dst, e1, dok, _, dpod⟩ := Base.C22_from_indices_exact_partial ed.2.1 (Base.valid_dom hr hv) (Base.valid_start ed.2.1 hv)
    have hinit : ∃ init, (if ISet.truthy (c.ints .dstPorts) then hcOfCube (connA A2 B) allDims c.val else HC.empty allDims true) = init ∧
        HcStrongT (connA A2 B) (connWf W2 B) allDims init ∧ ∀ p, (connNet L2 B).K.mem p init = true ↔
          OtherDims A2 B c p ∧ ∃ x, p.1 .dstPorts = .inl x ∧ Mem x (c.ints .dstPorts) := by
      by_cases ht : ISet.truthy (c.ints .dstPorts) = true
      · exact ⟨_, if_pos ht, hcube.1, hcm⟩
      · refine ⟨_, if_neg ht, la.net.empty_strong, fun p => ?_⟩
        have := la.net.mem_empty p
        change (connNet L2 B).K.mem p (connNet L2 B).K.empty = true ↔ _
        rw [this]
        refine ⟨fun h => by simp at h, ?_⟩
        rintro ⟨_, x, _, hx⟩
        exact absurd ((truthy_spec _ ep.2.1).2 ⟨x, hx⟩) ht
    obtain ⟨init, e2, is, im⟩ := hinit
    obtain ⟨res, e3, rs, rm⟩ := destFold_spec L2 (ord := ord) hr hp hc hsrc dst dok (fun k hk => (dpod k).1 hk) is
    refine ⟨res, ?_, rs, fun p => ?_⟩
    · simp only [e1, e2, Option.bind_eq_bind, Option.bind_some, e3]
    rw [rm, im]
    obtain ⟨x, hx⟩ := hport p
    -- a destination the connection agrees with is one of those resolved
    have hreach : ∀ names, (∃ k, dst.HasPod k ∧ OtherDims A2 B c p ∧ PortNamed A2 B rg (c.ints .protocols) names p k) ↔
        OtherDims A2 B c p ∧ ∃ n k, p.1 .dstPeers = .inl (minPodIndex + (n : Nat)) ∧ rg.keys[n]? = some k ∧
            NamesPort rg (c.ints .protocols) names k x := by
      intro names
      constructor
      · rintro ⟨k, _, h1, ⟨n, h2, h3⟩, y, hy, h4⟩
        rw [hx] at hy; cases hy
        exact ⟨h1, n, k, h2, h3, h4⟩
      · rintro ⟨h1, n, k, h2, h3, h4⟩
        refine ⟨k, (dpod k).2 ⟨n, h3, ?_⟩, h1, ⟨n, h2, h3⟩, x, hx, h4⟩
        have := h1 .dstPeers (by decide) (by decide)
        rw [h2, ed.1] at this
        exact (mem_inl A2 B _ _ ed.2.1).1 this
    rw [hreach, hreach]
    have hx' : ∀ y, p.1 .dstPorts = .inl y ↔ y = x := fun y => by
      rw [hx]; exact ⟨fun h => by cases h; rfl, fun h => by rw [h]⟩
    simp only [hx', exists_eq_left]
    unfold OtherDims
    constructor
    · rintro ⟨h | h, h2⟩
      · exact ⟨h.1, Or.inl h.2, fun hh => h2 ⟨h.1, hh⟩⟩
      · exact ⟨h.1, Or.inr h.2, fun hh => h2 ⟨h.1, hh⟩⟩
    · rintro ⟨h1, h2 | h2, h3⟩
      · exact ⟨Or.inl ⟨h1, h2⟩, fun hh => h3 hh.2⟩
      · exact ⟨Or.inr ⟨h1, h2⟩, fun hh => h3 hh.2⟩

/-- C43, with a single protocol in the cube (as all parsers of policies give): the port must be named by the
destination pod for the protocol of the connection itself. -/
theorem C43_single_protocol (hr : Base.Reach rg.keys) (hp : ∀ k, LegalPorts (rg.named k)) {c : ConnCube V2} (hc : c.Legal W2 B)
    (hv : ∀ z, Mem z (c.ints .dstPeers) → (∃ x : Ip, z = x.idx) ∨ ∃ n : Nat, n < rg.keys.length ∧ z = minPodIndex + n)
    (hsrc : c.excluded = ∅ ∨ ∃ z, Mem z B.idx ∧ ¬ Mem z (c.ints .srcPeers)) {pr0 : Int} (hpr : ∀ n, Mem n (c.ints .protocols) ↔ n = pr0) :
    ∃ h, makeConnProps A2 B ord rg c = some h ∧ HcStrongT (connA A2 B) (connWf W2 B) allDims h ∧
      ∀ p, (connNet L2 B).K.mem p h = true ↔
        (∀ d ∈ allDims, d ≠ .dstPorts → (connA A2 B).mem (p.1 d) (c.val d) = true) ∧
        ∃ x, p.1 .dstPorts = .inl x ∧
          (Mem x (c.ints .dstPorts) ∨ ∃ n k, p.1 .dstPeers = .inl (minPodIndex + (n : Nat)) ∧ rg.keys[n]? = some k ∧
            ∃ name ∈ c.named, ∃ pr m, (rg.named k).lookup name = some (x, pr) ∧ Proto.getNumber pr = some m ∧ p.1 .protocols = .inl m) ∧
          ¬ ∃ n k, p.1 .dstPeers = .inl (minPodIndex + (n : Nat)) ∧ rg.keys[n]? = some k ∧
            ∃ name ∈ c.excluded, ∃ pr m, (rg.named k).lookup name = some (x, pr) ∧ Proto.getNumber pr = some m ∧ p.1 .protocols = .inl m := by
  obtain ⟨h, e, s, m⟩ := C43_named_ports L2 (ord := ord) hr hp hc hv hsrc
  refine ⟨h, e, s, fun p => (m p).trans (and_congr_right (fun hod => ?_))⟩
  have hprot : ∀ n, p.1 .protocols = .inl n ↔ n = pr0 := by
    have h := hod .protocols (by decide) (by decide)
    have ec := hc.ints (d := .protocols) rfl
    rw [ec.1] at h
    cases hp : p.1 Dim.protocols with
    | inl z =>
      rw [hp] at h
      have := (hpr z).1 ((mem_inl A2 B z _ ec.2.1).1 h)
      subst this
      intro n; simp [eq_comm]
    | inr z => rw [hp] at h; change false = true at h; simp at h
  unfold NamesPort
  simp only [hpr, hprot]

/-! ### From the dictionary of a parser -/

/-- The endpoint `e` (an index) is an address or a registered peer of the set. -/
def PeerSet.At (reg : List String) (S : PeerSet String) (e : Int ⊕ X2) : Prop :=
  (∃ x : Ip, e = .inl x.idx ∧ S.HasIp x) ∨ ∃ n k, e = .inl (minPodIndex + (n : Nat)) ∧ reg[n]? = some k ∧ S.HasPod k

omit L2 in
theorem at_iff {reg : List String} (hr : Base.Reach reg) {S : PeerSet String} (hS : S.Ok) {l : ISet} (h : Base.toIndices reg S = some l) (z : Int) :
    Mem z l ↔ PeerSet.At (X2 := X2) reg S (.inl z) := by
  obtain ⟨_, h2, h3, h4⟩ := Base.C22_to_indices_exact hr hS h
  constructor
  · intro hz
    rcases h4 z hz with ⟨x, rfl⟩ | ⟨n, hn, rfl⟩
    · exact Or.inl ⟨x, rfl, (h2 x).1 hz⟩
    · obtain ⟨k, hk, hk2⟩ := (h3 n).1 hz
      exact Or.inr ⟨n, k, rfl, hk, hk2⟩
  · rintro (⟨x, hx, h⟩ | ⟨n, k, hn, hk, h⟩)
    · cases hx; exact (h2 x).2 h
    · cases hn; exact (h3 n).2 ⟨k, hk, h⟩

omit L2 in
/-- Addresses and registered peers are in the default domain. -/
theorem at_default {reg : List String} (hr : Base.Reach reg) {S : PeerSet String} {z : Int} (h : PeerSet.At (X2 := X2) reg S (.inl z)) :
    Mem z PeerDom.default.idx := by
  refine (Base.mem_all z).2 ?_
  rcases h with ⟨x, hx, _⟩ | ⟨n, k, hn, hk, _⟩
  · cases hx; exact Or.inl ⟨x, rfl⟩
  · cases hn
    right
    have h1 := (Base.C22_registry hr).2.1
    have h2 := (List.getElem?_eq_some_iff.1 hk).1
    unfold maxPodIndex maxPods
    omega

/-- A dictionary of a parser: the sets of peers hold registered peers and legal addresses, within the domain. -/
structure ConnDict.Legal (X2 : Type) (reg : List String) (B : PeerDom) (d : ConnDict) : Prop where
  peers : ∀ S, d.srcPeers = some S ∨ d.dstPeers = some S → S.Ok ∧ (∀ k, S.HasPod k → k ∈ reg) ∧
    ∀ z, PeerSet.At (X2 := X2) reg S (.inl z) → Mem z B.idx
  protocols : ∀ l, d.protocols = some l → Canonical l ∧ ∀ z, Mem z l → 0 ≤ z ∧ z ≤ 255
  ports : ∀ P, d.dstPorts = some P → Canonical P.ports ∧ ∀ z, Mem z P.ports → 1 ≤ z ∧ z ≤ 65535

omit L2 in
theorem set_val (c : ConnCube V2) (d : Dim) (l : ISet) (x : Dim) : (c.set d l).val x = if x = d then .inl l else c.val x := rfl

/-- The connections a dictionary stands for, its ports aside. -/
def ConnDict.Fits (A2 : VAlg Dim V2 X2) (B : PeerDom) (reg : List String) (d : ConnDict) (p : Point (connA A2 B)) : Prop :=
  (∀ S, d.srcPeers = some S → S.At reg (p.1 .srcPeers)) ∧ (∀ S, d.dstPeers = some S → S.At reg (p.1 .dstPeers)) ∧
  ∀ l, d.protocols = some l → ∃ n, p.1 .protocols = .inl n ∧ Mem n l

/-- The value a dictionary gives to a peer dimension. -/
def peerDimVal (A2 : VAlg Dim V2 X2) (B : PeerDom) (reg : List String) (x : Dim) : Option (PeerSet String) → Option (ISet ⊕ V2)
  | none => some ((connA A2 B).dom x)
  | some S => (Base.toIndices reg S).map .inl

omit L2 in
theorem setPeers_eq (c : ConnCube V2) (x : Dim) (hx : c.val x = (connA A2 B).dom x) (S : Option (PeerSet String)) :
    c.setPeers rg x S = (peerDimVal A2 B rg.keys x S).map (fun v => ⟨fun y => if y = x then v else c.val y, c.named, c.excluded⟩) := by
  cases S with
  | none =>
    unfold ConnCube.setPeers peerDimVal
    simp only [Option.map_some]
    congr 1
    obtain ⟨v, n, e⟩ := c
    congr 1
    funext y
    split
    · rename_i h; subst h; exact hx
    · rfl
  | some S =>
    unfold ConnCube.setPeers peerDimVal
    simp only [Option.map_map]
    rfl

/-- The cube of a dictionary, from the values of its two peer dimensions. -/
def dictCube (A2 : VAlg Dim V2 X2) (B : PeerDom) (vS vD : ISet ⊕ V2) (T : Option ISet) (P : Option PortSet) : ConnCube V2 where
  val := fun y => if y = .dstPorts then (match P with | none => (connA A2 B).dom .dstPorts | some P => .inl P.ports)
    else if y = .protocols then (match T with | none => (connA A2 B).dom .protocols | some l => .inl l)
    else if y = .dstPeers then vD else if y = .srcPeers then vS else (connA A2 B).dom y
  named := match P with | none => ∅ | some P => P.named
  excluded := match P with | none => ∅ | some P => P.excluded

omit L2 in
theorem cube_ext {a b : ConnCube V2} (h : ∀ y, a.val y = b.val y) (h1 : a.named = b.named) (h2 : a.excluded = b.excluded) : a = b := by
  obtain ⟨v, n, e⟩ := a
  obtain ⟨w, m, f⟩ := b
  simp only at h h1 h2
  subst h1; subst h2
  rw [show v = w from funext h]

omit L2 in
theorem ofDict_eq (S D : Option (PeerSet String)) (T : Option ISet) (P : Option PortSet) :
    ConnCube.ofDict A2 B rg ⟨S, D, T, P⟩ = (peerDimVal A2 B rg.keys .srcPeers S).bind (fun vS =>
      (peerDimVal A2 B rg.keys .dstPeers D).map (fun vD => dictCube A2 B vS vD T P)) := by
  unfold ConnCube.ofDict
  simp only [Option.bind_eq_bind, Option.pure_def]
  rw [setPeers_eq (A2 := A2) (B := B) _ .srcPeers rfl S, Option.bind_map]
  congr 1
  funext vS
  simp only [Function.comp_apply]
  rw [setPeers_eq (A2 := A2) (B := B) _ .dstPeers (by rfl) D, Option.bind_map]
  cases peerDimVal A2 B rg.keys .dstPeers D with
  | none => rfl
  | some vD =>
    simp only [Function.comp_apply, Option.bind_some, Option.map_some]
    congr 1
    cases T <;> cases P <;> exact cube_ext (fun y => by cases y <;> rfl) rfl rfl

omit L2 in
theorem peerDim_spec (hr : Base.Reach rg.keys) {x : Dim} (hx : x = .srcPeers ∨ x = .dstPeers) {S : Option (PeerSet String)}
    (hS : ∀ Z, S = some Z → Z.Ok ∧ (∀ k, Z.HasPod k → k ∈ rg.keys) ∧ ∀ z, PeerSet.At (X2 := X2) rg.keys Z (.inl z) → Mem z B.idx) :
    ∃ v, peerDimVal A2 B rg.keys x S = some v ∧ connWf W2 B x v ∧
      (∀ p : Point (connA A2 B), (connA A2 B).mem (p.1 x) v = true ↔ ∀ Z, S = some Z → Z.At rg.keys (p.1 x)) ∧
      ∀ Z, S = some Z → ∃ l, v = .inl l ∧ ∀ z, Mem z l ↔ PeerSet.At (X2 := X2) rg.keys Z (.inl z) := by
  have hdom : ∀ l : ISet, (Canonical l ∧ ∀ z, Mem z l → Mem z B.idx) → connWf W2 B x (.inl l) := by
    intro l h
    rcases hx with rfl | rfl <;> exact ⟨rfl, h⟩
  have hdv : (connA A2 B).dom x = .inl B.idx := by rcases hx with rfl | rfl <;> rfl
  cases S with
  | none =>
    refine ⟨_, rfl, ?_, fun p => ⟨fun _ Z hZ => by simp at hZ, fun _ => p.2 x⟩, fun Z hZ => by simp at hZ⟩
    rw [hdv]
    exact hdom _ ⟨B.canon, fun _ h => h⟩
  | some Z =>
    obtain ⟨h1, h2, h3⟩ := hS Z rfl
    obtain ⟨l, hl⟩ := (Base.C22_to_indices_defined hr h1).2 h2
    have hm := at_iff (X2 := X2) hr h1 hl
    have hcan := (Base.C22_to_indices_exact hr h1 hl).1
    refine ⟨.inl l, by simp [peerDimVal, hl], hdom l ⟨hcan, fun z hz => h3 z ((hm z).1 hz)⟩, fun p => ?_, fun Z' hZ' => ?_⟩
    · have : (connA A2 B).mem (p.1 x) (.inl l) = true ↔ Z.At rg.keys (p.1 x) := by
        cases hp : p.1 x with
        | inl z => exact (mem_inl A2 B z _ hcan).trans (hm z)
        | inr z =>
          constructor
          · intro h; change false = true at h; simp at h
          · rintro (⟨_, h, _⟩ | ⟨_, _, h, _⟩) <;> simp at h
      rw [this]
      exact ⟨fun h Z' hZ' => by cases hZ'; exact h, fun h => h Z rfl⟩
    · cases hZ'
      exact ⟨l, rfl, hm⟩

/-- C43: from the dictionary of a parser, with all the conditions of the theorem above met by the legality of the
dictionary.  The destination port is one of the numbers or a port the destination pod gives to one of the names (any
port if no ports are given), and not one to which it gives an excluded name. -/
theorem C43_from_dict (hr : Base.Reach rg.keys) (hp : ∀ k, LegalPorts (rg.named k)) {d : ConnDict} (hd : d.Legal X2 rg.keys B)
    (hdst : d.dstPeers ≠ none ∨ d.dstPorts = none)
    (hsrc : (∀ P, d.dstPorts = some P → P.excluded = ∅) ∨
      ∃ S z, d.srcPeers = some S ∧ Mem z B.idx ∧ ¬ PeerSet.At (X2 := X2) rg.keys S (.inl z)) :
    ∃ h, makeFromDict A2 B ord rg d = some h ∧ HcStrongT (connA A2 B) (connWf W2 B) allDims h ∧
      ∀ p, (connNet L2 B).K.mem p h = true ↔ d.Fits A2 B rg.keys p ∧ ∀ P, d.dstPorts = some P →
        ∃ x, p.1 .dstPorts = .inl x ∧
          (Mem x P.ports ∨ ∃ n k, p.1 .dstPeers = .inl (minPodIndex + (n : Nat)) ∧ rg.keys[n]? = some k ∧
            NamesPort rg (d.protocols.getD [⟨0, 255⟩]) P.named k x) ∧
          ¬ ∃ n k, p.1 .dstPeers = .inl (minPodIndex + (n : Nat)) ∧ rg.keys[n]? = some k ∧
            NamesPort rg (d.protocols.getD [⟨0, 255⟩]) P.excluded k x := by
  have la := connA_lawful B L2
  obtain ⟨S, D, T, P⟩ := d
  obtain ⟨vS, eS, wS, mS, iS⟩ := peerDim_spec (A2 := A2) (W2 := W2) hr (x := .srcPeers) (Or.inl rfl) (fun Z hZ => hd.peers Z (Or.inl hZ))
  obtain ⟨vD, eD, wD, mD, iD⟩ := peerDim_spec (A2 := A2) (W2 := W2) hr (x := .dstPeers) (Or.inr rfl) (fun Z hZ => hd.peers Z (Or.inr hZ))
  have ec : ConnCube.ofDict A2 B rg ⟨S, D, T, P⟩ = some (dictCube A2 B vS vD T P) := by
    rw [ofDict_eq]
    dsimp only at eS eD
    rw [eS, eD]; rfl
  have hc : (dictCube A2 B vS vD T P).Legal W2 B := by
    intro y
    unfold dictCube
    dsimp only
    split
    · rename_i h; subst h
      cases P with
      | none => exact la.wf_dom _
      | some P => exact ⟨rfl, (hd.ports P rfl).1, fun z hz => mem_singleton.2 ((hd.ports P rfl).2 z hz)⟩
    · split
      · rename_i h; subst h
        cases T with
        | none => exact la.wf_dom _
        | some l => exact ⟨rfl, (hd.protocols l rfl).1, fun z hz => mem_singleton.2 ((hd.protocols l rfl).2 z hz)⟩
      · split
        · rename_i h; subst h; exact wD
        · split
          · rename_i h; subst h; exact wS
          · exact la.wf_dom _
  have hT : (dictCube A2 B vS vD T P).ints .protocols = T.getD [⟨0, 255⟩] := by
    cases T <;> rfl
  have hother : ∀ p, OtherDims A2 B (dictCube A2 B vS vD T P) p ↔ ConnDict.Fits A2 B rg.keys ⟨S, D, T, P⟩ p := by
    intro p
    have mT : (connA A2 B).mem (p.1 .protocols) ((dictCube A2 B vS vD T P).val .protocols) = true ↔
        ∀ l, T = some l → ∃ n, p.1 .protocols = .inl n ∧ Mem n l := by
      cases T with
      | none => exact ⟨fun _ l h => by simp at h, fun _ => p.2 .protocols⟩
      | some l =>
        have hl := hd.protocols l rfl
        have : (connA A2 B).mem (p.1 .protocols) (.inl l) = true ↔ ∃ n, p.1 .protocols = .inl n ∧ Mem n l := by
          cases hp : p.1 Dim.protocols with
          | inl z => refine (mem_inl A2 B z _ hl.1).trans ?_; simp
          | inr z => constructor <;> intro h
                     · change false = true at h; simp at h
                     · simp at h
        refine Iff.trans this ?_
        exact ⟨fun h l' hl' => by cases hl'; exact h, fun h => h l rfl⟩
    constructor
    · intro h
      exact ⟨(mS p).1 (h .srcPeers (by decide) (by decide)), (mD p).1 (h .dstPeers (by decide) (by decide)),
        mT.1 (h .protocols (by decide) (by decide))⟩
    · rintro ⟨h1, h2, h3⟩ y _ hy
      by_cases a : y = .protocols
      · subst a; exact mT.2 h3
      · by_cases b : y = .dstPeers
        · subst b; exact (mD p).2 h2
        · by_cases e : y = .srcPeers
          · subst e; exact (mS p).2 h1
          · have : (dictCube A2 B vS vD T P).val y = (connA A2 B).dom y := by
              unfold dictCube; simp [hy, a, b, e]
            rw [this]; exact p.2 y
  have hint : ∀ {v : ISet ⊕ V2} {l}, v = .inl l → (match v with | .inl l => l | .inr _ => []) = l := by
    rintro _ _ rfl; rfl
  cases P with
  | none =>
    refine ⟨hcOfCube (connA A2 B) allDims (dictCube A2 B vS vD T none).val, ?_, (ofCube_spec L2 hc).1, fun p => ?_⟩
    · unfold makeFromDict
      rw [ec, Option.bind_some]
      unfold makeConnProps
      rw [if_pos ⟨rfl, rfl⟩]
    · rw [(ofCube_spec L2 hc).2, ← hother]
      refine ⟨fun h => ⟨fun y hy _ => h y hy, fun P hP => by simp at hP⟩, fun h y hy => ?_⟩
      by_cases a : y = .dstPorts
      · subst a; exact p.2 .dstPorts
      · exact h.1 y hy a
  | some P =>
    have hDs : ∃ Z, D = some Z := by
      cases D with
      | none => rcases hdst with h | h <;> simp at h
      | some Z => exact ⟨Z, rfl⟩
    obtain ⟨Z, hZ⟩ := hDs
    obtain ⟨l, hl, hlm⟩ := iD Z hZ
    have hv : ∀ z, Mem z ((dictCube A2 B vS vD T (some P)).ints .dstPeers) → (∃ x : Ip, z = x.idx) ∨ ∃ n : Nat, n < rg.keys.length ∧ z = minPodIndex + n := by
      intro z hz
      have : (dictCube A2 B vS vD T (some P)).ints .dstPeers = l := hint hl
      rw [this, hlm] at hz
      rcases hz with ⟨x, hx, _⟩ | ⟨n, k, hn, hk, _⟩
      · cases hx; exact Or.inl ⟨x, rfl⟩
      · cases hn; exact Or.inr ⟨n, (List.getElem?_eq_some_iff.1 hk).1, rfl⟩
    have hs : (dictCube A2 B vS vD T (some P)).excluded = ∅ ∨ ∃ z, Mem z B.idx ∧ ¬ Mem z ((dictCube A2 B vS vD T (some P)).ints .srcPeers) := by
      rcases hsrc with h | ⟨Y, z, hY, hz, hn⟩
      · exact Or.inl (h P rfl)
      · right
        obtain ⟨l', hl', hm'⟩ := iS Y hY
        refine ⟨z, hz, ?_⟩
        have : (dictCube A2 B vS vD T (some P)).ints .srcPeers = l' := hint hl'
        rw [this, hm']; exact hn
    obtain ⟨h, e, st, m⟩ := C43_named_ports L2 (ord := ord) hr hp hc hv hs
    refine ⟨h, ?_, st, fun p => (m p).trans (and_congr (hother p) ?_)⟩
    · unfold makeFromDict; rw [ec, Option.bind_some, e]
    · have hP : (dictCube A2 B vS vD T (some P)).ints .dstPorts = P.ports := rfl
      have h1 : (dictCube A2 B vS vD T (some P)).named = P.named := rfl
      have h2 : (dictCube A2 B vS vD T (some P)).excluded = P.excluded := rfl
      rw [hT, hP, h1, h2]
      exact ⟨fun h P' hP' => by cases hP'; exact h, fun h => h P rfl⟩

/-! ### The registered objects -/

/-- Registries reached by registering the pods of the configurations of a run, one after the other. -/
inductive PodReg.Reach : PodReg → List (String × NamedPorts) → Prop
  | empty : Reach [] []
  | add {r r' : PodReg} {l} (k : String) (ports : NamedPorts) : Reach r l → r.add k ports = some r' → Reach r' (l ++ [(k, ports)])

omit L2 in
/-- C43: the registered peers are in the order of their first registration, and each has the named ports of the
pod registered first under its name. -/
theorem C43_registered {r : PodReg} {l : List (String × NamedPorts)} (h : r.Reach l) :
    Base.Reach r.keys ∧ (∀ k, k ∈ r.keys ↔ k ∈ l.map (·.1)) ∧ ∀ k, r.named k = (l.lookup k).getD [] := by
  have lk : ∀ (a : List (String × NamedPorts)) k v j, (a ++ [(k, v)]).lookup j = (a.lookup j).or (if j == k then some v else none) := by
    intro a k v j
    rw [List.lookup_append]
    congr 1
    by_cases hjk : (j == k) = true <;> simp [List.lookup, hjk]
  have hnone : ∀ (a : List (String × NamedPorts)) j, j ∉ a.map (·.1) → a.lookup j = none := by
    intro a j hj
    rw [List.lookup_eq_none_iff]
    rintro p hp
    rw [bne_iff_ne]
    rintro rfl
    exact hj (List.mem_map.2 ⟨p, hp, rfl⟩)
  have hsome : ∀ (a : List (String × NamedPorts)) j, j ∈ a.map (·.1) → ∃ v, a.lookup j = some v := by
    intro a j hj
    cases h : a.lookup j with
    | some v => exact ⟨v, rfl⟩
    | none =>
      rw [List.lookup_eq_none_iff] at h
      obtain ⟨p, hp, rfl⟩ := List.mem_map.1 hj
      exact absurd rfl (bne_iff_ne.1 (h p hp))
  have main : Base.Reach r.keys ∧ (∀ k, k ∈ r.keys ↔ k ∈ l.map (·.1)) ∧ ∀ k, r.lookup k = l.lookup k := by
    induction h with
    | empty => exact ⟨.empty, fun k => by simp [PodReg.keys], fun k => rfl⟩
    | @add r r' l k ports _ e ih =>
      obtain ⟨i1, i2, i3⟩ := ih
      unfold PodReg.add at e
      have hkey : k ∈ r.keys ↔ k ∈ l.map (·.1) := i2 k
      by_cases hk : k ∈ r.map (·.1)
      · rw [if_pos hk] at e
        cases e
        refine ⟨i1, fun j => ?_, fun j => ?_⟩
        · rw [i2, List.map_append, List.mem_append]
          constructor
          · exact Or.inl
          · rintro (h | h)
            · exact h
            · simp at h; rw [h]; exact (i2 k).1 hk
        · rw [lk, i3]
          by_cases hj : j = k
          · subst hj
            obtain ⟨v, hv⟩ := hsome l j ((i2 j).1 hk)
            rw [hv]; rfl
          · have : (j == k) = false := by simpa using hj
            rw [this]; simp
      · rw [if_neg hk] at e
        by_cases hlen : r.length < maxPods
        · rw [if_pos hlen] at e
          cases e
          have hkeys : PodReg.keys (r ++ [(k, ports)]) = r.keys ++ [k] := by simp [PodReg.keys]
          refine ⟨?_, fun j => ?_, fun j => by rw [lk, lk, i3]⟩
          · rw [hkeys]
            refine i1.add (e := .pod k) ?_
            rw [Base.addPeer_pod, if_neg (show k ∉ r.keys from hk), if_pos (by rw [PodReg.keys, List.length_map]; exact hlen)]
          · rw [hkeys, List.map_append, List.mem_append, List.mem_append, i2]; rfl
        · rw [if_neg hlen] at e; cases e
  exact ⟨main.1, main.2.1, fun k => by rw [PodReg.named, main.2.2]⟩

omit L2 in
/-- C43: when all pods registered under a name have the same named ports, the registered object has the named ports of
every one of them; then the theorems above speak about the pods of each configuration. -/
theorem C43_registered_agree {r : PodReg} {l : List (String × NamedPorts)} (h : r.Reach l)
    (hl : ∀ k a b, (k, a) ∈ l → (k, b) ∈ l → a = b) {k : String} {ports : NamedPorts} (hk : (k, ports) ∈ l) : r.named k = ports := by
  rw [(C43_registered h).2.2]
  cases hlk : l.lookup k with
  | none =>
    rw [List.lookup_eq_none_iff] at hlk
    exact absurd rfl (bne_iff_ne.1 (hlk _ hk))
  | some v =>
    refine hl k v ports ?_ hk
    obtain ⟨l1, l2, rfl, _⟩ := List.lookup_eq_some_iff.1 hlk
    simp

omit L2 in
/-- C43: among the ports of the containers of a pod, a name stands for the last one that has it; the protocol is TCP
unless given. -/
theorem C43_pod_ports (ports : List (Option String × Int × Option String)) {name : String} (hn : name ≠ "") :
    (podPorts ports).lookup name = (ports.reverse.find? (fun p => decide (p.1 = some name))).map (fun p => (p.2.1, p.2.2.getD "TCP")) := by
  have key : ∀ (l : NamedPorts), (ports.foldl addNamedPort l).lookup name =
      ((ports.reverse.find? (fun p => decide (p.1 = some name))).map (fun p => (p.2.1, p.2.2.getD "TCP"))).or (l.lookup name) := by
    induction ports with
    | nil => intro l; rfl
    | cons p ports ih =>
      intro l
      rw [List.foldl_cons, ih, List.reverse_cons, List.find?_append, Option.map_or, Option.or_assoc]
      congr 1
      obtain ⟨s, num, pr⟩ := p
      cases s with
      | none => simp [addNamedPort]
      | some s =>
        by_cases hs : s = name
        · subst hs
          simp [addNamedPort, hn]
        · unfold addNamedPort
          dsimp only
          have : (name == s) = false := by simpa using Ne.symm hs
          split
          · simp [hs]
          · simp [hs, List.lookup, this]
  unfold podPorts
  rw [key []]
  simp

end
end Verif
