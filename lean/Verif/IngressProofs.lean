import Verif.IngressTextProofs
/-!
Lemmas for C53: the connections of the rules of Ingress resources.
-/
namespace Verif
open ISet IpBlock PeerSet

/-! ### Dimensions that are not used -/

section
variable {D V X : Type} [DecidableEq D] {A : VAlg D V X} {all : List D}

/-- The connections do not depend on the dimension, and do not mention it. -/
def HC.Idle (y : D) (h : HC D V) : Prop := h.truthy = true → y ∉ h.act

theorem HC.idle_empty (hall : all ≠ []) (y : D) : (HC.empty (V := V) all true).Idle y := by
  intro h
  cases all with
  | nil => exact absurd rfl hall
  | cons d ds => exact absurd h (by simp [HC.truthy, HC.empty, neT])

theorem HC.idle_full (y : D) (b : Bool) : (HC.full (V := V) b).Idle y := fun _ h => by simp [HC.full] at h

theorem HC.reduce_act (h : HC D V) {y : D} (hy : y ∈ (HC.reduce A all h).act) : y ∈ h.act := by
  unfold HC.reduce at hy
  split at hy
  · exact hy
  · dsimp only at hy
    split at hy
    · simp at hy
    · have := (List.mem_filter.1 hy).2
      rw [Bool.and_eq_true] at this
      exact of_decide_eq_true this.1

theorem HC.Idle.or {y : D} {h g : HC D V} (ih : h.Idle y) (ig : g.Idle y) : (HC.or A all h g).Idle y := by
  unfold HC.or
  split
  · exact HC.idle_full y _
  · split
    · exact ih
    · rename_i hg
      split
      · exact ig
      · rename_i hh
        have ih := ih (by simpa using hh)
        have ig := ig (by simpa using hg)
        intro _ hy
        have := HC.reduce_act _ hy
        have := (List.mem_filter.1 this).2
        rw [Bool.or_eq_true, decide_eq_true_eq, decide_eq_true_eq] at this
        exact this.elim ih ig

theorem HC.idle_ofCube (hall : all ≠ []) {v : D → V} {y : D} (hy : v y = A.dom y) : (hcOfCube A all v).Idle y := by
  unfold hcOfCube
  split
  · exact HC.idle_empty hall y
  · dsimp only
    split
    · exact HC.idle_full y _
    · unfold HC.addCube
      split
      · exact HC.idle_empty hall y
      · refine (HC.idle_empty hall y).or ?_
        unfold HC.fromCube
        split
        · intro h
          cases all with
          | nil => exact absurd rfl hall
          | cons d ds => exact absurd h (by simp [HC.truthy, HC.empty, neT])
        · dsimp only
          split
          · exact HC.idle_full y _
          · intro _ h
            have := (List.mem_filter.1 (List.mem_filter.1 h).1).2
            rw [hy] at this
            simp at this

end

namespace IngressParser
open Container CalicoParser IstioParser

section
variable {V2 X2 : Type} {A2 : VAlg Dim V2 X2} {W2 : Dim → V2 → Prop} {dfa : List Char → V2} {word : X2 → List Char} {D : V2 → Prop}
variable {B : PeerDom} {ord : SetOrder} {rg : PodReg} {c : Container}

theorem list_empty (ord : SetOrder) : ord.list ∅ = [] := by
  rw [List.eq_nil_iff_forall_not_mem]
  intro a ha
  exact absurd ((ord.mem _ _).1 ha) (Finset.notMem_empty _)

/-- Without excluded names, the connections do not mention the dimensions that the cube leaves open. -/
theorem makeConnProps_idle {k : ConnCube V2} (hx : k.excluded = ∅) {y : Dim} (h1 : y ≠ .dstPorts) (h2 : y ≠ .dstPeers)
    (hy : k.val y = (connA A2 B).dom y) {h : HC Dim (ISet ⊕ V2)} (e : makeConnProps A2 B ord rg k = some h) : h.Idle y := by
  have hne : allDims ≠ [] := by decide
  have step : ∀ (res : HC Dim (ISet ⊕ V2)) e' res', res.Idle y → destStep A2 B ord rg k res e' = some res' → res'.Idle y := by
    intro res e' res' hr hs
    unfold destStep at hs
    simp only [Option.bind_eq_bind] at hs
    obtain ⟨one, _, hs⟩ := Option.bind_eq_some_iff.1 hs
    obtain ⟨real, _, hs⟩ := Option.bind_eq_some_iff.1 hs
    obtain ⟨excl, hex, hs⟩ := Option.bind_eq_some_iff.1 hs
    rw [hx, list_empty] at hex
    have hex : PortSet.make false = excl := Option.some.inj hex
    subst hex
    have hs := Option.some.inj hs
    rw [if_neg (by decide)] at hs
    subst hs
    split
    · refine hr.or (HC.idle_ofCube hne ?_)
      rw [at_val, if_neg h2, if_neg h1]; exact hy
    · exact hr
  unfold makeConnProps at e
  split at e
  · cases e; exact HC.idle_ofCube hne hy
  · simp only [Option.bind_eq_bind] at e
    obtain ⟨dst, _, e⟩ := Option.bind_eq_some_iff.1 e
    have hinit : (if ISet.truthy (k.ints .dstPorts) then hcOfCube (connA A2 B) allDims k.val else HC.empty allDims true).Idle y := by
      split
      · exact HC.idle_ofCube hne hy
      · exact HC.idle_empty hne y
    revert e hinit
    generalize (if ISet.truthy (k.ints .dstPorts) then hcOfCube (connA A2 B) allDims k.val else HC.empty allDims true) = init
    intro e hinit
    clear * - e hinit step
    induction dst generalizing init with
    | nil => cases e; exact hinit
    | cons a dst ih =>
      rw [List.foldlM_cons] at e
      obtain ⟨r, hr, e⟩ := Option.bind_eq_some_iff.1 e
      exact ih r e (step _ _ _ hinit hr)

/-- What is left of the cube differs from it only at the destinations. -/
theorem leftCube_val {k : ConnCube V2} {h : HC Dim (ISet ⊕ V2)} (e : makeConnProps A2 B ord rg k = some h) :
    ∃ k', leftCube ord rg k = some k' ∧ ∀ y, y ≠ .dstPorts → y ≠ .dstPeers → k'.val y = k.val y := by
  unfold makeConnProps at e
  unfold leftCube
  split at e
  · rename_i hn
    rw [if_pos hn]
    exact ⟨k, rfl, fun _ _ _ => rfl⟩
  · rename_i hn
    rw [if_neg hn]
    simp only [Option.bind_eq_bind] at e
    obtain ⟨dst, ed, e⟩ := Option.bind_eq_some_iff.1 e
    rw [ed, Option.bind_some]
    have hinit : ∀ y, y ≠ .dstPorts → y ≠ .dstPeers →
        (if ISet.truthy (k.ints .dstPorts) then k.setPorts (some ⟨k.ints .dstPorts, ∅, ∅⟩) else k).val y = k.val y := by
      intro y h1 _
      split
      · show (if y = .dstPorts then _ else _) = _
        rw [if_neg h1]
      · rfl
    revert e hinit
    generalize (if ISet.truthy (k.ints .dstPorts) then hcOfCube (connA A2 B) allDims k.val else HC.empty allDims true) = init
    generalize (if ISet.truthy (k.ints .dstPorts) then k.setPorts (some ⟨k.ints .dstPorts, ∅, ∅⟩) else k) = cur
    intro e hcur
    clear ed
    induction dst generalizing init cur with
    | nil => exact ⟨cur, rfl, hcur⟩
    | cons a dst ih =>
      rw [List.foldlM_cons] at e
      obtain ⟨r, hr, e⟩ := Option.bind_eq_some_iff.1 e
      unfold destStep at hr
      simp only [Option.bind_eq_bind] at hr
      obtain ⟨one, h1, hr⟩ := Option.bind_eq_some_iff.1 hr
      obtain ⟨real, h2, hr⟩ := Option.bind_eq_some_iff.1 hr
      obtain ⟨excl, h3, hr⟩ := Option.bind_eq_some_iff.1 hr
      rw [List.foldlM_cons, h1, Option.bind_some, h2, Option.bind_some, h3, Option.map_some, Option.bind_eq_bind, Option.bind_some]
      refine ih r _ e fun y g1 g2 => ?_
      have set : ∀ (k' : ConnCube V2) (P : PortSet), ((k'.setPorts (some P)).set .dstPeers one).val y = k'.val y := by
        intro k' P
        rw [set_val, if_neg g2]
        show (if y = .dstPorts then _ else _) = _
        rw [if_neg g1]
      dsimp only
      split <;> split <;> simp only [set, hcur y g1 g2]

variable (L2 : A2.Lawful W2)

/-- The cube of a backend: hosts, paths, destinations and ports. -/
structure BackendCube (A2 : VAlg Dim V2 X2) (rg : PodReg) (k : ConnCube V2) (oh op : Option V2) (S : PeerSet String) (P : PortSet) : Prop where
  hosts : k.val .hosts = dfaVal A2 .hosts oh
  paths : k.val .paths = dfaVal A2 .paths op
  peers : ∃ l, Base.toIndices rg.keys S = some l ∧ k.val .dstPeers = .inl l
  ports : k.val .dstPorts = .inl P.ports
  named : k.named = P.named
  excluded : k.excluded = P.excluded
  others : ∀ y, y ≠ .hosts → y ≠ .paths → y ≠ .dstPeers → y ≠ .dstPorts → k.val y = (connA A2 PeerDom.default).dom y

/-- The words of a value of a dimension, all if there is none. -/
def InDfa (A2 : VAlg Dim V2 X2) (x : X2) (o : Option V2) : Prop := ∀ v, o = some v → A2.mem x v = true

/-- The connections of a backend. -/
theorem backend_conns (hC : K8sParser.Cluster rg c) {k : ConnCube V2} {oh op : Option V2} {S : PeerSet String} {P : PortSet}
    (hk : BackendCube A2 rg k oh op S P) {T : Place → Int → Prop} (hT : TargetSem rg c T S P) (wh : ∀ v, oh = some v → W2 .hosts v)
    (wp : ∀ v, op = some v → W2 .paths v) :
    ∃ h, makeConnProps A2 PeerDom.default ord rg k = some h ∧ HcStrongT (connA A2 PeerDom.default) (connWf W2 PeerDom.default) allDims h ∧
      h.Idle .srcPeers ∧ h.Idle .protocols ∧
      (∀ p src dst q xh xp, IsRequest word rg c p src dst q → p.1 .hosts = .inr xh → p.1 .paths = .inr xp →
        ((connNet L2 PeerDom.default).K.mem p h = true ↔ InDfa A2 xh oh ∧ InDfa A2 xp op ∧ T dst q.port)) ∧
      ∀ p, (connNet L2 PeerDom.default).K.mem p h = true → S.At rg.keys (p.1 .dstPeers) := by
  have la := connA_lawful PeerDom.default L2
  obtain ⟨l, el, ev⟩ := hk.peers
  have hm := at_iff (X2 := X2) hC.reach hT.ok el
  obtain ⟨cl, _, _, vl⟩ := Base.C22_to_indices_exact hC.reach hT.ok el
  have hdw : ∀ y, y.isDfa = true → ∀ v : Option V2, (∀ w, v = some w → W2 y w) → connWf W2 PeerDom.default y (dfaVal A2 y v) := by
    intro y hy v hv
    cases v with
    | none => exact la.wf_dom _
    | some w => exact ⟨hy, hv w rfl⟩
  have hlegal : k.Legal W2 PeerDom.default := by
    intro y
    by_cases h1 : y = .hosts
    · subst h1; rw [hk.hosts]; exact hdw _ rfl _ wh
    by_cases h2 : y = .paths
    · subst h2; rw [hk.paths]; exact hdw _ rfl _ wp
    by_cases h3 : y = .dstPeers
    · subst h3; rw [ev]
      exact ⟨rfl, cl, fun z hz => at_default hC.reach ((hm z).1 hz)⟩
    by_cases h4 : y = .dstPorts
    · subst h4; rw [hk.ports]
      exact ⟨rfl, hT.ports, fun z hz => mem_singleton.2 (hT.range z hz)⟩
    rw [hk.others y h1 h2 h3 h4]; exact la.wf_dom _
  have hints : k.ints .dstPeers = l := by unfold ConnCube.ints; rw [ev]
  have hpints : k.ints .dstPorts = P.ports := by unfold ConnCube.ints; rw [hk.ports]
  have hprot : k.ints .protocols = [⟨0, 255⟩] := by
    unfold ConnCube.ints
    rw [hk.others .protocols (by decide) (by decide) (by decide) (by decide)]; rfl
  have hexc : k.excluded = ∅ := by rw [hk.excluded, hT.excluded]
  obtain ⟨h, e, st, me⟩ := C43_named_ports L2 (ord := ord) hC.reach hC.ports hlegal (by rw [hints]; exact vl) (Or.inl hexc)
  have dq : ∀ p : Point (connA A2 PeerDom.default), (connA A2 PeerDom.default).mem (p.1 .dstPeers) (.inl l) = true ↔ S.At rg.keys (p.1 .dstPeers) := by
    intro p
    cases hz : p.1 .dstPeers with
    | inl z => exact (mem_inl A2 PeerDom.default z _ cl).trans (hm z)
    | inr z =>
      constructor
      · intro h; change false = true at h; simp at h
      · rintro (⟨_, h, _⟩ | ⟨_, _, h, _⟩) <;> simp at h
  refine ⟨h, e, st, makeConnProps_idle hexc (by decide) (by decide) (hk.others _ (by decide) (by decide) (by decide) (by decide)) e,
    makeConnProps_idle hexc (by decide) (by decide) (hk.others _ (by decide) (by decide) (by decide) (by decide)) e,
    fun p src dst q xh xp hp exh exp => (me p).trans ?_, fun p hp => (dq p).1 (ev ▸ ((me p).1 hp).1 .dstPeers (by decide) (by decide))⟩
  rw [hpints, hprot, hexc, hk.named]
  have dm : ∀ y x (v : Option V2), p.1 y = .inr x → ((connA A2 PeerDom.default).mem (p.1 y) (dfaVal A2 y v) = true ↔ InDfa A2 x v) := by
    intro y x v e
    cases v with
    | none => exact ⟨fun _ w h => (by cases h), fun _ => p.2 y⟩
    | some w => rw [e]; exact ⟨fun h w' e' => by cases e'; exact h, fun h => h w rfl⟩
  have dp : (connA A2 PeerDom.default).mem (p.1 .dstPeers) (.inl l) = true ↔ dst.In S := by
    rw [← at_place hC.reach hp.dst S]
    exact dq p
  have tcp : ∃ n, Proto.getNumber "TCP" = some n ∧ Mem n ([⟨0, 255⟩] : ISet) := ⟨6, by decide, mem_singleton.2 ⟨by decide, by decide⟩⟩
  have dn : dst.In S → ((∃ n k, p.1 .dstPeers = .inl (minPodIndex + (n : Nat)) ∧ rg.keys[n]? = some k ∧ NamesPort rg [⟨0, 255⟩] P.named k q.port) ↔
      ∃ name ∈ P.named, ∃ k, dst = .pod k ∧ (rg.named k).lookup name = some (q.port, "TCP")) := by
    intro hin
    constructor
    · rintro ⟨n, k', h1, h2, name, hname, pr, m, h3, _, _⟩
      obtain ⟨x, k'', rfl, h4⟩ := hT.tcp dst hin name hname
      obtain ⟨_, n', h5, h6⟩ := hp.dst
      rw [h1] at h5
      have : n = n' := by
        have h5 := Sum.inl.inj h5
        omega
      subst this
      rw [h2] at h6; cases h6
      rw [h3] at h4; cases h4
      exact ⟨name, hname, k', rfl, h3⟩
    · rintro ⟨name, hname, k', rfl, h3⟩
      obtain ⟨_, n, h5, h6⟩ := hp.dst
      obtain ⟨m, t1, t2⟩ := tcp
      exact ⟨n, k', h5, h6, name, hname, "TCP", m, h3, t1, t2⟩
  rw [← hT.mem dst q.port]
  unfold PortAt
  constructor
  · rintro ⟨h1, x, h2, h3, _⟩
    rw [hp.port] at h2; cases h2
    have hin : dst.In S := dp.1 (ev ▸ h1 .dstPeers (by decide) (by decide))
    rw [dn hin] at h3
    refine ⟨(dm .hosts xh oh exh).1 (hk.hosts ▸ h1 .hosts (by decide) (by decide)), (dm .paths xp op exp).1 (hk.paths ▸ h1 .paths (by decide) (by decide)),
      hin, h3⟩
  · rintro ⟨h1, h2, hin, h3⟩
    refine ⟨fun y _ hy => ?_, q.port, hp.port, by rw [dn hin]; exact h3, ?_⟩
    · by_cases g1 : y = .hosts
      · subst g1; rw [hk.hosts]; exact (dm _ _ _ exh).2 h1
      by_cases g2 : y = .paths
      · subst g2; rw [hk.paths]; exact (dm _ _ _ exp).2 h2
      by_cases g3 : y = .dstPeers
      · subst g3; rw [ev]; exact dp.2 hin
      rw [hk.others y g1 g2 g3 hy]; exact p.2 y
    · rintro ⟨n, k', _, _, name, hname, _⟩
      exact absurd hname (Finset.notMem_empty _)

/-! ### Connections by hosts, paths, places and ports -/

/-- The connections are those of the requests that `F` allows, of all sources and protocols. -/
structure ConnIs (word : X2 → List Char) (rg : PodReg) (c : Container) (h : HC Dim (ISet ⊕ V2)) (F : X2 → X2 → Place → Int → Prop) : Prop where
  strong : HcStrongT (connA A2 PeerDom.default) (connWf W2 PeerDom.default) allDims h
  src : h.Idle .srcPeers
  protocols : h.Idle .protocols
  mem : ∀ p src dst q xh xp, IsRequest word rg c p src dst q → p.1 .hosts = .inr xh → p.1 .paths = .inr xp →
    ((connNet L2 PeerDom.default).K.mem p h = true ↔ F xh xp dst q.port)
  inside : ∀ p, (connNet L2 PeerDom.default).K.mem p h = true → ∃ S : PeerSet String, InCluster c S ∧ S.At rg.keys (p.1 .dstPeers)

variable {L2}

theorem ConnIs.congr {h : HC Dim (ISet ⊕ V2)} {F G : X2 → X2 → Place → Int → Prop} (i : ConnIs L2 word rg c h F)
    (e : ∀ xh xp E x, A2.mem xh (A2.dom .hosts) = true → A2.mem xp (A2.dom .paths) = true → (F xh xp E x ↔ G xh xp E x)) : ConnIs L2 word rg c h G := by
  refine ⟨i.strong, i.src, i.protocols, fun p src dst q xh xp hp e1 e2 => (i.mem p src dst q xh xp hp e1 e2).trans (e _ _ _ _ ?_ ?_), i.inside⟩
  · have := p.2 .hosts
    rw [e1] at this
    exact this
  · have := p.2 .paths
    rw [e2] at this
    exact this

theorem ConnIs.or {h g : HC Dim (ISet ⊕ V2)} {F G : X2 → X2 → Place → Int → Prop} (i : ConnIs L2 word rg c h F) (j : ConnIs L2 word rg c g G) :
    ConnIs L2 word rg c (HC.or (connA A2 PeerDom.default) allDims h g) fun xh xp E x => F xh xp E x ∨ G xh xp E x := by
  have la := (connNet_lawful L2 PeerDom.default).1
  refine ⟨la.net.or_strong i.strong (la.net.strong_ok j.strong), i.src.or j.src, i.protocols.or j.protocols, fun p src dst q xh xp hp e1 e2 => ?_, fun p hp => ?_⟩
  · rw [IstioParser.mem_or_iff L2 (la.net.strong_ok i.strong) (la.net.strong_ok j.strong) p, i.mem p src dst q xh xp hp e1 e2, j.mem p src dst q xh xp hp e1 e2]
  · exact ((IstioParser.mem_or_iff L2 (la.net.strong_ok i.strong) (la.net.strong_ok j.strong) p).1 hp).elim (i.inside p) (j.inside p)

theorem ConnIs.empty : ConnIs L2 word rg c (HC.empty allDims true) fun _ _ _ _ => False :=
  ⟨(connNet_lawful L2 PeerDom.default).1.net.empty_strong, HC.idle_empty (by decide) _, HC.idle_empty (by decide) _,
    fun p _ _ _ _ _ _ _ _ => ⟨fun h => absurd h (IstioParser.mem_empty_iff L2 p), False.elim⟩, fun p h => absurd h (IstioParser.mem_empty_iff L2 p)⟩

/-- The default target. -/
def DefaultIs (rg : PodReg) (c : Container) (d : Target) (T : Place → Int → Prop) : Prop :=
  (somePeers d.peers = false ∧ ∀ E x, ¬ T E x) ∨ ∃ S P, d = ⟨some S, some P, true⟩ ∧ TargetSem rg c T S P

theorem TargetSem.peers {S : PeerSet String} {P : PortSet} {T : Place → Int → Prop} (h : TargetSem rg c T S P) : somePeers (some S) = true := by
  have := h.ne
  cases S with
  | nil => exact absurd rfl this
  | cons a S => rfl

/-- The indices of a target exist. -/
theorem TargetSem.indices (hC : K8sParser.Cluster rg c) {S : PeerSet String} {P : PortSet} {T : Place → Int → Prop} (h : TargetSem rg c T S P) :
    ∃ l, Base.toIndices rg.keys S = some l :=
  (Base.C22_to_indices_defined hC.reach h.ok).2 fun k hk => by
    obtain ⟨p, hp, e⟩ := h.inCluster k hk
    obtain ⟨k', e', hk'⟩ := hC.elem p hp
    rw [e] at e'
    cases e'
    exact hk'

theorem filter_truthy {o : Option V2} (h : ∀ v, o = some v → A2.truthy v = true) : o.filter A2.truthy = o := by
  cases o with
  | none => rfl
  | some v => rw [Option.filter_some, if_pos (h v rfl)]

/-- The connections of the default backend. -/
theorem default_sem (hC : K8sParser.Cluster rg c) {d : Target} {T : Place → Int → Prop} (hd : DefaultIs rg c d T) {oh op : Option V2}
    (wh : ∀ v, oh = some v → W2 .hosts v) (wp : ∀ v, op = some v → W2 .paths v) :
    ∃ h, defaultConns A2 PeerDom.default ord rg d oh op = some h ∧
      ConnIs L2 word rg c h fun xh xp E x => InDfa A2 xh (oh.filter A2.truthy) ∧ InDfa A2 xp (op.filter A2.truthy) ∧ T E x := by
  unfold defaultConns
  rcases hd with ⟨h1, h2⟩ | ⟨S, P, rfl, hT⟩
  · rw [if_neg (by rw [h1]; decide)]
    exact ⟨_, rfl, ConnIs.empty.congr fun _ _ E x _ _ => ⟨False.elim, fun h => h2 E x h.2.2⟩⟩
  · rw [if_pos hT.peers]
    obtain ⟨l, el⟩ := hT.indices hC
    have es : ((ConnCube.full A2 PeerDom.default).setPorts (some P)).setPeers rg .dstPeers (some S) =
        some (((ConnCube.full A2 PeerDom.default).setPorts (some P)).set .dstPeers l) := by
      unfold ConnCube.setPeers
      dsimp only
      rw [el]
      rfl
    dsimp only
    rw [es, Option.bind_some]
    have wf : ∀ {d : Dim} {o : Option V2}, (∀ v, o = some v → W2 d v) → ∀ v, o.filter A2.truthy = some v → W2 d v :=
      fun h v e => h v (Option.filter_eq_some_iff.1 e).1
    obtain ⟨h, e, i1, i2, i3, i4, i5⟩ := backend_conns (word := word) (ord := ord) L2 hC
      (k := setDfa (setDfa (((ConnCube.full A2 PeerDom.default).setPorts (some P)).set .dstPeers l) .hosts (oh.filter A2.truthy)) .paths (op.filter A2.truthy))
      (by
        generalize oh.filter A2.truthy = oh
        generalize op.filter A2.truthy = op
        refine ⟨?_, ?_, ⟨l, el, ?_⟩, ?_, ?_, ?_, fun y h1 h2 h3 h4 => ?_⟩
        · cases oh <;> cases op <;> rfl
        · cases oh <;> cases op <;> rfl
        · cases oh <;> cases op <;> rfl
        · cases oh <;> cases op <;> rfl
        · cases oh <;> cases op <;> rfl
        · cases oh <;> cases op <;> rfl
        · cases y <;> first | contradiction | (cases oh <;> cases op <;> rfl)) hT (wf wh) (wf wp)
    exact ⟨h, e, i1, i2, i3, i4, fun p hp => ⟨S, hT.inCluster, i5 p hp⟩⟩

/-! ### The paths of a rule -/

/-- The texts that are collected: `G` says which. -/
def Collected (A2 : VAlg Dim V2 X2) (W2 : Dim → V2 → Prop) (d : Dim) (o : Option V2) (G : X2 → Prop) : Prop :=
  (∀ v, o = some v → W2 d v) ∧ ∀ x, A2.mem x (A2.dom d) = true → ((∃ v, o = some v ∧ A2.mem x v = true) ↔ G x)

theorem Collected.join (L2 : A2.Lawful W2) {d : Dim} {o : Option V2} {G : X2 → Prop} (h : Collected A2 W2 d o G) {v : V2} (hv : W2 d v) :
    Collected A2 W2 d (some (joinDfa A2 o v)) fun x => G x ∨ A2.mem x v = true := by
  obtain ⟨h1, h2⟩ := h
  cases o with
  | none =>
    refine ⟨fun w e => (by cases e; exact hv), fun x hx => ?_⟩
    have := h2 x hx
    simp only [reduceCtorEq, false_and, exists_false, false_iff] at this
    simp [joinDfa, this]
  | some a =>
    have ha := h1 a rfl
    have h2 : ∀ x, A2.mem x (A2.dom d) = true → (A2.mem x a = true ↔ G x) := fun x hx => by simpa using h2 x hx
    unfold joinDfa
    dsimp only
    by_cases ht : A2.truthy a = true
    · rw [if_pos ht]
      refine ⟨fun w e => (by cases e; exact L2.wf_or ha hv), fun x hx => ?_⟩
      simp only [Option.some.injEq, exists_eq_left', L2.mem_or ha hv x, Bool.or_eq_true, h2 x hx]
    · rw [if_neg ht]
      refine ⟨fun w e => (by cases e; exact hv), fun x hx => ?_⟩
      have : ¬ G x := fun g => ht ((L2.truthy_iff ha).2 ⟨x, (h2 x hx).2 g⟩)
      simp [this]

/-- The loop over the paths. -/
theorem paths_fold (hC : K8sParser.Cluster rg c) {oh : Option V2} (wh : ∀ v, oh = some v → W2 .hosts v) (T : ParsedPath → Place → Int → Prop)
    (es : List (ParsedPath × V2)) (he : ∀ e ∈ es, W2 .paths e.2 ∧ ∃ S P, e.1.peers = some S ∧ e.1.ports = some P ∧ TargetSem rg c (T e.1) S P)
    {st : PathState V2} {F : X2 → X2 → Place → Int → Prop} {G : X2 → Prop}
    (hcube : ∀ y, y ≠ .dstPorts → y ≠ .dstPeers → y ≠ .paths → st.cube.val y = (setDfa (ConnCube.full A2 PeerDom.default) .hosts oh).val y)
    (hF : ConnIs L2 word rg c st.conns F) (hG : Collected A2 W2 .paths st.all G) :
    ∃ st', es.foldlM (pathStep A2 PeerDom.default ord rg) st = some st' ∧
      ConnIs L2 word rg c st'.conns (fun xh xp E x => F xh xp E x ∨ ∃ e ∈ es, InDfa A2 xh oh ∧ A2.mem xp e.2 = true ∧ T e.1 E x) ∧
      Collected A2 W2 .paths st'.all (fun x => G x ∨ ∃ e ∈ es, A2.mem x e.2 = true) ∧ (es ≠ [] → st'.all ≠ none) := by
  induction es generalizing st F G with
  | nil => exact ⟨st, rfl, hF.congr fun _ _ _ _ _ _ => by simp, by simpa using hG, fun h => absurd rfl h⟩
  | cons e es ih =>
    obtain ⟨hw, S, P, e1, e2, hT⟩ := he e (List.mem_cons_self ..)
    obtain ⟨l, el⟩ := hT.indices hC
    have eq : (st.cube.setPorts e.1.ports).setPeers rg .dstPeers e.1.peers = some ((st.cube.setPorts (some P)).set .dstPeers l) := by
      rw [e1, e2]
      unfold ConnCube.setPeers
      dsimp only
      rw [el]
      rfl
    have hval : ∀ y, (setDfa ((st.cube.setPorts (some P)).set .dstPeers l) .paths (some e.2)).val y =
        if y = .paths then .inr e.2 else if y = .dstPeers then .inl l else if y = .dstPorts then .inl P.ports else st.cube.val y := fun _ => rfl
    obtain ⟨h, eh, i1, i2, i3, i4, i5⟩ := backend_conns (word := word) (ord := ord) L2 hC (oh := oh) (op := some e.2) (S := S) (P := P)
      (k := setDfa ((st.cube.setPorts (some P)).set .dstPeers l) .paths (some e.2))
      (by
        refine ⟨?_, rfl, ⟨l, el, rfl⟩, rfl, rfl, rfl, fun y h1 h2 h3 h4 => ?_⟩
        · rw [hval, if_neg (by decide), if_neg (by decide), if_neg (by decide), hcube _ (by decide) (by decide) (by decide)]
          cases oh <;> rfl
        · rw [hval, if_neg h2, if_neg h3, if_neg h4, hcube y h4 h3 h2]
          cases oh with
          | none => rfl
          | some v => exact if_neg h1) hT wh (fun v h => by cases h; exact hw)
    obtain ⟨k', ek, hk'⟩ := leftCube_val eh
    have hst : pathStep A2 PeerDom.default ord rg st e = some ⟨k', HC.or (connA A2 PeerDom.default) allDims st.conns h, some (joinDfa A2 st.all e.2)⟩ := by
      unfold pathStep
      rw [eq, Option.bind_some, eh, Option.bind_some, ek, Option.map_some]
    have hj := hG.join L2 hw
    obtain ⟨st', f1, f2, f3, f4⟩ := ih (fun e' h' => he e' (List.mem_cons_of_mem _ h'))
      (st := ⟨k', HC.or (connA A2 PeerDom.default) allDims st.conns h, some (joinDfa A2 st.all e.2)⟩)
      (fun y h1 h2 h3 => by
        rw [hk' y h1 h2, hval, if_neg h3, if_neg h2, if_neg h1]
        exact hcube y h1 h2 h3) (hF.or (G := fun xh xp E x => InDfa A2 xh oh ∧ InDfa A2 xp (some e.2) ∧ T e.1 E x) ⟨i1, i2, i3, i4, fun p hp => ⟨S, hT.inCluster, i5 p hp⟩⟩) hj
    refine ⟨st', ?_, f2.congr fun xh xp E x _ _ => ?_, ?_, fun _ h => ?_⟩
    · rw [List.foldlM_cons, hst]
      exact f1
    · rw [List.exists_mem_cons_iff, or_assoc]
      refine or_congr_right (or_congr_left (and_congr_right fun _ => and_congr_left fun _ => ?_))
      exact ⟨fun h => h e.2 rfl, fun h v e => by cases e; exact h⟩
    · refine ⟨f3.1, fun x hx => (f3.2 x hx).trans ?_⟩
      dsimp only
      rw [List.exists_mem_cons_iff, or_assoc]
    · by_cases hes : es = []
      · subst hes
        cases f1
        cases h
      · exact f4 hes h

/-- What becomes of a path (the rest is for paths outside of the theorems). -/
def ppOf (cls : Char → Bool) (svcs : List (String × Svc)) (ns : Ns) (d : Target) (p : PathText) : ParsedPath :=
  ((parsePath cls svcs ns d p).getD none).getD ⟨[], false, none, none⟩

theorem parsePath_sem (hC : K8sParser.Cluster rg c) {cls : Char → Bool} (hw : ∀ a, Letter a → a ∉ ['.', '/', '-'] → cls a = true) {l : List SvcText}
    (hl : SvcsTame rg c l) {ns : Ns} (hns : '/' ∉ ns.name.toList) {d : Target} {p : PathText} (hp : p.Tame ∧ p.backend.Tame c l ns) :
    let svcs := l.map fun s => (fullName s.name s.ns, svcOf rg c s)
    parsePath cls svcs ns d p = some (some (ppOf cls svcs ns d p)) ∧ Reads p (ppOf cls svcs ns d p) ∧
      ∃ S P, (ppOf cls svcs ns d p).peers = some S ∧ (ppOf cls svcs ns d p).ports = some P ∧ TargetSem rg c (BackendIs rg c l ns p.backend) S P := by
  intro svcs
  obtain ⟨hp, hb⟩ := hp
  obtain ⟨S, P, e, hT⟩ := parseBackend_sem hC hl hns hb false
  obtain ⟨t, ep, hlet, _⟩ := hp
  have hv : validPath cls ('/' :: t) = true := by
    unfold validPath
    rw [Bool.and_eq_true, decide_eq_true_eq, List.all_eq_true]
    refine ⟨rfl, fun a ha => ?_⟩
    rw [Bool.or_eq_true, decide_eq_true_eq]
    by_cases hm : a ∈ ['.', '/', '-']
    · exact Or.inr hm
    · refine Or.inl (hw a ?_ hm)
      rcases List.mem_cons.1 ha with rfl | ha
      · exact slash_letter
      · exact (hlet a ha).1
  have hpp : parsePath cls svcs ns d p = some (some ⟨if p.type = .exact then '/' :: t else dropSlash ('/' :: t), decide (p.type = .exact), some S, some P⟩) := by
    unfold parsePath
    rw [e, Option.bind_some]
    dsimp only
    rw [if_neg (by rw [hT.peers]; decide), if_pos hT.peers, ep]
    dsimp only
    rw [if_neg (by rw [hv]; decide)]
  have hof : ppOf cls svcs ns d p = ⟨if p.type = .exact then '/' :: t else dropSlash ('/' :: t), decide (p.type = .exact), some S, some P⟩ := by
    unfold ppOf
    rw [hpp]
    rfl
  refine ⟨by rw [hpp, hof], ?_, S, P, by rw [hof], by rw [hof], hT⟩
  rw [hof]
  unfold Reads
  rw [ep]
  exact ⟨rfl, rfl⟩

/-- The texts of the dimension of paths. -/
def IsPath (w : List Char) : Prop := ∃ t, w = '/' :: t ∧ ∀ a ∈ t, Letter a

/-- The default backend is for the request, as the code sees it: no path of the rule matches; or every path matches, since
then the code takes the empty remainder for all paths. -/
def Unmatched (l : List PathText) (w : List Char) : Prop := (∀ p ∈ l, ¬ PathSays p w) ∨ ∀ w', IsPath w' → ∃ p ∈ l, PathSays p w'

/-- A path that none of the rule matches, if there is no prefix `/`. -/
theorem other_path {l : List PathText} (ht : ∀ p ∈ l, p.Tame) (hr : ∀ p ∈ l, p.type = .exact ∨ p.path ≠ some ['/']) :
    ∃ w, IsPath w ∧ ∀ p ∈ l, ¬ PathSays p w := by
  obtain ⟨n, hn⟩ : ∃ n, ∀ p ∈ l, (p.path.getD []).length ≤ n := by
    clear ht hr
    induction l with
    | nil => exact ⟨0, fun p hp => absurd hp List.not_mem_nil⟩
    | cons a l ih =>
      obtain ⟨n, hn⟩ := ih
      refine ⟨n + (a.path.getD []).length, fun p hp => ?_⟩
      rcases List.mem_cons.1 hp with rfl | hp
      · omega
      · have := hn p hp
        omega
  have hlet : ∀ a ∈ List.replicate n 'a', Letter a := fun a ha => by
    rw [List.eq_of_mem_replicate ha]
    exact Or.inl (by decide)
  refine ⟨'/' :: List.replicate n 'a', ⟨_, rfl, hlet⟩, fun p hp h => ?_⟩
  have hn := hn p hp
  obtain ⟨t, e, _, _⟩ := ht p hp
  unfold PathSays at h
  by_cases hx : p.type = .exact
  · rw [if_pos hx] at h
    rw [h, Option.getD_some, List.length_cons, List.length_replicate] at hn
    omega
  · rw [if_neg hx] at h
    obtain ⟨s, es, h⟩ := h
    have hs := (hr p hp).resolve_left hx
    rw [elems_prefix, trim_eq] at h
    rw [es] at hn
    have hlen : (dropSlash s).length ≤ s.length := by
      unfold dropSlash
      split
      · rw [List.length_dropLast]; omega
      · exact Nat.le_refl _
    rcases h with h | ⟨r, h⟩
    · have := congrArg List.length h
      simp at this hn
      omega
    · cases hd : dropSlash s with
      | nil =>
        rw [e] at es
        cases es
        unfold dropSlash at hd
        split at hd
        · rename_i hl
          have : t = [] := by
            cases t with
            | nil => rfl
            | cons b t => simp at hd
          subst this
          exact hs e
        · simp at hd
      | cons b s' =>
        rw [hd, List.cons_append] at h
        have h := (List.cons.inj h).2
        have : '/' ∈ List.replicate n 'a' := by rw [h]; simp
        exact absurd (List.eq_of_mem_replicate this) (by decide)

/-- The remainder, which counts as everything if it is empty. -/
theorem rest_iff (L2 : A2.Lawful W2) {d : Dim} {v : V2} (hv : W2 d v) {ι : Type} {l : List ι} {sat : ι → List Char → Prop} {Is : List Char → Prop}
    (hm : ∀ x, A2.mem x v = true ↔ A2.mem x (A2.dom d) = true ∧ ∀ r ∈ l, ¬ sat r (word x)) {x : X2} (hx : A2.mem x (A2.dom d) = true)
    (he : ∀ w, Is w → ∃ x, word x = w ∧ A2.mem x (A2.dom d) = true) (hi : ∀ x, A2.mem x (A2.dom d) = true → Is (word x)) :
    InDfa A2 x ((some v).filter A2.truthy) ↔ (∀ r ∈ l, ¬ sat r (word x)) ∨ ∀ w, Is w → ∃ r ∈ l, sat r w := by
  rw [Option.filter_some]
  by_cases ht : A2.truthy v = true
  · rw [if_pos ht]
    obtain ⟨x0, h0⟩ := (L2.truthy_iff hv).1 ht
    constructor
    · exact fun h => Or.inl ((hm x).1 (h v rfl)).2
    · rintro (h | h) v' e
      · cases e; exact (hm x).2 ⟨hx, h⟩
      · obtain ⟨r, hr, h⟩ := h _ (hi x0 ((hm x0).1 h0).1)
        exact absurd h (((hm x0).1 h0).2 r hr)
  · rw [if_neg ht]
    refine ⟨fun _ => Or.inr fun w hw => ?_, fun _ v e => (by cases e)⟩
    obtain ⟨x0, rfl, h0⟩ := he w hw
    by_contra hc
    exact ht ((L2.truthy_iff hv).2 ⟨x0, (hm x0).2 ⟨h0, fun r hr h => hc ⟨r, hr, h⟩⟩⟩)

/-- The connections of a rule. -/
theorem paths_sem (hC : K8sParser.Cluster rg c) (hD : IngressLib A2 W2 dfa word D) {cls : Char → Bool}
    (hw : ∀ a, Letter a → a ∉ ['.', '/', '-'] → cls a = true) {l : List SvcText} (hl : SvcsTame rg c l) {ns : Ns} (hns : '/' ∉ ns.name.toList)
    {d : Target} {T : Place → Int → Prop} (hd : DefaultIs rg c d T) {oh : Option V2} (wh : ∀ v, oh = some v → W2 .hosts v ∧ A2.truthy v = true)
    {ps : List PathText} (hne : ps ≠ []) (hp : ∀ p ∈ ps, p.Tame ∧ p.backend.Tame c l ns)
    (hdf : ps.Pairwise fun p p' => ¬ (p.norm = p'.norm ∧ (p.type = .exact ↔ p'.type = .exact))) :
    ∃ h, pathsConns A2 dfa PeerDom.default ord rg cls (l.map fun s => (fullName s.name s.ns, svcOf rg c s)) ns d oh ps = some h ∧
      ConnIs L2 word rg c h fun xh xp E x => InDfa A2 xh oh ∧ ((∃ p, Wins ps p (word xp) ∧ BackendIs rg c l ns p.backend E x) ∨
        Unmatched ps (word xp) ∧ T E x) := by
  have hps := fun p h => parsePath_sem hC hw hl hns (d := d) (hp p h)
  have ht : ∀ p ∈ ps, p.Tame := fun p h => (hp p h).1
  revert hps
  generalize (l.map fun s => (fullName s.name s.ns, svcOf rg c s)) = svcs
  intro hps
  obtain ⟨g1, g2⟩ := segregate_sem hD ht hdf (pp := ppOf cls svcs ns d) fun p h => (hps p h).2.1
  have hmap : ps.mapM (parsePath cls svcs ns d) = some (ps.map fun p => some (ppOf cls svcs ns d p)) := mapM_some ps _ _ fun p h => (hps p h).1
  have hsne : segregate A2 dfa (ps.map (ppOf cls svcs ns d)) ≠ [] := by
    intro h
    cases ps with
    | nil => exact hne rfl
    | cons p ps =>
      obtain ⟨e, he, _⟩ := g2 p (List.mem_cons_self ..)
      rw [h] at he
      exact absurd he List.not_mem_nil
  have hwf : ∀ {v : V2} {G : X2 → Prop}, D v → (∀ x, A2.mem x v = true ↔ A2.mem x (A2.dom .paths) = true ∧ G x) → W2 .paths v :=
    fun hv h => hD.legal rfl hv fun x hx => ((h x).1 hx).1
  have huniq : ∀ p ∈ ps, ∀ p' ∈ ps, ppOf cls svcs ns d p = ppOf cls svcs ns d p' → p = p' := fun p h p' h' e => by
    refine pairwise_eq (R := fun p p' : PathText => p.norm = p'.norm ∧ (p.type = .exact ↔ p'.type = .exact))
      (fun _ _ h => ⟨h.1.symm, h.2.symm⟩) hdf h h' ⟨?_, ?_⟩
    · rw [← (hps p h).2.1.norm, ← (hps p' h').2.1.norm, e]
    · rw [← decide_eq_decide, ← (hps p h).2.1.1, ← (hps p' h').2.1.1, e]
  have he : ∀ e ∈ segregate A2 dfa (ps.map (ppOf cls svcs ns d)), W2 .paths e.2 ∧ ∃ S P, e.1.peers = some S ∧ e.1.ports = some P ∧
      TargetSem rg c (fun E x => ∃ p ∈ ps, e.1 = ppOf cls svcs ns d p ∧ BackendIs rg c l ns p.backend E x) S P := by
    intro e he
    obtain ⟨p, hp, e1, e2, e3⟩ := g1 e he
    obtain ⟨S, P, h1, h2, h3⟩ := (hps p hp).2.2
    refine ⟨hwf e2 e3, S, P, by rw [e1, h1], by rw [e1, h2], { h3 with mem := fun E x => (h3.mem E x).trans ⟨fun h => ⟨p, hp, e1, h⟩, ?_⟩ }⟩
    rintro ⟨p', hp', e', h⟩
    rw [huniq p hp p' hp' (e1.symm.trans e')]
    exact h
  obtain ⟨st, f1, f2, f3, f4⟩ := paths_fold (word := word) (ord := ord) (L2 := L2) hC (oh := oh) (fun v h => (wh v h).1)
    (fun q E x => ∃ p ∈ ps, q = ppOf cls svcs ns d p ∧ BackendIs rg c l ns p.backend E x)
    (segregate A2 dfa (ps.map (ppOf cls svcs ns d))) he
    (st := ⟨setDfa (ConnCube.full A2 PeerDom.default) .hosts oh, HC.empty allDims true, none⟩) (fun _ _ _ _ => rfl) ConnIs.empty
    (G := fun _ => False) ⟨fun v h => (by cases h), fun x _ => (by simp)⟩
  have hall : ∀ x, A2.mem x (A2.dom .paths) = true → ((∃ e ∈ segregate A2 dfa (ps.map (ppOf cls svcs ns d)), A2.mem x e.2 = true) ↔ ∃ p ∈ ps, PathSays p (word x)) := by
    intro x hx
    constructor
    · rintro ⟨e, he, hm⟩
      obtain ⟨p, hp, _, _, e3⟩ := g1 e he
      exact ⟨p, hp, ((e3 x).1 hm).2.2.1⟩
    · rintro ⟨p, hp, h⟩
      obtain ⟨p', h'⟩ := wins_exists ht hdf hp h
      obtain ⟨e, he, _, e3⟩ := g2 p' h'.1
      exact ⟨e, he, (e3 x).2 ⟨hx, h'⟩⟩
  have hfm : (ps.map fun p => some (ppOf cls svcs ns d p)).filterMap id = ps.map (ppOf cls svcs ns d) := by
    clear * -
    induction ps with
    | nil => rfl
    | cons p ps ih => rw [List.map_cons, List.filterMap_cons, List.map_cons, ih]; rfl
  cases ea : st.all with
  | none => exact absurd ea (f4 hsne)
  | some a =>
    rw [ea] at f3
    have wa : W2 .paths a := f3.1 a rfl
    have ma : ∀ x, A2.mem x (A2.dom .paths) = true → (A2.mem x a = true ↔ ∃ p ∈ ps, PathSays p (word x)) := by
      intro x hx
      rw [← hall x hx]
      simpa using f3.2 x hx
    have wd := L2.wf_dom .paths
    have mr : ∀ x, A2.mem x (A2.sub (A2.dom .paths) a) = true ↔ A2.mem x (A2.dom .paths) = true ∧ ∀ p ∈ ps, ¬ PathSays p (word x) := by
      intro x
      rw [L2.mem_sub wd wa, Bool.and_eq_true, Bool.not_eq_true', Bool.eq_false_iff]
      refine and_congr_right fun hx => ?_
      rw [Ne, ma x hx]
      exact ⟨fun h p hp h' => h ⟨p, hp, h'⟩, fun h ⟨p, hp, h'⟩ => h p hp h'⟩
    obtain ⟨g, eg, ig⟩ := default_sem (word := word) (ord := ord) (L2 := L2) hC hd (oh := oh) (op := some (A2.sub (A2.dom .paths) a)) (fun v h => (wh v h).1)
      (fun v h => by cases h; exact L2.wf_sub wd wa)
    refine ⟨HC.or (connA A2 PeerDom.default) allDims st.conns g, ?_, (f2.or ig).congr fun xh xp E x _ hxp => ?_⟩
    · unfold pathsConns
      rw [hmap, Option.bind_some, hfm]
      cases hc : ps.map (ppOf cls svcs ns d) with
      | nil => exact absurd (List.map_eq_nil_iff.1 hc) hne
      | cons q qs =>
        dsimp only
        rw [← hc, f1, Option.bind_some, ea]
        dsimp only
        rw [eg, Option.map_some]
    · rw [filter_truthy fun v h => (wh v h).2, false_or, and_or_left]
      refine or_congr ?_ ?_
      · constructor
        · rintro ⟨e, he, h1, h2, p, hp, e', h3⟩
          obtain ⟨p', hp', e1, _, e3⟩ := g1 e he
          rw [huniq p hp p' hp' (e'.symm.trans e1)] at h3
          exact ⟨h1, p', ((e3 xp).1 h2).2, h3⟩
        · rintro ⟨h1, p, h2, h3⟩
          obtain ⟨e, he, e1, e3⟩ := g2 p h2.1
          exact ⟨e, he, h1, (e3 xp).2 ⟨hxp, h2⟩, p, h2.1, e1, h3⟩
      · refine and_congr_right fun _ => and_congr_left fun _ => ?_
        refine rest_iff L2 (L2.wf_sub wd wa) mr hxp (fun w hw => ?_) fun x hx => (hD.paths x).1 hx
        obtain ⟨t, rfl, ht⟩ := hw
        obtain ⟨x0, e0⟩ := hD.every ('/' :: t) (fun a ha => by
          rcases List.mem_cons.1 ha with rfl | ha
          · exact slash_letter
          · exact ht a ha)
        exact ⟨x0, e0, (hD.paths x0).2 ⟨t, e0, ht⟩⟩

/-! ### Hosts -/

/-- What the code takes as the hosts of a rule. -/
def HostsRead (h : Option (List Char)) (w : List Char) : Prop := ∀ s, h = some s → HostRead s w

theorem host_sem (hD : IngressLib A2 W2 dfa word D) (L2 : A2.Lawful W2) {cls : Char → Bool} (hw : ∀ a, Letter a → a ∉ ['.', '/', '-'] → cls a = true)
    {h : Option (List Char)} (hh : ∀ s, h = some s → HostLegal s) :
    ∃ oh, hostValue A2 dfa cls h = some oh ∧ (∀ v, oh = some v → W2 .hosts v ∧ A2.truthy v = true) ∧ (oh = none ↔ h = none) ∧
      ∀ x, InDfa A2 x oh ↔ HostsRead h (word x) := by
  cases h with
  | none => exact ⟨none, rfl, fun v h => (by cases h), by simp, fun x => ⟨fun _ s h => (by cases h), fun _ v h => (by cases h)⟩⟩
  | some s =>
    obtain ⟨v, e, hv, hdom, hm⟩ := hostValue_sem hD hw (hh s rfl)
    have wv : W2 .hosts v := hD.legal rfl hv hdom
    have hwit : ∃ x, HostRead s (word x) := by
      obtain ⟨_, ⟨_, hs⟩ | ⟨t, rfl, _, ht⟩⟩ := hh s rfl
      · obtain ⟨x, hx⟩ := hD.every s hs
        exact ⟨x, Or.inl ⟨‹_›, hx⟩⟩
      · obtain ⟨x, hx⟩ := hD.every ('a' :: '.' :: t) (fun a ha => by
          rcases List.mem_cons.1 ha with rfl | ha
          · exact Or.inl (by decide)
          · rcases List.mem_cons.1 ha with rfl | ha
            · exact Or.inr (Or.inr (Or.inl rfl))
            · exact ht a ha)
        refine ⟨x, Or.inr ⟨t, ['a'], rfl, hx, fun a ha => ?_⟩⟩
        rw [List.mem_singleton.1 ha]
        exact Or.inl (by decide)
    refine ⟨some v, e, fun v' h => ?_, by simp, fun x => ?_⟩
    · cases h
      obtain ⟨x, hx⟩ := hwit
      exact ⟨wv, (L2.truthy_iff wv).2 ⟨x, (hm x).2 hx⟩⟩
    · constructor
      · intro h s' e
        cases e
        exact (hm x).1 (h v rfl)
      · intro h v' e
        cases e
        exact (hm x).2 (h s rfl)

/-- A host that no rule is for, if all rules have hosts. -/
theorem other_host {l : List IngressRule} (hne : ∀ r ∈ l, r.host ≠ none) :
    ∃ w, (∀ a ∈ w, Letter a) ∧ ∀ r ∈ l, ¬ HostsRead r.host w := by
  obtain ⟨n, hn⟩ : ∃ n, ∀ r ∈ l, (r.host.getD []).length < n := by
    clear hne
    induction l with
    | nil => exact ⟨0, fun p hp => absurd hp List.not_mem_nil⟩
    | cons a l ih =>
      obtain ⟨n, hn⟩ := ih
      refine ⟨n + (a.host.getD []).length + 1, fun p hp => ?_⟩
      rcases List.mem_cons.1 hp with rfl | hp
      · omega
      · have := hn p hp
        omega
  have hlet : ∀ a ∈ List.replicate n 'a', Letter a := fun a ha => by
    rw [List.eq_of_mem_replicate ha]
    exact Or.inl (by decide)
  refine ⟨List.replicate n 'a', hlet, fun r hr h => ?_⟩
  have hn := hn r hr
  cases e : r.host with
  | none => exact hne r hr e
  | some s =>
    rw [e, Option.getD_some] at hn
    rcases h s e with h | ⟨t, u, _, h, _⟩
    · have := congrArg List.length h.2
      rw [List.length_replicate] at this
      omega
    · have : '.' ∈ List.replicate n 'a' := by rw [h]; simp
      exact absurd (List.eq_of_mem_replicate this) (by decide)

/-! ### Rules -/

/-- The rule forwards the request, as the code sees it. -/
def RuleReads (rg : PodReg) (c : Container) (l : List SvcText) (ns : Ns) (T : Place → Int → Prop) (r : IngressRule) (host path : List Char)
    (E : Place) (x : Int) : Prop :=
  HostsRead r.host host ∧ ((∃ p, Wins r.paths p path ∧ BackendIs rg c l ns p.backend E x) ∨ Unmatched r.paths path ∧ T E x)

theorem rule_sem (hC : K8sParser.Cluster rg c) (hD : IngressLib A2 W2 dfa word D) {cls : Char → Bool}
    (hw : ∀ a, Letter a → a ∉ ['.', '/', '-'] → cls a = true) {l : List SvcText} (hl : SvcsTame rg c l) {ns : Ns} (hns : '/' ∉ ns.name.toList)
    {d : Target} {T : Place → Int → Prop} (hd : DefaultIs rg c d T) {r : IngressRule} (hr : r.Tame c l ns) :
    ∃ h oh, parseRule A2 dfa PeerDom.default ord rg cls (l.map fun s => (fullName s.name s.ns, svcOf rg c s)) ns d r = some (h, oh) ∧
      ConnIs L2 word rg c h (fun xh xp E x => RuleReads rg c l ns T r (word xh) (word xp) E x) ∧
      (∀ v, oh = some v → W2 .hosts v ∧ A2.truthy v = true) ∧ (oh = none ↔ r.host = none) ∧ ∀ x, InDfa A2 x oh ↔ HostsRead r.host (word x) := by
  obtain ⟨oh, e, h1, h2, h3⟩ := host_sem hD L2 hw hr.host
  unfold parseRule
  rw [e, Option.bind_some]
  obtain ⟨host, http⟩ := r
  cases http with
  | none => exact absurd rfl hr.http
  | some o =>
    cases o with
    | none =>
      obtain ⟨g, eg, ig⟩ := default_sem (word := word) (ord := ord) (L2 := L2) hC hd (oh := oh) (op := none) (fun v h => (h1 v h).1) (fun v h => by cases h)
      dsimp only
      rw [eg, Option.map_some]
      refine ⟨_, oh, rfl, (ConnIs.empty.or ig).congr fun xh xp E x _ _ => ?_, h1, h2, h3⟩
      rw [filter_truthy fun v h => (h1 v h).2, false_or, h3]
      unfold RuleReads IngressRule.paths
      refine and_congr_right fun _ => ?_
      constructor
      · exact fun h => Or.inr ⟨Or.inl fun p hp => absurd hp List.not_mem_nil, h.2⟩
      · rintro (⟨p, h, _⟩ | h)
        · exact absurd h.1 List.not_mem_nil
        · exact ⟨fun v h => (by cases h), h.2⟩
    | some ps =>
      have hne : ps ≠ [] := by
        rintro rfl
        exact hr.given rfl
      obtain ⟨h, eh, ih⟩ := paths_sem (L2 := L2) (ord := ord) hC hD hw hl hns hd h1 hne hr.paths hr.differ
      refine ⟨h, oh, ?_, ih.congr fun xh xp E x _ _ => ?_, h1, h2, h3⟩
      · cases ps with
        | nil => exact absurd rfl hne
        | cons p ps =>
          dsimp only
          rw [eh, Option.map_some]
      · rw [h3]
        rfl

/-- The loop over the rules. -/
theorem rules_fold (hC : K8sParser.Cluster rg c) (hD : IngressLib A2 W2 dfa word D) {cls : Char → Bool}
    (hw : ∀ a, Letter a → a ∉ ['.', '/', '-'] → cls a = true) {l : List SvcText} (hl : SvcsTame rg c l) {ns : Ns} (hns : '/' ∉ ns.name.toList)
    {d : Target} {T : Place → Int → Prop} (hd : DefaultIs rg c d T) (rs : List IngressRule) (hr : ∀ r ∈ rs, r.Tame c l ns)
    {st : HC Dim (ISet ⊕ V2) × Option V2} {F : X2 → X2 → Place → Int → Prop} {G : X2 → Prop}
    (hF : ConnIs L2 word rg c st.1 F) (hG : Collected A2 W2 .hosts st.2 G) :
    ∃ st', rs.foldlM (ruleStep A2 dfa PeerDom.default ord rg cls (l.map fun s => (fullName s.name s.ns, svcOf rg c s)) ns d) st = some st' ∧
      ConnIs L2 word rg c st'.1 (fun xh xp E x => F xh xp E x ∨ ∃ r ∈ rs, RuleReads rg c l ns T r (word xh) (word xp) E x) ∧
      Collected A2 W2 .hosts st'.2 (fun x => G x ∨ ∃ r ∈ rs, HostsRead r.host (word x)) ∧ (rs ≠ [] → st'.2 ≠ none) := by
  induction rs generalizing st F G with
  | nil => exact ⟨st, rfl, hF.congr fun _ _ _ _ _ _ => by simp, by simpa using hG, fun h => absurd rfl h⟩
  | cons r rs ih =>
    obtain ⟨h, oh, e, i, h1, h2, h3⟩ := rule_sem (L2 := L2) (ord := ord) hC hD hw hl hns hd (hr r (List.mem_cons_self ..))
    have hst : ∃ o, ruleStep A2 dfa PeerDom.default ord rg cls (l.map fun s => (fullName s.name s.ns, svcOf rg c s)) ns d st r =
        some (HC.or (connA A2 PeerDom.default) allDims st.1 h, some o) ∧
        Collected A2 W2 .hosts (some o) fun x => G x ∨ HostsRead r.host (word x) := by
      unfold ruleStep
      rw [e, Option.map_some]
      dsimp only
      rw [filter_truthy fun v h => (h1 v h).2]
      cases oh with
      | none =>
        refine ⟨_, rfl, fun v e => (by cases e; exact L2.wf_dom _), fun x hx => ⟨fun _ => Or.inr ?_, fun _ => ⟨_, rfl, hx⟩⟩⟩
        rw [h2.1 rfl]
        exact fun s e => by cases e
      | some v =>
        have hj := hG.join L2 (h1 v rfl).1
        refine ⟨_, rfl, hj.1, fun x hx => (hj.2 x hx).trans (or_congr_right ?_)⟩
        rw [← h3 x]
        exact ⟨fun h v' e => by cases e; exact h, fun h => h v rfl⟩
    obtain ⟨o, hst, hcol⟩ := hst
    obtain ⟨st', f1, f2, f3, f4⟩ := ih (fun r' h' => hr r' (List.mem_cons_of_mem _ h'))
      (st := (HC.or (connA A2 PeerDom.default) allDims st.1 h, some o)) (hF.or i) hcol
    refine ⟨st', ?_, f2.congr fun xh xp E x _ _ => ?_, ?_, fun _ h => ?_⟩
    · rw [List.foldlM_cons, hst]
      exact f1
    · rw [List.exists_mem_cons_iff, or_assoc]
    · refine ⟨f3.1, fun x hx => (f3.2 x hx).trans ?_⟩
      dsimp only
      rw [List.exists_mem_cons_iff, or_assoc]
    · by_cases hes : rs = []
      · subst hes
        cases f1
        cases h
      · exact f4 hes h

end
end IngressParser
end Verif
