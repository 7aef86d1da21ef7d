import Verif.GatewayRoutes
import Verif.PropsSidecar
/-!
Lemmas for C59: the connections of the rules that are made from routes.
-/
namespace Verif
open ISet IpBlock PeerSet

namespace GtwParser
open Container CalicoParser IstioParser IngressParser SidecarParser

section
variable {V2 X2 : Type} {A2 : VAlg Dim V2 X2} {W2 : Dim → V2 → Prop} {dfa : List Char → V2} {word : X2 → List Char} {D : V2 → Prop}
  {V : Env} {rg : PodReg} {c : Container} {ord : SetOrder} {l : List SvcText}

variable (L2 : A2.Lawful W2)

/-- A rule: legal connections from the peers `S` to the peers `T`. -/
structure GOk (rg : PodReg) (z : Int) (S T : PeerSet String) (h : HC Dim (ISet ⊕ V2)) : Prop where
  flat : Flat A2 W2 PeerDom.default z h
  src : ∀ p, (connNet L2 PeerDom.default).K.mem p h = true → S.At rg.keys (p.1 .srcPeers)
  dst : ∀ p, (connNet L2 PeerDom.default).K.mem p h = true → T.At rg.keys (p.1 .dstPeers)

/-- A rule: those requests, if they are tame, of which `F` holds. -/
structure GRule (word : X2 → List Char) (rg : PodReg) (c : Container) (z : Int) (P : Request → Prop) (S T : PeerSet String)
    (F : Place → Place → Request → Prop) (h : HC Dim (ISet ⊕ V2)) : Prop extends GOk L2 rg z S T h where
  mem : ∀ p src dst q, IsRequest word rg c p src dst q → P q → ((connNet L2 PeerDom.default).K.mem p h = true ↔ F src dst q)

/-- The cube of a rule, before its ports and peers are set. -/
structure RCube (A2 : VAlg Dim V2 X2) (k : ConnCube V2) (oh op : Option V2) (om : Option ISet) : Prop where
  hosts : k.val .hosts = dfaVal A2 .hosts oh
  paths : k.val .paths = dfaVal A2 .paths op
  methods : k.val .methods = match om with | none => (connA A2 PeerDom.default).dom .methods | some m => .inl m
  others : ∀ y, y ≠ .hosts → y ≠ .paths → y ≠ .methods → k.val y = (connA A2 PeerDom.default).dom y

omit L2 in
theorem routeCube_is {v : VsText} {rv : RouteView} {r : Route V2} (hr : RouteIs A2 W2 word rg c l v rv r) :
    RCube A2 (routeCube A2 PeerDom.default r) r.sni r.uri r.methods := by
  have e1 := filter_truthy (A2 := A2) fun s hs => (hr.sni s hs).2
  have e2 := filter_truthy (A2 := A2) fun s hs => (hr.uri s hs).2
  have e3 : r.methods.filter ISet.truthy = r.methods := by
    cases h : r.methods with
    | none => rfl
    | some m => rw [Option.filter_some, if_pos (hr.methods m h).2.1]
  unfold routeCube
  rw [e1, e2, e3]
  cases r.sni <;> cases r.uri <;> cases r.methods <;> refine ⟨rfl, rfl, rfl, fun y h1 h2 h3 => ?_⟩ <;>
    simp [setDfa, set_val, ConnCube.full, h1, h2, h3]

omit L2 in
theorem RCube.setHosts {k : ConnCube V2} {oh op : Option V2} {om : Option ISet} (h : RCube A2 k oh op om) (v : V2) :
    RCube A2 (setDfa k .hosts (some v)) (some v) op om := ⟨rfl, h.paths, h.methods, fun y h1 h2 h3 => by
    show (if y = .hosts then _ else _) = _
    rw [if_neg h1, h.others y h1 h2 h3]⟩

omit L2 in
theorem in_reg (hC : K8sParser.Cluster rg c) {S : PeerSet String} (hin : InCluster c S) : ∀ k, S.HasPod k → k ∈ rg.keys := fun k hk => by
  obtain ⟨p, hp, e⟩ := hin k hk
  obtain ⟨k', e', hk'⟩ := hC.elem p hp
  rw [e] at e'
  cases e'
  exact hk'

/-- The connections of `create_allow_rule`. -/
theorem allow_sem (hC : K8sParser.Cluster rg c) (hD : IngressLib A2 W2 dfa word D) {z : Int} (hz : Mem z PeerDom.default.idx)
    (hzS : ∀ S : PeerSet String, ¬ PeerSet.At (X2 := X2) rg.keys S (.inl z)) {v : VsText} {rv : RouteView} {r : Route V2}
    (hr : RouteIs A2 W2 word rg c l v rv r) {d : DestText} {T : Dest} (hd : DestIs rg c l v.ns d T) {S : PeerSet String} (hS : S.Ok) (hin : InCluster c S)
    {k : ConnCube V2} {oh : Option V2} {G : List Char → Prop} (hk : RCube A2 k oh r.uri r.methods) (hoh : ∀ v, oh = some v → W2 .hosts v)
    (hG : ∀ x, A2.mem x (A2.dom .hosts) = true → (InDfa A2 x oh ↔ G (word x))) :
    ∃ h, allowRule A2 PeerDom.default ord rg S T k = some h ∧
      GRule L2 word rg c z (fun q => ∀ t ∈ v.http, ∀ i ∈ t.items, ∀ s, i.uri = some s → UriPlain s q.path) S T.pods
        (fun src dst q => src.In S ∧ q.proto = 6 ∧ G q.host ∧ (∃ i ∈ rv.conds, i.rest q.path q.method) ∧ d.Leads rg c l v.ns dst q.port) h := by
  have la := connA_lawful PeerDom.default L2
  obtain ⟨ls, es⟩ := (Base.C22_to_indices_defined hC.reach hS).2 (in_reg hC hin)
  obtain ⟨ld, ed⟩ := (Base.C22_to_indices_defined hC.reach hd.ok).2 (in_reg hC hd.inCluster)
  have hms := at_iff (X2 := X2) hC.reach hS es
  have hmd := at_iff (X2 := X2) hC.reach hd.ok ed
  obtain ⟨cs, _, _, _⟩ := Base.C22_to_indices_exact hC.reach hS es
  obtain ⟨cd, _, _, vd⟩ := Base.C22_to_indices_exact hC.reach hd.ok ed
  have tcp : ProtocolSet.add (ProtocolSet.make false) (.name "TCP") = some [⟨6, 6⟩] := by decide +kernel
  let k' : ConnCube V2 := (((k.setPorts (some T.ports)).set .srcPeers ls).set .dstPeers ld).setProtocols (some [⟨6, 6⟩])
  have ev : ∀ y, k'.val y = if y = .protocols then .inl [⟨6, 6⟩] else if y = .dstPeers then .inl ld else if y = .srcPeers then .inl ls else
      if y = .dstPorts then .inl T.ports.ports else k.val y := fun y => rfl
  have eo : allowRule A2 PeerDom.default ord rg S T k = makeConnProps A2 PeerDom.default ord rg k' := by
    unfold allowRule ConnCube.setPeers
    rw [tcp, Option.bind_some]
    dsimp only
    rw [es, Option.map_some, Option.bind_some, ed, Option.map_some, Option.bind_some]
  have hdw : ∀ y, y.isDfa = true → ∀ v : Option V2, (∀ w, v = some w → W2 y w) → connWf W2 PeerDom.default y (dfaVal A2 y v) := by
    intro y hy v hv
    cases v with
    | none => exact la.wf_dom _
    | some w => exact ⟨hy, hv w rfl⟩
  have hlegal : k'.Legal W2 PeerDom.default := by
    intro y
    rw [ev]
    split
    · rename_i e; subst e
      refine ⟨rfl, canonical_singleton.2 (by decide), fun z hz => ?_⟩
      have hz := mem_singleton.1 hz
      exact mem_singleton.2 ⟨Int.le_trans (by decide) hz.1, Int.le_trans hz.2 (by decide)⟩
    split
    · rename_i e; subst e
      exact ⟨rfl, cd, fun z hz => at_default hC.reach ((hmd z).1 hz)⟩
    split
    · rename_i e; subst e
      exact ⟨rfl, cs, fun z hz => at_default hC.reach ((hms z).1 hz)⟩
    split
    · rename_i e; subst e
      exact ⟨rfl, hd.ports, fun z hz => mem_singleton.2 (hd.range z hz)⟩
    by_cases h1 : y = .hosts
    · subst h1; rw [hk.hosts]; exact hdw _ rfl _ hoh
    by_cases h2 : y = .paths
    · subst h2; rw [hk.paths]; exact hdw _ rfl _ fun w hw => (hr.uri w hw).1
    by_cases h3 : y = .methods
    · subst h3; rw [hk.methods]
      cases hm : r.methods with
      | none => exact la.wf_dom _
      | some m =>
        refine ⟨rfl, (hr.methods m hm).1, fun z hz => mem_singleton.2 ?_⟩
        exact (hr.methods m hm).2.2 z hz
    rw [hk.others y h1 h2 h3]; exact la.wf_dom _
  have i1 : k'.ints .dstPeers = ld := rfl
  have i2 : k'.ints .dstPorts = T.ports.ports := rfl
  have i3 : k'.ints .protocols = [⟨6, 6⟩] := rfl
  have i4 : k'.ints .srcPeers = ls := rfl
  have i5 : k'.named = T.ports.named := rfl
  have i6 : k'.excluded = ∅ := hd.excluded
  obtain ⟨h, e, st, me⟩ := C43_named_ports L2 (ord := ord) hC.reach hC.ports hlegal (by rw [i1]; exact vd) (Or.inl i6)
  have fl : Flat A2 W2 PeerDom.default z h := makeConnProps_flat L2 hC.reach hC.ports hlegal (by rw [i1]; exact vd) hz
    (by rw [i4]; exact fun h => hzS S ((hms z).1 h)) e
  have dq : ∀ (y : Dim) (lx : ISet) (Z : PeerSet String), Canonical lx → (∀ z, Mem z lx ↔ PeerSet.At (X2 := X2) rg.keys Z (.inl z)) →
      ∀ p : Point (connA A2 PeerDom.default), (connA A2 PeerDom.default).mem (p.1 y) (.inl lx) = true ↔ Z.At rg.keys (p.1 y) := by
    intro y lx Z hc hm p
    cases hz : p.1 y with
    | inl z => exact (mem_inl A2 PeerDom.default z _ hc).trans (hm z)
    | inr z =>
      constructor
      · intro h; change false = true at h; simp at h
      · rintro (⟨_, h, _⟩ | ⟨_, _, h, _⟩) <;> simp at h
  have ps : ∀ p : Point (connA A2 PeerDom.default), (connA A2 PeerDom.default).mem (p.1 .srcPeers) (k'.val .srcPeers) = true ↔ S.At rg.keys (p.1 .srcPeers) :=
    fun p => dq .srcPeers ls S cs hms p
  have pd : ∀ p : Point (connA A2 PeerDom.default), (connA A2 PeerDom.default).mem (p.1 .dstPeers) (k'.val .dstPeers) = true ↔ T.pods.At rg.keys (p.1 .dstPeers) :=
    fun p => dq .dstPeers ld T.pods cd hmd p
  refine ⟨h, eo.trans e, ⟨fl, fun p hp => (ps p).1 (((me p).1 hp).1 .srcPeers (by decide) (by decide)),
    fun p hp => (pd p).1 (((me p).1 hp).1 .dstPeers (by decide) (by decide))⟩, fun p src dst q hp hq => (me p).trans ?_⟩
  rw [i2, i3, i5, i6]
  obtain ⟨xh, exh, ewh⟩ := hp.host
  obtain ⟨xp, exp, ewp⟩ := hp.path
  obtain ⟨n, en, em⟩ := hp.method
  have dm : ∀ y x (v : Option V2), p.1 y = .inr x → ((connA A2 PeerDom.default).mem (p.1 y) (dfaVal A2 y v) = true ↔ InDfa A2 x v) := by
    intro y x v e
    cases v with
    | none => exact ⟨fun _ w h => (by cases h), fun _ => p.2 y⟩
    | some w => rw [e]; exact ⟨fun h w' e' => by cases e'; exact h, fun h => h w rfl⟩
  have dh : (connA A2 PeerDom.default).mem (p.1 .hosts) (k'.val .hosts) = true ↔ G q.host := by
    have hx : A2.mem xh (A2.dom .hosts) = true := by
      have := p.2 .hosts
      rw [exh] at this; exact this
    rw [← ewh, ← hG xh hx, ← dm .hosts xh oh exh, ← hk.hosts]; rfl
  have dpm : ((connA A2 PeerDom.default).mem (p.1 .paths) (k'.val .paths) = true ∧ (connA A2 PeerDom.default).mem (p.1 .methods) (k'.val .methods) = true) ↔
      ∃ i ∈ rv.conds, i.rest q.path q.method := by
    have hx : A2.mem xp (A2.dom .paths) = true := by
      have := p.2 .paths
      rw [exp] at this; exact this
    have := hr.rest xp n q.method hx em (by rw [ewp]; exact hq)
    rw [ewp] at this
    rw [← this, ← dm .paths xp r.uri exp, ← hk.paths]
    refine and_congr Iff.rfl ?_
    show (connA A2 PeerDom.default).mem (p.1 .methods) (k.val .methods) = true ↔ _
    rw [hk.methods]
    cases hm : r.methods with
    | none => exact ⟨fun _ M h => (by cases h), fun _ => p.2 _⟩
    | some m =>
      rw [en]
      refine (mem_inl A2 PeerDom.default (n : Int) m (hr.methods m hm).1).trans ⟨fun h M e => by cases e; exact h, fun h => h m rfl⟩
  have d6 : (connA A2 PeerDom.default).mem (p.1 .protocols) (k'.val .protocols) = true ↔ q.proto = 6 := by
    rw [hp.proto]
    refine (mem_inl A2 PeerDom.default q.proto _ (canonical_singleton.2 (by decide))).trans ?_
    rw [mem_singleton]
    show (6 ≤ q.proto ∧ q.proto ≤ 6) ↔ _
    omega
  have ds : (connA A2 PeerDom.default).mem (p.1 .srcPeers) (k'.val .srcPeers) = true ↔ src.In S := (ps p).trans (at_place hC.reach hp.src S)
  have dd : (connA A2 PeerDom.default).mem (p.1 .dstPeers) (k'.val .dstPeers) = true ↔ dst.In T.pods := (pd p).trans (at_place hC.reach hp.dst T.pods)
  have tcp' : ∃ n, Proto.getNumber "TCP" = some n ∧ Mem n ([⟨6, 6⟩] : ISet) := ⟨6, by decide, mem_singleton.2 ⟨by decide, by decide⟩⟩
  have dn : dst.In T.pods → ((∃ n k, p.1 .dstPeers = .inl (minPodIndex + (n : Nat)) ∧ rg.keys[n]? = some k ∧ NamesPort rg [⟨6, 6⟩] T.ports.named k q.port) ↔
      ∃ name ∈ T.ports.named, ∃ k, dst = .pod k ∧ (rg.named k).lookup name = some (q.port, "TCP")) := by
    intro hin
    constructor
    · rintro ⟨n, k', h1, h2, name, hname, pr, m, h3, _, _⟩
      obtain ⟨x, k'', rfl, h4⟩ := hd.tcp dst hin name hname
      obtain ⟨_, n', h5, h6⟩ := hp.dst
      rw [h1] at h5
      have : n = n' := by
        have h5 := Sum.inl.inj h5
        omega
      subst this
      rw [h2] at h6; cases h6
      rw [h3] at h4; cases h4
      exact ⟨name, hname, k', rfl, h3⟩
    · rintro ⟨name, hname, k', rfl, h3⟩
      obtain ⟨_, n, h5, h6⟩ := hp.dst
      obtain ⟨m, t1, t2⟩ := tcp'
      exact ⟨n, k', h5, h6, name, hname, "TCP", m, h3, t1, t2⟩
  rw [← hd.mem dst q.port]
  unfold PortAt
  constructor
  · rintro ⟨h1, x, h2, h3, _⟩
    rw [hp.port] at h2; cases h2
    have hin : dst.In T.pods := dd.1 (h1 .dstPeers (by decide) (by decide))
    rw [dn hin] at h3
    exact ⟨ds.1 (h1 .srcPeers (by decide) (by decide)), d6.1 (h1 .protocols (by decide) (by decide)), dh.1 (h1 .hosts (by decide) (by decide)),
      dpm.1 ⟨h1 .paths (by decide) (by decide), h1 .methods (by decide) (by decide)⟩, hin, h3⟩
  · rintro ⟨g1, g2, g3, g4, hin, h3⟩
    refine ⟨fun y _ hy => ?_, q.port, hp.port, by rw [dn hin]; exact h3, ?_⟩
    · obtain ⟨g5, g6⟩ := dpm.2 g4
      cases y with
      | srcPeers => exact ds.2 g1
      | dstPeers => exact dd.2 hin
      | protocols => exact d6.2 g2
      | dstPorts => exact absurd rfl hy
      | methods => exact g6
      | paths => exact g5
      | hosts => exact dh.2 g3
      | _ =>
        rw [ev, if_neg (by decide), if_neg (by decide), if_neg (by decide), if_neg (by decide), hk.others _ (by decide) (by decide) (by decide)]
        exact p.2 _
    · rintro ⟨n, k', _, _, name, hname, _⟩
      exact absurd hname (Finset.notMem_empty _)

/-- The connections of `create_deny_rule`. -/
theorem deny_sem (hI : IstioCluster V rg c) {z : Int} (hz : Mem z PeerDom.default.idx)
    (hzS : ∀ S : PeerSet String, ¬ PeerSet.At (X2 := X2) rg.keys S (.inl z)) {ns : Ns} {d : DestText} {T : Dest} (hd : DestIs rg c l ns d T)
    {S : PeerSet String} (hS : S.Ok) (hin : InCluster c S) (P : Request → Prop) :
    ∃ h, denyRule A2 PeerDom.default ord rg S T = some h ∧
      GRule L2 word rg c z P S T.pods (fun src dst _ => src.In S ∧ dst.In T.pods) h := by
  have legal : ConnDict.Legal X2 rg.keys PeerDom.default ⟨some S, some T.pods, none, none⟩ :=
    IstioParser.dict_legal hI (fun Z hZ => by rcases hZ with hZ | hZ <;> cases hZ; exacts [⟨hS, hin⟩, ⟨hd.ok, hd.inCluster⟩]) (fun x hx => by cases hx)
      (fun x hx => by cases hx)
  obtain ⟨h1, e1, s1, m1⟩ := IstioParser.dict_sem L2 (ord := ord) (X2 := X2) hI.cluster.reach legal (fun P hP => by cases hP)
  have f1 : Flat A2 W2 PeerDom.default z h1 := makeFromDict_flat L2 hI.cluster.reach hI.cluster.ports legal hz (hzS S) e1
  refine ⟨h1, e1, ⟨f1, fun p hp => ((m1 p).1 hp).1.1 S rfl, fun p hp => ((m1 p).1 hp).1.2.1 _ rfl⟩, fun p src dst q hr _ => ?_⟩
  rw [m1]
  have a1 := at_place hI.cluster.reach hr.src S
  have a2 := at_place hI.cluster.reach hr.dst T.pods
  constructor
  · rintro ⟨⟨g1, g2, g3⟩, _⟩
    exact ⟨a1.1 (g1 _ rfl), a2.1 (g2 _ rfl)⟩
  · rintro ⟨g1, g2⟩
    exact ⟨⟨fun Z hZ => by cases hZ; exact a1.2 g1, fun Z hZ => by cases hZ; exact a2.2 g2, fun x hx => by cases hx⟩, fun P hP => by cases hP⟩

end
end GtwParser
end Verif
