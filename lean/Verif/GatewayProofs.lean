import Verif.GatewayCubes
/-!
Lemmas for C59: the policies that are made from gateways and virtual services.
-/
namespace Verif
open ISet IpBlock PeerSet

namespace GtwParser
open Container CalicoParser IstioParser IngressParser SidecarParser

section
variable {V2 X2 : Type} {A2 : VAlg Dim V2 X2} {W2 : Dim → V2 → Prop} {dfa : List Char → V2} {word : X2 → List Char} {D : V2 → Prop}
  {V : Env} {rg : PodReg} {c : Container} {ord : SetOrder} {l : List SvcText}

/-- Mapping the elements of a list with a meaning. -/
theorem Cover.mapM {I α β : Type} {P : I → Prop} {R : I → α → Prop} {R' : I → β → Prop} {l : List α} (h : Cover P R l) {f : α → Option β}
    (hf : ∀ i a, a ∈ l → P i → R i a → ∃ b, f a = some b ∧ R' i b) : ∃ bs, l.mapM f = some bs ∧ Cover P R' bs := by
  obtain ⟨bs, e⟩ := (K8sParser.mapM_defined f l).2 fun a ha => by
    obtain ⟨i, h1, h2⟩ := h.sound a ha
    obtain ⟨b, hb, _⟩ := hf i a ha h1 h2
    exact ⟨b, hb⟩
  have F := mapM_pairs e
  refine ⟨bs, e, ⟨fun b hb => ?_, fun i hi => ?_⟩⟩
  · obtain ⟨a, ha, e⟩ := forall₂_left (forall₂_swap F) b hb
    obtain ⟨i, h1, h2⟩ := h.sound a ha
    obtain ⟨b', hb', h3⟩ := hf i a ha h1 h2
    rw [e] at hb'; cases hb'
    exact ⟨i, h1, h3⟩
  · obtain ⟨a, ha, h2⟩ := h.complete i hi
    obtain ⟨b', hb', h3⟩ := hf i a ha hi h2
    obtain ⟨b, hb, e⟩ := forall₂_left F a ha
    rw [e] at hb'; cases hb'
    exact ⟨_, hb, h3⟩

theorem Cover.single {I α : Type} {P : I → Prop} {R : I → α → Prop} {a : α} {i : I} (h1 : P i) (h2 : R i a) (h3 : ∀ j, P j → j = i) : Cover P R [a] :=
  ⟨fun b hb => ⟨i, h1, by rw [List.mem_singleton.1 hb]; exact h2⟩, fun j hj => ⟨a, List.mem_singleton.2 rfl, by rw [h3 j hj]; exact h2⟩⟩

/-! ### What the policies say -/

/-- The paths of the request are read as Istio does. -/
def UriP (v : VsText) (q : Request) : Prop := ∀ t ∈ v.http, ∀ i ∈ t.items, ∀ s, i.uri = some s → UriPlain s q.path

/-- Some host is one of the gateway, the virtual service and the route. -/
def Over (v : VsText) (rv : RouteView) (g : GatewayText) : Prop := ∃ w, (∀ a ∈ w, Letter a) ∧ (ServesR g w ∧ AnyR v.hosts w) ∧ SniR rv w

/-- What the code takes as the requests of a gateway. -/
def AllowF (rg : PodReg) (c : Container) (l : List SvcText) (v : VsText) (rv : RouteView) (g : GatewayText) (src dst : Place) (q : Request) : Prop :=
  g.Runs c src ∧ q.proto = 6 ∧ ((ServesR g q.host ∧ AnyR v.hosts q.host) ∧ SniR rv q.host) ∧ (∃ i ∈ rv.conds, i.rest q.path q.method) ∧
    ∃ d ∈ rv.dests, d.Leads rg c l v.ns dst q.port

/-- The other places of the mesh. -/
def DenyCap (c : Container) (g : GatewayText) (E : Place) : Prop := InMesh c E ∧ ¬ g.Runs c E

/-- What the code takes as the requests to the egress gateway. -/
def MeshF (rg : PodReg) (c : Container) (l : List SvcText) (v : VsText) (rv : RouteView) (d : DestText) (src dst : Place) (q : Request) : Prop :=
  InMesh c src ∧ q.proto = 6 ∧ SniR rv q.host ∧ (∃ i ∈ rv.conds, i.rest q.path q.method) ∧ d.Leads rg c l v.ns dst q.port

variable (L2 : A2.Lawful W2)

/-- The policy is legal, is for the places `Cap` and about the requests `F`. -/
structure GPolIs (word : X2 → List Char) (rg : PodReg) (c : Container) (z : Int) (P : Request → Prop) (dn ingr : Bool) (Cap : Place → Prop)
    (F : Place → Place → Request → Prop) (pol : GPol V2) : Prop where
  deny : pol.deny = dn
  ingress : pol.ingress = ingr
  ok : pol.selected.Ok
  inCluster : InCluster c pol.selected
  sel : ∀ E : Place, E.In pol.selected ↔ Cap E
  rules : ∀ h ∈ pol.rules, ∃ S T, InCluster c S ∧ InCluster c T ∧ GOk L2 rg z S T h ∧ (if ingr then T else S) = pol.selected
  mem : ∀ p src dst q, IsRequest word rg c p src dst q → P q → ((∃ h ∈ pol.rules, (connNet L2 PeerDom.default).K.mem p h = true) ↔ F src dst q)

/-- The policies are those of the routes and gateways `XG`, and of the routes and destinations `XD`. -/
structure OutIs (word : X2 → List Char) (rg : PodReg) (c : Container) (l : List SvcText) (z : Int) (XG : VsText → RouteView → GatewayText → Prop)
    (XD : VsText → RouteView → DestText → Prop) (o : Out V2) : Prop where
  ing : Cover (fun i : VsText × RouteView × GatewayText => XG i.1 i.2.1 i.2.2 ∧ i.2.2.Kind "ingressgateway")
    (fun i => GPolIs L2 word rg c z (UriP i.1) false false (i.2.2.Runs c) (AllowF rg c l i.1 i.2.1 i.2.2)) o.ing
  egr : Cover (fun i : VsText × RouteView × GatewayText => XG i.1 i.2.1 i.2.2 ∧ i.2.2.Kind "egressgateway")
    (fun i => GPolIs L2 word rg c z (UriP i.1) false false (i.2.2.Runs c) (AllowF rg c l i.1 i.2.1 i.2.2)) o.egr
  deny : Cover (fun i : VsText × RouteView × GatewayText => XG i.1 i.2.1 i.2.2 ∧ i.2.2.Kind "egressgateway")
    (fun i => GPolIs L2 word rg c z (UriP i.1) true false (DenyCap c i.2.2) (fun src dst _ => DenyCap c i.2.2 src ∧ ∃ d ∈ i.2.1.dests, IsDns c dst d.host)) o.deny
  mesh : Cover (fun i : VsText × RouteView × DestText => XD i.1 i.2.1 i.2.2)
    (fun i => GPolIs L2 word rg c z (UriP i.1) false true (fun E => ∃ s ∈ l, i.2.2.host = svcName s ∧ Picks c s E) (MeshF rg c l i.1 i.2.1 i.2.2)) o.mesh

variable {L2}
variable {z : Int}

theorem OutIs.congr {XG YG : VsText → RouteView → GatewayText → Prop} {XD YD : VsText → RouteView → DestText → Prop} {o : Out V2}
    (h : OutIs L2 word rg c l z XG XD o) (hG : ∀ v r g, XG v r g ↔ YG v r g) (hD : ∀ v r d, XD v r d ↔ YD v r d) : OutIs L2 word rg c l z YG YD o :=
  ⟨h.ing.congr (fun _ => and_congr_left fun _ => hG _ _ _) fun _ _ _ h => h, h.egr.congr (fun _ => and_congr_left fun _ => hG _ _ _) fun _ _ _ h => h,
    h.deny.congr (fun _ => and_congr_left fun _ => hG _ _ _) fun _ _ _ h => h, h.mesh.congr (fun i => hD _ _ _) fun _ _ _ h => h⟩

theorem OutIs.nil {XG : VsText → RouteView → GatewayText → Prop} {XD : VsText → RouteView → DestText → Prop}
    (hG : ∀ v r g, ¬ XG v r g) (hD : ∀ v r d, ¬ XD v r d) : OutIs L2 word rg c l z XG XD (⟨[], [], [], []⟩ : Out V2) :=
  ⟨Cover.nil fun _ h => hG _ _ _ h.1, Cover.nil fun _ h => hG _ _ _ h.1, Cover.nil fun _ h => hG _ _ _ h.1, Cover.nil fun _ h => hD _ _ _ h⟩

theorem OutIs.append {XG YG : VsText → RouteView → GatewayText → Prop} {XD YD : VsText → RouteView → DestText → Prop} {a b : Out V2}
    (ha : OutIs L2 word rg c l z XG XD a) (hb : OutIs L2 word rg c l z YG YD b) :
    OutIs L2 word rg c l z (fun v r g => XG v r g ∨ YG v r g) (fun v r d => XD v r d ∨ YD v r d) (a.append b) :=
  ⟨(ha.ing.append hb.ing).congr (fun _ => or_and_right.symm) fun _ _ _ h => h, (ha.egr.append hb.egr).congr (fun _ => or_and_right.symm) fun _ _ _ h => h,
    (ha.deny.append hb.deny).congr (fun _ => or_and_right.symm) fun _ _ _ h => h, (ha.mesh.append hb.mesh).congr (fun _ => Iff.rfl) fun _ _ _ h => h⟩

/-- The lists of a sequence of steps. -/
theorem join_lists (l : List (Out V2)) :
    (∀ a, a ∈ (Out.join l).ing ↔ ∃ o ∈ l, a ∈ o.ing) ∧ (∀ a, a ∈ (Out.join l).mesh ↔ ∃ o ∈ l, a ∈ o.mesh) ∧
    (∀ a, a ∈ (Out.join l).egr ↔ ∃ o ∈ l, a ∈ o.egr) ∧ ∀ a, a ∈ (Out.join l).deny ↔ ∃ o ∈ l, a ∈ o.deny := by
  have key : ∀ (l : List (Out V2)) (b : Out V2),
      (∀ a, a ∈ (l.foldl Out.append b).ing ↔ a ∈ b.ing ∨ ∃ o ∈ l, a ∈ o.ing) ∧ (∀ a, a ∈ (l.foldl Out.append b).mesh ↔ a ∈ b.mesh ∨ ∃ o ∈ l, a ∈ o.mesh) ∧
      (∀ a, a ∈ (l.foldl Out.append b).egr ↔ a ∈ b.egr ∨ ∃ o ∈ l, a ∈ o.egr) ∧ ∀ a, a ∈ (l.foldl Out.append b).deny ↔ a ∈ b.deny ∨ ∃ o ∈ l, a ∈ o.deny := by
    intro l
    induction l with
    | nil => intro b; simp
    | cons o l ih =>
      intro b
      rw [List.foldl_cons]
      obtain ⟨h1, h2, h3, h4⟩ := ih (b.append o)
      refine ⟨fun a => ?_, fun a => ?_, fun a => ?_, fun a => ?_⟩
      · rw [h1]; simp [Out.append, or_assoc]
      · rw [h2]; simp [Out.append, or_assoc]
      · rw [h3]; simp [Out.append, or_assoc]
      · rw [h4]; simp [Out.append, or_assoc]
  obtain ⟨h1, h2, h3, h4⟩ := key l ⟨[], [], [], []⟩
  exact ⟨fun a => (h1 a).trans (or_iff_right List.not_mem_nil), fun a => (h2 a).trans (or_iff_right List.not_mem_nil),
    fun a => (h3 a).trans (or_iff_right List.not_mem_nil), fun a => (h4 a).trans (or_iff_right List.not_mem_nil)⟩

theorem Cover.join {I J α β : Type} {P : I → Prop} {Q : I → J → Prop} {R : J → β → Prop} {l : List α} {f : α → List β} {m : List β}
    (h : Cover P (fun i a => Cover (Q i) R (f a)) l) (hm : ∀ b, b ∈ m ↔ ∃ a ∈ l, b ∈ f a) : Cover (fun j => ∃ i, P i ∧ Q i j) R m := by
  refine ⟨fun b hb => ?_, fun j ⟨i, hi, hj⟩ => ?_⟩
  · obtain ⟨a, ha, hb⟩ := (hm b).1 hb
    obtain ⟨i, hi, hc⟩ := h.sound a ha
    obtain ⟨j, hj, hr⟩ := hc.sound b hb
    exact ⟨j, ⟨i, hi, hj⟩, hr⟩
  · obtain ⟨a, ha, hc⟩ := h.complete i hi
    obtain ⟨b, hb, hr⟩ := hc.complete j hj
    exact ⟨b, (hm b).2 ⟨a, ha, hb⟩, hr⟩

theorem OutIs.join {I : Type} {P : I → Prop} {XG : I → VsText → RouteView → GatewayText → Prop} {XD : I → VsText → RouteView → DestText → Prop}
    {os : List (Out V2)} (h : Cover P (fun i o => OutIs L2 word rg c l z (XG i) (XD i) o) os) :
    OutIs L2 word rg c l z (fun v r g => ∃ i, P i ∧ XG i v r g) (fun v r d => ∃ i, P i ∧ XD i v r d) (Out.join os) := by
  obtain ⟨m1, m2, m3, m4⟩ := join_lists os
  have ex : ∀ {A B : I → Prop} {C : Prop}, (∃ i, A i ∧ B i ∧ C) ↔ (∃ i, A i ∧ B i) ∧ C := fun {A B C} =>
    ⟨fun ⟨i, h1, h2, h3⟩ => ⟨⟨i, h1, h2⟩, h3⟩, fun ⟨⟨i, h1, h2⟩, h3⟩ => ⟨i, h1, h2, h3⟩⟩
  refine ⟨?_, ?_, ?_, ?_⟩
  · exact (Cover.join (f := Out.ing) (h.congr (fun _ => Iff.rfl) fun i a _ h => h.ing) m1).congr (fun _ => ex) fun _ _ _ h => h
  · exact (Cover.join (f := Out.egr) (h.congr (fun _ => Iff.rfl) fun i a _ h => h.egr) m3).congr (fun _ => ex) fun _ _ _ h => h
  · exact (Cover.join (f := Out.deny) (h.congr (fun _ => Iff.rfl) fun i a _ h => h.deny) m4).congr (fun _ => ex) fun _ _ _ h => h
  · exact Cover.join (f := Out.mesh) (h.congr (fun _ => Iff.rfl) fun i a _ h => h.mesh) m2

/-! ### Gateways of a route -/

omit L2 in
/-- All places of the mesh. -/
theorem mesh_sem (hC : K8sParser.Cluster rg c) : (c.allPeers false true false).Ok ∧ InCluster c (c.allPeers false true false) ∧
    ∀ E : Place, E.In (c.allPeers false true false) ↔ InMesh c E := by
  rw [K8sParser.allPeers_eq]
  have h := (sem_sel hC.ok K8sParser.allTest).congr (T' := fun p => p.kind ≠ .dns) fun p _ => K8sParser.allTest_iff p
  exact ⟨h.1, h.inCluster, fun E => h.2 E⟩

omit L2 in
/-- Destinations outside of the mesh are DNS entries. -/
theorem external_pods (hN : Named c l) {ns : Ns} {d : DestText} (he : d.External) {T : Dest} (hd : DestIs rg c l ns d T) (E : Place) :
    E.In T.pods ↔ IsDns c E d.host := by
  rw [hd.pods, or_iff_right]
  rintro ⟨s, hs, h | ⟨h, _⟩, _⟩
  · refine he.name ?_
    rw [h]
    exact ⟨s.name.toList ++ '.' :: (s.ns.name.toList ++ ['.']), [], by simp [svcName]⟩
  · exact (hN.svcs s hs).2.1 (h ▸ he.dot)

variable (L2)

theorem gtwOut_sem (hI : IstioCluster V rg c) (hD : IngressLib A2 W2 dfa word D) (hN : Named c l) (hz : Mem z PeerDom.default.idx)
    (hzS : ∀ S : PeerSet String, ¬ PeerSet.At (X2 := X2) rg.keys S (.inl z)) {v : VsText} {rv : RouteView} {r : Route V2}
    (hr : RouteIs A2 W2 word rg c l v rv r) {g : GatewayText} {x : Gtw V2 × V2} (hg : GtwIs A2 W2 word c g x.1)
    (hx : Means A2 W2 word x.2 fun w => ServesR g w ∧ AnyR v.hosts w) (htx : A2.truthy x.2 = true)
    (hint : g.Kind "egressgateway" → r.internal ≠ some true) (v' : Vs V2) (n : Nat) :
    ∃ o, gtwOut A2 PeerDom.default ord rg c v' n r x = some o ∧
      OutIs L2 word rg c l z (fun v1 r1 g1 => (v1 = v ∧ r1 = rv ∧ g1 = g) ∧ Over v rv g) (fun _ _ _ => False) o := by
  have hC := hI.cluster
  have esni := filter_truthy (A2 := A2) fun s hs => (hr.sni s hs).2
  -- the hosts of the cube
  obtain ⟨h, eh, mh⟩ : ∃ h, h = r.sni.elim x.2 (A2.and x.2) ∧
      Means A2 W2 word h fun w => (ServesR g w ∧ AnyR v.hosts w) ∧ SniR rv w := by
    refine ⟨_, rfl, ?_⟩
    cases e : r.sni with
    | none =>
      refine hx.congr fun w => ⟨fun h => ⟨h, ?_⟩, fun h => h.1⟩
      obtain ⟨i, hi⟩ := List.exists_mem_of_ne_nil _ hr.given
      exact ⟨i, hi, fun l hl => by rw [hr.noSni e i hi] at hl; cases hl⟩
    | some s => exact hx.and L2 (hr.sni s e).1
  have hov : A2.truthy h = true ↔ Over v rv g := mh.truthy hD L2
  unfold gtwOut
  rw [esni]
  dsimp only
  rw [← eh]
  by_cases ht : A2.truthy h = true
  · rw [if_neg (by rw [ht]; simp)]
    have over := hov.1 ht
    have hG : ∀ y, A2.mem y (A2.dom .hosts) = true → (InDfa A2 y (some h) ↔ (ServesR g (word y) ∧ AnyR v.hosts (word y)) ∧ SniR rv (word y)) := fun y hy => by
      have := mh.mem y
      constructor
      · exact fun hh => (this.1 (hh h rfl)).2
      · intro hh w e
        cases e
        exact this.2 ⟨(hD.hosts y).1 hy, hh⟩
    obtain ⟨rules, er, cr⟩ := hr.dests.mapM (f := fun d => allowRule A2 PeerDom.default ord rg x.1.peers d (setDfa (routeCube A2 PeerDom.default r) .hosts (some h)))
      (R' := fun d k => ∃ T : PeerSet String, InCluster c T ∧ GRule L2 word rg c z (UriP v) x.1.peers T (fun src dst q => src.In x.1.peers ∧ q.proto = 6 ∧
        ((ServesR g q.host ∧ AnyR v.hosts q.host) ∧ SniR rv q.host) ∧ (∃ i ∈ rv.conds, i.rest q.path q.method) ∧ d.Leads rg c l v.ns dst q.port) k)
      fun d T _ _ hd => by
        obtain ⟨k, e, hk⟩ := allow_sem L2 (ord := ord) (G := fun w => (ServesR g w ∧ AnyR v.hosts w) ∧ SniR rv w) hC hD hz hzS hr hd hg.ok hg.inCluster ((routeCube_is hr).setHosts h) (fun w e => by cases e; exact mh.wf) hG
        exact ⟨k, e, T.pods, hd.inCluster, hk⟩
    rw [er, Option.bind_some]
    have allow : ∀ key, GPolIs L2 word rg c z (UriP v) false false (g.Runs c) (AllowF rg c l v rv g) (⟨key, false, false, x.1.peers, rules⟩ : GPol V2) := by
      intro key
      refine ⟨rfl, rfl, hg.ok, hg.inCluster, hg.runs, fun k hk => ?_, fun p src dst q hp hq => ?_⟩
      · obtain ⟨d, _, T, hT, hk⟩ := cr.sound k hk
        exact ⟨_, T, hg.inCluster, hT, hk.toGOk, rfl⟩
      · unfold AllowF
        rw [← hg.runs]
        constructor
        · rintro ⟨k, hk, hm⟩
          obtain ⟨d, ⟨h1, _⟩, T, _, hk⟩ := cr.sound k hk
          obtain ⟨g1, g2, g3, g4, g5⟩ := (hk.mem p src dst q hp hq).1 hm
          exact ⟨g1, g2, g3, g4, d, h1, g5⟩
        · rintro ⟨g1, g2, g3, g4, d, h1, g5⟩
          have known : d.Known c l v.ns := by
            rcases g5 with ⟨s, hs, h, _⟩ | ⟨h, _⟩
            · exact Or.inl ⟨s, hs, h⟩
            · exact Or.inr ⟨_, h⟩
          obtain ⟨k, hk, T, _, hk'⟩ := cr.complete d ⟨h1, known⟩
          exact ⟨k, hk, (hk'.mem p src dst q hp hq).2 ⟨g1, g2, g3, g4, g5⟩⟩
    have one : ∀ {k : String} (j : VsText × RouteView × GatewayText), ((j.1 = v ∧ j.2.1 = rv ∧ j.2.2 = g) ∧ Over v rv g) ∧ j.2.2.Kind k → j = (v, rv, g) := by
      rintro k ⟨a, b, d⟩ ⟨⟨⟨rfl, rfl, rfl⟩, _⟩, _⟩
      rfl
    by_cases he : x.1.egress = true
    · have hk' := hg.egress.1 he
      have hni : ¬ g.Kind "ingressgateway" := fun h => by
        rw [hg.ingress.2 h] at he; cases he
      rw [if_pos he, if_neg (hint hk')]
      obtain ⟨m1, m2, m3⟩ := mesh_sem hC
      have o1 := (C22_sub_exact m1 hg.ok).1
      have o2 := InCluster.sub m1 hg.ok m2
      have o3 : ∀ E : Place, E.In ((c.allPeers false true false).sub x.1.peers) ↔ DenyCap c g E := fun E => by
        rw [in_sub m1 hg.ok, m3, hg.runs]; rfl
      obtain ⟨denied, ed, cd⟩ := hr.dests.mapM (f := fun d => denyRule A2 PeerDom.default ord rg ((c.allPeers false true false).sub x.1.peers) d)
        (R' := fun d k => ∃ T : PeerSet String, InCluster c T ∧ GRule L2 word rg c z (UriP v) ((c.allPeers false true false).sub x.1.peers) T
          (fun src dst _ => DenyCap c g src ∧ IsDns c dst d.host) k)
        fun d T hT hd1 hd => by
          obtain ⟨k, e, hk⟩ := deny_sem L2 (ord := ord) (word := word) hI hz hzS hd o1 o2 (UriP v)
          have ext := hr.outside (hint hk') (List.ne_nil_of_mem hT) d hd1.1
          refine ⟨k, e, T.pods, hd.inCluster, hk.toGOk, fun p src dst q hp hq => ?_⟩
          rw [hk.mem p src dst q hp hq, o3, external_pods hN ext hd]
      rw [ed, Option.map_some]
      refine ⟨_, rfl, Cover.nil fun i hi => hni (hi.1.1.2.2 ▸ hi.2), Cover.single (i := (v, rv, g)) ⟨⟨⟨rfl, rfl, rfl⟩, over⟩, hk'⟩ (allow _) one,
        Cover.single (i := (v, rv, g)) ⟨⟨⟨rfl, rfl, rfl⟩, over⟩, hk'⟩ ?_ one, Cover.nil fun _ h => h⟩
      refine ⟨rfl, rfl, o1, o2, o3, fun k hk => ?_, fun p src dst q hp hq => ?_⟩
      · obtain ⟨d, _, T, hT, hk⟩ := cd.sound k hk
        exact ⟨_, T, o2, hT, hk.toGOk, rfl⟩
      · constructor
        · rintro ⟨k, hk, hm⟩
          obtain ⟨d, ⟨h1, _⟩, T, _, hk⟩ := cd.sound k hk
          obtain ⟨g1, g2⟩ := (hk.mem p src dst q hp hq).1 hm
          exact ⟨g1, d, h1, g2⟩
        · rintro ⟨g1, d, h1, g2⟩
          obtain ⟨k, hk, T, _, hk'⟩ := cd.complete d ⟨h1, Or.inr ⟨_, g2⟩⟩
          exact ⟨k, hk, (hk'.mem p src dst q hp hq).2 ⟨g1, g2⟩⟩
    · rw [if_neg he]
      have hk' := hg.ingress.1 (by simpa using he)
      have hne : ¬ g.Kind "egressgateway" := fun h => he (hg.egress.2 h)
      exact ⟨_, rfl, Cover.single (i := (v, rv, g)) ⟨⟨⟨rfl, rfl, rfl⟩, over⟩, hk'⟩ (allow _) one, Cover.nil fun i hi => hne (hi.1.1.2.2 ▸ hi.2),
        Cover.nil fun i hi => hne (hi.1.1.2.2 ▸ hi.2), Cover.nil fun _ h => h⟩
  · have hs : r.sni.isSome = true := by
      cases e : r.sni with
      | none =>
        rw [e] at eh
        exact absurd (eh ▸ htx) ht
      | some s => rfl
    rw [if_pos (by rw [hs]; simpa using ht)]
    exact ⟨_, rfl, OutIs.nil (fun _ _ _ h => ht (hov.2 h.2)) fun _ _ _ h => h⟩

/-- The policies of a destination in the mesh. -/
theorem meshOut_sem (hI : IstioCluster V rg c) (hD : IngressLib A2 W2 dfa word D) (hN : Named c l) (hz : Mem z PeerDom.default.idx)
    (hzS : ∀ S : PeerSet String, ¬ PeerSet.At (X2 := X2) rg.keys S (.inl z)) {v : VsText} (hns : '/' ∉ v.ns.name.toList) {rv : RouteView} {r : Route V2}
    (hr : RouteIs A2 W2 word rg c l v rv r) {d : DestText} {T : Dest} (hd : DestIs rg c l v.ns d T) (hloc : d.Local c l v.ns) (v' : Vs V2) (n : Nat) :
    ∃ o, meshOut A2 PeerDom.default ord rg c v' n r T = some o ∧
      OutIs L2 word rg c l z (fun _ _ _ => False) (fun v1 r1 d1 => (v1 = v ∧ r1 = rv ∧ d1 = d) ∧ d.host = egressHost) o := by
  have hC := hI.cluster
  unfold meshOut
  rw [hd.host]
  by_cases he : d.host = egressHost
  · rw [if_pos he]
    obtain ⟨m1, m2, m3⟩ := mesh_sem hC
    have hG : ∀ y, A2.mem y (A2.dom .hosts) = true → (InDfa A2 y r.sni ↔ SniR rv (word y)) := fun y hy => by
      cases e : r.sni with
      | none =>
        refine ⟨fun _ => ?_, fun _ w h => by cases h⟩
        obtain ⟨i, hi⟩ := List.exists_mem_of_ne_nil _ hr.given
        exact ⟨i, hi, fun l hl => by rw [hr.noSni e i hi] at hl; cases hl⟩
      | some s =>
        have := (hr.sni s e).1.mem y
        constructor
        · exact fun hh => (this.1 (hh s rfl)).2
        · intro hh w e
          cases e
          exact this.2 ⟨(hD.hosts y).1 hy, hh⟩
    obtain ⟨k, e, hk⟩ := allow_sem L2 (ord := ord) (G := SniR rv) hC hD hz hzS hr hd m1 m2 (routeCube_is hr) (fun w e => (hr.sni w e).1.wf) hG
    rw [e, Option.map_some]
    have dot : '.' ∈ d.host := by rw [he]; decide
    obtain ⟨_, _, _, _, _, _, _, nodns, _⟩ := local_name hN hns hloc
    refine ⟨_, rfl, Cover.nil fun _ h => h.1, Cover.nil fun _ h => h.1, Cover.nil fun _ h => h.1,
      Cover.single (i := (v, rv, d)) ⟨⟨rfl, rfl, rfl⟩, he⟩ ⟨rfl, rfl, hd.ok, hd.inCluster, fun E => ?_, fun k' hk' => ?_, fun p src dst q hp hq => ?_⟩ ?_⟩
    · show E.In T.pods ↔ _
      rw [hd.pods, or_iff_left (nodns E)]
      constructor
      · rintro ⟨s, hs, h1 | ⟨h1, _⟩, h2⟩
        · exact ⟨s, hs, h1, h2⟩
        · exact absurd (h1 ▸ dot) (hN.svcs s hs).2.1
      · rintro ⟨s, hs, h1, h2⟩
        exact ⟨s, hs, Or.inl h1, h2⟩
    · rw [List.mem_singleton.1 hk']
      exact ⟨_, _, m2, hd.inCluster, hk.toGOk, rfl⟩
    · unfold MeshF
      rw [← m3, ← hk.mem p src dst q hp hq]
      exact ⟨fun ⟨k', h1, h2⟩ => by rw [List.mem_singleton.1 h1] at h2; exact h2, fun h => ⟨k, List.mem_singleton.2 rfl, h⟩⟩
    · rintro ⟨a, b, d'⟩ ⟨⟨rfl, rfl, rfl⟩, _⟩
      rfl
  · rw [if_neg he]
    exact ⟨_, rfl, OutIs.nil (fun _ _ _ h => h) fun _ _ _ h => he h.2⟩

omit L2 in
theorem pairwise_or {α} {R : α → α → Prop} {l : List α} (h : l.Pairwise R) {a b : α} (ha : a ∈ l) (hb : b ∈ l) (hne : a ≠ b) : R a b ∨ R b a := by
  induction h with
  | nil => cases ha
  | cons h1 _ ih =>
    rcases List.mem_cons.1 ha with ea | ha'
    · rcases List.mem_cons.1 hb with eb | hb'
      · exact absurd (ea.trans eb.symm) hne
      · rw [ea]; exact Or.inl (h1 _ hb')
    · rcases List.mem_cons.1 hb with eb | hb'
      · rw [eb]; exact Or.inr (h1 _ ha')
      · exact ih ha' hb'

omit L2 in
/-- The gateways of a list of names whose hosts overlap with those of the virtual service. -/
theorem pick_fold {gs : List (Gtw V2)} (hp : gs.Pairwise fun g g' => g.key ≠ g'.key) (hgs : ∀ g ∈ gs, (∃ gh, g.hosts = some gh) ∧ g.key ≠ "mesh") (h : V2)
    (names : List String) {acc : List (Gtw V2 × V2)} {N : String → Prop}
    (hacc : ∀ x, x ∈ acc ↔ x.1 ∈ gs ∧ N x.1.key ∧ (∃ gh, x.1.hosts = some gh ∧ x.2 = A2.and gh h) ∧ A2.truthy x.2 = true) :
    ∃ acc', names.foldlM (pickStep A2 gs h) acc = some acc' ∧
      ∀ x, x ∈ acc' ↔ x.1 ∈ gs ∧ (N x.1.key ∨ x.1.key ∈ names) ∧ (∃ gh, x.1.hosts = some gh ∧ x.2 = A2.and gh h) ∧ A2.truthy x.2 = true := by
  induction names generalizing acc N with
  | nil => exact ⟨acc, rfl, fun x => by rw [hacc]; simp⟩
  | cons name names ih =>
    have uniq : ∀ g ∈ gs, ∀ g' ∈ gs, g.key = g'.key → g = g' := fun g hg g' hg' e => by
      by_contra hne
      rcases pairwise_or hp hg hg' hne with h | h
      · exact h e
      · exact h e.symm
    have step : ∃ acc1, pickStep A2 gs h acc name = some acc1 ∧
        ∀ x, x ∈ acc1 ↔ x.1 ∈ gs ∧ (N x.1.key ∨ x.1.key = name) ∧ (∃ gh, x.1.hosts = some gh ∧ x.2 = A2.and gh h) ∧ A2.truthy x.2 = true := by
      unfold pickStep
      by_cases hm : name = "mesh"
      · rw [if_pos hm]
        refine ⟨acc, rfl, fun x => (hacc x).trans (and_congr_right fun hx => ?_)⟩
        rw [or_iff_left (by rw [hm]; exact (hgs _ hx).2)]
      · rw [if_neg hm]
        cases hf : gs.find? fun g => decide (g.key = name) with
        | none =>
          refine ⟨acc, rfl, fun x => (hacc x).trans (and_congr_right fun hx => ?_)⟩
          rw [or_iff_left (by simpa using List.find?_eq_none.1 hf _ hx)]
        | some g =>
          have hg := List.mem_of_find?_eq_some hf
          have hk : g.key = name := by simpa using List.find?_some hf
          obtain ⟨⟨gh, egh⟩, _⟩ := hgs g hg
          dsimp only
          rw [egh, Option.map_some]
          refine ⟨_, rfl, fun x => ?_⟩
          by_cases ht : A2.truthy (A2.and gh h) = true
          · rw [if_neg (by simp [ht])]
            by_cases hin : acc.any (fun e => decide (e.1.key = g.key)) = true
            · rw [if_pos hin, hacc]
              refine and_congr_right fun hx => and_congr_left fun hr => ⟨Or.inl, fun h' => h'.elim id fun h' => ?_⟩
              obtain ⟨e, he, hek⟩ := List.any_eq_true.1 hin
              rw [decide_eq_true_eq, hk, ← h'] at hek
              rw [← hek]
              exact ((hacc e).1 he).2.1
            · rw [if_neg hin, List.mem_append, List.mem_singleton, hacc]
              constructor
              · rintro (⟨h1, h2, h3⟩ | rfl)
                · exact ⟨h1, Or.inl h2, h3⟩
                · exact ⟨hg, Or.inr hk, ⟨gh, egh, rfl⟩, ht⟩
              · rintro ⟨h1, h2 | h2, ⟨gh', h3, h4⟩, h5⟩
                · exact Or.inl ⟨h1, h2, ⟨gh', h3, h4⟩, h5⟩
                · right
                  obtain ⟨y, w⟩ := x
                  dsimp only at h1 h2 h3 h4 ⊢
                  obtain rfl := uniq y h1 g hg (h2.trans hk.symm)
                  rw [egh] at h3; cases h3
                  rw [h4]
          · rw [if_pos (by simpa using ht), hacc]
            refine and_congr_right fun hx => and_congr_left fun hr => ⟨Or.inl, fun h' => h'.elim id fun h' => ?_⟩
            obtain ⟨⟨gh', h3, h4⟩, h5⟩ := hr
            obtain rfl := uniq _ hx g hg (h'.trans hk.symm)
            rw [egh] at h3; cases h3
            rw [h4] at h5
            exact absurd h5 ht
    obtain ⟨acc1, e1, h1⟩ := step
    obtain ⟨acc', e', h'⟩ := ih (N := fun k => N k ∨ k = name) h1
    refine ⟨acc', by rw [List.foldlM_cons, e1]; exact e', fun x => ?_⟩
    rw [h', List.mem_cons, or_assoc]

include L2 in
/-- The gateways of a list of names, with the hosts they share with the virtual service. -/
theorem pick_sem (hD : IngressLib A2 W2 dfa word D) {gts : List GatewayText} {gs : List (Gtw V2)} (hp : gs.Pairwise fun g g' => g.key ≠ g'.key)
    (hgs : Cover (fun t => t ∈ gts ∧ t.Works c) (GtwIs A2 W2 word c) gs) {v : VsText} {v' : Vs V2} (hv : VsIs A2 W2 word rg c l v v') (names : List String) :
    ∃ xs, pick A2 gs v' names = some xs ∧
      Cover (fun g : GatewayText => (g ∈ gts ∧ g.Works c) ∧ fullName g.name g.ns ∈ names ∧ ∃ w, (∀ a ∈ w, Letter a) ∧ (ServesR g w ∧ AnyR v.hosts w))
        (fun g x => GtwIs A2 W2 word c g x.1 ∧ (Means A2 W2 word x.2 fun w => ServesR g w ∧ AnyR v.hosts w) ∧ A2.truthy x.2 = true) xs := by
  obtain ⟨h, eh, mh⟩ := hv.hosts
  obtain ⟨xs, e, hx⟩ := pick_fold (A2 := A2) hp (fun g hg => by
    obtain ⟨t, _, ht⟩ := hgs.sound g hg
    obtain ⟨gh, e, _⟩ := ht.hosts
    refine ⟨⟨gh, e⟩, fun hk => ?_⟩
    rw [ht.key] at hk
    have := full_slash t.ns t.name
    rw [hk] at this
    exact absurd this (by decide)) h names (acc := []) (N := fun _ => False) (by simp)
  refine ⟨xs, by unfold pick; rw [eh]; exact e, fun x hxs => ?_, fun t ⟨ht, hn, w, hw⟩ => ?_⟩
  · obtain ⟨h1, h2, ⟨gh, h3, h4⟩, h5⟩ := (hx x).1 hxs
    obtain ⟨t, ht, hg⟩ := hgs.sound _ h1
    obtain ⟨gh', e', mg⟩ := hg.hosts
    rw [h3] at e'; cases e'
    have me : Means A2 W2 word x.2 fun w => ServesR t w ∧ AnyR v.hosts w := by rw [h4]; exact mg.and L2 mh
    exact ⟨t, ⟨ht, by rw [← hg.key]; exact h2.resolve_left id, (me.truthy hD L2).1 h5⟩, hg, me, h5⟩
  · obtain ⟨g, hg, hgi⟩ := hgs.complete t ht
    obtain ⟨gh, e', mg⟩ := hgi.hosts
    have me : Means A2 W2 word (A2.and gh h) fun w => ServesR t w ∧ AnyR v.hosts w := mg.and L2 mh
    have htr := (me.truthy hD L2).2 ⟨w, hw⟩
    exact ⟨(g, A2.and gh h), (hx _).2 ⟨hg, Or.inr (by rw [hgi.key]; exact hn), ⟨gh, e', rfl⟩, htr⟩, hgi, me, htr⟩

omit L2 in
theorem local_not_external {ns : Ns} {d : DestText} (h : d.Local c l ns) (h' : d.External) : False := by
  cases h with
  | short _ h2 => exact h2 h'.dot
  | @long a b e => exact h'.name ⟨a ++ '.' :: (b ++ ['.']), [], by rw [e]; simp⟩

omit L2 in
theorem egress_not_external {d : DestText} (h : d.host = egressHost) (h' : d.External) : False :=
  h'.name ⟨"istio-egressgateway.istio-system.".toList, [], by rw [h]; decide⟩

/-- What the code takes as bound: the route names the gateway, and some host is one of all. -/
def BindsR (c : Container) (v : VsText) (rv : RouteView) (g : GatewayText) : Prop := g.Works c ∧ (∃ i ∈ rv.conds, i.At v g) ∧ Over v rv g

/-- What the code takes as a route of the mesh to the egress gateway. -/
def MeshR (c : Container) (l : List SvcText) (v : VsText) (rv : RouteView) (d : DestText) : Prop :=
  (d ∈ rv.dests ∧ d.Known c l v.ns) ∧ d.host = egressHost ∧ ∃ i ∈ rv.conds, i.Mesh v

/-- The policies of a route. -/
theorem routeOut_sem (hI : IstioCluster V rg c) (hD : IngressLib A2 W2 dfa word D) (hN : Named c l) (hz : Mem z PeerDom.default.idx)
    (hzS : ∀ S : PeerSet String, ¬ PeerSet.At (X2 := X2) rg.keys S (.inl z)) {gts : List GatewayText} (hgt : ∀ g ∈ gts, g.Tame) {gs : List (Gtw V2)}
    (hp : gs.Pairwise fun g g' => g.key ≠ g'.key) (hgs : Cover (fun t => t ∈ gts ∧ t.Works c) (GtwIs A2 W2 word c) gs)
    {v : VsText} (hvt : '/' ∉ v.ns.name.toList) {v' : Vs V2} (hv : VsIs A2 W2 word rg c l v v') {global : List (Gtw V2 × V2)}
    (hglob : pick A2 gs v' v'.gateways = some global) {rv : RouteView} (ht : rv.Tame c l gts v) {r : Route V2} (hr : RouteIs A2 W2 word rg c l v rv r) (n : Nat) :
    ∃ o, routeOut A2 PeerDom.default ord rg gs c v' global (r, n) = some o ∧
      OutIs L2 word rg c l z (fun v1 r1 g => (v1 = v ∧ r1 = rv) ∧ g ∈ gts ∧ BindsR c v rv g) (fun v1 r1 d => (v1 = v ∧ r1 = rv) ∧ MeshR c l v rv d) o := by
  unfold routeOut
  dsimp only
  have e0 : (if r.gateways.isEmpty then some global else pick A2 gs v' r.gateways) = pick A2 gs v' (if r.gateways.isEmpty then v'.gateways else r.gateways) := by
    split
    · exact hglob.symm
    · rfl
  rw [e0]
  have hnm := hr.names v'.gateways hv.gateways
  generalize (if r.gateways.isEmpty then v'.gateways else r.gateways) = names at hnm
  obtain ⟨xs, e1, cx⟩ := pick_sem L2 hD hp hgs hv names
  rw [e1, Option.bind_some]
  obtain ⟨os, e2, co⟩ := cx.mapM (R' := fun g o => OutIs L2 word rg c l z (fun v1 r1 g1 => (v1 = v ∧ r1 = rv ∧ g1 = g) ∧ Over v rv g) (fun _ _ _ => False) o)
    (f := gtwOut A2 PeerDom.default ord rg c v' n r) fun g x _ h1 ⟨h2, h3, h4⟩ =>
      gtwOut_sem L2 hI hD hN hz hzS hr h2 h3 h4 (fun hk hint => by
        obtain ⟨hne, hloc⟩ := hr.here.1 hint
        obtain ⟨T, hT⟩ := List.exists_mem_of_ne_nil _ hne
        obtain ⟨d, ⟨hd, _⟩, _⟩ := hr.dests.sound T hT
        obtain ⟨i, hi, hfull⟩ := (hnm _).1 h1.2.1
        exact local_not_external (hloc d hd) (ht.egress g h1.1.1 hk i hi ((full_named hvt (hgt g h1.1.1) _).1 hfull) d hd)) v' n
  rw [e2, Option.bind_some]
  have mesh : ∃ ms, (if r.internal = some true ∧ "mesh" ∈ names then r.dests.mapM (meshOut A2 PeerDom.default ord rg c v' n r) else some []) = some ms ∧
      OutIs L2 word rg c l z (fun _ _ _ => False) (fun v1 r1 d => (v1 = v ∧ r1 = rv) ∧ MeshR c l v rv d) (Out.join ms) := by
    by_cases hc : r.internal = some true ∧ "mesh" ∈ names
    · rw [if_pos hc]
      obtain ⟨_, hloc⟩ := hr.here.1 hc.1
      obtain ⟨ms, e3, cm⟩ := hr.dests.mapM
        (R' := fun d o => OutIs L2 word rg c l z (fun _ _ _ => False) (fun v1 r1 d1 => (v1 = v ∧ r1 = rv ∧ d1 = d) ∧ d.host = egressHost) o)
        (f := meshOut A2 PeerDom.default ord rg c v' n r) fun d T _ h1 h2 => meshOut_sem L2 hI hD hN hz hzS hvt hr h2 (hloc d h1.1) v' n
      refine ⟨ms, e3, (OutIs.join cm).congr (fun _ _ _ => by simp) fun v1 r1 d1 => ?_⟩
      obtain ⟨i, hi, hfull⟩ := (hnm _).1 hc.2
      constructor
      · rintro ⟨d, h1, ⟨rfl, rfl, rfl⟩, h2⟩
        exact ⟨⟨rfl, rfl⟩, h1, h2, i, hi, (full_mesh _).1 hfull⟩
      · rintro ⟨⟨rfl, rfl⟩, h1, h2, _⟩
        exact ⟨d1, h1, ⟨rfl, rfl, rfl⟩, h2⟩
    · rw [if_neg hc]
      refine ⟨[], rfl, OutIs.nil (fun _ _ _ h => h) ?_⟩
      rintro _ _ d ⟨_, h1, h2, i, hi, hm⟩
      refine hc ⟨?_, (hnm _).2 ⟨i, hi, (full_mesh _).2 hm⟩⟩
      by_contra hn
      obtain ⟨T, hT, _⟩ := hr.dests.complete d h1
      exact egress_not_external h2 (hr.outside hn (List.ne_nil_of_mem hT) d h1.1)
  obtain ⟨ms, e3, om⟩ := mesh
  rw [e3, Option.map_some]
  refine ⟨_, rfl, ((OutIs.join co).append om).congr (fun v1 r1 g1 => ?_) fun v1 r1 d1 => ?_⟩
  · rw [or_iff_left (by simp)]
    constructor
    · rintro ⟨g, ⟨⟨h1, h2⟩, h3, _⟩, ⟨rfl, rfl, rfl⟩, h4⟩
      obtain ⟨i, hi, hfull⟩ := (hnm _).1 h3
      exact ⟨⟨rfl, rfl⟩, h1, h2, ⟨i, hi, (full_named hvt (hgt _ h1) _).1 hfull⟩, h4⟩
    · rintro ⟨⟨rfl, rfl⟩, h1, h2, ⟨i, hi, hat⟩, h4⟩
      obtain ⟨w, hw, h5, h6⟩ := h4
      exact ⟨g1, ⟨⟨h1, h2⟩, (hnm _).2 ⟨i, hi, (full_named hvt (hgt _ h1) _).2 hat⟩, w, hw, h5⟩, ⟨rfl, rfl, rfl⟩, w, hw, h5, h6⟩
  · rw [or_iff_right (by simp)]

/-- The policies of the routes of a kind. -/
theorem routesOut_sem (hI : IstioCluster V rg c) (hD : IngressLib A2 W2 dfa word D) (hN : Named c l) (hz : Mem z PeerDom.default.idx)
    (hzS : ∀ S : PeerSet String, ¬ PeerSet.At (X2 := X2) rg.keys S (.inl z)) {gts : List GatewayText} (hgt : ∀ g ∈ gts, g.Tame) {gs : List (Gtw V2)}
    (hp : gs.Pairwise fun g g' => g.key ≠ g'.key) (hgs : Cover (fun t => t ∈ gts ∧ t.Works c) (GtwIs A2 W2 word c) gs)
    {v : VsText} (hvt : '/' ∉ v.ns.name.toList) {v' : Vs V2} (hv : VsIs A2 W2 word rg c l v v') {global : List (Gtw V2 × V2)}
    (hglob : pick A2 gs v' v'.gateways = some global) {P : RouteView → Prop} (ht : ∀ rv, P rv → rv.Tame c l gts v) {rs : List (Route V2)}
    (hr : Cover P (RouteIs A2 W2 word rg c l v) rs) :
    ∃ o, routesOut A2 PeerDom.default ord rg gs c v' global rs = some o ∧
      OutIs L2 word rg c l z (fun v1 r1 g => (v1 = v ∧ P r1) ∧ g ∈ gts ∧ BindsR c v r1 g) (fun v1 r1 d => (v1 = v ∧ P r1) ∧ MeshR c l v r1 d) o := by
  unfold routesOut
  have cz : Cover P (fun rv x => RouteIs A2 W2 word rg c l v rv x.1) (rs.zipIdx 1) := by
    refine ⟨fun x hx => ?_, fun rv h => ?_⟩
    · exact hr.sound x.1 (List.fst_mem_of_mem_zipIdx hx)
    · obtain ⟨r, h1, h2⟩ := hr.complete rv h
      obtain ⟨n, hn, e⟩ := List.getElem_of_mem h1
      exact ⟨(r, 1 + n), List.mk_add_mem_zipIdx_iff_getElem?.2 (by rw [List.getElem?_eq_getElem hn, e]), h2⟩
  obtain ⟨os, e, co⟩ := cz.mapM (R' := fun rv o => OutIs L2 word rg c l z (fun v1 r1 g => (v1 = v ∧ r1 = rv) ∧ g ∈ gts ∧ BindsR c v rv g)
    (fun v1 r1 d => (v1 = v ∧ r1 = rv) ∧ MeshR c l v rv d) o) (f := routeOut A2 PeerDom.default ord rg gs c v' global)
    fun rv x _ h1 h2 => routeOut_sem L2 hI hD hN hz hzS hgt hp hgs hvt hv hglob (ht rv h1) h2 x.2
  rw [e, Option.map_some]
  refine ⟨_, rfl, (OutIs.join co).congr (fun v1 r1 g => ?_) fun v1 r1 d => ?_⟩
  · constructor
    · rintro ⟨rv, h1, ⟨rfl, rfl⟩, h2⟩
      exact ⟨⟨rfl, h1⟩, h2⟩
    · rintro ⟨⟨rfl, h1⟩, h2⟩
      exact ⟨r1, h1, ⟨rfl, rfl⟩, h2⟩
  · constructor
    · rintro ⟨rv, h1, ⟨rfl, rfl⟩, h2⟩
      exact ⟨⟨rfl, h1⟩, h2⟩
    · rintro ⟨⟨rfl, h1⟩, h2⟩
      exact ⟨r1, h1, ⟨rfl, rfl⟩, h2⟩

/-- The policies of a virtual service. -/
theorem vsOut_sem (hI : IstioCluster V rg c) (hD : IngressLib A2 W2 dfa word D) (hN : Named c l) (hz : Mem z PeerDom.default.idx)
    (hzS : ∀ S : PeerSet String, ¬ PeerSet.At (X2 := X2) rg.keys S (.inl z)) {gts : List GatewayText} (hgt : ∀ g ∈ gts, g.Tame) {gs : List (Gtw V2)}
    (hp : gs.Pairwise fun g g' => g.key ≠ g'.key) (hgs : Cover (fun t => t ∈ gts ∧ t.Works c) (GtwIs A2 W2 word c) gs)
    {v : VsText} (hvt : v.Tame c l gts) {v' : Vs V2} (hv : VsIs A2 W2 word rg c l v v') :
    ∃ o, vsOut A2 PeerDom.default ord rg gs c v' = some o ∧
      OutIs L2 word rg c l z (fun v1 r1 g => v1 = v ∧ (∃ group ∈ v.groups, r1 ∈ group) ∧ g ∈ gts ∧ BindsR c v r1 g)
        (fun v1 r1 d => v1 = v ∧ (∃ group ∈ v.groups, r1 ∈ group) ∧ MeshR c l v r1 d) o := by
  unfold vsOut
  obtain ⟨global, e0, _⟩ := pick_sem L2 hD hp hgs hv v'.gateways
  rw [e0, Option.bind_some]
  obtain ⟨a, e1, h1⟩ := routesOut_sem L2 (ord := ord) hI hD hN hz hzS hgt hp hgs hvt.ns hv e0
    (fun rv h => hvt.routes _ List.mem_cons_self rv h) hv.http
  obtain ⟨b, e2, h2⟩ := routesOut_sem L2 (ord := ord) hI hD hN hz hzS hgt hp hgs hvt.ns hv e0
    (fun rv h => hvt.routes _ (List.mem_cons_of_mem _ List.mem_cons_self) rv h.1) hv.tls
  obtain ⟨d, e3, h3⟩ := routesOut_sem L2 (ord := ord) hI hD hN hz hzS hgt hp hgs hvt.ns hv e0
    (fun rv h => hvt.routes _ (List.mem_cons_of_mem _ (List.mem_cons_of_mem _ List.mem_cons_self)) rv h) hv.tcp
  rw [e1, Option.bind_some, e2, Option.bind_some, e3, Option.map_some]
  refine ⟨_, rfl, ((h1.append h2).append h3).congr (fun v1 r1 g => ?_) fun v1 r1 d => ?_⟩
  · unfold VsText.groups
    constructor
    · rintro ((⟨⟨rfl, h⟩, h'⟩ | ⟨⟨rfl, h, _⟩, h'⟩) | ⟨⟨rfl, h⟩, h'⟩)
      · exact ⟨rfl, ⟨_, by simp, h⟩, h'⟩
      · exact ⟨rfl, ⟨_, by simp, h⟩, h'⟩
      · exact ⟨rfl, ⟨v1.tcp.map TcpText.view, by simp, h⟩, h'⟩
    · rintro ⟨rfl, ⟨group, hg, h⟩, h'⟩
      rcases List.mem_cons.1 hg with rfl | hg
      · exact Or.inl (Or.inl ⟨⟨rfl, h⟩, h'⟩)
      · rcases List.mem_cons.1 hg with rfl | hg
        · obtain ⟨i, hi, _⟩ := h'.2.2.1
          exact Or.inl (Or.inr ⟨⟨rfl, h, List.ne_nil_of_mem hi⟩, h'⟩)
        · rw [List.mem_singleton.1 hg] at h
          exact Or.inr ⟨⟨rfl, h⟩, h'⟩
  · unfold VsText.groups
    constructor
    · rintro ((⟨⟨rfl, h⟩, h'⟩ | ⟨⟨rfl, h, _⟩, h'⟩) | ⟨⟨rfl, h⟩, h'⟩)
      · exact ⟨rfl, ⟨_, by simp, h⟩, h'⟩
      · exact ⟨rfl, ⟨_, by simp, h⟩, h'⟩
      · exact ⟨rfl, ⟨v1.tcp.map TcpText.view, by simp, h⟩, h'⟩
    · rintro ⟨rfl, ⟨group, hg, h⟩, h'⟩
      rcases List.mem_cons.1 hg with rfl | hg
      · exact Or.inl (Or.inl ⟨⟨rfl, h⟩, h'⟩)
      · rcases List.mem_cons.1 hg with rfl | hg
        · obtain ⟨i, hi, _⟩ := h'.2.2
          exact Or.inl (Or.inr ⟨⟨rfl, h, List.ne_nil_of_mem hi⟩, h'⟩)
        · rw [List.mem_singleton.1 hg] at h
          exact Or.inr ⟨⟨rfl, h⟩, h'⟩

/-- The virtual services, their routes and the gateways that the code takes as bound to them. -/
def AllG (c : Container) (gts : List GatewayText) (vts : List VsText) (v : VsText) (rv : RouteView) (g : GatewayText) : Prop :=
  v ∈ vts ∧ (∃ group ∈ v.groups, rv ∈ group) ∧ g ∈ gts ∧ BindsR c v rv g

/-- The virtual services and their routes of the mesh to the egress gateway. -/
def AllD (c : Container) (l : List SvcText) (vts : List VsText) (v : VsText) (rv : RouteView) (d : DestText) : Prop :=
  v ∈ vts ∧ (∃ group ∈ v.groups, rv ∈ group) ∧ MeshR c l v rv d

/-- All policies. -/
theorem gatewayPols_sem (hI : IstioCluster V rg c) (hD : IngressLib A2 W2 dfa word D) (hw : ∀ a, Letter a → a ∉ ['.', '/', '-'] → cls a = true)
    (hl : SvcsTame rg c l) (hN : Named c l) {rx : List Char → String → Bool} (hrx : RxOk rx) (hz : Mem z PeerDom.default.idx)
    (hzS : ∀ S : PeerSet String, ¬ PeerSet.At (X2 := X2) rg.keys S (.inl z)) {gts : List GatewayText} (hgt : ∀ g ∈ gts, g.Tame) (hgd : NamesDiffer gts)
    {vts : List VsText} (hvt : ∀ v ∈ vts, v.Tame c l gts) (hvd : VsDiffer vts) (hne : (∃ g ∈ gts, g.Works c) ∨ vts ≠ [] ∨ gts = []) :
    ∃ pols, gatewayPols A2 dfa cls rx PeerDom.default ord rg (l.map fun s => (fullName s.name s.ns, svcOf rg c s)) c gts vts = some pols ∧
      ((¬ ((∃ g ∈ gts, g.Works c) ∧ vts ≠ []) → pols = []) ∧
      ((∃ g ∈ gts, g.Works c) ∧ vts ≠ [] → ∃ o, OutIs L2 word rg c l z (AllG c gts vts) (AllD c l vts) o ∧
        pols = if o.all.isEmpty then [dummy] else o.all)) := by
  unfold gatewayPols
  obtain ⟨gs, e1, cg, hp⟩ := gateways_sem hD L2 hw hI.cluster hgt hgd
  obtain ⟨vs, e2, cv⟩ := virtualServices_sem hD L2 hw hI.cluster hl hN hrx hvt hvd
  rw [e1, Option.bind_some, e2, Option.bind_some]
  have hge : gs.isEmpty = true ↔ ¬ ∃ g ∈ gts, g.Works c := by
    rw [List.isEmpty_iff]
    constructor
    · rintro rfl ⟨g, hg⟩
      obtain ⟨_, h, _⟩ := cg.complete g hg
      cases h
    · intro h
      by_contra hn
      obtain ⟨g, hg⟩ := List.exists_mem_of_ne_nil _ hn
      obtain ⟨t, ht, _⟩ := cg.sound g hg
      exact h ⟨t, ht⟩
  have hve : vs.isEmpty = true ↔ vts = [] := by
    rw [List.isEmpty_iff]
    constructor
    · rintro rfl; cases cv; rfl
    · rintro rfl; cases cv; rfl
  by_cases hw : ∃ g ∈ gts, g.Works c
  · rw [if_neg (fun h => hge.1 h hw)]
    by_cases hv : vts = []
    · rw [if_pos (hve.2 hv)]
      exact ⟨[], rfl, fun _ => rfl, fun h => absurd hv h.2⟩
    · rw [if_neg (fun h => hv (hve.1 h))]
      obtain ⟨os, e3, co⟩ := (Cover.of_forall₂ cv).mapM (R' := fun v o => OutIs L2 word rg c l z
        (fun v1 r1 g => v1 = v ∧ (∃ group ∈ v.groups, r1 ∈ group) ∧ g ∈ gts ∧ BindsR c v r1 g)
        (fun v1 r1 d => v1 = v ∧ (∃ group ∈ v.groups, r1 ∈ group) ∧ MeshR c l v r1 d) o) (f := vsOut A2 PeerDom.default ord rg gs c)
        fun v v' _ h1 h2 => vsOut_sem L2 hI hD hN hz hzS hgt hp cg (hvt v h1) h2
      rw [e3, Option.map_some]
      refine ⟨_, rfl, fun h => absurd ⟨hw, hv⟩ h, fun _ => ⟨Out.join os, (OutIs.join co).congr (fun v1 r1 g => ?_) fun v1 r1 d => ?_, rfl⟩⟩
      · exact ⟨fun ⟨v, h, e, h'⟩ => by subst e; exact ⟨h, h'⟩, fun ⟨h, h'⟩ => ⟨v1, h, rfl, h'⟩⟩
      · exact ⟨fun ⟨v, h, e, h'⟩ => by subst e; exact ⟨h, h'⟩, fun ⟨h, h'⟩ => ⟨v1, h, rfl, h'⟩⟩
  · rw [if_pos (hge.2 hw)]
    rw [if_neg]
    · exact ⟨[], rfl, fun _ => rfl, fun h => absurd h.1 hw⟩
    · intro h
      rw [Bool.and_eq_true, List.isEmpty_iff, Bool.not_eq_true', List.isEmpty_eq_false_iff] at h
      rcases hne with h' | h' | h'
      · exact hw h'
      · exact h' h.1
      · exact h.2 h'

end
end GtwParser
end Verif
