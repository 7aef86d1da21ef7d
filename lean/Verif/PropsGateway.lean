import Verif.GatewayProofs
/-!
C59: the policies that are made from the gateways and the virtual services of Istio say what its reference does.
-/
namespace Verif
open ISet IpBlock PeerSet

namespace GtwParser
open Container CalicoParser IstioParser IngressParser SidecarParser

section
variable {V2 X2 : Type} {A2 : VAlg Dim V2 X2} {W2 : Dim → V2 → Prop} {dfa : List Char → V2} {word : X2 → List Char} {D : V2 → Prop}
  {V : Env} {rg : PodReg} {c : Container} {ord : SetOrder} {l : List SvcText}

/-! ### Hosts -/

theorem anyR_for {hs : List (List Char)} {w : List Char} (h : ∀ h ∈ hs, Plain h w) : AnyR hs w ↔ ∃ h ∈ hs, NameSays h w :=
  exists_congr fun x => and_congr_right fun hx => hostR_says (h x hx)

theorem servesR_serves {g : GatewayText} {w : List Char} (h : ∀ hosts ∈ g.servers, ∀ h ∈ hosts, Plain h w) : ServesR g w ↔ g.Serves w :=
  exists_congr fun hs => and_congr_right fun hhs => anyR_for (h hs hhs)

theorem names_same {v : VsText} {i j : Cond} (h : i.gateways = j.gateways) : i.names v = j.names v := by unfold Cond.names; rw [h]

/-- What is used of the routes. -/
structure Sane (v : VsText) (rv : RouteView) : Prop where
  same : ∀ i ∈ rv.conds, ∀ j ∈ rv.conds, i.gateways = j.gateways
  sniOk : ∀ i ∈ rv.conds, ∀ l, i.sni = some l → ∀ h ∈ l, HostOk h ∧ ∃ t ∈ v.tls, ∃ m ∈ t.items, h ∈ m.sniHosts
  joint : ∀ (T : Cond → Prop), (∀ i j, i.sni = j.sni → (T i ↔ T j)) → ∀ path m, (∃ i ∈ rv.conds, T i) → (∃ i ∈ rv.conds, i.rest path m) →
    ∃ i ∈ rv.conds, T i ∧ i.rest path m

theorem VsIs.sane {v : VsText} {v' : Vs V2} (h : VsIs A2 W2 word rg c l v v') {group : List RouteView} (hg : group ∈ v.groups) {rv : RouteView}
    (hr : rv ∈ group) (hne : rv.conds ≠ []) : Sane v rv := by
  have key : ∃ r, RouteIs A2 W2 word rg c l v rv r := by
    unfold VsText.groups at hg
    rcases List.mem_cons.1 hg with rfl | hg
    · obtain ⟨r, _, h⟩ := h.http.complete rv hr
      exact ⟨r, h⟩
    · rcases List.mem_cons.1 hg with rfl | hg
      · obtain ⟨r, _, h⟩ := h.tls.complete rv ⟨hr, hne⟩
        exact ⟨r, h⟩
      · rw [List.mem_singleton.1 hg] at hr
        obtain ⟨r, _, h⟩ := h.tcp.complete rv hr
        exact ⟨r, h⟩
  obtain ⟨r, h⟩ := key
  exact ⟨h.same, h.sniOk, h.joint⟩

theorem Sane.at {v : VsText} {rv : RouteView} (h : Sane v rv) {g : GatewayText} (hi : ∃ i ∈ rv.conds, i.At v g) : ∀ i ∈ rv.conds, i.At v g := by
  obtain ⟨j, hj, n, hn, hg⟩ := hi
  exact fun i hi => ⟨n, by rw [names_same (h.same i hi j hj)]; exact hn, hg⟩

theorem Sane.mesh {v : VsText} {rv : RouteView} (h : Sane v rv) (hi : ∃ i ∈ rv.conds, i.Mesh v) : ∀ i ∈ rv.conds, i.Mesh v := by
  obtain ⟨j, hj, hm⟩ := hi
  exact fun i hi => by unfold Cond.Mesh; rw [names_same (h.same i hi j hj)]; exact hm

/-! ### Bound gateways -/

theorem binds_iff {gts : List GatewayText} {v : VsText} (hv : v.Tame c l gts) {rv : RouteView} (ht : rv.Tame c l gts v) (hs : Sane v rv) {g : GatewayText}
    (hg : g ∈ gts) (hgt : g.Tame) : Binds c v rv g ↔ BindsR c v rv g := by
  constructor
  · rintro ⟨h1, i, hi, hat, w, hf, hsv, hsn⟩
    obtain ⟨w', f1, f2, f3, hl, p1, p2, p3⟩ := ht.overlap g hg i hi w hf hsv hsn
    exact ⟨h1, ⟨i, hi, hat⟩, w', hl, ⟨(servesR_serves p2).2 f2, (anyR_for p1).2 f1⟩, i, hi, fun l hl => (anyR_for (p3 l hl)).2 (f3 l hl)⟩
  · rintro ⟨h1, hat, w, _, ⟨⟨hosts, h2, h, h3, h4⟩, h5, h6, h7⟩, i, hi, hsn⟩
    obtain ⟨w', hw'⟩ := read_fits w
    refine ⟨h1, i, hi, hs.at hat i hi, w', ⟨h5, h6, hw' _ (hv.hosts _ h6) h7⟩, ⟨hosts, h2, h, h3, hw' _ ((hgt.hosts hosts h2).2 h h3) h4⟩, fun l hl => ?_⟩
    obtain ⟨h8, h9, h10⟩ := hsn l hl
    exact ⟨h8, h9, hw' _ (hs.sniOk i hi l hl h8 h9).1 h10⟩

/-- The first route that fits is the only one. -/
theorem decides_iff {on : Cond → Prop} {group : List RouteView} {q : Request} (hp : group.Pairwise fun r r' => ¬ (r.Fits on q ∧ r'.Fits on q)) {r : RouteView} :
    Decides on group r q ↔ r ∈ group ∧ r.Fits on q := by
  constructor
  · rintro ⟨a, b, rfl, h, _⟩
    exact ⟨by simp, h⟩
  · rintro ⟨h, hf⟩
    obtain ⟨a, b, rfl⟩ := List.append_of_mem h
    refine ⟨a, b, rfl, hf, fun r' hr' hf' => ?_⟩
    exact (List.pairwise_append.1 hp).2.2 r' hr' r List.mem_cons_self ⟨hf', hf⟩

theorem sniR_iff {gts : List GatewayText} {v : VsText} {rv : RouteView} (hs : Sane v rv) {dst : Place} {q : Request} (hq : ReqTame rg c l gts v dst q) :
    SniR rv q.host ↔ ∃ i ∈ rv.conds, i.Sni q.host := by
  refine exists_congr fun i => and_congr_right fun hi => forall_congr' fun l => forall_congr' fun hl => anyR_for fun h hh => ?_
  obtain ⟨_, t, ht, m, hm, hh⟩ := hs.sniOk i hi l hl h hh
  exact hq.sni t ht m hm h hh

/-- A route of the code is one that fits. -/
theorem fits_iff {gts : List GatewayText} {v : VsText} {rv : RouteView} (hs : Sane v rv) {dst : Place} {q : Request} (hq : ReqTame rg c l gts v dst q) {on : Cond → Prop}
    (hon : (∃ i ∈ rv.conds, on i) → ∀ i ∈ rv.conds, on i) :
    rv.Fits on q ↔ (∃ i ∈ rv.conds, on i) ∧ SniR rv q.host ∧ ∃ i ∈ rv.conds, i.rest q.path q.method := by
  rw [sniR_iff hs hq]
  constructor
  · rintro ⟨i, hi, h1, h2, h3⟩
    exact ⟨⟨i, hi, h1⟩, ⟨i, hi, h2⟩, i, hi, h3⟩
  · rintro ⟨h1, h2, h3⟩
    obtain ⟨i, hi, h4, h5⟩ := hs.joint (fun i => i.Sni q.host) (fun i j e => by unfold Cond.Sni; rw [e]) q.path q.method h2 h3
    exact ⟨i, hi, hon h1 i hi, h4, h5⟩

/-- What is used of the texts. -/
structure Texts (c : Container) (l : List SvcText) (gts : List GatewayText) (vts : List VsText) : Prop where
  gtws : ∀ g ∈ gts, g.Tame
  vss : ∀ v ∈ vts, v.Tame c l gts
  sane : ∀ v ∈ vts, ∀ group ∈ v.groups, ∀ rv ∈ group, rv.conds ≠ [] → Sane v rv

theorem allG_iff {gts : List GatewayText} {vts : List VsText} (hT : Texts c l gts vts) {v : VsText} {rv : RouteView} {g : GatewayText} :
    AllG c gts vts v rv g ↔ v ∈ vts ∧ (∃ group ∈ v.groups, rv ∈ group) ∧ g ∈ gts ∧ Binds c v rv g := by
  constructor
  · rintro ⟨h1, ⟨group, h2, h3⟩, h4, h5⟩
    obtain ⟨i, hi, _⟩ := h5.2.1
    exact ⟨h1, ⟨group, h2, h3⟩, h4, (binds_iff (hT.vss v h1) ((hT.vss v h1).routes group h2 rv h3) (hT.sane v h1 group h2 rv h3 (List.ne_nil_of_mem hi)) h4 (hT.gtws g h4)).2 h5⟩
  · rintro ⟨h1, ⟨group, h2, h3⟩, h4, h5⟩
    obtain ⟨i, hi, _⟩ := h5.2
    exact ⟨h1, ⟨group, h2, h3⟩, h4, (binds_iff (hT.vss v h1) ((hT.vss v h1).routes group h2 rv h3) (hT.sane v h1 group h2 rv h3 (List.ne_nil_of_mem hi)) h4 (hT.gtws g h4)).1 h5⟩

theorem gatewayPod_iff {gts : List GatewayText} {vts : List VsText} (hT : Texts c l gts vts) (kind : String) (E : Place) :
    GatewayPod c gts vts kind E ↔ ∃ i : VsText × RouteView × GatewayText, (AllG c gts vts i.1 i.2.1 i.2.2 ∧ i.2.2.Kind kind) ∧ i.2.2.Runs c E := by
  constructor
  · rintro ⟨v, h1, group, h2, r, h3, g, h4, h5, h6, h7⟩
    exact ⟨(v, r, g), ⟨(allG_iff hT).2 ⟨h1, ⟨group, h2, h3⟩, h4, h6⟩, h5⟩, h7⟩
  · rintro ⟨⟨v, r, g⟩, ⟨h, h5⟩, h7⟩
    obtain ⟨h1, ⟨group, h2, h3⟩, h4, h6⟩ := (allG_iff hT).1 h
    exact ⟨v, h1, group, h2, r, h3, g, h4, h5, h6, h7⟩

theorem kept_iff {gts : List GatewayText} {vts : List VsText} (hT : Texts c l gts vts) (src dst : Place) :
    Kept c gts vts src dst ↔ ∃ i : VsText × RouteView × GatewayText, (AllG c gts vts i.1 i.2.1 i.2.2 ∧ i.2.2.Kind "egressgateway") ∧
      DenyCap c i.2.2 src ∧ ∃ d ∈ i.2.1.dests, IsDns c dst d.host := by
  constructor
  · rintro ⟨v, h1, group, h2, r, h3, g, h4, h5, h6, h7, h8, h9⟩
    exact ⟨(v, r, g), ⟨(allG_iff hT).2 ⟨h1, ⟨group, h2, h3⟩, h4, h6⟩, h5⟩, ⟨h7, h8⟩, h9⟩
  · rintro ⟨⟨v, r, g⟩, ⟨h, h5⟩, ⟨h7, h8⟩, h9⟩
    obtain ⟨h1, ⟨group, h2, h3⟩, h4, h6⟩ := (allG_iff hT).1 h
    exact ⟨v, h1, group, h2, r, h3, g, h4, h5, h6, h7, h8, h9⟩

theorem forwards_iff {gts : List GatewayText} {vts : List VsText} (hT : Texts c l gts vts) {kind : String} (hk : kind = "ingressgateway" ∨ kind = "egressgateway")
    {src dst : Place} {q : Request} (hq : ReqsTame rg c l gts vts dst q) (hlet : ∀ a ∈ q.host, Letter a) :
    q.proto = 6 ∧ Forwards rg c l gts vts kind src dst q ↔
      ∃ i : VsText × RouteView × GatewayText, (AllG c gts vts i.1 i.2.1 i.2.2 ∧ i.2.2.Kind kind) ∧ AllowF rg c l i.1 i.2.1 i.2.2 src dst q := by
  constructor
  · rintro ⟨hp, v, h1, h2, g, h3, h4, h5, h6, group, h7, r, h8, h9⟩
    rw [decides_iff ((hq.1 v h1).one h2 group h7 g h3)] at h8
    obtain ⟨i, hi, _⟩ := h8.2
    have hs := hT.sane v h1 group h7 r h8.1 (List.ne_nil_of_mem hi)
    obtain ⟨f1, f2, f3⟩ := (fits_iff hs (hq.1 v h1) hs.at).1 h8.2
    have hosts : (ServesR g q.host ∧ AnyR v.hosts q.host) ∧ SniR r q.host := ⟨⟨(servesR_serves (hq.2 g h3)).2 h6, (anyR_for (hq.1 v h1).hosts).2 h2⟩, f2⟩
    refine ⟨(v, r, g), ⟨⟨h1, ⟨group, h7, h8.1⟩, h3, ⟨?_, src, h5⟩, f1, q.host, hlet, hosts⟩, h4⟩, h5, hp, hosts, f3, h9⟩
    rcases hk with rfl | rfl
    · exact Or.inl h4
    · exact Or.inr h4
  · rintro ⟨⟨v, r, g⟩, ⟨⟨h1, ⟨group, h7, h8⟩, h3, _, f1, _⟩, h4⟩, h5, hp, ⟨⟨h6, h2⟩, f2⟩, f3, h9⟩
    obtain ⟨i, hi, _⟩ := id f1
    have hs := hT.sane v h1 group h7 r h8 (List.ne_nil_of_mem hi)
    have h2 := (anyR_for (hq.1 v h1).hosts).1 h2
    refine ⟨hp, v, h1, h2, g, h3, h4, h5, (servesR_serves (hq.2 g h3)).1 h6, group, h7, r, ?_, h9⟩
    exact (decides_iff ((hq.1 v h1).one h2 group h7 g h3)).2 ⟨h8, (fits_iff hs (hq.1 v h1) hs.at).2 ⟨f1, f2, f3⟩⟩

/-! ### Routes of the mesh -/

theorem egress_known (hN : Named c l) {ns : Ns} {d : DestText} (h : d.host = egressHost) : d.Known c l ns ↔ ∃ s ∈ l, d.host = svcName s := by
  constructor
  · rintro (⟨s, hs, h1 | ⟨h1, _⟩⟩ | ⟨E, p, hp, _, hk, k, he, e⟩)
    · exact ⟨s, hs, h1⟩
    · refine absurd ?_ (hN.svcs s hs).2.1
      rw [← h1, h]; decide
    · refine absurd ?_ (hN.dns p hp hk k he).2
      rw [e, h]
      exact ⟨"istio-egressgateway.istio-system.".toList, [], by decide⟩
  · rintro ⟨s, hs, h1⟩
    exact Or.inl ⟨s, hs, Or.inl h1⟩

theorem allD_iff (hN : Named c l) {vts : List VsText} {v : VsText} {rv : RouteView} {d : DestText} :
    AllD c l vts v rv d ↔ v ∈ vts ∧ (∃ group ∈ v.groups, rv ∈ group) ∧ (∃ i ∈ rv.conds, i.Mesh v) ∧ d ∈ rv.dests ∧ ∃ s ∈ l, d.ToEgress s := by
  constructor
  · rintro ⟨h1, h2, ⟨h3, h4⟩, h5, h6⟩
    obtain ⟨s, hs, h7⟩ := (egress_known hN h5).1 h4
    exact ⟨h1, h2, h6, h3, s, hs, h5, h7⟩
  · rintro ⟨h1, h2, h6, h3, s, hs, h5, h7⟩
    exact ⟨h1, h2, ⟨h3, (egress_known hN h5).2 ⟨s, hs, h7⟩⟩, h5, h6⟩

theorem meshRoute_iff (hN : Named c l) {vts : List VsText} {s : SvcText} :
    MeshRoute l vts s ↔ ∃ i : VsText × RouteView × DestText, AllD c l vts i.1 i.2.1 i.2.2 ∧ s ∈ l ∧ i.2.2.host = svcName s := by
  constructor
  · rintro ⟨hs, v, h1, group, h2, r, h3, h4, d, h5, h6⟩
    exact ⟨(v, r, d), (allD_iff hN).2 ⟨h1, ⟨group, h2, h3⟩, h4, h5, s, hs, h6⟩, hs, h6.2⟩
  · rintro ⟨⟨v, r, d⟩, h, hs, h7⟩
    obtain ⟨h1, ⟨group, h2, h3⟩, h4, h5, s', _, h6⟩ := (allD_iff hN).1 h
    exact ⟨hs, v, h1, group, h2, r, h3, h4, d, h5, h6.1, h7⟩

theorem some_mesh (hN : Named c l) {vts : List VsText} : (∃ s, MeshRoute l vts s) ↔ ∃ i : VsText × RouteView × DestText, AllD c l vts i.1 i.2.1 i.2.2 := by
  constructor
  · rintro ⟨s, h⟩
    obtain ⟨i, hi, _⟩ := (meshRoute_iff hN).1 h
    exact ⟨i, hi⟩
  · rintro ⟨i, hi⟩
    obtain ⟨_, _, _, _, s, hs, h⟩ := (allD_iff hN).1 hi
    exact ⟨s, (meshRoute_iff hN).2 ⟨i, hi, hs, h.2⟩⟩

theorem egressFlow_iff (hN : Named c l) {gts : List GatewayText} {vts : List VsText} (hT : Texts c l gts vts) :
    EgressFlow c l gts vts ↔ (∃ i : VsText × RouteView × DestText, AllD c l vts i.1 i.2.1 i.2.2) ∧
      ∃ i : VsText × RouteView × GatewayText, AllG c gts vts i.1 i.2.1 i.2.2 ∧ i.2.2.Kind "egressgateway" := by
  unfold EgressFlow
  rw [some_mesh hN]
  refine and_congr_right fun _ => ?_
  constructor
  · rintro ⟨v, h1, group, h2, r, h3, g, h4, h5, h6⟩
    exact ⟨(v, r, g), (allG_iff hT).2 ⟨h1, ⟨group, h2, h3⟩, h4, h6⟩, h5⟩
  · rintro ⟨⟨v, r, g⟩, h, h5⟩
    obtain ⟨h1, ⟨group, h2, h3⟩, h4, h6⟩ := (allG_iff hT).1 h
    exact ⟨v, h1, group, h2, r, h3, g, h4, h5, h6⟩

theorem fromMesh_iff (hN : Named c l) {gts : List GatewayText} {vts : List VsText} (hT : Texts c l gts vts)
    {src dst : Place} {q : Request} (hq : ReqsTame rg c l gts vts dst q) :
    q.proto = 6 ∧ FromMesh rg c l vts src dst q ↔
      ∃ i : VsText × RouteView × DestText, AllD c l vts i.1 i.2.1 i.2.2 ∧ MeshF rg c l i.1 i.2.1 i.2.2 src dst q := by
  constructor
  · rintro ⟨hp, hm, v, h1, hf, group, h2, r, h3, d, h4, ⟨s, hs, h5⟩, h6⟩
    rw [decides_iff ((hq.1 v h1).oneMesh hf group h2)] at h3
    obtain ⟨i, hi, _⟩ := h3.2
    have hs' := hT.sane v h1 group h2 r h3.1 (List.ne_nil_of_mem hi)
    obtain ⟨f1, f2, f3⟩ := (fits_iff hs' (hq.1 v h1) hs'.mesh).1 h3.2
    exact ⟨(v, r, d), (allD_iff hN).2 ⟨h1, ⟨group, h2, h3.1⟩, f1, h4, s, hs, h5⟩, hm, hp, f2, f3, h6⟩
  · rintro ⟨⟨v, r, d⟩, h, hm, hp, f2, f3, h6⟩
    obtain ⟨h1, ⟨group, h2, h3⟩, f1, h4, s, hs, h5⟩ := (allD_iff hN).1 h
    obtain ⟨i, hi, _⟩ := id f1
    have hs' := hT.sane v h1 group h2 r h3 (List.ne_nil_of_mem hi)
    have fits := (fits_iff hs' (hq.1 v h1) hs'.mesh).2 ⟨f1, f2, f3⟩
    have hf := (hq.1 v h1).mesh group h2 r h3 fits d h4 ⟨s, hs, h5⟩ h6
    exact ⟨hp, hm, v, h1, hf, group, h2, r, (decides_iff ((hq.1 v h1).oneMesh hf group h2)).2 ⟨h3, fits⟩, d, h4, ⟨s, hs, h5⟩, h6⟩

/-! ### All policies -/

variable (L2 : A2.Lawful W2)

/-- The policies say what Istio's reference does of gateways and virtual services. -/
structure PolsSay (word : X2 → List Char) (rg : PodReg) (c : Container) (l : List SvcText) (gts : List GatewayText) (vts : List VsText)
    (pols : List (GPol V2)) : Prop where
  /-- Egress is restricted for the pods of the gateways in use. -/
  gateways : ∀ E : Place, (∃ pol ∈ pols, pol.deny = false ∧ pol.ingress = false ∧ E.In pol.selected) ↔ IsGateway c l gts vts E
  /-- Ingress is restricted for the pods of the egress gateway, if the egress flow is in use. -/
  egress : ∀ E : Place, (∃ pol ∈ pols, pol.deny = false ∧ pol.ingress = true ∧ E.In pol.selected) ↔
    EgressFlow c l gts vts ∧ ∃ s, MeshRoute l vts s ∧ Picks c s E
  /-- Policies that deny something do so for egress. -/
  denied : ∀ pol ∈ pols, pol.deny = true → pol.ingress = false
  /-- What gateways send is what their routes tell them to. -/
  forwards : ∀ p src dst q, IsRequest word rg c p src dst q → ReqsTame rg c l gts vts dst q →
    ((∃ pol ∈ pols, pol.deny = false ∧ pol.ingress = false ∧ ∃ h ∈ pol.rules, (connNet L2 PeerDom.default).K.mem p h = true) ↔
      q.proto = 6 ∧ (Forwards rg c l gts vts "ingressgateway" src dst q ∨ EgressFlow c l gts vts ∧ Forwards rg c l gts vts "egressgateway" src dst q))
  /-- What the egress gateway gets is what the routes of the mesh send. -/
  fromMesh : ∀ p src dst q, IsRequest word rg c p src dst q → ReqsTame rg c l gts vts dst q →
    ((∃ pol ∈ pols, pol.deny = false ∧ pol.ingress = true ∧ ∃ h ∈ pol.rules, (connNet L2 PeerDom.default).K.mem p h = true) ↔
      q.proto = 6 ∧ EgressFlow c l gts vts ∧ FromMesh rg c l vts src dst q)
  /-- Other sources do not reach the destinations of the egress flow. -/
  kept : ∀ p src dst q, IsRequest word rg c p src dst q → ReqsTame rg c l gts vts dst q →
    ((∃ pol ∈ pols, pol.deny = true ∧ ∃ h ∈ pol.rules, (connNet L2 PeerDom.default).K.mem p h = true) ↔ EgressFlow c l gts vts ∧ Kept c gts vts src dst)

/-- The policies are legal: each has a set of pods, and its rules are about them. -/
def PolOk (rg : PodReg) (c : Container) (z : Int) (pol : GPol V2) : Prop :=
  pol.selected.Ok ∧ InCluster c pol.selected ∧
    ∀ h ∈ pol.rules, ∃ S T, InCluster c S ∧ InCluster c T ∧ GOk L2 rg z S T h ∧ (if pol.ingress then T else S) = pol.selected

variable {L2}

theorem GPolIs.polOk {z : Int} {P : Request → Prop} {dn ingr : Bool} {Cap : Place → Prop} {F : Place → Place → Request → Prop} {pol : GPol V2}
    (h : GPolIs L2 word rg c z P dn ingr Cap F pol) : PolOk L2 rg c z pol :=
  ⟨h.ok, h.inCluster, fun k hk => by rw [h.ingress]; exact h.rules k hk⟩

theorem Cover.isNil {I α : Type} {P : I → Prop} {R : I → α → Prop} {m : List α} (h : Cover P R m) : m.isEmpty = false ↔ ∃ i, P i := by
  rw [List.isEmpty_eq_false_iff]
  constructor
  · intro hn
    obtain ⟨a, ha⟩ := List.exists_mem_of_ne_nil _ hn
    obtain ⟨i, hi, _⟩ := h.sound a ha
    exact ⟨i, hi⟩
  · rintro ⟨i, hi⟩
    obtain ⟨a, ha, _⟩ := h.complete i hi
    exact List.ne_nil_of_mem ha

theorem Cover.some_iff {I α : Type} {P : I → Prop} {R : I → α → Prop} {m : List α} (h : Cover P R m) {T : α → Prop} {F : I → Prop}
    (e : ∀ i a, P i → R i a → (T a ↔ F i)) : (∃ a ∈ m, T a) ↔ ∃ i, P i ∧ F i := by
  constructor
  · rintro ⟨a, ha, ht⟩
    obtain ⟨i, h1, h2⟩ := h.sound a ha
    exact ⟨i, h1, (e i a h1 h2).1 ht⟩
  · rintro ⟨i, hi, hf⟩
    obtain ⟨a, ha, h2⟩ := h.complete i hi
    exact ⟨a, ha, (e i a hi h2).2 hf⟩

/-- The policies, by their lists. -/
theorem mem_all (o : Out V2) (a : GPol V2) :
    a ∈ o.all ↔ a ∈ o.ing ∨ (o.mesh.isEmpty = false ∧ o.egr.isEmpty = false) ∧ (a ∈ o.mesh ∨ a ∈ o.egr ∨ a ∈ o.deny) := by
  unfold Out.all
  rw [List.mem_append]
  refine or_congr_right ?_
  cases o.mesh.isEmpty <;> cases o.egr.isEmpty <;> simp

theorem outIs_say (hN : Named c l) (hD : IngressLib A2 W2 dfa word D) {z : Int} {gts : List GatewayText} {vts : List VsText} (hT : Texts c l gts vts) {o : Out V2}
    (ho : OutIs L2 word rg c l z (AllG c gts vts) (AllD c l vts) o) : PolsSay L2 word rg c l gts vts o.all := by
  have flow : (o.mesh.isEmpty = false ∧ o.egr.isEmpty = false) ↔ EgressFlow c l gts vts := by
    rw [egressFlow_iff hN hT, ho.mesh.isNil, ho.egr.isNil]
  have split : ∀ T : GPol V2 → Prop, (∃ pol ∈ o.all, T pol) ↔
      (∃ pol ∈ o.ing, T pol) ∨ EgressFlow c l gts vts ∧ ((∃ pol ∈ o.mesh, T pol) ∨ (∃ pol ∈ o.egr, T pol) ∨ ∃ pol ∈ o.deny, T pol) := fun T => by
    constructor
    · rintro ⟨pol, h, ht⟩
      rcases (mem_all o pol).1 h with h | ⟨h1, h | h | h⟩
      · exact Or.inl ⟨pol, h, ht⟩
      · exact Or.inr ⟨flow.1 h1, Or.inl ⟨pol, h, ht⟩⟩
      · exact Or.inr ⟨flow.1 h1, Or.inr (Or.inl ⟨pol, h, ht⟩)⟩
      · exact Or.inr ⟨flow.1 h1, Or.inr (Or.inr ⟨pol, h, ht⟩)⟩
    · rintro (⟨pol, h, ht⟩ | ⟨h1, ⟨pol, h, ht⟩ | ⟨pol, h, ht⟩ | ⟨pol, h, ht⟩⟩)
      · exact ⟨pol, (mem_all o pol).2 (Or.inl h), ht⟩
      · exact ⟨pol, (mem_all o pol).2 (Or.inr ⟨flow.2 h1, Or.inl h⟩), ht⟩
      · exact ⟨pol, (mem_all o pol).2 (Or.inr ⟨flow.2 h1, Or.inr (Or.inl h)⟩), ht⟩
      · exact ⟨pol, (mem_all o pol).2 (Or.inr ⟨flow.2 h1, Or.inr (Or.inr h)⟩), ht⟩
  have uri : ∀ {dst q}, ReqsTame rg c l gts vts dst q → ∀ v ∈ vts, UriP v q := fun hq v hv => (hq.1 v hv).uri
  have hlet : ∀ {p src dst q}, IsRequest word rg c (A := connA A2 PeerDom.default) p src dst q → ∀ a ∈ q.host, Letter a := fun {p _ _ _} hp => by
    obtain ⟨x, e1, e2⟩ := hp.host
    have := p.2 .hosts
    rw [e1] at this
    rw [← e2]
    exact (hD.hosts x).1 this
  refine ⟨fun E => ?_, fun E => ?_, fun pol hpol hd => ?_, fun p src dst q hp hq => ?_, fun p src dst q hp hq => ?_, fun p src dst q hp hq => ?_⟩
  · rw [split, ho.ing.some_iff (F := fun i => i.2.2.Runs c E) fun i a _ h => by rw [h.deny, h.ingress, ← h.sel]; simp,
      ho.mesh.some_iff (F := fun _ => False) fun i a _ h => by rw [h.ingress]; simp,
      ho.egr.some_iff (F := fun i => i.2.2.Runs c E) fun i a _ h => by rw [h.deny, h.ingress, ← h.sel]; simp,
      ho.deny.some_iff (F := fun _ => False) fun i a _ h => by rw [h.deny]; simp]
    unfold IsGateway
    rw [gatewayPod_iff hT, gatewayPod_iff hT]
    simp only [and_false, exists_false, false_or, or_false]
  · rw [split, ho.ing.some_iff (F := fun _ => False) fun i a _ h => by rw [h.ingress]; simp,
      ho.mesh.some_iff (F := fun i => ∃ s ∈ l, i.2.2.host = svcName s ∧ Picks c s E) fun i a _ h => by rw [h.deny, h.ingress, ← h.sel]; simp,
      ho.egr.some_iff (F := fun _ => False) fun i a _ h => by rw [h.ingress]; simp,
      ho.deny.some_iff (F := fun _ => False) fun i a _ h => by rw [h.deny]; simp]
    simp only [and_false, exists_false, false_or, or_false]
    refine and_congr_right fun _ => ?_
    constructor
    · rintro ⟨i, hi, s, hs, h1, h2⟩
      exact ⟨s, (meshRoute_iff hN).2 ⟨i, hi, hs, h1⟩, h2⟩
    · rintro ⟨s, h, h2⟩
      obtain ⟨i, hi, hs, h1⟩ := (meshRoute_iff hN).1 h
      exact ⟨i, hi, s, hs, h1, h2⟩
  · rcases (mem_all o pol).1 hpol with h | ⟨_, h | h | h⟩
    · obtain ⟨i, _, h⟩ := ho.ing.sound _ h; exact h.ingress
    · obtain ⟨i, _, h⟩ := ho.mesh.sound _ h; rw [h.deny] at hd; cases hd
    · obtain ⟨i, _, h⟩ := ho.egr.sound _ h; exact h.ingress
    · obtain ⟨i, _, h⟩ := ho.deny.sound _ h; exact h.ingress
  · rw [split, ho.ing.some_iff (F := fun i => AllowF rg c l i.1 i.2.1 i.2.2 src dst q) fun i a hi h => by
        rw [h.deny, h.ingress, h.mem p src dst q hp (uri hq _ hi.1.1)]; simp,
      ho.mesh.some_iff (F := fun _ => False) fun i a _ h => by rw [h.ingress]; simp,
      ho.egr.some_iff (F := fun i => AllowF rg c l i.1 i.2.1 i.2.2 src dst q) fun i a hi h => by
        rw [h.deny, h.ingress, h.mem p src dst q hp (uri hq _ hi.1.1)]; simp,
      ho.deny.some_iff (F := fun _ => False) fun i a _ h => by rw [h.deny]; simp]
    rw [← forwards_iff hT (Or.inl rfl) hq (hlet hp), ← forwards_iff hT (Or.inr rfl) hq (hlet hp)]
    simp only [and_false, exists_false, false_or, or_false]
    rw [and_or_left, and_left_comm]
  · rw [split, ho.ing.some_iff (F := fun _ => False) fun i a _ h => by rw [h.ingress]; simp,
      ho.mesh.some_iff (F := fun i => MeshF rg c l i.1 i.2.1 i.2.2 src dst q) fun i a hi h => by
        rw [h.deny, h.ingress, h.mem p src dst q hp (uri hq _ hi.1)]; simp,
      ho.egr.some_iff (F := fun _ => False) fun i a _ h => by rw [h.ingress]; simp,
      ho.deny.some_iff (F := fun _ => False) fun i a _ h => by rw [h.deny]; simp]
    rw [← fromMesh_iff hN hT hq]
    simp only [and_false, exists_false, false_or, or_false]
    rw [and_left_comm]
  · rw [split, ho.ing.some_iff (F := fun _ => False) fun i a _ h => by rw [h.deny]; simp,
      ho.mesh.some_iff (F := fun _ => False) fun i a _ h => by rw [h.deny]; simp,
      ho.egr.some_iff (F := fun _ => False) fun i a _ h => by rw [h.deny]; simp,
      ho.deny.some_iff (F := fun i => DenyCap c i.2.2 src ∧ ∃ d ∈ i.2.1.dests, IsDns c dst d.host) fun i a hi h => by
        rw [h.deny, h.mem p src dst q hp (uri hq _ hi.1.1)]; simp]
    rw [kept_iff hT]
    simp only [and_false, exists_false, false_or]

/-- An empty policy says nothing more. -/
theorem PolsSay.withDummy {gts : List GatewayText} {vts : List VsText} (h : PolsSay L2 word rg c l gts vts ([] : List (GPol V2))) :
    PolsSay L2 word rg c l gts vts ([GtwParser.dummy] : List (GPol V2)) := by
  have key : ∀ T : GPol V2 → Prop, ¬ T GtwParser.dummy → ((∃ pol ∈ ([GtwParser.dummy] : List (GPol V2)), T pol) ↔ ∃ pol ∈ ([] : List (GPol V2)), T pol) := fun T hT => by
    simp [hT]
  refine ⟨fun E => ?_, fun E => ?_, fun pol hp hd => ?_, fun p src dst q hp hq => ?_, fun p src dst q hp hq => ?_, fun p src dst q hp hq => ?_⟩
  · rw [← h.gateways, key _ (by rintro ⟨_, _, h⟩; rw [show (GtwParser.dummy : GPol V2).selected = [] from rfl] at h; cases E <;> simp [Place.In, PeerSet.HasPod, PeerSet.HasIp] at h)]
  · rw [← h.egress, key _ (by rintro ⟨_, h, _⟩; cases h)]
  · rw [List.mem_singleton.1 hp] at hd; cases hd
  · rw [← h.forwards p src dst q hp hq, key _ (by rintro ⟨_, _, _, h, _⟩; cases h)]
  · rw [← h.fromMesh p src dst q hp hq, key _ (by rintro ⟨_, h, _⟩; cases h)]
  · rw [← h.kept p src dst q hp hq, key _ (by rintro ⟨h, _⟩; cases h)]

/-- All policies, with what the rest of the analysis uses of them. -/
theorem pols_all (hI : IstioCluster V rg c) (hD : IngressLib A2 W2 dfa word D) (hl : SvcsTame rg c l) (hN : Named c l)
    {rx : List Char → String → Bool} (hrx : RxOk rx) {z : Int} (hz : Mem z PeerDom.default.idx)
    (hzS : ∀ S : PeerSet String, ¬ PeerSet.At (X2 := X2) rg.keys S (.inl z)) {gts : List GatewayText} (hgt : ∀ g ∈ gts, g.Tame) (hgd : NamesDiffer gts)
    {vts : List VsText} (hvt : ∀ v ∈ vts, v.Tame c l gts) (hvd : VsDiffer vts) (hne : (∃ g ∈ gts, g.Works c) ∨ vts ≠ [] ∨ gts = []) :
    ∃ pols, gatewayPols A2 dfa V.word rx PeerDom.default ord rg (l.map fun s => (fullName s.name s.ns, svcOf rg c s)) c gts vts = some pols ∧
      (pols = [] ↔ ¬ ((∃ g ∈ gts, g.Works c) ∧ vts ≠ [])) ∧ PolsSay L2 word rg c l gts vts pols ∧
      (∃ a b, pols = a ++ b ∧ (∀ x ∈ a, x.deny = false) ∧ ∀ x ∈ b, x.deny = true) ∧ ∀ x ∈ pols, PolOk L2 rg c z x := by
  obtain ⟨pols, e, h1, h2⟩ := gatewayPols_sem L2 (ord := ord) hI hD hI.word hl hN hrx hz hzS hgt hgd hvt hvd hne
  obtain ⟨vs, _, cv⟩ := virtualServices_sem hD L2 hI.word hI.cluster hl hN hrx hvt hvd
  have hT : Texts c l gts vts := ⟨hgt, hvt, fun v hv group hg rv hr hne => by
    obtain ⟨v', _, h⟩ := forall₂_left cv v hv
    exact h.sane hg hr hne⟩
  refine ⟨pols, e, ?_⟩
  by_cases hc : (∃ g ∈ gts, g.Works c) ∧ vts ≠ []
  · obtain ⟨o, ho, rfl⟩ := h2 hc
    have hs := outIs_say hN hD hT ho
    have ok : ∀ x ∈ o.all, PolOk L2 rg c z x := fun x hx => by
      rcases (mem_all o x).1 hx with h | ⟨_, h | h | h⟩
      · obtain ⟨i, _, h⟩ := ho.ing.sound _ h; exact h.polOk
      · obtain ⟨i, _, h⟩ := ho.mesh.sound _ h; exact h.polOk
      · obtain ⟨i, _, h⟩ := ho.egr.sound _ h; exact h.polOk
      · obtain ⟨i, _, h⟩ := ho.deny.sound _ h; exact h.polOk
    by_cases he : o.all.isEmpty = true
    · rw [if_pos he]
      rw [List.isEmpty_iff] at he
      rw [he] at hs
      refine ⟨by simp [hc], hs.withDummy, ⟨[GtwParser.dummy], [], rfl, fun x hx => by rw [List.mem_singleton.1 hx]; rfl, fun x hx => absurd hx List.not_mem_nil⟩, fun x hx => ?_⟩
      rw [List.mem_singleton.1 hx]
      exact ⟨empty_ok, fun e he => absurd he List.not_mem_nil, fun h hh => absurd hh List.not_mem_nil⟩
    · rw [if_neg he]
      refine ⟨⟨fun h => absurd (List.isEmpty_iff.2 h) he, fun h => absurd hc h⟩, hs, ?_, ok⟩
      have dn : ∀ x ∈ o.deny, x.deny = true := fun x hx => by obtain ⟨i, _, h⟩ := ho.deny.sound _ hx; exact h.deny
      have al : ∀ x, x ∈ o.ing ∨ x ∈ o.mesh ∨ x ∈ o.egr → x.deny = false := fun x hx => by
        rcases hx with hx | hx | hx
        · obtain ⟨i, _, h⟩ := ho.ing.sound _ hx; exact h.deny
        · obtain ⟨i, _, h⟩ := ho.mesh.sound _ hx; exact h.deny
        · obtain ⟨i, _, h⟩ := ho.egr.sound _ hx; exact h.deny
      unfold Out.all
      split
      · exact ⟨o.ing, [], rfl, fun x hx => al x (Or.inl hx), fun x hx => absurd hx List.not_mem_nil⟩
      · refine ⟨o.ing ++ (o.mesh ++ o.egr), o.deny, by simp, fun x hx => al x ?_, dn⟩
        simpa using hx
  · obtain rfl := h1 hc
    have ho : OutIs L2 word rg c l z (AllG c gts vts) (AllD c l vts) (⟨[], [], [], []⟩ : Out V2) → PolsSay L2 word rg c l gts vts ([] : List (GPol V2)) :=
      outIs_say hN hD hT
    refine ⟨by simp [hc], ?_, ⟨[], [], rfl, fun x hx => absurd hx List.not_mem_nil, fun x hx => absurd hx List.not_mem_nil⟩,
      fun x hx => absurd hx List.not_mem_nil⟩
    have noG : ∀ v rv g, ¬ AllG c gts vts v rv g := fun v rv g h => hc ⟨⟨g, h.2.2.1, h.2.2.2.1⟩, List.ne_nil_of_mem h.1⟩
    by_cases hv : vts = []
    · exact ho (OutIs.nil noG fun v rv d h => by rw [hv] at h; cases h.1)
    · have hF : ¬ EgressFlow c l gts vts := fun h => by
        obtain ⟨_, i, hi, _⟩ := (egressFlow_iff hN hT).1 h
        exact noG _ _ _ hi
      have hGP : ∀ k E, ¬ GatewayPod c gts vts k E := fun k E h => by
        obtain ⟨i, hi, _⟩ := (gatewayPod_iff hT k E).1 h
        exact noG _ _ _ hi.1
      have hlet : ∀ {p src dst q}, IsRequest word rg c (A := connA A2 PeerDom.default) p src dst q → ∀ a ∈ q.host, Letter a := fun {p _ _ _} hp => by
        obtain ⟨x, e1, e2⟩ := hp.host
        have := p.2 .hosts
        rw [e1] at this
        rw [← e2]
        exact (hD.hosts x).1 this
      refine ⟨fun E => ?_, fun E => ?_, fun pol hp hd => (by cases hp), fun p src dst q hp hq => ?_, fun p src dst q hp hq => ?_, fun p src dst q hp hq => ?_⟩
      · simp [IsGateway, hF, hGP]
      · simp [hF]
      · have := (forwards_iff (rg := rg) hT (Or.inl rfl) hq (hlet hp) (src := src))
        constructor
        · rintro ⟨_, h, _⟩; cases h
        · rintro ⟨h, h' | h'⟩
          · obtain ⟨i, hi, _⟩ := this.1 ⟨h, h'⟩
            exact absurd hi.1 (noG _ _ _)
          · exact absurd h'.1 hF
      · simp [hF]
      · simp [hF]

/-- C59: the policies for gateways.  `_partial`: the gateways, virtual services and requests are those that the code reads as
Istio does, see `GatewayText.Tame`, `VsText.Tame` and `ReqsTame`; and some gateway works, or there are virtual services, or no
gateways at all (`C59_only_ignored_crashes`).  Allow policies come before those that deny. -/
theorem C59_gateways_partial (hI : IstioCluster V rg c) (hD : IngressLib A2 W2 dfa word D) (hl : SvcsTame rg c l) (hN : Named c l)
    {rx : List Char → String → Bool} (hrx : RxOk rx) {gts : List GatewayText} (hgt : ∀ g ∈ gts, g.Tame) (hgd : NamesDiffer gts)
    {vts : List VsText} (hvt : ∀ v ∈ vts, v.Tame c l gts) (hvd : VsDiffer vts) (hne : (∃ g ∈ gts, g.Works c) ∨ vts ≠ [] ∨ gts = []) :
    ∃ svcs pols, services rg c l = some svcs ∧ gatewayPols A2 dfa V.word rx PeerDom.default ord rg svcs c gts vts = some pols ∧
      (pols = [] ↔ ¬ ((∃ g ∈ gts, g.Works c) ∧ vts ≠ [])) ∧ PolsSay L2 word rg c l gts vts pols ∧
      ∃ a b, pols = a ++ b ∧ (∀ x ∈ a, x.deny = false) ∧ ∀ x ∈ b, x.deny = true := by
  obtain ⟨z, hz, hzS⟩ := free_index (X2 := X2) hI
  obtain ⟨pols, e, h1, h2, h3, _⟩ := pols_all (L2 := L2) (ord := ord) hI hD hl hN hrx hz hzS hgt hgd hvt hvd hne
  exact ⟨_, pols, services_eq hI.cluster hl, e, h1, h2, h3⟩

end
end GtwParser
end Verif
