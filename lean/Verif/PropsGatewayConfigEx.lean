import Verif.PropsGatewayConfig
import Verif.PropsGatewayBad
import Verif.PropsIngressConfigEx
/-!
C60: examples, and the configurations that are rejected though they are legal.
-/
namespace Verif
open ISet IpBlock PeerSet

namespace GtwParser
open Container CalicoParser IstioParser IngressParser SidecarParser

namespace Ex
open IstioParser.Ex (LA LW LL dom)
open IngressParser.Ex (lang3 ingressLib)
open SidecarParser.Ex (holds_pod)

theorem calCluster : CalCluster reg cl where
  reach := cluster.reach
  room := icluster.room
  ports := cluster.ports
  ok := cluster.ok
  uniq := cluster.uniq
  disj := by
    intro p hp q hq a b ha hb
    rcases mem_cl hp with rfl | rfl | rfl | rfl <;> cases ha
  spaces := by
    constructor <;> intro p hp <;> rcases mem_cl hp with rfl | rfl | rfl | rfl <;> simp [podI, podE, podA, site]
  reg := by
    intro p hp k h
    obtain ⟨j, hj, hm⟩ := cluster.elem p hp
    rw [h] at hj; cases hj; exact hm
  sets := by
    intro p hp
    rcases mem_cl hp with rfl | rfl | rfl | rfl <;> simp [podI, podE, podA, site]

theorem domain : ∃ B : PeerDom, K8sParser.queryDom reg [cl] = some B.idx ∧ Covers reg cl B := by
  obtain ⟨B, h1, _, h2⟩ := C49_domain (cs := [cl]) (fun c hc => by rw [List.mem_singleton] at hc; subst hc; exact calCluster) (by simp)
  exact ⟨B, h1, h2 cl (by simp)⟩

/-! ### Names -/

theorem numbered_vI : vI.numbered = [[rInfo], [], []] := rfl
theorem numbered_vE : vE.numbered = [[], [rMesh, rOut], []] := rfl

theorem readable {v : VsText} (hv : v ∈ vts) : Readable v := by
  rcases mem_vts hv with rfl | rfl <;> exact ⟨by decide, by decide, by decide⟩

theorem pairwise_first {R : List RouteView → List RouteView → Prop} (h1 : ∀ A, R A []) (A : List RouteView) : [A, [], []].Pairwise R := by
  simp only [List.pairwise_cons, List.mem_cons, List.mem_singleton, List.not_mem_nil, or_false, or_self, forall_eq, false_implies, implies_true, List.Pairwise.nil, and_true]
  exact ⟨h1 _, h1 _⟩

theorem pairwise_second {R : List RouteView → List RouteView → Prop} (h1 : ∀ A, R A []) (h2 : ∀ A, R [] A) (A : List RouteView) : [[], A, []].Pairwise R := by
  simp only [List.pairwise_cons, List.mem_cons, List.mem_singleton, List.not_mem_nil, or_false, forall_eq_or_imp, forall_eq, false_implies, implies_true, List.Pairwise.nil,
    and_true]
  exact ⟨⟨h2 _, h2 _⟩, h1 _⟩

theorem distinct {v : VsText} (hv : v ∈ vts) : v.Distinct cl svcs gts vts := by
  have a1 : ∀ v g A, Apart cl v g A [] := fun _ _ _ n r r' _ h => by simp at h
  have a2 : ∀ v g A, Apart cl v g [] A := fun _ _ _ n r r' h => by simp at h
  have m1 : ∀ v A, ApartMesh svcs v A [] := fun _ _ n r r' _ h => by simp at h
  have m2 : ∀ v A, ApartMesh svcs v [] A := fun _ _ n r r' h => by simp at h
  rcases mem_vts hv with rfl | rfl
  · refine ⟨fun g _ _ => ?_, fun _ => ?_, fun _ group hg r hr _ => ?_⟩
    · rw [numbered_vI]; exact pairwise_first (a1 _ _) _
    · rw [numbered_vI]; exact pairwise_first (m1 _) _
    · rw [numbered_vI] at hg
      simp only [List.mem_cons, List.not_mem_nil, or_false] at hg
      rcases hg with rfl | rfl | rfl
      · rw [List.mem_singleton.1 hr]; exact List.pairwise_singleton _ _
      · cases hr
      · cases hr
  · refine ⟨fun g _ _ => ?_, fun _ => ?_, fun _ group hg r hr _ => ?_⟩
    · rw [numbered_vE]; exact pairwise_second (a1 _ _) (a2 _ _) _
    · rw [numbered_vE]; exact pairwise_second (m1 _) (m2 _) _
    · rw [numbered_vE] at hg
      simp only [List.mem_cons, List.not_mem_nil, or_false] at hg
      rcases hg with rfl | rfl | rfl
      · cases hr
      · simp only [List.mem_cons, List.not_mem_nil, or_false] at hr
        rcases hr with rfl | rfl <;> exact List.pairwise_singleton _ _
      · cases hr

/-! ### What is let through -/

theorem not_runs_I : ¬ gI.Runs cl (.pod "shop/a") := by
  rintro ⟨p, hp, hE, _, hv⟩
  have hv := hv ("istio", "ingressgateway") (List.mem_singleton.2 rfl)
  rcases mem_cl hp with rfl | rfl | rfl | rfl
  · exact absurd (Place.pod.inj (holds_pod rfl hE)) (by decide)
  · exact absurd (Place.pod.inj (holds_pod rfl hE)) (by decide)
  · exact absurd hv (by unfold PeerInfo.HasVal; decide)
  · exact absurd (Place.pod.inj (holds_pod rfl hE)) (by decide)

theorem not_gateway : ¬ IsGateway cl svcs gts vts (.pod "shop/a") := by
  have key : ∀ kind, ¬ GatewayPod cl gts vts kind (.pod "shop/a") := by
    rintro kind ⟨v, _, group, _, r, _, g, hg, _, _, h⟩
    rcases mem_gts hg with rfl | rfl
    · exact not_runs_I h
    · exact not_runs_E h
  rintro (h | ⟨_, h⟩)
  · exact key _ h
  · exact key _ h

theorem is_gateway : IsGateway cl svcs gts vts (.pod "istio-system/e") :=
  Or.inr ⟨flow, vE, by simp [vts], [rMesh, rOut], by simp [groups_vE], rOut, by simp, gE, by simp [gts], by unfold GatewayText.Kind gE; decide, binds_out, runs_E⟩

theorem via_egress : ViaEgress cl gts vts (.pod "www.example.com") :=
  ⟨vE, by simp [vts], [rMesh, rOut], by simp [groups_vE], rOut, by simp, gE, by simp [gts], by unfold GatewayText.Kind gE; decide, binds_out, dSite,
    List.mem_singleton.2 rfl, is_site⟩

theorem site_not_picked {s : SvcText} : ¬ Picks cl s (.pod "www.example.com") := by
  rintro ⟨_, p, hp, hE, ⟨n, hn, _⟩, _⟩
  rcases mem_cl hp with rfl | rfl | rfl | rfl
  · exact absurd (Place.pod.inj (holds_pod rfl hE)) (by decide)
  · exact absurd (Place.pod.inj (holds_pod rfl hE)) (by decide)
  · exact absurd (Place.pod.inj (holds_pod rfl hE)) (by decide)
  · cases hn

theorem a_not_picked {s : SvcText} (h : MeshRoute svcs vts s) : ¬ Picks cl s (.pod "shop/a") := by
  obtain ⟨hs, v, hv, group, _, r, _, _, d, _, h1, h2⟩ := h
  rcases mem_svcs hs with rfl | rfl
  · rw [h1] at h2
    exact absurd h2 (by decide)
  · rintro ⟨_, p, hp, hE, _, hv⟩
    have hv := hv ("istio", "egressgateway") (List.mem_singleton.2 rfl)
    rcases mem_cl hp with rfl | rfl | rfl | rfl
    · exact absurd (Place.pod.inj (holds_pod rfl hE)) (by decide)
    · exact absurd (Place.pod.inj (holds_pod rfl hE)) (by decide)
    · exact absurd hv (by unfold PeerInfo.HasVal; decide)
    · exact absurd (Place.pod.inj (holds_pod rfl hE)) (by decide)

/-- The pods of the example: the egress gateway and the pod `shop/a`. -/
def from_ (d : Bool) : Place := if d then .pod "istio-system/e" else .pod "shop/a"
def number (d : Bool) : Nat := if d then 1 else 2

theorem gateways_say (d : Bool) : GatewaysSay reg cl svcs gts vts (from_ d) (.pod "www.example.com") qOut ↔ d = true := by
  cases d
  · exact ⟨fun h => absurd via_egress ((h.2 flow).1 not_gateway), fun h => by cases h⟩
  · exact ⟨fun _ => rfl, fun _ => ⟨fun _ => Or.inr ⟨flow, forwards_out⟩, fun _ => ⟨fun h => absurd is_gateway h, fun ⟨s, _, h⟩ => absurd h site_not_picked⟩⟩⟩

theorem at_from {X2 : Type} (d : Bool) : (from_ d).At (X2 := X2) reg cl (.inl (minPodIndex + number d)) := by
  cases d
  · exact ⟨⟨podA, by simp [cl], rfl⟩, 2, rfl, rfl⟩
  · exact ⟨⟨podE, by simp [cl], rfl⟩, 1, rfl, rfl⟩

theorem at_site {X2 : Type} : (Place.pod "www.example.com").At (X2 := X2) reg cl (.inl (minPodIndex + (3 : Nat))) := ⟨⟨site, by simp [cl], rfl⟩, 3, rfl, rfl⟩

/-- Non-vacuity of C60: the program answers that the egress gateway may send the request for `www.example.com` to the site,
and that the pod `shop/a` may not. -/
example (ord : SetOrder) (d : Bool) : ∃ (B : PeerDom) (S : _) (pols gp sc : _) (st : _), K8sParser.queryDom reg [cl] = some B.idx ∧
    services reg cl svcs = some S ∧ cfgPolicies asc LA LW lang3 env B ord reg cl S nsShop [] = some pols ∧
    gatewayPolicies LA LW lang3 env.word rx B ord reg S cl gts vts = some gp ∧
    sidecarPolicies LA LW B ord reg cl S [] = some sc ∧ PolicyStore.build (loadOrder (pols ++ gp ++ sc)) = some st ∧
    ∃ p : Point (connA LA B), p.1 = raw (number d) 3 443 "www.example.com" "/" ∧ (connNet LL B).K.mem p
      (configConns (connNet LL B).toNet (calicoPeers LA LW B reg cl) st.layers ⟨false, false, true, true⟩).allAllowed = d := by
  obtain ⟨B, hd, hB⟩ := domain
  obtain ⟨S, pols, gp, sc, st, h0, h1, hg, h2, h3⟩ := (C60_accepted_partial (B := B) (ord := ord) (ts := []) (gts := gts) (vts := vts) (rx := rx) (ds := []) (is := []) (dflt := nsShop)
    LL asc_ok calCluster icluster ingressLib hB svcs_tame named .nil (fun i h => by cases h) (fun t h => by cases h) (fun t h => by cases h) (fun t h => by cases h)
    rxOk gts_tame gts_differ vts_tame vts_differ (fun v hv => readable hv)).2
    ⟨⟨⟨fun t h => (by cases h), .nil⟩, .nil, .nil⟩, Or.inl ⟨gI, by simp [gts], works_I⟩, fun _ v hv => distinct hv⟩
  have hs : number d < 4 := by cases d <;> decide
  let p : Point (connA LA B) := Point.toDom ⟨raw (number d) 3 443 "www.example.com" "/", raw_dom hs (by decide) (by decide) dom_site dom_root⟩
    (fun z hz => by cases hz; exact hB _ _ (at_from d)) (fun z hz => by cases hz; exact hB _ _ at_site)
  refine ⟨B, S, pols, gp, sc, st, hd, h0, h1, hg, h2, h3, p, rfl, ?_⟩
  have hr : IsRequest String.toList reg cl p (from_ d) (.pod "www.example.com") qOut := ⟨at_from d, at_site, rfl, rfl, ⟨0, rfl, rfl⟩, ⟨_, rfl, rfl⟩, _, rfl, rfl⟩
  have hc : IsConn reg cl p (from_ d) (.pod "www.example.com") ⟨6, 1, 443, 0, 0⟩ := ⟨at_from d, at_site, rfl, rfl, rfl, rfl, rfl⟩
  have hpa : IsKind cl (from_ d) [.pod] := by
    cases d
    · exact ⟨podA, by simp [cl], rfl, by simp [podA]⟩
    · exact ⟨podE, by simp [cl], rfl, by simp [podE]⟩
  have hsend : Sender cl (from_ d) := by
    cases d
    · exact ⟨podA, by simp [cl], rfl, by simp [podA]⟩
    · exact ⟨podE, by simp [cl], rfl, by simp [podE]⟩
  rw [Bool.eq_iff_iff, C60_config_partial LL asc_ok calCluster icluster ingressLib hB svcs_tame named h0 (is := []) .nil (fun i h => by cases h) (fun t h => by cases h)
    (fun t h => by cases h) (fun t h => by cases h) rxOk gts_tame gts_differ vts_tame vts_differ h1 hg h2 h3 _ rfl p _ hc qOut hr (fun t h => by cases h) (req_tame (Or.inr rfl) _)
    (Or.inl hpa) (fun _ => ⟨from_ d, hpa, fun t h => by cases h⟩) (fun _ => ⟨.pod "shop/a", ⟨podA, by simp [cl], rfl, by simp [podA]⟩, fun s hs => a_not_picked hs⟩),
    ← gateways_say d]
  constructor
  · rintro ⟨_, h⟩
    exact (h ⟨⟨gI, by simp [gts], works_I⟩, by simp [vts]⟩).2.2 rfl
  · intro h
    refine ⟨⟨⟨calico_empty icluster hr.src hr.dst _, fun h => by rcases h with h | h <;> exact absurd rfl h⟩, fun h => absurd rfl h⟩, fun _ => ⟨hsend, fun _ => rfl, fun _ => h⟩⟩

/-! ### Routes of different kinds with the same number -/

/-- As `vI`, with a TCP route to the same service. -/
def vD : VsText := ⟨"vd", nsShop, [hShop], ["in"], [⟨[mInfo], [dWeb]⟩], [], [⟨[], [dWeb]⟩]⟩
def rTcp : RouteView := ⟨[⟨[], none, fun _ _ => True⟩], [dWeb]⟩
theorem groups_vD : vD.groups = [[rInfo], [], [rTcp]] := rfl
theorem numbered_vD : vD.numbered = [[rInfo], [], [rTcp]] := rfl

theorem vD_tame : ∀ v ∈ [vD], v.Tame cl svcs gts := fun v hv => by
  rw [List.mem_singleton.1 hv]
  refine { ns := by decide, given := by decide, hosts := ?_, http := ?_, tls := ?_, tcp := ?_, routes := ?_ }
  · intro h hh; rw [List.mem_singleton.1 hh]; exact shop_ok
  · intro t ht; rw [List.mem_singleton.1 ht]; exact info_tame
  · intro t ht; cases ht
  · intro t ht i hi
    rw [List.mem_singleton.1 ht] at hi
    cases hi
  · intro group hg r hr
    rw [groups_vD] at hg
    simp only [List.mem_cons, List.not_mem_nil, or_false] at hg
    rcases hg with rfl | rfl | rfl
    · rw [List.mem_singleton.1 hr]
      refine ⟨Or.inl fun d hd => by rw [List.mem_singleton.1 hd]; exact web_local,
        egress_not rfl (n0 := "in") (fun i hi => by rw [List.mem_singleton.1 hi]; rfl) (by decide) (by decide), overlap_one (Or.inl rfl) fun i hi => by rw [List.mem_singleton.1 hi]; rfl⟩
    · cases hr
    · rw [List.mem_singleton.1 hr]
      refine ⟨Or.inl fun d hd => by rw [List.mem_singleton.1 hd]; exact web_local,
        egress_not rfl (n0 := "in") (fun i hi => by rw [List.mem_singleton.1 hi]; rfl) (by decide) (by decide), overlap_one (Or.inl rfl) fun i hi => by rw [List.mem_singleton.1 hi]⟩

theorem binds_vD {r : RouteView} {i : Cond} (hi : i ∈ r.conds) (h1 : i.gateways = []) (h2 : i.sni = none) : Binds cl vD r gI :=
  ⟨works_I, i, hi, ⟨"in", by unfold Cond.names; rw [if_pos h1]; exact List.mem_singleton.2 rfl, Or.inr ⟨rfl, by decide, rfl⟩⟩, hShop, (for_one rfl (by decide)).2 rfl, serves_gI,
    fun l hl => by rw [h2] at hl; cases hl⟩

/-- Policies are named after the numbers of routes, which are counted from one for each kind; a virtual service with an HTTP
and a TCP route for a gateway is legal, its policies are made, but they have the same name and the configuration is rejected. -/
theorem C60_numbers_wrong (ord : SetOrder) : ∃ (B : PeerDom) (S : _) (gp : _), K8sParser.queryDom reg [cl] = some B.idx ∧ services reg cl svcs = some S ∧
    (∀ v ∈ [vD], v.Tame cl svcs gts ∧ Readable v) ∧ gatewayPolicies LA LW lang3 env.word rx B ord reg S cl gts [vD] = some gp ∧
    PolicyStore.build (loadOrder gp) = none := by
  obtain ⟨B, hd, hB⟩ := domain
  have hrd : ∀ v ∈ [vD], Readable v := fun v hv => by
    rw [List.mem_singleton.1 hv]
    exact ⟨by decide, by decide, by decide⟩
  have hvd : VsDiffer [vD] := List.pairwise_singleton _ _
  obtain ⟨S, gs, h1, h2, _⟩ := C59_gateways_partial (L2 := LL) (ord := ord) icluster ingressLib svcs_tame named rxOk gts_tame gts_differ vD_tame hvd
    (Or.inl ⟨gI, by simp [gts], works_I⟩)
  have h3 : gatewayPolicies LA LW lang3 env.word rx B ord reg S cl gts [vD] = some (gs.map (gatewayPolicy LA LW B reg)) := by
    unfold gatewayPolicies
    rw [h2, Option.map_some]
  refine ⟨B, S, _, hd, h1, fun v hv => ⟨vD_tame v hv, hrd v hv⟩, h3, ?_⟩
  cases e : PolicyStore.build (loadOrder (gs.map (gatewayPolicy LA LW B reg))) with
  | none => rfl
  | some st =>
    have acc := (C60_accepted_partial (B := B) (ord := ord) (ts := []) (gts := gts) (vts := [vD]) (rx := rx) (ds := []) (is := []) (dflt := nsShop)
      LL asc_ok calCluster icluster ingressLib hB svcs_tame named .nil (fun i h => by cases h) (fun t h => by cases h) (fun t h => by cases h) (fun t h => by cases h)
      rxOk gts_tame gts_differ vD_tame hvd hrd).1 ⟨S, [], _, [], st, h1, rfl, h3, rfl, by rw [List.nil_append, List.append_nil]; exact e⟩
    have := (acc.2.2 ⟨gI, by simp [gts], works_I⟩ vD (List.mem_singleton.2 rfl)).gateways gI (by simp [gts]) (Or.inl (by unfold GatewayText.Kind gI; decide))
    rw [numbered_vD, List.pairwise_cons] at this
    exact absurd ⟨binds_vD (List.mem_singleton.2 rfl) rfl rfl, binds_vD (List.mem_singleton.2 rfl) rfl rfl⟩ (this.1 [rTcp] (by simp) 0 rInfo rTcp rfl rfl)

end Ex
end GtwParser
end Verif
