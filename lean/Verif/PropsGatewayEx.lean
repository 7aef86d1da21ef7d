import Verif.PropsGateway
import Verif.PropsIngressEx
import Verif.PropsSidecarEx
/-!
C59: witnesses and examples.
-/
namespace Verif
open ISet IpBlock PeerSet

namespace GtwParser
open Container CalicoParser IstioParser IngressParser SidecarParser

namespace Ex
open IstioParser.Ex (LA LW LL dom mem_lang)
open IngressParser.Ex (lang3 ingressLib)
open SidecarParser.Ex (holds_pod dotted_site)

/-! ### A cluster with two gateways, a pod and a DNS entry -/

def nsShop : Ns := ⟨"shop", []⟩
def nsSys : Ns := ⟨"istio-system", []⟩
def podI : PeerInfo := ⟨.pod "istio-system/i", .pod, some nsSys, [("istio", "ingressgateway")], [], false⟩
def podE : PeerInfo := ⟨.pod "istio-system/e", .pod, some nsSys, [("istio", "egressgateway")], [], false⟩
def podA : PeerInfo := ⟨.pod "shop/a", .pod, some nsShop, [("app", "web")], [], false⟩
def site : PeerInfo := ⟨.pod "www.example.com", .dns, none, [], [], false⟩
def cl : Container := [podI, podE, podA, site]
def reg : PodReg := [("istio-system/i", []), ("istio-system/e", []), ("shop/a", []), ("www.example.com", [])]

theorem mem_cl {p : PeerInfo} (hp : p ∈ cl) : p = podI ∨ p = podE ∨ p = podA ∨ p = site := by
  simpa only [cl, List.mem_cons, List.not_mem_nil, or_false] using hp

theorem cluster : K8sParser.Cluster reg cl where
  reach := .add (.pod "www.example.com") (.add (.pod "shop/a") (.add (.pod "istio-system/e") (.add (.pod "istio-system/i") .empty
    (by decide : _ = some ["istio-system/i"])) (by decide : _ = some ["istio-system/i", "istio-system/e"]))
    (by decide : _ = some ["istio-system/i", "istio-system/e", "shop/a"])) (by decide)
  ports := NamedEx.legal_ports (by decide)
  uniq := by
    intro p hp q hq h
    rcases mem_cl hp with rfl | rfl | rfl | rfl <;> rcases mem_cl hq with rfl | rfl | rfl | rfl <;> first | rfl | exact absurd h (by decide)
  elem := by
    intro p hp
    rcases mem_cl hp with rfl | rfl | rfl | rfl <;> exact ⟨_, rfl, by decide⟩
  kind := by
    intro p hp
    rcases mem_cl hp with rfl | rfl | rfl | rfl
    · exact Or.inl ⟨rfl, _, rfl⟩
    · exact Or.inl ⟨rfl, _, rfl⟩
    · exact Or.inl ⟨rfl, _, rfl⟩
    · exact Or.inr ⟨rfl, rfl⟩

def env : Env where
  nss := ["shop".toList, "istio-system".toList]
  sa := fun _ => "default".toList
  word := fun a => a.isAlphanum || a == '_'

theorem icluster : IstioCluster env reg cl where
  cluster := cluster
  inNs := by
    intro p hp _
    rcases mem_cl hp with rfl | rfl | rfl | rfl <;> rfl
  room := by decide
  known := by
    intro p hp n hn
    rcases mem_cl hp with rfl | rfl | rfl | rfl <;> cases hn <;> decide
  plain := by
    intro p hp n hn
    rcases mem_cl hp with rfl | rfl | rfl | rfl <;> cases hn <;> exact ⟨by decide, IstioParser.Ex.wordly (by decide)⟩
  names := by decide
  accounts := fun _ _ _ _ _ => ⟨show "default".toList ≠ [] by decide, IstioParser.Ex.wordly (s := "default".toList) (by decide)⟩
  word := IstioParser.Ex.icluster.word
  notWord := by decide

/-! ### Services -/

/-- The services `web` of the pod `shop/a`, and that of the egress gateway. -/
def web : SvcText := ⟨"web", nsShop, [("app", "web")], [⟨some 80, none, none, some (.inl 8080)⟩]⟩
def egs : SvcText := ⟨"istio-egressgateway", nsSys, [("istio", "egressgateway")], [⟨some 443, none, none, none⟩]⟩
def svcs : List SvcText := [web, egs]

theorem mem_svcs {s : SvcText} (hs : s ∈ svcs) : s = web ∨ s = egs := by
  simpa only [svcs, List.mem_cons, List.not_mem_nil, or_false] using hs

theorem picks_web : Picks cl web (.pod "shop/a") :=
  ⟨by simp [web], podA, by simp [cl], rfl, ⟨nsShop, rfl, rfl⟩, fun kv hkv => by
    simp only [web, List.mem_singleton] at hkv; subst hkv; exact Or.inl (by decide)⟩

theorem picks_egs : Picks cl egs (.pod "istio-system/e") :=
  ⟨by simp [egs], podE, by simp [cl], rfl, ⟨nsSys, rfl, rfl⟩, fun kv hkv => by
    simp only [egs, List.mem_singleton] at hkv; subst hkv; exact Or.inl (by decide)⟩

theorem svcs_tame : SvcsTame reg cl svcs where
  each := fun s hs => by
    rcases mem_svcs hs with rfl | rfl
    · refine { nums := ?_, targets := ?_, names := by decide, numbers := by decide, whole := ?_ } <;> intro p hp <;>
        (simp only [web, List.mem_singleton] at hp; subst hp)
      · exact ⟨80, rfl, by decide, by decide⟩
      · intro n hn; cases hn; decide
      · intro n hn; cases hn
    · refine { nums := ?_, targets := ?_, names := by decide, numbers := by decide, whole := ?_ } <;> intro p hp <;>
        (simp only [egs, List.mem_singleton] at hp; subst hp)
      · exact ⟨443, rfl, by decide, by decide⟩
      · intro n hn; cases hn
      · intro n hn; cases hn
  ns := fun s hs => by rcases mem_svcs hs with rfl | rfl <;> decide
  uniq := by simp only [svcs, List.pairwise_cons, List.mem_singleton, forall_eq, List.not_mem_nil, false_implies, implies_true, List.Pairwise.nil, and_true]; decide
  controller := fun s hs h => by
    rcases mem_svcs hs with rfl | rfl <;> exact absurd h (by decide)

theorem named : Named cl svcs where
  svcs := fun s hs => by rcases mem_svcs hs with rfl | rfl <;> decide
  dns := fun p hp h k hk => by
    rcases mem_cl hp with rfl | rfl | rfl | rfl
    · cases h
    · cases h
    · cases h
    · cases hk
      exact ⟨dotted_site, by decide⟩

/-! ### `re.match` -/

def rx (s : List Char) (m : String) : Bool := (s.takeWhile Char.isUpper).isPrefixOf m.toList

theorem take_upper : ∀ {s : List Char}, (∀ a ∈ s, a.isUpper = true) → s.takeWhile Char.isUpper = s
  | [], _ => rfl
  | a :: s, h => by rw [List.takeWhile_cons_of_pos (h a List.mem_cons_self), take_upper fun b hb => h b (List.mem_cons_of_mem _ hb)]

theorem rxOk : RxOk rx := by
  intro s hs m
  have e1 : s.takeWhile Char.isUpper = s := take_upper hs
  have e2 : (s ++ "[.\\w/\\-]*".toList).takeWhile Char.isUpper = s := by
    rw [List.takeWhile_append_of_pos hs]
    rw [show "[.\\w/\\-]*".toList.takeWhile Char.isUpper = [] from by decide, List.append_nil]
  unfold rx
  rw [e1, e2, List.isPrefixOf_iff_prefix]
  exact ⟨Iff.rfl, Iff.rfl⟩

/-! ### Gateways and virtual services -/

def hShop : List Char := "x.shop.com".toList
def hAny : List Char := "*.shop.com".toList
def hSite : List Char := "www.example.com".toList
def hEgs : List Char := "istio-egressgateway.istio-system.svc.cluster.local".toList

/-- The gateways: for `*.shop.com`, and for requests to `www.example.com`. -/
def gI : GatewayText := ⟨"in", nsShop, [("istio", "ingressgateway")], [[hAny]]⟩
def gE : GatewayText := ⟨"out", nsShop, [("istio", "egressgateway")], [[hSite]]⟩
def gts : List GatewayText := [gI, gE]

def mInfo : HttpMatch := ⟨some ⟨.prefix, "/info".toList⟩, some ⟨.exact, "GET".toList⟩, []⟩
def dWeb : DestText := ⟨"web".toList, some 80⟩
def dEgs : DestText := ⟨hEgs, some 443⟩
def dSite : DestText := ⟨hSite, some 443⟩

/-- Of `x.shop.com`: GET requests below `/info` go to the service `web`. -/
def vI : VsText := ⟨"vi", nsShop, [hShop], ["in"], [⟨[mInfo], [dWeb]⟩], [], []⟩
/-- Requests to `www.example.com`: the mesh sends them to the egress gateway, and that to the site. -/
def vE : VsText := ⟨"ve", nsShop, [hSite], ["mesh", "out"], [], [⟨[⟨[hSite], ["mesh"]⟩], [dEgs]⟩, ⟨[⟨[hSite], ["shop/out"]⟩], [dSite]⟩], []⟩
def vts : List VsText := [vI, vE]

theorem mem_gts {g : GatewayText} (h : g ∈ gts) : g = gI ∨ g = gE := by simpa only [gts, List.mem_cons, List.not_mem_nil, or_false] using h
theorem mem_vts {v : VsText} (h : v ∈ vts) : v = vI ∨ v = vE := by simpa only [vts, List.mem_cons, List.not_mem_nil, or_false] using h

theorem shop_ok : HostOk hShop := Or.inr ⟨⟨by decide, Or.inl ⟨by decide, by unfold Letter; decide⟩⟩, by decide, by decide⟩
theorem any_ok : HostOk hAny := Or.inr ⟨⟨by decide, Or.inr ⟨"shop.com".toList, by decide, by decide, by unfold Letter; decide⟩⟩, by decide, by decide⟩
theorem site_ok : HostOk hSite := Or.inr ⟨⟨by decide, Or.inl ⟨by decide, by unfold Letter; decide⟩⟩, by decide, by decide⟩

theorem gts_tame : ∀ g ∈ gts, g.Tame := fun g hg => by
  rcases mem_gts hg with rfl | rfl
  · refine ⟨by decide, by decide, by decide, by decide, fun hosts hh => ?_⟩
    rw [List.mem_singleton.1 hh]
    exact ⟨by decide, fun h hh => by rw [List.mem_singleton.1 hh]; exact any_ok⟩
  · refine ⟨by decide, by decide, by decide, by decide, fun hosts hh => ?_⟩
    rw [List.mem_singleton.1 hh]
    exact ⟨by decide, fun h hh => by rw [List.mem_singleton.1 hh]; exact site_ok⟩

theorem gts_differ : NamesDiffer gts := by
  simp only [NamesDiffer, gts, List.pairwise_cons, List.mem_singleton, forall_eq, List.not_mem_nil, false_implies, implies_true, List.Pairwise.nil, and_true]; decide
theorem vts_differ : VsDiffer vts := by
  simp only [VsDiffer, vts, List.pairwise_cons, List.mem_singleton, forall_eq, List.not_mem_nil, false_implies, implies_true, List.Pairwise.nil, and_true]; decide

theorem plain_name {h w : List Char} (hh : h.head? ≠ some '*') : Plain h w := fun s u e => by rw [e] at hh; exact absurd rfl hh
theorem plain_any : Plain hAny hShop := fun s u h1 h2 => by
  have h1 := (List.cons.inj (List.cons.inj (show '*' :: '.' :: "shop.com".toList = _ from h1)).2).2
  rw [← h1] at h2
  have : u = ['x'] := List.append_cancel_right (show u ++ '.' :: "shop.com".toList = ['x'] ++ '.' :: "shop.com".toList from h2.symm)
  subst this
  exact ⟨by decide, by unfold WordChar; decide⟩

theorem says_any : NameSays hAny hShop := Or.inr (Or.inr ⟨"shop.com".toList, ['x'], rfl, by decide, rfl⟩)
theorem says_self {h : List Char} (hh : '*' ∉ h) : NameSays h h := Or.inr (Or.inl ⟨hh, rfl⟩)
theorem name_eq {h w : List Char} (hh : '*' ∉ h) (hs : NameSays h w) : w = h := by
  rcases hs with rfl | ⟨_, e⟩ | ⟨s, u, rfl, _⟩
  · exact absurd (by decide) hh
  · exact e.symm
  · exact absurd (by simp) hh

theorem for_vI {w : List Char} : vI.For w ↔ w = hShop := by
  constructor
  · rintro ⟨h, hh, hs⟩
    rw [List.mem_singleton.1 hh] at hs
    exact name_eq (by decide) hs
  · rintro rfl
    exact ⟨_, List.mem_singleton.2 rfl, says_self (by decide)⟩

theorem for_vE {w : List Char} : vE.For w ↔ w = hSite := by
  constructor
  · rintro ⟨h, hh, hs⟩
    rw [List.mem_singleton.1 hh] at hs
    exact name_eq (by decide) hs
  · rintro rfl
    exact ⟨_, List.mem_singleton.2 rfl, says_self (by decide)⟩

theorem serves_gI : gI.Serves hShop := ⟨_, List.mem_singleton.2 rfl, _, List.mem_singleton.2 rfl, says_any⟩
theorem serves_gE : gE.Serves hSite := ⟨_, List.mem_singleton.2 rfl, _, List.mem_singleton.2 rfl, says_self (by decide)⟩

theorem plains {w : List Char} (hw : w = hShop ∨ w = hSite) : ∀ g ∈ gts, ∀ hosts ∈ g.servers, ∀ h ∈ hosts, Plain h w := fun g hg hosts hh h hh' => by
  rcases mem_gts hg with rfl | rfl
  · rw [List.mem_singleton.1 hh] at hh'
    rw [List.mem_singleton.1 hh']
    rcases hw with rfl | rfl
    · exact plain_any
    · intro s u h1 h2
      have h1 := (List.cons.inj (List.cons.inj (show '*' :: '.' :: "shop.com".toList = _ from h1)).2).2
      have : "shop.com".toList.isSuffixOf hSite = true := by
        rw [List.isSuffixOf_iff_suffix, h1, h2]
        exact ⟨u ++ ['.'], by simp⟩
      exact absurd this (by decide)
  · rw [List.mem_singleton.1 hh] at hh'
    rw [List.mem_singleton.1 hh']
    exact plain_name (by decide)

theorem letters {w : List Char} (hw : w = hShop ∨ w = hSite) : ∀ a ∈ w, Letter a := by
  unfold Letter
  rcases hw with rfl | rfl <;> decide

def rInfo : RouteView := ⟨[mInfo.view], [dWeb]⟩
def rMesh : RouteView := ⟨[TlsMatch.view ⟨[hSite], ["mesh"]⟩], [dEgs]⟩
def rOut : RouteView := ⟨[TlsMatch.view ⟨[hSite], ["shop/out"]⟩], [dSite]⟩

theorem groups_vI : vI.groups = [[rInfo], [], []] := rfl
theorem groups_vE : vE.groups = [[], [rMesh, rOut], []] := rfl

theorem web_local : dWeb.Local cl svcs nsShop := by
  refine .short (by decide) (by decide) ?_ (by decide) fun s hs h => ?_
  · rintro E ⟨p, hp, _, hk, k, he, e⟩
    rcases mem_cl hp with rfl | rfl | rfl | rfl
    · cases hk
    · cases hk
    · cases hk
    · cases he; exact absurd e (by decide)
  · rcases mem_svcs hs with rfl | rfl
    · exact ⟨_, List.mem_singleton.2 rfl, rfl, rfl, by simp⟩
    · rcases h with h | ⟨h, _⟩ <;> exact absurd h (by decide)

theorem egs_local : dEgs.Local cl svcs nsShop := by
  refine .long (a := "istio-egressgateway".toList) (b := "istio-system".toList) (by decide) (by decide) (by decide) (by decide) (by decide) (by decide) fun s hs h => ?_
  rcases mem_svcs hs with rfl | rfl
  · rcases h with h | ⟨h, _⟩ <;> exact absurd h (by decide)
  · exact ⟨_, List.mem_singleton.2 rfl, rfl, rfl, by simp⟩

theorem site_external : dSite.External := ⟨by decide, by decide, by decide, 443, rfl, by decide, by decide⟩

theorem overlaps {v : VsText} (hv : v = vI ∨ v = vE) {r : RouteView}
    (hs : ∀ i ∈ r.conds, ∀ l, i.sni = some l → ∀ h ∈ l, h.head? ≠ some '*') : ∀ g ∈ gts, ∀ i ∈ r.conds, ∀ w, v.For w → g.Serves w → i.Sni w →
    ∃ w', v.For w' ∧ g.Serves w' ∧ i.Sni w' ∧ (∀ a ∈ w', Letter a) ∧
    (∀ h ∈ v.hosts, Plain h w') ∧ (∀ hosts ∈ g.servers, ∀ h ∈ hosts, Plain h w') ∧ ∀ l, i.sni = some l → ∀ h ∈ l, Plain h w' := by
  intro g hg i hi w h1 h2 h3
  have hw : w = hShop ∨ w = hSite := by
    rcases hv with rfl | rfl
    · exact Or.inl (for_vI.1 h1)
    · exact Or.inr (for_vE.1 h1)
  refine ⟨w, h1, h2, h3, letters hw, ?_, plains hw g hg, fun l hl h hh => plain_name (hs i hi l hl h hh)⟩
  rcases hv with rfl | rfl
  · intro h hh
    rw [List.mem_singleton.1 hh]
    exact plain_name (by decide)
  · intro h hh
    rw [List.mem_singleton.1 hh]
    exact plain_name (by decide)

theorem named_out {n : String} (h : gE.Named nsShop n) : n = "shop/out" ∨ n = "out" := by
  rcases h with h | ⟨h, _⟩
  · exact Or.inl (h.trans (by decide))
  · exact Or.inr h

theorem tame_info : rInfo.Tame cl svcs gts vI where
  dests := Or.inl fun d hd => by rw [List.mem_singleton.1 hd]; exact web_local
  egress := fun g hg hk i hi hat => by
    rcases mem_gts hg with rfl | rfl
    · exact absurd hk (by unfold GatewayText.Kind gI; decide)
    · rw [List.mem_singleton.1 hi] at hat
      obtain ⟨n, hn, h⟩ := hat
      rw [List.mem_singleton.1 (show n ∈ ["in"] from hn)] at h
      rcases named_out h with h | h <;> exact absurd h (by decide)
  overlap := overlaps (Or.inl rfl) fun i hi l hl => by rw [List.mem_singleton.1 hi] at hl; cases hl

theorem tame_mesh : rMesh.Tame cl svcs gts vE where
  dests := Or.inl fun d hd => by rw [List.mem_singleton.1 hd]; exact egs_local
  egress := fun g hg hk i hi hat => by
    rcases mem_gts hg with rfl | rfl
    · exact absurd hk (by unfold GatewayText.Kind gI; decide)
    · rw [List.mem_singleton.1 hi] at hat
      obtain ⟨n, hn, h⟩ := hat
      rw [List.mem_singleton.1 (show n ∈ ["mesh"] from hn)] at h
      rcases named_out h with h | h <;> exact absurd h (by decide)
  overlap := overlaps (Or.inr rfl) fun i hi l hl h hh => by
    rw [List.mem_singleton.1 hi] at hl; cases hl
    rw [List.mem_singleton.1 hh]; decide

theorem tame_out : rOut.Tame cl svcs gts vE where
  dests := Or.inr fun d hd => by rw [List.mem_singleton.1 hd]; exact site_external
  egress := fun _ _ _ _ _ _ d hd => by rw [List.mem_singleton.1 hd]; exact site_external
  overlap := overlaps (Or.inr rfl) fun i hi l hl h hh => by
    rw [List.mem_singleton.1 hi] at hl; cases hl
    rw [List.mem_singleton.1 hh]; decide

theorem info_tame : HttpText.Tame ⟨[mInfo], [dWeb]⟩ where
  gateways := fun i hi j hj => by rw [List.mem_singleton.1 hi, List.mem_singleton.1 hj]
  uris := fun i hi j hj h => by rw [List.mem_singleton.1 hi] at h; cases h
  product := fun i hi j hj => by rw [List.mem_singleton.1 hi, List.mem_singleton.1 hj]; exact ⟨_, List.mem_singleton.2 rfl, rfl, rfl⟩
  uri := fun i hi s hs => by
    rw [List.mem_singleton.1 hi] at hs; cases hs
    exact ⟨Or.inr rfl, "info".toList, by decide, by unfold Letter; decide⟩
  method := fun i hi s hs => by
    rw [List.mem_singleton.1 hi] at hs; cases hs
    exact ⟨by decide, Or.inl ⟨rfl, "GET", by decide, by decide⟩⟩

theorem vts_tame : ∀ v ∈ vts, v.Tame cl svcs gts := fun v hv => by
  rcases mem_vts hv with rfl | rfl
  · refine { ns := by decide, given := by decide, hosts := ?_, http := ?_, tls := ?_, tcp := ?_, routes := ?_ }
    · intro h hh; rw [List.mem_singleton.1 hh]; exact shop_ok
    · intro t ht; rw [List.mem_singleton.1 ht]; exact info_tame
    · intro t ht; cases ht
    · intro t ht; cases ht
    · intro group hg r hr
      rw [groups_vI] at hg
      simp only [List.mem_cons, List.not_mem_nil, or_false] at hg
      rcases hg with rfl | rfl | rfl
      · rw [List.mem_singleton.1 hr]; exact tame_info
      · cases hr
      · cases hr
  · refine { ns := by decide, given := by decide, hosts := ?_, http := ?_, tls := ?_, tcp := ?_, routes := ?_ }
    · intro h hh; rw [List.mem_singleton.1 hh]; exact site_ok
    · intro t ht; cases ht
    · intro t ht
      have : t = ⟨[⟨[hSite], ["mesh"]⟩], [dEgs]⟩ ∨ t = ⟨[⟨[hSite], ["shop/out"]⟩], [dSite]⟩ := by simpa [vE] using ht
      rcases this with rfl | rfl
      all_goals
        refine ⟨fun i hi j hj => by rw [List.mem_singleton.1 hi, List.mem_singleton.1 hj], fun i hi => ?_⟩
        rw [List.mem_singleton.1 hi]
        refine ⟨by simp, fun h hh => ?_⟩
        rw [List.mem_singleton.1 hh]
        exact ⟨site_ok, hSite, List.mem_singleton.2 rfl, Or.inr (Or.inl rfl)⟩
    · intro t ht; cases ht
    · intro group hg r hr
      rw [groups_vE] at hg
      simp only [List.mem_cons, List.not_mem_nil, or_false] at hg
      rcases hg with rfl | rfl | rfl
      · cases hr
      · simp only [List.mem_cons, List.not_mem_nil, or_false] at hr
        rcases hr with rfl | rfl
        · exact tame_mesh
        · exact tame_out
      · cases hr

theorem runs_I : gI.Runs cl (.pod "istio-system/i") :=
  ⟨podI, by simp [cl], rfl, by decide, fun kv hkv => by rw [List.mem_singleton.1 hkv]; exact Or.inl (by decide)⟩
theorem runs_E : gE.Runs cl (.pod "istio-system/e") :=
  ⟨podE, by simp [cl], rfl, by decide, fun kv hkv => by rw [List.mem_singleton.1 hkv]; exact Or.inl (by decide)⟩
theorem works_I : gI.Works cl := ⟨Or.inl (by unfold GatewayText.Kind gI; decide), _, runs_I⟩
theorem works_E : gE.Works cl := ⟨Or.inr (by unfold GatewayText.Kind gE; decide), _, runs_E⟩

/-! ### Requests -/

def raw (s d : Nat) (port : Int) (host path : String) : Dim → Int ⊕ String
  | .srcPeers => .inl (minPodIndex + s) | .dstPeers => .inl (minPodIndex + d) | .protocols => .inl 6
  | .srcPorts => .inl 1 | .dstPorts => .inl port
  | .methods => .inl 0 | .hosts => .inr host | .paths => .inr path | .icmpType => .inl 0 | .icmpCode => .inl 0

theorem raw_dom {s d : Nat} (hs : s < 4) (hd : d < 4) {port : Int} (hp : 1 ≤ port ∧ port ≤ 65535) {host path : String} (h1 : dom .hosts host) (h2 : dom .paths path) :
    InDom (connA LA PeerDom.default) (raw s d port host path) := by
  intro x
  cases x
  case srcPeers => exact (mem_inl LA PeerDom.default _ _ Base.all_canonical).2 (NamedEx.pod_mem s (by omega))
  case dstPeers => exact (mem_inl LA PeerDom.default _ _ Base.all_canonical).2 (NamedEx.pod_mem d (by omega))
  case hosts => exact (mem_lang _ _).2 h1
  case paths => exact (mem_lang _ _).2 h2
  case dstPorts => exact (mem_inl LA PeerDom.default _ _ (canonical_singleton.2 (by decide))).2 (mem_singleton.2 hp)
  all_goals exact (mem_inl LA PeerDom.default _ _ (canonical_singleton.2 (by decide))).2 (mem_singleton.2 ⟨by decide, by decide⟩)

/-- From the ingress gateway to the pod. -/
def qIn : Request := ⟨6, 8080, "GET", hShop, "/info/1".toList⟩
/-- From the pod to the egress gateway, and from that to the site. -/
def qOut : Request := ⟨6, 443, "GET", hSite, "/".toList⟩

theorem dom_shop : dom .hosts "x.shop.com" := letters (Or.inl rfl)
theorem dom_site : dom .hosts "www.example.com" := letters (Or.inr rfl)
theorem dom_info : dom .paths "/info/1" := ⟨"info/1".toList, by decide, by unfold Letter; decide⟩
theorem dom_root : dom .paths "/" := ⟨[], by decide, by decide⟩

/-- The places of the cluster. -/
theorem stands {p : PeerInfo} (hp : p ∈ cl) {n : Nat} {k : String} (h1 : p.elem = .pod k) (h2 : reg.keys[n]? = some k) :
    Place.At reg cl (.inl (minPodIndex + n) : Int ⊕ String) (.pod k) := ⟨⟨p, hp, h1⟩, n, rfl, h2⟩

theorem isIn : IsRequest String.toList reg cl ⟨raw 0 2 8080 "x.shop.com" "/info/1", raw_dom (by decide) (by decide) (by decide) dom_shop dom_info⟩
    (.pod "istio-system/i") (.pod "shop/a") qIn where
  src := stands (p := podI) (by simp [cl]) rfl rfl
  dst := stands (p := podA) (by simp [cl]) rfl rfl
  proto := rfl
  port := rfl
  method := ⟨0, rfl, rfl⟩
  host := ⟨_, rfl, rfl⟩
  path := ⟨_, rfl, rfl⟩

theorem isOut {s d : Nat} (hs : s < 4) (hd : d < 4) {src dst : Place} (h1 : Place.At reg cl (.inl (minPodIndex + s) : Int ⊕ String) src)
    (h2 : Place.At reg cl (.inl (minPodIndex + d) : Int ⊕ String) dst) :
    IsRequest String.toList reg cl ⟨raw s d 443 "www.example.com" "/", raw_dom hs hd (by decide) dom_site dom_root⟩ src dst qOut where
  src := h1
  dst := h2
  proto := rfl
  port := rfl
  method := ⟨0, rfl, rfl⟩
  host := ⟨_, rfl, rfl⟩
  path := ⟨_, rfl, rfl⟩

theorem not_mesh_named {g : GatewayText} {ns : Ns} : ¬ g.Named ns "mesh" := by
  rintro (h | ⟨_, h, _⟩)
  · have : '/' ∈ "mesh".toList := by rw [h]; simp
    exact absurd this (by decide)
  · exact h rfl

theorem one_vE (g : GatewayText) (q : Request) : ∀ group ∈ vE.groups, group.Pairwise fun r r' => ¬ (r.Fits (Cond.At vE g) q ∧ r'.Fits (Cond.At vE g) q) := by
  intro group hg
  rw [groups_vE] at hg
  simp only [List.mem_cons, List.not_mem_nil, or_false] at hg
  rcases hg with rfl | rfl | rfl
  · exact .nil
  · simp only [List.pairwise_cons, List.mem_singleton, forall_eq, List.not_mem_nil, false_implies, implies_true, List.Pairwise.nil, and_true]
    rintro ⟨⟨i, hi, ⟨n, hn, h⟩, _⟩, _⟩
    rw [List.mem_singleton.1 hi] at hn
    rw [List.mem_singleton.1 (show n ∈ ["mesh"] from hn)] at h
    exact not_mesh_named h
  · exact .nil

theorem oneMesh_vE (q : Request) : ∀ group ∈ vE.groups, group.Pairwise fun r r' => ¬ (r.Fits (Cond.Mesh vE) q ∧ r'.Fits (Cond.Mesh vE) q) := by
  intro group hg
  rw [groups_vE] at hg
  simp only [List.mem_cons, List.not_mem_nil, or_false] at hg
  rcases hg with rfl | rfl | rfl
  · exact .nil
  · simp only [List.pairwise_cons, List.mem_singleton, forall_eq, List.not_mem_nil, false_implies, implies_true, List.Pairwise.nil, and_true]
    rintro ⟨_, i, hi, h, _⟩
    rw [List.mem_singleton.1 hi] at h
    exact absurd (List.mem_singleton.1 (show "mesh" ∈ ["shop/out"] from h)) (by decide)
  · exact .nil

theorem req_tame {q : Request} (hq : q = qIn ∨ q = qOut) (dst : Place) : ReqsTame reg cl svcs gts vts dst q := by
  have hw : q.host = hShop ∨ q.host = hSite := by rcases hq with rfl | rfl <;> [exact Or.inl rfl; exact Or.inr rfl]
  refine ⟨fun v hv => ?_, plains hw⟩
  rcases mem_vts hv with rfl | rfl
  · refine { hosts := ?_, sni := ?_, uri := ?_, one := fun _ => ?_, oneMesh := fun _ => ?_, mesh := ?_ }
    · intro h hh; rw [List.mem_singleton.1 hh]; exact plain_name (by decide)
    · intro t ht; cases ht
    · intro t ht i hi s hs
      rw [List.mem_singleton.1 ht] at hi
      rw [List.mem_singleton.1 hi] at hs; cases hs
      intro _
      refine ⟨fun h => absurd h (by decide), fun _ h => ?_⟩
      rcases hq with rfl | rfl
      · exact Or.inr (by decide)
      · exact absurd h (by decide)
    · intro group hg g _
      rw [groups_vI] at hg
      simp only [List.mem_cons, List.not_mem_nil, or_false] at hg
      rcases hg with rfl | rfl | rfl <;> simp
    · intro group hg
      rw [groups_vI] at hg
      simp only [List.mem_cons, List.not_mem_nil, or_false] at hg
      rcases hg with rfl | rfl | rfl <;> simp
    · intro group hg r hr _ d hd ⟨s, _, hs, _⟩
      rw [groups_vI] at hg
      simp only [List.mem_cons, List.not_mem_nil, or_false] at hg
      rcases hg with rfl | rfl | rfl
      · rw [List.mem_singleton.1 hr] at hd
        rw [List.mem_singleton.1 hd] at hs
        exact absurd hs (by decide)
      · cases hr
      · cases hr
  · refine { hosts := ?_, sni := ?_, uri := ?_, one := fun _ group hg g _ => one_vE g q group hg, oneMesh := fun _ => oneMesh_vE q, mesh := ?_ }
    · intro h hh; rw [List.mem_singleton.1 hh]; exact plain_name (by decide)
    · intro t ht i hi h hh
      have : t = ⟨[⟨[hSite], ["mesh"]⟩], [dEgs]⟩ ∨ t = ⟨[⟨[hSite], ["shop/out"]⟩], [dSite]⟩ := by simpa [vE] using ht
      rcases this with rfl | rfl <;>
      · rw [List.mem_singleton.1 hi] at hh
        rw [List.mem_singleton.1 hh]
        exact plain_name (by decide)
    · intro t ht; cases ht
    · intro group hg r hr ⟨i, hi, _, hsni, _⟩ d hd _ _
      rw [groups_vE] at hg
      simp only [List.mem_cons, List.not_mem_nil, or_false] at hg
      rcases hg with rfl | rfl | rfl
      · cases hr
      · simp only [List.mem_cons, List.not_mem_nil, or_false] at hr
        rcases hr with rfl | rfl <;>
        · rw [List.mem_singleton.1 hi] at hsni
          obtain ⟨h, hh, hs⟩ := hsni _ rfl
          rw [List.mem_singleton.1 hh] at hs
          exact for_vE.2 (name_eq (by decide) hs)
      · cases hr

/-! ### What is let through -/

theorem fits_info : rInfo.Fits (Cond.At vI gI) qIn :=
  ⟨mInfo.view, List.mem_singleton.2 rfl, ⟨"in", List.mem_singleton.2 rfl, Or.inr ⟨rfl, by decide, rfl⟩⟩, fun l hl => (by cases hl),
    fun s hs => (by cases hs; exact (by decide : "/info".toList <+: "/info/1".toList)), fun s hs => (by cases hs; exact (by decide : "GET".toList = "GET".toList))⟩

theorem leads_web : dWeb.Leads reg cl svcs nsShop (.pod "shop/a") 8080 :=
  Or.inl ⟨web, by simp [svcs], Or.inr ⟨by decide, rfl⟩, _, List.mem_singleton.2 rfl, rfl, picks_web, rfl⟩

theorem leads_egs : dEgs.Leads reg cl svcs nsShop (.pod "istio-system/e") 443 :=
  Or.inl ⟨egs, by simp [svcs], Or.inl (by decide), _, List.mem_singleton.2 rfl, rfl, picks_egs, rfl⟩

theorem is_site : IsDns cl (.pod "www.example.com") hSite := ⟨site, by simp [cl], rfl, rfl, _, rfl, rfl⟩

theorem forwards_in : Forwards reg cl svcs gts vts "ingressgateway" (.pod "istio-system/i") (.pod "shop/a") qIn :=
  ⟨vI, by simp [vts], for_vI.2 rfl, gI, by simp [gts], by unfold GatewayText.Kind gI; decide, runs_I, serves_gI,
    [rInfo], by simp [groups_vI], rInfo, ⟨[], [], rfl, fits_info, fun _ h => absurd h List.not_mem_nil⟩, dWeb, List.mem_singleton.2 rfl, leads_web⟩

theorem fits_out : rOut.Fits (Cond.At vE gE) qOut :=
  ⟨_, List.mem_singleton.2 rfl, ⟨"shop/out", List.mem_singleton.2 rfl, Or.inl (by decide)⟩,
    fun l hl => (by cases hl; exact ⟨_, List.mem_singleton.2 rfl, says_self (by decide)⟩), trivial⟩

theorem fits_mesh : rMesh.Fits (Cond.Mesh vE) qOut :=
  ⟨_, List.mem_singleton.2 rfl, List.mem_singleton.2 rfl, fun l hl => (by cases hl; exact ⟨_, List.mem_singleton.2 rfl, says_self (by decide)⟩), trivial⟩

theorem forwards_out : Forwards reg cl svcs gts vts "egressgateway" (.pod "istio-system/e") (.pod "www.example.com") qOut :=
  ⟨vE, by simp [vts], for_vE.2 rfl, gE, by simp [gts], by unfold GatewayText.Kind gE; decide, runs_E, serves_gE,
    [rMesh, rOut], by simp [groups_vE], rOut, (decides_iff (one_vE gE qOut _ (by simp [groups_vE]))).2 ⟨by simp, fits_out⟩, dSite, List.mem_singleton.2 rfl,
    Or.inr ⟨is_site, rfl⟩⟩

theorem toEgress : dEgs.ToEgress egs := ⟨rfl, by decide⟩

theorem in_mesh : InMesh cl (.pod "shop/a") := ⟨podA, by simp [cl], rfl, by decide⟩

theorem from_mesh : FromMesh reg cl svcs vts (.pod "shop/a") (.pod "istio-system/e") qOut :=
  ⟨in_mesh, vE, by simp [vts], for_vE.2 rfl, [rMesh, rOut], by simp [groups_vE], rMesh,
    ⟨[], [rOut], rfl, fits_mesh, fun _ h => absurd h List.not_mem_nil⟩, dEgs, List.mem_singleton.2 rfl, ⟨egs, by simp [svcs], toEgress⟩, leads_egs⟩

theorem binds_out : Binds cl vE rOut gE :=
  ⟨works_E, _, List.mem_singleton.2 rfl, ⟨"shop/out", List.mem_singleton.2 rfl, Or.inl (by decide)⟩, hSite, for_vE.2 rfl, serves_gE,
    fun l hl => by cases hl; exact ⟨_, List.mem_singleton.2 rfl, says_self (by decide)⟩⟩

theorem mesh_route : MeshRoute svcs vts egs :=
  ⟨by simp [svcs], vE, by simp [vts], [rMesh, rOut], by simp [groups_vE], rMesh, by simp, ⟨_, List.mem_singleton.2 rfl, List.mem_singleton.2 rfl⟩, dEgs,
    List.mem_singleton.2 rfl, toEgress⟩

theorem flow : EgressFlow cl svcs gts vts :=
  ⟨⟨egs, mesh_route⟩, vE, by simp [vts], [rMesh, rOut], by simp [groups_vE], rOut, by simp, gE, by simp [gts], by unfold GatewayText.Kind gE; decide, binds_out⟩

theorem not_runs_E : ¬ gE.Runs cl (.pod "shop/a") := by
  rintro ⟨p, hp, hE, _, hv⟩
  have hv := hv ("istio", "egressgateway") (List.mem_singleton.2 rfl)
  rcases mem_cl hp with rfl | rfl | rfl | rfl
  · exact absurd (Place.pod.inj (holds_pod rfl hE)) (by decide)
  · exact absurd (Place.pod.inj (holds_pod rfl hE)) (by decide)
  · exact absurd hv (by unfold PeerInfo.HasVal; decide)
  · exact absurd (Place.pod.inj (holds_pod rfl hE)) (by decide)

theorem kept : Kept cl gts vts (.pod "shop/a") (.pod "www.example.com") :=
  ⟨vE, by simp [vts], [rMesh, rOut], by simp [groups_vE], rOut, by simp, gE, by simp [gts], by unfold GatewayText.Kind gE; decide, binds_out, in_mesh, not_runs_E,
    dSite, List.mem_singleton.2 rfl, is_site⟩

/-- Non-vacuity of C59: the ingress gateway sends the request for `x.shop.com/info/1` to the pod; the pod sends that for
`www.example.com` to the egress gateway, which sends it to the site; and the pod is kept from sending it itself. -/
example (ord : SetOrder) : ∃ S pols, services reg cl svcs = some S ∧ gatewayPols LA lang3 env.word rx PeerDom.default ord reg S cl gts vts = some pols ∧
    (∃ pol ∈ pols, pol.deny = false ∧ pol.ingress = false ∧ ∃ h ∈ pol.rules, (connNet LL PeerDom.default).K.mem
      ⟨raw 0 2 8080 "x.shop.com" "/info/1", raw_dom (by decide) (by decide) (by decide) dom_shop dom_info⟩ h = true) ∧
    (∃ pol ∈ pols, pol.deny = false ∧ pol.ingress = true ∧ ∃ h ∈ pol.rules, (connNet LL PeerDom.default).K.mem
      ⟨raw 2 1 443 "www.example.com" "/", raw_dom (by decide) (by decide) (by decide) dom_site dom_root⟩ h = true) ∧
    (∃ pol ∈ pols, pol.deny = false ∧ pol.ingress = false ∧ ∃ h ∈ pol.rules, (connNet LL PeerDom.default).K.mem
      ⟨raw 1 3 443 "www.example.com" "/", raw_dom (by decide) (by decide) (by decide) dom_site dom_root⟩ h = true) ∧
    (∃ pol ∈ pols, pol.deny = true ∧ ∃ h ∈ pol.rules, (connNet LL PeerDom.default).K.mem
      ⟨raw 2 3 443 "www.example.com" "/", raw_dom (by decide) (by decide) (by decide) dom_site dom_root⟩ h = true) := by
  obtain ⟨S, pols, h1, h2, _, h3, _⟩ := C59_gateways_partial (L2 := LL) (ord := ord) icluster ingressLib svcs_tame named rxOk gts_tame gts_differ vts_tame vts_differ
    (Or.inl ⟨gI, by simp [gts], works_I⟩)
  have atE : Place.At reg cl (.inl (minPodIndex + (1 : Nat)) : Int ⊕ String) (.pod "istio-system/e") := stands (p := podE) (by simp [cl]) rfl rfl
  have atA : Place.At reg cl (.inl (minPodIndex + (2 : Nat)) : Int ⊕ String) (.pod "shop/a") := stands (p := podA) (by simp [cl]) rfl rfl
  have atS : Place.At reg cl (.inl (minPodIndex + (3 : Nat)) : Int ⊕ String) (.pod "www.example.com") := stands (p := site) (by simp [cl]) rfl rfl
  refine ⟨S, pols, h1, h2, (h3.forwards _ _ _ _ isIn (req_tame (Or.inl rfl) _)).2 ⟨rfl, Or.inl forwards_in⟩,
    (h3.fromMesh _ _ _ _ (isOut (by decide) (by decide) atA atE) (req_tame (Or.inr rfl) _)).2 ⟨rfl, flow, from_mesh⟩,
    (h3.forwards _ _ _ _ (isOut (by decide) (by decide) atE atS) (req_tame (Or.inr rfl) _)).2 ⟨rfl, Or.inr ⟨flow, forwards_out⟩⟩,
    (h3.kept _ _ _ _ (isOut (by decide) (by decide) atA atS) (req_tame (Or.inr rfl) _)).2 ⟨flow, kept⟩⟩

end Ex
end GtwParser
end Verif
