import Verif.PropsGatewayEx
/-!
C59: what the code reads wrongly in gateways and virtual services.
-/
namespace Verif
open ISet IpBlock PeerSet

namespace GtwParser
open Container CalicoParser IstioParser IngressParser SidecarParser

section
variable {V2 X2 : Type} {A2 : VAlg Dim V2 X2} {W2 : Dim → V2 → Prop} {dfa : List Char → V2} {word : X2 → List Char} {D : V2 → Prop}
  {cls : Char → Bool} {rx : List Char → String → Bool}

/-! ### Gateways -/

/-- If all gateways are ignored and there are no virtual services, the code fails: the warning is that of a parser that is
not there. -/
theorem C59_only_ignored_crashes {B : PeerDom} {ord : SetOrder} {rg : PodReg} {svcs : List (String × Svc)} {c : Container} {gts : List GatewayText}
    (hne : gts ≠ []) (h : ∀ g ∈ gts, parseGateway A2 dfa cls c g = some none) : gatewayPols A2 dfa cls rx B ord rg svcs c gts [] = none := by
  have e : gts.mapM (parseGateway A2 dfa cls c) = some (gts.map fun _ => none) := by
    clear hne
    induction gts with
    | nil => rfl
    | cons g gts ih =>
      rw [List.mapM_cons, h g List.mem_cons_self, ih fun g hg => h g (List.mem_cons_of_mem _ hg)]
      rfl
  have e2 : (gts.map fun _ => (none : Option (Gtw V2))).filterMap id = [] := by
    rw [List.filterMap_eq_nil_iff]
    intro a ha
    obtain ⟨_, _, rfl⟩ := List.mem_map.1 ha
    rfl
  unfold gatewayPols gateways virtualServices
  rw [e, Option.map_some, e2]
  cases gts with
  | nil => exact absurd rfl hne
  | cons g gts => rfl

/-- A gateway, whose selector does not ask for a standard gateway, is such a one. -/
example (ord : SetOrder) : gatewayPols Ex.LA Ex.lang3 Ex.env.word Ex.rx PeerDom.default ord Ex.reg [] Ex.cl
    [⟨"g", Ex.nsShop, [("app", "my-gateway")], [["x.com".toList]]⟩] [] = none :=
  C59_only_ignored_crashes (by simp) fun g hg => by rw [List.mem_singleton.1 hg]; rfl

/-- Istio's hosts may have a namespace (`ns/*.com`); a gateway whose hosts all have one is rejected. -/
theorem C59_host_namespace_wrong {c : Container} {t : GatewayText} {b : Bool} (hb : gtwType t.selector = some b) (hp : (gtwPeers c t.selector).isEmpty = false)
    {hosts : List (List Char)} {rest : List (List (List Char))} (hs : t.servers = hosts :: rest) (hh : ∀ h ∈ hosts, '/' ∈ h) : parseGateway A2 dfa cls c t = none := by
  have e : ∀ l : List (List Char), (∀ h ∈ l, '/' ∈ h) → l.foldlM (hostStep A2 dfa cls) none = some none := by
    intro l
    induction l with
    | nil => intro _; rfl
    | cons h l ih =>
      intro hl
      rw [List.foldlM_cons]
      have : hostStep A2 dfa cls none h = some none := by
        unfold hostStep parseHost
        rw [if_pos (hl h List.mem_cons_self)]
        rfl
      rw [this]
      exact ih fun h hh => hl h (List.mem_cons_of_mem _ hh)
  unfold parseGateway
  rw [hb]
  dsimp only
  rw [hp, if_neg (by decide), hs, List.foldlM_cons]
  have : serverStep A2 dfa cls none hosts = none := by
    unfold serverStep
    rw [e hosts hh]
    rfl
  rw [this]
  rfl

example : parseGateway Ex.LA Ex.lang3 Ex.env.word Ex.cl ⟨"g", Ex.nsShop, [("istio", "ingressgateway")], [["*/x.com".toList]]⟩ = none :=
  C59_host_namespace_wrong (b := false) (by decide) (by decide) rfl (by decide)

/-- The wildcard of a host stands for any name, also for one with dots; in the code it does not. -/
theorem C59_wildcard_wrong (hD : IngressLib A2 W2 dfa word D) (L2 : A2.Lawful W2) (hw : ∀ a, Letter a → a ∉ ['.', '/', '-'] → cls a = true) :
    NameSays "*.com".toList "a.b.com".toList ∧ ∃ v x, parseHost A2 dfa cls "*.com".toList = some (some v) ∧ word x = "a.b.com".toList ∧ A2.mem x v = false := by
  obtain ⟨v, e, hm, _⟩ := parseHost_means hD L2 hw (h := "*.com".toList)
    (Or.inr ⟨⟨by decide, Or.inr ⟨"com".toList, by decide, by decide, by unfold Letter; decide⟩⟩, by decide, by decide⟩)
  obtain ⟨x, hx⟩ := hD.every "a.b.com".toList (by unfold Letter; decide)
  refine ⟨Or.inr (Or.inr ⟨"com".toList, "a.b".toList, by decide, by decide, by decide⟩), v, x, e, hx, ?_⟩
  rw [← Bool.not_eq_true, hm.mem, hx]
  rintro ⟨_, h | h | ⟨s, u, h1, h2, h3⟩⟩
  · exact absurd h (by decide)
  · exact absurd h.1 (by decide)
  · have h1 := (List.cons.inj (List.cons.inj (show '*' :: '.' :: "com".toList = _ from h1)).2).2
    rw [← h1] at h2
    have : u = "a.b".toList := List.append_cancel_right (show u ++ '.' :: "com".toList = "a.b".toList ++ '.' :: "com".toList from h2.symm)
    subst this
    exact absurd (h3 '.' (by decide)) (by unfold WordChar; decide)

/-! ### Conditions of routes -/

/-- A condition for a method that the code does not know stands for all methods. -/
theorem C59_unknown_method_wrong (hr : RxOk rx) {ns : Ns} {u : Option StrMatch} {gw : List String} {s : List Char} (hs : ∀ a ∈ s, a.isUpper = true)
    (hu : ∀ m ∈ MethodSet.allMethods, ¬ s <+: m.toList) :
    (httpStep A2 dfa rx ns Route.new ⟨u, some ⟨.exact, s⟩, gw⟩).methods = some (MethodSet.make true) := by
  have hm := regex_sem (rx s) (T := fun _ => False) fun m hm => by rw [(hr s hs m).1]; exact ⟨fun h => hu m hm h, fun h => h.elim⟩
  have ht : ISet.truthy (MethodSet.addRegex (MethodSet.make false) (rx s)) = false := by
    rw [← Bool.not_eq_true, truthy_spec _ hm.1]
    rintro ⟨x, hx⟩
    obtain ⟨_, _, _, _, h⟩ := (hm.2 x).1 hx
    exact h
  have e : (methodSet rx (some ⟨.exact, s⟩)).filter ISet.truthy = none := by
    unfold methodSet
    dsimp only
    rw [Option.filter_some, ht]
    rfl
  unfold httpStep
  dsimp only
  rw [e]
  rfl

example : (httpStep Ex.LA Ex.lang3 Ex.rx Ex.nsShop Route.new ⟨none, some ⟨.exact, "PURGE".toList⟩, []⟩).methods = some (MethodSet.make true) :=
  C59_unknown_method_wrong Ex.rxOk (by decide) (by decide +kernel)

/-- The request for path `/b`. -/
def exactB : StrMatch := ⟨.exact, "/b".toList⟩
/-- The request for path `/a`. -/
def exactA : StrMatch := ⟨.exact, "/a".toList⟩

theorem exact_tame {s : StrMatch} (h : s = exactA ∨ s = exactB) : s.UriTame := by
  rcases h with rfl | rfl
  · exact ⟨Or.inl rfl, ['a'], by decide, by unfold Letter; decide⟩
  · exact ⟨Or.inl rfl, ['b'], by decide, by unfold Letter; decide⟩

/-- What the code reads of the paths. -/
theorem read_uri (hD : IngressLib A2 W2 dfa word D) (L2 : A2.Lawful W2) {ns : Ns} {items : List HttpMatch}
    (hi : ∀ i ∈ items, ∀ s, i.uri = some s → s = exactA ∨ s = exactB) : ∃ x, word x = "/b".toList ∧
    ((∃ u, (items.foldl (httpStep A2 dfa rx ns) Route.new).uri = some u ∧ A2.mem x u = true) ↔ ∃ i ∈ items, i.uri = some exactB) := by
  obtain ⟨x, hx⟩ := hD.every "/b".toList (by unfold Letter; decide)
  have hdom : A2.mem x (A2.dom .paths) = true := (hD.paths x).2 ⟨['b'], hx, by unfold Letter; decide⟩
  obtain ⟨⟨_, h2⟩, _⟩ := uriFold_sem hD L2 items (fun i h s hs => exact_tame (hi i h s hs)) (o := none) (G := fun _ => False) ⟨fun v h => (by cases h), fun x _ => by simp⟩
  refine ⟨x, hx, ?_⟩
  rw [http_fold]
  refine (h2 x hdom).trans ?_
  dsimp only
  rw [false_or, hx]
  constructor
  · rintro ⟨i, h, s, hs, hr⟩
    rcases hi i h s hs with rfl | rfl
    · exact absurd (show "/b".toList = "/a".toList from hr) (by decide)
    · exact ⟨i, h, hs⟩
  · rintro ⟨i, h, hs⟩
    exact ⟨i, h, _, hs, (rfl : "/b".toList = "/b".toList)⟩

/-- A route with a condition for the path `/a` at the gateway `in`, and one for `/b` at another gateway: in the code the route is for both
paths at both gateways. -/
theorem C59_match_gateways_wrong (hD : IngressLib A2 W2 dfa word D) (L2 : A2.Lawful W2) (d : List DestText) :
    ∃ (t : HttpText) (v : VsText), t.dests = d ∧ v.ns = Ex.nsShop ∧ (∀ m, ¬ ∃ i ∈ t.view.conds, i.At v Ex.gI ∧ i.rest "/b".toList m) ∧
      ∃ x u, word x = "/b".toList ∧ "shop/in" ∈ (t.items.foldl (httpStep A2 dfa rx v.ns) Route.new).gateways ∧
        (t.items.foldl (httpStep A2 dfa rx v.ns) Route.new).uri = some u ∧ A2.mem x u = true := by
  let items : List HttpMatch := [⟨some exactA, none, ["in"]⟩, ⟨some exactB, none, ["other"]⟩]
  obtain ⟨x, hx, hu⟩ := read_uri (rx := rx) hD L2 (ns := Ex.nsShop) (items := items) fun i hi s hs => by
    simp only [items, List.mem_cons, List.not_mem_nil, or_false] at hi
    rcases hi with rfl | rfl <;> cases hs
    · exact Or.inl rfl
    · exact Or.inr rfl
  refine ⟨⟨items, d⟩, ⟨"v", Ex.nsShop, [Ex.hShop], ["in", "other"], [⟨items, d⟩], [], []⟩, rfl, rfl, fun m => ?_, ?_⟩
  · rintro ⟨i, hi, ⟨n, hn, h⟩, hr⟩
    have : i = HttpMatch.view ⟨some exactA, none, ["in"]⟩ ∨ i = HttpMatch.view ⟨some exactB, none, ["other"]⟩ := by
      simpa [items, HttpText.view] using hi
    rcases this with rfl | rfl
    · exact absurd (show "/b".toList = "/a".toList from hr.1 _ rfl) (by decide)
    · rw [List.mem_singleton.1 (show n ∈ ["other"] from hn)] at h
      rcases h with h | ⟨h, _⟩ <;> exact absurd h (by decide)
  · obtain ⟨u, h1, h2⟩ := hu.2 ⟨_, List.mem_cons_of_mem _ List.mem_cons_self, rfl⟩
    refine ⟨x, u, hx, ?_, h1, h2⟩
    rw [http_fold]
    exact (gtwFold_mem Ex.nsShop _ [] _).2 (Or.inr ⟨["in"], by simp [items], Or.inr ⟨"in", by simp, by decide, by decide⟩⟩)

/-- A route with a condition for the path `/a`, and one for all paths and the method GET: in the code, the route is for the path `/a` only. -/
theorem C59_no_uri_wrong (hD : IngressLib A2 W2 dfa word D) (L2 : A2.Lawful W2) (ns : Ns) (d : List DestText) :
    ∃ t : HttpText, t.dests = d ∧ (∃ i ∈ t.view.conds, i.rest "/b".toList "GET") ∧
      ∃ x u, word x = "/b".toList ∧ (t.items.foldl (httpStep A2 dfa rx ns) Route.new).uri = some u ∧ A2.mem x u = false := by
  let items : List HttpMatch := [⟨some exactA, none, []⟩, ⟨none, some ⟨.exact, "GET".toList⟩, []⟩]
  obtain ⟨x, hx, hu⟩ := read_uri (rx := rx) hD L2 (ns := ns) (items := items) fun i hi s hs => by
    simp only [items, List.mem_cons, List.not_mem_nil, or_false] at hi
    rcases hi with rfl | rfl <;> cases hs
    exact Or.inl rfl
  refine ⟨⟨items, d⟩, rfl, ⟨HttpMatch.view ⟨none, some ⟨.exact, "GET".toList⟩, []⟩, by simp [items, HttpText.view], fun s hs => (by cases hs), fun s hs => (by cases hs; rfl)⟩, ?_⟩
  have h3 := (uriFold_sem hD L2 items (fun i hi s hs => exact_tame (by
    simp only [items, List.mem_cons, List.not_mem_nil, or_false] at hi
    rcases hi with rfl | rfl <;> cases hs
    exact Or.inl rfl)) (o := none) (G := fun _ => False) ⟨fun v h => (by cases h), fun x _ => by simp⟩).2
  have hne : uriFold A2 dfa items none ≠ none := fun h => by
    have := (h3.1 h).2 _ List.mem_cons_self
    cases this
  obtain ⟨u, hu'⟩ := Option.ne_none_iff_exists'.1 hne
  have e : (items.foldl (httpStep A2 dfa rx ns) Route.new).uri = some u := by rw [http_fold]; exact hu'
  refine ⟨x, u, hx, e, ?_⟩
  rw [← Bool.not_eq_true]
  intro hm
  obtain ⟨i, hi, h⟩ := hu.1 ⟨u, e, hm⟩
  simp only [items, List.mem_cons, List.not_mem_nil, or_false] at hi
  rcases hi with rfl | rfl
  · exact absurd (congrArg StrMatch.text (Option.some.inj h)) (by decide)
  · cases h

/-- A route with conditions for GET of `/a` and POST of `/b`: in the code, the route is also for GET of `/b`. -/
theorem C59_product_wrong (hD : IngressLib A2 W2 dfa word D) (L2 : A2.Lawful W2) (hr : RxOk rx) (ns : Ns) (d : List DestText) :
    ∃ t : HttpText, t.dests = d ∧ (¬ ∃ i ∈ t.view.conds, i.rest "/b".toList "GET") ∧
      ∃ x u M, word x = "/b".toList ∧ (t.items.foldl (httpStep A2 dfa rx ns) Route.new).uri = some u ∧ A2.mem x u = true ∧
        (t.items.foldl (httpStep A2 dfa rx ns) Route.new).methods = some M ∧ ∃ n : Nat, MethodSet.allMethods[n]? = some "GET" ∧ Mem (n : Int) M := by
  let items : List HttpMatch := [⟨some exactA, some ⟨.exact, "GET".toList⟩, []⟩, ⟨some exactB, some ⟨.exact, "POST".toList⟩, []⟩]
  have mem : ∀ i ∈ items, i = ⟨some exactA, some ⟨.exact, "GET".toList⟩, []⟩ ∨ i = ⟨some exactB, some ⟨.exact, "POST".toList⟩, []⟩ := fun i hi => by
    simpa only [items, List.mem_cons, List.not_mem_nil, or_false] using hi
  obtain ⟨x, hx, hu⟩ := read_uri (rx := rx) hD L2 (ns := ns) (items := items) fun i hi s hs => by
    rcases mem i hi with rfl | rfl <;> cases hs
    · exact Or.inl rfl
    · exact Or.inr rfl
  refine ⟨⟨items, d⟩, rfl, ?_, ?_⟩
  · rintro ⟨i, hi, h⟩
    have : i = HttpMatch.view ⟨some exactA, some ⟨.exact, "GET".toList⟩, []⟩ ∨ i = HttpMatch.view ⟨some exactB, some ⟨.exact, "POST".toList⟩, []⟩ := by
      simpa [items, HttpText.view] using hi
    rcases this with rfl | rfl
    · exact absurd (show "/b".toList = "/a".toList from h.1 _ rfl) (by decide)
    · exact absurd (show "GET".toList = "POST".toList from h.2 _ rfl) (by decide)
  · obtain ⟨u, h1, h2⟩ := hu.2 ⟨_, List.mem_cons_of_mem _ List.mem_cons_self, rfl⟩
    obtain ⟨m1, m2⟩ := methodFold_sem hr items (fun i hi s hs => by
      rcases mem i hi with rfl | rfl <;> cases hs
      · exact ⟨by decide, Or.inl ⟨rfl, "GET", by decide, rfl⟩⟩
      · exact ⟨by decide, Or.inl ⟨rfl, "POST", by decide, rfl⟩⟩) (o := none) (G := fun _ => False) (fun _ h => h)
    obtain ⟨M, hM⟩ := Option.ne_none_iff_exists'.1 (m2 (by simp [items]))
    rw [hM] at m1
    refine ⟨x, u, M, hx, h1, h2, by rw [http_fold]; exact hM, 0, by decide, ?_⟩
    exact (m1.2 0).2 ⟨0, rfl, "GET", by decide, Or.inr ⟨_, List.mem_cons_self, fun s hs => by cases hs; rfl⟩⟩

/-- The prefix `/a` is one of `/ab`; in the code it is not. -/
theorem C59_prefix_wrong (hD : IngressLib A2 W2 dfa word D) (L2 : A2.Lawful W2) :
    (StrMatch.mk .prefix "/a".toList).Says "/ab".toList ∧ ∃ v x, uriDfa A2 dfa (some ⟨.prefix, "/a".toList⟩) = some v ∧ word x = "/ab".toList ∧ A2.mem x v = false := by
  obtain ⟨v, e, _, _, hm⟩ := uriDfa_sem hD L2 (s := ⟨.prefix, "/a".toList⟩) ⟨Or.inr rfl, ['a'], by decide, by unfold Letter; decide⟩
  obtain ⟨x, hx⟩ := hD.every "/ab".toList (by unfold Letter; decide)
  refine ⟨⟨['b'], by decide⟩, v, x, e, hx, ?_⟩
  rw [← Bool.not_eq_true, hm x ((hD.paths x).2 ⟨"ab".toList, hx, by unfold Letter; decide⟩), hx]
  unfold UriR
  rw [if_neg (by decide)]
  rintro (h | h | ⟨r, h⟩)
  · exact absurd h (by decide)
  · exact absurd h (by decide)
  · have e : dropSlash "/a".toList = "/a".toList := by decide
    dsimp only at h
    rw [e] at h
    exact absurd (List.cons.inj (List.append_cancel_left (show "/a".toList ++ ['b'] = "/a".toList ++ '/' :: r from h))).1 (by decide)

/-- Virtual services without hosts are legal for the parser, but then the generator fails. -/
theorem C59_no_hosts_crashes (gs : List (Gtw V2)) (v : Vs V2) (names : List String) (h : v.hosts = []) : pick A2 gs v names = none := by
  unfold pick
  rw [h]
  rfl

/-- Names of TLS with a slash are a failure. -/
theorem C59_sni_slash_crashes {acc : Option V2} {h : List Char} (hh : '/' ∈ h) : sniStep A2 dfa cls acc h = none := by
  unfold sniStep parseHost
  rw [if_pos hh]
  rfl

/-- A route of an egress gateway to a service of the mesh is a failure. -/
theorem C59_egress_internal_rejected {B : PeerDom} {ord : SetOrder} {rg : PodReg} {c : Container} {v : Vs V2} {n : Nat} {r : Route V2} {x : Gtw V2 × V2}
    (h1 : x.1.egress = true) (h2 : r.internal = some true) (h3 : r.sni = none) : gtwOut A2 B ord rg c v n r x = none := by
  unfold gtwOut
  rw [h1, h2, h3]
  simp

end

namespace Ex
open IstioParser.Ex (LA LW LL)
open IngressParser.Ex (lang3 ingressLib)
open SidecarParser.Ex (holds_pod)

/-- A route to a service and to a name outside of the mesh is a failure. -/
theorem C59_mixed_rejected : ∃ S, services reg cl svcs = some S ∧ ∀ gw, parseTcp (V2 := String → Prop) S cl nsShop ⟨gw, [dWeb, dSite]⟩ = none := by
  refine ⟨_, services_eq cluster svcs_tame, fun gw => ?_⟩
  unfold parseTcp
  rw [List.foldlM_cons]
  rcases dest_local (r := { (Route.new : Route (String → Prop)) with gateways := gw.foldl (addGateways nsShop) [] }) cluster svcs_tame named (by decide : '/' ∉ nsShop.name.toList)
    web_local (by simp [Route.new]) with ⟨_, D, e, _⟩ | ⟨h, _⟩
  · dsimp only
    rw [e]
    have h1 : localName nsShop dSite.host = none := by decide
    have h2 : (matchingDns cl dSite.host).isEmpty = false := by decide
    show Option.bind _ _ = none
    rw [Option.bind_some, List.foldlM_cons]
    unfold destStep
    rw [if_neg (by decide), h1]
    dsimp only
    rw [h2, if_neg (by decide)]
    rfl
  · exact absurd (Or.inl ⟨web, by simp [svcs], Or.inr ⟨by decide, rfl⟩⟩) h

/-! ### Routes -/

/-- Requests below `/info` go to `web`, all others to the service of the egress gateway. -/
def vO : VsText := ⟨"vo", nsShop, [hShop], ["in"], [⟨[mInfo], [dWeb]⟩, ⟨[], [dEgs]⟩], [], []⟩
def rAll : RouteView := ⟨[⟨[], none, fun _ _ => True⟩], [dEgs]⟩
theorem groups_vO : vO.groups = [[rInfo, rAll], [], []] := rfl

def toMesh : HttpMatch := ⟨none, none, ["mesh"]⟩
def toOut : HttpMatch := ⟨none, none, ["shop/out"]⟩
/-- As `vE`, with HTTP routes. -/
def vM : VsText := ⟨"vm", nsShop, [hSite], ["mesh", "out"], [⟨[toMesh], [dEgs]⟩, ⟨[toOut], [dSite]⟩], [], []⟩
def rM : RouteView := ⟨[toMesh.view], [dEgs]⟩
def rN : RouteView := ⟨[toOut.view], [dSite]⟩
theorem groups_vM : vM.groups = [[rM, rN], [], []] := rfl

theorem for_one {v : VsText} {h w : List Char} (hv : v.hosts = [h]) (hs : '*' ∉ h) : v.For w ↔ w = h := by
  unfold VsText.For
  rw [hv]
  constructor
  · rintro ⟨h', hh, hsay⟩
    rw [List.mem_singleton.1 hh] at hsay
    exact name_eq hs hsay
  · rintro rfl
    exact ⟨_, List.mem_singleton.2 rfl, says_self hs⟩

theorem overlap_one {v : VsText} (hv : v.hosts = [hShop] ∨ v.hosts = [hSite]) {r : RouteView} (hs : ∀ i ∈ r.conds, i.sni = none) :
    ∀ g ∈ gts, ∀ i ∈ r.conds, ∀ w, v.For w → g.Serves w → i.Sni w → ∃ w', v.For w' ∧ g.Serves w' ∧ i.Sni w' ∧ (∀ a ∈ w', Letter a) ∧
    (∀ h ∈ v.hosts, Plain h w') ∧ (∀ hosts ∈ g.servers, ∀ h ∈ hosts, Plain h w') ∧ ∀ l, i.sni = some l → ∀ h ∈ l, Plain h w' := by
  intro g hg i hi w h1 h2 h3
  have hw : w = hShop ∨ w = hSite := by
    rcases hv with h | h
    · exact Or.inl ((for_one h (by decide)).1 h1)
    · exact Or.inr ((for_one h (by decide)).1 h1)
  refine ⟨w, h1, h2, h3, letters hw, fun h hh => ?_, plains hw g hg, fun l hl => by rw [hs i hi] at hl; cases hl⟩
  rcases hv with e | e <;>
  · rw [e] at hh
    rw [List.mem_singleton.1 hh]
    exact plain_name (by decide)

theorem egress_not {v : VsText} (hv : v.ns = nsShop) {r : RouteView} {n0 : String} (hn : ∀ i ∈ r.conds, i.names v = [n0]) (h1 : n0 ≠ "shop/out") (h2 : n0 ≠ "out") :
    ∀ g ∈ gts, g.Kind "egressgateway" → ∀ i ∈ r.conds, i.At v g → ∀ d ∈ r.dests, d.External := fun g hg hk i hi hat => by
  rcases mem_gts hg with rfl | rfl
  · exact absurd hk (by unfold GatewayText.Kind gI; decide)
  · obtain ⟨n, h, h'⟩ := hat
    rw [hn i hi, List.mem_singleton] at h
    subst h
    rw [hv] at h'
    rcases named_out h' with h | h
    · exact absurd h h1
    · exact absurd h h2

theorem all_tame : HttpText.Tame ⟨[], [dEgs]⟩ :=
  ⟨fun _ h => absurd h List.not_mem_nil, fun _ h => absurd h List.not_mem_nil, fun _ h => absurd h List.not_mem_nil, fun _ h => absurd h List.not_mem_nil,
    fun _ h => absurd h List.not_mem_nil⟩

theorem vO_tame : ∀ v ∈ [vO], v.Tame cl svcs gts := fun v hv => by
  rw [List.mem_singleton.1 hv]
  refine { ns := by decide, given := by decide, hosts := ?_, http := ?_, tls := ?_, tcp := ?_, routes := ?_ }
  · intro h hh; rw [List.mem_singleton.1 hh]; exact shop_ok
  · intro t ht
    have : t = ⟨[mInfo], [dWeb]⟩ ∨ t = ⟨[], [dEgs]⟩ := by simpa [vO] using ht
    rcases this with rfl | rfl
    · exact info_tame
    · exact all_tame
  · intro t ht; cases ht
  · intro t ht; cases ht
  · intro group hg r hr
    rw [groups_vO] at hg
    simp only [List.mem_cons, List.not_mem_nil, or_false] at hg
    rcases hg with rfl | rfl | rfl
    · simp only [List.mem_cons, List.not_mem_nil, or_false] at hr
      rcases hr with rfl | rfl
      · refine ⟨Or.inl fun d hd => by rw [List.mem_singleton.1 hd]; exact web_local,
          egress_not rfl (n0 := "in") (fun i hi => by rw [List.mem_singleton.1 hi]; rfl) (by decide) (by decide), overlap_one (Or.inl rfl) fun i hi => by rw [List.mem_singleton.1 hi]; rfl⟩
      · refine ⟨Or.inl fun d hd => by rw [List.mem_singleton.1 hd]; exact egs_local,
          egress_not rfl (n0 := "in") (fun i hi => by rw [List.mem_singleton.1 hi]; rfl) (by decide) (by decide), overlap_one (Or.inl rfl) fun i hi => by rw [List.mem_singleton.1 hi]⟩
    · cases hr
    · cases hr

theorem one_tame {m : HttpMatch} (hm : m = toMesh ∨ m = toOut) (d : List DestText) : HttpText.Tame ⟨[m], d⟩ where
  gateways := fun i hi j hj => by rw [List.mem_singleton.1 hi, List.mem_singleton.1 hj]
  uris := fun i hi j hj _ => by rw [List.mem_singleton.1 hj]; rcases hm with rfl | rfl <;> rfl
  product := fun i hi j hj => by rw [List.mem_singleton.1 hi, List.mem_singleton.1 hj]; exact ⟨_, List.mem_singleton.2 rfl, rfl, rfl⟩
  uri := fun i hi s hs => by rw [List.mem_singleton.1 hi] at hs; rcases hm with rfl | rfl <;> cases hs
  method := fun i hi s hs => by rw [List.mem_singleton.1 hi] at hs; rcases hm with rfl | rfl <;> cases hs

theorem vM_tame : ∀ v ∈ [vM], v.Tame cl svcs gts := fun v hv => by
  rw [List.mem_singleton.1 hv]
  refine { ns := by decide, given := by decide, hosts := ?_, http := ?_, tls := ?_, tcp := ?_, routes := ?_ }
  · intro h hh; rw [List.mem_singleton.1 hh]; exact site_ok
  · intro t ht
    have : t = ⟨[toMesh], [dEgs]⟩ ∨ t = ⟨[toOut], [dSite]⟩ := by simpa [vM] using ht
    rcases this with rfl | rfl
    · exact one_tame (Or.inl rfl) _
    · exact one_tame (Or.inr rfl) _
  · intro t ht; cases ht
  · intro t ht; cases ht
  · intro group hg r hr
    rw [groups_vM] at hg
    simp only [List.mem_cons, List.not_mem_nil, or_false] at hg
    rcases hg with rfl | rfl | rfl
    · simp only [List.mem_cons, List.not_mem_nil, or_false] at hr
      rcases hr with rfl | rfl
      · refine ⟨Or.inl fun d hd => by rw [List.mem_singleton.1 hd]; exact egs_local,
          egress_not rfl (n0 := "mesh") (fun i hi => by rw [List.mem_singleton.1 hi]; rfl) (by decide) (by decide), overlap_one (Or.inr rfl) fun i hi => by rw [List.mem_singleton.1 hi]; rfl⟩
      · refine ⟨Or.inr fun d hd => by rw [List.mem_singleton.1 hd]; exact site_external,
          fun _ _ _ _ _ _ d hd => by rw [List.mem_singleton.1 hd]; exact site_external, overlap_one (Or.inr rfl) fun i hi => by rw [List.mem_singleton.1 hi]; rfl⟩
    · cases hr
    · cases hr

/-- A request for `x.shop.com/info/1` from the ingress gateway to the egress gateway, and one of the pod for `x.shop.com`. -/
def qO : Request := ⟨6, 443, "GET", hShop, "/info/1".toList⟩
def qM : Request := ⟨6, 443, "GET", hShop, "/".toList⟩

theorem isO : IsRequest String.toList reg cl ⟨raw 0 1 443 "x.shop.com" "/info/1", raw_dom (by decide) (by decide) (by decide) dom_shop dom_info⟩
    (.pod "istio-system/i") (.pod "istio-system/e") qO where
  src := stands (p := podI) (by simp [cl]) rfl rfl
  dst := stands (p := podE) (by simp [cl]) rfl rfl
  proto := rfl
  port := rfl
  method := ⟨0, rfl, rfl⟩
  host := ⟨_, rfl, rfl⟩
  path := ⟨_, rfl, rfl⟩

theorem isM : IsRequest String.toList reg cl ⟨raw 2 1 443 "x.shop.com" "/", raw_dom (by decide) (by decide) (by decide) dom_shop dom_root⟩
    (.pod "shop/a") (.pod "istio-system/e") qM where
  src := stands (p := podA) (by simp [cl]) rfl rfl
  dst := stands (p := podE) (by simp [cl]) rfl rfl
  proto := rfl
  port := rfl
  method := ⟨0, rfl, rfl⟩
  host := ⟨_, rfl, rfl⟩
  path := ⟨_, rfl, rfl⟩

theorem runs_i {g : GatewayText} (hg : g ∈ gts) (h : g.Runs cl (.pod "istio-system/i")) : g = gI := by
  rcases mem_gts hg with rfl | rfl
  · rfl
  · obtain ⟨p, hp, hE, _, hv⟩ := h
    have hv := hv ("istio", "egressgateway") (List.mem_singleton.2 rfl)
    rcases mem_cl hp with rfl | rfl | rfl | rfl
    · exact absurd hv (by unfold PeerInfo.HasVal; decide)
    · exact absurd (Place.pod.inj (holds_pod rfl hE)) (by decide)
    · exact absurd (Place.pod.inj (holds_pod rfl hE)) (by decide)
    · exact absurd (Place.pod.inj (holds_pod rfl hE)) (by decide)

theorem web_not_e {x : Int} : ¬ dWeb.Leads reg cl svcs nsShop (.pod "istio-system/e") x := by
  rintro (⟨s, hs, h, p, _, _, ⟨_, k, hk, hE, _, hv⟩, _⟩ | ⟨⟨p, hp, _, hd, k, he, e⟩, _⟩)
  · rcases mem_svcs hs with rfl | rfl
    · have hv := hv ("app", "web") (List.mem_singleton.2 rfl)
      rcases mem_cl hk with rfl | rfl | rfl | rfl
      · exact absurd (Place.pod.inj (holds_pod rfl hE)) (by decide)
      · exact absurd hv (by unfold PeerInfo.HasVal; decide)
      · exact absurd (Place.pod.inj (holds_pod rfl hE)) (by decide)
      · exact absurd (Place.pod.inj (holds_pod rfl hE)) (by decide)
    · rcases h with h | ⟨h, _⟩ <;> exact absurd h (by decide)
  · rcases mem_cl hp with rfl | rfl | rfl | rfl
    · cases hd
    · cases hd
    · cases hd
    · cases he; exact absurd e (by decide)

/-- Istio takes the first route that fits.  For the code, all of them apply: the gateway sends a request below `/info` also where only
the others should go. -/
theorem C59_order_wrong (ord : SetOrder) : ∃ S pols, services reg cl svcs = some S ∧ gatewayPols LA lang3 env.word rx PeerDom.default ord reg S cl gts [vO] = some pols ∧
    (∀ k, ¬ Forwards reg cl svcs gts [vO] k (.pod "istio-system/i") (.pod "istio-system/e") qO) ∧
    ∃ pol ∈ pols, pol.deny = false ∧ pol.ingress = false ∧ ∃ h ∈ pol.rules, (connNet LL PeerDom.default).K.mem
      ⟨raw 0 1 443 "x.shop.com" "/info/1", raw_dom (by decide) (by decide) (by decide) dom_shop dom_info⟩ h = true := by
  obtain ⟨z, hz, hzS⟩ := free_index (X2 := String) icluster
  obtain ⟨pols, e, _, h⟩ := gatewayPols_sem LL (ord := ord) icluster ingressLib icluster.word svcs_tame named rxOk hz hzS gts_tame gts_differ vO_tame
    (by simp [VsDiffer]) (Or.inl ⟨gI, by simp [gts], works_I⟩)
  obtain ⟨o, ho, rfl⟩ := h ⟨⟨gI, by simp [gts], works_I⟩, by simp⟩
  refine ⟨_, _, services_eq cluster svcs_tame, e, ?_, ?_⟩
  · rintro k ⟨v, hv, _, g, hg, _, hr, _, group, hgr, r, ⟨a, b, he, _, hno⟩, d, hd, hl⟩
    rw [List.mem_singleton.1 hv] at hgr hno hl
    obtain rfl := runs_i hg hr
    rw [groups_vO] at hgr
    simp only [List.mem_cons, List.not_mem_nil, or_false] at hgr
    have hr : group = [rInfo, rAll] := by
      rcases hgr with h | h | h
      · exact h
      · rw [h] at he; simp at he
      · rw [h] at he; simp at he
    rw [hr] at he
    cases a with
    | nil =>
      obtain ⟨rfl, _⟩ := List.cons.inj he
      rw [List.mem_singleton.1 hd] at hl
      exact web_not_e hl
    | cons r' a =>
      obtain ⟨rfl, _⟩ := List.cons.inj he
      exact hno _ List.mem_cons_self ⟨mInfo.view, List.mem_singleton.2 rfl, ⟨"in", List.mem_singleton.2 rfl, Or.inr ⟨rfl, by decide, rfl⟩⟩, fun l hl => (by cases hl),
        fun s hs => (by cases hs; exact (by decide : "/info".toList <+: "/info/1".toList)), fun s hs => (by cases hs; exact (by decide : "GET".toList = "GET".toList))⟩
  · have hsh : ServesR gI hShop := ⟨_, List.mem_singleton.2 rfl, _, List.mem_singleton.2 rfl, (hostR_says plain_any).2 says_any⟩
    have hvh : AnyR vO.hosts hShop := ⟨_, List.mem_singleton.2 rfl, Or.inr (Or.inl ⟨by decide, rfl⟩)⟩
    have hsn : ∀ w, SniR rAll w := fun w => ⟨_, List.mem_singleton.2 rfl, fun l hl => by cases hl⟩
    obtain ⟨pol, hp, hi⟩ := ho.ing.complete (vO, rAll, gI) ⟨⟨List.mem_singleton.2 rfl, ⟨[rInfo, rAll], by simp [groups_vO], by simp⟩, by simp [gts], works_I,
      ⟨_, List.mem_singleton.2 rfl, "in", List.mem_singleton.2 rfl, Or.inr ⟨rfl, by decide, rfl⟩⟩,
      hShop, letters (Or.inl rfl), ⟨hsh, hvh⟩, hsn _⟩, (by unfold GatewayText.Kind gI; decide)⟩
    have hall : pol ∈ o.all := (mem_all o pol).2 (Or.inl hp)
    rw [if_neg (fun h => by rw [List.isEmpty_iff.1 h] at hall; cases hall)]
    refine ⟨pol, hall, hi.deny, hi.ingress, (hi.mem _ _ _ _ isO ?_).2 ⟨runs_I, rfl, ⟨⟨hsh, hvh⟩, hsn _⟩, ⟨_, List.mem_singleton.2 rfl, trivial⟩, dEgs, List.mem_singleton.2 rfl, leads_egs⟩⟩
    intro t ht i hi s hs
    have : t = ⟨[mInfo], [dWeb]⟩ ∨ t = ⟨[], [dEgs]⟩ := by simpa [vO] using ht
    rcases this with rfl | rfl
    · rw [List.mem_singleton.1 hi] at hs; cases hs
      exact fun _ => ⟨fun h => absurd h (by decide), fun _ _ => Or.inr (by decide)⟩
    · cases hi

/-- A virtual service is for requests to its hosts.  For the code, its routes of the mesh to the egress gateway are for all requests
there. -/
theorem C59_mesh_host_wrong (ord : SetOrder) : ∃ S pols, services reg cl svcs = some S ∧ gatewayPols LA lang3 env.word rx PeerDom.default ord reg S cl gts [vM] = some pols ∧
    ¬ FromMesh reg cl svcs [vM] (.pod "shop/a") (.pod "istio-system/e") qM ∧
    ∃ pol ∈ pols, pol.deny = false ∧ pol.ingress = true ∧ ∃ h ∈ pol.rules, (connNet LL PeerDom.default).K.mem
      ⟨raw 2 1 443 "x.shop.com" "/", raw_dom (by decide) (by decide) (by decide) dom_shop dom_root⟩ h = true := by
  obtain ⟨z, hz, hzS⟩ := free_index (X2 := String) icluster
  obtain ⟨pols, e, _, h⟩ := gatewayPols_sem LL (ord := ord) icluster ingressLib icluster.word svcs_tame named rxOk hz hzS gts_tame gts_differ vM_tame
    (by simp [VsDiffer]) (Or.inl ⟨gI, by simp [gts], works_I⟩)
  obtain ⟨o, ho, rfl⟩ := h ⟨⟨gI, by simp [gts], works_I⟩, by simp⟩
  refine ⟨_, _, services_eq cluster svcs_tame, e, ?_, ?_⟩
  · rintro ⟨_, v, hv, hf, _⟩
    rw [List.mem_singleton.1 hv] at hf
    exact absurd ((for_one (v := vM) rfl (by decide)).1 hf) (by decide)
  · have hse : ServesR gE hSite := ⟨_, List.mem_singleton.2 rfl, _, List.mem_singleton.2 rfl, Or.inr (Or.inl ⟨by decide, rfl⟩)⟩
    have hvh : AnyR vM.hosts hSite := ⟨_, List.mem_singleton.2 rfl, Or.inr (Or.inl ⟨by decide, rfl⟩)⟩
    obtain ⟨pe, hpe, _⟩ := ho.egr.complete (vM, rN, gE) ⟨⟨List.mem_singleton.2 rfl, ⟨[rM, rN], by simp [groups_vM], by simp⟩, by simp [gts], works_E,
      ⟨_, List.mem_singleton.2 rfl, "shop/out", List.mem_singleton.2 rfl, Or.inl (by decide)⟩,
      hSite, letters (Or.inr rfl), ⟨hse, hvh⟩, _, List.mem_singleton.2 rfl, fun l hl => by cases hl⟩, (by unfold GatewayText.Kind gE; decide)⟩
    obtain ⟨pol, hp, hi⟩ := ho.mesh.complete (vM, rM, dEgs) ((allD_iff named).2 ⟨List.mem_singleton.2 rfl, ⟨[rM, rN], by simp [groups_vM], by simp⟩,
      ⟨_, List.mem_singleton.2 rfl, List.mem_singleton.2 rfl⟩, List.mem_singleton.2 rfl, egs, by simp [svcs], toEgress⟩)
    have hall : pol ∈ o.all := (mem_all o pol).2 (Or.inr ⟨⟨List.isEmpty_eq_false_iff.2 (List.ne_nil_of_mem hp), List.isEmpty_eq_false_iff.2 (List.ne_nil_of_mem hpe)⟩, Or.inl hp⟩)
    rw [if_neg (fun h => by rw [List.isEmpty_iff.1 h] at hall; cases hall)]
    refine ⟨pol, hall, hi.deny, hi.ingress, (hi.mem _ _ _ _ isM ?_).2 ⟨in_mesh, rfl, ⟨_, List.mem_singleton.2 rfl, fun l hl => by cases hl⟩,
      ⟨toMesh.view, List.mem_singleton.2 rfl, fun s hs => (by cases hs), fun s hs => (by cases hs)⟩, leads_egs⟩⟩
    intro t ht i hi s hs
    have : t = ⟨[toMesh], [dEgs]⟩ ∨ t = ⟨[toOut], [dSite]⟩ := by simpa [vM] using ht
    rcases this with rfl | rfl <;>
    · rw [List.mem_singleton.1 hi] at hs; cases hs

end Ex
end GtwParser
end Verif
