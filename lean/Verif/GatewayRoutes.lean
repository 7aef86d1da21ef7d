import Verif.GatewayDests
/-!
Lemmas for C59: what the code makes of routes and of virtual services.
-/
namespace Verif
open ISet IpBlock PeerSet

namespace GtwParser
open Container CalicoParser IstioParser IngressParser SidecarParser

/-- The names of gateways of a virtual service. -/
def VsText.names (v : VsText) : List String := if v.gateways = [] then ["mesh"] else v.gateways

/-- What the code makes of the names of TLS. -/
def SniR (rv : RouteView) (w : List Char) : Prop := ∃ i ∈ rv.conds, ∀ l, i.sni = some l → AnyR l w

section
variable {V2 X2 : Type} {A2 : VAlg Dim V2 X2} {W2 : Dim → V2 → Prop} {dfa : List Char → V2} {word : X2 → List Char} {D : V2 → Prop}
  {rg : PodReg} {c : Container} {l : List SvcText}

/-- The parsed route is that of the text. -/
structure RouteIs (A2 : VAlg Dim V2 X2) (W2 : Dim → V2 → Prop) (word : X2 → List Char) (rg : PodReg) (c : Container) (l : List SvcText) (v : VsText)
    (rv : RouteView) (r : Route V2) : Prop where
  given : rv.conds ≠ []
  same : ∀ i ∈ rv.conds, ∀ j ∈ rv.conds, i.gateways = j.gateways
  names : ∀ vgs : List String, (∀ x, x ∈ vgs ↔ Full v.ns v.names x) →
    ∀ x, x ∈ (if r.gateways.isEmpty then vgs else r.gateways) ↔ ∃ i ∈ rv.conds, Full v.ns (i.names v) x
  noSni : r.sni = none → ∀ i ∈ rv.conds, i.sni = none
  sni : ∀ s, r.sni = some s → Means A2 W2 word s (SniR rv) ∧ A2.truthy s = true
  sniOk : ∀ i ∈ rv.conds, ∀ l, i.sni = some l → ∀ h ∈ l, HostOk h ∧ ∃ t ∈ v.tls, ∃ m ∈ t.items, h ∈ m.sniHosts
  uri : ∀ u, r.uri = some u → W2 .paths u ∧ A2.truthy u = true
  methods : ∀ m, r.methods = some m → Canonical m ∧ ISet.truthy m = true ∧ ∀ x, Mem x m → 0 ≤ x ∧ x ≤ 8
  rest : ∀ xp (n : Nat) m, A2.mem xp (A2.dom .paths) = true → MethodSet.allMethods[n]? = some m →
    (∀ t ∈ v.http, ∀ i ∈ t.items, ∀ s, i.uri = some s → UriPlain s (word xp)) →
    ((InDfa A2 xp r.uri ∧ ∀ M, r.methods = some M → Mem (n : Int) M) ↔ ∃ i ∈ rv.conds, i.rest (word xp) m)
  joint : ∀ (T : Cond → Prop), (∀ i j, i.sni = j.sni → (T i ↔ T j)) → ∀ path m, (∃ i ∈ rv.conds, T i) → (∃ i ∈ rv.conds, i.rest path m) → ∃ i ∈ rv.conds, T i ∧ i.rest path m
  dests : Cover (fun d => d ∈ rv.dests ∧ d.Known c l v.ns) (DestIs rg c l v.ns) r.dests
  here : r.internal = some true ↔ r.dests ≠ [] ∧ ∀ d ∈ rv.dests, d.Local c l v.ns
  outside : r.internal ≠ some true → r.dests ≠ [] → ∀ d ∈ rv.dests, d.External
  list : List.Forall₂ (DestIs rg c l v.ns) (knownDests c l v.ns rv.dests) r.dests

/-- The gateways of a route with the given conditions. -/
theorem names_sem {v : VsText} {rv : RouteView} {gws : List String} (hs : rv.conds ≠ []) {g : List String} (hg : ∀ i ∈ rv.conds, i.gateways = g)
    (h : ∀ x, x ∈ gws ↔ Full v.ns g x) (vgs : List String) (hv : ∀ x, x ∈ vgs ↔ Full v.ns v.names x) (x : String) :
    x ∈ (if gws.isEmpty then vgs else gws) ↔ ∃ i ∈ rv.conds, Full v.ns (i.names v) x := by
  obtain ⟨i0, hi0⟩ := List.exists_mem_of_ne_nil _ hs
  have hn : ∀ i ∈ rv.conds, i.names v = if g = [] then v.names else g := fun i hi => by
    unfold Cond.names VsText.names
    rw [hg i hi]
  have e : (∃ i ∈ rv.conds, Full v.ns (i.names v) x) ↔ Full v.ns (if g = [] then v.names else g) x := by
    constructor
    · rintro ⟨i, hi, h⟩; rw [hn i hi] at h; exact h
    · exact fun h => ⟨i0, hi0, by rw [hn i0 hi0]; exact h⟩
  rw [e]
  by_cases hg0 : g = []
  · have : gws = [] := by
      rw [List.eq_nil_iff_forall_not_mem]
      intro y hy
      have := (h y).1 hy
      rw [hg0] at this
      unfold Full at this
      simp at this
    rw [if_pos hg0, this]
    exact hv x
  · obtain ⟨y, hy⟩ := full_ne (ns := v.ns) hg0
    have hy := (h y).2 hy
    rw [if_neg hg0]
    cases gws with
    | nil => exact absurd hy List.not_mem_nil
    | cons a t => exact h x

theorem fold_same (ns : Ns) {l : List (List String)} {g : List String} (hl : l ≠ []) (hg : ∀ a ∈ l, a = g) (x : String) :
    x ∈ l.foldl (addGateways ns) [] ↔ Full ns g x := by
  rw [gtwFold_mem, or_iff_right List.not_mem_nil]
  constructor
  · rintro ⟨a, ha, h⟩; rw [hg a ha] at h; exact h
  · intro h
    obtain ⟨a, ha⟩ := List.exists_mem_of_ne_nil _ hl
    exact ⟨a, ha, by rw [hg a ha]; exact h⟩

/-! ### HTTP routes -/

theorem http_fold (rx : List Char → String → Bool) (ns : Ns) (items : List HttpMatch) (r : Route V2) :
    items.foldl (httpStep A2 dfa rx ns) r =
      { r with
        uri := uriFold A2 dfa items r.uri
        methods := methodFold rx items r.methods
        gateways := (items.map HttpMatch.gateways).foldl (addGateways ns) r.gateways } := by
  unfold uriFold methodFold
  induction items generalizing r with
  | nil => rfl
  | cons m items ih => rw [List.foldl_cons, ih]; rfl

theorem uriFold_truthy (hD : IngressLib A2 W2 dfa word D) (L2 : A2.Lawful W2) {items : List HttpMatch} (hi : ∀ i ∈ items, ∀ s, i.uri = some s → s.UriTame)
    {u : V2} (hu : uriFold A2 dfa items none = some u) : W2 .paths u ∧ A2.truthy u = true := by
  obtain ⟨⟨h1, h2⟩, h3⟩ := uriFold_sem hD L2 items hi (o := none) (G := fun _ => False) ⟨fun v h => (by cases h), fun x _ => by simp⟩
  have wu := h1 u hu
  refine ⟨wu, (L2.truthy_iff wu).2 ?_⟩
  have : ¬ ∀ i ∈ items, i.uri = none := fun h => by rw [h3.2 ⟨rfl, h⟩] at hu; cases hu
  push Not at this
  obtain ⟨i, hii, hne⟩ := this
  obtain ⟨s, hs⟩ := Option.ne_none_iff_exists'.1 hne
  obtain ⟨hk, t, ht, hlet⟩ := hi i hii s hs
  obtain ⟨x, hx⟩ := hD.every s.text fun a ha => by
    rw [ht] at ha
    rcases List.mem_cons.1 ha with rfl | ha
    · exact slash_letter
    · exact (hlet a ha).1
  have hdom : A2.mem x (A2.dom .paths) = true := (hD.paths x).2 ⟨t, hx.trans ht, fun a ha => (hlet a ha).1⟩
  obtain ⟨v, e, hm⟩ := (h2 x hdom).2 (Or.inr ⟨i, hii, s, hs, by
    unfold UriR
    split
    · exact hx
    · right
      rcases dropSlash_cases s.text with h | h
      · exact Or.inl (hx.trans h)
      · exact Or.inr ⟨[], hx.trans h⟩⟩)
  rw [hu] at e; cases e
  exact ⟨x, hm⟩

theorem methodAt_range {x : Int} {T : List Char → Prop} (h : MethodAt x T) : 0 ≤ x ∧ x ≤ 8 := by
  obtain ⟨n, rfl, m, hm, _⟩ := h
  obtain ⟨hlt, _⟩ := List.getElem?_eq_some_iff.1 hm
  have : MethodSet.allMethods.length = 9 := by decide
  omega

theorem parseHttp_sem (hD : IngressLib A2 W2 dfa word D) (L2 : A2.Lawful W2) (hC : K8sParser.Cluster rg c) (hl : SvcsTame rg c l) (hN : Named c l)
    {rx : List Char → String → Bool} (hr : RxOk rx) {v : VsText} (hns : '/' ∉ v.ns.name.toList) {t : HttpText} (htv : t ∈ v.http) (ht : t.Tame)
    (hd : (∀ d ∈ t.dests, d.Local c l v.ns) ∨ ∀ d ∈ t.dests, d.External) :
    ∃ r, parseHttp A2 dfa rx (l.map fun s => (fullName s.name s.ns, svcOf rg c s)) c v.ns t = some r ∧ RouteIs A2 W2 word rg c l v t.view r := by
  unfold parseHttp
  rw [http_fold]
  obtain ⟨r', e, hr'⟩ := dests_sem hC hl hN hns hd
    { (Route.new : Route V2) with
      uri := uriFold A2 dfa t.items none
      methods := methodFold rx t.items none
      gateways := (t.items.map HttpMatch.gateways).foldl (addGateways v.ns) [] } rfl rfl
  refine ⟨r', e, ?_⟩
  have same := hr'.same
  have eu : r'.uri = uriFold A2 dfa t.items none := by rw [same]
  have em : r'.methods = methodFold rx t.items none := by rw [same]
  have es : r'.sni = none := by rw [same]; rfl
  have eg : r'.gateways = (t.items.map HttpMatch.gateways).foldl (addGateways v.ns) [] := by rw [same]
  obtain ⟨⟨u1, u2⟩, u3⟩ := uriFold_sem hD L2 t.items ht.uri (o := none) (G := fun _ => False) ⟨fun v h => (by cases h), fun x _ => by simp⟩
  obtain ⟨m1, m2⟩ := methodFold_sem hr t.items ht.method (o := none) (G := fun _ => False) (fun _ h => h)
  have hsni : ∀ i ∈ t.view.conds, i.sni = none := by
    intro i hi
    unfold HttpText.view at hi
    dsimp only at hi
    split at hi
    · rw [List.mem_singleton.1 hi]
    · obtain ⟨m, _, rfl⟩ := List.mem_map.1 hi
      rfl
  have hcs : t.view.conds ≠ [] := by
    unfold HttpText.view
    dsimp only
    split
    · simp
    · rename_i h
      simpa using h
  by_cases hi : t.items = []
  · have hcd : t.view.conds = [⟨[], none, fun _ _ => True⟩] := by unfold HttpText.view; simp [hi]
    have enone : r'.uri = none ∧ r'.methods = none ∧ r'.gateways = [] := by
      rw [eu, em, eg, hi]
      exact ⟨rfl, rfl, rfl⟩
    refine ⟨hcs, ?_, ?_, fun _ => hsni, (fun s h => by rw [es] at h; cases h), (fun i h s h' => by rw [hsni i h] at h'; cases h'), ?_, ?_, ?_, ?_,
      hr'.cover, hr'.here, hr'.outside, hr'.list⟩
    · rw [hcd]; intro i hi j hj; rw [List.mem_singleton.1 hi, List.mem_singleton.1 hj]
    · refine fun vgs hv x => names_sem hcs (g := []) (fun i hi => ?_) (fun y => ?_) vgs hv x
      · rw [hcd] at hi; rw [List.mem_singleton.1 hi]
      · rw [enone.2.2]; unfold Full; simp
    · intro u h; rw [enone.1] at h; cases h
    · intro u h; rw [enone.2.1] at h; cases h
    · intro xp n m _ _ _
      rw [enone.1, enone.2.1, hcd]
      simp [InDfa]
    · intro T hT path m h1 h2
      rw [hcd] at h1 h2 ⊢
      simp at h1 h2 ⊢
      exact h1
  · have hcd : t.view.conds = t.items.map HttpMatch.view := by unfold HttpText.view; simp [hi]
    obtain ⟨i0, hi0⟩ := List.exists_mem_of_ne_nil _ hi
    have hmne : methodFold rx t.items none ≠ none := m2 hi
    obtain ⟨M, hM⟩ := Option.ne_none_iff_exists'.1 hmne
    rw [hM] at m1
    have m1 : MethodsAre M fun w => False ∨ ∃ i ∈ t.items, ∀ s, i.method = some s → s.Says w := m1
    refine ⟨hcs, ?_, ?_, fun _ => hsni, (fun s h => by rw [es] at h; cases h), (fun i h s h' => by rw [hsni i h] at h'; cases h'), ?_, ?_, ?_, ?_,
      hr'.cover, hr'.here, hr'.outside, hr'.list⟩
    · rw [hcd]
      rintro i hi j hj
      obtain ⟨a, ha, rfl⟩ := List.mem_map.1 hi
      obtain ⟨b, hb, rfl⟩ := List.mem_map.1 hj
      exact ht.gateways a ha b hb
    · refine fun vgs hv x => names_sem hcs (g := i0.gateways) (fun i hi => ?_) (fun y => ?_) vgs hv x
      · rw [hcd] at hi
        obtain ⟨a, ha, rfl⟩ := List.mem_map.1 hi
        exact ht.gateways a ha i0 hi0
      · rw [eg]
        refine fold_same v.ns (by simpa using hi) (fun a ha => ?_) y
        obtain ⟨b, hb, rfl⟩ := List.mem_map.1 ha
        exact ht.gateways b hb i0 hi0
    · intro u h
      rw [eu] at h
      exact uriFold_truthy hD L2 ht.uri h
    · intro m h
      rw [em, hM] at h; cases h
      refine ⟨m1.1, ?_, fun x hx => methodAt_range ((m1.2 x).1 hx)⟩
      have : ∃ y ∈ MethodSet.allMethods, ∀ s, i0.method = some s → s.Says y.toList := by
        cases hm0 : i0.method with
        | none => exact ⟨"GET", by decide, fun s h => by cases h⟩
        | some s =>
          obtain ⟨_, ⟨hk, y, hy, hty⟩ | ⟨hk, y, hy, hty⟩⟩ := ht.method i0 hi0 s hm0
          · exact ⟨y, hy, fun s' h => by cases h; unfold StrMatch.Says; rw [hk]; exact hty.symm⟩
          · exact ⟨y, hy, fun s' h => by cases h; unfold StrMatch.Says; rw [hk]; exact hty⟩
      obtain ⟨y, hy, h⟩ := this
      exact m1.truthy hy (Or.inr ⟨i0, hi0, h⟩)
    · intro xp n m hx hm hplain
      rw [em, hM, hcd]
      have e1 : (∀ M', some M = some M' → Mem (n : Int) M') ↔ ∃ i ∈ t.items, ∀ s, i.method = some s → s.Says m.toList := by
        rw [show (∀ M', some M = some M' → Mem (n : Int) M') ↔ Mem (n : Int) M from ⟨fun h => h M rfl, fun h _ e => by cases e; exact h⟩,
          m1.2, methodAt_unique hm, false_or]
      have plain := hplain t htv
      have e2 : InDfa A2 xp r'.uri ↔ ∃ i ∈ t.items, ∀ s, i.uri = some s → s.Says (word xp) := by
        rw [eu]
        have hc := u2 xp hx
        by_cases hun : ∀ i ∈ t.items, i.uri = none
        · rw [u3.2 ⟨rfl, hun⟩]
          refine ⟨fun _ => ⟨i0, hi0, fun s h => by rw [hun i0 hi0] at h; cases h⟩, fun _ v h => by cases h⟩
        · have hall : ∀ i ∈ t.items, i.uri ≠ none := fun i hi h => hun fun j hj => ht.uris i hi j hj h
          obtain ⟨u, hu⟩ := Option.ne_none_iff_exists'.1 fun h => hun (u3.1 h).2
          rw [hu] at hc ⊢
          rw [show InDfa A2 xp (some u) ↔ ∃ v, some u = some v ∧ A2.mem xp v = true from
            ⟨fun h => ⟨u, rfl, h u rfl⟩, fun ⟨v, e, h⟩ w e' => by cases e; cases e'; exact h⟩, hc]
          dsimp only
          rw [false_or]
          refine exists_congr fun i => and_congr_right fun hi => ?_
          obtain ⟨s, hs⟩ := Option.ne_none_iff_exists'.1 (hall i hi)
          rw [hs]
          simp only [Option.some.injEq, exists_eq_left', forall_eq']
          exact uriR_says (ht.uri i hi s hs) (plain i hi s hs)
      rw [e1, e2]
      simp only [List.mem_map, exists_exists_and_eq_and]
      constructor
      · rintro ⟨⟨i, hi, h1⟩, j, hj, h2⟩
        obtain ⟨k, hk, e3, e4⟩ := ht.product i hi j hj
        exact ⟨k, hk, by rw [e3]; exact h1, by rw [e4]; exact h2⟩
      · rintro ⟨k, hk, h1, h2⟩
        exact ⟨⟨k, hk, h1⟩, k, hk, h2⟩
    · intro T hT path m ⟨i, hi, h1⟩ ⟨j, hj, h2⟩
      exact ⟨j, hj, (hT i j (by rw [hsni i hi, hsni j hj])).1 h1, h2⟩

/-! ### TCP routes -/

theorem parseTcp_sem (hC : K8sParser.Cluster rg c) (hl : SvcsTame rg c l) (hN : Named c l)
    {v : VsText} (hns : '/' ∉ v.ns.name.toList) {t : TcpText} (ht : t.Tame) (hd : (∀ d ∈ t.dests, d.Local c l v.ns) ∨ ∀ d ∈ t.dests, d.External) :
    ∃ r, parseTcp (l.map fun s => (fullName s.name s.ns, svcOf rg c s)) c v.ns t = some r ∧ RouteIs A2 W2 word rg c l v t.view r := by
  unfold parseTcp
  obtain ⟨r', e, hr'⟩ := dests_sem hC hl hN hns hd { (Route.new : Route V2) with gateways := t.items.foldl (addGateways v.ns) [] } rfl rfl
  refine ⟨r', e, ?_⟩
  have same := hr'.same
  have eu : r'.uri = none := by rw [same]; rfl
  have em : r'.methods = none := by rw [same]; rfl
  have es : r'.sni = none := by rw [same]; rfl
  have eg : r'.gateways = t.items.foldl (addGateways v.ns) [] := by rw [same]
  have hcond : ∀ i ∈ t.view.conds, i.sni = none ∧ ∀ path m, i.rest path m := by
    intro i hi
    unfold TcpText.view at hi
    dsimp only at hi
    split at hi
    · rw [List.mem_singleton.1 hi]; exact ⟨rfl, fun _ _ => trivial⟩
    · obtain ⟨m, _, rfl⟩ := List.mem_map.1 hi
      exact ⟨rfl, fun _ _ => trivial⟩
  have hcs : t.view.conds ≠ [] := by
    unfold TcpText.view
    dsimp only
    split
    · simp
    · rename_i h
      simpa using h
  obtain ⟨i0, hi0⟩ := List.exists_mem_of_ne_nil _ hcs
  have hg : ∃ g, (∀ i ∈ t.view.conds, i.gateways = g) ∧ ∀ x, x ∈ r'.gateways ↔ Full v.ns g x := by
    rw [eg]
    unfold TcpText.view
    by_cases hi : t.items = []
    · refine ⟨[], fun i h => ?_, fun x => ?_⟩
      · simp only [hi, if_true] at h
        rw [List.mem_singleton.1 h]
      · rw [hi]; unfold Full; simp
    · obtain ⟨g, hg⟩ := List.exists_mem_of_ne_nil _ hi
      refine ⟨g, fun i h => ?_, fold_same v.ns hi fun a ha => ht a ha g hg⟩
      simp only [hi, if_false] at h
      obtain ⟨m, hm, rfl⟩ := List.mem_map.1 h
      exact ht m hm g hg
  obtain ⟨g, hg1, hg2⟩ := hg
  refine ⟨hcs, fun i hi j hj => (hg1 i hi).trans (hg1 j hj).symm, fun vgs hv x => names_sem hcs hg1 hg2 vgs hv x, fun _ i hi => (hcond i hi).1,
    (fun s h => by rw [es] at h; cases h), (fun i h s h' => by rw [(hcond i h).1] at h'; cases h'), (fun u h => by rw [eu] at h; cases h),
    (fun u h => by rw [em] at h; cases h), fun xp n m _ _ _ => ?_, fun T hT path m h1 _ => ?_, hr'.cover, hr'.here, hr'.outside, hr'.list⟩
  · rw [eu, em]
    exact ⟨fun _ => ⟨i0, hi0, (hcond i0 hi0).2 _ _⟩, fun _ => ⟨fun v h => (by cases h), fun v h => (by cases h)⟩⟩
  · obtain ⟨i, hi, h⟩ := h1
    exact ⟨i, hi, h, (hcond i hi).2 _ _⟩

/-! ### TLS routes -/

variable {cls : Char → Bool}

theorem within_read {h h' w : List Char} (hh : HostOk h) (hw : Within h h') (hr : HostR h w) : HostR h' w := by
  rcases hw with rfl | rfl | ⟨hs, s, u, rfl, rfl, hu⟩
  · exact Or.inl rfl
  · exact hr
  · rcases hr with h | ⟨_, rfl⟩ | ⟨s', u', h, _⟩
    · rw [h] at hs; exact absurd List.mem_cons_self hs
    · exact Or.inr (Or.inr ⟨s, u, rfl, rfl, hu⟩)
    · rw [h] at hs; exact absurd List.mem_cons_self hs

theorem sni_fold (hD : IngressLib A2 W2 dfa word D) (L2 : A2.Lawful W2) (hw : ∀ a, Letter a → a ∉ ['.', '/', '-'] → cls a = true)
    (l : List (List Char)) (hl : ∀ h ∈ l, HostOk h) {o : Option V2} {G : List Char → Prop} (ho : MeansO A2 W2 word o G) :
    ∃ o', l.foldlM (sniStep A2 dfa cls) o = some o' ∧ (MeansO A2 W2 word o' fun w => G w ∨ AnyR l w) ∧ (l ≠ [] ∨ o ≠ none → o' ≠ none) := by
  induction l generalizing o G with
  | nil =>
    refine ⟨o, rfl, ?_, fun h => h.elim (fun h => absurd rfl h) id⟩
    have : (fun w => G w ∨ AnyR [] w) = G := by funext w; simp [AnyR]
    rw [this]; exact ho
  | cons h l ih =>
    obtain ⟨v, e, m, t⟩ := parseHost_means hD L2 hw (hl h List.mem_cons_self)
    have st : sniStep A2 dfa cls o h = some (some (joinDfa A2 o v)) := by
      unfold sniStep
      rw [e, Option.bind_some, Option.map_some]
    obtain ⟨o', e', m', n'⟩ := ih (fun h hh => hl h (List.mem_cons_of_mem _ hh)) (o := some (joinDfa A2 o v)) (MeansO.join hD L2 ho m)
    refine ⟨o', by rw [List.foldlM_cons, st]; exact e', ?_, fun _ => n' (Or.inr (by simp))⟩
    have : (fun w => G w ∨ AnyR (h :: l) w) = fun w => (G w ∨ HostR h w) ∨ AnyR l w := by
      funext w; simp [AnyR, or_assoc]
    rw [this]; exact m'

theorem tls_fold (hD : IngressLib A2 W2 dfa word D) (L2 : A2.Lawful W2) (hw : ∀ a, Letter a → a ∉ ['.', '/', '-'] → cls a = true)
    {ns : Ns} {hosts : List V2} {H : V2} {K : List Char → Prop} (hH : allHosts A2 hosts = some H) (mH : Means A2 W2 word H K)
    (items : List TlsMatch) (hi : ∀ i ∈ items, i.sniHosts ≠ [] ∧ (∀ h ∈ i.sniHosts, HostOk h) ∧ ∀ w, AnyR i.sniHosts w → K w)
    (r : Route V2) {G : List Char → Prop} (hr : MeansO A2 W2 word r.sni G) (hG : ∀ w, G w → K w) :
    ∃ o, items.foldlM (tlsStep A2 dfa cls ns hosts) (some r) = some (some { r with
        sni := o
        gateways := (items.map TlsMatch.gateways).foldl (addGateways ns) r.gateways }) ∧
      (MeansO A2 W2 word o fun w => G w ∨ ∃ i ∈ items, AnyR i.sniHosts w) ∧ (items ≠ [] ∨ r.sni ≠ none → o ≠ none) := by
  induction items generalizing r G with
  | nil =>
    refine ⟨r.sni, rfl, ?_, fun h => h.elim (fun h => absurd rfl h) id⟩
    have : (fun w => G w ∨ ∃ i ∈ ([] : List TlsMatch), AnyR i.sniHosts w) = G := by funext w; simp
    rw [this]; exact hr
  | cons m items ih =>
    obtain ⟨h1, h2, h3⟩ := hi m List.mem_cons_self
    obtain ⟨o, e, mo, no⟩ := sni_fold hD L2 hw m.sniHosts h2 hr
    obtain ⟨s, rfl⟩ := Option.ne_none_iff_exists'.1 (no (Or.inl h1))
    have mo : Means A2 W2 word s fun w => G w ∨ AnyR m.sniHosts w := mo
    have hK : ∀ w, G w ∨ AnyR m.sniHosts w → K w := fun w h => h.elim (hG w) (h3 w)
    have hc : A2.contained s H = true := by
      rw [L2.contained_iff mo.wf mH.wf]
      intro x hx
      obtain ⟨g1, g2⟩ := (mo.mem x).1 hx
      exact (mH.mem x).2 ⟨g1, hK _ g2⟩
    have st : tlsStep A2 dfa cls ns hosts (some r) m = some (some { r with sni := some s, gateways := addGateways ns r.gateways m.gateways }) := by
      unfold tlsStep
      dsimp only
      rw [e, Option.bind_some, Option.bind_some, hH, Option.map_some, if_pos hc]
    obtain ⟨o', e', m', n'⟩ := ih (fun i h => hi i (List.mem_cons_of_mem _ h)) { r with sni := some s, gateways := addGateways ns r.gateways m.gateways }
      (G := fun w => G w ∨ AnyR m.sniHosts w) mo hK
    refine ⟨o', ?_, ?_, fun _ => n' (Or.inr (by simp))⟩
    · rw [List.foldlM_cons, st]
      exact e'
    · have : (fun w => G w ∨ ∃ i ∈ m :: items, AnyR i.sniHosts w) = fun w => (G w ∨ AnyR m.sniHosts w) ∨ ∃ i ∈ items, AnyR i.sniHosts w := by
        funext w; simp [or_assoc]
      rw [this]; exact m'

theorem parseTls_sem (hD : IngressLib A2 W2 dfa word D) (L2 : A2.Lawful W2) (hw : ∀ a, Letter a → a ∉ ['.', '/', '-'] → cls a = true)
    (hC : K8sParser.Cluster rg c) (hl : SvcsTame rg c l) (hN : Named c l) {v : VsText} (hns : '/' ∉ v.ns.name.toList)
    {hosts : List V2} {H : V2} (hH : allHosts A2 hosts = some H) (mH : Means A2 W2 word H (AnyR v.hosts)) {t : TlsText} (htv : t ∈ v.tls) (ht : t.Tame v)
    (hd : (∀ d ∈ t.dests, d.Local c l v.ns) ∨ ∀ d ∈ t.dests, d.External) :
    (t.view.conds ≠ [] ∧ ∃ r, parseTls A2 dfa cls (l.map fun s => (fullName s.name s.ns, svcOf rg c s)) c v.ns hosts t = some (some r) ∧
      RouteIs A2 W2 word rg c l v t.view r) ∨
    t.view.conds = [] ∧ parseTls A2 dfa cls (l.map fun s => (fullName s.name s.ns, svcOf rg c s)) c v.ns hosts t = some none := by
  unfold parseTls
  by_cases hi : t.items = []
  · right
    rw [hi]
    exact ⟨by unfold TlsText.view; rw [hi]; rfl, rfl⟩
  left
  have hcs : t.view.conds ≠ [] := by unfold TlsText.view; simpa using hi
  refine ⟨hcs, ?_⟩
  rw [if_neg (by simpa using hi)]
  obtain ⟨o, e, mo, no⟩ := tls_fold hD L2 hw (ns := v.ns) hH mH t.items (fun i h => ⟨(ht.hosts i h).1, fun a ha => ((ht.hosts i h).2 a ha).1, fun w => by
    rintro ⟨a, ha, hr⟩
    obtain ⟨g1, a', ha', g2⟩ := (ht.hosts i h).2 a ha
    exact ⟨a', ha', within_read g1 g2 hr⟩⟩) (Route.new : Route V2) (G := fun _ => False) (fun _ h => h) (fun _ h => h.elim)
  obtain ⟨s, rfl⟩ := Option.ne_none_iff_exists'.1 (no (Or.inl hi))
  rw [e, Option.bind_some]
  obtain ⟨r', e', hr'⟩ := dests_sem hC hl hN hns hd
    { (Route.new : Route V2) with
      sni := some s
      gateways := (t.items.map TlsMatch.gateways).foldl (addGateways v.ns) [] } rfl rfl
  refine ⟨r', ?_, ?_⟩
  · show Option.map some (t.dests.foldlM _ _) = _
    exact (congrArg (Option.map some) e')
  have same := hr'.same
  have eu : r'.uri = none := by rw [same]; rfl
  have em : r'.methods = none := by rw [same]; rfl
  have es : r'.sni = some s := by rw [same]
  have eg : r'.gateways = (t.items.map TlsMatch.gateways).foldl (addGateways v.ns) [] := by rw [same]
  obtain ⟨i0, hi0⟩ := List.exists_mem_of_ne_nil _ hi
  have hconds : ∀ i, i ∈ t.view.conds ↔ ∃ m ∈ t.items, m.view = i := fun i => List.mem_map
  have mo : Means A2 W2 word s (SniR t.view) := Means.congr mo fun w => by
    unfold SniR
    rw [false_or]
    constructor
    · rintro ⟨m, hm, h⟩
      exact ⟨m.view, (hconds _).2 ⟨m, hm, rfl⟩, fun l e => by cases e; exact h⟩
    · rintro ⟨i, hi, h⟩
      obtain ⟨m, hm, rfl⟩ := (hconds i).1 hi
      exact ⟨m, hm, h _ rfl⟩
  refine ⟨hcs, ?_, ?_, (fun h => by rw [es] at h; cases h), ?_, ?_, (fun u h => by rw [eu] at h; cases h), (fun u h => by rw [em] at h; cases h),
    fun xp n m _ _ _ => ?_, fun T hT path m h1 _ => ?_, hr'.cover, hr'.here, hr'.outside, hr'.list⟩
  · intro i hi j hj
    obtain ⟨a, ha, rfl⟩ := (hconds i).1 hi
    obtain ⟨b, hb, rfl⟩ := (hconds j).1 hj
    exact ht.gateways a ha b hb
  · refine fun vgs hv x => names_sem hcs (g := i0.gateways) (fun i hi => ?_) (fun y => ?_) vgs hv x
    · obtain ⟨a, ha, rfl⟩ := (hconds i).1 hi
      exact ht.gateways a ha i0 hi0
    · rw [eg]
      refine fold_same v.ns (by simpa using hi) (fun a ha => ?_) y
      obtain ⟨b, hb, rfl⟩ := List.mem_map.1 ha
      exact ht.gateways b hb i0 hi0
  · intro s' h
    rw [es] at h; cases h
    refine ⟨mo, (mo.truthy hD L2).2 ?_⟩
    obtain ⟨w, h1, h2⟩ := anyR_wit (ht.hosts i0 hi0).1 fun a ha => ((ht.hosts i0 hi0).2 a ha).1
    exact ⟨w, h1, i0.view, (hconds _).2 ⟨i0, hi0, rfl⟩, fun l e => by cases e; exact h2⟩
  · intro i hi l e h hh
    obtain ⟨m, hm, rfl⟩ := (hconds i).1 hi
    cases e
    exact ⟨((ht.hosts m hm).2 h hh).1, t, htv, m, hm, hh⟩
  · rw [eu, em]
    exact ⟨fun _ => ⟨i0.view, (hconds _).2 ⟨i0, hi0, rfl⟩, trivial⟩, fun _ => ⟨fun v h => (by cases h), fun v h => (by cases h)⟩⟩
  · obtain ⟨i, hi, h⟩ := h1
    obtain ⟨a, ha, rfl⟩ := (hconds i).1 hi
    exact ⟨_, hi, h, trivial⟩

/-! ### Virtual services -/

/-- The parsed virtual service is that of the text. -/
structure VsIs (A2 : VAlg Dim V2 X2) (W2 : Dim → V2 → Prop) (word : X2 → List Char) (rg : PodReg) (c : Container) (l : List SvcText)
    (t : VsText) (v : Vs V2) : Prop where
  key : v.key = fullName t.name t.ns
  ns : v.ns = t.ns
  gateways : ∀ x, x ∈ v.gateways ↔ Full t.ns t.names x
  hosts : ∃ h, allHosts A2 v.hosts = some h ∧ Means A2 W2 word h (AnyR t.hosts)
  httpL : List.Forall₂ (RouteIs A2 W2 word rg c l t) (t.http.map HttpText.view) v.http
  tlsL : List.Forall₂ (RouteIs A2 W2 word rg c l t) ((t.tls.map TlsText.view).filter fun r => !r.conds.isEmpty) v.tls
  tcpL : List.Forall₂ (RouteIs A2 W2 word rg c l t) (t.tcp.map TcpText.view) v.tcp

theorem VsIs.http {t : VsText} {v : Vs V2} (h : VsIs A2 W2 word rg c l t v) :
    Cover (fun r => r ∈ t.http.map HttpText.view) (RouteIs A2 W2 word rg c l t) v.http := Cover.of_forall₂ h.httpL
theorem VsIs.tls {t : VsText} {v : Vs V2} (h : VsIs A2 W2 word rg c l t v) :
    Cover (fun r => r ∈ t.tls.map TlsText.view ∧ r.conds ≠ []) (RouteIs A2 W2 word rg c l t) v.tls :=
  (Cover.of_forall₂ h.tlsL).congr (fun r => by simp only [List.mem_filter, Bool.not_eq_true', List.isEmpty_eq_false_iff]) fun _ _ _ h => h
theorem VsIs.tcp {t : VsText} {v : Vs V2} (h : VsIs A2 W2 word rg c l t v) :
    Cover (fun r => r ∈ t.tcp.map TcpText.view) (RouteIs A2 W2 word rg c l t) v.tcp := Cover.of_forall₂ h.tcpL

theorem or_fold (L2 : A2.Lawful W2) (vs : List V2) (hs : List (List Char)) (h : List.Forall₂ (fun h v => Means A2 W2 word v (HostR h)) hs vs)
    {v : V2} {G : List Char → Prop} (hv : Means A2 W2 word v G) : Means A2 W2 word (vs.foldl A2.or v) fun w => G w ∨ AnyR hs w := by
  induction h generalizing v G with
  | nil => exact hv.congr fun w => by simp [AnyR]
  | cons h1 _ ih =>
    rw [List.foldl_cons]
    exact (ih (hv.or L2 h1)).congr fun w => by simp [AnyR, or_assoc]

theorem hosts_sem (hD : IngressLib A2 W2 dfa word D) (L2 : A2.Lawful W2) (hw : ∀ a, Letter a → a ∉ ['.', '/', '-'] → cls a = true)
    {l : List (List Char)} (hne : l ≠ []) (hl : ∀ h ∈ l, HostOk h) : ∃ hs, l.mapM (parseHost A2 dfa cls) = some hs ∧
      ∃ H, allHosts A2 ((hs.filterMap id).filter A2.truthy) = some H ∧ Means A2 W2 word H (AnyR l) := by
  have key : ∀ l : List (List Char), (∀ h ∈ l, HostOk h) → ∃ vs, l.mapM (parseHost A2 dfa cls) = some (vs.map some) ∧ (∀ v ∈ vs, A2.truthy v = true) ∧
      List.Forall₂ (fun h v => Means A2 W2 word v (HostR h)) l vs := by
    intro l
    induction l with
    | nil => exact fun _ => ⟨[], rfl, by simp, List.Forall₂.nil⟩
    | cons h l ih =>
      intro hl
      obtain ⟨v, e, m, t⟩ := parseHost_means hD L2 hw (hl h List.mem_cons_self)
      obtain ⟨vs, e', t', m'⟩ := ih fun h hh => hl h (List.mem_cons_of_mem _ hh)
      refine ⟨v :: vs, by rw [List.mapM_cons, e, e']; rfl, ?_, List.Forall₂.cons m m'⟩
      intro u hu
      rcases List.mem_cons.1 hu with rfl | hu
      · exact t
      · exact t' u hu
  obtain ⟨vs, e, t, m⟩ := key l hl
  refine ⟨_, e, ?_⟩
  rw [List.filterMap_map, show (id ∘ some : V2 → Option V2) = some from rfl, List.filterMap_some, List.filter_eq_self.2 t]
  cases m with
  | nil => exact absurd rfl hne
  | cons h1 h2 =>
    refine ⟨_, rfl, (or_fold L2 _ _ h2 h1).congr fun w => ?_⟩
    simp [AnyR]

theorem mapM_cover {I α β : Type} (f : α → Option β) (view : α → I) {R : I → β → Prop} (l : List α) (h : ∀ a ∈ l, ∃ b, f a = some b ∧ R (view a) b) :
    ∃ bs, l.mapM f = some bs ∧ List.Forall₂ R (l.map view) bs := by
  induction l with
  | nil => exact ⟨[], rfl, .nil⟩
  | cons a l ih =>
    obtain ⟨b, e, hb⟩ := h a List.mem_cons_self
    obtain ⟨bs, e', hc⟩ := ih fun a ha => h a (List.mem_cons_of_mem _ ha)
    exact ⟨b :: bs, by rw [List.mapM_cons, e, e']; rfl, .cons hb hc⟩

theorem mapM_coverO {I α β : Type} (f : α → Option (Option β)) (view : α → I) {P : I → Bool} {R : I → β → Prop} (l : List α)
    (h : ∀ a ∈ l, (P (view a) = true ∧ ∃ b, f a = some (some b) ∧ R (view a) b) ∨ ¬ P (view a) = true ∧ f a = some none) :
    ∃ bs, l.mapM f = some bs ∧ List.Forall₂ R ((l.map view).filter P) (bs.filterMap id) := by
  induction l with
  | nil => exact ⟨[], rfl, .nil⟩
  | cons a l ih =>
    obtain ⟨bs, e', hc⟩ := ih fun a ha => h a (List.mem_cons_of_mem _ ha)
    rcases h a List.mem_cons_self with ⟨hp, b, e, hb⟩ | ⟨hp, e⟩
    · refine ⟨some b :: bs, by rw [List.mapM_cons, e, e']; rfl, ?_⟩
      rw [List.filterMap_cons_some (f := id) (a := some b) (b := b) rfl, List.map_cons, List.filter_cons_of_pos hp]
      exact .cons hb hc
    · refine ⟨none :: bs, by rw [List.mapM_cons, e, e']; rfl, ?_⟩
      rw [List.filterMap_cons_none rfl, List.map_cons, List.filter_cons_of_neg hp]
      exact hc

theorem parseVs_sem (hD : IngressLib A2 W2 dfa word D) (L2 : A2.Lawful W2) (hw : ∀ a, Letter a → a ∉ ['.', '/', '-'] → cls a = true)
    (hC : K8sParser.Cluster rg c) (hl : SvcsTame rg c l) (hN : Named c l) {rx : List Char → String → Bool} (hr : RxOk rx) {gs : List GatewayText} {t : VsText}
    (ht : t.Tame c l gs) :
    ∃ v, parseVs A2 dfa cls rx (l.map fun s => (fullName s.name s.ns, svcOf rg c s)) c t = some v ∧ VsIs A2 W2 word rg c l t v := by
  obtain ⟨hs, e1, H, eH, mH⟩ := hosts_sem hD L2 hw ht.given ht.hosts
  have hd : ∀ group ∈ t.groups, ∀ r ∈ group, (∀ d ∈ r.dests, d.Local c l t.ns) ∨ ∀ d ∈ r.dests, d.External := fun g hg r hr => (ht.routes g hg r hr).dests
  generalize hsv : (l.map fun s => (fullName s.name s.ns, svcOf rg c s)) = svcs
  have q2 : ∃ bs, t.http.mapM (parseHttp A2 dfa rx svcs c t.ns) = some bs ∧ List.Forall₂ (RouteIs A2 W2 word rg c l t) (t.http.map HttpText.view) bs := by
    refine mapM_cover _ _ t.http fun a ha => ?_
    rw [← hsv]
    exact parseHttp_sem hD L2 hC hl hN hr ht.ns ha (ht.http a ha) (hd (t.http.map HttpText.view) List.mem_cons_self a.view (List.mem_map.2 ⟨a, ha, rfl⟩))
  have q3 : ∃ bs, t.tls.mapM (parseTls A2 dfa cls svcs c t.ns ((hs.filterMap id).filter A2.truthy)) = some bs ∧
      List.Forall₂ (RouteIs A2 W2 word rg c l t) ((t.tls.map TlsText.view).filter fun r => !r.conds.isEmpty) (bs.filterMap id) := by
    refine mapM_coverO _ _ t.tls fun a ha => ?_
    rw [← hsv]
    simp only [Bool.not_eq_true', List.isEmpty_eq_false_iff, ne_eq, not_not]
    exact parseTls_sem hD L2 hw hC hl hN ht.ns eH mH ha (ht.tls a ha)
      (hd (t.tls.map TlsText.view) (List.mem_cons_of_mem _ List.mem_cons_self) a.view (List.mem_map.2 ⟨a, ha, rfl⟩))
  have q4 : ∃ bs, t.tcp.mapM (parseTcp svcs c t.ns) = some bs ∧ List.Forall₂ (RouteIs A2 W2 word rg c l t) (t.tcp.map TcpText.view) bs := by
    refine mapM_cover _ _ t.tcp fun a ha => ?_
    rw [← hsv]
    exact parseTcp_sem hC hl hN ht.ns (ht.tcp a ha)
      (hd (t.tcp.map TcpText.view) (List.mem_cons_of_mem _ (List.mem_cons_of_mem _ List.mem_cons_self)) a.view (List.mem_map.2 ⟨a, ha, rfl⟩))
  obtain ⟨http, e2, c2⟩ := q2
  obtain ⟨tls, e3, c3⟩ := q3
  obtain ⟨tcp, e4, c4⟩ := q4
  have gw : ∀ x, x ∈ (if t.gateways.isEmpty then ["mesh"] else addGateways t.ns [] t.gateways) ↔ Full t.ns t.names x := by
    intro x
    unfold VsText.names
    by_cases hg : t.gateways = []
    · rw [hg]
      simp only [List.isEmpty_nil, if_true, List.mem_singleton]
      unfold Full
      constructor
      · exact fun h => Or.inl ⟨h, List.mem_singleton.2 rfl⟩
      · rintro (h | ⟨g, hg, hne, _⟩)
        · exact h.1
        · exact absurd (List.mem_singleton.1 hg) hne
    · rw [if_neg (by simpa using hg), if_neg hg, addGateways_mem, or_iff_right List.not_mem_nil]
  refine ⟨⟨fullName t.name t.ns, t.ns, (hs.filterMap id).filter A2.truthy, if t.gateways.isEmpty then ["mesh"] else addGateways t.ns [] t.gateways, http,
    tls.filterMap id, tcp⟩, ?_, ⟨rfl, rfl, gw, ⟨H, eH, mH⟩, c2, c3, c4⟩⟩
  unfold parseVs
  rw [e1, Option.bind_some]
  dsimp only
  rw [e2, Option.bind_some, e3, Option.bind_some, e4, Option.map_some]

theorem from_right {α β : Type} {R : α → β → Prop} {l : List α} {m : List β} (h : List.Forall₂ R l m) : ∀ y ∈ m, ∃ x ∈ l, R x y := by
  induction h with
  | nil => exact fun y hy => absurd hy List.not_mem_nil
  | cons h1 _ ih =>
    intro y hy
    rcases List.mem_cons.1 hy with rfl | hy
    · exact ⟨_, List.mem_cons_self, h1⟩
    · obtain ⟨x, hx, h⟩ := ih y hy
      exact ⟨x, List.mem_cons_of_mem _ hx, h⟩

theorem virtualServices_sem (hD : IngressLib A2 W2 dfa word D) (L2 : A2.Lawful W2) (hw : ∀ a, Letter a → a ∉ ['.', '/', '-'] → cls a = true)
    (hC : K8sParser.Cluster rg c) (hl : SvcsTame rg c l) (hN : Named c l) {rx : List Char → String → Bool} (hr : RxOk rx) {gs : List GatewayText}
    {ts : List VsText} (ht : ∀ t ∈ ts, t.Tame c l gs) (hd : VsDiffer ts) :
    ∃ vs, virtualServices A2 dfa cls rx (l.map fun s => (fullName s.name s.ns, svcOf rg c s)) c ts = some vs ∧
      List.Forall₂ (VsIs A2 W2 word rg c l) ts vs := by
  have key : ∀ ts : List VsText, (∀ t ∈ ts, t.Tame c l gs) →
      ∃ vs, ts.mapM (parseVs A2 dfa cls rx (l.map fun s => (fullName s.name s.ns, svcOf rg c s)) c) = some vs ∧ List.Forall₂ (VsIs A2 W2 word rg c l) ts vs := by
    intro ts
    induction ts with
    | nil => exact fun _ => ⟨[], rfl, List.Forall₂.nil⟩
    | cons t ts ih =>
      intro ht
      obtain ⟨v, e, h⟩ := parseVs_sem hD L2 hw hC hl hN hr (ht t List.mem_cons_self)
      obtain ⟨vs, e', h'⟩ := ih fun t h => ht t (List.mem_cons_of_mem _ h)
      exact ⟨v :: vs, by rw [List.mapM_cons, e, e']; rfl, List.Forall₂.cons h h'⟩
  obtain ⟨vs, e, h⟩ := key ts ht
  unfold virtualServices
  rw [e, Option.map_some]
  refine ⟨vs, ?_, h⟩
  have : vs.Pairwise fun a b => a.key ≠ b.key := by
    have go : ∀ (ts : List VsText) (vs : List (Vs V2)), List.Forall₂ (VsIs A2 W2 word rg c l) ts vs → (∀ t ∈ ts, '/' ∉ t.ns.name.toList) → VsDiffer ts →
        vs.Pairwise fun a b => a.key ≠ b.key := by
      intro ts vs h
      induction h with
      | nil => exact fun _ _ => List.Pairwise.nil
      | @cons t v ts vs h1 h2 ih =>
        intro hn hd
        unfold VsDiffer at hd
        rw [List.pairwise_cons] at hd ⊢
        refine ⟨fun v' hv' e => ?_, ih (fun t h => hn t (List.mem_cons_of_mem _ h)) hd.2⟩
        obtain ⟨t', ht', h'⟩ := from_right h2 v' hv'
        rw [h1.key, h'.key] at e
        exact hd.1 t' ht' (fullName_inj (hn t List.mem_cons_self) (hn t' (List.mem_cons_of_mem _ ht')) e)
    exact go ts vs h (fun t h => (ht t h).ns) hd
  rw [put_fold Vs.key putVs (fun _ _ => rfl) vs [] (fun _ _ e he => absurd he List.not_mem_nil) this]
  rfl

end
end GtwParser
end Verif
