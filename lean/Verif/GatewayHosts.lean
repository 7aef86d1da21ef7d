import Verif.GatewaySpec
import Verif.SidecarProofs
import Verif.IngressProofs
/-!
Lemmas for C59: what the code makes of the hosts of gateways and virtual services, and of Gateway resources.
-/
namespace Verif
open ISet IpBlock PeerSet

namespace GtwParser
open Container CalicoParser IstioParser IngressParser SidecarParser

/-! ### Hosts -/

/-- What the code makes of a host. -/
def HostR (h w : List Char) : Prop := h = ['*'] ∨ HostRead h w

theorem hostR_says {h w : List Char} (hp : Plain h w) : HostR h w ↔ NameSays h w := by
  refine or_congr_right (or_congr (and_congr_right fun _ => eq_comm) ?_)
  constructor
  · rintro ⟨s, u, rfl, rfl, hu⟩
    exact ⟨s, u, rfl, (hp s u rfl rfl).1, rfl⟩
  · rintro ⟨s, u, rfl, _, rfl⟩
    exact ⟨s, u, rfl, rfl, (hp s u rfl rfl).2⟩

theorem hostR_wit {h : List Char} (hh : HostOk h) : ∃ w, (∀ a ∈ w, Letter a) ∧ HostR h w := by
  rcases hh with rfl | ⟨⟨_, ⟨h1, h2⟩ | ⟨s, rfl, _, ht⟩⟩, _⟩
  · exact ⟨[], by simp, Or.inl rfl⟩
  · exact ⟨h, h2, Or.inr (Or.inl ⟨h1, rfl⟩)⟩
  · refine ⟨'a' :: '.' :: s, fun a ha => ?_, Or.inr (Or.inr ⟨s, ['a'], rfl, rfl, fun a ha => ?_⟩)⟩
    · rcases List.mem_cons.1 ha with rfl | ha
      · exact Or.inl (by decide)
      · rcases List.mem_cons.1 ha with rfl | ha
        · exact Or.inr (Or.inr (Or.inl rfl))
        · exact ht a ha
    · rw [List.mem_singleton.1 ha]
      exact Or.inl (by decide)

/-- A host for which the code takes some hosts is one for which Istio takes them. -/
theorem read_fits (w : List Char) : ∃ w', ∀ h, HostOk h → HostR h w → NameSays h w' := by
  by_cases hd : w.head? = some '.'
  · obtain ⟨s, rfl⟩ : ∃ s, w = '.' :: s := by
      cases w with
      | nil => simp at hd
      | cons a s => exact ⟨s, by simp only [List.head?_cons, Option.some.injEq] at hd; rw [hd]⟩
    refine ⟨'a' :: '.' :: s, fun h hh hr => ?_⟩
    rcases hr with rfl | ⟨h1, rfl⟩ | ⟨t, u, rfl, e, _⟩
    · exact Or.inl rfl
    · rcases hh with hh | hh
      · cases hh
      · exact absurd hd hh.2.2
    · exact Or.inr (Or.inr ⟨t, 'a' :: u, rfl, by simp, by rw [e]; rfl⟩)
  · refine ⟨w, fun h _ hr => ?_⟩
    rcases hr with rfl | ⟨h1, rfl⟩ | ⟨t, u, rfl, rfl, _⟩
    · exact Or.inl rfl
    · exact Or.inr (Or.inl ⟨h1, rfl⟩)
    · refine Or.inr (Or.inr ⟨t, u, rfl, ?_, rfl⟩)
      rintro rfl
      exact hd rfl

section
variable {V2 X2 : Type} {A2 : VAlg Dim V2 X2} {W2 : Dim → V2 → Prop} {dfa : List Char → V2} {word : X2 → List Char} {D : V2 → Prop}

/-- The automaton is for the texts of which `G` holds. -/
structure Means (A2 : VAlg Dim V2 X2) (W2 : Dim → V2 → Prop) (word : X2 → List Char) (v : V2) (G : List Char → Prop) : Prop where
  wf : W2 .hosts v
  mem : ∀ x, A2.mem x v = true ↔ (∀ a ∈ word x, Letter a) ∧ G (word x)

theorem Means.congr {v : V2} {G H : List Char → Prop} (h : Means A2 W2 word v G) (e : ∀ w, G w ↔ H w) : Means A2 W2 word v H :=
  ⟨h.wf, fun x => (h.mem x).trans (and_congr_right fun _ => e _)⟩

theorem Means.or (L2 : A2.Lawful W2) {u v : V2} {G H : List Char → Prop} (h : Means A2 W2 word u G) (h' : Means A2 W2 word v H) :
    Means A2 W2 word (A2.or u v) fun w => G w ∨ H w :=
  ⟨L2.wf_or h.wf h'.wf, fun x => by rw [L2.mem_or h.wf h'.wf, Bool.or_eq_true, h.mem, h'.mem, ← and_or_left]⟩

theorem Means.and (L2 : A2.Lawful W2) {u v : V2} {G H : List Char → Prop} (h : Means A2 W2 word u G) (h' : Means A2 W2 word v H) :
    Means A2 W2 word (A2.and u v) fun w => G w ∧ H w :=
  ⟨L2.wf_and h.wf h'.wf, fun x => by
    rw [L2.mem_and h.wf h'.wf, Bool.and_eq_true, h.mem, h'.mem]
    exact ⟨fun ⟨⟨a, b⟩, _, d⟩ => ⟨a, b, d⟩, fun ⟨a, b, d⟩ => ⟨⟨a, b⟩, a, d⟩⟩⟩

theorem Means.truthy (hD : IngressLib A2 W2 dfa word D) (L2 : A2.Lawful W2) {v : V2} {G : List Char → Prop} (h : Means A2 W2 word v G) :
    A2.truthy v = true ↔ ∃ w, (∀ a ∈ w, Letter a) ∧ G w := by
  rw [L2.truthy_iff h.wf]
  constructor
  · rintro ⟨x, hx⟩
    exact ⟨word x, (h.mem x).1 hx⟩
  · rintro ⟨w, h1, h2⟩
    obtain ⟨x, rfl⟩ := hD.every w h1
    exact ⟨x, (h.mem x).2 ⟨h1, h2⟩⟩

/-- An automaton that may be missing. -/
def MeansO (A2 : VAlg Dim V2 X2) (W2 : Dim → V2 → Prop) (word : X2 → List Char) (o : Option V2) (G : List Char → Prop) : Prop :=
  match o with
  | none => ∀ w, ¬ G w
  | some v => Means A2 W2 word v G

theorem MeansO.join (hD : IngressLib A2 W2 dfa word D) (L2 : A2.Lawful W2) {o : Option V2} {v : V2} {G H : List Char → Prop}
    (h : MeansO A2 W2 word o G) (h' : Means A2 W2 word v H) : Means A2 W2 word (joinDfa A2 o v) fun w => G w ∨ H w := by
  cases o with
  | none => exact h'.congr fun w => by rw [or_iff_right (h w)]
  | some u =>
    unfold joinDfa
    dsimp only
    by_cases ht : A2.truthy u = true
    · rw [if_pos ht]
      exact Means.or L2 h h'
    · rw [if_neg ht]
      refine ⟨h'.wf, fun x => (h'.mem x).trans (and_congr_right fun hx => ?_)⟩
      rw [or_iff_right]
      intro hg
      exact ht ((Means.truthy hD L2 h).2 ⟨_, hx, hg⟩)

variable {cls : Char → Bool}

theorem parseHost_means (hD : IngressLib A2 W2 dfa word D) (L2 : A2.Lawful W2) (hw : ∀ a, Letter a → a ∉ ['.', '/', '-'] → cls a = true)
    {h : List Char} (hh : HostOk h) : ∃ v, parseHost A2 dfa cls h = some (some v) ∧ Means A2 W2 word v (HostR h) ∧ A2.truthy v = true := by
  have key : ∃ v, parseHost A2 dfa cls h = some (some v) ∧ Means A2 W2 word v (HostR h) := by
    rcases hh with rfl | ⟨hl, hs, _⟩
    · refine ⟨A2.dom .hosts, ?_, L2.wf_dom _, fun x => ?_⟩
      · unfold parseHost hostValue
        rw [if_neg (by decide)]
        rfl
      · rw [hD.hosts]
        exact ⟨fun h => ⟨h, Or.inl rfl⟩, And.left⟩
    · obtain ⟨v, e, hv, hdom, hm⟩ := hostValue_sem hD hw hl
      refine ⟨v, ?_, hD.legal rfl hv hdom, fun x => ?_⟩
      · unfold parseHost
        rw [if_neg hs, e]
      · constructor
        · exact fun hx => ⟨(hD.hosts x).1 (hdom x hx), Or.inr ((hm x).1 hx)⟩
        · rintro ⟨hx, rfl | hr⟩
          · obtain ⟨_, h | ⟨s, h, _⟩⟩ := hl
            · exact absurd List.mem_cons_self h.1
            · cases h
          · exact (hm x).2 hr
  obtain ⟨v, e, m⟩ := key
  exact ⟨v, e, m, (m.truthy hD L2).2 (hostR_wit hh)⟩

/-- Some host of the list is read as `w`. -/
def AnyR (l : List (List Char)) (w : List Char) : Prop := ∃ h ∈ l, HostR h w

theorem anyR_wit {l : List (List Char)} (hne : l ≠ []) (hl : ∀ h ∈ l, HostOk h) : ∃ w, (∀ a ∈ w, Letter a) ∧ AnyR l w := by
  cases l with
  | nil => exact absurd rfl hne
  | cons h l =>
    obtain ⟨w, h1, h2⟩ := hostR_wit (hl h List.mem_cons_self)
    exact ⟨w, h1, h, List.mem_cons_self, h2⟩

theorem hosts_fold (hD : IngressLib A2 W2 dfa word D) (L2 : A2.Lawful W2) (hw : ∀ a, Letter a → a ∉ ['.', '/', '-'] → cls a = true)
    (l : List (List Char)) (hl : ∀ h ∈ l, HostOk h) {o : Option V2} {G : List Char → Prop} (ho : MeansO A2 W2 word o G) :
    ∃ o', l.foldlM (hostStep A2 dfa cls) o = some o' ∧ MeansO A2 W2 word o' fun w => G w ∨ AnyR l w := by
  induction l generalizing o G with
  | nil =>
    refine ⟨o, rfl, ?_⟩
    have : (fun w => G w ∨ AnyR [] w) = G := by funext w; simp [AnyR]
    rw [this]; exact ho
  | cons h l ih =>
    obtain ⟨v, e, m, t⟩ := parseHost_means hD L2 hw (hl h List.mem_cons_self)
    have st : hostStep A2 dfa cls o h = some (some (joinDfa A2 o v)) := by
      unfold hostStep
      rw [e, Option.map_some, Option.filter_some, if_pos t]
    obtain ⟨o', e', m'⟩ := ih (fun h hh => hl h (List.mem_cons_of_mem _ hh)) (o := some (joinDfa A2 o v)) (MeansO.join hD L2 ho m)
    refine ⟨o', by rw [List.foldlM_cons, st]; exact e', ?_⟩
    have : (fun w => G w ∨ AnyR (h :: l) w) = fun w => (G w ∨ HostR h w) ∨ AnyR l w := by
      funext w; simp [AnyR, or_assoc]
    rw [this]; exact m'

/-- The hosts of all servers, as the code reads them. -/
def ServesR (t : GatewayText) (w : List Char) : Prop := ∃ hosts ∈ t.servers, AnyR hosts w

theorem servers_fold (hD : IngressLib A2 W2 dfa word D) (L2 : A2.Lawful W2) (hw : ∀ a, Letter a → a ∉ ['.', '/', '-'] → cls a = true)
    (l : List (List (List Char))) (hl : ∀ hs ∈ l, hs ≠ [] ∧ ∀ h ∈ hs, HostOk h) {o : Option V2} {G : List Char → Prop} (ho : MeansO A2 W2 word o G) :
    ∃ o', l.foldlM (serverStep A2 dfa cls) o = some o' ∧ (MeansO A2 W2 word o' fun w => G w ∨ ∃ hs ∈ l, AnyR hs w) ∧ (l ≠ [] → o' ≠ none) := by
  induction l generalizing o G with
  | nil =>
    refine ⟨o, rfl, ?_, fun h => absurd rfl h⟩
    have : (fun w => G w ∨ ∃ hs ∈ ([] : List (List (List Char))), AnyR hs w) = G := by funext w; simp
    rw [this]; exact ho
  | cons hs l ih =>
    obtain ⟨hne, hok⟩ := hl hs List.mem_cons_self
    obtain ⟨o1, e1, m1⟩ := hosts_fold hD L2 hw hs hok (o := none) (G := fun _ => False) (fun _ h => h)
    have g1 : (fun w => False ∨ AnyR hs w) = AnyR hs := by funext w; simp
    rw [g1] at m1
    obtain ⟨w0, hw0, hr0⟩ := anyR_wit hne hok
    cases o1 with
    | none => exact absurd hr0 (m1 w0)
    | some v =>
      have m1 : Means A2 W2 word v (AnyR hs) := m1
      have st : serverStep A2 dfa cls o hs = some (some (joinDfa A2 o v)) := by
        unfold serverStep
        rw [e1, Option.bind_some, Option.filter_some, if_pos ((m1.truthy hD L2).2 ⟨w0, hw0, hr0⟩)]
      obtain ⟨o', e', m', n'⟩ := ih (fun h hh => hl h (List.mem_cons_of_mem _ hh)) (o := some (joinDfa A2 o v)) (MeansO.join hD L2 ho m1)
      refine ⟨o', by rw [List.foldlM_cons, st]; exact e', ?_, fun _ => ?_⟩
      · have : (fun w => G w ∨ ∃ hs' ∈ hs :: l, AnyR hs' w) = fun w => (G w ∨ AnyR hs w) ∨ ∃ hs ∈ l, AnyR hs w := by
          funext w; simp [or_assoc]
        rw [this]; exact m'
      · cases l with
        | nil =>
          have : some (some (joinDfa A2 o v)) = some o' := e'
          cases this
          simp
        | cons a l => exact n' (by simp)

/-! ### Gateways -/

theorem gtwType_fold (l : Labels) (t : Option Bool) (hl : ∀ kv ∈ l, kv.1 ≠ "istio") :
    l.foldl (fun t kv => if kv.1 = "istio" then if kv.2 = "ingressgateway" then some false else if kv.2 = "egressgateway" then some true else t else t) t = t := by
  induction l with
  | nil => rfl
  | cons kv l ih =>
    rw [List.foldl_cons, if_neg (hl kv List.mem_cons_self)]
    exact ih fun kv hkv => hl kv (List.mem_cons_of_mem _ hkv)

theorem gtwType_sem {l : Labels} (hn : (l.map (·.1)).Nodup) :
    (gtwType l = some false ↔ ("istio", "ingressgateway") ∈ l) ∧ (gtwType l = some true ↔ ("istio", "egressgateway") ∈ l) := by
  unfold gtwType
  have key : ∀ (l : Labels), (l.map (·.1)).Nodup →
      ((l.foldl (fun t kv => if kv.1 = "istio" then if kv.2 = "ingressgateway" then some false else if kv.2 = "egressgateway" then some true else t else t) none = some false
        ↔ ("istio", "ingressgateway") ∈ l) ∧
      (l.foldl (fun t kv => if kv.1 = "istio" then if kv.2 = "ingressgateway" then some false else if kv.2 = "egressgateway" then some true else t else t) none = some true
        ↔ ("istio", "egressgateway") ∈ l)) := by
    intro l
    induction l with
    | nil => intro _; simp
    | cons kv l ih =>
      intro hn
      rw [List.map_cons, List.nodup_cons] at hn
      obtain ⟨k, v⟩ := kv
      rw [List.foldl_cons]
      by_cases hk : k = "istio"
      · subst hk
        have hno : ∀ kv ∈ l, kv.1 ≠ "istio" := fun kv hkv e => hn.1 (List.mem_map.2 ⟨kv, hkv, e⟩)
        rw [gtwType_fold l _ hno]
        have h1 : ∀ x, ("istio", x) ∈ l ↔ False := fun x => ⟨fun h => hno _ h rfl, False.elim⟩
        simp only [List.mem_cons, h1, or_false, Prod.mk.injEq, true_and, if_true]
        by_cases e1 : v = "ingressgateway"
        · subst e1; simp
        · by_cases e2 : v = "egressgateway"
          · subst e2; simp
          · simp [e1, e2, Ne.symm e1, Ne.symm e2]
      · rw [if_neg hk]
        have h1 : ∀ x, ("istio", x) ∈ (k, v) :: l ↔ ("istio", x) ∈ l := fun x => by
          simp [Ne.symm hk]
        rw [h1, h1]
        exact ih hn.2
  exact key l hn

variable {rg : PodReg} {c : Container}

theorem gtwPeers_sem (hC : K8sParser.Cluster rg c) (l : Labels) :
    Sem c (fun p => p.kind ≠ .dns ∧ ∀ kv ∈ l, p.HasVal kv.1 kv.2) (gtwPeers c l) ∧ AllPods (gtwPeers c l) := by
  unfold gtwPeers
  have key : ∀ (l : Labels) (T : PeerInfo → Prop) (q : PeerSet String), Sem c T q → AllPods q →
      Sem c (fun p => T p ∧ ∀ kv ∈ l, p.HasVal kv.1 kv.2)
        (l.foldl (fun peers kv => let s := c.withLabel kv.1 [kv.2] false; if s.isEmpty then [] else peers.and s) q) ∧
      AllPods (l.foldl (fun peers kv => let s := c.withLabel kv.1 [kv.2] false; if s.isEmpty then [] else peers.and s) q) := by
    intro l
    induction l with
    | nil => exact fun T q h1 h2 => ⟨h1.congr fun p _ => by simp, h2⟩
    | cons kv l ih =>
      intro T q h1 h2
      have hl : Sem c (fun p => p.HasVal kv.1 kv.2) (c.withLabel kv.1 [kv.2] false) := (sem_sel hC.ok _).congr fun p _ => by
        rw [if_neg (by simp), Bool.or_eq_true, getIn_iff, getIn_iff]
        unfold PeerInfo.HasVal
        simp only [List.mem_singleton, exists_eq_left]
      have hand := h1.and hC.uniq (disjoint_sets hC) hl
      rw [List.foldl_cons]
      dsimp only
      have hs : Sem c (fun p => T p ∧ p.HasVal kv.1 kv.2) (if (c.withLabel kv.1 [kv.2] false).isEmpty then [] else q.and (c.withLabel kv.1 [kv.2] false)) ∧
          AllPods (if (c.withLabel kv.1 [kv.2] false).isEmpty then [] else q.and (c.withLabel kv.1 [kv.2] false)) := by
        by_cases he : (c.withLabel kv.1 [kv.2] false).isEmpty = true
        · rw [if_pos he]
          rw [List.isEmpty_iff] at he
          refine ⟨⟨empty_ok, fun E => ?_⟩, fun e h => absurd h List.not_mem_nil⟩
          rw [← hand.2 E, in_and h1.1 hl.1, he]
          exact ⟨fun h => absurd h (not_in_empty E), fun h => h.2⟩
        · rw [if_neg he]
          exact ⟨hand, h2.and _⟩
      obtain ⟨g1, g2⟩ := ih _ _ hs.1 hs.2
      refine ⟨g1.congr fun p _ => ?_, g2⟩
      simp only [List.mem_cons, forall_eq_or_imp, and_assoc]
  have h := sem_sel hC.ok K8sParser.allTest
  exact key l _ _ (h.congr fun p _ => K8sParser.allTest_iff p) (allPods_sel hC _)

/-- The parsed gateway is that of the text. -/
structure GtwIs (A2 : VAlg Dim V2 X2) (W2 : Dim → V2 → Prop) (word : X2 → List Char) (c : Container) (t : GatewayText) (g : Gtw V2) : Prop where
  key : g.key = fullName t.name t.ns
  ingress : g.egress = false ↔ t.Kind "ingressgateway"
  egress : g.egress = true ↔ t.Kind "egressgateway"
  ok : g.peers.Ok
  pods : AllPods g.peers
  inCluster : InCluster c g.peers
  runs : ∀ E : Place, E.In g.peers ↔ t.Runs c E
  hosts : ∃ v, g.hosts = some v ∧ Means A2 W2 word v (ServesR t)

theorem pods_nonempty {q : PeerSet String} (h : AllPods q) : q.isEmpty = false ↔ ∃ E : Place, E.In q := by
  constructor
  · intro he
    cases q with
    | nil => simp at he
    | cons e q =>
      obtain ⟨k, rfl⟩ := h e List.mem_cons_self
      exact ⟨.pod k, List.mem_cons_self⟩
  · rintro ⟨E, hE⟩
    cases q with
    | nil => exact absurd hE (not_in_empty E)
    | cons e q => rfl

theorem parseGateway_sem (hD : IngressLib A2 W2 dfa word D) (L2 : A2.Lawful W2) (hw : ∀ a, Letter a → a ∉ ['.', '/', '-'] → cls a = true)
    (hC : K8sParser.Cluster rg c) {t : GatewayText} (ht : t.Tame) :
    (t.Works c ∧ ∃ g, parseGateway A2 dfa cls c t = some (some g) ∧ GtwIs A2 W2 word c t g) ∨ ¬ t.Works c ∧ parseGateway A2 dfa cls c t = some none := by
  obtain ⟨h1, h2⟩ := gtwType_sem ht.keys
  obtain ⟨hs, ha⟩ := gtwPeers_sem hC t.selector
  have runs : ∀ E : Place, E.In (gtwPeers c t.selector) ↔ t.Runs c E := hs.2
  unfold parseGateway
  cases hty : gtwType t.selector with
  | none =>
    refine Or.inr ⟨?_, rfl⟩
    rintro ⟨h | h, _⟩
    · rw [h1.2 h] at hty; cases hty
    · rw [h2.2 h] at hty; cases hty
  | some e =>
    dsimp only
    by_cases he : (gtwPeers c t.selector).isEmpty = true
    · rw [if_pos he]
      refine Or.inr ⟨?_, rfl⟩
      rintro ⟨_, E, hE⟩
      have := (pods_nonempty ha).2 ⟨E, (runs E).2 hE⟩
      rw [he] at this; cases this
    · rw [if_neg he]
      left
      obtain ⟨o, eo, mo, no⟩ := servers_fold hD L2 hw t.servers ht.hosts (o := none) (G := fun _ => False) (fun _ h => h)
      obtain ⟨v, rfl⟩ := Option.ne_none_iff_exists'.1 (no ht.servers)
      rw [eo, Option.map_some]
      have hk : t.Kind "ingressgateway" ∨ t.Kind "egressgateway" := by
        cases e with
        | false => exact Or.inl (h1.1 hty)
        | true => exact Or.inr (h2.1 hty)
      obtain ⟨E, hE⟩ := (pods_nonempty ha).1 (by simpa using he)
      refine ⟨⟨hk, E, (runs E).1 hE⟩, _, rfl, rfl, ?_, ?_, hs.1, ha, hs.inCluster, runs, v, rfl, Means.congr mo fun w => by simp [ServesR]⟩
      · rw [hty, Option.some.injEq] at h1; exact h1
      · rw [hty, Option.some.injEq] at h2; exact h2

/-! ### Lists -/

/-- Every element is that of some index, and every index has an element. -/
structure Cover {I α : Type} (P : I → Prop) (R : I → α → Prop) (l : List α) : Prop where
  sound : ∀ a ∈ l, ∃ i, P i ∧ R i a
  complete : ∀ i, P i → ∃ a ∈ l, R i a

theorem Cover.nil {I α : Type} {P : I → Prop} {R : I → α → Prop} (h : ∀ i, ¬ P i) : Cover P R ([] : List α) :=
  ⟨fun _ h => absurd h List.not_mem_nil, fun i hi => absurd hi (h i)⟩

theorem Cover.append {I α : Type} {P Q : I → Prop} {R : I → α → Prop} {l l' : List α} (h : Cover P R l) (h' : Cover Q R l') :
    Cover (fun i => P i ∨ Q i) R (l ++ l') := by
  refine ⟨fun a ha => ?_, fun i hi => ?_⟩
  · rcases List.mem_append.1 ha with ha | ha
    · obtain ⟨i, h1, h2⟩ := h.sound a ha
      exact ⟨i, Or.inl h1, h2⟩
    · obtain ⟨i, h1, h2⟩ := h'.sound a ha
      exact ⟨i, Or.inr h1, h2⟩
  · rcases hi with hi | hi
    · obtain ⟨a, h1, h2⟩ := h.complete i hi
      exact ⟨a, List.mem_append_left _ h1, h2⟩
    · obtain ⟨a, h1, h2⟩ := h'.complete i hi
      exact ⟨a, List.mem_append_right _ h1, h2⟩

theorem Cover.congr {I α : Type} {P Q : I → Prop} {R S : I → α → Prop} {l : List α} (h : Cover P R l) (e : ∀ i, P i ↔ Q i) (f : ∀ i a, P i → R i a → S i a) :
    Cover Q S l :=
  ⟨fun a ha => by obtain ⟨i, h1, h2⟩ := h.sound a ha; exact ⟨i, (e i).1 h1, f i a h1 h2⟩,
    fun i hi => by obtain ⟨a, h1, h2⟩ := h.complete i ((e i).2 hi); exact ⟨a, h1, f i a ((e i).2 hi) h2⟩⟩

theorem put_fold {α : Type} (key : α → String) (put : List α → α → List α)
    (hput : ∀ l a, put l a = if l.any (fun e => decide (key e = key a)) then l.map fun e => if key e = key a then a else e else l ++ [a])
    (l acc : List α) (h1 : ∀ a ∈ l, ∀ e ∈ acc, key e ≠ key a) (h2 : l.Pairwise fun a b => key a ≠ key b) : l.foldl put acc = acc ++ l := by
  induction l generalizing acc with
  | nil => simp
  | cons a l ih =>
    rw [List.pairwise_cons] at h2
    have : put acc a = acc ++ [a] := by
      rw [hput, if_neg]
      rw [List.any_eq_true]
      rintro ⟨e, he, h⟩
      exact h1 a List.mem_cons_self e he (of_decide_eq_true h)
    rw [List.foldl_cons, this, ih _ _ h2.2]
    · simp
    · intro b hb e he
      rcases List.mem_append.1 he with he | he
      · exact h1 b (List.mem_cons_of_mem _ hb) e he
      · rw [List.mem_singleton] at he
        subst he
        exact h2.1 b hb

theorem gateways_sem (hD : IngressLib A2 W2 dfa word D) (L2 : A2.Lawful W2) (hw : ∀ a, Letter a → a ∉ ['.', '/', '-'] → cls a = true)
    (hC : K8sParser.Cluster rg c) {l : List GatewayText} (hl : ∀ t ∈ l, t.Tame) (hd : NamesDiffer l) :
    ∃ gs, gateways A2 dfa cls c l = some gs ∧ Cover (fun t => t ∈ l ∧ t.Works c) (GtwIs A2 W2 word c) gs ∧ gs.Pairwise fun g g' => g.key ≠ g'.key := by
  unfold gateways
  have key : ∀ l : List GatewayText, (∀ t ∈ l, t.Tame) → NamesDiffer l → ∃ os, l.mapM (parseGateway A2 dfa cls c) = some os ∧
      Cover (fun t => t ∈ l ∧ t.Works c) (GtwIs A2 W2 word c) (os.filterMap id) ∧ (os.filterMap id).Pairwise fun g g' => g.key ≠ g'.key := by
    intro l
    induction l with
    | nil => exact fun _ _ => ⟨[], rfl, Cover.nil (by simp), List.Pairwise.nil⟩
    | cons t l ih =>
      intro hl hd
      unfold NamesDiffer at hd
      rw [List.pairwise_cons] at hd
      obtain ⟨os, e, hc, hp⟩ := ih (fun t ht => hl t (List.mem_cons_of_mem _ ht)) hd.2
      rcases parseGateway_sem hD L2 hw hC (hl t List.mem_cons_self) with ⟨h1, g, h2, h3⟩ | ⟨h1, h2⟩
      · refine ⟨some g :: os, by rw [List.mapM_cons, h2, e]; rfl, ?_, ?_⟩
        · rw [List.filterMap_cons_some (f := id) (a := some g) (b := g) rfl]
          have hs : Cover (fun t' => t' = t) (GtwIs A2 W2 word c) [g] :=
            ⟨fun a ha => ⟨t, rfl, by rw [List.mem_singleton.1 ha]; exact h3⟩, fun i hi => ⟨g, List.mem_singleton.2 rfl, by rw [hi]; exact h3⟩⟩
          refine (hs.append hc).congr (fun i => ?_) fun _ _ _ h => h
          simp only [List.mem_cons]
          constructor
          · rintro (rfl | h)
            · exact ⟨Or.inl rfl, h1⟩
            · exact ⟨Or.inr h.1, h.2⟩
          · rintro ⟨h | h, hw⟩
            · exact Or.inl h
            · exact Or.inr ⟨h, hw⟩
        · rw [List.filterMap_cons_some (f := id) (a := some g) (b := g) rfl, List.pairwise_cons]
          refine ⟨fun g' hg' e' => ?_, hp⟩
          obtain ⟨t', ⟨ht', _⟩, h'⟩ := hc.sound g' hg'
          rw [h3.key, h'.key] at e'
          exact hd.1 t' ht' (fullName_inj (hl t List.mem_cons_self).ns (hl t' (List.mem_cons_of_mem _ ht')).ns e')
      · refine ⟨none :: os, by rw [List.mapM_cons, h2, e]; rfl, ?_, hp⟩
        rw [List.filterMap_cons_none rfl]
        refine hc.congr (fun i => ?_) fun _ _ _ h => h
        simp only [List.mem_cons]
        constructor
        · exact fun h => ⟨Or.inr h.1, h.2⟩
        · rintro ⟨rfl | h, hw⟩
          · exact absurd hw h1
          · exact ⟨h, hw⟩
  obtain ⟨os, e, hc, hp⟩ := key l hl hd
  refine ⟨os.filterMap id, ?_, hc, hp⟩
  rw [e, Option.map_some, put_fold Gtw.key putGateway (fun _ _ => rfl) _ [] (fun _ _ e he => absurd he List.not_mem_nil) hp, List.nil_append]

end
end GtwParser
end Verif
