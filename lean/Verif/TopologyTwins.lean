import Verif.PropsGatewayConfig
/-!
Places of two clusters that no policy tells apart.
-/
namespace Verif

namespace Topology
open CalicoParser (AtSome EntitySays PortSays PortsSay CalicoSays EndAllows Decides IsKind Item SameEnd Sel Conn)
open IstioParser (IstioSays AuthText)

/-- Endpoints with the same kind, namespace and labels. -/
structure Like (p p' : PeerInfo) : Prop where
  kind : p.kind = p'.kind
  none : p.ns = none ↔ p'.ns = none
  ns : ∀ n n', p.ns = some n → p'.ns = some n' → n.name = n'.name ∧ ∀ k, n.labels.lookup k = n'.labels.lookup k
  labels : ∀ k v, p.HasVal k v ↔ p'.HasVal k v
  isGlobal : p.isGlobal = p'.isGlobal

/-- Places of two clusters: what is there has the same kind, namespace, labels, ports and service
account. -/
structure Twins (rg rg' : PodReg) (c c' : Container) (sa sa' : String → List Char) (E E' : Place) : Prop where
  ip : ∀ x, E = .ip x ↔ E' = .ip x
  fwd : ∀ p ∈ c, p.Holds E → ∃ p' ∈ c', p'.Holds E' ∧ Like p p'
  bwd : ∀ p' ∈ c', p'.Holds E' → ∃ p ∈ c, p.Holds E ∧ Like p p'
  named : ∀ k k', E = .pod k → E' = .pod k' → rg.named k = rg'.named k'
  accounts : ∀ k k', E = .pod k → E' = .pod k' → (∃ p ∈ c, p.Holds E ∧ ∃ n, p.ns = some n) → sa k = sa' k'
  /-- external hosts are known by their names -/
  dns : ∀ p ∈ c, p.Holds E → p.kind = .dns → E = E'

theorem Like.symm {p p' : PeerInfo} (h : Like p p') : Like p' p :=
  ⟨h.kind.symm, h.none.symm, fun n n' hn hn' => ⟨(h.ns n' n hn' hn).1.symm, fun k => ((h.ns n' n hn' hn).2 k).symm⟩, fun k v => (h.labels k v).symm,
    h.isGlobal.symm⟩

theorem Like.some {p p' : PeerInfo} (h : Like p p') {n : Ns} (hn : p.ns = some n) : ∃ n', p'.ns = some n' ∧ n.name = n'.name ∧ ∀ k, n.labels.lookup k = n'.labels.lookup k := by
  cases hn' : p'.ns with
  | none => rw [h.none.2 hn'] at hn; cases hn
  | some n' => exact ⟨n', rfl, h.ns n n' hn hn'⟩

theorem Like.hasVal {p p' : PeerInfo} (h : Like p p') : p.HasVal = p'.HasVal := by
  funext k v
  exact propext (h.labels k v)

theorem Like.inNs {p p' : PeerInfo} (h : Like p p') (n : Ns) : p.InNs n ↔ p'.InNs n := by
  have one : ∀ {p p' : PeerInfo}, Like p p' → p.InNs n → p'.InNs n := by
    rintro p p' h ⟨m, hm, e⟩
    obtain ⟨m', hm', e', _⟩ := h.some hm
    exact ⟨m', hm', by rw [← e', e]⟩
  exact ⟨one h, one h.symm⟩

theorem Twins.symm {rg rg' : PodReg} {c c' : Container} {sa sa' : String → List Char} {E E' : Place} (h : Twins rg rg' c c' sa sa' E E') : Twins rg' rg c' c sa' sa E' E :=
  ⟨fun x => (h.ip x).symm, fun p hp hh => (h.bwd p hp hh).imp fun q hq => ⟨hq.1, hq.2.1, hq.2.2.symm⟩, fun p hp hh => (h.fwd p hp hh).imp fun q hq => ⟨hq.1, hq.2.1, hq.2.2.symm⟩,
    fun k k' h1 h2 => (h.named k' k h2 h1).symm, fun k k' h1 h2 ⟨p, hp, hh, n, hn⟩ => by
      obtain ⟨q, hq, hqh, hl⟩ := h.bwd p hp hh
      obtain ⟨m, hm, _⟩ := hl.symm.some hn
      exact (h.accounts k' k h2 h1 ⟨q, hq, hqh, m, hm⟩).symm, fun p hp hh hk => by
      obtain ⟨q, hq, hqh, hl⟩ := h.bwd p hp hh
      exact (h.dns q hq hqh (hl.kind.trans hk)).symm⟩

section
variable {rg rg' : PodReg} {c c' : Container} {sa sa' : String → List Char} {E E' : Place}

theorem Twins.atSome (h : Twins rg rg' c c' sa sa' E E') {T T' : PeerInfo → Prop} (hT : ∀ p p', Like p p' → (T p ↔ T' p')) : AtSome c E T ↔ AtSome c' E' T' := by
  constructor
  · rintro ⟨p, hp, hh, ht⟩
    obtain ⟨q, hq, hqh, hl⟩ := h.fwd p hp hh
    exact ⟨q, hq, hqh, (hT p q hl).1 ht⟩
  · rintro ⟨p, hp, hh, ht⟩
    obtain ⟨q, hq, hqh, hl⟩ := h.bwd p hp hh
    exact ⟨q, hq, hqh, (hT q p hl).2 ht⟩

theorem Like.picks {p p' : PeerInfo} (h : Like p p') (ns : Option Ns) (s : Sel) : s.Picks ns p ↔ s.Picks ns p' := by
  unfold CalicoParser.Sel.Picks
  rw [h.kind, h.hasVal]
  exact and_congr_right fun _ => and_congr_left fun _ => forall_congr' fun n => imp_congr_right fun _ => h.inNs n

theorem Like.picksNs {p p' : PeerInfo} (h : Like p p') (s : Sel) : s.PicksNs p ↔ s.PicksNs p' := by
  have one : ∀ {p p' : PeerInfo}, Like p p' → s.PicksNs p → s.PicksNs p' := by
    rintro p p' h ⟨h1, h2⟩
    refine ⟨h.kind ▸ h1, h2.imp (fun ⟨a, b⟩ => ⟨h.isGlobal ▸ a, b⟩) fun ⟨a, n, hn, b⟩ => ?_⟩
    obtain ⟨n', hn', _, hl⟩ := h.some hn
    refine ⟨h.isGlobal ▸ a, n', hn', ?_⟩
    have : n'.HasVal = n.HasVal := by funext k v; simp [Ns.HasVal, hl]
    rw [this]; exact b
  exact ⟨one h, one h.symm⟩

theorem Twins.netEx (h : Twins rg rg' c c' sa sa' E E') (P : Ip → Prop) : (∃ x, E = .ip x ∧ P x) ↔ ∃ x, E' = .ip x ∧ P x := by
  simp only [h.ip]

theorem Twins.entity (h : Twins rg rg' c c' sa sa' E E') (ns : Option Ns) (m : CalicoParser.EntitySpec) : EntitySays c ns m E ↔ EntitySays c' ns m E' := by
  unfold EntitySays
  rw [h.netEx, h.netEx]
  refine and_congr_right fun _ => and_congr_right fun _ => and_congr ?_ (and_congr ?_ ?_)
  · exact forall_congr' fun s => imp_congr_right fun _ => h.atSome fun p p' hl => hl.picksNs s
  · exact forall_congr' fun s => imp_congr_right fun _ => h.atSome fun p p' hl => hl.picks _ s
  · exact forall_congr' fun s => imp_congr_right fun _ => not_congr (h.atSome fun p p' hl => hl.picks _ s)

theorem Twins.port (h : Twins rg rg' c c' sa sa' E E') (proto port : Int) (q : CalicoParser.PortSpec) : PortSays rg E proto port q ↔ PortSays rg' E' proto port q := by
  cases q with
  | num n => rfl
  | range lo hi => rfl
  | name s =>
    have one : ∀ {rg rg' : PodReg} {c c' : Container} {sa sa' : String → List Char} {E E' : Place}, Twins rg rg' c c' sa sa' E E' → PortSays rg E proto port (.name s) → PortSays rg' E' proto port (.name s) := by
      rintro rg rg' c c' sa sa' E E' h ⟨k, pr, rfl, h1, h2⟩
      cases E' with
      | ip x => exact absurd ((h.ip x).2 rfl) (by simp)
      | pod k' => exact ⟨k', pr, rfl, by rw [← h.named k k' rfl rfl]; exact h1, h2⟩
    exact ⟨one h, one h.symm⟩

theorem Twins.ports (h : Twins rg rg' c c' sa sa' E E') (m : CalicoParser.EntitySpec) (proto port : Int) : PortsSay rg m E proto port ↔ PortsSay rg' m E' proto port := by
  unfold PortsSay
  simp only [h.port]

variable {F F' : Place}

theorem Twins.rule (h : Twins rg rg' c c' sa sa' E E') (h' : Twins rg rg' c c' sa sa' F F') (ns : Option Ns) (m : CalicoParser.RuleSpec) (q : Conn) :
    CalicoParser.RuleSays rg c ns m E F q ↔ CalicoParser.RuleSays rg' c' ns m E' F' q := by
  unfold CalicoParser.RuleSays
  simp only [h.entity, h'.entity, h.ports, h'.ports]

/-- The ends, in the words of Kubernetes policies. -/
inductive EndTwins (rg rg' : PodReg) : K8sParser.End → K8sParser.End → Prop
  | ip (x : Ip) : EndTwins rg rg' (.ip x) (.ip x)
  | peer {p p' : PeerInfo} {k k' : String} : Like p p' → p.elem = .pod k → p'.elem = .pod k' → rg.named k = rg'.named k' → EndTwins rg rg' (.peer p) (.peer p')

theorem EndTwins.symm {S S' : K8sParser.End} (h : EndTwins rg rg' S S') : EndTwins rg' rg S' S := by
  cases h with
  | ip x => exact .ip x
  | peer h1 h2 h3 h4 => exact .peer h1.symm h3 h2 h4.symm

theorem Twins.sameEnd (h : Twins rg rg' c c' sa sa' E E') {S : K8sParser.End} (hs : SameEnd c E S) : ∃ S', SameEnd c' E' S' ∧ EndTwins rg rg' S S' := by
  cases E with
  | ip x =>
    cases S with
    | peer p => exact hs.elim
    | ip y =>
      cases hs
      exact ⟨.ip x, by rw [(h.ip x).1 rfl]; rfl, .ip x⟩
  | pod k =>
    cases S with
    | ip y => exact hs.elim
    | peer p =>
      obtain ⟨hp, hk⟩ := hs
      cases hE : E' with
      | ip x => exact absurd ((h.ip x).2 hE) (by simp)
      | pod k' =>
        obtain ⟨q, hq, hqh, hl⟩ := h.fwd p hp hk
        rw [hE] at hqh
        exact ⟨.peer q, ⟨hq, hqh⟩, .peer hl hk hqh (h.named k k' rfl hE)⟩

theorem EndTwins.applies {S S' : K8sParser.End} (h : EndTwins rg rg' S S') {ns : Ns} {s : Selector} (ha : K8sParser.Applies ns s S) : K8sParser.Applies ns s S' := by
  cases h with
  | ip x => exact ha
  | peer hl _ _ _ => exact ⟨hl.kind ▸ ha.1, (hl.inNs ns).1 ha.2.1, hl.hasVal ▸ ha.2.2⟩

theorem EndTwins.peerSays {S S' : K8sParser.End} (h : EndTwins rg rg' S S') {ns : Ns} {pp : K8sParser.PolicyPeer} (ha : K8sParser.PeerSays ns pp S) : K8sParser.PeerSays ns pp S' := by
  cases h with
  | ip x => exact ha
  | peer hl _ _ _ =>
    obtain ⟨h1, h2, n, hn, h3, h4⟩ := ha
    obtain ⟨n', hn', e, hlab⟩ := hl.some hn
    have hv : n'.HasVal = n.HasVal := by funext k v; simp [Ns.HasVal, hlab]
    refine ⟨h1, hl.kind ▸ h2, n', hn', ?_, ?_⟩
    · rw [hv, ← e]; exact h3
    · rw [← hl.hasVal]; exact h4

theorem EndTwins.portSays {S S' : K8sParser.End} (h : EndTwins rg rg' S S') {pt : K8sParser.PolicyPort} {proto port : Int} (ha : K8sParser.PortSays rg pt S proto port) :
    K8sParser.PortSays rg' pt S' proto port := by
  obtain ⟨h1, h2⟩ := ha
  refine ⟨h1, ?_⟩
  cases hp : pt.port with
  | none => trivial
  | some a =>
    rw [hp] at h2
    cases a with
    | num n => exact h2
    | name s =>
      obtain ⟨p, k, pr, e, h3, h4, h5⟩ := h2
      cases h with
      | ip x => cases e
      | peer hl e1 e2 e3 =>
        cases e
        rw [e1] at h3
        cases h3
        exact ⟨_, _, pr, rfl, e2, by rw [← e3]; exact h4, h5⟩

theorem EndTwins.ruleSays {S S' T T' : K8sParser.End} (h : EndTwins rg rg' S S') (h' : EndTwins rg rg' T T') {ns : Ns} {r : K8sParser.PolicyRule} {proto port : Int}
    (ha : K8sParser.RuleSays rg ns r S T proto port) : K8sParser.RuleSays rg' ns r S' T' proto port :=
  ⟨ha.1.imp_right fun ⟨pp, h1, h2⟩ => ⟨pp, h1, h.peerSays h2⟩, ha.2.imp_right fun ⟨pt, h1, h2⟩ => ⟨pt, h1, h'.portSays h2⟩⟩

theorem Like.chooses {p p' : PeerInfo} (h : Like p p') (m : CalicoParser.PolicyMeaning) : m.Chooses p ↔ m.Chooses p' := by
  unfold CalicoParser.PolicyMeaning.Chooses
  rw [h.kind]
  simp only [h.inNs, h.picks, h.picksNs]

theorem Twins.captures (h : Twins rg rg' c c' sa sa' E E') (d : Bool) (i : Item) : i.Captures c d E ↔ i.Captures c' d E' := by
  cases i with
  | k8s t =>
    have one : ∀ {rg rg' : PodReg} {c c' : Container} {sa sa' : String → List Char} {E E' : Place}, Twins rg rg' c c' sa sa' E E' →
        (Item.k8s t).Captures c d E → (Item.k8s t).Captures c' d E' := by
      rintro rg rg' c c' sa sa' E E' h ⟨s, S, h1, h2, h3, h4⟩
      obtain ⟨S', h5, h6⟩ := h.sameEnd h1
      exact ⟨s, S', h5, h2, h3, h6.applies h4⟩
    exact ⟨one h, one h.symm⟩
  | calico t m =>
    refine and_congr_right fun _ => h.atSome fun p p' hl => ?_
    rw [hl.kind, hl.chooses]

theorem Twins.verdict (h : Twins rg rg' c c' sa sa' E E') (h' : Twins rg rg' c c' sa sa' F F') (d : Bool) (q : Conn) (a : RuleAction) (i : Item) :
    i.Verdict rg c d E F q a ↔ i.Verdict rg' c' d E' F' q a := by
  cases i with
  | k8s t =>
    have one : ∀ {rg rg' : PodReg} {c c' : Container} {sa sa' : String → List Char} {E E' F F' : Place}, Twins rg rg' c c' sa sa' E E' → Twins rg rg' c c' sa sa' F F' →
        (Item.k8s t).Verdict rg c d E F q a → (Item.k8s t).Verdict rg' c' d E' F' q a := by
      rintro rg rg' c c' sa sa' E E' F F' h h' ⟨ha, s, S, D, h1, h2, h3, r, hr, h4⟩
      obtain ⟨S', h5, h6⟩ := h.sameEnd h1
      obtain ⟨D', h7, h8⟩ := h'.sameEnd h2
      refine ⟨ha, s, S', D', h5, h7, h3, r, hr, ?_⟩
      cases d with
      | true => exact h6.ruleSays h8 h4
      | false => exact h8.ruleSays h8 h4
    exact ⟨one h h', one h.symm h'.symm⟩
  | calico t m =>
    show (∃ _, _) ↔ ∃ _, _
    simp only [h.rule h']

/-- The end whose policies are asked. -/
theorem Twins.endAllows {G G' : Place} (h : Twins rg rg' c c' sa sa' E E') (h' : Twins rg rg' c c' sa sa' F F') (g : Twins rg rg' c c' sa sa' G G') (is : List Item) (d : Bool) (q : Conn) :
    EndAllows rg c is d G E F q ↔ EndAllows rg' c' is d G' E' F' q := by
  have dec : ∀ a, Decides rg c is d G E F q a ↔ Decides rg' c' is d G' E' F' q a := by
    intro a
    unfold Decides Leads
    simp only [g.captures, h.verdict h']
  unfold EndAllows
  rw [dec, dec]
  have hk : IsKind c G [.pod, .dns] ↔ IsKind c' G' [.pod, .dns] := g.atSome fun p p' hl => by rw [hl.kind]
  rw [hk]
  simp only [g.captures, g.ip]

/-- Kubernetes and Calico policies say the same of connections between twins. -/
theorem Twins.calico (h : Twins rg rg' c c' sa sa' E E') (h' : Twins rg rg' c c' sa sa' F F') (is : List Item) (q : Conn) :
    CalicoSays rg c is E F q ↔ CalicoSays rg' c' is E' F' q := and_congr (h.endAllows h' h' is true q) (h.endAllows h' h is false q)

/-! ### Istio -/

theorem Twins.fromNs (h : Twins rg rg' c c' sa sa' E E') : IstioParser.FromNs c E = IstioParser.FromNs c' E' := by
  funext s
  refine propext (h.atSome fun p p' hl => ?_)
  have one : ∀ {p p' : PeerInfo}, Like p p' → (∃ n, p.ns = some n ∧ IstioParser.Matches s n.name.toList) → ∃ n, p'.ns = some n ∧ IstioParser.Matches s n.name.toList := by
    rintro p p' hl ⟨n, hn, h⟩
    obtain ⟨n', hn', e, _⟩ := hl.some hn
    exact ⟨n', hn', e ▸ h⟩
  exact ⟨one hl, one hl.symm⟩

theorem Twins.fromPrincipal (h : Twins rg rg' c c' sa sa' E E') : IstioParser.FromPrincipal sa c E = IstioParser.FromPrincipal sa' c' E' := by
  funext s
  have one : ∀ {rg rg' : PodReg} {c c' : Container} {sa sa' : String → List Char} {E E' : Place}, Twins rg rg' c c' sa sa' E E' →
      IstioParser.FromPrincipal sa c E s → IstioParser.FromPrincipal sa' c' E' s := by
    rintro rg rg' c c' sa sa' E E' h ⟨p, hp, hh, k, n, hk, hn, hm⟩
    obtain ⟨q, hq, hqh, hl⟩ := h.fwd p hp hh
    obtain ⟨n', hn', e, _⟩ := hl.some hn
    cases E with
    | ip x =>
      obtain ⟨b, hb, _⟩ := hh
      rw [hk] at hb; cases hb
    | pod j =>
      have hj : p.elem = .pod j := hh
      rw [hk] at hj; cases hj
      cases E' with
      | ip x => exact absurd ((h.ip x).2 rfl) (by simp)
      | pod k' =>
        have := h.accounts k k' rfl rfl ⟨p, hp, hh, n, hn⟩
        exact ⟨q, hq, hqh, k', n', hqh, hn', by rw [← this, ← e]; exact hm⟩
  exact propext ⟨one h, one h.symm⟩

theorem Twins.fromNet (h : Twins rg rg' c c' sa sa' E E') : IstioParser.FromNet E = IstioParser.FromNet E' := by
  funext n
  exact propext (h.netEx _)

theorem Twins.source (h : Twins rg rg' c c' sa sa' E E') (s : IstioParser.Source) : IstioParser.SourceSays sa c s E ↔ IstioParser.SourceSays sa' c' s E' := by
  have one : ∀ {rg rg' : PodReg} {c c' : Container} {sa sa' : String → List Char} {E E' : Place}, Twins rg rg' c c' sa sa' E E' →
      IstioParser.SourceSays sa c s E → IstioParser.SourceSays sa' c' s E' := fun h ⟨a1, a2, a3, a4, a5, a6⟩ =>
    ⟨h.fromNs ▸ a1, h.fromNs ▸ a2, h.fromPrincipal ▸ a3, h.fromPrincipal ▸ a4, h.fromNet ▸ a5, h.fromNet ▸ a6⟩
  exact ⟨one h, one h.symm⟩

theorem Twins.condition (h : Twins rg rg' c c' sa sa' E E') (q : IstioParser.Request) (x : IstioParser.Condition) :
    IstioParser.ConditionSays sa c E q x ↔ IstioParser.ConditionSays sa' c' E' q x := by
  cases x with
  | ip v n => show _ ∧ _ ↔ _ ∧ _; rw [h.fromNet]
  | «namespace» v n => show _ ∧ _ ↔ _ ∧ _; rw [h.fromNs]
  | principal v n => show _ ∧ _ ↔ _ ∧ _; rw [h.fromPrincipal]
  | port v n => rfl

theorem Twins.authMatches (h : Twins rg rg' c c' sa sa' E E') (q : IstioParser.Request) (t : AuthText) : t.Matches sa c E q ↔ t.Matches sa' c' E' q := by
  have one : ∀ {rg rg' : PodReg} {c c' : Container} {sa sa' : String → List Char} {E E' : Place}, Twins rg rg' c c' sa sa' E E' → t.Matches sa c E q → t.Matches sa' c' E' q := by
    rintro rg rg' c c' sa sa' E E' h ⟨s, hs, r, hr, h1, h2, h3⟩
    exact ⟨s, hs, r, hr, fun l hl => (h1 l hl).imp fun x hx => ⟨hx.1, (h.source x).1 hx.2⟩, h2, fun l hl x hx => (h.condition q x).1 (h3 l hl x hx)⟩
  exact ⟨one h, one h.symm⟩

theorem Twins.authApplies (h : Twins rg rg' c c' sa sa' E E') (t : AuthText) : t.Applies c E ↔ t.Applies c' E' := by
  refine exists_congr fun s => and_congr_right fun _ => h.atSome fun p p' hl => ?_
  have hc : IstioParser.Chosen s.selector p ↔ IstioParser.Chosen s.selector p' := by
    unfold IstioParser.Chosen
    rw [hl.hasVal]
  rw [hl.kind, hc]
  simp only [hl.inNs]

/-- Authorization policies say the same of requests between twins. -/
theorem Twins.istio (h : Twins rg rg' c c' sa sa' E E') (h' : Twins rg rg' c c' sa sa' F F') (ts : List AuthText) (q : IstioParser.Request) :
    IstioSays sa c ts E F q ↔ IstioSays sa' c' ts E' F' q := by
  unfold IstioSays
  simp only [h'.authApplies, h.authMatches]

theorem Twins.isKind (h : Twins rg rg' c c' sa sa' E E') (ks : List PeerKind) : IsKind c E ks ↔ IsKind c' E' ks := h.atSome fun p p' hl => by rw [hl.kind]

theorem Twins.sender (h : Twins rg rg' c c' sa sa' E E') : IstioParser.Sender c E ↔ IstioParser.Sender c' E' := by
  have one : ∀ {rg rg' : PodReg} {c c' : Container} {sa sa' : String → List Char} {E E' : Place}, Twins rg rg' c c' sa sa' E E' → IstioParser.Sender c E → IstioParser.Sender c' E' := by
    intro rg rg' c c' sa sa' E E' h hs
    cases E' with
    | ip x => trivial
    | pod k' =>
      cases E with
      | ip x => exact absurd ((h.ip x).1 rfl) (by simp)
      | pod k =>
        obtain ⟨p, hp, hk, hd⟩ := hs
        obtain ⟨q, hq, hqh, hl⟩ := h.fwd p hp hk
        exact ⟨q, hq, hqh, hl.kind ▸ hd⟩
  exact ⟨one h, one h.symm⟩

/-! ### Services and Ingress -/

open IngressParser (SvcText Picks TargetIs)

theorem Twins.svcPicks (h : Twins rg rg' c c' sa sa' E E') (s : SvcText) : Picks c s E ↔ Picks c' s E' :=
  and_congr_right fun _ => h.atSome fun p p' hl => by rw [hl.inNs, hl.hasVal]

theorem Twins.target (h : Twins rg rg' c c' sa sa' E E') (p : IngressParser.SvcPortText) (x : Int) : TargetIs rg p E x ↔ TargetIs rg' p E' x := by
  have one : ∀ {rg rg' : PodReg} {c c' : Container} {sa sa' : String → List Char} {E E' : Place}, Twins rg rg' c c' sa sa' E E' → TargetIs rg p E x → TargetIs rg' p E' x := by
    intro rg rg' c c' sa sa' E E' h ht
    unfold TargetIs at ht ⊢
    split at ht
    · exact ht
    · exact ht
    · obtain ⟨k, rfl, hk⟩ := ht
      cases E' with
      | ip x => exact absurd ((h.ip x).2 rfl) (by simp)
      | pod k' => exact ⟨k', rfl, by rw [← h.named k k' rfl rfl]; exact hk⟩
  exact ⟨one h, one h.symm⟩

theorem Twins.backend (h : Twins rg rg' c c' sa sa' E E') (l : List SvcText) (ns : Ns) (b : IngressParser.Backend) (x : Int) :
    IngressParser.BackendIs rg c l ns b E x ↔ IngressParser.BackendIs rg' c' l ns b E' x := by
  unfold IngressParser.BackendIs IngressParser.LeadsTo
  simp only [h.svcPicks, h.target]

theorem Twins.ingress (h : Twins rg rg' c c' sa sa' E E') (h' : Twins rg rg' c c' sa sa' F F') (l : List SvcText) (ts : List IngressParser.IngressText) (q : IstioParser.Request) :
    IngressParser.GatewaySays rg c l ts E F q ↔ IngressParser.GatewaySays rg' c' l ts E' F' q := by
  unfold IngressParser.GatewaySays IngressParser.Controller IngressParser.Routes
  simp only [h.svcPicks, h'.backend]

/-! ### Sidecars -/

theorem Twins.isDns (h : Twins rg rg' c c' sa sa' E E') (w : List Char) : SidecarParser.IsDns c E w ↔ SidecarParser.IsDns c' E' w := by
  have one : ∀ {rg rg' : PodReg} {c c' : Container} {sa sa' : String → List Char} {E E' : Place}, Twins rg rg' c c' sa sa' E E' → SidecarParser.IsDns c E w → SidecarParser.IsDns c' E' w := by
    rintro rg rg' c c' sa sa' E E' h ⟨p, hp, hh, hk, k, hpk, hw⟩
    obtain ⟨q, hq, hqh, hl⟩ := h.fwd p hp hh
    have e := h.dns p hp hh hk
    subst e
    refine ⟨q, hq, hqh, hl.kind ▸ hk, k, ?_, hw⟩
    cases E with
    | ip x =>
      obtain ⟨b, hb, _⟩ := hh
      rw [hpk] at hb; cases hb
    | pod j =>
      have hh : p.elem = .pod j := hh
      rw [hpk] at hh; cases hh
      exact hqh
  exact ⟨one h, one h.symm⟩

theorem Twins.inSpace (h : Twins rg rg' c c' sa sa' E E') (n : List Char) : SidecarParser.InSpace c E n ↔ SidecarParser.InSpace c' E' n := by
  refine h.atSome fun p p' hl => ?_
  have one : ∀ {p p' : PeerInfo}, Like p p' → (∃ m, p.ns = some m ∧ m.name.toList = n) → ∃ m, p'.ns = some m ∧ m.name.toList = n := by
    rintro p p' hl ⟨m, hm, h⟩
    obtain ⟨m', hm', e, _⟩ := hl.some hm
    exact ⟨m', hm', e ▸ h⟩
  exact ⟨one hl, one hl.symm⟩

theorem Twins.sidecars (h : Twins rg rg' c c' sa sa' E E') (h' : Twins rg rg' c c' sa sa' F F') (l : List SvcText) (ts : List SidecarParser.SidecarText) :
    SidecarParser.SidecarsSay c l ts E F ↔ SidecarParser.SidecarsSay c' l ts E' F' := by
  have ap : ∀ t : SidecarParser.SidecarText, t.Applies c E ↔ t.Applies c' E' := by
    intro t
    refine h.atSome fun p p' hl => ?_
    have hc : IstioParser.Chosen t.selector p ↔ IstioParser.Chosen t.selector p' := by
      unfold IstioParser.Chosen
      rw [hl.hasVal]
    rw [hl.kind, hc]
    simp only [hl.inNs]
  unfold SidecarParser.SidecarsSay SidecarParser.Governs SidecarParser.SidecarText.Reaches SidecarParser.Exposes
  simp only [ap, h.inSpace, h'.svcPicks, h'.isDns, h'.ip]

/-! ### Gateways -/

/-- The clusters have the same gateways that work. -/
def SameWorks (c c' : Container) : Prop := ∀ g : GtwParser.GatewayText, g.Works c ↔ g.Works c'

theorem Twins.runs (h : Twins rg rg' c c' sa sa' E E') (g : GtwParser.GatewayText) : g.Runs c E ↔ g.Runs c' E' := h.atSome fun p p' hl => by rw [hl.kind, hl.hasVal]

theorem Twins.gateways (h : Twins rg rg' c c' sa sa' E E') (h' : Twins rg rg' c c' sa sa' F F') (hw : SameWorks c c') (l : List SvcText) (gs : List GtwParser.GatewayText)
    (vs : List GtwParser.VsText) (q : IstioParser.Request) : GtwParser.GatewaysSay rg c l gs vs E F q ↔ GtwParser.GatewaysSay rg' c' l gs vs E' F' q := by
  have b : ∀ v r g, GtwParser.Binds c v r g ↔ GtwParser.Binds c' v r g := fun v r g => by
    unfold GtwParser.Binds
    rw [hw]
  have ef : GtwParser.EgressFlow c l gs vs ↔ GtwParser.EgressFlow c' l gs vs := by
    unfold GtwParser.EgressFlow
    simp only [b]
  have gp : ∀ kind, GtwParser.GatewayPod c gs vs kind E ↔ GtwParser.GatewayPod c' gs vs kind E' := fun kind => by
    unfold GtwParser.GatewayPod
    simp only [b, h.runs]
  have ld : ∀ (ns : Ns) (d : GtwParser.DestText) x, d.Leads rg c l ns F x ↔ d.Leads rg' c' l ns F' x := fun ns d x => by
    unfold GtwParser.DestText.Leads
    simp only [h'.svcPicks, h'.target, h'.isDns]
  have fw : ∀ kind, GtwParser.Forwards rg c l gs vs kind E F q ↔ GtwParser.Forwards rg' c' l gs vs kind E' F' q := fun kind => by
    unfold GtwParser.Forwards
    simp only [h.runs, ld]
  have ig : GtwParser.IsGateway c l gs vs E ↔ GtwParser.IsGateway c' l gs vs E' := by
    unfold GtwParser.IsGateway
    rw [gp, gp, ef]
  have ve : GtwParser.ViaEgress c gs vs F ↔ GtwParser.ViaEgress c' gs vs F' := by
    unfold GtwParser.ViaEgress
    simp only [b, h'.isDns]
  have im : GtwParser.InMesh c E ↔ GtwParser.InMesh c' E' := h.atSome fun p p' hl => by rw [hl.kind]
  have fm : GtwParser.FromMesh rg c l vs E F q ↔ GtwParser.FromMesh rg' c' l vs E' F' q := by
    unfold GtwParser.FromMesh
    simp only [im, ld]
  unfold GtwParser.GatewaysSay
  simp only [ef, ig, fw, ve, fm, h'.svcPicks]

end

end Topology
end Verif
