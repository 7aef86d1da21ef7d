import Verif.PropsK8sConfig
import Verif.PropsNamedPortsEx
/-!
C44 and C45: witnesses and examples.
-/
namespace Verif
open ISet PeerSet

namespace K8sParser
open Container NamedEx

namespace Ex

/-- The pods `default/a` and `default/b`. -/
def podA : PeerInfo := exPod "a" nsDefault [("app", "web")]
def podB : PeerInfo := exPod "b" nsDefault [("app", "db")]
def cl : Container := [podA, podB]
/-- The pod `default/b` calls its port 80 `http`. -/
def reg : PodReg := [("default/a", []), ("default/b", [("http", 80, "TCP")])]

theorem cluster : Cluster reg cl where
  reach := keys_reach
  ports := legal_ports (by decide)
  uniq := by
    intro p hp q hq h
    simp only [cl, List.mem_cons, List.not_mem_nil, or_false] at hp hq
    rcases hp with rfl | rfl <;> rcases hq with rfl | rfl <;> first | rfl | exact absurd h (by decide +kernel)
  elem := by
    intro p hp
    simp only [cl, List.mem_cons, List.not_mem_nil, or_false] at hp
    rcases hp with rfl | rfl
    · exact ⟨"default/a", by decide +kernel, by decide⟩
    · exact ⟨"default/b", by decide +kernel, by decide⟩
  kind := by
    intro p hp
    simp only [cl, List.mem_cons, List.not_mem_nil, or_false] at hp
    rcases hp with rfl | rfl <;> exact Or.inl ⟨rfl, _, rfl⟩

theorem src_at {port proto : Int} (hp : 1 ≤ port ∧ port ≤ 65535) (hq : 0 ≤ proto ∧ proto ≤ 255) :
    (End.peer podA).At reg cl ((pt port proto hp hq).1 .srcPeers) :=
  ⟨by simp [cl], 0, "default/a", rfl, by decide, by decide +kernel⟩

theorem dst_at {port proto : Int} (hp : 1 ≤ port ∧ port ≤ 65535) (hq : 0 ≤ proto ∧ proto ≤ 255) :
    (End.peer podB).At reg cl ((pt port proto hp hq).1 .dstPeers) :=
  ⟨by simp [cl], 1, "default/b", rfl, by decide, by decide +kernel⟩

/-- Pods with `app: db` take connections from pods with `app: web` to the port `http`, and from 10.0.0.0/8 to the UDP
ports 5000 to 5010. -/
def spec : PolicySpec where
  podSelector := ⟨[("app", "db")], []⟩
  ingress := .list [⟨[⟨some ⟨[("app", "web")], []⟩, none, none⟩], [⟨some (.name "http"), none, none⟩]⟩,
    ⟨[⟨none, none, some (⟨⟨false, 10 * 2 ^ 24, by decide⟩, 8, by decide⟩, [])⟩], [⟨some (.num 5000), some "UDP", some 5010⟩]⟩]
  egress := .absent
  types := [.ingress]

def text : PolicyText := ⟨"db", nsDefault, some spec⟩

theorem accepted (ord : SetOrder) : ∃ q, parseSpec A2 PeerDom.default ord reg cl nsDefault spec = some q := by
  rw [C44_accepted L2 cluster]
  refine ⟨Or.inr (Or.inl rfl), fun _ => Or.inr (by simp [spec]), fun h => absurd h (by simp [spec, RuleField.notNull]),
    fun r hr => absurd hr (by simp [spec]), fun d r hr => ?_⟩
  cases d
  · simp [PolicySpec.rules, spec, RuleField.rules] at hr
  · simp only [PolicySpec.rules, spec, RuleField.rules, if_true, List.mem_cons, List.not_mem_nil, or_false] at hr
    rcases hr with rfl | rfl
    · refine ⟨fun pp hpp => ?_, fun q hq => ?_⟩
      · rw [List.mem_singleton] at hpp; subst hpp
        refine ⟨Or.inl (by simp), fun s hs => ?_, fun s hs => by cases hs⟩
        cases hs; intro r hr; cases hr
      · rw [List.mem_singleton] at hq; subst hq
        exact ⟨fun s hs => (by cases hs), (⟨rfl, by decide⟩ : _ ∧ validName "http" = true)⟩
    · refine ⟨fun pp hpp => ?_, fun q hq => ?_⟩
      · rw [List.mem_singleton] at hpp; subst hpp
        exact ⟨rfl, rfl, fun e he => by cases he⟩
      · rw [List.mem_singleton] at hq; subst hq
        refine ⟨fun s hs => by cases hs; decide, ?_⟩
        exact (by decide : (1 : Int) ≤ 5000 ∧ (5000 : Int) ≤ 5010 ∧ (5010 : Int) ≤ 65535)

theorem tame : TameText cl text := by
  intro s hs
  cases hs
  refine ⟨fun h => absurd h.1 (by simp [spec]), fun d r hr pp hpp p hp n hn => ⟨fun s hs => ?_, Or.inr ?_⟩⟩
  · cases d
    · simp [PolicySpec.rules, spec, RuleField.rules] at hr
    · simp only [PolicySpec.rules, spec, RuleField.rules, if_true, List.mem_cons, List.not_mem_nil, or_false] at hr
      rcases hr with rfl | rfl <;> (rw [List.mem_singleton] at hpp; subst hpp; cases hs)
  · simp only [cl, List.mem_cons, List.not_mem_nil, or_false] at hp
    rcases hp with rfl | rfl <;> (cases hn; rfl)

/-- The domain of a query on the configuration. -/
theorem domain : ∃ B : PeerDom, queryDom reg [cl] = some B.idx ∧ Covers reg cl B := by
  obtain ⟨B, h1, h2⟩ := C46_domain (cs := [cl]) (fun c hc => by rw [List.mem_singleton] at hc; subst hc; exact cluster) (by simp)
  exact ⟨B, h1, covers_of_domain h2 (by simp)⟩

/-- The connection from `default/a` to `default/b`, over the domain. -/
def onDom {B : PeerDom} (hB : Covers reg cl B) (port proto : Int) (hp : 1 ≤ port ∧ port ≤ 65535) (hq : 0 ≤ proto ∧ proto ≤ 255) :
    Point (connA A2 B) :=
  (pt port proto hp hq).toDom
    (fun z hz => hB z (.peer podA) (by have := src_at hp hq; rw [hz] at this; exact at_empty this))
    (fun z hz => hB z (.peer podB) (by have := dst_at hp hq; rw [hz] at this; exact at_empty this))

/-- The configuration of one text. -/
theorem config_of_one {B : PeerDom} {t : PolicyText} {q : Parsed ISet} {ord : SetOrder} (h : parsePolicy A2 PeerDom.default ord reg cl t = some q) :
    policiesOf A2 W2 B ord reg cl [t] = some [toPolicy A2 W2 B reg t q] ∧
    ∃ st, PolicyStore.build [toPolicy A2 W2 B reg t q] = some st := by
  refine ⟨by unfold policiesOf; simp [h], ?_⟩
  rw [build_some_iff]
  exact List.pairwise_singleton _ _

/-- Non-vacuity of C44 and C45: `default/a` may connect to port 80 of `default/b` over TCP, and not to port 81, as the
text says. -/
example (ord : SetOrder) : ∃ (B : PeerDom) (pols : _) (st : _), queryDom reg [cl] = some B.idx ∧ policiesOf A2 W2 B ord reg cl [text] = some pols ∧ PolicyStore.build pols = some st ∧
    (∃ p : Point (connA A2 B), p.1 = (pt 80 6 (by decide) (by decide)).1 ∧ (connNet L2 B).K.mem p
      (configConns (connNet L2 B).toNet (clusterPeers A2 W2 B reg cl) st.layers ⟨false, false, false, true⟩).allAllowed = true) ∧
    (∃ p : Point (connA A2 B), p.1 = (pt 81 6 (by decide) (by decide)).1 ∧ (connNet L2 B).K.mem p
      (configConns (connNet L2 B).toNet (clusterPeers A2 W2 B reg cl) st.layers ⟨false, false, false, true⟩).allAllowed = false) := by
  obtain ⟨B, hd, hB⟩ := domain
  obtain ⟨q, hq⟩ := accepted ord
  obtain ⟨h1, st, h2⟩ := config_of_one (t := text) hq
  have ht : ∀ t ∈ [text], TameText cl t := by
    intro t ht; rw [List.mem_singleton] at ht; subst ht; exact tame
  have happ : Applies nsDefault spec.podSelector (.peer podB) := by
    refine ⟨rfl, ⟨nsDefault, rfl, rfl⟩, fun kv hkv => ?_, fun r hr => by cases hr⟩
    simp only [spec, List.mem_singleton] at hkv; subst hkv; exact Or.inl (by decide)
  have hnot : ¬ Isolated [text] false (.peer podA) := by
    rintro ⟨t, ht, s, hs, hg, _⟩
    rw [List.mem_singleton] at ht; subst ht; cases hs
    rcases hg with hg | hg
    · simp [spec] at hg
    · simp [spec] at hg
  refine ⟨B, _, st, hd, h1, h2, ⟨onDom hB 80 6 (by decide) (by decide), rfl, ?_⟩, ⟨onDom hB 81 6 (by decide) (by decide), rfl, ?_⟩⟩
  · rw [C45_config_partial L2 cluster hB [text] ht h1 h2 _ rfl (onDom hB 80 6 (by decide) (by decide)) (.peer podA) (.peer podB) 6 80 (src_at (port := 80) (proto := 6) (by decide) (by decide))
      (dst_at (port := 80) (proto := 6) (by decide) (by decide)) rfl rfl (Or.inl rfl)]
    refine ⟨fun h => absurd h hnot, fun _ => ⟨text, by simp, spec, rfl, Or.inr (by simp [spec]), happ, _, List.mem_cons_self .., ?_⟩⟩
    refine ⟨Or.inr ⟨_, List.mem_singleton.2 rfl, rfl, rfl, nsDefault, rfl, rfl, fun kv hkv => ?_, fun r hr => by cases hr⟩,
      Or.inr ⟨_, List.mem_singleton.2 rfl, rfl, podB, "default/b", "TCP", rfl, by decide +kernel, by decide, by decide⟩⟩
    rw [List.mem_singleton] at hkv; subst hkv; exact Or.inl (by decide)
  · rw [← Bool.not_eq_true, C45_config_partial L2 cluster hB [text] ht h1 h2 _ rfl (onDom hB 81 6 (by decide) (by decide)) (.peer podA) (.peer podB) 6 81 (src_at (port := 81) (proto := 6) (by decide) (by decide))
      (dst_at (port := 81) (proto := 6) (by decide) (by decide)) rfl rfl (Or.inl rfl)]
    rintro ⟨_, h⟩
    obtain ⟨t, ht, s, hs, _, _, r, hr, _, hp⟩ := h ⟨text, by simp, spec, rfl, Or.inr (by simp [spec]), happ⟩
    rw [List.mem_singleton] at ht; subst ht; cases hs
    simp only [PolicySpec.rules, spec, RuleField.rules, if_true, List.mem_cons, List.not_mem_nil, or_false] at hr
    rcases hr with rfl | rfl
    · rcases hp with hp | ⟨e, he, _, hm⟩
      · cases hp
      · rw [List.mem_singleton] at he; subst he
        obtain ⟨p, k, pr, hp, hk, hl, _⟩ := hm
        cases hp
        have : k = "default/b" := by
          have h : podB.elem = .pod "default/b" := by decide +kernel
          rw [h] at hk; cases hk; rfl
        subst this
        exact absurd hl (by simp [reg, PodReg.named, List.lookup])
    · rcases hp with hp | ⟨e, he, hp, _⟩
      · cases hp
      · rw [List.mem_singleton] at he; subst he
        exact absurd hp (by decide)

/-- A policy for all pods of the namespace with an empty egress field and no policy types. -/
def emptySpec : PolicySpec := ⟨⟨[("app", "web")], []⟩, .list [], .list [], []⟩

/-- C44, finding: without `policyTypes`, an empty list of egress rules makes the program treat the policy as one for
egress; Kubernetes adds `Egress` to the types only if the policy has an egress rule. -/
theorem C44_empty_egress_wrong (ord : SetOrder) :
    ∃ q, parseSpec A2 PeerDom.default ord reg cl nsDefault emptySpec = some q ∧ q.affectsEgress = true ∧ ¬ emptySpec.GovernsEgress := by
  have hd : ∃ q, parseSpec A2 PeerDom.default ord reg cl nsDefault emptySpec = some q := by
    rw [C44_accepted L2 cluster]
    exact ⟨Or.inl rfl, fun _ => Or.inl rfl, fun _ => Or.inl rfl, fun r hr => (by cases hr), fun d r hr => by cases d <;> cases hr⟩
  obtain ⟨q, hq⟩ := hd
  refine ⟨q, hq, ?_, ?_⟩
  · rw [(parseSpec_some hq).2.2.2]; rfl
  · rintro (h | h)
    · cases h
    · exact h.2 rfl

/-- C45, finding: with that policy alone, `default/a` may not connect to `default/b`, although no policy of the
configuration governs egress of `default/a` or applies to `default/b`. -/
theorem C45_empty_egress_wrong (ord : SetOrder) : ∃ (B : PeerDom) (pols : _) (st : _), queryDom reg [cl] = some B.idx ∧
    policiesOf A2 W2 B ord reg cl [⟨"web", nsDefault, some emptySpec⟩] = some pols ∧
    PolicyStore.build pols = some st ∧
    (∃ p : Point (connA A2 B), p.1 = (pt 80 6 (by decide) (by decide)).1 ∧ (connNet L2 B).K.mem p
      (configConns (connNet L2 B).toNet (clusterPeers A2 W2 B reg cl) st.layers ⟨false, false, false, true⟩).allAllowed = false) ∧
    K8sSays reg [⟨"web", nsDefault, some emptySpec⟩] (.peer podA) (.peer podB) 6 80 := by
  obtain ⟨B, hd, hB⟩ := domain
  obtain ⟨q, hq, hg, hng⟩ := C44_empty_egress_wrong ord
  obtain ⟨h1, st, h2⟩ := config_of_one (t := ⟨"web", nsDefault, some emptySpec⟩) hq
  obtain ⟨s1, s2, s3, s4⟩ := parseSpec_some hq
  obtain ⟨b1, b2, b3, b4⟩ := selectedPods_sem cluster s1
  have hi : q.ingress = [] := by
    have := s2 true
    change List.mapM _ [] = some q.ingress at this
    simp at this; exact this
  have he : q.egress = [] := by
    have := s2 false
    change List.mapM _ [] = some q.egress at this
    simp at this; exact this
  refine ⟨B, _, st, hd, h1, h2, ⟨onDom hB 80 6 (by decide) (by decide), rfl, ?_⟩, ?_, ?_⟩
  · rw [← Bool.not_eq_true, C27_additive (connNet_lawful L2 B).1.net [toPolicy A2 W2 B reg ⟨"web", nsDefault, some emptySpec⟩ q]
      (fun pol hpol => by rw [List.mem_singleton] at hpol; subst hpol; rfl)
      (fun pol hpol => by
        rw [List.mem_singleton] at hpol; subst hpol
        refine ⟨fun d r hr => ?_, fun d r hr => ?_⟩ <;>
          (rw [toPolicy_rules] at hr; cases d <;> simp [Parsed.rules, hi, he] at hr))
      h2 (clusterPeers A2 W2 B reg cl) _ rfl (Or.inr (no_heps L2 cluster hB))]
    rintro ⟨_, _, _, h⟩
    have hcap : (toPolicy A2 W2 B reg ⟨"web", nsDefault, some emptySpec⟩ q).captures (connNet L2 B).toNet false
        (endpoint (connNet L2 B).toNet false (onDom hB 80 6 (by decide) (by decide))) = true := by
      unfold Policy.captures
      rw [toPolicy_governs, Bool.and_eq_true]
      refine ⟨hg, ?_⟩
      refine (peersVal_end L2 cluster hB ⟨b1, b2⟩ (src_at (port := 80) (proto := 6) (by decide) (by decide))).2 ?_
      have hk : podA.elem = .pod "default/a" := by decide +kernel
      refine ⟨_, hk, (b4 podA (by simp [cl]) _ hk).2 ⟨rfl, ⟨nsDefault, rfl, rfl⟩, fun kv hkv => ?_, fun r hr => by cases hr⟩⟩
      simp only [emptySpec, List.mem_singleton] at hkv; subst hkv; exact Or.inl (by decide)
    rcases h with (⟨pol, hp, _, r, hr, _⟩ | ⟨hn, _⟩) | ⟨h, _⟩
    · rw [List.mem_singleton] at hp; subst hp
      rw [toPolicy_rules] at hr
      simp [Parsed.rules, he] at hr
    · have := hn _ (List.mem_singleton.2 rfl)
      rw [hcap] at this; cases this
    · have := (cluster_classes (A2 := A2) L2 cluster hB (src_at (port := 80) (proto := 6) (by decide) (by decide))).2.2.1.1 h
      obtain ⟨x, hx⟩ := this; cases hx
  · rintro ⟨t, ht, s, hs, hgov, _⟩
    rw [List.mem_singleton] at ht; subst ht; cases hs
    exact absurd hgov hng
  · rintro ⟨t, ht, s, hs, _, ha⟩
    rw [List.mem_singleton] at ht; subst ht; cases hs
    have := ha.2.2.1 _ (List.mem_singleton.2 rfl)
    rcases this with h | h
    · exact absurd h (by decide)
    · exact absurd h (by decide)

/-- C44, finding: `policyTypes: [Egress, Ingress]` is rejected. -/
theorem C44_types_order_rejected (ord : SetOrder) :
    parseSpec A2 PeerDom.default ord reg cl nsDefault { spec with types := [.egress, .ingress] } = none := by
  cases h : parseSpec A2 PeerDom.default ord reg cl nsDefault { spec with types := [.egress, .ingress] } with
  | none => rfl
  | some q =>
    have := ((C44_accepted L2 cluster nsDefault _).1 ⟨q, h⟩).1
    simp at this

end Ex
end K8sParser
end Verif
