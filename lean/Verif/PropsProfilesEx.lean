import Verif.PropsProfilesConfig
import Verif.PropsTopologyEx
import Verif.PropsCalicoConfigEx
/-!
C63: witnesses and examples.
-/
namespace Verif
open ISet PeerSet

namespace PolicyDocs
open Container Topology CalicoParser

namespace Ex
open K8sParser (nsDefault)
open K8sParser.Ex (cl reg podA podB)

variable {V2 X2 : Type} {K : CharCls} {A2 : VAlg Dim V2 X2} {B : PeerDom} {ord : SetOrder} {rg : PodReg}

/-- A profile with labels only. -/
def plain (name : String) (labels : Labels) : ProfileText := ⟨name, labels, ⟨false, none, none, none, none, none, none, []⟩⟩
/-- Its document. -/
def profile {δ : Type} (t : ProfileText) : Yaml δ := .map (some "Profile") (some "projectcalico.org/v3") [] (.profile t)
/-- A document of a policy of Calico. -/
def policy {δ : Type} (d : δ) : Yaml δ := .map (some "GlobalNetworkPolicy") (some "projectcalico.org/v3") [] (.policy d)

theorem plain_plain (name : String) (labels : Labels) : (plain name labels).Plain := ⟨rfl, rfl, rfl, rfl, rfl, fun s h => by cases h⟩

/-- A host endpoint. -/
def host (labels : Labels) (profiles : List String) : PeerObj := ⟨⟨.pod "node1", .hep, none, labels, [], true⟩, [], "", profiles, "node1", "node1"⟩

/-- C63, finding: a label of a profile does not give way to that of the endpoint: both `role == a` and `role == b` hold. -/
theorem C63_own_wrong : ∃ s, readDocs (δ := Unit) K A2 B ord rg (fun _ _ => true) [host [("role", "a")] ["p"]] [profile (plain "p" [("role", "b")])] = some s ∧
    calicoLabel [plain "p" [("role", "b")]] [("role", "a")] ["p"] "role" = some "a" ∧
    ∃ o ∈ s.objs, o.info.HasVal "role" "a" ∧ o.info.HasVal "role" "b" :=
  ⟨_, rfl, by decide, _, List.mem_singleton.2 rfl, .inl (by decide), .inr (by decide)⟩

/-- C63, finding: of two profiles with a label, the first in the input counts, in whatever order the endpoint has them: with
the documents in another order, the endpoint has another label. -/
theorem C63_order_wrong : ∃ s s' p q, p = plain "p" [("role", "a")] ∧ q = plain "q" [("role", "b")] ∧
    readDocs (δ := Unit) K A2 B ord rg (fun _ _ => true) [host [] ["p", "q"]] [profile p, profile q] = some s ∧
    readDocs (δ := Unit) K A2 B ord rg (fun _ _ => true) [host [] ["p", "q"]] [profile q, profile p] = some s' ∧
    calicoLabel [p, q] [] ["p", "q"] "role" = some "a" ∧ calicoLabel [q, p] [] ["p", "q"] "role" = some "a" ∧
    (∀ o ∈ s.objs, o.info.HasVal "role" "a" ∧ ¬ o.info.HasVal "role" "b") ∧ ∀ o ∈ s'.objs, o.info.HasVal "role" "b" ∧ ¬ o.info.HasVal "role" "a" := by
  refine ⟨_, _, _, _, rfl, rfl, rfl, rfl, by decide, by decide, fun o ho => ?_, fun o ho => ?_⟩
  · rw [List.mem_singleton.1 ho]
    exact ⟨.inr (by decide), by rintro (h | h) <;> revert h <;> decide⟩
  · rw [List.mem_singleton.1 ho]
    exact ⟨.inr (by decide), by rintro (h | h) <;> revert h <;> decide⟩

/-- Two pods of a cluster, the second with a profile. -/
def pods : List PeerObj := [⟨podA, [], "", [], "default/a", "default/a"⟩, ⟨podB, [], "", ["p"], "default/b", "default/b"⟩]

/-- A profile that denies all ingress. -/
def denying : ProfileText := ⟨"p", [], ⟨false, none, none, none, none, some [⟨"Deny", none, none, none, none, none, none⟩], none, []⟩⟩

theorem denying_parsed (ord : SetOrder) : parseProfile asc NamedEx.A2 PeerDom.default ord reg pods denying = some pods := by
  have hc : pods.map PeerObj.info = cl := rfl
  have hm : RuleMeans asc ⟨"Deny", none, none, none, none, none, none⟩ (CfgEx.simpleR true) := ⟨by constructor, .none, .none, rfl, rfl, .none, .none⟩
  obtain ⟨pr, h, _⟩ := C48_rule_partial NamedEx.L2 (ord := ord) asc_ok CfgEx.cluster (ns := none) hm
    ⟨fun e he => (by rcases he with he | he <;> cases he), fun i h => (by rcases h with h | h <;> cases h)⟩
    ⟨fun e he => (by rcases he with he | he <;> cases he), fun e l he => (by cases he), fun e l l' he => (by cases he), fun p q hp => (by cases hp),
      fun i h => (by rcases h with h | h <;> cases h), fun i j h => (by cases h)⟩
    (selected := [.pod "default/b"]) ⟨fun b hb => (by simp at hb), fun k hk => by
      have : k = "default/b" := by simpa [PeerSet.HasPod] using hk
      subst this
      exact ⟨podB, by simp [cl], by decide +kernel⟩⟩ true
  have hs : ((profilePods pods "p" true).map fun o => o.info.elem) = [.pod "default/b"] := rfl
  unfold parseProfile
  simp only [denying, hc, hs, given, affectsIngress, affectsEgress, Option.getD]
  simp [h]
  rfl

/-- C63, finding: the rules of a profile have no effect.  With a profile that denies all ingress the configuration is as if it had
none. -/
theorem C63_rules_wrong (ord : SetOrder) : ∃ s, readDocs (δ := Unit) asc NamedEx.A2 PeerDom.default ord reg (fun _ _ => true) pods [profile denying] = some s ∧
    s.done = [] ∧ s.objs = pods := by
  refine ⟨⟨pods, []⟩, ?_, rfl, rfl⟩
  have h1 : policyType (some "Profile") (some "projectcalico.org/v3") = .calicoProfile := by decide +kernel
  have h2 : gate .calicoProfile "projectcalico.org/v3" = some true := by decide +kernel
  have h3 : clearExtra pods = pods := rfl
  simp [readDocs, profile, Yaml.enqueueAll, Yaml.enqueue, h1, parseOne, h2, h3, denying_parsed]

/-- C63, finding: an Ingress of the version `extensions/v1beta1` has no effect, and there is no error; for
`networking.k8s.io/v1beta1` there is one. -/
theorem C63_old_ingress_wrong : (∃ s, readDocs K A2 B ord rg (fun _ _ => true) [] [.map (some "Ingress") (some "extensions/v1beta1") [] (.policy ())] = some s ∧ s.done = []) ∧
    readDocs K A2 B ord rg (fun _ _ => true) [] [.map (some "Ingress") (some "networking.k8s.io/v1beta1") [] (.policy ())] = none := by
  refine ⟨⟨⟨[], []⟩, ?_, rfl⟩, ?_⟩
  · have h1 : policyType (some "Ingress") (some "extensions/v1beta1") = .ingress := by decide +kernel
    have h2 : gate .ingress "extensions/v1beta1" = some false := by decide +kernel
    simp [readDocs, Yaml.enqueueAll, Yaml.enqueue, h1, parseOne, h2, clearExtra]
  · have h1 : policyType (some "Ingress") (some "networking.k8s.io/v1beta1") = .ingress := by decide +kernel
    have h2 : gate .ingress "networking.k8s.io/v1beta1" = none := by decide +kernel
    simp [readDocs, Yaml.enqueueAll, Yaml.enqueue, h1, parseOne, h2]

/-! ### A configuration -/

/-- A policy that allows all ingress of the endpoints with `tier: front`. -/
def front : CalicoText := ⟨true, none, none, some "tier == 'front'".toList, none, some [⟨"Allow", none, none, none, none, none, none⟩], none, ["Ingress"]⟩
/-- Its meaning. -/
def frontM : PolicyMeaning := ⟨none, some (.atom (.eq "tier" "front")), none, [CfgEx.simpleR false], []⟩

theorem front_means : PolicyMeans asc nsDefault front frontM :=
  ⟨rfl, .some (CalicoParser.Ex.isEq (k := "tier") (v := "front") (by decide) (by decide)), .none, .cons ⟨by constructor, .none, .none, rfl, rfl, .none, .none⟩ .nil, .nil⟩

/-- The profiles of the host endpoint `node1`. -/
def profs : List ProfileText := [plain "p1" [("tier", "front")], plain "p2" [("tier", "front"), ("zone", "x")]]

/-- The policy, with the profiles around it. -/
def docs : List (Yaml CalicoParser.Doc) := [profile (plain "p1" [("tier", "front")]), policy (.calico "front" front), .other,
  .map (some "ProfileList") (some "projectcalico.org/v3") [profile (plain "p2" [("tier", "front"), ("zone", "x")])] (.policy (.calico "none" front))]

theorem one_doc {δ : Type} {k a : String} {items : List (Yaml δ)} {body : Body δ} (h1 : ¬ (k = "" ∨ a = "")) (h2 : ¬ "List".toList <:+ k.toList) :
    Yaml.docs (.map (some k) (some a) items body) = [(k, a, body)] := by
  rw [Yaml.docs, if_neg h1, if_neg h2]

theorem list_docs {δ : Type} {k a : String} {items : List (Yaml δ)} {body : Body δ} (h1 : ¬ (k = "" ∨ a = "")) (h2 : "List".toList <:+ k.toList) :
    Yaml.docs (.map (some k) (some a) items body) = Yaml.docsAll items := by
  rw [Yaml.docs, if_neg h1, if_pos h2]

theorem docs_all : Yaml.docsAll docs = [("Profile", "projectcalico.org/v3", .profile (plain "p1" [("tier", "front")])),
    ("GlobalNetworkPolicy", "projectcalico.org/v3", .policy (.calico "front" front)),
    ("Profile", "projectcalico.org/v3", .profile (plain "p2" [("tier", "front"), ("zone", "x")]))] := by
  have one : ∀ t, Yaml.docs (profile (δ := CalicoParser.Doc) t) = [("Profile", "projectcalico.org/v3", .profile t)] := fun t => one_doc (by decide) (by decide)
  have two : ∀ d, Yaml.docs (policy (δ := CalicoParser.Doc) d) = [("GlobalNetworkPolicy", "projectcalico.org/v3", .policy d)] := fun t => one_doc (by decide) (by decide)
  unfold docs
  rw [Yaml.docsAll, Yaml.docsAll, Yaml.docsAll, Yaml.docsAll, Yaml.docsAll, one, two, list_docs (by decide) (by decide), Yaml.docsAll, Yaml.docsAll, one]
  rfl

theorem docs_profiles : profilesOf docs = profs := by
  unfold profilesOf
  rw [docs_all]
  have h : (PType.calicoProfile, "Profile", "projectcalico.org/v3") ∈ supported := by decide
  simp [h, profs]

theorem docs_policies : policiesOf docs = [.calico "front" front] := by
  unfold policiesOf
  rw [docs_all]
  have h : ∃ e ∈ supported, e.1 ≠ .calicoProfile ∧ e.2 = ("GlobalNetworkPolicy", "projectcalico.org/v3") := by decide
  simp only [List.filterMap_cons, List.filterMap_nil, if_pos h]

theorem profs_tame : ProfilesTame 1 Topology.Ex.docs profs where
  names := by decide
  keys := by decide
  agree := by
    intro m hm
    rw [Topology.Ex.members_docs] at hm
    simp only [List.mem_cons, List.not_mem_nil, or_false] at hm
    have none : ∀ l, Agree profs l [] := fun l => ⟨fun p _ p' _ h => (by cases h), fun p _ h => by cases h⟩
    rcases hm with rfl | rfl | rfl | rfl | rfl | rfl | rfl
    case inr.inr.inr.inr.inl =>
      constructor
      · intro p hp p' hp' _ _ k v v' h h'
        simp only [profs, List.mem_cons, List.not_mem_nil, or_false] at hp hp'
        rcases hp with rfl | rfl <;> rcases hp' with rfl | rfl <;> simp only [plain, List.lookup_cons, List.lookup_nil] at h h' <;>
          split at h <;> simp_all
      · intro p hp _ k v v' h h'
        simp only [profs, List.mem_cons, List.not_mem_nil, or_false] at hp
        simp only [Topology.Ex.mNode, List.lookup_cons, List.lookup_nil] at h
        split at h
        · rename_i hk
          have : k = "role" := by simpa using hk
          subst this
          have h0 : ∀ p ∈ profs, p.labels.lookup "role" = Option.none := by decide
          rw [h0 p (by rcases hp with rfl | rfl <;> simp [profs])] at h'
          cases h'
        · cases h
    all_goals exact none _

/-- The input is accepted. -/
theorem docs_read (ord : SetOrder) (rg : PodReg) (objs : List PeerObj) : ∃ s, readDocs asc NamedEx.A2 PeerDom.default ord rg (fun _ _ => true) objs docs = some s := by
  refine C63_accepts objs fun d hd => .inr ?_
  rw [docs_all] at hd
  simp only [List.mem_cons, List.not_mem_nil, or_false] at hd
  rcases hd with rfl | rfl | rfl
  · exact .inl ⟨_, rfl, plain_plain _ _, by decide⟩
  · exact .inr ⟨_, .calicoGlobal, rfl, by decide, by decide, rfl⟩
  · exact .inl ⟨_, rfl, plain_plain _ _, by decide⟩

/-- Connections from a pod to the host endpoint are allowed, since a profile gives it a label that the policy selects. -/
theorem front_says (q : Conn) : CalicoSays (fullReg 1 Topology.Ex.docs) (dressedCluster 1 Topology.Ex.cidrs Topology.Ex.docs profs) [.calico front frontM]
    (.pod "shop/web-3") (.pod "node1") q := by
  have hf := C63_full Topology.Ex.tame profs_tame
  obtain ⟨p, hp, d⟩ := hf.all Topology.Ex.mNode (by rw [Topology.Ex.members_docs]; simp)
  obtain ⟨p', hp', d'⟩ := hf.all (Topology.Ex.mWeb "web-3") (by rw [Topology.Ex.members_docs]; simp)
  have hpe : p.elem = .pod "node1" := (d.name (by decide)).trans (by decide)
  have hpe' : p'.elem = .pod "shop/web-3" := (d'.name (by decide)).trans (by decide)
  have hk : p.kind = .hep := d.kind
  have hk' : p'.kind = .pod := d'.kind
  have hl : p.HasVal "tier" "front" := (d.labels _ _).2 (by decide)
  have cap : Item.Captures (dressedCluster 1 Topology.Ex.cidrs Topology.Ex.docs profs) true (.pod "node1") (.calico front frontM) :=
    ⟨.inl (List.mem_singleton.2 rfl), p, hp, hpe, .inr hk, by rw [hk]; simp, fun n h => (by cases h), fun s h => (by
      cases h
      exact ⟨by rw [hk]; simp, fun n h => (by cases h), hl⟩), fun s h => (by cases h)⟩
  have ver : Item.Verdict (fullReg 1 Topology.Ex.docs) (dressedCluster 1 Topology.Ex.cidrs Topology.Ex.docs profs) true (.pod "shop/web-3") (.pod "node1") q .allow (.calico front frontM) :=
    ⟨[], CfgEx.simpleR false, [], rfl, rfl, by simp, ⟨fun e h => (by cases h), fun e h => (by cases h), fun p h => (by cases h), fun p h => (by cases h),
      fun i h => (by cases h), fun i h => (by cases h)⟩, fun r h => (by cases h)⟩
  refine ⟨.inr (.inl ⟨[], _, [], rfl, ⟨cap, _, ver⟩, ver, fun y hy => (by cases hy), fun y hy => (by cases hy)⟩), .inr (.inr ⟨.inr fun i hi => ?_, p', hp', hpe', by show p'.kind ∈ _; rw [hk']; simp⟩)⟩
  rw [List.mem_singleton.1 hi]
  rintro ⟨h, _⟩
  rcases h with h | h
  · exact absurd (List.mem_singleton.1 h) (by decide)
  · cases h.1

/-- The theorem applies: the program says so, too. -/
example (ord : SetOrder) : ∃ t s B pols st R R', Topology.read Topology.Ex.cidrs ord [] Topology.Ex.docs = some t ∧
    readDocs asc NamedEx.A2 PeerDom.default ord t.reg (fun _ _ => true) t.peers docs = some s ∧
    K8sParser.queryDom t.reg [s.objs.map PeerObj.info] = some B.idx ∧
    parsedPolicies asc NamedEx.A2 NamedEx.W2 B ord t.reg nsDefault s.done = some pols ∧ PolicyStore.build pols = some st ∧ R ≠ R' ∧
    PlaceFor 1 Topology.Ex.docs t (.pod "shop/web-3") R ∧ PlaceFor 1 Topology.Ex.docs t (.pod "node1") R' ∧
    ∀ (p : Point (connA NamedEx.A2 B)) (q : Conn), IsConn t.reg (s.objs.map PeerObj.info) p R R' q →
      (connNet NamedEx.L2 B).K.mem p (configConns (connNet NamedEx.L2 B).toNet (calicoPeers NamedEx.A2 NamedEx.W2 B t.reg (s.objs.map PeerObj.info)) st.layers
        ⟨false, false, false, true⟩).allAllowed = true := by
  obtain ⟨t, e, hC⟩ := Topology.Ex.calico ord
  obtain ⟨s, hs⟩ := docs_read ord t.reg t.peers
  have hps : ProfilesTame 1 Topology.Ex.docs (profilesOf docs) := by rw [docs_profiles]; exact profs_tame
  obtain ⟨e1, e2⟩ := readDocs_eq hs
  have ec : s.objs.map PeerObj.info = dress (profilesOf docs) t.peers := by rw [e1, List.map_map]; rfl
  have hC' : CalCluster t.reg (s.objs.map PeerObj.info) := by rw [ec]; exact dress_cluster Topology.Ex.tame .empty e hC
  obtain ⟨B, hq, _, hB⟩ := C49_domain (cs := [s.objs.map PeerObj.info]) (fun c hc => by rw [List.mem_singleton] at hc; subst hc; exact hC') (by simp)
  have hm : List.Forall₂ (CalicoParser.Doc.Means asc nsDefault) (policiesOf docs) [Item.calico front frontM] := by
    rw [docs_policies]; exact .cons (.calico _ _ _ front_means) .nil
  have hi : ∀ i ∈ [Item.calico front frontM], i.Tame (s.objs.map PeerObj.info) := by
    intro i hi
    rw [List.mem_singleton.1 hi]
    refine ⟨⟨fun _ => (by simp [front]), fun h => (by cases h), fun s hs => Or.inl (List.mem_singleton.1 hs), fun s h => (by cases h; simp [Sel.Mentions]), fun r hr => ?_⟩,
      ⟨fun p hp hc => ?_, fun h => (by cases h), fun _ _ => List.mem_singleton.2 rfl, fun _ h => (by cases h), .cons ?_ .nil, .nil⟩, fun d r hr => ?_⟩
    · simp only [frontM, List.append_nil, List.mem_singleton] at hr
      subst hr
      exact ⟨fun e he => (by rcases he with he | he <;> cases he), fun i h => (by rcases h with h | h <;> cases h)⟩
    · rw [ec] at hp
      obtain ⟨o, ho, rfl⟩ := dress_mem hp
      obtain ⟨m, hm, dm⟩ := C61_described Topology.Ex.tame .empty e o ho
      have dm := describes_dressed hps hm dm
      have hv := (dm.labels "tier" "front").1 ((hc.2.2.1 _ rfl).2.2)
      rw [dm.kind]
      rw [docs_profiles] at hv
      rw [Topology.Ex.members_docs] at hm
      simp only [List.mem_cons, List.not_mem_nil, or_false] at hm
      rcases hm with rfl | rfl | rfl | rfl | rfl | rfl | rfl <;> first | (revert hv; decide; done) | decide
    · exact ⟨fun e he => (by rcases he with he | he <;> cases he), fun e l he => (by cases he), fun e l l' he => (by cases he), fun p q hp => (by cases hp),
        fun i h => (by rcases h with h | h <;> cases h), fun i j h => (by cases h)⟩
    · cases d
      · cases hr
      · have : r = CfgEx.simpleR false := by simpa [PolicyMeaning.rules, frontM] using hr
        subst this
        simp [CfgEx.simpleR]
  have hk : ∀ x, Item.k8s x ∈ [Item.calico front frontM] → K8sParser.Cluster t.reg (s.objs.map PeerObj.info) := fun x h => by simp at h
  obtain ⟨pols, st, hp, hb⟩ := (C49_accepted_partial (B := B) (ord := ord) NamedEx.L2 asc_ok hC' hm hk hi).2
    ⟨fun t h => (by rw [docs_policies] at h; simp at h), by rw [docs_policies]; simp⟩
  have hp' : parsedPolicies asc NamedEx.A2 NamedEx.W2 B ord t.reg nsDefault s.done = some pols := by
    unfold parsedPolicies
    rw [e2, List.mapM_map]
    exact hp
  have hf := C63_full Topology.Ex.tame hps
  obtain ⟨p', hpm, d'⟩ := hf.all (Topology.Ex.mWeb "web-3") (by rw [Topology.Ex.members_docs]; simp)
  have hpe' : p'.elem = .pod "shop/web-3" := (d'.name (by decide)).trans (by decide)
  obtain ⟨R, R', h1, h2, h3, h4⟩ := C63_config_partial NamedEx.L2 Topology.Ex.tame .empty e (fun k a h => by cases h) Topology.Ex.ports
    (Topology.Ex.small Topology.Ex.tame (by rw [Topology.Ex.members_docs]; decide) e) (fun m _ a h => by cases h) Topology.Ex.uniform hps hf hs asc_ok (hB _ (by simp)) hm hk hi
    hp' hb ⟨false, false, false, true⟩ rfl (.inl rfl) (src := .pod "shop/web-3") (dst := .pod "node1")
    ⟨Topology.Ex.mWeb "web-3", by rw [Topology.Ex.members_docs]; simp, by decide, by decide⟩ ⟨Topology.Ex.mNode, by rw [Topology.Ex.members_docs]; simp, by decide, by decide⟩ (by simp)
    (.inl ⟨p', hpm, hpe', by show p'.kind ∈ _; rw [d'.kind]; simp [Topology.Ex.mWeb]⟩)
  refine ⟨t, s, B, pols, st, R, R', e, hs, hq, hp', hb, h1, h2, h3, fun p q hq => (h4 p q hq).2 ?_⟩
  rw [docs_profiles]
  exact front_says q

end Ex
end PolicyDocs
end Verif
