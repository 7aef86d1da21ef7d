import Verif.PropsCalicoConfig
import Verif.PropsCalicoParseEx
import Verif.PropsK8sParseEx
/-!
C49: witnesses and examples.
-/
namespace Verif
open ISet PeerSet

theorem leads_two {α : Type} {rank : α → Option Int} {D V : α → Prop} {a b : α} :
    Leads rank D V [a, b] ↔ (D a ∧ V a ∧ (D b → rankLt (rank b) (rank a) = false)) ∨ (D b ∧ V b ∧ (D a → rankLt (rank b) (rank a) = true)) := by
  constructor
  · rintro ⟨before, x, after, e, h1, h2, h3, h4⟩
    rcases before with _ | ⟨y, _ | ⟨z, t⟩⟩
    · cases e; exact Or.inl ⟨h1, h2, h4 b (by simp)⟩
    · cases e; exact Or.inr ⟨h1, h2, h3 a (by simp)⟩
    · simp at e
  · rintro (⟨h1, h2, h3⟩ | ⟨h1, h2, h3⟩)
    · exact ⟨[], a, [b], rfl, h1, h2, fun y hy => (by cases hy), fun y hy hD => by rw [List.mem_singleton] at hy; subst hy; exact h3 hD⟩
    · exact ⟨[a], b, [], rfl, h1, h2, fun y hy hD => (by rw [List.mem_singleton] at hy; subst hy; exact h3 hD), fun y hy => by cases hy⟩

namespace CalicoParser
open Container NamedEx

namespace CfgEx
open K8sParser (nsDefault)
open K8sParser.Ex (cl reg podA podB)

theorem cluster : CalCluster reg cl where
  reach := keys_reach
  room := by decide
  ports := legal_ports (by decide)
  ok := K8sParser.Ex.cluster.ok
  uniq := K8sParser.Ex.cluster.uniq
  disj := by
    intro p hp q hq a b ha hb
    simp only [cl, List.mem_cons, List.not_mem_nil, or_false] at hp
    rcases hp with rfl | rfl <;> cases ha
  spaces := by
    constructor <;> intro p hp <;> simp only [cl, List.mem_cons, List.not_mem_nil, or_false] at hp <;>
      rcases hp with rfl | rfl <;> simp [podA, podB, K8sParser.exPod]
  reg := by
    intro p hp k h
    obtain ⟨j, hj, hm⟩ := K8sParser.Ex.cluster.elem p hp
    rw [h] at hj; cases hj; exact hm
  sets := by
    intro p hp
    simp only [cl, List.mem_cons, List.not_mem_nil, or_false] at hp
    rcases hp with rfl | rfl <;> simp [podA, podB, K8sParser.exPod]

/-- A policy that allows (denies) all ingress of the pods with `app: db`. -/
def simple (o : Option Int) (deny : Bool) : CalicoText :=
  ⟨false, none, o, some "app == 'db'".toList, none, some [⟨if deny then "Deny" else "Allow", none, none, none, none, none, none⟩], none, ["Ingress"]⟩
def simpleR (deny : Bool) : RuleSpec := ⟨if deny then .deny else .allow, none, none, none, none, none, none⟩
def simpleM (deny : Bool) : PolicyMeaning := ⟨some nsDefault, some (.atom (.eq "app" "db")), none, [simpleR deny], []⟩

theorem simple_means (o : Option Int) (deny : Bool) : PolicyMeans asc nsDefault (simple o deny) (simpleM deny) :=
  ⟨rfl, .some (Ex.isEq (k := "app") (v := "db") (by decide) (by decide)), .none, .cons ⟨by cases deny <;> constructor, .none, .none, rfl, rfl, .none, .none⟩ .nil, .nil⟩

theorem simple_tame (o : Option Int) (deny : Bool) : Item.Tame cl (.calico (simple o deny) (simpleM deny)) := by
  refine ⟨⟨fun h => (by cases h), fun _ => rfl, fun s hs => Or.inl (List.mem_singleton.1 hs), fun s h => (by cases h; simp [Sel.Mentions]), fun r hr => ?_⟩,
    ⟨fun p hp hc => ?_, fun h => (by cases h), fun _ _ => List.mem_singleton.2 rfl, fun _ h => (by cases h), .cons ?_ .nil, .nil⟩, fun d r hr => ?_⟩
  · simp only [simpleM, List.append_nil, List.mem_singleton] at hr
    subst hr
    exact ⟨fun e he => (by rcases he with he | he <;> cases he), fun i h => (by rcases h with h | h <;> cases h)⟩
  · simp only [cl, List.mem_cons, List.not_mem_nil, or_false] at hp
    rcases hp with rfl | rfl
    · simp [podA, K8sParser.exPod]
    · simp [podB, K8sParser.exPod]
  · exact ⟨fun e he => (by rcases he with he | he <;> cases he), fun e l he => (by cases he), fun e l l' he => (by cases he), fun p q hp => (by cases hp),
      fun i h => (by rcases h with h | h <;> cases h), fun i j h => (by cases h)⟩
  · cases d
    · cases hr
    · have : r = simpleR deny := by simpa [PolicyMeaning.rules, simpleM] using hr
      subst this
      cases deny <;> simp [simpleR]

theorem simple_says (deny : Bool) (src dst : Place) (q : Conn) : RuleSays reg cl (some nsDefault) (simpleR deny) src dst q :=
  ⟨fun e h => (by cases h), fun e h => (by cases h), fun p h => (by cases h), fun p h => (by cases h), fun i h => (by cases h), fun i h => (by cases h)⟩

def A : Place := .pod "default/a"
def D : Place := .pod "default/b"

theorem simple_captures (o : Option Int) (deny : Bool) : Item.Captures cl true D (.calico (simple o deny) (simpleM deny)) :=
  ⟨Or.inl (List.mem_singleton.2 rfl), podB, by simp [cl], (by decide +kernel : podB.elem = .pod "default/b"), Or.inl rfl, by simp [podB, K8sParser.exPod],
    fun n h => (by cases h; exact ⟨_, rfl, rfl⟩),
    fun s h => by
      cases h
      exact ⟨by simp [podB, K8sParser.exPod], fun n h => (by cases h; exact ⟨_, rfl, rfl⟩), Or.inl (by decide)⟩,
    fun s h => (by cases h)⟩

theorem simple_egress (o : Option Int) (deny : Bool) (E : Place) : ¬ Item.Captures cl false E (.calico (simple o deny) (simpleM deny)) := by
  rintro ⟨h, _⟩
  rcases h with h | h
  · exact absurd (List.mem_singleton.1 h) (by decide)
  · cases h.1

theorem simple_verdict (o : Option Int) (deny : Bool) (src dst : Place) (q : Conn) (a : RuleAction) :
    Item.Verdict reg cl true src dst q a (.calico (simple o deny) (simpleM deny)) ↔ a = if deny then .deny else .allow := by
  constructor
  · rintro ⟨b, r, af, e, ha, _, _, _⟩
    change [simpleR deny] = _ at e
    rcases b with _ | ⟨y, t⟩
    · cases e; exact ha.symm
    · simp at e
  · rintro rfl
    exact ⟨[], simpleR deny, [], rfl, rfl, by cases deny <;> simp, simple_says .., fun r h => by cases h⟩

theorem no_pass (o : Option Int) (deny : Bool) (src dst : Place) (q : Conn) :
    ¬ Item.Verdict reg cl true src dst q .pass (.calico (simple o deny) (simpleM deny)) := by
  rw [simple_verdict]; cases deny <;> simp

/-- The domain of a query on the configuration. -/
theorem domain : ∃ B : PeerDom, K8sParser.queryDom reg [cl] = some B.idx ∧ Covers reg cl B := by
  obtain ⟨B, h1, _, h2⟩ := C49_domain (cs := [cl]) (fun c hc => by rw [List.mem_singleton] at hc; subst hc; exact cluster) (by simp)
  exact ⟨B, h1, h2 cl (by simp)⟩

theorem at_src : A.At (X2 := Empty) reg cl (.inl (minPodIndex + (0 : Nat))) := ⟨⟨podA, by simp [cl], by decide +kernel⟩, 0, rfl, rfl⟩
theorem at_dst : D.At (X2 := Empty) reg cl (.inl (minPodIndex + (1 : Nat))) := ⟨⟨podB, by simp [cl], by decide +kernel⟩, 1, rfl, rfl⟩

/-- A connection from `default/a` to `default/b`, over the domain. -/
def onDom {B : PeerDom} (hB : Covers reg cl B) (q : Conn) (h : q.Good) : Point (connA A2 B) :=
  (Ex.ptC q h).toDom (fun z hz => by cases hz; exact hB _ A at_src) (fun z hz => by cases hz; exact hB _ D at_dst)

theorem isConn {B : PeerDom} (hB : Covers reg cl B) (q : Conn) (h : q.Good) : IsConn reg cl (onDom hB q h) A D q where
  src := ⟨⟨podA, by simp [cl], by decide +kernel⟩, 0, rfl, rfl⟩
  dst := ⟨⟨podB, by simp [cl], by decide +kernel⟩, 1, rfl, rfl⟩
  proto := rfl
  srcPort := rfl
  dstPort := rfl
  icmpType := rfl
  icmpCode := rfl

/-- What the program says of a connection from `default/a` to `default/b` in the configuration of the documents. -/
def Answers (ord : SetOrder) (ds : List Doc) (q : Conn) (b : Bool) : Prop :=
  ∃ (B : PeerDom) (pols : _) (st : _), K8sParser.queryDom reg [cl] = some B.idx ∧ docPolicies asc A2 W2 B ord reg cl nsDefault ds = some pols ∧
    PolicyStore.build pols = some st ∧ ∃ p : Point (connA A2 B), p.1 = Ex.rawC q ∧ (connNet L2 B).K.mem p
      (configConns (connNet L2 B).toNet (calicoPeers A2 W2 B reg cl) st.layers ⟨false, false, false, true⟩).allAllowed = b

/-- The theorem applies. -/
theorem answers (ord : SetOrder) {ds : List Doc} {is : List Item} (hm : List.Forall₂ (Doc.Means asc nsDefault) ds is) (ht : ∀ i ∈ is, i.Tame cl)
    (hl : ∀ t, Doc.k8s t ∈ ds → ∀ s, t.spec = some s → s.Legal) (hn : ds.Pairwise (fun a b => a.key nsDefault ≠ b.key nsDefault))
    (q : Conn) (hq : q.Good) {b : Bool} (hb : b = true ↔ CalicoSays reg cl is A D q) : Answers ord ds q b := by
  obtain ⟨B, hd, hB⟩ := domain
  obtain ⟨pols, st, h1, h2⟩ := (C49_accepted_partial (B := B) (ord := ord) L2 asc_ok cluster hm (fun _ _ => K8sParser.Ex.cluster) ht).2 ⟨hl, hn⟩
  refine ⟨B, pols, st, hd, h1, h2, onDom hB q hq, rfl, ?_⟩
  rw [Bool.eq_iff_iff, hb]
  exact C49_config_partial L2 asc_ok cluster hB hm (fun _ _ => K8sParser.Ex.cluster) ht h1 h2 _ rfl (Or.inl rfl) _ A D q (isConn hB q hq)
    (Or.inl ⟨podA, by simp [cl], (by decide +kernel : podA.elem = .pod "default/a"), by simp [podA, K8sParser.exPod]⟩)

theorem podA_kind : IsKind cl A [.pod, .dns] := ⟨podA, by simp [cl], (by decide +kernel : podA.elem = .pod "default/a"), by simp [podA, K8sParser.exPod]⟩

/-- Two policies of one order, one that allows and one that denies: the first in the configuration decides. -/
theorem pair_says (o : Option Int) (d1 d2 : Bool) (q : Conn) :
    CalicoSays reg cl [.calico (simple o d1) (simpleM d1), .calico (simple o d2) (simpleM d2)] A D q ↔ d1 = false := by
  have ho : ∀ d, Item.order (.calico (simple o d) (simpleM d)) = o := fun _ => rfl
  have hD : ∀ d, Item.Captures cl true D (.calico (simple o d) (simpleM d)) ∧ ∃ b, Item.Verdict reg cl true A D q b (.calico (simple o d) (simpleM d)) :=
    fun d => ⟨simple_captures .., _, (simple_verdict ..).2 rfl⟩
  have hdec : ∀ a, Decides reg cl [.calico (simple o d1) (simpleM d1), .calico (simple o d2) (simpleM d2)] true D A D q a ↔ a = if d1 then .deny else .allow := by
    intro a
    unfold Decides
    rw [leads_two]
    rw [ho, ho, simple_verdict, simple_verdict, rank_irrefl]
    constructor
    · rintro (h | h)
      · exact h.2.1
      · cases h.2.2 (hD d1)
    · intro h; exact Or.inl ⟨hD d1, h, fun _ => rfl⟩
  unfold CalicoSays EndAllows
  rw [hdec, hdec]
  constructor
  · rintro ⟨⟨x, h⟩ | h | ⟨h | h, _⟩, _⟩
    · cases h
    · cases d1
      · rfl
      · cases h
    · cases d1 <;> cases h
    · exact absurd (simple_captures o d1) (h _ (by simp))
  · rintro rfl
    refine ⟨Or.inr (Or.inl rfl), Or.inr (Or.inr ⟨Or.inr fun i hi => ?_, podA_kind⟩)⟩
    simp only [List.mem_cons, List.not_mem_nil, or_false] at hi
    rcases hi with rfl | rfl
    · exact simple_egress _ _ _
    · exact simple_egress _ _ _

/-- C49, finding: of two policies of one order, the one that comes first in the configuration decides; Calico goes by the
names.  The same two policies, in both orders, give different answers. -/
theorem C49_tie_by_position (ord : SetOrder) (o : Option Int) (q : Conn) (hq : q.Good) :
    Answers ord [.calico "x" (simple o false), .calico "y" (simple o true)] q true ∧
    Answers ord [.calico "y" (simple o true), .calico "x" (simple o false)] q false := by
  have tame : ∀ d1 d2, ∀ i ∈ [Item.calico (simple o d1) (simpleM d1), .calico (simple o d2) (simpleM d2)], i.Tame cl := by
    intro d1 d2 i hi
    simp only [List.mem_cons, List.not_mem_nil, or_false] at hi
    rcases hi with rfl | rfl <;> exact simple_tame ..
  refine ⟨answers ord (.cons (.calico _ _ _ (simple_means o false)) (.cons (.calico _ _ _ (simple_means o true)) .nil)) (tame _ _) (fun t h => ?_) ?_ q hq ?_,
    answers ord (.cons (.calico _ _ _ (simple_means o true)) (.cons (.calico _ _ _ (simple_means o false)) .nil)) (tame _ _) (fun t h => ?_) ?_ q hq ?_⟩
  · simp at h
  · simp [Doc.key, simple]
  · rw [pair_says]; simp
  · simp at h
  · simp [Doc.key, simple]
  · rw [pair_says]; simp

/-! ### A Kubernetes and a Calico policy -/

theorem k8s_captures : Item.Captures cl true D (.k8s K8sParser.Ex.text) := by
  refine ⟨K8sParser.Ex.spec, .peer podB, ⟨by simp [cl], by decide +kernel⟩, rfl, Or.inr (by simp [K8sParser.Ex.spec]), rfl, ⟨nsDefault, rfl, rfl⟩,
    fun kv hkv => ?_, fun r hr => by cases hr⟩
  simp only [K8sParser.Ex.spec, List.mem_singleton] at hkv; subst hkv; exact Or.inl (by decide)

theorem k8s_egress (E : Place) : ¬ Item.Captures cl false E (.k8s K8sParser.Ex.text) := by
  rintro ⟨s, _, _, hs, hg, _⟩
  cases hs
  rcases hg with hg | hg
  · simp [K8sParser.Ex.spec] at hg
  · simp [K8sParser.Ex.spec] at hg

theorem k8s_verdict : Item.Verdict reg cl true A D ⟨6, 1, 80, 0, 0⟩ .allow (.k8s K8sParser.Ex.text) := by
  refine ⟨rfl, K8sParser.Ex.spec, .peer podA, .peer podB, ⟨by simp [cl], by decide +kernel⟩, ⟨by simp [cl], by decide +kernel⟩, rfl, _, List.mem_cons_self .., ?_⟩
  refine ⟨Or.inr ⟨_, List.mem_singleton.2 rfl, rfl, rfl, nsDefault, rfl, rfl, fun kv hkv => ?_, fun r hr => by cases hr⟩,
    Or.inr ⟨_, List.mem_singleton.2 rfl, rfl, podB, "default/b", "TCP", rfl, by decide +kernel, by decide, by decide⟩⟩
  rw [List.mem_singleton] at hkv; subst hkv; exact Or.inl (by decide)

/-- The Kubernetes policy allows the connection, the Calico policy denies it: the one of smaller order decides. -/
theorem mixed_says (o : Int) : CalicoSays reg cl [.k8s K8sParser.Ex.text, .calico (simple (some o) true) (simpleM true)] A D ⟨6, 1, 80, 0, 0⟩ ↔ 1000 ≤ o := by
  have ho : Item.order (.calico (simple (some o) true) (simpleM true)) = some o := rfl
  have hk : Item.order (.k8s K8sParser.Ex.text) = some 1000 := rfl
  have hD1 : Item.Captures cl true D (.calico (simple (some o) true) (simpleM true)) ∧
      ∃ b, Item.Verdict reg cl true A D ⟨6, 1, 80, 0, 0⟩ b (.calico (simple (some o) true) (simpleM true)) := ⟨simple_captures .., _, (simple_verdict ..).2 rfl⟩
  have hD2 : Item.Captures cl true D (.k8s K8sParser.Ex.text) ∧ ∃ b, Item.Verdict reg cl true A D ⟨6, 1, 80, 0, 0⟩ b (.k8s K8sParser.Ex.text) :=
    ⟨k8s_captures, _, k8s_verdict⟩
  unfold CalicoSays EndAllows Decides
  rw [leads_two, leads_two]
  rw [ho, hk, simple_verdict, simple_verdict]
  have hlt : rankLt (some o) (some 1000) = decide (o < 1000) := rfl
  rw [hlt]
  constructor
  · rintro ⟨⟨x, h⟩ | (h | h) | ⟨(h | h) | h, _⟩, _⟩
    · cases h
    · have := h.2.2 hD1
      simpa using this
    · cases h.2.1
    · cases h.2.1.1
    · cases h.2.1
    · exact absurd k8s_captures (h _ (by simp))
  · intro h
    refine ⟨Or.inr (Or.inl (Or.inl ⟨hD2, k8s_verdict, fun _ => by simpa using h⟩)), Or.inr (Or.inr ⟨Or.inr fun i hi => ?_, podA_kind⟩)⟩
    simp only [List.mem_cons, List.not_mem_nil, or_false] at hi
    rcases hi with rfl | rfl
    · exact k8s_egress _
    · exact simple_egress _ _ _

/-- Non-vacuity of C49: the program answers that the connection is allowed exactly if the order of the Calico policy is not
below that of Kubernetes policies. -/
example (ord : SetOrder) (o : Int) : Answers ord [.k8s K8sParser.Ex.text, .calico "x" (simple (some o) true)] ⟨6, 1, 80, 0, 0⟩ (decide (1000 ≤ o)) := by
  refine answers ord (.cons (.k8s _) (.cons (.calico _ _ _ (simple_means (some o) true)) .nil)) (fun i hi => ?_) (fun t h s hs => ?_) ?_ _ (by decide) ?_
  · simp only [List.mem_cons, List.not_mem_nil, or_false] at hi
    rcases hi with rfl | rfl
    · exact K8sParser.Ex.tame
    · exact simple_tame ..
  · simp only [List.mem_cons, Doc.k8s.injEq, reduceCtorEq, List.not_mem_nil, or_false] at h
    subst h; cases hs
    exact (K8sParser.C44_accepted L2 K8sParser.Ex.cluster nsDefault K8sParser.Ex.spec).1 (K8sParser.Ex.accepted ord)
  · simp [Doc.key, simple]
  · rw [mixed_says]; simp

end CfgEx
end CalicoParser
end Verif
