import Verif.IngressProofs
import Verif.QueryDom
/-!
C53: the policy that the parser makes of an Ingress resource allows exactly the requests that the Ingress controller
forwards.
-/
namespace Verif
open ISet IpBlock PeerSet
namespace IngressParser
open Container CalicoParser IstioParser

section
variable {V2 X2 : Type} {A2 : VAlg Dim V2 X2} {W2 : Dim → V2 → Prop} {dfa : List Char → V2} {word : X2 → List Char} {D : V2 → Prop}
variable {ord : SetOrder} {rg : PodReg} {c : Container}
variable (L2 : A2.Lawful W2)

/-- A rule of a policy: legal connections, in normal form, from the pods `S` to pods of the cluster. -/
structure RuleOk (rg : PodReg) (c : Container) (S : PeerSet String) (h : HC Dim (ISet ⊕ V2)) : Prop where
  strong : HcStrongT (connA A2 PeerDom.default) (connWf W2 PeerDom.default) allDims h
  plain : HC.Plain (connA A2 PeerDom.default) h
  src : ∀ p, (connNet L2 PeerDom.default).K.mem p h = true → S.At rg.keys (p.1 .srcPeers)
  dst : ∀ p, (connNet L2 PeerDom.default).K.mem p h = true → ∃ S : PeerSet String, InCluster c S ∧ S.At rg.keys (p.1 .dstPeers)

/-- The rules of the policy: the same requests, from the selected pods and for TCP. -/
theorem allowRules_sem (hC : K8sParser.Cluster rg c) {h : HC Dim (ISet ⊕ V2)} {F : X2 → X2 → Place → Int → Prop} (hF : ConnIs L2 word rg c h F)
    (ht : h.truthy = true) {S : PeerSet String} (hS : S.Ok) (hin : InCluster c S) :
    ∃ rules, allowRules A2 PeerDom.default ord rg h S = some rules ∧
      (∀ r ∈ rules, RuleOk L2 rg c S r) ∧
      ∀ p src dst q xh xp, IsRequest word rg c p src dst q → p.1 .hosts = .inr xh → p.1 .paths = .inr xp →
        ((∃ r ∈ rules, (connNet L2 PeerDom.default).K.mem p r = true) ↔ src.In S ∧ q.proto = 6 ∧ F xh xp dst q.port) := by
  have hreg : ∀ k, S.HasPod k → k ∈ rg.keys := fun k hk => by
    obtain ⟨p, hp, e⟩ := hin k hk
    obtain ⟨k', e', hk'⟩ := hC.elem p hp
    rw [e] at e'
    cases e'
    exact hk'
  obtain ⟨l, el⟩ := (Base.C22_to_indices_defined hC.reach hS).2 hreg
  have hm := at_iff (X2 := X2) hC.reach hS el
  obtain ⟨cl, _, _, _⟩ := Base.C22_to_indices_exact hC.reach hS el
  have tcp : ProtocolSet.add (ProtocolSet.make false) (.name "TCP") = some [⟨6, 6⟩] := by decide +kernel
  have la := connA_lawful PeerDom.default L2
  obtain ⟨a1, a2⟩ := Fw.cubes_val la allDims_nodup hF.strong.1.1
  let val : List (ISet ⊕ V2) → Dim → ISet ⊕ V2 := fun cube y =>
    if y = .protocols then .inl [⟨6, 6⟩] else if y = .srcPeers then .inl l else Fw.cubeVal (connA A2 PeerDom.default) h.act cube y
  have hone : ∀ cube, allowRule A2 PeerDom.default ord rg S (Fw.cubeVal (connA A2 PeerDom.default) h.act cube) =
      some (hcOfCube (connA A2 PeerDom.default) allDims (val cube)) := by
    intro cube
    unfold allowRule
    rw [tcp, Option.bind_some]
    unfold ConnCube.setPeers
    dsimp only
    rw [el, Option.map_some, Option.bind_some]
    unfold makeConnProps
    rw [if_pos ⟨rfl, rfl⟩]
    rfl
  have hwf : ∀ cube ∈ HC.cubes (connA A2 PeerDom.default) allDims h, ∀ y, connWf W2 PeerDom.default y (val cube y) := by
    intro cube hcube y
    dsimp only [val]
    split
    · rename_i e; subst e
      refine ⟨rfl, canonical_singleton.2 (by decide), fun z hz => ?_⟩
      have hz := mem_singleton.1 hz
      exact mem_singleton.2 ⟨Int.le_trans (by decide) hz.1, Int.le_trans hz.2 (by decide)⟩
    · split
      · rename_i e; subst e
        exact ⟨rfl, cl, fun z hz => at_default hC.reach ((hm z).1 hz)⟩
      · exact (a1 cube hcube y).1
  refine ⟨(HC.cubes (connA A2 PeerDom.default) allDims h).map fun cube => hcOfCube (connA A2 PeerDom.default) allDims (val cube), ?_, ?_, ?_⟩
  · unfold allowRules
    rw [if_neg (hF.src ht)]
    exact mapM_some _ _ _ fun cube _ => hone cube
  · intro r hr
    obtain ⟨cube, hcube, rfl⟩ := List.mem_map.1 hr
    refine ⟨(ofCube_spec L2 (hwf cube hcube)).1, hcOfCube_plain la allDims_nodup allDims_ne _ fun d _ => hwf cube hcube d, fun p hp => ?_, fun p hp => ?_⟩
    · have := ((ofCube_spec L2 (hwf cube hcube)).2 p).1 hp .srcPeers (by decide)
      cases hz : p.1 .srcPeers with
      | inl z => rw [hz] at this; exact (hm z).1 ((mem_inl A2 PeerDom.default z _ cl).1 this)
      | inr z => rw [hz] at this; change false = true at this; simp at this
    · have hmem := ((ofCube_spec L2 (hwf cube hcube)).2 p).1 hp
      refine hF.inside p ((HC.contains_spec hF.strong.1.1 p.1).2 ((a2 p.1 p.2).2 ⟨cube, hcube, fun y => ?_⟩))
      by_cases g1 : y = .protocols
      · subst g1; rw [Fw.cubeVal_none (hF.protocols ht)]; exact p.2 _
      by_cases g2 : y = .srcPeers
      · subst g2; rw [Fw.cubeVal_none (hF.src ht)]; exact p.2 _
      have := hmem y (by cases y <;> decide)
      dsimp only [val] at this
      rwa [if_neg g1, if_neg g2] at this
  · intro p src dst q xh xp hp e1 e2
    rw [← hF.mem p src dst q xh xp hp e1 e2]
    have hK : (connNet L2 PeerDom.default).K.mem p h = true ↔ h.Pt (connA A2 PeerDom.default) p.1 := HC.contains_spec hF.strong.1.1 p.1
    rw [hK, a2 p.1 p.2]
    have dp : (connA A2 PeerDom.default).mem (p.1 .srcPeers) (.inl l) = true ↔ src.In S := by
      rw [← at_place hC.reach hp.src S]
      cases hz : p.1 .srcPeers with
      | inl z => exact (mem_inl A2 PeerDom.default z _ cl).trans (hm z)
      | inr z =>
        constructor
        · intro h; change false = true at h; simp at h
        · rintro (⟨_, h, _⟩ | ⟨_, _, h, _⟩) <;> simp at h
    have d6 : (connA A2 PeerDom.default).mem (p.1 .protocols) (.inl [⟨6, 6⟩]) = true ↔ q.proto = 6 := by
      rw [hp.proto]
      refine (mem_inl A2 PeerDom.default q.proto _ (canonical_singleton.2 (by decide))).trans ?_
      rw [mem_singleton]
      show (6 ≤ q.proto ∧ q.proto ≤ 6) ↔ _
      omega
    have hsrc : ∀ cube, Fw.cubeVal (connA A2 PeerDom.default) h.act cube .srcPeers = (connA A2 PeerDom.default).dom .srcPeers :=
      fun cube => Fw.cubeVal_none (hF.src ht)
    have hpro : ∀ cube, Fw.cubeVal (connA A2 PeerDom.default) h.act cube .protocols = (connA A2 PeerDom.default).dom .protocols :=
      fun cube => Fw.cubeVal_none (hF.protocols ht)
    have hall : ∀ y : Dim, y ∈ allDims := fun y => by cases y <;> decide
    constructor
    · rintro ⟨r, hr, hmem⟩
      obtain ⟨cube, hcube, rfl⟩ := List.mem_map.1 hr
      have hmem := ((ofCube_spec L2 (hwf cube hcube)).2 p).1 hmem
      refine ⟨dp.1 (hmem .srcPeers (hall _)), d6.1 (hmem .protocols (hall _)), cube, hcube, fun y => ?_⟩
      by_cases g1 : y = .protocols
      · subst g1; rw [hpro]; exact p.2 _
      by_cases g2 : y = .srcPeers
      · subst g2; rw [hsrc]; exact p.2 _
      have := hmem y (hall _)
      dsimp only [val] at this
      rwa [if_neg g1, if_neg g2] at this
    · rintro ⟨h1, h2, cube, hcube, h3⟩
      refine ⟨_, List.mem_map.2 ⟨cube, hcube, rfl⟩, ((ofCube_spec L2 (hwf cube hcube)).2 p).2 fun y _ => ?_⟩
      dsimp only [val]
      split
      · rename_i e; subst e; exact d6.2 h2
      · split
        · rename_i e; subst e; exact dp.2 h1
        · exact h3 y

/-- What the code takes as the requests that the controller forwards; `routes_iff` says where this is right. -/
def Forwards (rg : PodReg) (c : Container) (l : List SvcText) (t : IngressText) (host path : List Char) (E : Place) (x : Int) : Prop :=
  (∃ r ∈ t.rules, RuleReads rg c l t.ns (fun E x => ∃ b, t.defaultBackend = some b ∧ BackendIs rg c l t.ns b E x) r host path E x) ∨
    ((∀ r ∈ t.rules, ¬ HostsRead r.host host) ∨ ∀ w, (∀ a ∈ w, Letter a) → ∃ r ∈ t.rules, HostsRead r.host w) ∧
      ∃ b, t.defaultBackend = some b ∧ BackendIs rg c l t.ns b E x

/-- The code is right about the resources and hosts that are tame. -/
theorem routes_iff {l : List SvcText} {t : IngressText} (ht : t.Tame c l) {host path : List Char} (hh : HostTame t host) {E : Place} {x : Int} :
    Forwards rg c l t host path E x ↔ Routes rg c l t host path E x := by
  have hread : ∀ r ∈ t.rules, (HostsRead r.host host ↔ HostSays r.host host) := by
    intro r hr
    cases e : r.host with
    | none => exact ⟨fun _ => trivial, fun _ s h => by cases h⟩
    | some h =>
      rw [← hostRead_iff fun s hs => hh.label r hr s (e.trans (congrArg some hs))]
      exact ⟨fun g => g h rfl, fun g s hs => by cases hs; exact g⟩
  have huniq : ∀ r ∈ t.rules, ∀ r' ∈ t.rules, HostSays r.host host → HostSays r'.host host → r = r' := fun r h r' h' g g' =>
    pairwise_eq (R := fun r r' : IngressRule => HostSays r.host host ∧ HostSays r'.host host) (fun _ _ h => ⟨h.2, h.1⟩) hh.one h h' ⟨g, g'⟩
  unfold Routes Matched Forwards RuleReads
  constructor
  · rintro (⟨r, hr, h1, h2 | ⟨h2, h3⟩⟩ | ⟨h1, h2⟩)
    · exact Or.inl ⟨r, hr, (hread r hr).1 h1, h2⟩
    · refine Or.inr ⟨?_, h3⟩
      rintro ⟨r', hr', h1', p, hp, h⟩
      rw [← huniq r hr r' hr' ((hread r hr).1 h1) h1'] at hp
      rcases h2 with h2 | h2
      · exact h2 p hp h
      · obtain ⟨b, hb, _⟩ := h3
        obtain ⟨w, hw, hn⟩ := other_path (fun p hp => ((ht.rules r hr).paths p hp).1) ((ht.rest b hb r hr).2)
        obtain ⟨p', hp', h'⟩ := h2 w hw
        exact hn p' hp' h'
    · refine Or.inr ⟨?_, h2⟩
      rcases h1 with h1 | h1
      · rintro ⟨r', hr', h1', _⟩
        exact h1 r' hr' ((hread r' hr').2 h1')
      · obtain ⟨b, hb, _⟩ := h2
        obtain ⟨w, hw, hn⟩ := other_host fun r hr => (ht.rest b hb r hr).1
        obtain ⟨r', hr', h'⟩ := h1 w hw
        exact absurd h' (hn r' hr')
  · rintro (⟨r, hr, h1, h2⟩ | ⟨h1, h2⟩)
    · exact Or.inl ⟨r, hr, (hread r hr).2 h1, Or.inl h2⟩
    · by_cases hex : ∃ r ∈ t.rules, HostsRead r.host host
      · obtain ⟨r, hr, h3⟩ := hex
        exact Or.inl ⟨r, hr, h3, Or.inr ⟨Or.inl fun p hp h => h1 ⟨r, hr, (hread r hr).1 h3, p, hp, h⟩, h2⟩⟩
      · exact Or.inr ⟨Or.inl fun r hr h => hex ⟨r, hr, h⟩, h2⟩

/-- The policy that the parser makes of an Ingress resource, for requests with any host: the rules for a host are united,
each with the default backend for its other paths, wildcards stand for texts of `\w`, and where there are no other paths or
hosts the default backend is for all. -/
theorem C53_reads (hC : K8sParser.Cluster rg c) (hD : IngressLib A2 W2 dfa word D) {cls : Char → Bool}
    (hw : ∀ a, Letter a → a ∉ ['.', '/', '-'] → cls a = true) {l : List SvcText} (hl : SvcsTame rg c l) {t : IngressText} (ht : t.Legal c l) :
    ∃ svcs P, services rg c l = some svcs ∧ parseIngress A2 dfa PeerDom.default ord rg cls svcs t = some P ∧
      P.selected.Ok ∧ InCluster c P.selected ∧ (∀ E : Place, E.In P.selected ↔ Controller c l E) ∧
      (∀ h ∈ P.rules, RuleOk L2 rg c P.selected h) ∧
      ∀ p src dst q, IsRequest word rg c p src dst q →
        ((∃ h ∈ P.rules, (connNet L2 PeerDom.default).K.mem p h = true) ↔
          Controller c l src ∧ q.proto = 6 ∧ Forwards rg c l t q.host q.path dst q.port) := by
  refine ⟨l.map fun s => (fullName s.name s.ns, svcOf rg c s), ?_⟩
  have hdef : ∃ d, parseBackend (l.map fun s => (fullName s.name s.ns, svcOf rg c s)) t.ns true t.defaultBackend = some d ∧
      DefaultIs rg c d (fun E x => ∃ b, t.defaultBackend = some b ∧ BackendIs rg c l t.ns b E x) ∧
      (somePeers d.peers = true → ∃ b, t.defaultBackend = some b) := by
    cases e : t.defaultBackend with
    | none => exact ⟨_, rfl, Or.inl ⟨rfl, fun E x h => by obtain ⟨b, h, _⟩ := h; cases h⟩, fun h => by cases h⟩
    | some b =>
      obtain ⟨S, P, e', hT⟩ := parseBackend_sem hC hl ht.ns (ht.dflt b e).1 true
      exact ⟨_, e', Or.inr ⟨S, P, rfl, { hT with mem := fun E x => (hT.mem E x).trans ⟨fun h => ⟨b, rfl, h⟩, fun ⟨b', h, h'⟩ => by cases h; exact h'⟩ }⟩,
        fun _ => ⟨b, rfl⟩⟩
  obtain ⟨d, ed, hd, hb⟩ := hdef
  obtain ⟨st, f1, f2, f3, f4⟩ := rules_fold (L2 := L2) (ord := ord) hC hD hw hl ht.ns hd t.rules ht.rules
    (st := (HC.empty allDims true, none)) ConnIs.empty (G := fun _ => False)
    ⟨fun v h => (by cases h), fun x _ => (by simp)⟩
  have hother : ∃ h, otherHosts A2 PeerDom.default ord rg d st = some h ∧ ConnIs L2 word rg c h fun xh xp E x =>
      (∃ r ∈ t.rules, RuleReads rg c l t.ns (fun E x => ∃ b, t.defaultBackend = some b ∧ BackendIs rg c l t.ns b E x) r (word xh) (word xp) E x) ∨
      ((∀ r ∈ t.rules, ¬ HostsRead r.host (word xh)) ∨ ∀ w, (∀ a ∈ w, Letter a) → ∃ r ∈ t.rules, HostsRead r.host w) ∧
        ∃ b, t.defaultBackend = some b ∧ BackendIs rg c l t.ns b E x := by
    unfold otherHosts
    by_cases hs : somePeers d.peers = true
    · rw [if_pos hs]
      obtain ⟨b, e⟩ := hb hs
      obtain ⟨_, hne⟩ := ht.dflt b e
      obtain ⟨c1, c2⟩ := f3
      cases ea : st.2 with
      | none => exact absurd ea (f4 hne)
      | some a =>
        rw [ea] at c1 c2
        have wa := c1 a rfl
        have wd := L2.wf_dom .hosts
        have mr : ∀ x, A2.mem x (A2.sub (A2.dom .hosts) a) = true ↔ A2.mem x (A2.dom .hosts) = true ∧ ∀ r ∈ t.rules, ¬ HostsRead r.host (word x) := by
          intro x
          rw [L2.mem_sub wd wa, Bool.and_eq_true, Bool.not_eq_true', Bool.eq_false_iff]
          refine and_congr_right fun hx => ?_
          rw [Ne, show A2.mem x a = true ↔ ∃ r ∈ t.rules, HostsRead r.host (word x) by simpa using c2 x hx]
          exact ⟨fun h r hr h' => h ⟨r, hr, h'⟩, fun h ⟨r, hr, h'⟩ => h r hr h'⟩
        obtain ⟨g, eg, ig⟩ := default_sem (word := word) (ord := ord) (L2 := L2) hC hd (oh := some (A2.sub (A2.dom .hosts) a)) (op := none)
          (fun v h => by cases h; exact L2.wf_sub wd wa) (fun v h => by cases h)
        rw [Option.bind_some, eg, Option.map_some]
        refine ⟨_, rfl, (f2.or ig).congr fun xh xp E x hxh _ => ?_⟩
        rw [false_or]
        refine or_congr_right ?_
        rw [rest_iff L2 (L2.wf_sub wd wa) mr hxh (Is := fun w => ∀ a ∈ w, Letter a)
          (fun w hw => (hD.every w hw).elim fun x e => ⟨x, e, (hD.hosts x).2 (by rw [e]; exact hw)⟩) fun x hx => (hD.hosts x).1 hx]
        exact ⟨fun h => ⟨h.1, h.2.2⟩, fun h => ⟨h.1, fun v e => (by cases e), h.2⟩⟩
    · rw [if_neg hs]
      refine ⟨_, rfl, f2.congr fun xh xp E x _ _ => ?_⟩
      rcases hd with ⟨_, h⟩ | ⟨S, P, rfl, h⟩
      · exact ⟨fun g => Or.inl (g.resolve_left id), fun g => g.elim Or.inr fun g => absurd g.2 (h E x)⟩
      · exact absurd h.peers hs
  obtain ⟨h, eh, ih⟩ := hother
  obtain ⟨s1, s2, s3⟩ := controller_sem hC hl
  have hfin : ∃ rules, (if h.truthy = true then
        (allowRules A2 PeerDom.default ord rg h (podsOfServices (l.map fun s => (fullName s.name s.ns, svcOf rg c s)) "ingress-nginx")).map fun rules =>
          (⟨podsOfServices (l.map fun s => (fullName s.name s.ns, svcOf rg c s)) "ingress-nginx", rules⟩ : ParsedIngress V2)
      else some ⟨podsOfServices (l.map fun s => (fullName s.name s.ns, svcOf rg c s)) "ingress-nginx", []⟩) =
        some ⟨podsOfServices (l.map fun s => (fullName s.name s.ns, svcOf rg c s)) "ingress-nginx", rules⟩ ∧
      (∀ r ∈ rules, RuleOk L2 rg c (podsOfServices (l.map fun s => (fullName s.name s.ns, svcOf rg c s)) "ingress-nginx") r) ∧
      ∀ p src dst q, IsRequest word rg c p src dst q →
        ((∃ r ∈ rules, (connNet L2 PeerDom.default).K.mem p r = true) ↔
          Controller c l src ∧ q.proto = 6 ∧ Forwards rg c l t q.host q.path dst q.port) := by
    by_cases htr : h.truthy = true
    · rw [if_pos htr]
      obtain ⟨rules, r1, r2, r3⟩ := allowRules_sem L2 (ord := ord) hC ih htr s1 s2
      refine ⟨rules, by rw [r1, Option.map_some], r2, fun p src dst q hp => ?_⟩
      obtain ⟨xh, e1, w1⟩ := hp.host
      obtain ⟨xp, e2, w2⟩ := hp.path
      rw [r3 p src dst q xh xp hp e1 e2, s3, w1, w2]
      rfl
    · rw [if_neg htr]
      refine ⟨[], rfl, fun r hr => absurd hr List.not_mem_nil, fun p src dst q hp => ⟨fun ⟨r, hr, _⟩ => absurd hr List.not_mem_nil, fun g => ?_⟩⟩
      obtain ⟨xh, e1, w1⟩ := hp.host
      obtain ⟨xp, e2, w2⟩ := hp.path
      have := (ih.mem p src dst q xh xp hp e1 e2).2 (by
        rw [w1, w2]
        exact g.2.2)
      have la := (connNet_lawful L2 PeerDom.default).1
      exact absurd ((la.net.truthy_iff (la.net.strong_ok ih.strong)).2 ⟨p, this⟩) htr
  obtain ⟨rules, e, r1, r2⟩ := hfin
  refine ⟨⟨_, rules⟩, services_eq hC hl, ?_, s1, s2, s3, r1, r2⟩
  unfold parseIngress
  rw [ed, Option.bind_some, f1, Option.bind_some, eh, Option.bind_some]
  exact e

/-- C53: the policy that the parser makes of an Ingress resource allows exactly the requests that the Ingress controller
forwards: from its pods, by TCP, to the pods and ports of the backend of the path that decides, or of the default backend.
Partial: for the resources and hosts that the code reads as Kubernetes does (`IngressText.Tame`, `HostTame`,
`SvcsTame`). -/
theorem C53_ingress_partial (hC : K8sParser.Cluster rg c) (hD : IngressLib A2 W2 dfa word D) {cls : Char → Bool}
    (hw : ∀ a, Letter a → a ∉ ['.', '/', '-'] → cls a = true) {l : List SvcText} (hl : SvcsTame rg c l) {t : IngressText} (ht : t.Tame c l) :
    ∃ svcs P, services rg c l = some svcs ∧ parseIngress A2 dfa PeerDom.default ord rg cls svcs t = some P ∧
      P.selected.Ok ∧ InCluster c P.selected ∧ (∀ E : Place, E.In P.selected ↔ Controller c l E) ∧
      (∀ h ∈ P.rules, RuleOk L2 rg c P.selected h) ∧
      ∀ p src dst q, IsRequest word rg c p src dst q → HostTame t q.host →
        ((∃ h ∈ P.rules, (connNet L2 PeerDom.default).K.mem p h = true) ↔
          Controller c l src ∧ q.proto = 6 ∧ Routes rg c l t q.host q.path dst q.port) := by
  obtain ⟨svcs, P, h1, h2, h3, h4, h5, h6, h7⟩ := C53_reads L2 (ord := ord) hC hD hw hl ht.toLegal
  refine ⟨svcs, P, h1, h2, h3, h4, h5, h6, fun p src dst q hp hh => ?_⟩
  rw [h7 p src dst q hp, routes_iff ht hh]

end
end IngressParser
end Verif
