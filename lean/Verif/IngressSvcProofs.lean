import Verif.IngressSpec
/-!
C52: the target pods of services, and where references to services lead.
-/
namespace Verif
open ISet IpBlock PeerSet

namespace IngressParser
open Container CalicoParser IstioParser

/-! ### Ports -/

/-- The port of the text. -/
def SvcPortText.conv (p : SvcPortText) : SvcPort :=
  ⟨p.num.getD 0, p.name.getD "", p.protocol.getD "TCP", p.target.getD (.inl (p.num.getD 0))⟩

theorem addSvcPort_fold (l : List SvcPortText) (acc : List SvcPort) (hn : ∀ p ∈ l, ∃ n, p.num = some n ∧ 1 ≤ n ∧ n ≤ 65535)
    (hd : (l.map fun p => p.name.getD "").Nodup) (ha : ∀ p ∈ l, ∀ q ∈ acc, q.name ≠ p.name.getD "") :
    l.foldl addSvcPort acc = acc ++ l.map SvcPortText.conv := by
  induction l generalizing acc with
  | nil => simp
  | cons p l ih =>
    obtain ⟨n, e, h1, _⟩ := hn p List.mem_cons_self
    rw [List.map_cons, List.nodup_cons] at hd
    have step : addSvcPort acc p = acc ++ [p.conv] := by
      unfold addSvcPort
      rw [e]
      dsimp only
      rw [if_neg (by omega), if_neg]
      · unfold SvcPortText.conv
        rw [e]; rfl
      · rw [List.any_eq_true]
        rintro ⟨q, hq, h⟩
        exact ha p List.mem_cons_self q hq (of_decide_eq_true h)
    rw [List.foldl_cons, step, ih (acc ++ [p.conv]) (fun q hq => hn q (List.mem_cons_of_mem _ hq)) hd.2]
    · simp
    · intro q hq r hr
      rcases List.mem_append.1 hr with hr | hr
      · exact ha q (List.mem_cons_of_mem _ hq) r hr
      · rw [List.mem_singleton] at hr
        subst hr
        intro h
        exact hd.1 (List.mem_map.2 ⟨q, hq, h.symm⟩)

theorem svcPorts_legal {s : SvcText} (hs : s.Legal) : svcPorts s.ports = s.ports.map SvcPortText.conv := by
  have := addSvcPort_fold s.ports [] hs.nums hs.names (fun _ _ q hq => by simp at hq)
  simpa [svcPorts] using this

/-! ### Pods -/

section
variable {rg : PodReg} {c : Container}

theorem withLabelIn_sem (hC : K8sParser.Cluster rg c) (k v : String) (ns : Ns) :
    Sem c (fun p => p.InNs ns ∧ p.HasVal k v) (withLabelIn c k [v] ns) := by
  refine (sem_sel hC.ok _).congr fun p _ => ?_
  rw [Bool.and_eq_true, sameNs_iff, Bool.or_eq_true, getIn_iff, getIn_iff]
  unfold PeerInfo.HasVal
  simp only [List.mem_singleton, exists_eq_left]

theorem disjoint_sets (hC : K8sParser.Cluster rg c) : c.DisjointSets := by
  intro p hp q hq a b ha
  obtain ⟨k, hk, _⟩ := hC.elem p hp
  rw [hk] at ha; cases ha

/-- The set has no blocks of addresses. -/
def AllPods (q : PeerSet String) : Prop := ∀ e ∈ q, ∃ k, e = .pod k

theorem AllPods.ipForm {q : PeerSet String} (h : AllPods q) : q.ipForm = [] := by
  have : ∀ (q : PeerSet String) (r : IpBlock), AllPods q → q.foldl PeerSet.ipStep r = r := by
    intro q
    induction q with
    | nil => exact fun r _ => rfl
    | cons e q ih =>
      intro r h
      obtain ⟨k, rfl⟩ := h e List.mem_cons_self
      exact ih r fun e he => h e (List.mem_cons_of_mem _ he)
  exact this q [] h

theorem AllPods.and {p : PeerSet String} (h : AllPods p) (q : PeerSet String) : AllPods (p.and q) := by
  intro e he
  unfold PeerSet.and at he
  rw [h.ipForm, show PeerSet.ofBlock (IpBlock.inter [] q.ipForm) = ([] : PeerSet String) from rfl, List.append_nil] at he
  obtain ⟨k, _, rfl⟩ := List.mem_map.1 he
  exact ⟨k, rfl⟩

theorem AllPods.sub {p q : PeerSet String} (h : AllPods p) (hq : AllPods q) : AllPods (p.sub q) := by
  intro e he
  unfold PeerSet.sub at he
  rw [h.ipForm, hq.ipForm, show PeerSet.ofBlock (IpBlock.diff [] []) = ([] : PeerSet String) from rfl, List.append_nil] at he
  obtain ⟨k, _, rfl⟩ := List.mem_map.1 he
  exact ⟨k, rfl⟩

theorem allPods_sel (hC : K8sParser.Cluster rg c) (f : PeerInfo → Bool) : AllPods (c.sel f) := by
  intro e he
  obtain ⟨p, hp, rfl⟩ := List.mem_map.1 he
  obtain ⟨k, hk, _⟩ := hC.elem p (List.mem_filter.1 hp).1
  exact ⟨k, hk⟩

theorem selector_fold (hC : K8sParser.Cluster rg c) (ns : Ns) (l : Labels) {T : PeerInfo → Prop} {q : PeerSet String} (hq : Sem c T q) (ha : AllPods q) :
    Sem c (fun p => T p ∧ ∀ kv ∈ l, p.InNs ns ∧ p.HasVal kv.1 kv.2) (l.foldl (fun res kv => res.and (withLabelIn c kv.1 [kv.2] ns)) q) ∧
      AllPods (l.foldl (fun res kv => res.and (withLabelIn c kv.1 [kv.2] ns)) q) := by
  induction l generalizing T q with
  | nil => exact ⟨hq.congr fun p _ => by simp, ha⟩
  | cons kv l ih =>
    rw [List.foldl_cons]
    obtain ⟨h1, h2⟩ := ih (hq.and hC.uniq (disjoint_sets hC) (withLabelIn_sem hC kv.1 kv.2 ns)) (ha.and _)
    refine ⟨h1.congr fun p _ => ?_, h2⟩
    simp only [List.mem_cons, forall_eq_or_imp, and_assoc]

theorem selectorPods_sem (hC : K8sParser.Cluster rg c) (s : SvcText) :
    Sem c (fun p => s.selector ≠ [] ∧ p.InNs s.ns ∧ ∀ kv ∈ s.selector, p.HasVal kv.1 kv.2) (selectorPods c s) ∧ AllPods (selectorPods c s) := by
  unfold selectorPods
  by_cases h : s.selector = []
  · rw [h]
    exact ⟨sem_empty.congr fun p _ => by simp, fun e he => by simp at he⟩
  · rw [if_neg (by simpa using h)]
    obtain ⟨h1, h2⟩ := selector_fold hC s.ns s.selector (sem_sel hC.ok (fun _ => true)) (allPods_sel hC _)
    refine ⟨h1.congr fun p _ => ?_, h2⟩
    obtain ⟨kv, hkv⟩ := List.exists_mem_of_ne_nil _ h
    constructor
    · rintro ⟨_, h2⟩
      exact ⟨h, (h2 kv hkv).1, fun kv hkv => (h2 kv hkv).2⟩
    · rintro ⟨_, h2, h3⟩
      exact ⟨rfl, fun kv hkv => ⟨h2, h3 kv hkv⟩⟩

/-- The pod gives the name to a port with the protocol. -/
def HasNamed (rg : PodReg) (name protocol : String) (p : PeerInfo) : Prop :=
  ∃ k x, p.elem = .pod k ∧ (rg.named k).lookup name = some (x, protocol)

theorem filterM_some {α : Type} (l : List α) (f : α → Option Bool) (g : α → Bool) (h : ∀ a ∈ l, f a = some (g a)) : l.filterM f = some (l.filter g) := by
  have : ∀ (l acc : List α), (∀ a ∈ l, f a = some (g a)) → List.filterAuxM f l acc = some ((l.filter g).reverse ++ acc) := by
    intro l
    induction l with
    | nil => exact fun acc _ => rfl
    | cons a l ih =>
      intro acc h
      rw [List.filterAuxM, h a List.mem_cons_self, List.filter_cons]
      refine (ih _ fun b hb => h b (List.mem_cons_of_mem _ hb)).trans ?_
      cases g a <;> simp
  unfold List.filterM
  rw [this l [] h]
  simp

theorem removeLacking_sem (hC : K8sParser.Cluster rg c) {T : PeerInfo → Prop} {q : PeerSet String} (hq : Sem c T q) (ha : AllPods q) (p : SvcPort) :
    ∃ q', removeLacking rg q p = some q' ∧
      Sem c (fun i => T i ∧ ∀ name, p.target = .inr name → HasNamed rg name p.protocol i) q' ∧ AllPods q' := by
  unfold removeLacking
  cases ht : p.target with
  | inl n => exact ⟨q, rfl, hq.congr fun i _ => by simp, ha⟩
  | inr name =>
    dsimp only
    let g : PeerElem String → Bool := fun e => (lacksPort rg name p.protocol e).getD false
    have hf : ∀ e ∈ q, lacksPort rg name p.protocol e = some (g e) := by
      intro e he
      obtain ⟨k, rfl⟩ := ha e he
      show lacksPort rg name p.protocol (.pod k) = some ((lacksPort rg name p.protocol (.pod k)).getD false)
      unfold lacksPort
      dsimp only
      cases (rg.named k).lookup name <;> rfl
    rw [filterM_some q _ g hf]
    have hok : PeerSet.Ok (q.filter g) := fun b hb => hq.1 b (List.mem_filter.1 hb).1
    refine ⟨_, rfl, ⟨(C22_sub_exact hq.1 hok).1, fun E => ?_⟩, ha.sub fun e he => ha e (List.mem_filter.1 he).1⟩
    rw [in_sub hq.1 hok, hq.2]
    cases E with
    | ip x =>
      constructor
      · exact fun h => absurd h.1 (no_ip hC)
      · exact fun h => absurd h (no_ip hC)
    | pod k =>
      have hg : (Place.pod k).In (q.filter g) ↔ (Place.pod k).In q ∧ g (.pod k) = true := List.mem_filter
      have hg' : g (.pod k) = true ↔ ¬ ∃ x, (rg.named k).lookup name = some (x, p.protocol) := by
        show ((lacksPort rg name p.protocol (.pod k)).getD false) = true ↔ _
        unfold lacksPort
        dsimp only
        cases h : (rg.named k).lookup name with
        | none => simp
        | some v =>
          obtain ⟨x, pr⟩ := v
          simp only [Option.getD_some, decide_eq_true_eq, Option.some.injEq, Prod.mk.injEq, exists_and_right, exists_eq', true_and]
      rw [hg, hq.2, hg']
      constructor
      · rintro ⟨⟨i, hi, h1, h2⟩, h3⟩
        have : ∃ x, (rg.named k).lookup name = some (x, p.protocol) := by
          by_contra h
          exact h3 ⟨⟨i, hi, h1, h2⟩, h⟩
        obtain ⟨x, hx⟩ := this
        refine ⟨i, hi, h1, h2, fun name' e => ?_⟩
        cases e
        exact ⟨k, x, h1, hx⟩
      · rintro ⟨i, hi, h1, h2, h3⟩
        refine ⟨⟨i, hi, h1, h2⟩, fun h => h.2 ?_⟩
        obtain ⟨k', x, e, hx⟩ := h3 name rfl
        have h1 : i.elem = .pod k := h1
        rw [h1] at e; cases e
        exact ⟨x, hx⟩

theorem removeAll_sem (hC : K8sParser.Cluster rg c) (l : List SvcPort) {T : PeerInfo → Prop} {q : PeerSet String} (hq : Sem c T q) (ha : AllPods q) :
    ∃ q', l.foldlM (removeLacking rg) q = some q' ∧
      Sem c (fun i => T i ∧ ∀ p ∈ l, ∀ name, p.target = .inr name → HasNamed rg name p.protocol i) q' := by
  induction l generalizing T q with
  | nil => exact ⟨q, rfl, hq.congr fun i _ => by simp⟩
  | cons p l ih =>
    obtain ⟨q1, e1, h1, a1⟩ := removeLacking_sem hC hq ha p
    obtain ⟨q2, e2, h2⟩ := ih h1 a1
    refine ⟨q2, by rw [List.foldlM_cons, e1]; exact e2, h2.congr fun i _ => ?_⟩
    simp only [List.mem_cons, forall_eq_or_imp, and_assoc]

/-- C52: the target pods of a service are the pods that its selector picks and that have all the ports that the service
names, with the right protocols. -/
theorem C52_target_pods (hC : K8sParser.Cluster rg c) {s : SvcText} (hs : s.Legal) :
    ∃ v, populate rg c s = some v ∧ v.name = s.name ∧ v.ns = s.ns ∧ v.ports = s.ports.map SvcPortText.conv ∧ v.pods.Ok ∧ InCluster c v.pods ∧
      ∀ E, E.In v.pods ↔ Picks c s E ∧ ∀ p ∈ s.ports, ∀ name, p.target = some (.inr name) → ∃ x, TargetIs rg p E x := by
  obtain ⟨q, e, h⟩ := removeAll_sem hC (svcPorts s.ports) (selectorPods_sem hC s).1 (selectorPods_sem hC s).2
  refine ⟨⟨s.name, s.ns, svcPorts s.ports, q⟩, by unfold populate; rw [e]; rfl, rfl, rfl, svcPorts_legal hs, h.1, h.inCluster, fun E => ?_⟩
  show E.In q ↔ _
  rw [h.2, svcPorts_legal hs]
  have key : ∀ i : PeerInfo, i.Holds E → ∀ p ∈ s.ports,
      ((∀ name, p.conv.target = .inr name → HasNamed rg name p.conv.protocol i) ↔
        ∀ name, p.target = some (.inr name) → ∃ x, TargetIs rg p E x) := by
    intro i hi p _
    have hconv : ∀ name, p.conv.target = .inr name ↔ p.target = some (.inr name) := by
      intro name
      unfold SvcPortText.conv
      cases p.target <;> simp
    refine forall_congr' fun name => ?_
    rw [hconv]
    refine imp_congr_right fun ht => ?_
    unfold TargetIs HasNamed
    rw [ht]
    cases E with
    | pod k =>
      have hi : i.elem = .pod k := hi
      rw [hi]
      constructor
      · rintro ⟨k', x, e, h⟩
        cases e
        exact ⟨x, k, rfl, h⟩
      · rintro ⟨x, k', e, h⟩
        cases e
        exact ⟨k, x, rfl, h⟩
    | ip y =>
      obtain ⟨b, hb, _⟩ := hi
      rw [hb]
      constructor
      · rintro ⟨k', x, e, _⟩; cases e
      · rintro ⟨x, k', e, _⟩; cases e
  unfold Picks AtSome
  constructor
  · rintro ⟨i, hi, h1, ⟨h2, h3, h4⟩, h5⟩
    refine ⟨⟨h2, i, hi, h1, h3, h4⟩, fun p hp => (key i h1 p hp).1 (h5 _ (List.mem_map.2 ⟨p, hp, rfl⟩))⟩
  · rintro ⟨⟨h2, i, hi, h1, h3, h4⟩, h5⟩
    refine ⟨i, hi, h1, ⟨h2, h3, h4⟩, fun p hp => ?_⟩
    obtain ⟨p, hp', rfl⟩ := List.mem_map.1 hp
    exact (key i h1 p hp').2 (h5 p hp')

/-- C52: for services whose pods have all the ports, the target pods are those that the selector picks. -/
theorem C52_picked_pods_partial (hC : K8sParser.Cluster rg c) {s : SvcText} (hs : s.Tame rg c) :
    ∃ v, populate rg c s = some v ∧ ∀ E, E.In v.pods ↔ Picks c s E := by
  obtain ⟨v, e, _, _, _, _, _, m⟩ := C52_target_pods hC hs.toLegal
  exact ⟨v, e, fun E => (m E).trans ⟨And.left, fun h => ⟨h, fun p hp name ht => hs.whole p hp name ht E h⟩⟩⟩

/-! ### References to services -/

theorem fullName_toList (name : String) (ns : Ns) : (fullName name ns).toList = ns.name.toList ++ '/' :: name.toList := by
  unfold fullName
  simp

theorem split_slash {a b a' b' : List Char} (ha : '/' ∉ a) (ha' : '/' ∉ a') (h : a ++ '/' :: b = a' ++ '/' :: b') : a = a' ∧ b = b' := by
  induction a generalizing a' with
  | nil =>
    cases a' with
    | nil => simpa using h
    | cons x a' =>
      simp only [List.nil_append, List.cons_append, List.cons.injEq] at h
      exact absurd (by rw [← h.1]; exact List.mem_cons_self) ha'
  | cons x a ih =>
    cases a' with
    | nil =>
      simp only [List.nil_append, List.cons_append, List.cons.injEq] at h
      exact absurd (by rw [h.1]; exact List.mem_cons_self) ha
    | cons y a' =>
      simp only [List.cons_append, List.cons.injEq] at h
      obtain ⟨h1, h2⟩ := ih (fun h => ha (List.mem_cons_of_mem _ h)) (fun h => ha' (List.mem_cons_of_mem _ h)) h.2
      exact ⟨by rw [h.1, h1], h2⟩

theorem fullName_inj {name name' : String} {ns ns' : Ns} (h1 : '/' ∉ ns.name.toList) (h2 : '/' ∉ ns'.name.toList) (h : fullName name ns = fullName name' ns') :
    name = name' ∧ ns.name = ns'.name := by
  have h := congrArg String.toList h
  rw [fullName_toList, fullName_toList] at h
  obtain ⟨h3, h4⟩ := split_slash h1 h2 h
  exact ⟨String.toList_inj.1 h4, String.toList_inj.1 h3⟩

theorem infix_slash {u a b : List Char} (hu : '/' ∉ u) : u <:+: a ++ '/' :: b ↔ u <:+: a ∨ u <:+: b := by
  constructor
  · rintro ⟨s, t, h⟩
    rw [List.append_eq_append_iff] at h
    rcases h with ⟨x, h1, _⟩ | ⟨x, h1, h2⟩
    · left
      exact ⟨s, x, h1.symm⟩
    · cases x with
      | nil => exact Or.inl ⟨s, [], by rw [h1]; simp⟩
      | cons y x =>
        simp only [List.cons_append, List.cons.injEq] at h2
        obtain ⟨rfl, rfl⟩ := h2
        rw [List.append_eq_append_iff] at h1
        rcases h1 with ⟨z, _, h4⟩ | ⟨z, h3, h4⟩
        · exact absurd (by rw [h4]; simp) hu
        · cases z with
          | nil =>
            rw [List.nil_append] at h4
            exact absurd (by rw [← h4]; simp) hu
          | cons y z =>
            simp only [List.cons_append, List.cons.injEq] at h4
            exact Or.inr ⟨z, t, by rw [h4.2]⟩
  · rintro (h | h)
    · exact h.trans ⟨[], '/' :: b, rfl⟩
    · exact h.trans ⟨a ++ ['/'], [], by simp⟩

theorem pairwise_eq {α : Type} {R : α → α → Prop} (hR : ∀ a b, R a b → R b a) {l : List α} (h : l.Pairwise fun a b => ¬ R a b) {a b : α} (ha : a ∈ l)
    (hb : b ∈ l) (hab : R a b) : a = b := by
  induction l with
  | nil => simp at ha
  | cons x l ih =>
    rw [List.pairwise_cons] at h
    rcases List.mem_cons.1 ha with rfl | ha'
    · rcases List.mem_cons.1 hb with rfl | hb'
      · rfl
      · exact absurd hab (h.1 b hb')
    · rcases List.mem_cons.1 hb with rfl | hb'
      · exact absurd (hR _ _ hab) (h.1 a ha')
      · exact ih h.2 ha' hb'

theorem nodup_map_eq {α β : Type} {f : α → β} {l : List α} (h : (l.map f).Nodup) {a b : α} (ha : a ∈ l) (hb : b ∈ l) (hab : f a = f b) : a = b :=
  pairwise_eq (R := fun a b => f a = f b) (fun _ _ h => h.symm) (List.pairwise_map.1 h) ha hb hab

/-- What `populate` makes of a service. -/
def svcOf (rg : PodReg) (c : Container) (s : SvcText) : Svc := (populate rg c s).getD ⟨s.name, s.ns, [], []⟩

theorem svcOf_sem (hC : K8sParser.Cluster rg c) {s : SvcText} (hs : s.Tame rg c) :
    populate rg c s = some (svcOf rg c s) ∧ (svcOf rg c s).name = s.name ∧ (svcOf rg c s).ns = s.ns ∧
      (svcOf rg c s).ports = s.ports.map SvcPortText.conv ∧ (svcOf rg c s).pods.Ok ∧ InCluster c (svcOf rg c s).pods ∧
      ∀ E, E.In (svcOf rg c s).pods ↔ Picks c s E := by
  obtain ⟨v, e, h1, h2, h3, h4, h5, m⟩ := C52_target_pods hC hs.toLegal
  have : svcOf rg c s = v := by unfold svcOf; rw [e]; rfl
  rw [this]
  exact ⟨e, h1, h2, h3, h4, h5, fun E => (m E).trans ⟨And.left, fun h => ⟨h, fun p hp name ht => hs.whole p hp name ht E h⟩⟩⟩

theorem mapM_some {α β : Type} (l : List α) (f : α → Option β) (g : α → β) (h : ∀ a ∈ l, f a = some (g a)) : l.mapM f = some (l.map g) := by
  induction l with
  | nil => rfl
  | cons a l ih =>
    rw [List.mapM_cons, h a List.mem_cons_self, ih fun b hb => h b (List.mem_cons_of_mem _ hb)]
    rfl

theorem putService_fold (l : List Svc) (acc : List (String × Svc)) (h1 : ∀ s ∈ l, ∀ e ∈ acc, e.1 ≠ fullName s.name s.ns)
    (h2 : l.Pairwise fun s s' => fullName s.name s.ns ≠ fullName s'.name s'.ns) :
    l.foldl putService acc = acc ++ l.map fun s => (fullName s.name s.ns, s) := by
  induction l generalizing acc with
  | nil => simp
  | cons s l ih =>
    rw [List.pairwise_cons] at h2
    have : putService acc s = acc ++ [(fullName s.name s.ns, s)] := by
      unfold putService
      rw [if_neg]
      rw [List.any_eq_true]
      rintro ⟨e, he, h⟩
      exact h1 s List.mem_cons_self e he (of_decide_eq_true h)
    rw [List.foldl_cons, this, ih _ _ h2.2]
    · simp
    · intro s' hs' e he
      rcases List.mem_append.1 he with he | he
      · exact h1 s' (List.mem_cons_of_mem _ hs') e he
      · rw [List.mem_singleton] at he
        subst he
        exact h2.1 s' hs'

theorem services_eq (hC : K8sParser.Cluster rg c) {l : List SvcText} (hl : SvcsTame rg c l) :
    services rg c l = some (l.map fun s => (fullName s.name s.ns, svcOf rg c s)) := by
  unfold services
  rw [mapM_some l _ (svcOf rg c) fun s hs => (svcOf_sem hC (hl.each s hs)).1, Option.map_some]
  congr 1
  have hname : ∀ s ∈ l, fullName (svcOf rg c s).name (svcOf rg c s).ns = fullName s.name s.ns := fun s hs => by
    obtain ⟨_, h1, h2, _⟩ := svcOf_sem hC (hl.each s hs)
    rw [h1, h2]
  rw [putService_fold _ [] (fun _ _ e he => by simp at he)]
  · rw [List.nil_append, List.map_map]
    exact List.map_congr_left fun s hs => by
      show (fullName (svcOf rg c s).name (svcOf rg c s).ns, _) = _
      rw [hname s hs]
  · rw [List.pairwise_map]
    refine List.Pairwise.imp_of_mem (fun {s s'} hs hs' h e => ?_) hl.uniq
    rw [hname s hs, hname s' hs'] at e
    exact h (fullName_inj (hl.ns s hs) (hl.ns s' hs') e)

theorem lookup_map {α β : Type} [DecidableEq β] {γ : Type} (l : List α) (f : α → β) (g : α → γ) (b : β) :
    (l.map fun a => (f a, g a)).lookup b = (l.find? fun a => decide (f a = b)).map g := by
  induction l with
  | nil => rfl
  | cons a l ih =>
    rw [List.map_cons, List.lookup_cons, List.find?_cons]
    by_cases h : f a = b
    · subst h; simp
    · rw [show (b == f a) = false by simpa using Ne.symm h]
      simp [h, ih]

theorem getService_eq {l : List SvcText} (hl : SvcsTame rg c l) {ns : Ns} (hns : '/' ∉ ns.name.toList) {s : SvcText} (hs : s ∈ l) {name : String}
    (h1 : s.name = name) (h2 : s.ns.name = ns.name) : getService (l.map fun s => (fullName s.name s.ns, svcOf rg c s)) name ns = some (svcOf rg c s) := by
  unfold getService
  rw [lookup_map]
  have : l.find? (fun s => decide (fullName s.name s.ns = fullName name ns)) = some s := by
    cases h : l.find? (fun s => decide (fullName s.name s.ns = fullName name ns)) with
    | none =>
      rw [List.find?_eq_none] at h
      refine absurd ?_ (h s hs)
      rw [decide_eq_true_eq]
      unfold fullName
      rw [h1, h2]
    | some s' =>
      have m := List.mem_of_find?_eq_some h
      have e := List.find?_some h
      rw [decide_eq_true_eq] at e
      obtain ⟨e1, e2⟩ := fullName_inj (hl.ns s' m) hns e
      rw [pairwise_eq (R := fun s s' : SvcText => s.name = s'.name ∧ s.ns.name = s'.ns.name) (fun _ _ h => ⟨h.1.symm, h.2.symm⟩) hl.uniq m hs
        ⟨e1.trans h1.symm, e2.trans h2.symm⟩]
  rw [this]; rfl

theorem named_pods_sem (hC : K8sParser.Cluster rg c) {l : List SvcText} (hl : SvcsTame rg c l) {u : String} (hu : '/' ∉ u.toList)
    (hc : ∀ s ∈ l, u.toList <:+: s.ns.name.toList → u.toList <:+: s.name.toList) :
    (podsOfServices (l.map fun s => (fullName s.name s.ns, svcOf rg c s)) u).Ok ∧
      InCluster c (podsOfServices (l.map fun s => (fullName s.name s.ns, svcOf rg c s)) u) ∧
      ∀ E, E.In (podsOfServices (l.map fun s => (fullName s.name s.ns, svcOf rg c s)) u) ↔ ∃ s ∈ l, u.toList <:+: s.name.toList ∧ Picks c s E := by
  have key : ∀ (l' : List SvcText) (q : PeerSet String), (∀ s ∈ l', s ∈ l) → q.Ok → InCluster c q →
      let r := (l'.map fun s => (fullName s.name s.ns, svcOf rg c s)).foldl
        (fun res e => if u.toList <:+: e.1.toList then res.or e.2.pods else res) q
      r.Ok ∧ InCluster c r ∧ ∀ E, E.In r ↔ E.In q ∨ ∃ s ∈ l', u.toList <:+: s.name.toList ∧ Picks c s E := by
    intro l'
    induction l' with
    | nil => exact fun q _ h1 h2 => ⟨h1, h2, by simp⟩
    | cons s l' ih =>
      intro q hm h1 h2
      obtain ⟨_, _, _, _, o, i, m⟩ := svcOf_sem hC (hl.each s (hm s List.mem_cons_self))
      have hin : u.toList <:+: (fullName s.name s.ns).toList ↔ u.toList <:+: s.name.toList := by
        rw [fullName_toList, infix_slash hu]
        exact ⟨fun h => h.elim (hc s (hm s List.mem_cons_self)) id, Or.inr⟩
      dsimp only
      rw [List.map_cons, List.foldl_cons]
      dsimp only
      by_cases h : u.toList <:+: s.name.toList
      · rw [if_pos (hin.2 h)]
        have hor := C22_or_exact h1 o
        obtain ⟨g1, g2, g3⟩ := ih (q.or (svcOf rg c s).pods) (fun s' hs' => hm s' (List.mem_cons_of_mem _ hs')) hor.1
          (fun k hk => ((hor.2.1 k).1 hk).elim (h2 k) (i k))
        refine ⟨g1, g2, fun E => (g3 E).trans ?_⟩
        rw [in_or h1 o, m]
        simp only [List.mem_cons, exists_eq_or_imp, h, true_and, or_assoc]
      · rw [if_neg (fun h' => h (hin.1 h'))]
        obtain ⟨g1, g2, g3⟩ := ih q (fun s' hs' => hm s' (List.mem_cons_of_mem _ hs')) h1 h2
        refine ⟨g1, g2, fun E => (g3 E).trans ?_⟩
        simp only [List.mem_cons, exists_eq_or_imp, h, false_and, false_or]
  obtain ⟨h1, h2, h3⟩ := key l [] (fun _ h => h) empty_ok empty_in
  refine ⟨h1, h2, fun E => (h3 E).trans ?_⟩
  rw [or_iff_right (not_in_empty E)]

/-- The pods of the controller. -/
theorem controller_sem (hC : K8sParser.Cluster rg c) {l : List SvcText} (hl : SvcsTame rg c l) :
    (podsOfServices (l.map fun s => (fullName s.name s.ns, svcOf rg c s)) "ingress-nginx").Ok ∧
      InCluster c (podsOfServices (l.map fun s => (fullName s.name s.ns, svcOf rg c s)) "ingress-nginx") ∧
      ∀ E, E.In (podsOfServices (l.map fun s => (fullName s.name s.ns, svcOf rg c s)) "ingress-nginx") ↔ Controller c l E :=
  named_pods_sem hC hl (by decide) hl.controller

/-! ### Backends -/

/-- The set of ports has the port of the place, or its name there. -/
def PortAt (rg : PodReg) (P : PortSet) (E : Place) (x : Int) : Prop :=
  Mem x P.ports ∨ ∃ name ∈ P.named, ∃ k, E = .pod k ∧ (rg.named k).lookup name = some (x, "TCP")

/-- The target has a meaning: the peers and ports of which `T` holds. -/
structure TargetSem (rg : PodReg) (c : Container) (T : Place → Int → Prop) (S : PeerSet String) (P : PortSet) : Prop where
  ok : S.Ok
  inCluster : InCluster c S
  ne : S ≠ []
  ports : Canonical P.ports
  range : ∀ x, Mem x P.ports → 1 ≤ x ∧ x ≤ 65535
  excluded : P.excluded = ∅
  tcp : ∀ E : Place, E.In S → ∀ name ∈ P.named, ∃ x k, E = .pod k ∧ (rg.named k).lookup name = some (x, "TCP")
  mem : ∀ E x, E.In S ∧ PortAt rg P E x ↔ T E x

theorem parseBackend_sem (hC : K8sParser.Cluster rg c) {l : List SvcText} (hl : SvcsTame rg c l) {ns : Ns} (hns : '/' ∉ ns.name.toList) {b : Backend}
    (hb : b.Tame c l ns) (d : Bool) : ∃ S P, parseBackend (l.map fun s => (fullName s.name s.ns, svcOf rg c s)) ns d (some b) = some ⟨some S, some P, true⟩ ∧
      TargetSem rg c (BackendIs rg c l ns b) S P := by
  obtain ⟨hres, r, hr, s, hs, hn1, hn2, ⟨E0, hE0⟩, p, hp, href, htcp⟩ := hb
  have ht := hl.each s hs
  obtain ⟨_, v1, v2, v3, v4, v5, v6⟩ := svcOf_sem hC ht
  obtain ⟨n, hpn, hnlo, hnhi⟩ := ht.nums p hp
  -- the port that is found
  have find : refPort (svcOf rg c s) r = some p.conv := by
    have first : ∀ f : SvcPort → Bool, f p.conv = true → (∀ p' ∈ s.ports, f p'.conv = true → p' = p) →
        (svcOf rg c s).ports.find? f = some p.conv := by
      intro f h1 h2
      rw [v3]
      cases h : (s.ports.map SvcPortText.conv).find? f with
      | none =>
        rw [List.find?_eq_none] at h
        exact absurd h1 (h _ (List.mem_map.2 ⟨p, hp, rfl⟩))
      | some q =>
        obtain ⟨p', hp', rfl⟩ := List.mem_map.1 (List.mem_of_find?_eq_some h)
        rw [h2 p' hp' (List.find?_some h)]
    unfold refPort
    rcases href with ⟨m, hm, g1, g2, g3⟩ | ⟨m, g1, g2, g3⟩
    · rw [g1, Option.filter_some, if_pos (by simpa using hm)]
      refine first _ ?_ fun p' hp' h => ?_
      · rw [decide_eq_true_eq]; unfold SvcPortText.conv; rw [g3]; rfl
      · refine nodup_map_eq ht.names hp' hp ?_
        have h : p'.name.getD "" = m := of_decide_eq_true h
        rw [g3]; exact h
    · rw [g1, g2]
      show portByNumber (svcOf rg c s) m = _
      refine first _ ?_ fun p' hp' h => ?_
      · rw [decide_eq_true_eq]; unfold SvcPortText.conv; rw [g3]; rfl
      · refine nodup_map_eq ht.numbers hp' hp ?_
        have h : p'.num.getD 0 = m := of_decide_eq_true h
        obtain ⟨n', e', _⟩ := ht.nums p' hp'
        rw [e'] at h ⊢
        rw [g3, ← h]; rfl
  have both : ((r.portName.filter (· ≠ "")).isSome && (r.portNumber.filter (· ≠ 0)).isSome) = false := by
    rcases href with ⟨m, hm, g1, g2, g3⟩ | ⟨m, g1, g2, g3⟩
    · rw [g2]; simp
    · rw [g1]; rfl
  refine ⟨(svcOf rg c s).pods, (PortSet.make false).addPort (match p.conv.target with | .inl n => .num n | .inr t => .name t), ?_, ?_⟩
  · unfold parseBackend
    dsimp only
    rw [hres, hr]
    dsimp only
    rw [if_neg (by simp), both, if_neg (by simp)]
    refine (if_neg ?_).trans ?_
    · rcases href with ⟨m, hm, g1, g2, g3⟩ | ⟨m, g1, g2, g3⟩
      · rw [g2]; simp
      · rw [hpn] at g3; cases g3
        rw [g2, Option.filter_some, if_pos (by simp; omega)]
        dsimp only
        rw [(CalicoParser.validPort_iff n).2 ⟨hnlo, hnhi⟩]; simp
    · rw [getService_eq hl hns hs hn1 hn2]
      dsimp only
      rw [find]
      rfl
  · have uniq : ∀ E x, BackendIs rg c l ns b E x ↔ Picks c s E ∧ TargetIs rg p E x := by
      intro E x
      constructor
      · rintro ⟨r', e, s', hs', h1, h2, p', hp', h3, h4, h5⟩
        rw [hr] at e; cases e
        obtain rfl := pairwise_eq (R := fun s s' : SvcText => s.name = s'.name ∧ s.ns.name = s'.ns.name) (fun _ _ h => ⟨h.1.symm, h.2.symm⟩) hl.uniq hs' hs
          ⟨h1.trans hn1.symm, h2.trans hn2.symm⟩
        have : p' = p := by
          rcases href with ⟨m, hm, g1, g2, g3⟩ | ⟨m, g1, g2, g3⟩
          · rcases h3 with ⟨m', _, f1, f2, f3⟩ | ⟨m', f1, f2, f3⟩
            · rw [g1] at f1; cases f1
              refine nodup_map_eq ht.names hp' hp ?_
              rw [f3, g3]
            · rw [g1] at f1; cases f1
          · rcases h3 with ⟨m', _, f1, f2, f3⟩ | ⟨m', f1, f2, f3⟩
            · rw [g1] at f1; cases f1
            · rw [g2] at f2; cases f2
              exact nodup_map_eq ht.numbers hp' hp (f3.trans g3.symm)
        subst this
        exact ⟨h4, h5⟩
      · rintro ⟨h1, h2⟩
        exact ⟨r, hr, s, hs, hn1, hn2, p, hp, href, h1, h2⟩
    have hne : (svcOf rg c s).pods ≠ [] := by
      intro h
      exact not_in_empty E0 (h ▸ (v6 E0).2 hE0)
    have hnum : ∀ a : Int, 1 ≤ a ∧ a ≤ 65535 → (∀ E x, TargetIs rg p E x ↔ x = a) →
        TargetSem rg c (BackendIs rg c l ns b) (svcOf rg c s).pods ((PortSet.make false).addPort (.num a)) := by
      intro a ha hT
      have h1 := addOne a
      refine ⟨v4, v5, hne, h1.1, fun x hx => ?_, rfl, fun E _ name hname => ?_, fun E x => ?_⟩
      · rw [(h1.2 x).1 hx]; exact ha
      · exact absurd hname (Finset.notMem_empty _)
      · rw [uniq, v6, hT]
        refine and_congr_right fun _ => ?_
        constructor
        · rintro (h | ⟨name, hname, _⟩)
          · exact (h1.2 x).1 h
          · exact absurd hname (Finset.notMem_empty _)
        · exact fun h => Or.inl ((h1.2 x).2 h)
    cases hpt : p.target with
    | none =>
      have : p.conv.target = .inl n := by unfold SvcPortText.conv; rw [hpt, hpn]; rfl
      rw [this]
      refine hnum n ⟨hnlo, hnhi⟩ fun E x => ?_
      unfold TargetIs
      rw [hpt, hpn]
      dsimp only
      rw [Option.some.injEq]; exact eq_comm
    | some t =>
      have hct : p.conv.target = t := by unfold SvcPortText.conv; rw [hpt]; rfl
      rw [hct]
      cases t with
      | inl a =>
        refine hnum a (ht.targets p hp a hpt) fun E x => ?_
        unfold TargetIs
        rw [hpt]
      | inr name =>
        have hTi : ∀ E x, TargetIs rg p E x ↔ ∃ k, E = .pod k ∧ (rg.named k).lookup name = some (x, "TCP") := by
          intro E x
          unfold TargetIs
          rw [hpt]
          dsimp only
          rw [htcp]
        have hnamed : ∀ nm, nm ∈ ((PortSet.make false).addPort (.name name)).named ↔ nm = name := by
          intro nm
          show nm ∈ (∅ : Finset String) ∪ {name} ↔ _
          simp
        refine ⟨v4, v5, hne, canonical_nil, fun x hx => absurd hx not_mem_nil, rfl, fun E hE nm hnm => ?_, fun E x => ?_⟩
        · rw [hnamed] at hnm; subst hnm
          obtain ⟨x, hx⟩ := ht.whole p hp nm hpt E ((v6 E).1 hE)
          obtain ⟨k, h1, h2⟩ := (hTi E x).1 hx
          exact ⟨x, k, h1, h2⟩
        · rw [uniq, v6, hTi]
          refine and_congr_right fun _ => ?_
          constructor
          · rintro (h | ⟨nm, hnm, k, h1, h2⟩)
            · exact absurd h not_mem_nil
            · rw [hnamed] at hnm; subst hnm
              exact ⟨k, h1, h2⟩
          · rintro ⟨k, h1, h2⟩
            exact Or.inr ⟨name, (hnamed _).2 rfl, k, h1, h2⟩

end
end IngressParser
end Verif
