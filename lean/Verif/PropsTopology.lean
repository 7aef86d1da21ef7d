import Verif.TopologyRead
import Verif.CalicoParseSpec
import Verif.IstioParseSpec
import Verif.PropsK8sParse
/-!
Property theorems C61 (namespaces and endpoints of the cluster from the manifests).
-/
namespace Verif

namespace Topology
open CalicoParser (CalCluster)
open IstioParser (IstioCluster)

/-- The object stands for the endpoint: it describes the endpoint, or one that is like it. -/
def StandsFor (nodes : Nat) (l : List Step) (p : PeerObj) (m : Member) : Prop := ∃ a ∈ members nodes l, Alike m a ∧ Describes l a p

section
variable {nodes : Nat} {cidrs : IpBlock → String} {ord : SetOrder} {l : List Step} {reg : PodReg} {l0 : List (String × NamedPorts)} {t : Topo}
  (ht : Tame nodes cidrs l) (hr : reg.Reach l0) (e : read cidrs ord reg l = some t)

include ht hr e in
/-- C61: every object of the container is an endpoint of the cluster, and has its kind, name, addresses, namespace, labels,
labels of the namespace, named ports, service account and profiles. -/
theorem C61_described : ∀ p ∈ t.peers, ∃ m ∈ members nodes l, Describes l m p := by
  intro p hp
  obtain ⟨m, hm, rfl⟩ := List.mem_map.1 ((read_sem ht hr e).1.sub p hp)
  exact ⟨m, hm, obj_describes (members_mem_wf hm) (ht.plain m hm)⟩

include ht hr e in
/-- C61: no two objects are equal. -/
theorem C61_nodup : (t.peers.map fun p => p.info.elem).Nodup := (read_sem ht hr e).1.nodup

include ht hr e in
theorem kept {m : Member} (hm : m ∈ members nodes l) : m.obj cidrs (nsFrom (nsTexts l)) ∈ t.peers ∨
    ∃ p ∈ t.peers, ∃ q ∈ t.peers, p.info.elem ≠ q.info.elem ∧ StandsFor nodes l p m ∧ StandsFor nodes l q m := by
  have h := (read_sem ht hr e).1
  have st : ∀ p ∈ t.peers, p.form = (m.obj cidrs (nsFrom (nsTexts l))).form → StandsFor nodes l p m := by
    intro p hp hf
    obtain ⟨a, ha, rfl⟩ := List.mem_map.1 (h.sub p hp)
    exact ⟨a, ha, tame_alike ht hm ha hf.symm, obj_describes (members_mem_wf ha) (ht.plain a ha)⟩
  rcases h.all _ (List.mem_map.2 ⟨m, hm, rfl⟩) with h1 | h1
  · exact .inl h1
  · rcases h.two _ h1 with ⟨p, hp, q, hq, e1, e2, e3⟩ | ⟨p, hp, e1, e2⟩
    · exact .inr ⟨p, hp, q, hq, e3, st p hp e1, st q hq e2⟩
    · obtain ⟨a, ha, rfl⟩ := List.mem_map.1 (h.sub p hp)
      have al := tame_alike ht hm ha e1.symm
      rw [obj_kind] at e2
      rw [al.same (.inl (al.kind.trans e2))]
      exact .inl hp

include ht hr e in
/-- C61: every endpoint of the cluster has an object that stands for it. -/
theorem C61_one {m : Member} (hm : m ∈ members nodes l) : ∃ p ∈ t.peers, StandsFor nodes l p m := by
  rcases kept ht hr e hm with h | ⟨p, hp, _, _, _, h, _⟩
  · exact ⟨_, h, m, hm, Alike.refl m, obj_describes (members_mem_wf hm) (ht.plain m hm)⟩
  · exact ⟨p, hp, h⟩

include ht hr e in
/-- C61: any two endpoints of the cluster have different objects that stand for them, so that connections between
them can be read off these objects.  Partial: for the documents that the code reads right. -/
theorem C61_two_partial {m m' : Member} (hm : m ∈ members nodes l) (hm' : m' ∈ members nodes l) (hne : m ≠ m') :
    ∃ p ∈ t.peers, ∃ p' ∈ t.peers, p.info.elem ≠ p'.info.elem ∧ StandsFor nodes l p m ∧ StandsFor nodes l p' m' := by
  have self : ∀ {m : Member}, m ∈ members nodes l → StandsFor nodes l (m.obj cidrs (nsFrom (nsTexts l))) m := fun {m} hm =>
    ⟨m, hm, Alike.refl m, obj_describes (members_mem_wf hm) (ht.plain m hm)⟩
  have other : ∀ {m : Member} (r : PeerObj), (∃ p ∈ t.peers, ∃ q ∈ t.peers, p.info.elem ≠ q.info.elem ∧ StandsFor nodes l p m ∧ StandsFor nodes l q m) →
      ∃ p ∈ t.peers, p.info.elem ≠ r.info.elem ∧ StandsFor nodes l p m := by
    rintro m r ⟨p, hp, q, hq, h1, h2, h3⟩
    by_cases hpr : p.info.elem = r.info.elem
    · exact ⟨q, hq, fun h => h1 (hpr.trans h.symm), h3⟩
    · exact ⟨p, hp, hpr, h2⟩
  rcases kept ht hr e hm with h | h
  · rcases kept ht hr e hm' with h' | h'
    · exact ⟨_, h, _, h', fun he => hne (obj_inj ht hm hm' he), self hm, self hm'⟩
    · obtain ⟨p', hp', h1, h2⟩ := other (m.obj cidrs (nsFrom (nsTexts l))) h'
      exact ⟨_, h, p', hp', fun he => h1 he.symm, self hm, h2⟩
  · obtain ⟨p', hp', h2⟩ := C61_one ht hr e hm'
    obtain ⟨p, hp, h3, h4⟩ := other p' h
    exact ⟨p, hp, p', hp', h3, h4, h2⟩

/-- C61: where pods that no policy tells apart have the same ports and service accounts, an object has those of the
endpoint it stands for. -/
theorem C61_uniform (hu : Uniform nodes l) {p : PeerObj} {m : Member} (hm : m ∈ members nodes l) (h : StandsFor nodes l p m) :
    p.ports = podPorts m.ports ∧ ∀ a, m.account = some a → p.account = a := by
  obtain ⟨m', hm', h1, h2⟩ := h
  obtain ⟨u1, u2⟩ := hu m hm m' hm' h1
  exact ⟨by rw [h2.ports, u1], fun a ha => h2.account a (by rw [← u2, ha])⟩

include ht hr e in
/-- C61: namespaces have the labels of their documents, and a label with their name. -/
theorem C61_namespaces (n k : String) : (t.ns n).labels.lookup k = nsLabel l n k := by
  rw [(read_sem ht hr e).2, nsFrom_labels]

/-! ### The registered objects -/

include ht hr e in
theorem reg_sem : Base.Reach t.reg.keys ∧ (∀ k, k ∈ t.reg.keys ↔ k ∈ reg.keys ∨ ∃ p ∈ t.peers, p.info.elem = .pod k) ∧
    (∀ k, LegalPorts (t.reg.named k) ∨ (∃ a, (k, a) ∈ l0 ∧ t.reg.named k = a) ∨ ∃ p ∈ t.peers, p.info.elem = .pod k ∧ t.reg.named k = p.ports) ∧
    ∀ p ∈ t.peers, ∀ k, p.info.elem = .pod k → (∀ a, (k, a) ∈ l0 → a = p.ports) → t.reg.named k = p.ports := by
  obtain ⟨l1, r1, r2⟩ := (read_sem ht hr e).1.reg
  have nd := (read_sem ht hr e).1.nodup
  obtain ⟨c1, c2, c3⟩ := C43_registered r1
  obtain ⟨_, d2, _⟩ := C43_registered hr
  have uniq : ∀ p ∈ t.peers, ∀ q ∈ t.peers, p.info.elem = q.info.elem → p = q := fun p hp q hq h => List.inj_on_of_nodup_map nd hp hq h
  refine ⟨c1, fun k => ?_, fun k => ?_, fun p hp k hk ha => ?_⟩
  · rw [c2, d2, List.map_append, List.mem_append]
    refine or_congr .rfl ⟨fun h => ?_, fun ⟨p, hp, h⟩ => List.mem_map.2 ⟨(k, p.ports), (r2 _ _).2 ⟨p, hp, h, rfl⟩, rfl⟩⟩
    obtain ⟨⟨j, a⟩, hj, rfl⟩ := List.mem_map.1 h
    obtain ⟨p, hp, h, _⟩ := (r2 _ _).1 hj
    exact ⟨p, hp, h⟩
  · rw [c3]
    cases hlk : (l0 ++ l1).lookup k with
    | none => exact .inl fun name num pr h => by simp at h
    | some v =>
      have hm : (k, v) ∈ l0 ++ l1 := by
        obtain ⟨x, y, hxy, _⟩ := List.lookup_eq_some_iff.1 hlk
        rw [hxy]; simp
      rcases List.mem_append.1 hm with h | h
      · exact .inr (.inl ⟨v, h, rfl⟩)
      · obtain ⟨p, hp, h1, h2⟩ := (r2 _ _).1 h
        exact .inr (.inr ⟨p, hp, h1, h2.symm⟩)
  · rw [c3]
    have hm : (k, p.ports) ∈ l0 ++ l1 := List.mem_append_right _ ((r2 _ _).2 ⟨p, hp, hk, rfl⟩)
    cases hlk : (l0 ++ l1).lookup k with
    | none =>
      rw [List.lookup_eq_none_iff] at hlk
      exact absurd rfl (bne_iff_ne.1 (hlk _ hm))
    | some v =>
      have hv : (k, v) ∈ l0 ++ l1 := by
        obtain ⟨x, y, hxy, _⟩ := List.lookup_eq_some_iff.1 hlk
        rw [hxy]; simp
      rcases List.mem_append.1 hv with h | h
      · exact ha v h
      · obtain ⟨q, hq, h1, h2⟩ := (r2 _ _).1 h
        rw [uniq p hp q hq (hk.trans h1.symm), h2]; rfl

include ht hr e in
/-- C61: the registered objects, in the order of which peers are numbered, are those of the earlier configurations and the
objects of the container; each has its own named ports, if earlier configurations have the same for its name. -/
theorem C61_registered : (∀ k, k ∈ t.reg.keys ↔ k ∈ reg.keys ∨ ∃ p ∈ t.peers, p.info.elem = .pod k) ∧
    ∀ p ∈ t.peers, ∀ k, p.info.elem = .pod k → (∀ a, (k, a) ∈ l0 → a = p.ports) → t.reg.named k = p.ports :=
  ⟨(reg_sem ht hr e).2.1, (reg_sem ht hr e).2.2.2⟩

include ht hr e in
/-- C61: the cluster is one for which Calico policies are read right (C48, C49): if the ports are legal and there is room for
one more. -/
theorem C61_calico_cluster (hl0 : ∀ k a, (k, a) ∈ l0 → LegalPorts a) (hl : ∀ m ∈ members nodes l, LegalPorts (podPorts m.ports))
    (room : t.reg.keys.length < maxPods) : CalCluster t.reg t.container := by
  obtain ⟨c1, c2, c3, c4⟩ := reg_sem ht hr e
  have nd := (read_sem ht hr e).1.nodup
  have desc : ∀ p ∈ t.container, ∃ o ∈ t.peers, o.info = p ∧ ∃ m ∈ members nodes l, Describes l m o := by
    intro p hp
    obtain ⟨o, ho, rfl⟩ := List.mem_map.1 hp
    exact ⟨o, ho, rfl, C61_described ht hr e o ho⟩
  have key : ∀ {m : Member} {o : PeerObj}, Describes l m o → (o.info.kind = .netset ↔ ∃ b, o.info.elem = .ip b) := by
    intro m o d
    constructor
    · intro hk
      obtain ⟨b, hb, _⟩ := d.nets (d.kind ▸ hk)
      exact ⟨b, hb⟩
    · rintro ⟨b, hb⟩
      by_contra hk
      rw [d.name (d.kind ▸ hk)] at hb
      cases hb
  have uq : t.container.Uniq := by
    intro p hp q hq h
    obtain ⟨o, ho, rfl, _⟩ := desc p hp
    obtain ⟨o', ho', rfl, _⟩ := desc q hq
    rw [List.inj_on_of_nodup_map nd ho ho' h]
  refine ⟨c1, room, fun k => ?_, fun p hp b hb => ?_, uq, fun p hp q hq a b ha hb x hxa hxb => ?_, ⟨fun p hp hk => ?_, fun p hp hk => ?_⟩, fun p hp k hk => ?_, fun p hp => ?_⟩
  · rcases c3 k with h | ⟨a, ha, h⟩ | ⟨p, hp, _, h⟩
    · exact h
    · rw [h]; exact hl0 k a ha
    · obtain ⟨m, hm, d⟩ := C61_described ht hr e p hp
      rw [h, d.ports]; exact hl m hm
  · obtain ⟨o, ho, rfl, m, hm, d⟩ := desc p hp
    obtain ⟨b', hb', h, _⟩ := d.nets (d.kind ▸ (key d).2 ⟨b, hb⟩)
    rw [hb] at hb'; cases hb'; exact h
  · obtain ⟨o, ho, rfl⟩ := List.mem_map.1 hp
    obtain ⟨o', ho', rfl⟩ := List.mem_map.1 hq
    obtain ⟨m, hm, rfl⟩ := List.mem_map.1 ((read_sem ht hr e).1.sub o ho)
    obtain ⟨m', hm', rfl⟩ := List.mem_map.1 ((read_sem ht hr e).1.sub o' ho')
    have d := obj_describes (cidrs := cidrs) (l := l) (members_mem_wf hm) (ht.plain m hm)
    have d' := obj_describes (cidrs := cidrs) (l := l) (members_mem_wf hm') (ht.plain m' hm')
    by_cases hmm : m = m'
    · rw [hmm]
    · exfalso
      have k1 : m.kind = .netset := d.kind ▸ (key d).2 ⟨a, ha⟩
      have k2 : m'.kind = .netset := d'.kind ▸ (key d').2 ⟨b, hb⟩
      obtain ⟨a', ha', _, h1⟩ := d.nets k1
      obtain ⟨b', hb', _, h2⟩ := d'.nets k2
      rw [ha] at ha'; cases ha'
      rw [hb] at hb'; cases hb'
      obtain ⟨x1, hx1, hx2⟩ := (h1 x).1 hxa
      obtain ⟨y1, hy1, hy2⟩ := (h2 x).1 hxb
      exact pairwise_ne ht.sets (fun a b h ha hb c hc c' hc' x hx => h hb ha c' hc' c hc x ⟨hx.2, hx.1⟩) hm hm' hmm k1 k2 x1 hx1 y1 hy1 x ⟨hx2, hy2⟩
  · obtain ⟨o, ho, rfl⟩ := List.mem_map.1 hp
    obtain ⟨m, hm, rfl⟩ := List.mem_map.1 ((read_sem ht hr e).1.sub o ho)
    rw [obj_kind] at hk
    rw [(members_mem_wf hm).dns hk]
    exact ⟨rfl, rfl⟩
  · obtain ⟨o, ho, rfl, m, hm, d⟩ := desc p hp
    rw [d.isGlobal, ← d.ns, d.kind.symm, Option.map_eq_none_iff]
    exact ⟨And.left, fun h => ⟨h, hk⟩⟩
  · obtain ⟨o, ho, rfl⟩ := List.mem_map.1 hp
    exact (c2 k).2 (.inr ⟨o, ho, hk⟩)
  · obtain ⟨o, ho, rfl, m, hm, d⟩ := desc p hp
    exact key d

end

/-! ### The namespaces that are known -/

section
variable {cidrs : IpBlock → String} {ord : SetOrder} {reg : PodReg} {S : String → Prop}

/-- The known namespaces are among those of the documents, and have those of the endpoints. -/
structure Knows (S : String → Prop) (t : Topo) : Prop where
  names : ∀ x ∈ t.nss, S x.2.name
  peers : ∀ p ∈ t.peers, ∀ n, p.info.ns = some n → ∃ x ∈ t.nss, x.2.name = n.name

theorem Knows.touch {t : Topo} (h : Knows S t) {k : String} (hk : k ≠ "") (hs : S k) :
    Knows S (t.touch k) ∧ ∃ x ∈ (t.touch k).nss, x.2.name = (t.ns k).name := by
  unfold Topo.touch Topo.ns
  cases hl : t.nss.lookup k with
  | some n =>
    simp only [Option.isSome_some, if_true, Option.getD_some]
    refine ⟨h, (k, n), ?_, rfl⟩
    obtain ⟨x, y, hxy, _⟩ := List.lookup_eq_some_iff.1 hl
    rw [hxy]; simp
  | none =>
    simp only [Option.isSome_none, Bool.false_eq_true, if_false, Option.getD_none]
    refine ⟨⟨fun x hx => ?_, fun p hp n hn => ?_⟩, (k, newNs k []), List.mem_cons_self, rfl⟩
    · rcases List.mem_cons.1 hx with rfl | hx
      · rw [newNs_name hk]; exact hs
      · exact h.names x hx
    · obtain ⟨x, hx, e⟩ := h.peers p hp n hn
      exact ⟨x, List.mem_cons_of_mem _ hx, e⟩

theorem Knows.add {t t' : Topo} (h : Knows S t) {p : PeerObj} (e : addPeer t p = some t') (hp : ∀ n, p.info.ns = some n → ∃ x ∈ t.nss, x.2.name = n.name) :
    Knows S t' ∧ t'.nss = t.nss := by
  unfold addPeer at e
  split at e
  · cases e; exact ⟨h, rfl⟩
  · obtain ⟨reg, _, rfl⟩ := Option.map_eq_some_iff.1 e
    refine ⟨⟨h.names, fun q hq => ?_⟩, rfl⟩
    dsimp only at hq ⊢
    split at hq
    · exact h.peers q hq
    · rcases List.mem_append.1 hq with hq | hq
      · exact h.peers q hq
      · rw [List.mem_singleton.1 hq]; exact hp

theorem Knows.adds {α : Type} (f : α → PeerObj) (os : List α) {t t' : Topo} (h : Knows S t) (e : os.foldlM (fun s a => addPeer s (f a)) t = some t')
    (hp : ∀ o ∈ os, ∀ n, (f o).info.ns = some n → ∃ x ∈ t.nss, x.2.name = n.name) : Knows S t' := by
  induction os generalizing t with
  | nil => cases e; exact h
  | cons o os ih =>
    rw [List.foldlM_cons] at e
    obtain ⟨t1, e1, e2⟩ := Option.bind_eq_some_iff.1 e
    obtain ⟨h1, h2⟩ := h.add e1 (hp o List.mem_cons_self)
    exact ih h1 e2 fun x hx => by rw [h2]; exact hp x (List.mem_cons_of_mem _ hx)

theorem Knows.item {t t' : Topo} (h : Knows S t) {i : Item} (e : addItem cidrs ord t i = some t') (hs : ∀ n, i.space? = some n → n ≠ "" ∧ S n) : Knows S t' := by
  cases i with
  | ns x => cases e; exact h
  | pod x =>
    obtain ⟨h1, h2⟩ := h.touch (hs _ rfl).1 (hs _ rfl).2
    refine (h1.add e fun n hn => ?_).1
    simp only [podObj, Option.some.injEq] at hn
    rw [← hn]; exact h2
  | work x =>
    obtain ⟨h1, h2⟩ := h.touch (hs _ rfl).1 (hs _ rfl).2
    refine h1.adds (workObj (t.ns (x.ns.getD "default")) x) _ e fun o _ n hn => ?_
    simp only [workObj, podObj, Option.some.injEq] at hn
    rw [← hn]; exact h2
  | wep x =>
    obtain ⟨h1, h2⟩ := h.touch (hs _ rfl).1 (hs _ rfl).2
    refine (h1.add e fun n hn => ?_).1
    simp only [podObj, Option.some.injEq] at hn
    rw [← hn]; exact h2
  | hep x => exact (h.add e fun n hn => by simp [hepObj] at hn).1
  | set x =>
    have e0 : addSet cidrs t x = some t' := e
    unfold addSet at e0
    split at e0
    · cases e0; exact h
    · obtain ⟨b, _, e1⟩ := Option.bind_eq_some_iff.1 e0
      split at e1
      · exact (h.add e1 fun n hn => by simp [setObj] at hn).1
      · rename_i hg
        have hsp := hs (x.ns.getD "default") (by simp [Item.space?, hg])
        obtain ⟨h1, h2⟩ := h.touch hsp.1 hsp.2
        refine (h1.add e1 fun n hn => ?_).1
        simp only [setObj, Option.some.injEq] at hn
        rw [← hn]; exact h2
  | entry x =>
    have e0 : addEntry ord t x = some t' := e
    unfold addEntry at e0
    split at e0
    · cases e0
    · exact h.adds dnsObj _ e0 fun o _ n hn => by simp [dnsObj] at hn

theorem Knows.addNs {t : Topo} (h : Knows S t) (l : List NsText) (hs : ∀ x ∈ l, x.name ≠ "" ∧ S x.name) : Knows S (l.foldl addNs t) := by
  induction l generalizing t with
  | nil => exact h
  | cons x l ih =>
    refine ih ⟨fun y hy => ?_, fun p hp n hn => ?_⟩ fun y hy => hs y (List.mem_cons_of_mem _ hy)
    · rcases List.mem_cons.1 hy with rfl | hy
      · obtain ⟨h1, h2⟩ := hs x List.mem_cons_self
        rw [newNs_name h1]; exact h2
      · exact h.names y hy
    · obtain ⟨y, hy, e⟩ := h.peers p hp n hn
      exact ⟨y, List.mem_cons_of_mem _ hy, e⟩

/-- A loop keeps what each round keeps. -/
theorem foldlM_keeps {α β : Type} {P : β → Prop} {f : β → α → Option β} {l : List α} (hf : ∀ a ∈ l, ∀ s s', P s → f s a = some s' → P s') {s s' : β} (h : P s)
    (e : l.foldlM f s = some s') : P s' := by
  induction l generalizing s with
  | nil => cases e; exact h
  | cons a l ih =>
    rw [List.foldlM_cons] at e
    obtain ⟨s1, e1, e2⟩ := Option.bind_eq_some_iff.1 e
    exact ih (fun b hb => hf b (List.mem_cons_of_mem _ hb)) (hf a List.mem_cons_self s s1 h e1) e2

theorem read_knows {l : List Step} {t : Topo} (e : read cidrs ord reg l = some t) (ht : ∀ s ∈ l, s.eps = true → ∀ p, s.doc ≠ .pods p)
    (hs : ∀ s ∈ l, ∀ i ∈ s.doc.items, ∀ n, i.space? = some n → n ≠ "" ∧ S n) : Knows S t := by
  refine foldlM_keeps (P := Knows S) (fun s hsl t t' h e => ?_) (s := ⟨[], [], [], reg⟩) ⟨by simp, by simp⟩ e
  have h1 : Knows S (if s.nss = true then nsPass t s.doc else t) := by
    split
    · refine h.addNs _ fun x hx => ?_
      rw [doc_nss] at hx
      obtain ⟨i, hi, hix⟩ := List.mem_filterMap.1 hx
      have : i = .ns x := by cases i <;> simp [Item.ns?] at hix; rw [hix]
      exact hs s hsl i hi _ (by rw [this]; rfl)
    · exact h
  have e1 : (if s.eps = true then epPass cidrs ord (if s.nss = true then nsPass t s.doc else t) s.doc else some (if s.nss = true then nsPass t s.doc else t)) = some t' := e
  split at e1
  · rename_i hep
    rw [epPass_items _ _ (ht s hsl hep)] at e1
    exact foldlM_keeps (P := Knows S) (fun i hi s1 s2 h e => h.item e (hs s hsl i hi)) h1 e1
  · cases e1; exact h1

end

section
variable {nodes : Nat} {cidrs : IpBlock → String} {ord : SetOrder} {l : List Step} {reg : PodReg} {l0 : List (String × NamedPorts)} {t : Topo}
  (ht : Tame nodes cidrs l) (hr : reg.Reach l0) (e : read cidrs ord reg l = some t)

include ht hr e in
/-- C61: the cluster is one for which Istio policies are read right (C50, C52, C57 to C60): if it has pods and external hosts only, the
names of namespaces and service accounts have letters, digits, `_` and `-` only, the ports are legal and there is room for
one more. -/
theorem C61_istio_cluster (hl0 : ∀ k a, (k, a) ∈ l0 → LegalPorts a) (hl : ∀ m ∈ members nodes l, LegalPorts (podPorts m.ports))
    (room : t.reg.keys.length < maxPods) {word : Char → Bool} (hw : ∀ a, IstioParser.Letter a → a ∉ ['.', '/', '-'] → word a = true)
    (hw1 : word '/' = false) (hw2 : word '*' = false)
    (kinds : ∀ m ∈ members nodes l, m.kind = .pod ∨ m.kind = .dns)
    (spaces : ∀ s ∈ l, ∀ i ∈ s.doc.items, ∀ n, i.space? = some n → n ≠ "" ∧ ∀ a ∈ n.toList, word a = true ∨ a = '-')
    (accounts : ∀ m ∈ members nodes l, m.kind = .pod → ∃ a, m.account = some a ∧ a ≠ "" ∧ ∀ x ∈ a.toList, word x = true ∨ x = '-') :
    IstioCluster (t.env word) t.reg t.container := by
  have cc := C61_calico_cluster ht hr e hl0 hl room
  have kn := read_knows (S := fun n => n ≠ "" ∧ ∀ a ∈ n.toList, word a = true ∨ a = '-') e ht.typed fun s hs i hi n hn => ⟨(spaces s hs i hi n hn).1, spaces s hs i hi n hn⟩
  have desc : ∀ p ∈ t.container, ∃ o ∈ t.peers, o.info = p ∧ ∃ m ∈ members nodes l, Describes l m o := by
    intro p hp
    obtain ⟨o, ho, rfl⟩ := List.mem_map.1 hp
    exact ⟨o, ho, rfl, C61_described ht hr e o ho⟩
  have nk : ∀ p ∈ t.container, p.kind ≠ .netset := by
    intro p hp
    obtain ⟨o, ho, rfl, m, hm, d⟩ := desc p hp
    rw [d.kind]
    rcases kinds m hm with h | h <;> rw [h] <;> decide
  have nsn : ∀ p ∈ t.container, ∀ n, p.ns = some n → ∃ x ∈ t.nss, x.2.name = n.name := by
    intro p hp n hn
    obtain ⟨o, ho, rfl, _⟩ := desc p hp
    exact kn.peers o ho n hn
  have glob : ∀ p ∈ t.container, p.kind = .pod → p.isGlobal = false := by
    intro p hp hk
    obtain ⟨o, ho, rfl, m, hm, d⟩ := desc p hp
    obtain ⟨n, hn⟩ := (members_mem_wf hm).pod (d.kind ▸ hk)
    by_contra hc
    have := d.isGlobal.1 (by simpa using hc)
    rw [hn] at this
    cases this.1
  refine ⟨⟨cc.reach, cc.ports, cc.uniq, fun p hp => ?_, fun p hp => ?_⟩, glob, room, fun p hp n hn => ?_, fun p hp n hn => ?_, fun s hs => ?_, fun p hp k hk hpk => ?_, hw, hw1⟩
  · obtain ⟨o, ho, rfl, m, hm, d⟩ := desc p hp
    have := d.name (d.kind ▸ nk _ hp)
    exact ⟨m.key, this, cc.reg _ hp _ this⟩
  · obtain ⟨o, ho, rfl, m, hm, d⟩ := desc p hp
    have hns := d.ns
    rcases kinds m hm with h | h
    · obtain ⟨n, hn⟩ := (members_mem_wf hm).pod h
      rw [hn, Option.map_eq_some_iff] at hns
      obtain ⟨x, hx, _⟩ := hns
      exact .inl ⟨d.kind.trans h, x, hx⟩
    · rw [show m.ns = none by rw [(members_mem_wf hm).dns h], Option.map_eq_none_iff] at hns
      exact .inr ⟨d.kind.trans h, hns⟩
  · obtain ⟨x, hx, hxn⟩ := nsn p hp n hn
    exact List.mem_map.2 ⟨x, hx, by rw [hxn]⟩
  · obtain ⟨x, hx, hxn⟩ := nsn p hp n hn
    rw [← hxn]
    obtain ⟨h1, h2⟩ := kn.names x hx
    exact ⟨fun h => h1 (String.toList_inj.1 h), h2⟩
  · obtain ⟨x, hx, rfl⟩ := List.mem_map.1 hs
    obtain ⟨h1, h2⟩ := kn.names x hx
    refine ⟨fun h => ?_, fun h => h1 (String.toList_inj.1 h)⟩
    rcases h2 _ h with h | h
    · rw [hw2] at h; cases h
    · revert h; decide
  · obtain ⟨o, ho, rfl, m, hm, d⟩ := desc p hp
    obtain ⟨a, ha, h1, h2⟩ := accounts m hm (d.kind ▸ hk)
    have hsa : (t.env word).sa k = a.toList := by
      unfold Topo.env
      dsimp only
      cases hf : t.peers.find? fun p => decide (p.info.elem = .pod k) with
      | none =>
        rw [List.find?_eq_none] at hf
        exact absurd (decide_eq_true hpk) (hf o ho)
      | some q =>
        have hq := List.mem_of_find?_eq_some hf
        have hqk : q.info.elem = .pod k := by simpa using List.find?_some hf
        have := List.inj_on_of_nodup_map (C61_nodup ht hr e) hq ho (hqk.trans hpk.symm)
        subst this
        simp [d.account a ha]
    rw [hsa]
    exact ⟨fun h => h1 (String.toList_inj.1 h), h2⟩

end

/-! ### Acceptance -/

section
variable {cidrs : IpBlock → String} {ord : SetOrder} {reg : PodReg}

/-- In a loop that ends, each round ends. -/
theorem foldlM_rounds {α β : Type} {f : β → α → Option β} {l : List α} {s s' : β} (e : l.foldlM f s = some s') : ∀ a ∈ l, ∃ r r', f r a = some r' := by
  induction l generalizing s with
  | nil => simp
  | cons b l ih =>
    rw [List.foldlM_cons] at e
    obtain ⟨s1, e1, e2⟩ := Option.bind_eq_some_iff.1 e
    intro a ha
    rcases List.mem_cons.1 ha with rfl | ha
    · exact ⟨s, s1, e1⟩
    · exact ih e2 a ha

/-- C61: service entries without hosts, or with hosts that are not legal, are rejected. -/
theorem C61_rejected {l : List Step} {t : Topo} (e : read cidrs ord reg l = some t) : EntriesLegal l := by
  intro s hs hep x hx
  obtain ⟨r, r', e1⟩ := foldlM_rounds e s hs
  unfold step at e1
  rw [if_pos hep] at e1
  have item : ∃ q q', addItem cidrs ord q (.entry x) = some q' := by
    cases hd : s.doc with
    | one i =>
      rw [hd] at hx e1
      rw [Doc.items, List.mem_singleton] at hx
      subst hx
      exact ⟨_, _, e1⟩
    | list li =>
      rw [hd] at hx e1
      exact foldlM_rounds e1 _ hx
    | pods p =>
      rw [hd] at hx
      obtain ⟨y, _, hy⟩ := List.mem_map.1 hx
      cases hy
  obtain ⟨q, q', e2⟩ := item
  have e3 : addEntry ord q x = some q' := e2
  unfold addEntry at e3
  split at e3
  · cases e3
  · rename_i h
    rw [Bool.or_eq_true, not_or] at h
    refine ⟨fun hh => h.1 (by rw [hh]; rfl), fun a ha => ?_⟩
    have : x.hosts.all (fun h => legalHost h.toList) = true := by simpa using h.2
    exact List.all_eq_true.1 this a ha

/-- There is room for the names. -/
structure Room (K : List String) (t : Topo) : Prop where
  nodup : t.reg.keys.Nodup
  sub : ∀ k ∈ t.reg.keys, k ∈ K
  names : ∀ n, n ≠ "" → (t.ns n).name = n

theorem Room.add {K : List String} (hK : K.length ≤ maxPods) {t : Topo} (h : Room K t) {p : PeerObj} (hp : ∀ k, p.info.elem = .pod k → k ∈ K) :
    ∃ t', addPeer t p = some t' ∧ Room K t' := by
  unfold addPeer
  split
  · exact ⟨t, rfl, h⟩
  · cases he : p.info.elem with
    | ip b => exact ⟨_, rfl, h.nodup, h.sub, h.names⟩
    | pod k =>
      dsimp only
      unfold PodReg.add
      by_cases hk : k ∈ t.reg.map (·.1)
      · rw [if_pos hk]; exact ⟨_, rfl, h.nodup, h.sub, h.names⟩
      · have hnd : (k :: t.reg.keys).Nodup := List.nodup_cons.2 ⟨hk, h.nodup⟩
        have hle : (k :: t.reg.keys).length ≤ K.length := (List.subperm_of_subset hnd (fun x hx => by
          rcases List.mem_cons.1 hx with rfl | hx
          · exact hp _ he
          · exact h.sub x hx)).length_le
        have : t.reg.length < maxPods := by
          have h2 : t.reg.keys.length = t.reg.length := by simp [PodReg.keys]
          rw [List.length_cons, h2] at hle
          omega
        rw [if_neg hk, if_pos this]
        have keys : PodReg.keys (t.reg ++ [(k, p.ports)]) = t.reg.keys ++ [k] := by simp [PodReg.keys]
        refine ⟨_, rfl, ?_, fun x hx => ?_, h.names⟩
        · dsimp only
          rw [keys]
          exact (List.perm_append_singleton k t.reg.keys).nodup_iff.2 hnd
        · dsimp only at hx
          rw [keys] at hx
          rcases List.mem_append.1 hx with hx | hx
          · exact h.sub x hx
          · rw [List.mem_singleton.1 hx]; exact hp _ he

theorem Room.touch {K : List String} {t : Topo} (h : Room K t) (n : String) : Room K (t.touch n) :=
  ⟨by rw [(touch_same t n).2.2]; exact h.nodup, by rw [(touch_same t n).2.2]; exact h.sub, fun m hm => by rw [touch_ns]; exact h.names m hm⟩

/-- A loop of rounds that end. -/
theorem foldlM_ends {α β : Type} {P : β → Prop} {f : β → α → Option β} {l : List α} (hf : ∀ a ∈ l, ∀ s, P s → ∃ s', f s a = some s' ∧ P s') {s : β} (h : P s) :
    ∃ s', l.foldlM f s = some s' ∧ P s' := by
  induction l generalizing s with
  | nil => exact ⟨s, rfl, h⟩
  | cons a l ih =>
    obtain ⟨s1, e1, h1⟩ := hf a List.mem_cons_self s h
    obtain ⟨s2, e2, h2⟩ := ih (fun b hb => hf b (List.mem_cons_of_mem _ hb)) h1
    exact ⟨s2, by rw [List.foldlM_cons, e1]; exact e2, h2⟩

theorem Room.item {nodes : Nat} {K : List String} (hK : K.length ≤ maxPods) {t : Topo} (h : Room K t) {i : Item}
    (hp : ∀ m ∈ i.members nodes, m.Plain ∧ (m.kind ≠ .netset → m.key ∈ K)) (ht : ∀ x, i = .work x → x.Tame nodes)
    (he : ∀ x, i = .entry x → x.hosts ≠ [] ∧ ∀ h ∈ x.hosts, legalHost h.toList = true) :
    ∃ t', addItem cidrs ord t i = some t' ∧ Room K t' := by
  cases i with
  | ns x => exact ⟨t, rfl, h⟩
  | pod x =>
    obtain ⟨p1, p2⟩ := hp _ List.mem_cons_self
    refine (h.touch (x.ns.getD "default")).add hK fun k hk => ?_
    simp only [podObj, PeerElem.pod.injEq] at hk
    rw [h.names _ (p1.ns _ rfl).1] at hk
    exact hk ▸ p2 (by simp)
  | wep x =>
    obtain ⟨p1, p2⟩ := hp _ List.mem_cons_self
    refine (h.touch (x.ns.getD "default")).add hK fun k hk => ?_
    simp only [podObj, PeerElem.pod.injEq] at hk
    rw [h.names _ (p1.ns _ rfl).1] at hk
    exact hk ▸ p2 (by simp)
  | hep x =>
    obtain ⟨p1, p2⟩ := hp _ List.mem_cons_self
    refine h.add hK fun k hk => ?_
    simp only [hepObj, PeerElem.pod.injEq] at hk
    exact hk ▸ p2 (by simp)
  | set x =>
    have hx : x.name ≠ "" := (hp _ List.mem_cons_self).1.name.1
    show ∃ t', addSet cidrs t x = some t' ∧ _
    unfold addSet
    rw [if_neg hx, (setBlock_sem x.nets).1]
    dsimp only [Option.bind_some]
    split
    · exact h.add hK fun k hk => by simp [setObj] at hk
    · exact (h.touch _).add hK fun k hk => by simp [setObj] at hk
  | entry x =>
    obtain ⟨h1, h2⟩ := he x rfl
    show ∃ t', addEntry ord t x = some t' ∧ _
    unfold addEntry
    rw [if_neg (by
      rw [Bool.or_eq_true, not_or]
      refine ⟨by simpa using h1, ?_⟩
      have : x.hosts.all (fun h => legalHost h.toList) = true := List.all_eq_true.2 h2
      rw [this]; decide)]
    refine foldlM_ends (P := Room K) (fun a ha s hs => ?_) h
    rw [ord.mem, List.mem_toFinset] at ha
    refine hs.add hK fun k hk => ?_
    simp only [dnsObj, PeerElem.pod.injEq] at hk
    exact hk ▸ (hp ⟨.dns, none, a, [], [], [], none, ("", ""), []⟩ (List.mem_map.2 ⟨a, ha, rfl⟩)).2 (by simp)
  | work x =>
    show ∃ t', addWork t x = some t' ∧ _
    unfold addWork
    refine foldlM_ends (P := Room K) (fun a ha s hs => ?_) (h.touch _)
    refine hs.add hK fun k hk => ?_
    have hc := made_count (ht x rfl)
    rw [List.mem_range] at ha
    obtain ⟨p1, p2⟩ := hp (x.member a) (List.mem_map.2 ⟨a, List.mem_range.2 (by omega), rfl⟩)
    simp only [workObj, podObj, PeerElem.pod.injEq] at hk
    rw [h.names _ (p1.ns _ rfl).1] at hk
    exact hk ▸ p2 (by simp [WorkText.member])

/-- C61: legal documents are accepted, if there is room for the endpoints. -/
theorem C61_accepted {nodes : Nat} {l : List Step} (ht : Tame nodes cidrs l) (hl : EntriesLegal l) {l0 : List (String × NamedPorts)} (hr : reg.Reach l0)
    (room : reg.keys.length + ((members nodes l).filter fun m => decide (m.kind ≠ .netset)).length ≤ maxPods) :
    ∃ t, read cidrs ord reg l = some t := by
  obtain ⟨K, hKdef⟩ : ∃ K, K = reg.keys ++ ((members nodes l).filter fun m => decide (m.kind ≠ .netset)).map Member.key := ⟨_, rfl⟩
  have hK : K.length ≤ maxPods := by rw [hKdef, List.length_append, List.length_map]; exact room
  have start : Room K ⟨[], [], [], reg⟩ :=
    ⟨(Base.C22_registry (C43_registered hr).1).1, fun k hk => by rw [hKdef]; exact List.mem_append_left _ hk, fun n hn => newNs_name hn _⟩
  have rounds : ∀ s ∈ l, ∀ t, Room K t → ∃ t', step cidrs ord t s = some t' ∧ Room K t' := by
    intro s hs t h
    unfold step
    have h1 : Room K (if s.nss = true then nsPass t s.doc else t) := by
      split
      · refine ⟨by rw [nsPass, (nsPass_same _ t).2.2]; exact h.nodup, by rw [nsPass, (nsPass_same _ t).2.2]; exact h.sub, ?_⟩
        unfold nsPass
        generalize s.doc.nss = xs
        clear hs start
        induction xs generalizing t with
        | nil => exact h.names
        | cons x xs ih =>
          refine ih (addNs t x) ⟨h.nodup, h.sub, fun n hn => ?_⟩
          rw [addNs_ns]
          split
          · exact newNs_name hn _
          · exact h.names n hn
      · exact h
    dsimp only
    split
    · rename_i hep
      rw [epPass_items _ _ (ht.typed s hs hep)]
      refine foldlM_ends (P := Room K) (fun i hi q hq => ?_) h1
      have inl : ∀ m ∈ i.members nodes, m ∈ members nodes l := fun m hm =>
        List.mem_flatMap.2 ⟨s, List.mem_filter.2 ⟨hs, hep⟩, List.mem_flatMap.2 ⟨i, hi, hm⟩⟩
      refine hq.item (nodes := nodes) hK (fun m hm => ⟨ht.plain m (inl m hm), fun hk => ?_⟩) (fun x hx => ht.workloads s hs hep x (hx ▸ hi)) (fun x hx => hl s hs hep x (hx ▸ hi))
      rw [hKdef]
      exact List.mem_append_right _ (List.mem_map.2 ⟨m, List.mem_filter.2 ⟨inl m hm, decide_eq_true hk⟩, rfl⟩)
    · exact ⟨_, rfl, h1⟩
  obtain ⟨t, e, _⟩ := foldlM_ends rounds start
  exact ⟨t, e⟩

end

end Topology
end Verif
