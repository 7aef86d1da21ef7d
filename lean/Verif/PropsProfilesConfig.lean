import Verif.PropsTwinsConfig
import Verif.PropsProfiles
/-!
Property theorems C63 (labels of Calico profiles), for whole configurations of Kubernetes and Calico policies.
-/
namespace Verif
open ISet PeerSet

namespace PolicyDocs
open Container Topology

/-! ### Specification -/

/-- The endpoint of the cluster, with the labels it has in Calico. -/
structure Dressed (l : List Step) (ps : List ProfileText) (m : Member) (p : PeerInfo) : Prop where
  kind : p.kind = m.kind
  name : m.kind ≠ .netset → p.elem = .pod m.key
  nets : m.kind = .netset → ∃ b, p.elem = .ip b ∧ IpBlock.Built b ∧ ∀ x, b.Has x ↔ ∃ c ∈ m.nets, c.Has x
  ns : p.ns.map Ns.name = m.ns
  nsLabels : ∀ n, p.ns = some n → ∀ k, n.labels.lookup k = nsLabel l n.name k
  labels : ∀ k v, p.HasVal k v ↔ calicoLabel ps m.labels m.profiles k = some v
  isGlobal : p.isGlobal = true ↔ m.ns = none ∧ m.kind ≠ .dns

/-- The cluster with all of its endpoints and their labels.  `rg` has the named ports. -/
structure FullDressed (nodes : Nat) (l : List Step) (ps : List ProfileText) (rg : PodReg) (c : Container) : Prop where
  only : ∀ p ∈ c, ∃ m ∈ members nodes l, Dressed l ps m p
  all : ∀ m ∈ members nodes l, ∃ p ∈ c, Dressed l ps m p
  ports : ∀ m ∈ members nodes l, m.kind ≠ .netset → rg.named m.key = podPorts m.ports

/-- The profiles of the input: different names, no key twice, and labels that do not contradict each other. -/
structure ProfilesTame (nodes : Nat) (l : List Step) (ps : List ProfileText) : Prop where
  names : (ps.map ProfileText.name).Nodup
  keys : ∀ p ∈ ps, (p.labels.map (·.1)).Nodup
  agree : ∀ m ∈ members nodes l, Agree ps m.labels m.profiles

/-! ### Proofs -/

section
variable {nodes : Nat} {cidrs : IpBlock → String} {ord : SetOrder} {l : List Step} {reg : PodReg} {l0 : List (String × NamedPorts)} {t : Topo} {ps : List ProfileText}

/-- Objects of endpoints that are alike. -/
theorem dressed_like (hps : ProfilesTame nodes l ps) {m m' : Member} (hm : m ∈ members nodes l) (hm' : m' ∈ members nodes l) {p p' : PeerInfo} (h : Alike m m')
    (d : Dressed l ps m p) (d' : Dressed l ps m' p') : Like p p' := by
  have hns : p.ns.map Ns.name = p'.ns.map Ns.name := by rw [d.ns, d'.ns, h.ns]
  refine ⟨by rw [d.kind, d'.kind, h.kind], ?_, fun n n' hn hn' => ?_, fun k v => ?_, ?_⟩
  · rw [← Option.map_eq_none_iff (f := Ns.name), hns, Option.map_eq_none_iff]
  · rw [hn, hn'] at hns
    have he : n.name = n'.name := by simpa using hns
    exact ⟨he, fun k => by rw [d.nsLabels n hn, d'.nsLabels n' hn', he]⟩
  · rw [d.labels, d'.labels, calicoLabel_eq hps.names (hps.agree m hm), calicoLabel_eq hps.names (hps.agree m' hm'), h.labels]
    have : firstLabel ps m.profiles k = firstLabel ps m'.profiles k := by
      unfold firstLabel
      simp only [h.profiles.mem_iff]
    rw [this]
  · rw [Bool.eq_iff_iff, d.isGlobal, d'.isGlobal, h.ns, h.kind]

theorem dressed_elem {m : Member} {p : PeerInfo} (d : Dressed l ps m p) {k : String} (h : p.elem = .pod k) : m.kind ≠ .netset ∧ m.key = k := by
  have hk : m.kind ≠ .netset := by
    intro hk
    obtain ⟨b, hb, _⟩ := d.nets hk
    rw [h] at hb; cases hb
  rw [d.name hk] at h
  cases h
  exact ⟨hk, rfl⟩

theorem dressed_block {m : Member} {p : PeerInfo} (d : Dressed l ps m p) {x : Ip} (h : p.Holds (.ip x)) : m.kind = .netset ∧ ∃ c ∈ m.nets, c.Has x := by
  obtain ⟨b, hb, hx⟩ := h
  by_cases hk : m.kind = .netset
  · obtain ⟨b', hb', _, h⟩ := d.nets hk
    rw [hb] at hb'; cases hb'
    exact ⟨hk, (h x).1 hx⟩
  · rw [d.name hk] at hb; cases hb

/-- The peers with the labels of profiles. -/
def dress (ps : List ProfileText) (objs : List PeerObj) : Container := objs.map fun o => (withExtra o (marks ps o.profiles)).info

theorem dress_mem {objs : List PeerObj} {p : PeerInfo} (h : p ∈ dress ps objs) : ∃ o ∈ objs, (withExtra o (marks ps o.profiles)).info = p := List.mem_map.1 h

theorem describes_dressed (hps : ProfilesTame nodes l ps) {m : Member} (hm : m ∈ members nodes l) {o : PeerObj} (d : Describes l m o) :
    Dressed l ps m (withExtra o (marks ps o.profiles)).info := by
  refine ⟨d.kind, d.name, d.nets, d.ns, d.nsLabels, fun k v => ?_, d.isGlobal⟩
  have := C63_labels_partial (o := o) (o' := withExtra o (marks ps o.profiles)) ⟨rfl, fun k => marks_lookup hps.keys o.profiles k⟩ hps.names
    (by rw [d.labels, d.profiles]; exact hps.agree m hm) k v
  rw [this, d.labels, d.profiles]

variable (ht : Topology.Tame nodes cidrs l) (hr : reg.Reach l0) (e : Topology.read cidrs ord reg l = some t) (hps : ProfilesTame nodes l ps)

include ht hr e in
/-- The cluster is still one for which Calico policies are read right. -/
theorem dress_cluster (hC : CalicoParser.CalCluster t.reg t.container) : CalicoParser.CalCluster t.reg (dress ps t.peers) := by
  have nd := C61_nodup ht hr e
  have key : ∀ o ∈ t.peers, ∀ o' ∈ t.peers, o.info = o'.info → (withExtra o (marks ps o.profiles)).info = (withExtra o' (marks ps o'.profiles)).info := by
    intro o ho o' ho' h
    rw [List.inj_on_of_nodup_map nd ho ho' (by rw [h])]
  have mem : ∀ {o : PeerObj}, o ∈ t.peers → o.info ∈ t.container := fun h => List.mem_map_of_mem h
  refine ⟨hC.reach, hC.room, hC.ports, fun p hp => ?_, fun p hp q hq h => ?_, fun p hp q hq a b ha hb x hxa hxb => ?_, ⟨fun p hp hk => ?_, fun p hp hk => ?_⟩, fun p hp => ?_, fun p hp => ?_⟩
  · obtain ⟨o, ho, rfl⟩ := dress_mem hp
    exact hC.ok o.info (mem ho)
  · obtain ⟨o, ho, rfl⟩ := dress_mem hp
    obtain ⟨o', ho', rfl⟩ := dress_mem hq
    exact key o ho o' ho' (hC.uniq o.info (mem ho) o'.info (mem ho') h)
  · obtain ⟨o, ho, rfl⟩ := dress_mem hp
    obtain ⟨o', ho', rfl⟩ := dress_mem hq
    exact key o ho o' ho' (hC.disj o.info (mem ho) o'.info (mem ho') a b ha hb x hxa hxb)
  · obtain ⟨o, ho, rfl⟩ := dress_mem hp
    exact hC.spaces.dns o.info (mem ho) hk
  · obtain ⟨o, ho, rfl⟩ := dress_mem hp
    exact hC.spaces.glob o.info (mem ho) hk
  · obtain ⟨o, ho, rfl⟩ := dress_mem hp
    exact hC.reg o.info (mem ho)
  · obtain ⟨o, ho, rfl⟩ := dress_mem hp
    exact hC.sets o.info (mem ho)

variable {rg : PodReg} {c : Container} (hf : FullDressed nodes l ps rg c)

include ht hr e hps hf in
/-- An address. -/
theorem ip_dressed (x : Ip) : Twins rg t.reg c (dress ps t.peers) (fun _ => []) (fun _ => []) (.ip x) (.ip x) := by
  refine ⟨fun _ => .rfl, fun p hp hh => ?_, fun p hp hh => ?_, fun k k' h => (by cases h), fun k k' h => (by cases h), fun _ _ _ _ => rfl⟩
  · obtain ⟨m, hm, d⟩ := hf.only p hp
    obtain ⟨hk, hx⟩ := dressed_block d hh
    obtain ⟨q, hq, m', hm', h1, h2⟩ := C61_one ht hr e hm
    have := h1.same (.inr hk)
    subst this
    have d2 := describes_dressed hps hm' h2
    obtain ⟨b, hb, _, hb'⟩ := d2.nets hk
    exact ⟨_, List.mem_map_of_mem hq, ⟨b, hb, (hb' x).2 hx⟩, dressed_like hps hm hm h1 d d2⟩
  · obtain ⟨o, ho, rfl⟩ := dress_mem hp
    obtain ⟨m, hm, d⟩ := C61_described ht hr e o ho
    have d := describes_dressed hps hm d
    obtain ⟨hk, hx⟩ := dressed_block d hh
    obtain ⟨p', ho', d'⟩ := hf.all m hm
    obtain ⟨b, hb, _, hb'⟩ := d'.nets hk
    exact ⟨p', ho', ⟨b, hb, (hb' x).2 hx⟩, dressed_like hps hm hm (Alike.refl m) d' d⟩

include ht hr e hps hf in
/-- An endpoint and an object that stands for it. -/
theorem pod_dressed (early : ∀ m ∈ members nodes l, ∀ a, (m.key, a) ∈ l0 → a = podPorts m.ports) {m m' : Member} {o : PeerObj} (hm : m ∈ members nodes l) (hk : m.kind ≠ .netset)
    (hm' : m' ∈ members nodes l) (ha : Alike m m') (d : Describes l m' o) (ho : o ∈ t.peers) (hu : podPorts m.ports = podPorts m'.ports) :
    Twins rg t.reg c (dress ps t.peers) (fun _ => []) (fun _ => []) (.pod m.key) (.pod m'.key) := by
  have hk' : m'.kind ≠ .netset := ha.kind ▸ hk
  have hoe : o.info.elem = .pod m'.key := d.name hk'
  have dd := describes_dressed hps hm' d
  refine ⟨fun x => ⟨fun h => (by cases h), fun h => (by cases h)⟩, fun q hq hh => ?_, fun q hq hh => ?_, fun k k' h h' => ?_, fun _ _ _ _ _ => rfl, fun q hq hh hqk => ?_⟩
  · obtain ⟨m2, hm2, d2⟩ := hf.only q hq
    obtain ⟨hk2, e2⟩ := dressed_elem d2 hh
    have := key_inj ht hm hm2 hk hk2 e2.symm
    subst this
    exact ⟨_, List.mem_map_of_mem ho, hoe, dressed_like hps hm hm' ha d2 dd⟩
  · obtain ⟨q, hq', rfl⟩ := dress_mem hq
    obtain ⟨m2, hm2, d2⟩ := C61_described ht hr e q hq'
    have d2 := describes_dressed hps hm2 d2
    obtain ⟨hk2, e2⟩ := dressed_elem d2 hh
    have := key_inj ht hm' hm2 hk' hk2 e2.symm
    subst this
    obtain ⟨p, hp, d3⟩ := hf.all m hm
    exact ⟨p, hp, d3.name hk, dressed_like hps hm hm2 ha d3 d2⟩
  · cases h; cases h'
    rw [hf.ports m hm hk, hu, ← d.ports]
    exact ((C61_registered ht hr e).2 o ho _ hoe fun a h => by rw [early m' hm' a h, d.ports]).symm
  · obtain ⟨m2, hm2, d2⟩ := hf.only q hq
    obtain ⟨hk2, e2⟩ := dressed_elem d2 hh
    have := key_inj ht hm hm2 hk hk2 e2.symm
    subst this
    rw [ha.same (.inl (d2.kind ▸ hqk))]

include ht hr e hps hf in
theorem for_dressed (early : ∀ m ∈ members nodes l, ∀ a, (m.key, a) ∈ l0 → a = podPorts m.ports) (hu : Uniform nodes l) {E R : Place} (h : PlaceFor nodes l t E R) :
    Twins rg t.reg c (dress ps t.peers) (fun _ => []) (fun _ => []) E R := by
  cases E with
  | ip x =>
    have : R = .ip x := h
    subst this
    exact ip_dressed ht hr e hps hf x
  | pod k =>
    obtain ⟨m, hm, hk, rfl, p, hp, ⟨m', hm', h1, h2⟩, hR⟩ := h
    have hpe := h2.name (h1.kind ▸ hk)
    cases R with
    | ip x =>
      obtain ⟨b, hb, _⟩ := hR
      rw [hpe] at hb; cases hb
    | pod k =>
      have hR : p.info.elem = .pod k := hR
      rw [hpe] at hR; cases hR
      exact pod_dressed ht hr e hps hf early hm hk hm' h1 h2 hp (hu m hm m' hm' h1).1

end

/-! ### The cluster with all endpoints -/

/-- The cluster with all endpoints and the labels of their profiles. -/
def dressedCluster (nodes : Nat) (cidrs : IpBlock → String) (l : List Step) (ps : List ProfileText) : Container :=
  dress ps ((members nodes l).map fun m => m.obj cidrs (nsFrom (nsTexts l)))

/-- There is such a cluster, for all documents that the code reads right. -/
theorem C63_full {nodes : Nat} {cidrs : IpBlock → String} {l : List Step} {ps : List ProfileText} (ht : Topology.Tame nodes cidrs l) (hps : ProfilesTame nodes l ps) :
    FullDressed nodes l ps (fullReg nodes l) (dressedCluster nodes cidrs l ps) := by
  have d : ∀ m ∈ members nodes l, Dressed l ps m _ := fun m hm =>
    describes_dressed hps hm (obj_describes (cidrs := cidrs) (members_mem_wf hm) (ht.plain m hm))
  refine ⟨fun p hp => ?_, fun m hm => ⟨_, List.mem_map_of_mem (List.mem_map_of_mem hm), d m hm⟩, (C62_full ht).ports⟩
  obtain ⟨o, ho, rfl⟩ := dress_mem hp
  obtain ⟨m, hm, rfl⟩ := List.mem_map.1 ho
  exact ⟨m, hm, d m hm⟩

/-! ### Configurations -/

section
variable {V2 X2 : Type} {A2 : VAlg Dim V2 X2} {W2 : Dim → V2 → Prop} {ord : SetOrder} {B : PeerDom} {K : CharCls}
  {nodes : Nat} {cidrs : IpBlock → String} {l : List Step} {reg : PodReg} {l0 : List (String × NamedPorts)} {t : Topo}
  {rg : PodReg} {c : Container} {fits : PType → CalicoParser.Doc → Bool} {docs : List (Yaml CalicoParser.Doc)} {s : State CalicoParser.Doc}
  (L2 : A2.Lawful W2)

/-- The policies of the documents, each parsed with the labels of that time. -/
noncomputable def parsedPolicies (K : CharCls) (A2 : VAlg Dim V2 X2) (W2 : Dim → V2 → Prop) (B : PeerDom) (ord : SetOrder) (rg : PodReg) (dflt : Ns)
    (done : List (CalicoParser.Doc × Container)) : Option (List (Policy (HC Dim (ISet ⊕ V2)) (ConnPeers W2 B))) :=
  done.mapM fun d => CalicoParser.docPolicy K A2 W2 B ord rg d.2 dflt d.1

/-- C63: the connections that the program computes with Kubernetes and Calico policies and profiles, from at most two pods of
each workload, are those that the policies allow in the cluster with all pods, where each endpoint has its own labels and
those that its profiles give it, wherever in the input the profiles are.
PARTIAL: for labels that do not contradict each other (`ProfilesTame`), for documents that the code reads right
(`Topology.Tame`, `Topology.Uniform`), for profiles without a say of their own (their rules are dropped, `C63_rules_wrong`),
and as C49 otherwise. -/
theorem C63_config_partial (ht : Topology.Tame nodes cidrs l) (hr : reg.Reach l0) (e : Topology.read cidrs ord reg l = some t)
    (hl0 : ∀ k a, (k, a) ∈ l0 → LegalPorts a) (hlp : ∀ m ∈ members nodes l, LegalPorts (podPorts m.ports)) (room : t.reg.keys.length < maxPods)
    (early : ∀ m ∈ members nodes l, ∀ a, (m.key, a) ∈ l0 → a = podPorts m.ports) (hu : Uniform nodes l)
    (hps : ProfilesTame nodes l (profilesOf docs)) (hf : FullDressed nodes l (profilesOf docs) rg c)
    (hd : readDocs K A2 PeerDom.default ord t.reg fits t.peers docs = some s)
    (hK : K.Ok) (hB : CalicoParser.Covers t.reg (s.objs.map PeerObj.info) B) {dflt : Ns} {is : List CalicoParser.Item}
    (hm : List.Forall₂ (CalicoParser.Doc.Means K dflt) (policiesOf docs) is) (hk : ∀ x, CalicoParser.Item.k8s x ∈ is → K8sParser.Cluster t.reg (s.objs.map PeerObj.info))
    (hi : ∀ i ∈ is, i.Tame (s.objs.map PeerObj.info))
    {pols : List (Policy (HC Dim (ISet ⊕ V2)) (ConnPeers W2 B))} (hp : parsedPolicies K A2 W2 B ord t.reg dflt s.done = some pols)
    {st : PolicyStore (HC Dim (ISet ⊕ V2)) (ConnPeers W2 B)} (hb : PolicyStore.build pols = some st)
    (f : ConnFilter) (hfa : f.calcAllAllowed = true) (hh : f.calcAllowed = false ∨ ∀ p ∈ s.objs, p.info.kind ≠ .hep)
    {src dst : Place} (hls : Lies nodes l src) (hld : Lies nodes l dst) (hne : src ≠ dst)
    (hw : CalicoParser.IsKind c src [.pod, .hep] ∨ CalicoParser.IsKind c dst [.pod, .hep]) :
    ∃ R R', R ≠ R' ∧ PlaceFor nodes l t src R ∧ PlaceFor nodes l t dst R' ∧
      ∀ (p : Point (connA A2 B)) (q : CalicoParser.Conn), CalicoParser.IsConn t.reg (s.objs.map PeerObj.info) p R R' q →
        ((connNet L2 B).K.mem p (configConns (connNet L2 B).toNet (CalicoParser.calicoPeers A2 W2 B t.reg (s.objs.map PeerObj.info)) st.layers f).allAllowed = true ↔
          CalicoParser.CalicoSays rg c is src dst q) := by
  obtain ⟨R, R', h1, h2, h3⟩ := C62_places ht hr e hls hld hne
  obtain ⟨e1, e2⟩ := readDocs_eq hd
  have ec : s.objs.map PeerObj.info = dress (profilesOf docs) t.peers := by rw [e1, List.map_map]; rfl
  have hp' : CalicoParser.docPolicies K A2 W2 B ord t.reg (s.objs.map PeerObj.info) dflt (policiesOf docs) = some pols := by
    unfold parsedPolicies at hp
    rw [e2, List.mapM_map] at hp
    exact hp
  have hh' : f.calcAllowed = false ∨ ∀ p ∈ s.objs.map PeerObj.info, p.kind ≠ .hep := hh.imp_right fun h p hp => by
    obtain ⟨o, ho, rfl⟩ := List.mem_map.1 hp
    exact h o ho
  rw [ec] at hB hk hi hp' hh' ⊢
  have t1 := for_dressed ht hr e hps hf early hu h2
  have t2 := for_dressed ht hr e hps hf early hu h3
  refine ⟨R, R', h1, h2, h3, fun p q hq => ?_⟩
  rw [CalicoParser.C49_config_partial L2 hK (dress_cluster ht hr e (C61_calico_cluster ht hr e hl0 hlp room)) hB hm hk hi hp' hb f hfa hh' p R R' q hq
    (by rw [← t1.isKind, ← t2.isKind]; exact hw), t1.calico t2]

end
end PolicyDocs
end Verif
