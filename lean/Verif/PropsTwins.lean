import Verif.PropsTopology
import Verif.TopologyTwins
/-!
Property theorems C62 (two pods of a workload are enough).
-/
namespace Verif

namespace Topology
open CalicoParser (CalicoSays Conn)
open IstioParser (IstioSays AuthText Request)
open IngressParser (SvcText GatewaySays)
open SidecarParser (SidecarsSay)
open GtwParser (GatewaysSay)

/-! ### Specification -/

/-- The cluster with all of its endpoints: all pods of all workloads.  `rg` has the named ports. -/
structure Full (nodes : Nat) (l : List Step) (rg : PodReg) (c : Container) : Prop where
  only : ∀ p ∈ c, ∃ m ∈ members nodes l, ∃ o, Describes l m o ∧ o.info = p
  all : ∀ m ∈ members nodes l, ∃ o, Describes l m o ∧ o.info ∈ c
  ports : ∀ m ∈ members nodes l, m.kind ≠ .netset → rg.named m.key = podPorts m.ports

/-- All pods have service accounts, and `sa` has them. -/
def FullAccounts (nodes : Nat) (l : List Step) (sa : String → List Char) : Prop :=
  ∀ m ∈ members nodes l, m.kind = .pod → ∃ a, m.account = some a ∧ sa m.key = a.toList

/-- A place of the cluster: an address, or a pod, host endpoint or external host. -/
def Lies (nodes : Nat) (l : List Step) : Place → Prop
  | .ip _ => True
  | .pod k => ∃ m ∈ members nodes l, m.kind ≠ .netset ∧ m.key = k

/-- The place of the program that stands for a place of the cluster: the same address, or an object that stands for the
endpoint. -/
def PlaceFor (nodes : Nat) (l : List Step) (t : Topo) : Place → Place → Prop
  | .ip x, R => R = .ip x
  | .pod k, R => ∃ m ∈ members nodes l, m.kind ≠ .netset ∧ m.key = k ∧ ∃ p ∈ t.peers, StandsFor nodes l p m ∧ p.info.Holds R

/-! ### Proofs -/

section
variable {nodes : Nat} {cidrs : IpBlock → String} {ord : SetOrder} {l : List Step} {reg : PodReg} {l0 : List (String × NamedPorts)} {t : Topo}

/-- Objects of endpoints that are alike. -/
theorem describes_like {m m' : Member} {o o' : PeerObj} (h : Alike m m') (d : Describes l m o) (d' : Describes l m' o') : Like o.info o'.info := by
  have hns : o.info.ns.map Ns.name = o'.info.ns.map Ns.name := by rw [d.ns, d'.ns, h.ns]
  refine ⟨by rw [d.kind, d'.kind, h.kind], ?_, fun n n' hn hn' => ?_, fun k v => by rw [PeerInfo.HasVal, PeerInfo.HasVal, d.labels, d'.labels, h.labels, d.extra, d'.extra], ?_⟩
  · rw [← Option.map_eq_none_iff (f := Ns.name), hns, Option.map_eq_none_iff]
  · rw [hn, hn'] at hns
    have he : n.name = n'.name := by simpa using hns
    exact ⟨he, fun k => by rw [d.nsLabels n hn, d'.nsLabels n' hn', he]⟩
  · rw [Bool.eq_iff_iff, d.isGlobal, d'.isGlobal, h.ns, h.kind]

/-- A name has one endpoint. -/
theorem key_inj (ht : Tame nodes cidrs l) {m m' : Member} (hm : m ∈ members nodes l) (hm' : m' ∈ members nodes l) (hk : m.kind ≠ .netset) (hk' : m'.kind ≠ .netset)
    (e : m.key = m'.key) : m = m' := by
  by_contra hne
  have h := pairwise_ne ht.names (fun a b h ha hb hk => (h hb ha hk.symm).symm) hm hm' hne hk hk' e
  have h1 := (members_mem_wf hm).dns h.1
  have h2 := (members_mem_wf hm').dns h.2
  refine hne ?_
  rw [h1, h2] at e ⊢
  have : m.name = m'.name := e
  rw [this]

theorem alike_kind {m m' : Member} (h : Alike m m') (hk : m.kind ≠ .netset) : m'.kind ≠ .netset := h.kind ▸ hk

theorem describes_elem {m : Member} {o : PeerObj} (d : Describes l m o) {k : String} (h : o.info.elem = .pod k) : m.kind ≠ .netset ∧ m.key = k := by
  have hk : m.kind ≠ .netset := by
    intro hk
    obtain ⟨b, hb, _⟩ := d.nets hk
    rw [h] at hb; cases hb
  rw [d.name hk] at h
  cases h
  exact ⟨hk, rfl⟩

theorem describes_block {m : Member} {o : PeerObj} (d : Describes l m o) {x : Ip} (h : o.info.Holds (.ip x)) : m.kind = .netset ∧ ∃ c ∈ m.nets, c.Has x := by
  obtain ⟨b, hb, hx⟩ := h
  by_cases hk : m.kind = .netset
  · obtain ⟨b', hb', _, h⟩ := d.nets hk
    rw [hb] at hb'; cases hb'
    exact ⟨hk, (h x).1 hx⟩
  · rw [d.name hk] at hb; cases hb

variable (ht : Tame nodes cidrs l) (hr : reg.Reach l0) (e : read cidrs ord reg l = some t)
  {rg : PodReg} {c : Container} {sa sa' : String → List Char} (hf : Full nodes l rg c)

include ht hr e hf in
/-- An address. -/
theorem ip_twins (x : Ip) : Twins rg t.reg c t.container sa sa' (.ip x) (.ip x) := by
  refine ⟨fun _ => .rfl, fun p hp hh => ?_, fun p hp hh => ?_, fun k k' h => (by cases h), fun k k' h => (by cases h), fun _ _ _ _ => rfl⟩
  · obtain ⟨m, hm, o, d, rfl⟩ := hf.only p hp
    obtain ⟨hk, hx⟩ := describes_block d hh
    obtain ⟨q, hq, m', hm', h1, h2⟩ := C61_one ht hr e hm
    have := h1.same (.inr hk)
    subst this
    obtain ⟨b, hb, _, hb'⟩ := h2.nets hk
    exact ⟨q.info, List.mem_map_of_mem hq, ⟨b, hb, (hb' x).2 hx⟩, describes_like h1 d h2⟩
  · obtain ⟨o, ho, rfl⟩ := List.mem_map.1 hp
    obtain ⟨m, hm, d⟩ := C61_described ht hr e o ho
    obtain ⟨hk, hx⟩ := describes_block d hh
    obtain ⟨o', d', ho'⟩ := hf.all m hm
    obtain ⟨b, hb, _, hb'⟩ := d'.nets hk
    exact ⟨o'.info, ho', ⟨b, hb, (hb' x).2 hx⟩, describes_like (Alike.refl m) d' d⟩

include ht hr e hf in
/-- An endpoint and an object that stands for it. -/
theorem pod_twins (early : ∀ m ∈ members nodes l, ∀ a, (m.key, a) ∈ l0 → a = podPorts m.ports) {m m' : Member} {p : PeerObj} (hm : m ∈ members nodes l) (hk : m.kind ≠ .netset)
    (hm' : m' ∈ members nodes l) (ha : Alike m m') (d : Describes l m' p) (hp : p ∈ t.peers) (hu : podPorts m.ports = podPorts m'.ports)
    (hs : m.kind = .pod → sa m.key = sa' m'.key) : Twins rg t.reg c t.container sa sa' (.pod m.key) (.pod m'.key) := by
  have hk' := alike_kind ha hk
  have hpe : p.info.elem = .pod m'.key := d.name hk'
  refine ⟨fun x => ⟨fun h => (by cases h), fun h => (by cases h)⟩, fun q hq hh => ?_, fun q hq hh => ?_, fun k k' h h' => ?_, fun k k' h h' ⟨q, hq, hh, n, hn⟩ => ?_, fun q hq hh hqk => ?_⟩
  · obtain ⟨m2, hm2, o, d2, rfl⟩ := hf.only q hq
    obtain ⟨hk2, e2⟩ := describes_elem d2 hh
    have := key_inj ht hm hm2 hk hk2 e2.symm
    subst this
    exact ⟨p.info, List.mem_map_of_mem hp, hpe, describes_like ha d2 d⟩
  · obtain ⟨q, hq', rfl⟩ := List.mem_map.1 hq
    obtain ⟨m2, hm2, d2⟩ := C61_described ht hr e q hq'
    obtain ⟨hk2, e2⟩ := describes_elem d2 hh
    have := key_inj ht hm' hm2 hk' hk2 e2.symm
    subst this
    obtain ⟨o, d3, ho⟩ := hf.all m hm
    exact ⟨o.info, ho, d3.name hk, describes_like ha d3 d2⟩
  · cases h; cases h'
    rw [hf.ports m hm hk, hu, ← d.ports]
    exact ((C61_registered ht hr e).2 p hp _ hpe fun a h => by rw [early m' hm' a h, d.ports]).symm
  · cases h; cases h'
    refine hs ?_
    obtain ⟨m2, hm2, o, d2, rfl⟩ := hf.only q hq
    obtain ⟨hk2, e2⟩ := describes_elem d2 hh
    have := key_inj ht hm hm2 hk hk2 e2.symm
    subst this
    have hns := d2.ns
    rw [hn] at hns
    cases hmk : m.kind with
    | pod => rfl
    | hep => rw [((members_mem_wf hm).hep hmk).1] at hns; cases hns
    | dns => rw [(members_mem_wf hm).dns hmk] at hns; cases hns
    | netset => exact absurd hmk hk
  · obtain ⟨m2, hm2, o, d2, rfl⟩ := hf.only q hq
    obtain ⟨hk2, e2⟩ := describes_elem d2 hh
    have := key_inj ht hm hm2 hk hk2 e2.symm
    subst this
    rw [ha.same (.inl (d2.kind ▸ hqk))]

/-- The service account of an object. -/
theorem env_account (word : Char → Bool) (nd : (t.peers.map fun p => p.info.elem).Nodup) {p : PeerObj} (hp : p ∈ t.peers) {k : String} (hk : p.info.elem = .pod k) :
    (t.env word).sa k = p.account.toList := by
  unfold Topo.env
  dsimp only
  cases h : t.peers.find? fun p => decide (p.info.elem = .pod k) with
  | none =>
    rw [List.find?_eq_none] at h
    exact absurd (decide_eq_true hk) (h p hp)
  | some q =>
    have hq := List.mem_of_find?_eq_some h
    have hqk : q.info.elem = .pod k := by simpa using List.find?_some h
    rw [List.inj_on_of_nodup_map nd hq hp (hqk.trans hk.symm)]
    rfl

/-- What the policies of a kind know of service accounts: nothing, or those of all pods. -/
def Accounts (nodes : Nat) (l : List Step) (t : Topo) (sa sa' : String → List Char) : Prop :=
  (∀ k k', sa k = sa' k') ∨ (∃ word, sa' = (t.env word).sa) ∧ FullAccounts nodes l sa

include ht hr e hf in
theorem stands_twins (early : ∀ m ∈ members nodes l, ∀ a, (m.key, a) ∈ l0 → a = podPorts m.ports) (hu : Uniform nodes l) (hs : Accounts nodes l t sa sa')
    {m : Member} (hm : m ∈ members nodes l) (hk : m.kind ≠ .netset) {p : PeerObj} (hp : p ∈ t.peers) (h : StandsFor nodes l p m) {R : Place} (hR : p.info.Holds R) :
    Twins rg t.reg c t.container sa sa' (.pod m.key) R := by
  obtain ⟨m', hm', h1, h2⟩ := h
  have hpe := h2.name (alike_kind h1 hk)
  cases R with
  | ip x =>
    obtain ⟨b, hb, _⟩ := hR
    rw [hpe] at hb; cases hb
  | pod k =>
    have hR : p.info.elem = .pod k := hR
    rw [hpe] at hR; cases hR
    refine pod_twins ht hr e hf early hm hk hm' h1 h2 hp (hu m hm m' hm' h1).1 fun hmk => ?_
    rcases hs with hs | ⟨⟨word, rfl⟩, hs⟩
    · exact hs _ _
    · obtain ⟨a, ha, hsa⟩ := hs m hm hmk
      rw [hsa, env_account word (C61_nodup ht hr e) hp hpe, h2.account a (by rw [← (hu m hm m' hm' h1).2, ha])]

include ht hr e hf in
theorem for_twins (early : ∀ m ∈ members nodes l, ∀ a, (m.key, a) ∈ l0 → a = podPorts m.ports) (hu : Uniform nodes l) (hs : Accounts nodes l t sa sa')
    {E R : Place} (h : PlaceFor nodes l t E R) : Twins rg t.reg c t.container sa sa' E R := by
  cases E with
  | ip x =>
    have : R = .ip x := h
    subst this
    exact ip_twins ht hr e hf x
  | pod k =>
    obtain ⟨m, hm, hk, rfl, p, hp, h1, h2⟩ := h
    exact stands_twins ht hr e hf early hu hs hm hk hp h1 h2

include ht hr e in
/-- C62: any two different places of the cluster have different places of the program that stand for them. -/
theorem C62_places {E F : Place} (hE : Lies nodes l E) (hF : Lies nodes l F) (hne : E ≠ F) :
    ∃ R R', R ≠ R' ∧ PlaceFor nodes l t E R ∧ PlaceFor nodes l t F R' := by
  have pod : ∀ {m : Member} {p : PeerObj}, m.kind ≠ .netset → StandsFor nodes l p m → ∃ k, p.info.elem = .pod k := by
    rintro m p hk ⟨m', _, h1, h2⟩
    exact ⟨_, h2.name (alike_kind h1 hk)⟩
  have one : ∀ {k : String}, Lies nodes l (.pod k) → ∃ k', PlaceFor nodes l t (.pod k) (.pod k') := by
    rintro k ⟨m, hm, hk, rfl⟩
    obtain ⟨p, hp, h⟩ := C61_one ht hr e hm
    obtain ⟨k', hk'⟩ := pod hk h
    exact ⟨k', m, hm, hk, rfl, p, hp, h, hk'⟩
  cases E with
  | ip x =>
    cases F with
    | ip y => exact ⟨.ip x, .ip y, hne, rfl, rfl⟩
    | pod k =>
      obtain ⟨k', h⟩ := one hF
      exact ⟨.ip x, .pod k', by simp, rfl, h⟩
  | pod k =>
    cases F with
    | ip y =>
      obtain ⟨k', h⟩ := one hE
      exact ⟨.pod k', .ip y, by simp, h, rfl⟩
    | pod k2 =>
      obtain ⟨m, hm, hk, rfl⟩ := hE
      obtain ⟨m', hm', hk', rfl⟩ := hF
      obtain ⟨p, hp, p', hp', h1, h2, h3⟩ := C61_two_partial ht hr e hm hm' fun h => hne (by rw [h])
      obtain ⟨j, hj⟩ := pod hk h2
      obtain ⟨j', hj'⟩ := pod hk' h3
      exact ⟨.pod j, .pod j', fun h => h1 (by cases h; rw [hj, hj']), ⟨m, hm, hk, rfl, p, hp, h2, hj⟩, m', hm', hk', rfl, p', hp', h3, hj'⟩

include ht hr e in
/-- C62: the objects of the program are endpoints of the cluster, and stand for themselves. -/
theorem C62_kept {p : PeerObj} (hp : p ∈ t.peers) {k : String} (hk : p.info.elem = .pod k) : Lies nodes l (.pod k) ∧ PlaceFor nodes l t (.pod k) (.pod k) := by
  obtain ⟨m, hm, d⟩ := C61_described ht hr e p hp
  obtain ⟨h1, h2⟩ := describes_elem d hk
  exact ⟨⟨m, hm, h1, h2⟩, m, hm, h1, h2, p, hp, ⟨m, hm, Alike.refl m, d⟩, hk⟩

include ht hr e hf in
/-- C62: Kubernetes and Calico policies allow a connection in the cluster with all pods iff they allow it in that of the
program, between the places that stand for its ends.  `early`: configurations that were read before have the same ports for
pods of the same names. -/
theorem C62_calico_partial (early : ∀ m ∈ members nodes l, ∀ a, (m.key, a) ∈ l0 → a = podPorts m.ports) (hu : Uniform nodes l) {E F R R' : Place}
    (hE : PlaceFor nodes l t E R) (hF : PlaceFor nodes l t F R') (is : List CalicoParser.Item) (q : Conn) :
    CalicoSays rg c is E F q ↔ CalicoSays t.reg t.container is R R' q :=
  (for_twins (sa := fun _ => []) (sa' := fun _ => []) ht hr e hf early hu (.inl fun _ _ => rfl) hE).calico
    (for_twins ht hr e hf early hu (.inl fun _ _ => rfl) hF) is q

include ht hr e hf in
/-- C62: authorization policies allow a request in the cluster with all pods iff they allow it in that of the program. -/
theorem C62_istio_partial (early : ∀ m ∈ members nodes l, ∀ a, (m.key, a) ∈ l0 → a = podPorts m.ports) (hu : Uniform nodes l) (hs : FullAccounts nodes l sa)
    {E F R R' : Place} (hE : PlaceFor nodes l t E R) (hF : PlaceFor nodes l t F R') (word : Char → Bool) (ts : List AuthText) (q : Request) :
    IstioSays sa c ts E F q ↔ IstioSays (t.env word).sa t.container ts R R' q :=
  (for_twins ht hr e hf early hu (.inr ⟨⟨word, rfl⟩, hs⟩) hE).istio (for_twins ht hr e hf early hu (.inr ⟨⟨word, rfl⟩, hs⟩) hF) ts q

include ht hr e hf in
/-- The same gateways have pods. -/
theorem same_works (early : ∀ m ∈ members nodes l, ∀ a, (m.key, a) ∈ l0 → a = podPorts m.ports) (hu : Uniform nodes l) : SameWorks c t.container := by
  have tw : ∀ {E R : Place}, PlaceFor nodes l t E R → Twins rg t.reg c t.container (fun _ => []) (fun _ => []) E R := fun h =>
    for_twins ht hr e hf early hu (.inl fun _ _ => rfl) h
  refine fun g => and_congr_right fun _ => ⟨fun ⟨E, hE⟩ => ?_, fun ⟨R, hR⟩ => ?_⟩
  · have lies : Lies nodes l E := by
      cases E with
      | ip x => trivial
      | pod k =>
        obtain ⟨p, hp, hh, _⟩ := hE
        obtain ⟨m, hm, o, d, rfl⟩ := hf.only p hp
        exact ⟨m, hm, describes_elem d hh⟩
    have one : ∃ R, PlaceFor nodes l t E R := by
      cases E with
      | ip x => exact ⟨_, rfl⟩
      | pod k =>
        obtain ⟨R, _, _, h, _⟩ := C62_places ht hr e lies (F := .ip ⟨false, 0, by decide⟩) trivial (by simp)
        exact ⟨R, h⟩
    obtain ⟨R, h⟩ := one
    exact ⟨R, ((tw h).runs g).1 hE⟩
  · have pf : PlaceFor nodes l t R R := by
      cases R with
      | ip x => rfl
      | pod k =>
        obtain ⟨p, hp, hh, _⟩ := hR
        obtain ⟨o, ho, rfl⟩ := List.mem_map.1 hp
        exact (C62_kept ht hr e ho hh).2
    exact ⟨R, ((tw pf).runs g).2 hR⟩

include ht hr e hf in
/-- C62: what Ingress, sidecars and gateways let through is the same in both clusters. -/
theorem C62_mesh_partial (early : ∀ m ∈ members nodes l, ∀ a, (m.key, a) ∈ l0 → a = podPorts m.ports) (hu : Uniform nodes l)
    {E F R R' : Place} (hE : PlaceFor nodes l t E R) (hF : PlaceFor nodes l t F R') (svcs : List SvcText) (q : Request) :
    (∀ is, GatewaySays rg c svcs is E F q ↔ GatewaySays t.reg t.container svcs is R R' q) ∧
    (∀ ts, SidecarsSay c svcs ts E F ↔ SidecarsSay t.container svcs ts R R') ∧
    ∀ gs vs, GatewaysSay rg c svcs gs vs E F q ↔ GatewaysSay t.reg t.container svcs gs vs R R' q := by
  have tw : ∀ {E R : Place}, PlaceFor nodes l t E R → Twins rg t.reg c t.container (fun _ => []) (fun _ => []) E R := fun h =>
    for_twins ht hr e hf early hu (.inl fun _ _ => rfl) h
  exact ⟨fun is => (tw hE).ingress (tw hF) svcs is q, fun ts => (tw hE).sidecars (tw hF) svcs ts,
    fun gs vs => (tw hE).gateways (tw hF) (same_works ht hr e hf early hu) svcs gs vs q⟩

end

/-! ### The cluster with all endpoints -/

/-- The cluster with all endpoints, made of the documents. -/
def fullCluster (nodes : Nat) (cidrs : IpBlock → String) (l : List Step) : Container := (members nodes l).map fun m => (m.obj cidrs (nsFrom (nsTexts l))).info

/-- Its named ports. -/
def fullReg (nodes : Nat) (l : List Step) : PodReg := ((members nodes l).filter fun m => decide (m.kind ≠ .netset)).map fun m => (m.key, podPorts m.ports)

/-- There is such a cluster, for all documents that the code reads right. -/
theorem C62_full {nodes : Nat} {cidrs : IpBlock → String} {l : List Step} (ht : Tame nodes cidrs l) : Full nodes l (fullReg nodes l) (fullCluster nodes cidrs l) := by
  have d : ∀ m ∈ members nodes l, Describes l m (m.obj cidrs (nsFrom (nsTexts l))) := fun m hm => obj_describes (members_mem_wf hm) (ht.plain m hm)
  refine ⟨fun p hp => ?_, fun m hm => ⟨_, d m hm, List.mem_map.2 ⟨m, hm, rfl⟩⟩, fun m hm hk => ?_⟩
  · obtain ⟨m, hm, rfl⟩ := List.mem_map.1 hp
    exact ⟨m, hm, _, d m hm, rfl⟩
  · unfold PodReg.named fullReg
    have mem : (m.key, podPorts m.ports) ∈ ((members nodes l).filter fun m => decide (m.kind ≠ .netset)).map fun m => (m.key, podPorts m.ports) :=
      List.mem_map.2 ⟨m, List.mem_filter.2 ⟨hm, by simpa using hk⟩, rfl⟩
    cases h : List.lookup m.key (((members nodes l).filter fun m => decide (m.kind ≠ .netset)).map fun m => (m.key, podPorts m.ports)) with
    | none =>
      rw [List.lookup_eq_none_iff] at h
      exact absurd rfl (bne_iff_ne.1 (h _ mem))
    | some v =>
      obtain ⟨x, y, hxy, _⟩ := List.lookup_eq_some_iff.1 h
      have hv : (m.key, v) ∈ ((members nodes l).filter fun m => decide (m.kind ≠ .netset)).map fun m => (m.key, podPorts m.ports) := by rw [hxy]; simp
      obtain ⟨m', hm', h'⟩ := List.mem_map.1 hv
      simp only [Prod.mk.injEq] at h'
      obtain ⟨h1, h2⟩ := List.mem_filter.1 hm'
      rw [key_inj ht hm h1 hk (by simpa using h2) h'.1.symm, ← h'.2]
      rfl

end Topology
end Verif
