import Verif.PropsTopologyBad
import Verif.PropsTwinsConfig
import Verif.PropsCidrNames
/-!
C61 and C62: clusters that meet the assumptions.
-/
namespace Verif

namespace Topology
namespace Ex
/-- The text of blocks, as the code prints it. -/
abbrev cidrs : IpBlock → String := IpBlock.cidrText

/-! ### A cluster -/

/-- A namespace. -/
def shop : Item := .ns ⟨"shop", [("team", "a")]⟩
/-- A deployment with three pods. -/
def web : WorkText := ⟨"Deployment", "web", some "shop", some 3, none, [("app", "web")], none, [(some "http", 80, none)]⟩
/-- A pod. -/
def db : PodText := ⟨"db", some "shop", [("app", "db")], none, some "dbacc", []⟩
/-- A host endpoint. -/
def node : HepText := ⟨"node1", [("role", "worker")], [], ["p1", "p2"]⟩
/-- A set of addresses. -/
def office : SetText := ⟨"office", true, none, [("net", "office")], [Bad.net]⟩
/-- An external host. -/
def site : EntryText := ⟨["www.example.com"]⟩

/-- The documents. -/
def docs : List Step := together [.one shop, .list [.work web, .pod db], .one (.hep node), .one (.set office), .one (.entry site)]

/-- Documents without host endpoints and network sets. -/
def docs' : List Step := together [.one shop, .list [.work web, .pod db], .one (.entry site)]

/-- A pod of the deployment. -/
def mWeb (name : String) : Member := ⟨.pod, some "shop", name, [("app", "web")], [], [(some "http", 80, none)], some "default", ("web", "Deployment"), []⟩
/-- The pod. -/
def mDb : Member := ⟨.pod, some "shop", "db", [("app", "db")], [], [], some "dbacc", ("", ""), []⟩
/-- The host endpoint. -/
def mNode : Member := ⟨.hep, none, "node1", [("role", "worker")], ["p1", "p2"], [], none, ("", ""), []⟩
/-- The set. -/
def mOffice : Member := ⟨.netset, none, "office", [("net", "office")], [], [], none, ("", ""), [Bad.net]⟩
/-- The host. -/
def mSite : Member := ⟨.dns, none, "www.example.com", [], [], [], none, ("", ""), []⟩

theorem members_docs : members 1 docs = [mWeb "web-1", mWeb "web-2", mWeb "web-3", mDb, mNode, mOffice, mSite] := rfl

theorem members_docs' : members 1 docs' = [mWeb "web-1", mWeb "web-2", mWeb "web-3", mDb, mSite] := rfl

theorem plains : (∀ n ∈ ["web-1", "web-2", "web-3"], (mWeb n).Plain) ∧ mDb.Plain ∧ mNode.Plain ∧ mOffice.Plain ∧ mSite.Plain := by
  refine ⟨fun n hn => ?_, ?_, ?_, ?_, ?_⟩
  · simp only [List.mem_cons, List.not_mem_nil, or_false] at hn
    rcases hn with rfl | rfl | rfl <;>
      exact ⟨by decide, by rintro _ ⟨⟩; decide, by decide, by decide, by decide, by decide, by decide, fun h => by cases h⟩
  · exact ⟨by decide, by rintro _ ⟨⟩; decide, by decide, by decide, by decide, by decide, by decide, fun h => by cases h⟩
  · exact ⟨by decide, (by rintro _ ⟨⟩), by decide, by decide, by decide, by decide, by decide, fun h => by cases h⟩
  · exact ⟨by decide, (by rintro _ ⟨⟩), by decide, by decide, by decide, by decide, by decide, fun _ => by simp [mOffice]⟩
  · exact ⟨by decide, (by rintro _ ⟨⟩), by decide, by decide, by decide, by decide, by decide, fun h => by cases h⟩

theorem web_tame : web.Tame 1 := ⟨by decide, fun h => absurd h (by decide), fun h => absurd h (by decide)⟩

theorem tameDocs : TameDocs 1 docs where
  plain := by
    obtain ⟨h1, h2, h3, h4, h5⟩ := plains
    rw [members_docs]
    simp only [List.forall_mem_cons, List.not_mem_nil, false_implies, implies_true, and_true]
    exact ⟨h1 _ (by decide), h1 _ (by decide), h1 _ (by decide), h2, h3, h4, h5⟩
  names := by rw [members_docs]; simp [mWeb, mDb, mNode, mOffice, mSite, Member.key]
  sets := by rw [members_docs]; simp [mWeb, mDb, mNode, mOffice, mSite]
  global := by rw [members_docs]; simp [mWeb, mDb, mNode, mOffice, mSite]
  workloads := by
    intro s hs _ x hx
    simp only [docs, together, List.map_cons, List.map_nil, List.mem_cons, List.not_mem_nil, or_false] at hs
    rcases hs with rfl | rfl | rfl | rfl | rfl <;> simp [Doc.items, shop] at hx
    rw [hx]; exact web_tame
  typed := by
    intro s hs _ p
    simp only [docs, together, List.map_cons, List.map_nil, List.mem_cons, List.not_mem_nil, or_false] at hs
    rcases hs with rfl | rfl | rfl | rfl | rfl <;> simp
  spaces := by decide
  named := by
    intro x hx
    have : x = ⟨"shop", [("team", "a")]⟩ := by simpa [nsTexts, docs, together, Doc.items, Item.ns?, shop] using hx
    rw [this]; decide
  first := by
    intro a s b h _ x hx m hm
    cases a with
    | nil => cases hm
    | cons s' a =>
      exfalso
      have hs : s ∈ docs.tail := by rw [h]; simp
      simp only [docs, together, List.map_cons, List.map_nil, List.tail_cons, List.mem_cons, List.not_mem_nil, or_false] at hs
      rcases hs with rfl | rfl | rfl | rfl <;> simp [Doc.items] at hx

theorem tame : Tame 1 cidrs docs := C64_tame tameDocs

theorem tameDocs' : TameDocs 1 docs' where
  plain := by
    obtain ⟨h1, h2, h3, h4, h5⟩ := plains
    rw [members_docs']
    simp only [List.forall_mem_cons, List.not_mem_nil, false_implies, implies_true, and_true]
    exact ⟨h1 _ (by decide), h1 _ (by decide), h1 _ (by decide), h2, h5⟩
  names := by rw [members_docs']; simp [mWeb, mDb, mSite, Member.key]
  sets := by rw [members_docs']; simp [mWeb, mDb, mSite]
  global := by rw [members_docs']; simp [mWeb, mDb, mSite]
  workloads := by
    intro s hs _ x hx
    simp only [docs', together, List.map_cons, List.map_nil, List.mem_cons, List.not_mem_nil, or_false] at hs
    rcases hs with rfl | rfl | rfl <;> simp [Doc.items, shop] at hx
    rw [hx]; exact web_tame
  typed := by
    intro s hs _ p
    simp only [docs', together, List.map_cons, List.map_nil, List.mem_cons, List.not_mem_nil, or_false] at hs
    rcases hs with rfl | rfl | rfl <;> simp
  spaces := by decide
  named := by
    intro x hx
    have : x = ⟨"shop", [("team", "a")]⟩ := by simpa [nsTexts, docs', together, Doc.items, Item.ns?, shop] using hx
    rw [this]; decide
  first := by
    intro a s b h _ x hx m hm
    cases a with
    | nil => cases hm
    | cons s' a =>
      exfalso
      have hs : s ∈ docs'.tail := by rw [h]; simp
      simp only [docs', together, List.map_cons, List.map_nil, List.tail_cons, List.mem_cons, List.not_mem_nil, or_false] at hs
      rcases hs with rfl | rfl <;> simp [Doc.items] at hx

theorem tame' : Tame 1 cidrs docs' := C64_tame tameDocs'

theorem uniform : Uniform 1 docs := by
  intro m hm m' hm' h
  rw [members_docs] at hm hm'
  simp only [List.mem_cons, List.not_mem_nil, or_false] at hm hm'
  have hl := h.labels "app"
  have hk := h.kind
  rcases hm with rfl | rfl | rfl | rfl | rfl | rfl | rfl <;> rcases hm' with rfl | rfl | rfl | rfl | rfl | rfl | rfl <;>
    first | exact ⟨rfl, rfl⟩ | (exfalso; revert hk; decide) | (exfalso; revert hl; decide)

theorem uniform' : Uniform 1 docs' := by
  intro m hm m' hm'
  refine uniform m ?_ m' ?_
  · rw [members_docs'] at hm; rw [members_docs]; simp only [List.mem_cons, List.not_mem_nil, or_false] at hm ⊢; tauto
  · rw [members_docs'] at hm'; rw [members_docs]; simp only [List.mem_cons, List.not_mem_nil, or_false] at hm' ⊢; tauto

theorem legal : EntriesLegal docs := by
  intro s hs _ x hx
  simp only [docs, together, List.map_cons, List.map_nil, List.mem_cons, List.not_mem_nil, or_false] at hs
  rcases hs with rfl | rfl | rfl | rfl | rfl <;> simp [Doc.items, shop] at hx
  rw [hx]
  exact ⟨by decide, by decide⟩

theorem legal' : EntriesLegal docs' := by
  intro s hs _ x hx
  simp only [docs', together, List.map_cons, List.map_nil, List.mem_cons, List.not_mem_nil, or_false] at hs
  rcases hs with rfl | rfl | rfl <;> simp [Doc.items, shop] at hx
  rw [hx]
  exact ⟨by decide, by decide⟩

theorem ports : ∀ m ∈ members 1 docs, LegalPorts (podPorts m.ports) := by
  intro m hm
  have hw : LegalPorts (podPorts [(some "http", 80, none)]) := by
    intro name num pr h
    have e : podPorts [(some "http", 80, none)] = [("http", 80, "TCP")] := by decide
    rw [e, List.lookup_cons] at h
    split at h
    · cases h; exact ⟨by decide, 6, by decide⟩
    · cases h
  have hn : LegalPorts (podPorts []) := fun name num pr h => by cases h
  rw [members_docs] at hm
  simp only [List.mem_cons, List.not_mem_nil, or_false] at hm
  rcases hm with rfl | rfl | rfl | rfl | rfl | rfl | rfl <;> assumption

theorem ports' : ∀ m ∈ members 1 docs', LegalPorts (podPorts m.ports) := by
  intro m hm
  refine ports m ?_
  rw [members_docs'] at hm; rw [members_docs]; simp only [List.mem_cons, List.not_mem_nil, or_false] at hm ⊢; tauto

theorem small {l : List Step} {ord : SetOrder} {t : Topo} (ht : Tame 1 cidrs l) (hl : (members 1 l).length < maxPods) (e : read cidrs ord [] l = some t) :
    t.reg.keys.length < maxPods := by
  have h := C61_registered ht .empty e
  have nd : t.reg.keys.Nodup := (Base.C22_registry (reg_sem ht .empty e).1).1
  have sub : t.reg.keys ⊆ (members 1 l).map Member.key := by
    intro k hk
    rcases (h.1 k).1 hk with hk | ⟨p, hp, hpk⟩
    · cases hk
    · obtain ⟨m, hm, d⟩ := C61_described ht .empty e p hp
      exact List.mem_map.2 ⟨m, hm, (describes_elem d hpk).2⟩
  have := (nd.subperm sub).length_le
  rw [List.length_map] at this
  omega

/-- The cluster is read, and it is one for which Calico policies are read right. -/
theorem calico (ord : SetOrder) : ∃ t, read cidrs ord [] docs = some t ∧ CalicoParser.CalCluster t.reg t.container := by
  obtain ⟨t, e⟩ := C61_accepted (ord := ord) tame legal .empty (by rw [members_docs]; decide)
  exact ⟨t, e, C61_calico_cluster tame .empty e (fun k a h => by cases h) ports (small tame (by rw [members_docs]; decide) e)⟩

/-- Letters, digits and `_`. -/
def cls (a : Char) : Bool := a.isAlphanum || a == '_'

theorem wordly {s : String} (h : s.toList.all (fun a => cls a || a == '-') = true) : ∀ a ∈ s.toList, cls a = true ∨ a = '-' := by
  intro a ha
  have := List.all_eq_true.1 h a ha
  simpa using this

/-- The other cluster is read, and it is one for which Istio policies are read right. -/
theorem istio (ord : SetOrder) : ∃ t, read cidrs ord [] docs' = some t ∧ IstioParser.IstioCluster (t.env cls) t.reg t.container := by
  obtain ⟨t, e⟩ := C61_accepted (ord := ord) tame' legal' .empty (by rw [members_docs']; decide)
  refine ⟨t, e, C61_istio_cluster tame' .empty e (fun k a h => by cases h) ports' (small tame' (by rw [members_docs']; decide) e) ?_ (by decide) (by decide) ?_ ?_ ?_⟩
  · intro a ha hn
    simp only [List.mem_cons, List.not_mem_nil, or_false, not_or] at hn
    rcases ha with h | h | h | h | h
    · simp [cls, h]
    · subst h; rfl
    · exact absurd h hn.1
    · exact absurd h hn.2.1
    · exact absurd h hn.2.2
  · intro m hm
    rw [members_docs'] at hm
    simp only [List.mem_cons, List.not_mem_nil, or_false] at hm
    rcases hm with rfl | rfl | rfl | rfl | rfl <;> simp [mWeb, mDb, mSite]
  · intro s hs i hi n hn
    simp only [docs', together, List.map_cons, List.map_nil, List.mem_cons, List.not_mem_nil, or_false] at hs
    have : n = "shop" := by
      rcases hs with rfl | rfl | rfl
      · rw [List.mem_singleton.1 hi] at hn; cases hn; rfl
      · simp only [Doc.items, List.mem_cons, List.not_mem_nil, or_false] at hi
        rcases hi with rfl | rfl <;> (cases hn; rfl)
      · rw [List.mem_singleton.1 hi] at hn; cases hn
    rw [this]
    exact ⟨by decide, wordly (by decide)⟩
  · intro m hm hk
    rw [members_docs'] at hm
    simp only [List.mem_cons, List.not_mem_nil, or_false] at hm
    rcases hm with rfl | rfl | rfl | rfl | rfl
    · exact ⟨_, rfl, by decide, wordly (by decide)⟩
    · exact ⟨_, rfl, by decide, wordly (by decide)⟩
    · exact ⟨_, rfl, by decide, wordly (by decide)⟩
    · exact ⟨_, rfl, by decide, wordly (by decide)⟩
    · cases hk

/-! ### The theorems for these clusters -/

/-- All three pods of the deployment have objects, and any two of them have two. -/
example (ord : SetOrder) : ∃ t, read cidrs ord [] docs = some t ∧ ∃ p ∈ t.peers, ∃ p' ∈ t.peers, p.info.elem ≠ p'.info.elem ∧
    StandsFor 1 docs p (mWeb "web-1") ∧ StandsFor 1 docs p' (mWeb "web-3") := by
  obtain ⟨t, e, _⟩ := calico ord
  exact ⟨t, e, C61_two_partial tame .empty e (by rw [members_docs]; simp) (by rw [members_docs]; simp) (by simp [mWeb])⟩

/-- The object of the deployment has its ports and service account. -/
example (ord : SetOrder) : ∃ t, read cidrs ord [] docs = some t ∧ ∃ p ∈ t.peers, p.ports = [("http", 80, "TCP")] ∧ p.account = "default" := by
  obtain ⟨t, e, _⟩ := calico ord
  obtain ⟨p, hp, h⟩ := C61_one tame .empty e (m := mWeb "web-3") (by rw [members_docs]; simp)
  obtain ⟨h1, h2⟩ := C61_uniform uniform (by rw [members_docs]; simp) h
  exact ⟨t, e, p, hp, h1.trans (by decide), h2 _ rfl⟩

/-- The namespace has the labels of its document, and that of its name. -/
example (ord : SetOrder) : ∃ t, read cidrs ord [] docs = some t ∧ (t.ns "shop").labels.lookup "team" = some "a" ∧
    (t.ns "shop").labels.lookup "kubernetes.io/metadata.name" = some "shop" := by
  obtain ⟨t, e, _⟩ := calico ord
  refine ⟨t, e, ?_, ?_⟩ <;> rw [C61_namespaces tame .empty e] <;> decide

/-- The third pod has a place that stands for it, different from that of an address; Calico policies say the same of both. -/
example (ord : SetOrder) (x : Ip) : ∃ t, read cidrs ord [] docs = some t ∧ ∃ R, R ≠ .ip x ∧
    ∀ is q, CalicoParser.CalicoSays (fullReg 1 docs) (fullCluster 1 cidrs docs) is (.pod "shop/web-3") (.ip x) q ↔ CalicoParser.CalicoSays t.reg t.container is R (.ip x) q := by
  obtain ⟨t, e, _⟩ := calico ord
  obtain ⟨R, R', h1, h2, h3⟩ := C62_places tame .empty e (E := .pod "shop/web-3") (F := .ip x) ⟨mWeb "web-3", by rw [members_docs]; simp, by decide, by decide⟩ trivial (by simp)
  have h4 : R' = .ip x := h3
  subst h4
  exact ⟨t, e, R, h1, fun is q => C62_calico_partial tame .empty e (C62_full tame) (fun m _ a h => by cases h) uniform h2 h3 is q⟩

/-- The service accounts of the other cluster. -/
def sa (k : String) : List Char := if k = "shop/db" then "dbacc".toList else "default".toList

theorem accounts : FullAccounts 1 docs' sa := by
  intro m hm hk
  rw [members_docs'] at hm
  simp only [List.mem_cons, List.not_mem_nil, or_false] at hm
  rcases hm with rfl | rfl | rfl | rfl | rfl
  · exact ⟨_, rfl, by decide⟩
  · exact ⟨_, rfl, by decide⟩
  · exact ⟨_, rfl, by decide⟩
  · exact ⟨_, rfl, by decide⟩
  · cases hk

/-- Two pods of the deployment have different places, and authorization policies say the same of requests from the first to the second. -/
example (ord : SetOrder) : ∃ t, read cidrs ord [] docs' = some t ∧ IstioParser.IstioCluster (t.env cls) t.reg t.container ∧ ∃ R R', R ≠ R' ∧ ∀ ts q,
    IstioParser.IstioSays sa (fullCluster 1 cidrs docs') ts (.pod "shop/web-2") (.pod "shop/web-3") q ↔ IstioParser.IstioSays (t.env cls).sa t.container ts R R' q := by
  obtain ⟨t, e, hi⟩ := istio ord
  obtain ⟨R, R', h1, h2, h3⟩ := C62_places tame' .empty e (E := .pod "shop/web-2") (F := .pod "shop/web-3") ⟨mWeb "web-2", by rw [members_docs']; simp, by decide, by decide⟩
    ⟨mWeb "web-3", by rw [members_docs']; simp, by decide, by decide⟩ (by simp)
  exact ⟨t, e, hi, R, R', h1, fun ts q => C62_istio_partial tame' .empty e (C62_full tame') (fun m _ a h => by cases h) uniform' accounts h2 h3 cls ts q⟩

end Ex
end Topology
end Verif
