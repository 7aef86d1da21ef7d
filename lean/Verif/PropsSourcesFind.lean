import Verif.PropsSourcesRun
/-!
Property theorems C67: what was missing is there after resources were added.
-/
namespace Verif

namespace Sources
open Topology

variable {σ π : Type} {W : World σ π}

/-- If some endpoint has a namespace, some namespace is known. -/
def Housed (t : Topo) : Prop := (∃ p ∈ t.peers, p.info.ns ≠ none) → t.nss ≠ []

theorem foldlM_inv {τ α : Type} {P : τ → Prop} {f : τ → α → Option τ} (h : ∀ a x b, P a → f a x = some b → P b) {l : List α} {a b : τ}
    (ha : P a) (e : l.foldlM f a = some b) : P b := by
  induction l generalizing a with
  | nil => simp at e; rw [← e]; exact ha
  | cons x l ih =>
    rw [List.foldlM_cons] at e
    obtain ⟨c, h1, h2⟩ := Option.bind_eq_some_iff.1 e
    exact ih (h a x c ha h1) h2

theorem touch_ne (t : Topo) (n : String) : (t.touch n).nss ≠ [] := by
  unfold Topo.touch
  split
  · rename_i h
    intro e
    rw [e] at h
    simp at h
  · simp

theorem touch_housed (t : Topo) (n : String) : Housed (t.touch n) := fun _ => touch_ne t n

theorem addPeer_housed {t t' : Topo} {p : PeerObj} (h : Housed t) (hp : p.info.ns ≠ none → t.nss ≠ []) (e : addPeer t p = some t') :
    Housed t' ∧ t'.nss = t.nss := by
  unfold addPeer at e
  split at e
  · cases e; exact ⟨h, rfl⟩
  · obtain ⟨r, _, rfl⟩ := Option.map_eq_some_iff.1 e
    refine ⟨?_, rfl⟩
    rintro ⟨q, hq, hn⟩
    dsimp only at hq ⊢
    split at hq
    · exact h ⟨q, hq, hn⟩
    · rcases List.mem_append.1 hq with hq | hq
      · exact h ⟨q, hq, hn⟩
      · simp at hq; subst hq; exact hp hn

theorem addItem_housed (cidrs : IpBlock → String) (ord : SetOrder) (t : Topo) (x : Item) (t' : Topo) (h : Housed t) (e : addItem cidrs ord t x = some t') :
    Housed t' := by
  cases x with
  | ns x => cases e; exact h
  | pod x => exact (addPeer_housed (touch_housed _ _) (fun _ => touch_ne _ _) e).1
  | wep x => exact (addPeer_housed (touch_housed _ _) (fun _ => touch_ne _ _) e).1
  | hep x => exact (addPeer_housed h (fun hn => absurd rfl hn) e).1
  | work x =>
    simp only [addItem, addWork] at e
    refine (foldlM_inv (P := fun s => Housed s ∧ s.nss ≠ []) (fun a i b ha hb => ?_) ⟨touch_housed _ _, touch_ne _ _⟩ e).1
    obtain ⟨h1, h2⟩ := addPeer_housed ha.1 (fun _ => ha.2) hb
    exact ⟨h1, by rw [h2]; exact ha.2⟩
  | set x =>
    simp only [addItem, addSet] at e
    split at e
    · cases e; exact h
    · obtain ⟨b, _, e⟩ := Option.bind_eq_some_iff.1 e
      split at e
      · exact (addPeer_housed h (fun hn => absurd rfl hn) e).1
      · exact (addPeer_housed (touch_housed _ _) (fun _ => touch_ne _ _) e).1
  | entry x =>
    simp only [addItem, addEntry] at e
    split at e
    · cases e
    · exact foldlM_inv (P := Housed) (fun a i b ha hb => (addPeer_housed ha (fun hn => absurd rfl hn) hb).1) h e

theorem nsPass_housed {t : Topo} (h : Housed t) (d : Doc) : Housed (nsPass t d) := by
  unfold nsPass
  generalize d.nss = l
  induction l generalizing t with
  | nil => exact h
  | cons x l ih => exact ih (fun _ => by simp [addNs])

theorem step_housed (cidrs : IpBlock → String) (ord : SetOrder) (t : Topo) (s : Step) (t' : Topo) (h : Housed t) (e : step cidrs ord t s = some t') : Housed t' := by
  have h1 : Housed (if s.nss then nsPass t s.doc else t) := by
    split
    · exact nsPass_housed h _
    · exact h
  unfold step at e
  dsimp only at e
  generalize (if s.nss = true then nsPass t s.doc else t) = u at e h1
  by_cases he : s.eps = true
  · rw [if_pos he] at e
    unfold epPass at e
    cases hd : s.doc <;> rw [hd] at e <;> dsimp only at e
    · exact addItem_housed _ _ _ _ _ h1 e
    · exact foldlM_inv (addItem_housed cidrs ord) h1 e
    · exact foldlM_inv (P := Housed) (fun a x b _ hb => (addPeer_housed (touch_housed _ _) (fun _ => touch_ne _ _) hb).1) h1 e
  · rw [if_neg he] at e
    cases e; exact h1

theorem read_housed {cidrs : IpBlock → String} {ord : SetOrder} {reg : PodReg} {l : List Step} {t : Topo} (e : Topology.read cidrs ord reg l = some t) : Housed t :=
  foldlM_inv (step_housed cidrs ord) (fun ⟨_, hp, _⟩ => by cases hp) e

theorem setContainer_read {g : Option (Global σ)} {reg : PodReg} {L : Lists} {save : Bool} {r : Cont σ × Option (Global σ) × PodReg}
    (h : setContainer W g reg L.ns L.pods L.res save = some r) : ∃ t, Topology.read W.cidrs W.ord reg (L.steps W) = some t := by
  unfold setContainer at h
  obtain ⟨r, hr, _⟩ := Option.map_eq_some_iff.1 h
  exact ⟨_, (parse_read hr).1⟩

theorem members_file {nodes : Nat} {L : Lists} {p : String} (hp : p ∈ L.podFrom) {m : Member} (hm : m ∈ members nodes (together (docsOf W [p]))) :
    m ∈ members nodes (L.steps W) := by
  have sub : ∀ d ∈ docsOf W [p], d ∈ docsOf W L.podFrom := by
    unfold docsOf
    intro d hd
    rw [List.mem_filterMap] at hd ⊢
    obtain ⟨x, hx, e⟩ := hd
    refine ⟨x, List.mem_flatMap.2 ⟨p, hp, by simpa using hx⟩, e⟩
  have key : ∃ d ∈ docsOf W L.podFrom, m ∈ d.items.flatMap (Item.members nodes) := by
    unfold members together at hm
    obtain ⟨s, hs, hm⟩ := List.mem_flatMap.1 hm
    obtain ⟨d, hd, rfl⟩ := List.mem_map.1 (List.mem_filter.1 hs).1
    exact ⟨d, sub d hd, hm⟩
  obtain ⟨d, hd, hm⟩ := key
  unfold members Lists.steps
  split
  · rename_i hg
    have : L.podFrom = L.res.getD [] := by
      rw [Lists.podFrom, ← (determine_eq L.pods L.res).1, ((general_iff L).1 hg).1]
    rw [this] at hd
    exact List.mem_flatMap.2 ⟨⟨d, true, true⟩, List.mem_filter.2 ⟨List.mem_map.2 ⟨d, hd, rfl⟩, rfl⟩, hm⟩
  · exact List.mem_flatMap.2 ⟨⟨d, false, true⟩, List.mem_filter.2 ⟨List.mem_append_right _ (List.mem_map.2 ⟨d, hd, rfl⟩), rfl⟩, hm⟩

/-- C67: a file with a pod is added, and pods are read from some list: then the configuration has an endpoint with the labels of that
pod.  Partial: for documents that are read right (C61). -/
theorem C67_joined_partial {g : Option (Global σ)} {reg : PodReg} {L : Lists} {r q : Parsed σ π × Option (Global σ) × PodReg}
    (h : getConfig W g reg L false = some r) (hq : parseElements W g reg L false = some q) {p : String} (ha : p ∈ addons W q.1.cont q.1.pols)
    (hl : L.podFrom ≠ []) {nodes : Nat} {l0 : List (String × NamedPorts)} (hr : q.2.2.Reach l0)
    (ht : Topology.Tame nodes W.cidrs ((L.extend (addons W q.1.cont q.1.pols)).steps W))
    {m : Member} (hm : m ∈ members nodes (together (docsOf W [p]))) (hns : m.ns ≠ none) :
    ∃ e ∈ r.1.cont.infos, e.ns.map Ns.name = m.ns ∧ ∀ k, e.labels.lookup k = m.labels.lookup k := by
  obtain ⟨q', hq', hc⟩ := getConfig_cases h
  rw [hq, Option.some.injEq] at hq'
  subst hq'
  rcases hc with ⟨h1, _⟩ | ⟨_, h2⟩
  · rw [h1] at ha; cases ha
  obtain ⟨s, hs, rfl⟩ := Option.map_eq_some_iff.1 h2
  obtain ⟨t, et⟩ := setContainer_read hs
  have hp : p ∈ (L.extend (addons W q.1.cont q.1.pols)).podFrom := by
    show p ∈ chosen (extend _ L.pods) (extend _ L.res)
    rw [chosen_extend]
    rw [Lists.podFrom] at hl
    simp only [hl, if_false]
    exact List.mem_append_right _ ha
  obtain ⟨o, ho, a, _, al, d⟩ := C61_one ht hr et (members_file hp hm)
  have on : o.info.ns.map Ns.name = m.ns := d.ns.trans al.ns.symm
  have hn : t.nss ≠ [] := read_housed et ⟨o, ho, fun e => by rw [e] at on; exact hns on.symm⟩
  have hc := (C67_own_pods_partial (c := s.1) (g' := s.2.1) (reg' := s.2.2) hs et (List.ne_nil_of_mem ho) (.inl hn)).1
  refine ⟨o.info, ?_, on, fun k => by rw [d.labels, al.labels]⟩
  show o.info ∈ s.1.peers.map PeerObj.info
  rw [hc]
  exact List.mem_map_of_mem ho

/-- C67: if no endpoint has a label in the selector of a Gateway, a file for gateways has a pod with it, and pods are read from some
list, then the configuration gets an endpoint with the label.  Partial: for documents that are read right (C61). -/
theorem C67_found_partial (hf : W.Fair) {g : Option (Global σ)} {reg : PodReg} {L : Lists} {r q : Parsed σ π × Option (Global σ) × PodReg}
    (h : getConfig W g reg L false = some r) (hq : parseElements W g reg L false = some q) {x : π} (hx : x ∈ q.1.pols) {sel : Labels} {kv : String × String}
    (hn : W.need x = .gateway sel) (hk : kv ∈ sel) (hno : ∀ e ∈ q.1.cont.infos, ¬ Asks false kv e) {p : String} (hp : p ∈ W.gateways) (hfl : kv ∈ fileLabels W p)
    (hl : L.podFrom ≠ []) {nodes : Nat} {l0 : List (String × NamedPorts)} (hr : q.2.2.Reach l0)
    (ht : Topology.Tame nodes W.cidrs ((L.extend (addons W q.1.cont q.1.pols)).steps W))
    {m : Member} (hm : m ∈ members nodes (together (docsOf W [p]))) (hns : m.ns ≠ none) (hml : m.labels.lookup kv.1 = some kv.2) :
    ∃ e ∈ r.1.cont.infos, Asks false kv e := by
  have ha : p ∈ addons W q.1.cont q.1.pols := by
    unfold addons
    refine List.mem_append_right _ ((relevant_iff hf _ _ _).2 ⟨hp, kv, ?_, hfl⟩)
    unfold missingGateways
    refine List.mem_flatMap.2 ⟨x, hx, ?_⟩
    rw [hn]
    exact (C67_missing_gateway sel kv).2 ⟨hk, hno⟩
  obtain ⟨e, he, _, hlab⟩ := C67_joined_partial h hq ha hl hr ht hm hns
  exact ⟨e, he, by unfold Asks; rw [if_neg (by simp)]; exact .inl ((hlab _).trans hml)⟩

end Sources
end Verif
