import Verif.QueryProofs
import Verif.CubeCong
/-!
The laws that make the answers of the equivalence queries exact although `==` of connection sets is
incomplete (`C15_connprops_eq_incomplete`): the sets compared always come from intersections, which
are in canonical form, by subtractions of the same sets.
-/
namespace Verif

section
variable {C P E S : Type}

/-- Laws on canonical forms. -/
structure NetQ.Exact (N : NetQ C P E S) (Ok Strong Canon : C → Prop) : Prop where
  /-- Intersections are canonical, unless an operand is everything and the other one is not canonical. -/
  canon_and : ∀ {a b}, Ok a → Ok b → (Canon a ∨ ∃ p, N.K.mem p b = false) → (Canon b ∨ ∃ p, N.K.mem p a = false) →
    Canon (N.K.and a b)
  /-- `==` is complete on canonical sets. -/
  canon_eq : ∀ {a b}, Ok a → Ok b → Canon a → Canon b → (∀ p, N.K.mem p a = N.K.mem p b) → N.K.eq a b = true
  /-- Subtracting the same set from equal sets gives equal sets. -/
  sub_eq : ∀ {a b x}, Strong a → Strong b → Ok x → N.K.eq a b = true → N.K.eq (N.K.sub a x) (N.K.sub b x) = true
  /-- Peer sets with the same members are the same. -/
  peers_ext : ∀ {s t : S}, (∀ e, N.Q.mem e s = N.Q.mem e t) → s = t

/-- A property of connection sets that operations pass on from their first operand. -/
structure NetQ.Typed (N : NetQ C P E S) (T : C → Prop) : Prop where
  empty : T N.K.empty
  all : T N.all
  rect : ∀ s d k, T (N.rect s d k)
  or : ∀ {a b}, T a → T (N.K.or a b)
  and : ∀ {a b}, T a → T (N.K.and a b)
  sub : ∀ {a b}, T a → T (N.K.sub a b)

/-- Such a property may be added to the invariant. -/
theorem NetQ.Lawful.typed {N : NetQ C P E S} {Ok Strong Wide : C → Prop} (L : N.Lawful Ok Strong Wide) {T : C → Prop} (h : N.Typed T) :
    N.Lawful (fun a => Ok a ∧ T a) (fun a => Strong a ∧ T a) Wide where
  net :=
    { strong_ok := fun h => ⟨L.net.strong_ok h.1, h.2⟩
      empty_strong := ⟨L.net.empty_strong, h.empty⟩
      mem_empty := L.net.mem_empty
      or_ok := fun ha hb => ⟨L.net.or_ok ha.1 hb.1, h.or ha.2⟩
      or_strong := fun ha hb => ⟨L.net.or_strong ha.1 hb.1, h.or ha.2⟩
      mem_or := fun ha hb => L.net.mem_or ha.1 hb.1
      and_ok := fun ha hb => ⟨L.net.and_ok ha.1 hb.1, h.and ha.2⟩
      mem_and := fun ha hb => L.net.mem_and ha.1 hb.1
      sub_ok := fun ha hb => ⟨L.net.sub_ok ha.1 hb.1, h.sub ha.2⟩
      mem_sub := fun ha hb => L.net.mem_sub ha.1 hb.1
      sub_falsy := L.net.sub_falsy
      sub_empty_strong := fun ha hb hf => ⟨L.net.sub_empty_strong ha.1 hb.1 hf, h.sub ha.2⟩
      truthy_iff := fun ha => L.net.truthy_iff ha.1
      truthy_strong := fun ha ht => ⟨L.net.truthy_strong ha.1 ht, ha.2⟩
      contained_iff := fun ha hb => L.net.contained_iff ha.1 hb.1
      eq_sound := fun ha hb => L.net.eq_sound ha.1 hb.1
      rect_strong := fun s d k => ⟨L.net.rect_strong s d k, h.rect s d k⟩
      mem_rect := L.net.mem_rect }
  all_ok := ⟨L.all_ok, h.all⟩
  mem_all := L.mem_all
  and_all := L.and_all
  srcs_sup := fun hc => L.srcs_sup hc.1
  dsts_sup := fun hc => L.dsts_sup hc.1
  elems_mem := L.elems_mem
  elems_single := L.elems_single
  v6_ip := L.v6_ip
  eq_refl := fun ha => L.eq_refl ha.1
  strong_iff := fun {a} => by rw [L.strong_iff, and_right_comm]
  splice := fun p q => by
    obtain ⟨r, h1, h2, h3, h4⟩ := L.splice p q
    exact ⟨r, h1, h2, h3, fun ha => h4 ha.1⟩
  and_wide := fun ha hb hw => ⟨L.and_wide ha.1 hb.1 hw, h.and ha.2⟩
  and_falsy := fun ha hb hf => ⟨L.and_falsy ha.1 hb.1 hf, h.and ha.2⟩
  sub_wide := fun ha hb hw => ⟨L.sub_wide ha.1 hb.1 hw, h.sub ha.2⟩

variable {N : NetQ C P E S} {Ok Strong Wide Canon : C → Prop}

/-- No layer of a good configuration allows TCP between addresses. -/
theorem layerDir_ext {t : Peers S} (W : World N t) {n : LayerName} {pols : List (Policy C S)}
    (hs : ∀ pol ∈ pols, ∀ e, N.Q.mem e pol.selected = true → t.workload N.toNet e) {p : P} (h1 : N.ip (N.src p) = true)
    (h2 : N.ip (N.dst p) = true) (h3 : N.isTcp p = true) (dir : Bool) : ¬ layerDirAllows N.toNet n pols t dir p := by
  have hep : N.ip (endpoint N.toNet dir p) = true := by cases dir <;> assumption
  have hv : layerVerdict N.toNet pols dir p ≠ some .allow := by
    intro h
    obtain ⟨pol, hp, hc⟩ := verdict_captured h
    unfold Policy.captures at hc
    rw [Bool.and_eq_true] at hc
    exact W.workload_ips hep (hs pol hp _ hc.2)
  have hw : ∀ e, N.ip e = true → N.Q.mem e t.pods = false := by
    intro e he
    rw [← Bool.not_eq_true]; intro h; rw [(W.pods e h).1] at he; exact absurd he (by simp)
  have hd : ∀ e, N.ip e = true → N.Q.mem e t.dns = false := by
    intro e he
    rw [← Bool.not_eq_true]; intro h; rw [W.dns e h] at he; exact absurd he (by simp)
  have hdef : n = .istio ∨ n = .istioGateway → ¬ istioAllows N.toNet pols t dir p := by
    rintro _ (h | ⟨h, _⟩ | ⟨_, _, h⟩)
    · exact hv h
    · rw [h3] at h; exact absurd h (by simp)
    · unfold istioDefault at h
      cases dir with
      | true =>
        rw [if_pos rfl] at h
        rcases h.2 with h | h
        · exact W.workload_ips h2 h
        · rw [hd _ h2] at h; exact absurd h.1 (by simp)
      | false =>
        rw [if_neg (by simp)] at h
        exact W.workload_ips h1 h.1
  have hcal : ¬ calicoAllows N.toNet pols t dir p := by
    rintro (h | ⟨_, h, _⟩)
    · exact hv h
    · rcases h with h | h
      · rw [hw _ hep] at h; exact absurd h (by simp)
      · rw [hd _ hep] at h; exact absurd h (by simp)
  cases n
  case k8sCalico | k8sGateway => exact hcal
  case istio => exact hdef (Or.inl rfl)
  case istioGateway => exact hdef (Or.inr rfl)

/-- The connections a layer allows are in canonical form, and not everything. -/
theorem layer_canon (L : N.Lawful Ok Strong Wide) (X : N.Exact Ok Strong Canon) {t : Peers S} (W : World N t) (n : LayerName)
    (pols : List (Policy C S)) (hl : ∀ pol ∈ pols, pol.Legal N.toNet Strong) (hx : SubExact Ok Strong pols)
    (hs : ∀ pol ∈ pols, ∀ e, N.Q.mem e pol.selected = true → t.workload N.toNet e) (f : ConnFilter) (hf : f.calcAllAllowed = true) :
    Canon (layerConns N.toNet n pols t f).allAllowed ∧ ∃ p, N.K.mem p (layerConns N.toNet n pols t f).allAllowed = false := by
  obtain ⟨x, h1, h2, h3⟩ := W.extTcp
  have hi := layerXgress_spec L.net n pols hl hx true t f
  have he := layerXgress_spec L.net n pols hl hx false t f
  have oi := L.net.strong_ok (hi.2.2.2.1 hf).1
  have oe := L.net.strong_ok (he.2.2.2.1 hf).1
  have o1 := L.net.strong_ok (L.net.rect_strong (some (t.group N.toNet false false)) (some t.ips) .any)
  have o2 := L.net.strong_ok (L.net.rect_strong (some t.ips) (some (t.group N.toNet false false)) .any)
  have heq : (layerConns N.toNet n pols t f).allAllowed =
      N.K.and (N.K.or (layerXgress N.toNet n pols true t f).allAllowed (N.rect (some (t.group N.toNet false false)) (some t.ips) .any))
        (N.K.or (layerXgress N.toNet n pols false t f).allAllowed (N.rect (some t.ips) (some (t.group N.toNet false false)) .any)) := by
    simp only [layerConns, hf, if_true]
  have n1 : N.K.mem x (N.K.or (layerXgress N.toNet n pols true t f).allAllowed (N.rect (some (t.group N.toNet false false)) (some t.ips) .any)) = false := by
    rw [← Bool.not_eq_true, mem_or_iff L.net oi o1, mem_rect_some L.net, Peers.mem_group_ff]
    rintro (h | h)
    · exact layerDir_ext W hs h1 h2 h3 true (hi.2.2.2.2 hf x h)
    · exact W.workload_ips h1 h.1
  have n2 : N.K.mem x (N.K.or (layerXgress N.toNet n pols false t f).allAllowed (N.rect (some t.ips) (some (t.group N.toNet false false)) .any)) = false := by
    rw [← Bool.not_eq_true, mem_or_iff L.net oe o2, mem_rect_some L.net, Peers.mem_group_ff]
    rintro (h | h)
    · exact layerDir_ext W hs h1 h2 h3 false (he.2.2.2.2 hf x h)
    · exact W.workload_ips h2 h.2.1
  rw [heq]
  refine ⟨X.canon_and (L.net.or_ok oi o1) (L.net.or_ok oe o2) (Or.inr ⟨x, n2⟩) (Or.inr ⟨x, n1⟩), x, ?_⟩
  rw [L.net.mem_and (L.net.or_ok oi o1) (L.net.or_ok oe o2), n1]; rfl

theorem configFold_canon (L : N.Lawful Ok Strong Wide) (X : N.Exact Ok Strong Canon) {t : Peers S} (W : World N t) {f : ConnFilter}
    (h : Tame N.toNet t f) (hf : f.calcAllAllowed = true) (layers : Layers C S) : ∀ (res : PolicyConns C S),
    LegalLayers N.toNet Ok Strong layers →
    (∀ l ∈ layers, ∀ pol ∈ l.2, ∀ e, N.Q.mem e pol.selected = true → t.workload N.toNet e) →
    Ok res.allAllowed → (layers = [] → Canon res.allAllowed) →
    Canon (layers.foldl (configStep N.toNet t f (N.K.or (N.rect (some t.heps) none .any) (N.rect none (some t.heps) .any))) res).allAllowed := by
  induction layers with
  | nil => intro res _ _ _ hc; exact hc rfl
  | cons l layers ih =>
    intro res hl hs ho _
    have lo := ((layerConns_spec L.net l.1 l.2 (hl.legal l (by simp)) (hl.exact l (by simp)) t f).2.1 hf).1
    have lc := layer_canon L X W l.1 l.2 (hl.legal l (by simp)) (hl.exact l (by simp)) (hs l (by simp)) f hf
    have he := configStep_all L.net h hf res l
    rw [List.foldl_cons]
    refine ih _ ⟨fun l' h' => hl.legal l' (by simp [h']), fun l' h' => hl.exact l' (by simp [h'])⟩ (fun l' h' => hs l' (by simp [h'])) ?_ (fun _ => ?_)
    · rw [he]; exact L.net.and_ok ho lo
    · rw [he]; exact X.canon_and ho lo (Or.inr lc.2) (Or.inl lc.1)

/-- The computed connections of a configuration or layer are in canonical form. -/
theorem Config.Good.canon {c : Config C S} (G : c.Good N Ok Strong) (L : N.Lawful Ok Strong Wide) (X : N.Exact Ok Strong Canon)
    (layer : Option LayerName) : Canon (c.conns N layer ConnFilter.onlyAllAllowed).allAllowed := by
  have hf := onlyAllAllowed_calc.1
  cases layer with
  | some n =>
    have heq : c.conns N (some n) ConnFilter.onlyAllAllowed = layerConns N.toNet n (layerList c.store.layers n) c.peers ConnFilter.onlyAllAllowed := by
      simp only [Config.conns, configLayerConns, layerList]
      cases c.store.layers.find? (fun l => l.1 = n) <;> rfl
    rw [heq]
    exact (layer_canon L X G.world n _ (fun pol h => G.legal.legal pol (G.list_mem h)) (G.legal.exact.mono (fun pol h => G.list_mem h))
      (fun pol h => G.selects pol (G.list_mem h)) _ hf).1
  | none =>
    have hT : Tame N.toNet c.peers ConnFilter.onlyAllAllowed := Or.inl onlyAllAllowed_calc.2
    have hne : c.store.layers ≠ [] := by
      by_cases hp : c.store.policies = []
      · rw [G.B.init hp]; simp [initLayers]
      · obtain ⟨pol, hpol⟩ := List.exists_mem_of_ne_nil _ hp
        have := layerList_mem ((G.B.list_ne (layerOf pol.kind)).2 ⟨pol, hpol, rfl⟩)
        exact List.ne_nil_of_mem this
    have hsel : ∀ l ∈ c.store.layers, ∀ pol ∈ l.2, ∀ e, N.Q.mem e pol.selected = true → c.peers.workload N.toNet e :=
      fun l hl pol hp => G.selects pol (G.layer_mem hl hp)
    change Canon (configConns N.toNet c.peers c.store.layers ConnFilter.onlyAllAllowed).allAllowed
    unfold configConns
    dsimp only
    split
    · have lo := ((layerConns_spec L.net .k8sCalico ([] : List (Policy C S)) (by simp) (Or.inr (by intro p hp; simp at hp)) c.peers
        ConnFilter.onlyAllAllowed).2.1 hf).1
      refine configFold_canon L X G.world hT hf _ _ (G.B.legal G.legal) hsel ?_ (fun h => absurd h hne)
      simpa [PolicyConns.andByFilter, ConnFilter.replaceAllAllowedFalse, ConnFilter.make, onlyAllAllowed_calc.2] using lo
    · refine configFold_canon L X G.world hT hf _ _ (G.B.legal G.legal) hsel ?_ (fun h => absurd h hne)
      exact L.net.strong_ok (L.net.rect_strong _ _ _)

/-- The two sets the equivalence query compares are equal objects as soon as they have the same members,
if IPv6 addresses are excluded or the sets were the same before filtering. -/
theorem filterBoth_exact (L : N.Lawful Ok Strong Wide) (X : N.Exact Ok Strong Canon) (excl : Bool) {c1 c2 : Config C S}
    (W1 : World N c1.peers) (W2 : World N c2.peers) (hdns : ∀ e, N.Q.mem e c1.peers.dns = N.Q.mem e c2.peers.dns)
    {a b : C} (ha : Strong a) (hb : Strong b) (ca : Canon a) (cb : Canon b)
    (hsame : excl = true ∨ ∀ p, N.K.mem p a = N.K.mem p b)
    (h : ∀ p, N.K.mem p (filterBoth N excl c1 c2 a b).1 = N.K.mem p (filterBoth N excl c1 c2 a b).2) :
    N.K.eq (filterBoth N excl c1 c2 a b).1 (filterBoth N excl c1 c2 a b).2 = true := by
  have f1 := filterConns_spec L W1 ha
  have f2 := filterConns_spec L W2 hb
  have oa := L.net.strong_ok ha
  have ob := L.net.strong_ok hb
  cases excl with
  | true =>
    obtain ⟨x, h1, h2, _⟩ := W1.extTcp
    obtain ⟨q, hq⟩ := W1.six
    have ro : Ok (connsFilter N true a b) := L.net.strong_ok (L.net.rect_strong _ _ _)
    have n0 : N.K.mem q (connsFilter N true a b) = false := by
      rw [← Bool.not_eq_true, connsFilter_excl, if_pos rfl, mem_rect_some L.net, N.Q.mem_sub, hq]
      simp
    have nrel : ∀ t : Peers S, ¬ Relevant N t false x := fun t h => h.1 ⟨h1, Or.inl h2⟩
    have n1 : N.K.mem x (filterConns N.toNet c1.peers a) = false := by
      rw [← Bool.not_eq_true, f1.2]; exact fun h => nrel _ h.2
    have n2 : N.K.mem x (filterConns N.toNet c2.peers b) = false := by
      rw [← Bool.not_eq_true, f2.2]; exact fun h => nrel _ h.2
    have o1 := L.net.strong_ok f1.1
    have o2 := L.net.strong_ok f2.1
    exact X.canon_eq (L.net.and_ok o1 ro) (L.net.and_ok o2 ro) (X.canon_and o1 ro (Or.inr ⟨q, n0⟩) (Or.inr ⟨x, n1⟩))
      (X.canon_and o2 ro (Or.inr ⟨q, n0⟩) (Or.inr ⟨x, n2⟩)) h
  | false =>
    have hab := X.canon_eq oa ob ca cb (hsame.resolve_left (by simp))
    have hips : c1.peers.ips = c2.peers.ips := X.peers_ext (fun e => by rw [Bool.eq_iff_iff, W1.ips, W2.ips])
    have hd : c1.peers.dns = c2.peers.dns := X.peers_ext hdns
    have e : filterBoth N false c1 c2 a b = (filterConns N.toNet c1.peers a, filterConns N.toNet c2.peers b) := by
      simp only [filterBoth, connsFilter_excl, Bool.false_eq_true, if_false, L.and_all]
    rw [e]
    dsimp only
    unfold filterConns
    rw [← hips, ← hd]
    obtain ⟨y, hy1, hy2, _⟩ := W1.ext
    obtain ⟨w, hw⟩ := W1.work
    have r1 := L.net.rect_strong (some c1.peers.ips) (some (N.Q.or c1.peers.ips c1.peers.dns)) .any
    have w1 : Wide (N.rect (some c1.peers.ips) (some (N.Q.or c1.peers.ips c1.peers.dns)) .any) := by
      refine rect_wide L (p := y) (q := w) ?_ ?_
      · rw [mem_rect_some L.net]
        refine ⟨(W1.ips _).2 hy1, ?_, rfl⟩
        rw [N.Q.mem_or, (W1.ips _).2 hy2]; rfl
      · rw [← Bool.not_eq_true, W1.ips, (W1.work_ip hw).1]; simp
    exact X.sub_eq (L.sub_wide ha (L.net.strong_ok r1) (Or.inr w1)) (L.sub_wide hb (L.net.strong_ok r1) (Or.inr w1))
      (L.net.strong_ok (L.net.rect_strong _ _ _)) (X.sub_eq ha hb (L.net.strong_ok r1) hab)

end

/-! ### Hyper-cube sets -/

section
variable {D V X : Type} [DecidableEq D]

/-- The invariant of `ConnectivityProperties` objects, with their class. -/
def HcOkT (A : VAlg D V X) (Wf : D → V → Prop) (all : List D) (h : HC D V) : Prop := HcOk A Wf all h ∧ h.cls = true
def HcStrongT (A : VAlg D V X) (Wf : D → V → Prop) (all : List D) (h : HC D V) : Prop := HcStrong A Wf all h ∧ h.cls = true

theorem reduce_cls (A : VAlg D V X) (all : List D) (h : HC D V) : (HC.reduce A all h).cls = h.cls := by
  obtain ⟨c, act, t⟩ := h
  rw [(HC.reduce_recls A all c act t).2]

theorem hcNetQ_typed {A : VAlg D V X} {Wf : D → V → Prop} (L : A.Lawful Wf) {all : List D}
    {srcD dstD protD : D} {nil : V} (hnil : Wf srcD nil ∧ Wf dstD nil) (hn : ∀ x, A.mem x nil = false) {tcp nonTcp : V}
    (X' : PeerExtra A Wf srcD dstD) : (hcNetQ L all srcD dstD protD nil hnil hn tcp nonTcp X').Typed (fun h => h.cls = true) := by
  have hor : ∀ a b : HC D V, (HC.or A all a b).cls = a.cls := by
    intro a b
    unfold HC.or
    split
    · rfl
    · split
      · rfl
      · split
        · rfl
        · exact reduce_cls A all _
  refine ⟨rfl, rfl, fun s d k => ?_, fun {a b} h => (hor a b).trans h, fun {a b} h => ?_, fun {a b} h => ?_⟩
  · change (hcOfCube A all _).cls = true
    unfold hcOfCube
    split
    · rfl
    · dsimp only
      split
      · rfl
      · unfold HC.addCube
        split
        · rfl
        · exact hor _ _
  · change (HC.and A all a b).cls = true
    unfold HC.and
    split
    · exact h
    · split
      · exact h
      · split
        · exact h
        · exact (reduce_cls A all _).trans h
  · change (HC.sub A all a b).cls = true
    have h2 : (if b.isAll = true then HC.empty all a.cls else a).cls = true := by split <;> exact h
    unfold HC.sub
    dsimp only
    split
    · exact h2
    · exact (reduce_cls A all _).trans h2

/-- Hyper-cube sets satisfy the laws. -/
theorem hcNetQ_exact {A : VAlg D V X} {Wf : D → V → Prop} (L : A.Lawful Wf) {all : List D} (hnd : all.Nodup) (hall : all ≠ [])
    {srcD dstD protD : D} (h1 : srcD ∈ all) (h2 : dstD ∈ all) (h3 : protD ∈ all) (hsd : srcD ≠ dstD) (hsp : srcD ≠ protD)
    (hdp : dstD ≠ protD) {nil : V} (hnil : Wf srcD nil ∧ Wf dstD nil) (hn : ∀ x, A.mem x nil = false) {tcp nonTcp : V}
    (wt : Wf protD tcp) (wn : Wf protD nonTcp)
    (hpart : ∀ x, A.mem x (A.dom protD) = true → A.mem x nonTcp = !A.mem x tcp)
    (hhead : all.head? = some srcD) (X' : PeerExtra A Wf srcD dstD) :
    (hcNetQ L all srcD dstD protD nil hnil hn tcp nonTcp X').Lawful (HcOkT A Wf all) (HcStrongT A Wf all) (HcWide all) ∧
    (hcNetQ L all srcD dstD protD nil hnil hn tcp nonTcp X').Exact (HcOkT A Wf all) (HcStrongT A Wf all) (HC.Plain A) := by
  have base := (hcNetQ_lawful L hnd hall h1 h2 h3 hsd hsp hdp hnil hn wt wn hpart hhead X').typed (hcNetQ_typed L hnil hn X')
  have bn := base.net
  refine ⟨base, fun {a b} ha hb h1 h2 => ?_, fun {a b} ha hb ca cb h => ?_, fun {a b x} ha hb hx h => ?_, fun {s t} h => ?_⟩
  · refine HC.and_plain L hnd hall ha.1 hb.1 (fun h => h1.resolve_right ?_) (fun h => h2.resolve_right ?_)
    · rintro ⟨p, hp⟩
      have : HC.contains A b p.1 = false := hp
      rw [HC.contains, if_pos h] at this
      exact absurd this (by simp)
    · rintro ⟨p, hp⟩
      have : HC.contains A a p.1 = false := hp
      rw [HC.contains, if_pos h] at this
      exact absurd this (by simp)
  · refine HC.eq_of_plain L hnd ha.1 hb.1 ca cb (ha.2.trans hb.2.symm) (fun p hp => ?_)
    rw [← HC.contains_spec ha.1, ← HC.contains_spec hb.1]
    exact Bool.eq_iff_iff.1 (h ⟨p, hp⟩)
  · have oa := base.net.strong_ok ha
    have ob := base.net.strong_ok hb
    have sa := base.net.sub_ok ha hx
    have sb := base.net.sub_ok hb hx
    by_cases ht : a.truthy = true
    · exact (HC.sub_same L hnd oa.1 ob.1 hx.1 ht (HC.same_of_eq L oa.1 ob.1 ht h)).eq L sa.1 sb.1
    · have hno : ∀ p, (hcAlg A all).mem p a = false := by
        intro p
        rw [← Bool.not_eq_true]; intro hp
        exact ht ((base.net.truthy_iff oa).2 ⟨p, hp⟩)
      have hnb : ∀ p, (hcAlg A all).mem p b = false := fun p => by
        have := base.net.eq_sound oa ob h p
        exact this.symm.trans (hno p)
      have fa : HC.truthy (HC.sub A all a x) = false := by
        rw [← Bool.not_eq_true]; intro htr
        obtain ⟨p, hp⟩ := (base.net.truthy_iff sa).1 htr
        rw [base.net.mem_sub ha hx p, show (hcNetQ L all srcD dstD protD nil hnil hn tcp nonTcp X').K.mem p a = false from hno p] at hp
        exact absurd hp (by simp)
      have fb : HC.truthy (HC.sub A all b x) = false := by
        rw [← Bool.not_eq_true]; intro htr
        obtain ⟨p, hp⟩ := (base.net.truthy_iff sb).1 htr
        rw [base.net.mem_sub hb hx p, show (hcNetQ L all srcD dstD protD nil hnil hn tcp nonTcp X').K.mem p b = false from hnb p] at hp
        exact absurd hp (by simp)
      change HC.eq A (HC.sub A all a x) (HC.sub A all b x) = true
      have ca : (HC.sub A all a x).cls = true := sa.2
      have cb : (HC.sub A all b x).cls = true := sb.2
      unfold HC.eq
      rw [ca, cb, fa, fb]
      rfl
  · exact Subtype.ext (L.ext s.2.1 t.2.1 h)

end
end Verif
