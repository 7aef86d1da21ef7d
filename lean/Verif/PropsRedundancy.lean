import Verif.PropsQueries
/-!
C34: what the redundancy query reports may be removed, one at a time, without changing what the
configuration allows.
-/
namespace Verif

section
variable {C P E S : Type} {N : NetQ C P E S} {Ok Strong Wide Canon : C → Prop}

/-! ### Meaning -/

/-- `c'` is `c` with the policy removed. -/
structure Removal (c : Config C S) (pol : Policy C S) (c' : Config C S) : Prop where
  peers : c'.peers = c.peers
  services : c'.services = c.services
  store : PolicyStore.build (c.store.policies.filter (fun q => decide (q.key ≠ pol.key))) = some c'.store

/-- The policy without its rule number `i` (from 0) of a direction. -/
def Policy.dropRule (pol : Policy C S) (dir : Bool) (i : Nat) : Policy C S :=
  if dir then { pol with ingressRules := pol.ingressRules.eraseIdx i } else { pol with egressRules := pol.egressRules.eraseIdx i }

/-- The policies, one of them edited in place. -/
def editPolicy (ps : List (Policy C S)) (pol pol' : Policy C S) : List (Policy C S) := ps.map (fun q => if q.key = pol.key then pol' else q)

/-- `c'` is `c` with the policy edited. -/
structure Edit (c : Config C S) (pol pol' : Policy C S) (c' : Config C S) : Prop where
  peers : c'.peers = c.peers
  services : c'.services = c.services
  store : PolicyStore.build (editPolicy c.store.policies pol pol') = some c'.store

/-- No policy of the same Python class and another type has the name (for instance a Calico profile and
a global policy). -/
def NoTwin (c : Config C S) (pol : Policy C S) : Prop :=
  ∀ q ∈ c.store.policies, q.name = pol.name → q.kind.cls = pol.kind.cls → q.kind = pol.kind

/-- Authorization policies have no egress rules, sidecars no ingress rules. -/
def Policy.Shaped (pol : Policy C S) : Prop :=
  (pol.kind = .istioAuthz → pol.egressRules = []) ∧ (pol.kind = .istioSidecar → pol.ingressRules = [])

/-- The code tells the rule from the other rules of its policy. -/
def OnlyRule (N : NetQ C P E S) (pol : Policy C S) (dir : Bool) (i : Nat) : Prop :=
  ∀ r, (pol.rules dir)[i]? = some r → ∀ j s, (pol.rules dir)[j]? = some s → ruleEq N pol.kind s r = true → j = i

/-- Policies whose rules may come in any order and are compared by their connections. -/
def PolicyKind.unordered : PolicyKind → Prop
  | .k8s | .istioAuthz | .ingress | .gateway => True
  | _ => False

/-! ### Equality of policies -/

theorem policyConns_ok (L : N.Lawful Ok Strong Wide) {pol : Policy C S} (hl : pol.Legal N.toNet Strong) (hx : SubExact Ok Strong [pol]) (dir : Bool) :
    Ok (policyConns N.toNet pol dir).allowed ∧ Ok (policyConns N.toNet pol dir).denied ∧ Ok (policyConns N.toNet pol dir).pass := by
  have he : Ok N.K.empty := L.net.strong_ok L.net.empty_strong
  by_cases hs : pol.governs dir = true
  · have r := policyConns_rel L.net pol hl hx dir hs
    exact ⟨L.net.strong_ok r.sa, L.net.strong_ok r.sd, L.net.strong_ok r.sp⟩
  · obtain ⟨name, kind, order, action, sel, ai, ae, ir, er⟩ := pol
    let pol' : Policy C S := ⟨name, kind, order, action, sel, true, true, ir, er⟩
    have hl' : pol'.Legal N.toNet Strong := ⟨hl.strong, hl.selected⟩
    have hx' : SubExact Ok Strong [pol'] := by
      refine Or.imp id (fun (h : NoPass _) => ?_) hx
      intro q hq hc dir r hr
      have hq' : q = pol' := by simpa using hq
      subst hq'
      exact h _ (List.mem_singleton.2 rfl) hc dir r hr
    have key : pol'.governs dir = true → Ok (policyConns N.toNet pol' dir).allowed ∧ Ok (policyConns N.toNet pol' dir).denied ∧ Ok (policyConns N.toNet pol' dir).pass :=
      fun hg => by
        have r := policyConns_rel L.net pol' hl' hx' dir hg
        exact ⟨L.net.strong_ok r.sa, L.net.strong_ok r.sd, L.net.strong_ok r.sp⟩
    cases kind
    case istioAuthz =>
      cases dir
      · exact ⟨he, he, he⟩
      · exact absurd rfl hs
    case istioSidecar =>
      cases dir
      · exact key rfl
      · exact ⟨L.net.strong_ok (L.net.rect_strong _ _ _), he, he⟩
    all_goals
      have hg : pol'.governs dir = true := by cases dir <;> rfl
      first
        | exact key hg
        | (cases action <;> exact key hg)

theorem rulesEq_refl (L : N.Lawful Ok Strong Wide) (k : PolicyKind) : ∀ rs : List (Rule C), (∀ r ∈ rs, Ok r.props) → rulesEq N k rs rs = true := by
  intro rs
  induction rs with
  | nil => intro _; rfl
  | cons r rs ih =>
    intro h
    rw [rulesEq, Bool.and_eq_true]
    refine ⟨?_, ih (fun s hs => h s (by simp [hs]))⟩
    have := L.eq_refl (h r (by simp))
    unfold ruleEq
    cases k <;> simp [this]

theorem ruleEq_refl (L : N.Lawful Ok Strong Wide) (k : PolicyKind) {r : Rule C} (h : Ok r.props) : ruleEq N k r r = true := by
  have := L.eq_refl h
  unfold ruleEq
  cases k <;> simp [this]

theorem rulesEq_length (k : PolicyKind) : ∀ {rs ss : List (Rule C)}, rulesEq N k rs ss = true → rs.length = ss.length
  | [], [], _ => rfl
  | r :: rs, s :: ss, h => by
    rw [rulesEq, Bool.and_eq_true] at h
    simp [rulesEq_length k h.2]
  | [], _ :: _, h => by simp [rulesEq] at h
  | _ :: _, [], h => by simp [rulesEq] at h

theorem policyEq_refl (L : N.Lawful Ok Strong Wide) {pol : Policy C S} (hl : pol.Legal N.toNet Strong) (hx : SubExact Ok Strong [pol]) :
    policyEq N pol pol = true := by
  have hp : peersEq N pol.selected pol.selected = true := (peersEq_iff _ _).2 (fun _ => rfl)
  have h1 := rulesEq_refl L pol.kind pol.ingressRules (fun r hr => L.net.strong_ok (hl.strong true r hr))
  have h2 := rulesEq_refl L pol.kind pol.egressRules (fun r hr => L.net.strong_ok (hl.strong false r hr))
  have hs : ∀ dir, syncedEq N pol pol dir = true := by
    intro dir
    obtain ⟨a, b, c⟩ := policyConns_ok L hl hx dir
    unfold syncedEq
    rw [L.eq_refl a, L.eq_refl b, L.eq_refl c]; rfl
  unfold policyEq
  rw [hp, h1, h2, hs, hs]
  cases pol.kind <;> simp

theorem Config.Good.legal1 {c : Config C S} (G : c.Good N Ok Strong) {pol : Policy C S} (h : pol ∈ c.store.policies) :
    pol.Legal N.toNet Strong ∧ SubExact Ok Strong [pol] :=
  ⟨G.legal.legal pol h, G.legal.exact.mono (by simpa using h)⟩

theorem eq_iff_key (L : N.Lawful Ok Strong Wide) {c : Config C S} (G : c.Good N Ok Strong) {pol q : Policy C S} (hp : pol ∈ c.store.policies)
    (hq : q ∈ c.store.policies) (ht : NoTwin c pol) : policyEq N q pol = true ↔ q.key = pol.key := by
  constructor
  · intro h
    unfold policyEq at h
    simp only [Bool.and_eq_true, decide_eq_true_eq] at h
    have h1 := h.1.1.1.1.1.1.1.1.1
    have h2 := h.1.1.1.1.1.1.1.1.2
    unfold Policy.key
    rw [h2, ht q hq h2 h1]
  · intro h
    have : q = pol := List.inj_on_of_nodup_map (keys_nodup G.built) hq hp h
    subst this
    exact policyEq_refl L (G.legal1 hq).1 (G.legal1 hq).2

theorem filter_key (L : N.Lawful Ok Strong Wide) {c : Config C S} (G : c.Good N Ok Strong) {pol : Policy C S} (hp : pol ∈ c.store.policies)
    (ht : NoTwin c pol) :
    c.store.policies.filter (fun q => !policyEq N q pol) = c.store.policies.filter (fun q => decide (q.key ≠ pol.key)) := by
  refine List.filter_congr (fun q hq => ?_)
  have := eq_iff_key L G hp hq ht
  by_cases hk : q.key = pol.key
  · simp [hk, this.2 hk]
  · have hf : policyEq N q pol = false := by
      rw [← Bool.not_eq_true]
      exact fun h => hk (this.1 h)
    simp [hk, hf]

/-! ### Configurations with parts of the policies -/

/-- `q` is `p` with part of its rules. -/
structure PartOf (q p : Policy C S) : Prop where
  key : q.key = p.key
  order : q.order = p.order
  action : q.action = p.action
  selected : q.selected = p.selected
  ingress : q.affectsIngress = p.affectsIngress
  egress : q.affectsEgress = p.affectsEgress
  rules : ∀ dir, ∀ r ∈ q.rules dir, r ∈ p.rules dir

theorem PartOf.refl (p : Policy C S) : PartOf p p := ⟨rfl, rfl, rfl, rfl, rfl, rfl, fun _ _ h => h⟩

theorem PartOf.kind {q p : Policy C S} (h : PartOf q p) : q.kind = p.kind := congrArg Prod.snd h.key

theorem PartOf.captures {q p : Policy C S} (h : PartOf q p) (dir : Bool) (e : E) : q.captures N.toNet dir e = p.captures N.toNet dir e := by
  unfold Policy.captures Policy.governs
  rw [h.kind, h.selected, h.ingress, h.egress]

theorem Config.Good.parts {c : Config C S} (G : c.Good N Ok Strong) {qs : List (Policy C S)} {c' : Config C S} (hpe : c'.peers = c.peers)
    (hb : PolicyStore.build qs = some c'.store) (h : ∀ q ∈ qs, ∃ p ∈ c.store.policies, PartOf q p) : c'.Good N Ok Strong ∧ c'.store.policies = qs := by
  have hB := build_built _ hb
  have hp := hB.policies
  refine ⟨⟨by rw [hp]; exact hb, ⟨?_, ?_⟩, by rw [hpe]; exact G.world, ?_, ?_, ?_⟩, hp⟩
  · rw [hp]
    intro q hq
    obtain ⟨p, hpm, k⟩ := h q hq
    have hl := G.legal.legal p hpm
    exact ⟨fun dir r hr => hl.strong dir r (k.rules dir r hr), fun dir r hr x hx => by rw [k.selected]; exact hl.selected dir r (k.rules dir r hr) x hx⟩
  · rw [hp]
    refine G.legal.exact.imp id (fun hn q hq hc dir r hr => ?_)
    obtain ⟨p, hpm, k⟩ := h q hq
    exact hn p hpm (by unfold Policy.isCalico at hc ⊢; rw [← k.kind]; exact hc) dir r (k.rules dir r hr)
  · rw [hp, hpe]
    intro q hq dir r hr x hx
    obtain ⟨p, hpm, k⟩ := h q hq
    exact G.within p hpm dir r (k.rules dir r hr) x hx
  · rw [hp, hpe]
    intro q hq e he
    obtain ⟨p, hpm, k⟩ := h q hq
    exact G.selects p hpm e (by rw [← k.selected]; exact he)
  · intro n x
    rw [hpe]
    have hopen : SomeOpen N.toNet (layerList c.store.layers n) c.peers → SomeOpen N.toNet (layerList c'.store.layers n) c.peers := by
      rintro ⟨e, he, ho⟩
      refine ⟨e, he, fun q hq hr => ?_⟩
      obtain ⟨h1, h2⟩ := (hB.mem_list n q).1 hq
      obtain ⟨p, hpm, k⟩ := h q h1
      rw [k.captures]
      refine ho p ((G.B.mem_list n p).2 ⟨hpm, by rw [← k.kind]; exact h2⟩) ?_
      unfold Policy.restricts at hr ⊢
      rw [← k.kind, ← k.action]; exact hr
    have := G.dns n x
    cases n
    case k8sCalico | k8sGateway => trivial
    case istio | istioGateway => exact this.imp hopen id

/-- What changes in one layer only. -/
theorem allows_of_layer {c1 c2 : Config C S} (G1 : c1.Good N Ok Strong) (G2 : c2.Good N Ok Strong) (hpe : c2.peers = c1.peers) {n : LayerName}
    (hk : ∀ k, k ≠ n → c1.store.policies.filter (fun q => decide (layerOf q.kind = k)) = c2.store.policies.filter (fun q => decide (layerOf q.kind = k)))
    (hn1 : ∃ q ∈ c1.store.policies, layerOf q.kind = n) (hn2 : ∃ q ∈ c2.store.policies, layerOf q.kind = n) {p : P}
    (h : c1.allowsIn N (some n) p ↔ c2.allowsIn N (some n) p) : c1.allowsIn N none p ↔ c2.allowsIn N none p := by
  change configAllows N.toNet c1.peers c1.store.layers p ↔ configAllows N.toNet c2.peers c2.store.layers p
  unfold configAllows
  rw [G1.B.effective c1.peers (fun n a => layerAllows N.toNet n a c1.peers p), G2.B.effective c2.peers (fun n a => layerAllows N.toNet n a c2.peers p), hpe]
  have hlist : ∀ k, k ≠ n → layerList c1.store.layers k = layerList c2.store.layers k := by
    intro k hkn
    rw [G1.B.lists, G2.B.lists, hk k hkn]
  have hall : ∀ k, layerAllows N.toNet k (layerList c1.store.layers k) c1.peers p ↔ layerAllows N.toNet k (layerList c2.store.layers k) c1.peers p := by
    intro k
    by_cases hkn : k = n
    · subst hkn
      have h' : layerAllows N.toNet k (layerList c1.store.layers k) c1.peers p ↔ layerAllows N.toNet k (layerList c2.store.layers k) c2.peers p := h
      rw [hpe] at h'
      exact h'
    · rw [hlist k hkn]
  have hpres : ∀ k, Present N.toNet c1.store.policies c1.peers k ↔ Present N.toNet c2.store.policies c1.peers k := by
    intro k
    have hne1 : c1.store.policies ≠ [] := by rintro h0; rw [h0] at hn1; obtain ⟨q, hq, _⟩ := hn1; simp at hq
    have hne2 : c2.store.policies ≠ [] := by rintro h0; rw [h0] at hn2; obtain ⟨q, hq, _⟩ := hn2; simp at hq
    have hex : (∃ q ∈ c1.store.policies, layerOf q.kind = k) ↔ (∃ q ∈ c2.store.policies, layerOf q.kind = k) := by
      by_cases hkn : k = n
      · subst hkn; exact ⟨fun _ => hn2, fun _ => hn1⟩
      · rw [← G1.B.list_ne k, ← G2.B.list_ne k, hlist k hkn]
    unfold Present
    rw [hex]
    simp [hne1, hne2]
  simp only [hpres, hall]

theorem mapM_some {α β : Type} {f : α → Option β} {g : α → β} : ∀ {l : List α}, (∀ x ∈ l, f x = some (g x)) → l.mapM f = some (l.map g) := by
  intro l
  induction l with
  | nil => intro _; rfl
  | cons x l ih =>
    intro h
    rw [List.mapM_cons, h x (by simp), ih (fun y hy => h y (by simp [hy]))]
    rfl

theorem mem_trueIdx : ∀ (l : List Bool) (i k : Nat), k ∈ trueIdx i l ↔ ∃ j, l[j]? = some true ∧ k = i + j := by
  intro l
  induction l with
  | nil => intro i k; simp [trueIdx]
  | cons b l ih =>
    intro i k
    have hrec : k ∈ trueIdx (i + 1) l ↔ ∃ j, (b :: l)[j + 1]? = some true ∧ k = i + (j + 1) := by
      rw [ih]
      refine exists_congr fun j => ?_
      rw [List.getElem?_cons_succ]
      constructor <;> rintro ⟨h1, h2⟩ <;> exact ⟨h1, by omega⟩
    have hsplit : (∃ j, (b :: l)[j]? = some true ∧ k = i + j) ↔ (b = true ∧ k = i) ∨ ∃ j, (b :: l)[j + 1]? = some true ∧ k = i + (j + 1) := by
      constructor
      · rintro ⟨j, h1, h2⟩
        cases j with
        | zero => exact Or.inl ⟨by simpa using h1, by omega⟩
        | succ j => exact Or.inr ⟨j, h1, h2⟩
      · rintro (⟨h1, h2⟩ | ⟨j, h1, h2⟩)
        · exact ⟨0, by simp [h1], by omega⟩
        · exact ⟨j + 1, h1, h2⟩
    rw [hsplit, ← hrec]
    rw [show trueIdx i (b :: l) = if b then i :: trueIdx (i + 1) l else trueIdx (i + 1) l from rfl]
    cases b <;> simp

/-! ### Policies -/

theorem Removal.good {c c' : Config C S} {pol : Policy C S} (R : Removal c pol c') (G : c.Good N Ok Strong) :
    c'.Good N Ok Strong ∧ c'.store.policies = c.store.policies.filter (fun q => decide (q.key ≠ pol.key)) :=
  G.parts R.peers R.store (fun q hq => ⟨q, (List.mem_filter.1 hq).1, PartOf.refl q⟩)

theorem withoutPolicy_spec (L : N.Lawful Ok Strong Wide) {c : Config C S} (G : c.Good N Ok Strong) {pol : Policy C S}
    (hp : pol ∈ c.store.policies) (ht : NoTwin c pol) : ∃ c', c.withoutPolicy N pol = some c' ∧ Removal c pol c' := by
  obtain ⟨c', h1, _, h3, h4, h5⟩ := withPolicies_part G (ps := c.store.policies.filter (fun q => !policyEq N q pol)) List.filter_sublist
  refine ⟨c', h1, h3, h4, ?_⟩
  rw [← filter_key L G hp ht]
  unfold Config.withPolicies at h1
  cases hb : PolicyStore.build (c.store.policies.filter (fun q => !policyEq N q pol)) with
  | none => rw [hb] at h1; simp at h1
  | some st =>
    rw [hb] at h1
    simp only [Option.map_some, Option.some.injEq] at h1
    rw [← h1]

theorem Removal.unique {c c1 c2 : Config C S} {pol : Policy C S} (h1 : Removal c pol c1) (h2 : Removal c pol c2) : c1 = c2 := by
  obtain ⟨p1, s1, st1⟩ := c1
  obtain ⟨p2, s2, st2⟩ := c2
  have a := h1.peers; have b := h2.peers
  have d := h1.services; have e := h2.services
  have f := h1.store; have g := h2.store
  rw [f] at g
  simp_all

theorem Config.Good.nodup {c : Config C S} (G : c.Good N Ok Strong) (n : LayerName) : (layerList c.store.layers n).Nodup := by
  rw [G.B.lists, (foldl_insort_perm _ _).nodup_iff]
  simp only [List.append_nil, List.nil_append]
  exact (List.Nodup.of_map _ (keys_nodup G.built)).filter _

theorem other_in_layer {c : Config C S} (G : c.Good N Ok Strong) {n : LayerName} {pol : Policy C S} (h2 : 1 < (layerList c.store.layers n).length) :
    ∃ q ∈ layerList c.store.layers n, q ≠ pol := by
  by_contra hno
  have hall : ∀ q ∈ layerList c.store.layers n, q = pol := fun q hq => by
    by_contra h; exact hno ⟨q, hq, h⟩
  have hnd := G.nodup n
  rw [List.eq_replicate_of_mem hall, List.nodup_replicate] at hnd
  omega

theorem Removal.facts {c c' : Config C S} {pol : Policy C S} (R : Removal c pol c') (G : c.Good N Ok Strong) {n : LayerName}
    (hp : pol ∈ layerList c.store.layers n) (h2 : 1 < (layerList c.store.layers n).length) :
    policiesEq N c.store.policies c'.store.policies = false ∧ SameTopology N c c' ∧
    ∀ p, (c.allowsIn N (some n) p ↔ c'.allowsIn N (some n) p) → (c.allowsIn N none p ↔ c'.allowsIn N none p) := by
  obtain ⟨hp1, hp2⟩ := (G.B.mem_list n pol).1 hp
  obtain ⟨G', hps⟩ := R.good G
  refine ⟨?_, ?_, fun p h => allows_of_layer G G' R.peers (n := n) ?_ ⟨pol, hp1, hp2⟩ ?_ h⟩
  · rw [← Bool.not_eq_true]
    intro h
    unfold policiesEq at h
    rw [Bool.and_eq_true, decide_eq_true_eq, hps] at h
    have := List.length_filter_lt_length_iff_exists (p := fun q : Policy C S => decide (q.key ≠ pol.key)) (l := c.store.policies)
    have hlt := this.2 ⟨pol, hp1, by simp⟩
    omega
  · refine ⟨?_, ?_, ?_, ?_⟩ <;> simp [R.peers, R.services]
  · intro k hk
    rw [hps, List.filter_filter]
    refine List.filter_congr (fun q hq => ?_)
    by_cases hl : layerOf q.kind = k
    · have : q.key ≠ pol.key := by
        intro he
        apply hk
        have hkk : q.kind = pol.kind := congrArg Prod.snd he
        rw [← hl, hkk, hp2]
      simp [hl, this]
    · simp [hl]
  · obtain ⟨q, hq, hne⟩ := other_in_layer G (pol := pol) h2
    obtain ⟨hq1, hq2⟩ := (G.B.mem_list n q).1 hq
    refine ⟨q, ?_, hq2⟩
    rw [hps, List.mem_filter]
    refine ⟨hq1, ?_⟩
    rw [decide_eq_true_eq]
    exact fun he => hne (List.inj_on_of_nodup_map (keys_nodup G.built) hq1 hp1 he)

/-- The policies `redundant_policies` finds. -/
theorem redundantPolicies_spec (L : N.Lawful Ok Strong Wide) (excl : Bool) {c : Config C S} (G : c.Good N Ok Strong) (n : LayerName)
    (ht : ∀ pol ∈ c.store.policies, NoTwin c pol) :
    ∃ rs, redundantPolicies N excl c (layerList c.store.layers n) n = some rs ∧
      ∀ name, name ∈ rs ↔ 1 < (layerList c.store.layers n).length ∧ ∃ pol ∈ layerList c.store.layers n, pol.name = name ∧
        ∀ c', Removal c pol c' → (equivQuery N excl (some n) c c').bool = true := by
  by_cases h2 : 1 < (layerList c.store.layers n).length
  · have hf : ∀ pol ∈ layerList c.store.layers n,
        (c.withoutPolicy N pol).map (fun c' => (pol.name, (equivQuery N excl (some n) c c').bool)) =
        some (pol.name, (equivQuery N excl (some n) c ((c.withoutPolicy N pol).getD c)).bool) := by
      intro pol hp
      obtain ⟨hp1, _⟩ := (G.B.mem_list n pol).1 hp
      obtain ⟨c', h, _⟩ := withoutPolicy_spec L G hp1 (ht pol hp1)
      rw [h]; rfl
    refine ⟨_, by unfold redundantPolicies; rw [if_pos h2, mapM_some hf]; rfl, fun name => ?_⟩
    simp only [List.mem_dedup, List.mem_map, List.mem_filter, h2, true_and]
    constructor
    · rintro ⟨e, ⟨⟨pol, hp, rfl⟩, hb⟩, rfl⟩
      refine ⟨pol, hp, rfl, fun c' R => ?_⟩
      obtain ⟨hp1, _⟩ := (G.B.mem_list n pol).1 hp
      obtain ⟨c1, h, R1⟩ := withoutPolicy_spec L G hp1 (ht pol hp1)
      rw [R.unique R1]
      rw [h] at hb
      exact hb
    · rintro ⟨pol, hp, rfl, hb⟩
      obtain ⟨hp1, _⟩ := (G.B.mem_list n pol).1 hp
      obtain ⟨c1, h, R1⟩ := withoutPolicy_spec L G hp1 (ht pol hp1)
      refine ⟨_, ⟨⟨pol, hp, rfl⟩, ?_⟩, rfl⟩
      rw [h]
      exact hb c1 R1
  · refine ⟨[], by unfold redundantPolicies; rw [if_neg h2], fun name => ?_⟩
    simp [h2]

/-- C34, policies: for every name reported there is a policy of that name whose removal does not change
what the configuration allows; and a policy whose layer allows the same without it is reported.
Full statement: without `ht` (no profile and global policy share a name), `hirr` and the restrictions of
`Config.Good`.  Missing: policies of different types that share a name are reported under that name, so
that the name may belong to a policy that is not redundant, `C34_same_name_wrong`. -/
theorem C34_policy_partial (L : N.Lawful Ok Strong Wide) (excl : Bool) {c : Config C S} (G : c.Good N Ok Strong) (n : LayerName)
    (ht : ∀ pol ∈ c.store.policies, NoTwin c pol) :
    ∃ rs, redundantPolicies N excl c (layerList c.store.layers n) n = some rs ∧
      (∀ name ∈ rs, ∃ pol ∈ layerList c.store.layers n, pol.name = name ∧
        (∃ c', Removal c pol c') ∧ ∀ c', Removal c pol c' → SameAllowed N excl none c c') ∧
      (N.Exact Ok Strong Canon → excl = true → 1 < (layerList c.store.layers n).length → ∀ pol ∈ layerList c.store.layers n,
        (∀ c', Removal c pol c' → SameAllowed N excl (some n) c c') → pol.name ∈ rs) := by
  obtain ⟨rs, h, hrs⟩ := redundantPolicies_spec L excl G n ht
  refine ⟨rs, h, fun name hm => ?_, fun X he h2 pol hp hs => ?_⟩
  · obtain ⟨h2, pol, hp, hn, hq⟩ := (hrs name).1 hm
    obtain ⟨hp1, _⟩ := (G.B.mem_list n pol).1 hp
    obtain ⟨c1, _, R1⟩ := withoutPolicy_spec L G hp1 (ht pol hp1)
    refine ⟨pol, hp, hn, ⟨c1, R1⟩, fun c' R => ?_⟩
    obtain ⟨f1, _, f3⟩ := R.facts (N := N) G hp h2
    have := equiv_sound L excl (some n) G (R.good G).1 (fun h => by simp at h) (fun h => by rw [f1] at h; simp at h) (hq c' R)
    exact fun p hr => f3 p (this p hr)
  · refine (hrs _).2 ⟨h2, pol, hp, rfl, fun c' R => ?_⟩
    obtain ⟨f1, f2, _⟩ := R.facts (N := N) G hp h2
    exact (equiv_exact L X excl (some n) G (R.good G).1 (fun h => by simp at h) (fun h => by rw [f1] at h; simp at h) (Or.inl he) f2).2 (hs c' R)

/-! ### Rules -/

theorem rules_eq (pol : Policy C S) (dir : Bool) : pol.dirRules dir = pol.rules dir := rfl

theorem dropRule_rules (pol : Policy C S) (dir : Bool) (i : Nat) :
    (pol.dropRule dir i).rules dir = (pol.rules dir).eraseIdx i ∧ (pol.dropRule dir i).rules (!dir) = pol.rules (!dir) := by
  cases dir <;> exact ⟨rfl, rfl⟩

theorem dropRule_part (pol : Policy C S) (dir : Bool) (i : Nat) : PartOf (pol.dropRule dir i) pol := by
  cases dir
  · refine ⟨rfl, rfl, rfl, rfl, rfl, rfl, fun d r hr => ?_⟩
    cases d
    · exact List.mem_of_mem_eraseIdx hr
    · exact hr
  · refine ⟨rfl, rfl, rfl, rfl, rfl, rfl, fun d r hr => ?_⟩
    cases d
    · exact hr
    · exact List.mem_of_mem_eraseIdx hr

/-- Filtering out what equals one element, and nothing else, removes it. -/
theorem filter_eraseIdx {α : Type} (f : α → Bool) : ∀ (l : List α) (i : Nat) (x : α), l[i]? = some x → f x = false →
    (∀ j y, l[j]? = some y → f y = false → j = i) → l.filter f = l.eraseIdx i := by
  intro l
  induction l with
  | nil => intro i x h; simp at h
  | cons a l ih =>
    intro i x hx hf ho
    cases i with
    | zero =>
      simp only [List.getElem?_cons_zero, Option.some.injEq] at hx
      subst hx
      rw [List.filter_cons_of_neg (by simp [hf]), List.eraseIdx_cons_zero, List.filter_eq_self]
      intro y hy
      obtain ⟨j, hj⟩ := List.getElem?_of_mem hy
      by_contra hn
      have := ho (j + 1) y (by simpa using hj) (by simpa using hn)
      omega
    | succ i =>
      simp only [List.getElem?_cons_succ] at hx
      have ha : f a = true := by
        by_contra hn
        have := ho 0 a rfl (by simpa using hn)
        omega
      rw [List.filter_cons_of_pos ha, List.eraseIdx_cons_succ, ih i x hx hf]
      intro j y hj hy
      have := ho (j + 1) y (by simpa using hj) hy
      omega

/-- Fewer are left if two are filtered out. -/
theorem filter_two {α : Type} (f : α → Bool) : ∀ (l : List α) (i j : Nat) (x y : α), l[i]? = some x → l[j]? = some y → f x = false → f y = false →
    i ≠ j → (l.filter f).length + 1 < l.length := by
  have one : ∀ (l : List α) (i : Nat) (x : α), l[i]? = some x → f x = false → (l.filter f).length < l.length := by
    intro l i x h hf
    exact List.length_filter_lt_length_iff_exists.2 ⟨x, List.mem_of_getElem? h, by simp [hf]⟩
  intro l
  induction l with
  | nil => intro i j x y h; simp at h
  | cons a l ih =>
    intro i j x y hx hy fx fy hij
    cases i with
    | zero =>
      cases j with
      | zero => exact absurd rfl hij
      | succ j =>
        simp only [List.getElem?_cons_zero, Option.some.injEq] at hx
        simp only [List.getElem?_cons_succ] at hy
        subst hx
        rw [List.filter_cons_of_neg (by simp [fx])]
        have := one l j y hy fy
        simp only [List.length_cons]; omega
    | succ i =>
      simp only [List.getElem?_cons_succ] at hx
      cases j with
      | zero =>
        simp only [List.getElem?_cons_zero, Option.some.injEq] at hy
        subst hy
        rw [List.filter_cons_of_neg (by simp [fy])]
        have := one l i x hx fx
        simp only [List.length_cons]; omega
      | succ j =>
        simp only [List.getElem?_cons_succ] at hy
        have := ih i j x y hx hy fx fy (by omega)
        rw [List.filter_cons]
        split <;> simp only [List.length_cons] <;> omega

theorem withoutRule_rules {pol : Policy C S} (hsh : pol.Shaped) {dir : Bool} {r : Rule C} (hr : r ∈ pol.rules dir) :
    (pol.withoutRule N r dir).dirRules dir = (pol.rules dir).filter (fun s => !ruleEq N pol.kind s r) ∧
    (∀ i, (pol.rules dir).filter (fun s => !ruleEq N pol.kind s r) = (pol.rules dir).eraseIdx i → pol.withoutRule N r dir = pol.dropRule dir i) := by
  obtain ⟨name, kind, order, action, sel, ai, ae, ir, er⟩ := pol
  cases kind
  case istioAuthz =>
    have he : er = [] := hsh.1 rfl
    subst he
    cases dir
    · simp [Policy.rules] at hr
    · refine ⟨rfl, fun i h => ?_⟩
      simp only [Policy.rules, if_true] at h
      simp only [Policy.withoutRule, Policy.dropRule, if_true, h]
  case istioSidecar =>
    have he : ir = [] := hsh.2 rfl
    subst he
    cases dir
    · refine ⟨rfl, fun i h => ?_⟩
      simp only [Policy.rules, Bool.false_eq_true, if_false] at h
      simp only [Policy.withoutRule, Policy.dropRule, Bool.false_eq_true, if_false, h]
    · simp [Policy.rules] at hr
  all_goals
    cases dir
    · refine ⟨rfl, fun i h => ?_⟩
      simp only [Policy.rules, Bool.false_eq_true, if_false] at h
      simp only [Policy.withoutRule, Policy.dropRule, Bool.false_eq_true, if_false, h]
    · refine ⟨rfl, fun i h => ?_⟩
      simp only [Policy.rules, if_true] at h
      simp only [Policy.withoutRule, Policy.dropRule, if_true, h]

theorem Edit.good {c c' : Config C S} {pol pol' : Policy C S} (R : Edit c pol pol' c') (G : c.Good N Ok Strong) (hp : pol ∈ c.store.policies)
    (hk : PartOf pol' pol) : c'.Good N Ok Strong ∧ c'.store.policies = editPolicy c.store.policies pol pol' := by
  refine G.parts R.peers R.store (fun q hq => ?_)
  obtain ⟨a, ha, rfl⟩ := List.mem_map.1 hq
  by_cases he : a.key = pol.key
  · rw [if_pos he]; exact ⟨pol, hp, hk⟩
  · rw [if_neg he]; exact ⟨a, ha, PartOf.refl a⟩

theorem edit_keys {ps : List (Policy C S)} {pol pol' : Policy C S} (hk : pol'.key = pol.key) : (editPolicy ps pol pol').map Policy.key = ps.map Policy.key := by
  unfold editPolicy
  rw [List.map_map]
  refine List.map_congr_left (fun q _ => ?_)
  by_cases he : q.key = pol.key
  · simp [he, hk]
  · simp [he]

theorem build_of_keys {ps qs : List (Policy C S)} (h : ps.map Policy.key = qs.map Policy.key) {st : PolicyStore C S} (hb : PolicyStore.build qs = some st) :
    ∃ st', PolicyStore.build ps = some st' := by
  rw [build_some_iff]
  have := keys_nodup hb
  rw [← h] at this
  unfold List.Nodup at this
  rw [List.pairwise_map] at this
  refine this.imp ?_
  intro a b hab he
  exact hab (by unfold Policy.key; rw [he.1, he.2])

theorem edit_exists {c : Config C S} (G : c.Good N Ok Strong) {pol pol' : Policy C S} (hk : pol'.key = pol.key) : ∃ c', Edit c pol pol' c' := by
  obtain ⟨st, h⟩ := build_of_keys (edit_keys hk) G.built
  exact ⟨{ c with store := st }, rfl, rfl, h⟩

theorem PolSame.refl (p : Policy C S) : PolSame N p p := ⟨rfl, rfl, fun _ => rfl, fun _ _ => rfl, fun _ _ => rfl⟩

theorem mem_edit {ps : List (Policy C S)} {pol pol' : Policy C S} (hp : pol ∈ ps) (q : Policy C S) :
    q ∈ editPolicy ps pol pol' ↔ q = pol' ∨ (q ∈ ps ∧ q.key ≠ pol.key) := by
  unfold editPolicy
  rw [List.mem_map]
  constructor
  · rintro ⟨a, ha, rfl⟩
    by_cases he : a.key = pol.key
    · rw [if_pos he]; exact Or.inl rfl
    · rw [if_neg he]; exact Or.inr ⟨ha, he⟩
  · rintro (rfl | ⟨h1, h2⟩)
    · exact ⟨pol, hp, if_pos rfl⟩
    · exact ⟨q, h1, if_neg h2⟩

/-- What an edit changes is seen in the layer of the policy. -/
theorem Edit.facts {c c' : Config C S} {pol pol' : Policy C S} (R : Edit c pol pol' c') (G : c.Good N Ok Strong) {n : LayerName}
    (hp : pol ∈ layerList c.store.layers n) (hk : PartOf pol' pol) :
    SameTopology N c c' ∧
    ∀ p, (c.allowsIn N (some n) p ↔ c'.allowsIn N (some n) p) → (c.allowsIn N none p ↔ c'.allowsIn N none p) := by
  obtain ⟨hp1, hp2⟩ := (G.B.mem_list n pol).1 hp
  obtain ⟨G', hps⟩ := R.good G hp1 hk
  refine ⟨?_, fun p h => allows_of_layer G G' R.peers (n := n) ?_ ⟨pol, hp1, hp2⟩ ?_ h⟩
  · refine ⟨?_, ?_, ?_, ?_⟩ <;> simp [R.peers, R.services]
  · intro k hkn
    rw [hps]
    unfold editPolicy
    generalize c.store.policies = l
    induction l with
    | nil => rfl
    | cons a l ih =>
      rw [List.map_cons, List.filter_cons, List.filter_cons, ih]
      by_cases he : a.key = pol.key
      · have h1 : layerOf a.kind ≠ k := by
          have : a.kind = pol.kind := congrArg Prod.snd he
          rw [this, hp2]; exact hkn.symm
        have h2 : layerOf pol'.kind ≠ k := by rw [hk.kind, hp2]; exact hkn.symm
        simp [he, h1, h2]
      · simp [he]
  · exact ⟨pol', by rw [hps]; exact (mem_edit hp1 _).2 (Or.inl rfl), by rw [hk.kind]; exact hp2⟩

/-- The clone examined by `find_redundant_rules`: the policy is edited and moved to the end. -/
theorem moved_spec (L : N.Lawful Ok Strong Wide) {c : Config C S} (G : c.Good N Ok Strong) {n : LayerName} {pol pol' : Policy C S}
    (hp : pol ∈ layerList c.store.layers n) (ht : NoTwin c pol) (hk : PartOf pol' pol)
    {dir : Bool} (hlen : (pol'.rules dir).length < (pol.rules dir).length) {c' : Config C S} (R : Edit c pol pol' c')
    (ho : OrderFree N (editPolicy c.store.policies pol pol')) :
    ∃ d, c.withPolicies (c.store.policies.filter (fun q => !policyEq N q pol) ++ [pol']) = some d ∧ d.Good N Ok Strong ∧ SameTopology N c d ∧
      policiesEq N c.store.policies d.store.policies = false ∧ d.peers = c.peers ∧
      ∀ p, c'.allowsIn N (some n) p ↔ d.allowsIn N (some n) p := by
  obtain ⟨hp1, hp2⟩ := (G.B.mem_list n pol).1 hp
  obtain ⟨G', hps⟩ := R.good G hp1 hk
  rw [filter_key L G hp1 ht]
  have hb : ∃ st, PolicyStore.build (c.store.policies.filter (fun q => decide (q.key ≠ pol.key)) ++ [pol']) = some st := by
    rw [build_some_iff, List.pairwise_append]
    refine ⟨((build_some_iff _).1 ⟨_, G.built⟩).sublist List.filter_sublist, List.pairwise_singleton _ _, fun a ha b hb => ?_⟩
    rw [List.mem_singleton] at hb
    subst hb
    have h2 := (List.mem_filter.1 ha).2
    rw [decide_eq_true_eq] at h2
    rintro ⟨h3, h4⟩
    apply h2
    rw [← hk.key]
    unfold Policy.key
    rw [h3, h4]
  obtain ⟨st, hst⟩ := hb
  let d : Config C S := { c with store := st }
  have hd : c.withPolicies (c.store.policies.filter (fun q => decide (q.key ≠ pol.key)) ++ [pol']) = some d := by
    unfold Config.withPolicies; rw [hst]; rfl
  have hmem : ∀ q, q ∈ c.store.policies.filter (fun q => decide (q.key ≠ pol.key)) ++ [pol'] ↔ q = pol' ∨ (q ∈ c.store.policies ∧ q.key ≠ pol.key) := by
    intro q
    rw [List.mem_append, List.mem_filter, List.mem_singleton, decide_eq_true_eq]
    tauto
  obtain ⟨Gd, hds⟩ := G.parts (c' := d) rfl hst (fun q hq => by
    rcases (hmem q).1 hq with rfl | ⟨h1, _⟩
    · exact ⟨pol, hp1, hk⟩
    · exact ⟨q, h1, PartOf.refl q⟩)
  refine ⟨d, hd, Gd, ⟨fun _ => rfl, fun _ => rfl, fun _ => rfl, rfl⟩, ?_, rfl, fun p => ?_⟩
  · rw [← Bool.not_eq_true]
    intro h
    unfold policiesEq at h
    simp only [Bool.and_eq_true, decide_eq_true_eq, List.all_eq_true, List.any_eq_true] at h
    obtain ⟨q, hq, ⟨hq1, hq2⟩, he⟩ := h.2 pol hp1
    rw [hds] at hq
    rcases (hmem q).1 hq with rfl | ⟨_, h2⟩
    · unfold policyEq at he
      simp only [Bool.and_eq_true, decide_eq_true_eq] at he
      have h1 := rulesEq_length _ he.1.1.1.1.2
      have h2 := rulesEq_length _ he.1.1.1.2
      cases dir
      · exact absurd h2 (by change q.egressRules.length < pol.egressRules.length at hlen; omega)
      · exact absurd h1 (by change q.ingressRules.length < pol.ingressRules.length at hlen; omega)
    · exact h2 (by unfold Policy.key; rw [hq1, hq2])
  · have hpe : PeersSame N c'.peers d.peers := by rw [R.peers]; exact PeersSame.refl _
    have m : ∀ q, q ∈ c'.store.policies ↔ q ∈ d.store.policies := by
      intro q
      rw [hps, hds, mem_edit hp1, hmem]
    have h1 : ∀ q ∈ c'.store.policies, ∃ q' ∈ d.store.policies, q.key = q'.key ∧ PolSame N q q' := fun q hq => ⟨q, (m q).1 hq, rfl, PolSame.refl q⟩
    have h2 : ∀ q' ∈ d.store.policies, ∃ q ∈ c'.store.policies, q.key = q'.key ∧ PolSame N q q' := fun q hq => ⟨q, (m q).2 hq, rfl, PolSame.refl q⟩
    refine allowsIn_same G' Gd hpe (fun k => ?_) (fun k => ?_) (some n) p
    · refine layerSame_of_match (fun q hq => ?_) (fun q hq => ?_) (fun dir x => verdict_orderFree G' Gd h1 h2 (by rw [hps]; exact ho) k dir x)
      · exact ⟨q, (Gd.B.mem_list k q).2 ⟨(m q).1 ((G'.B.mem_list k q).1 hq).1, ((G'.B.mem_list k q).1 hq).2⟩, PolSame.refl q⟩
      · exact ⟨q, (G'.B.mem_list k q).2 ⟨(m q).2 ((Gd.B.mem_list k q).1 hq).1, ((Gd.B.mem_list k q).1 hq).2⟩, PolSame.refl q⟩
    · exact ⟨fun ⟨q, h3, h4⟩ => ⟨q, (m q).1 h3, h4⟩, fun ⟨q, h3, h4⟩ => ⟨q, (m q).2 h3, h4⟩⟩

/-- Deleting one of two equal rules of an unordered policy does not matter. -/
theorem dropRule_same (L : N.Lawful Ok Strong Wide) {pol : Policy C S} (hl : pol.Legal N.toNet Strong) (hu : pol.kind.unordered) {dir : Bool} {i j : Nat}
    {r s : Rule C} (hi : (pol.rules dir)[i]? = some r) (hj : (pol.rules dir)[j]? = some s) (hij : j ≠ i) (he : ruleEq N pol.kind s r = true) :
    PolSame N pol (pol.dropRule dir i) := by
  have hk := dropRule_part pol dir i
  have hmem : ∀ p, N.K.mem p s.props = N.K.mem p r.props := by
    have heq : N.K.eq s.props r.props = true := by
      unfold ruleEq at he
      cases hkk : pol.kind <;> rw [hkk] at he hu <;> first | exact he | exact absurd hu id
    exact fun p => L.net.eq_sound (L.net.strong_ok (hl.strong dir s (List.mem_of_getElem? hj))) (L.net.strong_ok (hl.strong dir r (List.mem_of_getElem? hi))) heq p
  have hany : ∀ d p, anyMatch N.toNet p ((pol.dropRule dir i).rules d) = anyMatch N.toNet p (pol.rules d) := by
    intro d p
    by_cases hd : d = dir
    · subst hd
      rw [(dropRule_rules pol d i).1, Bool.eq_iff_iff]
      unfold anyMatch
      rw [List.any_eq_true, List.any_eq_true]
      constructor
      · rintro ⟨x, hx, hm⟩
        exact ⟨x, List.mem_of_mem_eraseIdx hx, hm⟩
      · rintro ⟨x, hx, hm⟩
        obtain ⟨k, hkx⟩ := List.getElem?_of_mem hx
        by_cases hki : k = i
        · subst hki
          rw [hi, Option.some.injEq] at hkx
          subst hkx
          exact ⟨s, List.mem_eraseIdx_iff_getElem?.2 ⟨j, hij, hj⟩, by rw [hmem]; exact hm⟩
        · exact ⟨x, List.mem_eraseIdx_iff_getElem?.2 ⟨k, hki, hkx⟩, hm⟩
    · have : d = !dir := by cases d <;> cases dir <;> simp_all
      rw [this, (dropRule_rules pol dir i).2]
  refine ⟨hk.kind.symm, ?_, fun _ => hk.action.symm, fun d e => (hk.captures d e).symm, fun d x => ?_⟩
  · unfold Policy.getOrder
    rw [hk.kind, hk.order]
  · unfold Policy.speaks Policy.ruleVerdict
    rw [hk.captures, hk.kind, hk.action, hany]
    cases hkk : pol.kind <;> rw [hkk] at hu <;> first | rfl | exact absurd hu id

theorem edit_same {c c' : Config C S} {pol pol' : Policy C S} (R : Edit c pol pol' c') (G : c.Good N Ok Strong) (hp : pol ∈ c.store.policies)
    (hk : PartOf pol' pol) (hs : PolSame N pol pol') (layer : Option LayerName) (p : P) : c.allowsIn N layer p ↔ c'.allowsIn N layer p := by
  obtain ⟨G', hps⟩ := R.good G hp hk
  have hf : List.Forall₂ (PolSame N) c.store.policies c'.store.policies := by
    rw [hps]
    unfold editPolicy
    rw [List.forall₂_map_right_iff, List.forall₂_same]
    intro q hq
    by_cases he : q.key = pol.key
    · have : q = pol := List.inj_on_of_nodup_map (keys_nodup G.built) hq hp he
      subst this
      rw [if_pos rfl]; exact hs
    · rw [if_neg he]; exact PolSame.refl q
  have h1 : ∀ q ∈ c.store.policies, ∃ q' ∈ c'.store.policies, PolSame N q q' := by
    intro q hq
    rw [hps]
    by_cases he : q.key = pol.key
    · have : q = pol := List.inj_on_of_nodup_map (keys_nodup G.built) hq hp he
      subst this
      exact ⟨pol', (mem_edit hp _).2 (Or.inl rfl), hs⟩
    · exact ⟨q, (mem_edit hp _).2 (Or.inr ⟨hq, he⟩), PolSame.refl q⟩
  have h2 : ∀ q' ∈ c'.store.policies, ∃ q ∈ c.store.policies, PolSame N q q' := by
    intro q hq
    rw [hps] at hq
    rcases (mem_edit hp _).1 hq with rfl | ⟨h, _⟩
    · exact ⟨pol, hp, hs⟩
    · exact ⟨q, h, PolSame.refl q⟩
  refine allowsIn_same G G' (by rw [R.peers]; exact PeersSame.refl _) (fun k => ?_) (fun k => ?_) layer p
  · refine layerSame_of_match (fun q hq => ?_) (fun q hq => ?_) (fun dir x => ?_)
    · obtain ⟨q', hq', h⟩ := h1 q ((G.B.mem_list k q).1 hq).1
      exact ⟨q', (G'.B.mem_list k q').2 ⟨hq', by rw [← h.kind]; exact ((G.B.mem_list k q).1 hq).2⟩, h⟩
    · obtain ⟨q', hq', h⟩ := h2 q ((G'.B.mem_list k q).1 hq).1
      exact ⟨q', (G.B.mem_list k q').2 ⟨hq', by rw [h.kind]; exact ((G'.B.mem_list k q).1 hq).2⟩, h⟩
    · rw [G.B.lists, G'.B.lists]
      exact verdict_rel (lists_rel hf k) dir x
  · constructor
    · rintro ⟨q, hq, h⟩
      obtain ⟨q', hq', h'⟩ := h1 q hq
      exact ⟨q', hq', by rw [← h'.kind]; exact h⟩
    · rintro ⟨q, hq, h⟩
      obtain ⟨q', hq', h'⟩ := h2 q hq
      exact ⟨q', hq', by rw [h'.kind]; exact h⟩

theorem withoutRule_key (pol : Policy C S) (r : Rule C) (dir : Bool) : (pol.withoutRule N r dir).key = pol.key := by
  obtain ⟨name, kind, order, action, sel, ai, ae, ir, er⟩ := pol
  cases kind <;> cases dir <;> rfl

theorem moved_exists (L : N.Lawful Ok Strong Wide) {c : Config C S} (G : c.Good N Ok Strong) {pol pol' : Policy C S}
    (hp : pol ∈ c.store.policies) (ht : NoTwin c pol) (hk : pol'.key = pol.key) :
    ∃ d, c.withPolicies (c.store.policies.filter (fun q => !policyEq N q pol) ++ [pol']) = some d := by
  rw [filter_key L G hp ht]
  have hb : ∃ st, PolicyStore.build (c.store.policies.filter (fun q => decide (q.key ≠ pol.key)) ++ [pol']) = some st := by
    rw [build_some_iff, List.pairwise_append]
    refine ⟨((build_some_iff _).1 ⟨_, G.built⟩).sublist List.filter_sublist, List.pairwise_singleton _ _, fun a ha b hb => ?_⟩
    rw [List.mem_singleton] at hb
    subst hb
    have h2 := (List.mem_filter.1 ha).2
    rw [decide_eq_true_eq] at h2
    rintro ⟨h3, h4⟩
    apply h2
    rw [← hk]
    unfold Policy.key
    rw [h3, h4]
  obtain ⟨st, hst⟩ := hb
  exact ⟨_, by unfold Config.withPolicies; rw [hst]; rfl⟩

/-- What `find_redundant_rules` decides for a rule. -/
theorem ruleRedundant_spec (L : N.Lawful Ok Strong Wide) (excl : Bool) {c : Config C S} (G : c.Good N Ok Strong) {n : LayerName} {pol : Policy C S}
    (hp : pol ∈ layerList c.store.layers n) (ht : NoTwin c pol) (hsh : pol.Shaped) {dir : Bool} {i : Nat} {r : Rule C}
    (hi : (pol.rules dir)[i]? = some r) (ho : OrderFree N (editPolicy c.store.policies pol (pol.dropRule dir i)))
    {c' : Config C S} (R : Edit c pol (pol.dropRule dir i) c') :
    ∃ b, ruleRedundant N excl c n pol dir r = some b ∧
      (b = true → OnlyRule N pol dir i ∨ pol.kind.unordered → SameAllowed N excl (some n) c c') ∧
      (∀ X : N.Exact Ok Strong Canon, excl = true → SameAllowed N excl (some n) c c' → b = true) := by
  obtain ⟨hp1, hp2⟩ := (G.B.mem_list n pol).1 hp
  have hr : r ∈ pol.rules dir := List.mem_of_getElem? hi
  obtain ⟨w1, w2⟩ := withoutRule_rules (N := N) hsh hr
  have hk := dropRule_part pol dir i
  have hself : (!ruleEq N pol.kind r r) = false := by
    rw [ruleEq_refl L pol.kind (L.net.strong_ok ((G.legal1 hp1).1.strong dir r hr))]; rfl
  by_cases honly : OnlyRule N pol dir i
  · have hfe : (pol.rules dir).filter (fun s => !ruleEq N pol.kind s r) = (pol.rules dir).eraseIdx i :=
      filter_eraseIdx _ _ i r hi hself (fun j s hj hs => honly r hi j s hj (by simpa using hs))
    have hm := w2 i hfe
    have hilt : i < (pol.rules dir).length := (List.getElem?_eq_some_iff.1 hi).1
    have hle : ((pol.dropRule dir i).rules dir).length + 1 = (pol.rules dir).length := by
      rw [(dropRule_rules pol dir i).1, List.length_eraseIdx, if_pos hilt]; omega
    obtain ⟨d, hd, Gd, hst, hne, hpe, hs⟩ := moved_spec L G hp ht hk (dir := dir) (by omega) R ho
    have hnlt : ¬ ((pol.withoutRule N r dir).dirRules dir).length + 1 < (pol.dirRules dir).length := by
      rw [hm, rules_eq, rules_eq]; omega
    refine ⟨(equivQuery N excl (some n) c d).bool, ?_, fun hb _ => ?_, fun X he h => ?_⟩
    · unfold ruleRedundant
      dsimp only
      rw [if_neg hnlt, hm, hd]; rfl
    · have := equiv_sound L excl (some n) G Gd (fun h => by simp at h) (fun h => by rw [hne] at h; simp at h) hb
      exact fun p hr => (this p hr).trans (hs p).symm
    · refine (equiv_exact L X excl (some n) G Gd (fun h => by simp at h) (fun h => by rw [hne] at h; simp at h) (Or.inl he) hst).2 ?_
      exact fun p hr => (h p hr).trans (hs p)
  · have hex : ∃ j s, (pol.rules dir)[j]? = some s ∧ ruleEq N pol.kind s r = true ∧ j ≠ i := by
      by_contra hno
      apply honly
      intro r' hr' j s hj hs
      rw [hi, Option.some.injEq] at hr'
      subst hr'
      by_contra hji
      exact hno ⟨j, s, hj, hs, hji⟩
    obtain ⟨j, s, hj, hs, hji⟩ := hex
    have hlt : ((pol.withoutRule N r dir).dirRules dir).length + 1 < (pol.dirRules dir).length := by
      rw [w1]
      exact filter_two _ _ i j r s hi hj hself (by rw [hs]; rfl) hji.symm
    refine ⟨true, ?_, fun _ hc => ?_, fun _ _ _ => rfl⟩
    · unfold ruleRedundant
      dsimp only
      rw [if_pos hlt]
    · rcases hc with h | hu
      · exact absurd h honly
      · exact fun p _ => edit_same R G hp1 hk (dropRule_same L (G.legal1 hp1).1 hu hi hj hji hs) (some n) p

/-- C34, rules: when rule number `i + 1` is reported, deleting it from its policy does not change what the
configuration allows; and a rule without which the layer allows the same is reported.
Full statement: without the conditions `OnlyRule ∨ unordered`, `OrderFree` and `NoTwin`.  Missing: a rule of
a sidecar with several rules, `C34_sidecar_wrong`, or a Calico rule that occurs twice, `C34_duplicate_wrong`, is
reported though it matters; so is a rule of a Calico policy that is examined after other policies of the
same order instead of in its place, `C34_tie_wrong`. -/
theorem C34_rule_partial (L : N.Lawful Ok Strong Wide) (excl : Bool) {c : Config C S} (G : c.Good N Ok Strong) {n : LayerName} {pol : Policy C S}
    (hp : pol ∈ layerList c.store.layers n) (ht : NoTwin c pol) (hsh : pol.Shaped) (dir : Bool) :
    ∃ l, redundantRules N excl c n pol dir = some l ∧ ∀ i, i < (pol.rules dir).length →
      OrderFree N (editPolicy c.store.policies pol (pol.dropRule dir i)) →
      (∃ c', Edit c pol (pol.dropRule dir i) c') ∧ ∀ c', Edit c pol (pol.dropRule dir i) c' →
        (i + 1 ∈ l → OnlyRule N pol dir i ∨ pol.kind.unordered → SameAllowed N excl none c c') ∧
        (∀ X : N.Exact Ok Strong Canon, excl = true → SameAllowed N excl (some n) c c' → i + 1 ∈ l) := by
  obtain ⟨hp1, hp2⟩ := (G.B.mem_list n pol).1 hp
  have hall : ∀ r ∈ pol.dirRules dir, ruleRedundant N excl c n pol dir r = some ((ruleRedundant N excl c n pol dir r).getD false) := by
    intro r hr
    unfold ruleRedundant
    dsimp only
    split
    · rfl
    · obtain ⟨d, hd⟩ := moved_exists L G hp1 ht (withoutRule_key (N := N) pol r dir)
      rw [hd]; rfl
  refine ⟨_, by unfold redundantRules; rw [mapM_some hall]; rfl, fun i hi ho => ⟨edit_exists G (dropRule_part pol dir i).key, fun c' R => ?_⟩⟩
  have hget : (pol.rules dir)[i]? = some (pol.rules dir)[i] := List.getElem?_eq_getElem hi
  obtain ⟨b, hb, h1, h2⟩ := ruleRedundant_spec (Canon := Canon) L excl G hp ht hsh hget ho R
  have hmem : i + 1 ∈ trueIdx 1 ((pol.dirRules dir).map (fun r => (ruleRedundant N excl c n pol dir r).getD false)) ↔ b = true := by
    rw [mem_trueIdx]
    constructor
    · rintro ⟨j, hj, hij⟩
      have : j = i := by omega
      subst this
      rw [List.getElem?_map, rules_eq, hget] at hj
      simpa [hb] using hj
    · intro hb'
      refine ⟨i, ?_, by omega⟩
      rw [List.getElem?_map, rules_eq, hget]
      simp [hb, hb']
  rw [hmem]
  exact ⟨fun h hc p hr => (R.facts G hp (dropRule_part pol dir i)).2 p (h1 h hc p hr), h2⟩

/-! ### The query -/

theorem le_sum_of_mem' {x : Nat} : ∀ {l : List Nat}, x ∈ l → x ≤ l.sum
  | a :: l, h => by
    rw [List.sum_cons]
    rcases List.mem_cons.1 h with rfl | h
    · omega
    · have := le_sum_of_mem' h; omega

/-- The layers the query looks at. -/
def LayerName.checked (n : LayerName) : Prop := n ≠ .k8sGateway ∧ n ≠ .istioGateway

/-- The policy may be removed. -/
def PolicyRedundant (N : NetQ C P E S) (excl : Bool) (layer : Option LayerName) (c : Config C S) (pol : Policy C S) : Prop :=
  (∃ c', Removal c pol c') ∧ ∀ c', Removal c pol c' → SameAllowed N excl layer c c'

/-- Rule number `i + 1` may be removed. -/
def RuleRedundant (N : NetQ C P E S) (excl : Bool) (layer : Option LayerName) (c : Config C S) (pol : Policy C S) (dir : Bool) (i : Nat) : Prop :=
  (∃ c', Edit c pol (pol.dropRule dir i) c') ∧ ∀ c', Edit c pol (pol.dropRule dir i) c' → SameAllowed N excl layer c c'

/-- The conditions of `C34_rule_partial`. -/
def RuleClear (N : NetQ C P E S) (c : Config C S) (pol : Policy C S) (dir : Bool) (i : Nat) : Prop :=
  i < (pol.rules dir).length ∧ OrderFree N (editPolicy c.store.policies pol (pol.dropRule dir i)) ∧ (OnlyRule N pol dir i ∨ pol.kind.unordered)

/-- A report that is right about a list of layers. -/
structure RedRight (N : NetQ C P E S) (Ok Strong Canon : C → Prop) (excl : Bool) (c : Config C S) (ls : Layers C S) (rep : RedReport C S) : Prop where
  policies : ∀ name ∈ rep.policies, ∃ pol ∈ c.store.policies, pol.name = name ∧ PolicyRedundant N excl none c pol
  rules : ∀ e ∈ rep.rules, e.1 ∈ c.store.policies ∧ ∀ dir i, RuleClear N c e.1 dir i → i + 1 ∈ (if dir then e.2.1 else e.2.2) → RuleRedundant N excl none c e.1 dir i
  none : N.Exact Ok Strong Canon → excl = true → rep.count = 0 → ∀ l ∈ ls, l.1.checked → ∀ pol ∈ l.2,
    (1 < l.2.length → ¬ PolicyRedundant N excl (some l.1) c pol) ∧ ∀ dir i, RuleClear N c pol dir i → ¬ RuleRedundant N excl (some l.1) c pol dir i
  some : rep.count > 0 ∨ (rep.policies = [] ∧ rep.rules = [])

theorem redStep_right (L : N.Lawful Ok Strong Wide) (excl : Bool) {c : Config C S} (G : c.Good N Ok Strong)
    (ht : ∀ pol ∈ c.store.policies, NoTwin c pol) (hsh : ∀ pol ∈ c.store.policies, pol.Shaped) {ls : Layers C S} {rep : RedReport C S}
    (h : RedRight N Ok Strong Canon excl c ls rep) {l : LayerName × List (Policy C S)} (hl : l ∈ c.store.layers) :
    ∃ rep', redStep N excl c rep l = some rep' ∧ RedRight N Ok Strong Canon excl c (ls ++ [l]) rep' := by
  obtain ⟨n, pols⟩ := l
  have hlist : layerList c.store.layers n = pols := layerList_of_mem G.B.distinct hl
  by_cases hg : n = .k8sGateway ∨ n = .istioGateway
  · refine ⟨rep, by unfold redStep; rw [if_pos hg], h.policies, h.rules, fun X he hc l' hl' hck => ?_, h.some⟩
    rcases List.mem_append.1 hl' with h1 | h1
    · exact h.none X he hc l' h1 hck
    · rw [List.mem_singleton] at h1
      subst h1
      exact absurd hg (by rintro (h | h); exacts [hck.1 h, hck.2 h])
  · obtain ⟨rp, hrp, p1, p2⟩ := C34_policy_partial (Canon := Canon) L excl G n ht
    rw [hlist] at hrp p1 p2
    have hpol : ∀ pol ∈ pols, pol ∈ c.store.policies := fun pol hm => ((G.B.mem_list n pol).1 (by rw [hlist]; exact hm)).1
    have hrules : ∀ dir, ∀ pol ∈ pols, ∃ r, redundantRules N excl c n pol dir = some r ∧
        (∀ i, RuleClear N c pol dir i → i + 1 ∈ r → RuleRedundant N excl none c pol dir i) ∧
        (N.Exact Ok Strong Canon → excl = true → ∀ i, RuleClear N c pol dir i → RuleRedundant N excl (some n) c pol dir i → i + 1 ∈ r) := by
      intro dir pol hm
      obtain ⟨r, hr, hs⟩ := C34_rule_partial (Canon := Canon) L excl G (n := n) (pol := pol) (by rw [hlist]; exact hm) (ht pol (hpol pol hm)) (hsh pol (hpol pol hm)) dir
      refine ⟨r, hr, fun i hcl hi => ?_, fun X he i hcl hred => ?_⟩
      · obtain ⟨h1, h2⟩ := hs i hcl.1 hcl.2.1
        exact ⟨h1, fun c' R => (h2 c' R).1 hi hcl.2.2⟩
      · obtain ⟨⟨c', R⟩, h2⟩ := hs i hcl.1 hcl.2.1
        exact (h2 c' R).2 X he (hred.2 c' R)
    let g : Policy C S → Policy C S × List Nat × List Nat := fun p =>
      (p, (redundantRules N excl c n p true).getD [], (redundantRules N excl c n p false).getD [])
    let kept := pols.filter (fun p => !rp.any (fun q => decide (q = p.name)))
    have hkept : ∀ p ∈ kept, p ∈ pols := fun p hm => (List.mem_filter.1 hm).1
    have hm : kept.mapM (fun p => (redundantRules N excl c n p true).bind (fun i =>
          (redundantRules N excl c n p false).map (fun e => (p, i, e)))) = some (kept.map g) := by
      refine mapM_some (fun p hp => ?_)
      obtain ⟨r1, h1, _⟩ := hrules true p (hkept p hp)
      obtain ⟨r2, h2, _⟩ := hrules false p (hkept p hp)
      rw [h1, h2]
      simp [g, h1, h2]
    have hg1 : ∀ p ∈ pols, ∀ dir, redundantRules N excl c n p dir = some (if dir then (g p).2.1 else (g p).2.2) := by
      intro p hp dir
      obtain ⟨r, hr, _⟩ := hrules dir p hp
      cases dir <;> simp [g, hr]
    refine ⟨_, by unfold redStep; rw [if_neg hg, hrp]; simp only [Option.bind_some]; rw [hm]; rfl, ?_, ?_, ?_, ?_⟩
    · intro name hn
      obtain ⟨pol, h1, h2, h3⟩ := p1 name hn
      exact ⟨pol, hpol pol h1, h2, h3⟩
    · intro e he
      rcases List.mem_append.1 he with he | he
      · exact h.rules e he
      · obtain ⟨he, _⟩ := List.mem_filter.1 he
        obtain ⟨p, hp, rfl⟩ := List.mem_map.1 he
        have hp' := hkept p hp
        refine ⟨hpol p hp', fun dir i hcl hi => ?_⟩
        obtain ⟨r, hr, h1, _⟩ := hrules dir p hp'
        rw [hg1 p hp' dir, Option.some.injEq] at hr
        exact h1 i hcl (by rw [← hr]; exact hi)
    · intro X he hc l' hl' hck
      dsimp only at hc
      have hc0 : rep.count = 0 := by omega
      have hrp0 : rp = [] := List.length_eq_zero_iff.1 (by omega)
      rcases List.mem_append.1 hl' with h1 | h1
      · exact h.none X he hc0 l' h1 hck
      · rw [List.mem_singleton] at h1
        subst h1
        intro pol hm'
        have hkp : pol ∈ kept := List.mem_filter.2 ⟨hm', by rw [hrp0]; rfl⟩
        refine ⟨fun h2 hred => ?_, fun dir i hcl hred => ?_⟩
        · have := p2 X he h2 pol hm' hred.2
          rw [hrp0] at this; simp at this
        · obtain ⟨r, hr, _, h2⟩ := hrules dir pol hm'
          have hir := h2 X he i hcl hred
          rw [hg1 pol hm' dir, Option.some.injEq] at hr
          have hle := le_sum_of_mem' (List.mem_map.2 ⟨g pol, List.mem_map.2 ⟨pol, hkp, rfl⟩, rfl⟩ :
            (fun x : Policy C S × List Nat × List Nat => x.2.1.length + x.2.2.length) (g pol) ∈ (kept.map g).map (fun x => x.2.1.length + x.2.2.length))
          have hpos : 0 < r.length := List.length_pos_of_mem hir
          rw [← hr] at hpos
          dsimp only at hle
          cases dir
          · have : 0 < (g pol).2.2.length := hpos
            omega
          · have : 0 < (g pol).2.1.length := hpos
            omega
    · dsimp only
      by_cases hz : rep.count + rp.length + ((kept.map g).map (fun x => x.2.1.length + x.2.2.length)).sum = 0
      · right
        refine ⟨List.length_eq_zero_iff.1 (by omega), ?_⟩
        rw [(h.some.resolve_left (by omega)).2, List.nil_append, List.filter_eq_nil_iff]
        intro x hx
        have hle := le_sum_of_mem' (List.mem_map.2 ⟨x, hx, rfl⟩ :
            (fun x : Policy C S × List Nat × List Nat => x.2.1.length + x.2.2.length) x ∈ (kept.map g).map (fun x => x.2.1.length + x.2.2.length))
        dsimp only at hle
        have a1 : x.2.1 = [] := List.length_eq_zero_iff.1 (by omega)
        have a2 : x.2.2 = [] := List.length_eq_zero_iff.1 (by omega)
        simp [a1, a2]
      · left; omega

/-- C34: the query answers; what it lists may be removed, one at a time, without changing what the
configuration allows; and when it counts nothing, nothing is redundant within its layer (but for gateway
layers, and policies that are alone in their layer).
Full statement: without `RuleClear`, `ht`, `hsh` and `excl`; see `C34_policy_partial` and `C34_rule_partial`.
Missing also: the list of policies is that of the last layer only, `C34_policies_lost_wrong`. -/
theorem C34_query_partial (L : N.Lawful Ok Strong Wide) (excl : Bool) {c : Config C S} (G : c.Good N Ok Strong)
    (ht : ∀ pol ∈ c.store.policies, NoTwin c pol) (hsh : ∀ pol ∈ c.store.policies, pol.Shaped) :
    ∃ rep, redundancyQuery N excl c = some rep ∧
      (∀ name ∈ rep.policies, ∃ pol ∈ c.store.policies, pol.name = name ∧ PolicyRedundant N excl none c pol) ∧
      (∀ e ∈ rep.rules, e.1 ∈ c.store.policies ∧ ∀ dir i, RuleClear N c e.1 dir i →
        i + 1 ∈ (if dir then e.2.1 else e.2.2) → RuleRedundant N excl none c e.1 dir i) ∧
      (rep.count = 0 → rep.policies = [] ∧ rep.rules = []) ∧
      (N.Exact Ok Strong Canon → excl = true → rep.count = 0 → ∀ pol ∈ c.store.policies, (layerOf pol.kind).checked →
        (1 < (layerList c.store.layers (layerOf pol.kind)).length → ¬ PolicyRedundant N excl (some (layerOf pol.kind)) c pol) ∧
        ∀ dir i, RuleClear N c pol dir i → ¬ RuleRedundant N excl (some (layerOf pol.kind)) c pol dir i) := by
  have aux : ∀ (ls done : Layers C S) (rep : RedReport C S), (∀ l ∈ ls, l ∈ c.store.layers) → RedRight N Ok Strong Canon excl c done rep →
      ∃ rep', ls.foldlM (redStep N excl c) rep = some rep' ∧ RedRight N Ok Strong Canon excl c (done ++ ls) rep' := by
    intro ls
    induction ls with
    | nil => intro done rep _ h; exact ⟨rep, rfl, by simpa using h⟩
    | cons l ls ih =>
      intro done rep hsub h
      obtain ⟨rep1, h1, h2⟩ := redStep_right L excl G ht hsh h (hsub l (by simp))
      obtain ⟨rep2, h3, h4⟩ := ih (done ++ [l]) rep1 (fun x hx => hsub x (by simp [hx])) h2
      refine ⟨rep2, ?_, by simpa using h4⟩
      rw [List.foldlM_cons, h1]
      exact h3
  obtain ⟨rep, h1, h2⟩ := aux c.store.layers [] ⟨0, [], []⟩ (fun _ h => h) ⟨by simp, by simp, by simp, Or.inr ⟨rfl, rfl⟩⟩
  refine ⟨rep, h1, h2.policies, h2.rules, fun h0 => h2.some.resolve_left (by omega), fun X he h0 pol hp hck => ?_⟩
  have hm := (G.B.mem_list _ pol).2 ⟨hp, rfl⟩
  exact h2.none X he h0 (layerOf pol.kind, layerList c.store.layers (layerOf pol.kind))
    (by simpa using layerList_mem (List.ne_nil_of_mem hm)) hck pol hm

end
end Verif
