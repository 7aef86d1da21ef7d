import Verif.PropsQueriesK8s
import Verif.PropsRedundancy
import Verif.PropsOneConfig
/-!
C34, C35 and C42 from the texts of Kubernetes policies: what the queries on one configuration, and the comparison policy by
policy, answer.
-/
namespace Verif
namespace K8sParser
open ISet

section
/-- The name under which a policy is reported (`full_name`, NetworkPolicy.py 153-164, without the name of a configuration). -/
def PolicyText.full (t : PolicyText) : String := t.ns.name ++ "/" ++ t.name

/-- The texts without those of the name. -/
def Rest (ts : List PolicyText) (name : String) : List PolicyText := ts.filter fun t => decide (t.full ≠ name)

variable {V2 X2 : Type} {A2 : VAlg Dim V2 X2} {W2 : Dim → V2 → Prop} (L2 : A2.Lawful W2) {B : PeerDom} {ord : SetOrder} {rg : PodReg} {c : Container}
  {ts : List PolicyText} {pols : List (Policy (HC Dim (ISet ⊕ V2)) (ConnPeers W2 B))} {st : PolicyStore (HC Dim (ISet ⊕ V2)) (ConnPeers W2 B)}

theorem all_k8s (hp : policiesOf A2 W2 B ord rg c ts = some pols) : ∀ pol ∈ pols, pol.kind = .k8s := fun pol hpol => by
  obtain ⟨t, _, q, _, rfl⟩ := policies_of hp hpol; rfl

theorem store_pols (hb : PolicyStore.build pols = some st) : (k8sConfig A2 W2 B rg c st).store.policies = pols := (build_built _ hb).policies

/-- There is one layer. -/
theorem one_layer (hp : policiesOf A2 W2 B ord rg c ts = some pols) (hb : PolicyStore.build pols = some st) :
    ∃ ps, st.layers = [(.k8sCalico, ps)] := by
  have hk := all_k8s hp
  have hb' := build_built _ hb
  by_cases hp0 : pols = []
  · exact ⟨[], hb'.init hp0⟩
  · have one : ∀ l ∈ st.layers, l.1 = .k8sCalico := by
      rintro ⟨n, a⟩ hl
      obtain ⟨h1, h2⟩ := (hb'.mem_layers hp0 n a).1 hl
      rw [h1] at h2
      obtain ⟨pol, hpol, hn⟩ := (hb'.list_ne n).1 h2
      rw [hk pol hpol] at hn
      exact hn.symm
    obtain ⟨pol, hpol⟩ := List.exists_mem_of_ne_nil _ hp0
    have hne := (hb'.list_ne .k8sCalico).2 ⟨pol, hpol, by rw [hk pol hpol]; rfl⟩
    have hm := (hb'.mem_layers hp0 .k8sCalico _).2 ⟨rfl, hne⟩
    have hd' := hb'.distinct
    unfold DistinctLayers at hd'
    match hst : st.layers, one, hd', hm with
    | [], _, _, hm => cases hm
    | [(n, a)], one, _, _ =>
      have := one (n, a) (by simp)
      dsimp only at this
      subst this; exact ⟨a, rfl⟩
    | a :: b :: l, one, hd', _ =>
      exfalso
      rw [List.map_cons, List.map_cons, List.nodup_cons] at hd'
      exact hd'.1 (List.mem_cons.2 (Or.inl ((one a (by simp)).trans (one b (by simp)).symm)))

theorem layer_iff (hC : Cluster rg c) (hd : queryDom rg [c] = some B.idx) (hp : policiesOf A2 W2 B ord rg c ts = some pols) (hb : PolicyStore.build pols = some st)
    (p : Point (connA A2 B)) :
    (k8sConfig A2 W2 B rg c st).allowsIn (connNet L2 B) (some .k8sCalico) p ↔ (k8sConfig A2 W2 B rg c st).allowsIn (connNet L2 B) none p := by
  obtain ⟨ps, hps⟩ := one_layer hp hb
  have hB := covers_of_query hC hd
  have hh : (connNet L2 B).Q.truthy (clusterPeers A2 W2 B rg c).heps = false := by
    rw [← Bool.not_eq_true, (connNet L2 B).Q.truthy_iff]
    rintro ⟨e, he⟩
    rw [no_heps L2 hC hB e] at he; cases he
  obtain ⟨src, dst, _, _, hcn, _⟩ := conn_of (A2 := A2) hC hd p
  change layerAllows (connNet L2 B).toNet .k8sCalico (layerList st.layers .k8sCalico) (clusterPeers A2 W2 B rg c) p ↔
    configAllows (connNet L2 B).toNet (clusterPeers A2 W2 B rg c) st.layers p
  unfold configAllows effectiveLayers
  have hh' : (connNet L2 B).toNet.Q.truthy (clusterPeers A2 W2 B rg c).heps = false := hh
  rw [hh', hps]
  simp only [Bool.false_and, Bool.false_eq_true, if_false, List.mem_singleton, forall_eq]
  rw [show layerList [(LayerName.k8sCalico, ps)] .k8sCalico = ps by simp [layerList]]
  exact ⟨fun h => ⟨end_known L2 hC hB hcn.src, end_known L2 hC hB hcn.dst, h⟩, fun h => h.2.2⟩

/-- The policies of the texts without those of a name. -/
theorem policies_rest (name : String) : ∀ {ts : List PolicyText} {pols}, policiesOf A2 W2 B ord rg c ts = some pols →
    policiesOf A2 W2 B ord rg c (Rest ts name) = some (pols.filter fun q => decide (q.name ≠ name)) := by
  intro ts
  induction ts with
  | nil => intro pols h; cases h; rfl
  | cons t ts ih =>
    intro pols h
    unfold policiesOf at h
    rw [List.mapM_cons, Option.bind_eq_bind, Option.bind_eq_some_iff] at h
    obtain ⟨b, hb, h⟩ := h
    rw [Option.bind_eq_bind, Option.bind_eq_some_iff] at h
    obtain ⟨r, hr, h⟩ := h
    cases h
    have hbn : b.name = t.full := by
      rw [Option.map_eq_some_iff] at hb
      obtain ⟨q, _, rfl⟩ := hb; rfl
    have := ih hr
    unfold Rest policiesOf at *
    by_cases hn : t.full = name
    · rw [List.filter_cons_of_neg (by simp [hn]), List.filter_cons_of_neg (by simp [hbn, hn])]
      exact this
    · rw [List.filter_cons_of_pos (by simp [hn]), List.filter_cons_of_pos (by simp [hbn, hn]), List.mapM_cons, hb, Option.bind_eq_bind, Option.bind_some,
        this]
      rfl

theorem pols_length : ∀ {ts : List PolicyText} {pols}, policiesOf A2 W2 B ord rg c ts = some pols → pols.length = ts.length := by
  intro ts
  induction ts with
  | nil => intro pols h; cases h; rfl
  | cons t ts ih =>
    intro pols h
    unfold policiesOf at h
    rw [List.mapM_cons, Option.bind_eq_bind, Option.bind_eq_some_iff] at h
    obtain ⟨b, _, h⟩ := h
    rw [Option.bind_eq_bind, Option.bind_eq_some_iff] at h
    obtain ⟨r, hr, h⟩ := h
    cases h
    rw [List.length_cons, List.length_cons, ih hr]

theorem filter_key (hk : ∀ pol ∈ pols, pol.kind = .k8s) {pol : Policy (HC Dim (ISet ⊕ V2)) (ConnPeers W2 B)} (hpol : pol ∈ pols) :
    (pols.filter fun q => decide (q.key ≠ pol.key)) = pols.filter fun q => decide (q.name ≠ pol.name) := by
  refine List.filter_congr fun q hq => ?_
  unfold Policy.key
  rw [hk q hq, hk pol hpol]
  simp

variable (hC : Cluster rg c) (hd : queryDom rg [c] = some B.idx) (hpod : ∃ a ∈ c, a.kind = .pod)
  (ht : ∀ t ∈ ts, TameText c t) (hp : policiesOf A2 W2 B ord rg c ts = some pols) (hb : PolicyStore.build pols = some st)

include hC hd hpod ht hp hb in
/-- C34 from documents: the policies of a configuration of Kubernetes policies that are reported as redundant are such
that Kubernetes says the same without each of them, and, if addresses of IPv6 are left out and there are several policies,
all such policies are reported.  Partial: as C45_config_partial. -/
theorem C34_k8s_partial (excl : Bool) :
    ∃ rs, redundantPolicies (connNet L2 B) excl (k8sConfig A2 W2 B rg c st) (layerList st.layers .k8sCalico) .k8sCalico = some rs ∧
      (∀ name ∈ rs, (∃ t ∈ ts, t.full = name) ∧ SaySame rg c excl ts (Rest ts name)) ∧
      (excl = true → 1 < ts.length → ∀ t ∈ ts, SaySame rg c excl ts (Rest ts t.full) → t.full ∈ rs) := by
  obtain ⟨L, X⟩ := connNet_lawful L2 B
  obtain ⟨G, s, _⟩ := C45_good_partial L2 hC hd hpod ts ht hp hb
  have hk := all_k8s hp
  have hsp := store_pols (A2 := A2) (rg := rg) (c := c) hb
  have htw : ∀ pol ∈ (k8sConfig A2 W2 B rg c st).store.policies, NoTwin (k8sConfig A2 W2 B rg c st) pol := by
    intro pol hpol q hq _ _
    rw [hsp] at hpol hq
    rw [hk q hq, hk pol hpol]
  have hlist : ∀ pol, pol ∈ layerList st.layers .k8sCalico ↔ pol ∈ pols := fun pol =>
    ((build_built _ hb).mem_list .k8sCalico pol).trans ⟨fun h => h.1, fun h => ⟨h, by rw [hk pol h]; rfl⟩⟩
  have same : ∀ pol ∈ pols, ∀ c', Removal (k8sConfig A2 W2 B rg c st) pol c' →
      ((SameAllowed (connNet L2 B) excl none (k8sConfig A2 W2 B rg c st) c' ↔ SaySame rg c excl ts (Rest ts pol.name)) ∧
      (SameAllowed (connNet L2 B) excl (some .k8sCalico) (k8sConfig A2 W2 B rg c st) c' ↔ SameAllowed (connNet L2 B) excl none (k8sConfig A2 W2 B rg c st) c')) := by
    intro pol hpol c' R
    have hbr := R.store
    rw [hsp, filter_key hk hpol] at hbr
    have hc' : c' = k8sConfig A2 W2 B rg c c'.store := by
      obtain ⟨a, b, d⟩ := c'
      have h1 := R.peers
      have h2 := R.services
      dsimp only at h1 h2
      subst h1; subst h2; rfl
    have hpr := policies_rest pol.name hp
    have htr : ∀ t ∈ Rest ts pol.name, TameText c t := fun t h => ht t (List.mem_filter.1 h).1
    rw [hc']
    refine ⟨same_iff L2 hC hd ht htr hp hpr hb hbr excl, ?_⟩
    unfold SameAllowed
    refine forall_congr' fun p => imp_congr_right fun _ => ?_
    rw [layer_iff L2 hC hd hp hb, layer_iff L2 hC hd hpr hbr]
  obtain ⟨rs, h1, h2, h3⟩ := C34_policy_partial (Canon := HC.Plain (connA A2 B)) L excl G .k8sCalico htw
  refine ⟨rs, h1, fun name hn => ?_, fun he hl t htm hs => ?_⟩
  · obtain ⟨pol, hm, rfl, ⟨c', R⟩, hsame⟩ := h2 name hn
    have hpol := (hlist pol).1 hm
    obtain ⟨t, htm, q, _, rfl⟩ := policies_of hp hpol
    exact ⟨⟨t, htm, rfl⟩, (same _ hpol c' R).1.1 (hsame c' R)⟩
  · obtain ⟨pol, hpol, h⟩ := (mapM_some_mem hp).2 t htm
    rw [Option.map_eq_some_iff] at h
    obtain ⟨q, _, rfl⟩ := h
    refine h3 X he ?_ _ ((hlist _).2 hpol) fun c' R => ((same _ hpol c' R).2.trans (same _ hpol c' R).1).2 hs
    change 1 < (layerList st.layers .k8sCalico).length
    have hn : pols.Nodup := List.Nodup.of_map _ (keys_nodup hb)
    have hle := (hn.subperm fun pol h => (hlist pol).2 h).length_le
    rw [pols_length hp] at hle
    omega

include hC hd hpod ht hp hb in
/-- C34 from documents, the report of the query: the policies it lists are such that Kubernetes says the same without each
of them, and, if addresses of IPv6 are left out and there are several policies, it lists all of these.  Partial: as
C34_k8s_partial. -/
theorem C34_k8s_query_partial (excl : Bool) :
    ∃ rep, redundancyQuery (connNet L2 B) excl (k8sConfig A2 W2 B rg c st) = some rep ∧
      (∀ name ∈ rep.policies, (∃ t ∈ ts, t.full = name) ∧ SaySame rg c excl ts (Rest ts name)) ∧
      (excl = true → 1 < ts.length → ∀ t ∈ ts, SaySame rg c excl ts (Rest ts t.full) → t.full ∈ rep.policies) := by
  obtain ⟨L, _⟩ := connNet_lawful L2 B
  obtain ⟨G, _, _⟩ := C45_good_partial L2 hC hd hpod ts ht hp hb
  have hk := all_k8s hp
  have hsp := store_pols (A2 := A2) (rg := rg) (c := c) hb
  obtain ⟨rep, h1, _⟩ := C34_query_partial (Canon := HC.Plain (connA A2 B)) L excl G (by
    intro pol hpol q hq _ _
    rw [hsp] at hpol hq
    rw [hk q hq, hk pol hpol]) (by
    intro pol hpol
    rw [hsp] at hpol
    unfold Policy.Shaped
    rw [hk pol hpol]
    simp)
  obtain ⟨rs, h2, h3, h4⟩ := C34_k8s_partial L2 hC hd hpod ht hp hb excl
  have hr : rep.policies = rs := by
    obtain ⟨ps, hps⟩ := one_layer hp hb
    rw [hps, show layerList [(LayerName.k8sCalico, ps)] .k8sCalico = ps by simp [layerList]] at h2
    unfold redundancyQuery at h1
    rw [show (k8sConfig A2 W2 B rg c st).store.layers = [(.k8sCalico, ps)] from hps, List.foldlM_cons, Option.bind_eq_bind, Option.bind_eq_some_iff] at h1
    obtain ⟨r, h5, h6⟩ := h1
    cases h6
    unfold redStep at h5
    rw [if_neg (by simp)] at h5
    dsimp only at h5
    rw [h2, Option.bind_some, Option.map_eq_some_iff] at h5
    obtain ⟨rr, _, rfl⟩ := h5
    rfl
  rw [← hr] at h3 h4
  exact ⟨rep, h1, h3, h4⟩

include hC hd hpod ht hp hb in
/-- C35 from documents: a configuration of Kubernetes policies is called vacuous only if Kubernetes allows everything that
queries are about, and exactly then if addresses of IPv6 are left out.  Partial: as C45_config_partial. -/
theorem C35_k8s_partial (excl : Bool) :
    ∃ b, vacuityQuery (connNet L2 B) excl (k8sConfig A2 W2 B rg c st) = some b ∧
      (b = true → ∀ src dst proto port, Talks c excl src dst → (0 ≤ proto ∧ proto ≤ 255) → (1 ≤ port ∧ port ≤ 65535) → K8sSays rg ts src dst proto port) ∧
      (excl = true → (∀ src dst proto port, Talks c excl src dst → (0 ≤ proto ∧ proto ≤ 255) → (1 ≤ port ∧ port ≤ 65535) → K8sSays rg ts src dst proto port) →
        b = true) := by
  obtain ⟨ps, hps⟩ := one_layer hp hb
  have hg : (k8sConfig A2 W2 B rg c st).withoutGateways = some (k8sConfig A2 W2 B rg c st) := by
    unfold Config.withoutGateways
    rw [if_neg]
    change ¬ (st.layers.any _ = true)
    rw [hps]; simp
  have all : ∀ src dst proto port, K8sSays rg [] src dst proto port :=
    fun _ _ _ _ => ⟨fun ⟨_, h, _⟩ => (by cases h), fun ⟨_, h, _⟩ => (by cases h)⟩
  have H := C31_k8s_partial (ord := ord) L2 hC hd hpod ht (ts' := []) (fun t h => by cases h) hp (pols' := []) rfl hb (st' := PolicyStore.empty) rfl excl
  refine ⟨_, by unfold vacuityQuery; rw [hg]; rfl, fun h src dst proto port htk hq hr => ?_, fun he h => ?_⟩
  · exact (H.1 h src dst proto port htk hq hr).2 (all _ _ _ _)
  · exact H.2.1 he fun src dst proto port htk hq hr => ⟨fun _ => all _ _ _ _, fun _ => h src dst proto port htk hq hr⟩

/-- One of the texts alone. -/
theorem one_text (hp : policiesOf A2 W2 B ord rg c ts = some pols) {t : PolicyText} (htm : t ∈ ts) :
    ∃ pol ∈ pols, pol.name = t.full ∧ policiesOf A2 W2 B ord rg c [t] = some [pol] := by
  obtain ⟨pol, hpol, h⟩ := (mapM_some_mem hp).2 t htm
  refine ⟨pol, hpol, ?_, by unfold policiesOf; simp [h]⟩
  rw [Option.map_eq_some_iff] at h
  obtain ⟨q, _, rfl⟩ := h; rfl

theorem text_of (hp : policiesOf A2 W2 B ord rg c ts = some pols) {pol} (hpol : pol ∈ pols) :
    ∃ t ∈ ts, pol.name = t.full ∧ policiesOf A2 W2 B ord rg c [t] = some [pol] := by
  obtain ⟨t, htm, q, hq, rfl⟩ := policies_of hp hpol
  exact ⟨t, htm, rfl, by unfold policiesOf; simp [hq]⟩

/-- The lists have policies of the same names, and Kubernetes says the same of each two of one name. -/
def EachSame (rg : PodReg) (c : Container) (excl : Bool) (ts ts' : List PolicyText) : Prop :=
  (∀ n, (∃ t ∈ ts, t.full = n) ↔ ∃ t ∈ ts', t.full = n) ∧ ∀ t ∈ ts, ∀ t' ∈ ts', t.full = t'.full → SaySame rg c excl [t] [t']

theorem names_unique (hp : policiesOf A2 W2 B ord rg c ts = some pols) (hb : PolicyStore.build pols = some st) : UniqueNames (k8sConfig A2 W2 B rg c st) := by
  unfold UniqueNames
  rw [store_pols hb]
  have h := keys_nodup hb
  have hk := all_k8s hp
  unfold List.Nodup at h ⊢
  rw [List.pairwise_map] at h ⊢
  refine h.imp_of_mem fun {a b} ha hb' hne e => hne ?_
  unfold Policy.key
  rw [e, hk a ha, hk b hb']

theorem only_config {pol : Policy (HC Dim (ISet ⊕ V2)) (ConnPeers W2 B)} {s} (o : Only (k8sConfig A2 W2 B rg c st) pol s) :
    s = k8sConfig A2 W2 B rg c s.store := by
  obtain ⟨a, b, d⟩ := s
  have h1 := o.peers
  have h2 := o.services
  dsimp only at h1 h2
  subst h1; subst h2; rfl

variable {ts' : List PolicyText} {pols' : List (Policy (HC Dim (ISet ⊕ V2)) (ConnPeers W2 B))} {st' : PolicyStore (HC Dim (ISet ⊕ V2)) (ConnPeers W2 B)}
  (ht' : ∀ t ∈ ts', TameText c t) (hp' : policiesOf A2 W2 B ord rg c ts' = some pols') (hb' : PolicyStore.build pols' = some st')

include hC hd ht hp hb ht' hp' hb' in
theorem strong_iff (excl : Bool) :
    StronglyEquivalent (connNet L2 B) excl (k8sConfig A2 W2 B rg c st) (k8sConfig A2 W2 B rg c st') ↔ EachSame rg c excl ts ts' := by
  have hk := all_k8s hp
  have hk' := all_k8s hp'
  unfold StronglyEquivalent EachSame
  rw [store_pols hb, store_pols hb']
  have keys : ∀ {ts pols}, policiesOf A2 W2 B ord rg c ts = some pols → ∀ n, (n, PolicyKind.k8s) ∈ pols.map Policy.key ↔ ∃ t ∈ ts, t.full = n := by
    intro ts pols hp n
    rw [List.mem_map]
    constructor
    · rintro ⟨pol, hpol, h⟩
      obtain ⟨t, htm, hn, _⟩ := text_of hp hpol
      exact ⟨t, htm, hn.symm.trans (Prod.mk.inj h).1⟩
    · rintro ⟨t, htm, rfl⟩
      obtain ⟨pol, hpol, hn, _⟩ := one_text hp htm
      exact ⟨pol, hpol, by unfold Policy.key; rw [hn, all_k8s hp pol hpol]⟩
  have tame1 : ∀ {ts : List PolicyText}, (∀ t ∈ ts, TameText c t) → ∀ {t}, t ∈ ts → ∀ u ∈ [t], TameText c u := fun h t htm u hu => by
    rw [List.mem_singleton.1 hu]; exact h t htm
  refine and_congr ⟨fun h n => ?_, fun h k => ?_⟩ ⟨fun h t htm t' htm' he => ?_, fun h a ha b hb'' he s1 s2 o1 o2 => ?_⟩
  · rw [← keys hp, ← keys hp']; exact h _
  · obtain ⟨n, kd⟩ := k
    by_cases hkd : kd = .k8s
    · subst hkd; rw [keys hp, keys hp']; exact h n
    · refine ⟨fun h => ?_, fun h => ?_⟩ <;> obtain ⟨pol, hpol, e⟩ := List.mem_map.1 h
      · exact absurd ((Prod.mk.inj e).2.symm.trans (hk pol hpol)) hkd
      · exact absurd ((Prod.mk.inj e).2.symm.trans (hk' pol hpol)) hkd
  · obtain ⟨a, ha, hn, h1⟩ := one_text hp htm
    obtain ⟨b, hb'', hn', h1'⟩ := one_text hp' htm'
    obtain ⟨s1, e1⟩ := (build_some_iff [a]).2 (List.pairwise_singleton _ _)
    obtain ⟨s2, e2⟩ := (build_some_iff [b]).2 (List.pairwise_singleton _ _)
    refine (same_iff L2 hC hd (tame1 ht htm) (tame1 ht' htm') h1 h1' e1 e2 excl).1 (h a ha b hb'' ?_ _ _ ⟨rfl, rfl, e1⟩ ⟨rfl, rfl, e2⟩)
    unfold Policy.key
    rw [hn, hn', he, hk a ha, hk' b hb'']
  · obtain ⟨t, htm, hn, h1⟩ := text_of hp ha
    obtain ⟨t', htm', hn', h1'⟩ := text_of hp' hb''
    rw [only_config o1, only_config o2]
    refine (same_iff L2 hC hd (tame1 ht htm) (tame1 ht' htm') h1 h1' o1.store o2.store excl).2 (h t htm t' htm' ?_)
    rw [← hn, ← hn']; exact (Prod.mk.inj he).1

include hC hd hpod ht hp hb ht' hp' hb' in
/-- C42 from documents: two lists of Kubernetes policies of one cluster are called strongly equivalent only if they have
policies of the same names and Kubernetes says the same of each two of one name, and exactly then if addresses of IPv6 are
left out.  Partial: as C45_config_partial. -/
theorem C42_k8s_partial (excl : Bool) :
    ∃ ans, strongQuery (connNet L2 B) excl (k8sConfig A2 W2 B rg c st) (k8sConfig A2 W2 B rg c st') = some ans ∧ ans.notExecuted = false ∧
      (ans.num = 0 ↔ ans.bool = true) ∧ (ans.bool = true → EachSame rg c excl ts ts') ∧ (excl = true → EachSame rg c excl ts ts' → ans.bool = true) := by
  obtain ⟨L, X⟩ := connNet_lawful L2 B
  obtain ⟨G, _, _⟩ := C45_good_partial L2 hC hd hpod ts ht hp hb
  obtain ⟨G', _, _⟩ := C45_good_partial L2 hC hd hpod ts' ht' hp' hb'
  have solid : ∀ {ts pols st}, (∀ t ∈ ts, TameText c t) → policiesOf A2 W2 B ord rg c ts = some pols → PolicyStore.build pols = some st →
      ∀ a ∈ (k8sConfig A2 W2 B rg c st).store.policies, ∀ s, Only (k8sConfig A2 W2 B rg c st) a s → s.Solid (connNet L2 B) := by
    intro ts pols st ht hp hb a ha s o
    rw [store_pols hb] at ha
    obtain ⟨t, htm, _, h1⟩ := text_of hp ha
    rw [only_config o]
    exact (C45_good_partial L2 hC hd hpod [t] (fun u hu => by rw [List.mem_singleton.1 hu]; exact ht t htm) h1 o.store).2.1
  obtain ⟨ans, h1, h2, h3, h4, h5⟩ := C42_strong_partial (Canon := HC.Plain (connA A2 B)) L excl G G' (names_unique hp hb) (names_unique hp' hb')
    (same_topology L2 st st') (solid ht hp hb) (solid ht' hp' hb')
  have hs := strong_iff L2 hC hd ht hp hb ht' hp' hb' excl
  exact ⟨ans, h1, h2, h3, fun h => hs.1 (h4 h), fun he h => h5 X he (hs.2 h)⟩

end
end K8sParser
end Verif
