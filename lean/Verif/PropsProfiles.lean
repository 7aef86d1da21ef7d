import Verif.ProfileModel
import Verif.PropsSelectors
/-!
Property theorems C63 (which documents are read as policies, and the labels of Calico profiles).
-/
namespace Verif
open ISet

namespace PolicyDocs
open Container Topology CalicoParser

/-! ### Specification -/

/-- The kinds of documents and the versions of their interfaces that the program supports. -/
def supported : List (PType × String × String) :=
  [(.k8s, "NetworkPolicy", "networking.k8s.io/v1"), (.k8s, "NetworkPolicy", "extensions/v1beta1"),
   (.calico, "NetworkPolicy", "projectcalico.org/v3"), (.calicoGlobal, "GlobalNetworkPolicy", "projectcalico.org/v3"),
   (.calicoProfile, "Profile", "projectcalico.org/v3"),
   (.istioAuthz, "AuthorizationPolicy", "security.istio.io/v1beta1"), (.istioAuthz, "AuthorizationPolicy", "security.istio.io/v1"),
   (.istioSidecar, "Sidecar", "networking.istio.io/v1alpha3"), (.istioSidecar, "Sidecar", "networking.istio.io/v1beta1"),
   (.gateway, "Gateway", "networking.istio.io/v1alpha3"), (.gateway, "Gateway", "networking.istio.io/v1beta1"),
   (.virtualService, "VirtualService", "networking.istio.io/v1alpha3"), (.virtualService, "VirtualService", "networking.istio.io/v1beta1"),
   (.ingress, "Ingress", "networking.k8s.io/v1")]

section
variable {δ : Type}

mutual
/-- The documents with the items of lists in place of the lists. -/
def Yaml.docs : Yaml δ → List (String × String × Body δ)
  | .other => []
  | .map (some k) (some a) items body =>
    if k = "" ∨ a = "" then [] else if "List".toList <:+ k.toList then Yaml.docsAll items else [(k, a, body)]
  | .map none _ _ _ => []
  | .map (some _) none _ _ => []

/-- The same for several documents. -/
def Yaml.docsAll : List (Yaml δ) → List (String × String × Body δ)
  | [] => []
  | y :: ys => y.docs ++ Yaml.docsAll ys
end

/-- The profiles of the input. -/
def profilesOf (l : List (Yaml δ)) : List ProfileText := (Yaml.docsAll l).filterMap fun d =>
  match d.2.2 with
  | .profile t => if (.calicoProfile, d.1, d.2.1) ∈ supported then some t else none
  | .policy _ => none

/-- The policies of the input. -/
def policiesOf (l : List (Yaml δ)) : List δ := (Yaml.docsAll l).filterMap fun d =>
  match d.2.2 with
  | .profile _ => none
  | .policy x => if ∃ e ∈ supported, e.1 ≠ .calicoProfile ∧ e.2 = (d.1, d.2.1) then some x else none

/-- The label that the first profile of the input gives, of those that the endpoint has and that have the key. -/
def firstLabel (ps : List ProfileText) (profiles : List String) (k : String) : Option String :=
  ps.findSome? fun p => if p.name ∈ profiles then p.labels.lookup k else none

/-- The label of an endpoint in Calico: its own, or that of the first of its profiles that has the key. -/
def calicoLabel (ps : List ProfileText) (own : Labels) (profiles : List String) (k : String) : Option String :=
  (own.lookup k).or (profiles.findSome? fun n => (ps.find? fun p => decide (p.name = n)).bind fun p => p.labels.lookup k)

/-- The labels of an endpoint with all of its profiles do not contradict each other. -/
structure Agree (ps : List ProfileText) (labels : Labels) (profiles : List String) : Prop where
  both : ∀ p ∈ ps, ∀ p' ∈ ps, p.name ∈ profiles → p'.name ∈ profiles → ∀ k v v', p.labels.lookup k = some v → p'.labels.lookup k = some v' → v = v'
  own : ∀ p ∈ ps, p.name ∈ profiles → ∀ k v v', labels.lookup k = some v → p.labels.lookup k = some v' → v = v'

/-- The object with the labels of profiles. -/
def Marks (ps : List ProfileText) (o o' : PeerObj) : Prop :=
  o' = withExtra o o'.info.extra ∧ ∀ k, o'.info.extra.lookup k = firstLabel ps o.profiles k

/-! ### Kinds -/

/-- The kind of the documents of a type. -/
def PType.kind (k : String) : PType → String
  | .k8s | .calico => "NetworkPolicy" | .calicoGlobal => "GlobalNetworkPolicy" | .calicoProfile => "Profile" | .istioAuthz => "AuthorizationPolicy"
  | .istioSidecar => "Sidecar" | .gateway => "Gateway" | .virtualService => "VirtualService" | .ingress => "Ingress" | .unknown | .list => k

theorem policyType_kind {t : PType} {k a : String} (h : policyType (some k) (some a) = t) : k = t.kind k := by
  unfold policyType at h
  dsimp only at h
  split_ifs at h <;> subst h <;> first | rfl | assumption

theorem checkApi_true {ks vs : List String} {a : String} (h : checkApi ks vs a = some true) : a ∈ vs := by
  unfold checkApi at h
  split at h
  · split at h
    · assumption
    · cases h
  · cases h

/-- C63: a document is read as a policy of some type exactly if its kind and version are supported for that type. -/
theorem C63_kinds (t : PType) (k a : String) : policyType (some k) (some a) = t ∧ gate t a = some true ↔ (t, k, a) ∈ supported := by
  constructor
  · rintro ⟨h, hg⟩
    have hk := policyType_kind h
    clear h
    cases t <;> first
      | (have hg : some false = some true := hg; cases hg)
      | (have ha := checkApi_true hg
         clear hg
         simp only [PType.kind] at hk
         simp only [List.mem_cons, List.not_mem_nil, or_false] at ha
         subst hk
         first
           | (subst ha; simp [supported]; done)
           | (rcases ha with rfl | rfl <;> simp [supported]))
  · intro h
    simp only [supported, List.mem_cons, List.not_mem_nil, or_false, Prod.mk.injEq] at h
    rcases h with ⟨rfl, rfl, rfl⟩ | ⟨rfl, rfl, rfl⟩ | ⟨rfl, rfl, rfl⟩ | ⟨rfl, rfl, rfl⟩ | ⟨rfl, rfl, rfl⟩ | ⟨rfl, rfl, rfl⟩ | ⟨rfl, rfl, rfl⟩ | ⟨rfl, rfl, rfl⟩ |
      ⟨rfl, rfl, rfl⟩ | ⟨rfl, rfl, rfl⟩ | ⟨rfl, rfl, rfl⟩ | ⟨rfl, rfl, rfl⟩ | ⟨rfl, rfl, rfl⟩ | ⟨rfl, rfl, rfl⟩ <;> decide +kernel

/-! ### The queue -/

/-- The entry of a document. -/
def entryOf (d : String × String × Body δ) : Entry δ := ⟨policyType (some d.1) (some d.2.1), d.2.1, d.2.2⟩

/-- The entries of documents, profiles or others. -/
def entries (prof : Bool) (l : List (String × String × Body δ)) : List (Entry δ) :=
  (l.map entryOf).filter fun e => decide (e.type ≠ .unknown) && (decide (e.type = .calicoProfile) == prof)

theorem entries_append (prof : Bool) (a b : List (String × String × Body δ)) : entries prof (a ++ b) = entries prof a ++ entries prof b := by
  simp [entries]

mutual
theorem enqueue_eq : ∀ (y : Yaml δ) (q : List (Entry δ)), y.enqueue q = (entries true y.docs).reverse ++ q ++ entries false y.docs
  | .other, q => by simp [Yaml.enqueue, Yaml.docs, entries]
  | .map none _ _ _, q => by simp [Yaml.enqueue, Yaml.docs, entries, policyType]
  | .map (some _) none _ _, q => by simp [Yaml.enqueue, Yaml.docs, entries, policyType]
  | .map (some k) (some a) items body, q => by
    rw [Yaml.enqueue, Yaml.docs]
    by_cases h0 : k = "" ∨ a = ""
    · have : policyType (some k) (some a) = .unknown := by unfold policyType; simp only [h0, if_true]
      simp [this, h0, entries]
    · by_cases h1 : "List".toList <:+ k.toList
      · have : policyType (some k) (some a) = .list := by unfold policyType; simp only [h0, h1, if_false, if_true]
        rw [this, if_neg h0, if_pos h1]
        exact enqueueAll_eq items q
      · have hl : policyType (some k) (some a) ≠ .list := by
          unfold policyType; simp only [h0, h1, if_false]
          split_ifs <;> simp
        rw [if_neg h0, if_neg h1]
        cases ht : policyType (some k) (some a) <;> first | exact absurd ht hl | simp [entries, entryOf, ht]
theorem enqueueAll_eq : ∀ (l : List (Yaml δ)) (q : List (Entry δ)),
    Yaml.enqueueAll q l = (entries true (Yaml.docsAll l)).reverse ++ q ++ entries false (Yaml.docsAll l)
  | [], q => by simp [Yaml.enqueueAll, Yaml.docsAll, entries]
  | y :: ys, q => by
    rw [Yaml.enqueueAll, Yaml.docsAll, enqueueAll_eq ys, enqueue_eq y, entries_append, entries_append]
    simp
end

/-! ### Labels -/

/-- `labelsToApply` of one profile. -/
def addAll (e labels : Labels) : Labels := labels.foldl (fun e kv => setExtra e kv.1 kv.2) e

theorem setExtra_lookup (e : Labels) (k v k' : String) : (setExtra e k v).lookup k' = if k' = k then some v else e.lookup k' := by
  unfold setExtra
  rw [List.lookup_cons]
  by_cases h : k' = k
  · simp [h]
  · have : (k' == k) = false := by simpa using h
    rw [this, if_neg h]
    dsimp only
    induction e with
    | nil => rfl
    | cons kv e ih =>
      by_cases hk : kv.1 = k
      · rw [List.filter_cons_of_neg (by simp [hk]), ih, List.lookup_cons]
        have : (k' == kv.1) = false := by rw [hk]; simpa using h
        rw [this]
      · rw [List.filter_cons_of_pos (by simp [hk]), List.lookup_cons, List.lookup_cons, ih]

theorem addAll_lookup (labels : Labels) : ∀ (e : Labels), (labels.map (·.1)).Nodup → ∀ k, (addAll e labels).lookup k = (labels.lookup k).or (e.lookup k) := by
  induction labels with
  | nil => intro e _ k; simp [addAll]
  | cons kv l ih =>
    intro e hn k
    rw [List.map_cons, List.nodup_cons] at hn
    have := ih (setExtra e kv.1 kv.2) hn.2 k
    unfold addAll at this ⊢
    rw [List.foldl_cons, this, setExtra_lookup, List.lookup_cons]
    by_cases h : k = kv.1
    · have h0 : l.lookup k = none := by
        rw [List.lookup_eq_none_iff]
        intro p hp
        have : kv.1 ≠ p.1 := fun he => hn.1 (he ▸ List.mem_map_of_mem hp)
        simpa [h] using this
      simp [h0, h]
      rw [← h, h0]; rfl
    · have : (k == kv.1) = false := by simpa using h
      rw [this, if_neg h]

/-- The effect of a profile on the labels of an endpoint. -/
def mark (profiles : List String) (t : ProfileText) (e : Labels) : Labels := if t.name ∈ profiles then addAll e t.labels else e

/-- The effect of profiles. -/
def marks (ps : List ProfileText) (profiles : List String) : Labels := ps.foldr (mark profiles) []

theorem marks_lookup {ps : List ProfileText} (hn : ∀ p ∈ ps, (p.labels.map (·.1)).Nodup) (profiles : List String) (k : String) :
    (marks ps profiles).lookup k = firstLabel ps profiles k := by
  induction ps with
  | nil => rfl
  | cons p ps ih =>
    have ih := ih fun q hq => hn q (List.mem_cons_of_mem _ hq)
    unfold marks firstLabel at *
    rw [List.foldr_cons, List.findSome?_cons]
    unfold mark
    split
    · rw [addAll_lookup _ _ (hn p List.mem_cons_self)]
      unfold mark at ih
      rw [ih]
      cases p.labels.lookup k <;> rfl
    · exact ih

theorem apply_marks (objs : List PeerObj) (t : ProfileText) (m : List String → Labels) :
    applyLabels (objs.map fun o => withExtra o (m o.profiles)) t.name t.labels = objs.map fun o => withExtra o (mark o.profiles t (m o.profiles)) := by
  unfold applyLabels
  rw [List.map_map]
  refine List.map_congr_left fun o _ => ?_
  show (if !(withExtra o _).profiles.isEmpty && decide (t.name ∈ (withExtra o _).profiles) then _ else _) = _
  have hp : ∀ e, (withExtra o e).profiles = o.profiles := fun _ => rfl
  rw [hp]
  unfold mark
  by_cases h : t.name ∈ o.profiles
  · have : o.profiles.isEmpty = false := by cases hq : o.profiles <;> simp_all
    simp only [this, h, decide_true, Bool.not_false, Bool.and_self, if_true]
    rfl
  · simp [h]

variable {V2 X2 : Type} {K : CharCls} {A2 : VAlg Dim V2 X2} {B : PeerDom} {ord : SetOrder} {rg : PodReg} {fits : PType → δ → Bool}

theorem parseProfile_some {objs objs' : List PeerObj} {t : ProfileText} (h : parseProfile K A2 B ord rg objs t = some objs') :
    objs' = applyLabels objs t.name t.labels := by
  unfold parseProfile at h
  split_ifs at h
  rw [Option.bind_eq_bind, Option.bind_eq_some_iff] at h
  obtain ⟨_, _, h⟩ := h
  rw [Option.bind_eq_some_iff] at h
  obtain ⟨_, _, h⟩ := h
  cases h
  rfl

/-- The profile of an entry. -/
def Entry.profile? (e : Entry δ) : Option ProfileText :=
  match e.body with
  | .profile t => if gate e.type e.api = some true then some t else none
  | .policy _ => none

/-- The policy of an entry. -/
def Entry.policy? (e : Entry δ) : Option δ :=
  match e.body with
  | .profile _ => none
  | .policy d => if gate e.type e.api = some true then some d else none

theorem fold_profiles (objs : List PeerObj) (done : List (δ × Container)) : ∀ (l : List (Entry δ)) (m : List String → Labels) (s : State δ),
    (∀ e ∈ l, e.type = .calicoProfile) →
    l.foldlM (parseOne K A2 B ord rg fits) ⟨objs.map fun o => withExtra o (m o.profiles), done⟩ = some s →
    s = ⟨objs.map fun o => withExtra o ((l.filterMap Entry.profile?).foldl (fun e t => mark o.profiles t e) (m o.profiles)), done⟩ := by
  intro l
  induction l with
  | nil => intro m s _ h; cases h; rfl
  | cons e l ih =>
    intro m s ht h
    rw [List.foldlM_cons, Option.bind_eq_bind, Option.bind_eq_some_iff] at h
    obtain ⟨s1, h1, h2⟩ := h
    unfold parseOne at h1
    rw [Option.bind_eq_some_iff] at h1
    obtain ⟨g, hg, h1⟩ := h1
    have hty := ht e List.mem_cons_self
    cases g with
    | false =>
      cases h1
      have : e.profile? = none := by unfold Entry.profile?; cases e.body <;> simp [hg]
      rw [List.filterMap_cons_none this]
      exact ih m s (fun x hx => ht x (List.mem_cons_of_mem _ hx)) h2
    | true =>
      rw [if_pos rfl, hty] at h1
      cases hb : e.body with
      | policy d => rw [hb] at h1; cases h1
      | profile t =>
        rw [hb] at h1
        simp only [Option.map_eq_some_iff] at h1
        obtain ⟨o1, h1, rfl⟩ := h1
        have h1 := parseProfile_some h1
        rw [apply_marks objs t m] at h1
        subst h1
        have : e.profile? = some t := by unfold Entry.profile?; simp [hg, hb]
        rw [List.filterMap_cons_some this]
        exact ih (fun p => mark p t (m p)) s (fun x hx => ht x (List.mem_cons_of_mem _ hx)) h2

theorem fold_policies (objs : List PeerObj) : ∀ (l : List (Entry δ)) (done : List (δ × Container)) (s : State δ),
    (∀ e ∈ l, e.type ≠ .calicoProfile) →
    l.foldlM (parseOne K A2 B ord rg fits) ⟨objs, done⟩ = some s →
    s = ⟨objs, done ++ (l.filterMap Entry.policy?).map fun d => (d, objs.map PeerObj.info)⟩ := by
  intro l
  induction l with
  | nil => intro done s _ h; cases h; simp
  | cons e l ih =>
    intro done s ht h
    rw [List.foldlM_cons, Option.bind_eq_bind, Option.bind_eq_some_iff] at h
    obtain ⟨s1, h1, h2⟩ := h
    unfold parseOne at h1
    rw [Option.bind_eq_some_iff] at h1
    obtain ⟨g, hg, h1⟩ := h1
    have hty := ht e List.mem_cons_self
    cases g with
    | false =>
      cases h1
      have : e.policy? = none := by unfold Entry.policy?; cases e.body <;> simp [hg]
      rw [List.filterMap_cons_none this]
      exact ih done s (fun x hx => ht x (List.mem_cons_of_mem _ hx)) h2
    | true =>
      rw [if_pos rfl] at h1
      cases hb : e.body with
      | profile t =>
        rw [hb] at h1
        cases he : e.type <;> rw [he] at h1 hty <;> first | exact absurd rfl hty | cases h1
      | policy d =>
        have h1 : (if fits e.type d then some (⟨objs, done ++ [(d, objs.map PeerObj.info)]⟩ : State δ) else none) = some s1 := by
          rw [hb] at h1
          cases he : e.type <;> rw [he] at h1 hty <;> first | exact absurd rfl hty | exact h1
        split at h1
        · cases h1
          have : e.policy? = some d := by unfold Entry.policy?; simp [hg, hb]
          rw [List.filterMap_cons_some this, List.map_cons, ih _ s (fun x hx => ht x (List.mem_cons_of_mem _ hx)) h2]
          simp
        · cases h1

theorem profiles_entries (l : List (Yaml δ)) : (entries true (Yaml.docsAll l)).filterMap Entry.profile? = profilesOf l := by
  unfold entries profilesOf
  generalize Yaml.docsAll l = ds
  rw [List.filterMap_filter, List.filterMap_map]
  refine List.filterMap_congr fun d _ => ?_
  obtain ⟨k, a, b⟩ := d
  have hk := C63_kinds .calicoProfile k a
  cases b with
  | policy x =>
    simp only [entryOf, Entry.profile?, Function.comp_apply]
    exact ite_eq_right_iff.2 fun _ => rfl
  | profile t =>
    simp only [entryOf, Entry.profile?, Function.comp_apply]
    by_cases h : policyType (some k) (some a) = .calicoProfile
    · simp only [h] at hk ⊢
      by_cases hg : gate .calicoProfile a = some true
      · simp [hg, hk.1 ⟨trivial, hg⟩]
      · have : (PType.calicoProfile, k, a) ∉ supported := fun hs => hg (hk.2 hs).2
        simp [hg, this]
    · have : (PType.calicoProfile, k, a) ∉ supported := fun hs => h (hk.2 hs).1
      simp [h, this]

theorem policies_entries (l : List (Yaml δ)) : (entries false (Yaml.docsAll l)).filterMap Entry.policy? = policiesOf l := by
  unfold entries policiesOf
  generalize Yaml.docsAll l = ds
  rw [List.filterMap_filter, List.filterMap_map]
  refine List.filterMap_congr fun d _ => ?_
  obtain ⟨k, a, b⟩ := d
  have hk := fun t => C63_kinds t k a
  cases b with
  | profile x =>
    simp only [entryOf, Entry.policy?, Function.comp_apply]
    exact ite_eq_right_iff.2 fun _ => rfl
  | policy x =>
    simp only [entryOf, Entry.policy?, Function.comp_apply]
    have sup : (∃ e ∈ supported, e.1 ≠ .calicoProfile ∧ e.2 = (k, a)) ↔ policyType (some k) (some a) ≠ .calicoProfile ∧ gate (policyType (some k) (some a)) a = some true := by
      constructor
      · rintro ⟨⟨t, k', a'⟩, he, h1, h2⟩
        cases h2
        obtain ⟨e1, e2⟩ := (hk t).2 he
        rw [e1]; exact ⟨h1, e2⟩
      · rintro ⟨h1, h2⟩
        exact ⟨_, (hk _).1 ⟨rfl, h2⟩, h1, rfl⟩
    have unk : gate .unknown a = some false := rfl
    by_cases hu : policyType (some k) (some a) = .unknown
    · rw [if_neg (by rw [sup, hu, unk]; simp)]
      simp [hu]
    · by_cases hp : policyType (some k) (some a) = .calicoProfile
      · rw [if_neg (by rw [sup]; simp [hp])]
        simp [hp]
      · by_cases hg : gate (policyType (some k) (some a)) a = some true
        · rw [if_pos (sup.2 ⟨hp, hg⟩)]
          simp [hu, hp, hg]
        · rw [if_neg (by rw [sup]; simp [hg])]
          simp [hg]

/-! ### The policies and the labels with which they are parsed -/

theorem readDocs_eq {objs : List PeerObj} {docs : List (Yaml δ)} {s : State δ} (h : readDocs K A2 B ord rg fits objs docs = some s) :
    s.objs = objs.map (fun o => withExtra o (marks (profilesOf docs) o.profiles)) ∧ s.done = (policiesOf docs).map fun d => (d, s.objs.map PeerObj.info) := by
  unfold readDocs at h
  rw [enqueueAll_eq, List.append_nil, List.foldlM_append, Option.bind_eq_bind, Option.bind_eq_some_iff] at h
  obtain ⟨s1, h1, h2⟩ := h
  have e1 := fold_profiles objs [] _ (fun _ => []) s1 (fun e he => by
    have := (List.mem_filter.1 (List.mem_reverse.1 he)).2
    simpa using (by simpa using this : _ ∧ _).2) h1
  subst e1
  have e2 := fold_policies _ _ _ s (fun e he => by
    have := (List.mem_filter.1 he).2
    simpa using (by simpa using this : _ ∧ _).2) h2
  subst e2
  rw [List.filterMap_reverse, profiles_entries, policies_entries]
  simp only [List.foldl_reverse, List.nil_append]
  exact ⟨rfl, trivial⟩

/-- C63: all policies of the input, and nothing else, are parsed, in their order, and with the same labels: each endpoint has,
beside its own labels, those of its profiles, wherever in the input the profiles are; of profiles with the same label the
first in the input counts. -/
theorem C63_read {objs : List PeerObj} {docs : List (Yaml δ)} {s : State δ} (hn : ∀ p ∈ profilesOf docs, (p.labels.map (·.1)).Nodup)
    (h : readDocs K A2 B ord rg fits objs docs = some s) :
    s.done = (policiesOf docs).map (fun d => (d, s.objs.map PeerObj.info)) ∧ List.Forall₂ (Marks (profilesOf docs)) objs s.objs := by
  obtain ⟨h1, h2⟩ := readDocs_eq h
  refine ⟨h2, ?_⟩
  rw [h1, List.forall₂_map_right_iff]
  exact List.forall₂_same.2 fun o _ => ⟨rfl, fun k => marks_lookup hn o.profiles k⟩

/-- C63: what is parsed depends on nothing but the policies, the names and labels of the profiles, and the endpoints: not on
the places of the profiles among the policies, nor on their rules, nor on labels that other configurations left. -/
theorem C63_depends {objs objs' : List PeerObj} {docs docs' : List (Yaml δ)} {s s' : State δ} (ho : clearExtra objs = clearExtra objs')
    (hp : (profilesOf docs).map (fun p => (p.name, p.labels)) = (profilesOf docs').map fun p => (p.name, p.labels)) (hq : policiesOf docs = policiesOf docs')
    (h : readDocs K A2 B ord rg fits objs docs = some s) (h' : readDocs K A2 B ord rg fits objs' docs' = some s') : s = s' := by
  obtain ⟨h1, h2⟩ := readDocs_eq h
  obtain ⟨h1', h2'⟩ := readDocs_eq h'
  have key : ∀ (ps : List ProfileText) (pr : List String), marks ps pr =
      (ps.map fun p => (p.name, p.labels)).foldr (fun p e => if p.1 ∈ pr then addAll e p.2 else e) [] := by
    intro ps pr
    unfold marks mark
    rw [List.foldr_map]
  have hm : ∀ pr, marks (profilesOf docs) pr = marks (profilesOf docs') pr := fun pr => by rw [key, key, hp]
  have gen : ∀ (l : List PeerObj) (m : List String → Labels), l.map (fun o => withExtra o (m o.profiles)) = (clearExtra l).map fun o => withExtra o (m o.profiles) := by
    intro l m
    unfold clearExtra
    rw [List.map_map]
    rfl
  have e : s.objs = s'.objs := by
    rw [h1, h1', gen, gen objs', ho]
    exact List.map_congr_left fun o _ => by rw [hm]
  obtain ⟨o, d⟩ := s
  obtain ⟨o', d'⟩ := s'
  dsimp only at e h2 h2'
  subst e
  rw [h2, h2', hq]

theorem firstLabel_some {ps : List ProfileText} {profiles : List String} {k w : String} (hw : firstLabel ps profiles k = some w) :
    ∃ p ∈ ps, p.name ∈ profiles ∧ p.labels.lookup k = some w := by
  obtain ⟨p, hp, h⟩ := List.exists_of_findSome?_eq_some hw
  split at h
  · exact ⟨p, hp, ‹_›, h⟩
  · cases h

/-- The label of Calico, where labels agree. -/
theorem calicoLabel_eq {ps : List ProfileText} {labels : Labels} {profiles : List String} (hd : (ps.map ProfileText.name).Nodup) (ha : Agree ps labels profiles) (k : String) :
    calicoLabel ps labels profiles k = (labels.lookup k).or (firstLabel ps profiles k) := by
  have find : ∀ p ∈ ps, (ps.find? fun q => decide (q.name = p.name)) = some p := by
    intro p hp
    cases h : ps.find? fun q => decide (q.name = p.name) with
    | none =>
      rw [List.find?_eq_none] at h
      exact absurd (by simp) (h p hp)
    | some q =>
      have hq := List.mem_of_find?_eq_some h
      have hqn : q.name = p.name := by simpa using List.find?_some h
      rw [List.inj_on_of_nodup_map hd hq hp hqn]
  have one := fun w => firstLabel_some (ps := ps) (profiles := profiles) (k := k) (w := w)
  have two : ∀ w, (profiles.findSome? fun n => (ps.find? fun p => decide (p.name = n)).bind fun p => p.labels.lookup k) = some w →
      ∃ p ∈ ps, p.name ∈ profiles ∧ p.labels.lookup k = some w := by
    intro w hw
    obtain ⟨n, hn, h⟩ := List.exists_of_findSome?_eq_some hw
    rw [Option.bind_eq_some_iff] at h
    obtain ⟨p, hp, h⟩ := h
    have hpn : p.name = n := by simpa using List.find?_some hp
    exact ⟨p, List.mem_of_find?_eq_some hp, hpn ▸ hn, h⟩
  have same : firstLabel ps profiles k = profiles.findSome? fun n => (ps.find? fun p => decide (p.name = n)).bind fun p => p.labels.lookup k := by
    cases h : firstLabel ps profiles k with
    | some w =>
      obtain ⟨p, hp, hpn, hw⟩ := one w h
      cases h' : profiles.findSome? fun n => (ps.find? fun p => decide (p.name = n)).bind fun p => p.labels.lookup k with
      | some w' =>
        obtain ⟨p', hp', hpn', hw'⟩ := two w' h'
        rw [ha.both p hp p' hp' hpn hpn' k w w' hw hw']
      | none =>
        rw [List.findSome?_eq_none_iff] at h'
        have := h' p.name hpn
        rw [find p hp, Option.bind_some, hw] at this
        cases this
    | none =>
      unfold firstLabel at h
      rw [List.findSome?_eq_none_iff] at h
      symm
      rw [List.findSome?_eq_none_iff]
      intro n hn
      cases hf : ps.find? fun p => decide (p.name = n) with
      | none => rfl
      | some p =>
        have hpn : p.name = n := by simpa using List.find?_some hf
        have := h p (List.mem_of_find?_eq_some hf)
        rw [if_pos (hpn ▸ hn)] at this
        exact this
  unfold calicoLabel
  rw [same]

/-- C63: where the labels of endpoints and profiles do not contradict each other, selectors see the labels that the endpoint
has in Calico.
PARTIAL.  Full statement: without `ha`.  Missing: own labels do not hide those of profiles (`C63_own_wrong`), and of two
profiles the first in the input counts, not the first of the endpoint (`C63_order_wrong`). -/
theorem C63_labels_partial {ps : List ProfileText} {o o' : PeerObj} (hm : Marks ps o o') (hd : (ps.map ProfileText.name).Nodup) (ha : Agree ps o.info.labels o.profiles) (k v : String) :
    o'.info.HasVal k v ↔ calicoLabel ps o.info.labels o.profiles k = some v := by
  obtain ⟨h1, h2⟩ := hm
  have hl : o'.info.labels = o.info.labels := by rw [h1]; rfl
  unfold PeerInfo.HasVal
  rw [hl, h2 k]
  rw [calicoLabel_eq hd ha]
  cases hown : o.info.labels.lookup k with
  | none => simp
  | some w =>
    simp only [Option.some_or]
    constructor
    · rintro (h | h)
      · exact h
      · obtain ⟨p, hp, hpn, hw⟩ := firstLabel_some h
        rw [ha.own p hp hpn k w v hown hw]
    · exact Or.inl

/-! ### Acceptance -/

/-- A profile with nothing but labels. -/
structure ProfileText.Plain (t : ProfileText) : Prop where
  nsSelector : t.text.nsSelector = none
  selector : t.text.selector = none
  order : t.text.order = none
  ingress : t.text.ingress = none
  egress : t.text.egress = none
  types : ∀ s ∈ t.text.types, s = "Egress" ∨ s = "Ingress"

theorem parseProfile_plain {t : ProfileText} (h : t.Plain) (objs : List PeerObj) :
    parseProfile K A2 B ord rg objs t = some (applyLabels objs t.name t.labels) := by
  have hty : (t.text.types.all fun s => decide (s ∈ ["Egress", "Ingress"])) = true := by
    rw [List.all_eq_true]
    intro s hs
    rcases h.types s hs with rfl | rfl <;> decide
  unfold parseProfile
  simp only [h.nsSelector, h.selector, h.order, h.ingress, h.egress, hty, given]
  simp

/-- C63: the input is accepted, if all documents of the kinds of policies have supported versions and the forms of their
kinds, and profiles have nothing but labels. -/
theorem C63_accepts (objs : List PeerObj) {docs : List (Yaml δ)}
    (h : ∀ d ∈ Yaml.docsAll docs, (∀ e ∈ supported, e.2.1 ≠ d.1) ∨
      (∃ t, d.2.2 = .profile t ∧ t.Plain ∧ (.calicoProfile, d.1, d.2.1) ∈ supported) ∨
      ∃ x ty, d.2.2 = .policy x ∧ ty ≠ .calicoProfile ∧ (ty, d.1, d.2.1) ∈ supported ∧ fits ty x = true) :
    ∃ s, readDocs K A2 B ord rg fits objs docs = some s := by
  have fold : ∀ (l : List (Entry δ)) (s : State δ), (∀ e ∈ l, gate e.type e.api = some false ∨
      (e.type = .calicoProfile ∧ ∃ t, e.body = .profile t ∧ t.Plain ∧ gate e.type e.api = some true) ∨
      (e.type ≠ .calicoProfile ∧ ∃ x, e.body = .policy x ∧ gate e.type e.api = some true ∧ fits e.type x = true)) →
      ∃ s', l.foldlM (parseOne K A2 B ord rg fits) s = some s' := by
    intro l
    induction l with
    | nil => intro s _; exact ⟨s, rfl⟩
    | cons e l ih =>
      intro s he
      have one : ∃ s1, parseOne K A2 B ord rg fits s e = some s1 := by
        unfold parseOne
        rcases he e List.mem_cons_self with hg | ⟨hty, t, hb, hp, hg⟩ | ⟨hty, x, hb, hg, hf⟩
        · rw [hg]; exact ⟨s, rfl⟩
        · rw [hg, Option.bind_some, if_pos rfl, hty, hb]
          dsimp only
          rw [parseProfile_plain hp]
          exact ⟨_, rfl⟩
        · rw [hg, Option.bind_some, if_pos rfl, hb]
          refine ⟨⟨s.objs, s.done ++ [(x, s.objs.map PeerObj.info)]⟩, ?_⟩
          cases ht : e.type <;> rw [ht] at hty hf <;> first | exact absurd rfl hty | (dsimp only; rw [if_pos hf])
      obtain ⟨s1, h1⟩ := one
      rw [List.foldlM_cons, h1]
      exact ih s1 fun x hx => he x (List.mem_cons_of_mem _ hx)
  have all : ∀ d ∈ Yaml.docsAll docs, gate (entryOf d).type (entryOf d).api = some false ∨
      ((entryOf d).type = .calicoProfile ∧ ∃ t, (entryOf d).body = .profile t ∧ t.Plain ∧ gate (entryOf d).type (entryOf d).api = some true) ∨
      ((entryOf d).type ≠ .calicoProfile ∧ ∃ x, (entryOf d).body = .policy x ∧ gate (entryOf d).type (entryOf d).api = some true ∧ fits (entryOf d).type x = true) := by
    intro d hd
    rcases h d hd with h0 | ⟨t, hb, hp, hs⟩ | ⟨x, ty, hb, hty, hs, hf⟩
    · refine .inl ?_
      have hk := policyType_kind (k := d.1) (a := d.2.1) rfl
      show gate (policyType (some d.1) (some d.2.1)) d.2.1 = some false
      cases ht : policyType (some d.1) (some d.2.1) <;> rw [ht] at hk <;> first
        | rfl
        | (exfalso; simp only [PType.kind] at hk; rw [hk] at h0; revert h0; simp [supported])
    · obtain ⟨h1, h2⟩ := (C63_kinds _ _ _).2 hs
      exact .inr (.inl ⟨h1, t, hb, hp, by show gate (policyType (some d.1) (some d.2.1)) d.2.1 = _; rw [h1, h2]⟩)
    · obtain ⟨h1, h2⟩ := (C63_kinds _ _ _).2 hs
      exact .inr (.inr ⟨by show policyType (some d.1) (some d.2.1) ≠ _; rw [h1]; exact hty, x, hb,
        by show gate (policyType (some d.1) (some d.2.1)) d.2.1 = _; rw [h1, h2], by show fits (policyType (some d.1) (some d.2.1)) x = _; rw [h1, hf]⟩)
  have ent : ∀ prof, ∀ e ∈ entries prof (Yaml.docsAll docs), ∃ d ∈ Yaml.docsAll docs, entryOf d = e := by
    intro prof e he
    exact List.mem_map.1 (List.mem_filter.1 he).1
  unfold readDocs
  rw [enqueueAll_eq, List.append_nil]
  refine fold _ _ fun e he => ?_
  have : ∃ d ∈ Yaml.docsAll docs, entryOf d = e := by
    rcases List.mem_append.1 he with he | he
    · exact ent _ e (List.mem_reverse.1 he)
    · exact ent _ e he
  obtain ⟨d, hd, rfl⟩ := this
  exact all d hd

end
end PolicyDocs
end Verif
