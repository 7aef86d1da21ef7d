import Verif.TopologyForms
/-!
Proofs for the reading of namespaces and endpoints.
-/
namespace Verif

namespace Topology
open GtwParser (split_char)
open IpBlock (Cidr)

/-! ### Namespaces -/

/-- The namespace by the texts. -/
def nsFrom (l : List NsText) (n : String) : Ns := ((l.find? fun x => decide (x.name = n)).map fun x => newNs n x.labels).getD (newNs n [])

theorem newNs_name {n : String} (h : n ≠ "") (x : Labels) : (newNs n x).name = n := by simp [newNs, h]

theorem nsFrom_name {l : List NsText} {n : String} (h : n ≠ "") : (nsFrom l n).name = n := by
  unfold nsFrom
  cases l.find? fun x => decide (x.name = n) with
  | none => exact newNs_name h _
  | some x => exact newNs_name h _

theorem nsFrom_labels (l : List Step) {n : String} (k : String) : (nsFrom (nsTexts l) n).labels.lookup k = nsLabel l n k := by
  unfold nsFrom nsLabel
  have tail : List.lookup k [("kubernetes.io/metadata.name", n)] = if k = "kubernetes.io/metadata.name" then some n else none := by
    by_cases hk : k = "kubernetes.io/metadata.name"
    · subst hk; simp [List.lookup]
    · have : (k == "kubernetes.io/metadata.name") = false := by simpa using hk
      simp [List.lookup, this, hk]
  cases (nsTexts l).find? fun x => decide (x.name = n) with
  | none => simp only [Option.map_none, Option.getD_none, newNs, List.nil_append, Option.bind_none, Option.none_or]; exact tail
  | some x => simp only [Option.map_some, Option.getD_some, newNs, Option.bind_some]; rw [List.lookup_append, tail]

theorem touch_ns (t : Topo) (n m : String) : (t.touch n).ns m = t.ns m := by
  unfold Topo.touch
  split
  · rfl
  · rename_i h
    unfold Topo.ns
    dsimp only
    by_cases hm : m = n
    · subst hm
      have : t.nss.lookup m = none := Option.not_isSome_iff_eq_none.1 h
      simp [List.lookup, this]
    · have : (m == n) = false := by simpa using hm
      simp [List.lookup, this]

theorem addNs_ns (t : Topo) (x : NsText) (m : String) : (addNs t x).ns m = if x.name = m then newNs m x.labels else t.ns m := by
  unfold Topo.ns addNs
  dsimp only
  by_cases hm : x.name = m
  · subst hm; simp [List.lookup]
  · have : (m == x.name) = false := by simpa using fun h => hm h.symm
    simp [List.lookup, this, hm]

theorem nsPass_ns (l : List NsText) (hl : (l.map NsText.name).Nodup) (t : Topo) (m : String) :
    (l.foldl addNs t).ns m = ((l.find? fun x => decide (x.name = m)).map fun x => newNs m x.labels).getD (t.ns m) := by
  induction l generalizing t with
  | nil => rfl
  | cons x l ih =>
    rw [List.map_cons, List.nodup_cons] at hl
    rw [List.foldl_cons, ih hl.2, addNs_ns]
    by_cases hm : x.name = m
    · have : l.find? (fun x => decide (x.name = m)) = none := by
        rw [List.find?_eq_none]
        intro y hy
        simp only [decide_eq_true_eq]
        rintro rfl
        exact hl.1 (hm ▸ List.mem_map_of_mem hy)
      rw [this, List.find?_cons_of_pos (by simpa using hm)]
      simp [hm]
    · rw [List.find?_cons_of_neg (by simpa using hm), if_neg hm]

theorem doc_nss (d : Doc) : d.nss = d.items.filterMap Item.ns? := by
  cases d with
  | one i => cases i <;> rfl
  | list l => rfl
  | pods l =>
    have : (l.map Item.pod).filterMap Item.ns? = [] := by
      rw [List.filterMap_eq_nil_iff]
      intro a ha
      obtain ⟨x, _, rfl⟩ := List.mem_map.1 ha
      rfl
    exact this.symm

theorem nsTexts_append (a b : List Step) : nsTexts (a ++ b) = nsTexts a ++ nsTexts b := by
  unfold nsTexts
  rw [List.filter_append, List.flatMap_append]

theorem members_append (nodes : Nat) (a b : List Step) : members nodes (a ++ b) = members nodes a ++ members nodes b := by
  unfold members
  rw [List.filter_append, List.flatMap_append]

/-! ### Objects -/

/-- Members, as they come from resources. -/
structure Member.Wf (m : Member) : Prop where
  pod : m.kind = .pod → ∃ n, m.ns = some n
  hep : m.kind = .hep → m.ns = none ∧ m.account = none
  dns : m.kind = .dns → m = ⟨.dns, none, m.name, [], [], [], none, ("", ""), []⟩
  netset : m.kind = .netset → m.ports = [] ∧ m.profiles = [] ∧ m.account = none

/-- The addresses of a network set. -/
def blockOf (l : List Cidr) : IpBlock := (setBlock l).getD []

/-- The object of an endpoint. -/
def Member.obj (cidrs : IpBlock → String) (N : String → Ns) (m : Member) : PeerObj :=
  match m.kind with
  | .pod => podObj (N (m.ns.getD "")) m.name m.owner.1 m.owner.2 (m.account.getD "") m.labels m.ports m.profiles
  | .hep => hepObj ⟨m.name, m.labels, m.ports, m.profiles⟩
  | .dns => dnsObj m.name
  | .netset => setObj cidrs ⟨m.name, m.ns.isNone, m.ns, m.labels, m.nets⟩ (m.ns.map N) (blockOf m.nets)

theorem setBlock_sem (l : List Cidr) : setBlock l = some (blockOf l) ∧ IpBlock.Built (blockOf l) ∧ ∀ x, (blockOf l).Has x ↔ ∃ c ∈ l, c.Has x := by
  have key : ∀ (l : List Cidr) (b : IpBlock), IpBlock.Built b → ∃ r, l.foldlM (fun b c => IpBlock.addCidr b c []) b = some r ∧ IpBlock.Built r ∧
      ∀ x, r.Has x ↔ b.Has x ∨ ∃ c ∈ l, c.Has x := by
    intro l
    induction l with
    | nil => exact fun b hb => ⟨b, rfl, hb, fun x => by simp⟩
    | cons c l ih =>
      intro b hb
      cases h : IpBlock.addCidr b c [] with
      | none => exact absurd (IpBlock.C21_cidr_error.1 h) (by simp)
      | some r =>
        obtain ⟨r', e, hb', hs⟩ := ih r (.cidr c [] hb h)
        refine ⟨r', by rw [List.foldlM_cons, h]; exact e, hb', fun x => ?_⟩
        rw [hs, IpBlock.C21_cidr_exact hb h]
        simp [or_assoc]
  obtain ⟨r, e, hb, hs⟩ := key l [] .empty
  have hr : setBlock l = some r := e
  have : blockOf l = r := by simp [blockOf, hr]
  rw [this]
  exact ⟨hr, hb, fun x => by rw [hs]; simp [IpBlock.Has]⟩

theorem block_ne {m : Member} (h : m.nets ≠ []) : ∃ x, (blockOf m.nets).Has x := by
  obtain ⟨c, hc⟩ := List.exists_mem_of_ne_nil _ h
  exact ⟨c.addr, ((setBlock_sem m.nets).2.2 _).2 ⟨c, hc, rfl, fun _ _ => rfl⟩⟩

section
variable {cidrs : IpBlock → String} {l : List Step} {nodes : Nat}

/-- The object describes the endpoint. -/
theorem obj_describes {m : Member} (hw : m.Wf) (hp : m.Plain) : Describes l m (m.obj cidrs (nsFrom (nsTexts l))) := by
  have nn : ∀ n, m.ns = some n → (nsFrom (nsTexts l) n).name = n := fun n hn => nsFrom_name (hp.ns n hn).1
  cases hk : m.kind with
  | pod =>
    obtain ⟨n, hn⟩ := hw.pod hk
    have e := nn n hn
    constructor <;> simp only [Member.obj, hk, podObj, hn, Option.getD_some, Option.map_some, e, Member.key, reduceCtorEq, not_false_eq_true, ne_eq, forall_const, IsEmpty.forall_iff, false_and, Bool.false_eq_true, Option.some.injEq]
    · rintro _ rfl k; rw [e, nsFrom_labels]
    · intro a ha; rw [ha]; rfl
  | hep =>
    obtain ⟨hn, ha⟩ := hw.hep hk
    constructor <;> simp [Member.obj, hk, hepObj, hn, ha, Member.key]
  | dns =>
    have e := hw.dns hk
    constructor <;> rw [e] <;> simp [Member.obj, dnsObj, Member.key, podPorts]
  | netset =>
    obtain ⟨h1, h2, h3⟩ := hw.netset hk
    obtain ⟨_, s2, s3⟩ := setBlock_sem m.nets
    cases hn : m.ns with
    | none => constructor <;> simp [Member.obj, hk, setObj, hn, h1, h2, h3, podPorts, s2, s3]
    | some n =>
      have e := nn n hn
      constructor <;> simp [Member.obj, hk, setObj, hn, h1, h2, h3, podPorts, s2, s3, e, nsFrom_labels]

theorem obj_kind (N : String → Ns) (m : Member) : (m.obj cidrs N).info.kind = m.kind := by
  cases hk : m.kind <;> simp [Member.obj, hk, podObj, hepObj, dnsObj, setObj]

theorem Alike.refl (m : Member) : Alike m m := ⟨rfl, rfl, fun _ => rfl, rfl, .rfl, fun _ _ _ => rfl, fun _ => rfl⟩

/-- The start of a form: a comma or nothing for host endpoints, and neither for others. -/
theorem name_start {s : String} (h0 : s ≠ "") (h : ∀ a ∈ s.toList, a ∉ [',', '(', '/']) (r : List Char) : ¬ Comma (s.toList ++ r) := by
  have h1 : s.toList ≠ [] := fun h => h0 (String.toList_inj.1 h)
  cases hs : s.toList with
  | nil => exact absurd hs h1
  | cons a t =>
    rintro (hc | ⟨r', hc⟩)
    · simp at hc
    · simp only [List.cons_append, List.cons.injEq] at hc
      exact h a (by rw [hs]; simp) (by rw [hc.1]; simp)

theorem ns_start {s : String} (h0 : s ≠ "") (h : ∀ a ∈ s.toList, a ∉ [',', '(', '/', '_']) (r : List Char) : ¬ Comma (s.toList ++ r) :=
  name_start h0 (fun a ha hm => h a ha (by
    have : a = ',' ∨ a = '(' ∨ a = '/' := by simpa using hm
    rcases this with rfl | rfl | rfl <;> simp)) r

variable {N : String → Ns} (hN : ∀ n, n ≠ "" → (N n).name = n) {m m' : Member} (hw : m.Wf) (hw' : m'.Wf) (hp : m.Plain) (hp' : m'.Plain)

theorem pod_form {n : String} (hk : m.kind = .pod) (hn : m.ns = some n) (e : (N n).name = n) :
    (m.obj cidrs N).form.toList = n.toList ++ '_' :: ((workloadName n m.name m.owner.1 m.owner.2).toList ++ '_' :: (epForm m.profiles m.labels).toList) := by
  simp [Member.obj, hk, podObj, hn, e]

theorem hep_form (hk : m.kind = .hep) : (m.obj cidrs N).form.toList = (epForm m.profiles m.labels).toList := by
  simp [Member.obj, hk, hepObj]

theorem dns_form (hk : m.kind = .dns) : (m.obj cidrs N).form.toList = m.name.toList := by
  simp [Member.obj, hk, dnsObj]

theorem global_form (hk : m.kind = .netset) (hn : m.ns = none) : (m.obj cidrs N).form.toList = m.name.toList := by
  simp [Member.obj, hk, setObj, hn]

theorem set_form {n : String} (hk : m.kind = .netset) (hn : m.ns = some n) (e : (N n).name = n) :
    (m.obj cidrs N).form.toList = n.toList ++ '_' :: (cidrs (blockOf m.nets)).toList := by
  simp [Member.obj, hk, setObj, hn, e]

/-- Which endpoints have a form that is a name, for which sets the name of the namespace is followed by addresses. -/
inductive Shape (cidrs : IpBlock → String) (m : Member) (f : List Char) : Prop
  | pod (n : String) : m.kind = .pod → m.ns = some n → f = n.toList ++ '_' :: ((workloadName n m.name m.owner.1 m.owner.2).toList ++ '_' :: (epForm m.profiles m.labels).toList) → Shape cidrs m f
  | hep : m.kind = .hep → f = (epForm m.profiles m.labels).toList → Shape cidrs m f
  | name : m.kind = .dns ∨ m.kind = .netset → m.ns = none → f = m.name.toList → Shape cidrs m f
  | set (n : String) : m.kind = .netset → m.ns = some n → f = n.toList ++ '_' :: (cidrs (blockOf m.nets)).toList → Shape cidrs m f

include hN hw hp in
theorem shape : Shape cidrs m (m.obj cidrs N).form.toList := by
  cases hk : m.kind with
  | pod => obtain ⟨n, hn⟩ := hw.pod hk; exact .pod n hk hn (pod_form hk hn (hN n (hp.ns n hn).1))
  | hep => exact .hep hk (hep_form hk)
  | dns => exact .name (.inl hk) (by rw [hw.dns hk]) (dns_form hk)
  | netset =>
    cases hn : m.ns with
    | none => exact .name (.inr hk) hn (global_form hk hn)
    | some n => exact .set n hk hn (set_form hk hn (hN n (hp.ns n hn).1))

include hN hw hw' hp hp' in
/-- Endpoints of the same form are alike, or network sets with the same addresses, or have the same name outside of
namespaces, one being a network set. -/
theorem form_alike (hc : ∀ b b', IpBlock.Built b → IpBlock.Built b' → b ≠ [] → cidrs b = cidrs b' → b = b')
    (hch : ∀ b, IpBlock.Built b → b ≠ [] → '(' ∉ (cidrs b).toList ∧ '/' ∈ (cidrs b).toList) (h : (m.obj cidrs N).form = (m'.obj cidrs N).form) :
    Alike m m' ∨ (m.kind = .netset ∧ m'.kind = .netset ∧ blockOf m.nets = blockOf m'.nets) ∨
      ((m.kind = .netset ∨ m'.kind = .netset) ∧ m.kind ≠ .hep ∧ m'.kind ≠ .hep ∧ m.ns = none ∧ m'.ns = none ∧ m.name = m'.name) := by
  have bne : ∀ m : Member, m.Plain → m.kind = .netset → blockOf m.nets ≠ [] := by
    intro m hp hk e
    obtain ⟨x, hx⟩ := block_ne (hp.nets hk)
    rw [e] at hx
    simp [IpBlock.Has] at hx
  have us : ∀ {m : Member} {n : String}, m.Plain → m.ns = some n → '_' ∉ n.toList := fun hp hn hm => (hp.ns _ hn).2 _ hm (by simp)
  have hf : (m.obj cidrs N).form.toList = (m'.obj cidrs N).form.toList := by rw [h]
  have setpod : ∀ (m m' : Member) (n n' : String), m.Plain → m'.Plain → m.ns = some n → m'.ns = some n' → m.kind = .netset →
      n.toList ++ '_' :: (cidrs (blockOf m.nets)).toList = n'.toList ++ '_' :: ((workloadName n' m'.name m'.owner.1 m'.owner.2).toList ++ '_' :: (epForm m'.profiles m'.labels).toList) → False := by
    intro m m' n n' hp hp' hn hn' hk he
    have := (split_char (us hp hn) (us hp' hn') he).2
    have h1 := (hch _ (setBlock_sem _).2.1 (bne m hp hk)).1
    rw [this] at h1
    exact h1 (List.mem_append_left _ (workload_paren _ _ _ _))
  have npod : ∀ (m m' : Member) (n : String), m.Plain → m.name.toList = n.toList ++ '_' :: ((workloadName n m'.name m'.owner.1 m'.owner.2).toList ++ '_' :: (epForm m'.profiles m'.labels).toList) → False := by
    intro m m' n hp he
    refine hp.name.2 '(' ?_ (by simp)
    rw [he]
    exact List.mem_append_right _ (List.mem_cons_of_mem _ (List.mem_append_left _ (workload_paren _ _ _ _)))
  have nset : ∀ (m m' : Member) (n : String), m.Plain → m'.Plain → m'.kind = .netset → m.name.toList = n.toList ++ '_' :: (cidrs (blockOf m'.nets)).toList → False := by
    intro m m' n hp hp' hk he
    refine hp.name.2 '/' ?_ (by simp)
    rw [he]
    exact List.mem_append_right _ (List.mem_cons_of_mem _ (hch _ (setBlock_sem _).2.1 (bne m' hp' hk)).2)
  have hepns : ∀ (m m' : Member) (n : String) (r : List Char), m'.Plain → m'.ns = some n → (epForm m.profiles m.labels).toList = n.toList ++ r → False := by
    intro m m' n r hp' hn he
    exact ns_start (hp'.ns n hn).1 (hp'.ns n hn).2 r (he ▸ epForm_comma _ _)
  have hepname : ∀ (m m' : Member), m'.Plain → (epForm m.profiles m.labels).toList = m'.name.toList → False := by
    intro m m' hp' he
    refine name_start hp'.name.1 hp'.name.2 [] ?_
    rw [List.append_nil, ← he]
    exact epForm_comma _ _
  cases shape (cidrs := cidrs) hN hw hp with
  | pod n hk hn e =>
    cases shape (cidrs := cidrs) hN hw' hp' with
    | pod n' hk' hn' e' =>
      rw [e, e'] at hf
      obtain ⟨h1, h2⟩ := split_char (us hp hn) (us hp' hn') hf
      cases String.toList_inj.1 h1
      have wc : ∀ (m : Member), m.Plain → m.kind = .pod → m.ns = some n → '_' ∉ (workloadName n m.name m.owner.1 m.owner.2).toList := fun m hp hk hn =>
        workload_chars (fun a ha => by rintro rfl; exact us hp hn ha) (hp.simple (by rw [hk]; decide)) hp.owner
      obtain ⟨h3, h4⟩ := split_char (wc m hp hk hn) (wc m' hp' hk' hn') h2
      obtain ⟨h5, h6, h7⟩ := epForm_inj hp.profiles hp'.profiles hp.labels hp'.labels (String.toList_inj.1 h4)
      refine .inl ⟨by rw [hk, hk'], by rw [hn, hn'], lookup_perm hp.keys hp'.keys h7, h5, h6, fun x _ hx => ?_, fun hx => ?_⟩
      · rw [hn] at hx; cases hx; exact String.toList_inj.1 h3
      · rw [hk] at hx; rcases hx with hx | hx <;> cases hx
    | hep hk' e' => rw [e, e'] at hf; exact (hepns m' m n _ hp hn hf.symm).elim
    | name hk' hn' e' => rw [e, e'] at hf; exact (npod m' m n hp' hf.symm).elim
    | set n' hk' hn' e' => rw [e, e'] at hf; exact (setpod m' m n' n hp' hp hn' hn hk' hf.symm).elim
  | hep hk e =>
    cases shape (cidrs := cidrs) hN hw' hp' with
    | pod n' hk' hn' e' => rw [e, e'] at hf; exact (hepns m m' n' _ hp' hn' hf).elim
    | hep hk' e' =>
      rw [e, e'] at hf
      obtain ⟨h5, h6, h7⟩ := epForm_inj hp.profiles hp'.profiles hp.labels hp'.labels (String.toList_inj.1 hf)
      refine .inl ⟨by rw [hk, hk'], by rw [(hw.hep hk).1, (hw'.hep hk').1], lookup_perm hp.keys hp'.keys h7, h5, h6, fun x hx _ => ?_, fun hx => ?_⟩
      · rw [hk] at hx; cases hx
      · rw [hk] at hx; rcases hx with hx | hx <;> cases hx
    | name hk' hn' e' => rw [e, e'] at hf; exact (hepname m m' hp' hf).elim
    | set n' hk' hn' e' => rw [e, e'] at hf; exact (hepns m m' n' _ hp' hn' hf).elim
  | name hk hn e =>
    cases shape (cidrs := cidrs) hN hw' hp' with
    | pod n' hk' hn' e' => rw [e, e'] at hf; exact (npod m m' n' hp hf).elim
    | hep hk' e' => rw [e, e'] at hf; exact (hepname m' m hp hf.symm).elim
    | name hk' hn' e' =>
      rw [e, e'] at hf
      have hname := String.toList_inj.1 hf
      by_cases hd : m.kind = .netset ∨ m'.kind = .netset
      · refine .inr (.inr ⟨hd, ?_, ?_, hn, hn', hname⟩)
        · rcases hk with hk | hk <;> rw [hk] <;> decide
        · rcases hk' with hk | hk <;> rw [hk] <;> decide
      · have d := hk.resolve_right fun h => hd (.inl h)
        have d' := hk'.resolve_right fun h => hd (.inr h)
        have : m = m' := by rw [hw.dns d, hw'.dns d', hname]
        exact .inl (this ▸ Alike.refl m)
    | set n' hk' hn' e' => rw [e, e'] at hf; exact (nset m m' n' hp hp' hk' hf).elim
  | set n hk hn e =>
    cases shape (cidrs := cidrs) hN hw' hp' with
    | pod n' hk' hn' e' => rw [e, e'] at hf; exact (setpod m m' n n' hp hp' hn hn' hk hf).elim
    | hep hk' e' => rw [e, e'] at hf; exact (hepns m' m n _ hp hn hf.symm).elim
    | name hk' hn' e' => rw [e, e'] at hf; exact (nset m' m n hp' hp hk hf.symm).elim
    | set n' hk' hn' e' =>
      rw [e, e'] at hf
      have h2 := (split_char (us hp hn) (us hp' hn') hf).2
      exact .inr (.inl ⟨hk, hk', hc _ _ (setBlock_sem _).2.1 (setBlock_sem _).2.1 (bne m hp hk) (String.toList_inj.1 h2)⟩)

end

end Topology
end Verif
