import Verif.SelectorModel
import Verif.PropsPeers
import Mathlib.Tactic.ByContra
/-!
C23: label selectors and peers of Kubernetes policies.

The specification (`HasVal`, `SatReq`, `SatSel`) is written from the Kubernetes documentation and mentions no
set of peers.
-/
namespace Verif
open IpBlock PeerSet Base

/-- The peer carries the label `key: v`, by itself or through a profile. -/
def PeerInfo.HasVal (p : PeerInfo) (key v : String) : Prop := p.labels.lookup key = some v ∨ p.extra.lookup key = some v

/-- The namespace carries the label `key: v`. -/
def Ns.HasVal (n : Ns) (key v : String) : Prop := n.labels.lookup key = some v

/-- Kubernetes semantics of a requirement, over the labels `val`. -/
def SatReq (val : String → String → Prop) (r : Req) : Prop :=
  match r.op with
  | .In => ∃ v ∈ r.values, val r.key v
  | .NotIn => ¬ ∃ v ∈ r.values, val r.key v
  | .Exists => ∃ v, val r.key v
  | .DoesNotExist => ¬ ∃ v, val r.key v

/-- Kubernetes semantics of a selector: every requirement holds. -/
def SatSel (val : String → String → Prop) (s : Selector) : Prop :=
  (∀ kv ∈ s.matchLabels, val kv.1 kv.2) ∧ ∀ r ∈ s.matchExpressions, SatReq val r

/-- The operator comes with the values it needs. -/
def Req.Legal (r : Req) : Prop :=
  match r.op with
  | .In | .NotIn => r.values ≠ []
  | .Exists | .DoesNotExist => r.values = []

/-- A requirement about the presence of a key. -/
def Req.AboutKey (r : Req) : Prop := r.op = .Exists ∨ r.op = .DoesNotExist

/-- No two peers of the container are equal. -/
def Container.Uniq (c : Container) : Prop := ∀ p ∈ c, ∀ q ∈ c, p.elem = q.elem → p = q

/-- The blocks of network sets were built by the API. -/
def Container.Ok (c : Container) : Prop := ∀ p ∈ c, ∀ b, p.elem = .ip b → Built b

/-- The peer lives in the namespace. -/
def PeerInfo.InNs (p : PeerInfo) (n : Ns) : Prop := ∃ m, p.ns = some m ∧ m.name = n.name

namespace Container

theorem mem_sel (c : Container) (f : PeerInfo → Bool) (e : PeerElem String) :
    e ∈ c.sel f ↔ ∃ p ∈ c, f p = true ∧ p.elem = e := by
  unfold sel
  rw [List.mem_map]
  constructor
  · rintro ⟨p, hp, rfl⟩; exact ⟨p, (List.mem_filter.1 hp).1, (List.mem_filter.1 hp).2, rfl⟩
  · rintro ⟨p, hp, h, rfl⟩; exact ⟨p, List.mem_filter.2 ⟨hp, h⟩, rfl⟩

theorem sel_ok {c : Container} (hc : c.Ok) (f : PeerInfo → Bool) : (c.sel f).Ok := by
  intro b hb
  obtain ⟨p, hp, _, he⟩ := (mem_sel c f _).1 hb
  exact hc p hp b he

theorem hasPod_sel {c : Container} (hu : c.Uniq) {p : PeerInfo} (hp : p ∈ c) {k : String} (hk : p.elem = .pod k)
    (f : PeerInfo → Bool) : (c.sel f).HasPod k ↔ f p = true := by
  unfold HasPod
  rw [mem_sel]
  constructor
  · rintro ⟨q, hq, hf, he⟩
    rwa [hu p hp q hq (hk.trans he.symm)]
  · intro h; exact ⟨p, hp, h, hk⟩

theorem hasIp_sel (c : Container) (f : PeerInfo → Bool) (x : Ip) :
    (c.sel f).HasIp x ↔ ∃ p ∈ c, ∃ b, p.elem = .ip b ∧ f p = true ∧ b.Has x := by
  unfold HasIp
  simp only [mem_sel]
  constructor
  · rintro ⟨b, ⟨p, hp, hf, he⟩, hx⟩; exact ⟨p, hp, b, he, hf, hx⟩
  · rintro ⟨p, hp, b, he, hf, hx⟩; exact ⟨b, ⟨p, hp, hf, he⟩, hx⟩

theorem getIn_iff (l : Labels) (key : String) (values : List String) :
    getIn l key values = true ↔ ∃ v ∈ values, l.lookup key = some v := by
  unfold getIn
  cases h : l.lookup key with
  | none => simp
  | some v => simp

theorem hasKey_iff (l : Labels) (key : String) : hasKey l key = true ↔ ∃ v, l.lookup key = some v := by
  unfold hasKey
  rw [Option.isSome_iff_exists]

theorem sameNs_iff (p : PeerInfo) (n : Ns) : sameNs p n = true ↔ p.InNs n := by
  unfold sameNs PeerInfo.InNs
  cases h : p.ns with
  | none => simp
  | some m => simp

end Container
open Container

namespace K8sParser

/-- The test a requirement applies to each peer of the container. -/
def reqTest (ns : Ns) (nsSel : Bool) (r : Req) (p : PeerInfo) : Bool :=
  match nsSel, r.op with
  | true, .In | true, .NotIn => (match p.ns with
      | none => false
      | some n => decide (((n.labels.lookup r.key).getD "") ∈ r.values) ^^ decide (r.op = .NotIn))
  | false, .In | false, .NotIn => if decide (r.op = .NotIn) then !getIn p.labels r.key r.values && !getIn p.extra r.key r.values
      else getIn p.labels r.key r.values || getIn p.extra r.key r.values
  | true, .Exists | true, .DoesNotExist => (match p.ns with
      | none => false | some n => hasKey n.labels r.key ^^ decide (r.op = .DoesNotExist))
  | false, .Exists | false, .DoesNotExist => sameNs p ns && ((hasKey p.labels r.key || hasKey p.extra r.key) ^^ decide (r.op = .DoesNotExist))

theorem requirement_eq (c : Container) (ns : Ns) (nsSel : Bool) (r : Req) (h : r.Legal) :
    requirement c ns nsSel r = some (c.sel (reqTest ns nsSel r)) := by
  unfold requirement
  obtain ⟨key, op, values⟩ := r
  cases op <;> cases nsSel <;> cases values <;>
    first | rfl | exact absurd rfl h | exact absurd h (by simp [Req.Legal])

theorem requirement_none (c : Container) (ns : Ns) (nsSel : Bool) (r : Req) (h : ¬ r.Legal) :
    requirement c ns nsSel r = none := by
  unfold requirement
  obtain ⟨key, op, values⟩ := r
  cases op <;> cases nsSel <;> cases values <;> simp_all [Req.Legal]

/-- The test `matchLabels` applies to each peer. -/
def labelTest (nsSel : Bool) (kv : String × String) (p : PeerInfo) : Bool :=
  match nsSel with
  | true => (match p.ns with | none => false | some n => decide (((n.labels.lookup kv.1).getD "") ∈ [kv.2]))
  | false => getIn p.labels kv.1 [kv.2] || getIn p.extra kv.1 [kv.2]

theorem labelStep_eq (c : Container) (nsSel : Bool) (res : PeerSet String) (kv : String × String) :
    labelStep c nsSel res kv = res.and (c.sel (labelTest nsSel kv)) := by
  cases nsSel with
  | false => rfl
  | true =>
    refine congrArg (fun f => res.and (c.sel f)) (funext fun p => ?_)
    unfold labelTest
    cases p.ns <;> simp

theorem labels_fold {c : Container} (hc : c.Ok) (nsSel : Bool) (L : Labels) {res : PeerSet String} (hr : res.Ok) :
    (L.foldl (labelStep c nsSel) res).Ok ∧
    (∀ k, (L.foldl (labelStep c nsSel) res).HasPod k ↔ res.HasPod k ∧ ∀ kv ∈ L, (c.sel (labelTest nsSel kv)).HasPod k) ∧
    ∀ x, (L.foldl (labelStep c nsSel) res).HasIp x ↔ res.HasIp x ∧ ∀ kv ∈ L, (c.sel (labelTest nsSel kv)).HasIp x := by
  induction L generalizing res with
  | nil => simp [hr]
  | cons kv L ih =>
    rw [List.foldl_cons, labelStep_eq]
    obtain ⟨a1, a2, a3⟩ := C22_and_exact hr (sel_ok hc (labelTest nsSel kv))
    obtain ⟨h1, h2, h3⟩ := ih a1
    refine ⟨h1, fun k => ?_, fun x => ?_⟩
    · rw [h2, a2, List.forall_mem_cons, and_assoc]
    · rw [h3, a3, List.forall_mem_cons, and_assoc]

theorem reqs_fold {c : Container} (hc : c.Ok) (ns : Ns) (nsSel : Bool) (L : List Req) {res : PeerSet String} (hr : res.Ok)
    (hl : ∀ r ∈ L, r.Legal) :
    ∃ q, L.foldlM (fun res r => (requirement c ns nsSel r).map res.and) res = some q ∧ q.Ok ∧
    (∀ k, q.HasPod k ↔ res.HasPod k ∧ ∀ r ∈ L, (c.sel (reqTest ns nsSel r)).HasPod k) ∧
    ∀ x, q.HasIp x ↔ res.HasIp x ∧ ∀ r ∈ L, (c.sel (reqTest ns nsSel r)).HasIp x := by
  induction L generalizing res with
  | nil => exact ⟨res, rfl, hr, by simp, by simp⟩
  | cons r L ih =>
    obtain ⟨a1, a2, a3⟩ := C22_and_exact hr (sel_ok hc (reqTest ns nsSel r))
    obtain ⟨q, e, h1, h2, h3⟩ := ih a1 (fun r hr => hl r (List.mem_cons_of_mem _ hr))
    refine ⟨q, ?_, h1, fun k => ?_, fun x => ?_⟩
    · rw [List.foldlM_cons, requirement_eq c ns nsSel r (hl r (List.mem_cons_self ..))]
      exact e
    · rw [h2, a2, List.forall_mem_cons, and_assoc]
    · rw [h3, a3, List.forall_mem_cons, and_assoc]

/-- The test of `get_all_peers_group()`. -/
def allTest (p : PeerInfo) : Bool := !(decide (p.kind = .dns) && !false) && (true || !p.isGlobal)

theorem allPeers_eq (c : Container) : c.allPeers false true false = c.sel allTest := rfl

theorem allTest_iff (p : PeerInfo) : allTest p = true ↔ p.kind ≠ .dns := by simp [allTest]

/-- What a selector selects, as one test per requirement. -/
theorem selector_sem {c : Container} (hc : c.Ok) (ns : Ns) (nsSel : Bool) (s : Selector)
    (hl : ∀ r ∈ s.matchExpressions, r.Legal) :
    ∃ q, selector c ns nsSel (some s) = some q ∧ q.Ok ∧
    (∀ k, q.HasPod k ↔ (c.sel allTest).HasPod k ∧ (∀ kv ∈ s.matchLabels, (c.sel (labelTest nsSel kv)).HasPod k) ∧
      ∀ r ∈ s.matchExpressions, (c.sel (reqTest ns nsSel r)).HasPod k) ∧
    ∀ x, q.HasIp x ↔ (c.sel allTest).HasIp x ∧ (∀ kv ∈ s.matchLabels, (c.sel (labelTest nsSel kv)).HasIp x) ∧
      ∀ r ∈ s.matchExpressions, (c.sel (reqTest ns nsSel r)).HasIp x := by
  obtain ⟨a1, a2, a3⟩ := labels_fold hc nsSel s.matchLabels (sel_ok hc allTest)
  obtain ⟨q, e, h1, h2, h3⟩ := reqs_fold hc ns nsSel s.matchExpressions a1 hl
  refine ⟨q, e, h1, fun k => ?_, fun x => ?_⟩
  · rw [h2, a2, and_assoc]
  · rw [h3, a3, and_assoc]

/-- C23: a selector is rejected exactly when some requirement has values it must not have or lacks values it
needs. -/
theorem C23_defined (c : Container) (ns : Ns) (nsSel : Bool) (s : Selector) :
    (∃ q, selector c ns nsSel (some s) = some q) ↔ ∀ r ∈ s.matchExpressions, r.Legal := by
  unfold selector
  dsimp only
  generalize s.matchLabels.foldl (labelStep c nsSel) (c.allPeers false true false) = res
  induction s.matchExpressions generalizing res with
  | nil => simp
  | cons r L ih =>
    rw [List.forall_mem_cons, List.foldlM_cons]
    by_cases h : r.Legal
    · rw [requirement_eq c ns nsSel r h]
      simp only [h, true_and]
      exact ih _
    · rw [requirement_none c ns nsSel r h]
      simp [h]

theorem legal_of_some {c : Container} {ns : Ns} {nsSel : Bool} {s : Selector} {q : PeerSet String}
    (h : selector c ns nsSel (some s) = some q) : ∀ r ∈ s.matchExpressions, r.Legal := (C23_defined c ns nsSel s).1 ⟨q, h⟩

theorem labelTest_pod (kv : String × String) (p : PeerInfo) : labelTest false kv p = true ↔ p.HasVal kv.1 kv.2 := by
  unfold labelTest PeerInfo.HasVal
  simp only [Bool.or_eq_true, getIn_iff, List.mem_singleton, exists_eq_left]

theorem labelTest_ns {kv : String × String} {p : PeerInfo} {n : Ns} (hn : p.ns = some n)
    (h : kv.2 ≠ "" ∨ ∃ v, n.HasVal kv.1 v) : labelTest true kv p = true ↔ n.HasVal kv.1 kv.2 := by
  unfold labelTest Ns.HasVal at *
  simp only [hn, List.mem_singleton, decide_eq_true_eq]
  cases e : n.labels.lookup kv.1 with
  | some v => simp
  | none =>
    simp only [e, reduceCtorEq, exists_false, or_false] at h
    simp only [Option.getD_none, reduceCtorEq, iff_false]
    exact fun h1 => h h1.symm

theorem reqTest_pod {ns : Ns} {r : Req} {p : PeerInfo} (h : ¬ r.AboutKey ∨ p.InNs ns) :
    reqTest ns false r p = true ↔ SatReq p.HasVal r := by
  have hor : ∀ (P Q : String → Prop), (∃ v ∈ r.values, P v ∨ Q v) ↔ (∃ v ∈ r.values, P v) ∨ ∃ v ∈ r.values, Q v := by
    intro P Q; simp only [and_or_left, exists_or]
  have hk : (hasKey p.labels r.key || hasKey p.extra r.key) = true ↔ ∃ v, p.HasVal r.key v := by
    unfold PeerInfo.HasVal
    rw [Bool.or_eq_true, hasKey_iff, hasKey_iff, exists_or]
  have hi : (getIn p.labels r.key r.values || getIn p.extra r.key r.values) = true ↔ ∃ v ∈ r.values, p.HasVal r.key v := by
    unfold PeerInfo.HasVal
    rw [Bool.or_eq_true, getIn_iff, getIn_iff, hor]
  unfold reqTest SatReq
  unfold Req.AboutKey at h
  cases e : r.op with
  | In => simpa using hi
  | NotIn =>
    simp only [decide_true, if_true, ← Bool.not_or, Bool.not_eq_true']
    rw [← hi, Bool.not_eq_true]
  | Exists =>
    have h' : p.InNs ns := by simpa [e] using h
    simp only [(sameNs_iff p ns).2 h', Bool.true_and]
    simpa using hk
  | DoesNotExist =>
    have h' : p.InNs ns := by simpa [e] using h
    simp only [(sameNs_iff p ns).2 h', Bool.true_and]
    rw [← hk]
    simp

theorem reqTest_pod_other {ns : Ns} {r : Req} {p : PeerInfo} (h : r.AboutKey) (hn : ¬ p.InNs ns) :
    reqTest ns false r p = false := by
  unfold reqTest
  have : sameNs p ns = false := by rw [← Bool.not_eq_true, sameNs_iff]; exact hn
  rcases h with e | e <;> simp [e, this]

theorem reqTest_ns {ns : Ns} {r : Req} {p : PeerInfo} {n : Ns} (hn : p.ns = some n)
    (h : "" ∉ r.values ∨ ∃ v, n.HasVal r.key v) : reqTest ns true r p = true ↔ SatReq n.HasVal r := by
  have hi : (decide (((n.labels.lookup r.key).getD "") ∈ r.values)) = true ↔ ∃ v ∈ r.values, n.HasVal r.key v := by
    unfold Ns.HasVal at *
    cases e : n.labels.lookup r.key with
    | some v => simp
    | none =>
      simp only [e, reduceCtorEq, exists_false, or_false] at h
      simpa using h
  have hk : hasKey n.labels r.key = true ↔ ∃ v, n.HasVal r.key v := hasKey_iff _ _
  unfold reqTest SatReq
  cases e : r.op with
  | In => simp only [hn]; simpa using hi
  | NotIn => simp only [hn]; rw [← hi]; simp
  | Exists => simp only [hn]; simpa using hk
  | DoesNotExist => simp only [hn]; rw [← hk]; simp

/-- C23 (pods): a pod selector selects exactly the peers that satisfy every requirement.  Partial: selectors
with `Exists` / `DoesNotExist` are only right about peers of the policy's own namespace
(`C23_exists_restricted`). -/
theorem C23_pod_selector_partial {c : Container} (hu : c.Uniq) (hc : c.Ok) {ns : Ns} {s : Selector} {q : PeerSet String}
    (h : selector c ns false (some s) = some q) {p : PeerInfo} (hp : p ∈ c) {k : String} (hk : p.elem = .pod k)
    (hd : p.kind ≠ .dns) (hx : (∀ r ∈ s.matchExpressions, ¬ r.AboutKey) ∨ p.InNs ns) :
    q.HasPod k ↔ SatSel p.HasVal s := by
  obtain ⟨q', e, _, h2, _⟩ := selector_sem hc ns false s (legal_of_some h)
  obtain rfl : q' = q := by rw [h] at e; exact (Option.some.inj e).symm
  rw [h2]
  simp only [hasPod_sel hu hp hk, allTest_iff, labelTest_pod]
  unfold SatSel
  have : (∀ r ∈ s.matchExpressions, reqTest ns false r p = true) ↔ ∀ r ∈ s.matchExpressions, SatReq p.HasVal r := by
    refine forall₂_congr fun r hr => reqTest_pod ?_
    rcases hx with hx | hx
    · exact Or.inl (hx r hr)
    · exact Or.inr hx
  rw [this]
  simp [hd]

/-- C23 (pods, other namespaces): with an `Exists` / `DoesNotExist` requirement nothing outside the policy's
namespace is selected; the selector is never too wide. -/
theorem C23_pod_selector_sound {c : Container} (hu : c.Uniq) (hc : c.Ok) {ns : Ns} {s : Selector} {q : PeerSet String}
    (h : selector c ns false (some s) = some q) {p : PeerInfo} (hp : p ∈ c) {k : String} (hk : p.elem = .pod k)
    (hq : q.HasPod k) : SatSel p.HasVal s ∧ ((∃ r ∈ s.matchExpressions, r.AboutKey) → p.InNs ns) := by
  obtain ⟨q', e, _, h2, _⟩ := selector_sem hc ns false s (legal_of_some h)
  obtain rfl : q' = q := by rw [h] at e; exact (Option.some.inj e).symm
  rw [h2] at hq
  simp only [hasPod_sel hu hp hk, labelTest_pod] at hq
  have hin : ∀ r ∈ s.matchExpressions, r.AboutKey → p.InNs ns := by
    intro r hr ha
    by_contra hn
    have := hq.2.2 r hr
    rw [reqTest_pod_other ha hn] at this
    cases this
  refine ⟨⟨hq.2.1, fun r hr => ?_⟩, fun ⟨r, hr, ha⟩ => hin r hr ha⟩
  refine (reqTest_pod (ns := ns) ?_).1 (hq.2.2 r hr)
  by_cases ha : r.AboutKey
  · exact Or.inr (hin r hr ha)
  · exact Or.inl ha

/-- C23 (policies): the pods a policy applies to are exactly the pods of its namespace that satisfy its selector. -/
theorem C23_selected_pods {c : Container} (hu : c.Uniq) (hc : c.Ok) {ns : Ns} {s : Selector} {q : PeerSet String}
    (h : selectedPods c ns (some s) = some q) {p : PeerInfo} (hp : p ∈ c) {k : String} (hk : p.elem = .pod k)
    (hd : p.kind ≠ .dns) : q.HasPod k ↔ p.InNs ns ∧ SatSel p.HasVal s := by
  unfold selectedPods at h
  cases e : selector c ns false (some s) with
  | none => rw [e] at h; cases h
  | some r =>
    rw [e] at h
    obtain rfl := Option.some.inj h
    obtain ⟨q', e', hok, _⟩ := selector_sem hc ns false s (legal_of_some e)
    obtain rfl : q' = r := by rw [e] at e'; exact (Option.some.inj e').symm
    obtain ⟨_, a2, _⟩ := C22_and_exact hok (sel_ok hc (fun p => sameNs p ns))
    have hn : (c.sel (fun p => sameNs p ns)).HasPod k ↔ p.InNs ns := by
      rw [hasPod_sel hu hp hk]; exact sameNs_iff p ns
    change (q'.and (c.sel (fun p => sameNs p ns))).HasPod k ↔ _
    rw [a2, hn]
    constructor
    · rintro ⟨h1, h2⟩
      exact ⟨h2, (C23_pod_selector_partial hu hc e hp hk hd (Or.inr h2)).1 h1⟩
    · rintro ⟨h1, h2⟩
      exact ⟨(C23_pod_selector_partial hu hc e hp hk hd (Or.inr h1)).2 h2, h1⟩

/-- The selector looks for the empty value of a key that the namespace does not have. -/
def EmptyValueOfAbsentKey (n : Ns) (s : Selector) : Prop :=
  (∃ kv ∈ s.matchLabels, kv.2 = "" ∧ ∀ v, ¬ n.HasVal kv.1 v) ∨
  ∃ r ∈ s.matchExpressions, "" ∈ r.values ∧ ∀ v, ¬ n.HasVal r.key v

/-- C23 (namespaces): a namespace selector selects exactly the peers whose namespace satisfies every
requirement.  Partial: a namespace without a key is treated as if the key had the empty value
(`C23_ns_empty_value_wrong`). -/
theorem C23_ns_selector_partial {c : Container} (hu : c.Uniq) (hc : c.Ok) {ns : Ns} {s : Selector} {q : PeerSet String}
    (h : selector c ns true (some s) = some q) {p : PeerInfo} (hp : p ∈ c) {k : String} (hk : p.elem = .pod k)
    (hd : p.kind ≠ .dns) {n : Ns} (hn : p.ns = some n) (hv : ¬ EmptyValueOfAbsentKey n s) :
    q.HasPod k ↔ SatSel n.HasVal s := by
  obtain ⟨q', e, _, h2, _⟩ := selector_sem hc ns true s (legal_of_some h)
  obtain rfl : q' = q := by rw [h] at e; exact (Option.some.inj e).symm
  rw [h2]
  simp only [hasPod_sel hu hp hk, allTest_iff]
  unfold EmptyValueOfAbsentKey at hv
  rw [not_or] at hv
  unfold SatSel
  have h1 : (∀ kv ∈ s.matchLabels, labelTest true kv p = true) ↔ ∀ kv ∈ s.matchLabels, n.HasVal kv.1 kv.2 := by
    refine forall₂_congr fun kv hkv => labelTest_ns hn ?_
    by_contra hcon
    rw [not_or, not_not, not_exists] at hcon
    exact hv.1 ⟨kv, hkv, hcon⟩
  have h3 : (∀ r ∈ s.matchExpressions, reqTest ns true r p = true) ↔ ∀ r ∈ s.matchExpressions, SatReq n.HasVal r := by
    refine forall₂_congr fun r hr => reqTest_ns hn ?_
    by_contra hcon
    rw [not_or, not_not, not_exists] at hcon
    exact hv.2 ⟨r, hr, hcon⟩
  rw [h1, h3]
  simp [hd]

/-- C23: the empty selector selects every peer but DNS entries; the null selector selects nothing. -/
theorem C23_empty (c : Container) (ns : Ns) (nsSel : Bool) :
    (∃ q, selector c ns nsSel (some ⟨[], []⟩) = some q ∧ ∀ e, e ∈ q ↔ ∃ p ∈ c, p.kind ≠ .dns ∧ p.elem = e) ∧
    selector c ns nsSel none = some [] := by
  refine ⟨⟨c.sel allTest, rfl, fun e => ?_⟩, rfl⟩
  rw [mem_sel]
  simp only [allTest_iff]

/-- C23: `In` and `NotIn` split the peers of the container. -/
theorem C23_in_not_in {c : Container} (hu : c.Uniq) {ns : Ns} {key : String} {values : List String} {a b : PeerSet String}
    (ha : requirement c ns false ⟨key, .In, values⟩ = some a) (hb : requirement c ns false ⟨key, .NotIn, values⟩ = some b)
    {p : PeerInfo} (hp : p ∈ c) {k : String} (hk : p.elem = .pod k) : a.HasPod k ↔ ¬ b.HasPod k := by
  have l1 : Req.Legal ⟨key, .In, values⟩ := by
    by_contra h; rw [requirement_none _ _ _ _ h] at ha; cases ha
  have l2 : Req.Legal ⟨key, .NotIn, values⟩ := l1
  rw [requirement_eq _ _ _ _ l1] at ha
  rw [requirement_eq _ _ _ _ l2] at hb
  obtain rfl := Option.some.inj ha
  obtain rfl := Option.some.inj hb
  rw [hasPod_sel hu hp hk, hasPod_sel hu hp hk, reqTest_pod (Or.inl (by simp [Req.AboutKey])),
    reqTest_pod (Or.inl (by simp [Req.AboutKey]))]
  simp [SatReq]

/-- C23: the same for namespace selectors, over the peers that have a namespace; and neither selects a peer
without one. -/
theorem C23_ns_complement {c : Container} (hu : c.Uniq) {ns : Ns} {key : String} {values : List String} {neg : Bool}
    {a b : PeerSet String}
    (ha : requirement c ns true ⟨key, if neg then .Exists else .In, values⟩ = some a)
    (hb : requirement c ns true ⟨key, if neg then .DoesNotExist else .NotIn, values⟩ = some b)
    {p : PeerInfo} (hp : p ∈ c) {k : String} (hk : p.elem = .pod k) :
    (∀ n, p.ns = some n → (a.HasPod k ↔ ¬ b.HasPod k)) ∧ (p.ns = none → ¬ a.HasPod k ∧ ¬ b.HasPod k) := by
  cases neg with
  | false =>
    have l1 : Req.Legal ⟨key, .In, values⟩ := by
      by_contra h; rw [requirement_none _ _ _ ⟨key, if false then .Exists else .In, values⟩ h] at ha; cases ha
    have l2 : Req.Legal ⟨key, .NotIn, values⟩ := l1
    rw [requirement_eq _ _ _ ⟨key, if false then .Exists else .In, values⟩ l1] at ha
    rw [requirement_eq _ _ _ ⟨key, if false then .DoesNotExist else .NotIn, values⟩ l2] at hb
    obtain rfl := Option.some.inj ha
    obtain rfl := Option.some.inj hb
    rw [hasPod_sel hu hp hk, hasPod_sel hu hp hk]
    constructor
    · intro n hn; simp [reqTest, hn]
    · intro hn; simp [reqTest, hn]
  | true =>
    have l1 : Req.Legal ⟨key, .Exists, values⟩ := by
      by_contra h; rw [requirement_none _ _ _ ⟨key, if true then .Exists else .In, values⟩ h] at ha; cases ha
    have l2 : Req.Legal ⟨key, .DoesNotExist, values⟩ := l1
    rw [requirement_eq _ _ _ ⟨key, if true then .Exists else .In, values⟩ l1] at ha
    rw [requirement_eq _ _ _ ⟨key, if true then .DoesNotExist else .NotIn, values⟩ l2] at hb
    obtain rfl := Option.some.inj ha
    obtain rfl := Option.some.inj hb
    rw [hasPod_sel hu hp hk, hasPod_sel hu hp hk]
    constructor
    · intro n hn; simp [reqTest, hn]
    · intro hn; simp [reqTest, hn]

/-- C23: `Exists` and `DoesNotExist` split the peers of the policy's namespace. -/
theorem C23_exists_complement_partial {c : Container} (hu : c.Uniq) {ns : Ns} {key : String} {values : List String}
    {a b : PeerSet String}
    (ha : requirement c ns false ⟨key, .Exists, values⟩ = some a)
    (hb : requirement c ns false ⟨key, .DoesNotExist, values⟩ = some b)
    {p : PeerInfo} (hp : p ∈ c) {k : String} (hk : p.elem = .pod k) (hn : p.InNs ns) : a.HasPod k ↔ ¬ b.HasPod k := by
  have l1 : Req.Legal ⟨key, .Exists, values⟩ := by
    by_contra h; rw [requirement_none _ _ _ _ h] at ha; cases ha
  have l2 : Req.Legal ⟨key, .DoesNotExist, values⟩ := l1
  rw [requirement_eq _ _ _ _ l1] at ha
  rw [requirement_eq _ _ _ _ l2] at hb
  obtain rfl := Option.some.inj ha
  obtain rfl := Option.some.inj hb
  rw [hasPod_sel hu hp hk, hasPod_sel hu hp hk, reqTest_pod (Or.inr hn), reqTest_pod (Or.inr hn)]
  simp [SatReq]

/-- C23: adding requirements never adds peers or addresses. -/
theorem C23_monotone {c : Container} (hc : c.Ok) {ns : Ns} {nsSel : Bool} {s t : Selector} {q r : PeerSet String}
    (hs : selector c ns nsSel (some s) = some q) (ht : selector c ns nsSel (some t) = some r)
    (h1 : ∀ kv ∈ s.matchLabels, kv ∈ t.matchLabels) (h2 : ∀ e ∈ s.matchExpressions, e ∈ t.matchExpressions) :
    (∀ k, r.HasPod k → q.HasPod k) ∧ ∀ x, r.HasIp x → q.HasIp x := by
  obtain ⟨q', e, _, a2, a3⟩ := selector_sem hc ns nsSel s (legal_of_some hs)
  obtain rfl : q' = q := by rw [hs] at e; exact (Option.some.inj e).symm
  obtain ⟨r', e', _, b2, b3⟩ := selector_sem hc ns nsSel t (legal_of_some ht)
  obtain rfl : r' = r := by rw [ht] at e'; exact (Option.some.inj e').symm
  constructor
  · intro k
    rw [a2, b2]
    exact fun ⟨g0, g1, g2⟩ => ⟨g0, fun kv hkv => g1 kv (h1 kv hkv), fun e he => g2 e (h2 e he)⟩
  · intro k
    rw [a3, b3]
    exact fun ⟨g0, g1, g2⟩ => ⟨g0, fun kv hkv => g1 kv (h1 kv hkv), fun e he => g2 e (h2 e he)⟩

/-- The network sets of the container share no address. -/
def _root_.Verif.Container.DisjointSets (c : Container) : Prop := ∀ p ∈ c, ∀ q ∈ c, ∀ a b, p.elem = .ip a → q.elem = .ip b →
  ∀ x, a.Has x → b.Has x → p = q

/-- C23 (network sets): a pod selector selects exactly the addresses of the network sets that satisfy every
requirement.  Partial: when network sets overlap, an address may be selected although no set that holds it
satisfies the selector (`C23_overlapping_sets_wrong`). -/
theorem C23_network_sets_partial {c : Container} (hc : c.Ok) (hdis : c.DisjointSets) {ns : Ns} {s : Selector} {q : PeerSet String}
    (h : selector c ns false (some s) = some q)
    (hx : ∀ r ∈ s.matchExpressions, ¬ r.AboutKey) (x : Ip) :
    q.HasIp x ↔ ∃ p ∈ c, p.kind ≠ .dns ∧ (∃ b, p.elem = .ip b ∧ b.Has x) ∧ SatSel p.HasVal s := by
  obtain ⟨q', e, _, _, h3⟩ := selector_sem hc ns false s (legal_of_some h)
  obtain rfl : q' = q := by rw [h] at e; exact (Option.some.inj e).symm
  rw [h3]
  simp only [hasIp_sel]
  constructor
  · rintro ⟨⟨p, hp, b, hb, ht, hbx⟩, g1, g2⟩
    refine ⟨p, hp, (allTest_iff p).1 ht, ⟨b, hb, hbx⟩, fun kv hkv => ?_, fun r hr => ?_⟩
    · obtain ⟨p', hp', b', hb', ht', hbx'⟩ := g1 kv hkv
      obtain rfl := hdis p hp p' hp' b b' hb hb' x hbx hbx'
      exact (labelTest_pod kv p).1 ht'
    · obtain ⟨p', hp', b', hb', ht', hbx'⟩ := g2 r hr
      obtain rfl := hdis p hp p' hp' b b' hb hb' x hbx hbx'
      exact (reqTest_pod (Or.inl (hx r hr))).1 ht'
  · rintro ⟨p, hp, hd, ⟨b, hb, hbx⟩, g1, g2⟩
    exact ⟨⟨p, hp, b, hb, (allTest_iff p).2 hd, hbx⟩, fun kv hkv => ⟨p, hp, b, hb, (labelTest_pod kv p).2 (g1 kv hkv), hbx⟩,
      fun r hr => ⟨p, hp, b, hb, (reqTest_pod (Or.inl (hx r hr))).2 (g2 r hr), hbx⟩⟩

/-! ### Peers of rules -/

/-- Kubernetes semantics of a rule's peer, for a pod: without a namespace selector the policy's namespace is
meant; without a pod selector every pod of the namespaces is meant. -/
def SatPeer (ns : Ns) (pp : PolicyPeer) (p : PeerInfo) (n : Ns) : Prop :=
  (match pp.nsSelector with
    | some s => SatSel n.HasVal s
    | none => n.name = ns.name) ∧
  match pp.podSelector with
    | some s => SatSel p.HasVal s
    | none => True

/-- C23 (peers): a rule's peer given by selectors selects exactly the pods Kubernetes selects.  Partial: see
`C23_pod_selector_partial` and `C23_ns_selector_partial` for the two exceptions. -/
theorem C23_peer_partial {c : Container} (hu : c.Uniq) (hc : c.Ok) {ns : Ns} {pp : PolicyPeer} {q : PeerSet String}
    (h : peer c ns pp = some q) (hb : pp.ipBlock = none) {p : PeerInfo} (hp : p ∈ c) {k : String} (hk : p.elem = .pod k)
    (hd : p.kind ≠ .dns) {n : Ns} (hn : p.ns = some n)
    (hv : ∀ s, pp.nsSelector = some s → ¬ EmptyValueOfAbsentKey n s)
    (hx : (∀ s, pp.podSelector = some s → ∀ r ∈ s.matchExpressions, ¬ r.AboutKey) ∨ n.name = ns.name) :
    q.HasPod k ↔ SatPeer ns pp p n := by
  have hin : p.InNs ns ↔ n.name = ns.name := by simp [PeerInfo.InNs, hn]
  have hnone : (c.sel (fun p => sameNs p ns)).HasPod k ↔ n.name = ns.name := by
    rw [hasPod_sel hu hp hk, sameNs_iff, hin]
  unfold peer at h
  rw [hb] at h
  dsimp only at h
  split at h
  · cases h
  · unfold SatPeer
    rw [Option.bind_eq_some_iff] at h
    obtain ⟨res, hres, h⟩ := h
    have hr : res.Ok ∧ (res.HasPod k ↔ (match pp.nsSelector with | some s => SatSel n.HasVal s | none => n.name = ns.name)) := by
      cases e : pp.nsSelector with
      | none =>
        rw [e] at hres
        obtain rfl := Option.some.inj hres
        exact ⟨sel_ok hc _, hnone⟩
      | some s =>
        rw [e] at hres
        obtain ⟨q', e', hok, _⟩ := selector_sem hc ns true s (legal_of_some hres)
        obtain rfl : q' = res := by
          have : selector c ns true (some s) = some res := hres
          rw [e'] at this; exact Option.some.inj this
        exact ⟨hok, C23_ns_selector_partial hu hc hres hp hk hd hn (hv s e)⟩
    cases e : pp.podSelector with
    | none =>
      rw [e] at h
      obtain rfl := Option.some.inj h
      rw [hr.2]
      simp
    | some s =>
      rw [e] at h
      unfold podPart at h
      rw [Option.map_eq_some_iff] at h
      obtain ⟨sel, hsel, rfl⟩ := h
      obtain ⟨q', e', hok, _⟩ := selector_sem hc ns false s (legal_of_some hsel)
      obtain rfl : q' = sel := by rw [e'] at hsel; exact Option.some.inj hsel
      rw [(C22_and_exact hok hr.1).2.1, hr.2, C23_pod_selector_partial hu hc hsel hp hk hd]
      · exact and_comm
      · rcases hx with hx | hx
        · exact Or.inl (hx s e)
        · exact Or.inr (hin.2 hx)

/-- C23 (peers): a rule's `ipBlock` selects exactly the addresses of the network outside its exceptions, and no
pod; a peer with no field, or with `ipBlock` and a selector, is rejected. -/
theorem C23_peer_block {c : Container} {ns : Ns} {pp : PolicyPeer} :
    (∀ b q, pp.ipBlock = some b → peer c ns pp = some q → pp.podSelector = none ∧ pp.nsSelector = none ∧
      (∀ k, ¬ q.HasPod k) ∧ ∀ x, q.HasIp x ↔ b.1.Has x ∧ ∀ e ∈ b.2, ¬ e.Has x) ∧
    (pp.ipBlock = none → pp.podSelector = none → pp.nsSelector = none → peer c ns pp = none) := by
  refine ⟨fun b q hb h => ?_, fun h1 h2 h3 => ?_⟩
  · unfold peer at h
    rw [hb] at h
    dsimp only at h
    split at h
    · cases h
    · rename_i hs
      simp only [Bool.or_eq_true, Option.isSome_iff_ne_none, not_or, ne_eq, not_not] at hs
      refine ⟨hs.1, hs.2, ?_⟩
      unfold ipBlock at h
      rw [Option.map_eq_some_iff] at h
      obtain ⟨l, hl, rfl⟩ := h
      refine ⟨fun k hk => by simp [HasPod] at hk, fun x => ?_⟩
      have := C21_cidr_exact .empty hl x
      unfold HasIp
      simp only [List.mem_singleton, PeerElem.ip.injEq, exists_eq_left]
      rw [this]
      simp [IpBlock.Has]
  · unfold peer
    rw [h1, h2, h3]
    rfl

/-! ### Where the code fails, and examples that meet the hypotheses -/

def nsDefault : Ns := ⟨"default", [("env", "dev")]⟩
def nsProd : Ns := ⟨"prod", [("env", "prod")]⟩
def exPod (name : String) (n : Ns) (l : Labels) : PeerInfo := ⟨.pod (n.name ++ "/" ++ name), .pod, some n, l, [], false⟩
def exIv (a b : Nat) (ha : a ≤ topOf false) (hb : b ≤ topOf false) : IpBlock := [⟨⟨false, a, ha⟩, ⟨false, b, hb⟩⟩]
def exSetPeer (b : IpBlock) (l : Labels) : PeerInfo := ⟨.ip b, .netset, some nsDefault, l, [], false⟩
def exC : Container :=
  [exPod "a" nsDefault [("app", "web")], exPod "b" nsDefault [], exPod "c" nsProd [("app", "db"), ("tier", "x")],
   exSetPeer (exIv 0 9 (by decide) (by decide)) [("zone", "a")],
   exSetPeer (exIv 20 29 (by decide) (by decide)) [("zone", "b")]]

example : exC.Uniq := by
  intro p hp q hq h
  simp only [exC, List.mem_cons, List.not_mem_nil, or_false] at hp hq
  rcases hp with rfl | rfl | rfl | rfl | rfl <;> rcases hq with rfl | rfl | rfl | rfl | rfl <;>
    first | rfl | exact absurd h (by decide +kernel)
example : exC.Ok := by
  intro p hp b h
  simp only [exC, List.mem_cons, List.not_mem_nil, or_false] at hp
  rcases hp with rfl | rfl | rfl | rfl | rfl
  · cases h
  · cases h
  · cases h
  · cases h; exact .range _ rfl (by decide)
  · cases h; exact .range _ rfl (by decide)
/-- A policy in `default`: pods with `app` in web/db and without `tier=y`. -/
example : (selector exC nsDefault false (some ⟨[], [⟨"app", .In, ["web", "db"]⟩, ⟨"tier", .NotIn, ["y"]⟩]⟩)).map PeerSet.pods =
    some ["default/a", "prod/c"] := by decide +kernel
example : (selectedPods exC nsDefault (some ⟨[], [⟨"app", .Exists, []⟩]⟩)).map PeerSet.pods = some ["default/a"] := by decide +kernel
example : (peer exC nsDefault ⟨some ⟨[("app", "db")], []⟩, some ⟨[("env", "prod")], []⟩, none⟩).map PeerSet.pods =
    some ["prod/c"] := by decide +kernel
example : (selector exC nsDefault false (some ⟨[("zone", "a")], []⟩)) = some [.ip (exIv 0 9 (by decide) (by decide))] := by
  decide +kernel

/-- C23: `namespaceSelector: {}` with `podSelector: app Exists` in a policy of namespace `default` does not
select `prod/c`, which has the label `app`. -/
theorem C23_exists_restricted :
    (peer exC nsDefault ⟨some ⟨[], [⟨"app", .Exists, []⟩]⟩, some ⟨[], []⟩, none⟩).map PeerSet.pods = some ["default/a"] ∧
    (exPod "c" nsProd [("app", "db"), ("tier", "x")]).HasVal "app" "db" := by
  refine ⟨by decide +kernel, Or.inl (by decide +kernel)⟩

/-- C23: `env In [""]` selects the pods of a namespace that has no label `env` at all. -/
theorem C23_ns_empty_value_wrong :
    (selector [exPod "a" ⟨"bare", []⟩ []] nsDefault true (some ⟨[], [⟨"env", .In, [""]⟩]⟩)).map PeerSet.pods = some ["bare/a"] ∧
    ¬ SatReq (Ns.HasVal ⟨"bare", []⟩) ⟨"env", .In, [""]⟩ := by
  refine ⟨by decide +kernel, ?_⟩
  simp [SatReq, Ns.HasVal]

/-- C23: two network sets overlap in 5-9; each satisfies one of the two required labels, none both; the
addresses 5-9 are selected. -/
theorem C23_overlapping_sets_wrong :
    selector [exSetPeer (exIv 0 9 (by decide) (by decide)) [("zone", "a")], exSetPeer (exIv 5 14 (by decide) (by decide)) [("tier", "x")]]
      nsDefault false (some ⟨[("zone", "a"), ("tier", "x")], []⟩) = some [.ip (exIv 5 9 (by decide) (by decide))] := by
  decide +kernel

end K8sParser
end Verif
