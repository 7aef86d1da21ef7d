import Verif.PropsSourcesTopo
/-!
Property theorems C67: configurations of a scheme, and the resources that are added when they are missing.
-/
namespace Verif

namespace Sources
open Topology

variable {σ π : Type}

/-! ### Configurations do not depend on each other -/

/-- Finders that differ in the registry at most. -/
def TLike (a b : Topo) : Prop := a.nss = b.nss ∧ a.counted = b.counted ∧ a.peers = b.peers

/-- The results of a step, where both are defined. -/
def Keeps {τ α : Type} (R : τ → τ → Prop) (f : τ → α → Option τ) : Prop := ∀ a b x a' b', R a b → f a x = some a' → f b x = some b' → R a' b'

theorem Keeps.fold {τ α : Type} {R : τ → τ → Prop} {f : τ → α → Option τ} (h : Keeps R f) : Keeps R (fun a (l : List α) => l.foldlM f a) := by
  intro a b l
  induction l generalizing a b with
  | nil => intro a' b' hr ha hb; simp at ha hb; rw [← ha, ← hb]; exact hr
  | cons x l ih =>
    intro a' b' hr ha hb
    simp only [List.foldlM_cons] at ha hb
    obtain ⟨a1, h1, h2⟩ := Option.bind_eq_some_iff.1 ha
    obtain ⟨b1, h3, h4⟩ := Option.bind_eq_some_iff.1 hb
    exact ih a1 b1 a' b' (h a b x a1 b1 hr h1 h3) h2 h4

theorem TLike.ns {a b : Topo} (h : TLike a b) (n : String) : a.ns n = b.ns n := by unfold Topo.ns; rw [h.1]

theorem TLike.touch {a b : Topo} (h : TLike a b) (n : String) : TLike (a.touch n) (b.touch n) := by
  unfold Topo.touch
  rw [h.1]
  split
  · exact h
  · exact ⟨by simp, h.2⟩

theorem addPeer_like : Keeps TLike addPeer := by
  intro a b p a' b' h ha hb
  unfold addPeer at ha hb
  rw [h.2.1] at ha
  split at ha
  · rename_i hc
    rw [if_pos hc] at hb
    cases ha; cases hb; exact h
  · rename_i hc
    rw [if_neg hc] at hb
    obtain ⟨r, _, rfl⟩ := Option.map_eq_some_iff.1 ha
    obtain ⟨s, _, rfl⟩ := Option.map_eq_some_iff.1 hb
    exact ⟨h.1, by simp, by simp [h.2.2]⟩

theorem addPod_like (typed : Bool) : Keeps TLike (addPod typed) := by
  intro a b x a' b' h ha hb
  simp only [addPod] at ha hb
  rw [h.ns] at ha
  exact addPeer_like _ _ _ _ _ (h.touch _) ha hb

theorem addItem_like (cidrs : IpBlock → String) (ord : SetOrder) : Keeps TLike (addItem cidrs ord) := by
  intro a b x a' b' h ha hb
  cases x with
  | ns x => cases ha; cases hb; exact h
  | pod x => exact addPod_like true _ _ _ _ _ h ha hb
  | work x =>
    simp only [addItem, addWork] at ha hb
    rw [h.ns] at ha
    exact Keeps.fold (f := fun s i => addPeer s (workObj (b.ns (x.ns.getD "default")) x i)) (fun a b i a' b' h ha hb => addPeer_like _ _ _ _ _ h ha hb) _ _ _ _ _ (h.touch _) ha hb
  | wep x =>
    simp only [addItem, addWep] at ha hb
    rw [h.ns] at ha
    exact addPeer_like _ _ _ _ _ (h.touch _) ha hb
  | hep x => exact addPeer_like _ _ _ _ _ h ha hb
  | set x =>
    simp only [addItem, addSet] at ha hb
    split at ha
    · rename_i hx
      rw [if_pos hx] at hb
      cases ha; cases hb; exact h
    · rename_i hx
      rw [if_neg hx] at hb
      obtain ⟨c, hc, ha⟩ := Option.bind_eq_some_iff.1 ha
      rw [hc, Option.bind_some] at hb
      split at ha
      · rename_i hy
        rw [if_pos hy] at hb
        exact addPeer_like _ _ _ _ _ h ha hb
      · rename_i hy
        rw [if_neg hy] at hb
        rw [h.ns] at ha
        exact addPeer_like _ _ _ _ _ (h.touch _) ha hb
  | entry x =>
    simp only [addItem, addEntry] at ha hb
    split at ha
    · cases ha
    · rename_i hx
      rw [if_neg hx] at hb
      exact Keeps.fold (f := fun s i => addPeer s (dnsObj i)) (fun a b i a' b' h ha hb => addPeer_like _ _ _ _ _ h ha hb) _ _ _ _ _ h ha hb

theorem nsPass_like {a b : Topo} (h : TLike a b) (d : Doc) : TLike (nsPass a d) (nsPass b d) := by
  unfold nsPass
  generalize d.nss = l
  induction l generalizing a b with
  | nil => exact h
  | cons x l ih => exact ih ⟨by simp [addNs, h.1], h.2⟩

theorem step_like (cidrs : IpBlock → String) (ord : SetOrder) : Keeps TLike (step cidrs ord) := by
  intro a b s a' b' h ha hb
  have h1 : TLike (if s.nss then nsPass a s.doc else a) (if s.nss then nsPass b s.doc else b) := by
    split
    · exact nsPass_like h _
    · exact h
  unfold step at ha hb
  dsimp only at ha hb
  generalize (if s.nss = true then nsPass a s.doc else a) = u at ha h1
  generalize (if s.nss = true then nsPass b s.doc else b) = v at hb h1
  by_cases he : s.eps = true
  · rw [if_pos he] at ha hb
    unfold epPass at ha hb
    cases hd : s.doc <;> rw [hd] at ha hb <;> dsimp only at ha hb
    · exact addItem_like _ _ _ _ _ _ _ h1 ha hb
    · exact (addItem_like cidrs ord).fold _ _ _ _ _ h1 ha hb
    · exact (addPod_like false).fold _ _ _ _ _ h1 ha hb
  · rw [if_neg he] at ha hb
    cases ha; cases hb; exact h1

/-- Finders that differ in the registry at most. -/
def FLike (a b : Found σ) : Prop := TLike a.topo b.topo ∧ a.svcs = b.svcs

variable {W : World σ π}

theorem readPaths_like (nss eps : Bool) : Keeps FLike (fun (f : Found σ) l => readPaths W nss eps f l) := by
  have key : Keeps FLike (readPiece (σ := σ) W nss eps) := by
    intro a b x a' b' h ha hb
    cases x with
    | topo d =>
      simp only [readPiece] at ha hb
      obtain ⟨t, h1, rfl⟩ := Option.map_eq_some_iff.1 ha
      obtain ⟨u, h2, rfl⟩ := Option.map_eq_some_iff.1 hb
      exact ⟨step_like _ _ _ _ _ _ _ h.1 h1 h2, h.2⟩
    | svc n s =>
      simp only [readPiece] at ha hb
      split at ha
      · rename_i he
        rw [if_pos he] at hb
        cases ha; cases hb
        exact ⟨h.1.touch n, by rw [h.1.ns, h.2]⟩
      · rename_i he
        rw [if_neg he] at hb
        cases ha; cases hb; exact h
    | pol p => cases ha; cases hb; exact h
  intro a b l a' b' h ha hb
  exact key.fold a b _ a' b' h ha hb

theorem parseTopology_like {reg reg' : PodReg} {ns pods res : Option (List String)} {r s : Found σ × Bool × Option ResType}
    (h : parseTopology W reg ns pods res = some r) (h' : parseTopology W reg' ns pods res = some s) : FLike r.1 s.1 ∧ r.2 = s.2 := by
  have h0 : FLike (Found.new reg : Found σ) (Found.new reg') := ⟨⟨rfl, rfl, rfl⟩, rfl⟩
  unfold parseTopology at h h'
  dsimp only at h h'
  split at h
  · rename_i hc
    rw [if_pos hc] at h'
    cases h; cases h'
    exact ⟨h0, rfl⟩
  · rename_i hc
    rw [if_neg hc] at h'
    obtain ⟨f, h1, rfl⟩ := Option.map_eq_some_iff.1 h
    obtain ⟨f', h2, rfl⟩ := Option.map_eq_some_iff.1 h'
    have : FLike f f' := by
      split at h1
      · rename_i hb
        rw [if_pos hb] at h2
        exact readPaths_like (W := W) _ _ _ _ _ _ _ h0 h1 h2
      · rename_i hb
        rw [if_neg hb] at h2
        obtain ⟨f1, h3, h4⟩ := Option.bind_eq_some_iff.1 h1
        obtain ⟨f2, h5, h6⟩ := Option.bind_eq_some_iff.1 h2
        exact readPaths_like (W := W) _ _ _ _ _ _ _ (readPaths_like (W := W) _ _ _ _ _ _ _ h0 h3 h5) h4 h6
    refine ⟨this, ?_⟩
    dsimp only
    rw [this.1.1, this.1.2.2]

theorem elements_like {g : Option (Global σ)} {reg reg' : PodReg} {L : Lists} {r s : Parsed σ π × Option (Global σ) × PodReg}
    (h : parseElements W g reg L false = some r) (h' : parseElements W g reg' L false = some s) : r.1 = s.1 ∧ r.2.1 = g ∧ s.2.1 = g := by
  unfold parseElements setContainer at h h'
  simp only [Option.map_map] at h h'
  obtain ⟨a, h1, rfl⟩ := Option.map_eq_some_iff.1 h
  obtain ⟨b, h2, rfl⟩ := Option.map_eq_some_iff.1 h'
  obtain ⟨h3, h4⟩ := parseTopology_like h1 h2
  refine ⟨?_, rfl, rfl⟩
  simp only [Function.comp]
  rw [h4, h3.1.1, h3.1.2.2, h3.2]

theorem getConfig_cases {g : Option (Global σ)} {reg : PodReg} {L : Lists} {r : Parsed σ π × Option (Global σ) × PodReg}
    (h : getConfig W g reg L false = some r) : ∃ q, parseElements W g reg L false = some q ∧
      ((addons W q.1.cont q.1.pols = [] ∧ r = q) ∨
        (addons W q.1.cont q.1.pols ≠ [] ∧ parseElements W g q.2.2 (L.extend (addons W q.1.cont q.1.pols)) false = some r)) := by
  unfold getConfig at h
  obtain ⟨q, hq, h⟩ := Option.bind_eq_some_iff.1 h
  refine ⟨q, hq, ?_⟩
  dsimp only at h
  split at h
  · rename_i ha
    cases h
    exact .inl ⟨by simpa using ha, rfl⟩
  · rename_i ha
    rw [(elements_like hq hq).2.1] at h
    exact .inr ⟨by simpa using ha, h⟩

theorem getConfig_like {g : Option (Global σ)} {reg reg' : PodReg} {L : Lists} {r s : Parsed σ π × Option (Global σ) × PodReg}
    (h : getConfig W g reg L false = some r) (h' : getConfig W g reg' L false = some s) : r.1 = s.1 := by
  obtain ⟨q, hq, h⟩ := getConfig_cases h
  obtain ⟨p, hp, h'⟩ := getConfig_cases h'
  have e := (elements_like hq hp).1
  rw [e] at h
  rcases h with ⟨h1, rfl⟩ | ⟨h1, h2⟩
  · rcases h' with ⟨_, rfl⟩ | ⟨h3, _⟩
    · exact e
    · exact absurd h1 h3
  · rcases h' with ⟨h3, rfl⟩ | ⟨_, h4⟩
    · exact absurd h3 h1
    · exact (elements_like h2 h4).1

/-- C67: each configuration of a scheme is the same as if it was the only one, after the same global topology. -/
theorem C67_independent {g : Option (Global σ)} {reg reg' : PodReg} {Ls : List Lists} {rs : List (Parsed σ π)} {out : PodReg}
    (h : getConfigs W g reg Ls = some (rs, out)) : rs.length = Ls.length ∧
    ∀ (i : Nat) (L : Lists), Ls[i]? = some L → ∀ r, getConfig W g reg' L false = some r → rs[i]? = some r.1 := by
  induction Ls generalizing reg rs out with
  | nil =>
    simp [getConfigs] at h
    simp [← h.1]
  | cons L Ls ih =>
    simp only [getConfigs] at h
    obtain ⟨q, hq, h⟩ := Option.bind_eq_some_iff.1 h
    obtain ⟨s, hs, he⟩ := Option.map_eq_some_iff.1 h
    rw [Prod.mk.injEq] at he
    obtain ⟨rfl, rfl⟩ := he
    obtain ⟨h1, h2⟩ := ih hs
    refine ⟨by simp [h1], fun i M hi r hr => ?_⟩
    cases i with
    | zero =>
      simp at hi
      subst hi
      simp [getConfig_like hq hr]
    | succ i => exact h2 i M (by simpa using hi) r hr

/-! ### Missing resources -/

/-- A label that a selector asks for: of the namespace of the endpoint, where an absent one counts as empty, or its own, also
by a profile. -/
def Asks (nsSel : Bool) (kv : String × String) (p : PeerInfo) : Prop :=
  if nsSel then ∃ n, p.ns = some n ∧ (n.labels.lookup kv.1).getD "" = kv.2 else p.labels.lookup kv.1 = some kv.2 ∨ p.extra.lookup kv.1 = some kv.2

theorem labelTest_iff (nsSel : Bool) (kv : String × String) (p : PeerInfo) : K8sParser.labelTest nsSel kv p = true ↔ Asks nsSel kv p := by
  have gi : ∀ l : Labels, Container.getIn l kv.1 [kv.2] = true ↔ l.lookup kv.1 = some kv.2 := by
    intro l
    unfold Container.getIn
    cases l.lookup kv.1 <;> simp
  unfold K8sParser.labelTest Asks
  cases nsSel with
  | true => cases p.ns <;> simp
  | false => simp [gi]

theorem and_nil {p q : PeerSet String} (hp : p.Ok) (hq : q.Ok) : (p.and q).isEmpty = true ↔ (∀ k, ¬ (p.HasPod k ∧ q.HasPod k)) ∧ ∀ x, ¬ (p.HasIp x ∧ q.HasIp x) := by
  obtain ⟨h1, h2, h3⟩ := PeerSet.C22_and_exact hp hq
  simp only [← h2, ← h3]
  constructor
  · intro h
    have : p.and q = [] := by simpa using h
    rw [this]
    exact ⟨fun k hk => by simp [PeerSet.HasPod] at hk, fun x hx => by simp [PeerSet.HasIp] at hx⟩
  · rintro ⟨a, b⟩
    have hb : IpBlock.Built (p.ipForm.inter q.ipForm) := .inter (PeerSet.ipForm_built hp) (PeerSet.ipForm_built hq)
    cases h : p.and q with
    | nil => rfl
    | cons e l =>
      have he : e ∈ p.and q := by rw [h]; simp
      cases e with
      | pod k => exact absurd he (a k)
      | ip c =>
        exfalso
        unfold PeerSet.and PeerSet.ofBlock at he
        rw [List.mem_append] at he
        rcases he with he | he
        · simp at he
        · split at he
          · rename_i ht
            obtain ⟨x, hx⟩ := (IpBlock.C21_truthy_exact hb).1 ht
            refine b x ⟨c, by rw [h]; simp, ?_⟩
            simp at he
            rw [he]; exact hx
          · simp at he

/-- The labels that are recorded: those up to which nobody is left. -/
theorem missingLoop_iff {c : Container} (nsSel : Bool) (l : Labels) (res : PeerSet String) (kv : String × String) :
    kv ∈ missingLoop c nsSel res l ↔ ∃ a b, l = a ++ kv :: b ∧ ((a ++ [kv]).foldl (K8sParser.labelStep c nsSel) res).isEmpty = true := by
  induction l generalizing res with
  | nil => simp [missingLoop]
  | cons x l ih =>
    have key : (∃ a b, x :: l = a ++ kv :: b ∧ ((a ++ [kv]).foldl (K8sParser.labelStep c nsSel) res).isEmpty = true) ↔
        (kv = x ∧ (K8sParser.labelStep c nsSel res x).isEmpty = true) ∨ kv ∈ missingLoop c nsSel (K8sParser.labelStep c nsSel res x) l := by
      rw [ih]
      constructor
      · rintro ⟨a, b, e, h⟩
        cases a with
        | nil =>
          simp only [List.nil_append, List.cons.injEq] at e
          obtain ⟨rfl, rfl⟩ := e
          exact .inl ⟨rfl, by simpa using h⟩
        | cons y a =>
          simp only [List.cons_append, List.cons.injEq] at e
          obtain ⟨rfl, rfl⟩ := e
          exact .inr ⟨a, b, rfl, by simpa using h⟩
      · rintro (⟨rfl, h⟩ | ⟨a, b, rfl, h⟩)
        · exact ⟨[], l, rfl, by simpa using h⟩
        · exact ⟨x :: a, b, rfl, by simpa using h⟩
    rw [key]
    simp only [missingLoop]
    split
    · rename_i h; simp [h]
    · rename_i h; simp [h]

/-- No endpoint of the cluster, DNS names aside, meets all of the labels of a selector. -/
def Nobody (c : Container) (nsSel : Bool) (l : Labels) : Prop := ∀ p ∈ c, p.kind ≠ .dns → ¬ ∀ kv ∈ l, Asks nsSel kv p

/-- All endpoints are pods: there are no network sets. -/
def AllPods (c : Container) : Prop := ∀ p ∈ c, ∃ k, p.elem = .pod k

theorem AllPods.ok {c : Container} (h : AllPods c) : c.Ok := by
  intro p hp b e
  obtain ⟨k, hk⟩ := h p hp
  rw [hk] at e; cases e

theorem fold_nil {c : Container} (hc : AllPods c) (hu : c.Uniq) (nsSel : Bool) (l : Labels) (hl : l ≠ []) :
    (l.foldl (K8sParser.labelStep c nsSel) (c.allPeers false true false)).isEmpty = true ↔ Nobody c nsSel l := by
  obtain ⟨a, kv, rfl⟩ : ∃ a kv, l = a ++ [kv] := ⟨l.dropLast, l.getLast hl, (List.dropLast_append_getLast hl).symm⟩
  rw [List.foldl_append, List.foldl_cons, List.foldl_nil, K8sParser.labelStep_eq, K8sParser.allPeers_eq]
  obtain ⟨h1, h2, h3⟩ := K8sParser.labels_fold hc.ok nsSel a (Container.sel_ok hc.ok K8sParser.allTest)
  rw [and_nil h1 (Container.sel_ok hc.ok _)]
  have noip : ∀ f x, ¬ (c.sel f).HasIp x := by
    intro f x h
    obtain ⟨p, hp, b, e, _⟩ := (Container.hasIp_sel c f x).1 h
    obtain ⟨k, hk⟩ := hc p hp
    rw [hk] at e; cases e
  constructor
  · rintro ⟨h, _⟩ p hp hk hall
    obtain ⟨k, he⟩ := hc p hp
    refine h k ⟨(h2 k).2 ⟨(Container.hasPod_sel hu hp he _).2 ((K8sParser.allTest_iff p).2 hk), fun x hx => ?_⟩, ?_⟩
    · exact (Container.hasPod_sel hu hp he _).2 ((labelTest_iff _ _ _).2 (hall x (by simp [hx])))
    · exact (Container.hasPod_sel hu hp he _).2 ((labelTest_iff _ _ _).2 (hall kv (by simp)))
  · refine fun h => ⟨fun k hk => ?_, fun x hx => noip _ x hx.2⟩
    obtain ⟨p, hp, hf, he⟩ := (Container.mem_sel c _ _).1 hk.2
    obtain ⟨h4, h5⟩ := (h2 k).1 hk.1
    refine h p hp ((K8sParser.allTest_iff p).1 ((Container.hasPod_sel hu hp he _).1 h4)) fun x hx => (labelTest_iff _ _ _).1 ?_
    rcases List.mem_append.1 hx with hx | hx
    · exact (Container.hasPod_sel hu hp he _).1 (h5 x hx)
    · simp at hx; subst hx; exact hf

/-- C67: a selector of a Kubernetes policy records a label exactly if no endpoint meets it and those before it.  Partial: in
clusters without network sets. -/
theorem C67_missing_k8s_partial {c : Container} (hc : AllPods c) (hu : c.Uniq) (nsSel : Bool) (l : Labels) (kv : String × String) :
    kv ∈ missingK8s c (nsSel, l) ↔ ∃ a b, l = a ++ kv :: b ∧ Nobody c nsSel (a ++ [kv]) := by
  unfold missingK8s
  rw [missingLoop_iff]
  simp only [fold_nil hc hu nsSel _ (List.append_ne_nil_of_right_ne_nil _ (List.cons_ne_nil kv []))]

/-- C67: a Gateway records a label of its selector exactly if no endpoint has it. -/
theorem C67_missing_gateway {c : Container} (sel : Labels) (kv : String × String) :
    kv ∈ missingGateway c sel ↔ kv ∈ sel ∧ ∀ p ∈ c, ¬ Asks false kv p := by
  unfold missingGateway
  have : c.withLabel kv.1 [kv.2] false = c.sel (K8sParser.labelTest false kv) := rfl
  rw [List.mem_filter, this]
  refine and_congr_right fun _ => ?_
  simp only [← labelTest_iff]
  constructor
  · intro h p hp ht
    have : p.elem ∈ c.sel (K8sParser.labelTest false kv) := (Container.mem_sel c _ _).2 ⟨p, hp, ht, rfl⟩
    rw [List.isEmpty_iff.1 h] at this
    cases this
  · intro h
    rw [List.isEmpty_iff, List.eq_nil_iff_forall_not_mem]
    intro e he
    obtain ⟨p, hp, ht, _⟩ := (Container.mem_sel c _ _).1 he
    exact h p hp ht

/-- A policy of the configuration misses a label: no endpoint meets the selector of a Kubernetes policy that has it, or has the
label in the selector of a Gateway. -/
def World.Misses (W : World σ π) (c : Container) (pols : List π) (dir : List String) (kv : String × String) : Prop :=
  ∃ q ∈ pols, (dir = W.dns ∧ ∃ sels s, W.need q = .k8s sels ∧ s ∈ sels ∧ kv ∈ s.2 ∧ Nobody c s.1 s.2) ∨
    (dir = W.gateways ∧ ∃ sel, W.need q = .gateway sel ∧ kv ∈ sel ∧ ∀ p ∈ c, ¬ Asks false kv p)

/-- An Ingress of the configuration finds no controller. -/
def World.NoController (W : World σ π) (c : Cont σ) (pols : List π) : Prop := (∃ q ∈ pols, W.need q = .ingress) ∧ W.nginx c = false

theorem missingIngress_iff {c : Cont σ} {pols : List π} : missingIngress W c pols = true ↔ W.NoController c pols := by
  unfold missingIngress World.NoController
  rw [List.any_eq_true]
  constructor
  · rintro ⟨q, hq, h⟩
    split at h
    · rename_i e
      exact ⟨⟨q, hq, e⟩, by simpa using h⟩
    · cases h
  · rintro ⟨⟨q, hq, e⟩, h⟩
    exact ⟨q, hq, by simp [e, h]⟩

theorem relevant_iff (hf : W.Fair) (dir : List String) (m : Labels) (p : String) :
    p ∈ relevant W dir m ↔ p ∈ dir ∧ ∃ kv ∈ m, kv ∈ fileLabels W p := by
  unfold relevant
  rw [hf, List.mem_filter, List.any_eq_true]
  simp

/-- C67: resources that the user did not name are added only if a policy refers to something missing: a file for DNS has a label
of a selector of a Kubernetes policy that matches nobody, a file for gateways one of a Gateway that nobody has, and the
controller is added if there is an Ingress and no controller.  Partial: in clusters without network sets. -/
theorem C67_needed_partial (hf : W.Fair) {c : Cont σ} {pols : List π} (hc : AllPods c.infos) (hu : c.infos.Uniq) {p : String}
    (h : p ∈ addons W c pols) :
    (p ∈ W.dns ∧ ∃ kv ∈ fileLabels W p, W.Misses c.infos pols W.dns kv) ∨ (p ∈ W.gateways ∧ ∃ kv ∈ fileLabels W p, W.Misses c.infos pols W.gateways kv) ∨
      (p = W.controller ∧ W.NoController c pols) := by
  unfold addons at h
  rw [List.mem_append, List.mem_append, relevant_iff hf, relevant_iff hf] at h
  rcases h with (⟨hd, kv, hm, hl⟩ | h) | ⟨hd, kv, hm, hl⟩
  · refine .inl ⟨hd, kv, hl, ?_⟩
    unfold missingDns at hm
    obtain ⟨q, hq, h⟩ := List.mem_flatMap.1 hm
    split at h
    · rename_i sels e
      obtain ⟨s, hs, h⟩ := List.mem_flatMap.1 h
      obtain ⟨a, b, e2, hn⟩ := (C67_missing_k8s_partial hc hu s.1 s.2 kv).1 h
      refine ⟨q, hq, .inl ⟨rfl, sels, s, e, hs, by rw [e2]; simp, fun x hx hk hall => hn x hx hk fun y hy => hall y ?_⟩⟩
      rw [e2]
      simp only [List.mem_append, List.mem_cons, List.not_mem_nil, or_false] at hy ⊢
      rcases hy with hy | hy
      · exact .inl hy
      · exact .inr (.inl hy)
    · cases h
  · split at h
    · rename_i hi
      exact .inr (.inr ⟨by simpa using h, missingIngress_iff.1 hi⟩)
    · cases h
  · refine .inr (.inl ⟨hd, kv, hl, ?_⟩)
    unfold missingGateways at hm
    obtain ⟨q, hq, h⟩ := List.mem_flatMap.1 hm
    split at h
    · rename_i sel e
      obtain ⟨h1, h2⟩ := (C67_missing_gateway sel kv).1 h
      exact ⟨q, hq, .inr ⟨rfl, sel, e, h1, h2⟩⟩
    · cases h

/-- C67: what is known to be missing is added: each file for DNS with a label in a selector of a Kubernetes policy that no
endpoint meets, each file for gateways with a label of a Gateway that nobody has, and the controller.  Partial: in clusters
without network sets. -/
theorem C67_added_partial (hf : W.Fair) {c : Cont σ} {pols : List π} (hc : AllPods c.infos) (hu : c.infos.Uniq) {q : π} (hq : q ∈ pols) :
    (∀ sels s kv, W.need q = .k8s sels → s ∈ sels → kv ∈ s.2 → (∀ p ∈ c.infos, p.kind ≠ .dns → ¬ Asks s.1 kv p) →
      ∀ p ∈ W.dns, kv ∈ fileLabels W p → p ∈ addons W c pols) ∧
    (∀ sel kv, W.need q = .gateway sel → kv ∈ sel → (∀ p ∈ c.infos, ¬ Asks false kv p) →
      ∀ p ∈ W.gateways, kv ∈ fileLabels W p → p ∈ addons W c pols) ∧
    (W.need q = .ingress → W.nginx c = false → W.controller ∈ addons W c pols) := by
  unfold addons
  refine ⟨fun sels s kv e hs hk hn p hp hl => ?_, fun sel kv e hk hn p hp hl => ?_, fun e hn => ?_⟩
  · refine List.mem_append_left _ (List.mem_append_left _ ((relevant_iff hf _ _ _).2 ⟨hp, kv, ?_, hl⟩))
    unfold missingDns
    refine List.mem_flatMap.2 ⟨q, hq, ?_⟩
    rw [e]
    obtain ⟨a, b, e2⟩ := List.append_of_mem hk
    exact List.mem_flatMap.2 ⟨s, hs, (C67_missing_k8s_partial hc hu s.1 s.2 kv).2 ⟨a, b, e2, fun x hx hd hall => hn x hx hd (hall kv (by simp))⟩⟩
  · refine List.mem_append_right _ ((relevant_iff hf _ _ _).2 ⟨hp, kv, ?_, hl⟩)
    unfold missingGateways
    refine List.mem_flatMap.2 ⟨q, hq, ?_⟩
    rw [e]
    exact (C67_missing_gateway sel kv).2 ⟨hk, hn⟩
  · refine List.mem_append_left _ (List.mem_append_right _ ?_)
    rw [if_pos (missingIngress_iff.2 ⟨⟨q, hq, e⟩, hn⟩)]
    simp

/-- C67: a configuration is read from the lists as given; only if something is found missing it is read again, with the added
files after those of each list that is not empty, but for that of policies. -/
theorem C67_livesim {g : Option (Global σ)} {reg : PodReg} {L : Lists} {r : Parsed σ π × Option (Global σ) × PodReg}
    (h : getConfig W g reg L false = some r) : ∃ q, parseElements W g reg L false = some q ∧ r.2.1 = g ∧
      ((addons W q.1.cont q.1.pols = [] ∧ r = q) ∨ (addons W q.1.cont q.1.pols ≠ [] ∧ ∃ L' reg', parseElements W g reg' L' false = some r ∧ L'.np = L.np ∧
        ∀ f ∈ [Lists.ns, Lists.pods, Lists.res], (f L').getD [] = if (f L).getD [] = [] then [] else (f L).getD [] ++ addons W q.1.cont q.1.pols)) := by
  obtain ⟨q, hq, hc⟩ := getConfig_cases h
  refine ⟨q, hq, ?_⟩
  rcases hc with ⟨h1, rfl⟩ | ⟨h1, h2⟩
  · exact ⟨(elements_like hq hq).2.1, .inl ⟨h1, rfl⟩⟩
  · refine ⟨(elements_like h2 h2).2.1, .inr ⟨h1, _, _, h2, rfl, ?_⟩⟩
    intro f hf
    simp only [List.mem_cons, List.not_mem_nil, or_false] at hf
    rcases hf with rfl | rfl | rfl <;> exact extend_getD _ _

end Sources
end Verif
