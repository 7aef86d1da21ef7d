import Verif.PropsSources
/-!
Property theorems C67: the topology of a configuration, its own or the global one.
-/
namespace Verif

namespace Sources
open Topology

variable {σ π : Type}

/-! ### Specification -/

/-- A document as C61 sees it.  A service makes its namespace known, like a workload without pods. -/
def Piece.doc? : Piece σ π → Option Doc
  | .topo d => some d
  | .svc n _ => some (.one (.work ⟨"Service", "service", some n, some 0, none, [], none, []⟩))
  | .pol _ => none

/-- The documents of files. -/
def docsOf (W : World σ π) (l : List String) : List Doc := (l.flatMap W.files).filterMap Piece.doc?

/-- Namespaces and endpoints are both taken from the general list; this is so too if specific lists are equal to it. -/
def Lists.General (L : Lists) : Prop :=
  (L.pods.getD [] = [] ∨ L.pods = L.res) ∧ (L.ns.getD [] = [] ∨ L.ns = L.res)

instance (L : Lists) : Decidable L.General := by unfold Lists.General; infer_instance

/-- The documents that are read for namespaces and endpoints, in the sense of C61. -/
def Lists.steps (W : World σ π) (L : Lists) : List Step :=
  if L.General then together (docsOf W (L.res.getD [])) else apart (docsOf W L.nsFrom) (docsOf W L.podFrom)

/-- The services of files, with their namespaces. -/
def servicesIn (W : World σ π) (l : List String) : List (String × σ) :=
  (l.flatMap W.files).filterMap fun x => match x with | .svc n s => some (n, s) | _ => none

/-! ### Proofs -/

variable {W : World σ π}

theorem touch_step (cidrs : IpBlock → String) (ord : SetOrder) (t : Topo) (n : String) (nss : Bool) :
    step cidrs ord t ⟨.one (.work ⟨"Service", "service", some n, some 0, none, [], none, []⟩), nss, true⟩ = some (t.touch n) := by
  cases nss <;> simp [step, nsPass, Doc.nss, epPass, addItem, addWork, WorkText.made]

theorem readPaths_steps (nss eps : Bool) (f : Found σ) (l : List String) :
    (readPaths W nss eps f l).map Found.topo = ((docsOf W l).map fun d => ⟨d, nss, eps⟩).foldlM (step W.cidrs W.ord) f.topo := by
  unfold readPaths docsOf
  generalize l.flatMap W.files = xs
  induction xs generalizing f with
  | nil => rfl
  | cons x xs ih =>
    rw [List.foldlM_cons]
    cases x with
    | topo d =>
      simp only [readPiece, List.filterMap_cons, Piece.doc?, List.map_cons, List.foldlM_cons]
      cases h : step W.cidrs W.ord f.topo ⟨d, nss, eps⟩ with
      | none => rfl
      | some t => simpa using ih { f with topo := t }
    | svc n s =>
      simp only [readPiece, List.filterMap_cons, Piece.doc?, List.map_cons, List.foldlM_cons]
      cases eps with
      | true =>
        rw [touch_step]
        simpa using ih ⟨f.topo.touch n, f.svcs ++ [(f.topo.ns n, s)]⟩
      | false =>
        have : step W.cidrs W.ord f.topo ⟨.one (.work ⟨"Service", "service", some n, some 0, none, [], none, []⟩), nss, false⟩ = some f.topo := by
          cases nss <;> simp [step, nsPass, Doc.nss]
        rw [this]
        simpa using ih f
    | pol p => simpa [readPiece, List.filterMap_cons, Piece.doc?] using ih f

theorem readPaths_svcs {nss eps : Bool} {f f' : Found σ} {l : List String} (h : readPaths W nss eps f l = some f') :
    f'.svcs.map (fun s => s.2) = f.svcs.map (fun s => s.2) ++ if eps then (servicesIn W l).map fun s => s.2 else [] := by
  unfold readPaths at h
  unfold servicesIn
  generalize l.flatMap W.files = xs at h
  induction xs generalizing f with
  | nil => simp at h; simp [h]
  | cons x xs ih =>
    rw [List.foldlM_cons] at h
    obtain ⟨f1, h1, h2⟩ := Option.bind_eq_some_iff.1 h
    rw [ih h2]
    cases x with
    | topo d =>
      simp only [readPiece] at h1
      obtain ⟨t, _, rfl⟩ := Option.map_eq_some_iff.1 h1
      simp
    | svc n s =>
      simp only [readPiece] at h1
      cases eps <;> simp at h1 <;> subst h1 <;> simp
    | pol p =>
      simp only [readPiece, Option.some.injEq] at h1
      subst h1
      simp

theorem general_iff (L : Lists) : L.General ↔ (determine L.pods L.res).1 = L.res ∧ (determine L.ns L.res).1 = L.res := by
  have key : ∀ a b : Option (List String), (a.getD [] = [] ∨ a = b) ↔ (determine a b).1 = b := by
    intro a b
    unfold determine
    split
    · simp
    · rename_i h
      cases a with
      | none => simp
      | some l =>
        cases l with
        | nil => simp
        | cons x l => exact absurd rfl (h x l)
  unfold Lists.General
  rw [key, key]

theorem parse_read {reg : PodReg} {L : Lists} {r : Found σ × Bool × Option ResType} (h : parseTopology W reg L.ns L.pods L.res = some r) :
    Topology.read W.cidrs W.ord reg (L.steps W) = some r.1.topo ∧ r.1.svcs.map (fun s => s.2) = (servicesIn W L.podFrom).map (fun s => s.2) ∧
    r.2 = verdict (!r.1.topo.peers.isEmpty) (!r.1.topo.nss.isEmpty) (!(L.pods.getD []).isEmpty) (!(L.ns.getD []).isEmpty) := by
  have spec : ∀ a b : Option (List String), (determine a b).2 = !(a.getD []).isEmpty := by
    intro a b
    rw [Bool.eq_iff_iff, (determine_eq a b).2.1]
    simp
  unfold parseTopology at h
  dsimp only at h
  split at h
  · rename_i hn
    simp only [Bool.and_eq_true, Option.isNone_iff_eq_none] at hn
    have hp := determine_eq L.pods L.res
    have hs := determine_eq L.ns L.res
    rw [hn.1] at hp
    rw [hn.2] at hs
    cases h
    have hpe : L.pods.getD [] = [] := by
      by_contra h0
      have := hp.1
      unfold chosen at this
      rw [if_neg h0] at this
      exact h0 this.symm
    have hse : L.ns.getD [] = [] := by
      by_contra h0
      have := hs.1
      unfold chosen at this
      rw [if_neg h0] at this
      exact h0 this.symm
    have hr : L.res = none := by
      rw [← hp.2.2 (by by_contra h0; exact hp.2.1.1 (by simpa using h0) hpe)]
    refine ⟨?_, ?_, ?_⟩
    · have : L.steps W = [] := by
        unfold Lists.steps Lists.nsFrom Lists.podFrom chosen
        rw [if_pos hpe, if_pos hse, hr]
        split <;> rfl
      rw [this]; rfl
    · unfold Lists.podFrom chosen
      rw [if_pos hpe, hr]
      rfl
    · rw [hpe, hse]
      rfl
  · obtain ⟨f, hf, rfl⟩ := Option.map_eq_some_iff.1 h
    refine ⟨?_, ?_, by rw [spec, spec]⟩
    · unfold Lists.steps Topology.read
      by_cases hg : L.General
      · rw [if_pos ((general_iff L).1 hg)] at hf
        rw [if_pos hg]
        have := readPaths_steps (W := W) true true (Found.new reg) (L.res.getD [])
        rw [hf] at this
        exact this.symm
      · rw [if_neg (fun h => hg ((general_iff L).2 h))] at hf
        rw [if_neg hg]
        obtain ⟨f1, h1, h2⟩ := Option.bind_eq_some_iff.1 hf
        rw [(determine_eq _ _).1] at h1 h2
        have a := readPaths_steps (W := W) true false (Found.new reg) L.nsFrom
        have b := readPaths_steps (W := W) false true f1 L.podFrom
        unfold Lists.nsFrom at a
        unfold Lists.podFrom at b
        rw [h1] at a
        rw [h2] at b
        unfold apart
        rw [List.foldlM_append]
        change Option.bind (List.foldlM _ (Found.new reg : Found σ).topo _) _ = _
        unfold Lists.nsFrom Lists.podFrom
        rw [← a]
        exact b.symm
    · split at hf
      · rename_i hb
        rw [readPaths_svcs hf]
        unfold Lists.podFrom
        rw [← (determine_eq L.pods L.res).1, hb.1]
        simp [Found.new]
      · obtain ⟨f1, h1, h2⟩ := Option.bind_eq_some_iff.1 hf
        rw [readPaths_svcs h2, readPaths_svcs h1, Lists.podFrom, ← (determine_eq L.pods L.res).1]
        simp [Found.new]

section
variable {g : Option (Global σ)} {reg : PodReg} {L : Lists} {save : Bool} {c : Cont σ} {g' : Option (Global σ)} {reg' : PodReg} {t : Topo}
  (h : setContainer W g reg L.ns L.pods L.res save = some (c, g', reg')) (ht : Topology.read W.cidrs W.ord reg (L.steps W) = some t)

include h ht in
theorem container_cases : ∃ v svcs, v = verdict (!t.peers.isEmpty) (!t.nss.isEmpty) (!(L.pods.getD []).isEmpty) (!(L.ns.getD []).isEmpty) ∧
    svcs.map (fun s => s.2) = (servicesIn W L.podFrom).map (fun s => s.2) ∧
    c = (let nss := if v.2 = some .pods then g.elim t.nss Global.nss else t.nss
      let peers := if v.2 = some .namespaces then g.elim t.peers Global.peers else t.peers
      let own : Cont σ := ⟨nss, peers, svcs⟩
      if v.1 || v.2.isSome then own else g.elim own Global.cont) ∧
    g' = (if save then some ⟨c, if v.2 = some .pods then g.elim t.nss Global.nss else t.nss, if v.2 = some .namespaces then g.elim t.peers Global.peers else t.peers⟩ else g) := by
  unfold setContainer at h
  obtain ⟨r, hr, he⟩ := Option.map_eq_some_iff.1 h
  obtain ⟨h1, h2, h3⟩ := parse_read hr
  rw [ht, Option.some.injEq] at h1
  dsimp only at he
  rw [Prod.mk.injEq, Prod.mk.injEq] at he
  obtain ⟨e1, e2, _⟩ := he
  subst h1
  refine ⟨r.2, r.1.svcs, h3, h2, e1.symm, ?_⟩
  rw [← e2, ← e1]

include h ht in
/-- C67: endpoints in the files named for them are the endpoints of the configuration.  Partial: some namespace is known, or
there is a specific list (`C67_host_endpoints_wrong`). -/
theorem C67_own_pods_partial (hp : t.peers ≠ []) (hn : t.nss ≠ [] ∨ L.pods.getD [] ≠ []) :
    c.peers = t.peers ∧ c.svcs.map (fun s => s.2) = (servicesIn W L.podFrom).map (fun s => s.2) := by
  obtain ⟨v, svcs, hv, hs, hc, _⟩ := container_cases h ht
  have e1 : t.peers.isEmpty = false := by simpa using hp
  rw [e1] at hv
  cases e2 : t.nss.isEmpty <;> cases e3 : (L.pods.getD []).isEmpty <;> cases e4 : (L.ns.getD []).isEmpty <;> rw [e2, e3, e4] at hv <;>
    simp [verdict] at hv <;> subst hv <;> simp at hc <;> first
    | (subst hc; exact ⟨rfl, hs⟩)
    | (simp at e2 e3; rw [e2, e3] at hn; simp at hn)

include h ht in
/-- C67: without a list of pods and without endpoints in the general list, the endpoints are the global ones. -/
theorem C67_global_pods {G : Global σ} (hg : g = some G) (hG : G.cont.peers = G.peers) (hl : L.pods.getD [] = []) (hp : t.peers = []) : c.peers = G.peers := by
  obtain ⟨v, svcs, hv, hs, hc, _⟩ := container_cases h ht
  rw [hp, hl] at hv
  subst hg
  cases e2 : t.nss.isEmpty <;> cases e4 : (L.ns.getD []).isEmpty <;> rw [e2, e4] at hv <;>
    simp [verdict] at hv <;> subst hv <;> simp at hc <;> subst hc <;> first | exact hG | rfl

include h ht in
/-- C67: a specific list of pods without endpoints means that there are none; the global ones are not used. -/
theorem C67_no_pods (hl : L.pods.getD [] ≠ []) (hp : t.peers = []) : c.peers = [] := by
  obtain ⟨v, svcs, hv, hs, hc, _⟩ := container_cases h ht
  have e3 : (L.pods.getD []).isEmpty = false := by simpa using hl
  rw [hp, e3] at hv
  cases e2 : t.nss.isEmpty <;> cases e4 : (L.ns.getD []).isEmpty <;> rw [e2, e4] at hv <;>
    simp [verdict] at hv <;> subst hv <;> simp at hc <;> subst hc <;> exact hp

include h ht in
/-- C67: if namespaces are found, they are those of the configuration. -/
theorem C67_own_namespaces (hn : t.nss ≠ []) : c.nss = t.nss := by
  obtain ⟨v, svcs, hv, hs, hc, _⟩ := container_cases h ht
  have e2 : t.nss.isEmpty = false := by simpa using hn
  rw [e2] at hv
  cases e1 : t.peers.isEmpty <;> cases e3 : (L.pods.getD []).isEmpty <;> cases e4 : (L.ns.getD []).isEmpty <;> rw [e1, e3, e4] at hv <;>
    simp [verdict] at hv <;> subst hv <;> simp at hc <;> subst hc <;> rfl

include h ht in
/-- C67: if none are found, and there is no specific list of them, they are the global ones. -/
theorem C67_global_namespaces {G : Global σ} (hg : g = some G) (hG : G.cont.nss = G.nss) (hl : L.ns.getD [] = []) (hn : t.nss = []) : c.nss = G.nss := by
  obtain ⟨v, svcs, hv, hs, hc, _⟩ := container_cases h ht
  rw [hn, hl] at hv
  subst hg
  cases e1 : t.peers.isEmpty <;> cases e3 : (L.pods.getD []).isEmpty <;> rw [e1, e3] at hv <;>
    simp [verdict] at hv <;> subst hv <;> simp at hc <;> subst hc <;> first | exact hG | rfl

include h ht in
/-- C67: without a global configuration all is taken from the files. -/
theorem C67_alone (hg : g = none) : c.peers = t.peers ∧ c.nss = t.nss ∧ c.svcs.map (fun s => s.2) = (servicesIn W L.podFrom).map (fun s => s.2) := by
  obtain ⟨v, svcs, hv, hs, hc, _⟩ := container_cases h ht
  subst hg
  simp at hc
  subst hc
  exact ⟨rfl, rfl, hs⟩

include h ht in
/-- C67: what is kept as global is the container of the configuration. -/
theorem C67_kept (hg : g = none) (hs : save = true) : ∃ G, g' = some G ∧ G.cont = c ∧ G.cont.peers = G.peers ∧ G.cont.nss = G.nss := by
  obtain ⟨v, svcs, hv, _, hc, hg'⟩ := container_cases h ht
  subst hg
  simp at hc
  rw [hs] at hg'
  simp at hg'
  exact ⟨_, hg', rfl, by rw [hc], by rw [hc]⟩
end

end Sources
end Verif
