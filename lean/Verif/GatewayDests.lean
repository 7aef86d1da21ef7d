import Verif.GatewayConds
/-!
Lemmas for C59: what the code makes of the destinations of routes.
-/
namespace Verif
open ISet IpBlock PeerSet

namespace GtwParser
open Container CalicoParser IstioParser IngressParser SidecarParser

section
variable {V2 : Type} {rg : PodReg} {c : Container} {l : List SvcText}

/-- The parsed destination is that of the text. -/
structure DestIs (rg : PodReg) (c : Container) (l : List SvcText) (ns : Ns) (d : DestText) (D : Dest) : Prop where
  host : D.host = d.host
  ok : D.pods.Ok
  inCluster : InCluster c D.pods
  ports : Canonical D.ports.ports
  range : ∀ x, Mem x D.ports.ports → 1 ≤ x ∧ x ≤ 65535
  excluded : D.ports.excluded = ∅
  tcp : ∀ E : Place, E.In D.pods → ∀ name ∈ D.ports.named, ∃ x k, E = .pod k ∧ (rg.named k).lookup name = some (x, "TCP")
  mem : ∀ E x, E.In D.pods ∧ PortAt rg D.ports E x ↔ d.Leads rg c l ns E x
  pods : ∀ E : Place, E.In D.pods ↔ (∃ s ∈ l, d.Service ns s ∧ Picks c s E) ∨ IsDns c E d.host

/-- There is something the destination can be. -/
def DestText.Known (c : Container) (l : List SvcText) (ns : Ns) (d : DestText) : Prop := (∃ s ∈ l, d.Service ns s) ∨ ∃ E, IsDns c E d.host

/-! ### Names -/

theorem suffix_split : splitDots "svc.cluster.local".toList = ["svc".toList, "cluster".toList, "local".toList] := by decide

theorem svcName_dot (s : SvcText) : '.' ∈ svcName s := by unfold svcName; simp

/-- The name and the namespace of a destination in the cluster. -/
theorem local_name (hN : Named c l) {ns : Ns} (hns : '/' ∉ ns.name.toList) {d : DestText} (hd : d.Local c l ns) :
    ∃ a b, localName ns d.host = some (a, b) ∧ a ≠ [] ∧ '/' ∉ b ∧ '*' ∉ d.host ∧ (∀ s ∈ l, d.Service ns s ↔ s.name.toList = a ∧ s.ns.name.toList = b) ∧
      (∀ E, ¬ IsDns c E d.host) ∧ ∀ s ∈ l, d.Service ns s → ∃ p ∈ s.ports, d.Port s p ∧ p.protocol.getD "TCP" = "TCP" ∧ p.target ≠ some (.inr "") := by
  cases hd with
  | short h1 h2 h3 h4 h5 =>
    refine ⟨d.host, ns.name.toList, ?_, h1, hns, h4, fun s hs => ?_, h3, h5⟩
    · unfold localName
      rw [splitDots_one h2]
      rfl
    · unfold DestText.Service
      rw [or_iff_right (fun h : d.host = svcName s => h2 (by rw [h]; exact svcName_dot s)), String.toList_inj]
      exact and_congr_left fun _ => eq_comm
  | @long a b h1 h2 h3 h4 h5 h6 h7 =>
    refine ⟨a, b, ?_, h2, h5, h6, fun s hs => ?_, fun E => ?_, h7⟩
    · unfold localName
      rw [h1, splitDots_more h3, splitDots_more h4, suffix_split]
      rfl
    · unfold DestText.Service
      obtain ⟨n1, n2, n3, _⟩ := hN.svcs s hs
      have : ¬ (d.host = s.name.toList ∧ s.ns.name = ns.name) := fun h => n2 (by rw [← h.1, h1]; simp)
      rw [or_iff_left this, h1]
      unfold svcName
      constructor
      · intro h
        obtain ⟨e1, e2⟩ := dots_inj h3 n2 h
        exact ⟨e1.symm, (dots_inj h4 n3 e2).1.symm⟩
      · rintro ⟨rfl, rfl⟩; rfl
    · rintro ⟨p, hp, _, hk, k, hke, e⟩
      refine (hN.dns p hp hk k hke).2 ?_
      rw [e, h1]
      exact ⟨a ++ '.' :: (b ++ ['.']), [], by simp⟩

theorem long_infix {l : List (List Char)} : ∀ {h : List Char}, splitDots h = l → ∀ a b, longName l = some (a, b) → "svc.cluster.local".toList <:+: h := by
  have join : ∀ h : List Char, List.intercalate ['.'] (splitDots h) = h := by
    intro h
    induction h with
    | nil => rfl
    | cons a t ih =>
      unfold splitDots
      by_cases ha : a = '.'
      · rw [if_pos ha]
        cases hs : splitDots t with
        | nil =>
          rw [hs] at ih
          subst ha
          rw [← ih]
          cases t with
          | nil => cases hs
          | cons x t =>
            exfalso
            unfold splitDots at hs
            split at hs
            · cases hs
            · split at hs <;> cases hs
        | cons e m =>
          rw [hs] at ih
          subst ha
          rw [← ih]
          simp [List.intercalate]
      · rw [if_neg ha]
        cases hs : splitDots t with
        | nil =>
          rw [hs] at ih
          rw [← ih]
          simp [List.intercalate]
        | cons e m =>
          rw [hs] at ih
          rw [← ih]
          cases m <;> simp [List.intercalate]
  intro h hs a b hl
  unfold longName at hl
  split at hl
  · rename_i a' b' s cc dd
    split at hl
    · rename_i hc
      obtain ⟨rfl, rfl, rfl⟩ := hc
      have := join h
      rw [hs] at this
      rw [← this]
      refine ⟨a' ++ '.' :: (b' ++ ['.']), [], ?_⟩
      simp [List.intercalate]
    · cases hl
  · cases hl

theorem split_ne (h : List Char) : splitDots h ≠ [] := by
  cases h with
  | nil => simp [splitDots]
  | cons x t =>
    unfold splitDots
    split
    · simp
    · split <;> simp

theorem split_more {h : List Char} (hd : '.' ∈ h) : (splitDots h).length > 1 := by
  induction h with
  | nil => exact absurd hd List.not_mem_nil
  | cons a t ih =>
    unfold splitDots
    by_cases ha : a = '.'
    · rw [if_pos ha]
      have := List.length_pos_iff.2 (split_ne t)
      rw [List.length_cons]
      omega
    · rw [if_neg ha]
      have := ih ((List.mem_cons.1 hd).resolve_left (Ne.symm ha))
      cases hs : splitDots t with
      | nil => exact absurd hs (split_ne t)
      | cons e l =>
        rw [hs] at this
        exact this

/-! ### Destinations in the cluster -/

theorem lookup_none {a b : List Char} (hl : SvcsTame rg c l) (hb : '/' ∉ b) (h : ∀ s ∈ l, ¬ (s.name.toList = a ∧ s.ns.name.toList = b)) :
    (l.map fun s => (fullName s.name s.ns, svcOf rg c s)).lookup (String.ofList (b ++ '/' :: a)) = none := by
  rw [lookup_map, Option.map_eq_none_iff, List.find?_eq_none]
  intro s hs he
  have he := congrArg String.toList (of_decide_eq_true he)
  rw [fullName_toList, String.toList_ofList] at he
  obtain ⟨e1, e2⟩ := split_slash (hl.ns s hs) hb he
  exact h s hs ⟨e2, e1⟩

theorem lookup_some {s : SvcText} (hl : SvcsTame rg c l) (hs : s ∈ l) :
    (l.map fun s => (fullName s.name s.ns, svcOf rg c s)).lookup (String.ofList (s.ns.name.toList ++ '/' :: s.name.toList)) = some (svcOf rg c s) := by
  have : String.ofList (s.ns.name.toList ++ '/' :: s.name.toList) = fullName s.name s.ns := by
    rw [← fullName_toList, String.ofList_toList]
  rw [this]
  exact getService_eq hl (hl.ns s hs) hs rfl rfl

/-- The port that the code finds. -/
theorem target_sem (hC : K8sParser.Cluster rg c) (hl : SvcsTame rg c l) {s : SvcText} (hs : s ∈ l) {d : DestText} {p : SvcPortText} (hp : p ∈ s.ports)
    (hd : d.Port s p) (hne : p.target ≠ some (.inr "")) :
    targetPort (svcOf rg c s) d.port = some (some p.conv.target) ∧ ∀ p' ∈ s.ports, d.Port s p' → p' = p := by
  have ht := hl.each s hs
  obtain ⟨_, _, _, v3, _⟩ := svcOf_sem hC ht
  obtain ⟨n, hpn, hlo, hhi⟩ := ht.nums p hp
  unfold targetPort askedPort
  unfold DestText.Port at hd ⊢
  cases hport : d.port with
  | none =>
    rw [hport] at hd
    dsimp only at hd ⊢
    refine ⟨?_, fun p' _ h => by rw [hd] at h; exact (List.cons.inj h).1.symm⟩
    rw [Option.filter_none]
    dsimp only
    rw [Option.map_some]
    unfold singlePort
    rw [v3, hd]
    rfl
  | some m =>
    rw [hport] at hd
    dsimp only at hd ⊢
    rw [hpn] at hd; cases hd
    refine ⟨?_, fun p' hp' h => nodup_map_eq ht.numbers hp' hp (h.trans hpn.symm)⟩
    rw [Option.filter_some, if_pos (by simp; omega)]
    dsimp only
    have find : portByNumber (svcOf rg c s) n = some p.conv := by
      unfold portByNumber
      rw [v3]
      cases h : (s.ports.map SvcPortText.conv).find? fun p => decide (p.num = n) with
      | none =>
        rw [List.find?_eq_none] at h
        refine absurd ?_ (h _ (List.mem_map.2 ⟨p, hp, rfl⟩))
        rw [decide_eq_true_eq]; unfold SvcPortText.conv; rw [hpn]; rfl
      | some q =>
        obtain ⟨p', hp', rfl⟩ := List.mem_map.1 (List.mem_of_find?_eq_some h)
        have h := List.find?_some h
        have h : p'.num.getD 0 = n := of_decide_eq_true h
        obtain ⟨n', e', _⟩ := ht.nums p' hp'
        rw [nodup_map_eq ht.numbers hp' hp (by rw [e'] at h ⊢; rw [hpn, ← h]; rfl)]
    rw [find]
    simp only [Option.map_some]
    cases hpt : p.target with
    | none =>
      have : p.conv.target = .inl n := by unfold SvcPortText.conv; rw [hpt, hpn]; rfl
      rw [this]
      dsimp only
      rw [if_neg (by omega)]
    | some t =>
      have hct : p.conv.target = t := by unfold SvcPortText.conv; rw [hpt]; rfl
      rw [hct]
      cases t with
      | inl a =>
        have := ht.targets p hp a hpt
        dsimp only
        rw [if_neg (by omega)]
      | inr name =>
        dsimp only
        rw [if_neg fun h => hne (by rw [hpt, h])]

/-- A destination in the cluster. -/
theorem dest_local (hC : K8sParser.Cluster rg c) (hl : SvcsTame rg c l) (hN : Named c l) {ns : Ns} (hns : '/' ∉ ns.name.toList) {d : DestText}
    (hd : d.Local c l ns) {r : Route V2} (hr : r.internal ≠ some false) :
    (d.Known c l ns ∧ ∃ D, destStep (l.map fun s => (fullName s.name s.ns, svcOf rg c s)) c ns r d = some { r with dests := r.dests ++ [D], internal := some true } ∧
      DestIs rg c l ns d D) ∨
    ¬ d.Known c l ns ∧ destStep (l.map fun s => (fullName s.name s.ns, svcOf rg c s)) c ns r d = some r := by
  obtain ⟨a, b, e, ha, hb, hstar, hsvc, hdns, hport⟩ := local_name hN hns hd
  unfold destStep
  rw [if_neg hstar, e]
  dsimp only
  rw [if_neg (by simpa using ha)]
  by_cases hk : ∃ s ∈ l, d.Service ns s
  · left
    obtain ⟨s, hs, hsd⟩ := hk
    obtain ⟨rfl, rfl⟩ := (hsvc s hs).1 hsd
    obtain ⟨p, hp, hpd, htcp, hne⟩ := hport s hs hsd
    obtain ⟨ht, huniq⟩ := target_sem hC hl hs hp hpd hne
    have hst := hl.each s hs
    obtain ⟨_, _, _, _, v4, v5, v6⟩ := svcOf_sem hC hst
    obtain ⟨n, hpn, hlo, hhi⟩ := hst.nums p hp
    refine ⟨Or.inl ⟨s, hs, hsd⟩, ⟨d.host, (svcOf rg c s).pods, destPorts (some p.conv.target)⟩, ?_, ?_⟩
    · rw [lookup_some hl hs]
      dsimp only
      rw [ht, Option.bind_some]
      unfold addDest
      rw [if_neg (by simpa using hr)]
    · have one : ∀ s' ∈ l, d.Service ns s' → s' = s := fun s' hs' h => by
        obtain ⟨e1, e2⟩ := (hsvc s' hs').1 h
        exact pairwise_eq (R := fun s s' : SvcText => s.name = s'.name ∧ s.ns.name = s'.ns.name) (fun _ _ h => ⟨h.1.symm, h.2.symm⟩) hl.uniq hs' hs
          ⟨String.toList_inj.1 e1, String.toList_inj.1 e2⟩
      have leads : ∀ E x, d.Leads rg c l ns E x ↔ Picks c s E ∧ TargetIs rg p E x := by
        intro E x
        unfold DestText.Leads
        constructor
        · rintro (⟨s', hs', h1, p', hp', h2, h3, h4⟩ | h)
          · cases one s' hs' h1
            cases huniq p' hp' h2
            exact ⟨h3, h4⟩
          · exact absurd h.1 (hdns E)
        · rintro ⟨h1, h2⟩
          exact Or.inl ⟨s, hs, hsd, p, hp, hpd, h1, h2⟩
      have pods : ∀ E : Place, E.In (svcOf rg c s).pods ↔ (∃ s ∈ l, d.Service ns s ∧ Picks c s E) ∨ IsDns c E d.host := by
        intro E
        rw [v6]
        constructor
        · exact fun h => Or.inl ⟨s, hs, hsd, h⟩
        · rintro (⟨s', hs', h1, h2⟩ | h)
          · cases one s' hs' h1; exact h2
          · exact absurd h (hdns E)
      have hnum : ∀ a : Int, 1 ≤ a ∧ a ≤ 65535 → (∀ E x, TargetIs rg p E x ↔ x = a) →
          DestIs rg c l ns d ⟨d.host, (svcOf rg c s).pods, (PortSet.make false).addPort (.num a)⟩ := by
        intro a ha hT
        have h1 := addOne a
        refine ⟨rfl, v4, v5, h1.1, fun x hx => ?_, rfl, fun E _ name hname => ?_, fun E x => ?_, pods⟩
        · rw [(h1.2 x).1 hx]; exact ha
        · exact absurd hname (Finset.notMem_empty _)
        · rw [leads, v6, hT]
          refine and_congr_right fun _ => ?_
          constructor
          · rintro (h | ⟨name, hname, _⟩)
            · exact (h1.2 x).1 h
            · exact absurd hname (Finset.notMem_empty _)
          · exact fun h => Or.inl ((h1.2 x).2 h)
      unfold destPorts
      cases hpt : p.target with
      | none =>
        have : p.conv.target = .inl n := by unfold SvcPortText.conv; rw [hpt, hpn]; rfl
        rw [this]
        dsimp only
        rw [if_neg (by omega)]
        refine hnum n ⟨hlo, hhi⟩ fun E x => ?_
        unfold TargetIs
        rw [hpt, hpn]
        dsimp only
        rw [Option.some.injEq]; exact eq_comm
      | some t =>
        have hct : p.conv.target = t := by unfold SvcPortText.conv; rw [hpt]; rfl
        rw [hct]
        cases t with
        | inl a =>
          have := hst.targets p hp a hpt
          dsimp only
          rw [if_neg (by omega)]
          refine hnum a this fun E x => ?_
          unfold TargetIs
          rw [hpt]
        | inr name =>
          dsimp only
          rw [if_neg fun h => hne (by rw [hpt, h])]
          have hTi : ∀ E x, TargetIs rg p E x ↔ ∃ k, E = .pod k ∧ (rg.named k).lookup name = some (x, "TCP") := by
            intro E x
            unfold TargetIs
            rw [hpt]
            dsimp only
            rw [htcp]
          have hnamed : ∀ nm, nm ∈ ((PortSet.make false).addPort (.name name)).named ↔ nm = name := by
            intro nm
            show nm ∈ (∅ : Finset String) ∪ {name} ↔ _
            simp
          refine ⟨rfl, v4, v5, canonical_nil, fun x hx => absurd hx not_mem_nil, rfl, fun E hE nm hnm => ?_, fun E x => ?_, pods⟩
          · rw [hnamed] at hnm; subst hnm
            obtain ⟨x, hx⟩ := hst.whole p hp nm hpt E ((v6 E).1 hE)
            obtain ⟨k, h1, h2⟩ := (hTi E x).1 hx
            exact ⟨x, k, h1, h2⟩
          · rw [leads, v6, hTi]
            refine and_congr_right fun _ => ?_
            constructor
            · rintro (h | ⟨nm, hnm, k, h1, h2⟩)
              · exact absurd h not_mem_nil
              · rw [hnamed] at hnm; subst hnm
                exact ⟨k, h1, h2⟩
            · rintro ⟨k, h1, h2⟩
              exact Or.inr ⟨name, (hnamed _).2 rfl, k, h1, h2⟩
  · right
    refine ⟨?_, ?_⟩
    · rintro (h | ⟨E, h⟩)
      · exact hk h
      · exact hdns E h
    · rw [lookup_none hl hb fun s hs h => hk ⟨s, hs, (hsvc s hs).2 h⟩]

/-! ### Destinations outside of the cluster -/

theorem matchingDns_sem (hC : K8sParser.Cluster rg c) {h : List Char} (hs : '*' ∉ h) :
    Sem c (fun p => p.kind = .dns ∧ ∃ k, p.elem = .pod k ∧ k.toList = h) (matchingDns c h) ∧ AllPods (matchingDns c h) := by
  refine ⟨(sem_sel hC.ok _).congr fun p _ => ?_, allPods_sel hC _⟩
  rw [Bool.and_eq_true, decide_eq_true_eq]
  refine and_congr_right fun _ => ?_
  cases p.elem with
  | ip i => simp
  | pod k =>
    have hp : hostPattern h k.toList = decide (k.toList = h) := by
      unfold hostPattern
      split
      · exact absurd List.mem_cons_self hs
      · rfl
    dsimp only
    rw [hp, Bool.or_self, decide_eq_true_eq]
    simp

/-- A destination outside of the cluster. -/
theorem dest_external (hC : K8sParser.Cluster rg c) (hN : Named c l) {ns : Ns} {svcs : List (String × Svc)} {d : DestText}
    (hd : d.External) {r : Route V2} (hr : r.internal ≠ some true) :
    (d.Known c l ns ∧ ∃ D, destStep svcs c ns r d = some { r with dests := r.dests ++ [D], internal := some false } ∧ DestIs rg c l ns d D) ∨
    ¬ d.Known c l ns ∧ destStep svcs c ns r d = some r := by
  have hloc : localName ns d.host = none := by
    unfold localName
    cases hln : longName (splitDots d.host) with
    | some x => exact absurd (long_infix rfl x.1 x.2 hln) hd.name
    | none =>
      dsimp only
      rw [if_pos (split_more hd.dot)]
  have nosvc : ∀ s ∈ l, ¬ d.Service ns s := by
    rintro s hs (h | ⟨h, _⟩)
    · exact hd.name (h ▸ svcName_infix s)
    · exact (hN.svcs s hs).2.1 (h ▸ hd.dot)
  obtain ⟨hsem, hall⟩ := matchingDns_sem hC hd.star
  have pods : ∀ E : Place, E.In (matchingDns c d.host) ↔ (∃ s ∈ l, d.Service ns s ∧ Picks c s E) ∨ IsDns c E d.host := fun E => by
    rw [hsem.2, or_iff_right]
    · rfl
    · rintro ⟨s, hs, h, _⟩; exact nosvc s hs h
  unfold destStep
  rw [if_neg hd.star, hloc]
  dsimp only
  by_cases he : (matchingDns c d.host).isEmpty = true
  · rw [if_pos he]
    refine Or.inr ⟨?_, rfl⟩
    rintro (⟨s, hs, h⟩ | ⟨E, h⟩)
    · exact nosvc s hs h
    · have := (pods_nonempty hall).2 ⟨E, (pods E).2 (Or.inr h)⟩
      rw [he] at this; cases this
  · rw [if_neg he]
    obtain ⟨n, hn, hlo, hhi⟩ := hd.port
    have h1 := addOne n
    left
    obtain ⟨E, hE⟩ := (pods_nonempty hall).1 (by simpa using he)
    refine ⟨?_, ⟨d.host, matchingDns c d.host, destPorts (d.port.map .inl)⟩, ?_, ?_⟩
    · rcases (pods E).1 hE with ⟨s, hs, h, _⟩ | h
      · exact absurd h (nosvc s hs)
      · exact Or.inr ⟨E, h⟩
    · unfold addDest
      rw [if_neg (by simpa using hr)]
    · rw [hn, Option.map_some]
      unfold destPorts
      dsimp only
      rw [if_neg (by omega)]
      refine ⟨rfl, hsem.1, hsem.inCluster, h1.1, fun x hx => ?_, rfl, fun E _ name hname => ?_, fun E x => ?_, pods⟩
      · rw [(h1.2 x).1 hx]; exact ⟨hlo, hhi⟩
      · exact absurd hname (Finset.notMem_empty _)
      · rw [pods]
        unfold DestText.Leads
        have n1 : ¬ ∃ s ∈ l, d.Service ns s ∧ Picks c s E := by rintro ⟨s, hs, h, _⟩; exact nosvc s hs h
        have n2 : ¬ ∃ s ∈ l, d.Service ns s ∧ ∃ p ∈ s.ports, d.Port s p ∧ Picks c s E ∧ TargetIs rg p E x := by rintro ⟨s, hs, h, _⟩; exact nosvc s hs h
        rw [or_iff_right n1, or_iff_right n2, hn]
        refine and_congr_right fun _ => ?_
        rw [Option.some.injEq]
        constructor
        · rintro (h | ⟨name, hname, _⟩)
          · exact ((h1.2 x).1 h).symm
          · exact absurd hname (Finset.notMem_empty _)
        · exact fun h => Or.inl ((h1.2 x).2 h.symm)

/-! ### All destinations of a route -/

open Classical in
/-- The destinations with a service or a DNS entry. -/
noncomputable def knownDests (c : Container) (l : List SvcText) (ns : Ns) (ds : List DestText) : List DestText := ds.filter fun d => d.Known c l ns

theorem Cover.of_forall₂ {α β : Type} {R : α → β → Prop} {l : List α} {m : List β} (h : List.Forall₂ R l m) : Cover (fun a => a ∈ l) R m := by
  induction h with
  | nil => exact Cover.nil fun _ h => absurd h List.not_mem_nil
  | @cons a b l m h1 _ ih =>
    refine ⟨fun y hy => ?_, fun x hx => ?_⟩
    · rcases List.mem_cons.1 hy with rfl | hy
      · exact ⟨a, List.mem_cons_self, h1⟩
      · obtain ⟨x, hx, h⟩ := ih.sound y hy
        exact ⟨x, List.mem_cons_of_mem _ hx, h⟩
    · rcases List.mem_cons.1 hx with rfl | hx
      · exact ⟨b, List.mem_cons_self, h1⟩
      · obtain ⟨y, hy, h⟩ := ih.complete x hx
        exact ⟨y, List.mem_cons_of_mem _ hy, h⟩

/-- The destinations of a route are those of the texts. -/
structure DestsAre (rg : PodReg) (c : Container) (l : List SvcText) (ns : Ns) (ds : List DestText) (r r' : Route V2) : Prop where
  same : r' = { r with dests := r'.dests, internal := r'.internal }
  list : List.Forall₂ (DestIs rg c l ns) (knownDests c l ns ds) r'.dests
  inside : r'.internal = some true → ∀ d ∈ ds, d.Local c l ns
  here : r'.internal = some true ↔ r'.dests ≠ [] ∧ ∀ d ∈ ds, d.Local c l ns
  outside : r'.internal ≠ some true → r'.dests ≠ [] → ∀ d ∈ ds, d.External

theorem DestsAre.cover {ns : Ns} {ds : List DestText} {r r' : Route V2} (h : DestsAre rg c l ns ds r r') :
    Cover (fun d => d ∈ ds ∧ d.Known c l ns) (DestIs rg c l ns) r'.dests :=
  (Cover.of_forall₂ h.list).congr (fun d => by simp [knownDests]) fun _ _ _ h => h

/-- The steps over destinations of one kind. -/
theorem dests_fold {ns : Ns} {svcs : List (String × Svc)} (b : Bool) (ds : List DestText)
    (step : ∀ d ∈ ds, ∀ r : Route V2, r.internal ≠ some (!b) →
      (d.Known c l ns ∧ ∃ D, destStep svcs c ns r d = some { r with dests := r.dests ++ [D], internal := some b } ∧ DestIs rg c l ns d D) ∨
      ¬ d.Known c l ns ∧ destStep svcs c ns r d = some r) (r : Route V2) (hr : r.internal ≠ some (!b)) :
    ∃ Ds, ds.foldlM (destStep svcs c ns) r = some { r with dests := r.dests ++ Ds, internal := if Ds = [] then r.internal else some b } ∧
      List.Forall₂ (DestIs rg c l ns) (knownDests c l ns ds) Ds := by
  induction ds generalizing r with
  | nil => exact ⟨[], by simp, .nil⟩
  | cons d ds ih =>
    have ih := ih fun d hd => step d (List.mem_cons_of_mem _ hd)
    rw [List.foldlM_cons]
    rcases step d List.mem_cons_self r hr with ⟨hk, D, e, hD⟩ | ⟨hk, e⟩
    · rw [e]
      obtain ⟨Ds, e2, h2⟩ := ih { r with dests := r.dests ++ [D], internal := some b } (by cases b <;> simp)
      refine ⟨D :: Ds, ?_, by unfold knownDests; rw [List.filter_cons_of_pos (by simpa using hk)]; exact .cons hD h2⟩
      rw [Option.bind_eq_bind, Option.bind_some, e2]
      simp
    · rw [e]
      obtain ⟨Ds, e2, h2⟩ := ih r hr
      exact ⟨Ds, e2, by unfold knownDests; rw [List.filter_cons_of_neg (by simpa using hk)]; exact h2⟩

theorem dests_sem (hC : K8sParser.Cluster rg c) (hl : SvcsTame rg c l) (hN : Named c l) {ns : Ns} (hns : '/' ∉ ns.name.toList) {ds : List DestText}
    (hd : (∀ d ∈ ds, d.Local c l ns) ∨ ∀ d ∈ ds, d.External) (r : Route V2) (h1 : r.dests = []) (h2 : r.internal = none) :
    ∃ r', ds.foldlM (destStep (l.map fun s => (fullName s.name s.ns, svcOf rg c s)) c ns) r = some r' ∧ DestsAre rg c l ns ds r r' := by
  rcases hd with hd | hd
  · obtain ⟨Ds, e, h⟩ := dests_fold (V2 := V2) true ds (fun d hd' r hr => dest_local hC hl hN hns (hd d hd') hr) r (by rw [h2]; simp)
    refine ⟨_, e, rfl, ?_, fun _ => hd, ?_, ?_⟩
    · rw [h1]; exact h
    · rw [h1, h2]
      by_cases hn : Ds = []
      · simp [hn]
      · simpa [hn] using hd
    · rw [h1, h2]
      by_cases hn : Ds = []
      · simp [hn]
      · simp [hn]
  · obtain ⟨Ds, e, h⟩ := dests_fold (V2 := V2) false ds (fun d hd' r hr => dest_external hC hN (hd d hd') hr) r (by rw [h2]; simp)
    refine ⟨_, e, rfl, ?_, ?_, ?_, fun _ _ => hd⟩
    · rw [h1]; exact h
    · rw [h2]
      by_cases hn : Ds = [] <;> simp [hn]
    · rw [h1, h2]
      by_cases hn : Ds = []
      · simp [hn]
      · simp only [hn, if_false]
        refine ⟨fun h => by simp at h, fun h => ?_⟩
        cases Ds with
        | nil => exact absurd rfl hn
        | cons D Ds =>
          obtain ⟨d, hd1, _⟩ := (Cover.of_forall₂ ‹List.Forall₂ _ _ (D :: Ds)›).sound D List.mem_cons_self
          have hd1 : d ∈ ds := List.mem_of_mem_filter hd1
          exfalso
          have hx := hd d hd1
          cases h.2 d hd1 with
          | short _ h2 _ _ _ => exact h2 hx.dot
          | @long a b h1 _ _ _ _ _ _ => exact hx.name ⟨a ++ '.' :: (b ++ ['.']), [], by rw [h1]; simp⟩

end
end GtwParser
end Verif
