import Verif.SidecarProofs
import Verif.PropsIstioConfig
/-!
C57: the parser of Sidecar resources finds the sidecar of every workload, and what its hosts make visible.

The theorems are partial: some texts are read in other ways than by Istio (`PropsSidecarEx`).
-/
namespace Verif
open ISet IpBlock PeerSet

namespace SidecarParser
open Container CalicoParser IstioParser IngressParser

section
variable {V : Env} {rg : PodReg} {c : Container} {l : List SvcText} {ts : List SidecarText}

theorem rank_le (t : SidecarText) : t.rank ≤ 2 := by
  unfold SidecarText.rank
  split
  · split <;> omega
  · omega

theorem rank_specific {t : SidecarText} (h : t.selector ≠ .absent) : t.rank = 2 := by
  unfold SidecarText.rank
  split
  · rename_i e; exact absurd e h
  · rfl

theorem rank_default {t : SidecarText} (h : t.selector = .absent) (hn : t.ns.name ≠ "istio-config") : t.rank = 1 := by
  unfold SidecarText.rank
  rw [h]
  exact if_neg hn

theorem rank_global {t : SidecarText} (h : t.selector = .absent) (hn : t.ns.name = "istio-config") : t.rank = 0 := by
  unfold SidecarText.rank
  rw [h]
  exact if_pos hn

theorem mem_specific {t : SidecarText} : t ∈ ts.filter isSpecific ↔ t ∈ ts ∧ t.selector ≠ .absent := by
  rw [List.mem_filter, ne_eq, ← isDefault_iff]
  unfold isSpecific
  simp

theorem mem_default {t : SidecarText} : t ∈ ts.filter isNsDefault ↔ t ∈ ts ∧ t.selector = .absent ∧ t.ns.name ≠ "istio-config" := by
  rw [List.mem_filter, ne_eq, ← isDefault_iff]
  unfold isNsDefault
  simp

theorem mem_global {t : SidecarText} : t ∈ ts.filter isGlobalDefault ↔ t ∈ ts ∧ t.selector = .absent ∧ t.ns.name = "istio-config" := by
  rw [List.mem_filter, ← isDefault_iff]
  unfold isGlobalDefault
  simp

theorem mem_ordered {t : SidecarText} : t ∈ ordered ts ↔ t ∈ ts := by
  unfold ordered
  rw [List.mem_append, List.mem_append, mem_specific, mem_default, mem_global]
  by_cases h : t.selector = .absent <;> by_cases h' : t.ns.name = "istio-config" <;> simp [h, h']

/-- A workload of a Sidecar is a pod in a namespace: that of the Sidecar, unless this is the root namespace. -/
theorem applies_space (hC : K8sParser.Cluster rg c) {t : SidecarText} {E : Place} (h : t.Applies c E) : ∃ own, InSpace c E own ∧ OwnOk t.ns own := by
  obtain ⟨p, hp, h1, h2, h3, _⟩ := h
  by_cases hr : t.ns.name = "istio-config"
  · rcases hC.kind p hp with ⟨_, n, hn⟩ | ⟨h, _⟩
    · exact ⟨_, ⟨p, hp, h1, n, hn, rfl⟩, Or.inl hr⟩
    · rw [h] at h2; cases h2
  · obtain ⟨m, hm, e⟩ := h3 hr
    exact ⟨_, ⟨p, hp, h1, m, hm, rfl⟩, Or.inr (by rw [e])⟩

theorem space_unique (hC : K8sParser.Cluster rg c) {E : Place} {n m : List Char} (h : InSpace c E n) (h' : InSpace c E m) : n = m := by
  obtain ⟨p, hp, h1, x, hx, rfl⟩ := h
  obtain ⟨q, hq, h2, y, hy, rfl⟩ := h'
  obtain rfl := place_unique hC hp hq h1 h2
  rw [hx] at hy; cases hy; rfl

theorem default_disjoint (hC : K8sParser.Cluster rg c) (h : NoConflict c ts) :
    (ts.filter isNsDefault).Pairwise fun t t' => ∀ E, ¬ (t.Applies c E ∧ t'.Applies c E) := by
  refine List.Pairwise.imp_of_mem (fun {t t'} ht ht' h E hE => ?_) (h.sublist List.filter_sublist)
  obtain ⟨_, h1, h2⟩ := mem_default.1 ht
  obtain ⟨_, h1', h2'⟩ := mem_default.1 ht'
  obtain ⟨n, hn, ho⟩ := applies_space hC hE.1
  obtain ⟨m, hm, ho'⟩ := applies_space hC hE.2
  have e := ho.resolve_left h2
  have e' := ho'.resolve_left h2'
  have := space_unique hC hn hm
  rw [e, e'] at this
  exact h.1 h1 h1' (String.toList_inj.1 this)

theorem global_disjoint (h : NoConflict c ts) : (ts.filter isGlobalDefault).Pairwise fun t t' => ∀ E, ¬ (t.Applies c E ∧ t'.Applies c E) := by
  refine List.Pairwise.imp_of_mem (fun {t t'} ht ht' h E hE => ?_) (h.sublist List.filter_sublist)
  obtain ⟨_, h1, h2⟩ := mem_global.1 ht
  obtain ⟨_, h1', h2'⟩ := mem_global.1 ht'
  exact h.1 h1 h1' (h2.trans h2'.symm)

theorem governs_specific {t : SidecarText} (ht : t ∈ ts) (h : t.selector ≠ .absent) (E : Place) : Governs c ts t E ↔ t.Applies c E := by
  refine ⟨fun h => h.2.1, fun hE => ⟨ht, hE, fun t' _ _ => ?_⟩⟩
  rw [rank_specific h]; exact rank_le t'

theorem governs_default {t : SidecarText} (ht : t ∈ ts) (h : t.selector = .absent) (hn : t.ns.name ≠ "istio-config") (E : Place) :
    Governs c ts t E ↔ t.Applies c E ∧ ¬ ∃ t' ∈ ts, t'.selector ≠ .absent ∧ t'.Applies c E := by
  constructor
  · rintro ⟨_, h1, h2⟩
    refine ⟨h1, ?_⟩
    rintro ⟨t', h3, h4, h5⟩
    have := h2 t' h3 h5
    rw [rank_specific h4, rank_default h hn] at this
    omega
  · rintro ⟨h1, h2⟩
    refine ⟨ht, h1, fun t' h3 h4 => ?_⟩
    rw [rank_default h hn]
    have h5 : t'.selector = .absent := by
      by_contra h5
      exact h2 ⟨t', h3, h5, h4⟩
    by_cases h6 : t'.ns.name = "istio-config"
    · rw [rank_global h5 h6]; omega
    · rw [rank_default h5 h6]

theorem governs_global {t : SidecarText} (ht : t ∈ ts) (h : t.selector = .absent) (hn : t.ns.name = "istio-config") (E : Place) :
    Governs c ts t E ↔ t.Applies c E ∧ ¬ ((∃ t' ∈ ts, t'.selector ≠ .absent ∧ t'.Applies c E) ∨
      ∃ t' ∈ ts.filter isNsDefault, t'.Applies c E) := by
  constructor
  · rintro ⟨_, h1, h2⟩
    refine ⟨h1, ?_⟩
    rintro (⟨t', h3, h4, h5⟩ | ⟨t', h3, h5⟩)
    · have := h2 t' h3 h5
      rw [rank_specific h4, rank_global h hn] at this
      omega
    · obtain ⟨h3, h4, h6⟩ := mem_default.1 h3
      have := h2 t' h3 h5
      rw [rank_default h4 h6, rank_global h hn] at this
      omega
  · rintro ⟨h1, h2⟩
    refine ⟨ht, h1, fun t' h3 h4 => ?_⟩
    rw [rank_global h hn]
    have h5 : t'.selector = .absent := by
      by_contra h5
      exact h2 (Or.inl ⟨t', h3, h5, h4⟩)
    by_cases h6 : t'.ns.name = "istio-config"
    · rw [rank_global h5 h6]
    · exact absurd (Or.inr ⟨t', mem_default.2 ⟨h3, h5, h6⟩, h4⟩) h2

theorem state_empty : StateIs c l [] ⟨[], [], [], [], []⟩ :=
  ⟨empty_ok, empty_in, fun e he => by simp at he, fun E => ⟨fun h => absurd h (not_in_empty E), by simp⟩, by simp, .nil, .nil, .nil⟩

/-- C57: in a configuration of legal Sidecar resources, two sidecars that claim the same workloads are an error. -/
theorem C57_conflict_rejected (hI : IstioCluster V rg c) (hl : SvcsTame rg c l) (hN : Named c l) (ht : ∀ t ∈ ts, t.Legal) (hc : ¬ NoConflict c ts) :
    ∃ svcs, services rg c l = some svcs ∧ sidecars svcs c ts = none := by
  refine ⟨_, services_eq hI.cluster hl, ?_⟩
  have := (foldlM_sidecars hI hl hN ts state_empty .nil ht).1 (fun h => hc ((noConflict_iff ts).2 h))
  unfold sidecars
  rw [this]; rfl

/-- C57: in a configuration of legal Sidecar resources without conflicts, each sidecar selects the workloads that it is the one of, and its rules are those of
the hosts, as far as the code reads these as Istio does. -/
theorem C57_sidecars (hI : IstioCluster V rg c) (hl : SvcsTame rg c l) (hN : Named c l) (ht : ∀ t ∈ ts, t.Legal) (hc : NoConflict c ts) :
    ∃ svcs S, services rg c l = some svcs ∧ sidecars svcs c ts = some S ∧
      List.Forall₂ (fun t s => SidecarIs c l t (Governs c ts t) s) (ordered ts) S := by
  have hC := hI.cluster
  obtain ⟨st, e, hst⟩ := (foldlM_sidecars hI hl hN ts state_empty .nil ht).2 ((noConflict_iff ts).1 hc)
  rw [List.nil_append] at hst
  obtain ⟨R1, S1, e1, o1, a1, i1, m1, f1⟩ := refine_sem (acc := st.specific) hst.defaults hst.ok hst.pods hst.inCluster (default_disjoint hC hc)
  obtain ⟨R2, S2, e2, o2, a2, i2, m2, f2⟩ := refine_sem (acc := st.specific ++ S1) hst.globals o1 a1 i1 (global_disjoint hc)
  have refit : ∀ {t : SidecarText} {T T' : Place → Prop} {s : Sidecar}, SidecarIs c l t T s → (∀ E, T' E ↔ T E) → SidecarIs c l t T' s :=
    fun h ht => ⟨h.name, h.ns, h.affects, h.registry, h.ok, h.inCluster, h.pods, fun E => (h.mem E).trans (ht E).symm, h.rules⟩
  refine ⟨_, st.specific ++ S1 ++ S2, services_eq hC hl, ?_, ?_⟩
  · unfold sidecars
    rw [e, Option.map_some]
    unfold getSidecars
    rw [e1, e2]
  · unfold ordered
    refine forall₂_append (forall₂_append ?_ ?_) ?_
    · refine forall₂_imp_mem hst.specific fun t s hm h => refit h fun E => ?_
      obtain ⟨h1, h2⟩ := mem_specific.1 hm
      exact governs_specific h1 h2 E
    · refine forall₂_imp_mem f1 fun t s hm h => refit h fun E => ?_
      obtain ⟨h1, h2, h3⟩ := mem_default.1 hm
      rw [governs_default h1 h2 h3, hst.mem]
    · refine forall₂_imp_mem f2 fun t s hm h => refit h fun E => ?_
      obtain ⟨h1, h2, h3⟩ := mem_global.1 hm
      rw [governs_global h1 h2 h3, m1, hst.mem]

theorem count_one {a : Char} : ∀ {s : List Char}, s.count a = 1 → s = s.takeWhile (· ≠ a) ++ a :: (s.dropWhile (· ≠ a)).tail ∧
    a ∉ s.takeWhile (· ≠ a) ∧ a ∉ (s.dropWhile (· ≠ a)).tail
  | [], h => by simp at h
  | b :: s, h => by
    by_cases e : b = a
    · subst e
      rw [List.count_cons_self] at h
      have : b ∉ s := List.count_eq_zero.1 (by omega)
      simp [this]
    · rw [List.count_cons_of_ne e] at h
      obtain ⟨h1, h2, h3⟩ := count_one h
      rw [List.takeWhile_cons_of_pos (by simpa using e), List.dropWhile_cons_of_pos (by simpa using e)]
      refine ⟨by rw [List.cons_append, ← h1], ?_, h3⟩
      rw [List.mem_cons]
      rintro (h | h)
      · exact e h.symm
      · exact h2 h

theorem foldlM_each {α β : Type} {f : β → α → Option β} {P : α → Prop} (hf : ∀ b a b', f b a = some b' → P a) : ∀ (l : List α) (b b' : β),
    l.foldlM f b = some b' → ∀ a ∈ l, P a
  | [], _, _, _ => fun a ha => by cases ha
  | x :: l, b, b', h => by
    rw [List.foldlM_cons, Option.bind_eq_bind, Option.bind_eq_some_iff] at h
    obtain ⟨b1, h1, h2⟩ := h
    intro a ha
    rcases List.mem_cons.1 ha with rfl | ha
    · exact hf _ _ _ h1
    · exact foldlM_each hf l b1 b' h2 a ha

/-- C57: whatever the cluster and the services, only Sidecars with one of the two modes are accepted, whose listeners have hosts, written as a namespace (or a
sign for some) and a name, of which only the first label can be a wildcard; in the root namespace, only those without a selector. -/
theorem C57_accepted_only {svcs : List (String × Svc)} {S : List Sidecar} (h : sidecars svcs c ts = some S) : ∀ t ∈ ts,
    (t.mode = none ∨ t.mode = some "ALLOW_ANY" ∨ t.mode = some "REGISTRY_ONLY") ∧ (t.ns.name = "istio-config" → t.selector = .absent) ∧
    ∀ r, t.egress = some r → ∀ hosts ∈ r, hosts ≠ [] ∧ ∀ h ∈ hosts, ∃ ns d, HostIs h ns d ∧
      (ns = ['*'] ∨ ns = ['.'] ∨ ns = ['~'] ∨ ∀ a ∈ ns, a ≠ '*' ∧ a ≠ '.' ∧ a ≠ '~') ∧ (d = ['*'] ∨ '*' ∉ d ∨ ∃ s, d = '*' :: '.' :: s ∧ '*' ∉ s) := by
  unfold sidecars at h
  rw [Option.map_eq_some_iff] at h
  obtain ⟨st, h, _⟩ := h
  refine foldlM_each (fun st t st' h => ?_) ts _ _ h
  unfold parseSidecar at h
  split at h
  · cases h
  · rename_i hroot
    rw [Option.bind_eq_some_iff] at h
    obtain ⟨sel, _, h⟩ := h
    rw [Option.bind_eq_some_iff] at h
    obtain ⟨st1, _, h⟩ := h
    rw [Option.bind_eq_some_iff] at h
    obtain ⟨rules, hrules, h⟩ := h
    rw [Option.map_eq_some_iff] at h
    obtain ⟨m, hm, _⟩ := h
    refine ⟨?_, fun hn => ?_, fun r hr hosts hh => ?_⟩
    · unfold parseMode at hm
      split at hm
      · rename_i e; exact Or.inl e
      · rename_i s e
        split at hm
        · rename_i e'; exact Or.inr (Or.inl (by rw [e, e']))
        · split at hm
          · rename_i e'; exact Or.inr (Or.inr (by rw [e, e']))
          · cases hm
    · rw [← isDefault_iff]
      by_contra hd
      exact hroot ⟨hn, by simpa using hd⟩
    · rw [hr, Option.getD_some] at hrules
      obtain ⟨x, hx⟩ := (K8sParser.mapM_defined _ _).1 ⟨_, hrules⟩ hosts hh
      unfold parseRule at hx
      split at hx
      · cases hx
      · rename_i hne
        refine ⟨fun e => hne (by rw [e]; rfl), foldlM_each (fun r h r' hstep => ?_) hosts _ _ hx⟩
        unfold hostStep at hstep
        rw [Option.bind_eq_some_iff] at hstep
        obtain ⟨⟨ns, d⟩, h1, hstep⟩ := hstep
        rw [Option.bind_eq_some_iff] at hstep
        obtain ⟨y, h2, hstep⟩ := hstep
        split at hstep
        · cases hstep
        · rename_i hv
          refine ⟨ns, d, ?_, ?_, ?_⟩
          · unfold partitionHost at h1
            dsimp only at h1
            split at h1
            · cases h1
            · rename_i hc
              split at h1
              · cases h1
              · rename_i he
                rw [Option.some.injEq, Prod.mk.injEq] at h1
                obtain ⟨k1, k2, k3⟩ := count_one (not_not.1 hc)
                rw [h1.1, h1.2] at k1 he
                rw [h1.1] at k2
                rw [h1.2] at k3
                rw [Bool.or_eq_true, not_or, List.isEmpty_iff, List.isEmpty_iff] at he
                exact ⟨k1, k2, k3, he.1, he.2⟩
          · unfold hostNs at h2
            split at h2
            · cases h2
            · rename_i hs
              rw [Bool.and_eq_true, Bool.or_eq_true, Bool.or_eq_true, decide_eq_true_eq, decide_eq_true_eq, decide_eq_true_eq, decide_eq_true_eq] at hs
              by_cases hlen : ns.length = 1
              · obtain ⟨a, e⟩ := List.length_eq_one_iff.1 hlen
                subst e
                by_cases e1 : a = '*'
                · exact Or.inl (by rw [e1])
                · by_cases e2 : a = '.'
                  · exact Or.inr (Or.inl (by rw [e2]))
                  · by_cases e3 : a = '~'
                    · exact Or.inr (Or.inr (Or.inl (by rw [e3])))
                    · exact Or.inr (Or.inr (Or.inr fun b hb => by rw [List.mem_singleton.1 hb]; exact ⟨e1, e2, e3⟩))
              · refine Or.inr (Or.inr (Or.inr fun a ha => ⟨?_, ?_, ?_⟩)) <;> (rintro rfl; exact hs ⟨by simp [ha], hlen⟩)
          · have hv : validDns d = true := by simpa using hv
            unfold validDns at hv
            split at hv
            · rename_i e; exact Or.inl e
            · split at hv
              · cases hv
              · rename_i hw
                by_cases hs : '*' ∈ d
                · obtain ⟨⟨s, rfl⟩, hcnt⟩ := not_not.1 fun h => hw ⟨hs, h⟩
                  refine Or.inr (Or.inr ⟨s, rfl, ?_⟩)
                  simp at hcnt
                  exact List.count_eq_zero.1 hcnt
                · exact Or.inr (Or.inl hs)

/-- C57: without conflicts, a workload has at most one sidecar. -/
theorem C57_one_sidecar (hC : K8sParser.Cluster rg c) (hc : NoConflict c ts) {t t' : SidecarText} {E : Place} (h : Governs c ts t E) (h' : Governs c ts t' E) :
    t = t' := by
  have hr : t.rank = t'.rank := Nat.le_antisymm (h'.2.2 t h.1 h.2.1) (h.2.2 t' h'.1 h'.2.1)
  have clash : Clash c t t' ∧ Clash c t' t := by
    by_cases h1 : t.selector = .absent
    · by_cases h2 : t.ns.name = "istio-config"
      · rw [rank_global h1 h2] at hr
        have h3 : t'.selector = .absent := by
          by_contra h3
          rw [rank_specific h3] at hr; omega
        have h4 : t'.ns.name = "istio-config" := by
          by_contra h4
          rw [rank_default h3 h4] at hr; omega
        exact ⟨Or.inl ⟨h1, h3, h2.trans h4.symm⟩, Or.inl ⟨h3, h1, h4.trans h2.symm⟩⟩
      · rw [rank_default h1 h2] at hr
        have h3 : t'.selector = .absent := by
          by_contra h3
          rw [rank_specific h3] at hr; omega
        have h4 : t'.ns.name ≠ "istio-config" := by
          intro h4
          rw [rank_global h3 h4] at hr; omega
        obtain ⟨n, hn, ho⟩ := applies_space hC h.2.1
        obtain ⟨m, hm, ho'⟩ := applies_space hC h'.2.1
        have e := ho.resolve_left h2
        have e' := ho'.resolve_left h4
        have := space_unique hC hn hm
        rw [e, e', String.toList_inj] at this
        exact ⟨Or.inl ⟨h1, h3, this⟩, Or.inl ⟨h3, h1, this.symm⟩⟩
    · rw [rank_specific h1] at hr
      have h3 : t'.selector ≠ .absent := by
        intro h3
        by_cases h4 : t'.ns.name = "istio-config"
        · rw [rank_global h3 h4] at hr; omega
        · rw [rank_default h3 h4] at hr; omega
      exact ⟨Or.inr ⟨h1, h3, E, h.2.1, h'.2.1⟩, Or.inr ⟨h3, h1, E, h'.2.1, h.2.1⟩⟩
  exact pairwise_eq (R := fun t t' => Clash c t t' ∧ Clash c t' t) (fun _ _ h => h.symm)
    (((noConflict_iff ts).1 hc).imp fun h h' => h h'.1) h.1 h'.1 clash

end

/-! ### Connections -/

section
variable {V2 X2 : Type} {A2 : VAlg Dim V2 X2} {W2 : Dim → V2 → Prop} {word : X2 → List Char} {V : Env} {rg : PodReg} {c : Container} {ord : SetOrder}
  {l : List SvcText} {ts : List SidecarText}

theorem nsPods_sem (hC : K8sParser.Cluster rg c) (n : Ns) : (c.nsPods (some n)).Ok ∧ InCluster c (c.nsPods (some n)) ∧ AllPods (c.nsPods (some n)) ∧
    ∀ E, E.In (c.nsPods (some n)) ↔ InSpace c E n.name.toList := by
  have h := sem_sel hC.ok (fun p => sameNs p n)
  refine ⟨h.1, h.inCluster, allPods_sel hC _, fun E => (h.2 E).trans ?_⟩
  unfold InSpace AtSome
  refine exists_congr fun p => and_congr_right fun _ => and_congr_right fun _ => ?_
  dsimp only
  rw [sameNs_iff]
  unfold PeerInfo.InNs
  exact exists_congr fun m => and_congr_right fun _ => by rw [String.toList_inj]

theorem peerNs_eq (hC : K8sParser.Cluster rg c) {p : PeerInfo} (hp : p ∈ c) {k : String} (hk : p.elem = .pod k) : peerNs c (.pod k) = p.ns := by
  unfold peerNs
  cases h : c.find? (fun p => decide (p.elem = .pod k)) with
  | none =>
    rw [List.find?_eq_none] at h
    exact absurd (decide_eq_true hk) (h p hp)
  | some q =>
    have h1 := List.mem_of_find?_eq_some h
    have h2 := List.find?_some h
    rw [decide_eq_true_eq] at h2
    rw [hC.uniq p hp q h1 (hk.trans h2.symm)]; rfl

theorem pods_length (q : PeerSet String) : q.pods.length ≤ q.length := List.length_filterMap_le _ _

theorem combine_sem (hC : K8sParser.Cluster rg c) {D : PeerSet String} (oD : D.Ok) (iD : InCluster c D) : ∀ (n : Nat) (S : PeerSet String), S.length ≤ n → S.Ok →
    AllPods S → (∀ k, S.HasPod k → ∃ p ∈ c, p.elem = .pod k ∧ p.kind = .pod) →
    (∀ x ∈ combineByNs c D n S, x.1.Ok ∧ x.2.Ok ∧ InCluster c x.1 ∧ InCluster c x.2) ∧
    ∀ src dst : Place, (∃ x ∈ combineByNs c D n S, src.In x.1 ∧ dst.In x.2) ↔ src.In S ∧ dst.In D ∧ ∃ own, InSpace c src own ∧ InSpace c dst own := by
  intro n
  induction n with
  | zero =>
    intro S hlen _ _ _
    have : S = [] := List.length_eq_zero_iff.1 (by omega)
    subst this
    exact ⟨fun x hx => by simp [combineByNs] at hx, fun src dst => ⟨fun ⟨x, hx, _⟩ => by simp [combineByNs] at hx, fun h => absurd h.1 (not_in_empty src)⟩⟩
  | succ n ih =>
    intro S hlen oS aS hS
    cases S with
    | nil => exact ⟨fun x hx => by simp [combineByNs] at hx, fun src dst => ⟨fun ⟨x, hx, _⟩ => by simp [combineByNs] at hx, fun h => absurd h.1 (not_in_empty src)⟩⟩
    | cons e S =>
      obtain ⟨k, rfl⟩ := aS e List.mem_cons_self
      obtain ⟨p, hp, hk, hkind⟩ := hS k List.mem_cons_self
      obtain ⟨m, hm⟩ : ∃ m, p.ns = some m := by
        rcases hC.kind p hp with ⟨_, h⟩ | ⟨h, _⟩
        · exact h
        · rw [h] at hkind; cases hkind
      obtain ⟨o1, i1, a1, m1⟩ := nsPods_sem hC m
      have e0 : combineByNs c D (n + 1) (.pod k :: S) = (PeerSet.and (.pod k :: S) (c.nsPods (some m)), D.and (c.nsPods (some m))) ::
          combineByNs c D n (PeerSet.sub (.pod k :: S) (c.nsPods (some m))) := by
        rw [combineByNs, peerNs_eq hC hp hk, hm]
      have hin : PeerSet.HasPod (c.nsPods (some m)) k := (m1 (.pod k)).2 ⟨p, hp, hk, m, hm, rfl⟩
      have hlen' : (PeerSet.sub (.pod k :: S) (c.nsPods (some m))).length ≤ n := by
        unfold PeerSet.sub
        rw [aS.ipForm, a1.ipForm, show PeerSet.ofBlock (IpBlock.diff [] []) = ([] : PeerSet String) from rfl, List.append_nil, List.length_map]
        have hk' : k ∈ (c.nsPods (some m)).pods := List.mem_filterMap.2 ⟨_, hin, rfl⟩
        have : PeerSet.pods (.pod k :: S) = k :: PeerSet.pods S := rfl
        rw [this, List.filter_cons_of_neg (by simpa using hk')]
        have h1 := List.length_filter_le (fun k => decide (k ∉ (c.nsPods (some m)).pods)) (PeerSet.pods S)
        have h2 := pods_length S
        rw [List.length_cons] at hlen
        omega
      have oSub := (C22_sub_exact oS o1).1
      have inS : InCluster c (.pod k :: S) := fun j hj => by
        obtain ⟨p, hp, h, _⟩ := hS j hj
        exact ⟨p, hp, h⟩
      obtain ⟨g1, g2⟩ := ih _ hlen' oSub (aS.sub a1) (fun j hj => hS j (((C22_sub_exact oS o1).2.1 j).1 hj).1)
      rw [e0]
      refine ⟨fun x hx => ?_, fun src dst => ?_⟩
      · rcases List.mem_cons.1 hx with rfl | hx
        · exact ⟨(C22_and_exact oS o1).1, (C22_and_exact oD o1).1, InCluster.and oS o1 (Or.inl inS), InCluster.and oD o1 (Or.inl iD)⟩
        · exact g1 x hx
      · simp only [List.mem_cons, exists_eq_or_imp]
        rw [g2, in_and oS o1, in_and oD o1, in_sub oS o1, m1, m1]
        constructor
        · rintro (⟨⟨h1, h2⟩, h3, h4⟩ | ⟨⟨h1, _⟩, h2, h3⟩)
          · exact ⟨h1, h3, _, h2, h4⟩
          · exact ⟨h1, h2, h3⟩
        · rintro ⟨h1, h2, own, h3, h4⟩
          by_cases h5 : InSpace c src m.name.toList
          · obtain rfl := space_unique hC h3 h5
            exact Or.inl ⟨⟨h1, h3⟩, h2, h4⟩
          · exact Or.inr ⟨⟨h1, h5⟩, h2, own, h3, h4⟩

variable (L2 : A2.Lawful W2)
include L2

/-- The connections are those of which `F` holds, and they are between peers of the cluster and addresses. -/
structure PropsAre (word : X2 → List Char) (rg : PodReg) (c : Container) (z : Int) (F : Place → Place → Request → Prop) (h : HC Dim (ISet ⊕ V2)) : Prop where
  flat : Flat A2 W2 PeerDom.default z h
  src : ∀ p, (connNet L2 PeerDom.default).K.mem p h = true → ∃ S : PeerSet String, InCluster c S ∧ S.At rg.keys (p.1 .srcPeers)
  dst : ∀ p, (connNet L2 PeerDom.default).K.mem p h = true → ∃ S : PeerSet String, InCluster c S ∧ S.At rg.keys (p.1 .dstPeers)
  mem : ∀ p src dst q, IsRequest word rg c p src dst q → ((connNet L2 PeerDom.default).K.mem p h = true ↔ F src dst q)

variable {L2} in
omit L2 in
theorem PropsAre.congr {L2 : A2.Lawful W2} {z : Int} {F G : Place → Place → Request → Prop} {h : HC Dim (ISet ⊕ V2)} (hp : PropsAre L2 word rg c z F h)
    (hFG : ∀ src dst q, F src dst q ↔ G src dst q) : PropsAre L2 word rg c z G h :=
  ⟨hp.flat, hp.src, hp.dst, fun p src dst q hr => (hp.mem p src dst q hr).trans (hFG src dst q)⟩

theorem addProps_sem (hI : IstioCluster V rg c) {z : Int} (hz : Mem z PeerDom.default.idx) (hzS : ∀ S : PeerSet String, ¬ PeerSet.At (X2 := X2) rg.keys S (.inl z))
    {F : Place → Place → Request → Prop} {h : HC Dim (ISet ⊕ V2)} (hh : PropsAre L2 word rg c z F h) {S D : PeerSet String} (hS : S.Ok ∧ InCluster c S)
    (hD : D.Ok ∧ InCluster c D) {T : Option ISet} (hT : T = none ∨ T = some [⟨6, 6⟩]) :
    ∃ h', addProps A2 PeerDom.default ord rg h S D T = some h' ∧
      PropsAre L2 word rg c z (fun src dst q => F src dst q ∨ src.In S ∧ dst.In D ∧ (T ≠ none → q.proto = 6)) h' := by
  have la := (connNet_lawful L2 PeerDom.default).1
  have hm : ∀ z, Mem z ([⟨6, 6⟩] : ISet) ↔ z = 6 := fun z => by
    rw [mem_singleton]; unfold Iv.Mem; dsimp only; omega
  have legal : ConnDict.Legal X2 rg.keys PeerDom.default ⟨some S, some D, T, none⟩ :=
    IstioParser.dict_legal hI (fun Z hZ => by rcases hZ with hZ | hZ <;> cases hZ; exacts [hS, hD]) (fun x hx => by
      rcases hT with rfl | rfl
      · cases hx
      · cases hx; exact ⟨canonical_singleton.2 (by decide), fun z hz => by rw [hm] at hz; omega⟩) (fun x hx => by cases hx)
  obtain ⟨h1, e1, s1, m1⟩ := IstioParser.dict_sem L2 (ord := ord) (X2 := X2) hI.cluster.reach legal (fun P hP => by cases hP)
  have f1 : Flat A2 W2 PeerDom.default z h1 := makeFromDict_flat L2 hI.cluster.reach hI.cluster.ports legal hz (hzS S) e1
  have mo : ∀ p, (connNet L2 PeerDom.default).K.mem p (HC.or (connA A2 PeerDom.default) allDims h h1) = true ↔
      (connNet L2 PeerDom.default).K.mem p h = true ∨ (connNet L2 PeerDom.default).K.mem p h1 = true := fun p => by
    rw [← Bool.or_eq_true]
    exact Bool.eq_iff_iff.1 (la.net.mem_or (la.net.strong_ok hh.flat.strong) (la.net.strong_ok s1) p)
  refine ⟨HC.or (connA A2 PeerDom.default) allDims h h1, by unfold addProps; rw [e1]; rfl, flat_or L2 hz hh.flat f1, fun p hp => ?_, fun p hp => ?_, fun p src dst q hr => ?_⟩
  · rcases (mo p).1 hp with hp | hp
    · exact hh.src p hp
    · exact ⟨S, hS.2, ((m1 p).1 hp).1.1 S rfl⟩
  · rcases (mo p).1 hp with hp | hp
    · exact hh.dst p hp
    · exact ⟨D, hD.2, ((m1 p).1 hp).1.2.1 D rfl⟩
  · rw [mo, hh.mem p src dst q hr, m1]
    refine or_congr_right ?_
    have a1 := at_place hI.cluster.reach hr.src S
    have a2 := at_place hI.cluster.reach hr.dst D
    constructor
    · rintro ⟨⟨g1, g2, g3⟩, _⟩
      refine ⟨a1.1 (g1 _ rfl), a2.1 (g2 _ rfl), fun ht => ?_⟩
      obtain rfl := hT.resolve_left ht
      obtain ⟨n, h4, h5⟩ := g3 _ rfl
      rw [hr.proto] at h4; cases h4
      exact (hm _).1 h5
    · rintro ⟨g1, g2, g3⟩
      refine ⟨⟨fun Z hZ => by cases hZ; exact a1.2 g1, fun Z hZ => by cases hZ; exact a2.2 g2, fun x hx => ?_⟩, fun P hP => by cases hP⟩
      have hx : T = some x := hx
      rcases hT with rfl | rfl
      · cases hx
      · cases hx
        exact ⟨_, hr.proto, (hm _).2 (g3 (by simp))⟩

omit L2 in
theorem ips_in (E : Place) : E.In [.ip (IpBlock.allIps false false)] ↔ ∃ x, E = .ip x := by
  cases E with
  | ip x =>
    refine ⟨fun _ => ⟨x, rfl⟩, fun _ => ?_⟩
    exact ⟨_, List.mem_singleton.2 rfl, (C21_all_exact false false x).2 (by simp)⟩
  | pod k =>
    refine ⟨fun h => ?_, fun ⟨x, h⟩ => by cases h⟩
    have : PeerElem.pod k ∈ [PeerElem.ip (IpBlock.allIps false false)] := h
    simp at this

omit L2 in
theorem isEmpty_in {S : PeerSet String} (h : S.isEmpty = true) (E : Place) : ¬ E.In S := by
  rw [List.isEmpty_iff.1 h]; exact not_in_empty E

/-- The connections of a rule. -/
theorem ruleProps_sem (hI : IstioCluster V rg c) {z : Int} (hz : Mem z PeerDom.default.idx) (hzS : ∀ S : PeerSet String, ¬ PeerSet.At (X2 := X2) rg.keys S (.inl z))
    {t : SidecarText} {T : Place → Prop} {s : Sidecar} (hs : SidecarIs c l t T s) (hT : ∀ E, T E → t.Applies c E) {r : SidecarRule} (hr : r.Ok c) :
    ∃ h, ruleProps A2 PeerDom.default ord rg c s r = some h ∧
      PropsAre L2 word rg c z (fun src dst q => T src ∧ ((t.mode ≠ some "REGISTRY_ONLY" ∧ ∃ x, dst = .ip x) ∨
        q.proto = 6 ∧ (∃ w, IsDns c dst w) ∧ (dst.In r.peers ∨ dst.In r.special) ∨ dst.In r.peers ∨
        dst.In r.special ∧ ∃ own, InSpace c src own ∧ InSpace c dst own)) h := by
  have hC := hI.cluster
  have la := (connNet_lawful L2 PeerDom.default).1
  obtain ⟨d1, d2, d3⟩ := dnsPeers_sem hC
  have hsel := And.intro hs.ok hs.inCluster
  have hor := or_in hr.peers hr.special hr.inPeers hr.inSpecial
  have oD := (C22_and_exact d1 hor.1).1
  have iD := InCluster.and d1 hor.1 (Or.inl d2)
  have mD : ∀ E : Place, E.In ((dnsPeers c).and (r.peers.or r.special)) ↔ (∃ w, IsDns c E w) ∧ (E.In r.peers ∨ E.In r.special) := fun E => by
    rw [in_and d1 hor.1, d3, in_or hr.peers hr.special]
  have p0 : PropsAre L2 word rg c z (fun _ _ _ => False) (HC.empty allDims true : HC Dim (ISet ⊕ V2)) := by
    have no : ∀ p, ¬ (connNet L2 PeerDom.default).K.mem p (HC.empty allDims true) = true := fun p h => by
      have := la.net.mem_empty p
      rw [show (connNet L2 PeerDom.default).K.empty = (HC.empty allDims true : HC Dim (ISet ⊕ V2)) from rfl] at this
      rw [this] at h; cases h
    exact ⟨flat_empty L2 z, fun p h => absurd h (no p), fun p h => absurd h (no p), fun p src dst q _ => ⟨fun h => no p h, False.elim⟩⟩
  -- addresses
  obtain ⟨h1, e1, p1⟩ : ∃ h, (if s.registryOnly then some (HC.empty allDims true) else
      addProps A2 PeerDom.default ord rg (HC.empty allDims true) s.selected [.ip (IpBlock.allIps false false)] none) = some h ∧
      PropsAre L2 word rg c z (fun src dst _ => T src ∧ t.mode ≠ some "REGISTRY_ONLY" ∧ ∃ x, dst = .ip x) h := by
    by_cases hreg : s.registryOnly = true
    · rw [if_pos hreg]
      exact ⟨_, rfl, p0.congr fun src dst q => ⟨False.elim, fun h => h.2.1 (hs.registry.1 hreg)⟩⟩
    · rw [if_neg hreg]
      obtain ⟨h, e, p⟩ := addProps_sem L2 (ord := ord) hI hz hzS p0 hsel (K8sParser.ips_legal (c := c)) (Or.inl rfl)
      refine ⟨h, e, p.congr fun src dst q => ?_⟩
      rw [hs.mem, ips_in, false_or]
      exact ⟨fun h => ⟨h.1, fun h' => hreg (hs.registry.2 h'), h.2.1⟩, fun h => ⟨h.1, h.2.2, fun h => absurd rfl h⟩⟩
  -- DNS entries
  have e0 : ProtocolSet.add (ProtocolSet.make false) (.name "TCP") = some [⟨6, 6⟩] := by decide +kernel
  obtain ⟨h2, e2, p2⟩ : ∃ h, (if s.selected.isEmpty || ((dnsPeers c).and (r.peers.or r.special)).isEmpty then some h1
      else (ProtocolSet.add (ProtocolSet.make false) (.name "TCP")).bind fun tcp =>
        addProps A2 PeerDom.default ord rg h1 s.selected ((dnsPeers c).and (r.peers.or r.special)) (some tcp)) = some h ∧
      PropsAre L2 word rg c z (fun src dst q => T src ∧ ((t.mode ≠ some "REGISTRY_ONLY" ∧ ∃ x, dst = .ip x) ∨
        q.proto = 6 ∧ (∃ w, IsDns c dst w) ∧ (dst.In r.peers ∨ dst.In r.special))) h := by
    by_cases he : (s.selected.isEmpty || ((dnsPeers c).and (r.peers.or r.special)).isEmpty) = true
    · rw [if_pos he]
      refine ⟨_, rfl, p1.congr fun src dst q => and_congr_right fun hsrc => ⟨Or.inl, fun h => h.elim id fun h => ?_⟩⟩
      rw [Bool.or_eq_true] at he
      rcases he with he | he
      · exact absurd ((hs.mem src).2 hsrc) (isEmpty_in he src)
      · exact absurd ((mD dst).2 h.2) (isEmpty_in he dst)
    · rw [if_neg he, e0, Option.bind_some]
      obtain ⟨h, e, p⟩ := addProps_sem L2 (ord := ord) hI hz hzS p1 hsel ⟨oD, iD⟩ (Or.inr rfl)
      refine ⟨h, e, p.congr fun src dst q => ?_⟩
      rw [hs.mem, mD]
      constructor
      · rintro (⟨g1, g2⟩ | ⟨g1, g2, g3⟩)
        · exact ⟨g1, Or.inl g2⟩
        · exact ⟨g1, Or.inr ⟨g3 (by simp), g2⟩⟩
      · rintro ⟨g1, g2 | ⟨g3, g2⟩⟩
        · exact Or.inl ⟨g1, g2⟩
        · exact Or.inr ⟨g1, g2, fun _ => g3⟩
  -- services
  obtain ⟨h3, e3, p3⟩ : ∃ h, (if s.selected.isEmpty || r.peers.isEmpty then some h2 else addProps A2 PeerDom.default ord rg h2 s.selected r.peers none) = some h ∧
      PropsAre L2 word rg c z (fun src dst q => T src ∧ ((t.mode ≠ some "REGISTRY_ONLY" ∧ ∃ x, dst = .ip x) ∨
        q.proto = 6 ∧ (∃ w, IsDns c dst w) ∧ (dst.In r.peers ∨ dst.In r.special) ∨ dst.In r.peers)) h := by
    by_cases he : (s.selected.isEmpty || r.peers.isEmpty) = true
    · rw [if_pos he]
      refine ⟨_, rfl, p2.congr fun src dst q => and_congr_right fun hsrc => ?_⟩
      rw [← or_assoc]
      refine ⟨Or.inl, fun h => h.elim id fun h => ?_⟩
      rw [Bool.or_eq_true] at he
      rcases he with he | he
      · exact absurd ((hs.mem src).2 hsrc) (isEmpty_in he src)
      · exact absurd h (isEmpty_in he dst)
    · rw [if_neg he]
      obtain ⟨h, e, p⟩ := addProps_sem L2 (ord := ord) hI hz hzS p2 hsel ⟨hr.peers, hr.inPeers⟩ (Or.inl rfl)
      refine ⟨h, e, p.congr fun src dst q => ?_⟩
      rw [hs.mem]
      constructor
      · rintro (⟨g1, g2⟩ | ⟨g1, g2, g3⟩)
        · exact ⟨g1, g2.imp id Or.inl⟩
        · exact ⟨g1, Or.inr (Or.inr g2)⟩
      · rintro ⟨g1, g2 | g2 | g2⟩
        · exact Or.inl ⟨g1, Or.inl g2⟩
        · exact Or.inl ⟨g1, Or.inr g2⟩
        · exact Or.inr ⟨g1, g2, fun h => absurd rfl h⟩
  -- places in the same namespace
  obtain ⟨g1, g2⟩ := combine_sem hC hr.special hr.inSpecial s.selected.length s.selected (Nat.le_refl _) hs.ok hs.pods (fun k hk => by
    obtain ⟨p, hp, h1, h2, _⟩ := hT _ ((hs.mem (.pod k)).1 hk)
    exact ⟨p, hp, h1, h2⟩)
  have fold : ∀ (L : List (PeerSet String × PeerSet String)) (h : HC Dim (ISet ⊕ V2)) (F : Place → Place → Request → Prop),
      (∀ x ∈ L, x.1.Ok ∧ x.2.Ok ∧ InCluster c x.1 ∧ InCluster c x.2) → PropsAre L2 word rg c z F h →
      ∃ h', L.foldlM (fun h x => if x.1.isEmpty || x.2.isEmpty then some h else addProps A2 PeerDom.default ord rg h x.1 x.2 none) h = some h' ∧
        PropsAre L2 word rg c z (fun src dst q => F src dst q ∨ ∃ x ∈ L, src.In x.1 ∧ dst.In x.2) h' := by
    intro L
    induction L with
    | nil => exact fun h F _ p => ⟨h, rfl, p.congr fun src dst q => by simp⟩
    | cons x L ih =>
      intro h F hL p
      obtain ⟨k1, k2, k3, k4⟩ := hL x List.mem_cons_self
      obtain ⟨h', e', p'⟩ : ∃ h', (if x.1.isEmpty || x.2.isEmpty then some h else addProps A2 PeerDom.default ord rg h x.1 x.2 none) = some h' ∧
          PropsAre L2 word rg c z (fun src dst q => F src dst q ∨ src.In x.1 ∧ dst.In x.2) h' := by
        by_cases he : (x.1.isEmpty || x.2.isEmpty) = true
        · rw [if_pos he]
          refine ⟨_, rfl, p.congr fun src dst q => ⟨Or.inl, fun h => h.elim id fun h => ?_⟩⟩
          rw [Bool.or_eq_true] at he
          rcases he with he | he
          · exact absurd h.1 (isEmpty_in he src)
          · exact absurd h.2 (isEmpty_in he dst)
        · rw [if_neg he]
          obtain ⟨h', e', p'⟩ := addProps_sem L2 (ord := ord) hI hz hzS p ⟨k1, k3⟩ ⟨k2, k4⟩ (Or.inl rfl)
          exact ⟨h', e', p'.congr fun src dst q => or_congr_right ⟨fun h => ⟨h.1, h.2.1⟩, fun h => ⟨h.1, h.2, fun h => absurd rfl h⟩⟩⟩
      obtain ⟨h'', e'', p''⟩ := ih h' _ (fun y hy => hL y (List.mem_cons_of_mem _ hy)) p'
      refine ⟨h'', by rw [List.foldlM_cons, e']; exact e'', p''.congr fun src dst q => ?_⟩
      simp only [List.mem_cons, exists_eq_or_imp, or_assoc]
  obtain ⟨h4, e4, p4⟩ := fold _ h3 _ g1 p3
  refine ⟨h4, ?_, p4.congr fun src dst q => ?_⟩
  · unfold ruleProps
    dsimp only
    rw [e1, Option.bind_some, e2, Option.bind_some, e3, Option.bind_some, e4]
  · rw [g2, hs.mem]
    constructor
    · rintro (⟨k1, k2 | k2 | k2⟩ | ⟨k1, k2, k3⟩)
      · exact ⟨k1, Or.inl k2⟩
      · exact ⟨k1, Or.inr (Or.inl k2)⟩
      · exact ⟨k1, Or.inr (Or.inr (Or.inl k2))⟩
      · exact ⟨k1, Or.inr (Or.inr (Or.inr ⟨k2, k3⟩))⟩
    · rintro ⟨k1, k2 | k2 | k2 | ⟨k2, k3⟩⟩
      · exact Or.inl ⟨k1, Or.inl k2⟩
      · exact Or.inl ⟨k1, Or.inr (Or.inl k2)⟩
      · exact Or.inl ⟨k1, Or.inr (Or.inr k2)⟩
      · exact Or.inr ⟨k1, k2, k3⟩

/-- What the hosts of a listener let a workload of the Sidecar reach. -/
def ListenerSays (c : Container) (l : List SvcText) (t : SidecarText) (hosts : List (List Char)) (src dst : Place) : Prop :=
  (t.mode ≠ some "REGISTRY_ONLY" ∧ ∃ x, dst = .ip x) ∨ ∃ h ∈ hosts, ∃ own, InSpace c src own ∧ Exposes c l own h dst

/-- C57: the TCP connections of a rule are those that its hosts let the workloads of the sidecar reach, and those to addresses if the mode is not
`REGISTRY_ONLY`. -/
theorem C57_rule_partial (hI : IstioCluster V rg c) {t : SidecarText} (ht : t.Tame c l) {T : Place → Prop} {s : Sidecar}
    (hs : SidecarIs c l t T s) (hT : ∀ E, T E → t.Applies c E) {r : List (List (List Char))} (hr : t.egress = some r) {hosts : List (List Char)} (hh : hosts ∈ r)
    {x : SidecarRule} (hx : RuleFits c l t.ns hosts x) :
    ∃ h, ruleProps A2 PeerDom.default ord rg c s x = some h ∧ HcStrongT (connA A2 PeerDom.default) (connWf W2 PeerDom.default) allDims h ∧
      ∀ p src dst q, IsRequest word rg c p src dst q → q.proto = 6 →
        ((connNet L2 PeerDom.default).K.mem p h = true ↔ T src ∧ ListenerSays c l t hosts src dst) := by
  have hC := hI.cluster
  obtain ⟨z, hz, hzS⟩ := IstioParser.free_index (X2 := X2) hI
  obtain ⟨h, e, P⟩ := ruleProps_sem L2 (ord := ord) (word := word) hI hz hzS hs hT hx.ok
  refine ⟨h, e, P.flat.strong, fun p src dst q hp h6 => (P.mem p src dst q hp).trans (and_congr_right fun hsrc => or_congr_right ?_)⟩
  obtain ⟨own, h1, h2⟩ := applies_space hC (hT src hsrc)
  have m := hx.mem own h2 (fun h' hh' => ht.names r hr hosts hh h' hh' src own (hT src hsrc) h1) dst
  have e : (∃ h ∈ hosts, ∃ own, InSpace c src own ∧ Exposes c l own h dst) ↔ ∃ h ∈ hosts, Exposes c l own h dst := by
    refine exists_congr fun h => and_congr_right fun _ => ⟨?_, fun h => ⟨own, h1, h⟩⟩
    rintro ⟨own', h3, h4⟩
    rw [space_unique hC h1 h3]; exact h4
  rw [e, ← m]
  unfold SidecarRule.Allows Near
  constructor
  · rintro (⟨_, g1, g2 | g2⟩ | g2 | ⟨g2, own', g3, g4⟩)
    · exact Or.inl g2
    · exact Or.inr ⟨g2, Or.inl g1⟩
    · exact Or.inl g2
    · rw [space_unique hC g3 h1] at g4
      exact Or.inr ⟨g2, Or.inr g4⟩
  · rintro (g | ⟨g1, g2 | g2⟩)
    · exact Or.inr (Or.inl g)
    · exact Or.inl ⟨h6, g2, Or.inr g1⟩
    · exact Or.inr (Or.inr ⟨g1, own, h1, g2⟩)

end
end SidecarParser
end Verif
