import Verif.FwProofs
/-!
C37: the firewall rules made of a set of connections allow these connections and nothing else.
-/
namespace Verif.Fw

section
variable {C P E S ν : Type} [DecidableEq E] [DecidableEq ν] {N : FwNet C P E S} {Ok Strong Wide : C → Prop}
  {I : Cluster E ν} {cfg : FwCfg E} {A : P → Prop} {p0 : P}

/-- A workload is connected to itself; such connections are added where it makes the rules shorter. -/
def SelfConn (N : FwNet C P E S) (p : P) : Prop := N.src p = N.dst p ∧ (N.kind (N.src p)).isEp = true

omit [DecidableEq E] [DecidableEq ν] in
theorem coveredProps_ok (L : N.Laws Ok Strong Wide) {pp cont : C} (hpp : InScope N Ok A pp) (hcont : InScope N Ok A cont)
    (ht : N.K.truthy pp = true)
    (hself : cfg.auto = true → ∀ {p q}, N.K.mem q pp = true → SelfConn N p → (N.src p = N.src q ∨ N.src p = N.dst q) → A p) :
    InScope N Ok A (coveredProps N cfg pp cont) ∧ ∀ p, N.K.mem p pp = true → N.K.mem p (coveredProps N cfg pp cont) = true := by
  unfold coveredProps
  dsimp only
  have hor := mem_or_iff' L hpp.ok hcont.ok
  have h0 : InScope N Ok A (N.K.or pp cont) ∧ ∀ p, N.K.mem p pp = true → N.K.mem p (N.K.or pp cont) = true :=
    ⟨⟨L.q.net.or_ok hpp.ok hcont.ok, PeerOnly.or L hpp.ok hcont.ok hpp.only hcont.only,
      fun h => ((hor _).1 h).elim hpp.sub hcont.sub⟩, fun p h => (hor p).2 (.inl h)⟩
  split
  · rename_i ha
    refine foldl_inv (R := fun c => InScope N Ok A c ∧ ∀ p, N.K.mem p pp = true → N.K.mem p c = true) _ ?_ _ h0
    intro e he c hc
    rw [List.mem_filter, L.members_iff, N.Q.mem_or, Bool.or_eq_true] at he
    have hok := pair_ok L (N.ofList [e]) (N.ofList [e])
    have hor := mem_or_iff' L hc.1.ok hok
    refine ⟨⟨L.q.net.or_ok hc.1.ok hok, PeerOnly.or L hc.1.ok hok hc.1.only (PeerOnly.pairSet L _ _), fun {p} h => ?_⟩,
      fun p h => (hor p).2 (.inl (hc.2 p h))⟩
    rcases (hor p).1 h with h | h
    · exact hc.1.sub h
    · have hkn : ∀ x ∈ [e], Known N x := fun x hx => ⟨N.Q.or (N.srcs pp) (N.dsts pp), (L.members_iff _ _).2
        (by rw [List.mem_singleton.1 hx, N.Q.mem_or, Bool.or_eq_true]; exact he.1)⟩
      rw [pairSet_iff L, L.ofList_iff _ _ hkn, L.ofList_iff _ _ hkn, List.mem_singleton, List.mem_singleton] at h
      have hs : SelfConn N p := ⟨h.1.trans h.2.symm, h.1 ▸ he.2⟩
      rcases he.1.1 with h1 | h1
      · obtain ⟨q, hq, h2⟩ := L.srcs_exact hpp.ok ht h1
        exact hself ha h2 hs (.inl (h.1.trans hq.symm))
      · obtain ⟨q, hq, h2⟩ := L.dsts_exact hpp.ok ht h1
        exact hself ha h2 hs (.inr (h.1.trans hq.symm))
  · exact h0

omit [DecidableEq E] in
theorem podNss_mem (L : N.Laws Ok Strong Wide) {s : S} {e : E} (h : N.Q.mem e s = true) (hk : N.kind e = .pod) : I.ns e ∈ podNss N I s := by
  unfold podNss
  rw [List.mem_dedup, List.mem_map]
  refine ⟨e, List.mem_filter.2 ⟨(L.members_iff _ _).2 ⟨h, by simp [hk]⟩, by simpa using hk⟩, rfl⟩

omit [DecidableEq E] [DecidableEq ν] in
theorem noNs_mem (L : N.Laws Ok Strong Wide) {s : S} {e : E} (h : N.Q.mem e s = true) (hk : N.kind e ≠ .pod) : N.Q.mem e (noNs N s) = true := by
  unfold noNs
  rw [N.Q.mem_or, Bool.or_eq_true, L.ofList_iff _ _ (fun x hx => ⟨s, (List.mem_filter.1 hx).1⟩), L.ips_iff]
  by_cases hi : N.kind e = .ip
  · exact .inr ⟨h, hi⟩
  · exact .inl (List.mem_filter.2 ⟨(L.members_iff _ _).2 ⟨h, hi⟩, by simpa using hk⟩)

/-- The groupings: everything is in a pair or remains, and only reportable connections are. -/
theorem basicGrouping_ok (L : N.Laws Ok Strong Wide) (hI : ∀ e ∈ I.all, Known N e) (F : cfg.Fair) (W : Scope N I A p0) {pp cont : C} (hpp : InScope N Ok A pp)
    (hcont : InScope N Ok A cont) (ht : N.K.truthy pp = true)
    (hself : cfg.auto = true → ∀ {p q}, N.K.mem q pp = true → SelfConn N p → (N.src p = N.src q ∨ N.src p = N.dst q) → A p) :
    let g := basicGrouping N I cfg pp cont
    InScope N Ok A g.2.rest ∧ (∀ b ∈ g.1 ++ g.2.pairs, PairOk N I A b) ∧
      ∀ p, N.K.mem p pp = true → N.K.mem p g.2.rest = true ∨ ∃ b ∈ g.1 ++ g.2.pairs, PairHas N I b p := by
  obtain ⟨hcov, hle⟩ := coveredProps_ok L hpp hcont ht hself
  unfold basicGrouping
  extract_lets cov srcNs dstNs st noNsProps rest s1 s2 s3 s4
  change InScope N Ok A cov at hcov
  change ∀ p, N.K.mem p pp = true → N.K.mem p cov = true at hle
  have hst : NsInv N I Ok Strong A pp st (srcNs.flatMap (fun s => dstNs.map (fun d => (s, d)))) := fullNs_inv L hI hpp hcov srcNs dstNs
  have r1 := L.q.net.rect_strong (some (noNs N (N.srcs pp))) none .any
  have r2 := L.q.net.rect_strong none (some (noNs N (N.dsts pp))) .any
  have ro : Ok noNsProps := L.q.net.or_ok (L.q.net.strong_ok r1) (L.q.net.strong_ok r2)
  have rp : PeerOnly N.toNet noNsProps := PeerOnly.or L (L.q.net.strong_ok r1) (L.q.net.strong_ok r2) (PeerOnly.rect L _ _) (PeerOnly.rect L _ _)
  have ao := L.q.net.and_ok ro hpp.ok
  have hand := mem_and_iff L.q.net ro hpp.ok
  have hsto := L.q.net.strong_ok hst.strong
  have hor := mem_or_iff' L hsto ao
  have hsrc : ∀ p, N.K.mem p pp = true → N.kind (N.src p) = .pod → I.ns (N.src p) ∈ srcNs := fun p hp hk =>
    (F.ord _ _).2 (podNss_mem L (L.q.srcs_sup hcov.ok (hle p hp)) hk)
  have hdst : ∀ p, N.K.mem p pp = true → N.kind (N.dst p) = .pod → I.ns (N.dst p) ∈ dstNs := fun p hp hk =>
    (F.ord _ _).2 (podNss_mem L (L.q.dsts_sup hcov.ok (hle p hp)) hk)
  have hno : ∀ p, N.K.mem p pp = true → (N.kind (N.src p) ≠ .pod ∨ N.kind (N.dst p) ≠ .pod) → N.K.mem p noNsProps = true := by
    intro p hp h
    rw [mem_or_iff' L (L.q.net.strong_ok r1) (L.q.net.strong_ok r2), L.q.net.mem_rect, L.q.net.mem_rect]
    rcases h with h | h
    · left
      simpa [ProtoSel.sel] using noNs_mem L (L.q.srcs_sup hpp.ok hp) h
    · right
      simpa [ProtoSel.sel] using noNs_mem L (L.q.dsts_sup hpp.ok hp) h
  have h0 : RestInv N I Strong A rest ⟨rest, []⟩ := by
    refine ⟨L.q.net.or_strong hst.strong ao, PeerOnly.or L hsto ao hst.only (PeerOnly.and L ro hpp.ok rp hpp.only), id, by simp, .inl⟩
  have h1 : RestInv N I Strong A rest s1 := partialNs_inv L hI W hst.cov false dstNs h0
  have h2 : RestInv N I Strong A rest s2 := whenRest_inv (partialNs_inv L hI W hst.cov true srcNs) h1
  have h3 : RestInv N I Strong A rest s3 := whenRest_inv (fullBlocks_inv L W hst.cov false) h2
  have h4 : RestInv N I Strong A rest s4 := whenRest_inv (fullBlocks_inv L W hst.cov true) h3
  have hrest : ∀ p, N.K.mem p rest = true → N.K.mem p pp = true := by
    intro p hp
    rcases (hor p).1 hp with hp | hp
    · exact hst.sub hp
    · exact ((hand p).1 hp).2
  refine ⟨⟨L.q.net.strong_ok h4.strong, h4.only, fun hp => hpp.sub (hrest _ (h4.sub hp))⟩, ?_, ?_⟩
  · intro b hb
    rcases List.mem_append.1 hb with hb | hb
    · obtain ⟨l, l', rfl⟩ := nsSetPairs_nss hb
      refine ⟨nss_good l, nss_good l', fun {p} hs hd => ?_⟩
      have := (nsSetPairs_iff (N := N) (I := I) st.pairs hs.1 hd.1).1 ⟨_, hb, hs, hd⟩
      exact hst.pairs _ this hs.1 hd.1 rfl rfl
    · exact h4.pairs b hb
  · intro p hp
    have hin : N.K.mem p rest = true → N.K.mem p s4.rest = true ∨ ∃ b ∈ nsSetPairs st.pairs ++ s4.pairs, PairHas N I b p :=
      fun h => (h4.full h).imp id fun ⟨b, hb, h⟩ => ⟨b, List.mem_append.2 (.inr hb), h⟩
    by_cases hk : N.kind (N.src p) = .pod ∧ N.kind (N.dst p) = .pod
    · have ha := W.src_ep (hpp.sub hp) (by rw [hk.1]; rfl)
      have hb := W.dst_ep (hpp.sub hp) (by rw [hk.2]; rfl)
      rcases hst.full hp ha hb (List.mem_flatMap.2 ⟨_, hsrc p hp hk.1, List.mem_map.2 ⟨_, hdst p hp hk.2, rfl⟩⟩) with h | h
      · exact hin ((hor p).2 (.inl h))
      · obtain ⟨x, hx, h⟩ := (nsSetPairs_iff (S := S) (N := N) (I := I) st.pairs ha hb).2 h
        exact .inr ⟨x, List.mem_append.2 (.inl hx), h⟩
    · refine hin ((hor p).2 (.inr ((hand p).2 ⟨hno p hp ?_, hp⟩)))
      by_cases h : N.kind (N.src p) = .pod
      · exact .inr fun h' => hk ⟨h, h'⟩
      · exact .inl h

/-- The rules of one set of connection attributes. -/
theorem rulesPerProp_ok (L : N.Laws Ok Strong Wide) (hI : ∀ e ∈ I.all, Known N e) (F : cfg.Fair) (hk : ∀ key ∈ I.allowed, key ≠ []) (W : Scope N I A p0) {pp cont : C}
    (hpp : InScope N Ok A pp) (hcont : InScope N Ok A cont) (ht : N.K.truthy pp = true)
    (hself : cfg.auto = true → ∀ {p q}, N.K.mem q pp = true → SelfConn N p → (N.src p = N.src q ∨ N.src p = N.dst q) → A p)
    (k : C) (p : P) :
    (N.K.mem p pp = true → N.K.mem p k = true → ∃ r ∈ rulesPerProp N I cfg k pp cont, r.allows N.toNet I p) ∧
    ((∃ r ∈ rulesPerProp N I cfg k pp cont, r.allows N.toNet I p) → A p ∧ N.K.mem p k = true) := by
  obtain ⟨h1, h2, h3⟩ := basicGrouping_ok (I := I) L hI F W hpp hcont ht hself
  unfold rulesPerProp
  dsimp only
  generalize basicGrouping N I cfg pp cont = g at h1 h2 h3
  have hpair : ∀ b ∈ g.1 ++ g.2.pairs, ((∃ r ∈ pairRules N I cfg k b, r.allows N.toNet I p) ↔ PairHas N I b p ∧ N.K.mem p k = true) := by
    intro b hb
    rw [pairRules_allows L F hk (h2 b hb).src (h2 b hb).dst]
    exact and_assoc.symm
  have hmem : ∀ r, r ∈ g.1.flatMap (pairRules N I cfg k) ++ restRules N I cfg k g.2.rest ++ g.2.pairs.flatMap (pairRules N I cfg k) ↔
      r ∈ restRules N I cfg k g.2.rest ∨ ∃ b ∈ g.1 ++ g.2.pairs, r ∈ pairRules N I cfg k b := by
    intro r
    simp only [List.mem_append, List.mem_flatMap, or_and_right, exists_or]
    rw [or_assoc, or_left_comm]
  constructor
  · intro hp hpk
    rcases h3 p hp with h | ⟨b, hb, h⟩
    · obtain ⟨r, hr, h⟩ := (restRules_allows L F hk W h1 k p).2 ⟨h, hpk⟩
      exact ⟨r, (hmem r).2 (.inl hr), h⟩
    · obtain ⟨r, hr, h⟩ := (hpair b hb).2 ⟨h, hpk⟩
      exact ⟨r, (hmem r).2 (.inr ⟨b, hb, hr⟩), h⟩
  · rintro ⟨r, hr, h⟩
    rcases (hmem r).1 hr with hr | ⟨b, hb, hr⟩
    · obtain ⟨h4, h5⟩ := (restRules_allows L F hk W h1 k p).1 ⟨r, hr, h⟩
      exact ⟨h1.sub h4, h5⟩
    · obtain ⟨h4, h5⟩ := (hpair b hb).1 ⟨r, hr, h⟩
      exact ⟨(h2 b hb).sub h4.1 h4.2, h5⟩

/-! ### Splitting by attributes -/

/-- An entry: the connections with these attributes between these pairs of peers are in the set. -/
structure PropEntry (N : FwNet C P E S) (Ok : C → Prop) (r : ProtoSel) (c k pp : C) : Prop where
  k_ok : Ok k
  ok : Ok pp
  only : PeerOnly N.toNet pp
  ne : ∃ p, N.K.mem p pp = true
  back : ∀ {p}, N.K.mem p pp = true → ∃ q, N.src q = N.src p ∧ N.dst q = N.dst p ∧ N.K.mem q c = true
  sub : ∀ {p}, r.sel (N.isTcp p) = true → N.K.mem p pp = true → N.K.mem p k = true → N.K.mem p c = true

omit [DecidableEq E] [DecidableEq ν] in
theorem empty_or (L : N.Laws Ok Strong Wide) {a : C} (ha : Ok a) : Ok (N.K.or N.K.empty a) ∧ ∀ p, N.K.mem p (N.K.or N.K.empty a) = N.K.mem p a := by
  have he := L.q.net.strong_ok L.q.net.empty_strong
  refine ⟨L.q.net.or_ok he ha, fun p => ?_⟩
  rw [L.q.net.mem_or he ha, L.q.net.mem_empty, Bool.false_or]

omit [DecidableEq E] [DecidableEq ν] in
theorem propsToPeers_ok (L : N.Laws Ok Strong Wide) {c : C} (hc : Ok c) :
    (∀ e ∈ propsToPeers N cfg c, PropEntry N Ok cfg.rel c e.1 e.2) ∧
    ∀ {p}, cfg.rel.sel (N.isTcp p) = true → N.K.mem p c = true → ∃ e ∈ propsToPeers N cfg c, N.K.mem p e.1 = true ∧ N.K.mem p e.2 = true := by
  have he := L.q.net.strong_ok L.q.net.empty_strong
  -- The first dictionary: pairs of peers to attributes.
  have hkey : ∀ (l : List (C × C)), (∀ e ∈ l, PropEntry N Ok cfg.rel c e.2 e.1) → ∀ (d : List (C × C)),
      (∀ e ∈ d, PropEntry N Ok cfg.rel c e.2 e.1) →
      let d' := l.foldl (fun d e => dictAdd N.K.eq N.K.or N.K.empty e.1 e.2 d) d
      (∀ e ∈ d', PropEntry N Ok cfg.rel c e.2 e.1) ∧
      ∀ p, (∃ e ∈ l ++ d, N.K.mem p e.1 = true ∧ N.K.mem p e.2 = true) → ∃ e ∈ d', N.K.mem p e.1 = true ∧ N.K.mem p e.2 = true := by
    intro l
    induction l with
    | nil => intro _ d hd; exact ⟨hd, fun p h => by simpa using h⟩
    | cons x l ih =>
      intro hl d hd
      rw [List.foldl_cons]
      have hx := hl x List.mem_cons_self
      obtain ⟨h1, h2⟩ := ih (fun e he => hl e (List.mem_cons_of_mem _ he)) (dictAdd N.K.eq N.K.or N.K.empty x.1 x.2 d) (by
        refine dictAdd_inv (R := fun pp k => PropEntry N Ok cfg.rel c k pp) hd ?_ ?_
        · obtain ⟨ho, hm⟩ := empty_or L hx.k_ok
          exact ⟨ho, hx.ok, hx.only, hx.ne, hx.back, fun hr h1 h2 => hx.sub hr h1 (hm _ ▸ h2)⟩
        · intro e he' heq
          have hE := hd e he'
          refine ⟨L.q.net.or_ok hE.k_ok hx.k_ok, hE.ok, hE.only, hE.ne, hE.back, fun hr h1 h2 => ?_⟩
          rcases (mem_or_iff' L hE.k_ok hx.k_ok _).1 h2 with h2 | h2
          · exact hE.sub hr h1 h2
          · exact hx.sub hr (L.q.net.eq_sound hE.ok hx.ok heq _ ▸ h1) h2)
      refine ⟨h1, fun p hp => h2 p ?_⟩
      obtain ⟨e, he', h3, h4⟩ := hp
      rcases List.mem_append.1 he' with he' | he'
      · rcases List.mem_cons.1 he' with rfl | he'
        · obtain ⟨e', h5, h6⟩ := dictAdd_new (eq := N.K.eq) (upd := N.K.or) (init := N.K.empty) (k := e.1) (v := e.2) (d := d)
          refine ⟨e', List.mem_append.2 (.inr h5), ?_⟩
          rcases h6 with ⟨h6, h7⟩ | ⟨h6, z, hz, h7, h8⟩
          · rw [h6, h7, (empty_or L hx.k_ok).2]
            exact ⟨h3, h4⟩
          · rw [h8, mem_or_iff' L (hd z hz).k_ok hx.k_ok, L.q.net.eq_sound (h7 ▸ (hd z hz).ok) hx.ok h6]
            exact ⟨h3, .inr h4⟩
        · exact ⟨e, List.mem_append.2 (.inl he'), h3, h4⟩
      · obtain ⟨e', h5, h6, h7⟩ := dictAdd_keep (eq := N.K.eq) (upd := N.K.or) (init := N.K.empty) (k := x.1) (v := x.2) he'
        refine ⟨e', List.mem_append.2 (.inr h5), h6 ▸ h3, ?_⟩
        rcases h7 with h7 | h7 <;> rw [h7]
        · exact h4
        · exact (mem_or_iff' L (hd e he').k_ok hx.k_ok _).2 (.inl h4)
  -- The second dictionary: attributes to pairs of peers.
  have hkey2 : ∀ (l : List (C × C)), (∀ e ∈ l, PropEntry N Ok cfg.rel c e.2 e.1) → ∀ (d : List (C × C)),
      (∀ e ∈ d, PropEntry N Ok cfg.rel c e.1 e.2) →
      let d' := l.foldl (fun d e => dictAdd N.K.eq N.K.or N.K.empty e.2 e.1 d) d
      (∀ e ∈ d', PropEntry N Ok cfg.rel c e.1 e.2) ∧
      ∀ p, ((∃ e ∈ l, N.K.mem p e.1 = true ∧ N.K.mem p e.2 = true) ∨ ∃ e ∈ d, N.K.mem p e.1 = true ∧ N.K.mem p e.2 = true) →
        ∃ e ∈ d', N.K.mem p e.1 = true ∧ N.K.mem p e.2 = true := by
    intro l
    induction l with
    | nil => intro _ d hd; exact ⟨hd, fun p h => by simpa using h⟩
    | cons x l ih =>
      intro hl d hd
      rw [List.foldl_cons]
      have hx := hl x List.mem_cons_self
      obtain ⟨h1, h2⟩ := ih (fun e he => hl e (List.mem_cons_of_mem _ he)) (dictAdd N.K.eq N.K.or N.K.empty x.2 x.1 d) (by
        refine dictAdd_inv (R := fun k pp => PropEntry N Ok cfg.rel c k pp) hd ?_ ?_
        · obtain ⟨ho, hm⟩ := empty_or L hx.ok
          refine ⟨hx.k_ok, ho, ?_, ?_, fun h => hx.back (hm _ ▸ h), fun hr h1 h2 => hx.sub hr (hm _ ▸ h1) h2⟩
          · intro p q h3 h4
            rw [hm, hm]
            exact hx.only p q h3 h4
          · obtain ⟨p, hp⟩ := hx.ne
            exact ⟨p, (hm p).trans hp⟩
        · intro e he' heq
          have hE := hd e he'
          have hm := mem_or_iff' L hE.ok hx.ok
          refine ⟨hE.k_ok, L.q.net.or_ok hE.ok hx.ok, PeerOnly.or L hE.ok hx.ok hE.only hx.only, ?_, ?_, ?_⟩
          · obtain ⟨p, hp⟩ := hx.ne
            exact ⟨p, (hm p).2 (.inr hp)⟩
          · intro p hp
            exact ((hm p).1 hp).elim hE.back hx.back
          · intro p hr h1 h2
            rcases (hm p).1 h1 with h1 | h1
            · exact hE.sub hr h1 h2
            · exact hx.sub hr h1 (L.q.net.eq_sound hE.k_ok hx.k_ok heq _ ▸ h2))
      refine ⟨h1, fun p hp => h2 p ?_⟩
      rcases hp with ⟨e, he', h3, h4⟩ | ⟨e, he', h3, h4⟩
      · rcases List.mem_cons.1 he' with rfl | he'
        · obtain ⟨e', h5, h6⟩ := dictAdd_new (eq := N.K.eq) (upd := N.K.or) (init := N.K.empty) (k := e.2) (v := e.1) (d := d)
          refine .inr ⟨e', h5, ?_⟩
          rcases h6 with ⟨h6, h7⟩ | ⟨h6, z, hz, h7, h8⟩
          · rw [h6, h7, (empty_or L hx.ok).2]
            exact ⟨h4, h3⟩
          · rw [h8, mem_or_iff' L (hd z hz).ok hx.ok, L.q.net.eq_sound (h7 ▸ (hd z hz).k_ok) hx.k_ok h6]
            exact ⟨h4, .inr h3⟩
        · exact .inl ⟨e, he', h3, h4⟩
      · obtain ⟨e', h5, h6, h7⟩ := dictAdd_keep (eq := N.K.eq) (upd := N.K.or) (init := N.K.empty) (k := x.2) (v := x.1) he'
        refine .inr ⟨e', h5, h6 ▸ h3, ?_⟩
        rcases h7 with h7 | h7 <;> rw [h7]
        · exact h4
        · exact (mem_or_iff' L (hd e he').ok hx.ok _).2 (.inl h4)
  have hs : ∀ e ∈ N.split cfg.rel c, PropEntry N Ok cfg.rel c e.2 e.1 := by
    intro e he'
    obtain ⟨h1, h2, h3, h4⟩ := L.split_ok hc he'
    exact ⟨h2, h1, h3, h4, fun h => L.split_back hc he' h, fun hr h5 h6 => (L.split_iff hc hr).2 ⟨e, he', h5, h6⟩⟩
  obtain ⟨h1, h2⟩ := hkey (N.split cfg.rel c) hs [] (by simp)
  obtain ⟨h3, h4⟩ := hkey2 _ h1 [] (by simp)
  refine ⟨h3, fun {p} hr hp => h4 p (.inl (h2 p ?_))⟩
  obtain ⟨e, he', h5, h6⟩ := (L.split_iff hc hr).1 hp
  exact ⟨e, by simpa using he', h5, h6⟩

/-! ### C37 -/

/-- C37 (every connection is in a rule, and the rules allow nothing else).  For connections `c` whose workloads are in
the cluster and that go from addresses to workloads only (as all connections of a connectivity map do), if there are
addresses and workloads at all: a connection of a relevant protocol is in `c` iff some rule allows it; with the option of
connections of a workload to itself, the rules may allow also such connections. -/
theorem C37_rules (L : N.Laws Ok Strong Wide) (hI : ∀ e ∈ I.all, Known N e) (F : cfg.Fair) (hk : ∀ key ∈ I.allowed, key ≠ []) {c : C} (hc : Ok c)
    (hsrc : ∀ p, N.K.mem p c = true → (N.kind (N.src p)).isEp = true → N.src p ∈ I.all)
    (hdst : ∀ p, N.K.mem p c = true → (N.kind (N.dst p)).isEp = true → N.dst p ∈ I.all)
    (hext : ∀ p, N.K.mem p c = true → N.kind (N.src p) = .ip → (N.kind (N.dst p)).isEp = true)
    (hip : ∃ p0, N.kind (N.src p0) = .ip ∧ N.kind (N.dst p0) = .ip) (hep : ∃ q, (N.kind (N.src q)).isEp = true)
    (p : P) (hr : cfg.rel.sel (N.isTcp p) = true) :
    (N.K.mem p c = true → ∃ r ∈ fwRules N I cfg c, r.allows N.toNet I p) ∧
    ((∃ r ∈ fwRules N I cfg c, r.allows N.toNet I p) → N.K.mem p c = true ∨ (cfg.auto = true ∧ SelfConn N p)) := by
  obtain ⟨p0, h01, h02⟩ := hip
  obtain ⟨hE, hfull⟩ := propsToPeers_ok (cfg := cfg) L hc
  unfold fwRules
  dsimp only
  have hd : ∀ e, e ∈ cfg.ord (propsToPeers N cfg c) ↔ e ∈ propsToPeers N cfg c := fun e => F.ord _ e
  generalize cfg.ord (propsToPeers N cfg c) = d at hd
  have hE : ∀ e ∈ d, PropEntry N Ok cfg.rel c e.1 e.2 := fun e he => hE e ((hd e).1 he)
  have he := L.q.net.strong_ok L.q.net.empty_strong
  -- The union of the pairs of peers with more attributes.
  have hcont : ∀ k, Ok k → Ok (containing N d k) ∧ PeerOnly N.toNet (containing N d k) ∧
      ∀ p, N.K.mem p (containing N d k) = true → ∃ e ∈ d, N.K.mem p e.2 = true ∧ ∀ p, N.K.mem p k = true → N.K.mem p e.1 = true := by
    intro k hko
    unfold containing
    refine foldl_inv (R := fun x => Ok x ∧ PeerOnly N.toNet x ∧
      ∀ p, N.K.mem p x = true → ∃ e ∈ d, N.K.mem p e.2 = true ∧ ∀ p, N.K.mem p k = true → N.K.mem p e.1 = true) d ?_ _
      ⟨he, PeerOnly.empty L, fun p h => by simp [L.q.net.mem_empty] at h⟩
    intro e hed x hx
    split
    · rename_i hcond
      rw [Bool.and_eq_true] at hcond
      have hEe := hE e hed
      refine ⟨L.q.net.or_ok hx.1 hEe.ok, PeerOnly.or L hx.1 hEe.ok hx.2.1 hEe.only, fun p hp => ?_⟩
      rcases (mem_or_iff' L hx.1 hEe.ok p).1 hp with hp | hp
      · exact hx.2.2 p hp
      · exact ⟨e, hed, hp, (L.q.net.contained_iff hko hEe.k_ok).1 hcond.2⟩
    · exact hx
  -- The rules of one entry.
  have hone : ∀ e ∈ d, (N.K.mem p e.2 = true → N.K.mem p e.1 = true → ∃ r ∈ rulesPerProp N I cfg e.1 e.2 (containing N d e.1), r.allows N.toNet I p) ∧
      ((∃ r ∈ rulesPerProp N I cfg e.1 e.2 (containing N d e.1), r.allows N.toNet I p) → N.K.mem p c = true ∨ (cfg.auto = true ∧ SelfConn N p)) := by
    intro e hed
    have hEe := hE e hed
    obtain ⟨hco, hcp, hcm⟩ := hcont e.1 hEe.k_ok
    let ends : P → Prop := fun p => ((N.kind (N.src p)).isEp = true → N.src p ∈ I.all) ∧ ((N.kind (N.dst p)).isEp = true → N.dst p ∈ I.all) ∧
      (N.kind (N.src p) = .ip → (N.kind (N.dst p)).isEp = true)
    have hends : ∀ x ∈ d, ∀ {p}, N.K.mem p x.2 = true → ends p := by
      intro x hx p hp
      obtain ⟨q, hq1, hq2, hq⟩ := (hE x hx).back hp
      refine ⟨fun h => ?_, fun h => ?_, fun h => ?_⟩
      · rw [← hq1] at h ⊢
        exact hsrc q hq h
      · rw [← hq2] at h ⊢
        exact hdst q hq h
      · rw [← hq1] at h
        rw [← hq2]
        exact hext q hq h
    let A : P → Prop := fun p => ends p ∧ (N.K.mem p e.2 = true ∨ N.K.mem p (containing N d e.1) = true ∨ (cfg.auto = true ∧ SelfConn N p))
    have W : Scope N I A p0 := by
      refine ⟨?_, fun h => h.1.1, fun h => h.1.2.1, fun h => h.1.2.2, h01, h02, hep⟩
      intro x y h1 h2 hA
      refine ⟨?_, ?_⟩
      · have := hA.1
        simp only [ends] at this ⊢
        rw [← h1, ← h2]
        exact this
      · have := hA.2
        rw [hEe.only x y h1 h2, hcp x y h1 h2, SelfConn, h1, h2] at this
        exact this
    have h1 := rulesPerProp_ok (I := I) (A := A) (p0 := p0) L hI F hk W (pp := e.2) (cont := containing N d e.1)
      ⟨hEe.ok, hEe.only, fun h => ⟨hends e hed h, .inl h⟩⟩
      ⟨hco, hcp, fun {p} h => ⟨by obtain ⟨x, hx, h1, -⟩ := hcm p h; exact hends x hx h1, .inr (.inl h)⟩⟩
      ((L.q.net.truthy_iff hEe.ok).2 hEe.ne)
      (by
        intro ha x q hq hs hxq
        have hen := hends e hed hq
        refine ⟨⟨fun _ => ?_, fun _ => ?_, fun _ => hs.1 ▸ hs.2⟩, .inr (.inr ⟨ha, hs⟩)⟩
        · have := hs.2
          rcases hxq with h | h
          · rw [h] at this ⊢; exact hen.1 this
          · rw [h] at this ⊢; exact hen.2.1 this
        · have := hs.2
          rw [← hs.1]
          rcases hxq with h | h
          · rw [h] at this ⊢; exact hen.1 this
          · rw [h] at this ⊢; exact hen.2.1 this)
      e.1 p
    refine ⟨h1.1, fun h => ?_⟩
    obtain ⟨⟨-, hA⟩, hpk⟩ := h1.2 h
    rcases hA with h | h | h
    · exact .inl (hEe.sub hr h hpk)
    · obtain ⟨x, hx, h2, h3⟩ := hcm p h
      exact .inl ((hE x hx).sub hr h2 (h3 p hpk))
    · exact .inr h
  constructor
  · intro hp
    obtain ⟨e, hed, h1, h2⟩ := hfull hr hp
    have hed := (hd e).2 hed
    obtain ⟨r, hr', h⟩ := (hone e hed).1 h2 h1
    refine ⟨r, List.mem_flatMap.2 ⟨e, hed, ?_⟩, h⟩
    rw [if_pos ((L.q.net.truthy_iff (hE e hed).k_ok).2 ⟨p, h1⟩)]
    exact hr'
  · rintro ⟨r, hr', h⟩
    obtain ⟨e, hed, hr'⟩ := List.mem_flatMap.1 hr'
    split at hr'
    · exact (hone e hed).2 ⟨r, hr', h⟩
    · simp at hr'

end
end Verif.Fw
