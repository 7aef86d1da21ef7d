import Verif.DomChange
import Verif.PropsK8sParse
/-!
The rules of Kubernetes policies in the domain of a query.

Policies are parsed with the default domain of the peer dimensions; a query sets the domain to the peers of its
configurations and reduces the connection sets of all rules (`reorganize_props_by_new_domains`, NetworkPolicy.py
189-204).  The parsed sets are in canonical form (`Flat`), so the reduced ones are legal sets of the same connections.
-/
namespace Verif
open ISet

section
variable {V2 X2 : Type} {A2 : VAlg Dim V2 X2} {W2 : Dim → V2 → Prop} {B : PeerDom} {ord : SetOrder} {rg : PodReg}

/-- A legal set in canonical form without connections from the peer of index `z`. -/
structure Flat (A2 : VAlg Dim V2 X2) (W2 : Dim → V2 → Prop) (B : PeerDom) (z : Int) (h : HC Dim (ISet ⊕ V2)) : Prop where
  strong : HcStrongT (connA A2 B) (connWf W2 B) allDims h
  plain : HC.Plain (connA A2 B) h
  misses : ∀ p, InDom (connA A2 B) p → p .srcPeers = .inl z → ¬ h.Pt (connA A2 B) p

theorem Flat.inv {z : Int} {h : HC Dim (ISet ⊕ V2)} (f : Flat A2 W2 B z h) : HC.Inv (connA A2 B) (connWf W2 B) allDims h := f.strong.1.1

variable (L2 : A2.Lawful W2)
include L2

theorem flat_empty (z : Int) : Flat A2 W2 B z (HC.empty allDims true) where
  strong := (connNet_lawful L2 B).1.net.empty_strong
  plain := by
    have := HC.empty_can (A := connA A2 B) allDims allDims_ne
    exact ⟨rfl, this.can, this.red⟩
  misses := fun p _ _ => HC.falsy_pt (HC.empty_inv (V := ISet ⊕ V2) (connA_lawful B L2) allDims allDims_ne true).2 p

theorem flat_or {z : Int} (hz : Mem z B.idx) {a b : HC Dim (ISet ⊕ V2)} (fa : Flat A2 W2 B z a) (fb : Flat A2 W2 B z b) :
    Flat A2 W2 B z (HC.or (connA A2 B) allDims a b) where
  strong := (connNet_lawful L2 B).1.net.or_strong fa.strong ((connNet_lawful L2 B).1.net.strong_ok fb.strong)
  plain := by
    have head : ∀ {h : HC Dim (ISet ⊕ V2)}, Flat A2 W2 B z h → h.truthy = true → h.act.head? = allDims.head? := by
      intro h f ht
      refine HC.head_of_active (d := .srcPeers) allDims_nodup rfl f.inv.sub ?_
      exact HC.active_of_misses (connA_lawful B L2) allDims_nodup f.inv (x := .inl z) ((mem_inl A2 B z _ B.canon).2 hz) f.misses ht
    exact HC.or_plain (connA_lawful B L2) allDims_nodup allDims_ne fa.inv fb.inv fa.plain fb.plain (head fa) (head fb)
  misses := by
    intro p hp hs h
    rcases ((HC.or_spec (connA_lawful B L2) allDims_nodup fa.inv fb.inv).2.1 p hp).1 h with h | h
    · exact fa.misses p hp hs h
    · exact fb.misses p hp hs h

/-- The difference of two such sets. -/
theorem flat_sub {z : Int} (hz : Mem z B.idx) {a b : HC Dim (ISet ⊕ V2)} (fa : Flat A2 W2 B z a) (fb : Flat A2 W2 B z b) :
    Flat A2 W2 B z (HC.sub (connA A2 B) allDims a b) := by
  have la := (connNet_lawful L2 B).1
  have head : ∀ {h : HC Dim (ISet ⊕ V2)}, Flat A2 W2 B z h → h.truthy = true → h.act.head? = allDims.head? := by
    intro h f ht
    refine HC.head_of_active (d := .srcPeers) allDims_nodup rfl f.inv.sub ?_
    exact HC.active_of_misses (connA_lawful B L2) allDims_nodup f.inv (x := .inl z) ((mem_inl A2 B z _ B.canon).2 hz) f.misses ht
  have ha : a.act.head? = allDims.head? := by
    rcases fa.strong.1.2 with h | h
    · exact head fa h
    · exact h
  refine ⟨?_, HC.sub_plain (connA_lawful B L2) allDims_nodup allDims_ne fa.inv fb.inv fa.plain fb.plain ha (head fb), ?_⟩
  · change HcStrongT _ _ _ ((connNet L2 B).K.sub a b)
    by_cases ht : (connNet L2 B).K.truthy b = true
    · refine la.sub_wide fa.strong (la.net.strong_ok fb.strong) (Or.inr ?_)
      obtain ⟨p, hpm⟩ := (la.net.truthy_iff (la.net.strong_ok fb.strong)).1 ht
      let q : Point (connA A2 B) := ⟨fun d => if d = .srcPeers then .inl z else p.1 d, fun d => by
        by_cases hd : d = .srcPeers
        · subst hd
          dsimp only
          rw [if_pos rfl]
          exact (mem_inl A2 B z _ B.canon).2 hz
        · dsimp only; rw [if_neg hd]; exact p.2 d⟩
      obtain ⟨t, ht1, ht2, ht3, ht4⟩ := la.splice p q
      refine ht4 (la.net.strong_ok fb.strong) hpm ?_
      rw [← Bool.not_eq_true]
      exact fun h => fb.misses t.1 t.2 ht1 ((HC.contains_spec fb.inv t.1).1 h)
    · rw [la.net.sub_falsy (by simpa using ht)]; exact fa.strong
  · intro p hp hs h
    have hsafe : HC.SubSafe allDims a b := by
      rcases fa.strong.1.2 with h | h
      · exact Or.inl h
      · right
        rw [ha]
        have : Dim.srcPeers ∈ a.act := List.mem_of_mem_head? (by rw [ha]; rfl)
        unfold HC.common allDims
        rw [List.filter_cons_of_pos (by simp [this])]
        rfl
    exact fa.misses p hp hs (((HC.sub_spec (connA_lawful B L2) allDims_nodup allDims_ne fa.inv fb.inv hsafe).2.1 p hp).1 h).1

theorem flat_cube {z : Int} {v : Dim → ISet ⊕ V2} (hv : ∀ d, connWf W2 B d (v d)) (hz : (connA A2 B).mem (.inl z) (v .srcPeers) = false) :
    Flat A2 W2 B z (hcOfCube (connA A2 B) allDims v) where
  strong := (ofCube_spec L2 hv).1
  plain := hcOfCube_plain (connA_lawful B L2) allDims_nodup allDims_ne v (fun d _ => hv d)
  misses := by
    intro p hp hs h
    have h1 := (ofCube_spec L2 hv).1.1.1
    have := ((ofCube_spec L2 hv).2 ⟨p, hp⟩).1 ((HC.contains_spec h1 p).2 h) .srcPeers (by decide)
    dsimp only at this
    rw [hs, hz] at this
    cases this

theorem destStep_flat (hr : Base.Reach rg.keys) (hp : ∀ k, LegalPorts (rg.named k)) {c : ConnCube V2} (hc : c.Legal W2 B)
    {z : Int} (hz : Mem z B.idx) (hzc : ¬ Mem z (c.ints .srcPeers)) {res res' : HC Dim (ISet ⊕ V2)} (f : Flat A2 W2 B z res)
    {k : String} {n : Nat} (hk : rg.keys[n]? = some k) (hin : Mem (minPodIndex + n) (c.ints .dstPeers))
    (h : destStep A2 B ord rg c res (.pod k) = some res') : Flat A2 W2 B z res' := by
  obtain ⟨one, e1, ho, hone⟩ := single_index hr hk
  have hpc := (hc.ints (d := .protocols) rfl).2.1
  obtain ⟨r, e2, rc, rd, rb, rm⟩ := resolve_spec (B := B) (ord := ord) (hp k) hpc c.named
  obtain ⟨x, e3, xc, xd, xb, xm⟩ := resolve_spec (B := B) (ord := ord) (hp k) hpc c.excluded
  have fl : ∀ ps : PortSet, (connWf W2 B .dstPorts (.inl ps.ports)) → Flat A2 W2 B z (hcOfCube (connA A2 B) allDims (c.at one ps).val) := by
    intro ps hps
    refine flat_cube L2 ?_ ?_
    · intro d
      rw [at_val]
      split
      · rename_i h; subst h
        refine ⟨rfl, ho, fun x hx => ?_⟩
        rw [hone] at hx; subst hx
        exact (hc.ints (d := .dstPeers) rfl).2.2 _ hin
      · split
        · rename_i h; subst h; exact hps
        · exact hc d
    · rw [at_val, if_neg (by decide), if_neg (by decide), ← Bool.not_eq_true, (hc.ints (d := .srcPeers) rfl).1]
      exact fun h => hzc ((mem_inl A2 B z _ (hc.ints (d := .srcPeers) rfl).2.1).1 h)
  unfold destStep namedOf at h
  rw [e1] at h
  simp only [Option.bind_eq_bind, Option.bind_some, e2, e3, Option.pure_def, Option.some.injEq] at h
  subst h
  have f1 : Flat A2 W2 B z (if r.toBool then HC.or (connA A2 B) allDims res (hcOfCube (connA A2 B) allDims (c.at one r).val) else res) := by
    split
    · exact flat_or L2 hz f (fl r ⟨rfl, rc, rd⟩)
    · exact f
  split
  · exact flat_sub L2 hz f1 (fl x ⟨rfl, xc, xd⟩)
  · exact f1

omit L2 in
theorem destStep_ip (hr : Base.Reach rg.keys) {c : ConnCube V2} {res : HC Dim (ISet ⊕ V2)} {b : IpBlock} (hb : PeerSet.Ok ([.ip b] : PeerSet String)) :
    destStep A2 B ord rg c res (.ip b) = some res := by
  obtain ⟨one, h1⟩ := (Base.C22_to_indices_defined hr hb).2 (fun k' hk' => by
    unfold PeerSet.HasPod at hk'; simp at hk')
  unfold destStep namedOf
  rw [h1]
  simp only [Option.bind_eq_bind, Option.bind_some, resolve_nil, Option.pure_def]
  rfl

theorem destFold_flat (hr : Base.Reach rg.keys) (hp : ∀ k, LegalPorts (rg.named k)) {c : ConnCube V2} (hc : c.Legal W2 B)
    {z : Int} (hz : Mem z B.idx) (hzc : ¬ Mem z (c.ints .srcPeers))
    (dst : PeerSet String) (hok : dst.Ok)
    (hdst : ∀ k, dst.HasPod k → ∃ n : Nat, rg.keys[n]? = some k ∧ Mem (minPodIndex + n) (c.ints .dstPeers))
    {res res' : HC Dim (ISet ⊕ V2)} (f : Flat A2 W2 B z res) (h : dst.foldlM (destStep A2 B ord rg c) res = some res') : Flat A2 W2 B z res' := by
  induction dst generalizing res with
  | nil => cases h; exact f
  | cons e dst ih =>
    have hok' : PeerSet.Ok dst := fun b hb => hok b (List.mem_cons_of_mem _ hb)
    have hdst' : ∀ k, PeerSet.HasPod dst k → _ := fun k hk => hdst k (List.mem_cons_of_mem _ hk)
    rw [List.foldlM_cons, Option.bind_eq_bind, Option.bind_eq_some_iff] at h
    obtain ⟨r, hr1, h⟩ := h
    cases e with
    | pod k =>
      obtain ⟨n, hk, hin⟩ := hdst k (by simp [PeerSet.HasPod])
      exact ih hok' hdst' (destStep_flat L2 hr hp hc hz hzc f hk hin hr1) h
    | ip b =>
      rw [destStep_ip hr (fun b' hb' => by rw [List.mem_singleton] at hb'; cases hb'; exact hok b (by simp))] at hr1
      cases hr1
      exact ih hok' hdst' f h

theorem makeConnProps_flat (hr : Base.Reach rg.keys) (hp : ∀ k, LegalPorts (rg.named k)) {c : ConnCube V2} (hc : c.Legal W2 B)
    (hv : ∀ z, Mem z (c.ints .dstPeers) → (∃ x : Ip, z = x.idx) ∨ ∃ n : Nat, n < rg.keys.length ∧ z = minPodIndex + n)
    {z : Int} (hz : Mem z B.idx) (hzc : ¬ Mem z (c.ints .srcPeers)) {h : HC Dim (ISet ⊕ V2)}
    (hh : makeConnProps A2 B ord rg c = some h) : Flat A2 W2 B z h := by
  have hcube : Flat A2 W2 B z (hcOfCube (connA A2 B) allDims c.val) := by
    refine flat_cube L2 hc ?_
    rw [← Bool.not_eq_true, (hc.ints (d := .srcPeers) rfl).1]
    exact fun h => hzc ((mem_inl A2 B z _ (hc.ints (d := .srcPeers) rfl).2.1).1 h)
  unfold makeConnProps at hh
  split at hh
  · cases hh; exact hcube
  · have ed := hc.ints (d := .dstPeers) rfl
    obtain ⟨dst, e1, dok, _, dpod⟩ := Base.C22_from_indices_exact_partial ed.2.1 (Base.valid_dom hr hv) (Base.valid_start ed.2.1 hv)
    simp only [e1, Option.bind_eq_bind, Option.bind_some] at hh
    refine destFold_flat L2 hr hp hc hz hzc dst dok (fun k hk => (dpod k).1 hk) ?_ hh
    split
    · exact hcube
    · exact flat_empty L2 z

theorem makeFromDict_flat (hr : Base.Reach rg.keys) (hp : ∀ k, LegalPorts (rg.named k)) {S D : PeerSet String} {T : Option ISet} {P : Option PortSet}
    (hd : ConnDict.Legal X2 rg.keys B ⟨some S, some D, T, P⟩)
    {z : Int} (hz : Mem z B.idx) (hzS : ¬ PeerSet.At (X2 := X2) rg.keys S (.inl z)) {h : HC Dim (ISet ⊕ V2)}
    (hh : makeFromDict A2 B ord rg ⟨some S, some D, T, P⟩ = some h) : Flat A2 W2 B z h := by
  have la := connA_lawful B L2
  obtain ⟨vS, eS, wS, _, iS⟩ := peerDim_spec (A2 := A2) (W2 := W2) hr (x := .srcPeers) (Or.inl rfl) (fun Z hZ => hd.peers Z (Or.inl hZ))
  obtain ⟨vD, eD, wD, _, iD⟩ := peerDim_spec (A2 := A2) (W2 := W2) hr (x := .dstPeers) (Or.inr rfl) (fun Z hZ => hd.peers Z (Or.inr hZ))
  have ec : ConnCube.ofDict A2 B rg ⟨some S, some D, T, P⟩ = some (dictCube A2 B vS vD T P) := by
    rw [ofDict_eq]
    dsimp only at eS eD
    rw [eS, eD]; rfl
  have hc : (dictCube A2 B vS vD T P).Legal W2 B := by
    intro y
    unfold dictCube
    dsimp only
    split
    · rename_i h; subst h
      cases P with
      | none => exact la.wf_dom _
      | some P => exact ⟨rfl, (hd.ports P rfl).1, fun z hz => mem_singleton.2 ((hd.ports P rfl).2 z hz)⟩
    · split
      · rename_i h; subst h
        cases T with
        | none => exact la.wf_dom _
        | some l => exact ⟨rfl, (hd.protocols l rfl).1, fun z hz => mem_singleton.2 ((hd.protocols l rfl).2 z hz)⟩
      · split
        · rename_i h; subst h; exact wD
        · split
          · rename_i h; subst h; exact wS
          · exact la.wf_dom _
  obtain ⟨lS, hlS, mS⟩ := iS S rfl
  obtain ⟨lD, hlD, mD⟩ := iD D rfl
  subst hlS hlD
  unfold makeFromDict at hh
  rw [ec, Option.bind_some] at hh
  refine makeConnProps_flat L2 hr hp hc ?_ hz ?_ hh
  · intro y hy
    rcases (mD y).1 hy with ⟨x, hx, _⟩ | ⟨n, k, hn, hk, _⟩
    · cases hx; exact Or.inl ⟨x, rfl⟩
    · cases hn; exact Or.inr ⟨n, (List.getElem?_eq_some_iff.1 hk).1, rfl⟩
  · exact fun h => hzS ((mS z).1 h)

/-! ### Change of the domain -/

omit L2 in
theorem inDom_default {p : Dim → Int ⊕ X2} (hp : InDom (connA A2 B) p) : InDom (connA A2 PeerDom.default) p := by
  intro d
  have := hp d
  cases d <;> try exact this
  all_goals
    cases hx : p _ with
    | inl z =>
      rw [hx] at this
      exact (mem_inl A2 _ z _ PeerDom.default.canon).2 (B.sub z ((mem_inl A2 B z _ B.canon).1 this))
    | inr x => rw [hx] at this; cases this

/-- A connection over the peers of a query, as one over all peers. -/
def Point.toDefault (p : Point (connA A2 B)) : Point (connA A2 PeerDom.default) := ⟨p.1, inDom_default p.2⟩

omit L2 in
theorem inDom_query {p : Dim → Int ⊕ X2} (hp : InDom (connA A2 PeerDom.default) p)
    (h1 : ∀ z, p .srcPeers = .inl z → Mem z B.idx) (h2 : ∀ z, p .dstPeers = .inl z → Mem z B.idx) : InDom (connA A2 B) p := by
  intro d
  have := hp d
  cases d <;> try exact this
  · rcases e : p .srcPeers with z | x
    · exact (mem_inl A2 B z _ B.canon).2 (h1 z e)
    · rw [e] at this; cases this
  · rcases e : p .dstPeers with z | x
    · exact (mem_inl A2 B z _ B.canon).2 (h2 z e)
    · rw [e] at this; cases this

/-- A connection between peers of a query. -/
def Point.toDom (p : Point (connA A2 PeerDom.default)) (h1 : ∀ z, p.1 .srcPeers = .inl z → Mem z B.idx)
    (h2 : ∀ z, p.1 .dstPeers = .inl z → Mem z B.idx) : Point (connA A2 B) := ⟨p.1, inDom_query p.2 h1 h2⟩

/-- A set made with the default domain whose connections are between peers of the query, reduced by the query: a legal
set of the same connections. -/
theorem query_reduce {h : HC Dim (ISet ⊕ V2)} (hs : HcStrongT (connA A2 PeerDom.default) (connWf W2 PeerDom.default) allDims h)
    (hpl : (∃ z, Mem z Base.all ∧ ¬ Mem z B.idx) → HC.Plain (connA A2 PeerDom.default) h)
    (hin : ∀ p : Point (connA A2 PeerDom.default), (connNet L2 PeerDom.default).K.mem p h = true → ∀ z,
      p.1 .srcPeers = .inl z ∨ p.1 .dstPeers = .inl z → Mem z B.idx) :
    HcStrongT (connA A2 B) (connWf W2 B) allDims (HC.reduce (connA A2 B) allDims h) ∧
    ∀ p : Point (connA A2 B), (connNet L2 B).K.mem p (HC.reduce (connA A2 B) allDims h) = true ↔
      (connNet L2 PeerDom.default).K.mem p.toDefault h = true := by
  have i := hs.1.1
  have Ld := connA_lawful PeerDom.default L2
  have LB := connA_lawful B L2
  have hpt : ∀ p : Point (connA A2 PeerDom.default), (connNet L2 PeerDom.default).K.mem p h = true ↔ h.Pt (connA A2 PeerDom.default) p.1 :=
    fun p => HC.contains_spec i p.1
  have core : HC.Inv (connA A2 B) (connWf W2 B) allDims (HC.reduce (connA A2 B) allDims h) ∧
      ∀ p, InDom (connA A2 B) p → ((HC.reduce (connA A2 B) allDims h).Pt (connA A2 B) p ↔ h.Pt (connA A2 PeerDom.default) p) := by
    by_cases hB : ∃ z, Mem z Base.all ∧ ¬ Mem z B.idx
    · have := HC.rebase (A := connA A2 PeerDom.default) (dom := (connA A2 B).dom) (Wf' := connWf W2 B) LB allDims_nodup i (hpl hB) ?_
      · exact ⟨this.1, this.2.1⟩
      · intro d v hv
        have hwf : connWf W2 PeerDom.default d v := wfT_vals i.wf hv
        have hval : (d = .srcPeers ∨ d = .dstPeers) → ∀ l, v = .inl l → Canonical l → ∀ z, Mem z l → Mem z B.idx := by
          rintro hd l rfl hl z hz
          obtain ⟨p0, hp0⟩ := exists_inDom Ld
          obtain ⟨p, h1, h2, _, h4⟩ := exists_den_val Ld (allDims_nodup.sublist i.sub) i.wf i.ne hv ((mem_inl A2 PeerDom.default z l hl).2 hz) p0 hp0
          refine hin ⟨p, h1⟩ ((hpt ⟨p, h1⟩).2 h4) z ?_
          rcases hd with rfl | rfl
          · exact Or.inl h2
          · exact Or.inr h2
        rcases v with l | v
        · cases d <;> first
            | exact hwf
            | exact ⟨rfl, hwf.2.1, hval (Or.inl rfl) l rfl hwf.2.1⟩
            | exact ⟨rfl, hwf.2.1, hval (Or.inr rfl) l rfl hwf.2.1⟩
        · exact hwf
    · have e : B.idx = Base.all := by
        refine canonical_ext _ _ B.canon Base.all_canonical (fun z => ⟨B.sub z, fun hz => ?_⟩)
        by_contra hc
        exact hB ⟨z, hz, hc⟩
      obtain ⟨idx, b1, b2, b3⟩ := B
      dsimp only at e
      subst e
      have r := HC.reduce_spec Ld allDims_nodup h i.sub i.wf i.ne i.one
      exact ⟨r.1, r.2.1⟩
  refine ⟨⟨⟨core.1, ?_⟩, ?_⟩, fun p => ?_⟩
  · by_cases ht : h.truthy = true
    · left
      obtain ⟨p, hp, hm⟩ := (HC.truthy_iff Ld allDims_nodup i).1 ht
      have hpB : InDom (connA A2 B) p := by
        have hx := hin ⟨p, hp⟩ ((hpt ⟨p, hp⟩).2 hm)
        exact inDom_query hp (fun z hz => hx z (Or.inl hz)) (fun z hz => hx z (Or.inr hz))
      exact (HC.truthy_iff LB allDims_nodup core.1).2 ⟨p, hpB, (core.2 p hpB).2 hm⟩
    · have hf : h.truthy = false := by simpa using ht
      rw [HC.reduce_falsy _ hf]
      exact hs.1.2
  · rw [reduce_cls]; exact hs.2
  · refine (HC.contains_spec core.1 p.1).trans ((core.2 p.1 p.2).trans (hpt p.toDefault).symm)

end

namespace K8sParser
open Container PeerSet

section
variable {V2 X2 : Type} {A2 : VAlg Dim V2 X2} {W2 : Dim → V2 → Prop} {B : PeerDom} {ord : SetOrder} {rg : PodReg} {c : Container}

/-- The domain holds all addresses and all peers of the cluster. -/
def Covers (rg : PodReg) (c : Container) (B : PeerDom) : Prop :=
  ∀ (z : Int) (E : End), E.At (X2 := Empty) rg c (.inl z) → Mem z B.idx

theorem at_empty {z : Int} {E : End} (h : E.At (X2 := X2) rg c (.inl z)) : E.At (X2 := Empty) rg c (.inl z) := by
  cases E with
  | ip x => have h : (Sum.inl z : Int ⊕ X2) = .inl x.idx := h; cases h; rfl
  | peer p =>
    obtain ⟨hp, n, k, hn, hk, he⟩ := h
    cases hn
    exact ⟨hp, n, k, rfl, hk, he⟩

/-- Sets of addresses and peers of the cluster are within the domain. -/
theorem Covers.at (hB : Covers rg c B) {S : PeerSet String} (hS : ∀ k, S.HasPod k → ∃ p ∈ c, p.elem = .pod k)
    {z : Int} (h : S.At (X2 := X2) rg.keys (.inl z)) : Mem z B.idx := by
  rcases h with ⟨x, hx, _⟩ | ⟨n, k, hn, hk, h⟩
  · cases hx; exact hB _ (.ip x) rfl
  · cases hn
    obtain ⟨p, hp, he⟩ := hS k h
    exact hB _ (.peer p) ⟨hp, n, k, rfl, hk, he⟩

variable (L2 : A2.Lawful W2)
include L2

theorem portStep_flat (hC : Cluster rg c) (hB : Covers rg c B) {z : Int} (hz : Mem z Base.all) (hzB : ¬ Mem z B.idx)
    {S D : PeerSet String} (hS : S.Ok ∧ ∀ k, S.HasPod k → ∃ p ∈ c, p.elem = .pod k)
    (hD : D.Ok ∧ ∀ k, D.HasPod k → ∃ p ∈ c, p.elem = .pod k) {res h : HC Dim (ISet ⊕ V2)} {pt : PolicyPort}
    (hres : Flat A2 W2 PeerDom.default z res)
    (hh : portStep A2 PeerDom.default ord rg S D res pt = some h) : Flat A2 W2 PeerDom.default z h := by
  unfold portStep at hh
  rw [Option.bind_eq_bind, Option.bind_eq_some_iff] at hh
  obtain ⟨⟨pr, P⟩, hpp, hh⟩ := hh
  rw [Option.bind_eq_bind, Option.bind_eq_some_iff] at hh
  obtain ⟨m, hm, hh⟩ := hh
  split at hh
  · rw [Option.bind_eq_bind, Option.bind_eq_some_iff] at hh
    obtain ⟨T, hT, hh⟩ := hh
    obtain ⟨rfl, hm1, hm2⟩ := single_protocol hT
    unfold parsePort at hpp
    rw [Option.bind_eq_bind, Option.bind_eq_some_iff] at hpp
    obtain ⟨pr', _, hpp⟩ := hpp
    rw [Option.bind_eq_bind, Option.bind_eq_some_iff] at hpp
    obtain ⟨P', hP', hpp⟩ := hpp
    cases hpp
    obtain ⟨g1, g2, _, _, _⟩ := portSet_sem hP'
    rw [Option.bind_eq_bind, Option.bind_eq_some_iff] at hh
    obtain ⟨h', e, hh⟩ := hh
    cases hh
    refine flat_or L2 hz hres (makeFromDict_flat L2 hC.reach hC.ports (dict_legal (X2 := X2) hC hS hD ?_ ?_) hz ?_ e)
    · intro l hl
      cases hl
      refine ⟨canonical_singleton.2 (Int.le_refl m), fun z hz => ?_⟩
      rw [mem_singleton] at hz
      unfold Iv.Mem at hz; dsimp only at hz; omega
    · intro Q hQ; cases hQ; exact ⟨g1, g2⟩
    · exact fun h => hzB (hB.at hS.2 h)
  · cases hh; exact hres

/-- The connections of a parsed rule are in canonical form, if the query has not all possible peers. -/
theorem rule_flat (hC : Cluster rg c) (hB : Covers rg c B) {z : Int} (hz : Mem z Base.all) (hzB : ¬ Mem z B.idx)
    {ns : Ns} {isIngress : Bool} {sel : PeerSet String} {r : PolicyRule} {h : HC Dim (ISet ⊕ V2)}
    (hsel : sel.Ok ∧ ∀ k, sel.HasPod k → ∃ p ∈ c, p.elem = .pod k)
    (hh : parseRule A2 PeerDom.default ord rg c ns isIngress sel r = some h) : Flat A2 W2 PeerDom.default z h := by
  unfold parseRule at hh
  rw [Option.bind_eq_bind, Option.bind_eq_some_iff] at hh
  obtain ⟨q, hq, hh⟩ := hh
  dsimp only at hh
  have hq' := rulePeers_bound hC hq
  have hS : (if isIngress then q else sel).Ok ∧ ∀ k, (if isIngress then q else sel).HasPod k → ∃ p ∈ c, p.elem = .pod k := by
    cases isIngress <;> assumption
  have hD : (if isIngress then sel else q).Ok ∧ ∀ k, (if isIngress then sel else q).HasPod k → ∃ p ∈ c, p.elem = .pod k := by
    cases isIngress <;> assumption
  split at hh
  · refine makeFromDict_flat L2 hC.reach hC.ports (dict_legal (X2 := X2) hC hS hD ?_ ?_) hz ?_ hh
    · intro l hl; cases hl
    · intro l hl; cases hl
    · exact fun h => hzB (hB.at hS.2 h)
  · have key : ∀ (L : List PolicyPort) (res h : HC Dim (ISet ⊕ V2)), Flat A2 W2 PeerDom.default z res →
        L.foldlM (portStep A2 PeerDom.default ord rg (if isIngress then q else sel) (if isIngress then sel else q)) res = some h →
        Flat A2 W2 PeerDom.default z h := by
      intro L
      induction L with
      | nil => intro res h hf e; cases e; exact hf
      | cons pt L ih =>
        intro res h hf e
        rw [List.foldlM_cons, Option.bind_eq_bind, Option.bind_eq_some_iff] at e
        obtain ⟨r, hr, e⟩ := e
        exact ih r h (portStep_flat L2 hC hB hz hzB hS hD hf hr) e
    exact key _ _ _ (flat_empty L2 z) hh

/-- A parsed rule as a query uses it: a legal set over the peers of the query, of the same connections. -/
theorem rule_query (hC : Cluster rg c) (hB : Covers rg c B) {ns : Ns} {isIngress : Bool} {sel : PeerSet String} {r : PolicyRule}
    {h : HC Dim (ISet ⊕ V2)} (hsel : sel.Ok ∧ ∀ k, sel.HasPod k → ∃ p ∈ c, p.elem = .pod k)
    (hh : parseRule A2 PeerDom.default ord rg c ns isIngress sel r = some h) :
    HcStrongT (connA A2 B) (connWf W2 B) allDims (HC.reduce (connA A2 B) allDims h) ∧
    ∀ p : Point (connA A2 B), (connNet L2 B).K.mem p (HC.reduce (connA A2 B) allDims h) = true ↔
      (connNet L2 PeerDom.default).K.mem p.toDefault h = true := by
  obtain ⟨s1, q, hq, s2⟩ := rule_raw L2 hC hsel hh
  have hq' := rulePeers_bound hC hq
  refine query_reduce L2 s1 ?_ ?_
  · rintro ⟨z, hz, hzB⟩
    exact (rule_flat L2 hC hB hz hzB hsel hh).plain
  · intro p hp z hz
    obtain ⟨h1, h2, _⟩ := (s2 p).1 hp
    have hS : ∀ k, (if isIngress then q else sel).HasPod k → ∃ p ∈ c, p.elem = .pod k := by
      cases isIngress
      · exact hsel.2
      · exact hq'.2
    have hD : ∀ k, (if isIngress then sel else q).HasPod k → ∃ p ∈ c, p.elem = .pod k := by
      cases isIngress
      · exact hq'.2
      · exact hsel.2
    rcases hz with e | e
    · rw [e] at h1; exact hB.at hS h1
    · rw [e] at h2; exact hB.at hD h2

end

/-- C46: the connections of a parsed rule, reduced by a query on the configuration (and perhaps others): a legal set of
the same connections. -/
theorem C46_rule_exact {V2 X2 : Type} {A2 : VAlg Dim V2 X2} {W2 : Dim → V2 → Prop} (L2 : A2.Lawful W2) {B : PeerDom} {ord : SetOrder}
    {rg : PodReg} {c : Container} (hC : Cluster rg c) (hB : Covers rg c B) {ns : Ns} {s : PolicySpec} {q : Parsed V2}
    (hq : parseSpec A2 PeerDom.default ord rg c ns s = some q) (d : Bool) (h : HC Dim (ISet ⊕ V2)) (hh : h ∈ q.rules d) :
    HcStrongT (connA A2 B) (connWf W2 B) allDims (HC.reduce (connA A2 B) allDims h) ∧
    ∀ p : Point (connA A2 B), HC.contains (connA A2 B) (HC.reduce (connA A2 B) allDims h) p.1 = true ↔
      HC.contains (connA A2 PeerDom.default) h p.1 = true := by
  obtain ⟨h1, h2, _, _⟩ := parseSpec_some hq
  obtain ⟨b1, b2, _, _⟩ := selectedPods_sem hC h1
  obtain ⟨a, _, ha⟩ := (mapM_some_mem (h2 d)).1 h hh
  exact rule_query L2 hC hB ⟨b1, b2⟩ ha

/-! ### The domain of a query -/

/-- The peers of the configurations of a query (NetworkConfigQuery.py 74-80). -/
def queryPeers (cs : List Container) : PeerSet String := cs.foldl (fun s c => s.or (c.allPeers true true true)) []

/-- The domain a query sets for the peer dimensions (84-87); `none` is the failed assertion of the conversion. -/
def queryDom (rg : PodReg) (cs : List Container) : Option ISet := Base.toIndices rg.keys (queryPeers cs)

theorem allPeers_legal {c : Container} (hc : c.Ok) : (c.allPeers true true true).Ok ∧
    (∀ k, (c.allPeers true true true).HasPod k ↔ ∃ p ∈ c, p.elem = .pod k) ∧ ∀ x, (c.allPeers true true true).HasIp x := by
  unfold Container.allPeers
  refine ⟨?_, fun k => ?_, fun x => ?_⟩
  · intro b hb
    rw [if_pos rfl, Base.mem_setAdd] at hb
    rcases hb with h | h
    · exact sel_ok hc _ b h
    · cases h; exact .all _ _
  · unfold PeerSet.HasPod
    rw [if_pos rfl, Base.mem_setAdd, mem_sel]
    simp
  · refine ⟨IpBlock.allIps false false, ?_, (IpBlock.C21_all_exact false false x).2 (by simp)⟩
    rw [if_pos rfl, Base.mem_setAdd]; exact Or.inr rfl

theorem queryPeers_sem (cs : List Container) (hC : ∀ c ∈ cs, c.Ok) : (queryPeers cs).Ok ∧
    (∀ k, (queryPeers cs).HasPod k ↔ ∃ c ∈ cs, ∃ p ∈ c, p.elem = .pod k) ∧ ∀ x, (queryPeers cs).HasIp x ↔ cs ≠ [] := by
  have key : ∀ (cs : List Container) (acc : PeerSet String), (∀ c ∈ cs, c.Ok) → acc.Ok →
      (cs.foldl (fun s c => s.or (c.allPeers true true true)) acc).Ok ∧
      (∀ k, (cs.foldl (fun s c => s.or (c.allPeers true true true)) acc).HasPod k ↔ acc.HasPod k ∨ ∃ c ∈ cs, ∃ p ∈ c, p.elem = .pod k) ∧
      ∀ x, (cs.foldl (fun s c => s.or (c.allPeers true true true)) acc).HasIp x ↔ acc.HasIp x ∨ cs ≠ [] := by
    intro cs
    induction cs with
    | nil => intro acc _ ha; exact ⟨ha, by simp, by simp⟩
    | cons c cs ih =>
      intro acc hC ha
      obtain ⟨a1, a2, a3⟩ := allPeers_legal (hC c (List.mem_cons_self ..))
      obtain ⟨o1, o2, o3⟩ := C22_or_exact ha a1
      obtain ⟨i1, i2, i3⟩ := ih (acc.or (c.allPeers true true true)) (fun d hd => hC d (List.mem_cons_of_mem _ hd)) o1
      refine ⟨i1, fun k => ?_, fun x => ?_⟩
      · rw [List.foldl_cons, i2, o2, a2]
        simp [or_assoc]
      · rw [List.foldl_cons, i3, o3]
        simp [a3 x]
  obtain ⟨h1, h2, h3⟩ := key cs [] hC (fun b hb => by cases hb)
  refine ⟨h1, fun k => (h2 k).trans ?_, fun x => (h3 x).trans ?_⟩
  · simp [PeerSet.HasPod]
  · simp [PeerSet.HasIp]

/-- C46: the domain of a query is defined, and holds exactly the addresses and the peers of the configurations of the
query. -/
theorem C46_domain {rg : PodReg} {cs : List Container} (hC : ∀ c ∈ cs, Cluster rg c) (hne : cs ≠ []) :
    ∃ B : PeerDom, queryDom rg cs = some B.idx ∧ ∀ z, Mem z B.idx ↔ ∃ c ∈ cs, ∃ E : End, E.At (X2 := Empty) rg c (.inl z) := by
  obtain ⟨h1, h2, h3⟩ := queryPeers_sem cs (fun c hc => (hC c hc).ok)
  obtain ⟨c0, hc0⟩ := List.exists_mem_of_ne_nil _ hne
  have hr := (hC c0 hc0).reach
  have hreg : ∀ k, (queryPeers cs).HasPod k → k ∈ rg.keys := by
    intro k hk
    obtain ⟨c, hc, p, hp, he⟩ := (h2 k).1 hk
    obtain ⟨j, hj, hm⟩ := (hC c hc).elem p hp
    rw [he] at hj; cases hj; exact hm
  obtain ⟨l, hl⟩ := (Base.C22_to_indices_defined hr h1).2 hreg
  have hmem := at_iff (X2 := Empty) hr h1 hl
  have hex : ∀ z, Mem z l ↔ ∃ c ∈ cs, ∃ E : End, E.At (X2 := Empty) rg c (.inl z) := by
    intro z
    rw [hmem]
    constructor
    · rintro (⟨x, hx, _⟩ | ⟨n, k, hn, hk, h⟩)
      · exact ⟨c0, hc0, .ip x, hx⟩
      · obtain ⟨c, hc, p, hp, he⟩ := (h2 k).1 h
        exact ⟨c, hc, .peer p, hp, n, k, hn, hk, he⟩
    · rintro ⟨c, hc, E, hE⟩
      cases E with
      | ip x => exact Or.inl ⟨x, hE, (h3 x).2 hne⟩
      | peer p =>
        obtain ⟨hp, n, k, hn, hk, he⟩ := hE
        exact Or.inr ⟨n, k, hn, hk, (h2 k).2 ⟨c, hc, p, hp, he⟩⟩
  have hcan := (Base.C22_to_indices_exact hr h1 hl).1
  have hx : Mem (Ip.idx ⟨false, 0, by decide⟩) l := (hex _).2 ⟨c0, hc0, .ip ⟨false, 0, by decide⟩, rfl⟩
  refine ⟨⟨l, hcan, (truthy_spec _ hcan).2 ⟨_, hx⟩, fun z hz => at_default (X2 := Empty) hr ((hmem z).1 hz)⟩, hl, hex⟩

/-- The domain of a query covers each of its configurations. -/
theorem covers_of_domain {rg : PodReg} {cs : List Container} {B : PeerDom}
    (h : ∀ z, Mem z B.idx ↔ ∃ c ∈ cs, ∃ E : End, E.At (X2 := Empty) rg c (.inl z)) {c : Container} (hc : c ∈ cs) : Covers rg c B :=
  fun z E hE => (h z).2 ⟨c, hc, E, hE⟩

end K8sParser
end Verif
