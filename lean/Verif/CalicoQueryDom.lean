import Verif.QueryDom
import Verif.PropsCalicoParse
/-!
The rules of Calico policies in the domain of a query, as `Verif.QueryDom` for those of Kubernetes: the parsed sets are in
canonical form and stay between peers of the cluster, so the sets reduced by a query are legal sets of the same connections.
-/
namespace Verif
open ISet PeerSet

namespace CalicoParser
open Container

section
variable {V2 X2 : Type} {A2 : VAlg Dim V2 X2} {W2 : Dim → V2 → Prop} {B : PeerDom} {ord : SetOrder} {rg : PodReg} {c : Container} {K : CharCls}

/-- The domain holds all addresses and all peers of the cluster. -/
def Covers (rg : PodReg) (c : Container) (B : PeerDom) : Prop :=
  ∀ (z : Int) (E : Place), E.At (X2 := Empty) rg c (.inl z) → Mem z B.idx

theorem Covers.at (hB : Covers rg c B) {S : PeerSet String} (hS : InCluster c S) {z : Int} (h : S.At (X2 := X2) rg.keys (.inl z)) : Mem z B.idx := by
  rcases h with ⟨x, hx, _⟩ | ⟨n, k, hn, hk, h⟩
  · cases hx; exact hB _ (.ip x) rfl
  · cases hn
    exact hB _ (.pod k) ⟨hS k h, n, rfl, hk⟩

/-- A set of connections from `S` to `D`, legal and in canonical form. -/
structure Tidy (L2 : A2.Lawful W2) (rg : PodReg) (S D : PeerSet String) (h : HC Dim (ISet ⊕ V2)) : Prop where
  flat : ∀ z, Mem z Base.all → ¬ PeerSet.At (X2 := X2) rg.keys S (.inl z) → Flat A2 W2 PeerDom.default z h
  src : ∀ p, (connNet L2 PeerDom.default).K.mem p h = true → S.At rg.keys (p.1 .srcPeers)
  dst : ∀ p, (connNet L2 PeerDom.default).K.mem p h = true → D.At rg.keys (p.1 .dstPeers)

variable (L2 : A2.Lawful W2)

theorem tidy_empty (S D : PeerSet String) : Tidy L2 rg S D (HC.empty allDims true) := by
  have la := (connNet_lawful L2 PeerDom.default).1
  have no : ∀ p, ¬ (connNet L2 PeerDom.default).K.mem p (HC.empty allDims true) = true := fun p h => by
    rw [show HC.empty allDims true = (connNet L2 PeerDom.default).K.empty from rfl, la.net.mem_empty] at h
    cases h
  exact ⟨fun z _ _ => flat_empty L2 z, fun p h => absurd h (no p), fun p h => absurd h (no p)⟩

theorem tidy_sub {S D : PeerSet String} (hC : CalCluster rg c) {a b : HC Dim (ISet ⊕ V2)} (ha : Tidy L2 rg S D a) (hb : Tidy L2 rg S D b) :
    Tidy L2 rg S D (HC.sub (connA A2 PeerDom.default) allDims a b) := by
  have la := (connNet_lawful L2 PeerDom.default).1
  obtain ⟨z, hz1, hz2⟩ := free_index (X2 := X2) hC
  have fa := ha.flat z hz1 (hz2 S)
  have fb := hb.flat z hz1 (hz2 S)
  have sub : ∀ p, (connNet L2 PeerDom.default).K.mem p (HC.sub (connA A2 PeerDom.default) allDims a b) = true →
      (connNet L2 PeerDom.default).K.mem p a = true := by
    intro p h
    rw [show HC.sub (connA A2 PeerDom.default) allDims a b = (connNet L2 PeerDom.default).K.sub a b from rfl,
      la.net.mem_sub fa.strong (la.net.strong_ok fb.strong), Bool.and_eq_true] at h
    exact h.1
  exact ⟨fun z h1 h2 => flat_sub L2 h1 (ha.flat z h1 h2) (hb.flat z h1 h2), fun p h => ha.src p (sub p h), fun p h => ha.dst p (sub p h)⟩

/-- The connections of a cube of a rule. -/
theorem tidy_makeRule (hC : CalCluster rg c) {d : RuleDict} (hd : d.Legal X2 rg.keys PeerDom.default) {h : HC Dim (ISet ⊕ V2)}
    (hh : makeRule A2 PeerDom.default ord rg d = some h) : Tidy L2 rg d.srcPeers d.dstPeers h := by
  obtain ⟨z0, hz1, hz2⟩ := free_index (X2 := X2) hC
  obtain ⟨h', e, _, me⟩ := makeRule_sem L2 (ord := ord) hC.reach hC.ports hd (Or.inr ⟨z0, hz1, hz2 _⟩)
  rw [hh] at e; cases e
  refine ⟨fun z hz hS => ?_, fun p hp => ((me p).1 hp).1.src, fun p hp => ((me p).1 hp).1.dst⟩
  obtain ⟨vS, eS, wS, _, iS⟩ := peerDim_spec (A2 := A2) (W2 := W2) hC.reach (x := .srcPeers) (Or.inl rfl)
    (S := some d.srcPeers) (fun Z hZ => hd.peers Z (Or.inl (Option.some.inj hZ).symm))
  obtain ⟨vD, eD, wD, _, iD⟩ := peerDim_spec (A2 := A2) (W2 := W2) hC.reach (x := .dstPeers) (Or.inr rfl)
    (S := some d.dstPeers) (fun Z hZ => hd.peers Z (Or.inr (Option.some.inj hZ).symm))
  have ec : ruleCube A2 PeerDom.default rg d = some (wideCube A2 PeerDom.default vS vD d) := by
    rw [ruleCube_eq, eS, eD]; rfl
  obtain ⟨lS, rfl, mS⟩ := iS _ rfl
  obtain ⟨lD, rfl, mD⟩ := iD _ rfl
  unfold makeRule at hh
  rw [ec, Option.bind_some] at hh
  refine makeConnProps_flat L2 hC.reach hC.ports (wideCube_legal L2 hd wS wD) ?_ hz ?_ hh
  · intro y hy
    rcases (mD y).1 hy with ⟨x, hx, _⟩ | ⟨n, k, hn, hk, _⟩
    · cases hx; exact Or.inl ⟨x, rfl⟩
    · cases hn; exact Or.inr ⟨n, (List.getElem?_eq_some_iff.1 hk).1, rfl⟩
  · exact fun h => hS ((mS z).1 h)

omit L2 in
theorem icmpDims_legal {o : Option Icmp} (h : o.all icmpOk = true) :
    (∀ t, (icmpDims o).1 = some t → 0 ≤ t ∧ t ≤ 254) ∧ ∀ t, (icmpDims o).2 = some t → 0 ≤ t ∧ t ≤ 255 := by
  cases o with
  | none => exact ⟨fun t h => (by cases h), fun t h => (by cases h)⟩
  | some i =>
    obtain ⟨ty, code⟩ := i
    cases ty with
    | none => cases h
    | some t =>
      unfold icmpDims
      dsimp only
      split
      · exact ⟨fun t h => (by cases h), fun t h => (by cases h)⟩
      · have h : icmpOk ⟨some t, code⟩ = true := h
        unfold icmpOk at h
        simp only [Bool.and_eq_true, decide_eq_true_eq] at h
        refine ⟨fun t' ht => by cases ht; exact h.1, fun d hd => ?_⟩
        cases code with
        | none => cases hd
        | some x =>
          simp only [Option.bind_some] at hd
          split at hd
          · cases hd
          · cases hd
            simpa using h.2

theorem tidy_icmp (hC : CalCluster rg c) {S D : PeerSet String} (hS : S.Ok ∧ InCluster c S) (hD : D.Ok ∧ InCluster c D) {i j : Option Icmp} {T : ISet}
    (hT : Canonical T ∧ ∀ z, Mem z T → 0 ≤ z ∧ z ≤ 255) {h : HC Dim (ISet ⊕ V2)}
    (hh : parseIcmp A2 PeerDom.default ord rg i j T S D = some h) : Tidy L2 rg S D h := by
  unfold parseIcmp at hh
  dsimp only at hh
  split at hh
  · rename_i hok
    rw [Bool.and_eq_true] at hok
    have cube : ∀ {o : Option Icmp} {h : HC Dim (ISet ⊕ V2)}, o.all icmpOk = true →
        makeRule A2 PeerDom.default ord rg ⟨S, D, some T, none, none, (icmpDims o).1, (icmpDims o).2⟩ = some h → Tidy L2 rg S D h := by
      intro o h ho e
      refine tidy_makeRule L2 hC (rule_legal (X2 := X2) hC hS hD (fun l hl => by cases hl; exact hT)
        (fun P hP => by rcases hP with hP | hP <;> cases hP) (icmpDims_legal ho).1 (icmpDims_legal ho).2) e
    have minus : ∀ {h : HC Dim (ISet ⊕ V2)},
        ((makeRule A2 PeerDom.default ord rg ⟨S, D, some T, none, none, (icmpDims i).1, (icmpDims i).2⟩).bind fun a =>
          (makeRule A2 PeerDom.default ord rg ⟨S, D, some T, none, none, (icmpDims j).1, (icmpDims j).2⟩).bind fun b =>
            some (HC.sub (connA A2 PeerDom.default) allDims a b)) = some h → Tidy L2 rg S D h := by
      intro h e
      rw [Option.bind_eq_some_iff] at e
      obtain ⟨a, ea, e⟩ := e
      rw [Option.bind_eq_some_iff] at e
      obtain ⟨b, eb, e⟩ := e
      cases e
      exact tidy_sub L2 hC (cube hok.1 ea) (cube hok.2 eb)
    split at hh
    · split at hh
      · exact cube hok.1 hh
      · split at hh
        · exact minus hh
        · exact cube hok.1 hh
    · exact minus hh
    · exact cube hok.1 hh
  · cases hh

theorem tidy_props (hC : CalCluster rg c) {r : CalicoRule} {pr np : Option Int} (h1 : ∀ n, pr = some n → 0 ≤ n ∧ n ≤ 255)
    (h2 : ∀ n, np = some n → 0 ≤ n ∧ n ≤ 255) {S D : PeerSet String} (hS : S.Ok ∧ InCluster c S) (hD : D.Ok ∧ InCluster c D) {P Q : PortSet}
    (hP : Canonical P.ports ∧ ∀ z, Mem z P.ports → 1 ≤ z ∧ z ≤ 65535) (hQ : Canonical Q.ports ∧ ∀ z, Mem z Q.ports → 1 ≤ z ∧ z ≤ 65535)
    {h : HC Dim (ISet ⊕ V2)} (hh : ruleProps A2 PeerDom.default ord rg r pr np S D P Q = some h) : Tidy L2 rg S D h := by
  have plain : ∀ {T : Option ISet} {h : HC Dim (ISet ⊕ V2)}, (∀ l, T = some l → Canonical l ∧ ∀ z, Mem z l → 0 ≤ z ∧ z ≤ 255) →
      makeRule A2 PeerDom.default ord rg ⟨S, D, T, none, none, none, none⟩ = some h → Tidy L2 rg S D h := by
    intro T h hT e
    exact tidy_makeRule L2 hC (rule_legal (X2 := X2) hC hS hD hT (fun P hP => by rcases hP with hP | hP <;> cases hP)
      (fun t h => by cases h) (fun t h => by cases h)) e
  unfold ruleProps at hh
  split at hh
  · cases hh; exact tidy_empty L2 S D
  · rename_i n
    have hn := h1 n rfl
    have hcan : Canonical [⟨n, n⟩] ∧ ∀ z, Mem z [⟨n, n⟩] → 0 ≤ z ∧ z ≤ 255 := ⟨canonical_singleton.2 (Int.le_refl _), fun z hz => by
      have := mem_singleton.1 hz
      unfold Iv.Mem at this; dsimp only at this; omega⟩
    rw [add_protocol hn, Option.bind_eq_bind, Option.bind_some] at hh
    split at hh
    · refine tidy_makeRule L2 hC (rule_legal (X2 := X2) hC hS hD (fun l hl => by cases hl; exact hcan) (fun R hR => ?_)
        (fun t h => by cases h) (fun t h => by cases h)) hh
      rcases hR with hR | hR <;> cases hR
      · exact hP
      · exact hQ
    · split at hh
      · exact tidy_icmp L2 hC hS hD hcan hh
      · exact plain (fun l hl => by cases hl; exact hcan) hh
  · rename_i n
    split at hh
    · obtain ⟨l, el, cl, ml⟩ := remove_protocol (h2 n rfl)
      rw [el, Option.bind_eq_bind, Option.bind_some] at hh
      exact plain (fun l' hl => by cases hl; exact ⟨cl, fun z hz => ((ml z).1 hz).1⟩) hh
    · cases hh; exact tidy_empty L2 S D
  · exact plain (fun l hl => by cases hl) hh

/-- A rule as a query uses it: a legal set over the peers of the query, of the same connections. -/
theorem rule_query (hC : CalCluster rg c) (hB : Covers rg c B) {S D : PeerSet String} (hS : InCluster c S) (hD : InCluster c D)
    {h : HC Dim (ISet ⊕ V2)} (t : Tidy L2 rg S D h) :
    HcStrongT (connA A2 B) (connWf W2 B) allDims (HC.reduce (connA A2 B) allDims h) ∧
    ∀ p : Point (connA A2 B), (connNet L2 B).K.mem p (HC.reduce (connA A2 B) allDims h) = true ↔
      (connNet L2 PeerDom.default).K.mem p.toDefault h = true := by
  obtain ⟨z0, hz1, hz2⟩ := free_index (X2 := X2) hC
  refine query_reduce L2 (t.flat z0 hz1 (hz2 S)).strong ?_ ?_
  · rintro ⟨z, hz, hzB⟩
    exact (t.flat z hz (fun h => hzB (hB.at hS h))).plain
  · intro p hp z hz
    rcases hz with e | e
    · have := t.src p hp
      rw [e] at this; exact hB.at hS this
    · have := t.dst p hp
      rw [e] at this; exact hB.at hD this

/-- What a rule is in a query. -/
structure RuleFits (L2 : A2.Lawful W2) (B : PeerDom) (rg : PodReg) (c : Container) (selected : PeerSet String) (isIngress : Bool) (r : ParsedRule V2) : Prop where
  strong : HcStrongT (connA A2 B) (connWf W2 B) allDims (HC.reduce (connA A2 B) allDims r.props)
  same : ∀ p : Point (connA A2 B), (connNet L2 B).K.mem p (HC.reduce (connA A2 B) allDims r.props) = true ↔
    (connNet L2 PeerDom.default).K.mem p.toDefault r.props = true
  within : ∀ p, (connNet L2 PeerDom.default).K.mem p r.props = true → selected.At rg.keys (p.1 (if isIngress then .dstPeers else .srcPeers))

theorem rule_fits (hK : K.Ok) (hC : CalCluster rg c) (hB : Covers rg c B) {ns : Option Ns} {r : CalicoRule} {m : RuleSpec} (hm : RuleMeans K r m) (hl : m.Legal)
    (ht : RuleTame r m) {selected : PeerSet String} (hsel : selected.Ok ∧ InCluster c selected) {isIngress : Bool} {pr : ParsedRule V2}
    (h : parseRule K c ns A2 PeerDom.default ord rg isIngress selected r = some pr) : RuleFits L2 B rg c selected isIngress pr := by
  obtain ⟨S, P, e1, o1, i1, _, hP⟩ := entity_sem (ns := ns) hK hC hm.source (fun e he => ht.entities e (Or.inl he)) (protocol := m.protocol)
    (fun e he => hl.entities e (Or.inl he))
  obtain ⟨D, Q, e2, o2, i2, _, hQ⟩ := entity_sem (ns := ns) hK hC hm.destination (fun e he => ht.entities e (Or.inr he)) (protocol := m.protocol)
    (fun e he => hl.entities e (Or.inr he))
  unfold parseRule at h
  rw [action_sem hm.action, (protocol_sem hm.protocol).1, (protocol_sem hm.notProtocol).1] at h
  simp only [Option.bind_eq_bind, Option.bind_some] at h
  rw [e1] at h
  simp only [Option.bind_some] at h
  rw [e2] at h
  simp only [Option.bind_some] at h
  rw [Option.bind_eq_some_iff] at h
  obtain ⟨props, hp, h⟩ := h
  cases h
  have hS : (if isIngress then S else S.and selected).Ok ∧ InCluster c (if isIngress then S else S.and selected) := by
    cases isIngress
    · exact ⟨(C22_and_exact o1 hsel.1).1, InCluster.and o1 hsel.1 (Or.inl i1)⟩
    · exact ⟨o1, i1⟩
  have hD : (if isIngress then D.and selected else D).Ok ∧ InCluster c (if isIngress then D.and selected else D) := by
    cases isIngress
    · exact ⟨o2, i2⟩
    · exact ⟨(C22_and_exact o2 hsel.1).1, InCluster.and o2 hsel.1 (Or.inl i2)⟩
  have t := tidy_props L2 hC (protocol_sem hm.protocol).2 (protocol_sem hm.notProtocol).2 hS hD ⟨hP.canon, hP.bound⟩ ⟨hQ.canon, hQ.bound⟩ hp
  have q := rule_query L2 hC hB hS.2 hD.2 t
  refine ⟨q.1, q.2, fun p hpm => ?_⟩
  have and_at : ∀ {S : PeerSet String} {e : Int ⊕ X2}, S.Ok → (S.and selected).At rg.keys e → selected.At rg.keys e := by
    intro S e hS h
    obtain ⟨_, a2, a3⟩ := C22_and_exact hS hsel.1
    rcases h with ⟨x, hx, h⟩ | ⟨n, k, hn, hk, h⟩
    · first
        | exact Or.inl ⟨x, hx, ((a2 x).1 h).2⟩
        | exact Or.inl ⟨x, hx, ((a3 x).1 h).2⟩
    · first
        | exact Or.inr ⟨n, k, hn, hk, ((a3 k).1 h).2⟩
        | exact Or.inr ⟨n, k, hn, hk, ((a2 k).1 h).2⟩
  cases isIngress
  · exact and_at o1 (t.src p hpm)
  · exact and_at o2 (t.dst p hpm)

end
end CalicoParser
end Verif
