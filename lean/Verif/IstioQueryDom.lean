import Verif.CalicoQueryDom
import Verif.PropsIstioParse
/-!
The rules of Istio's authorization policies in the domain of a query, as `Verif.QueryDom` and `Verif.CalicoQueryDom` for
those of Kubernetes and Calico.
-/
namespace Verif
open ISet PeerSet

namespace IstioParser
open Container CalicoParser

section
variable {V2 X2 : Type} {A2 : VAlg Dim V2 X2} {W2 : Dim → V2 → Prop} {dfa : List Char → V2} {word : X2 → List Char} {D : V2 → Prop}
  {V : Env} {rg : PodReg} {c : Container} {ord : SetOrder} {B : PeerDom}
variable (L2 : A2.Lawful W2)

/-- The connections of a rule are in canonical form, and come from peers of the cluster. -/
theorem rule_tidy (hI : IstioCluster V rg c) (hD : DfaLib A2 W2 dfa word D) {selected : PeerSet String} (hs : selected.Ok) (hi : InCluster c selected)
    {r : AuthRule} {E0 : Place} (h0 : r.Tame E0) {h : HC Dim (ISet ⊕ V2)} (hh : parseRule A2 dfa V PeerDom.default ord rg c selected r = some h) :
    HC.Plain (connA A2 PeerDom.default) h ∧ ∃ S : PeerSet String, InCluster c S ∧
      ∀ p, (connNet L2 PeerDom.default).K.mem p h = true → S.At rg.keys (p.1 .srcPeers) := by
  have la := (connNet_lawful L2 PeerDom.default).1
  have Ld := connA_lawful PeerDom.default L2
  obtain ⟨S, eS, oS, iS, mS⟩ := fromPeers_sem hI h0.sources
  obtain ⟨h1, e1, o1, m1⟩ := toProps_sem L2 (ord := ord) hI hD h0.operations
  obtain ⟨st, e2, s2⟩ := whenProps_sem L2 (ord := ord) (word := word) hI (T := fun E => r.Tame E) h0.conditions (fun E hE => hE.conditions) oS iS
    (F := fun E => Sender c E ∧ ∀ l, r.sources = some l → ∃ s ∈ l, SourceSays V.sa c s E) (fun E hE hk => mS E hE.sources hk) (fun E h => h.1)
  obtain ⟨z, hz1, hz2⟩ := free_index (X2 := X2) hI
  have notAll : ∀ {x : HC Dim (ISet ⊕ V2)}, HcOkT (connA A2 PeerDom.default) (connWf W2 PeerDom.default) allDims x →
      (∀ p, (connNet L2 PeerDom.default).K.mem p x = true → st.1.At rg.keys (p.1 .srcPeers)) → x.isAll = true → False := by
    intro x hx hsrc hall
    obtain ⟨p0, hp0⟩ := exists_inDom Ld
    have hq : InDom (connA A2 PeerDom.default) (fun d => if d = .srcPeers then .inl z else p0 d) := by
      intro d
      by_cases hd : d = .srcPeers
      · subst hd
        dsimp only
        rw [if_pos rfl]
        exact (mem_inl A2 PeerDom.default z _ PeerDom.default.canon).2 hz1
      · dsimp only; rw [if_neg hd]; exact hp0 d
    have := hsrc ⟨_, hq⟩ ((HC.contains_spec hx.1 _).2 (HC.isAll_pt hall _))
    exact hz2 st.1 this
  unfold parseRule at hh
  simp only [Option.bind_eq_bind] at hh
  rw [eS, Option.bind_some, e1, Option.bind_some, e2, Option.bind_some] at hh
  by_cases he : (st.1.isEmpty || selected.isEmpty) = true
  · rw [if_pos he] at hh
    cases hh
    have oe : HcOkT (connA A2 PeerDom.default) (connWf W2 PeerDom.default) allDims (HC.empty allDims true) := la.net.strong_ok la.net.empty_strong
    refine ⟨HC.and_plain Ld allDims_nodup allDims_ne o1.1 oe.1 (fun h => ?_) (fun _ => (flat_empty L2 z).plain), [], fun k hk => (by cases hk), fun p hp => ?_⟩
    · exact (notAll oe (fun p h => absurd h (mem_empty_iff L2 p)) h).elim
    · rw [mem_and_iff L2 o1 oe] at hp
      exact absurd hp.2 (mem_empty_iff L2 p)
  · rw [if_neg he] at hh
    have hdl := dict_legal (X2 := X2) hI (S := some st.1) (T := some selected) (fun Z hZ => by
      rcases hZ with hZ | hZ <;> cases hZ
      · exact ⟨s2.ok, s2.inCluster⟩
      · exact ⟨hs, hi⟩) (l := none) (fun x hx => by cases hx) (P := none) (fun x hx => by cases hx)
    obtain ⟨d, e, s, m⟩ := dict_sem L2 (ord := ord) (X2 := X2) hI.cluster.reach hdl (fun P hP => by cases hP)
    have fl := makeFromDict_flat L2 hI.cluster.reach hI.cluster.ports hdl hz1 (hz2 _) e
    rw [e] at hh
    cases hh
    have os := la.net.strong_ok s
    have o3 : HcOkT _ _ _ (HC.and (connA A2 PeerDom.default) allDims st.2 d) := la.net.and_ok s2.hok os
    have src3 : ∀ p, (connNet L2 PeerDom.default).K.mem p (HC.and (connA A2 PeerDom.default) allDims st.2 d) = true → st.1.At rg.keys (p.1 .srcPeers) := by
      intro p hp
      rw [mem_and_iff L2 s2.hok os, m] at hp
      exact hp.2.1.1 _ rfl
    have pl3 : HC.Plain (connA A2 PeerDom.default) (HC.and (connA A2 PeerDom.default) allDims st.2 d) :=
      HC.and_plain Ld allDims_nodup allDims_ne s2.hok.1 os.1 (fun h => (notAll os (fun p hp => ((m p).1 hp).1.1 _ rfl) h).elim) (fun _ => fl.plain)
    refine ⟨HC.and_plain Ld allDims_nodup allDims_ne o1.1 o3.1 (fun h => (notAll o3 src3 h).elim) (fun _ => pl3), st.1, s2.inCluster, fun p hp => ?_⟩
    rw [mem_and_iff L2 o1 o3] at hp
    exact src3 p hp.2

/-- A rule as a query uses it: a legal set over the peers of the query, of the same connections. -/
theorem rule_query (hI : IstioCluster V rg c) (hD : DfaLib A2 W2 dfa word D) (hB : Covers rg c B) {selected : PeerSet String} (hs : selected.Ok)
    (hi : InCluster c selected) {r : AuthRule} {E0 : Place} (h0 : r.Tame E0) {h : HC Dim (ISet ⊕ V2)}
    (hh : parseRule A2 dfa V PeerDom.default ord rg c selected r = some h) :
    HcStrongT (connA A2 B) (connWf W2 B) allDims (HC.reduce (connA A2 B) allDims h) ∧
    ∀ p : Point (connA A2 B), (connNet L2 B).K.mem p (HC.reduce (connA A2 B) allDims h) = true ↔
      (connNet L2 PeerDom.default).K.mem p.toDefault h = true := by
  obtain ⟨h', e, s, b, _⟩ := C50_rule_partial L2 (ord := ord) hI hD hs hi h0
  rw [hh] at e; cases e
  obtain ⟨pl, S, iS, mS⟩ := rule_tidy L2 hI hD hs hi h0 hh
  refine query_reduce L2 s (fun _ => pl) ?_
  intro p hp z hz
  rcases hz with e | e
  · have := mS p hp
    rw [e] at this; exact hB.at iS this
  · have := b p hp
    rw [e] at this; exact hB.at hi this

end
end IstioParser
end Verif
