import Verif.PropsPlainPeers
import Verif.K8sGood
/-!
C70 from the texts of Kubernetes policies: what the plain list of a configuration tells of pods and addresses.
-/
namespace Verif
namespace K8sParser
open ISet PlainList

section
variable {V2 X2 : Type} {A2 : VAlg Dim V2 X2} {W2 : Dim → V2 → Prop} (L2 : A2.Lawful W2) {B : PeerDom} {ord : SetOrder} {rg : PodReg} {c : Container}

/-- No address of the end is one of IPv6. -/
def End.Plain : End → Prop
  | .ip x => x.six = false
  | .peer _ => True

theorem not_v6 {E : End} {e : Int ⊕ X2} (hE : E.At rg c e) (h : E.Plain) : (connNet L2 B).Q.mem e (connNet L2 B).v6 = false := by
  rw [← Bool.not_eq_true]
  intro hm
  have hm' : (connA A2 B).mem e ((peersOf W2 B B.idx ⟨B.canon, fun _ h => h⟩).part (a := minIpv6Index) (b := maxIpv6Index) (by decide)).1 = true := hm
  obtain ⟨z, rfl, _, h1, h2⟩ := (ConnPeers.mem_part (A2 := A2) _ _ _).1 hm'
  cases E with
  | ip x =>
    have hz : z = x.idx := Sum.inl.inj hE
    have hx : x.six = false := h
    have h3 := x.le_top
    rw [hx] at h3
    unfold Ip.idx at hz
    rw [hx] at hz
    simp only [Bool.false_eq_true, if_false] at hz
    have h4 : (topOf false : Int) < minIpv6Index := by decide
    omega
  | peer a =>
    obtain ⟨_, n, k, hn, _⟩ := hE
    have := Sum.inl.inj hn
    have h3 : maxIpv6Index < minPodIndex := by decide
    omega

/-- Without a subset, the attributes of peers do not matter to the map. -/
theorem connMap_info {C P E S : Type} (N : NetQ C P E S) (excl : Bool) (info info' : S → PeerAttrs) (cf : Config C S) :
    connMap N excl info none cf = connMap N excl info' none cf := rfl

/-- C70, from documents to the list: in the plain list of the connectivity of a configuration with Kubernetes policies, a
connection between two different peers, one of them a pod, is told exactly if Kubernetes says of the texts of the policies
that it is allowed.  The list tells nothing of connections from DNS entries, nor of addresses of IPv6 if these are to be
left out.  Partial: as C45_config_partial and C70_program_partial, and the configuration has a pod. -/
theorem C70_k8s_partial (hC : Cluster rg c) (hd : queryDom rg [c] = some B.idx) (ts : List PolicyText) (ht : ∀ t ∈ ts, TameText c t)
    {pols : List (Policy (HC Dim (ISet ⊕ V2)) (ConnPeers W2 B))} (hp : policiesOf A2 W2 B ord rg c ts = some pols)
    {st : PolicyStore (HC Dim (ISet ⊕ V2)) (ConnPeers W2 B)} (hb : PolicyStore.build pols = some st)
    {nm : String → String} (hg : GoodNames rg.keys nm) (len : List (List (Dim × (ISet ⊕ V2))) → Nat) (excl : Bool) (info : ConnPeers W2 B → PeerAttrs)
    (p : Point (connA A2 B)) (src dst : End) (proto port : Int) (e1 : src.At rg c (p.1 .srcPeers)) (e2 : dst.At rg c (p.1 .dstPeers))
    (e3 : p.1 .protocols = .inl proto) (e4 : p.1 .dstPorts = .inl port) (hpod : src.IsPod ∨ dst.IsPod) (hne : p.1 .srcPeers ≠ p.1 .dstPeers)
    (hdns : ∀ a, src = .peer a → a.kind ≠ .dns) (hx : excl = true → src.Plain ∧ dst.Plain) :
    (∃ part ∈ sections (connA A2 B) allDims .srcPeers .dstPeers .protocols tcpVal nonTcpVal (real rg.keys nm) len (hasIstio st.layers)
        (connMap (connNet L2 B) excl info none (k8sConfig A2 W2 B rg c st)), ∃ l ∈ part.2,
      Tells (connA A2 B) (connWf W2 B) .srcPeers .dstPeers .protocols tcpVal nonTcpVal (real rg.keys nm) .dstPorts part.1 l p.1) ↔
      K8sSays rg ts src dst proto port := by
  have hB := covers_of_query hC hd
  have podIn : ∀ {E : End} {e : Int ⊕ X2}, E.At rg c e → E.IsPod → (∃ a ∈ c, a.kind = .pod) ∧ ∃ z, e = .inl z ∧ minPodIndex ≤ z := by
    intro E e hE h
    cases E with
    | ip x => exact absurd h (by intro h; exact h)
    | peer a =>
      obtain ⟨ha, n, k, rfl, _⟩ := hE
      exact ⟨⟨a, ha, h⟩, _, rfl, by omega⟩
  have hex : ∃ a ∈ c, a.kind = .pod := hpod.elim (fun h => (podIn e1 h).1) (fun h => (podIn e2 h).1)
  have hreg : Registered rg.keys B := by
    intro z hz hle
    obtain ⟨E, hE⟩ := (domain_exact (X2 := X2) hC hd z).1 hz
    cases E with
    | ip x =>
      have : z = x.idx := Sum.inl.inj hE
      have := Base.idx_lt x
      omega
    | peer a =>
      obtain ⟨_, n, k, hn, hk, _⟩ := hE
      have := Sum.inl.inj hn
      have := (List.getElem?_eq_some_iff.1 hk).1
      omega
  have h2 : TwoEnds p.1 := by
    refine ⟨hne, ?_⟩
    rcases hpod with h | h
    · obtain ⟨_, z, hz, hle⟩ := podIn e1 h; exact ⟨z, Or.inl hz, hle⟩
    · obtain ⟨_, z, hz, hle⟩ := podIn e2 h; exact ⟨z, Or.inr hz, hle⟩
  obtain ⟨G, hs, _⟩ := C45_good_partial L2 hC hd hex ts ht hp hb
  have L := (connNet_lawful L2 B).1
  have hM := connMap_spec G L (anySource L2 B) (info := fun _ => info (clusterPeers A2 W2 B rg c).pods) (attr := fun _ => info (clusterPeers A2 W2 B rg c).pods) (fun _ _ _ _ _ => rfl) none excl (Or.inr hs)
  rw [connMap_info (connNet L2 B) excl (fun _ => info (clusterPeers A2 W2 B rg c).pods) info] at hM
  obtain ⟨m1, m2⟩ := hM
  refine ((program_exact L2 hC.reach hreg hg (S := (connMap (connNet L2 B) excl info none (k8sConfig A2 W2 B rg c st)).Pt (connA A2 B)) (fun _ _ => Iff.rfl) m1.1 _ p.2 h2).1).trans ?_
  have hpt : (connNet L2 B).K.mem p (connMap (connNet L2 B) excl info none (k8sConfig A2 W2 B rg c st)) = true ↔
      (connMap (connNet L2 B) excl info none (k8sConfig A2 W2 B rg c st)).Pt (connA A2 B) p.1 := HC.contains_spec m1.1.1 p.1
  rw [← hpt, m2 p, ← (G.conns_ok L).2 p]
  have hcfg := C45_config_partial L2 hC hB ts ht hp hb ConnFilter.onlyAllAllowed onlyAllAllowed_calc.1 p src dst proto port e1 e2 e3 e4 hpod
  refine Iff.trans ?_ hcfg
  refine ⟨fun h => h.1, fun h => ⟨h, ?_, Or.inl fun s hs => by cases hs⟩⟩
  obtain ⟨s1, _, _, s4⟩ := cluster_classes (A2 := A2) L2 hC hB e1
  obtain ⟨d1, _, _, d4⟩ := cluster_classes (A2 := A2) L2 hC hB e2
  refine ⟨?_, ?_, fun he => ⟨not_v6 L2 e1 (hx he).1, not_v6 L2 e2 (hx he).2⟩⟩
  · rintro ⟨i1, i2⟩
    obtain ⟨x, rfl⟩ := (ip_end L2 e1).1 i1
    rcases hpod with h | h
    · exact h
    · rcases i2 with i2 | i2
      · obtain ⟨y, rfl⟩ := (ip_end L2 e2).1 i2
        exact h
      · obtain ⟨a, rfl, ha⟩ := d4.1 i2
        rw [show a.kind = .pod from h] at ha; cases ha
  · rw [← Bool.not_eq_true]
    intro h
    obtain ⟨a, ha, hk⟩ := s4.1 h
    exact hdns a ha hk

end
end K8sParser
end Verif
