import Verif.PropsTwins
/-!
Property theorems C62 (two pods of a workload are enough), for whole configurations.
-/
namespace Verif
open ISet PeerSet

namespace GtwParser
open Container CalicoParser IstioParser IngressParser SidecarParser

section
variable {V2 X2 : Type} {A2 : VAlg Dim V2 X2} {W2 : Dim → V2 → Prop} {dfa : List Char → V2} {word : X2 → List Char} {D : V2 → Prop}
  {cls : Char → Bool} {ord : SetOrder} {B : PeerDom} {K : CharCls} {svcTexts : List SvcText} {ts : List SidecarText}
  {gts : List GatewayText} {vts : List VsText} {rx : List Char → String → Bool}
  {nodes : Nat} {cidrs : IpBlock → String} {l : List Topology.Step} {reg : PodReg} {l0 : List (String × NamedPorts)} {t : Topology.Topo}
  {rg : PodReg} {c : Container} {sa : String → List Char}
  (L2 : A2.Lawful W2)

/-- C62: the connections that the program computes with Kubernetes and Calico policies, from at most two pods of each workload, are those
that the policies allow in the cluster with all pods: every two places of it have places of the program for which the
connections are the same.
PARTIAL: for documents that the code reads right (`Topology.Tame`, `Topology.Uniform`), and as C49 otherwise. -/
theorem C62_calico_config_partial (ht : Topology.Tame nodes cidrs l) (hr : reg.Reach l0) (e : Topology.read cidrs ord reg l = some t)
    (hl0 : ∀ k a, (k, a) ∈ l0 → LegalPorts a) (hlp : ∀ m ∈ Topology.members nodes l, LegalPorts (podPorts m.ports)) (room : t.reg.keys.length < maxPods)
    (early : ∀ m ∈ Topology.members nodes l, ∀ a, (m.key, a) ∈ l0 → a = podPorts m.ports) (hu : Topology.Uniform nodes l) (hf : Topology.Full nodes l rg c)
    (hK : K.Ok) (hB : Covers t.reg t.container B) {dflt : Ns} {ds : List Doc} {is : List Item}
    (hm : List.Forall₂ (Doc.Means K dflt) ds is) (hk : ∀ x, Item.k8s x ∈ is → K8sParser.Cluster t.reg t.container) (hi : ∀ i ∈ is, i.Tame t.container)
    {pols : List (Policy (HC Dim (ISet ⊕ V2)) (ConnPeers W2 B))} (hp : docPolicies K A2 W2 B ord t.reg t.container dflt ds = some pols)
    {st : PolicyStore (HC Dim (ISet ⊕ V2)) (ConnPeers W2 B)} (hb : PolicyStore.build pols = some st)
    (f : ConnFilter) (hfa : f.calcAllAllowed = true) (hh : f.calcAllowed = false ∨ ∀ p ∈ t.container, p.kind ≠ .hep)
    {src dst : Place} (hs : Topology.Lies nodes l src) (hd : Topology.Lies nodes l dst) (hne : src ≠ dst) (hw : IsKind c src [.pod, .hep] ∨ IsKind c dst [.pod, .hep]) :
    ∃ R R', R ≠ R' ∧ Topology.PlaceFor nodes l t src R ∧ Topology.PlaceFor nodes l t dst R' ∧
      ∀ (p : Point (connA A2 B)) (q : Conn), IsConn t.reg t.container p R R' q →
        ((connNet L2 B).K.mem p (configConns (connNet L2 B).toNet (calicoPeers A2 W2 B t.reg t.container) st.layers f).allAllowed = true ↔
          CalicoSays rg c is src dst q) := by
  obtain ⟨R, R', h1, h2, h3⟩ := Topology.C62_places ht hr e hs hd hne
  have t1 := Topology.for_twins (sa := fun _ => []) (sa' := fun _ => []) ht hr e hf early hu (.inl fun _ _ => rfl) h2
  have t2 := Topology.for_twins (sa := fun _ => []) (sa' := fun _ => []) ht hr e hf early hu (.inl fun _ _ => rfl) h3
  refine ⟨R, R', h1, h2, h3, fun p q hq => ?_⟩
  rw [C49_config_partial L2 hK (Topology.C61_calico_cluster ht hr e hl0 hlp room) hB hm hk hi hp hb f hfa hh p R R' q hq
    (by rw [← t1.isKind, ← t2.isKind]; exact hw), t1.calico t2]

/-- C62: the same for whole configurations: with authorization policies, Ingress resources, sidecars and gateways.
PARTIAL: for documents that the code reads right (`Topology.Tame`, `Topology.Uniform`), and as C60 otherwise. -/
theorem C62_config_partial (ht : Topology.Tame nodes cidrs l) (hr : reg.Reach l0) (e : Topology.read cidrs ord reg l = some t)
    (hl0 : ∀ k a, (k, a) ∈ l0 → LegalPorts a) (hlp : ∀ m ∈ Topology.members nodes l, LegalPorts (podPorts m.ports)) (room : t.reg.keys.length < maxPods)
    (early : ∀ m ∈ Topology.members nodes l, ∀ a, (m.key, a) ∈ l0 → a = podPorts m.ports) (hu : Topology.Uniform nodes l) (hfl : Topology.Full nodes l rg c)
    (hsa : Topology.FullAccounts nodes l sa) (hI : IstioCluster (t.env cls) t.reg t.container)
    (hK : K.Ok) (hD : IngressLib A2 W2 dfa word D) (hB : Covers t.reg t.container B)
    (hl : SvcsTame t.reg t.container svcTexts) (hN : Named t.container svcTexts) {svcs : List (String × Svc)} (hs : services t.reg t.container svcTexts = some svcs)
    {dflt : Ns} {ds : List CfgDoc} {is : List Item}
    (hm : List.Forall₂ (Doc.Means K dflt) ((ds.filterMap CfgDoc.policy?).filterMap AnyDoc.net?) is) (hi : ∀ i ∈ is, i.Tame t.container)
    (hg : ∀ x ∈ ds.filterMap CfgDoc.ingress?, x.Tame t.container svcTexts) (hts : ∀ x ∈ ts, x.Tame t.container svcTexts)
    (hrx : RxOk rx) (hgt : ∀ g ∈ gts, g.Tame) (hgd : NamesDiffer gts) (hvt : ∀ v ∈ vts, v.Tame t.container svcTexts gts) (hvd : VsDiffer vts)
    {pols gp sc : List (Policy (HC Dim (ISet ⊕ V2)) (ConnPeers W2 B))} (hp : cfgPolicies K A2 W2 dfa (t.env cls) B ord t.reg t.container svcs dflt ds = some pols)
    (hgp : gatewayPolicies A2 W2 dfa cls rx B ord t.reg svcs t.container gts vts = some gp) (hsc : sidecarPolicies A2 W2 B ord t.reg t.container svcs ts = some sc)
    {st : PolicyStore (HC Dim (ISet ⊕ V2)) (ConnPeers W2 B)} (hb : PolicyStore.build (loadOrder (pols ++ gp ++ sc)) = some st)
    (f : ConnFilter) (hfa : f.calcAllAllowed = true)
    {src dst : Place} (hls : Topology.Lies nodes l src) (hld : Topology.Lies nodes l dst) (hne : src ≠ dst) (hw : IsKind c src [.pod] ∨ IsKind c dst [.pod]) :
    ∃ R R', R ≠ R' ∧ Topology.PlaceFor nodes l t src R ∧ Topology.PlaceFor nodes l t dst R' ∧
      ∀ (p : Point (connA A2 B)) (q : Conn) (r : Request), IsConn t.reg t.container p R R' q → IsRequest word t.reg t.container p R R' r →
        (∀ x ∈ (ds.filterMap CfgDoc.policy?).filterMap AnyDoc.istio?, x.Tame R) → (∀ x ∈ ds.filterMap CfgDoc.ingress?, HostTame x r.host) →
        ReqsTame t.reg t.container svcTexts gts vts R' r →
        (IsKind c dst [.dns] → ∃ E, IsKind t.container E [.pod] ∧ ∀ x ∈ (ds.filterMap CfgDoc.policy?).filterMap AnyDoc.istio?, ¬ x.Denies → ¬ x.Applies t.container E) →
        (IsKind c dst [.dns] → ∃ E, IsKind t.container E [.pod] ∧ ∀ s, MeshRoute svcTexts vts s → ¬ Picks t.container s E) →
        ((connNet L2 B).K.mem p (configConns (connNet L2 B).toNet (calicoPeers A2 W2 B t.reg t.container) st.layers f).allAllowed = true ↔
          ((CalicoSays rg c is src dst q ∧
            ((ds.filterMap CfgDoc.policy?).filterMap AnyDoc.istio? ≠ [] ∨ ts ≠ [] → Sender c src ∧ (IsKind c dst [.dns] → r.proto = 6) ∧
              (r.proto = 6 → IstioSays sa c ((ds.filterMap CfgDoc.policy?).filterMap AnyDoc.istio?) src dst r ∧ SidecarsSay c svcTexts ts src dst))) ∧
          (ds.filterMap CfgDoc.ingress? ≠ [] → GatewaySays rg c svcTexts (ds.filterMap CfgDoc.ingress?) src dst r)) ∧
          ((∃ g ∈ gts, g.Works c) ∧ vts ≠ [] → Sender c src ∧ (IsKind c dst [.dns] → r.proto = 6) ∧ (r.proto = 6 → GatewaysSay rg c svcTexts gts vts src dst r))) := by
  obtain ⟨R, R', h1, h2, h3⟩ := Topology.C62_places ht hr e hls hld hne
  have t1 := Topology.for_twins (sa := sa) (sa' := (t.env cls).sa) ht hr e hfl early hu (.inr ⟨⟨cls, rfl⟩, hsa⟩) h2
  have t2 := Topology.for_twins (sa := sa) (sa' := (t.env cls).sa) ht hr e hfl early hu (.inr ⟨⟨cls, rfl⟩, hsa⟩) h3
  have sw := Topology.same_works ht hr e hfl early hu
  refine ⟨R, R', h1, h2, h3, fun p q r hq hrq hta hh hrt hd1 hd2 => ?_⟩
  rw [C60_config_partial L2 hK (Topology.C61_calico_cluster ht hr e hl0 hlp room) hI hD hB hl hN hs hm hi hta hg hts hrx hgt hgd hvt hvd hp hgp hsc hb f hfa p q hq r hrq hh hrt
    (by rw [← t1.isKind, ← t2.isKind]; exact hw) (fun h => hd1 ((t2.isKind _).2 h)) (fun h => hd2 ((t2.isKind _).2 h)), t1.calico t2, t1.sender, t2.isKind, t1.istio t2, t1.sidecars t2,
    t1.ingress t2, t1.gateways t2 sw]
  simp only [sw _]

end

end GtwParser
end Verif
