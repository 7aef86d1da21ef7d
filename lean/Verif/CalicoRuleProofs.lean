import Verif.CalicoParseProofs
/-!
Lemmas for C48: the connections of the cubes that Calico's rules are made of.
-/
namespace Verif
open ISet IpBlock PeerSet

namespace CalicoParser
open Container

section
variable {V2 X2 : Type} {A2 : VAlg Dim V2 X2} {W2 : Dim → V2 → Prop} {B : PeerDom} {ord : SetOrder} {rg : PodReg}

/-- The value of a dimension. -/
def optVal (A2 : VAlg Dim V2 X2) (B : PeerDom) (y : Dim) : Option ISet → ISet ⊕ V2
  | none => (connA A2 B).dom y
  | some l => .inl l

/-- The cube of a rule, from the values of its two peer dimensions. -/
def wideCube (A2 : VAlg Dim V2 X2) (B : PeerDom) (vS vD : ISet ⊕ V2) (d : RuleDict) : ConnCube V2 where
  val
    | .srcPeers => vS
    | .dstPeers => vD
    | .protocols => optVal A2 B .protocols d.protocols
    | .srcPorts => optVal A2 B .srcPorts (d.srcPorts.map (·.ports))
    | .dstPorts => optVal A2 B .dstPorts (d.dstPorts.map (·.ports))
    | .icmpType => optVal A2 B .icmpType (d.icmpType.map fun n => single n n)
    | .icmpCode => optVal A2 B .icmpCode (d.icmpCode.map fun n => single n n)
    | y => (connA A2 B).dom y
  named := (d.dstPorts.map (·.named)).getD ∅
  excluded := (d.dstPorts.map (·.excluded)).getD ∅

theorem ruleCube_eq (d : RuleDict) :
    ruleCube A2 B rg d = (peerDimVal A2 B rg.keys .srcPeers (some d.srcPeers)).bind (fun vS =>
      (peerDimVal A2 B rg.keys .dstPeers (some d.dstPeers)).map (fun vD => wideCube A2 B vS vD d)) := by
  unfold ruleCube
  simp only [Option.bind_eq_bind, Option.pure_def]
  rw [setPeers_eq (A2 := A2) (B := B) _ .srcPeers rfl, Option.bind_map]
  congr 1
  funext vS
  simp only [Function.comp_apply]
  rw [setPeers_eq (A2 := A2) (B := B) _ .dstPeers (by rfl), Option.bind_map]
  cases peerDimVal A2 B rg.keys .dstPeers (some d.dstPeers) with
  | none => rfl
  | some vD =>
    simp only [Function.comp_apply, Option.bind_some, Option.map_some]
    congr 1
    obtain ⟨S, D, T, P, Q, i, j⟩ := d
    cases T <;> cases P <;> cases Q <;> cases i <;> cases j <;> exact cube_ext (fun y => by cases y <;> rfl) rfl rfl

/-- The values of a rule are legal. -/
structure RuleDict.Legal (X2 : Type) (reg : List String) (B : PeerDom) (d : RuleDict) : Prop where
  peers : ∀ Z, Z = d.srcPeers ∨ Z = d.dstPeers →
    Z.Ok ∧ (∀ k, Z.HasPod k → k ∈ reg) ∧ ∀ z, PeerSet.At (X2 := X2) reg Z (.inl z) → Mem z B.idx
  protocols : ∀ l, d.protocols = some l → Canonical l ∧ ∀ z, Mem z l → 0 ≤ z ∧ z ≤ 255
  ports : ∀ P, d.srcPorts = some P ∨ d.dstPorts = some P → Canonical P.ports ∧ ∀ z, Mem z P.ports → 1 ≤ z ∧ z ≤ 65535
  icmpType : ∀ t, d.icmpType = some t → 0 ≤ t ∧ t ≤ 254
  icmpCode : ∀ t, d.icmpCode = some t → 0 ≤ t ∧ t ≤ 255

/-- The coordinates other than the destination port are as the rule says. -/
structure RuleDict.Fits (A2 : VAlg Dim V2 X2) (B : PeerDom) (reg : List String) (d : RuleDict) (p : Point (connA A2 B)) : Prop where
  src : d.srcPeers.At reg (p.1 .srcPeers)
  dst : d.dstPeers.At reg (p.1 .dstPeers)
  protocols : ∀ l, d.protocols = some l → ∃ n, p.1 .protocols = .inl n ∧ Mem n l
  srcPorts : ∀ P, d.srcPorts = some P → ∃ n, p.1 .srcPorts = .inl n ∧ Mem n P.ports
  icmpType : ∀ t, d.icmpType = some t → p.1 .icmpType = .inl t
  icmpCode : ∀ t, d.icmpCode = some t → p.1 .icmpCode = .inl t

theorem optVal_wf {L2 : A2.Lawful W2} {y : Dim} (hy : y.isDfa = false) {o : Option ISet}
    (h : ∀ l, o = some l → Canonical l ∧ ∀ z, Mem z l → Mem z (connDom B.idx y)) : connWf W2 B y (optVal A2 B y o) := by
  cases o with
  | none => exact (connA_lawful B L2).wf_dom _
  | some l => exact ⟨hy, (h l rfl).1, (h l rfl).2⟩

theorem optVal_mem {y : Dim} {o : Option ISet} (h : ∀ l, o = some l → Canonical l) (p : Point (connA A2 B)) :
    (connA A2 B).mem (p.1 y) (optVal A2 B y o) = true ↔ ∀ l, o = some l → ∃ n, p.1 y = .inl n ∧ Mem n l := by
  cases o with
  | none => exact ⟨fun _ l h => by simp at h, fun _ => p.2 y⟩
  | some l =>
    have : (connA A2 B).mem (p.1 y) (.inl l) = true ↔ ∃ n, p.1 y = .inl n ∧ Mem n l := by
      cases hp : p.1 y with
      | inl z => refine (mem_inl A2 B z _ (h l rfl)).trans ?_; simp
      | inr z => constructor <;> intro h
                 · change false = true at h; simp at h
                 · simp at h
    refine Iff.trans this ?_
    exact ⟨fun h l' hl' => by cases hl'; exact h, fun h => h l rfl⟩

theorem single_mem {n z : Int} : Mem z (single n n) ↔ z = n := by
  have h : Mem z (single n n) ↔ n ≤ z ∧ z ≤ n := mem_singleton
  rw [h]; omega

theorem single_canon (n : Int) : Canonical (single n n) := canonical_singleton.2 (Int.le_refl n)

variable (L2 : A2.Lawful W2)

include L2 in
/-- The cube of a rule with legal values is legal. -/
theorem wideCube_legal {d : RuleDict} {reg : List String} (hd : d.Legal X2 reg B) {vS vD : ISet ⊕ V2}
    (wS : connWf W2 B .srcPeers vS) (wD : connWf W2 B .dstPeers vD) : (wideCube A2 B vS vD d).Legal W2 B := by
  have cS : ∀ l, d.srcPorts.map (·.ports) = some l → Canonical l ∧ ∀ z, Mem z l → Mem z ([⟨1, 65535⟩] : ISet) := by
    intro l h
    obtain ⟨P, h1, rfl⟩ := Option.map_eq_some_iff.1 h
    have := hd.ports P (Or.inl h1)
    exact ⟨this.1, fun z hz => mem_singleton.2 (this.2 z hz)⟩
  have cD : ∀ l, d.dstPorts.map (·.ports) = some l → Canonical l ∧ ∀ z, Mem z l → Mem z ([⟨1, 65535⟩] : ISet) := by
    intro l h
    obtain ⟨P, h1, rfl⟩ := Option.map_eq_some_iff.1 h
    have := hd.ports P (Or.inr h1)
    exact ⟨this.1, fun z hz => mem_singleton.2 (this.2 z hz)⟩
  have cT : ∀ l, (d.icmpType.map fun n => single n n) = some l → Canonical l ∧ ∀ z, Mem z l → Mem z ([⟨0, 254⟩] : ISet) := by
    intro l h
    obtain ⟨n, h1, rfl⟩ := Option.map_eq_some_iff.1 h
    exact ⟨single_canon n, fun z hz => mem_singleton.2 (by rw [single_mem.1 hz]; exact hd.icmpType n h1)⟩
  have cC : ∀ l, (d.icmpCode.map fun n => single n n) = some l → Canonical l ∧ ∀ z, Mem z l → Mem z ([⟨0, 255⟩] : ISet) := by
    intro l h
    obtain ⟨n, h1, rfl⟩ := Option.map_eq_some_iff.1 h
    exact ⟨single_canon n, fun z hz => mem_singleton.2 (by rw [single_mem.1 hz]; exact hd.icmpCode n h1)⟩
  intro y
  cases y with
  | srcPeers => exact wS
  | dstPeers => exact wD
  | protocols =>
    exact optVal_wf (L2 := L2) rfl (fun l h => ⟨(hd.protocols l h).1, fun z hz => mem_singleton.2 ((hd.protocols l h).2 z hz)⟩)
  | srcPorts => exact optVal_wf (L2 := L2) rfl cS
  | dstPorts => exact optVal_wf (L2 := L2) rfl cD
  | icmpType => exact optVal_wf (L2 := L2) rfl cT
  | icmpCode => exact optVal_wf (L2 := L2) rfl cC
  | methods => exact (connA_lawful B L2).wf_dom _
  | hosts => exact (connA_lawful B L2).wf_dom _
  | paths => exact (connA_lawful B L2).wf_dom _

/-- The connections of a cube of a rule. -/
theorem makeRule_sem (hr : Base.Reach rg.keys) (hp : ∀ k, LegalPorts (rg.named k)) {d : RuleDict} (hd : d.Legal X2 rg.keys B)
    (hsrc : (∀ P, d.dstPorts = some P → P.excluded = ∅) ∨
      ∃ z, Mem z B.idx ∧ ¬ PeerSet.At (X2 := X2) rg.keys d.srcPeers (.inl z)) :
    ∃ h, makeRule A2 B ord rg d = some h ∧ HcStrongT (connA A2 B) (connWf W2 B) allDims h ∧
      ∀ p, (connNet L2 B).K.mem p h = true ↔ d.Fits A2 B rg.keys p ∧ ∀ P, d.dstPorts = some P →
        ∃ x, p.1 .dstPorts = .inl x ∧
          (Mem x P.ports ∨ ∃ n k, p.1 .dstPeers = .inl (minPodIndex + (n : Nat)) ∧ rg.keys[n]? = some k ∧
            NamesPort rg (d.protocols.getD [⟨0, 255⟩]) P.named k x) ∧
          ¬ ∃ n k, p.1 .dstPeers = .inl (minPodIndex + (n : Nat)) ∧ rg.keys[n]? = some k ∧
            NamesPort rg (d.protocols.getD [⟨0, 255⟩]) P.excluded k x := by
  have la := connA_lawful B L2
  obtain ⟨vS, eS, wS, mS, iS⟩ := peerDim_spec (A2 := A2) (W2 := W2) hr (x := .srcPeers) (Or.inl rfl)
    (S := some d.srcPeers) (fun Z hZ => hd.peers Z (Or.inl (Option.some.inj hZ).symm))
  obtain ⟨vD, eD, wD, mD, iD⟩ := peerDim_spec (A2 := A2) (W2 := W2) hr (x := .dstPeers) (Or.inr rfl)
    (S := some d.dstPeers) (fun Z hZ => hd.peers Z (Or.inr (Option.some.inj hZ).symm))
  have ec : ruleCube A2 B rg d = some (wideCube A2 B vS vD d) := by
    rw [ruleCube_eq, eS, eD]; rfl
  have cP : ∀ l, d.protocols = some l → Canonical l := fun l h => (hd.protocols l h).1
  have cS : ∀ l, d.srcPorts.map (·.ports) = some l → Canonical l ∧ ∀ z, Mem z l → Mem z ([⟨1, 65535⟩] : ISet) := by
    intro l h
    obtain ⟨P, h1, rfl⟩ := Option.map_eq_some_iff.1 h
    have := hd.ports P (Or.inl h1)
    exact ⟨this.1, fun z hz => mem_singleton.2 (this.2 z hz)⟩
  have cD : ∀ l, d.dstPorts.map (·.ports) = some l → Canonical l ∧ ∀ z, Mem z l → Mem z ([⟨1, 65535⟩] : ISet) := by
    intro l h
    obtain ⟨P, h1, rfl⟩ := Option.map_eq_some_iff.1 h
    have := hd.ports P (Or.inr h1)
    exact ⟨this.1, fun z hz => mem_singleton.2 (this.2 z hz)⟩
  have cT : ∀ l, (d.icmpType.map fun n => single n n) = some l → Canonical l ∧ ∀ z, Mem z l → Mem z ([⟨0, 254⟩] : ISet) := by
    intro l h
    obtain ⟨n, h1, rfl⟩ := Option.map_eq_some_iff.1 h
    exact ⟨single_canon n, fun z hz => mem_singleton.2 (by rw [single_mem.1 hz]; exact hd.icmpType n h1)⟩
  have cC : ∀ l, (d.icmpCode.map fun n => single n n) = some l → Canonical l ∧ ∀ z, Mem z l → Mem z ([⟨0, 255⟩] : ISet) := by
    intro l h
    obtain ⟨n, h1, rfl⟩ := Option.map_eq_some_iff.1 h
    exact ⟨single_canon n, fun z hz => mem_singleton.2 (by rw [single_mem.1 hz]; exact hd.icmpCode n h1)⟩
  have hc : (wideCube A2 B vS vD d).Legal W2 B := wideCube_legal L2 hd wS wD
  have hT : (wideCube A2 B vS vD d).ints .protocols = d.protocols.getD [⟨0, 255⟩] := by
    show (match optVal A2 B .protocols d.protocols with | .inl l => l | .inr _ => []) = _
    cases d.protocols <;> rfl
  have icmp : ∀ (o : Option Int) (y : Dim) (p : Point (connA A2 B)),
      (∀ l, (o.map fun n => single n n) = some l → ∃ n, p.1 y = .inl n ∧ Mem n l) ↔ ∀ t, o = some t → p.1 y = .inl t := by
    intro o y p
    constructor
    · intro h t ht
      obtain ⟨n, h1, h2⟩ := h (single t t) (by rw [ht]; rfl)
      rw [h1, single_mem.1 h2]
    · intro h l hl
      obtain ⟨n, h1, rfl⟩ := Option.map_eq_some_iff.1 hl
      exact ⟨n, h n h1, single_mem.2 rfl⟩
  have hother : ∀ p, OtherDims A2 B (wideCube A2 B vS vD d) p ↔ d.Fits A2 B rg.keys p := by
    intro p
    have mP := optVal_mem (A2 := A2) (B := B) (y := .protocols) cP p
    have mQ := optVal_mem (A2 := A2) (B := B) (y := .srcPorts) (fun l h => (cS l h).1) p
    have mT := (optVal_mem (A2 := A2) (B := B) (y := .icmpType) (fun l h => (cT l h).1) p).trans (icmp _ _ _)
    have mC := (optVal_mem (A2 := A2) (B := B) (y := .icmpCode) (fun l h => (cC l h).1) p).trans (icmp _ _ _)
    constructor
    · intro h
      refine ⟨(mS p).1 (h .srcPeers (by decide) (by decide)) _ rfl, (mD p).1 (h .dstPeers (by decide) (by decide)) _ rfl,
        mP.1 (h .protocols (by decide) (by decide)), fun P hP => ?_, mT.1 (h .icmpType (by decide) (by decide)),
        mC.1 (h .icmpCode (by decide) (by decide))⟩
      exact mQ.1 (h .srcPorts (by decide) (by decide)) P.ports (by rw [hP]; rfl)
    · intro h y _ hy
      cases y with
      | srcPeers => exact (mS p).2 (fun Z hZ => by cases hZ; exact h.src)
      | dstPeers => exact (mD p).2 (fun Z hZ => by cases hZ; exact h.dst)
      | protocols => exact mP.2 h.protocols
      | srcPorts =>
        refine mQ.2 (fun l hl => ?_)
        obtain ⟨P, h1, rfl⟩ := Option.map_eq_some_iff.1 hl
        exact h.srcPorts P h1
      | dstPorts => exact absurd rfl hy
      | icmpType => exact mT.2 h.icmpType
      | icmpCode => exact mC.2 h.icmpCode
      | methods => exact p.2 .methods
      | hosts => exact p.2 .hosts
      | paths => exact p.2 .paths
  have hint : ∀ {v : ISet ⊕ V2} {l}, v = .inl l → (match v with | .inl l => l | .inr _ => []) = l := by
    rintro _ _ rfl; rfl
  cases hP : d.dstPorts with
  | none =>
    refine ⟨hcOfCube (connA A2 B) allDims (wideCube A2 B vS vD d).val, ?_, (ofCube_spec L2 hc).1, fun p => ?_⟩
    · unfold makeRule
      rw [ec, Option.bind_some]
      unfold makeConnProps
      rw [if_pos]
      simp [wideCube, hP]
    · rw [(ofCube_spec L2 hc).2, ← hother]
      refine ⟨fun h => ⟨fun y hy _ => h y hy, fun P hP => by simp at hP⟩, fun h y hy => ?_⟩
      by_cases a : y = .dstPorts
      · subst a
        have : (wideCube A2 B vS vD d).val .dstPorts = (connA A2 B).dom .dstPorts := by
          show optVal A2 B .dstPorts (d.dstPorts.map (·.ports)) = _
          rw [hP]; rfl
        rw [this]
        exact p.2 .dstPorts
      · exact h.1 y hy a
  | some P =>
    obtain ⟨l, hl, hlm⟩ := iD _ rfl
    have hv : ∀ z, Mem z ((wideCube A2 B vS vD d).ints .dstPeers) → (∃ x : Ip, z = x.idx) ∨ ∃ n : Nat, n < rg.keys.length ∧ z = minPodIndex + n := by
      intro z hz
      have : (wideCube A2 B vS vD d).ints .dstPeers = l := hint hl
      rw [this, hlm] at hz
      rcases hz with ⟨x, hx, _⟩ | ⟨n, k, hn, hk, _⟩
      · cases hx; exact Or.inl ⟨x, rfl⟩
      · cases hn; exact Or.inr ⟨n, (List.getElem?_eq_some_iff.1 hk).1, rfl⟩
    have h1 : (wideCube A2 B vS vD d).named = P.named := by simp [wideCube, hP]
    have h2 : (wideCube A2 B vS vD d).excluded = P.excluded := by simp [wideCube, hP]
    have h3 : (wideCube A2 B vS vD d).ints .dstPorts = P.ports := by
      show (match optVal A2 B .dstPorts (d.dstPorts.map (·.ports)) with | .inl l => l | .inr _ => []) = _
      rw [hP]; rfl
    have hs : (wideCube A2 B vS vD d).excluded = ∅ ∨ ∃ z, Mem z B.idx ∧ ¬ Mem z ((wideCube A2 B vS vD d).ints .srcPeers) := by
      rcases hsrc with h | ⟨z, hz, hn⟩
      · exact Or.inl (h2.trans (h P hP))
      · right
        obtain ⟨l', hl', hm'⟩ := iS _ rfl
        refine ⟨z, hz, ?_⟩
        have : (wideCube A2 B vS vD d).ints .srcPeers = l' := hint hl'
        rw [this, hm']; exact hn
    obtain ⟨h, e, st, m⟩ := C43_named_ports L2 (ord := ord) hr hp hc hv hs
    refine ⟨h, ?_, st, fun p => (m p).trans (and_congr (hother p) ?_)⟩
    · unfold makeRule; rw [ec, Option.bind_some, e]
    · rw [hT, h1, h2, h3]
      exact ⟨fun h P' hP' => by cases hP'; exact h, fun h => h P rfl⟩

end
end CalicoParser
end Verif
