import Verif.IstioOpProofs
/-!
C50: the rules of Istio's authorization policies, as the parser reads them, match exactly the requests that the texts
say.
-/
namespace Verif
open ISet IpBlock PeerSet

namespace IstioParser
open Container CalicoParser

section
variable {V2 X2 : Type} {A2 : VAlg Dim V2 X2} {W2 : Dim → V2 → Prop} {dfa : List Char → V2} {word : X2 → List Char} {D : V2 → Prop}
variable {ord : SetOrder} {rg : PodReg} {V : Env} {c : Container}

theorem request_port {p : Point (connA A2 PeerDom.default)} {src dst : Place} {q : Request} (hp : IsRequest word rg c p src dst q) :
    1 ≤ q.port ∧ q.port ≤ 65535 := by
  have := p.2 .dstPorts
  rw [hp.port] at this
  exact mem_singleton.1 ((mem_inl A2 PeerDom.default _ _ (canonical_singleton.2 (by decide))).1 this)

/-- C50: every element of a connection set whose two ends are known is a request, so that nothing is left out of the
theorems below. -/
theorem C50_every_point (word : X2 → List Char) {p : Point (connA A2 PeerDom.default)} {src dst : Place} (hs : src.At rg c (p.1 .srcPeers))
    (hd : dst.At rg c (p.1 .dstPeers)) : ∃ q, IsRequest word rg c p src dst q := by
  have num : ∀ {d : Dim} {a b : Int}, d.isDfa = false → connDom PeerDom.default.idx d = [⟨a, b⟩] → a ≤ b → ∃ z, p.1 d = .inl z ∧ a ≤ z ∧ z ≤ b := by
    intro d a b hd hb hab
    have h := p.2 d
    have hdom : (connA A2 PeerDom.default).dom d = .inl [⟨a, b⟩] := by
      show (if d.isDfa then _ else _) = _
      rw [hd, ← hb]; rfl
    rw [hdom] at h
    cases e : p.1 d with
    | inl z =>
      rw [e] at h
      exact ⟨z, rfl, mem_singleton.1 ((mem_inl A2 PeerDom.default _ _ (canonical_singleton.2 hab)).1 h)⟩
    | inr x => rw [e] at h; exact absurd h (by simp [sumAlg])
  have str : ∀ {d : Dim}, d.isDfa = true → ∃ x, p.1 d = .inr x := by
    intro d hd
    have h := p.2 d
    have hdom : (connA A2 PeerDom.default).dom d = .inr (A2.dom d) := by
      show (if d.isDfa then _ else _) = _
      rw [hd]; rfl
    rw [hdom] at h
    cases e : p.1 d with
    | inl z => rw [e] at h; exact absurd h (by simp [sumAlg])
    | inr x => exact ⟨x, rfl⟩
  obtain ⟨z1, e1, _⟩ := num (d := .protocols) rfl rfl (by decide)
  obtain ⟨z2, e2, _⟩ := num (d := .dstPorts) rfl rfl (by decide)
  obtain ⟨z3, e3, h3, h3'⟩ := num (d := .methods) rfl rfl (by decide)
  obtain ⟨x1, f1⟩ := str (d := .hosts) rfl
  obtain ⟨x2, f2⟩ := str (d := .paths) rfl
  obtain ⟨n, rfl⟩ := Int.eq_ofNat_of_zero_le h3
  have hn : n < MethodSet.allMethods.length := by
    have : MethodSet.allMethods.length = 9 := rfl
    omega
  exact ⟨⟨z1, z2, MethodSet.allMethods[n], word x1, word x2⟩, hs, hd, e1, e2, ⟨n, e3, List.getElem?_eq_getElem hn⟩, ⟨x1, f1, rfl⟩, ⟨x2, f2, rfl⟩⟩

variable (L2 : A2.Lawful W2)

/-- The connections of a dictionary without names of ports. -/
theorem dict_sem (hr : Base.Reach rg.keys) {d : ConnDict} (hd : d.Legal X2 rg.keys PeerDom.default)
    (hP : ∀ P, d.dstPorts = some P → P.named = ∅ ∧ P.excluded = ∅) :
    ∃ h, makeFromDict A2 PeerDom.default ord rg d = some h ∧
      HcStrongT (connA A2 PeerDom.default) (connWf W2 PeerDom.default) allDims h ∧
      ∀ p, (connNet L2 PeerDom.default).K.mem p h = true ↔ d.Fits A2 PeerDom.default rg.keys p ∧
        ∀ P, d.dstPorts = some P → ∃ x, p.1 .dstPorts = .inl x ∧ Mem x P.ports := by
  have la := connA_lawful PeerDom.default L2
  obtain ⟨S, E, T, P⟩ := d
  obtain ⟨vS, eS, wS, mS, iS⟩ := peerDim_spec (A2 := A2) (W2 := W2) hr (x := .srcPeers) (Or.inl rfl) (fun Z hZ => hd.peers Z (Or.inl hZ))
  obtain ⟨vD, eD, wD, mD, iD⟩ := peerDim_spec (A2 := A2) (W2 := W2) hr (x := .dstPeers) (Or.inr rfl) (fun Z hZ => hd.peers Z (Or.inr hZ))
  dsimp only at eS eD mS mD hP
  have cT : ∀ l, T = some l → Canonical l ∧ ∀ z, Mem z l → Mem z ([⟨0, 255⟩] : ISet) := fun l h =>
    ⟨(hd.protocols l h).1, fun z hz => mem_singleton.2 ((hd.protocols l h).2 z hz)⟩
  have cP : ∀ l, P.map (·.ports) = some l → Canonical l ∧ ∀ z, Mem z l → Mem z ([⟨1, 65535⟩] : ISet) := by
    intro l h
    obtain ⟨Q, h1, rfl⟩ := Option.map_eq_some_iff.1 h
    exact ⟨(hd.ports Q h1).1, fun z hz => mem_singleton.2 ((hd.ports Q h1).2 z hz)⟩
  have ec : ConnCube.ofDict A2 PeerDom.default rg ⟨S, E, T, P⟩ = some (dictCube A2 PeerDom.default vS vD T P) := by
    rw [ofDict_eq, eS, eD]; rfl
  have hval : ∀ y, (dictCube A2 PeerDom.default vS vD T P).val y = match y with
      | .srcPeers => vS
      | .dstPeers => vD
      | .protocols => optVal A2 PeerDom.default .protocols T
      | .dstPorts => optVal A2 PeerDom.default .dstPorts (P.map (·.ports))
      | y => (connA A2 PeerDom.default).dom y := by
    intro y
    cases T <;> cases P <;> cases y <;> rfl
  have hc : ∀ y, connWf W2 PeerDom.default y ((dictCube A2 PeerDom.default vS vD T P).val y) := by
    intro y
    rw [hval]
    cases y with
    | srcPeers => exact wS
    | dstPeers => exact wD
    | protocols => exact optVal_wf (L2 := L2) rfl cT
    | dstPorts => exact optVal_wf (L2 := L2) rfl cP
    | _ => exact la.wf_dom _
  have hn : (dictCube A2 PeerDom.default vS vD T P).named = ∅ ∧ (dictCube A2 PeerDom.default vS vD T P).excluded = ∅ := by
    cases P with
    | none => exact ⟨rfl, rfl⟩
    | some P => exact hP P rfl
  obtain ⟨st, me⟩ := ofCube_spec L2 hc
  refine ⟨_, ?_, st, fun p => (me p).trans ?_⟩
  · unfold makeFromDict
    rw [ec, Option.bind_some]
    unfold makeConnProps
    rw [if_pos hn]
  · have mT := optVal_mem (A2 := A2) (B := PeerDom.default) (y := .protocols) (fun l h => (cT l h).1) p
    have mP := optVal_mem (A2 := A2) (B := PeerDom.default) (y := .dstPorts) (fun l h => (cP l h).1) p
    simp only [hval]
    constructor
    · intro h
      refine ⟨⟨(mS p).1 (h .srcPeers (by decide)), (mD p).1 (h .dstPeers (by decide)), mT.1 (h .protocols (by decide))⟩, fun Q hQ => ?_⟩
      exact mP.1 (h .dstPorts (by decide)) Q.ports (by have hQ : P = some Q := hQ; rw [hQ]; rfl)
    · rintro ⟨⟨h1, h2, h3⟩, h4⟩ y _
      cases y with
      | srcPeers => exact (mS p).2 h1
      | dstPeers => exact (mD p).2 h2
      | protocols => exact mT.2 h3
      | dstPorts =>
        refine mP.2 fun l hl => ?_
        obtain ⟨Q, h1, rfl⟩ := Option.map_eq_some_iff.1 hl
        exact h4 Q h1
      | _ => exact p.2 _

/-- The value of an automaton dimension. -/
def dfaVal (A2 : VAlg Dim V2 X2) (y : Dim) : Option V2 → ISet ⊕ V2
  | none => (connA A2 PeerDom.default).dom y
  | some v => .inr v

/-- The connections of an operation. -/
theorem operation_sem (hI : IstioCluster V rg c) (hD : DfaLib A2 W2 dfa word D) {o : Operation} (ho : o.Tame) :
    ∃ h, operation A2 dfa V PeerDom.default ord rg o = some h ∧
      HcStrongT (connA A2 PeerDom.default) (connWf W2 PeerDom.default) allDims h ∧
      ∀ p src dst q, IsRequest word rg c p src dst q → ((connNet L2 PeerDom.default).K.mem p h = true ↔ OperationSays o q) := by
  have la := connA_lawful PeerDom.default L2
  obtain ⟨P, eP, cP, nP, xP, mP⟩ := rulePorts_sem ho.ports ho.notPorts
  obtain ⟨M, eM, cM, mM⟩ := methodsSet_sem ho.methods ho.notMethods
  have hpaths : ListOk o.paths StrPattern := fun l h => ⟨(ho.paths l h).1, fun s hs => ((ho.paths l h).2 s hs).1⟩
  obtain ⟨vp, ep, wp, mp⟩ := dimValues_sem (V := V) hI.word hD (d := .paths) rfl (fun x hx => by
      obtain ⟨t, e, ht⟩ := (hD.paths x).1 hx
      rw [e]
      intro a ha
      rcases List.mem_cons.1 ha with rfl | ha
      · exact Or.inr (Or.inr (Or.inr (Or.inl rfl)))
      · exact ht a ha) hpaths ho.notPaths (fun l hl s hs x hx hm => (hD.paths x).2 (by
      have hh := ((ho.paths l hl).2 s hs).2
      have : ∃ t, word x = '/' :: t := by
        revert hm hh
        generalize word x = w
        intro hm hh
        cases hm with
        | exact => exact ⟨s.tail, by cases s with | nil => cases hh | cons a s => cases hh; rfl⟩
        | presence => simp at hh
        | suffix => simp at hh
        | @«prefix» s t h1 =>
          cases s with
          | nil => exact absurd rfl h1
          | cons a s => simp only [List.cons_append, List.head?_cons, Option.some.injEq] at hh; subst hh; exact ⟨s ++ t, rfl⟩
      obtain ⟨t, e⟩ := this
      exact ⟨t, e, fun a ha => hx a (by rw [e]; exact List.mem_cons_of_mem _ ha)⟩))
  obtain ⟨vh, eh, wh, mh⟩ := dimValues_sem (V := V) hI.word hD (d := .hosts) rfl (fun x hx => (hD.hosts x).1 hx) ho.hosts ho.notHosts
    (fun l hl s hs x hx hm => (hD.hosts x).2 hx)
  have hgiven : (!(full o.ports || full o.notPorts || full o.methods || full o.notMethods || full o.hosts || full o.notHosts || full o.paths ||
      full o.notPaths)) = false := by
    rw [full_iff ho.ports, full_iff ho.notPorts, full_iff ho.methods, full_iff ho.notMethods, full_iff ho.hosts, full_iff ho.notHosts, full_iff ho.paths,
      full_iff ho.notPaths, Bool.not_eq_false']
    simp only [Bool.or_eq_true, isSome_iff]
    have := ho.given
    tauto
  let cube : ConnCube V2 := setDfa (setDfa (((ConnCube.full A2 PeerDom.default).setPorts (some P)).set .methods M) .paths vp) .hosts vh
  have hval : ∀ y, cube.val y = match y with
      | .dstPorts => .inl P.ports
      | .methods => .inl M
      | .paths => dfaVal A2 .paths vp
      | .hosts => dfaVal A2 .hosts vh
      | y => (connA A2 PeerDom.default).dom y := by
    intro y
    cases vp <;> cases vh <;> cases y <;> rfl
  have hmb : ∀ z, Mem z M → Mem z ([⟨0, 8⟩] : ISet) := fun z hz => by
    obtain ⟨n, rfl, m, h, _⟩ := (mM z).1 hz
    have := (List.getElem?_eq_some_iff.1 h).1
    have hlen : MethodSet.allMethods.length = 9 := rfl
    exact mem_singleton.2 ⟨by dsimp only; omega, by dsimp only; omega⟩
  have hdw : ∀ y, y.isDfa = true → ∀ v : Option V2, (∀ w, v = some w → W2 y w) → connWf W2 PeerDom.default y (dfaVal A2 y v) := by
    intro y hy v hv
    cases v with
    | none => exact la.wf_dom _
    | some w => exact ⟨hy, hv w rfl⟩
  have hc : ∀ y, connWf W2 PeerDom.default y (cube.val y) := by
    intro y
    rw [hval]
    cases y with
    | dstPorts => exact ⟨rfl, cP, fun z hz => mem_singleton.2 ((mP z).1 hz).1⟩
    | methods => exact ⟨rfl, cM, hmb⟩
    | paths => exact hdw _ rfl _ wp
    | hosts => exact hdw _ rfl _ wh
    | _ => exact la.wf_dom _
  have hn : cube.named = ∅ ∧ cube.excluded = ∅ := by
    cases vp <;> cases vh <;> exact ⟨nP, xP⟩
  obtain ⟨st, me⟩ := ofCube_spec L2 hc
  refine ⟨_, ?_, st, fun p src dst q hp => (me p).trans ?_⟩
  · unfold operation
    rw [if_neg (by rw [hgiven]; simp)]
    simp only [Option.bind_eq_bind]
    rw [eP, Option.bind_some, eM, Option.bind_some, ep, Option.bind_some, eh, Option.bind_some]
    unfold makeConnProps
    exact if_pos hn
  · simp only [hval]
    obtain ⟨n, en, hn⟩ := hp.method
    obtain ⟨xh, exh, hxh⟩ := hp.host
    obtain ⟨xp, exp, hxp⟩ := hp.path
    have dh : A2.mem xh (A2.dom .hosts) = true := by have := p.2 .hosts; rw [exh] at this; exact this
    have dp : A2.mem xp (A2.dom .paths) = true := by have := p.2 .paths; rw [exp] at this; exact this
    have dm : ∀ y x (v : Option V2), p.1 y = .inr x → ((connA A2 PeerDom.default).mem (p.1 y) (dfaVal A2 y v) = true ↔ ∀ w, v = some w → A2.mem x w = true) := by
      intro y x v e
      cases v with
      | none => exact ⟨fun _ w h => (by cases h), fun _ => p.2 y⟩
      | some w => rw [e]; exact ⟨fun h w' e' => by cases e'; exact h, fun h => h w rfl⟩
    have gp : (connA A2 PeerDom.default).mem (p.1 .dstPorts) (.inl P.ports) = true ↔ Among o.ports (PortIs q.port) ∧ Apart o.notPorts (PortIs q.port) := by
      rw [hp.port]
      refine (mem_inl A2 PeerDom.default _ _ cP).trans ?_
      rw [mP]
      exact ⟨And.right, fun h => ⟨request_port hp, h⟩⟩
    have gm : (connA A2 PeerDom.default).mem (p.1 .methods) (.inl M) = true ↔ Among o.methods (Matches · q.method.toList) ∧ Apart o.notMethods (Matches · q.method.toList) := by
      rw [en]
      refine (mem_inl A2 PeerDom.default _ _ cM).trans ?_
      rw [mM, methodAt_unique hn]
    have ga := (dm .paths xp vp exp).trans (mp xp dp)
    have gh := (dm .hosts xh vh exh).trans (mh xh dh)
    rw [hxp] at ga
    rw [hxh] at gh
    constructor
    · intro h
      obtain ⟨h1, h2⟩ := gp.1 (h .dstPorts (by decide))
      obtain ⟨h3, h4⟩ := gm.1 (h .methods (by decide))
      obtain ⟨h5, h6⟩ := gh.1 (h .hosts (by decide))
      obtain ⟨h7, h8⟩ := ga.1 (h .paths (by decide))
      exact ⟨h1, h2, h3, h4, h5, h6, h7, h8⟩
    · intro h y _
      cases y with
      | dstPorts => exact gp.2 ⟨h.ports, h.notPorts⟩
      | methods => exact gm.2 ⟨h.methods, h.notMethods⟩
      | paths => exact ga.2 ⟨h.paths, h.notPaths⟩
      | hosts => exact gh.2 ⟨h.hosts, h.notHosts⟩
      | _ => exact p.2 _

/-! ### Conditions -/

omit L2 in
theorem dict_legal (hI : IstioCluster V rg c) {S T : Option (PeerSet String)} (hS : ∀ Z, S = some Z ∨ T = some Z → Z.Ok ∧ InCluster c Z) {l : Option ISet}
    (hl : ∀ x, l = some x → Canonical x ∧ ∀ z, Mem z x → 0 ≤ z ∧ z ≤ 255) {P : Option PortSet}
    (hP : ∀ x, P = some x → Canonical x.ports ∧ ∀ z, Mem z x.ports → 1 ≤ z ∧ z ≤ 65535) :
    ConnDict.Legal X2 rg.keys PeerDom.default ⟨S, T, l, P⟩ := by
  refine ⟨fun Z hZ => ?_, hl, hP⟩
  obtain ⟨h1, h2⟩ := hS Z hZ
  refine ⟨h1, fun k hk => ?_, fun z hz => at_default hI.cluster.reach hz⟩
  obtain ⟨p, hp, he⟩ := h2 k hk
  obtain ⟨k', he', hk'⟩ := hI.cluster.elem p hp
  rw [he] at he'; cases he'; exact hk'

theorem tcp_sem (hI : IstioCluster V rg c) : ∃ h, tcpProps A2 PeerDom.default ord rg = some h ∧
    HcStrongT (connA A2 PeerDom.default) (connWf W2 PeerDom.default) allDims h ∧
    ∀ p src dst q, IsRequest word rg c p src dst q → ((connNet L2 PeerDom.default).K.mem p h = true ↔ q.proto = 6) := by
  have e0 : ProtocolSet.add (ProtocolSet.make false) (.name "TCP") = some [⟨6, 6⟩] := by decide +kernel
  have hm : ∀ z, Mem z ([⟨6, 6⟩] : ISet) ↔ z = 6 := fun z => by
    rw [mem_singleton]; unfold Iv.Mem; dsimp only; omega
  obtain ⟨h, e, st, me⟩ := dict_sem L2 (ord := ord) (X2 := X2) hI.cluster.reach (d := ⟨none, none, some [⟨6, 6⟩], none⟩)
    (dict_legal hI (fun Z hZ => by rcases hZ with hZ | hZ <;> cases hZ) (fun x hx => by
      cases hx
      exact ⟨canonical_singleton.2 (by decide), fun z hz => by rw [hm] at hz; omega⟩) (fun x hx => by cases hx)) (fun P hP => by cases hP)
  refine ⟨h, by unfold tcpProps; rw [e0, Option.bind_some, e], st, fun p src dst q hp => (me p).trans ?_⟩
  constructor
  · rintro ⟨⟨_, _, h3⟩, _⟩
    obtain ⟨n, h4, h5⟩ := h3 _ rfl
    rw [hp.proto] at h4; cases h4; exact (hm _).1 h5
  · intro h
    exact ⟨⟨fun Z hZ => (by cases hZ), fun Z hZ => (by cases hZ), fun l hl => by cases hl; exact ⟨_, hp.proto, (hm _).2 h⟩⟩, fun P hP => by cases hP⟩

/-- The peers and the connections have a meaning, for the places that `T` holds of. -/
structure Sound (rg : PodReg) (c : Container) (word : X2 → List Char) (T : Place → Prop) (F : Place → Request → Prop)
    (st : PeerSet String × HC Dim (ISet ⊕ V2)) : Prop where
  ok : st.1.Ok
  inCluster : InCluster c st.1
  sender : ∀ E, T E → Known c E → E.In st.1 → Sender c E
  hok : HcOkT (connA A2 PeerDom.default) (connWf W2 PeerDom.default) allDims st.2
  mem : ∀ p src dst q, IsRequest word rg c p src dst q → T src → (src.In st.1 ∧ (connNet L2 PeerDom.default).K.mem p st.2 = true ↔ F src q)

theorem conditionStep_sem (hI : IstioCluster V rg c) {T : Place → Prop} {F : Place → Request → Prop} {st : PeerSet String × HC Dim (ISet ⊕ V2)}
    (hst : Sound L2 rg c word T F st) {x : Condition} {E0 : Place} (h0 : x.Tame E0) (hx : ∀ E, T E → x.Tame E) :
    ∃ st', conditionStep A2 V PeerDom.default ord rg c st x = some st' ∧ Sound L2 rg c word T (fun E q => F E q ∧ ConditionSays V.sa c E q x) st' := by
  have la := (connNet_lawful L2 PeerDom.default).1
  -- a condition on the source
  have peers : ∀ S : PeerSet String, condition A2 V PeerDom.default ord rg c x = some (.inl S) → S.Ok → InCluster c S →
      (∀ E q, T E → Known c E → Sender c E → (E.In S ↔ ConditionSays V.sa c E q x)) →
      ∃ st', conditionStep A2 V PeerDom.default ord rg c st x = some st' ∧ Sound L2 rg c word T (fun E q => F E q ∧ ConditionSays V.sa c E q x) st' := by
    intro S e o i m
    refine ⟨(st.1.and S, st.2), by unfold conditionStep; rw [e]; rfl, (C22_and_exact hst.ok o).1, InCluster.and hst.ok o (Or.inl hst.inCluster),
      fun E hT hE h => hst.sender E hT hE ((in_and hst.ok o E).1 h).1, hst.hok, fun p src dst q hp hT => ?_⟩
    dsimp only
    rw [in_and hst.ok o, ← hst.mem p src dst q hp hT]
    have hk := at_known hp.src
    constructor
    · rintro ⟨⟨h1, h2⟩, h3⟩
      exact ⟨⟨h1, h3⟩, (m src q hT hk (hst.sender src hT hk h1)).1 h2⟩
    · rintro ⟨⟨h1, h3⟩, h2⟩
      exact ⟨⟨h1, (m src q hT hk (hst.sender src hT hk h1)).2 h2⟩, h3⟩
  have fullOr : ∀ {α : Type} {v n : Option (List α)} {Q : α → Prop}, ListOk v Q → ListOk n Q → (v ≠ none ∨ n ≠ none) → (full v || full n) = true := by
    intro α v n Q hv hn h
    rw [full_iff hv, full_iff hn, Bool.or_eq_true, isSome_iff, isSome_iff]; exact h
  -- a condition on pods
  have pod : ∀ {v n : Option (List (List Char))} {Q : Place → List Char → Prop} {S : PeerSet String} {E : Place}, ListOk v Pattern → (v ≠ none ∨ n ≠ none ∧ ∃ k, E = .pod k) →
      (∀ s, Q E s → IsPod c E) → Sender c E → (E.In S ↔ ListSays c v n Q E) → (E.In S ↔ Among v (Q E) ∧ Apart n (Q E)) := by
    intro v n Q S E hv hvn hQ hs h
    rw [h]
    unfold ListSays
    refine ⟨And.right, fun h => ⟨?_, h⟩⟩
    rcases hvn with h' | ⟨_, hk⟩
    · obtain ⟨l, hl⟩ := Option.ne_none_iff_exists'.1 h'
      obtain ⟨s, _, h''⟩ := h.1 l hl (hv l hl).1
      exact hQ s h''
    · exact (isPod_iff hI.cluster E).2 ⟨hs, hk⟩
  cases x with
  | ip v n =>
    obtain ⟨h1, h2, h3⟩ := h0
    obtain ⟨l, rfl⟩ := Option.ne_none_iff_exists'.1 h3
    obtain ⟨S, e, o, i, m⟩ := parseIpBlock_sem (c := c) (h1 l rfl).1 n
    refine peers S ?_ o i fun E q _ _ _ => m E
    unfold condition
    dsimp only
    rw [if_pos (fullOr h1 h2 (Or.inl h3)), e]; rfl
  | «namespace» v n =>
    obtain ⟨h1, h2, h3⟩ := h0
    obtain ⟨S, e, o, i, m⟩ := parseNamespaces_sem hI h1 h2
    refine peers S ?_ o i fun E q hT hE hs => pod h1 (hx E hT).2.2 (fun s h => fromNs_pod hI h) hs (m E hE)
    unfold condition
    dsimp only
    rw [if_pos (fullOr h1 h2 (h3.imp id And.left)), e]; rfl
  | principal v n =>
    obtain ⟨h1, h2, h3⟩ := h0
    obtain ⟨S, e, o, i, m⟩ := parsePrincipals_sem hI h1 h2
    refine peers S ?_ o i fun E q hT hE hs => pod h1 (hx E hT).2.2 (fun s h => fromPrincipal_pod hI h) hs (m E hE)
    unfold condition
    dsimp only
    rw [if_pos (fullOr h1 h2 (h3.imp id And.left)), e]; rfl
  | port v n =>
    obtain ⟨h1, h2, h3⟩ := h0
    obtain ⟨P, e, cP, nP, xP, mP⟩ := rulePorts_sem h1 h2
    obtain ⟨h, e2, s2, m2⟩ := dict_sem L2 (ord := ord) (X2 := X2) hI.cluster.reach (d := ⟨none, none, none, some P⟩)
      (dict_legal hI (fun Z hZ => by rcases hZ with hZ | hZ <;> cases hZ) (fun x hx => by cases hx)
        (fun x hx => by cases hx; exact ⟨cP, fun z hz => ((mP z).1 hz).1⟩)) (fun Q hQ => by cases hQ; exact ⟨nP, xP⟩)
    refine ⟨(st.1, HC.and (connA A2 PeerDom.default) allDims st.2 h), ?_, hst.ok, hst.inCluster, hst.sender, la.net.and_ok hst.hok (la.net.strong_ok s2),
      fun p src dst q hp hT => ?_⟩
    · unfold conditionStep condition
      dsimp only
      rw [if_pos (fullOr h1 h2 h3), e, Option.bind_some, e2]; rfl
    · have e3 := la.net.mem_and hst.hok (la.net.strong_ok s2) p
      have e4 : (connNet L2 PeerDom.default).K.mem p (HC.and (connA A2 PeerDom.default) allDims st.2 h) = true ↔
          (connNet L2 PeerDom.default).K.mem p st.2 = true ∧ (connNet L2 PeerDom.default).K.mem p h = true := by
        rw [← Bool.and_eq_true]; exact Bool.eq_iff_iff.1 e3
      dsimp only
      rw [e4, ← and_assoc, hst.mem p src dst q hp hT, m2]
      refine and_congr_right fun _ => ?_
      constructor
      · rintro ⟨_, h4⟩
        obtain ⟨y, hy, hy'⟩ := h4 P rfl
        rw [hp.port] at hy; cases hy
        exact ((mP _).1 hy').2
      · intro h4
        refine ⟨⟨fun Z hZ => (by cases hZ), fun Z hZ => (by cases hZ), fun l hl => (by cases hl)⟩, fun Q hQ => ?_⟩
        cases hQ
        exact ⟨_, hp.port, (mP _).2 ⟨request_port hp, h4⟩⟩

theorem conditions_sem (hI : IstioCluster V rg c) {T : Place → Prop} {E0 : Place} (l : List Condition) (h0 : ∀ x ∈ l, x.Tame E0) (hx : ∀ E, T E → ∀ x ∈ l, x.Tame E)
    {F : Place → Request → Prop} {st : PeerSet String × HC Dim (ISet ⊕ V2)} (hst : Sound L2 rg c word T F st) :
    ∃ st', l.foldlM (conditionStep A2 V PeerDom.default ord rg c) st = some st' ∧
      Sound L2 rg c word T (fun E q => F E q ∧ ∀ x ∈ l, ConditionSays V.sa c E q x) st' := by
  induction l generalizing F st with
  | nil =>
    refine ⟨st, rfl, ?_⟩
    simpa using hst
  | cons x l ih =>
    obtain ⟨st1, e1, s1⟩ := conditionStep_sem L2 (ord := ord) hI hst (h0 x List.mem_cons_self) (fun E hE => hx E hE x List.mem_cons_self)
    obtain ⟨st2, e2, s2⟩ := ih (fun y hy => h0 y (List.mem_cons_of_mem _ hy)) (fun E hE y hy => hx E hE y (List.mem_cons_of_mem _ hy)) s1
    refine ⟨st2, by rw [List.foldlM_cons, e1]; exact e2, ?_⟩
    simp only [List.mem_cons, forall_eq_or_imp, ← and_assoc]
    exact s2

/-! ### Rules -/

omit L2 in
theorem free_index (hI : IstioCluster V rg c) : ∃ z, Mem z PeerDom.default.idx ∧ ∀ S : PeerSet String, ¬ PeerSet.At (X2 := X2) rg.keys S (.inl z) := by
  refine ⟨minPodIndex + rg.keys.length, (Base.mem_all _).2 (Or.inr ?_), fun S h => ?_⟩
  · have := hI.room
    unfold maxPodIndex
    omega
  · rcases h with ⟨x, hx, _⟩ | ⟨n, k, hn, hk, _⟩
    · simp only [Sum.inl.injEq] at hx
      have := Base.idx_lt x; omega
    · simp only [Sum.inl.injEq] at hn
      have := (List.getElem?_eq_some_iff.1 hk).1
      omega

/-- Connections can be restricted by connections of sources that miss an index. -/
theorem and_strong (hI : IstioCluster V rg c) {S : PeerSet String} {a b : HC Dim (ISet ⊕ V2)}
    (ha : HcOkT (connA A2 PeerDom.default) (connWf W2 PeerDom.default) allDims a)
    (hb : HcOkT (connA A2 PeerDom.default) (connWf W2 PeerDom.default) allDims b)
    (hS : ∀ p, (connNet L2 PeerDom.default).K.mem p b = true → S.At rg.keys (p.1 .srcPeers)) :
    HcStrongT (connA A2 PeerDom.default) (connWf W2 PeerDom.default) allDims (HC.and (connA A2 PeerDom.default) allDims a b) := by
  have la := (connNet_lawful L2 PeerDom.default).1
  obtain ⟨z, hz1, hz2⟩ := free_index (X2 := X2) hI
  change HcStrongT _ _ allDims ((connNet L2 PeerDom.default).K.and a b)
  by_cases ht : (connNet L2 PeerDom.default).K.truthy b = true
  · refine la.and_wide ha hb (Or.inr ?_)
    obtain ⟨p, hpm⟩ := (la.net.truthy_iff hb).1 ht
    let q : Point (connA A2 PeerDom.default) := ⟨fun d => if d = .srcPeers then .inl z else p.1 d, fun d => by
      by_cases hd : d = .srcPeers
      · subst hd
        dsimp only
        rw [if_pos rfl]
        exact (mem_inl A2 PeerDom.default z _ PeerDom.default.canon).2 hz1
      · dsimp only; rw [if_neg hd]; exact p.2 d⟩
    obtain ⟨t, ht1, ht2, ht3, ht4⟩ := la.splice p q
    refine ht4 hb hpm ?_
    rw [← Bool.not_eq_true]
    intro hm
    have h := hS t hm
    have hs' : t.1 .srcPeers = .inl z := ht1
    rw [hs'] at h
    exact hz2 S h
  · exact la.and_falsy ha hb (by simpa using ht)

omit L2 in
/-- The peers of `from`. -/
theorem fromPeers_sem (hI : IstioCluster V rg c) {r : Option (List Source)} {E0 : Place} (h0 : ListOk r (Source.Tame · E0)) :
    ∃ S, fromPeers V c r = some S ∧ S.Ok ∧ InCluster c S ∧ ∀ E, ListOk r (Source.Tame · E) → Known c E →
      (E.In S ↔ Sender c E ∧ ∀ l, r = some l → ∃ s ∈ l, SourceSays V.sa c s E) := by
  cases r with
  | none =>
    obtain ⟨o, i, m⟩ := senders hI.cluster
    exact ⟨_, rfl, o, i, fun E _ hE => by rw [m E hE]; exact ⟨fun h => ⟨h, fun l hl => by cases hl⟩, And.left⟩⟩
  | some l =>
    obtain ⟨hne, hl⟩ := h0 l rfl
    obtain ⟨q, e, o, i, m⟩ := orAll_sem (f := source V c) (P := fun s E => Sender c E ∧ SourceSays V.sa c s E)
      (K := fun E => Known c E ∧ ∀ s ∈ l, s.Tame E) l (fun s hs => by
        obtain ⟨q, e, o, i, m⟩ := source_sem hI (hl s hs)
        exact ⟨q, e, o, i, fun E hE => m E (hE.2 s hs) hE.1⟩) empty_ok (empty_in (c := c))
    refine ⟨q, by unfold fromPeers; dsimp only; rw [if_neg (by simpa using hne), e], o, i, fun E hT hE => ?_⟩
    rw [m E ⟨hE, (hT l rfl).2⟩, or_iff_right (not_in_empty E)]
    constructor
    · rintro ⟨s, hs, h1, h2⟩
      exact ⟨h1, fun l' e' => by cases e'; exact ⟨s, hs, h2⟩⟩
    · rintro ⟨h1, h2⟩
      obtain ⟨s, hs, h3⟩ := h2 l rfl
      exact ⟨s, hs, h1, h3⟩

theorem mem_and_iff {a b : HC Dim (ISet ⊕ V2)} (ha : HcOkT (connA A2 PeerDom.default) (connWf W2 PeerDom.default) allDims a)
    (hb : HcOkT (connA A2 PeerDom.default) (connWf W2 PeerDom.default) allDims b) (p : Point (connA A2 PeerDom.default)) :
    (connNet L2 PeerDom.default).K.mem p (HC.and (connA A2 PeerDom.default) allDims a b) = true ↔
      (connNet L2 PeerDom.default).K.mem p a = true ∧ (connNet L2 PeerDom.default).K.mem p b = true := by
  rw [← Bool.and_eq_true]
  exact Bool.eq_iff_iff.1 ((connNet_lawful L2 PeerDom.default).1.net.mem_and ha hb p)

theorem mem_or_iff {a b : HC Dim (ISet ⊕ V2)} (ha : HcOkT (connA A2 PeerDom.default) (connWf W2 PeerDom.default) allDims a)
    (hb : HcOkT (connA A2 PeerDom.default) (connWf W2 PeerDom.default) allDims b) (p : Point (connA A2 PeerDom.default)) :
    (connNet L2 PeerDom.default).K.mem p (HC.or (connA A2 PeerDom.default) allDims a b) = true ↔
      (connNet L2 PeerDom.default).K.mem p a = true ∨ (connNet L2 PeerDom.default).K.mem p b = true := by
  rw [← Bool.or_eq_true]
  exact Bool.eq_iff_iff.1 ((connNet_lawful L2 PeerDom.default).1.net.mem_or ha hb p)

theorem mem_empty_iff (p : Point (connA A2 PeerDom.default)) : ¬ (connNet L2 PeerDom.default).K.mem p (HC.empty allDims true) = true := by
  rw [show HC.empty allDims true = (connNet L2 PeerDom.default).K.empty from rfl, (connNet_lawful L2 PeerDom.default).1.net.mem_empty]
  simp

/-- The connections of `to`. -/
theorem toProps_sem (hI : IstioCluster V rg c) (hD : DfaLib A2 W2 dfa word D) {r : Option (List Operation)} (h0 : ListOk r Operation.Tame) :
    ∃ h, toProps A2 dfa V PeerDom.default ord rg c r = some h ∧
      HcOkT (connA A2 PeerDom.default) (connWf W2 PeerDom.default) allDims h ∧
      ∀ p src dst q, IsRequest word rg c p src dst q → ((connNet L2 PeerDom.default).K.mem p h = true ↔
        (∀ l, r = some l → ∃ o ∈ l, OperationSays o q) ∧ (r ≠ none → q.proto = 6)) := by
  have la := (connNet_lawful L2 PeerDom.default).1
  cases r with
  | none =>
    obtain ⟨g1, g2, g3⟩ := everything hI.cluster.ok
    obtain ⟨h, e, st, me⟩ := dict_sem L2 (ord := ord) (X2 := X2) hI.cluster.reach
      (d := ⟨some (c.allPeers true true true), some (c.allPeers true true true), none, none⟩)
      (dict_legal hI (fun Z hZ => by rcases hZ with hZ | hZ <;> (cases hZ; exact ⟨g1, g2⟩)) (fun x hx => by cases hx) (fun x hx => by cases hx))
      (fun P hP => by cases hP)
    refine ⟨h, e, la.net.strong_ok st, fun p src dst q hp => ⟨fun _ => ⟨fun l hl => (by cases hl), fun h => absurd rfl h⟩, fun _ => (me p).2 ?_⟩⟩
    refine ⟨⟨fun Z hZ => ?_, fun Z hZ => ?_, fun l hl => (by cases hl)⟩, fun P hP => by cases hP⟩
    · cases hZ; exact (at_place hI.cluster.reach hp.src _).2 (g3 _ (at_known hp.src))
    · cases hZ; exact (at_place hI.cluster.reach hp.dst _).2 (g3 _ (at_known hp.dst))
  | some l =>
    obtain ⟨hne, hl⟩ := h0 l rfl
    have key : ∀ (l : List Operation) (h0 : HC Dim (ISet ⊕ V2)), (∀ o ∈ l, o.Tame) → HcOkT (connA A2 PeerDom.default) (connWf W2 PeerDom.default) allDims h0 →
        ∃ h, l.foldlM (fun acc o => (operation A2 dfa V PeerDom.default ord rg o).map (HC.or (connA A2 PeerDom.default) allDims acc)) h0 = some h ∧
          HcOkT (connA A2 PeerDom.default) (connWf W2 PeerDom.default) allDims h ∧
          ∀ p src dst q, IsRequest word rg c p src dst q → ((connNet L2 PeerDom.default).K.mem p h = true ↔
            (connNet L2 PeerDom.default).K.mem p h0 = true ∨ ∃ o ∈ l, OperationSays o q) := by
      intro l
      induction l with
      | nil => exact fun h0 _ ok => ⟨h0, rfl, ok, by simp⟩
      | cons o l ih =>
        intro h0 ht ok
        obtain ⟨h1, e1, s1, m1⟩ := operation_sem L2 (ord := ord) hI hD (ht o List.mem_cons_self)
        obtain ⟨h, e, ok', m⟩ := ih (HC.or (connA A2 PeerDom.default) allDims h0 h1) (fun o ho => ht o (List.mem_cons_of_mem _ ho))
          (la.net.or_ok ok (la.net.strong_ok s1))
        refine ⟨h, by rw [List.foldlM_cons, e1]; exact e, ok', fun p src dst q hp => ?_⟩
        rw [m p src dst q hp, mem_or_iff L2 ok (la.net.strong_ok s1), m1 p src dst q hp, or_assoc]
        simp
    obtain ⟨h1, e1, o1, m1⟩ := key l (HC.empty allDims true) hl (la.net.strong_ok la.net.empty_strong)
    obtain ⟨t, et, st, mt⟩ := tcp_sem L2 (ord := ord) (word := word) hI
    refine ⟨HC.and (connA A2 PeerDom.default) allDims h1 t, ?_, la.net.and_ok o1 (la.net.strong_ok st), fun p src dst q hp => ?_⟩
    · unfold toProps
      dsimp only
      rw [if_neg (by simpa using hne), e1, Option.bind_eq_bind, Option.bind_some, et]; rfl
    · rw [mem_and_iff L2 o1 (la.net.strong_ok st), m1 p src dst q hp, mt p src dst q hp, or_iff_right (mem_empty_iff L2 p)]
      constructor
      · rintro ⟨h1, h2⟩
        exact ⟨fun l' e' => by cases e'; exact h1, fun _ => h2⟩
      · rintro ⟨h1, h2⟩
        exact ⟨h1 l rfl, h2 (by simp)⟩

/-- The peers and connections of `when`. -/
theorem whenProps_sem (hI : IstioCluster V rg c) {T : Place → Prop} {E0 : Place} {r : Option (List Condition)}
    (h0 : ∀ l, r = some l → ∀ x ∈ l, x.Tame E0) (hT : ∀ E, T E → ∀ l, r = some l → ∀ x ∈ l, x.Tame E) {S : PeerSet String} (hS : S.Ok) (hi : InCluster c S)
    {F : Place → Prop} (hF : ∀ E, T E → Known c E → (E.In S ↔ F E)) (hs : ∀ E, F E → Sender c E) :
    ∃ st, whenProps A2 V PeerDom.default ord rg c S r = some st ∧ Sound L2 rg c word T (fun E q => F E ∧
      (∀ l, r = some l → ∀ x ∈ l, ConditionSays V.sa c E q x) ∧ (r ≠ none → q.proto = 6)) st := by
  have la := (connNet_lawful L2 PeerDom.default).1
  have start : Sound L2 rg c word T (fun E _ => F E) (S, HC.full true) := by
    refine ⟨hS, hi, fun E hE hk h => hs E ((hF E hE hk).1 h), la.all_ok, fun p src dst q hp hE => ?_⟩
    have : (connNet L2 PeerDom.default).K.mem p (HC.full true) = true := la.mem_all p
    rw [this]
    dsimp only
    rw [hF src hE (at_known hp.src)]
    exact ⟨And.left, fun h => ⟨h, rfl⟩⟩
  cases r with
  | none =>
    refine ⟨_, rfl, start.ok, start.inCluster, start.sender, start.hok, fun p src dst q hp hE => (start.mem p src dst q hp hE).trans ?_⟩
    exact ⟨fun h => ⟨h, fun l hl => (by cases hl), fun h => absurd rfl h⟩, And.left⟩
  | some l =>
    obtain ⟨st, e, s⟩ := conditions_sem L2 (ord := ord) hI l (h0 l rfl) (fun E hE => hT E hE l rfl) start
    obtain ⟨t, et, ot, mt⟩ := tcp_sem L2 (ord := ord) (word := word) hI
    refine ⟨(st.1, HC.and (connA A2 PeerDom.default) allDims st.2 t), ?_, s.ok, s.inCluster, s.sender, la.net.and_ok s.hok (la.net.strong_ok ot),
      fun p src dst q hp hE => ?_⟩
    · unfold whenProps
      dsimp only
      rw [e, Option.bind_eq_bind, Option.bind_some, et]; rfl
    · dsimp only
      rw [mem_and_iff L2 s.hok (la.net.strong_ok ot), ← and_assoc, s.mem p src dst q hp hE, mt p src dst q hp]
      constructor
      · rintro ⟨⟨h1, h2⟩, h3⟩
        exact ⟨h1, fun l' e' => by cases e'; exact h2, fun _ => h3⟩
      · rintro ⟨h1, h2, h3⟩
        exact ⟨⟨h1, h2 l rfl⟩, h3 (by simp)⟩

/-- C50: a rule of an authorization policy matches exactly the requests that its text says, to the workloads that the
policy applies to, if the code reads its texts as Istio does (`AuthRule.Tame`).  Sources are pods and addresses.
Operations and conditions match TCP only. -/
theorem C50_rule_partial (hI : IstioCluster V rg c) (hD : DfaLib A2 W2 dfa word D) {selected : PeerSet String} (hs : selected.Ok) (hi : InCluster c selected)
    {r : AuthRule} {E0 : Place} (h0 : r.Tame E0) :
    ∃ h, parseRule A2 dfa V PeerDom.default ord rg c selected r = some h ∧
      HcStrongT (connA A2 PeerDom.default) (connWf W2 PeerDom.default) allDims h ∧
      (∀ p, (connNet L2 PeerDom.default).K.mem p h = true → selected.At rg.keys (p.1 .dstPeers)) ∧
      ∀ p src dst q, IsRequest word rg c p src dst q → r.Tame src → ((connNet L2 PeerDom.default).K.mem p h = true ↔
        Sender c src ∧ dst.In selected ∧ RuleSays V.sa c r src q ∧ (r.operations ≠ none ∨ r.conditions ≠ none → q.proto = 6)) := by
  have la := (connNet_lawful L2 PeerDom.default).1
  obtain ⟨S, eS, oS, iS, mS⟩ := fromPeers_sem hI h0.sources
  obtain ⟨h1, e1, o1, m1⟩ := toProps_sem L2 (ord := ord) hI hD h0.operations
  obtain ⟨st, e2, s2⟩ := whenProps_sem L2 (ord := ord) (word := word) hI (T := fun E => r.Tame E) h0.conditions (fun E hE => hE.conditions) oS iS
    (F := fun E => Sender c E ∧ ∀ l, r.sources = some l → ∃ s ∈ l, SourceSays V.sa c s E) (fun E hE hk => mS E hE.sources hk) (fun E h => h.1)
  -- the peers
  have last : ∃ h, (if st.1.isEmpty || selected.isEmpty then some (HC.empty allDims true)
        else (makeFromDict A2 PeerDom.default ord rg ⟨some st.1, some selected, none, none⟩).map (HC.and (connA A2 PeerDom.default) allDims st.2)) = some h ∧
      HcOkT (connA A2 PeerDom.default) (connWf W2 PeerDom.default) allDims h ∧
      (∀ p, (connNet L2 PeerDom.default).K.mem p h = true → st.1.At rg.keys (p.1 .srcPeers) ∧ selected.At rg.keys (p.1 .dstPeers)) ∧
      ∀ p src dst q, IsRequest word rg c p src dst q → ((connNet L2 PeerDom.default).K.mem p h = true ↔
        src.In st.1 ∧ dst.In selected ∧ (connNet L2 PeerDom.default).K.mem p st.2 = true) := by
    by_cases he : (st.1.isEmpty || selected.isEmpty) = true
    · rw [if_pos he]
      refine ⟨_, rfl, la.net.strong_ok la.net.empty_strong, fun p h => absurd h (mem_empty_iff L2 p), fun p src dst q hp =>
        ⟨fun h => absurd h (mem_empty_iff L2 p), ?_⟩⟩
      rintro ⟨g1, g2, _⟩
      exfalso
      rw [Bool.or_eq_true, List.isEmpty_iff, List.isEmpty_iff] at he
      rcases he with h | h
      · rw [h] at g1; exact not_in_empty _ g1
      · rw [h] at g2; exact not_in_empty _ g2
    · rw [if_neg he]
      obtain ⟨h, e, s, m⟩ := dict_sem L2 (ord := ord) (X2 := X2) hI.cluster.reach (d := ⟨some st.1, some selected, none, none⟩)
        (dict_legal hI (fun Z hZ => by
          rcases hZ with hZ | hZ <;> cases hZ
          · exact ⟨s2.ok, s2.inCluster⟩
          · exact ⟨hs, hi⟩) (fun x hx => by cases hx) (fun x hx => by cases hx)) (fun P hP => by cases hP)
      refine ⟨HC.and (connA A2 PeerDom.default) allDims st.2 h, by rw [e]; rfl, la.net.and_ok s2.hok (la.net.strong_ok s), fun p hp => ?_,
        fun p src dst q hp => ?_⟩
      · rw [mem_and_iff L2 s2.hok (la.net.strong_ok s), m] at hp
        exact ⟨hp.2.1.1 _ rfl, hp.2.1.2.1 _ rfl⟩
      · rw [mem_and_iff L2 s2.hok (la.net.strong_ok s), m]
        have a1 := at_place hI.cluster.reach hp.src st.1
        have a2 := at_place hI.cluster.reach hp.dst selected
        constructor
        · rintro ⟨g1, ⟨g2, g3, _⟩, _⟩
          exact ⟨a1.1 (g2 _ rfl), a2.1 (g3 _ rfl), g1⟩
        · rintro ⟨g1, g2, g3⟩
          exact ⟨g3, ⟨fun Z hZ => by cases hZ; exact a1.2 g1, fun Z hZ => by cases hZ; exact a2.2 g2, fun l hl => (by cases hl)⟩, fun P hP => by cases hP⟩
  obtain ⟨h3, e3, o3, b3, m3⟩ := last
  refine ⟨HC.and (connA A2 PeerDom.default) allDims h1 h3, ?_, and_strong L2 hI o1 o3 (fun p hp => (b3 p hp).1), fun p hp => ?_, fun p src dst q hp hT => ?_⟩
  · unfold parseRule
    simp only [Option.bind_eq_bind]
    rw [eS, Option.bind_some, e1, Option.bind_some, e2, Option.bind_some]
    by_cases he : (st.1.isEmpty || selected.isEmpty) = true
    · rw [if_pos he] at e3 ⊢
      rw [e3]; rfl
    · rw [if_neg he] at e3 ⊢
      rw [e3]; rfl
  · rw [mem_and_iff L2 o1 o3] at hp
    exact (b3 p hp.2).2
  · rw [mem_and_iff L2 o1 o3, m1 p src dst q hp, m3 p src dst q hp]
    have m2 := s2.mem p src dst q hp hT
    constructor
    · rintro ⟨⟨g1, g2⟩, g3, g4, g5⟩
      obtain ⟨⟨k1, k2⟩, k3, k4⟩ := m2.1 ⟨g3, g5⟩
      exact ⟨k1, g4, ⟨k2, g1, k3⟩, fun h => h.elim g2 k4⟩
    · rintro ⟨g1, g2, g3, g4⟩
      obtain ⟨k1, k2⟩ := m2.2 ⟨⟨g1, g3.sources⟩, g3.conditions, fun h => g4 (Or.inr h)⟩
      exact ⟨⟨g3.operations, fun h => g4 (Or.inl h)⟩, k1, g2, k2⟩

/-! ### Policies -/

omit L2 in
/-- The peers of the policy are those that it applies to. -/
theorem selectedPeers_sem (hI : IstioCluster V rg c) (ns : Ns) {w : Workloads} (hw : ∀ l, w = .labels l → l ≠ []) :
    ∃ q, selectedPeers c ns w = some q ∧ q.Ok ∧ InCluster c q ∧ ∀ E, E.In q ↔ AuthApplies c ns w E := by
  have hC := hI.cluster
  have hu := hC.uniq
  have hd : c.DisjointSets := fun p hp q hq a b ha hb => by
    obtain ⟨k, e, _⟩ := hC.elem p hp
    rw [e] at ha; cases ha
  have pod : ∀ p ∈ c, p.kind ≠ .dns ↔ p.kind = .pod := fun p hp => by
    rcases hC.kind p hp with ⟨h, _⟩ | ⟨h, _⟩ <;> simp [h]
  have all : Sem c (fun p => p.kind = .pod) (c.allPeers false true false) := (sem_all hC.ok true).congr fun p hp => by rw [pod p hp]; simp
  have base : ∃ q, workloads c w = some q ∧ Sem c (fun p => p.kind = .pod ∧ Chosen w p) q := by
    cases w with
    | absent =>
      refine ⟨_, rfl, (sem_all hC.ok false).congr fun p hp => ?_⟩
      rw [pod p hp]
      exact ⟨fun h => ⟨h.1, trivial⟩, fun h => ⟨h.1, Or.inr (hI.inNs p hp h.1)⟩⟩
    | empty => exact ⟨_, rfl, all.congr fun p hp => ⟨fun h => ⟨h, trivial⟩, And.left⟩⟩
    | labels l =>
      have key : ∀ (l : Labels) (T : PeerInfo → Prop) (q : PeerSet String), Sem c T q →
          Sem c (fun p => T p ∧ ∀ kv ∈ l, p.HasVal kv.1 kv.2) (l.foldl (fun res kv => res.and (c.withLabel kv.1 [kv.2] false)) q) := by
        intro l
        induction l with
        | nil => exact fun T q h => h.congr fun p _ => by simp
        | cons kv l ih =>
          intro T q h
          have hl : Sem c (fun p => p.HasVal kv.1 kv.2) (c.withLabel kv.1 [kv.2] false) := (sem_sel hC.ok _).congr fun p _ => by
            unfold PeerInfo.HasVal
            simp only [Bool.false_eq_true, if_false, Bool.or_eq_true, getIn_iff, List.mem_singleton, exists_eq_left]
          refine (ih _ _ (h.and hu hd hl)).congr fun p _ => ?_
          simp only [List.mem_cons, forall_eq_or_imp, and_assoc]
      refine ⟨_, by unfold workloads; dsimp only; rw [if_neg (by simpa using hw l rfl)], key l _ _ all⟩
  obtain ⟨q, e, sq⟩ := base
  by_cases hn : ns.name = rootNamespace
  · refine ⟨q, by unfold selectedPeers; rw [e, Option.map_some, if_pos hn], sq.1, sq.inCluster, fun E => (sq.2 E).trans ?_⟩
    constructor
    · rintro ⟨p, hp, h1, h2, h3⟩
      exact ⟨p, hp, h1, h2, fun h => absurd hn h, h3⟩
    · rintro ⟨p, hp, h1, h2, _, h3⟩
      exact ⟨p, hp, h1, h2, h3⟩
  · have hp : Sem c (fun p => p.InNs ns) (c.nsPods (some ns)) := (sem_sel hC.ok _).congr fun p _ => by
      unfold sameNs PeerInfo.InNs
      cases p.ns <;> simp
    have sq' := sq.and hu hd hp
    refine ⟨_, by unfold selectedPeers; rw [e, Option.map_some, if_neg hn], sq'.1, sq'.inCluster, fun E => (sq'.2 E).trans ?_⟩
    constructor
    · rintro ⟨p, hp, h1, ⟨h2, h3⟩, h4⟩
      exact ⟨p, hp, h1, h2, fun _ => h4, h3⟩
    · rintro ⟨p, hp, h1, h2, h4, h3⟩
      exact ⟨p, hp, h1, ⟨h2, h3⟩, h4 hn⟩

/-- The connections are those of the rule, to the places the policy applies to. -/
structure RuleExact (V : Env) (rg : PodReg) (c : Container) (word : X2 → List Char) (ns : Ns) (w : Workloads) (S : PeerSet String) (r : AuthRule)
    (h : HC Dim (ISet ⊕ V2)) : Prop where
  strong : HcStrongT (connA A2 PeerDom.default) (connWf W2 PeerDom.default) allDims h
  selected : ∀ p, (connNet L2 PeerDom.default).K.mem p h = true → S.At rg.keys (p.1 .dstPeers)
  mem : ∀ p src dst q, IsRequest word rg c p src dst q → r.Tame src → ((connNet L2 PeerDom.default).K.mem p h = true ↔
    Sender c src ∧ AuthApplies c ns w dst ∧ RuleSays V.sa c r src q ∧ (r.operations ≠ none ∨ r.conditions ≠ none → q.proto = 6))

/-- C50: a policy whose rules the code reads as Istio does is read exactly: its action, the places that it applies to, and the requests that each of its
rules matches. -/
theorem C50_policy_partial (hI : IstioCluster V rg c) (hD : DfaLib A2 W2 dfa word D) {t : AuthText} {s : AuthSpec} (ht : t.spec = some s)
    (ha : s.action = none ∨ s.action = some "ALLOW" ∨ s.action = some "DENY" ∧ s.rules ≠ []) (hw : ∀ l, s.selector = .labels l → l ≠ [])
    (hr : ∀ r ∈ s.rules, ∃ E, r.Tame E) :
    ∃ P, parsePolicy A2 dfa V PeerDom.default ord rg c t = some P ∧ P.affectsIngress = true ∧ (P.deny = true ↔ s.action = some "DENY") ∧
      P.selected.Ok ∧ InCluster c P.selected ∧ (∀ E, E.In P.selected ↔ AuthApplies c t.ns s.selector E) ∧
      List.Forall₂ (RuleExact L2 V rg c word t.ns s.selector P.selected) s.rules P.rules := by
  obtain ⟨S, eS, oS, iS, mS⟩ := selectedPeers_sem hI t.ns hw
  have rules : ∀ l : List AuthRule, (∀ r ∈ l, ∃ E, r.Tame E) → ∃ hs, l.mapM (parseRule A2 dfa V PeerDom.default ord rg c S) = some hs ∧
      List.Forall₂ (RuleExact L2 V rg c word t.ns s.selector S) l hs := by
    intro l
    induction l with
    | nil => exact fun _ => ⟨[], rfl, .nil⟩
    | cons r l ih =>
      intro h
      obtain ⟨E0, h0⟩ := h r List.mem_cons_self
      obtain ⟨h1, e1, s1, b1, m1⟩ := C50_rule_partial L2 (ord := ord) hI hD oS iS h0
      obtain ⟨hs, e2, f2⟩ := ih fun r hr => h r (List.mem_cons_of_mem _ hr)
      refine ⟨h1 :: hs, by rw [List.mapM_cons, e1, Option.bind_eq_bind, Option.bind_some, e2]; rfl, .cons ⟨s1, b1, fun p src dst q hp hT => ?_⟩ f2⟩
      rw [m1 p src dst q hp hT, mS]
  obtain ⟨hs, e, f⟩ := rules s.rules hr
  have hlen := f.length_eq
  have act : ∃ d, parseAction s.action = some d ∧ (d = true ↔ s.action = some "DENY") ∧ (hs.isEmpty && d) = false := by
    rcases ha with h | h | ⟨h, hne⟩
    · exact ⟨false, by rw [h]; rfl, by rw [h]; simp, by simp⟩
    · exact ⟨false, by rw [h]; rfl, by rw [h]; decide, by simp⟩
    · refine ⟨true, by rw [h]; rfl, by rw [h]; simp, ?_⟩
      cases hs with
      | nil => exact absurd (List.eq_nil_of_length_eq_zero hlen) hne
      | cons _ _ => rfl
  obtain ⟨d, ed, hd, he⟩ := act
  refine ⟨⟨d, true, S, hs⟩, ?_, rfl, hd, oS, iS, mS, f⟩
  unfold parsePolicy
  rw [ht]
  simp only [Option.bind_eq_bind]
  rw [ed, Option.bind_some, eS, Option.bind_some, e, Option.bind_some, if_neg (by simp [he])]
  rfl

omit L2 in
/-- C50: other actions, selectors without labels and denials without rules are rejected. -/
theorem C50_policy_rejected {t : AuthText} {s : AuthSpec} (ht : t.spec = some s)
    (h : (s.action ≠ none ∧ s.action ≠ some "ALLOW" ∧ s.action ≠ some "DENY") ∨ s.selector = .labels [] ∨ s.action = some "DENY" ∧ s.rules = []) (B : PeerDom) :
    parsePolicy A2 dfa V B ord rg c t = none := by
  unfold parsePolicy
  rw [ht]
  simp only [Option.bind_eq_bind]
  rcases h with ⟨h1, h2, h3⟩ | h | ⟨h1, h2⟩
  · have : parseAction s.action = none := by
      unfold parseAction
      cases e : s.action with
      | none => exact absurd e h1
      | some a =>
        dsimp only
        rw [if_neg (fun h => h2 (by rw [e, h])), if_neg (fun h => h3 (by rw [e, h]))]
    rw [this]; rfl
  · cases parseAction s.action with
    | none => rfl
    | some d =>
      have : selectedPeers c t.ns s.selector = none := by rw [h]; rfl
      rw [Option.bind_some, this]; rfl
  · rw [h1, h2]
    cases selectedPeers c t.ns s.selector with
    | none => rfl
    | some S => rfl

end
end IstioParser
end Verif
