import Verif.CalicoRuleProofs
/-!
C48: what the parser of Calico's network policies makes of a policy, against `Verif.CalicoParseSpec`.
-/
namespace Verif
open ISet IpBlock PeerSet

namespace CalicoParser
open Container

section
variable {V2 X2 : Type} {A2 : VAlg Dim V2 X2} {W2 : Dim → V2 → Prop} {ord : SetOrder} {rg : PodReg} {c : Container} {K : CharCls}

/-- The point is the connection `q` between the places. -/
structure IsConn (rg : PodReg) (c : Container) {A : VAlg Dim (ISet ⊕ V2) (Int ⊕ X2)} (p : Point A) (src dst : Place) (q : Conn) : Prop where
  src : src.At rg c (p.1 .srcPeers)
  dst : dst.At rg c (p.1 .dstPeers)
  proto : p.1 .protocols = .inl q.proto
  srcPort : p.1 .srcPorts = .inl q.srcPort
  dstPort : p.1 .dstPorts = .inl q.dstPort
  icmpType : p.1 .icmpType = .inl q.icmpType
  icmpCode : p.1 .icmpCode = .inl q.icmpCode

theorem at_place (hr : Base.Reach rg.keys) {e : Int ⊕ X2} {E : Place} (hE : E.At rg c e) (S : PeerSet String) : S.At rg.keys e ↔ E.In S := by
  have hnd := (Base.C22_registry hr).1
  cases E with
  | ip x =>
    have hE : e = .inl x.idx := hE
    subst hE
    constructor
    · rintro (⟨y, hy, h⟩ | ⟨n, k, hn, _⟩)
      · simp only [Sum.inl.injEq] at hy
        rw [← Ip.idx_inj.1 hy] at h; exact h
      · simp only [Sum.inl.injEq] at hn
        have := Base.idx_lt x; omega
    · intro h; exact Or.inl ⟨x, rfl, h⟩
  | pod k =>
    obtain ⟨_, n, rfl, hk⟩ := hE
    constructor
    · rintro (⟨y, hy, h⟩ | ⟨n', k', hn, hk', h⟩)
      · simp only [Sum.inl.injEq] at hy
        have := Base.idx_lt y; omega
      · simp only [Sum.inl.injEq] at hn
        obtain rfl : n = n' := by omega
        rw [hk] at hk'; cases hk'; exact h
    · intro h; exact Or.inr ⟨n, k, rfl, hk, h⟩

theorem at_known {e : Int ⊕ X2} {E : Place} (hE : E.At rg c e) : Known c E := by
  rintro k rfl
  exact hE.1

/-- There is an index of the domain that is no peer. -/
theorem free_index (hC : CalCluster rg c) : ∃ z, Mem z PeerDom.default.idx ∧ ∀ S : PeerSet String, ¬ PeerSet.At (X2 := X2) rg.keys S (.inl z) := by
  refine ⟨minPodIndex + rg.keys.length, (Base.mem_all _).2 (Or.inr ?_), fun S h => ?_⟩
  · have := hC.room
    unfold maxPodIndex
    omega
  · rcases h with ⟨x, hx, _⟩ | ⟨n, k, hn, hk, _⟩
    · simp only [Sum.inl.injEq] at hx
      have := Base.idx_lt x; omega
    · simp only [Sum.inl.injEq] at hn
      have := (List.getElem?_eq_some_iff.1 hk).1
      omega

/-! ### Entities -/

/-- The numbers and names of ports that an entity rule is read as. -/
structure PortsOf (m : Option EntitySpec) (P : PortSet) : Prop where
  canon : Canonical P.ports
  bound : ∀ z, Mem z P.ports → 1 ≤ z ∧ z ≤ 65535
  mem : ∀ x, 1 ≤ x → x ≤ 65535 → (Mem x P.ports ↔ ∀ e, m = some e →
    (∀ l, e.ports = some l → ∃ q ∈ l, q.Number x) ∧ ∀ l, e.notPorts = some l → ¬ ∃ q ∈ l, q.Number x)
  named : ∀ s, s ∈ P.named ↔ ∃ e, m = some e ∧ (∃ l, e.ports = some l ∧ .name s ∈ l) ∧ ∀ l, e.notPorts = some l → .name s ∉ l
  excluded : ∀ s, s ∈ P.excluded ↔ ∃ e, m = some e ∧ ∃ l, e.notPorts = some l ∧ .name s ∈ l

theorem entity_sem (hK : K.Ok) (hC : CalCluster rg c) {ns : Option Ns} {t : Option Entity} {m : Option EntitySpec}
    (h : Option.Rel (EntityMeans K) t m) (ht : ∀ e, t = some e → e.Tame) {protocol : Option Int} (hl : ∀ e, m = some e → e.Legal protocol) :
    ∃ S P, entity K c ns (supportsPorts protocol) t = some (S, P) ∧ S.Ok ∧ InCluster c S ∧
      (∀ E, Known c E → (E.In S ↔ ∀ e, m = some e → EntitySays c ns e E)) ∧ PortsOf m P := by
  cases h with
  | none =>
    obtain ⟨g1, g2, g3⟩ := everything hC.ok
    have hm : ∀ x, Mem x (PortSet.make true).ports ↔ 1 ≤ x ∧ x ≤ 65535 := fun x => mem_singleton
    refine ⟨_, _, rfl, g1, g2, fun E hE => ⟨fun _ e he => (by cases he), fun _ => g3 E hE⟩, canonical_singleton.2 (by decide),
      fun z hz => (hm z).1 hz, fun x h1 h2 => ⟨fun _ e he => (by cases he), fun _ => (hm x).2 ⟨h1, h2⟩⟩, fun s => ?_, fun s => ?_⟩
    · simp [PortSet.make]
    · simp [PortSet.make]
  | @some t m h =>
    obtain ⟨S, e1, o1, i1, m1⟩ := rulePeers_sem (ns := ns) hK hC.ok hC.uniq hC.disj hC.spaces h (ht _ rfl) (hl _ rfl).selectors
    obtain ⟨P, e2, c2, b2, m2, n2, x2⟩ := rulePorts_sem h (ht _ rfl) (hl _ rfl)
    refine ⟨S, P, ?_, o1, i1, fun E hE => ?_, c2, b2, fun x h1 h2 => ?_, fun s => ?_, fun s => ?_⟩
    · unfold entity
      simp only [Option.bind_eq_bind]
      rw [e1, Option.bind_some, e2]; rfl
    · rw [m1 E hE]
      exact ⟨fun h e he => by cases he; exact h, fun h => h _ rfl⟩
    · rw [m2 x h1 h2]
      exact ⟨fun h e he => by cases he; exact h, fun h => h _ rfl⟩
    · rw [n2]
      exact ⟨fun h => ⟨_, rfl, h⟩, fun ⟨e, he, h⟩ => by cases he; exact h⟩
    · rw [x2]
      exact ⟨fun h => ⟨_, rfl, h⟩, fun ⟨e, he, h⟩ => by cases he; exact h⟩

theorem says_number {E : Place} {proto x : Int} {q : PortSpec} (h : q.IsNumber) : PortSays rg E proto x q ↔ q.Number x := by
  cases q with
  | num n => rfl
  | range a b => rfl
  | name s => exact h.elim

theorem number_says {E : Place} {proto x : Int} {q : PortSpec} (h : q.Number x) : PortSays rg E proto x q := by
  cases q with
  | num n => exact h
  | range a b => exact h
  | name s => exact h.elim

/-- The ports of a source: only numbers. -/
theorem source_ports {m : Option EntitySpec} {P : PortSet} (hP : PortsOf m P)
    (hn : ∀ e l, m = some e → (e.ports = some l ∨ e.notPorts = some l) → ∀ q ∈ l, q.IsNumber) {E : Place} {proto x : Int} (h1 : 1 ≤ x) (h2 : x ≤ 65535) :
    Mem x P.ports ↔ ∀ e, m = some e → PortsSay rg e E proto x := by
  rw [hP.mem x h1 h2]
  refine forall_congr' fun e => forall_congr' fun he => and_congr (forall_congr' fun l => forall_congr' fun hl => ?_)
    (forall_congr' fun l => forall_congr' fun hl => not_congr ?_)
  · exact exists_congr fun q => and_congr_right fun hq => (says_number (hn e l he (Or.inl hl) q hq)).symm
  · exact exists_congr fun q => and_congr_right fun hq => (says_number (hn e l he (Or.inr hl) q hq)).symm

/-- The ports of a destination: numbers and names. -/
theorem dest_ports {m : Option EntitySpec} {P : PortSet} (hP : PortsOf m P)
    (hn : ∀ e l l', m = some e → e.ports = some l → e.notPorts = some l' → (∀ q ∈ l, q.IsNumber) ∨ ∀ q ∈ l', ¬ q.IsNumber)
    {E : Place} {proto x : Int} (h1 : 1 ≤ x) (h2 : x ≤ 65535) :
    ((Mem x P.ports ∨ ∃ s ∈ P.named, PortSays rg E proto x (.name s)) ∧ ¬ ∃ s ∈ P.excluded, PortSays rg E proto x (.name s)) ↔
      ∀ e, m = some e → PortsSay rg e E proto x := by
  rw [hP.mem x h1 h2]
  have split : ∀ {l : List PortSpec}, (∃ q ∈ l, PortSays rg E proto x q) ↔
      (∃ q ∈ l, q.Number x) ∨ ∃ s, .name s ∈ l ∧ PortSays rg E proto x (.name s) := by
    intro l
    constructor
    · rintro ⟨q, hq, h⟩
      cases q with
      | num n => exact Or.inl ⟨_, hq, h⟩
      | range a b => exact Or.inl ⟨_, hq, h⟩
      | name s => exact Or.inr ⟨s, hq, h⟩
    · rintro (⟨q, hq, h⟩ | ⟨s, hs, h⟩)
      · exact ⟨q, hq, number_says h⟩
      · exact ⟨_, hs, h⟩
  constructor
  · rintro ⟨hin, hout⟩ e rfl
    have hout' : ∀ l, e.notPorts = some l → ¬ ∃ s, .name s ∈ l ∧ PortSays rg E proto x (.name s) :=
      fun l hl ⟨s, hs, h⟩ => hout ⟨s, (hP.excluded s).2 ⟨e, rfl, l, hl, hs⟩, h⟩
    rcases hin with h | ⟨s, hs, h⟩
    · obtain ⟨g1, g2⟩ := h e rfl
      refine ⟨fun l hl => split.2 (Or.inl (g1 l hl)), fun l hl h => ?_⟩
      rcases split.1 h with h | h
      · exact g2 l hl h
      · exact hout' l hl h
    · obtain ⟨e', he, ⟨l, hl, hsl⟩, hnot⟩ := (hP.named s).1 hs
      cases he
      refine ⟨fun l' hl' => ?_, fun l' hl' h' => ?_⟩
      · rw [hl] at hl'; cases hl'
        exact ⟨_, hsl, h⟩
      · rcases split.1 h' with ⟨q, hq, hx⟩ | h'
        · rcases hn e l l' rfl hl hl' with hh | hh
          · exact (hh _ hsl).elim
          · refine hh q hq ?_
            cases q with
            | num n => trivial
            | range a b => trivial
            | name s => exact hx.elim
        · exact hout' l' hl' h'
  · intro h
    constructor
    · by_cases hm : ∃ e l, m = some e ∧ e.ports = some l ∧ ¬ ∃ q ∈ l, q.Number x
      · obtain ⟨e, l, he, hl, hno⟩ := hm
        obtain ⟨g1, g2⟩ := h e he
        rcases split.1 (g1 l hl) with h' | ⟨s, hs, h'⟩
        · exact absurd h' hno
        · right
          refine ⟨s, (hP.named s).2 ⟨e, he, ⟨l, hl, hs⟩, fun l' hl' hs' => ?_⟩, h'⟩
          exact g2 l' hl' ⟨_, hs', h'⟩
      · left
        intro e he
        obtain ⟨g1, g2⟩ := h e he
        refine ⟨fun l hl => ?_, fun l hl ⟨q, hq, hx⟩ => g2 l hl ⟨q, hq, number_says hx⟩⟩
        by_cases hq : ∃ q ∈ l, q.Number x
        · exact hq
        · exact absurd ⟨e, l, he, hl, hq⟩ hm
    · rintro ⟨s, hs, h'⟩
      obtain ⟨e, he, l, hl, hsl⟩ := (hP.excluded s).1 hs
      exact (h e he).2 l hl ⟨_, hsl, h'⟩

/-- Rules without ports say nothing about them. -/
theorem no_ports {m : Option EntitySpec} {protocol : Option Int} (hl : ∀ e, m = some e → e.Legal protocol)
    (hp : supportsPorts protocol = false) {E : Place} {proto x : Int} : ∀ e, m = some e → PortsSay rg e E proto x := by
  intro e he
  have hno : ∀ l, ¬ (e.ports = some l ∨ e.notPorts = some l) := by
    intro l h
    rcases ((hl e he).ports l h).1 with rfl | rfl | rfl <;> cases hp
  exact ⟨fun l h => absurd (Or.inl h) (hno l), fun l h => absurd (Or.inr h) (hno l)⟩

theorem names_at {A : VAlg Dim (ISet ⊕ V2) (Int ⊕ X2)} {p : Point A} {E : Place} (hE : E.At rg c (p.1 .dstPeers)) {proto x : Int} (names : Finset String) :
    (∃ n k, p.1 .dstPeers = .inl (minPodIndex + (n : Nat)) ∧ rg.keys[n]? = some k ∧ NamesPort rg [⟨proto, proto⟩] names k x) ↔
      ∃ s ∈ names, PortSays rg E proto x (.name s) := by
  constructor
  · rintro ⟨n, k, hn, hk, s, hs, pr, m, hl, hg, hm⟩
    have : m = proto := by
      rw [mem_singleton] at hm; unfold Iv.Mem at hm; dsimp only at hm; omega
    subst this
    cases E with
    | ip y =>
      have hx : p.1 .dstPeers = .inl y.idx := hE
      rw [hx] at hn
      simp only [Sum.inl.injEq] at hn
      have := Base.idx_lt y; omega
    | pod j =>
      obtain ⟨_, n', hn', hk'⟩ := hE
      rw [hn'] at hn
      simp only [Sum.inl.injEq] at hn
      obtain rfl : n' = n := by omega
      rw [hk] at hk'; cases hk'
      exact ⟨s, hs, k, pr, rfl, hl, hg⟩
  · rintro ⟨s, hs, k, pr, rfl, hl, hg⟩
    obtain ⟨_, n, hn, hk⟩ := hE
    exact ⟨n, k, hn, hk, s, hs, pr, proto, hl, hg, mem_singleton.2 ⟨Int.le_refl _, Int.le_refl _⟩⟩

/-! ### Protocols and actions -/

theorem action_sem {s : String} {a : RuleAction} (h : ActionMeans s a) : actionOf s = some a := by
  cases h <;> rfl

theorem protocol_sem {t : Option ProtoArg} {m : Option Int} (h : Option.Rel ProtoMeans t m) :
    parseProtocol t = some m ∧ ∀ p, m = some p → 0 ≤ p ∧ p ≤ 255 := by
  cases h with
  | none => exact ⟨rfl, fun p hp => by cases hp⟩
  | @some t m h =>
    cases h with
    | num h1 h2 =>
      refine ⟨?_, fun p hp => by cases hp; exact ⟨h1, h2⟩⟩
      unfold parseProtocol Proto.isValid
      dsimp only
      rw [if_pos]
      simp [h1, h2]
    | _ => exact ⟨by decide, fun p hp => by cases hp; decide⟩

theorem add_protocol {p : Int} (h : 0 ≤ p ∧ p ≤ 255) : ProtocolSet.add (ProtocolSet.make false) (.num p) = some [⟨p, p⟩] := by
  unfold ProtocolSet.add ProtoArg.number Proto.isValid
  simp only [Option.bind_some]
  rw [if_pos]
  · rfl
  · simp [h.1, h.2]

theorem remove_protocol {p : Int} (h : 0 ≤ p ∧ p ≤ 255) : ∃ l, ProtocolSet.remove (ProtocolSet.make true) (.num p) = some l ∧ Canonical l ∧
    ∀ z, Mem z l ↔ (0 ≤ z ∧ z ≤ 255) ∧ z ≠ p := by
  have hd : ∃ l, ProtocolSet.remove (ProtocolSet.make true) (.num p) = some l := by
    unfold ProtocolSet.remove ProtoArg.number Proto.isValid
    simp only [Option.bind_some]
    rw [if_pos]
    · exact ⟨_, rfl⟩
    · simp [h.1, h.2]
  obtain ⟨l, hl⟩ := hd
  have e : (ProtocolSet.Expr.remove (.make true) (.num p)).eval = some l := hl
  obtain ⟨h1, h2, h3⟩ := C20_protocols_exact _ l e
  refine ⟨l, hl, C04_reachable_canonical h1, fun z => ?_⟩
  rw [h3]
  simp [ProtocolSet.Expr.Has, ProtoArg.number, eq_comm]

/-! ### Rules -/

variable (L2 : A2.Lawful W2)

/-- Connections of sources that miss an index can be taken away. -/
theorem sub_strong (hC : CalCluster rg c) {S : PeerSet String} {a b : HC Dim (ISet ⊕ V2)}
    (ha : HcStrongT (connA A2 PeerDom.default) (connWf W2 PeerDom.default) allDims a)
    (hb : HcStrongT (connA A2 PeerDom.default) (connWf W2 PeerDom.default) allDims b)
    (hS : ∀ p, (connNet L2 PeerDom.default).K.mem p b = true → S.At rg.keys (p.1 .srcPeers)) :
    HcStrongT (connA A2 PeerDom.default) (connWf W2 PeerDom.default) allDims (HC.sub (connA A2 PeerDom.default) allDims a b) := by
  have la := (connNet_lawful L2 PeerDom.default).1
  obtain ⟨z, hz1, hz2⟩ := free_index (X2 := X2) hC
  change HcStrongT _ _ allDims ((connNet L2 PeerDom.default).K.sub a b)
  by_cases ht : (connNet L2 PeerDom.default).K.truthy b = true
  · refine la.sub_wide ha (la.net.strong_ok hb) (Or.inr ?_)
    obtain ⟨p, hpm⟩ := (la.net.truthy_iff (la.net.strong_ok hb)).1 ht
    let q : Point (connA A2 PeerDom.default) := ⟨fun d => if d = .srcPeers then .inl z else p.1 d, fun d => by
      by_cases hd : d = .srcPeers
      · subst hd
        dsimp only
        rw [if_pos rfl]
        exact (mem_inl A2 PeerDom.default z _ PeerDom.default.canon).2 hz1
      · dsimp only; rw [if_neg hd]; exact p.2 d⟩
    obtain ⟨t, ht1, ht2, ht3, ht4⟩ := la.splice p q
    refine ht4 (la.net.strong_ok hb) hpm ?_
    rw [← Bool.not_eq_true]
    intro hm
    have h := hS t hm
    have hs' : t.1 .srcPeers = .inl z := ht1
    rw [hs'] at h
    exact hz2 S h
  · rw [la.net.sub_falsy (by simpa using ht)]; exact ha

omit L2 in
theorem rule_legal (hC : CalCluster rg c) {d : RuleDict} (hS : d.srcPeers.Ok ∧ InCluster c d.srcPeers) (hD : d.dstPeers.Ok ∧ InCluster c d.dstPeers)
    (h1 : ∀ l, d.protocols = some l → Canonical l ∧ ∀ z, Mem z l → 0 ≤ z ∧ z ≤ 255)
    (h2 : ∀ P, d.srcPorts = some P ∨ d.dstPorts = some P → Canonical P.ports ∧ ∀ z, Mem z P.ports → 1 ≤ z ∧ z ≤ 65535)
    (h3 : ∀ t, d.icmpType = some t → 0 ≤ t ∧ t ≤ 254) (h4 : ∀ t, d.icmpCode = some t → 0 ≤ t ∧ t ≤ 255) :
    d.Legal X2 rg.keys PeerDom.default := by
  refine ⟨fun Z hZ => ?_, h1, h2, h3, h4⟩
  have hreg : ∀ Z : PeerSet String, InCluster c Z → ∀ k, Z.HasPod k → k ∈ rg.keys := fun Z hZ k hk => by
    obtain ⟨p, hp, he⟩ := hZ k hk
    exact hC.reg p hp k he
  rcases hZ with rfl | rfl
  · exact ⟨hS.1, hreg _ hS.2, fun z hz => at_default hC.reach hz⟩
  · exact ⟨hD.1, hreg _ hD.2, fun z hz => at_default hC.reach hz⟩

omit L2 in
theorem fits_iff (hr : Base.Reach rg.keys) {d : RuleDict} {p : Point (connA A2 PeerDom.default)} {src dst : Place} {q : Conn}
    (hp : IsConn rg c p src dst q) :
    d.Fits A2 PeerDom.default rg.keys p ↔ src.In d.srcPeers ∧ dst.In d.dstPeers ∧ (∀ l, d.protocols = some l → Mem q.proto l) ∧
      (∀ P, d.srcPorts = some P → Mem q.srcPort P.ports) ∧ (∀ t, d.icmpType = some t → q.icmpType = t) ∧
      ∀ t, d.icmpCode = some t → q.icmpCode = t := by
  constructor
  · rintro ⟨h1, h2, h3, h4, h5, h6⟩
    refine ⟨(at_place hr hp.src _).1 h1, (at_place hr hp.dst _).1 h2, fun l hl => ?_, fun P hP => ?_, fun t ht => ?_, fun t ht => ?_⟩
    · obtain ⟨n, e, h⟩ := h3 l hl
      rw [hp.proto] at e; cases e; exact h
    · obtain ⟨n, e, h⟩ := h4 P hP
      rw [hp.srcPort] at e; cases e; exact h
    · have e := h5 t ht
      rw [hp.icmpType] at e; cases e; rfl
    · have e := h6 t ht
      rw [hp.icmpCode] at e; cases e; rfl
  · rintro ⟨h1, h2, h3, h4, h5, h6⟩
    refine ⟨(at_place hr hp.src _).2 h1, (at_place hr hp.dst _).2 h2, fun l hl => ⟨_, hp.proto, h3 l hl⟩, fun P hP => ⟨_, hp.srcPort, h4 P hP⟩,
      fun t ht => ?_, fun t ht => ?_⟩
    · rw [hp.icmpType, h5 t ht]
    · rw [hp.icmpCode, h6 t ht]

omit L2 in
theorem port_bounds {p : Point (connA A2 PeerDom.default)} {src dst : Place} {q : Conn} (hp : IsConn rg c p src dst q) :
    (1 ≤ q.srcPort ∧ q.srcPort ≤ 65535) ∧ (1 ≤ q.dstPort ∧ q.dstPort ≤ 65535) ∧ 0 ≤ q.proto ∧ q.proto ≤ 255 := by
  refine ⟨?_, ?_, ?_⟩
  · have := p.2 .srcPorts
    rw [hp.srcPort] at this
    exact mem_singleton.1 ((mem_inl A2 PeerDom.default _ _ (canonical_singleton.2 (by decide))).1 this)
  · have := p.2 .dstPorts
    rw [hp.dstPort] at this
    exact mem_singleton.1 ((mem_inl A2 PeerDom.default _ _ (canonical_singleton.2 (by decide))).1 this)
  · have := p.2 .protocols
    rw [hp.proto] at this
    exact mem_singleton.1 ((mem_inl A2 PeerDom.default _ _ (canonical_singleton.2 (by decide))).1 this)

/-- A cube without ports. -/
theorem plain_cube (hC : CalCluster rg c) {S D : PeerSet String} (hS : S.Ok ∧ InCluster c S) (hD : D.Ok ∧ InCluster c D) {T : Option ISet}
    {t d : Option Int} (h1 : ∀ l, T = some l → Canonical l ∧ ∀ z, Mem z l → 0 ≤ z ∧ z ≤ 255)
    (h3 : ∀ n, t = some n → 0 ≤ n ∧ n ≤ 254) (h4 : ∀ n, d = some n → 0 ≤ n ∧ n ≤ 255) :
    ∃ h, makeRule A2 PeerDom.default ord rg ⟨S, D, T, none, none, t, d⟩ = some h ∧
      HcStrongT (connA A2 PeerDom.default) (connWf W2 PeerDom.default) allDims h ∧
      (∀ p, (connNet L2 PeerDom.default).K.mem p h = true → S.At rg.keys (p.1 .srcPeers)) ∧
      ∀ p src dst q, IsConn rg c p src dst q → ((connNet L2 PeerDom.default).K.mem p h = true ↔
        src.In S ∧ dst.In D ∧ (∀ l, T = some l → Mem q.proto l) ∧ (∀ n, t = some n → q.icmpType = n) ∧ ∀ n, d = some n → q.icmpCode = n) := by
  obtain ⟨h, e, st, me⟩ := makeRule_sem L2 (ord := ord) (B := PeerDom.default) hC.reach hC.ports (d := ⟨S, D, T, none, none, t, d⟩)
    (rule_legal (X2 := X2) hC hS hD h1 (fun P hP => by rcases hP with hP | hP <;> cases hP) h3 h4) (Or.inl (fun P hP => by cases hP))
  refine ⟨h, e, st, fun p hp => ((me p).1 hp).1.src, fun p src dst q hp => (me p).trans ?_⟩
  rw [fits_iff hC.reach hp]
  constructor
  · rintro ⟨⟨g1, g2, g3, _, g5, g6⟩, _⟩
    exact ⟨g1, g2, g3, g5, g6⟩
  · rintro ⟨g1, g2, g3, g5, g6⟩
    exact ⟨⟨g1, g2, g3, fun P hP => (by cases hP), g5, g6⟩, fun P hP => by cases hP⟩

omit L2 in
theorem icmpOk_of {i : Icmp} (h : i.Legal) : icmpOk i = true := by
  obtain ⟨⟨t, h1, h2, h3⟩, h4⟩ := h
  unfold icmpOk
  rw [h1]
  cases hc : i.code with
  | none => simp [h2, h3]
  | some d => simp [h2, h3, h4 d hc]

omit L2 in
theorem icmpDims_of {i : Icmp} (hl : i.Legal) (ht : i.Tame) : icmpDims (some i) = (i.type, i.code) := by
  obtain ⟨⟨t, h1, _⟩, _⟩ := hl
  have h0 : t ≠ 0 := fun e => ht.1 (by rw [h1, e])
  unfold icmpDims
  simp only [h1, if_neg h0]
  congr 1
  cases hc : i.code with
  | none => rfl
  | some d =>
    have : d ≠ 0 := fun e => ht.2 (by rw [hc, e])
    simp [this]

/-- The connections of an ICMP rule. -/
theorem parseIcmp_sem (hC : CalCluster rg c) {S D : PeerSet String} (hS : S.Ok ∧ InCluster c S) (hD : D.Ok ∧ InCluster c D) {i j : Option Icmp} {pr : Int}
    (hpr : 0 ≤ pr ∧ pr ≤ 255) (hl : ∀ k, i = some k ∨ j = some k → k.Legal ∧ k.Tame)
    (ht : ∀ a b, i = some a → j = some b → ¬ (a.type = b.type ∧ (b.code = none ∨ a.code = b.code))) :
    ∃ h, parseIcmp A2 PeerDom.default ord rg i j [⟨pr, pr⟩] S D = some h ∧
      HcStrongT (connA A2 PeerDom.default) (connWf W2 PeerDom.default) allDims h ∧
      ∀ p src dst q, IsConn rg c p src dst q → ((connNet L2 PeerDom.default).K.mem p h = true ↔
        src.In S ∧ dst.In D ∧ q.proto = pr ∧ (∀ k, i = some k → k.Says q) ∧ ∀ k, j = some k → ¬ k.Says q) := by
  have la := (connNet_lawful L2 PeerDom.default).1
  have hok : (i.all icmpOk && j.all icmpOk) = true := by
    rw [Bool.and_eq_true]
    refine ⟨?_, ?_⟩
    · cases i with
      | none => rfl
      | some k => exact icmpOk_of (hl k (Or.inl rfl)).1
    · cases j with
      | none => rfl
      | some k => exact icmpOk_of (hl k (Or.inr rfl)).1
  -- one cube
  have cube : ∀ o : Option Icmp, (∀ k, o = some k → k.Legal ∧ k.Tame) → ∃ h,
      makeRule A2 PeerDom.default ord rg ⟨S, D, some [⟨pr, pr⟩], none, none, (icmpDims o).1, (icmpDims o).2⟩ = some h ∧
      HcStrongT (connA A2 PeerDom.default) (connWf W2 PeerDom.default) allDims h ∧
      (∀ p, (connNet L2 PeerDom.default).K.mem p h = true → S.At rg.keys (p.1 .srcPeers)) ∧
      ∀ p src dst q, IsConn rg c p src dst q → ((connNet L2 PeerDom.default).K.mem p h = true ↔
        src.In S ∧ dst.In D ∧ q.proto = pr ∧ ∀ k, o = some k → k.Says q) := by
    intro o ho
    have hd : ∀ k, o = some k → icmpDims o = (k.type, k.code) := fun k hk => by
      rw [hk]; exact icmpDims_of (ho k hk).1 (ho k hk).2
    have hnone : o = none → icmpDims o = (none, none) := by rintro rfl; rfl
    obtain ⟨h, e, st, hs, me⟩ := plain_cube L2 (ord := ord) hC hS hD (T := some [⟨pr, pr⟩]) (t := (icmpDims o).1) (d := (icmpDims o).2)
      (fun l hl => by cases hl; exact ⟨canonical_singleton.2 (Int.le_refl _), fun z hz => by
        have := mem_singleton.1 hz
        unfold Iv.Mem at this; dsimp only at this; omega⟩)
      (fun n hn => by
        cases o with
        | none => cases hn
        | some k =>
          rw [hd k rfl] at hn
          obtain ⟨t, g1, g2⟩ := (ho k rfl).1.1
          have hn : k.type = some n := hn
          rw [g1] at hn; cases hn; exact g2)
      (fun n hn => by
        cases o with
        | none => cases hn
        | some k =>
          rw [hd k rfl] at hn
          exact (ho k rfl).1.2 n hn)
    refine ⟨h, e, st, hs, fun p src dst q hp => (me p src dst q hp).trans ?_⟩
    refine and_congr_right fun _ => and_congr_right fun _ => and_congr ?_ ?_
    · constructor
      · intro h
        have := mem_singleton.1 (h _ rfl)
        unfold Iv.Mem at this; dsimp only at this; omega
      · rintro rfl l hl
        cases hl
        exact mem_singleton.2 ⟨Int.le_refl _, Int.le_refl _⟩
    · cases o with
      | none => exact ⟨fun _ k hk => (by cases hk), fun _ => ⟨fun n hn => (by cases hn), fun n hn => (by cases hn)⟩⟩
      | some k =>
        rw [hd k rfl]
        exact ⟨fun h k' hk' => by cases hk'; exact h, fun h => h k rfl⟩
  obtain ⟨h1, e1, s1, z1, m1⟩ := cube i (fun k hk => hl k (Or.inl hk))
  obtain ⟨h2, e2, s2, z2, m2⟩ := cube j (fun k hk => hl k (Or.inr hk))
  -- the two results
  have keep : (∀ a b, i = some a → j = some b → ¬ ∃ q, a.Says q ∧ b.Says q) → (j = none ∨ i ≠ none) → ∀ p src dst q, IsConn rg c p src dst q →
      ((connNet L2 PeerDom.default).K.mem p h1 = true ↔
        src.In S ∧ dst.In D ∧ q.proto = pr ∧ (∀ k, i = some k → k.Says q) ∧ ∀ k, j = some k → ¬ k.Says q) := by
    intro hne hij p src dst q hp
    rw [m1 p src dst q hp]
    refine and_congr_right fun _ => and_congr_right fun _ => and_congr_right fun _ => ?_
    refine ⟨fun h => ⟨h, fun k hk hs => ?_⟩, And.left⟩
    cases i with
    | none =>
      rcases hij with rfl | hij
      · cases hk
      · exact hij rfl
    | some a => exact hne a k rfl hk ⟨q, h a rfl, hs⟩
  have minus : ∀ p src dst q, IsConn rg c p src dst q →
      ((connNet L2 PeerDom.default).K.mem p (HC.sub (connA A2 PeerDom.default) allDims h1 h2) = true ↔
        src.In S ∧ dst.In D ∧ q.proto = pr ∧ (∀ k, i = some k → k.Says q) ∧ ¬ ∀ k, j = some k → k.Says q) := by
    intro p src dst q hp
    have := la.net.mem_sub s1 (la.net.strong_ok s2) p
    change (connNet L2 PeerDom.default).K.mem p ((connNet L2 PeerDom.default).K.sub h1 h2) = true ↔ _
    rw [this, Bool.and_eq_true, Bool.not_eq_true', ← Bool.not_eq_true, m1 p src dst q hp, m2 p src dst q hp]
    constructor
    · rintro ⟨⟨g1, g2, g3, g4⟩, g5⟩
      exact ⟨g1, g2, g3, g4, fun h => g5 ⟨g1, g2, g3, h⟩⟩
    · rintro ⟨g1, g2, g3, g4, g5⟩
      exact ⟨⟨g1, g2, g3, g4⟩, fun h => g5 h.2.2.2⟩
  unfold parseIcmp
  dsimp only
  rw [if_pos hok]
  have one : ∀ {b : Icmp} {q : Conn}, (¬ ∀ k, (some b : Option Icmp) = some k → k.Says q) ↔ ∀ k, (some b : Option Icmp) = some k → ¬ k.Says q := by
    intro b q
    simp
  cases i with
  | none =>
    cases j with
    | none => exact ⟨h1, e1, s1, keep (fun a b ha => by cases ha) (Or.inl rfl)⟩
    | some b =>
      refine ⟨HC.sub (connA A2 PeerDom.default) allDims h1 h2, ?_, sub_strong L2 hC s1 s2 z2, fun p src dst q hp => ?_⟩
      · dsimp only
        rw [e1, e2]; rfl
      · rw [minus p src dst q hp, one]
  | some a =>
    cases j with
    | none => exact ⟨h1, e1, s1, keep (fun a b _ hb => by cases hb) (Or.inl rfl)⟩
    | some b =>
      have hne := ht a b rfl rfl
      dsimp only
      have c1 : ¬ (a.type = b.type ∧ a.code = b.code) := fun h => hne ⟨h.1, Or.inr h.2⟩
      rw [if_neg c1]
      by_cases c2 : a.type = b.type ∧ a.code = none
      · rw [if_pos c2]
        refine ⟨HC.sub (connA A2 PeerDom.default) allDims h1 h2, ?_, sub_strong L2 hC s1 s2 z2, fun p src dst q hp => ?_⟩
        · rw [e1, e2]; rfl
        · rw [minus p src dst q hp, one]
      · rw [if_neg c2]
        refine ⟨h1, e1, s1, keep (fun a' b' ha hb => ?_) (Or.inr (by simp))⟩
        cases ha; cases hb
        rintro ⟨q, ⟨g1, g2⟩, g3, g4⟩
        obtain ⟨⟨t, t1, _⟩, _⟩ := (hl a (Or.inl rfl)).1
        obtain ⟨⟨u, u1, _⟩, _⟩ := (hl b (Or.inr rfl)).1
        have htt : a.type = b.type := by rw [t1, u1, ← g1 t t1, ← g3 u u1]
        cases ha : a.code with
        | none => exact c2 ⟨htt, ha⟩
        | some x =>
          cases hb : b.code with
          | none => exact hne ⟨htt, Or.inl hb⟩
          | some y =>
            refine c1 ⟨htt, ?_⟩
            rw [ha, hb, ← g2 x ha, ← g4 y hb]

/-- What the fields of a rule besides the peers ask of a connection. -/
def Asks (rg : PodReg) (m : RuleSpec) (src dst : Place) (q : Conn) : Prop :=
  (∀ e, m.source = some e → PortsSay rg e src q.proto q.srcPort) ∧ (∀ e, m.destination = some e → PortsSay rg e dst q.proto q.dstPort) ∧
  (∀ p, m.protocol = some p → q.proto = p) ∧ (∀ p, m.notProtocol = some p → q.proto ≠ p) ∧
  (∀ i, m.icmp = some i → i.Says q) ∧ (∀ i, m.notIcmp = some i → ¬ i.Says q)

omit L2 in
theorem no_icmp {m : RuleSpec} (hl : m.Legal) (hp : ∀ p, m.protocol = some p → isIcmp p = false) : m.icmp = none ∧ m.notIcmp = none := by
  have no : ∀ i, ¬ (m.icmp = some i ∨ m.notIcmp = some i) := by
    intro i hi
    rcases (hl.icmp i hi).2 with h | h
    · have := hp _ h; cases this
    · have := hp _ h; cases this
  constructor
  · cases h : m.icmp with
    | none => rfl
    | some i => exact absurd (Or.inl h) (no i)
  · cases h : m.notIcmp with
    | none => rfl
    | some i => exact absurd (Or.inr h) (no i)

/-- The connections of a rule. -/
theorem ruleProps_sem (hC : CalCluster rg c) {r : CalicoRule} {m : RuleSpec} (hm : RuleMeans K r m) (hl : m.Legal) (ht : RuleTame r m)
    {S D : PeerSet String} (hS : S.Ok ∧ InCluster c S) (hD : D.Ok ∧ InCluster c D) {P Q : PortSet} (hP : PortsOf m.source P) (hQ : PortsOf m.destination Q) :
    ∃ h, ruleProps A2 PeerDom.default ord rg r m.protocol m.notProtocol S D P Q = some h ∧
      HcStrongT (connA A2 PeerDom.default) (connWf W2 PeerDom.default) allDims h ∧
      ∀ p src dst q, IsConn rg c p src dst q →
        ((connNet L2 PeerDom.default).K.mem p h = true ↔ src.In S ∧ dst.In D ∧ Asks rg m src dst q) := by
  have la := (connNet_lawful L2 PeerDom.default).1
  have none_mem : ∀ p, ¬ (connNet L2 PeerDom.default).K.mem p (HC.empty allDims true) = true := fun p h => by
    rw [show HC.empty allDims true = (connNet L2 PeerDom.default).K.empty from rfl, la.net.mem_empty] at h
    cases h
  have hsrcL : ∀ e, m.source = some e → e.Legal m.protocol := fun e he => hl.entities e (Or.inl he)
  have hdstL : ∀ e, m.destination = some e → e.Legal m.protocol := fun e he => hl.entities e (Or.inr he)
  cases hp : m.protocol with
  | some pr =>
    have hb : 0 ≤ pr ∧ pr ≤ 255 := (protocol_sem hm.protocol).2 pr hp
    cases hq : m.notProtocol with
    | some qr =>
      refine ⟨_, rfl, la.net.empty_strong, fun p src dst q _ => ⟨fun h => absurd h (none_mem p), fun h => ?_⟩⟩
      exact absurd (h.2.2.2.2.1 pr hp) (h.2.2.2.2.2.1 pr (by rw [hq, ht.protocols pr qr hp hq]))
    | none =>
      have hnp : ∀ {q : Conn}, ∀ p, m.notProtocol = some p → q.proto ≠ p := fun p h => (by rw [hq] at h; cases h)
      unfold ruleProps
      dsimp only
      rw [add_protocol hb, Option.bind_eq_bind, Option.bind_some]
      have hcan : Canonical [⟨pr, pr⟩] ∧ ∀ z, Mem z [⟨pr, pr⟩] → 0 ≤ z ∧ z ≤ 255 := ⟨canonical_singleton.2 (Int.le_refl _), fun z hz => by
        have := mem_singleton.1 hz
        unfold Iv.Mem at this; dsimp only at this; omega⟩
      have hmem : ∀ {z : Int}, Mem z [⟨pr, pr⟩] ↔ z = pr := fun {z} => by
        rw [mem_singleton]; unfold Iv.Mem; dsimp only; omega
      by_cases hs : supportsPorts (some pr) = true
      · rw [if_pos hs]
        have hni := no_icmp hl (fun p h => by
          rw [hp] at h; cases h
          unfold supportsPorts at hs
          simp at hs
          rcases hs with (rfl | rfl) | rfl <;> rfl)
        obtain ⟨z, hz1, hz2⟩ := free_index (X2 := X2) hC
        obtain ⟨h, e, st, me⟩ := makeRule_sem L2 (ord := ord) (B := PeerDom.default) hC.reach hC.ports
          (d := ⟨S, D, some [⟨pr, pr⟩], some P, some Q, none, none⟩)
          (rule_legal (X2 := X2) hC hS hD (fun l h => by cases h; exact hcan)
            (fun R hR => by
              rcases hR with hR | hR <;> cases hR
              · exact ⟨hP.canon, hP.bound⟩
              · exact ⟨hQ.canon, hQ.bound⟩)
            (fun t h => by cases h) (fun t h => by cases h)) (Or.inr ⟨z, hz1, hz2 S⟩)
        refine ⟨h, e, st, fun p src dst q hpc => (me p).trans ?_⟩
        obtain ⟨⟨b1, b2⟩, ⟨b3, b4⟩, _⟩ := port_bounds hpc
        rw [fits_iff hC.reach hpc]
        have hsp := source_ports (rg := rg) hP ht.srcNames (E := src) (proto := pr) b1 b2
        have hdp := dest_ports (rg := rg) hQ ht.dstNames (E := dst) (proto := pr) b3 b4
        dsimp only
        constructor
        · rintro ⟨⟨g1, g2, g3, g4, _, _⟩, g7⟩
          have hpr : q.proto = pr := hmem.1 (g3 _ rfl)
          obtain ⟨x, hx, g8, g9⟩ := g7 _ rfl
          rw [hpc.dstPort] at hx; cases hx
          rw [Option.getD_some, names_at hpc.dst] at g8 g9
          refine ⟨g1, g2, ?_, ?_, fun p h => ?_, hnp, fun i h => (by rw [hni.1] at h; cases h), fun i h => (by rw [hni.2] at h; cases h)⟩
          · rw [hpr]; exact hsp.1 (g4 _ rfl)
          · rw [hpr]; exact hdp.1 ⟨g8, g9⟩
          · rw [hp] at h; cases h; exact hpr
        · rintro ⟨g1, g2, g3, g4, g5, _⟩
          have hpr : q.proto = pr := g5 pr hp
          rw [hpr] at g3 g4
          refine ⟨⟨g1, g2, fun l h => by cases h; exact hmem.2 hpr, fun R h => by cases h; exact hsp.2 g3, fun t h => (by cases h), fun t h => (by cases h)⟩,
            fun R h => ?_⟩
          cases h
          obtain ⟨g8, g9⟩ := hdp.2 g4
          refine ⟨_, hpc.dstPort, ?_, ?_⟩
          · rw [Option.getD_some, names_at hpc.dst]; exact g8
          · rw [Option.getD_some, names_at hpc.dst]; exact g9
      · rw [if_neg hs]
        have hs' : supportsPorts m.protocol = false := by rw [hp]; simpa using hs
        by_cases hi : isIcmp pr = true
        · rw [if_pos hi, hm.icmp, hm.notIcmp]
          obtain ⟨h, e, st, me⟩ := parseIcmp_sem L2 (ord := ord) hC hS hD (i := m.icmp) (j := m.notIcmp) hb
            (fun k hk => ⟨(hl.icmp k hk).1, ht.icmp k hk⟩) ht.icmps
          refine ⟨h, e, st, fun p src dst q hpc => (me p src dst q hpc).trans ?_⟩
          refine and_congr_right fun _ => and_congr_right fun _ => ?_
          constructor
          · rintro ⟨g1, g2, g3⟩
            exact ⟨no_ports hsrcL hs', no_ports hdstL hs', fun p h => (by rw [hp] at h; cases h; exact g1), hnp, g2, g3⟩
          · rintro ⟨_, _, g3, _, g5, g6⟩
            exact ⟨g3 pr hp, g5, g6⟩
        · rw [if_neg hi]
          have hni := no_icmp hl (fun p h => by rw [hp] at h; cases h; simpa using hi)
          obtain ⟨h, e, st, _, me⟩ := plain_cube L2 (ord := ord) hC hS hD (T := some [⟨pr, pr⟩]) (t := none) (d := none)
            (fun l h => by cases h; exact hcan) (fun n h => by cases h) (fun n h => by cases h)
          refine ⟨h, e, st, fun p src dst q hpc => (me p src dst q hpc).trans ?_⟩
          refine and_congr_right fun _ => and_congr_right fun _ => ?_
          constructor
          · rintro ⟨g1, _, _⟩
            exact ⟨no_ports hsrcL hs', no_ports hdstL hs', fun p h => (by rw [hp] at h; cases h; exact hmem.1 (g1 _ rfl)), hnp,
              fun i h => (by rw [hni.1] at h; cases h), fun i h => (by rw [hni.2] at h; cases h)⟩
          · rintro ⟨_, _, g3, _⟩
            exact ⟨fun l h => by cases h; exact hmem.2 (g3 pr hp), fun n h => (by cases h), fun n h => (by cases h)⟩
  | none =>
    have hs' : supportsPorts m.protocol = false := by rw [hp]; rfl
    have hni := no_icmp hl (fun p h => by rw [hp] at h; cases h)
    have hpn : ∀ {q : Conn}, ∀ p, m.protocol = some p → q.proto = p := fun p h => by rw [hp] at h; cases h
    cases hq : m.notProtocol with
    | none =>
      obtain ⟨h, e, st, _, me⟩ := plain_cube L2 (ord := ord) hC hS hD (T := none) (t := none) (d := none)
        (fun l h => by cases h) (fun n h => by cases h) (fun n h => by cases h)
      refine ⟨h, e, st, fun p src dst q hpc => (me p src dst q hpc).trans ?_⟩
      refine and_congr_right fun _ => and_congr_right fun _ => ?_
      constructor
      · rintro -
        exact ⟨no_ports hsrcL hs', no_ports hdstL hs', hpn, fun p h => (by rw [hq] at h; cases h),
          fun i h => (by rw [hni.1] at h; cases h), fun i h => (by rw [hni.2] at h; cases h)⟩
      · rintro -
        exact ⟨fun l h => (by cases h), fun n h => (by cases h), fun n h => (by cases h)⟩
    | some qr =>
      have hb : 0 ≤ qr ∧ qr ≤ 255 := (protocol_sem hm.notProtocol).2 qr hq
      unfold ruleProps
      dsimp only
      by_cases hne : (!S.isEmpty && !D.isEmpty) = true
      · rw [if_pos hne]
        obtain ⟨l, el, cl, ml⟩ := remove_protocol hb
        rw [el, Option.bind_eq_bind, Option.bind_some]
        obtain ⟨h, e, st, _, me⟩ := plain_cube L2 (ord := ord) hC hS hD (T := some l) (t := none) (d := none)
          (fun l' h => by cases h; exact ⟨cl, fun z hz => ((ml z).1 hz).1⟩) (fun n h => by cases h) (fun n h => by cases h)
        refine ⟨h, e, st, fun p src dst q hpc => (me p src dst q hpc).trans ?_⟩
        refine and_congr_right fun _ => and_congr_right fun _ => ?_
        constructor
        · rintro ⟨g1, _⟩
          exact ⟨no_ports hsrcL hs', no_ports hdstL hs', hpn, fun p h => (by rw [hq] at h; cases h; exact ((ml _).1 (g1 _ rfl)).2),
            fun i h => (by rw [hni.1] at h; cases h), fun i h => (by rw [hni.2] at h; cases h)⟩
        · rintro ⟨_, _, _, g4, _⟩
          exact ⟨fun l' h => by cases h; exact (ml _).2 ⟨(port_bounds hpc).2.2, g4 qr hq⟩, fun n h => (by cases h), fun n h => (by cases h)⟩
      · rw [if_neg hne]
        refine ⟨_, rfl, la.net.empty_strong, fun p src dst q hpc => ⟨fun h => absurd h (none_mem p), fun h => ?_⟩⟩
        exfalso
        refine hne ?_
        have : ∀ {E : Place} {S : PeerSet String}, E.In S → S.isEmpty = false := by
          intro E S hE
          cases S with
          | cons a l => rfl
          | nil =>
            cases E with
            | pod k => cases hE
            | ip x => obtain ⟨b, hb, _⟩ := hE; cases hb
        rw [this h.1, this h.2.1]; rfl

/-- What a parsed rule must be; `A` says to which places the policy applies. -/
structure RuleOk (L2 : A2.Lawful W2) (rg : PodReg) (c : Container) (ns : Option Ns) (A : Place → Prop) (isIngress : Bool) (r : ParsedRule V2) (m : RuleSpec) : Prop where
  action : r.action = m.action
  strong : HcStrongT (connA A2 PeerDom.default) (connWf W2 PeerDom.default) allDims r.props
  mem : ∀ p src dst q, IsConn rg c p src dst q →
    ((connNet L2 PeerDom.default).K.mem p r.props = true ↔ A (if isIngress then dst else src) ∧ RuleSays rg c ns m src dst q)

/-- A well-formed rule is read as Calico does: the connections of the parsed rule are those that the rule covers, between the
peers it names and the peers the policy selects.  PARTIAL: without the rules of `RuleTame`, which the code reads wrongly
(see the witnesses), without `ipVersion`, and for selectors without `global()`. -/
theorem C48_rule_partial (hK : K.Ok) (hC : CalCluster rg c) {ns : Option Ns} {r : CalicoRule} {m : RuleSpec} (hm : RuleMeans K r m) (hl : m.Legal)
    (ht : RuleTame r m) {selected : PeerSet String} (hsel : selected.Ok ∧ InCluster c selected) (isIngress : Bool) :
    ∃ pr, parseRule K c ns A2 PeerDom.default ord rg isIngress selected r = some pr ∧
      RuleOk L2 rg c ns (fun E : Place => E.In selected) isIngress pr m := by
  obtain ⟨S, P, e1, o1, i1, m1, hP⟩ := entity_sem (ns := ns) hK hC hm.source (fun e he => ht.entities e (Or.inl he)) (protocol := m.protocol)
    (fun e he => hl.entities e (Or.inl he))
  obtain ⟨D, Q, e2, o2, i2, m2, hQ⟩ := entity_sem (ns := ns) hK hC hm.destination (fun e he => ht.entities e (Or.inr he)) (protocol := m.protocol)
    (fun e he => hl.entities e (Or.inr he))
  have key : ∀ S' D' : PeerSet String, S'.Ok ∧ InCluster c S' → D'.Ok ∧ InCluster c D' →
      (∀ E : Place, E.In S' ↔ E.In S ∧ (isIngress = false → E.In selected)) → (∀ E : Place, E.In D' ↔ E.In D ∧ (isIngress = true → E.In selected)) →
      (if isIngress then S else S.and selected) = S' → (if isIngress then D.and selected else D) = D' →
      ∃ pr, parseRule K c ns A2 PeerDom.default ord rg isIngress selected r = some pr ∧ RuleOk L2 rg c ns (fun E : Place => E.In selected) isIngress pr m := by
    intro S' D' hS' hD' hSm hDm eS eD
    obtain ⟨h, e, st, me⟩ := ruleProps_sem L2 (ord := ord) hC hm hl ht hS' hD' hP hQ
    refine ⟨⟨S', D', m.action, h⟩, ?_, rfl, st, fun p src dst q hp => (me p src dst q hp).trans ?_⟩
    · unfold parseRule
      rw [action_sem hm.action, (protocol_sem hm.protocol).1, (protocol_sem hm.notProtocol).1]
      simp only [Option.bind_eq_bind, Option.bind_some]
      rw [e1]
      simp only [Option.bind_some]
      rw [e2]
      simp only [Option.bind_some]
      rw [eS, eD, e]
      rfl
    · rw [hSm, hDm, m1 src (at_known hp.src), m2 dst (at_known hp.dst)]
      unfold RuleSays Asks
      cases isIngress
      · simp only [Bool.false_eq_true, if_false, forall_true_left]
        constructor
        · rintro ⟨⟨g1, g2⟩, ⟨g3, -⟩, g4, g5, g6⟩
          exact ⟨g2, fun e he => ⟨g1 e he, g4 e he⟩, fun e he => ⟨g3 e he, g5 e he⟩, g6⟩
        · rintro ⟨g1, g2, g3, g4⟩
          exact ⟨⟨fun e he => (g2 e he).1, g1⟩, ⟨fun e he => (g3 e he).1, fun h => h.elim⟩, fun e he => (g2 e he).2, fun e he => (g3 e he).2, g4⟩
      · simp only [if_true, forall_true_left]
        constructor
        · rintro ⟨⟨g1, -⟩, ⟨g3, g2⟩, g4, g5, g6⟩
          exact ⟨g2, fun e he => ⟨g1 e he, g4 e he⟩, fun e he => ⟨g3 e he, g5 e he⟩, g6⟩
        · rintro ⟨g1, g2, g3, g4⟩
          exact ⟨⟨fun e he => (g2 e he).1, fun h => by cases h⟩, ⟨fun e he => (g3 e he).1, g1⟩, fun e he => (g2 e he).2, fun e he => (g3 e he).2, g4⟩
  cases isIngress
  · exact key _ _ ⟨(C22_and_exact o1 hsel.1).1, InCluster.and o1 hsel.1 (Or.inl i1)⟩ ⟨o2, i2⟩
      (fun E => by rw [in_and o1 hsel.1]; simp) (fun E => by simp) rfl rfl
  · exact key _ _ ⟨o1, i1⟩ ⟨(C22_and_exact o2 hsel.1).1, InCluster.and o2 hsel.1 (Or.inl i2)⟩
      (fun E => by simp) (fun E => by rw [in_and o2 hsel.1]; simp) rfl rfl

/-! ### Policies -/

omit L2 in
theorem selected_sem (hK : K.Ok) (hC : CalCluster rg c) {dflt : Ns} {t : CalicoText} {m : PolicyMeaning} (hm : PolicyMeans K dflt t m)
    (hl : ∀ s, m.selector = some s → ¬ s.Mentions) : ∃ S, selectedPeers K c m.ns t = some S ∧ Sem c m.Chooses S := by
  have first : ∃ S, startSelected K c m.ns (given t.selector) = some S ∧
      Sem c (fun p => p.kind ≠ .dns ∧ (∀ n, m.ns = some n → p.InNs n) ∧ ∀ s, m.selector = some s → s.Picks m.ns p) S := by
    rw [given_eq hK hm.selector]
    have h := hm.selector
    generalize m.selector = u at h hl
    generalize t.selector = v at h
    cases h with
    | none => exact ⟨_, rfl, (sem_nsPods hC.ok hC.spaces m.ns).congr fun p _ => by simp⟩
    | @some v u h =>
      obtain ⟨q, e, hq⟩ := sel_sem hK hC.ok hC.uniq hC.disj hC.spaces m.ns h (hl _ rfl)
      refine ⟨(c.allPeers false true false).and q, ?_, ((sem_all hC.ok true).and hC.uniq hC.disj hq).congr fun p _ => ?_⟩
      · unfold startSelected
        dsimp only
        rw [e]; rfl
      · simp only [true_or, and_true, Option.some.injEq, forall_eq']
        constructor
        · rintro ⟨h1, h2⟩; exact ⟨h1, h2.2.1, h2⟩
        · rintro ⟨h1, _, h2⟩; exact ⟨h1, h2⟩
  obtain ⟨S, e, hS⟩ := first
  unfold selectedPeers
  rw [e, Option.bind_some, given_eq hK hm.nsSelector]
  have h := hm.nsSelector
  unfold PolicyMeaning.Chooses
  generalize m.nsSelector = u at h
  generalize t.nsSelector = v at h
  cases h with
  | none =>
    refine ⟨S, rfl, hS.congr fun p _ => ?_⟩
    simp
  | @some v u h =>
    obtain ⟨q, e, hq⟩ := nsSel_sem hK hC.ok hC.uniq hC.disj hC.spaces h
    refine ⟨S.and q, ?_, (hS.and hC.uniq hC.disj hq).congr fun p _ => ?_⟩
    · dsimp only
      rw [e]; rfl
    · simp only [Option.some.injEq, forall_eq', and_assoc]

/-- A policy that Calico accepts. -/
structure PolicyLegal (t : CalicoText) (m : PolicyMeaning) : Prop where
  global : t.isGlobal = true → t.ns = none
  nsSelector : t.isGlobal = false → t.nsSelector = none
  types : ∀ s ∈ t.types, s = "Ingress" ∨ s = "Egress"
  selector : ∀ s, m.selector = some s → ¬ s.Mentions
  rules : ∀ r ∈ m.ingress ++ m.egress, r.Legal

/-- Policies that the code reads as Calico does. -/
structure PolicyTame (c : Container) (t : CalicoText) (m : PolicyMeaning) : Prop where
  /-- no network set is selected (`C48_network_set_selected_wrong`) -/
  sets : ∀ p ∈ c, m.Chooses p → p.kind ≠ .netset
  /-- without `types`, no empty list of rules where an absent one has another effect (`C48_empty_egress_wrong`) -/
  empty : t.types = [] → t.egress ≠ some [] ∧ (t.ingress = some [] → t.egress = none)
  /-- no rules of a direction that `types` does not name: the code reports an error -/
  ingress : t.types ≠ [] → t.ingress.isSome → "Ingress" ∈ t.types
  egress : t.types ≠ [] → t.egress.isSome → "Egress" ∈ t.types
  rules : List.Forall₂ RuleTame (t.ingress.getD []) m.ingress ∧ List.Forall₂ RuleTame (t.egress.getD []) m.egress

omit L2 in
theorem governs_ingress {t : CalicoText} (h : t.types = [] → t.egress ≠ some [] ∧ (t.ingress = some [] → t.egress = none)) :
    affectsIngress t = true ↔ GovernsIngress t := by
  unfold affectsIngress GovernsIngress
  simp only [Bool.or_eq_true, Bool.and_eq_true, List.isEmpty_iff, Bool.not_eq_true', List.contains_iff_mem]
  refine or_congr Iff.rfl (and_congr_right fun h0 => ?_)
  obtain ⟨h1, h2⟩ := h h0
  cases hi : t.ingress with
  | none =>
    cases he : t.egress with
    | none => simp
    | some l => simp only [Option.isSome_none, Option.isSome_some, Option.getD_none, Option.getD_some]; rw [he] at h1; simpa using h1
  | some l =>
    cases l with
    | nil => rw [h2 hi]; simp
    | cons a l => simp

omit L2 in
theorem governs_egress {t : CalicoText} (h : t.types = [] → t.egress ≠ some []) : affectsEgress t = true ↔ GovernsEgress t := by
  unfold affectsEgress GovernsEgress
  simp only [Bool.or_eq_true, Bool.and_eq_true, List.isEmpty_iff, List.contains_iff_mem]
  refine or_congr Iff.rfl (and_congr_right fun h0 => ?_)
  have h1 := h h0
  cases he : t.egress with
  | none => simp
  | some l => rw [he] at h1; simpa using h1

omit L2 in
theorem mapM_forall₂ {α β γ : Type} {f : α → Option β} {R : α → γ → Prop} {T : α → γ → Prop} {Q : γ → Prop} {G : β → γ → Prop}
    (h : ∀ a g, R a g → T a g → Q g → ∃ b, f a = some b ∧ G b g) {l : List α} {m : List γ} (hr : List.Forall₂ R l m) (ht : List.Forall₂ T l m)
    (hq : ∀ g ∈ m, Q g) : ∃ k, l.mapM f = some k ∧ List.Forall₂ G k m := by
  induction hr with
  | nil => exact ⟨[], rfl, .nil⟩
  | @cons a g l m hag hlm ih =>
    cases ht with
    | cons t1 t2 =>
      obtain ⟨b, hb, hG⟩ := h a g hag t1 (hq g (by simp))
      obtain ⟨k, hk, hF⟩ := ih t2 (fun g hg => hq g (by simp [hg]))
      refine ⟨b :: k, ?_, .cons hG hF⟩
      rw [List.mapM_cons, hb, hk]; rfl

/-- A well-formed policy is read as Calico does: it applies to the pods and host endpoints its selectors choose, governs the
directions of its `types`, and its rules in their order are those of the text.  PARTIAL: without the policies of
`PolicyTame` and `RuleTame`, which the code reads wrongly (see the witnesses), and without `ipVersion`. -/
theorem C48_policy_partial (hK : K.Ok) (hC : CalCluster rg c) (dflt : Ns) {t : CalicoText} {m : PolicyMeaning} (hm : PolicyMeans K dflt t m)
    (hl : PolicyLegal t m) (ht : PolicyTame c t m) :
    ∃ P, parsePolicy K c A2 PeerDom.default ord rg dflt t = some P ∧ P.order = t.order ∧
      (P.affectsIngress = true ↔ GovernsIngress t) ∧ (P.affectsEgress = true ↔ GovernsEgress t) ∧
      P.selected.Ok ∧ (∀ E, E.In P.selected ↔ Applies c m E) ∧
      List.Forall₂ (RuleOk L2 rg c m.ns (Applies c m) true) P.ingress m.ingress ∧
      List.Forall₂ (RuleOk L2 rg c m.ns (Applies c m) false) P.egress m.egress := by
  obtain ⟨S, eS, hS⟩ := selected_sem hK hC hm hl.selector
  have hin : ∀ E, E.In S ↔ Applies c m E := by
    intro E
    rw [hS.2]
    refine exists_congr fun p => and_congr_right fun hp => and_congr_right fun _ => ⟨fun h => ⟨?_, h⟩, And.right⟩
    have h1 := h.1
    have h2 := ht.sets p hp h
    cases hk : p.kind with
    | pod => exact Or.inl rfl
    | hep => exact Or.inr rfl
    | netset => exact absurd hk h2
    | dns => exact absurd hk h1
  have hAeq : (fun E : Place => E.In S) = Applies c m := funext fun E => propext (hin E)
  have hSok : S.Ok ∧ InCluster c S := ⟨hS.1, hS.inCluster⟩
  have rules : ∀ dir (l : List CalicoRule) (ms : List RuleSpec), List.Forall₂ (RuleMeans K) l ms → List.Forall₂ RuleTame l ms → (∀ r ∈ ms, r.Legal) →
      ∃ k, l.mapM (parseRule K c m.ns A2 PeerDom.default ord rg dir S) = some k ∧
        List.Forall₂ (RuleOk L2 rg c m.ns (Applies c m) dir) k ms := by
    intro dir l ms h1 h2 h3
    refine mapM_forall₂ (Q := RuleSpec.Legal) (fun a g hag hT hQ => ?_) h1 h2 h3
    rw [← hAeq]
    exact C48_rule_partial L2 hK hC hag hQ hT hSok dir
  obtain ⟨ki, ei, fi⟩ := rules true _ _ hm.ingress ht.rules.1 (fun r hr => hl.rules r (by simp [hr]))
  obtain ⟨ke, ee, fe⟩ := rules false _ _ hm.egress ht.rules.2 (fun r hr => hl.rules r (by simp [hr]))
  have gi := governs_ingress (t := t) ht.empty
  have ge := governs_egress (t := t) (fun h => (ht.empty h).1)
  refine ⟨⟨t.order, S, affectsIngress t, affectsEgress t, ki, ke⟩, ?_, rfl, gi, ge, hS.1, hin, fi, fe⟩
  have hns : policyNs dflt t = some m.ns := by
    unfold policyNs
    rw [hm.ns]
    cases hg : t.isGlobal with
    | true => rw [hl.global hg]; rfl
    | false => cases t.ns <;> rfl
  unfold parsePolicy
  rw [hns, Option.bind_eq_bind, Option.bind_some]
  have c1 : ¬ ((!t.isGlobal && t.nsSelector.isSome) = true) := by
    rw [Bool.and_eq_true, Bool.not_eq_true']
    rintro ⟨h1, h2⟩
    rw [hl.nsSelector h1] at h2; cases h2
  have c2 : ¬ ((!t.types.all (fun s => decide (s ∈ ["Egress", "Ingress"]))) = true) := by
    rw [Bool.not_eq_true', Bool.not_eq_false, List.all_eq_true]
    intro s hs
    rcases hl.types s hs with rfl | rfl <;> decide
  have c3 : ¬ ((!affectsIngress t && t.ingress.isSome) = true) := by
    rw [Bool.and_eq_true, Bool.not_eq_true', ← Bool.not_eq_true]
    rintro ⟨h1, h2⟩
    refine h1 ?_
    unfold affectsIngress
    by_cases h : t.types = []
    · rw [h, h2]; rfl
    · simp [ht.ingress h h2]
  have c4 : ¬ ((!affectsEgress t && t.egress.isSome) = true) := by
    rw [Bool.and_eq_true, Bool.not_eq_true', ← Bool.not_eq_true]
    rintro ⟨h1, h2⟩
    refine h1 ?_
    unfold affectsEgress
    by_cases h : t.types = []
    · rw [h, h2]; rfl
    · simp [ht.egress h h2]
  rw [if_neg c1, if_neg c2, if_neg c3, if_neg c4, eS]
  simp only [Option.bind_eq_bind, Option.bind_some]
  rw [ei]
  simp only [Option.bind_some]
  rw [ee]
  rfl

end
end CalicoParser
end Verif
