import Verif.K8sParseModel
import Verif.PropsSelectors
import Verif.PropsNamedPorts
import Verif.PropsBaseSets
/-!
C44: a Kubernetes network policy, as written, means what Kubernetes says it means.

The specification (`Applies`, `PeerSays`, `PortSays`, `RuleSays`) speaks of one connection: its two ends, its
protocol and its port.  It mentions no sets of peers and no connection sets.
-/
namespace Verif
open ISet IpBlock PeerSet

namespace K8sParser
open Container

/-! ### Specification -/

/-- An end of a connection: a peer of the cluster or an address outside. -/
inductive End where
  | peer (p : PeerInfo)
  | ip (x : Ip)

/-- The end is the peer or address at the index `e`. -/
def End.At {X2 : Type} (rg : PodReg) (c : Container) (e : Int ⊕ X2) : End → Prop
  | .peer p => p ∈ c ∧ ∃ (n : Nat) (k : String), e = .inl (minPodIndex + n) ∧ rg.keys[n]? = some k ∧ p.elem = .pod k
  | .ip x => e = .inl x.idx

/-- The policy applies to the end: a pod of its namespace with the labels it asks for. -/
def Applies (ns : Ns) (s : Selector) : End → Prop
  | .peer p => p.kind = .pod ∧ p.InNs ns ∧ SatSel p.HasVal s
  | .ip _ => False

/-- A peer of a rule covers the end: an address of its block, or a pod that its selectors select. -/
def PeerSays (ns : Ns) (pp : PolicyPeer) : End → Prop
  | .ip x => ∃ b, pp.ipBlock = some b ∧ b.1.Has x ∧ ∀ e ∈ b.2, ¬ e.Has x
  | .peer p => pp.ipBlock = none ∧ p.kind = .pod ∧ ∃ n, p.ns = some n ∧ SatPeer ns pp p n

/-- The protocol of a port entry. -/
def PolicyPort.proto (pt : PolicyPort) : Int :=
  if pt.protocol = some "UDP" then 17 else if pt.protocol = some "SCTP" then 132 else 6

/-- A port entry covers a protocol and port at the destination. -/
def PortSays (rg : PodReg) (pt : PolicyPort) (dst : End) (proto port : Int) : Prop :=
  proto = pt.proto ∧
  match pt.port with
  | none => True
  | some (.num n) => n ≤ port ∧ port ≤ pt.endPort.getD n
  | some (.name s) => ∃ p k pr, dst = .peer p ∧ p.elem = .pod k ∧ (rg.named k).lookup s = some (port, pr) ∧
      Proto.getNumber pr = some proto

/-- A rule covers the connection with the given other end, destination, protocol and port. -/
def RuleSays (rg : PodReg) (ns : Ns) (r : PolicyRule) (other dst : End) (proto port : Int) : Prop :=
  (r.peers = [] ∨ ∃ pp ∈ r.peers, PeerSays ns pp other) ∧
  (r.ports = [] ∨ ∃ pt ∈ r.ports, PortSays rg pt dst proto port)

/-- A cluster of pods with namespaces, and DNS entries without.  All of them are registered, and the named ports are
legal. -/
structure Cluster (rg : PodReg) (c : Container) : Prop where
  reach : Base.Reach rg.keys
  ports : ∀ k, LegalPorts (rg.named k)
  uniq : c.Uniq
  elem : ∀ p ∈ c, ∃ k, p.elem = .pod k ∧ k ∈ rg.keys
  kind : ∀ p ∈ c, (p.kind = .pod ∧ ∃ n, p.ns = some n) ∨ (p.kind = .dns ∧ p.ns = none)

/-- The rule is not one of those for which selectors are known to be wrong (`C23_exists_restricted`,
`C23_ns_empty_value_wrong`). -/
def PolicyRule.Tame (c : Container) (ns : Ns) (r : PolicyRule) : Prop :=
  ∀ pp ∈ r.peers, ∀ p ∈ c, ∀ n, p.ns = some n →
    (∀ s, pp.nsSelector = some s → ¬ EmptyValueOfAbsentKey n s) ∧
    ((∀ s, pp.podSelector = some s → ∀ q ∈ s.matchExpressions, ¬ q.AboutKey) ∨ n.name = ns.name)

/-! ### Ports -/

theorem getNumber_tcp : Proto.getNumber "TCP" = some 6 := by decide
theorem getNumber_udp : Proto.getNumber "UDP" = some 17 := by decide
theorem getNumber_sctp : Proto.getNumber "SCTP" = some 132 := by decide

theorem portProtocol_sem {o : Option String} {s : String} (h : portProtocol o = some s) (pt : PolicyPort) (ho : pt.protocol = o) :
    Proto.getNumber s = some pt.proto := by
  unfold PolicyPort.proto
  rw [ho]
  cases o with
  | none => cases h; decide
  | some t =>
    unfold portProtocol at h
    dsimp only at h
    split at h
    · rename_i ht; cases h; subst ht; decide
    · split at h
      · rename_i hm
        cases h
        simp only [List.mem_cons, List.not_mem_nil, or_false] at hm
        rcases hm with rfl | rfl | rfl <;> decide
      · cases h

theorem validPort_iff (n : Int) : validPort n = true ↔ 1 ≤ n ∧ n ≤ 65535 := by
  unfold validPort; simp

/-- The names of a port entry. -/
def portNames : Option Port → Finset String
  | some (.name s) => {s}
  | _ => ∅

/-- The numbers of a port entry. -/
def portNumbers (port : Option Port) (e : Option Int) (x : Int) : Prop :=
  match port with
  | none => True
  | some (.num n) => n ≤ x ∧ x ≤ e.getD n
  | some (.name _) => False

/-- The ports of a port entry. -/
theorem portSet_sem {port : Option Port} {e : Option Int} {P : PortSet} (h : portSet port e = some P) :
    Canonical P.ports ∧ (∀ z, Mem z P.ports → 1 ≤ z ∧ z ≤ 65535) ∧ P.excluded = ∅ ∧
    P.named = portNames port ∧ ∀ x, 1 ≤ x → x ≤ 65535 → (Mem x P.ports ↔ portNumbers port e x) := by
  have hall : Canonical PortSet.allPorts ∧ ∀ z, Mem z PortSet.allPorts ↔ 1 ≤ z ∧ z ≤ 65535 :=
    ⟨canonical_singleton.2 (by decide), fun z => mem_singleton⟩
  have hadd : ∀ a b : Int, a ≤ b → Canonical (addInterval [] ⟨a, b⟩) ∧ ∀ z, Mem z (addInterval [] ⟨a, b⟩) ↔ a ≤ z ∧ z ≤ b := by
    intro a b hab
    have := addInterval_spec [] ⟨a, b⟩ canonical_nil hab
    refine ⟨this.1, fun z => ?_⟩
    rw [this.2]
    simp [not_mem_nil, Iv.Mem]
  cases port with
  | none =>
    have hP : P = PortSet.make true := by
      cases e with
      | none => cases h; rfl
      | some e =>
        unfold portSet at h
        dsimp only at h
        split at h
        · cases h
        · cases h; rfl
    subst hP
    refine ⟨hall.1, fun z hz => (hall.2 z).1 hz, rfl, rfl, fun x h1 h2 => ?_⟩
    exact ⟨fun _ => trivial, fun _ => (hall.2 x).2 ⟨h1, h2⟩⟩
  | some p =>
    cases p with
    | num n =>
      cases e with
      | none =>
        unfold portSet at h
        dsimp only at h
        split at h
        · rename_i hv
          cases h
          rw [validPort_iff] at hv
          have ha := hadd n n (Int.le_refl n)
          refine ⟨ha.1, fun z hz => ?_, rfl, rfl, fun x _ _ => ha.2 x⟩
          have := (ha.2 z).1 hz; omega
        · cases h
      | some e =>
        unfold portSet at h
        dsimp only at h
        split at h
        · rename_i hv
          cases h
          simp only [Bool.and_eq_true, validPort_iff, Bool.not_eq_true', decide_eq_false_iff_not, Int.not_lt, gt_iff_lt] at hv
          have ha := hadd n e (by omega)
          refine ⟨ha.1, fun z hz => ?_, rfl, rfl, fun x _ _ => ha.2 x⟩
          have := (ha.2 z).1 hz; omega
        · cases h
    | name s =>
      cases e with
      | some e => cases h
      | none =>
        unfold portSet at h
        dsimp only at h
        split at h
        · cases h
          refine ⟨canonical_nil, fun z hz => absurd hz not_mem_nil, rfl, ?_, fun x _ _ => ?_⟩
          · simp [PortSet.make, PortSet.addPort, portNames]
          · exact ⟨fun hz => absurd hz not_mem_nil, fun h => h.elim⟩
        · cases h

/-! ### Peers -/

section
variable {c : Container} {rg : PodReg}

theorem Cluster.ok (hC : Cluster rg c) : c.Ok := by
  intro p hp b hb
  obtain ⟨k, hk, _⟩ := hC.elem p hp
  rw [hk] at hb; cases hb

theorem Cluster.not_ip (hC : Cluster rg c) (f : PeerInfo → Bool) (x : Ip) : ¬ (c.sel f).HasIp x := by
  rw [hasIp_sel]
  rintro ⟨p, hp, b, hb, _⟩
  obtain ⟨k, hk, _⟩ := hC.elem p hp
  rw [hk] at hb; cases hb

theorem hasPod_sel_mem (f : PeerInfo → Bool) {k : String} (h : (c.sel f).HasPod k) : ∃ p ∈ c, p.elem = .pod k := by
  obtain ⟨p, hp, _, he⟩ := (mem_sel c f _).1 h
  exact ⟨p, hp, he⟩

/-- What a selector can select at all. -/
theorem selector_bound (hC : Cluster rg c) {ns : Ns} {nsSel : Bool} {s : Selector} {q : PeerSet String}
    (h : selector c ns nsSel (some s) = some q) :
    q.Ok ∧ (∀ k, q.HasPod k → ∃ p ∈ c, p.elem = .pod k ∧ p.kind = .pod) ∧ ∀ x, ¬ q.HasIp x := by
  obtain ⟨q', e, ok, h2, h3⟩ := selector_sem hC.ok ns nsSel s (legal_of_some h)
  obtain rfl : q' = q := by rw [h] at e; exact (Option.some.inj e).symm
  refine ⟨ok, fun k hk => ?_, fun x hx => hC.not_ip _ x ((h3 x).1 hx).1⟩
  obtain ⟨p, hp, ht, he⟩ := (mem_sel c _ _).1 ((h2 k).1 hk).1
  refine ⟨p, hp, he, ?_⟩
  rcases hC.kind p hp with h | h
  · exact h.1
  · exact absurd h.1 ((allTest_iff p).1 ht)

theorem nsPods_bound (hC : Cluster rg c) (ns : Ns) :
    (c.nsPods (some ns)).Ok ∧ (∀ k, (c.nsPods (some ns)).HasPod k → ∃ p ∈ c, p.elem = .pod k ∧ p.kind = .pod) ∧
    ∀ x, ¬ (c.nsPods (some ns)).HasIp x := by
  refine ⟨sel_ok hC.ok _, fun k hk => ?_, fun x hx => hC.not_ip _ x hx⟩
  obtain ⟨p, hp, ht, he⟩ := (mem_sel c _ _).1 hk
  refine ⟨p, hp, he, ?_⟩
  rcases hC.kind p hp with h | h
  · exact h.1
  · rw [sameNs_iff] at ht
    obtain ⟨m, hm, _⟩ := ht
    rw [h.2] at hm; cases hm

/-- The peers of a peer of a rule: legal, of the cluster, and those the specification says. -/
theorem peer_sem (hC : Cluster rg c) {ns : Ns} {pp : PolicyPeer} {q : PeerSet String} (h : peer c ns pp = some q) :
    q.Ok ∧ (∀ k, q.HasPod k → ∃ p ∈ c, p.elem = .pod k ∧ p.kind = .pod) ∧
    (∀ x, q.HasIp x ↔ PeerSays ns pp (.ip x)) ∧ ∀ k, q.HasPod k → pp.ipBlock = none := by
  cases hb : pp.ipBlock with
  | some b =>
    obtain ⟨h1, h2, h3, h4⟩ := C23_peer_block.1 b q hb h
    refine ⟨?_, fun k hk => absurd hk (h3 k), fun x => ?_, fun k hk => absurd hk (h3 k)⟩
    · unfold peer at h
      rw [hb] at h
      dsimp only at h
      split at h
      · cases h
      · unfold ipBlock at h
        rw [Option.map_eq_some_iff] at h
        obtain ⟨l, hl, rfl⟩ := h
        intro b' hb'
        rw [List.mem_singleton] at hb'
        cases hb'
        exact .cidr _ _ .empty hl
    · rw [h4]
      unfold PeerSays
      simp only [hb, Option.some.injEq, exists_eq_left']
  | none =>
    have hno : ∀ x, ¬ PeerSays ns pp (.ip x) := by
      rintro x ⟨b, hb', _⟩; rw [hb] at hb'; cases hb'
    unfold peer at h
    rw [hb] at h
    dsimp only at h
    split at h
    · cases h
    · rw [Option.bind_eq_some_iff] at h
      obtain ⟨res, hres, h⟩ := h
      have hr : res.Ok ∧ (∀ k, res.HasPod k → ∃ p ∈ c, p.elem = .pod k ∧ p.kind = .pod) ∧ ∀ x, ¬ res.HasIp x := by
        cases e : pp.nsSelector with
        | none => rw [e] at hres; cases hres; exact nsPods_bound hC ns
        | some s => rw [e] at hres; exact selector_bound hC hres
      cases e : pp.podSelector with
      | none =>
        rw [e] at h; cases h
        exact ⟨hr.1, hr.2.1, fun x => ⟨fun hx => absurd hx (hr.2.2 x), fun hx => absurd hx (hno x)⟩, fun _ _ => rfl⟩
      | some s =>
        rw [e] at h
        unfold podPart at h
        rw [Option.map_eq_some_iff] at h
        obtain ⟨sel, hsel, rfl⟩ := h
        have hs := selector_bound hC hsel
        obtain ⟨a1, a2, a3⟩ := C22_and_exact hs.1 hr.1
        exact ⟨a1, fun k hk => hr.2.1 k ((a2 k).1 hk).2,
          fun x => ⟨fun hx => absurd ((a3 x).1 hx).2 (hr.2.2 x), fun hx => absurd hx (hno x)⟩, fun _ _ => rfl⟩

theorem fold_peers (hC : Cluster rg c) (ns : Ns) (L : List PolicyPeer) {acc q : PeerSet String} (ha : acc.Ok)
    (h : L.foldlM (fun res pp => (peer c ns pp).map res.or) acc = some q) :
    q.Ok ∧ (∀ k, q.HasPod k ↔ acc.HasPod k ∨ ∃ pp ∈ L, ∃ r, peer c ns pp = some r ∧ r.HasPod k) ∧
    (∀ x, q.HasIp x ↔ acc.HasIp x ∨ ∃ pp ∈ L, ∃ r, peer c ns pp = some r ∧ r.HasIp x) ∧
    ∀ pp ∈ L, ∃ r, peer c ns pp = some r := by
  induction L generalizing acc with
  | nil => cases h; exact ⟨ha, by simp, by simp, by simp⟩
  | cons pp L ih =>
    rw [List.foldlM_cons] at h
    cases hr : peer c ns pp with
    | none => rw [hr] at h; cases h
    | some r =>
      rw [hr] at h
      have hrok := (peer_sem hC hr).1
      obtain ⟨o1, o2, o3⟩ := C22_or_exact ha hrok
      obtain ⟨i1, i2, i3, i4⟩ := ih o1 h
      refine ⟨i1, fun k => ?_, fun x => ?_, fun p hp => ?_⟩
      · rw [i2, o2]
        simp only [List.mem_cons, exists_eq_or_imp, hr, Option.some.injEq, exists_eq_left', or_assoc]
      · rw [i3, o3]
        simp only [List.mem_cons, exists_eq_or_imp, hr, Option.some.injEq, exists_eq_left', or_assoc]
      · rcases List.mem_cons.1 hp with rfl | hp
        · exact ⟨r, hr⟩
        · exact i4 p hp

theorem rulePeers_bound (hC : Cluster rg c) {ns : Ns} {L : List PolicyPeer} {q : PeerSet String} (h : rulePeers c ns L = some q) :
    q.Ok ∧ ∀ k, q.HasPod k → ∃ p ∈ c, p.elem = .pod k := by
  unfold rulePeers at h
  split at h
  · cases h
    refine ⟨?_, fun k hk => ?_⟩
    · intro b hb
      unfold Container.allPeers at hb
      dsimp only at hb
      rw [if_pos rfl, Base.mem_setAdd] at hb
      rcases hb with hb | hb
      · exact sel_ok hC.ok _ b hb
      · cases hb; exact .all _ _
    · unfold Container.allPeers PeerSet.HasPod at hk
      dsimp only at hk
      rw [if_pos rfl, Base.mem_setAdd] at hk
      rcases hk with hk | hk
      · exact hasPod_sel_mem _ hk
      · cases hk
  · obtain ⟨h1, h2, _, _⟩ := fold_peers hC ns L (by intro b hb; cases hb) h
    refine ⟨h1, fun k hk => ?_⟩
    rcases (h2 k).1 hk with hk | ⟨pp, hpp, r, hr, hk⟩
    · cases hk
    · obtain ⟨p, hp, he, _⟩ := (peer_sem hC hr).2.1 k hk
      exact ⟨p, hp, he⟩

/-- The peers of a rule are those the specification says. -/
theorem rulePeers_sem (hC : Cluster rg c) {ns : Ns} {r : PolicyRule} {q : PeerSet String} (h : rulePeers c ns r.peers = some q)
    (ht : r.Tame c ns) :
    (∀ x, q.HasIp x ↔ (r.peers = [] ∨ ∃ pp ∈ r.peers, PeerSays ns pp (.ip x))) ∧
    ∀ p ∈ c, ∀ k, p.elem = .pod k → (q.HasPod k ↔ (r.peers = [] ∨ ∃ pp ∈ r.peers, PeerSays ns pp (.peer p))) := by
  unfold rulePeers at h
  split at h
  · rename_i hn
    cases h
    have hn : r.peers = [] := List.isEmpty_iff.1 hn
    refine ⟨fun x => ?_, fun p hp k hk => ?_⟩
    · simp only [hn, true_or, iff_true]
      refine ⟨_, ?_, (C21_all_exact false false x).2 (by simp)⟩
      unfold Container.allPeers
      dsimp only
      rw [if_pos rfl, Base.mem_setAdd]; exact Or.inr rfl
    · simp only [hn, true_or, iff_true]
      unfold Container.allPeers PeerSet.HasPod
      dsimp only
      rw [if_pos rfl, Base.mem_setAdd]; left
      rw [mem_sel]
      exact ⟨p, hp, by simp, hk⟩
  · rename_i hn
    have hn : r.peers ≠ [] := fun e => hn (by rw [e]; rfl)
    obtain ⟨h1, h2, h3, h4⟩ := fold_peers hC ns r.peers (by intro b hb; cases hb) h
    refine ⟨fun x => ?_, fun p hp k hk => ?_⟩
    · rw [h3]
      simp only [hn, false_or]
      constructor
      · rintro (⟨b, hb, _⟩ | ⟨pp, hpp, q', hq, hx⟩)
        · cases hb
        · exact ⟨pp, hpp, ((peer_sem hC hq).2.2.1 x).1 hx⟩
      · rintro ⟨pp, hpp, hs⟩
        obtain ⟨q', hq⟩ := h4 pp hpp
        exact Or.inr ⟨pp, hpp, q', hq, ((peer_sem hC hq).2.2.1 x).2 hs⟩
    · rw [h2]
      simp only [hn, false_or]
      have key : ∀ pp ∈ r.peers, ∀ q', peer c ns pp = some q' → (q'.HasPod k ↔ PeerSays ns pp (.peer p)) := by
        intro pp hpp q' hq
        obtain ⟨_, b2, _, b4⟩ := peer_sem hC hq
        constructor
        · intro hh
          obtain ⟨p', hp', he', hk'⟩ := b2 k hh
          obtain rfl : p' = p := hC.uniq p' hp' p hp (he'.trans hk.symm)
          rcases hC.kind p' hp' with ⟨_, n, hn'⟩ | h
          · exact ⟨b4 k hh, hk', n, hn', (C23_peer_partial hC.uniq hC.ok hq (b4 k hh) hp hk (by rw [hk']; decide) hn'
              (ht pp hpp p' hp n hn').1 (ht pp hpp p' hp n hn').2).1 hh⟩
          · rw [h.1] at hk'; cases hk'
        · rintro ⟨hb, hk', n, hn', hs⟩
          exact (C23_peer_partial hC.uniq hC.ok hq hb hp hk (by rw [hk']; decide) hn'
              (ht pp hpp p hp n hn').1 (ht pp hpp p hp n hn').2).2 hs
      constructor
      · rintro (hh | ⟨pp, hpp, q', hq, hx⟩)
        · cases hh
        · exact ⟨pp, hpp, (key pp hpp q' hq).1 hx⟩
      · rintro ⟨pp, hpp, hs⟩
        obtain ⟨q', hq⟩ := h4 pp hpp
        exact Or.inr ⟨pp, hpp, q', hq, (key pp hpp q' hq).2 hs⟩

/-- The selected pods are those of the specification. -/
theorem selectedPods_sem (hC : Cluster rg c) {ns : Ns} {s : Selector} {q : PeerSet String} (h : selectedPods c ns (some s) = some q) :
    q.Ok ∧ (∀ k, q.HasPod k → ∃ p ∈ c, p.elem = .pod k) ∧ (∀ x, ¬ q.HasIp x) ∧
    ∀ p ∈ c, ∀ k, p.elem = .pod k → (q.HasPod k ↔ Applies ns s (.peer p)) := by
  have h0 := h
  unfold selectedPods at h0
  rw [Option.map_eq_some_iff] at h0
  obtain ⟨sel, hsel, rfl⟩ := h0
  have hs := selector_bound hC hsel
  obtain ⟨a1, a2, a3⟩ := C22_and_exact hs.1 (nsPods_bound hC ns).1
  refine ⟨a1, fun k hk => ?_, fun x hx => hs.2.2 x ((a3 x).1 hx).1, fun p hp k hk => ?_⟩
  · obtain ⟨p, hp, he, _⟩ := hs.2.1 k ((a2 k).1 hk).1
    exact ⟨p, hp, he⟩
  · rcases hC.kind p hp with ⟨hkd, _⟩ | ⟨hkd, _⟩
    · rw [C23_selected_pods hC.uniq hC.ok h hp hk (by rw [hkd]; decide)]
      exact ⟨fun h => ⟨hkd, h⟩, fun h => h.2⟩
    · constructor
      · intro hh
        obtain ⟨p', hp', he', hk'⟩ := hs.2.1 k ((a2 k).1 hh).1
        obtain rfl : p' = p := hC.uniq p' hp' p hp (he'.trans hk.symm)
        rw [hkd] at hk'; cases hk'
      · rintro ⟨h', _⟩
        rw [hkd] at h'; cases h'

/-! ### Ends -/

/-- Whether a set of peers covers an end. -/
def End.In (S : PeerSet String) : End → Prop
  | .peer p => ∃ k, p.elem = .pod k ∧ S.HasPod k
  | .ip x => S.HasIp x

theorem at_end (hC : Cluster rg c) {X2 : Type} {e : Int ⊕ X2} {E : End} (hE : E.At rg c e) (S : PeerSet String) : S.At rg.keys e ↔ E.In S := by
  have hnd := (Base.C22_registry hC.reach).1
  cases E with
  | ip x =>
    have hE : e = .inl x.idx := hE
    subst hE
    constructor
    · rintro (⟨y, hy, h⟩ | ⟨n, k, hn, _⟩)
      · simp only [Sum.inl.injEq] at hy
        rw [← Ip.idx_inj.1 hy] at h; exact h
      · simp only [Sum.inl.injEq] at hn
        have := Base.idx_lt x; omega
    · intro h; exact Or.inl ⟨x, rfl, h⟩
  | peer p =>
    obtain ⟨hp, n, k, rfl, hk, he⟩ := hE
    constructor
    · rintro (⟨y, hy, h⟩ | ⟨m, j, hm, hj, h⟩)
      · simp only [Sum.inl.injEq] at hy
        have := Base.idx_lt y; omega
      · simp only [Sum.inl.injEq] at hm
        obtain rfl : n = m := by omega
        rw [hk] at hj; cases hj
        exact ⟨k, he, h⟩
    · rintro ⟨j, hj, h⟩
      rw [he] at hj; cases hj
      exact Or.inr ⟨n, k, rfl, hk, h⟩

/-! ### Rules -/

variable {V2 X2 : Type} {A2 : VAlg Dim V2 X2} {W2 : Dim → V2 → Prop} (L2 : A2.Lawful W2) {ord : SetOrder}

/-- The port of the connection is covered by a port entry. -/
def PortHit (rg : PodReg) (p : Point (connA A2 PeerDom.default)) (pt : PolicyPort) : Prop :=
  ∃ pr P m x, parsePort pt = some (pr, P) ∧ Proto.getNumber pr = some m ∧ p.1 .protocols = .inl m ∧ p.1 .dstPorts = .inl x ∧
    (Mem x P.ports ∨ ∃ n k, p.1 .dstPeers = .inl (minPodIndex + (n : Nat)) ∧ rg.keys[n]? = some k ∧ NamesPort rg [⟨m, m⟩] P.named k x)

theorem single_protocol {n : Int} {l : ISet} (h : ProtocolSet.add (ProtocolSet.make false) (.num n) = some l) :
    l = [⟨n, n⟩] ∧ 0 ≤ n ∧ n ≤ 255 := by
  unfold ProtocolSet.add ProtoArg.number at h
  simp only [Option.bind_some] at h
  split at h
  · rename_i hv
    cases h
    unfold Proto.isValid at hv
    simp only [Bool.and_eq_true, decide_eq_true_eq] at hv
    refine ⟨?_, hv.1, hv.2⟩
    rfl
  · cases h

theorem dict_legal (hC : Cluster rg c) {S D : PeerSet String} (hS : S.Ok ∧ ∀ k, S.HasPod k → ∃ p ∈ c, p.elem = .pod k)
    (hD : D.Ok ∧ ∀ k, D.HasPod k → ∃ p ∈ c, p.elem = .pod k) {T : Option ISet} {P : Option PortSet}
    (hT : ∀ l, T = some l → Canonical l ∧ ∀ z, Mem z l → 0 ≤ z ∧ z ≤ 255)
    (hP : ∀ Q, P = some Q → Canonical Q.ports ∧ ∀ z, Mem z Q.ports → 1 ≤ z ∧ z ≤ 65535) :
    ConnDict.Legal X2 rg.keys PeerDom.default ⟨some S, some D, T, P⟩ := by
  have reg : ∀ k, (∃ p ∈ c, p.elem = .pod k) → k ∈ rg.keys := by
    rintro k ⟨p, hp, he⟩
    obtain ⟨j, hj, hm⟩ := hC.elem p hp
    rw [he] at hj; cases hj; exact hm
  refine ⟨fun Z hZ => ?_, hT, hP⟩
  rcases hZ with hZ | hZ <;> cases hZ
  · exact ⟨hS.1, fun k hk => reg k (hS.2 k hk), fun z hz => at_default hC.reach hz⟩
  · exact ⟨hD.1, fun k hk => reg k (hD.2 k hk), fun z hz => at_default hC.reach hz⟩

theorem portStep_sem (hC : Cluster rg c) {S D : PeerSet String} (hS : S.Ok ∧ ∀ k, S.HasPod k → ∃ p ∈ c, p.elem = .pod k)
    (hD : D.Ok ∧ ∀ k, D.HasPod k → ∃ p ∈ c, p.elem = .pod k) {res h : HC Dim (ISet ⊕ V2)} {pt : PolicyPort}
    (hres : HcStrongT (connA A2 PeerDom.default) (connWf W2 PeerDom.default) allDims res)
    (hh : portStep A2 PeerDom.default ord rg S D res pt = some h) :
    HcStrongT (connA A2 PeerDom.default) (connWf W2 PeerDom.default) allDims h ∧
    ∀ p, (connNet L2 PeerDom.default).K.mem p h = true ↔ (connNet L2 PeerDom.default).K.mem p res = true ∨
      (S.At rg.keys (p.1 .srcPeers) ∧ D.At rg.keys (p.1 .dstPeers) ∧ PortHit rg p pt) := by
  have la := (connNet_lawful L2 PeerDom.default).1.net
  unfold portStep at hh
  rw [Option.bind_eq_bind, Option.bind_eq_some_iff] at hh
  obtain ⟨⟨pr, P⟩, hpp, hh⟩ := hh
  rw [Option.bind_eq_bind, Option.bind_eq_some_iff] at hh
  obtain ⟨m, hm, hh⟩ := hh
  split at hh
  · rw [Option.bind_eq_bind, Option.bind_eq_some_iff] at hh
    obtain ⟨T, hT, hh⟩ := hh
    obtain ⟨rfl, hm1, hm2⟩ := single_protocol hT
    have hpp' := hpp
    unfold parsePort at hpp'
    rw [Option.bind_eq_bind, Option.bind_eq_some_iff] at hpp'
    obtain ⟨pr', _, hpp'⟩ := hpp'
    rw [Option.bind_eq_bind, Option.bind_eq_some_iff] at hpp'
    obtain ⟨P', hP', hpp'⟩ := hpp'
    cases hpp'
    obtain ⟨g1, g2, g3, _, _⟩ := portSet_sem hP'
    have hlegal := dict_legal (X2 := X2) hC hS hD (T := some [⟨m, m⟩]) (P := some P)
      (fun l hl => by
        cases hl
        refine ⟨canonical_singleton.2 (Int.le_refl m), fun z hz => ?_⟩
        rw [mem_singleton] at hz
        unfold Iv.Mem at hz; dsimp only at hz; omega)
      (fun Q hQ => by cases hQ; exact ⟨g1, g2⟩)
    obtain ⟨h', e, st, me⟩ := C43_from_dict L2 (ord := ord) hC.reach hC.ports hlegal (Or.inl (by simp)) (Or.inl (fun Q hQ => by cases hQ; exact g3))
    rw [e] at hh
    cases hh
    refine ⟨la.or_strong hres (la.strong_ok st), fun p => ?_⟩
    have hor : (connNet L2 PeerDom.default).K.mem p (HC.or (connA A2 PeerDom.default) allDims res h') = true ↔ _ :=
      Bool.eq_iff_iff.1 (la.mem_or (la.strong_ok hres) (la.strong_ok st) p)
    refine hor.trans ?_
    rw [Bool.or_eq_true]
    refine or_congr Iff.rfl ((me p).trans ?_)
    constructor
    · rintro ⟨⟨f1, f2, f3⟩, hp⟩
      obtain ⟨x, hx, hx2, _⟩ := hp P rfl
      obtain ⟨n, hn, hn2⟩ := f3 _ rfl
      rw [mem_singleton] at hn2
      have : n = m := by unfold Iv.Mem at hn2; dsimp only at hn2; omega
      subst this
      exact ⟨f1 S rfl, f2 D rfl, pr, P, n, x, hpp, hm, hn, hx, hx2⟩
    · rintro ⟨f1, f2, pr1, P1, m1, x, e1, e2, e3, e4, e5⟩
      rw [hpp] at e1; cases e1
      rw [hm] at e2; cases e2
      refine ⟨⟨fun _ h => by cases h; exact f1, fun _ h => by cases h; exact f2, fun l hl => ?_⟩, fun Q hQ => ?_⟩
      · cases hl; exact ⟨m, e3, mem_singleton.2 ⟨Int.le_refl m, Int.le_refl m⟩⟩
      · cases hQ
        refine ⟨x, e4, e5, ?_⟩
        rintro ⟨n, k, _, _, name, hname, _⟩
        rw [g3] at hname
        simp at hname
  · rename_i hem
    cases hh
    refine ⟨hres, fun p => ⟨Or.inl, ?_⟩⟩
    rintro (h | ⟨h1, h2, _⟩)
    · exact h
    · exfalso
      have ne : ∀ (Z : PeerSet String) (e : Int ⊕ X2), Z.At rg.keys e → Z ≠ [] := by
        rintro Z e hz rfl
        rcases hz with ⟨_, _, _, hb, _⟩ | ⟨_, _, _, _, hb⟩
        · cases hb
        · cases hb
      apply hem
      have hs : S.isEmpty = false := List.isEmpty_eq_false_iff.2 (ne S _ h1)
      have hd : D.isEmpty = false := List.isEmpty_eq_false_iff.2 (ne D _ h2)
      rw [hs, hd]; rfl

theorem fold_ports (hC : Cluster rg c) {S D : PeerSet String} (hS : S.Ok ∧ ∀ k, S.HasPod k → ∃ p ∈ c, p.elem = .pod k)
    (hD : D.Ok ∧ ∀ k, D.HasPod k → ∃ p ∈ c, p.elem = .pod k) (L : List PolicyPort) {res h : HC Dim (ISet ⊕ V2)}
    (hres : HcStrongT (connA A2 PeerDom.default) (connWf W2 PeerDom.default) allDims res)
    (hh : L.foldlM (portStep A2 PeerDom.default ord rg S D) res = some h) :
    HcStrongT (connA A2 PeerDom.default) (connWf W2 PeerDom.default) allDims h ∧
    ∀ p, (connNet L2 PeerDom.default).K.mem p h = true ↔ (connNet L2 PeerDom.default).K.mem p res = true ∨
      (S.At rg.keys (p.1 .srcPeers) ∧ D.At rg.keys (p.1 .dstPeers) ∧ ∃ pt ∈ L, PortHit rg p pt) := by
  induction L generalizing res with
  | nil => cases hh; exact ⟨hres, fun p => by simp⟩
  | cons pt L ih =>
    rw [List.foldlM_cons, Option.bind_eq_bind, Option.bind_eq_some_iff] at hh
    obtain ⟨r, hr, hh⟩ := hh
    obtain ⟨s1, s2⟩ := portStep_sem L2 hC hS hD hres hr
    obtain ⟨i1, i2⟩ := ih s1 hh
    refine ⟨i1, fun p => ?_⟩
    rw [i2, s2]
    simp only [List.mem_cons, exists_eq_or_imp]
    constructor
    · rintro ((h | ⟨a, b, c⟩) | ⟨a, b, c⟩)
      · exact Or.inl h
      · exact Or.inr ⟨a, b, Or.inl c⟩
      · exact Or.inr ⟨a, b, Or.inr c⟩
    · rintro (h | ⟨a, b, c | c⟩)
      · exact Or.inl (Or.inl h)
      · exact Or.inl (Or.inr ⟨a, b, c⟩)
      · exact Or.inr ⟨a, b, c⟩

/-- The connections of a rule, before its peers are read. -/
theorem rule_raw (hC : Cluster rg c) {ns : Ns} {isIngress : Bool} {sel : PeerSet String} {r : PolicyRule} {h : HC Dim (ISet ⊕ V2)}
    (hsel : sel.Ok ∧ ∀ k, sel.HasPod k → ∃ p ∈ c, p.elem = .pod k)
    (hh : parseRule A2 PeerDom.default ord rg c ns isIngress sel r = some h) :
    HcStrongT (connA A2 PeerDom.default) (connWf W2 PeerDom.default) allDims h ∧ ∃ q, rulePeers c ns r.peers = some q ∧
    ∀ p, (connNet L2 PeerDom.default).K.mem p h = true ↔
      (if isIngress then q else sel).At rg.keys (p.1 .srcPeers) ∧ (if isIngress then sel else q).At rg.keys (p.1 .dstPeers) ∧
      (r.ports = [] ∨ ∃ pt ∈ r.ports, PortHit rg p pt) := by
  have la := (connNet_lawful L2 PeerDom.default).1.net
  unfold parseRule at hh
  rw [Option.bind_eq_bind, Option.bind_eq_some_iff] at hh
  obtain ⟨q, hq, hh⟩ := hh
  dsimp only at hh
  have hq' := rulePeers_bound hC hq
  have hS : (if isIngress then q else sel).Ok ∧ ∀ k, (if isIngress then q else sel).HasPod k → ∃ p ∈ c, p.elem = .pod k := by
    cases isIngress <;> assumption
  have hD : (if isIngress then sel else q).Ok ∧ ∀ k, (if isIngress then sel else q).HasPod k → ∃ p ∈ c, p.elem = .pod k := by
    cases isIngress <;> assumption
  split at hh
  · rename_i hn
    have hn : r.ports = [] := List.isEmpty_iff.1 hn
    obtain ⟨h', e, st, me⟩ := C43_from_dict L2 (ord := ord) (B := PeerDom.default) hC.reach hC.ports
      (dict_legal (X2 := X2) hC hS hD (T := none) (P := none) (fun l hl => by cases hl) (fun l hl => by cases hl))
      (Or.inr rfl) (Or.inl (fun Q hQ => by cases hQ))
    rw [e] at hh; cases hh
    refine ⟨st, q, hq, fun p => (me p).trans ?_⟩
    simp only [hn, true_or, and_true]
    constructor
    · rintro ⟨⟨f1, f2, _⟩, _⟩
      exact ⟨f1 _ rfl, f2 _ rfl⟩
    · rintro ⟨f1, f2⟩
      exact ⟨⟨fun _ h => by cases h; exact f1, fun _ h => by cases h; exact f2, fun _ h => by cases h⟩, fun _ h => by cases h⟩
  · rename_i hn
    have hn : r.ports ≠ [] := fun e => hn (by rw [e]; rfl)
    obtain ⟨s1, s2⟩ := fold_ports L2 hC hS hD r.ports la.empty_strong hh
    refine ⟨s1, q, hq, fun p => ?_⟩
    rw [s2]
    simp only [hn, false_or]
    constructor
    · rintro (h | h)
      · have := la.mem_empty p
        have h2 : (connNet L2 PeerDom.default).K.mem p (connNet L2 PeerDom.default).K.empty = true := h
        rw [this] at h2; cases h2
      · exact h
    · exact Or.inr

/-- A port entry covers the port of the connection iff the specification says so. -/
theorem portHit_iff {p : Point (connA A2 PeerDom.default)} {pt : PolicyPort} {a : String × PortSet} (ha : parsePort pt = some a)
    {dst : End} (hdst : dst.At rg c (p.1 .dstPeers)) {proto port : Int} (h1 : p.1 .protocols = .inl proto) (h2 : p.1 .dstPorts = .inl port) :
    PortHit rg p pt ↔ PortSays rg pt dst proto port := by
  obtain ⟨pr, P⟩ := a
  have hpp' := ha
  unfold parsePort at hpp'
  rw [Option.bind_eq_bind, Option.bind_eq_some_iff] at hpp'
  obtain ⟨pr', hpr, hpp'⟩ := hpp'
  rw [Option.bind_eq_bind, Option.bind_eq_some_iff] at hpp'
  obtain ⟨P', hP', hpp'⟩ := hpp'
  cases hpp'
  have hnum := portProtocol_sem hpr pt rfl
  obtain ⟨_, _, _, g4, g5⟩ := portSet_sem hP'
  have hdom : 1 ≤ port ∧ port ≤ 65535 := by
    have := p.2 .dstPorts
    rw [h2] at this
    exact mem_singleton.1 ((mem_inl A2 PeerDom.default port _ (canonical_singleton.2 (by decide))).1 this)
  have hname : ∀ s, (∃ n k, p.1 .dstPeers = .inl (minPodIndex + (n : Nat)) ∧ rg.keys[n]? = some k ∧ NamesPort rg [⟨proto, proto⟩] {s} k port) ↔
      ∃ q k pr, dst = .peer q ∧ q.elem = .pod k ∧ (rg.named k).lookup s = some (port, pr) ∧ Proto.getNumber pr = some proto := by
    intro s
    constructor
    · rintro ⟨n, k, hn, hk, name, hs, pr, m, hl, hg, hm⟩
      obtain rfl := Finset.mem_singleton.1 hs
      have : m = proto := by
        rw [mem_singleton] at hm; unfold Iv.Mem at hm; dsimp only at hm; omega
      subst this
      cases dst with
      | ip x =>
        have hx : p.1 .dstPeers = .inl x.idx := hdst
        rw [hx] at hn
        simp only [Sum.inl.injEq] at hn
        have := Base.idx_lt x; omega
      | peer q =>
        obtain ⟨hq, n', k', hn', hk', he⟩ := hdst
        rw [hn'] at hn
        simp only [Sum.inl.injEq] at hn
        obtain rfl : n' = n := by omega
        rw [hk] at hk'; cases hk'
        exact ⟨q, k, pr, rfl, he, hl, hg⟩
    · rintro ⟨q, k, pr, rfl, he, hl, hg⟩
      obtain ⟨hq, n', k', hn', hk', he'⟩ := hdst
      rw [he] at he'; cases he'
      exact ⟨n', k, hn', hk', s, Finset.mem_singleton.2 rfl, pr, proto, hl, hg, mem_singleton.2 ⟨Int.le_refl _, Int.le_refl _⟩⟩
  have hempty : ∀ n k, ¬ NamesPort rg [⟨proto, proto⟩] ∅ k n := by
    rintro n k ⟨name, hs, _⟩; simp at hs
  have hit : PortHit rg p pt ↔ proto = pt.proto ∧ (Mem port P.ports ∨
      ∃ n k, p.1 .dstPeers = .inl (minPodIndex + (n : Nat)) ∧ rg.keys[n]? = some k ∧ NamesPort rg [⟨proto, proto⟩] P.named k port) := by
    constructor
    · rintro ⟨pr1, P1, m1, x, e1, e2, e3, e4, e5⟩
      rw [ha] at e1; cases e1
      rw [h1] at e3; cases e3
      rw [h2] at e4; cases e4
      rw [hnum] at e2; cases e2
      exact ⟨rfl, e5⟩
    · rintro ⟨e1, e2⟩
      exact ⟨pr, P, proto, port, ha, by rw [hnum, e1], h1, h2, e2⟩
  rw [hit]
  unfold PortSays
  refine and_congr_right fun _ => ?_
  rw [g5 port hdom.1 hdom.2, g4]
  cases pt.port with
  | none => simp [portNumbers]
  | some q =>
    cases q with
    | num n =>
      constructor
      · rintro (h | ⟨_, k, _, _, hn⟩)
        · exact h
        · exact absurd hn (hempty _ k)
      · exact Or.inl
    | name s =>
      refine Iff.trans ?_ (hname s)
      simp [portNumbers, portNames]

theorem parsePort_of_fold {S D : PeerSet String} {L : List PolicyPort} {res h : HC Dim (ISet ⊕ V2)}
    (hh : L.foldlM (portStep A2 PeerDom.default ord rg S D) res = some h) : ∀ pt ∈ L, ∃ a, parsePort pt = some a := by
  induction L generalizing res with
  | nil => simp
  | cons pt L ih =>
    rw [List.foldlM_cons, Option.bind_eq_bind, Option.bind_eq_some_iff] at hh
    obtain ⟨r, hr, hh⟩ := hh
    intro q hq
    rcases List.mem_cons.1 hq with rfl | hq
    · unfold portStep at hr
      rw [Option.bind_eq_bind, Option.bind_eq_some_iff] at hr
      obtain ⟨a, ha, _⟩ := hr
      exact ⟨a, ha⟩
    · exact ih hh q hq

theorem parsePort_of_rule {ns : Ns} {isIngress : Bool} {sel : PeerSet String} {r : PolicyRule} {h : HC Dim (ISet ⊕ V2)}
    (hh : parseRule A2 PeerDom.default ord rg c ns isIngress sel r = some h) : ∀ pt ∈ r.ports, ∃ a, parsePort pt = some a := by
  unfold parseRule at hh
  rw [Option.bind_eq_bind, Option.bind_eq_some_iff] at hh
  obtain ⟨q, hq, hh⟩ := hh
  dsimp only at hh
  split at hh
  · rename_i hn
    rw [List.isEmpty_iff.1 hn]; simp
  · exact parsePort_of_fold hh

/-- C44 (rules): the connections of a rule are exactly those of the pods the policy applies to that the rule covers.
Partial: rules for which selectors go wrong are excluded (`Tame`). -/
theorem C44_rule_partial (hC : Cluster rg c) {ns : Ns} {s : Selector} {isIngress : Bool} {sel : PeerSet String} {r : PolicyRule}
    {h : HC Dim (ISet ⊕ V2)} (hs : selectedPods c ns (some s) = some sel) (ht : r.Tame c ns)
    (hh : parseRule A2 PeerDom.default ord rg c ns isIngress sel r = some h)
    {p : Point (connA A2 PeerDom.default)} {src dst : End} (hsrc : src.At rg c (p.1 .srcPeers)) (hdst : dst.At rg c (p.1 .dstPeers))
    {proto port : Int} (h1 : p.1 .protocols = .inl proto) (h2 : p.1 .dstPorts = .inl port) :
    (connNet L2 PeerDom.default).K.mem p h = true ↔
      Applies ns s (if isIngress then dst else src) ∧ RuleSays rg ns r (if isIngress then src else dst) dst proto port := by
  obtain ⟨b1, b2, b3, b4⟩ := selectedPods_sem hC hs
  obtain ⟨_, q, hq, hm⟩ := rule_raw L2 hC ⟨b1, b2⟩ hh
  obtain ⟨q1, q2⟩ := rulePeers_sem hC hq ht
  rw [hm, at_end hC hsrc, at_end hC hdst]
  have hsel : ∀ (E : End) (e : Int ⊕ X2), E.At rg c e → (E.In sel ↔ Applies ns s E) := by
    intro E e hE
    cases E with
    | ip x => exact ⟨fun h => absurd h (b3 x), fun h => h.elim⟩
    | peer a =>
      obtain ⟨ha, n, k, _, _, he⟩ := hE
      rw [← b4 a ha k he]
      constructor
      · rintro ⟨j, hj, h⟩; rw [he] at hj; cases hj; exact h
      · intro h; exact ⟨k, he, h⟩
  have hq' : ∀ (E : End) (e : Int ⊕ X2), E.At rg c e → (E.In q ↔ (r.peers = [] ∨ ∃ pp ∈ r.peers, PeerSays ns pp E)) := by
    intro E e hE
    cases E with
    | ip x => exact q1 x
    | peer a =>
      obtain ⟨ha, n, k, _, _, he⟩ := hE
      rw [← q2 a ha k he]
      constructor
      · rintro ⟨j, hj, h⟩; rw [he] at hj; cases hj; exact h
      · intro h; exact ⟨k, he, h⟩
  have hp : (∃ pt ∈ r.ports, PortHit rg p pt) ↔ ∃ pt ∈ r.ports, PortSays rg pt dst proto port := by
    refine exists_congr fun pt => and_congr_right fun hpt => ?_
    obtain ⟨a, ha⟩ := parsePort_of_rule hh pt hpt
    exact portHit_iff ha hdst h1 h2
  unfold RuleSays
  rw [hp]
  cases isIngress with
  | true =>
    simp only [if_true]
    rw [hsel dst _ hdst, hq' src _ hsrc]
    exact and_left_comm
  | false =>
    simp only [Bool.false_eq_true, if_false]
    rw [hsel src _ hsrc, hq' dst _ hdst]

/-! ### Policies -/

/-- Kubernetes: a policy without types governs ingress. -/
def PolicySpec.GovernsIngress (s : PolicySpec) : Prop := s.types = [] ∨ .ingress ∈ s.types

/-- Kubernetes: a policy without types governs egress iff it has egress rules. -/
def PolicySpec.GovernsEgress (s : PolicySpec) : Prop := .egress ∈ s.types ∨ (s.types = [] ∧ s.egress.rules ≠ [])

/-- The rules of a direction. -/
def PolicySpec.rules (s : PolicySpec) (isIngress : Bool) : List PolicyRule := if isIngress then s.ingress.rules else s.egress.rules

/-- The policy governs the direction. -/
def PolicySpec.Governs (s : PolicySpec) (isIngress : Bool) : Prop := if isIngress then s.GovernsIngress else s.GovernsEgress

/-- Neither types nor egress rules, but an `egress` key: the code takes the policy to govern egress
(`C44_empty_egress_wrong`). -/
def PolicySpec.EmptyEgress (s : PolicySpec) : Prop := s.types = [] ∧ s.egress.rules = [] ∧ s.egress.present = true

/-- The rules of a direction of a parsed policy. -/
def Parsed.rules (q : Parsed V2) (isIngress : Bool) : List (HC Dim (ISet ⊕ V2)) := if isIngress then q.ingress else q.egress

/-- The parsed policy governs the direction. -/
def Parsed.governs (q : Parsed V2) (isIngress : Bool) : Bool := if isIngress then q.affectsIngress else q.affectsEgress

theorem affectsIngress_iff (s : PolicySpec) : affectsIngress s = true ↔ s.GovernsIngress := by
  unfold affectsIngress PolicySpec.GovernsIngress
  simp

theorem affectsEgress_iff {s : PolicySpec} (h : ¬ s.EmptyEgress) : affectsEgress s = true ↔ s.GovernsEgress := by
  unfold affectsEgress PolicySpec.GovernsEgress
  unfold PolicySpec.EmptyEgress at h
  cases ht : s.types with
  | nil =>
    simp only [ht, true_and, not_and] at h
    simp only [List.isEmpty_nil, Bool.not_true, Bool.false_and, Bool.true_and, Bool.false_or, List.not_mem_nil, true_and, false_or]
    cases he : s.egress with
    | absent => simp [RuleField.present, RuleField.rules]
    | null => rw [he] at h; exact absurd rfl (h rfl)
    | list l =>
      rw [he] at h
      simp only [RuleField.present, RuleField.rules, true_iff]
      intro hl; exact h hl rfl
  | cons a l => simp

/-- The parts of an accepted spec. -/
theorem parseSpec_some {ns : Ns} {s : PolicySpec} {q : Parsed V2} (h : parseSpec A2 PeerDom.default ord rg c ns s = some q) :
    selectedPods c ns (some s.podSelector) = some q.selected ∧
    (∀ d, (s.rules d).mapM (parseRule A2 PeerDom.default ord rg c ns d q.selected) = some (q.rules d)) ∧
    q.affectsIngress = affectsIngress s ∧ q.affectsEgress = affectsEgress s := by
  unfold parseSpec at h
  split at h
  · cases h
  · split at h
    · cases h
    · split at h
      · cases h
      · rw [Option.bind_eq_bind, Option.bind_eq_some_iff] at h
        obtain ⟨sel, h1, h⟩ := h
        rw [Option.bind_eq_bind, Option.bind_eq_some_iff] at h
        obtain ⟨i, h2, h⟩ := h
        rw [Option.bind_eq_some_iff] at h
        obtain ⟨e, h3, h⟩ := h
        cases h
        refine ⟨h1, fun d => ?_, rfl, rfl⟩
        cases d
        · exact h3
        · exact h2

theorem mapM_some_mem {α β : Type} {f : α → Option β} {l : List α} {r : List β} (h : l.mapM f = some r) :
    (∀ b ∈ r, ∃ a ∈ l, f a = some b) ∧ ∀ a ∈ l, ∃ b ∈ r, f a = some b := by
  induction l generalizing r with
  | nil =>
    simp only [List.mapM_nil] at h
    cases h; simp
  | cons a l ih =>
    rw [List.mapM_cons, Option.bind_eq_bind, Option.bind_eq_some_iff] at h
    obtain ⟨b, hb, h⟩ := h
    rw [Option.bind_eq_bind, Option.bind_eq_some_iff] at h
    obtain ⟨r', hr, h⟩ := h
    cases h
    obtain ⟨i1, i2⟩ := ih hr
    refine ⟨fun x hx => ?_, fun x hx => ?_⟩
    · rcases List.mem_cons.1 hx with rfl | hx
      · exact ⟨a, by simp, hb⟩
      · obtain ⟨y, hy, e⟩ := i1 x hx
        exact ⟨y, by simp [hy], e⟩
    · rcases List.mem_cons.1 hx with rfl | hx
      · exact ⟨b, by simp, hb⟩
      · obtain ⟨y, hy, e⟩ := i2 x hx
        exact ⟨y, by simp [hy], e⟩

/-- C44 (policies): an accepted policy applies to exactly the pods it says, governs the directions it says, and its rules
of a direction allow exactly the connections of these pods that some rule of the text covers.  Partial: rules with the
known defects of selectors and an empty `egress` section without types are excluded. -/
theorem C44_policy_partial (hC : Cluster rg c) {ns : Ns} {s : PolicySpec} {q : Parsed V2}
    (h : parseSpec A2 PeerDom.default ord rg c ns s = some q) (ht : ∀ d, ∀ r ∈ s.rules d, r.Tame c ns) (he : ¬ s.EmptyEgress) :
    (∀ d, q.governs d = true ↔ s.Governs d) ∧
    (∀ e (E : End), E.At rg c e → (q.selected.At (X2 := X2) rg.keys e ↔ Applies ns s.podSelector E)) ∧
    ∀ (p : Point (connA A2 PeerDom.default)) (src dst : End) (proto port : Int), src.At rg c (p.1 .srcPeers) → dst.At rg c (p.1 .dstPeers) →
      p.1 .protocols = .inl proto → p.1 .dstPorts = .inl port → ∀ d,
      ((∃ r ∈ q.rules d, (connNet L2 PeerDom.default).K.mem p r = true) ↔
        Applies ns s.podSelector (if d then dst else src) ∧ ∃ r ∈ s.rules d, RuleSays rg ns r (if d then src else dst) dst proto port) := by
  obtain ⟨h1, h2, h3, h4⟩ := parseSpec_some h
  obtain ⟨b1, b2, b3, b4⟩ := selectedPods_sem hC h1
  refine ⟨fun d => ?_, fun e E hE => ?_, fun p src dst proto port e1 e2 e3 e4 d => ?_⟩
  · cases d
    · exact (by rw [← affectsEgress_iff he, ← h4] : q.affectsEgress = true ↔ s.GovernsEgress)
    · exact (by rw [← affectsIngress_iff, ← h3] : q.affectsIngress = true ↔ s.GovernsIngress)
  · rw [at_end hC hE]
    cases E with
    | ip x => exact ⟨fun h => absurd h (b3 x), fun h => h.elim⟩
    | peer a =>
      obtain ⟨ha, n, k, _, _, he⟩ := hE
      rw [← b4 a ha k he]
      constructor
      · rintro ⟨j, hj, h⟩; rw [he] at hj; cases hj; exact h
      · intro h; exact ⟨k, he, h⟩
  · obtain ⟨m1, m2⟩ := mapM_some_mem (h2 d)
    constructor
    · rintro ⟨b, hb, hm⟩
      obtain ⟨r, hr, hp⟩ := m1 b hb
      have := (C44_rule_partial L2 hC h1 (ht d r hr) hp e1 e2 e3 e4).1 hm
      exact ⟨this.1, r, hr, this.2⟩
    · rintro ⟨ha, r, hr, hs⟩
      obtain ⟨b, hb, hp⟩ := m2 r hr
      exact ⟨b, hb, (C44_rule_partial L2 hC h1 (ht d r hr) hp e1 e2 e3 e4).2 ⟨ha, hs⟩⟩

/-! ### Accepted policies -/

/-- A legal selector. -/
def Selector.Legal (s : Selector) : Prop := ∀ r ∈ s.matchExpressions, r.Legal

/-- A legal peer: a block whose exceptions are of its family, or selectors. -/
def PolicyPeer.Legal (pp : PolicyPeer) : Prop :=
  match pp.ipBlock with
  | some b => pp.podSelector = none ∧ pp.nsSelector = none ∧ ∀ e ∈ b.2, e.addr.six = b.1.addr.six
  | none => (pp.podSelector ≠ none ∨ pp.nsSelector ≠ none) ∧ (∀ s, pp.podSelector = some s → Selector.Legal s) ∧
      ∀ s, pp.nsSelector = some s → Selector.Legal s

/-- A legal port entry. -/
def PolicyPort.Legal (pt : PolicyPort) : Prop :=
  (∀ s, pt.protocol = some s → s = "" ∨ s = "TCP" ∨ s = "UDP" ∨ s = "SCTP") ∧
  match pt.port, pt.endPort with
  | none, e => e.getD 0 = 0
  | some (.num n), e => 1 ≤ n ∧ n ≤ e.getD n ∧ e.getD n ≤ 65535
  | some (.name s), e => e = none ∧ validName s = true

theorem parsePort_defined (pt : PolicyPort) : (∃ a, parsePort pt = some a) ↔ pt.Legal := by
  have h1 : (∃ s, portProtocol pt.protocol = some s) ↔ ∀ s, pt.protocol = some s → s = "" ∨ s = "TCP" ∨ s = "UDP" ∨ s = "SCTP" := by
    cases pt.protocol with
    | none => simp [portProtocol]
    | some s =>
      unfold portProtocol
      by_cases hs : s = ""
      · simp [hs]
      · by_cases hm : s ∈ ["TCP", "UDP", "SCTP"]
        · simp only [if_neg hs, if_pos hm, Option.some.injEq, exists_eq', forall_eq', true_iff]
          simp only [List.mem_cons, List.not_mem_nil, or_false] at hm
          exact Or.inr hm
        · simp only [if_neg hs, if_neg hm, Option.some.injEq, forall_eq', hs, false_or]
          simp only [List.mem_cons, List.not_mem_nil, or_false] at hm
          simp [hm]
  have h2 : (∃ P, portSet pt.port pt.endPort = some P) ↔ (match pt.port, pt.endPort with
      | none, e => e.getD 0 = 0
      | some (.num n), e => 1 ≤ n ∧ n ≤ e.getD n ∧ e.getD n ≤ 65535
      | some (.name s), e => e = none ∧ validName s = true) := by
    have some_if : ∀ (b : Prop) [Decidable b] (P : PortSet), (∃ Q, (if b then some P else none) = some Q) ↔ b := by
      intro b _ P; by_cases h : b <;> simp [h]
    cases pt.port with
    | none =>
      cases pt.endPort with
      | none => simp [portSet]
      | some e =>
        by_cases he : e = 0 <;> simp [portSet, he]
    | some p =>
      cases p with
      | num n =>
        cases pt.endPort with
        | none => simp only [portSet, some_if, validPort_iff, Option.getD_none]; omega
        | some e =>
          simp only [portSet, some_if, Bool.and_eq_true, validPort_iff, Bool.not_eq_true', decide_eq_false_iff_not, Option.getD_some]
          omega
      | name s =>
        cases pt.endPort with
        | none => simp only [portSet, some_if, true_and]
        | some e => simp [portSet]
  unfold PolicyPort.Legal
  rw [← h1, ← h2]
  unfold parsePort
  constructor
  · rintro ⟨a, ha⟩
    rw [Option.bind_eq_bind, Option.bind_eq_some_iff] at ha
    obtain ⟨s, hs, ha⟩ := ha
    rw [Option.bind_eq_bind, Option.bind_eq_some_iff] at ha
    obtain ⟨P, hP, _⟩ := ha
    exact ⟨⟨s, hs⟩, P, hP⟩
  · rintro ⟨⟨s, hs⟩, P, hP⟩
    exact ⟨(s, P), by rw [hs, hP]; rfl⟩

theorem peer_defined (c : Container) (ns : Ns) (pp : PolicyPeer) : (∃ q, peer c ns pp = some q) ↔ pp.Legal := by
  unfold peer PolicyPeer.Legal
  cases hb : pp.ipBlock with
  | some b =>
    dsimp only
    constructor
    · rintro ⟨q, hq⟩
      split at hq
      · cases hq
      · rename_i hs
        simp only [Bool.or_eq_true, Option.isSome_iff_ne_none, not_or, ne_eq, not_not] at hs
        refine ⟨hs.1, hs.2, fun e he => ?_⟩
        unfold ipBlock at hq
        rw [Option.map_eq_some_iff] at hq
        obtain ⟨l, hl, _⟩ := hq
        by_contra hne
        rw [C21_cidr_error.2 ⟨e, he, hne⟩] at hl; cases hl
    · rintro ⟨h1, h2, h3⟩
      rw [h1, h2]
      simp only [Option.isSome_none, Bool.or_self, Bool.false_eq_true, if_false]
      unfold ipBlock
      cases hl : IpBlock.addCidr [] b.1 b.2 with
      | some l => exact ⟨_, rfl⟩
      | none =>
        obtain ⟨e, he, hne⟩ := C21_cidr_error.1 hl
        exact absurd (h3 e he) hne
  | none =>
    dsimp only
    have hns : (∃ res, nsPart c ns pp.nsSelector = some res) ↔ ∀ s, pp.nsSelector = some s → Selector.Legal s := by
      cases pp.nsSelector with
      | none => simp [nsPart]
      | some s =>
        simp only [Option.some.injEq, forall_eq']
        exact C23_defined c ns true s
    have hps : ∀ res, (∃ q, podPart c ns res pp.podSelector = some q) ↔ ∀ s, pp.podSelector = some s → Selector.Legal s := by
      intro res
      cases pp.podSelector with
      | none => simp [podPart]
      | some s =>
        simp only [Option.some.injEq, forall_eq', podPart, Option.map_eq_some_iff]
        refine Iff.trans ?_ (C23_defined c ns false s)
        constructor
        · rintro ⟨_, a, ha, _⟩; exact ⟨a, ha⟩
        · rintro ⟨a, ha⟩; exact ⟨_, a, ha, rfl⟩
    have hempty : (pp.podSelector.isNone && pp.nsSelector.isNone) = true ↔ ¬ (pp.podSelector ≠ none ∨ pp.nsSelector ≠ none) := by
      rw [Bool.and_eq_true, Option.isNone_iff_eq_none, Option.isNone_iff_eq_none, not_or, not_not, not_not]
    constructor
    · rintro ⟨q, hq⟩
      split at hq
      · cases hq
      · rename_i hs
        rw [hempty, not_not] at hs
        rw [Option.bind_eq_some_iff] at hq
        obtain ⟨res, hres, hq⟩ := hq
        exact ⟨hs, (hps res).1 ⟨q, hq⟩, hns.1 ⟨res, hres⟩⟩
    · rintro ⟨h1, h2, h3⟩
      rw [if_neg (by rw [hempty, not_not]; exact h1)]
      obtain ⟨res, hres⟩ := hns.2 h3
      obtain ⟨q, hq⟩ := (hps res).2 h2
      exact ⟨q, by rw [hres, Option.bind_some, hq]⟩

/-- A legal rule. -/
def PolicyRule.Legal (r : PolicyRule) : Prop := (∀ pp ∈ r.peers, pp.Legal) ∧ ∀ pt ∈ r.ports, pt.Legal

theorem rulePeers_defined (c : Container) (ns : Ns) (L : List PolicyPeer) : (∃ q, rulePeers c ns L = some q) ↔ ∀ pp ∈ L, pp.Legal := by
  have fold : ∀ (L : List PolicyPeer) acc, (∃ q, L.foldlM (fun (res : PeerSet String) pp => (peer c ns pp).map res.or) acc = some q) ↔ ∀ pp ∈ L, pp.Legal := by
    intro L
    induction L with
    | nil => simp
    | cons pp L ih =>
      intro acc
      rw [List.foldlM_cons, List.forall_mem_cons, ← peer_defined c ns pp]
      cases hr : peer c ns pp with
      | none => simp
      | some r =>
        simp only [Option.map_some, Option.bind_eq_bind, Option.bind_some, Option.some.injEq, exists_eq', true_and]
        exact ih _
  unfold rulePeers
  split
  · rename_i hn
    rw [List.isEmpty_iff.1 hn]; simp
  · exact fold L []

theorem portStep_defined (hC : Cluster rg c) {S D : PeerSet String} (hS : S.Ok ∧ ∀ k, S.HasPod k → ∃ p ∈ c, p.elem = .pod k)
    (hD : D.Ok ∧ ∀ k, D.HasPod k → ∃ p ∈ c, p.elem = .pod k) {pt : PolicyPort} (hl : pt.Legal) (res : HC Dim (ISet ⊕ V2))
    (L2 : A2.Lawful W2) : ∃ h, portStep A2 PeerDom.default ord rg S D res pt = some h := by
  obtain ⟨⟨pr, P⟩, ha⟩ := (parsePort_defined pt).2 hl
  have hpp' := ha
  unfold parsePort at hpp'
  rw [Option.bind_eq_bind, Option.bind_eq_some_iff] at hpp'
  obtain ⟨pr', hpr, hpp'⟩ := hpp'
  rw [Option.bind_eq_bind, Option.bind_eq_some_iff] at hpp'
  obtain ⟨P', hP', hpp'⟩ := hpp'
  cases hpp'
  have hnum := portProtocol_sem hpr pt rfl
  obtain ⟨g1, g2, g3, _, _⟩ := portSet_sem hP'
  have hbound : 0 ≤ pt.proto ∧ pt.proto ≤ 255 := by
    unfold PolicyPort.proto; split
    · decide
    · split <;> decide
  have hadd : ProtocolSet.add (ProtocolSet.make false) (.num pt.proto) = some [⟨pt.proto, pt.proto⟩] := by
    unfold ProtocolSet.add ProtoArg.number Proto.isValid
    simp only [Option.bind_some]
    rw [if_pos (by simp [hbound.1, hbound.2])]
    rfl
  unfold portStep
  rw [ha, Option.bind_eq_bind, Option.bind_some]
  dsimp only
  rw [hnum, Option.bind_eq_bind, Option.bind_some]
  split
  · obtain ⟨h, e, _⟩ := C43_from_dict L2 (ord := ord) (B := PeerDom.default) hC.reach hC.ports
      (dict_legal (X2 := X2) hC hS hD (T := some [⟨pt.proto, pt.proto⟩]) (P := some P)
        (fun l hl => by
          cases hl
          refine ⟨canonical_singleton.2 (Int.le_refl _), fun z hz => ?_⟩
          rw [mem_singleton] at hz
          unfold Iv.Mem at hz; dsimp only at hz; omega)
        (fun Q hQ => by cases hQ; exact ⟨g1, g2⟩)) (Or.inl (by simp)) (Or.inl (fun Q hQ => by cases hQ; exact g3))
    rw [hadd, Option.bind_eq_bind, Option.bind_some, e]
    exact ⟨_, rfl⟩
  · exact ⟨_, rfl⟩

theorem parseRule_defined (L2 : A2.Lawful W2) (hC : Cluster rg c) {ns : Ns} {d : Bool} {sel : PeerSet String}
    (hsel : sel.Ok ∧ ∀ k, sel.HasPod k → ∃ p ∈ c, p.elem = .pod k) (r : PolicyRule) :
    (∃ h, parseRule A2 PeerDom.default ord rg c ns d sel r = some h) ↔ r.Legal := by
  constructor
  · rintro ⟨h, hh⟩
    refine ⟨?_, fun pt hpt => (parsePort_defined pt).1 (parsePort_of_rule hh pt hpt)⟩
    unfold parseRule at hh
    rw [Option.bind_eq_bind, Option.bind_eq_some_iff] at hh
    obtain ⟨q, hq, _⟩ := hh
    exact (rulePeers_defined c ns r.peers).1 ⟨q, hq⟩
  · rintro ⟨h1, h2⟩
    obtain ⟨q, hq⟩ := (rulePeers_defined c ns r.peers).2 h1
    have hq' := rulePeers_bound hC hq
    unfold parseRule
    rw [hq, Option.bind_eq_bind, Option.bind_some]
    dsimp only
    have hS : (if d then q else sel).Ok ∧ ∀ k, (if d then q else sel).HasPod k → ∃ p ∈ c, p.elem = .pod k := by
      cases d <;> assumption
    have hD : (if d then sel else q).Ok ∧ ∀ k, (if d then sel else q).HasPod k → ∃ p ∈ c, p.elem = .pod k := by
      cases d <;> assumption
    split
    · obtain ⟨h, e, _⟩ := C43_from_dict L2 (ord := ord) (B := PeerDom.default) hC.reach hC.ports
        (dict_legal (X2 := X2) hC hS hD (T := none) (P := none) (fun l hl => by cases hl) (fun l hl => by cases hl))
        (Or.inr rfl) (Or.inl (fun Q hQ => by cases hQ))
      exact ⟨h, e⟩
    · have fold : ∀ (L : List PolicyPort) res, (∀ pt ∈ L, pt.Legal) →
          ∃ h, L.foldlM (portStep A2 PeerDom.default ord rg (if d then q else sel) (if d then sel else q)) res = some h := by
        intro L
        induction L with
        | nil => intro res _; exact ⟨res, rfl⟩
        | cons pt L ih =>
          intro res hl
          obtain ⟨r', hr'⟩ := portStep_defined hC hS hD (hl pt (by simp)) res L2 (ord := ord)
          rw [List.foldlM_cons, hr', Option.bind_eq_bind, Option.bind_some]
          exact ih r' (fun x hx => hl x (by simp [hx]))
      exact fold r.ports _ h2

theorem mapM_defined {α β : Type} (f : α → Option β) (l : List α) : (∃ r, l.mapM f = some r) ↔ ∀ a ∈ l, ∃ b, f a = some b := by
  induction l with
  | nil => simp
  | cons a l ih =>
    rw [List.mapM_cons, List.forall_mem_cons, ← ih]
    cases ha : f a with
    | none => simp
    | some b =>
      cases hl : l.mapM f with
      | none => simp
      | some r => simp

/-- C44: a policy is accepted exactly if its types are one of the three lists or absent, every given section belongs to
a governed direction, and its selectors, peers and ports are legal. -/
theorem C44_accepted (L2 : A2.Lawful W2) (hC : Cluster rg c) (ns : Ns) (s : PolicySpec) :
    (∃ q, parseSpec A2 PeerDom.default ord rg c ns s = some q) ↔
      (s.types = [] ∨ s.types = [.ingress] ∨ s.types = [.egress] ∨ s.types = [.ingress, .egress]) ∧
      (s.ingress.notNull = true → s.types = [] ∨ .ingress ∈ s.types) ∧
      (s.egress.notNull = true → s.types = [] ∨ .egress ∈ s.types) ∧
      Selector.Legal s.podSelector ∧ ∀ d, ∀ r ∈ s.rules d, r.Legal := by
  have ht : (!(s.types.isEmpty || decide (s.types ∈ [[.ingress], [.egress], [.ingress, .egress]]))) = true ↔
      ¬ (s.types = [] ∨ s.types = [.ingress] ∨ s.types = [.egress] ∨ s.types = [.ingress, .egress]) := by
    simp
  have hi : (!affectsIngress s && s.ingress.notNull) = true ↔ ¬ (s.ingress.notNull = true → s.types = [] ∨ .ingress ∈ s.types) := by
    have := affectsIngress_iff s
    unfold PolicySpec.GovernsIngress at this
    rw [← this]
    cases affectsIngress s <;> cases s.ingress.notNull <;> simp
  have he : (!affectsEgress s && s.egress.notNull) = true ↔ ¬ (s.egress.notNull = true → s.types = [] ∨ .egress ∈ s.types) := by
    unfold affectsEgress
    cases s.types <;> cases s.egress <;> simp [RuleField.notNull, RuleField.present]
  have hsel : (∃ q, selectedPods c ns (some s.podSelector) = some q) ↔ Selector.Legal s.podSelector := by
    refine Iff.trans ?_ (C23_defined c ns false s.podSelector)
    unfold selectedPods
    simp only [Option.map_eq_some_iff]
    constructor
    · rintro ⟨_, a, ha, _⟩; exact ⟨a, ha⟩
    · rintro ⟨a, ha⟩; exact ⟨_, a, ha, rfl⟩
  constructor
  · rintro ⟨q, hq⟩
    obtain ⟨h1, h2, _⟩ := parseSpec_some hq
    obtain ⟨b1, b2, _⟩ := selectedPods_sem hC h1
    unfold parseSpec at hq
    split at hq
    · cases hq
    · rename_i n1
      split at hq
      · cases hq
      · rename_i n2
        split at hq
        · cases hq
        · rename_i n3
          rw [ht, not_not] at n1
          rw [hi, not_not] at n2
          rw [he, not_not] at n3
          refine ⟨n1, n2, n3, hsel.1 ⟨_, h1⟩, fun d r hr => ?_⟩
          obtain ⟨b, _, hb⟩ := (mapM_some_mem (h2 d)).2 r hr
          exact (parseRule_defined L2 hC ⟨b1, b2⟩ r).1 ⟨b, hb⟩
  · rintro ⟨n1, n2, n3, n4, n5⟩
    unfold parseSpec
    rw [if_neg (by rw [ht, not_not]; exact n1), if_neg (by rw [hi, not_not]; exact n2), if_neg (by rw [he, not_not]; exact n3)]
    obtain ⟨sel, h1⟩ := hsel.2 n4
    obtain ⟨b1, b2, _⟩ := selectedPods_sem hC h1
    obtain ⟨i, hi'⟩ := (mapM_defined (parseRule A2 PeerDom.default ord rg c ns true sel) s.ingress.rules).2
      (fun r hr => (parseRule_defined L2 hC ⟨b1, b2⟩ r).2 (n5 true r hr))
    obtain ⟨e, he'⟩ := (mapM_defined (parseRule A2 PeerDom.default ord rg c ns false sel) s.egress.rules).2
      (fun r hr => (parseRule_defined L2 hC ⟨b1, b2⟩ r).2 (n5 false r hr))
    rw [h1, Option.bind_eq_bind, Option.bind_some, hi', Option.bind_eq_bind, Option.bind_some, he', Option.bind_some]
    exact ⟨_, rfl⟩

end
end K8sParser
end Verif
