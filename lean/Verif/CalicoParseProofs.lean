import Verif.CalicoParseSpec
import Mathlib.Data.List.Forall2
/-!
Lemmas for C48: ports, peers and cubes of Calico's rules.
-/
namespace Verif
open ISet IpBlock PeerSet

namespace CalicoParser
open Container

/-! ### Ports -/

/-- The number is one of the entry. -/
def PortSpec.Number (x : Int) : PortSpec → Prop
  | .num n => x = n
  | .range lo hi => lo ≤ x ∧ x ≤ hi
  | .name _ => False

/-- The names of an entry. -/
def PortSpec.names : PortSpec → Finset String
  | .name s => {s}
  | _ => ∅

theorem mem_names {q : PortSpec} {s : String} : s ∈ q.names ↔ q = .name s := by
  cases q with
  | num n => simp [PortSpec.names]
  | range a b => simp [PortSpec.names]
  | name t => simp [PortSpec.names, eq_comm]

theorem digits_fold (s : List Char) (hd : ∀ a ∈ s, a.isDigit = true) (v : Int) :
    s.foldl (fun acc c => acc.bind fun n => if c.isDigit then some (10 * n + (c.toNat - 48 : Nat)) else none) (some v) =
      some (s.foldl (fun v a => 10 * v + ((a.toNat - 48 : Nat) : Int)) v) := by
  induction s generalizing v with
  | nil => rfl
  | cons a s ih =>
    rw [List.foldl_cons, List.foldl_cons, Option.bind_some, if_pos (hd a List.mem_cons_self)]
    exact ih (fun b hb => hd b (List.mem_cons_of_mem _ hb)) _

theorem pyInt_num {s : List Char} {n : Int} (h : IsNum s n) : Proto.pyInt (String.ofList s) = some n := by
  obtain ⟨h1, h2, rfl⟩ := h
  cases s with
  | nil => exact absurd rfl h1
  | cons a s =>
    have hd : Proto.digits (a :: s) = some ((a :: s).foldl (fun v a => 10 * v + ((a.toNat - 48 : Nat) : Int)) 0) :=
      digits_fold (a :: s) h2 0
    unfold Proto.pyInt
    rw [String.toList_ofList]
    have ha := h2 a List.mem_cons_self
    split
    · rename_i e; cases e; exact absurd ha (by decide)
    · rename_i e; cases e; exact absurd ha (by decide)
    · exact hd

theorem not_colon {s : List Char} {n : Int} (h : IsNum s n) : ':' ∉ s := fun hm => absurd (h.2.1 _ hm) (by decide)

theorem splitColon_some {a b : List Char} (ha : ':' ∉ a) (hb : ':' ∉ b) : splitColon (a ++ ':' :: b) = some (a, b) := by
  have hp : ∀ x ∈ a, decide (x ≠ ':') = true := fun x hx => by
    simp only [ne_eq, decide_eq_true_eq]; rintro rfl; exact ha hx
  unfold splitColon
  have hcount : (a ++ ':' :: b).count ':' = 1 := by
    rw [List.count_append, List.count_cons_self, List.count_eq_zero.2 ha, List.count_eq_zero.2 hb]
  rw [if_pos hcount, List.takeWhile_append_of_pos hp, List.dropWhile_append_of_pos hp]
  simp

theorem splitColon_none {s : List Char} (h : ':' ∉ s) : splitColon s = none := by
  unfold splitColon
  rw [if_neg]
  rw [List.count_eq_zero.2 h]; decide

theorem validPort_iff (n : Int) : K8sParser.validPort n = true ↔ 1 ≤ n ∧ n ≤ 65535 := K8sParser.validPort_iff n

/-- The ports of an entry. -/
theorem parsePort_sem {t : PortText} {q : PortSpec} (h : PortMeans t q) (hp : t.Plain) (hl : q.Legal) :
    ∃ P, parsePort t = some P ∧ Canonical P.ports ∧ P.named = q.names ∧ P.excluded = ∅ ∧ ∀ x, Mem x P.ports ↔ q.Number x := by
  have hadd : ∀ a b : Int, a ≤ b → Canonical (addInterval [] ⟨a, b⟩) ∧ ∀ z, Mem z (addInterval [] ⟨a, b⟩) ↔ a ≤ z ∧ z ≤ b := by
    intro a b hab
    have := addInterval_spec [] ⟨a, b⟩ canonical_nil hab
    refine ⟨this.1, fun z => ?_⟩
    rw [this.2]
    simp [not_mem_nil, Iv.Mem]
  cases h with
  | num n =>
    have ha := hadd n n (Int.le_refl n)
    refine ⟨_, if_pos ((validPort_iff n).2 hl), ha.1, rfl, rfl, fun x => (ha.2 x).trans ?_⟩
    unfold PortSpec.Number; omega
  | digits h => exact absurd ⟨_, h⟩ hp
  | @range s a b lo hi e h1 h2 =>
    obtain ⟨l1, l2, l3⟩ := hl
    have ha := hadd lo hi l2
    refine ⟨(PortSet.make false).addPortRange lo hi, ?_, ha.1, rfl, rfl, fun x => ha.2 x⟩
    unfold parsePort
    dsimp only
    rw [e, splitColon_some (not_colon h1) (not_colon h2)]
    dsimp only
    rw [pyInt_num h1, pyInt_num h2]
    dsimp only
    rw [if_pos]
    have v1 := (validPort_iff lo).2 ⟨l1, by omega⟩
    have v2 := (validPort_iff hi).2 ⟨by omega, l3⟩
    rw [v1, v2]
    simp only [Bool.and_self, Bool.true_and, Bool.not_eq_true', decide_eq_false_iff_not, Int.not_lt]
    exact l2
  | @name s h1 h2 =>
    refine ⟨(PortSet.make false).addPort (.name s), ?_, canonical_nil, ?_, by simp [PortSet.addPort, PortSet.make], fun x => ?_⟩
    · unfold parsePort
      dsimp only
      rw [splitColon_none h1]
    · simp [PortSet.addPort, PortSet.make, PortSpec.names]
    · exact ⟨fun hx => absurd hx not_mem_nil, fun hx => hx.elim⟩

theorem or_ports {l : List PortText} {m : List PortSpec} (h : List.Forall₂ PortMeans l m) (hp : ∀ t ∈ l, t.Plain)
    (hl : ∀ q ∈ m, q.Legal) {P0 : PortSet} (h0 : Canonical P0.ports) (hx : P0.excluded = ∅) :
    ∃ P, l.foldlM (fun acc p => (parsePort p).map acc.or) P0 = some P ∧ Canonical P.ports ∧ P.excluded = ∅ ∧
      (∀ x, Mem x P.ports ↔ Mem x P0.ports ∨ ∃ q ∈ m, q.Number x) ∧ ∀ s, s ∈ P.named ↔ s ∈ P0.named ∨ .name s ∈ m := by
  induction h generalizing P0 with
  | nil => exact ⟨P0, rfl, h0, hx, by simp, by simp⟩
  | @cons t q l m h1 _ ih =>
    obtain ⟨P, e, c, n, x, hm⟩ := parsePort_sem h1 (hp t List.mem_cons_self) (hl q List.mem_cons_self)
    have hu := union_spec P0.ports P.ports h0 c.1
    obtain ⟨R, e2, c2, x2, m2, n2⟩ := ih (fun t ht => hp t (List.mem_cons_of_mem _ ht)) (fun q hq => hl q (List.mem_cons_of_mem _ hq))
      (P0 := P0.or P) hu.1 (by simp [PortSet.or, hx])
    refine ⟨R, by rw [List.foldlM_cons, e]; exact e2, c2, x2, fun y => ?_, fun s => ?_⟩
    · rw [m2]
      have : Mem y (P0.or P).ports ↔ Mem y P0.ports ∨ Mem y P.ports := hu.2 y
      rw [this, hm]
      simp only [List.mem_cons, exists_eq_or_imp, or_assoc]
    · rw [n2]
      simp only [PortSet.or, Finset.mem_union, n, mem_names, List.mem_cons, or_assoc]
      rw [eq_comm (a := q)]

theorem sub_ports {l : List PortText} {m : List PortSpec} (h : List.Forall₂ PortMeans l m) (hp : ∀ t ∈ l, t.Plain)
    (hl : ∀ q ∈ m, q.Legal) {P0 : PortSet} (h0 : Canonical P0.ports) :
    ∃ P, l.foldlM (fun acc p => (parsePort p).map acc.sub) P0 = some P ∧ Canonical P.ports ∧
      (∀ x, Mem x P.ports ↔ Mem x P0.ports ∧ ¬ ∃ q ∈ m, q.Number x) ∧ (∀ s, s ∈ P.named ↔ s ∈ P0.named ∧ .name s ∉ m) ∧
      ∀ s, s ∈ P.excluded ↔ s ∈ P0.excluded ∨ .name s ∈ m := by
  induction h generalizing P0 with
  | nil => exact ⟨P0, rfl, h0, by simp, by simp, by simp⟩
  | @cons t q l m h1 _ ih =>
    obtain ⟨P, e, c, n, x, hm⟩ := parsePort_sem h1 (hp t List.mem_cons_self) (hl q List.mem_cons_self)
    have hu := diff_spec P0.ports P.ports h0 c.1
    obtain ⟨R, e2, c2, m2, n2, x2⟩ := ih (fun t ht => hp t (List.mem_cons_of_mem _ ht)) (fun q hq => hl q (List.mem_cons_of_mem _ hq))
      (P0 := P0.sub P) hu.1
    refine ⟨R, by rw [List.foldlM_cons, e]; exact e2, c2, fun y => ?_, fun s => ?_, fun s => ?_⟩
    · rw [m2]
      have : Mem y (P0.sub P).ports ↔ Mem y P0.ports ∧ ¬ Mem y P.ports := hu.2 y
      rw [this, hm]
      simp only [List.mem_cons, exists_eq_or_imp, not_or, and_assoc]
    · rw [n2]
      simp only [PortSet.sub, Finset.mem_sdiff, n, mem_names, List.mem_cons, not_or, and_assoc]
      rw [eq_comm (a := q)]
    · rw [x2]
      simp only [PortSet.sub, Finset.mem_union, n, mem_names, List.mem_cons, or_assoc]
      rw [eq_comm (a := q)]

/-- The ports of an entity rule. -/
theorem rulePorts_sem {K : CharCls} {t : Entity} {m : EntitySpec} (h : EntityMeans K t m) (ht : t.Tame) {protocol : Option Int}
    (hl : m.Legal protocol) :
    ∃ P, rulePorts (supportsPorts protocol) t = some P ∧ Canonical P.ports ∧ (∀ z, Mem z P.ports → 1 ≤ z ∧ z ≤ 65535) ∧
      (∀ x, 1 ≤ x → x ≤ 65535 → (Mem x P.ports ↔
        (∀ l, m.ports = some l → ∃ q ∈ l, q.Number x) ∧ ∀ l, m.notPorts = some l → ¬ ∃ q ∈ l, q.Number x)) ∧
      (∀ s, s ∈ P.named ↔ (∃ l, m.ports = some l ∧ .name s ∈ l) ∧ ∀ l, m.notPorts = some l → .name s ∉ l) ∧
      ∀ s, s ∈ P.excluded ↔ ∃ l, m.notPorts = some l ∧ .name s ∈ l := by
  have sup : ∀ l, m.ports = some l ∨ m.notPorts = some l → supportsPorts protocol = true := by
    intro l hl'
    rcases (hl.ports l hl').1 with rfl | rfl | rfl <;> rfl
  have num : ∀ q : PortSpec, q.Legal → ∀ x, q.Number x → 1 ≤ x ∧ x ≤ 65535 := by
    intro q hq x hx
    cases q with
    | num n => cases hx; exact hq
    | range a b =>
      obtain ⟨h1, h2, h3⟩ := hq
      obtain ⟨h4, h5⟩ := hx
      exact ⟨by omega, by omega⟩
    | name s => exact hx.elim
  have first : ∃ P, startPorts (supportsPorts protocol) t.ports = some P ∧
      Canonical P.ports ∧ P.excluded = ∅ ∧ (∀ x, Mem x P.ports ↔ (1 ≤ x ∧ x ≤ 65535) ∧ ∀ l, m.ports = some l → ∃ q ∈ l, q.Number x) ∧
      ∀ s, s ∈ P.named ↔ ∃ l, m.ports = some l ∧ .name s ∈ l := by
    have hr := h.ports
    cases ht' : t.ports with
    | none =>
      rw [ht'] at hr
      cases hm : m.ports with
      | some l => rw [hm] at hr; cases hr
      | none =>
        refine ⟨PortSet.make true, rfl, canonical_singleton.2 (by decide), rfl, fun x => ?_, fun s => ?_⟩
        · have : Mem x (PortSet.make true).ports ↔ 1 ≤ x ∧ x ≤ 65535 := mem_singleton
          rw [this]; simp
        · simp [PortSet.make]
    | some l =>
      rw [ht'] at hr
      cases hm : m.ports with
      | none => rw [hm] at hr; cases hr
      | some l' =>
        rw [hm] at hr
        cases hr with
        | some hr =>
          obtain ⟨P, e, c, x, mm, n⟩ := or_ports hr (ht.quoted l (Or.inl ht')) (hl.ports l' (Or.inl hm)).2 (P0 := PortSet.make false)
            canonical_nil rfl
          refine ⟨P, ?_, c, x, fun y => ?_, fun s => ?_⟩
          · rw [startPorts, if_pos (sup l' (Or.inl hm))]
            exact e
          · rw [mm]
            have : ¬ Mem y (PortSet.make false).ports := not_mem_nil
            constructor
            · rintro (h | ⟨q, hq, hy⟩)
              · exact absurd h this
              · exact ⟨num q ((hl.ports l' (Or.inl hm)).2 q hq) y hy, fun l'' e => by cases e; exact ⟨q, hq, hy⟩⟩
            · exact fun h => Or.inr (h.2 l' rfl)
          · rw [n]; simp [PortSet.make]
  obtain ⟨P, e, c, x, mm, n⟩ := first
  have hr := h.notPorts
  cases ht' : t.notPorts with
  | none =>
    rw [ht'] at hr
    cases hm : m.notPorts with
    | some l => rw [hm] at hr; cases hr
    | none =>
      refine ⟨P, ?_, c, fun z hz => ((mm z).1 hz).1, fun y h1 h2 => ?_, fun s => ?_, fun s => ?_⟩
      · unfold rulePorts
        rw [e, ht']; rfl
      · rw [mm]; simp [h1, h2]
      · rw [n]; simp
      · rw [x]; simp
  | some l =>
    rw [ht'] at hr
    cases hm : m.notPorts with
    | none => rw [hm] at hr; cases hr
    | some l' =>
      rw [hm] at hr
      cases hr with
      | some hr =>
        obtain ⟨R, e2, c2, m2, n2, x2⟩ := sub_ports hr (ht.quoted l (Or.inr ht')) (hl.ports l' (Or.inr hm)).2 c
        refine ⟨R, ?_, c2, fun z hz => ((mm z).1 ((m2 z).1 hz).1).1, fun y h1 h2 => ?_, fun s => ?_, fun s => ?_⟩
        · unfold rulePorts
          rw [e, ht']
          rw [Option.bind_some, dropPorts, if_pos (sup l' (Or.inr hm))]
          exact e2
        · rw [m2, mm]
          simp [h1, h2]
        · rw [n2, n]; simp
        · rw [x2, x]; simp

/-! ### Peers -/

theorem netBlock_sem (n : Cidr) : ∃ b, netBlock n = some b ∧ IpBlock.Built b ∧ ∀ x, b.Has x ↔ n.Has x := by
  unfold netBlock
  cases h : addCidr [] n [] with
  | none =>
    obtain ⟨e, he, _⟩ := C21_cidr_error.1 h
    cases he
  | some b =>
    refine ⟨b, rfl, .cidr _ _ .empty h, fun x => ?_⟩
    rw [C21_cidr_exact .empty h]
    simp [IpBlock.Has]

theorem netsIps_sem (l : List Cidr) : ∃ b, netsIps l = some b ∧ IpBlock.Built b ∧ ∀ x, b.Has x ↔ (l ≠ [] → ∃ n ∈ l, n.Has x) := by
  cases l with
  | nil => exact ⟨_, rfl, .all _ _, fun x => by rw [C21_all_exact]; simp⟩
  | cons n l =>
    obtain ⟨b, e, hb, hm⟩ := netBlock_sem n
    have fold : ∀ (l : List Cidr) (b : IpBlock), IpBlock.Built b → ∃ r, l.foldlM (fun acc c => (netBlock c).map (IpBlock.union acc)) b = some r ∧
        IpBlock.Built r ∧ ∀ x, r.Has x ↔ b.Has x ∨ ∃ n ∈ l, n.Has x := by
      intro l
      induction l with
      | nil => exact fun b hb => ⟨b, rfl, hb, by simp⟩
      | cons n l ih =>
        intro b hb
        obtain ⟨b', e', hb', hm'⟩ := netBlock_sem n
        obtain ⟨r, e, hr, hx⟩ := ih (b.union b') (.union hb hb')
        refine ⟨r, by rw [List.foldlM_cons, e']; exact e, hr, fun x => ?_⟩
        rw [hx, C21_union_exact hb hb', hm', or_assoc]
        simp
    obtain ⟨r, e', hr, hx⟩ := fold l b hb
    refine ⟨r, by rw [netsIps, e]; exact e', hr, fun x => ?_⟩
    rw [hx, hm]; simp

theorem ruleIps_sem (nets notNets : List Cidr) : ∃ b, ruleIps nets notNets = some b ∧ IpBlock.Built b ∧
    ∀ x, b.Has x ↔ (nets ≠ [] → ∃ n ∈ nets, n.Has x) ∧ ∀ n ∈ notNets, ¬ n.Has x := by
  obtain ⟨b, e, hb, hm⟩ := netsIps_sem nets
  have fold : ∀ (l : List Cidr) (b : IpBlock), IpBlock.Built b → ∃ r, l.foldlM (fun acc c => (netBlock c).map (IpBlock.diff acc)) b = some r ∧
      IpBlock.Built r ∧ ∀ x, r.Has x ↔ b.Has x ∧ ∀ n ∈ l, ¬ n.Has x := by
    intro l
    induction l with
    | nil => exact fun b hb => ⟨b, rfl, hb, by simp⟩
    | cons n l ih =>
      intro b hb
      obtain ⟨b', e', hb', hm'⟩ := netBlock_sem n
      obtain ⟨r, e, hr, hx⟩ := ih (b.diff b') (.diff hb hb')
      refine ⟨r, by rw [List.foldlM_cons, e']; exact e, hr, fun x => ?_⟩
      rw [hx, C21_diff_exact hb hb', hm', and_assoc]
      simp
  obtain ⟨r, e', hr, hx⟩ := fold notNets b hb
  exact ⟨r, by rw [ruleIps, e]; exact e', hr, fun x => by rw [hx, hm]⟩

/-- The place is a peer of the cluster, or an address. -/
def Known (c : Container) (E : Place) : Prop := ∀ k, E = .pod k → ∃ p ∈ c, p.elem = .pod k

/-- The pods of the set are peers of the cluster. -/
def InCluster (c : Container) (S : PeerSet String) : Prop := ∀ k, S.HasPod k → ∃ p ∈ c, p.elem = .pod k

theorem Sem.inCluster {c : Container} {T : PeerInfo → Prop} {q : PeerSet String} (h : Sem c T q) : InCluster c q := fun k hk => by
  obtain ⟨p, hp, h1, _⟩ := (h.2 (.pod k)).1 hk
  exact ⟨p, hp, h1⟩

theorem InCluster.and {c : Container} {p q : PeerSet String} (hp : p.Ok) (hq : q.Ok) (h : InCluster c p ∨ InCluster c q) : InCluster c (p.and q) :=
  fun k hk => by
    have := (in_and hp hq (.pod k)).1 hk
    exact h.elim (fun h => h k this.1) (fun h => h k this.2)

theorem InCluster.sub {c : Container} {p q : PeerSet String} (hp : p.Ok) (hq : q.Ok) (h : InCluster c p) : InCluster c (p.sub q) :=
  fun k hk => h k ((in_sub hp hq (.pod k)).1 hk).1

theorem everything {c : Container} (hc : c.Ok) : (c.allPeers true true true).Ok ∧ InCluster c (c.allPeers true true true) ∧
    ∀ E, Known c E → E.In (c.allPeers true true true) := by
  have hm : ∀ e, e ∈ c.allPeers true true true ↔ e = .ip (allIps false false) ∨ ∃ p ∈ c, p.elem = e := by
    intro e
    unfold allPeers setAdd
    have hs : ∀ e, e ∈ c.sel (fun p => !(decide (p.kind = .dns) && !true) && (true || !p.isGlobal)) ↔ ∃ p ∈ c, p.elem = e := by
      intro e
      rw [mem_sel]
      exact ⟨fun ⟨p, hp, _, h⟩ => ⟨p, hp, h⟩, fun ⟨p, hp, h⟩ => ⟨p, hp, by simp, h⟩⟩
    dsimp only
    rw [if_pos rfl]
    split
    · rename_i h
      rw [hs]
      constructor
      · exact Or.inr
      · rintro (rfl | h')
        · exact (hs _).1 h
        · exact h'
    · rw [List.mem_append, List.mem_singleton, hs, or_comm]
  refine ⟨fun b hb => ?_, fun k hk => ?_, fun E hE => ?_⟩
  · rcases (hm _).1 hb with h | ⟨p, hp, h⟩
    · cases h; exact .all _ _
    · exact hc p hp b h
  · rcases (hm _).1 hk with h | h
    · cases h
    · exact h
  · cases E with
    | pod k => exact (hm _).2 (Or.inr (hE k rfl))
    | ip x => exact ⟨_, (hm _).2 (Or.inl rfl), by rw [C21_all_exact]; simp⟩

section
variable {K : CharCls} {c : Container}

theorem sel_sem (hK : K.Ok) (hc : c.Ok) (hu : c.Uniq) (hd : c.DisjointSets) (hs : c.Spaces) (ns : Option Ns)
    {e : Sel} {s : List Char} (h : Denotes K s e) (hg : ¬ e.Mentions) : ∃ q, selector K c ns false s = some q ∧ Sem c (e.Picks ns) q := by
  obtain ⟨q, h1, h2, h3, h4⟩ := C47_selector_partial hK hc hu hd hs ns h hg
  refine ⟨q, h1, h2, fun E => ?_⟩
  cases E with
  | pod k => exact h3 k
  | ip x => exact h4 x

theorem nsSel_sem (hK : K.Ok) (hc : c.Ok) (hu : c.Uniq) (hd : c.DisjointSets) (hs : c.Spaces)
    {e : Sel} {s : List Char} (h : Denotes K s e) : ∃ q, selector K c none true s = some q ∧ Sem c e.PicksNs q := by
  obtain ⟨q, h1, h2, h3, h4⟩ := C47_namespace_selector_partial hK hc hu hd hs h
  refine ⟨q, h1, h2, fun E => ?_⟩
  cases E with
  | pod k => exact h3 k
  | ip x => exact h4 x

theorem given_eq (hK : K.Ok) {t : Option (List Char)} {m : Option Sel} (h : Option.Rel (Denotes K) t m) : given t = t := by
  cases h with
  | none => rfl
  | @some s e h =>
    cases s with
    | nil => exact absurd (denotes_not_blank hK h) (by simp)
    | cons a s => rfl

theorem rel_isSome {α β : Type} {R : α → β → Prop} {t : Option α} {m : Option β} (h : Option.Rel R t m) : t.isSome = m.isSome := by
  cases h <;> rfl

theorem rel_none {α β : Type} {R : α → β → Prop} {t : Option α} {m : Option β} (h : Option.Rel R t m) : t = none ↔ m = none := by
  cases h <;> simp

/-- What is asked before `selector` is applied. -/
def StartSays (c : Container) (ns : Option Ns) (m : EntitySpec) (E : Place) : Prop :=
  (m.nets ≠ [] → ∃ x, E = .ip x ∧ ∃ n ∈ m.nets, n.Has x) ∧
  (m.notNets ≠ [] → ∃ x, E = .ip x ∧ ∀ n ∈ m.notNets, ¬ n.Has x) ∧
  (∀ s, m.nsSelector = some s → AtSome c E s.PicksNs) ∧
  (∀ s, m.nsSelector = none → m.selector = some s → AtSome c E (fun p => p.kind ≠ .dns ∧ ∀ n, ns = some n → p.InNs n))

theorem startPeers_sem (hK : K.Ok) (hc : c.Ok) (hu : c.Uniq) (hd : c.DisjointSets) (hs : c.Spaces) {ns : Option Ns} {t : Entity} {m : EntitySpec}
    (h : EntityMeans K t m) (ht : t.Tame) {ips : IpBlock} (hb : IpBlock.Built ips)
    (hx : ∀ x, ips.Has x ↔ (t.nets ≠ [] → ∃ n ∈ t.nets, n.Has x) ∧ ∀ n ∈ t.notNets, ¬ n.Has x) :
    ∃ S, startPeers K c ns (!t.nets.isEmpty || !t.notNets.isEmpty) ips t = some S ∧ S.Ok ∧ InCluster c S ∧
      ∀ E, Known c E → (E.In S ↔ StartSays c ns m E) := by
  unfold startPeers
  rw [given_eq hK h.nsSelector, given_eq hK h.selector]
  have r1 := h.nsSelector
  have r2 := h.selector
  have noNets : t.nsSelector ≠ none ∨ t.selector ≠ none → m.nets = [] ∧ m.notNets = [] := by
    intro h'
    rcases ht.mixed with h1 | h1
    · rw [← h.nets, ← h.notNets]; exact h1
    · exact absurd h1.1 (by rcases h' with h' | h'; exact h'; exact absurd h1.2 h')
  cases e1 : t.nsSelector with
  | some s =>
    rw [e1] at r1
    cases em : m.nsSelector with
    | none => rw [em] at r1; cases r1
    | some f =>
      rw [em] at r1
      cases r1 with
      | some r1 =>
        obtain ⟨q, hq, hsem⟩ := nsSel_sem hK hc hu hd hs r1
        obtain ⟨n1, n2⟩ := noNets (Or.inl (by rw [e1]; simp))
        refine ⟨q, hq, hsem.1, hsem.inCluster, fun E _ => (hsem.2 E).trans ?_⟩
        unfold StartSays
        simp only [n1, n2, em, ne_eq, not_true_eq_false, false_imp_iff, true_and, Option.some.injEq, forall_eq', reduceCtorEq, implies_true, and_true]
        rfl
  | none =>
    rw [e1] at r1
    have em : m.nsSelector = none := (rel_none r1).1 rfl
    cases e2 : t.selector with
    | some s =>
      rw [e2] at r2
      cases em2 : m.selector with
      | none => rw [em2] at r2; cases r2
      | some f =>
        obtain ⟨n1, n2⟩ := noNets (Or.inr (by rw [e2]; simp))
        have hsem := sem_nsPods hc hs ns
        refine ⟨_, rfl, hsem.1, hsem.inCluster, fun E _ => (hsem.2 E).trans ?_⟩
        unfold StartSays
        simp only [n1, n2, em, em2, ne_eq, not_true_eq_false, false_imp_iff, true_and, Option.some.injEq, forall_eq', reduceCtorEq, implies_true,
          true_imp_iff]
        rfl
    | none =>
      rw [e2] at r2
      have em2 : m.selector = none := (rel_none r2).1 rfl
      refine ⟨_, rfl, ?_⟩
      have hsays : ∀ E, StartSays c ns m E ↔ (t.nets ≠ [] → ∃ x, E = .ip x ∧ ∃ n ∈ t.nets, n.Has x) ∧
          (t.notNets ≠ [] → ∃ x, E = .ip x ∧ ∀ n ∈ t.notNets, ¬ n.Has x) := by
        intro E
        unfold StartSays
        rw [h.nets, h.notNets, em, em2]
        simp
      by_cases hby : t.nets = [] ∧ t.notNets = []
      · have : (!t.nets.isEmpty || !t.notNets.isEmpty) = false := by simp [hby.1, hby.2]
        rw [if_neg (by rw [this]; simp)]
        obtain ⟨g1, g2, g3⟩ := everything hc
        refine ⟨g1, g2, fun E hE => ?_⟩
        rw [hsays, hby.1, hby.2]
        simp [g3 E hE]
      · have : (!t.nets.isEmpty || !t.notNets.isEmpty) = true := by
          rw [Bool.or_eq_true, Bool.not_eq_true', Bool.not_eq_true', List.isEmpty_eq_false_iff, List.isEmpty_eq_false_iff]
          by_cases h1 : t.nets = []
          · exact Or.inr fun h2 => hby ⟨h1, h2⟩
          · exact Or.inl h1
        rw [if_pos this]
        refine ⟨fun b hb' => ?_, fun k hk => ?_, fun E _ => ?_⟩
        · rw [List.mem_singleton] at hb'
          cases hb'; exact hb
        · have : PeerElem.pod k ∈ [PeerElem.ip ips] := hk
          rw [List.mem_singleton] at this
          cases this
        · rw [hsays]
          cases E with
          | pod k =>
            constructor
            · intro hk
              have : PeerElem.pod k ∈ [PeerElem.ip ips] := hk
              rw [List.mem_singleton] at this
              cases this
            · rintro ⟨h1, h2⟩
              exfalso
              by_cases h3 : t.nets = []
              · obtain ⟨x, hx, _⟩ := h2 fun h4 => hby ⟨h3, h4⟩
                cases hx
              · obtain ⟨x, hx, _⟩ := h1 h3
                cases hx
          | ip x =>
            have : Place.In (.ip x) [PeerElem.ip ips] ↔ ips.Has x := by
              constructor
              · rintro ⟨b, hb1, hb2⟩
                rw [List.mem_singleton] at hb1
                cases hb1; exact hb2
              · exact fun h => ⟨ips, List.mem_singleton.2 rfl, h⟩
            rw [this, hx]
            constructor
            · rintro ⟨h1, h2⟩
              exact ⟨fun h3 => ⟨x, rfl, h1 h3⟩, fun _ => ⟨x, rfl, h2⟩⟩
            · rintro ⟨h1, h2⟩
              refine ⟨fun h3 => ?_, fun n hn => ?_⟩
              · obtain ⟨y, hy, h4⟩ := h1 h3
                cases hy; exact h4
              · obtain ⟨y, hy, h4⟩ := h2 (fun h5 => by rw [h5] at hn; cases hn)
                cases hy; exact h4 n hn

/-- The peers of an entity rule. -/
theorem rulePeers_sem (hK : K.Ok) (hc : c.Ok) (hu : c.Uniq) (hd : c.DisjointSets) (hs : c.Spaces) {ns : Option Ns} {t : Entity} {m : EntitySpec}
    (h : EntityMeans K t m) (ht : t.Tame) (hl : ∀ s, m.selector = some s ∨ m.notSelector = some s → ¬ s.Mentions) :
    ∃ S, rulePeers K c ns t = some S ∧ S.Ok ∧ InCluster c S ∧ ∀ E, Known c E → (E.In S ↔ EntitySays c ns m E) := by
  obtain ⟨ips, e1, hb, hx⟩ := ruleIps_sem t.nets t.notNets
  obtain ⟨S1, e2, ok1, in1, m1⟩ := startPeers_sem (ns := ns) hK hc hu hd hs h ht hb hx
  have hns : (if (given t.nsSelector).isSome then none else ns) = if m.nsSelector.isSome then none else ns := by
    rw [given_eq hK h.nsSelector, rel_isSome h.nsSelector]
  have hkeep : ∃ S2, keepPeers K c (if m.nsSelector.isSome then none else ns) S1 t.selector = some S2 ∧ S2.Ok ∧ InCluster c S2 ∧
      ∀ E, E.In S2 ↔ E.In S1 ∧ ∀ s, m.selector = some s → AtSome c E (s.Picks (if m.nsSelector.isSome then none else ns)) := by
    have r2 := h.selector
    cases e2 : t.selector with
    | none =>
      rw [e2] at r2
      rw [(rel_none r2).1 rfl]
      exact ⟨S1, rfl, ok1, in1, fun E => by simp⟩
    | some s =>
      rw [e2] at r2
      cases em : m.selector with
      | none => rw [em] at r2; cases r2
      | some f =>
        rw [em] at r2
        cases r2 with
        | some r2 =>
          obtain ⟨q, hq, hsem⟩ := sel_sem hK hc hu hd hs (if m.nsSelector.isSome then none else ns) r2 (hl f (Or.inl em))
          refine ⟨S1.and q, by rw [keepPeers, hq]; rfl, (C22_and_exact ok1 hsem.1).1, InCluster.and ok1 hsem.1 (Or.inl in1), fun E => ?_⟩
          rw [in_and ok1 hsem.1, hsem.2]
          simp only [Option.some.injEq, forall_eq']
          rfl
  obtain ⟨S2, e3, ok2, in2, m2⟩ := hkeep
  have hdrop : ∃ S3, dropPeers K c (if m.nsSelector.isSome then none else ns) S2 (given t.notSelector) = some S3 ∧ S3.Ok ∧ InCluster c S3 ∧
      ∀ E, E.In S3 ↔ E.In S2 ∧ ∀ s, m.notSelector = some s → ¬ AtSome c E (s.Picks (if m.nsSelector.isSome then none else ns)) := by
    rw [given_eq hK h.notSelector]
    have r2 := h.notSelector
    cases e2 : t.notSelector with
    | none =>
      rw [e2] at r2
      rw [(rel_none r2).1 rfl]
      exact ⟨S2, rfl, ok2, in2, fun E => by simp⟩
    | some s =>
      rw [e2] at r2
      cases em : m.notSelector with
      | none => rw [em] at r2; cases r2
      | some f =>
        rw [em] at r2
        cases r2 with
        | some r2 =>
          obtain ⟨q, hq, hsem⟩ := sel_sem hK hc hu hd hs (if m.nsSelector.isSome then none else ns) r2 (hl f (Or.inr em))
          refine ⟨S2.sub q, by rw [dropPeers, hq]; rfl, (C22_sub_exact ok2 hsem.1).1, InCluster.sub ok2 hsem.1 in2, fun E => ?_⟩
          rw [in_sub ok2 hsem.1, hsem.2]
          simp only [Option.some.injEq, forall_eq']
          rfl
  obtain ⟨S3, e4, ok3, in3, m3⟩ := hdrop
  have hmix : ((!t.nets.isEmpty || !t.notNets.isEmpty) && ((given t.nsSelector).isSome || (given t.selector).isSome)) = false := by
    rw [given_eq hK h.nsSelector, given_eq hK h.selector]
    rcases ht.mixed with ⟨h1, h2⟩ | ⟨h1, h2⟩
    · simp [h1, h2]
    · simp [h1, h2]
  refine ⟨S3, ?_, ok3, in3, fun E hE => ?_⟩
  · unfold rulePeers
    rw [e1]
    simp only [Option.bind_eq_bind, Option.bind_some]
    rw [e2, Option.bind_some, hns, e3, Option.bind_some, e4, Option.bind_some, hmix]
    rfl
  · rw [m3, m2, m1 E hE]
    unfold StartSays EntitySays
    constructor
    · rintro ⟨⟨⟨h1, h2, h3, _⟩, h4⟩, h5⟩
      exact ⟨h1, h2, h3, h4, h5⟩
    · rintro ⟨h1, h2, h3, h4, h5⟩
      refine ⟨⟨⟨h1, h2, h3, fun s hn hm => ?_⟩, h4⟩, h5⟩
      obtain ⟨p, hp, g1, g2, g3, _⟩ := h4 s hm
      rw [hn] at g3
      exact ⟨p, hp, g1, g2, g3⟩

end

end CalicoParser
end Verif
