import Verif.CalicoSelAtoms
/-!
C47: Calico's selector expressions choose exactly the endpoints their meaning says.

The theorems are partial: the claim also says that other texts are rejected, which is false (`C47_trailing_text_wrong`),
and some texts that Calico accepts are rejected (`C47_rejected`).
-/
namespace Verif
open Container PeerSet

/-- A place of a peer set: a peer by its name, or an address. -/
inductive Place where
  | pod (k : String)
  | ip (x : Ip)

/-- The place is in the set. -/
def Place.In : Place → PeerSet String → Prop
  | .pod k, q => q.HasPod k
  | .ip x, q => q.HasIp x

/-- The endpoint is, or holds, the place. -/
def PeerInfo.Holds (p : PeerInfo) : Place → Prop
  | .pod k => p.elem = .pod k
  | .ip x => ∃ b, p.elem = .ip b ∧ b.Has x

/-- Names of domains are outside of all namespaces; other endpoints are global iff they are outside of all namespaces. -/
structure Container.Spaces (c : Container) : Prop where
  dns : ∀ p ∈ c, p.kind = .dns → p.ns = none ∧ p.isGlobal = false
  glob : ∀ p ∈ c, p.kind ≠ .dns → (p.isGlobal = true ↔ p.ns = none)

namespace CalicoParser

/-- The set holds exactly the places of the endpoints that pass the test. -/
def Sem (c : Container) (T : PeerInfo → Prop) (q : PeerSet String) : Prop :=
  q.Ok ∧ ∀ e : Place, e.In q ↔ ∃ p ∈ c, p.Holds e ∧ T p

section
variable {c : Container}

theorem Sem.congr {T T' : PeerInfo → Prop} {q : PeerSet String} (h : Sem c T q) (ht : ∀ p ∈ c, T p ↔ T' p) : Sem c T' q :=
  ⟨h.1, fun e => (h.2 e).trans ⟨fun ⟨p, hp, h1, h2⟩ => ⟨p, hp, h1, (ht p hp).1 h2⟩, fun ⟨p, hp, h1, h2⟩ => ⟨p, hp, h1, (ht p hp).2 h2⟩⟩⟩

theorem sem_sel (hc : c.Ok) (f : PeerInfo → Bool) : Sem c (fun p => f p = true) (c.sel f) := by
  refine ⟨sel_ok hc f, fun e => ?_⟩
  cases e with
  | pod k =>
    show PeerElem.pod k ∈ c.sel f ↔ _
    rw [mem_sel]
    exact ⟨fun ⟨p, hp, h1, h2⟩ => ⟨p, hp, h2, h1⟩, fun ⟨p, hp, h1, h2⟩ => ⟨p, hp, h2, h1⟩⟩
  | ip x =>
    show (c.sel f).HasIp x ↔ _
    rw [hasIp_sel]
    exact ⟨fun ⟨p, hp, b, h1, h2, h3⟩ => ⟨p, hp, ⟨b, h1, h3⟩, h2⟩, fun ⟨p, hp, ⟨b, h1, h3⟩, h2⟩ => ⟨p, hp, b, h1, h2, h3⟩⟩

theorem holds_unique (hu : c.Uniq) (hd : c.DisjointSets) {p q : PeerInfo} (hp : p ∈ c) (hq : q ∈ c) {e : Place}
    (h1 : p.Holds e) (h2 : q.Holds e) : p = q := by
  cases e with
  | pod k => exact hu p hp q hq (Eq.trans h1 (Eq.symm h2))
  | ip x =>
    obtain ⟨a, ha, hxa⟩ := h1
    obtain ⟨b, hb, hxb⟩ := h2
    exact hd p hp q hq a b ha hb x hxa hxb

theorem in_and {p q : PeerSet String} (hp : p.Ok) (hq : q.Ok) (e : Place) : e.In (p.and q) ↔ e.In p ∧ e.In q := by
  cases e with
  | pod k => exact (C22_and_exact hp hq).2.1 k
  | ip x => exact (C22_and_exact hp hq).2.2 x

theorem in_or {p q : PeerSet String} (hp : p.Ok) (hq : q.Ok) (e : Place) : e.In (p.or q) ↔ e.In p ∨ e.In q := by
  cases e with
  | pod k => exact (C22_or_exact hp hq).2.1 k
  | ip x => exact (C22_or_exact hp hq).2.2 x

theorem in_sub {p q : PeerSet String} (hp : p.Ok) (hq : q.Ok) (e : Place) : e.In (p.sub q) ↔ e.In p ∧ ¬ e.In q := by
  cases e with
  | pod k => exact (C22_sub_exact hp hq).2.1 k
  | ip x => exact (C22_sub_exact hp hq).2.2 x

theorem Sem.or {T S : PeerInfo → Prop} {p q : PeerSet String} (hp : Sem c T p) (hq : Sem c S q) :
    Sem c (fun x => T x ∨ S x) (p.or q) := by
  refine ⟨(C22_or_exact hp.1 hq.1).1, fun e => ?_⟩
  rw [in_or hp.1 hq.1, hp.2, hq.2]
  constructor
  · rintro (⟨x, hx, h1, h2⟩ | ⟨x, hx, h1, h2⟩)
    · exact ⟨x, hx, h1, Or.inl h2⟩
    · exact ⟨x, hx, h1, Or.inr h2⟩
  · rintro ⟨x, hx, h1, h2 | h2⟩
    · exact Or.inl ⟨x, hx, h1, h2⟩
    · exact Or.inr ⟨x, hx, h1, h2⟩

theorem Sem.and (hu : c.Uniq) (hd : c.DisjointSets) {T S : PeerInfo → Prop} {p q : PeerSet String} (hp : Sem c T p) (hq : Sem c S q) :
    Sem c (fun x => T x ∧ S x) (p.and q) := by
  refine ⟨(C22_and_exact hp.1 hq.1).1, fun e => ?_⟩
  rw [in_and hp.1 hq.1, hp.2, hq.2]
  constructor
  · rintro ⟨⟨x, hx, h1, h2⟩, ⟨y, hy, h3, h4⟩⟩
    obtain rfl := holds_unique hu hd hx hy h1 h3
    exact ⟨x, hx, h1, h2, h4⟩
  · rintro ⟨x, hx, h1, h2, h3⟩
    exact ⟨⟨x, hx, h1, h2⟩, ⟨x, hx, h1, h3⟩⟩

theorem Sem.sub (hu : c.Uniq) (hd : c.DisjointSets) {T S : PeerInfo → Prop} {p q : PeerSet String} (hp : Sem c T p) (hq : Sem c S q) :
    Sem c (fun x => T x ∧ ¬ S x) (p.sub q) := by
  refine ⟨(C22_sub_exact hp.1 hq.1).1, fun e => ?_⟩
  rw [in_sub hp.1 hq.1, hp.2, hq.2]
  constructor
  · rintro ⟨⟨x, hx, h1, h2⟩, hn⟩
    exact ⟨x, hx, h1, h2, fun hs => hn ⟨x, hx, h1, hs⟩⟩
  · rintro ⟨x, hx, h1, h2, h3⟩
    refine ⟨⟨x, hx, h1, h2⟩, ?_⟩
    rintro ⟨y, hy, h4, h5⟩
    obtain rfl := holds_unique hu hd hx hy h1 h4
    exact h3 h5

/-! ### Expressions without operators -/

/-- Values are not empty. -/
def Atom.Legal : Atom → Prop
  | .all | .glob | .has _ => True
  | .eq _ v | .ne _ v | .str _ _ v => v ≠ ""
  | .mem _ vs | .notMem _ vs => ∀ v ∈ vs, v ≠ ""

theorem word_ne {K : CharCls} {v : List Char} (h : Word K v) : String.ofList v ≠ "" := fun e => by
  have := congrArg String.toList e
  rw [String.toList_ofList] at this
  exact h.1 this

theorem vals_ne {K : CharCls} {vs : List (List Char)} {s : List Char} (h : Vals K vs s) : ∀ v ∈ vs.map String.ofList, v ≠ "" := by
  induction h with
  | one _ hv _ =>
    intro x hx
    obtain rfl : x = _ := by simpa using hx
    exact word_ne hv
  | cons _ hv _ _ ih =>
    intro x hx
    rcases List.mem_cons.1 (List.map_cons ▸ hx) with rfl | hx
    · exact word_ne hv
    · exact ih x hx

theorem core_legal {K : CharCls} {a : Atom} {s : List Char} (h : Core K a s) : a.Legal := by
  cases h with
  | all | glob | has _ => trivial
  | eq _ _ _ hv => exact word_ne hv
  | ne _ _ _ hv => exact word_ne hv
  | mem _ _ _ _ hv => exact vals_ne hv
  | notMem _ _ _ _ _ _ hv => exact vals_ne hv
  | contains _ _ _ _ hv => exact word_ne hv
  | starts _ _ _ _ _ _ hv => exact word_ne hv
  | ends _ _ _ _ _ _ hv => exact word_ne hv

theorem strTest_empty (o : StrOp) {v : String} (hv : v ≠ "") : strTest o v "" = false := by
  have hne : v.toList ≠ [] := fun e => hv (String.toList_inj.1 e)
  cases h : strTest o v "" with
  | false => rfl
  | true =>
    rw [strTest_iff] at h
    cases o with
    | contain => exact absurd (List.infix_nil.1 h) hne
    | startWith => exact absurd (List.prefix_nil.1 h) hne
    | endWith => exact absurd (List.suffix_nil.1 h) hne

theorem strTest_label (o : StrOp) {v : String} (hv : v ≠ "") (l : Labels) (k : String) :
    strTest o v ((l.lookup k).getD "") = true ↔ ∃ s, l.lookup k = some s ∧ StrRel o v s := by
  cases h : l.lookup k with
  | none => simp [strTest_empty o hv]
  | some s => simp [strTest_iff]

/-- The meaning of a selector: of the endpoints' own labels, or of those of their namespaces. -/
def Meaning (ns : Option Ns) (nsSel : Bool) (e : Sel) (p : PeerInfo) : Prop :=
  if nsSel then e.PicksNs p else e.Picks ns p

theorem sem_nsPods (hc : c.Ok) (hs : c.Spaces) (ns : Option Ns) :
    Sem c (fun p => p.kind ≠ .dns ∧ ∀ n, ns = some n → p.InNs n) (c.nsPods ns) := by
  cases ns with
  | none =>
    refine (sem_sel hc _).congr (fun p _ => ?_)
    simp
  | some n =>
    refine (sem_sel hc _).congr (fun p hp => ?_)
    rw [sameNs_iff]
    constructor
    · intro h
      refine ⟨fun hd => ?_, fun m hm => by cases hm; exact h⟩
      obtain ⟨m, hm, _⟩ := h
      rw [(hs.dns p hp hd).1] at hm; cases hm
    · exact fun h => h.2 n rfl

theorem sem_all (hc : c.Ok) (incl : Bool) :
    Sem c (fun p => p.kind ≠ .dns ∧ (incl = true ∨ p.isGlobal = false)) (c.allPeers false incl false) := by
  refine (sem_sel hc _).congr (fun p _ => ?_)
  simp

theorem atom_pods (hc : c.Ok) (hu : c.Uniq) (hd : c.DisjointSets) (hs : c.Spaces) (ns : Option Ns) {a : Atom} (hl : a.Legal)
    (hg : a ≠ .glob) : Sem c ((Sel.atom a).Picks ns) (atomPeers c ns false a) := by
  have base := sem_nsPods hc hs ns
  have join : ∀ f : PeerInfo → Bool, (∀ p, (∀ n, ns = some n → p.InNs n) → (f p = true ↔ a.Holds p.HasVal)) →
      Sem c ((Sel.atom a).Picks ns) ((c.nsPods ns).and (c.sel f)) := by
    intro f hf
    refine (base.and hu hd (sem_sel hc f)).congr (fun p _ => ?_)
    unfold Sel.Picks Sel.Holds
    exact ⟨fun ⟨⟨h1, h2⟩, h3⟩ => ⟨h1, h2, (hf p h2).1 h3⟩, fun ⟨h1, h2, h3⟩ => ⟨⟨h1, h2⟩, (hf p h2).2 h3⟩⟩
  have hin : ∀ (k : String) (vs : List String) (p : PeerInfo), (getIn p.labels k vs || getIn p.extra k vs) = true ↔ ∃ v ∈ vs, p.HasVal k v := by
    intro k vs p
    simp only [Bool.or_eq_true, getIn_iff]
    constructor
    · rintro (⟨v, h1, h2⟩ | ⟨v, h1, h2⟩)
      · exact ⟨v, h1, Or.inl h2⟩
      · exact ⟨v, h1, Or.inr h2⟩
    · rintro ⟨v, h1, h2 | h2⟩
      · exact Or.inl ⟨v, h1, h2⟩
      · exact Or.inr ⟨v, h1, h2⟩
  have hnot : ∀ (k : String) (vs : List String) (p : PeerInfo), (!getIn p.labels k vs && !getIn p.extra k vs) = true ↔ ¬ ∃ v ∈ vs, p.HasVal k v := by
    intro k vs p
    rw [← hin k vs p]
    cases getIn p.labels k vs <;> cases getIn p.extra k vs <;> simp
  cases a with
  | glob => exact absurd rfl hg
  | all =>
    refine base.congr (fun p _ => ?_)
    unfold Sel.Picks Sel.Holds Atom.Holds
    exact ⟨fun h => ⟨h.1, h.2, trivial⟩, fun h => ⟨h.1, h.2.1⟩⟩
  | has k =>
    refine join _ (fun p hp => ?_)
    have hk : (hasKey p.labels k || hasKey p.extra k) = true ↔ (Atom.has k).Holds p.HasVal := by
      simp only [Bool.or_eq_true, hasKey_iff]
      constructor
      · rintro (⟨v, h⟩ | ⟨v, h⟩)
        · exact ⟨v, Or.inl h⟩
        · exact ⟨v, Or.inr h⟩
      · rintro ⟨v, h | h⟩
        · exact Or.inl ⟨v, h⟩
        · exact Or.inr ⟨v, h⟩
    cases ns with
    | none => simpa using hk
    | some n => simpa [(sameNs_iff p n).2 (hp n rfl)] using hk
  | eq k v =>
    refine join _ (fun p _ => ?_)
    rw [if_neg (by simp), hin]
    simp [Atom.Holds]
  | ne k v =>
    refine join _ (fun p _ => ?_)
    rw [if_pos rfl, hnot]
    simp [Atom.Holds]
  | mem k vs =>
    refine join _ (fun p _ => ?_)
    rw [if_neg (by simp), hin]
    exact Iff.rfl
  | notMem k vs =>
    refine join _ (fun p _ => ?_)
    rw [if_pos rfl, hnot]
    exact Iff.rfl
  | str k o v =>
    refine join _ (fun p _ => ?_)
    simp only [Bool.or_eq_true, strTest_label o hl]
    constructor
    · rintro (⟨s, h1, h2⟩ | ⟨s, h1, h2⟩)
      · exact ⟨s, Or.inl h1, h2⟩
      · exact ⟨s, Or.inr h1, h2⟩
    · rintro ⟨s, h1 | h1, h2⟩
      · exact Or.inl ⟨s, h1, h2⟩
      · exact Or.inr ⟨s, h1, h2⟩

theorem atom_ns (hc : c.Ok) (hu : c.Uniq) (hd : c.DisjointSets) (hs : c.Spaces) (ns : Option Ns) {a : Atom} (hl : a.Legal) :
    Sem c (Sel.atom a).PicksNs (atomPeers c ns true a) := by
  have base := sem_all hc (incl := false)
  have out : ∀ p : PeerInfo, a ≠ .glob → ((Sel.atom a).PicksNs p ↔ p.kind ≠ .dns ∧ p.isGlobal = false ∧ ∃ n, p.ns = some n ∧ a.Holds n.HasVal) := by
    intro p hg
    unfold Sel.PicksNs Sel.HoldsGlobal Sel.Holds
    constructor
    · rintro ⟨h1, ⟨_, h⟩ | h⟩
      · exact absurd h hg
      · exact ⟨h1, h⟩
    · exact fun h => ⟨h.1, Or.inr h.2⟩
  have join : ∀ f : PeerInfo → Bool, a ≠ .glob → (∀ p ∈ c, p.kind ≠ .dns → (f p = true ↔ ∃ n, p.ns = some n ∧ a.Holds n.HasVal)) →
      Sem c (Sel.atom a).PicksNs ((c.allPeers false false false).and (c.sel f)) := by
    intro f hg hf
    refine (base.and hu hd (sem_sel hc f)).congr (fun p hp => ?_)
    rw [out p hg]
    simp only [Bool.false_eq_true, false_or]
    exact ⟨fun ⟨⟨h1, h2⟩, h3⟩ => ⟨h1, h2, (hf p hp h1).1 h3⟩, fun ⟨h1, h2, h3⟩ => ⟨⟨h1, h2⟩, (hf p hp h1).2 h3⟩⟩
  have look : ∀ (n : Ns) (k : String) (vs : List String), (∀ v ∈ vs, v ≠ "") →
      (((n.labels.lookup k).getD "") ∈ vs ↔ ∃ v ∈ vs, n.HasVal k v) := by
    intro n k vs hvs
    unfold Ns.HasVal
    cases h : n.labels.lookup k with
    | none => simp; exact fun hm => hvs _ hm rfl
    | some v => simp
  cases a with
  | glob =>
    refine (sem_sel hc _).congr (fun p hp => ?_)
    unfold Sel.PicksNs Sel.HoldsGlobal Sel.Holds Atom.Holds
    constructor
    · intro h
      refine ⟨fun hd => ?_, Or.inl ⟨h, rfl⟩⟩
      rw [(hs.dns p hp hd).2] at h; cases h
    · rintro ⟨_, h | ⟨_, _, _, h⟩⟩
      · exact h.1
      · exact absurd h id
  | all =>
    refine base.congr (fun p hp => ?_)
    rw [out p (by simp)]
    simp only [Bool.false_eq_true, false_or]
    constructor
    · rintro ⟨h1, h2⟩
      refine ⟨h1, h2, ?_⟩
      cases hn : p.ns with
      | none => rw [(hs.glob p hp h1).2 hn] at h2; cases h2
      | some n => exact ⟨n, rfl, trivial⟩
    · exact fun h => ⟨h.1, h.2.1⟩
  | has k =>
    refine join _ (by simp) (fun p _ _ => ?_)
    cases hn : p.ns with
    | none => simp
    | some n => simp [hasKey_iff, Atom.Holds, Ns.HasVal]
  | eq k v =>
    refine join _ (by simp) (fun p _ _ => ?_)
    cases hn : p.ns with
    | none => simp
    | some n =>
      have := look n k [v] (fun x hx => by rw [List.mem_singleton.1 hx]; exact hl)
      simp only [Bool.xor_false, decide_eq_true_eq, this, Atom.Holds, Option.some.injEq, exists_eq_left']
      simp
  | ne k v =>
    refine join _ (by simp) (fun p _ _ => ?_)
    cases hn : p.ns with
    | none => simp
    | some n =>
      have := look n k [v] (fun x hx => by rw [List.mem_singleton.1 hx]; exact hl)
      simp only [Bool.xor_true, Bool.not_eq_true', decide_eq_false_iff_not, this, Atom.Holds, Option.some.injEq, exists_eq_left']
      simp
  | mem k vs =>
    refine join _ (by simp) (fun p _ _ => ?_)
    cases hn : p.ns with
    | none => simp
    | some n =>
      simp only [Bool.xor_false, decide_eq_true_eq, look n k vs hl, Atom.Holds, Option.some.injEq, exists_eq_left']
  | notMem k vs =>
    refine join _ (by simp) (fun p _ _ => ?_)
    cases hn : p.ns with
    | none => simp
    | some n =>
      simp only [Bool.xor_true, Bool.not_eq_true', decide_eq_false_iff_not, look n k vs hl, Atom.Holds, Option.some.injEq, exists_eq_left']
  | str k o v =>
    refine join _ (by simp) (fun p _ _ => ?_)
    cases hn : p.ns with
    | none => simp
    | some n =>
      simp only [strTest_label o hl, Atom.Holds, Ns.HasVal, Option.some.injEq, exists_eq_left']

/-! ### Operators -/

theorem global_mentions {e : Sel} (h : e.HoldsGlobal) : e.Mentions := by
  induction e with
  | atom a => exact h
  | not e _ => exact h.1
  | and e f i1 _ => exact Or.inl (i1 h.1)
  | or e f i1 i2 => exact h.imp i1 i2

theorem meaning_base {ns : Option Ns} {nsSel : Bool} {e : Sel} {p : PeerInfo} (h : Meaning ns nsSel e p) {incl : Bool}
    (hi : incl = true ↔ nsSel = false ∨ e.Mentions) : p.kind ≠ .dns ∧ (incl = true ∨ p.isGlobal = false) := by
  unfold Meaning at h
  cases nsSel with
  | false => exact ⟨h.1, Or.inl (hi.2 (Or.inl rfl))⟩
  | true =>
    rw [if_pos rfl] at h
    rcases h.2 with h2 | h2
    · exact ⟨h.1, Or.inl (hi.2 (Or.inr (global_mentions h2.2)))⟩
    · exact ⟨h.1, Or.inr h2.1⟩

theorem meaning_or (ns : Option Ns) (nsSel : Bool) (e f : Sel) (p : PeerInfo) :
    Meaning ns nsSel (.or e f) p ↔ Meaning ns nsSel e p ∨ Meaning ns nsSel f p := by
  unfold Meaning
  cases nsSel with
  | false =>
    simp only [Bool.false_eq_true, if_false, Sel.Picks, Sel.Holds]
    constructor
    · rintro ⟨h1, h2, h3 | h3⟩
      · exact Or.inl ⟨h1, h2, h3⟩
      · exact Or.inr ⟨h1, h2, h3⟩
    · rintro (⟨h1, h2, h3⟩ | ⟨h1, h2, h3⟩)
      · exact ⟨h1, h2, Or.inl h3⟩
      · exact ⟨h1, h2, Or.inr h3⟩
  | true =>
    simp only [if_true, Sel.PicksNs, Sel.Holds, Sel.HoldsGlobal]
    constructor
    · rintro ⟨h1, ⟨h2, h3 | h3⟩ | ⟨h2, n, h3, h4 | h4⟩⟩
      · exact Or.inl ⟨h1, Or.inl ⟨h2, h3⟩⟩
      · exact Or.inr ⟨h1, Or.inl ⟨h2, h3⟩⟩
      · exact Or.inl ⟨h1, Or.inr ⟨h2, n, h3, h4⟩⟩
      · exact Or.inr ⟨h1, Or.inr ⟨h2, n, h3, h4⟩⟩
    · rintro (⟨h1, ⟨h2, h3⟩ | ⟨h2, n, h3, h4⟩⟩ | ⟨h1, ⟨h2, h3⟩ | ⟨h2, n, h3, h4⟩⟩)
      · exact ⟨h1, Or.inl ⟨h2, Or.inl h3⟩⟩
      · exact ⟨h1, Or.inr ⟨h2, n, h3, Or.inl h4⟩⟩
      · exact ⟨h1, Or.inl ⟨h2, Or.inr h3⟩⟩
      · exact ⟨h1, Or.inr ⟨h2, n, h3, Or.inr h4⟩⟩

theorem meaning_and (ns : Option Ns) (nsSel : Bool) (e f : Sel) (p : PeerInfo) :
    Meaning ns nsSel (.and e f) p ↔ Meaning ns nsSel e p ∧ Meaning ns nsSel f p := by
  unfold Meaning
  cases nsSel with
  | false =>
    simp only [Bool.false_eq_true, if_false, Sel.Picks, Sel.Holds]
    exact ⟨fun ⟨h1, h2, h3, h4⟩ => ⟨⟨h1, h2, h3⟩, ⟨h1, h2, h4⟩⟩, fun ⟨⟨h1, h2, h3⟩, ⟨_, _, h4⟩⟩ => ⟨h1, h2, h3, h4⟩⟩
  | true =>
    simp only [if_true, Sel.PicksNs, Sel.Holds, Sel.HoldsGlobal]
    constructor
    · rintro ⟨h1, ⟨h2, h3, h4⟩ | ⟨h2, n, h3, h4, h5⟩⟩
      · exact ⟨⟨h1, Or.inl ⟨h2, h3⟩⟩, ⟨h1, Or.inl ⟨h2, h4⟩⟩⟩
      · exact ⟨⟨h1, Or.inr ⟨h2, n, h3, h4⟩⟩, ⟨h1, Or.inr ⟨h2, n, h3, h5⟩⟩⟩
    · rintro ⟨⟨h1, ⟨h2, h3⟩ | ⟨h2, n, h3, h4⟩⟩, ⟨_, ⟨g2, g3⟩ | ⟨g2, m, g3, g4⟩⟩⟩
      · exact ⟨h1, Or.inl ⟨h2, h3, g3⟩⟩
      · rw [h2] at g2; cases g2
      · rw [h2] at g2; cases g2
      · obtain rfl : n = m := Option.some.inj (h3.symm.trans g3)
        exact ⟨h1, Or.inr ⟨h2, n, h3, h4, g4⟩⟩

theorem meaning_not_ns (hs : c.Spaces) {p : PeerInfo} (hp : p ∈ c) (e : Sel) {incl : Bool} (hi : incl = true ↔ e.Mentions) :
    (p.kind ≠ .dns ∧ (incl = true ∨ p.isGlobal = false)) ∧ ¬ e.PicksNs p ↔ (Sel.not e).PicksNs p := by
  unfold Sel.PicksNs
  simp only [Sel.HoldsGlobal, Sel.Holds]
  constructor
  · rintro ⟨⟨h1, h2⟩, h3⟩
    refine ⟨h1, ?_⟩
    cases hg : p.isGlobal with
    | true =>
      rw [hg] at h2
      exact Or.inl ⟨rfl, hi.1 (h2.resolve_right (by simp)), fun h => h3 ⟨h1, Or.inl ⟨hg, h⟩⟩⟩
    | false =>
      right
      refine ⟨rfl, ?_⟩
      cases hn : p.ns with
      | none => rw [(hs.glob p hp h1).2 hn] at hg; cases hg
      | some n => exact ⟨n, rfl, fun h => h3 ⟨h1, Or.inr ⟨hg, n, hn, h⟩⟩⟩
  · rintro ⟨h1, ⟨h2, h3, h4⟩ | ⟨h2, n, h3, h4⟩⟩
    · refine ⟨⟨h1, Or.inl (hi.2 h3)⟩, ?_⟩
      rintro ⟨_, ⟨_, h⟩ | ⟨h, _⟩⟩
      · exact h4 h
      · rw [h2] at h; cases h
    · refine ⟨⟨h1, Or.inr h2⟩, ?_⟩
      rintro ⟨_, ⟨h, _⟩ | ⟨_, m, g3, g4⟩⟩
      · rw [h2] at h; cases h
      · obtain rfl : n = m := Option.some.inj (h3.symm.trans g3)
        exact h4 g4

/-- What a run over the parts of an expression gives. -/
theorem fold_or {run : List Char → Option (PeerSet String)} {T : Sel → PeerInfo → Prop} (l : List (Sel × List Char))
    (h : ∀ x ∈ l, ∃ q, run x.2 = some q ∧ Sem c (T x.1) q) (q0 : PeerSet String) (T0 : PeerInfo → Prop) (h0 : Sem c T0 q0) :
    ∃ q, (l.map (·.2)).foldlM (fun res e => (run e).map res.or) q0 = some q ∧
      Sem c (fun p => T0 p ∨ ∃ x ∈ l, T x.1 p) q := by
  induction l generalizing q0 T0 with
  | nil => exact ⟨q0, rfl, h0.congr (fun p _ => by simp)⟩
  | cons x l ih =>
    obtain ⟨q1, e1, s1⟩ := h x List.mem_cons_self
    obtain ⟨q, e, s⟩ := ih (fun y hy => h y (List.mem_cons_of_mem _ hy)) (q0.or q1) _ (h0.or s1)
    refine ⟨q, ?_, s.congr (fun p _ => ?_)⟩
    · simp only [List.map_cons, List.foldlM_cons, e1, Option.map_some, bind, Option.bind]
      exact e
    · simp only [List.mem_cons, exists_eq_or_imp, or_assoc]

theorem fold_and (hu : c.Uniq) (hd : c.DisjointSets) {run : List Char → Option (PeerSet String)} {T : Sel → PeerInfo → Prop}
    (l : List (Sel × List Char)) (h : ∀ x ∈ l, ∃ q, run x.2 = some q ∧ Sem c (T x.1) q) (q0 : PeerSet String)
    (T0 : PeerInfo → Prop) (h0 : Sem c T0 q0) :
    ∃ q, (l.map (·.2)).foldlM (fun res e => (run e).map res.and) q0 = some q ∧
      Sem c (fun p => T0 p ∧ ∀ x ∈ l, T x.1 p) q := by
  induction l generalizing q0 T0 with
  | nil => exact ⟨q0, rfl, h0.congr (fun p _ => by simp)⟩
  | cons x l ih =>
    obtain ⟨q1, e1, s1⟩ := h x List.mem_cons_self
    obtain ⟨q, e, s⟩ := ih (fun y hy => h y (List.mem_cons_of_mem _ hy)) (q0.and q1) _ (h0.and hu hd s1)
    refine ⟨q, ?_, s.congr (fun p _ => ?_)⟩
    · simp only [List.map_cons, List.foldlM_cons, e1, Option.map_some, bind, Option.bind]
      exact e
    · simp only [List.mem_cons, forall_eq_or_imp, and_assoc]

theorem orOf_meaning {ns : Option Ns} {nsSel : Bool} {e : Sel} {l : List Sel} (h : OrOf e l) (p : PeerInfo) :
    Meaning ns nsSel e p ↔ ∃ f ∈ l, Meaning ns nsSel f p := by
  induction h with
  | one => simp
  | cons _ ih => rw [meaning_or, ih]; simp

theorem andOf_meaning {ns : Option Ns} {nsSel : Bool} {e : Sel} {l : List Sel} (h : AndOf e l) (p : PeerInfo) :
    Meaning ns nsSel e p ↔ ∀ f ∈ l, Meaning ns nsSel f p := by
  induction h with
  | one => simp
  | cons _ ih => rw [meaning_and, ih]; simp

theorem orOf_mentions {e : Sel} {l : List Sel} (h : OrOf e l) : e.Mentions ↔ ∃ f ∈ l, f.Mentions := by
  induction h with
  | one => simp
  | cons _ ih => simp [Sel.Mentions, ih]

theorem andOf_mentions {e : Sel} {l : List Sel} (h : AndOf e l) : e.Mentions ↔ ∃ f ∈ l, f.Mentions := by
  induction h with
  | one => simp
  | cons _ ih => simp [Sel.Mentions, ih]

theorem sem_empty : Sem c (fun _ => False) [] := by
  refine ⟨fun b hb => by simp at hb, fun e => ?_⟩
  cases e with
  | pod k => simp [Place.In, PeerSet.HasPod]
  | ip x => simp [Place.In, PeerSet.HasIp]

variable {K : CharCls}

theorem Part.up {lv : Lv} {n : Nat} {x : Sel × List Char} (h : Part K lv n x) : Part K .or n x := by
  obtain ⟨h1, w1, t, w2, h2, h3, h4, h5⟩ := h
  refine ⟨h1, w1, t, w2, h2, h3, ?_, h5⟩
  cases lv with
  | or => exact h4
  | and => exact .and h4
  | un => exact .and (.un h4)

theorem recParse_text (hK : K.Ok) (hc : c.Ok) (hu : c.Uniq) (hd : c.DisjointSets) (hs : c.Spaces) (ns : Option Ns) (nsSel : Bool)
    (n : Nat) {e : Sel} {s w1 w2 : List Char} (h : Text K .or e s) (h1 : Blank K w1) (h2 : Blank K w2)
    (hn : (w1 ++ s ++ w2).length < n) (hg : e.Mentions → nsSel = true) :
    ∃ q, recParse K c ns nsSel n (w1 ++ s ++ w2) = some q ∧ Sem c (Meaning ns nsSel e) q := by
  induction n generalizing e s w1 w2 with
  | zero => omega
  | succ n ih =>
    obtain ⟨t, e1, ht, hl, hp⟩ := stripSel_text hK h h1 h2
    have hincl : (!nsSel || infixB ['g', 'l', 'o', 'b', 'a', 'l', '(', ')'] (w1 ++ s ++ w2)) = true ↔ nsSel = false ∨ e.Mentions := by
      have := gl_padded hK h h1 h2
      unfold gl at this
      rw [Bool.or_eq_true, this]
      cases nsSel <;> simp
    have hpart : ∀ (x : Sel × List Char) (lv : Lv) (m : Nat), x.2.length < t.length → Part K lv m x → (x.1.Mentions → e.Mentions) →
        ∃ q, recParse K c ns nsSel n x.2 = some q ∧ Sem c (Meaning ns nsSel x.1) q := by
      intro x lv m hx hpx hmx
      obtain ⟨_, u1, u, u2, g1, g2, g3, g4⟩ := hpx.up
      rw [g4]
      exact ih g3 g1 g2 (by rw [← g4]; omega) (fun hm => hg (hmx hm))
    unfold recParse
    simp only [e1, bind, Option.bind]
    generalize (!nsSel || infixB ['g', 'l', 'o', 'b', 'a', 'l', '(', ')'] (w1 ++ s ++ w2)) = incl at hincl
    rcases parts_or hK ht with ⟨l, o1, o2, o3, o4⟩ | ⟨hand, o1⟩
    · have hlen : (splitSel '|' t).length ≠ 1 := by rw [o1, List.length_map]; exact o3
      rw [if_pos hlen, o1]
      obtain ⟨q, q1, q2⟩ := fold_or (c := c) (run := recParse K c ns nsSel n) (T := Meaning ns nsSel) l (fun x hx =>
        hpart x .and t.length (o4 x hx).1 (o4 x hx).2 (fun hm => (orOf_mentions o2).2 ⟨x.1, List.mem_map_of_mem hx, hm⟩)) [] _ sem_empty
      refine ⟨q, q1, q2.congr (fun p _ => ?_)⟩
      rw [orOf_meaning o2]
      simp
    · have hlen : ¬ (splitSel '|' t).length ≠ 1 := by rw [o1]; simp
      rw [if_neg hlen]
      rcases parts_and hK hand with ⟨l, a1, a2, a3, a4⟩ | ⟨hun, a1⟩
      · have hlen2 : (splitSel '&' t).length ≠ 1 := by rw [a1, List.length_map]; exact a3
        rw [if_pos hlen2, a1]
        obtain ⟨q, q1, q2⟩ := fold_and hu hd (run := recParse K c ns nsSel n) (T := Meaning ns nsSel) l (fun x hx =>
          hpart x .un t.length (a4 x hx).1 (a4 x hx).2 (fun hm => (andOf_mentions a2).2 ⟨x.1, List.mem_map_of_mem hx, hm⟩))
          (c.allPeers false incl false) _ (sem_all hc incl)
        refine ⟨q, q1, q2.congr (fun p _ => ?_)⟩
        rw [andOf_meaning a2]
        constructor
        · rintro ⟨_, hh⟩ f hf
          obtain ⟨x, hx, rfl⟩ := List.mem_map.1 hf
          exact hh x hx
        · intro hh
          exact ⟨meaning_base ((andOf_meaning a2 p).2 hh) hincl, fun x hx => hh x.1 (List.mem_map_of_mem hx)⟩
      · have hlen2 : ¬ (splitSel '&' t).length ≠ 1 := by rw [a1]; simp
        rw [if_neg hlen2, a1]
        have hnil : Blank K [] := fun a ha => by cases ha
        cases hun with
        | @atom a t hcore =>
          have hh := (core_nice hK hcore).head
          cases t with
          | nil => exact absurd rfl (core_nice hK hcore).nice.ne
          | cons b r =>
            have hb : b ≠ '!' := (hh b rfl).2
            simp only [if_neg hb, List.head?_cons]
            have hat : atomOf K nsSel (squeeze K (b :: r)) = some a := core_atom hK hcore (fun e => hg (by rw [e]; rfl))
            refine ⟨atomPeers c ns nsSel a, by unfold parseAtom; rw [hat]; rfl, ?_⟩
            cases nsSel with
            | true => exact (atom_ns hc hu hd hs ns (core_legal hcore)).congr (fun p _ => by unfold Meaning; rw [if_pos rfl])
            | false =>
              refine (atom_pods hc hu hd hs ns (core_legal hcore) (fun e => ?_)).congr (fun p _ => by unfold Meaning; rw [if_neg (by simp)])
              have := hg (by rw [e]; rfl)
              cases this
        | @not w f u hw hu' =>
          simp only [if_true]
          have hlt : (w ++ u ++ []).length < n := by
            have : ('!' :: (w ++ u)).length = (w ++ u).length + 1 := rfl
            rw [List.append_nil]; omega
          obtain ⟨q, q1, q2⟩ := ih (.and (.un hu')) hw hnil hlt hg
          rw [List.append_nil] at q1
          cases nsSel with
          | true =>
            refine ⟨(c.allPeers false incl false).sub q, by rw [q1]; rfl, ((sem_all hc incl).sub hu hd q2).congr (fun p hp => ?_)⟩
            unfold Meaning
            rw [if_pos rfl, if_pos rfl]
            have hi' : incl = true ↔ f.Mentions := by simpa [Sel.Mentions] using hincl
            exact meaning_not_ns hs hp f hi'
          | false =>
            refine ⟨(c.nsPods ns).sub q, by rw [q1]; rfl, ((sem_nsPods hc hs ns).sub hu hd q2).congr (fun p hp => ?_)⟩
            unfold Meaning
            rw [if_neg (by simp), if_neg (by simp)]
            unfold Sel.Picks
            rw [Sel.Holds]
            exact ⟨fun ⟨⟨g1, g2⟩, g3⟩ => ⟨g1, g2, fun g => g3 ⟨g1, g2, g⟩⟩, fun ⟨g1, g2, g3⟩ => ⟨⟨g1, g2⟩, fun g => g3 g.2.2⟩⟩
        | @paren u1 e u u2 g1 g2 g3 =>
          have hb : Bal (u1 ++ u ++ u2) := ((blank_bal hK g1).append (text_nice hK g3).1.bal).append (blank_bal hK g2)
          rw [paren_peelable hb] at hp
          cases hp

/-! ### C47 -/

theorem denotes_not_blank (hK : K.Ok) {e : Sel} {s : List Char} (h : Denotes K s e) : s.all K.ws = false := by
  obtain ⟨w1, t, w2, h1, h2, ht, rfl⟩ := h
  have hn := (text_nice hK ht).1
  cases t with
  | nil => exact absurd rfl hn.ne
  | cons a t =>
    have := hn.head a rfl
    simp [List.all_append, this]

/-- C47: a selector of endpoints chooses exactly the endpoints (of the namespace, if one is given) whose labels satisfy
it, whatever its white space and brackets; addresses are chosen through the network sets that hold them. -/
theorem C47_selector_partial (hK : K.Ok) (hc : c.Ok) (hu : c.Uniq) (hd : c.DisjointSets) (hs : c.Spaces) (ns : Option Ns)
    {e : Sel} {s : List Char} (h : Denotes K s e) (hg : ¬ e.Mentions) :
    ∃ q, selector K c ns false s = some q ∧ q.Ok ∧
      (∀ k, q.HasPod k ↔ ∃ p ∈ c, p.elem = .pod k ∧ e.Picks ns p) ∧
      ∀ x, q.HasIp x ↔ ∃ p ∈ c, (∃ b, p.elem = .ip b ∧ b.Has x) ∧ e.Picks ns p := by
  have hb := denotes_not_blank hK h
  obtain ⟨w1, t, w2, h1, h2, ht, rfl⟩ := h
  obtain ⟨q, q1, q2⟩ := recParse_text hK hc hu hd hs ns false ((w1 ++ t ++ w2).length + 1) ht h1 h2 (Nat.lt_succ_self _)
    (fun hm => absurd hm hg)
  refine ⟨q, ?_, q2.1, fun k => q2.2 (.pod k), fun x => q2.2 (.ip x)⟩
  unfold selector
  rw [if_neg (by rw [hb]; simp)]
  exact q1

/-- C47: a namespace selector chooses exactly the endpoints whose namespace satisfies it, and the global endpoints its
parts about `global()` speak of. -/
theorem C47_namespace_selector_partial (hK : K.Ok) (hc : c.Ok) (hu : c.Uniq) (hd : c.DisjointSets) (hs : c.Spaces)
    {e : Sel} {s : List Char} (h : Denotes K s e) :
    ∃ q, selector K c none true s = some q ∧ q.Ok ∧
      (∀ k, q.HasPod k ↔ ∃ p ∈ c, p.elem = .pod k ∧ e.PicksNs p) ∧
      ∀ x, q.HasIp x ↔ ∃ p ∈ c, (∃ b, p.elem = .ip b ∧ b.Has x) ∧ e.PicksNs p := by
  have hb := denotes_not_blank hK h
  obtain ⟨w1, t, w2, h1, h2, ht, rfl⟩ := h
  obtain ⟨q, q1, q2⟩ := recParse_text hK hc hu hd hs none true ((w1 ++ t ++ w2).length + 1) ht h1 h2 (Nat.lt_succ_self _)
    (fun _ => rfl)
  refine ⟨q, ?_, q2.1, fun k => q2.2 (.pod k), fun x => q2.2 (.ip x)⟩
  unfold selector
  rw [if_neg (by rw [hb]; simp)]
  exact q1

end

/-! ### Examples that meet the hypotheses -/

/-- Python's classes of characters, restricted to ASCII. -/
def asc : CharCls := ⟨fun a => a.isAlphanum || a == '_' || a == '.' || a == '-' || a == '/', Char.isWhitespace⟩

theorem asc_ok : asc.Ok where
  disj a h := by
    cases hw : asc.ws a with
    | false => rfl
    | true =>
      exfalso
      have hw' : a = ' ' ∨ a = '\t' ∨ a = '\r' ∨ a = '\n' := by
        have : a.isWhitespace = true := hw
        simpa [Char.isWhitespace, or_assoc] using this
      rcases hw' with rfl | rfl | rfl | rfl <;> exact absurd h (by decide)
  space := by decide
  punct := by decide
  letters := by decide

def csNs (n : String) (l : Labels) : Ns := ⟨n, l⟩
def csPod (k n : String) (ls l : Labels) : PeerInfo := ⟨.pod k, .pod, some (csNs n ls), l, [], false⟩
/-- Four pods, a host endpoint and a network set. -/
def csC : Container :=
  [csPod "d/a" "d" [("env", "dev")] [("app", "web")], csPod "d/b" "d" [("env", "dev")] [("app", "db"), ("tier", "back-end")],
   csPod "p/a" "p" [("env", "prod")] [("app", "web"), ("tier", "front-end")], csPod "p/b" "p" [("env", "prod")] [],
   ⟨.pod "host", .hep, none, [("app", "web")], [], true⟩, K8sParser.exSetPeer (K8sParser.exIv 0 9 (by decide) (by decide)) [("app", "net")]]

theorem csC_uniq : csC.Uniq := by
  intro p hp q hq h
  simp only [csC, List.mem_cons, List.not_mem_nil, or_false] at hp hq
  rcases hp with rfl | rfl | rfl | rfl | rfl | rfl <;> rcases hq with rfl | rfl | rfl | rfl | rfl | rfl <;>
    first | rfl | exact absurd h (by decide +kernel)

theorem csC_ok : csC.Ok := by
  intro p hp b h
  simp only [csC, List.mem_cons, List.not_mem_nil, or_false] at hp
  rcases hp with rfl | rfl | rfl | rfl | rfl | rfl <;> cases h
  exact .range _ rfl (by decide)

theorem csC_disj : csC.DisjointSets := by
  intro p hp q hq a b ha hb x _ _
  simp only [csC, List.mem_cons, List.not_mem_nil, or_false] at hp hq
  rcases hp with rfl | rfl | rfl | rfl | rfl | rfl <;> cases ha
  rcases hq with rfl | rfl | rfl | rfl | rfl | rfl <;> cases hb
  rfl

theorem csC_spaces : csC.Spaces := by
  constructor <;> intro p hp <;> simp only [csC, List.mem_cons, List.not_mem_nil, or_false] at hp <;>
    rcases hp with rfl | rfl | rfl | rfl | rfl | rfl <;> simp [csPod, K8sParser.exSetPeer]

theorem asc_word {k : List Char} (h : k ≠ [] ∧ k.all asc.lab = true) : Word asc k := ⟨h.1, fun a ha => List.all_eq_true.1 h.2 a ha⟩
theorem asc_blank {w : List Char} (h : w.all asc.ws = true) : Blank asc w := fun a ha => List.all_eq_true.1 h a ha

/-- `( app == 'web' || !has(tier) ) && app in {'web', 'db'}` -/
def csSel : Sel := .and (.or (.atom (.eq "app" "web")) (.not (.atom (.has "tier")))) (.atom (.mem "app" ["web", "db"]))

theorem csSel_text : Denotes asc "( app == 'web' || !has(tier) ) && app in {'web', 'db'}".toList csSel := by
  have a1 : Text asc .and (.atom (.eq "app" "web")) "app == 'web'".toList :=
    .un (.atom (Core.eq (k := "app".toList) (w1 := [' ']) (w2 := [' ']) (v := "web".toList) (asc_word (by decide)) (asc_blank (by decide))
      (asc_blank (by decide)) (asc_word (by decide))))
  have a2 : Text asc .or (.not (.atom (.has "tier"))) "!has(tier)".toList :=
    .and (.un (.not (w := []) (asc_blank (by decide)) (.atom (Core.has (k := "tier".toList) (asc_word (by decide))))))
  have a3 : Text asc .and (.atom (.mem "app" ["web", "db"])) "app in {'web', 'db'}".toList :=
    .un (.atom (Core.mem (k := "app".toList) (w1 := [' ']) (w2 := [' ']) (vs := ["web".toList, "db".toList]) (s := "'web', 'db'".toList)
      (asc_word (by decide)) (asc_blank (by decide)) (by decide) (asc_blank (by decide))
      (Vals.cons (w1 := []) (v := "web".toList) (w2 := []) (s := " 'db'".toList) (asc_blank (by decide)) (asc_word (by decide)) (asc_blank (by decide))
        (Vals.one (w1 := [' ']) (v := "db".toList) (w2 := []) (asc_blank (by decide)) (asc_word (by decide)) (asc_blank (by decide))))))
  have b := Text.paren (w1 := [' ']) (w2 := [' ']) (asc_blank (by decide)) (asc_blank (by decide))
    (Text.disj a1 (w1 := [' ']) (w2 := [' ']) (asc_blank (by decide)) (asc_blank (by decide)) a2)
  exact ⟨[], _, [], asc_blank (by decide), asc_blank (by decide),
    .and (.conj b (w1 := [' ']) (w2 := [' ']) (asc_blank (by decide)) (asc_blank (by decide)) a3), by decide⟩

/-- The theorem applies, and what it speaks of is neither everything nor nothing. -/
example : ∃ q, selector asc csC none false "( app == 'web' || !has(tier) ) && app in {'web', 'db'}".toList = some q ∧
    q.HasPod "p/a" ∧ q.HasPod "host" ∧ ¬ q.HasPod "d/b" ∧ ¬ q.HasPod "p/b" := by
  obtain ⟨q, h, _, hp, _⟩ := C47_selector_partial asc_ok csC_ok csC_uniq csC_disj csC_spaces none csSel_text
    (by simp [csSel, Sel.Mentions])
  refine ⟨q, h, (hp _).2 ⟨csC[2], by simp [csC], rfl, by simp [csC, csPod], by simp, ?_⟩, (hp _).2 ⟨csC[4], by simp [csC], rfl, by simp [csC], by simp, ?_⟩,
    fun hh => ?_, fun hh => ?_⟩
  · refine ⟨Or.inl (Or.inl (by decide)), "web", by simp, Or.inl (by decide)⟩
  · refine ⟨Or.inl (Or.inl (by decide)), "web", by simp, Or.inl (by decide)⟩
  · obtain ⟨p, hm, he, _, _, h1, _⟩ := (hp _).1 hh
    simp only [csC, List.mem_cons, List.not_mem_nil, or_false] at hm
    rcases hm with rfl | rfl | rfl | rfl | rfl | rfl <;> simp [csPod, K8sParser.exSetPeer] at he
    rcases h1 with (h1 | h1) | h1
    · exact absurd h1 (by decide)
    · exact absurd h1 (by decide)
    · exact h1 ⟨"back-end", Or.inl (by decide)⟩
  · obtain ⟨p, hm, he, _, _, _, v, _, h1⟩ := (hp _).1 hh
    simp only [csC, List.mem_cons, List.not_mem_nil, or_false] at hm
    rcases hm with rfl | rfl | rfl | rfl | rfl | rfl <;> simp [csPod, K8sParser.exSetPeer] at he
    simp [PeerInfo.HasVal, csPod] at h1

/-- The parser agrees with the theorems on this container. -/
example : (selector asc csC (some (csNs "p" [])) false "!(tier ends with 'end')".toList).map PeerSet.pods = some ["p/b"] := by decide +kernel
example : (selector asc csC none true "env == 'prod' || global()".toList).map PeerSet.pods = some ["p/a", "p/b", "host"] := by decide +kernel
example : (selector asc csC none true "! ( env == 'prod' )".toList).map PeerSet.pods = some ["d/a", "d/b"] := by decide +kernel
example : (selector asc csC none false "app == 'net'".toList) = some [.ip (K8sParser.exIv 0 9 (by decide) (by decide))] := by decide +kernel

/-! ### Where the code fails -/

/-- Whatever follows an expression is ignored by the regular expressions (`re.match` without an end): a conjunction or
alternative written with one character, or with none, is silently read as its first part.  Calico rejects such texts. -/
theorem C47_trailing_text_wrong :
    selector asc csC none false "app == 'web' & tier == 'back-end'".toList = selector asc csC none false "app == 'web'".toList ∧
    selector asc csC none false "has(tier) | has(app)".toList = selector asc csC none false "has(tier)".toList ∧
    selector asc csC none false "app == 'web' junk".toList = selector asc csC none false "app == 'web'".toList ∧
    (selector asc csC none false "app == 'web'".toList).map PeerSet.pods = some ["d/a", "p/a", "host"] := by
  decide +kernel

/-- The operator may be glued to the key: `appcontains 'w'` is read as `app contains 'w'`. -/
theorem C47_glued_operator_wrong :
    selector asc csC none false "appcontains 'w'".toList = selector asc csC none false "app contains 'w'".toList ∧
    (selector asc csC none false "app contains 'w'".toList).map PeerSet.pods = some ["d/a", "p/a", "host"] := by
  decide +kernel

/-- Legal texts that are rejected: double quotes, blanks inside `has()`, empty values, an empty list of values. -/
theorem C47_rejected :
    selector asc csC none false "app == \"web\"".toList = none ∧ selector asc csC none false "has( app )".toList = none ∧
    selector asc csC none false "app == ''".toList = none ∧ selector asc csC none false "app in {}".toList = none := by
  decide +kernel

end CalicoParser
end Verif
