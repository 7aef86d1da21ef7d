import Verif.PropsQueries
/-!
C33: the semantic diff.
-/
namespace Verif

section
variable {C P E S : Type} {N : NetQ C P E S} {Ok Strong Wide : C → Prop}

/-! ### Specification -/

/-- Pods, host endpoints and DNS entries of a configuration. -/
def IsPeer (N : NetQ C P E S) (c : Config C S) (e : E) : Prop := c.peers.workload N.toNet e ∨ N.Q.mem e c.peers.dns = true

/-- Some policy selects the peer. -/
def Captured (N : NetQ C P E S) (c : Config C S) (e : E) : Prop := ∃ pol ∈ c.store.policies, N.Q.mem e pol.selected = true

def Removed (N : NetQ C P E S) (c1 c2 : Config C S) (e : E) : Prop := IsPeer N c1 e ∧ ¬ IsPeer N c2 e
def Stays (N : NetQ C P E S) (c1 c2 : Config C S) (e : E) : Prop := IsPeer N c1 e ∧ IsPeer N c2 e
def Added (N : NetQ C P E S) (c1 c2 : Config C S) (e : E) : Prop := IsPeer N c2 e ∧ ¬ IsPeer N c1 e
/-- Persistent peers captured before or after. -/
def Touched (N : NetQ C P E S) (c1 c2 : Config C S) (e : E) : Prop := Stays N c1 c2 e ∧ (Captured N c1 e ∨ Captured N c2 e)

/-- One end in one set, the other end in the other. -/
def Pair (N : NetQ C P E S) (A B : E → Prop) (p : P) : Prop := (A (N.src p) ∧ B (N.dst p)) ∨ (B (N.src p) ∧ A (N.dst p))

/-- The peers each category is about. -/
def inCategory (N : NetQ C P E S) (c1 c2 : Config C S) (p : P) : DiffKey → Prop
  | .removedRemoved => Pair N (Removed N c1 c2) (Removed N c1 c2) p ∧ N.src p ≠ N.dst p
  | .removedIps => Pair N (Removed N c1 c2) (fun e => N.ip e = true) p
  | .removedPersistent => Pair N (Removed N c1 c2) (Stays N c1 c2) p
  | .persistent => Pair N (Touched N c1 c2) (Stays N c1 c2) p ∧ N.src p ≠ N.dst p
  | .persistentIps => Pair N (Touched N c1 c2) (fun e => N.ip e = true) p
  | .persistentAdded => Pair N (Stays N c1 c2) (Added N c1 c2) p
  | .addedAdded => Pair N (Added N c1 c2) (Added N c1 c2) p ∧ N.src p ≠ N.dst p
  | .addedIps => Pair N (Added N c1 c2) (fun e => N.ip e = true) p

/-- Relevant connections allowed before and not after. -/
def Lost (N : NetQ C P E S) (excl : Bool) (c1 c2 : Config C S) (p : P) : Prop :=
  Relevant N c1.peers excl p ∧ c1.allows N p ∧ ¬ c2.allows N p

/-- The connections reported as removed (as added) in a category. -/
def Reported (N : NetQ C P E S) (d : List (DiffKey × Option C × Option C)) (added : Bool) (k : DiffKey) (p : P) : Prop :=
  ∃ e ∈ d, e.1 = k ∧ ∃ x, (if added then e.2.2 else e.2.1) = some x ∧ N.K.mem p x = true

/-! ### Lemmas -/

/-- A computed set and its connections. -/
def Is (N : NetQ C P E S) (Ok : C → Prop) (x : C) (A : P → Prop) : Prop := Ok x ∧ ∀ p, N.K.mem p x = true ↔ A p

theorem wide_of (L : N.Lawful Ok Strong Wide) {b : C} (hb : Strong b)
    (h : ∀ p, N.K.mem p b = true → ∃ q, ∀ r, N.src r = N.src q → N.dst r = N.dst p → N.K.mem r b = false) : Wide b := by
  rcases (L.strong_iff.1 hb).2 with ht | hw
  · obtain ⟨p, hp⟩ := (L.net.truthy_iff (L.net.strong_ok hb)).1 ht
    obtain ⟨q, hq⟩ := h p hp
    obtain ⟨r, h1, h2, _, h4⟩ := L.splice p q
    exact h4 (L.net.strong_ok hb) hp (hq r h1 h2)
  · exact hw

theorem between_strong (L : N.Lawful Ok Strong Wide) (a b : S) : Strong (between N a b) :=
  L.net.or_strong (L.net.rect_strong _ _ _) (L.net.strong_ok (L.net.rect_strong _ _ _))

theorem mem_between (L : N.Lawful Ok Strong Wide) (a b : S) (p : P) :
    N.K.mem p (between N a b) = true ↔ (N.Q.mem (N.src p) a = true ∧ N.Q.mem (N.dst p) b = true) ∨ (N.Q.mem (N.src p) b = true ∧ N.Q.mem (N.dst p) a = true) := by
  unfold between
  rw [L.net.mem_or (L.net.strong_ok (L.net.rect_strong _ _ _)) (L.net.strong_ok (L.net.rect_strong _ _ _)), Bool.or_eq_true,
    mem_rect_some L.net, mem_rect_some L.net]
  simp [ProtoSel.sel]

theorem mem_autoConns (L : N.Lawful Ok Strong Wide) (c : C) :
    Is N Ok (autoConns N c) (fun p => ∃ a ∈ N.elems (N.peersOf c), N.Q.mem (N.src p) a = true ∧ N.Q.mem (N.dst p) a = true) := by
  unfold autoConns
  have key : ∀ (l : List S) (acc : C), Ok acc → Is N Ok (l.foldl (fun acc a => N.K.or acc (N.rect (some a) (some a) .any)) acc)
      (fun p => N.K.mem p acc = true ∨ ∃ a ∈ l, N.Q.mem (N.src p) a = true ∧ N.Q.mem (N.dst p) a = true) := by
    intro l
    induction l with
    | nil => intro acc h; exact ⟨h, fun p => by simp⟩
    | cons a l ih =>
      intro acc h
      have hr := L.net.strong_ok (L.net.rect_strong (some a) (some a) .any)
      obtain ⟨h1, h2⟩ := ih _ (L.net.or_ok h hr)
      refine ⟨h1, fun p => ?_⟩
      rw [List.foldl_cons, h2]
      dsimp only
      rw [L.net.mem_or h hr, Bool.or_eq_true, mem_rect_some L.net]
      simp [ProtoSel.sel, or_assoc]
  obtain ⟨h1, h2⟩ := key (N.elems (N.peersOf c)) N.K.empty (L.net.strong_ok L.net.empty_strong)
  refine ⟨h1, fun p => ?_⟩
  rw [h2]
  dsimp only
  rw [L.net.mem_empty]
  simp

theorem mem_withoutAuto (L : N.Lawful Ok Strong Wide) {c : C} (hs : Strong c)
    (hip : ∀ p, N.K.mem p c = true → ¬ (N.ip (N.src p) = true ∧ N.ip (N.dst p) = true)) :
    Is N Ok (withoutAuto N c) (fun p => N.K.mem p c = true ∧ N.src p ≠ N.dst p) := by
  obtain ⟨h1, h2⟩ := mem_autoConns L c
  refine ⟨L.net.sub_ok hs h1, fun p => ?_⟩
  unfold withoutAuto
  rw [mem_sub_iff L.net hs h1, h2]
  dsimp only
  refine and_congr_right fun hp => not_congr ?_
  constructor
  · rintro ⟨a, ha, h3, h4⟩
    exact (L.elems_single ha h3 h4).resolve_right (hip p hp)
  · intro he
    have : N.Q.mem (N.src p) (N.peersOf c) = true := by
      unfold NetQ.peersOf
      rw [N.Q.mem_or, L.srcs_sup (L.net.strong_ok hs) hp]; rfl
    obtain ⟨a, ha, h3⟩ := (L.elems_mem _ _).1 this
    exact ⟨a, ha, h3, by rw [← he]; exact h3⟩

theorem mem_capturedPods (c : Config C S) (e : E) : N.Q.mem e (capturedPods N c) = true ↔ Captured N c e := by
  unfold capturedPods Captured
  have key : ∀ (l : List (Policy C S)) (acc : S), N.Q.mem e (l.foldl (fun acc p => N.Q.or acc p.selected) acc) = true ↔
      N.Q.mem e acc = true ∨ ∃ pol ∈ l, N.Q.mem e pol.selected = true := by
    intro l
    induction l with
    | nil => intro acc; simp
    | cons a l ih => intro acc; rw [List.foldl_cons, ih, N.Q.mem_or]; simp [or_assoc]
  rw [key, N.Q.mem_empty]; simp

section
variable {c1 c2 : Config C S}

theorem IsPeer.notIp (G : World N c1.peers) {e : E} (h : IsPeer N c1 e) : N.ip e = false := by
  rcases h with h | h
  · exact (G.work_ip h).1
  · exact G.dns _ h

theorem known_iff (W : World N c1.peers) (e : E) : c1.peers.known N.toNet e ↔ IsPeer N c1 e ∨ N.ip e = true := by
  unfold Peers.known Peers.nonDns IsPeer
  rw [W.ips]; tauto


theorem Removed.not_known (W1 : World N c1.peers) (W2 : World N c2.peers) {e : E} (h : Removed N c1 c2 e) : ¬ c2.peers.known N.toNet e := by
  rw [known_iff W2]
  rintro (h' | h')
  · exact h.2 h'
  · rw [h.1.notIp W1] at h'; exact absurd h' (by simp)

theorem Pair.symm {A B : E → Prop} {p : P} (h : Pair N A B p) : Pair N B A p := Or.symm h

/-- Every endpoint of an allowed connection is a peer or an address. -/
theorem allows_known {c : Config C S} {p : P} (h : c.allows N p) : c.peers.known N.toNet (N.src p) ∧ c.peers.known N.toNet (N.dst p) := ⟨h.1, h.2.1⟩

/-- A lost connection is not with added peers. -/
theorem Lost.noAdded (W1 : World N c1.peers) (W2 : World N c2.peers) {excl : Bool} {p : P} (h : Lost N excl c1 c2 p) :
    ¬ Added N c1 c2 (N.src p) ∧ ¬ Added N c1 c2 (N.dst p) := by
  obtain ⟨h1, h2⟩ := allows_known h.2.1
  exact ⟨fun ha => Removed.not_known W2 W1 ha h1, fun ha => Removed.not_known W2 W1 ha h2⟩

/-- The connections of the category sets. -/
theorem computeDiff_spec (L : N.Lawful Ok Strong Wide) (excl : Bool) (G1 : c1.Good N Ok Strong) (G2 : c2.Good N Ok Strong)
    (s1 : c1.Solid N) (s2 : c2.Solid N) (k12 : KindsAgree N c1 c2) (k21 : KindsAgree N c2 c1) :
    ∀ e ∈ computeDiff N excl c1 c2,
      (∀ x, e.2.1 = some x → Is N Ok x (fun p => Lost N excl c1 c2 p ∧ inCategory N c1 c2 p e.1)) ∧
      (e.2.1 = none → ∀ p, ¬ (Lost N excl c1 c2 p ∧ inCategory N c1 c2 p e.1)) ∧
      (∀ x, e.2.2 = some x → Is N Ok x (fun p => Lost N excl c2 c1 p ∧ inCategory N c1 c2 p e.1)) ∧
      (e.2.2 = none → ∀ p, ¬ (Lost N excl c2 c1 p ∧ inCategory N c1 c2 p e.1)) := by
  have W1 := G1.world
  have W2 := G2.world
  have K := compared L excl W1 W2 (G1.conns L none (fun _ => s1)) (G2.conns L none (fun _ => s2))
  -- peers
  have hold : ∀ e, N.Q.mem e (c1.peers.group N.toNet false true) = true ↔ IsPeer N c1 e := fun e => by
    rw [Peers.mem_group]; unfold IsPeer; simp
  have hnew : ∀ e, N.Q.mem e (c2.peers.group N.toNet false true) = true ↔ IsPeer N c2 e := fun e => by
    rw [Peers.mem_group]; unfold IsPeer; simp
  have hst : ∀ e, N.Q.mem e (N.Q.and (c1.peers.group N.toNet false true) (c2.peers.group N.toNet false true)) = true ↔ Stays N c1 c2 e := fun e => by
    rw [N.Q.mem_and, Bool.and_eq_true, hold, hnew]; rfl
  have hrem : ∀ e, N.Q.mem e (N.Q.sub (c1.peers.group N.toNet false true)
      (N.Q.and (c1.peers.group N.toNet false true) (c2.peers.group N.toNet false true))) = true ↔ Removed N c1 c2 e := fun e => by
    rw [N.Q.mem_sub, Bool.and_eq_true, Bool.not_eq_true', ← Bool.not_eq_true, hold, hst]; unfold Stays Removed; tauto
  have hadd : ∀ e, N.Q.mem e (N.Q.sub (c2.peers.group N.toNet false true)
      (N.Q.and (c1.peers.group N.toNet false true) (c2.peers.group N.toNet false true))) = true ↔ Added N c1 c2 e := fun e => by
    rw [N.Q.mem_sub, Bool.and_eq_true, Bool.not_eq_true', ← Bool.not_eq_true, hnew, hst]; unfold Stays Added; tauto
  have hcap : ∀ e, N.Q.mem e (N.Q.and (N.Q.or (capturedPods N c1) (capturedPods N c2))
      (N.Q.and (c1.peers.group N.toNet false true) (c2.peers.group N.toNet false true))) = true ↔ Touched N c1 c2 e := fun e => by
    rw [N.Q.mem_and, Bool.and_eq_true, N.Q.mem_or, Bool.or_eq_true, mem_capturedPods, mem_capturedPods, hst]; unfold Touched; tauto
  have hip : ∀ e, N.Q.mem e (if excl then N.Q.sub c1.peers.ips N.v6 else c1.peers.ips) = true ↔ N.ip e = true ∧ (excl = true → N.Q.mem e N.v6 = false) := by
    intro e
    cases excl with
    | true => simp [N.Q.mem_sub, W1.ips]
    | false => simp [W1.ips]
  unfold computeDiff
  dsimp only
  generalize (if excl then N.Q.sub c1.peers.ips N.v6 else c1.peers.ips) = ips at *
  generalize N.Q.and (N.Q.or (capturedPods N c1) (capturedPods N c2)) (N.Q.and (c1.peers.group N.toNet false true) (c2.peers.group N.toNet false true)) = cap at *
  generalize N.Q.sub (c2.peers.group N.toNet false true) (N.Q.and (c1.peers.group N.toNet false true) (c2.peers.group N.toNet false true)) = add at *
  generalize N.Q.sub (c1.peers.group N.toNet false true) (N.Q.and (c1.peers.group N.toNet false true) (c2.peers.group N.toNet false true)) = rem at *
  generalize N.Q.and (c1.peers.group N.toNet false true) (c2.peers.group N.toNet false true) = sta at *
  generalize filterBoth N excl c1 c2 (c1.conns N none ConnFilter.onlyAllAllowed).allAllowed (c2.conns N none ConnFilter.onlyAllAllowed).allAllowed = r at *
  obtain ⟨r1, r2⟩ := r
  dsimp only at *
  -- wide rectangles
  obtain ⟨x0, hx0, _⟩ := W1.ext
  obtain ⟨w0, hw0⟩ := W1.work
  have nip : ∀ {s : S} {A : E → Prop}, (∀ e, N.Q.mem e s = true ↔ A e) → (∀ e, A e → N.ip e = false) → N.Q.mem (N.src x0) s = false := by
    intro s A h1 h2
    rw [← Bool.not_eq_true, h1]
    intro h; rw [h2 _ h] at hx0; exact absurd hx0 (by simp)
  have hstay : ∀ e, Stays N c1 c2 e → N.ip e = false := fun e h => h.1.notIp W1
  have htou : ∀ e, Touched N c1 c2 e → N.ip e = false := fun e h => hstay e h.1
  have hremo : ∀ e, Removed N c1 c2 e → N.ip e = false := fun e h => h.1.notIp W1
  have haddd : ∀ e, Added N c1 c2 e → N.ip e = false := fun e h => h.1.notIp W2
  have wRect : ∀ {s : S} {A : E → Prop}, (∀ e, N.Q.mem e s = true ↔ A e) → (∀ e, A e → N.ip e = false) → Wide (N.rect (some s) (some s) .any) := by
    intro s A h1 h2
    refine wide_of L (L.net.rect_strong _ _ _) (fun p _ => ⟨x0, fun r hr _ => ?_⟩)
    rw [← Bool.not_eq_true, mem_rect_some L.net, hr, nip h1 h2]; simp
  have wBet : ∀ {a b : S} {A B : E → Prop}, (∀ e, N.Q.mem e a = true ↔ A e) → (∀ e, A e → N.ip e = false) →
      (∀ e, N.Q.mem e b = true ↔ B e) → (∀ e, B e → N.ip e = false) → Wide (between N a b) := by
    intro a b A B h1 h2 h3 h4
    refine wide_of L (between_strong L _ _) (fun p _ => ⟨x0, fun r hr _ => ?_⟩)
    rw [← Bool.not_eq_true, mem_between L, hr, nip h1 h2, nip h3 h4]; simp
  have wIps : ∀ {a : S} {A : E → Prop}, (∀ e, N.Q.mem e a = true ↔ A e) → (∀ e, A e → N.ip e = false) → Wide (between N a ips) := by
    intro a A h1 h2
    have hdis : ∀ e, N.Q.mem e a = true → N.Q.mem e ips = true → False := by
      intro e h3 h4
      rw [h1] at h3
      rw [hip, h2 e h3] at h4
      exact absurd h4.1 (by simp)
    refine wide_of L (between_strong L _ _) (fun p hp => ?_)
    rw [mem_between L] at hp
    rcases hp with ⟨_, hp⟩ | ⟨_, hp⟩
    · refine ⟨x0, fun r hr hd => ?_⟩
      rw [← Bool.not_eq_true, mem_between L, hr, hd, nip h1 h2]
      simp only [Bool.false_eq_true, false_and, false_or, not_and]
      exact fun _ h => hdis _ h hp
    · refine ⟨w0, fun r hr hd => ?_⟩
      rw [← Bool.not_eq_true, mem_between L, hr, hd]
      rintro (⟨_, h⟩ | ⟨h, _⟩)
      · exact hdis _ hp h
      · rw [hip, (W1.work_ip hw0).1] at h; exact absurd h.1 (by simp)
  have andL : ∀ {b x : C} {A : P → Prop}, Ok b → Wide b → Ok x → (∀ p, N.K.mem p x = true ↔ A p) →
      Strong (N.K.and b x) ∧ ∀ p, N.K.mem p (N.K.and b x) = true ↔ N.K.mem p b = true ∧ A p := by
    intro b x A hb hw hx hm
    exact ⟨L.and_wide hb hx (Or.inl hw), fun p => by rw [mem_and_iff L.net hb hx, hm]⟩
  have andR : ∀ {b x : C} {A : P → Prop}, Ok b → Wide b → Ok x → (∀ p, N.K.mem p x = true ↔ A p) →
      Strong (N.K.and x b) ∧ ∀ p, N.K.mem p (N.K.and x b) = true ↔ N.K.mem p b = true ∧ A p := by
    intro b x A hb hw hx hm
    exact ⟨L.and_wide hx hb (Or.inr hw), fun p => by rw [mem_and_iff L.net hx hb, hm]; tauto⟩
  have bOk : ∀ a b, Ok (between N a b) := fun a b => L.net.strong_ok (between_strong L a b)
  have rOk : ∀ a, Ok (N.rect (some a) (some a) .any) := fun a => L.net.strong_ok (L.net.rect_strong _ _ _)
  have o1 := L.net.strong_ok K.sx
  have o2 := L.net.strong_ok K.sy
  -- what the compared sets say
  have relIp : ∀ {t : Peers S} {p : P}, Relevant N t excl p → ¬ (N.ip (N.src p) = true ∧ N.ip (N.dst p) = true) := by
    rintro t p ⟨h, _⟩ ⟨h1, h2⟩; exact h ⟨h1, Or.inl h2⟩
  have hlost : ∀ p, N.K.mem p (N.K.sub r1 r2) = true ↔ Lost N excl c1 c2 p := by
    intro p
    rw [K.sub L]
    unfold Lost
    constructor
    · rintro ⟨⟨h1, h2⟩, h3⟩
      exact ⟨h2, h1, fun h4 => h3 ⟨h4, relevant_agree W1 W2 k12 h1.1 h1.2.1 h2⟩⟩
    · rintro ⟨h1, h2, h3⟩
      exact ⟨⟨h2, h1⟩, fun h4 => h3 h4.1⟩
  have hgain : ∀ p, N.K.mem p (N.K.sub r2 r1) = true ↔ Lost N excl c2 c1 p := by
    intro p
    rw [K.sub' L]
    unfold Lost
    constructor
    · rintro ⟨⟨h1, h2⟩, h3⟩
      exact ⟨h2, h1, fun h4 => h3 ⟨h4, relevant_agree W2 W1 k21 h1.1 h1.2.1 h2⟩⟩
    · rintro ⟨h1, h2, h3⟩
      exact ⟨⟨h2, h1⟩, fun h4 => h3 h4.1⟩
  have ol := L.net.sub_ok K.sx o2
  have og := L.net.sub_ok K.sy o1
  have lostR : ∀ p, Removed N c1 c2 (N.src p) ∨ Removed N c1 c2 (N.dst p) →
      ((c1.allowsIn N none p ∧ Relevant N c1.peers excl p) ↔ Lost N excl c1 c2 p) := by
    intro p hp
    constructor
    · rintro ⟨h1, h2⟩
      refine ⟨h2, h1, fun h3 => ?_⟩
      rcases hp with hp | hp
      · exact hp.not_known W1 W2 h3.1
      · exact hp.not_known W1 W2 h3.2.1
    · rintro ⟨h1, h2, _⟩; exact ⟨h2, h1⟩
  have gainA : ∀ p, Added N c1 c2 (N.src p) ∨ Added N c1 c2 (N.dst p) →
      ((c2.allowsIn N none p ∧ Relevant N c2.peers excl p) ↔ Lost N excl c2 c1 p) := by
    intro p hp
    constructor
    · rintro ⟨h1, h2⟩
      refine ⟨h2, h1, fun h3 => ?_⟩
      rcases hp with hp | hp
      · exact Removed.not_known W2 W1 hp h3.1
      · exact Removed.not_known W2 W1 hp h3.2.1
    · rintro ⟨h1, h2, _⟩; exact ⟨h2, h1⟩
  have noR : ∀ p, Lost N excl c2 c1 p → ¬ Removed N c1 c2 (N.src p) ∧ ¬ Removed N c1 c2 (N.dst p) := fun p h => h.noAdded W2 W1
  have noA : ∀ p, Lost N excl c1 c2 p → ¬ Added N c1 c2 (N.src p) ∧ ¬ Added N c1 c2 (N.dst p) := fun p h => h.noAdded W1 W2
  have ipX : ∀ {t : Peers S} {p : P} {A : E → Prop}, Relevant N t excl p → ((Pair N A (fun e => N.ip e = true ∧ (excl = true → N.Q.mem e N.v6 = false)) p) ↔ Pair N A (fun e => N.ip e = true) p) := by
    rintro t p A ⟨_, _, h⟩
    unfold Pair
    constructor
    · rintro (⟨a, b, _⟩ | ⟨⟨a, _⟩, b⟩)
      · exact Or.inl ⟨a, b⟩
      · exact Or.inr ⟨a, b⟩
    · rintro (⟨a, b⟩ | ⟨a, b⟩)
      · exact Or.inl ⟨a, b, fun he => (h he).2⟩
      · exact Or.inr ⟨⟨a, fun he => (h he).1⟩, b⟩
  have stayNe : ∀ p, Pair N (Removed N c1 c2) (Stays N c1 c2) p → N.src p ≠ N.dst p := by
    rintro p (⟨h1, h2⟩ | ⟨h1, h2⟩) he
    · rw [he] at h1; exact h1.2 h2.2
    · rw [he] at h1; exact h2.2 h1.2
  have stayNe' : ∀ p, Pair N (Stays N c1 c2) (Added N c1 c2) p → N.src p ≠ N.dst p := by
    rintro p (⟨h1, h2⟩ | ⟨h1, h2⟩) he
    · rw [he] at h1; exact h2.2 h1.1
    · rw [he] at h1; exact h1.2 h2.1
  intro e he
  simp only [List.mem_cons, List.not_mem_nil, or_false] at he
  rcases he with rfl | rfl | rfl | rfl | rfl | rfl | rfl | rfl <;> dsimp only [inCategory] <;>
    simp only [Option.some.injEq, reduceCtorEq, false_implies, true_implies, forall_eq', true_and, and_true, implies_true]
  · -- removed, removed
    have h := andL (rOk rem) (wRect hrem hremo) o1 K.mx
    obtain ⟨g1, g2⟩ := mem_withoutAuto L h.1 (fun p hp => relIp ((h.2 p).1 hp).2.2)
    refine ⟨⟨g1, fun p => ?_⟩, fun p hp => ?_⟩
    · rw [g2]
      dsimp only
      rw [h.2, mem_rect_some L.net, hrem, hrem]
      simp only [ProtoSel.sel, and_true]
      constructor
      · rintro ⟨⟨⟨h1, h2⟩, h3⟩, h4⟩
        exact ⟨(lostR p (Or.inl h1)).1 h3, Or.inl ⟨h1, h2⟩, h4⟩
      · rintro ⟨h1, h2, h3⟩
        have h2' : Removed N c1 c2 (N.src p) ∧ Removed N c1 c2 (N.dst p) := by rcases h2 with h | h <;> exact h
        exact ⟨⟨h2', (lostR p (Or.inl h2'.1)).2 h1⟩, h3⟩
    · obtain ⟨h1, h2, _⟩ := hp
      rcases h2 with h2 | h2 <;> exact (noR p h1).1 h2.1
  · -- removed, ips
    have h := andL (bOk rem ips) (wIps hrem hremo) o1 K.mx
    refine ⟨⟨L.net.strong_ok h.1, fun p => ?_⟩, fun p hp => ?_⟩
    · rw [h.2, mem_between L, hrem, hrem, hip, hip]
      constructor
      · rintro ⟨h1, h2⟩
        have h1' : Pair N (Removed N c1 c2) (fun e => N.ip e = true) p := (ipX h2.2).1 h1
        refine ⟨(lostR p ?_).1 h2, h1'⟩
        rcases h1' with h | h
        · exact Or.inl h.1
        · exact Or.inr h.2
      · rintro ⟨h1, h2⟩
        exact ⟨(ipX h1.1).2 h2, h1.2.1, h1.1⟩
    · obtain ⟨h1, h2⟩ := hp
      rcases h2 with h2 | h2
      · exact (noR p h1).1 h2.1
      · exact (noR p h1).2 h2.2
  · -- removed, persistent
    have h := andL (bOk rem sta) (wBet hrem hremo hst hstay) o1 K.mx
    obtain ⟨g1, g2⟩ := mem_withoutAuto L h.1 (fun p hp => relIp ((h.2 p).1 hp).2.2)
    refine ⟨⟨g1, fun p => ?_⟩, fun p hp => ?_⟩
    · rw [g2]
      dsimp only
      rw [h.2, mem_between L, hrem, hrem, hst, hst]
      constructor
      · rintro ⟨⟨h1, h3⟩, h4⟩
        refine ⟨(lostR p ?_).1 h3, h1⟩
        rcases h1 with h | h
        · exact Or.inl h.1
        · exact Or.inr h.2
      · rintro ⟨h1, h2⟩
        exact ⟨⟨h2, h1.2.1, h1.1⟩, stayNe p h2⟩
    · obtain ⟨h1, h2⟩ := hp
      rcases h2 with h2 | h2
      · exact (noR p h1).1 h2.1
      · exact (noR p h1).2 h2.2
  · -- persistent
    have h := andR (bOk cap sta) (wBet hcap htou hst hstay) ol hlost
    have h' := andR (bOk cap sta) (wBet hcap htou hst hstay) og hgain
    obtain ⟨g1, g2⟩ := mem_withoutAuto L h.1 (fun p hp => relIp ((h.2 p).1 hp).2.1)
    obtain ⟨g1', g2'⟩ := mem_withoutAuto L h'.1 (fun p hp => relIp ((h'.2 p).1 hp).2.1)
    refine ⟨⟨g1, fun p => ?_⟩, ⟨g1', fun p => ?_⟩⟩
    · rw [g2]
      dsimp only
      rw [h.2, mem_between L, hcap, hcap, hst, hst]
      unfold Pair; tauto
    · rw [g2']
      dsimp only
      rw [h'.2, mem_between L, hcap, hcap, hst, hst]
      unfold Pair; tauto
  · -- persistent, ips
    have h := andR (bOk cap ips) (wIps hcap htou) ol hlost
    have h' := andR (bOk cap ips) (wIps hcap htou) og hgain
    refine ⟨⟨L.net.strong_ok h.1, fun p => ?_⟩, ⟨L.net.strong_ok h'.1, fun p => ?_⟩⟩
    · rw [h.2, mem_between L, hcap, hcap, hip, hip]
      exact ⟨fun ⟨h1, h2⟩ => ⟨h2, (ipX h2.1).1 h1⟩, fun ⟨h1, h2⟩ => ⟨(ipX h1.1).2 h2, h1⟩⟩
    · rw [h'.2, mem_between L, hcap, hcap, hip, hip]
      exact ⟨fun ⟨h1, h2⟩ => ⟨h2, (ipX h2.1).1 h1⟩, fun ⟨h1, h2⟩ => ⟨(ipX h1.1).2 h2, h1⟩⟩
  · -- persistent, added
    have h := andL (bOk sta add) (wBet hst hstay hadd haddd) o2 K.my
    obtain ⟨g1, g2⟩ := mem_withoutAuto L h.1 (fun p hp => relIp ((h.2 p).1 hp).2.2)
    refine ⟨fun p hp => ?_, ⟨g1, fun p => ?_⟩⟩
    · obtain ⟨h1, h2⟩ := hp
      rcases h2 with h2 | h2
      · exact (noA p h1).2 h2.2
      · exact (noA p h1).1 h2.1
    · rw [g2]
      dsimp only
      rw [h.2, mem_between L, hadd, hadd, hst, hst]
      constructor
      · rintro ⟨⟨h1, h3⟩, h4⟩
        refine ⟨(gainA p ?_).1 h3, h1⟩
        rcases h1 with h | h
        · exact Or.inr h.2
        · exact Or.inl h.1
      · rintro ⟨h1, h2⟩
        exact ⟨⟨h2, h1.2.1, h1.1⟩, stayNe' p h2⟩
  · -- added, added
    have h := andL (rOk add) (wRect hadd haddd) o2 K.my
    obtain ⟨g1, g2⟩ := mem_withoutAuto L h.1 (fun p hp => relIp ((h.2 p).1 hp).2.2)
    refine ⟨fun p hp => ?_, ⟨g1, fun p => ?_⟩⟩
    · obtain ⟨h1, h2, _⟩ := hp
      rcases h2 with h2 | h2 <;> exact (noA p h1).1 h2.1
    · rw [g2]
      dsimp only
      rw [h.2, mem_rect_some L.net, hadd, hadd]
      simp only [ProtoSel.sel, and_true]
      constructor
      · rintro ⟨⟨⟨h1, h2⟩, h3⟩, h4⟩
        exact ⟨(gainA p (Or.inl h1)).1 h3, Or.inl ⟨h1, h2⟩, h4⟩
      · rintro ⟨h1, h2, h3⟩
        have h2' : Added N c1 c2 (N.src p) ∧ Added N c1 c2 (N.dst p) := by rcases h2 with h | h <;> exact h
        exact ⟨⟨h2', (gainA p (Or.inl h2'.1)).2 h1⟩, h3⟩
  · -- added, ips
    have h := andL (bOk add ips) (wIps hadd haddd) o2 K.my
    refine ⟨fun p hp => ?_, ⟨L.net.strong_ok h.1, fun p => ?_⟩⟩
    · obtain ⟨h1, h2⟩ := hp
      rcases h2 with h2 | h2
      · exact (noA p h1).1 h2.1
      · exact (noA p h1).2 h2.2
    · rw [h.2, mem_between L, hadd, hadd, hip, hip]
      constructor
      · rintro ⟨h1, h2⟩
        have h1' : Pair N (Added N c1 c2) (fun e => N.ip e = true) p := (ipX h2.2).1 h1
        refine ⟨(gainA p ?_).1 h2, h1'⟩
        rcases h1' with h | h
        · exact Or.inl h.1
        · exact Or.inr h.2
      · rintro ⟨h1, h2⟩
        exact ⟨(ipX h1.1).2 h2, h1.2.1, h1.1⟩

theorem computeDiff_keys (excl : Bool) (k : DiffKey) : ∃ e ∈ computeDiff N excl c1 c2, e.1 = k := by
  unfold computeDiff
  dsimp only
  cases k <;> simp only [List.mem_cons, List.not_mem_nil, or_false, exists_eq_or_imp, exists_eq_left] <;> simp

/-! ### C33 -/

/-- C33, what is reported where: a connection is reported as removed (as added) in a category exactly if it
is lost (gained) and between peers of that category.
Full statement: without `s1`, `s2`.  Missing: configurations with several layers that allow nothing
(`C31_empty_wrong`) and the restrictions of `Config.Good`. -/
theorem C33_exact_partial (L : N.Lawful Ok Strong Wide) (excl : Bool) (G1 : c1.Good N Ok Strong) (G2 : c2.Good N Ok Strong)
    (s1 : c1.Solid N) (s2 : c2.Solid N) (k12 : KindsAgree N c1 c2) (k21 : KindsAgree N c2 c1) (k : DiffKey) (p : P) :
    (Reported N (computeDiff N excl c1 c2) false k p ↔ Lost N excl c1 c2 p ∧ inCategory N c1 c2 p k) ∧
    (Reported N (computeDiff N excl c1 c2) true k p ↔ Lost N excl c2 c1 p ∧ inCategory N c1 c2 p k) := by
  have H := computeDiff_spec L excl G1 G2 s1 s2 k12 k21
  constructor
  · constructor
    · rintro ⟨e, he, rfl, x, hx, hp⟩
      exact (((H e he).1 x hx).2 p).1 hp
    · intro h
      obtain ⟨e, he, rfl⟩ := computeDiff_keys (N := N) (c1 := c1) (c2 := c2) excl k
      refine ⟨e, he, rfl, ?_⟩
      cases hx : e.2.1 with
      | none => exact absurd h ((H e he).2.1 hx p)
      | some x => exact ⟨x, by simpa using hx, (((H e he).1 x hx).2 p).2 h⟩
  · constructor
    · rintro ⟨e, he, rfl, x, hx, hp⟩
      exact (((H e he).2.2.1 x hx).2 p).1 hp
    · intro h
      obtain ⟨e, he, rfl⟩ := computeDiff_keys (N := N) (c1 := c1) (c2 := c2) excl k
      refine ⟨e, he, rfl, ?_⟩
      cases hx : e.2.2 with
      | none => exact absurd h ((H e he).2.2.2 hx p)
      | some x => exact ⟨x, by simpa using hx, (((H e he).2.2.1 x hx).2 p).2 h⟩

/-- C33, soundness: connections reported as removed are allowed only before, those reported as added only
after. -/
theorem C33_sound_partial (L : N.Lawful Ok Strong Wide) (excl : Bool) (G1 : c1.Good N Ok Strong) (G2 : c2.Good N Ok Strong)
    (s1 : c1.Solid N) (s2 : c2.Solid N) (k12 : KindsAgree N c1 c2) (k21 : KindsAgree N c2 c1) (k : DiffKey) (p : P) :
    (Reported N (computeDiff N excl c1 c2) false k p → c1.allows N p ∧ ¬ c2.allows N p) ∧
    (Reported N (computeDiff N excl c1 c2) true k p → c2.allows N p ∧ ¬ c1.allows N p) := by
  have H := C33_exact_partial L excl G1 G2 s1 s2 k12 k21 k p
  exact ⟨fun h => (H.1.1 h).1.2, fun h => (H.2.1 h).1.2⟩

/-- Kinds of endpoints. -/
inductive DiffPeer | rem | stay | add | ip
  deriving DecidableEq

/-- An endpoint is of a kind. -/
def isKind (N : NetQ C P E S) (c1 c2 : Config C S) : DiffPeer → E → Prop
  | .rem => Removed N c1 c2
  | .stay => Stays N c1 c2
  | .add => Added N c1 c2
  | .ip => fun e => N.ip e = true

theorem isKind_unique (W1 : World N c1.peers) (W2 : World N c2.peers) {e : E} {a b : DiffPeer} (h : isKind N c1 c2 a e) (h' : isKind N c1 c2 b e) :
    a = b := by
  cases a <;> cases b <;> first
    | rfl
    | exact absurd h'.2 h.2
    | exact absurd h.2 h'.2
    | exact absurd h'.1 h.2
    | exact absurd h.1 h'.2
    | (have h1 := h.1.notIp W1; rw [show N.ip e = true from h'] at h1; exact absurd h1 (by simp))
    | (have h1 := h'.1.notIp W1; rw [show N.ip e = true from h] at h1; exact absurd h1 (by simp))
    | (have h1 := h.1.notIp W2; rw [show N.ip e = true from h'] at h1; exact absurd h1 (by simp))
    | (have h1 := h'.1.notIp W2; rw [show N.ip e = true from h] at h1; exact absurd h1 (by simp))

/-- The kinds of the two ends in a category. -/
def DiffKey.kinds : DiffKey → DiffPeer × DiffPeer
  | .removedRemoved => (.rem, .rem)
  | .removedIps => (.rem, .ip)
  | .removedPersistent => (.rem, .stay)
  | .persistent => (.stay, .stay)
  | .persistentIps => (.stay, .ip)
  | .persistentAdded => (.stay, .add)
  | .addedAdded => (.add, .add)
  | .addedIps => (.add, .ip)

theorem inCategory_kinds {p : P} {k : DiffKey} (h : inCategory N c1 c2 p k) :
    (isKind N c1 c2 k.kinds.1 (N.src p) ∧ isKind N c1 c2 k.kinds.2 (N.dst p)) ∨
    (isKind N c1 c2 k.kinds.2 (N.src p) ∧ isKind N c1 c2 k.kinds.1 (N.dst p)) := by
  cases k
  case removedRemoved => exact h.1
  case removedIps => exact h
  case removedPersistent => exact h
  case persistent => exact h.1.imp (fun h => ⟨h.1.1, h.2⟩) (fun h => ⟨h.1, h.2.1⟩)
  case persistentIps => exact h.imp (fun h => ⟨h.1.1, h.2⟩) (fun h => ⟨h.1, h.2.1⟩)
  case persistentAdded => exact h
  case addedAdded => exact h.1
  case addedIps => exact h

/-- The categories exclude each other. -/
theorem category_unique (W1 : World N c1.peers) (W2 : World N c2.peers) {p : P} {k k' : DiffKey} (h : inCategory N c1 c2 p k)
    (h' : inCategory N c1 c2 p k') : k = k' := by
  have key : ∀ k k' : DiffKey, (k.kinds.1 = k'.kinds.1 ∧ k.kinds.2 = k'.kinds.2) ∨ (k.kinds.1 = k'.kinds.2 ∧ k.kinds.2 = k'.kinds.1) → k = k' := by
    intro k k'
    cases k <;> cases k' <;> decide
  apply key
  rcases inCategory_kinds h with ⟨a, b⟩ | ⟨a, b⟩ <;> rcases inCategory_kinds h' with ⟨a', b'⟩ | ⟨a', b'⟩
  · exact Or.inl ⟨isKind_unique W1 W2 a a', isKind_unique W1 W2 b b'⟩
  · exact Or.inr ⟨isKind_unique W1 W2 a a', isKind_unique W1 W2 b b'⟩
  · exact Or.inr ⟨isKind_unique W1 W2 b b', isKind_unique W1 W2 a a'⟩
  · exact Or.inl ⟨isKind_unique W1 W2 b b', isKind_unique W1 W2 a a'⟩

/-- C33, completeness: a lost (gained) connection, other than of a peer with itself, with an end that was
removed, added or captured by a policy before or after, is reported as removed (added) in exactly one
category.
Full statement: every changed connection is reported in one category.  Missing: changes between persistent
peers that no policy captures, `C33_uncaptured_wrong`, connections of a peer with itself, and the
conditions of `C33_exact_partial`. -/
theorem C33_once_partial (L : N.Lawful Ok Strong Wide) (excl : Bool) (G1 : c1.Good N Ok Strong) (G2 : c2.Good N Ok Strong)
    (s1 : c1.Solid N) (s2 : c2.Solid N) (k12 : KindsAgree N c1 c2) (k21 : KindsAgree N c2 c1) (p : P) (hne : N.src p ≠ N.dst p)
    (ht : ∃ e, (e = N.src p ∨ e = N.dst p) ∧ (Removed N c1 c2 e ∨ Added N c1 c2 e ∨ Captured N c1 e ∨ Captured N c2 e)) :
    (Lost N excl c1 c2 p → ∃! k, Reported N (computeDiff N excl c1 c2) false k p) ∧
    (Lost N excl c2 c1 p → ∃! k, Reported N (computeDiff N excl c1 c2) true k p) := by
  have W1 := G1.world
  have W2 := G2.world
  have H := fun k => C33_exact_partial L excl G1 G2 s1 s2 k12 k21 k p
  have cls : ∀ e, c1.peers.known N.toNet e ∨ c2.peers.known N.toNet e → Removed N c1 c2 e ∨ Stays N c1 c2 e ∨ Added N c1 c2 e ∨ N.ip e = true := by
    intro e h
    rw [known_iff W1, known_iff W2] at h
    unfold Removed Stays Added
    tauto
  have cap : ∀ e, Captured N c1 e ∨ Captured N c2 e → Stays N c1 c2 e → Touched N c1 c2 e := fun e h h2 => ⟨h2, h⟩
  have capP : ∀ e, Captured N c1 e ∨ Captured N c2 e → Removed N c1 c2 e ∨ Added N c1 c2 e ∨ Touched N c1 c2 e := by
    intro e h
    have hp : IsPeer N c1 e ∨ IsPeer N c2 e := by
      rcases h with ⟨pol, hp, he⟩ | ⟨pol, hp, he⟩
      · exact Or.inl (Or.inl (G1.selects pol hp e he))
      · exact Or.inr (Or.inl (G2.selects pol hp e he))
    have := cap e h
    unfold Removed Added Stays at *
    tauto
  have main : c1.peers.known N.toNet (N.src p) ∨ c2.peers.known N.toNet (N.src p) → c1.peers.known N.toNet (N.dst p) ∨ c2.peers.known N.toNet (N.dst p) →
      ¬ (N.ip (N.src p) = true ∧ N.ip (N.dst p) = true) →
      ¬ ((Removed N c1 c2 (N.src p) ∧ Added N c1 c2 (N.dst p)) ∨ (Added N c1 c2 (N.src p) ∧ Removed N c1 c2 (N.dst p))) →
      ∃ k, inCategory N c1 c2 p k := by
    intro hs hd hip hra
    have ks := cls _ hs
    have kd := cls _ hd
    obtain ⟨e, he, ht⟩ := ht
    have ht' : Removed N c1 c2 e ∨ Added N c1 c2 e ∨ Touched N c1 c2 e := by
      rcases ht with h | h | h
      · exact Or.inl h
      · exact Or.inr (Or.inl h)
      · exact capP e h
    rcases he with rfl | rfl
    · rcases ht' with h | h | h <;> rcases kd with h2 | h2 | h2 | h2
      · exact ⟨.removedRemoved, ⟨Or.inl ⟨h, h2⟩, hne⟩⟩
      · exact ⟨.removedPersistent, Or.inl ⟨h, h2⟩⟩
      · exact absurd (Or.inl ⟨h, h2⟩) hra
      · exact ⟨.removedIps, Or.inl ⟨h, h2⟩⟩
      · exact absurd (Or.inr ⟨h, h2⟩) hra
      · exact ⟨.persistentAdded, Or.inr ⟨h, h2⟩⟩
      · exact ⟨.addedAdded, ⟨Or.inl ⟨h, h2⟩, hne⟩⟩
      · exact ⟨.addedIps, Or.inl ⟨h, h2⟩⟩
      · exact ⟨.removedPersistent, Or.inr ⟨h.1, h2⟩⟩
      · exact ⟨.persistent, ⟨Or.inl ⟨h, h2⟩, hne⟩⟩
      · exact ⟨.persistentAdded, Or.inl ⟨h.1, h2⟩⟩
      · exact ⟨.persistentIps, Or.inl ⟨h, h2⟩⟩
    · rcases ht' with h | h | h <;> rcases ks with h2 | h2 | h2 | h2
      · exact ⟨.removedRemoved, ⟨Or.inl ⟨h2, h⟩, hne⟩⟩
      · exact ⟨.removedPersistent, Or.inr ⟨h2, h⟩⟩
      · exact absurd (Or.inr ⟨h2, h⟩) hra
      · exact ⟨.removedIps, Or.inr ⟨h2, h⟩⟩
      · exact absurd (Or.inl ⟨h2, h⟩) hra
      · exact ⟨.persistentAdded, Or.inl ⟨h2, h⟩⟩
      · exact ⟨.addedAdded, ⟨Or.inl ⟨h2, h⟩, hne⟩⟩
      · exact ⟨.addedIps, Or.inr ⟨h2, h⟩⟩
      · exact ⟨.removedPersistent, Or.inl ⟨h2, h.1⟩⟩
      · exact ⟨.persistent, ⟨Or.inr ⟨h2, h⟩, hne⟩⟩
      · exact ⟨.persistentAdded, Or.inr ⟨h2, h.1⟩⟩
      · exact ⟨.persistentIps, Or.inr ⟨h2, h⟩⟩
  constructor
  · intro hl
    obtain ⟨kn1, kn2⟩ := allows_known hl.2.1
    have na := hl.noAdded W1 W2
    obtain ⟨k, hk⟩ := main (Or.inl kn1) (Or.inl kn2) (fun h => hl.1.1 ⟨h.1, Or.inl h.2⟩) (by tauto)
    refine ⟨k, (H k).1.2 ⟨hl, hk⟩, fun k' hk' => ?_⟩
    exact category_unique W1 W2 ((H k').1.1 hk').2 hk
  · intro hl
    obtain ⟨kn1, kn2⟩ := allows_known hl.2.1
    have na : ¬ Removed N c1 c2 (N.src p) ∧ ¬ Removed N c1 c2 (N.dst p) := hl.noAdded W2 W1
    obtain ⟨k, hk⟩ := main (Or.inr kn1) (Or.inr kn2) (fun h => hl.1.1 ⟨h.1, Or.inl h.2⟩) (by tauto)
    refine ⟨k, (H k).2.2 ⟨hl, hk⟩, fun k' hk' => ?_⟩
    exact category_unique W1 W2 ((H k').2.1 hk').2 hk

theorem diffCount_zero (d : List (DiffKey × Option C × Option C)) :
    diffCount N d = 0 ↔ ∀ e ∈ d, (∀ x, e.2.1 = some x → N.K.truthy x = false) ∧ (∀ x, e.2.2 = some x → N.K.truthy x = false) := by
  unfold diffCount
  induction d with
  | nil => simp
  | cons e d ih =>
    rw [List.map_cons, List.sum_cons, Nat.add_eq_zero_iff, ih, List.forall_mem_cons]
    refine and_congr_left fun _ => ?_
    obtain ⟨k, a, b⟩ := e
    cases a <;> cases b <;> simp [Nat.add_eq_zero_iff] <;> exact And.comm

/-- C33, the answer: positive iff nothing is reported, that is, iff no connection with an end that was
removed, added or captured changed (`C33_exact_partial` says which these are).
Full statement and what is missing: as for `C33_exact_partial`; and equal policies added in different
orders, `C31_order_wrong`. -/
theorem C33_answer_partial (L : N.Lawful Ok Strong Wide) (excl cmd : Bool) (G1 : c1.Good N Ok Strong) (G2 : c2.Good N Ok Strong)
    (s1 : c1.Solid N) (s2 : c2.Solid N) (k12 : KindsAgree N c1 c2) (k21 : KindsAgree N c2 c1) (ho : SameOrder N c1 c2) :
    let a := (diffQuery N excl cmd c1 c2).1
    (a.bool = true ↔ ∀ p k, inCategory N c1 c2 p k → ¬ Lost N excl c1 c2 p ∧ ¬ Lost N excl c2 c1 p) ∧
    (a.num = 0 ↔ a.bool = true) := by
  have W1 := G1.world
  have W2 := G2.world
  have H := computeDiff_spec L excl G1 G2 s1 s2 k12 k21
  have hz : diffCount N (computeDiff N excl c1 c2) = 0 ↔ ∀ p k, inCategory N c1 c2 p k → ¬ Lost N excl c1 c2 p ∧ ¬ Lost N excl c2 c1 p := by
    rw [diffCount_zero]
    have hf : ∀ {x : C} {A : P → Prop}, Is N Ok x A → (N.K.truthy x = false ↔ ∀ p, ¬ A p) := by
      rintro x A ⟨h1, h2⟩
      rw [← Bool.not_eq_true, L.net.truthy_iff h1, not_exists]
      simp only [h2]
    constructor
    · intro h p k hk
      obtain ⟨e, he, rfl⟩ := computeDiff_keys (N := N) (c1 := c1) (c2 := c2) excl k
      obtain ⟨H1, H2, H3, H4⟩ := H e he
      constructor
      · intro hl
        cases hx : e.2.1 with
        | none => exact H2 hx p ⟨hl, hk⟩
        | some x => exact (hf (H1 x hx)).1 ((h e he).1 x hx) p ⟨hl, hk⟩
      · intro hl
        cases hx : e.2.2 with
        | none => exact H4 hx p ⟨hl, hk⟩
        | some x => exact (hf (H3 x hx)).1 ((h e he).2 x hx) p ⟨hl, hk⟩
    · intro h e he
      obtain ⟨H1, H2, H3, H4⟩ := H e he
      refine ⟨fun x hx => (hf (H1 x hx)).2 (fun p hp => (h p _ hp.2).1 hp.1), fun x hx => (hf (H3 x hx)).2 (fun p hp => (h p _ hp.2).2 hp.1)⟩
  have hrest : ((diffQuery.rest N excl cmd c1 c2).1.bool = true ↔ diffCount N (computeDiff N excl c1 c2) = 0) ∧
      ((diffQuery.rest N excl cmd c1 c2).1.num = 0 ↔ (diffQuery.rest N excl cmd c1 c2).1.bool = true) := by
    unfold diffQuery.rest
    dsimp only
    split
    · rename_i h
      constructor
      · simp; omega
      · cases cmd <;> simp; omega
    · rename_i h
      simp; omega
  intro a
  have ha : a = (diffQuery N excl cmd c1 c2).1 := rfl
  by_cases hst : SameTopology N c1 c2
  · by_cases he : policiesEq N c1.store.policies c2.store.policies = true
    · have : a = ⟨true, 0, false, []⟩ := by
        rw [ha]; unfold diffQuery
        rw [identical_true hst, if_pos he]; rfl
      rw [this]
      refine ⟨?_, by simp⟩
      simp only [true_iff]
      have hall := policiesEq_allows L G1 G2 ((comparable_iff c1 c2).2 hst) he ho none
      intro p k _
      exact ⟨fun h => h.2.2 ((hall p).1 h.2.1), fun h => h.2.2 ((hall p).2 h.2.1)⟩
    · have : a = (diffQuery.rest N excl cmd c1 c2).1 := by
        rw [ha]; unfold diffQuery
        rw [identical_true hst, if_neg he]
      rw [this, hrest.1, hz]
      exact ⟨Iff.rfl, by rw [hrest.2, hrest.1, hz]⟩
  · have : a = (diffQuery.rest N excl cmd c1 c2).1 := by
      rw [ha]; unfold diffQuery
      rw [identical_false hst]; rfl
    rw [this, hrest.1, hz]
    exact ⟨Iff.rfl, by rw [hrest.2, hrest.1, hz]⟩

/-- C33: configurations with the same topology that allow the same have an empty diff. -/
theorem C33_same_partial (L : N.Lawful Ok Strong Wide) (excl cmd : Bool) (G1 : c1.Good N Ok Strong) (G2 : c2.Good N Ok Strong)
    (s1 : c1.Solid N) (s2 : c2.Solid N) (ho : SameOrder N c1 c2) (hst : SameTopology N c1 c2) (h : SameAllowed N excl none c1 c2) :
    (diffQuery N excl cmd c1 c2).1.bool = true ∧ ∀ added k p, ¬ Reported N (computeDiff N excl c1 c2) added k p := by
  have ht := comparable_same G1.world G2.world ((comparable_iff c1 c2).2 hst)
  have k12 : KindsAgree N c1 c2 := fun e he => by rw [← ht.dns]; exact (G1.world.work_ip he).2
  have k21 : KindsAgree N c2 c1 := fun e he => by rw [ht.dns]; exact (G2.world.work_ip he).2
  have hl : ∀ p, ¬ Lost N excl c1 c2 p ∧ ¬ Lost N excl c2 c1 p := by
    intro p
    refine ⟨fun hl => hl.2.2 ((h p hl.1).1 hl.2.1), fun hl => hl.2.2 ((h p ((ht.relevant excl p).2 hl.1)).2 hl.2.1)⟩
  refine ⟨(C33_answer_partial L excl cmd G1 G2 s1 s2 k12 k21 ho).1.2 (fun p k _ => hl p), fun added k p hr => ?_⟩
  have H := C33_exact_partial L excl G1 G2 s1 s2 k12 k21 k p
  cases added
  · exact (hl p).1 (H.1.1 hr).1
  · exact (hl p).2 (H.2.1 hr).1

end
end
end Verif
