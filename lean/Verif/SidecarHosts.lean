import Verif.SidecarSpec
import Verif.IngressSvcProofs
/-!
C57: the hosts of Sidecar resources.
-/
namespace Verif
open ISet IpBlock PeerSet

namespace SidecarParser
open Container CalicoParser IstioParser IngressParser

/-! ### Texts -/

theorem count_zero {a : Char} {s : List Char} (h : a ∉ s) : s.count a = 0 := List.count_eq_zero.2 h

theorem takeWhile_to {a : Char} {s t : List Char} (h : a ∉ s) : (s ++ a :: t).takeWhile (fun b => decide (b ≠ a)) = s := by
  induction s with
  | nil => simp
  | cons b s ih =>
    rw [List.mem_cons, not_or] at h
    rw [List.cons_append, List.takeWhile_cons_of_pos (by simpa using Ne.symm h.1), ih h.2]

theorem dropWhile_to {a : Char} {s t : List Char} (h : a ∉ s) : (s ++ a :: t).dropWhile (fun b => decide (b ≠ a)) = a :: t := by
  induction s with
  | nil => simp
  | cons b s ih =>
    rw [List.mem_cons, not_or] at h
    rw [List.cons_append, List.dropWhile_cons_of_pos (by simpa using Ne.symm h.1), ih h.2]

theorem partition_sem {h ns d : List Char} (hh : HostIs h ns d) : partitionHost h = some (ns, d) := by
  obtain ⟨rfl, h1, h2, h3, h4⟩ := hh
  unfold partitionHost
  rw [if_neg (by rw [List.count_append, List.count_cons_self, count_zero h1, count_zero h2]; simp)]
  rw [takeWhile_to h1, dropWhile_to h1]
  simp [h3, h4]

theorem hostIs_unique {h ns d ns' d' : List Char} (hh : HostIs h ns d) (hh' : HostIs h ns' d') : ns' = ns ∧ d' = d := by
  have := partition_sem hh'
  rw [partition_sem hh] at this
  simp only [Option.some.injEq, Prod.mk.injEq] at this
  exact ⟨this.1.symm, this.2.symm⟩

theorem label_letters {s : List Char} (h : Label s) : '.' ∉ s ∧ '*' ∉ s ∧ s ≠ [] := by
  obtain ⟨⟨a, h1, _⟩, _, h2⟩ := h
  refine ⟨fun hm => ?_, fun hm => ?_, fun e => ?_⟩
  · have := h2 _ hm
    revert this; decide
  · have := h2 _ hm
    revert this; decide
  · rw [e] at h1; cases h1

theorem label_iff {s : List Char} (h : Label s) : fqdnLabel s = true := by
  obtain ⟨⟨a, h1, h1'⟩, ⟨b, h2, h2'⟩, h3⟩ := h
  unfold fqdnLabel alnum
  rw [h1, h2]
  simp only [h1', h2', Bool.true_and, Bool.and_self, List.all_eq_true, Bool.or_eq_true, decide_eq_true_eq]
  exact h3

theorem splitDots_one {s : List Char} (h : '.' ∉ s) : splitDots s = [s] := by
  induction s with
  | nil => rfl
  | cons a s ih =>
    rw [List.mem_cons, not_or] at h
    unfold splitDots
    rw [if_neg (Ne.symm h.1), ih h.2]

theorem splitDots_more {s t : List Char} (h : '.' ∉ s) : splitDots (s ++ '.' :: t) = s :: splitDots t := by
  induction s with
  | nil => simp [splitDots]
  | cons a s ih =>
    rw [List.mem_cons, not_or] at h
    rw [List.cons_append, splitDots, if_neg (Ne.symm h.1), ih h.2]

theorem dotted_split {s : List Char} (h : Dotted s) : (splitDots s).all fqdnLabel = true := by
  induction h with
  | one h => rw [splitDots_one (label_letters h).1]; simp [label_iff h]
  | more h _ ih => rw [splitDots_more (label_letters h).1, List.all_cons, label_iff h, ih]; rfl

/-- The letters of names, and their first letters. -/
theorem dotted_letters {s : List Char} (h : Dotted s) :
    (∃ a, s.head? = some a ∧ a.isAlphanum = true) ∧ ∀ a ∈ s, a.isAlphanum = true ∨ a = '-' ∨ a = '.' := by
  induction h with
  | one h => exact ⟨h.1, fun a ha => (h.2.2 a ha).imp id Or.inl⟩
  | @more s t h _ ih =>
    obtain ⟨a, h1, h1'⟩ := h.1
    refine ⟨⟨a, by rw [List.head?_append, h1]; rfl, h1'⟩, fun b hb => ?_⟩
    rcases List.mem_append.1 hb with hb | hb
    · exact (h.2.2 b hb).imp id Or.inl
    · rcases List.mem_cons.1 hb with rfl | hb
      · exact Or.inr (Or.inr rfl)
      · exact ih.2 b hb

theorem dotted_star {s : List Char} (h : Dotted s) : '*' ∉ s := fun hm => by
  have := (dotted_letters h).2 _ hm
  revert this; decide

theorem dotted_ne {s : List Char} (h : Dotted s) : s ≠ [] := by
  obtain ⟨⟨a, h, _⟩, _⟩ := dotted_letters h
  intro e
  rw [e] at h; cases h

/-- The letter before a dot of a name. -/
theorem dotted_before {w : List Char} (h : Dotted w) : ∀ {u s : List Char}, w = u ++ '.' :: s → ∃ a, u.getLast? = some a ∧ a.isAlphanum = true := by
  induction h with
  | one h =>
    rintro u s rfl
    exact absurd (List.mem_append_right _ List.mem_cons_self) (label_letters h).1
  | @more s t h _ ih =>
    intro u s' e
    obtain ⟨a, h1, h1'⟩ := h.2.1
    rcases List.append_eq_append_iff.1 e with ⟨v, rfl, e2⟩ | ⟨v, rfl, e2⟩
    · cases v with
      | nil => exact ⟨a, by rw [List.append_nil]; exact h1, h1'⟩
      | cons b v =>
        rw [List.cons_append, List.cons.injEq] at e2
        obtain ⟨x, hx, hx'⟩ := ih e2.2
        refine ⟨x, ?_, hx'⟩
        obtain ⟨rfl, _⟩ := e2
        rw [List.getLast?_append, List.getLast?_cons, hx]; rfl
    · cases v with
      | nil => exact ⟨a, by rw [List.append_nil] at h1; exact h1, h1'⟩
      | cons b v =>
        rw [List.cons_append, List.cons.injEq] at e2
        obtain ⟨rfl, _⟩ := e2
        exact absurd (List.mem_append_right _ List.mem_cons_self) (label_letters h).1

theorem legalName_fqdn {s : List Char} (h : LegalName s) : fqdn s = true := by
  obtain ⟨h1, _, h3⟩ := h
  unfold fqdn
  rw [dotted_split h1]
  have := List.length_pos_iff.2 (dotted_ne h1)
  simp only [Bool.true_or, Bool.and_true, Bool.and_eq_true, decide_eq_true_eq]
  omega

theorem legalDns_valid {d : List Char} (h : LegalDns d) : validDns d = true := by
  unfold validDns
  rcases h with rfl | h | ⟨s, rfl, h⟩
  · simp
  · have hs := dotted_star h.1
    have hne := dotted_ne h.1
    rw [if_neg (fun e => hs (by rw [e]; exact List.mem_singleton.2 rfl)), if_neg (fun h => hs h.1)]
    rw [if_neg hs]
    simp [h.2.1, legalName_fqdn h]
  · have hs := dotted_star h.1
    rw [if_neg (by simp), if_neg]
    · dsimp only
      rw [if_pos List.mem_cons_self]
      simp [h.2.1, legalName_fqdn h]
    · rintro ⟨_, h2⟩
      refine h2 ⟨⟨s, rfl⟩, ?_⟩
      rw [List.count_cons_self, List.count_cons_of_ne (by decide), count_zero hs]

/-- The names of DNS entries that a host covers. -/
theorem pattern_sem {d w : List Char} (hd : LegalDns d) (hd1 : d ≠ ['*']) (hw : Dotted w) : (d = w ∨ hostPattern d w = true) ↔ NameSays d w := by
  rcases hd with rfl | h | ⟨s, rfl, h⟩
  · exact absurd rfl hd1
  · have hs := dotted_star h.1
    have e : hostPattern d w = decide (w = d) := by
      cases d with
      | nil => rfl
      | cons a t =>
        have ha : a ≠ '*' := fun e => hs (by rw [e]; exact List.mem_cons_self)
        unfold hostPattern
        split
        · rename_i e; cases e; exact absurd rfl ha
        · rfl
    rw [e]
    unfold NameSays
    simp only [decide_eq_true_eq]
    constructor
    · rintro (h | h)
      · exact Or.inr (Or.inl ⟨hs, h⟩)
      · exact Or.inr (Or.inl ⟨hs, h.symm⟩)
    · rintro (h | ⟨_, h⟩ | ⟨s, u, rfl, _⟩)
      · exact absurd h hd1
      · exact Or.inl h
      · exact absurd List.mem_cons_self hs
  · have hs := dotted_star h.1
    have hw1 : ('*' :: '.' :: s) ≠ w := fun e => dotted_star hw (by rw [← e]; exact List.mem_cons_self)
    unfold NameSays hostPattern
    constructor
    · rintro (h | h)
      · exact absurd h hw1
      · simp only [Bool.and_eq_true, decide_eq_true_eq] at h
        obtain ⟨⟨u, rfl⟩, _⟩ := h
        refine Or.inr (Or.inr ⟨s, u, rfl, fun e => ?_, rfl⟩)
        subst e
        obtain ⟨⟨a, h1, h2⟩, _⟩ := dotted_letters hw
        rw [List.nil_append, List.head?_cons, Option.some.injEq] at h1
        subst h1
        revert h2; decide
    · rintro (h | ⟨h, _⟩ | ⟨s', u, e, hu, rfl⟩)
      · exact absurd h hd1
      · exact absurd List.mem_cons_self h
      · simp only [List.cons.injEq, true_and] at e
        subst e
        right
        change (decide ('.' :: s <:+ u ++ '.' :: s) && dnsPattern (List.take ((u ++ '.' :: s).length - ('.' :: s).length) (u ++ '.' :: s))) = true
        rw [show (u ++ '.' :: s).take ((u ++ '.' :: s).length - ('.' :: s).length) = u by simp]
        simp only [Bool.and_eq_true, decide_eq_true_eq]
        refine ⟨⟨u, rfl⟩, ?_⟩
        obtain ⟨⟨a, h1, h1'⟩, h2⟩ := dotted_letters hw
        obtain ⟨b, h3, h3'⟩ := dotted_before hw rfl
        unfold dnsPattern alnum
        rw [h3]
        have h1 : u.head? = some a := by
          cases u with
          | nil => exact absurd rfl hu
          | cons x u => exact h1
        rw [h1]
        simp only [h1', h3', Bool.and_self, Bool.true_and, Bool.or_eq_true, List.all_eq_true, decide_eq_true_eq]
        right
        intro x hx
        rcases h2 x (List.mem_append_left _ hx) with h | h | h
        · exact Or.inl (Or.inl (Or.inl h))
        · exact Or.inl (Or.inl (Or.inr h))
        · exact Or.inr h

/-! ### Names of services -/

theorem svc_star : '*' ∉ "svc.cluster.local".toList := by decide

theorem svc_dot : '.' ∈ "svc.cluster.local".toList := by decide

theorem svcName_infix (s : SvcText) : "svc.cluster.local".toList <:+: svcName s :=
  ⟨s.name.toList ++ '.' :: (s.ns.name.toList ++ ['.']), [], by unfold svcName; simp⟩

theorem dots_inj {a b a' b' : List Char} (h : '.' ∉ a) (h' : '.' ∉ a') (e : a ++ '.' :: b = a' ++ '.' :: b') : a = a' ∧ b = b' := by
  have e1 := takeWhile_to (t := b) h
  have e2 := dropWhile_to (t := b) h
  rw [e, takeWhile_to h'] at e1
  rw [e, dropWhile_to h', List.cons.injEq] at e2
  exact ⟨e1.symm, e2.2.symm⟩

/-- What the code makes of the second part of a host. -/
def DnsReads (c : Container) (l : List SvcText) (d : List Char) (E : Place) : Prop :=
  d = ['*'] ∨ "svc.cluster.local".toList <:+: d ∧ (['*', '.'] <+: d ∨ ∃ s ∈ l, s.name.toList = d.takeWhile (· ≠ '.') ∧ Picks c s E) ∨
  ¬ "svc.cluster.local".toList <:+: d ∧ ∃ w, IsDns c E w ∧ NameSays d w

section
variable {rg : PodReg} {c : Container} {l : List SvcText}

theorem place_unique (hC : K8sParser.Cluster rg c) {p q : PeerInfo} (hp : p ∈ c) (hq : q ∈ c) {E : Place} (h1 : p.Holds E) (h2 : q.Holds E) : p = q :=
  holds_unique hC.uniq (disjoint_sets hC) hp hq h1 h2

/-- A place is in the namespace of its services. -/
theorem picks_space (hC : K8sParser.Cluster rg c) {s : SvcText} {E : Place} {n : List Char} (h : Picks c s E) : InSpace c E n ↔ s.ns.name.toList = n := by
  obtain ⟨_, p, hp, h1, ⟨m, hm, hmn⟩, _⟩ := h
  constructor
  · rintro ⟨q, hq, h2, m', hm', rfl⟩
    cases place_unique hC hp hq h1 h2
    rw [hm] at hm'; cases hm'
    rw [hmn]
  · rintro rfl
    exact ⟨p, hp, h1, m, hm, by rw [hmn]⟩

theorem picks_pair (hC : K8sParser.Cluster rg c) {s s' : SvcText} {E : Place} (h : Picks c s E) (h' : Picks c s' E) :
    s.ns.name.toList = s'.ns.name.toList :=
  (picks_space hC h).1 ((picks_space hC h').2 rfl)

theorem picks_not_dns (hC : K8sParser.Cluster rg c) {s : SvcText} {E : Place} (h : Picks c s E) (w : List Char) : ¬ IsDns c E w := by
  rintro ⟨q, hq, h2, hk, _⟩
  obtain ⟨_, p, hp, h1, ⟨m, hm, _⟩, _⟩ := h
  obtain rfl := place_unique hC hp hq h1 h2
  rcases hC.kind p hp with ⟨h, _⟩ | ⟨_, h⟩
  · rw [h] at hk; cases hk
  · rw [h] at hm; cases hm

/-- What the code makes of the second part of a host is what Istio says. -/
theorem dns_reads (hC : K8sParser.Cluster rg c) (hN : Named c l) {d : List Char} {N : List Char → Prop} (ht : DnsTame c l N d) {E : Place} {b : Prop} :
    ((∃ s ∈ l, N s.ns.name.toList ∧ Picks c s E) ∨ b ∧ ∃ w, IsDns c E w) ∧ DnsReads c l d E ↔
      (∃ s ∈ l, N s.ns.name.toList ∧ NameSays d (svcName s) ∧ Picks c s E) ∨ b ∧ ∃ w, IsDns c E w ∧ NameSays d w := by
  have noDns : ∀ {w}, IsDns c E w → Dotted w ∧ ¬ "svc.cluster.local".toList <:+: w := by
    rintro w ⟨p, hp, _, hk, k, he, rfl⟩
    exact hN.dns p hp hk k he
  by_cases hd1 : d = ['*']
  · have : ∀ w, NameSays d w := fun w => Or.inl hd1
    simp only [this, true_and, and_true]
    exact ⟨And.left, fun h => ⟨h, Or.inl hd1⟩⟩
  have wild : ∀ {s : List Char}, d = '*' :: '.' :: s → "svc.cluster.local".toList <:+: d → (∀ p ∈ c, p.kind ≠ .dns) →
      (∀ x ∈ l, N x.ns.name.toList → NameSays d (svcName x)) →
      (((∃ s ∈ l, N s.ns.name.toList ∧ Picks c s E) ∨ b ∧ ∃ w, IsDns c E w) ∧ DnsReads c l d E ↔
      (∃ s ∈ l, N s.ns.name.toList ∧ NameSays d (svcName s) ∧ Picks c s E) ∨ b ∧ ∃ w, IsDns c E w ∧ NameSays d w) := by
    intro s hd hi hk hx
    have no : ∀ w, ¬ IsDns c E w := by
      rintro w ⟨p, hp, _, h, _⟩
      exact hk p hp h
    have hr : DnsReads c l d E := Or.inr (Or.inl ⟨hi, Or.inl ⟨s, by rw [hd]; rfl⟩⟩)
    simp only [no, false_and, exists_false, and_false, or_false]
    constructor
    · rintro ⟨⟨x, h1, h2, h3⟩, _⟩
      exact ⟨x, h1, h2, hx x h1 h2, h3⟩
    · rintro ⟨x, h1, h2, _, h3⟩
      exact ⟨⟨x, h1, h2, h3⟩, hr⟩
  cases ht with
  | all => exact absurd rfl hd1
  | @service name n h1 h2 h3 h4 =>
    have hi : "svc.cluster.local".toList <:+: name ++ '.' :: (n ++ '.' :: "svc.cluster.local".toList) :=
      ⟨name ++ '.' :: (n ++ ['.']), [], by simp⟩
    have hst : '*' ∉ name ++ '.' :: (n ++ '.' :: "svc.cluster.local".toList) := by
      intro h
      rcases List.mem_append.1 h with h | h
      · exact h2 h
      · rcases List.mem_cons.1 h with h | h
        · revert h; decide
        · rcases List.mem_append.1 h with h | h
          · exact h3 h
          · rcases List.mem_cons.1 h with h | h
            · revert h; decide
            · exact svc_star h
    have hp : ¬ ['*', '.'] <+: name ++ '.' :: (n ++ '.' :: "svc.cluster.local".toList) := fun h =>
      hst (h.subset List.mem_cons_self)
    have hsays : ∀ {w}, NameSays (name ++ '.' :: (n ++ '.' :: "svc.cluster.local".toList)) w → name ++ '.' :: (n ++ '.' :: "svc.cluster.local".toList) = w := by
      rintro w (h | ⟨_, h⟩ | ⟨s, u, h, _⟩)
      · exact absurd h hd1
      · exact h
      · exact absurd (by rw [h]; exact List.mem_cons_self) hst
    have reads : DnsReads c l (name ++ '.' :: (n ++ '.' :: "svc.cluster.local".toList)) E ↔ ∃ s ∈ l, s.name.toList = name ∧ Picks c s E := by
      unfold DnsReads
      rw [takeWhile_to h1]
      simp only [hd1, hi, hp, true_and, not_true_eq_false, false_and, or_false, false_or]
    rw [reads]
    constructor
    · rintro ⟨h, s, hs, rfl, hps⟩
      rcases h with ⟨s', hs', hn', hps'⟩ | ⟨_, w, hw⟩
      · have hn : N s.ns.name.toList := by rw [picks_pair hC hps hps']; exact hn'
        left
        refine ⟨s, hs, hn, Or.inr (Or.inl ⟨hst, ?_⟩), hps⟩
        unfold svcName
        rw [h4 s hs rfl hn]
      · exact absurd hw (picks_not_dns hC hps w)
    · rintro (⟨s, hs, hn, hsay, hps⟩ | ⟨_, w, hw, hsay⟩)
      · refine ⟨Or.inl ⟨s, hs, hn, hps⟩, s, hs, ?_, hps⟩
        exact (dots_inj h1 (hN.svcs s hs).2.1 (hsays hsay)).1.symm
      · exact absurd (hsays hsay ▸ hi) (noDns hw).2
  | services hk =>
    refine wild rfl ⟨['*', '.'], [], by simp⟩ hk fun x hx _ => Or.inr (Or.inr ⟨_, x.name.toList ++ '.' :: x.ns.name.toList, rfl, by simp, ?_⟩)
    unfold svcName
    simp
  | @ofNs n hk _ h2 =>
    refine wild rfl ⟨'*' :: '.' :: (n ++ ['.']), [], by simp⟩ hk fun x hx hn => Or.inr (Or.inr ⟨_, x.name.toList, rfl, (hN.svcs x hx).1, ?_⟩)
    unfold svcName
    rw [h2 x hx hn]
  | external h1 h2 =>
    have reads : DnsReads c l d E ↔ ∃ w, IsDns c E w ∧ NameSays d w := by
      unfold DnsReads
      simp only [hd1, h1, false_and, not_false_eq_true, true_and, false_or]
    have no : ∀ s ∈ l, ¬ NameSays d (svcName s) := by
      rintro s _ (h | ⟨_, h⟩ | ⟨t, u, h, _, e⟩)
      · exact hd1 h
      · exact h1 (h ▸ svcName_infix s)
      · have h3 : "svc.cluster.local".toList <:+ svcName s := ⟨s.name.toList ++ '.' :: (s.ns.name.toList ++ ['.']), by unfold svcName; simp⟩
        have h4 : t <:+ svcName s := ⟨u ++ ['.'], by rw [e]; simp⟩
        rcases List.suffix_or_suffix_of_suffix h3 h4 with ⟨v, h5⟩ | h5
        · exact h1 ⟨'*' :: '.' :: v, [], by rw [h, ← h5]; simp⟩
        · exact h2 t h h5
    rw [reads]
    constructor
    · rintro ⟨⟨s, hs, _, hps⟩ | ⟨hb, _⟩, w, hw, hsay⟩
      · exact absurd hw (picks_not_dns hC hps w)
      · exact Or.inr ⟨hb, w, hw, hsay⟩
    · rintro (⟨s, hs, _, hsay, _⟩ | ⟨hb, w, hw, hsay⟩)
      · exact absurd hsay (no s hs)
      · exact ⟨Or.inr ⟨hb, w, hw⟩, w, hw, hsay⟩

end
end SidecarParser
end Verif
