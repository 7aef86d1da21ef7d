import Verif.IngressSvcProofs
/-!
Lemmas for C53: the hosts and paths of Ingress resources.
-/
namespace Verif
open ISet IpBlock PeerSet

namespace IngressParser
open Container CalicoParser IstioParser

/-! ### Elements of paths -/

theorem elems_ne (s : List Char) : elems s ≠ [] := by
  cases s with
  | nil => simp [elems]
  | cons a s =>
    unfold elems
    split
    · simp
    · split <;> simp

theorem elems_slash (s : List Char) : elems ('/' :: s) = [] :: elems s := by
  rw [elems, if_pos rfl]

theorem elems_letter {a : Char} (ha : a ≠ '/') (s : List Char) : ∃ e l, elems s = e :: l ∧ elems (a :: s) = (a :: e) :: l := by
  cases h : elems s with
  | nil => exact absurd h (elems_ne s)
  | cons e l => exact ⟨e, l, rfl, by rw [elems, if_neg ha, h]⟩

/-- The elements are the first ones exactly if the text is the same or continued by a slash. -/
theorem elems_prefix (p w : List Char) : elems p <+: elems w ↔ w = p ∨ ∃ r, w = p ++ '/' :: r := by
  induction p generalizing w with
  | nil =>
    cases w with
    | nil => simp
    | cons b w =>
      by_cases hb : b = '/'
      · subst hb
        rw [elems_slash]
        simp [elems]
      · obtain ⟨e, l, _, h2⟩ := elems_letter hb w
        rw [h2]
        simp [elems, hb]
  | cons a p ih =>
    by_cases ha : a = '/'
    · subst ha
      rw [elems_slash]
      cases w with
      | nil =>
        simp only [elems, List.cons_prefix_cons, true_and, List.prefix_nil, List.nil_eq, List.cons_append, reduceCtorEq, exists_false, or_false, iff_false]
        exact elems_ne p
      | cons b w =>
        by_cases hb : b = '/'
        · subst hb
          rw [elems_slash, List.cons_prefix_cons, ih]
          simp
        · obtain ⟨e, l, _, h2⟩ := elems_letter hb w
          rw [h2]
          simp [hb]
    · obtain ⟨e, l, h1, h2⟩ := elems_letter ha p
      rw [h2]
      cases w with
      | nil => simp [elems]
      | cons b w =>
        by_cases hb : b = '/'
        · subst hb
          rw [elems_slash]
          simp [Ne.symm ha]
        · obtain ⟨e', l', g1, g2⟩ := elems_letter hb w
          have := ih w
          rw [h1, g1, List.cons_prefix_cons] at this
          rw [g2, List.cons_prefix_cons]
          simp only [List.cons.injEq, List.cons_append]
          constructor
          · rintro ⟨⟨rfl, rfl⟩, h⟩
            rcases this.1 ⟨rfl, h⟩ with h | ⟨r, h⟩
            · exact Or.inl ⟨rfl, h⟩
            · exact Or.inr ⟨r, rfl, h⟩
          · rintro (⟨rfl, h⟩ | ⟨r, rfl, h⟩)
            · obtain ⟨h3, h4⟩ := this.2 (Or.inl h)
              exact ⟨⟨rfl, h3⟩, h4⟩
            · obtain ⟨h3, h4⟩ := this.2 (Or.inr ⟨r, h⟩)
              exact ⟨⟨rfl, h3⟩, h4⟩

theorem trim_eq (s : List Char) : trim s = dropSlash s := by
  rcases List.eq_nil_or_concat s with rfl | ⟨t, a, rfl⟩
  · rfl
  · unfold trim dropSlash
    rw [List.concat_eq_append, List.reverse_append, List.getLast?_append, List.dropLast_concat]
    show (match a :: t.reverse with | '/' :: r => r.reverse | _ => t ++ [a]) = _
    by_cases h : a = '/'
    · subst h; simp
    · rw [if_neg (by simpa using h)]
      split
      · rename_i e; simp only [List.cons.injEq] at e; exact absurd e.1 h
      · rfl

theorem dropSlash_last {s : List Char} (h : ¬ ['/', '/'] <:+ s) : dropSlash (dropSlash s) = dropSlash s := by
  rcases List.eq_nil_or_concat s with rfl | ⟨t, a, rfl⟩
  · rfl
  · rw [List.concat_eq_append] at h ⊢
    have e : dropSlash (t ++ [a]) = if a = '/' then t else t ++ [a] := by
      unfold dropSlash
      rw [List.getLast?_append, List.dropLast_concat]
      simp
    by_cases ha : a = '/'
    · subst ha
      rw [e, if_pos rfl]
      unfold dropSlash
      rw [if_neg]
      intro hl
      obtain ⟨t', rfl⟩ := List.getLast?_eq_some_iff.1 hl
      exact h ⟨t', by simp⟩
    · rw [e, if_neg ha, e, if_neg ha]

theorem dropSlash_sub {s : List Char} {a : Char} (h : a ∈ dropSlash s) : a ∈ s := by
  unfold dropSlash at h
  split at h
  · exact List.mem_of_mem_dropLast h
  · exact h

section
variable {V2 X2 : Type} {A2 : VAlg Dim V2 X2} {W2 : Dim → V2 → Prop} {dfa : List Char → V2} {word : X2 → List Char} {D : V2 → Prop}

/-! ### Hosts -/

/-- What the code makes of the host of a rule. -/
def HostRead (h w : List Char) : Prop :=
  '*' ∉ h ∧ w = h ∨ ∃ s u, h = '*' :: '.' :: s ∧ w = u ++ '.' :: s ∧ ∀ a ∈ u, WordChar a

theorem WordChar.letter {a : Char} (h : WordChar a) : Letter a := h.elim Or.inl fun h => Or.inr (Or.inl h)

theorem WordChar.not_dot {a : Char} (h : WordChar a) : a ≠ '.' := by
  rintro rfl
  revert h
  unfold WordChar
  decide

theorem takeWhile_dot {u s : List Char} (hu : '.' ∉ u) : (u ++ '.' :: s).takeWhile (· ≠ '.') = u := by
  rw [List.takeWhile_append_of_pos (fun a ha => by simp; rintro rfl; exact hu ha)]
  simp

theorem hostRead_iff {h w : List Char}
    (hl : ∀ s, h = '*' :: '.' :: s → w.takeWhile (· ≠ '.') ≠ [] ∧ ∀ a ∈ w.takeWhile (· ≠ '.'), WordChar a) : HostRead h w ↔ HostSays (some h) w := by
  refine or_congr_right ?_
  constructor
  · rintro ⟨s, u, rfl, rfl, hu⟩
    have hd : '.' ∉ u := fun h => (hu _ h).not_dot rfl
    have := (hl s rfl).1
    rw [takeWhile_dot hd] at this
    exact ⟨s, u, rfl, rfl, this, hd⟩
  · rintro ⟨s, u, rfl, rfl, _, hd⟩
    have := (hl s rfl).2
    rw [takeWhile_dot hd] at this
    exact ⟨s, u, rfl, rfl, this⟩

theorem hostValue_sem (hD : IngressLib A2 W2 dfa word D) {cls : Char → Bool} (hw : ∀ a, Letter a → a ∉ ['.', '/', '-'] → cls a = true) {h : List Char}
    (hl : HostLegal h) : ∃ v, hostValue A2 dfa cls (some h) = some (some v) ∧ D v ∧ (∀ x, A2.mem x v = true → A2.mem x (A2.dom .hosts) = true) ∧
      ∀ x, A2.mem x v = true ↔ HostRead h (word x) := by
  have hall : ∀ s : List Char, (∀ a ∈ s, Letter a ∨ a = '*') → (!s.all (fun a => cls a || decide (a ∈ ['*', '.', '/', '-']))) = false := by
    intro s hs
    rw [Bool.not_eq_false', List.all_eq_true]
    intro a ha
    rw [Bool.or_eq_true, decide_eq_true_eq]
    rcases hs a ha with h | rfl
    · by_cases hm : a ∈ ['.', '/', '-']
      · exact Or.inr (List.mem_cons_of_mem _ hm)
      · exact Or.inl (hw a h hm)
    · exact Or.inr (by decide)
  obtain ⟨hne, ⟨hstar, hlet⟩ | ⟨s, rfl, hstar, hlet⟩⟩ := hl
  · obtain ⟨d1, d2⟩ := hD.regex [h.map rxLetter] (by simp) (by simpa using letters_plain hlet)
    have et : List.intercalate ['|'] ([h.map rxLetter].map rxText) = replaceChar '.' "[.]".toList h := by
      rw [← letters_text]; simp [List.intercalate]
    rw [et] at d1 d2
    have mem : ∀ x, A2.mem x (dfa (replaceChar '.' "[.]".toList h)) = true ↔ word x = h := fun x => by
      rw [d2]
      simp only [List.mem_singleton, exists_eq_left, letters_lang]
    refine ⟨_, ?_, d1, fun x hx => ?_, fun x => ?_⟩
    · unfold hostValue
      dsimp only
      rw [if_neg (by rintro rfl; simp at hstar), if_neg (by rw [hall h fun a ha => Or.inl (hlet a ha)]; simp), if_neg (star_replace hstar)]
    · rw [hD.hosts, (mem x).1 hx]; exact hlet
    · rw [mem]
      constructor
      · exact fun h => Or.inl ⟨hstar, h⟩
      · rintro (h | ⟨s, u, rfl, _⟩)
        · exact h.2
        · simp at hstar
  · have hlet' : ∀ a ∈ '.' :: s, Letter a := fun a ha => by
      rcases List.mem_cons.1 ha with rfl | ha
      · exact Or.inr (Or.inr (Or.inl rfl))
      · exact hlet a ha
    have hstar' : '*' ∉ '.' :: s := fun h => by
      rcases List.mem_cons.1 h with h | h
      · cases h
      · exact hstar h
    obtain ⟨d1, d2⟩ := hD.wild (('.' :: s).map rxLetter) (letters_plain hlet')
    rw [letters_text] at d1 d2
    have e1 : replaceChar '.' "[.]".toList ('*' :: '.' :: s) = '*' :: replaceChar '.' "[.]".toList ('.' :: s) := rfl
    have mem : ∀ x, A2.mem x (dfa ("[\\w]*".toList ++ replaceChar '.' "[.]".toList ('.' :: s))) = true ↔
        ∃ u, word x = u ++ '.' :: s ∧ ∀ a ∈ u, WordChar a := fun x => by
      rw [d2]
      simp only [letters_lang]
      constructor
      · rintro ⟨u, v, h1, h2, rfl⟩; exact ⟨u, h1, h2⟩
      · rintro ⟨u, h1, h2⟩; exact ⟨u, _, h1, h2, rfl⟩
    refine ⟨_, ?_, d1, fun x hx => ?_, fun x => ?_⟩
    · unfold hostValue
      dsimp only
      rw [if_neg (by simp), if_neg, e1, if_pos List.mem_cons_self, if_neg (by simp)]
      · rw [show ('*' :: replaceChar '.' "[.]".toList ('.' :: s)) = ['*'] ++ replaceChar '.' "[.]".toList ('.' :: s) from rfl, replace_append,
          replace_none (star_replace hstar')]
        rfl
      · rw [hall ('*' :: '.' :: s)]
        · simp
        · intro a ha
          rcases List.mem_cons.1 ha with rfl | ha
          · exact Or.inr rfl
          · exact Or.inl (hlet' a ha)
    · obtain ⟨u, e, hu⟩ := (mem x).1 hx
      rw [hD.hosts, e]
      intro a ha
      rcases List.mem_append.1 ha with ha | ha
      · exact (hu a ha).letter
      · exact hlet' a ha
    · rw [mem]
      constructor
      · rintro ⟨u, h1, h2⟩
        exact Or.inr ⟨s, u, rfl, h1, h2⟩
      · rintro (h | ⟨s', u, e, h1, h2⟩)
        · exact absurd List.mem_cons_self h.1
        · cases e
          exact ⟨u, h1, h2⟩

/-! ### Paths -/

/-- The parsed path has the text of the path. -/
def Reads (p : PathText) (q : ParsedPath) : Prop :=
  q.exact = decide (p.type = .exact) ∧ q.text = if p.type = .exact then p.path.getD [] else dropSlash (p.path.getD [])

theorem Reads.norm {p : PathText} {q : ParsedPath} (h : Reads p q) : q.text = p.norm := by
  rw [h.2]
  unfold PathText.norm
  rw [trim_eq]

theorem slash_letter : Letter '/' := Or.inr (Or.inr (Or.inr (Or.inl rfl)))

theorem opt_text : "(/".toList ++ (alphabet ++ "*)?".toList) = "(/[.\\w/\\-]*)?".toList := by decide

theorem pathDfa_sem (hD : IngressLib A2 W2 dfa word D) {p : PathText} (hp : p.Tame) {q : ParsedPath} (hq : Reads p q) :
    D (pathDfa A2 dfa q) ∧ ∀ x, A2.mem x (pathDfa A2 dfa q) = true ↔ A2.mem x (A2.dom .paths) = true ∧ PathSays p (word x) := by
  obtain ⟨t, e, hlet, hend⟩ := hp
  have hn := hq.norm
  obtain ⟨q1, q2⟩ := hq
  have hlet' : ∀ a ∈ '/' :: t, Letter a ∧ a ≠ '.' := fun a ha => by
    rcases List.mem_cons.1 ha with rfl | ha
    · exact ⟨slash_letter, by decide⟩
    · exact hlet a ha
  rw [e, Option.getD_some] at q2
  unfold pathDfa PathSays
  by_cases hx : p.type = .exact
  · rw [if_pos hx] at q2
    simp only [if_pos hx]
    rw [if_pos (by rw [q1, hx]; rfl), q2, e]
    obtain ⟨d1, d2⟩ := hD.regex [('/' :: t).map rxLetter] (by simp) (by simpa using letters_plain fun a ha => (hlet' a ha).1)
    have et : List.intercalate ['|'] ([('/' :: t).map rxLetter].map rxText) = '/' :: t := by
      rw [List.map_singleton, letters_text, replace_none (fun h => (hlet' _ h).2 rfl)]
      simp [List.intercalate]
    rw [et] at d1 d2
    refine ⟨d1, fun x => ?_⟩
    rw [d2, hD.paths]
    simp only [List.mem_singleton, exists_eq_left, letters_lang, Option.some.injEq]
    constructor
    · exact fun h => ⟨⟨t, h, fun a ha => (hlet a ha).1⟩, h.symm⟩
    · exact fun h => h.2.symm
  · rw [if_neg hx] at q2
    simp only [if_neg hx]
    have hend := hend.resolve_left hx
    rw [if_neg (by rw [q1]; simpa using hx), e]
    have hsays : ∀ w, (∃ s, some ('/' :: t) = some s ∧ elems (trim s) <+: elems w) ↔ w = q.text ∨ ∃ r, w = q.text ++ '/' :: r := by
      intro w
      rw [q2, ← elems_prefix, ← trim_eq]
      simp only [Option.some.injEq, exists_eq_left']
    have hxe : q.exact = false := by rw [q1]; simpa using hx
    by_cases h0 : q.text = []
    · have hk : q.key = ['/'] := by unfold ParsedPath.key; rw [hxe, h0]; rfl
      unfold prefixDfa
      rw [hk, if_pos rfl]
      refine ⟨hD.dom _ rfl, fun x => ?_⟩
      rw [hsays, h0]
      constructor
      · intro h
        obtain ⟨r, hr, _⟩ := (hD.paths x).1 h
        exact ⟨h, Or.inr ⟨r, hr⟩⟩
      · exact And.left
    · have hds : dropSlash q.text = q.text := by rw [q2]; exact dropSlash_last hend
      have hk : q.key = q.text := by
        unfold ParsedPath.key
        rw [hxe, if_neg (by simp), if_neg (by simpa using h0)]
      unfold prefixDfa
      rw [hk, if_neg (by intro h; rw [h] at hds; revert hds; decide), hds, opt_text]
      have hlt : ∀ a ∈ q.text, Letter a ∧ a ≠ '.' := fun a ha => hlet' a (dropSlash_sub (by rw [← q2]; exact ha))
      obtain ⟨d1, d2⟩ := hD.opt q.text hlt
      refine ⟨d1, fun x => ?_⟩
      have hhead : ∃ t', q.text = '/' :: t' := by
        have : ∃ z, '/' :: t = q.text ++ z := by
          rw [q2]
          unfold dropSlash
          split
          · exact ⟨_, (List.dropLast_append_getLast (by simp)).symm⟩
          · exact ⟨[], by simp⟩
        obtain ⟨z, hz⟩ := this
        cases hqt : q.text with
        | nil => exact absurd hqt h0
        | cons a t' =>
          rw [hqt] at hz
          simp only [List.cons_append, List.cons.injEq] at hz
          exact ⟨t', by rw [hz.1]⟩
      obtain ⟨t', ht'⟩ := hhead
      rw [d2, hsays, hD.paths]
      constructor
      · rintro (h | ⟨r, h, hr⟩)
        · refine ⟨⟨t', by rw [h, ht'], fun a ha => (hlt a (by rw [ht']; exact List.mem_cons_of_mem _ ha)).1⟩, Or.inl h⟩
        · refine ⟨⟨t' ++ '/' :: r, by rw [h, ht']; rfl, fun a ha => ?_⟩, Or.inr ⟨r, h⟩⟩
          rcases List.mem_append.1 ha with ha | ha
          · exact (hlt a (by rw [ht']; exact List.mem_cons_of_mem _ ha)).1
          · rcases List.mem_cons.1 ha with rfl | ha
            · exact slash_letter
            · exact hr a ha
      · rintro ⟨⟨u, hu, hul⟩, h | ⟨r, h⟩⟩
        · exact Or.inl h
        · refine Or.inr ⟨r, h, fun a ha => ?_⟩
          have : a ∈ '/' :: u := by rw [← hu, h]; simp [ha]
          rcases List.mem_cons.1 this with rfl | h'
          · exact slash_letter
          · exact hul a h'

/-! ### The path that decides -/

theorem says_prefix {p : PathText} (hp : p.Tame) {w : List Char} (h : PathSays p w) : p.norm <+: w ∧ (p.type = .exact → p.norm = w) := by
  unfold PathSays at h
  unfold PathText.norm
  by_cases hx : p.type = .exact
  · rw [if_pos hx] at h ⊢
    rw [h]
    exact ⟨List.prefix_rfl, fun _ => rfl⟩
  · rw [if_neg hx] at h ⊢
    obtain ⟨s, e, h⟩ := h
    rw [e]
    refine ⟨?_, fun h => absurd h hx⟩
    rcases (elems_prefix _ _).1 h with h | ⟨r, h⟩
    · rw [h]; exact List.prefix_rfl
    · rw [h]; exact List.prefix_append _ _

/-- The text that the paths are compared by. -/
def PathText.key (p : PathText) : List Char := if p.type = .exact then p.norm else if p.norm = [] then ['/'] else p.norm

theorem Reads.key {p : PathText} {q : ParsedPath} (h : Reads p q) : q.key = p.key := by
  unfold ParsedPath.key PathText.key
  rw [h.norm, h.1]
  by_cases hx : p.type = .exact
  · simp [hx]
  · simp [hx]

/-- The texts of prefixes are empty or longer than a slash, and all texts are empty or begin with one. -/
theorem norm_shape {p : PathText} (hp : p.Tame) : (p.norm = [] ∧ p.type ≠ .exact ∨ ∃ t, p.norm = '/' :: t) ∧ (p.type ≠ .exact → p.norm ≠ ['/']) := by
  obtain ⟨t, e, hlet, hend⟩ := hp
  unfold PathText.norm
  rw [e, Option.getD_some, trim_eq]
  by_cases hx : p.type = .exact
  · rw [if_pos hx]
    exact ⟨Or.inr ⟨t, rfl⟩, fun h => absurd hx h⟩
  · rw [if_neg hx]
    have hend := hend.resolve_left hx
    refine ⟨?_, fun _ h => ?_⟩
    · cases ht : t with
      | nil => exact Or.inl ⟨rfl, hx⟩
      | cons a t' =>
        right
        unfold dropSlash
        split
        · exact ⟨(a :: t').dropLast, rfl⟩
        · exact ⟨_, rfl⟩
    · have := dropSlash_last hend
      rw [h] at this
      revert this; decide

/-- For two paths that match: the text of the first is the beginning of the second's, unless the second is weaker. -/
theorem key_prefix {p p' : PathText} (hp : p.Tame) (hp' : p'.Tame) (hx : p.type ≠ .exact) (hd : ¬ (p.norm = p'.norm ∧ (p.type = .exact ↔ p'.type = .exact)))
    {w : List Char} (h : PathSays p w) (h' : PathSays p' w) : p.key <+: p'.key ↔ ¬ Weaker p' p := by
  obtain ⟨s1, s2⟩ := norm_shape hp
  obtain ⟨s1', s2'⟩ := norm_shape hp'
  have n1 := (says_prefix hp h).1
  have n2 := (says_prefix hp' h').1
  have hw : Weaker p' p ↔ p'.norm.length < p.norm.length := by
    unfold Weaker
    exact ⟨fun g => g.elim id fun g => absurd g.2.2 hx, Or.inl⟩
  have hkey : p.key = if p.norm = [] then ['/'] else p.norm := by
    unfold PathText.key; rw [if_neg hx]
  have hk' : ∃ t, p'.key = '/' :: t := by
    unfold PathText.key
    rcases s1' with ⟨g1, g2⟩ | ⟨t, ht⟩
    · rw [if_neg g2, if_pos g1]; exact ⟨[], rfl⟩
    · rw [ht]; simp
  rw [hw, hkey, Nat.not_lt]
  constructor
  · intro g
    by_cases h0 : p.norm = []
    · rw [h0]; simp
    · rw [if_neg h0] at g
      by_cases h0' : p'.key = p'.norm
      · rw [← h0']; exact g.length_le
      · exfalso
        have : p'.key = ['/'] := by
          unfold PathText.key at h0' ⊢
          split
          · rename_i g'; rw [if_pos g'] at h0'; exact absurd rfl h0'
          · rename_i g'
            rw [if_neg g'] at h0'
            split
            · rfl
            · rename_i g''; rw [if_neg g''] at h0'; exact absurd rfl h0'
        rw [this] at g
        obtain ⟨z, hz⟩ := g
        cases hn : p.norm with
        | nil => exact h0 hn
        | cons a t =>
          rw [hn] at hz
          simp only [List.cons_append, List.cons.injEq, List.append_eq_nil_iff] at hz
          exact s2 hx (by rw [hn, hz.1, hz.2.1])
  · intro g
    by_cases h0 : p.norm = []
    · rw [if_pos h0]
      obtain ⟨t, ht⟩ := hk'
      rw [ht]; exact ⟨t, rfl⟩
    · rw [if_neg h0]
      have hpre := List.prefix_of_prefix_length_le n1 n2 g
      have : p'.key = p'.norm := by
        unfold PathText.key
        split
        · rfl
        · rw [if_neg]
          intro h
          rw [h] at hpre
          exact h0 (List.prefix_nil.1 hpre)
      rw [this]; exact hpre

/-- There is a path that decides. -/
theorem wins_exists {l : List PathText} (ht : ∀ p ∈ l, p.Tame) (hd : l.Pairwise fun p p' => ¬ (p.norm = p'.norm ∧ (p.type = .exact ↔ p'.type = .exact)))
    {w : List Char} {p0 : PathText} (hp0 : p0 ∈ l) (h0 : PathSays p0 w) : ∃ p, Wins l p w := by
  classical
  let m : PathText → Nat := fun p => 2 * p.norm.length + if p.type = .exact then 1 else 0
  have bound : ∀ p ∈ l, PathSays p w → m p ≤ 2 * w.length + 1 := fun p hp h => by
    have := ((says_prefix (ht p hp) h).1).length_le
    dsimp only [m]
    split <;> omega
  obtain ⟨p, hp, hpw, hmax⟩ : ∃ p ∈ l, PathSays p w ∧ ∀ p' ∈ l, PathSays p' w → m p' ≤ m p := by
    have key : ∀ k p, p ∈ l → PathSays p w → 2 * w.length + 1 - m p ≤ k → ∃ p ∈ l, PathSays p w ∧ ∀ p' ∈ l, PathSays p' w → m p' ≤ m p := by
      intro k
      induction k with
      | zero =>
        intro p hp h hk
        exact ⟨p, hp, h, fun p' hp' h' => by have := bound p' hp' h'; omega⟩
      | succ k ih =>
        intro p hp h hk
        by_cases hmax : ∀ p' ∈ l, PathSays p' w → m p' ≤ m p
        · exact ⟨p, hp, h, hmax⟩
        · push Not at hmax
          obtain ⟨p', hp', h', hlt⟩ := hmax
          exact ih p' hp' h' (by have := bound p' hp' h'; omega)
    exact key _ p0 hp0 h0 (Nat.le_refl _)
  refine ⟨p, hp, hpw, fun p' hp' h' => ?_⟩
  have hle := hmax p' hp' h'
  by_cases hlt : p'.norm.length < p.norm.length
  · exact Or.inr (Or.inl hlt)
  · dsimp only [m] at hle
    have hlen : p'.norm.length = p.norm.length := by
      split at hle <;> split at hle <;> omega
    have hnorm : p'.norm = p.norm := by
      have n1 := (says_prefix (ht p hp) hpw).1
      have n2 := (says_prefix (ht p' hp') h').1
      exact (List.prefix_of_prefix_length_le n2 n1 (by omega)).eq_of_length hlen
    by_cases hx : p'.type = .exact
    · have hx' : p.type = .exact := by
        by_contra hx'
        rw [if_pos hx, if_neg hx'] at hle; omega
      exact Or.inl (pairwise_eq (R := fun p p' : PathText => p.norm = p'.norm ∧ (p.type = .exact ↔ p'.type = .exact))
        (fun _ _ h => ⟨h.1.symm, h.2.symm⟩) hd hp' hp ⟨hnorm, by simp [hx, hx']⟩)
    · by_cases hx' : p.type = .exact
      · exact Or.inr (Or.inr ⟨hlen, hx, hx'⟩)
      · exact Or.inl (pairwise_eq (R := fun p p' : PathText => p.norm = p'.norm ∧ (p.type = .exact ↔ p'.type = .exact))
          (fun _ _ h => ⟨h.1.symm, h.2.symm⟩) hd hp' hp ⟨hnorm, by simp [hx, hx']⟩)

theorem foldl_sub (hD : IngressLib A2 W2 dfa word D) {α : Type} (l : List α) (f : α → Prop) [DecidablePred f] (g : α → V2) (hg : ∀ y ∈ l, D (g y)) {v : V2} (hv : D v) :
    D (l.foldl (fun v y => if f y then A2.sub v (g y) else v) v) ∧
      ∀ x, A2.mem x (l.foldl (fun v y => if f y then A2.sub v (g y) else v) v) = true ↔
        A2.mem x v = true ∧ ∀ y ∈ l, f y → ¬ A2.mem x (g y) = true := by
  induction l generalizing v with
  | nil => exact ⟨hv, by simp⟩
  | cons y l ih =>
    rw [List.foldl_cons]
    by_cases h : f y
    · rw [if_pos h]
      obtain ⟨s1, s2⟩ := hD.sub hv (hg y List.mem_cons_self)
      obtain ⟨d1, d2⟩ := ih (fun y hy => hg y (List.mem_cons_of_mem _ hy)) s1
      refine ⟨d1, fun x => ?_⟩
      rw [d2, s2, Bool.and_eq_true, Bool.not_eq_true', ← Bool.not_eq_true, and_assoc]
      simp only [List.mem_cons, forall_eq_or_imp, h, forall_const]
    · rw [if_neg h]
      obtain ⟨d1, d2⟩ := ih (fun y hy => hg y (List.mem_cons_of_mem _ hy)) hv
      refine ⟨d1, fun x => ?_⟩
      rw [d2]
      simp only [List.mem_cons, forall_eq_or_imp, h, false_implies, true_and]

/-- The automata of the paths of a rule: each has the words that it decides about. -/
theorem segregate_sem (hD : IngressLib A2 W2 dfa word D) {l : List PathText} (ht : ∀ p ∈ l, p.Tame)
    (hd : l.Pairwise fun p p' => ¬ (p.norm = p'.norm ∧ (p.type = .exact ↔ p'.type = .exact))) {pp : PathText → ParsedPath} (hpp : ∀ p ∈ l, Reads p (pp p)) :
    (∀ e ∈ segregate A2 dfa (l.map pp), ∃ p ∈ l, e.1 = pp p ∧ D e.2 ∧ ∀ x, A2.mem x e.2 = true ↔ A2.mem x (A2.dom .paths) = true ∧ Wins l p (word x)) ∧
      ∀ p ∈ l, ∃ e ∈ segregate A2 dfa (l.map pp), e.1 = pp p ∧ ∀ x, A2.mem x e.2 = true ↔ A2.mem x (A2.dom .paths) = true ∧ Wins l p (word x) := by
  have differ : ∀ {i j : Nat} {p p' : PathText}, l[i]? = some p → l[j]? = some p' → i ≠ j → ¬ (p.norm = p'.norm ∧ (p.type = .exact ↔ p'.type = .exact)) := by
    intro i j p p' hi hj hij
    obtain ⟨hi', rfl⟩ := List.getElem?_eq_some_iff.1 hi
    obtain ⟨hj', rfl⟩ := List.getElem?_eq_some_iff.1 hj
    rw [List.pairwise_iff_getElem] at hd
    rcases Nat.lt_or_gt_of_ne hij with h | h
    · exact hd i j hi' hj' h
    · intro g
      exact hd j i hj' hi' h ⟨g.1.symm, g.2.symm⟩
  have value : ∀ i p, l[i]? = some p →
      let v := if (pp p).exact then pathDfa A2 dfa (pp p)
        else (l.map pp).zipIdx.foldl (fun v y => if y.2 ≠ i ∧ (pp p).key <+: y.1.key then A2.sub v (pathDfa A2 dfa y.1) else v) (pathDfa A2 dfa (pp p))
      D v ∧ ∀ x, A2.mem x v = true ↔ A2.mem x (A2.dom .paths) = true ∧ Wins l p (word x) := by
    intro i p hi
    have hp := List.mem_of_getElem? hi
    obtain ⟨d1, d2⟩ := pathDfa_sem hD (ht p hp) (hpp p hp)
    by_cases hx : p.type = .exact
    · dsimp only
      rw [if_pos (by rw [(hpp p hp).1]; simpa using hx)]
      refine ⟨d1, fun x => (d2 x).trans (and_congr_right fun _ => ?_)⟩
      constructor
      · intro h
        refine ⟨hp, h, fun p' hp' h' => ?_⟩
        have g1 := (says_prefix (ht p hp) h).2 hx
        obtain ⟨g2, g3⟩ := says_prefix (ht p' hp') h'
        by_cases hx' : p'.type = .exact
        · exact Or.inl (pairwise_eq (R := fun p p' : PathText => p.norm = p'.norm ∧ (p.type = .exact ↔ p'.type = .exact))
            (fun _ _ h => ⟨h.1.symm, h.2.symm⟩) hd hp' hp ⟨(g3 hx').trans g1.symm, by simp [hx, hx']⟩)
        · right
          rw [← g1] at g2
          rcases Nat.lt_or_eq_of_le g2.length_le with h | h
          · exact Or.inl h
          · exact Or.inr ⟨h, hx', hx⟩
      · exact fun h => h.2.1
    · dsimp only
      rw [if_neg (by rw [(hpp p hp).1]; simpa using hx)]
      have hz : ∀ y ∈ (l.map pp).zipIdx, ∃ p', l[y.2]? = some p' ∧ y.1 = pp p' := by
        intro y hy
        have := List.mem_zipIdx_iff_getElem?.1 hy
        rw [List.getElem?_map] at this
        obtain ⟨p', h1, h2⟩ := Option.map_eq_some_iff.1 this
        exact ⟨p', h1, h2.symm⟩
      obtain ⟨f1, f2⟩ := foldl_sub hD (l.map pp).zipIdx (fun y => y.2 ≠ i ∧ (pp p).key <+: y.1.key) (fun y => pathDfa A2 dfa y.1) (fun y hy => by
        obtain ⟨p', h1, h2⟩ := hz y hy
        have hp' := List.mem_of_getElem? h1
        rw [h2]
        exact (pathDfa_sem hD (ht p' hp') (hpp p' hp')).1) d1
      refine ⟨f1, fun x => (f2 x).trans ?_⟩
      rw [d2, and_assoc]
      refine and_congr_right fun hdom => ?_
      constructor
      · rintro ⟨h1, h2⟩
        refine ⟨hp, h1, fun p' hp' h' => ?_⟩
        obtain ⟨j, hj⟩ := List.mem_iff_getElem?.1 hp'
        by_cases hij : j = i
        · subst hij
          rw [hi] at hj; cases hj; exact Or.inl rfl
        · right
          by_contra hwk
          have := (key_prefix (ht p hp) (ht p' hp') hx (differ hi hj (Ne.symm hij)) h1 h').2 hwk
          refine h2 (pp p', j) (List.mem_zipIdx_iff_getElem?.2 (by rw [List.getElem?_map, hj]; rfl)) ⟨hij, ?_⟩ ?_
          · rw [(hpp p hp).key, (hpp p' hp').key]; exact this
          · exact ((pathDfa_sem hD (ht p' hp') (hpp p' hp')).2 x).2 ⟨hdom, h'⟩
      · rintro ⟨_, h1, h2⟩
        refine ⟨h1, fun y hy ⟨hij, hk⟩ hm => ?_⟩
        obtain ⟨p', hj, e⟩ := hz y hy
        have hp' := List.mem_of_getElem? hj
        rw [e] at hm hk
        have h' := (((pathDfa_sem hD (ht p' hp') (hpp p' hp')).2 x).1 hm).2
        rw [(hpp p hp).key, (hpp p' hp').key] at hk
        have hdf := differ hi hj (Ne.symm hij)
        rcases h2 p' hp' h' with rfl | h2
        · exact hdf ⟨rfl, Iff.rfl⟩
        · exact (key_prefix (ht p hp) (ht p' hp') hx hdf h1 h').1 hk h2
  constructor
  · intro e he
    obtain ⟨y, hy, rfl⟩ := List.mem_map.1 he
    have := List.mem_zipIdx_iff_getElem?.1 hy
    rw [List.getElem?_map] at this
    obtain ⟨p, h1, h2⟩ := Option.map_eq_some_iff.1 this
    obtain ⟨g1, g2⟩ := value y.2 p h1
    rw [h2] at g1 g2
    exact ⟨p, List.mem_of_getElem? h1, h2.symm, g1, g2⟩
  · intro p hp
    obtain ⟨i, hi⟩ := List.mem_iff_getElem?.1 hp
    obtain ⟨g1, g2⟩ := value i p hi
    exact ⟨_, List.mem_map.2 ⟨(pp p, i), List.mem_zipIdx_iff_getElem?.2 (by rw [List.getElem?_map, hi]; rfl), rfl⟩, rfl, g2⟩

end
end IngressParser
end Verif
