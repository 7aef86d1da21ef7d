import Verif.PropsCidr
import Verif.PropsRepr
/-!
Property theorems C64, second part: the texts of addresses and of blocks of addresses.

The specification is the notation of RFC 4291 (and dotted decimal): what a text means, as a relation between texts and addresses,
and between texts and sets of addresses.
-/
namespace Verif

/-! ### What texts mean -/

/-- The number with the given groups of sixteen bits. -/
def groupsValue (l : List Nat) : Nat := l.foldl (fun v g => v * 65536 + g) 0

/-- Dotted decimal. -/
def Dotted (t : List Char) (v : Nat) : Prop :=
  ∃ p q r s, p < 256 ∧ q < 256 ∧ r < 256 ∧ s < 256 ∧ v = ((p * 256 + q) * 256 + r) * 256 + s ∧
    t = Nat.toDigits 10 p ++ '.' :: Nat.toDigits 10 q ++ '.' :: Nat.toDigits 10 r ++ '.' :: Nat.toDigits 10 s

/-- Groups of hexadecimal digits: eight of them, or less, where `::` stands for one or more groups of zeros. -/
def Groups (t : List Char) (v : Nat) : Prop :=
  (∃ l : List Nat, l.length = 8 ∧ (∀ g ∈ l, g < 65536) ∧ v = groupsValue l ∧ t = joinText ':' (l.map (Nat.toDigits 16))) ∨
  (∃ (l r : List Nat) (n : Nat), l.length + (n + 1) + r.length = 8 ∧ (∀ g ∈ l ++ r, g < 65536) ∧
    v = groupsValue (l ++ List.replicate (n + 1) 0 ++ r) ∧
    t = joinText ':' (l.map (Nat.toDigits 16)) ++ ':' :: ':' :: joinText ':' (r.map (Nat.toDigits 16)))

/-- The text is one of the address. -/
def Reads (t : List Char) (a : Ip) : Prop := if a.six then Groups t a.val else Dotted t a.val

/-- A part of the text of a block: an address, a range or a network, and the addresses in it. -/
inductive Piece : List Char → (Ip → Prop) → Prop
  | one {t a} : Reads t a → Piece t (· = a)
  | range {t u a b} : Reads t a → Reads u b → Piece (t ++ '-' :: u) (fun x => a.six = x.six ∧ b.six = x.six ∧ a.val ≤ x.val ∧ x.val ≤ b.val)
  | net {t} (c : IpBlock.Cidr) : Reads t c.addr → Piece (t ++ '/' :: Nat.toDigits 10 c.len) c.Has

/-- The text of a block: its parts with commas, or `Empty`. -/
def BlockText (t : List Char) (S : Ip → Prop) : Prop :=
  (t = "Empty".toList ∧ ∀ x, ¬ S x) ∨
  ∃ ps : List (List Char × (Ip → Prop)), t = joinText ',' (ps.map (·.1)) ∧ (∀ p ∈ ps, Piece p.1 p.2) ∧ ∀ x, S x ↔ ∃ p ∈ ps, p.2 x

/-! ### Digits and joined texts -/

theorem digitChar_inj {a b : Nat} (ha : a < 16) (hb : b < 16) (h : a.digitChar = b.digitChar) : a = b := by
  have : ∀ a, a < 16 → ∀ b, b < 16 → a.digitChar = b.digitChar → a = b := by decide
  exact this a ha b hb h

theorem hex_inj : ∀ (n a b : Nat), a ≤ n → Nat.toDigits 16 a = Nat.toDigits 16 b → a = b := by
  intro n
  induction n with
  | zero =>
    intro a b ha h
    rw [Nat.toDigits_eq_if (by decide), Nat.toDigits_eq_if (n := b) (by decide)] at h
    rw [if_pos (by omega)] at h
    split at h
    · exact digitChar_inj (by omega) (by omega) (by simpa using h)
    · have := congrArg List.length h
      have h2 := Nat.length_toDigits_pos (b := 16) (n := b / 16)
      simp only [List.length_append, List.length_singleton] at this
      omega
  | succ n ih =>
    intro a b ha h
    rw [Nat.toDigits_eq_if (by decide), Nat.toDigits_eq_if (n := b) (by decide)] at h
    have h1 := Nat.length_toDigits_pos (b := 16) (n := a / 16)
    have h2 := Nat.length_toDigits_pos (b := 16) (n := b / 16)
    split at h <;> split at h
    · exact digitChar_inj (by omega) (by omega) (by simpa using h)
    · have := congrArg List.length h
      simp only [List.length_append, List.length_singleton] at this
      omega
    · have := congrArg List.length h
      simp only [List.length_append, List.length_singleton] at this
      omega
    · obtain ⟨h3, h4⟩ := List.append_inj' h rfl
      have h5 := ih _ _ (by omega) h3
      have h6 := digitChar_inj (Nat.mod_lt _ (by decide)) (Nat.mod_lt _ (by decide)) (List.singleton_injective h4)
      omega

theorem hex_chars : ∀ (n a : Nat), a ≤ n → ∀ c ∈ Nat.toDigits 16 a, ∃ d, d < 16 ∧ c = d.digitChar := by
  intro n
  induction n with
  | zero =>
    intro a ha c hc
    rw [Nat.toDigits_eq_if (by decide), if_pos (by omega)] at hc
    exact ⟨a, by omega, by simpa using hc⟩
  | succ n ih =>
    intro a ha c hc
    rw [Nat.toDigits_eq_if (by decide)] at hc
    split at hc
    · exact ⟨a, by omega, by simpa using hc⟩
    · rcases List.mem_append.1 hc with h | h
      · exact ih _ (by omega) c h
      · exact ⟨a % 16, Nat.mod_lt _ (by decide), by simpa using h⟩

/-- The characters of the texts of addresses. -/
def addrChars : List Char := ['0', '1', '2', '3', '4', '5', '6', '7', '8', '9', 'a', 'b', 'c', 'd', 'e', 'f']

theorem hex_mem {a : Nat} {c : Char} (h : c ∈ Nat.toDigits 16 a) : c ∈ addrChars := by
  obtain ⟨d, hd, rfl⟩ := hex_chars a a (Nat.le_refl _) c h
  have : ∀ d, d < 16 → d.digitChar ∈ addrChars := by decide
  exact this d hd

theorem dec_mem {a : Nat} {c : Char} (h : c ∈ Nat.toDigits 10 a) : c ∈ addrChars := by
  have h1 := Nat.isDigit_of_mem_toDigits (by decide) (by decide) h
  simp only [Char.isDigit, ge_iff_le, Bool.and_eq_true, decide_eq_true_eq] at h1
  have h2 : 48 ≤ c.toNat ∧ c.toNat ≤ 57 := ⟨h1.1, h1.2⟩
  have h3 : c = Char.ofNat c.toNat := by simp
  rw [h3]
  obtain ⟨l, u⟩ := h2
  generalize c.toNat = n at *
  have : ∀ n, n ≤ 57 → 48 ≤ n → Char.ofNat n ∈ addrChars := by decide
  exact this n u l

theorem dec_inj {a b : Nat} (h : Nat.toDigits 10 a = Nat.toDigits 10 b) : a = b := by
  have := congrArg (fun l => Nat.ofDigitChars 10 l 0) h
  simpa using this

theorem sep_inj {α : Type} {s : α} : ∀ {a b c d : List α}, s ∉ a → s ∉ c → a ++ s :: b = c ++ s :: d → a = c ∧ b = d := by
  intro a
  induction a with
  | nil =>
    intro b c d _ hc h
    cases c with
    | nil => simpa using h
    | cons x c => simp only [List.nil_append, List.cons_append, List.cons.injEq] at h; exact absurd (by simp [h.1]) hc
  | cons y a ih =>
    intro b c d ha hc h
    cases c with
    | nil => simp only [List.nil_append, List.cons_append, List.cons.injEq] at h; exact absurd (by simp [h.1]) ha
    | cons x c =>
      simp only [List.cons_append, List.cons.injEq] at h
      obtain ⟨h1, h2⟩ := ih (fun hh => ha (List.mem_cons_of_mem _ hh)) (fun hh => hc (List.mem_cons_of_mem _ hh)) h.2
      exact ⟨by rw [h.1, h1], h2⟩

/-- Joined texts with empty parts. -/
theorem join_inj {sep : Char} : ∀ {l m : List (List Char)}, l ≠ [] → m ≠ [] → (∀ x ∈ l, sep ∉ x) → (∀ x ∈ m, sep ∉ x) →
    joinText sep l = joinText sep m → l = m := by
  intro l
  induction l with
  | nil => intro m h; exact absurd rfl h
  | cons x l ih =>
    intro m _ hm hl hm' h
    cases m with
    | nil => exact absurd rfl hm
    | cons y m =>
      cases l with
      | nil =>
        cases m with
        | nil => simpa [joinText] using h
        | cons z m =>
          simp only [joinText] at h
          exact absurd (by rw [h]; simp) (hl x (by simp))
      | cons w l =>
        cases m with
        | nil =>
          simp only [joinText] at h
          exact absurd (by rw [← h]; simp) (hm' y (by simp))
        | cons z m =>
          simp only [joinText] at h
          obtain ⟨h1, h2⟩ := sep_inj (hl x (by simp)) (hm' y (by simp)) h
          have := ih (m := z :: m) (by simp) (by simp) (fun a ha => hl a (List.mem_cons_of_mem _ ha)) (fun a ha => hm' a (List.mem_cons_of_mem _ ha)) h2
          rw [h1, this]

theorem join_append {sep : Char} : ∀ {l m : List (List Char)}, l ≠ [] → m ≠ [] → joinText sep (l ++ m) = joinText sep l ++ sep :: joinText sep m := by
  intro l
  induction l with
  | nil => intro m h; exact absurd rfl h
  | cons x l ih =>
    intro m _ hm
    cases l with
    | nil =>
      cases m with
      | nil => exact absurd rfl hm
      | cons y m => simp [joinText]
    | cons y l =>
      have := ih (m := m) (by simp) hm
      simp only [List.cons_append, joinText] at this ⊢
      rw [this]; simp

theorem mem_join {sep c : Char} : ∀ {l : List (List Char)}, c ∈ joinText sep l → c = sep ∨ ∃ w ∈ l, c ∈ w := by
  intro l
  induction l with
  | nil => intro h; simp [joinText] at h
  | cons x l ih =>
    intro h
    cases l with
    | nil => exact .inr ⟨x, by simp, h⟩
    | cons y l =>
      simp only [joinText, List.mem_append, List.mem_cons] at h
      rcases h with h | h | h
      · exact .inr ⟨x, by simp, h⟩
      · exact .inl h
      · rcases ih h with h | ⟨w, hw, h⟩
        · exact .inl h
        · exact .inr ⟨w, List.mem_cons_of_mem _ hw, h⟩

/-! ### Texts of addresses are unambiguous -/

/-- The parts between colons of a text with `::`. -/
def shortParts (l r : List (List Char)) : List (List Char) := (if l = [] then [[]] else l) ++ [] :: (if r = [] then [[]] else r)

theorem join_short (l r : List (List Char)) : joinText ':' (shortParts l r) = joinText ':' l ++ ':' :: ':' :: joinText ':' r := by
  unfold shortParts
  rw [join_append (by split <;> simp_all) (by simp)]
  have e1 : joinText ':' (if l = [] then [[]] else l) = joinText ':' l := by split <;> simp_all [joinText]
  have e2 : joinText ':' ([] :: (if r = [] then [[]] else r)) = ':' :: joinText ':' r := by
    split
    · rename_i h; subst h; simp [joinText]
    · rename_i h
      cases r with
      | nil => exact absurd rfl h
      | cons y r => simp [joinText]
  rw [e1, e2]

theorem short_inj {l r l' r' : List (List Char)} (hl : [] ∉ l) (hr : [] ∉ r) (hl' : [] ∉ l') (hr' : [] ∉ r') (h : shortParts l r = shortParts l' r') :
    l = l' ∧ r = r' := by
  have tail : ∀ {r r' : List (List Char)}, [] ∉ r → [] ∉ r' → (if r = [] then [[]] else r) = (if r' = [] then [[]] else r') → r = r' := by
    intro r r' hr hr' h
    split at h <;> split at h
    · simp_all
    · exact absurd (by rw [← h]; simp) hr'
    · exact absurd (by rw [h]; simp) hr
    · exact h
  unfold shortParts at h
  by_cases e : l = []
  · by_cases e' : l' = []
    · rw [if_pos e, if_pos e'] at h
      simp only [List.cons_append, List.nil_append, List.cons.injEq, true_and] at h
      exact ⟨by rw [e, e'], tail hr hr' h⟩
    · rw [if_pos e, if_neg e'] at h
      cases l' with
      | nil => exact absurd rfl e'
      | cons x l' => simp only [List.cons_append, List.cons.injEq] at h; exact absurd (by rw [h.1]; simp) hl'
  · by_cases e' : l' = []
    · rw [if_neg e, if_pos e'] at h
      cases l with
      | nil => exact absurd rfl e
      | cons x l => simp only [List.cons_append, List.cons.injEq] at h; exact absurd (by rw [← h.1]; simp) hl
    · rw [if_neg e, if_neg e'] at h
      obtain ⟨h1, h2⟩ := sep_inj hl hl' h
      exact ⟨h1, tail hr hr' h2⟩

theorem map_hex_inj {l m : List Nat} (h : l.map (Nat.toDigits 16) = m.map (Nat.toDigits 16)) : l = m :=
  (List.map_inj_right (fun a b hab => hex_inj a a b (Nat.le_refl _) hab)).1 h

theorem hex_word {l : List Nat} {w : List Char} (h : w ∈ l.map (Nat.toDigits 16)) : w ≠ [] ∧ ∀ c ∈ w, c ∈ addrChars := by
  obtain ⟨n, _, rfl⟩ := List.mem_map.1 h
  exact ⟨Nat.toDigits_ne_nil, fun c hc => hex_mem hc⟩

theorem hex_nil (l : List Nat) : [] ∉ l.map (Nat.toDigits 16) := fun h => (hex_word h).1 rfl

theorem hex_colon (l : List Nat) : ∀ w ∈ l.map (Nat.toDigits 16), ':' ∉ w := fun _ hw hc => absurd ((hex_word hw).2 _ hc) (by decide)

theorem short_colon (l r : List Nat) : ∀ w ∈ shortParts (l.map (Nat.toDigits 16)) (r.map (Nat.toDigits 16)), ':' ∉ w := by
  intro w hw
  unfold shortParts at hw
  rcases List.mem_append.1 hw with h | h
  · split at h
    · simp only [List.mem_singleton] at h; subst h; simp
    · exact hex_colon l w h
  · rcases List.mem_cons.1 h with h | h
    · subst h; simp
    · split at h
      · simp only [List.mem_singleton] at h; subst h; simp
      · exact hex_colon r w h

theorem groups_inj {t : List Char} {v w : Nat} (h : Groups t v) (h' : Groups t w) : v = w := by
  have mixed : ∀ {l a b : List Nat}, l.length = 8 → joinText ':' (l.map (Nat.toDigits 16)) = joinText ':' (shortParts (a.map (Nat.toDigits 16)) (b.map (Nat.toDigits 16))) → False := by
    intro l a b hl h
    have := join_inj (by intro h; rw [List.map_eq_nil_iff.1 h] at hl; cases hl) (by simp [shortParts]) (hex_colon l) (short_colon a b) h
    exact hex_nil l (by rw [this]; simp [shortParts])
  rcases h with ⟨l, h1, _, rfl, h3⟩ | ⟨l, r, n, h1, _, rfl, h3⟩ <;> rcases h' with ⟨l', h1', _, rfl, h3'⟩ | ⟨l', r', n', h1', _, rfl, h3'⟩
  · rw [h3] at h3'
    have := join_inj (by intro h; rw [List.map_eq_nil_iff.1 h] at h1; cases h1) (by intro h; rw [List.map_eq_nil_iff.1 h] at h1'; cases h1') (hex_colon l) (hex_colon l') h3'
    rw [map_hex_inj this]
  · rw [h3, ← join_short] at h3'
    exact (mixed h1 h3').elim
  · rw [h3', ← join_short] at h3
    exact (mixed h1' h3).elim
  · rw [h3, ← join_short, ← join_short] at h3'
    have := join_inj (by simp [shortParts]) (by simp [shortParts]) (short_colon l r) (short_colon l' r') h3'
    obtain ⟨e1, e2⟩ := short_inj (hex_nil l) (hex_nil r) (hex_nil l') (hex_nil r') this
    have e1 := map_hex_inj e1
    have e2 := map_hex_inj e2
    subst e1 e2
    rw [show n = n' by omega]

theorem dotted_inj {t : List Char} {v w : Nat} (h : Dotted t v) (h' : Dotted t w) : v = w := by
  obtain ⟨p, q, r, s, _, _, _, _, rfl, h1⟩ := h
  obtain ⟨p', q', r', s', _, _, _, _, rfl, h2⟩ := h'
  have dot : ∀ n, '.' ∉ Nat.toDigits 10 n := fun n hm => absurd (dec_mem hm) (by decide)
  rw [h1] at h2
  simp only [List.append_assoc, List.cons_append] at h2
  obtain ⟨e1, h2⟩ := sep_inj (dot p) (dot p') h2
  obtain ⟨e2, h2⟩ := sep_inj (dot q) (dot q') h2
  obtain ⟨e3, e4⟩ := sep_inj (dot r) (dot r') h2
  rw [dec_inj e1, dec_inj e2, dec_inj e3, dec_inj e4]

theorem dotted_chars {t : List Char} {v : Nat} (h : Dotted t v) : t ≠ [] ∧ '.' ∈ t ∧ ∀ c ∈ t, c = '.' ∨ c ∈ addrChars := by
  obtain ⟨p, q, r, s, _, _, _, _, rfl, rfl⟩ := h
  refine ⟨by simp, by simp, fun c hc => ?_⟩
  simp only [List.append_assoc, List.cons_append, List.mem_append, List.mem_cons] at hc
  rcases hc with h | h | h | h | h | h | h <;> first | exact .inl h | exact .inr (dec_mem h)

theorem groups_chars {t : List Char} {v : Nat} (h : Groups t v) : t ≠ [] ∧ ':' ∈ t ∧ ∀ c ∈ t, c = ':' ∨ c ∈ addrChars := by
  have chars : ∀ (l : List Nat) c, c ∈ joinText ':' (l.map (Nat.toDigits 16)) → c = ':' ∨ c ∈ addrChars := by
    intro l c hc
    rcases mem_join hc with h | ⟨w, hw, h⟩
    · exact .inl h
    · exact .inr ((hex_word hw).2 c h)
  have : ':' ∈ t ∧ ∀ c ∈ t, c = ':' ∨ c ∈ addrChars := by
    rcases h with ⟨l, h1, _, rfl, rfl⟩ | ⟨l, r, n, h1, _, rfl, rfl⟩
    · refine ⟨?_, chars l⟩
      match l, h1 with
      | a :: b :: l, _ => simp [joinText]
    · refine ⟨by simp, fun c hc => ?_⟩
      simp only [List.mem_append, List.mem_cons] at hc
      rcases hc with h | h | h | h
      · exact chars l c h
      · exact .inl h
      · exact .inl h
      · exact chars r c h
  exact ⟨List.ne_nil_of_mem this.1, this⟩

theorem reads_chars {t : List Char} {a : Ip} (h : Reads t a) : t ≠ [] ∧ ∀ c ∈ t, c = '.' ∨ c = ':' ∨ c ∈ addrChars := by
  unfold Reads at h
  split at h
  · obtain ⟨h1, _, h2⟩ := groups_chars h
    exact ⟨h1, fun c hc => .inr (h2 c hc)⟩
  · obtain ⟨h1, _, h2⟩ := dotted_chars h
    exact ⟨h1, fun c hc => (h2 c hc).elim .inl (fun h => .inr (.inr h))⟩

theorem reads_no {t : List Char} {a : Ip} (h : Reads t a) {c : Char} (hc : c ∉ '.' :: ':' :: addrChars) : c ∉ t := by
  intro hm
  rcases (reads_chars h).2 c hm with h | h | h <;> exact hc (by simp [h])

/-- C64: a text is the text of one address only. -/
theorem C64_unambiguous {t : List Char} {a b : Ip} (h : Reads t a) (h' : Reads t b) : a = b := by
  obtain ⟨s, v, hv⟩ := a
  obtain ⟨s', v', hv'⟩ := b
  unfold Reads at h h'
  simp only at h h'
  cases s <;> cases s' <;> simp only [if_true, if_false, Bool.false_eq_true] at h h'
  · cases dotted_inj h h'; rfl
  · exact absurd ((dotted_chars h).2.2 _ (groups_chars h').2.1) (by decide)
  · exact absurd ((dotted_chars h').2.2 _ (groups_chars h).2.1) (by decide)
  · cases groups_inj h h'; rfl

/-! ### The texts of the code -/

theorem text4_dotted {v : Nat} (h : v ≤ topOf false) : Dotted (text4 v) v := by
  have h : v ≤ 4294967295 := h
  refine ⟨v / 2 ^ 24, v / 2 ^ 16 % 2 ^ 8, v / 2 ^ 8 % 2 ^ 8, v % 2 ^ 8, by omega, by omega, by omega, by omega, by omega, ?_⟩
  simp [text4, joinText]

theorem hextets_value {v : Nat} (h : v ≤ topOf true) : groupsValue (hextets v) = v := by
  have h : v ≤ 340282366920938463463374607431768211455 := h
  have e : hextets v = [v / 2 ^ 112 % 2 ^ 16, v / 2 ^ 96 % 2 ^ 16, v / 2 ^ 80 % 2 ^ 16, v / 2 ^ 64 % 2 ^ 16, v / 2 ^ 48 % 2 ^ 16,
    v / 2 ^ 32 % 2 ^ 16, v / 2 ^ 16 % 2 ^ 16, v / 2 ^ 0 % 2 ^ 16] := rfl
  rw [e]
  simp only [groupsValue, List.foldl_cons, List.foldl_nil]
  omega

theorem hextets_lt (v : Nat) : ∀ g ∈ hextets v, g < 65536 := by
  intro g hg
  obtain ⟨i, _, rfl⟩ := List.mem_map.1 hg
  exact Nat.mod_lt _ (by decide)

/-- What the loop knows after the words `p`. -/
def Colons.Inv (s : Colons) (p : List (List Char)) : Prop :=
  (s.bestLen ≠ 0 → ∃ a c, p = a ++ List.replicate s.bestLen ['0'] ++ c ∧ s.bestStart = (a.length : Int)) ∧
  ((s.len = 0 ∧ s.start = -1) ∨ (0 < s.len ∧ ∃ a, p = a ++ List.replicate s.len ['0'] ∧ s.start = (a.length : Int)))

theorem Colons.inv_step {s : Colons} {p : List (List Char)} (h : s.Inv p) (w : List Char) : (s.step p.length w).Inv (p ++ [w]) := by
  obtain ⟨h1, h2⟩ := h
  have old : s.bestLen ≠ 0 → ∃ a c, p ++ [w] = a ++ List.replicate s.bestLen ['0'] ++ c ∧ s.bestStart = (a.length : Int) := by
    intro hn
    obtain ⟨a, c, e, e'⟩ := h1 hn
    exact ⟨a, c ++ [w], by rw [e]; simp, e'⟩
  unfold Colons.step
  by_cases hw : w = ['0']
  · subst hw
    rw [if_pos rfl]
    simp only []
    have cur : ∃ a, p ++ [['0']] = a ++ List.replicate (s.len + 1) ['0'] ∧ (if s.start = -1 then (p.length : Int) else s.start) = (a.length : Int) := by
      rcases h2 with ⟨e1, e2⟩ | ⟨e1, a, e2, e3⟩
      · exact ⟨p, by rw [e1]; rfl, by rw [if_pos e2]⟩
      · refine ⟨a, ?_, by rw [if_neg (by omega), e3]⟩
        rw [List.replicate_succ', ← List.append_assoc, ← e2]
    split
    · obtain ⟨a, e1, e2⟩ := cur
      exact ⟨fun _ => ⟨a, [], by rw [e1]; simp, e2⟩, .inr ⟨Nat.succ_pos _, a, e1, e2⟩⟩
    · exact ⟨old, .inr ⟨Nat.succ_pos _, cur⟩⟩
  · rw [if_neg hw]
    exact ⟨old, .inl ⟨rfl, rfl⟩⟩

theorem Colons.inv_run : ∀ {l : List (List Char)} {s : Colons} {p : List (List Char)}, s.Inv p → (s.run p.length l).Inv (p ++ l) := by
  intro l
  induction l with
  | nil => intro s p h; simpa [Colons.run] using h
  | cons w l ih =>
    intro s p h
    have := ih (Colons.inv_step h w)
    rw [List.length_append, List.append_assoc] at this
    exact this

theorem compress_eq (l : List (List Char)) : compress l = l ∨ ∃ a n c, l = a ++ List.replicate (n + 1) ['0'] ++ c ∧ compress l = shortParts a c := by
  have h : (Colons.run ⟨-1, 0, -1, 0⟩ 0 l).Inv ([] ++ l) := Colons.inv_run (p := []) ⟨fun h => absurd rfl h, .inl ⟨rfl, rfl⟩⟩
  rw [List.nil_append] at h
  unfold compress
  generalize Colons.run ⟨-1, 0, -1, 0⟩ 0 l = s at *
  obtain ⟨bs, bl, st, ln⟩ := s
  simp only []
  by_cases hb : bl > 1
  · rw [if_pos hb]
    obtain ⟨a, c, e1, e2⟩ := h.1 (by simp only; omega)
    simp only at e1 e2
    refine .inr ⟨a, bl - 1, c, by rw [show bl - 1 + 1 = bl by omega]; exact e1, ?_⟩
    subst e2
    have hl : l.length = a.length + bl + c.length := by rw [e1]; simp [Nat.add_assoc]
    have t : ∀ m, (a ++ List.replicate bl ['0'] ++ m).take a.length = a := fun m => by rw [List.append_assoc]; simp
    have d : ∀ m, (a ++ List.replicate bl ['0'] ++ m).drop (a.length + bl) = m := fun m => by
      rw [show a.length + bl = (a ++ List.replicate bl ['0']).length by simp]; simp
    have e : (if (a.length : Int).toNat + bl = l.length then l ++ [[]] else l) = a ++ List.replicate bl ['0'] ++ (if c = [] then [[]] else c) := by
      rw [Int.toNat_natCast]
      by_cases hc : c = []
      · rw [if_pos (by rw [hl, hc]; rfl), if_pos hc, e1, hc]; simp
      · have : c.length ≠ 0 := fun h => hc (List.length_eq_zero_iff.1 h)
        rw [if_neg (by omega), if_neg hc]; exact e1
    rw [e, Int.toNat_natCast, t, d]
    unfold shortParts
    by_cases ha : a = []
    · subst ha; simp
    · have : a.length ≠ 0 := fun h => ha (List.length_eq_zero_iff.1 h)
      rw [if_neg (by omega), if_neg ha]
  · rw [if_neg hb]
    exact .inl rfl

theorem text6_groups {v : Nat} (h : v ≤ topOf true) : Groups (text6 v) v := by
  unfold text6
  rcases compress_eq ((hextets v).map (Nat.toDigits 16)) with e | ⟨a, n, c, e1, e2⟩
  · rw [e]
    exact .inl ⟨hextets v, by simp [hextets], hextets_lt v, (hextets_value h).symm, rfl⟩
  · rw [e2, join_short]
    obtain ⟨m, c', e3, e4, rfl⟩ := List.map_eq_append_iff.1 e1
    obtain ⟨a', z, rfl, rfl, e5⟩ := List.map_eq_append_iff.1 e4
    have ez : z = List.replicate (n + 1) 0 := by
      apply map_hex_inj
      rw [e5, List.map_replicate, Nat.toDigits_zero]
    subst ez
    have hv := hextets_value h
    have hlt := hextets_lt v
    have hlen : (hextets v).length = 8 := by simp [hextets]
    rw [e3] at hv hlt hlen
    refine .inr ⟨a', c', n, by simpa [Nat.add_assoc] using hlen, fun g hg => hlt g ?_, hv.symm, rfl⟩
    simp only [List.mem_append] at hg ⊢
    exact hg.elim (fun h => .inl (.inl h)) .inr

/-- C64: the printed text of an address is a text of this address. -/
theorem C64_text (a : Ip) : Reads a.text a := by
  unfold Reads Ip.text
  have h := a.le_top
  cases hs : a.six
  · rw [hs] at h; simp only [Bool.false_eq_true, if_false]; exact text4_dotted h
  · rw [hs] at h; simp only [if_true]; exact text6_groups h

/-! ### Texts of blocks -/

theorem piece_chars {t : List Char} {S : Ip → Prop} (h : Piece t S) : t ≠ [] ∧ ∀ c ∈ t, c ∈ '.' :: ':' :: '-' :: '/' :: addrChars := by
  have sub : ∀ {t : List Char} {a : Ip}, Reads t a → ∀ c ∈ t, c ∈ '.' :: ':' :: '-' :: '/' :: addrChars := by
    intro t a h c hc
    rcases (reads_chars h).2 c hc with h | h | h <;> simp [h]
  cases h with
  | one h => exact ⟨(reads_chars h).1, sub h⟩
  | range h h' =>
    refine ⟨by simp, fun c hc => ?_⟩
    simp only [List.mem_append, List.mem_cons] at hc
    rcases hc with hc | hc | hc
    · exact sub h c hc
    · simp [hc]
    · exact sub h' c hc
  | net n h =>
    refine ⟨by simp, fun c hc => ?_⟩
    simp only [List.mem_append, List.mem_cons] at hc
    rcases hc with hc | hc | hc
    · exact sub h c hc
    · simp [hc]
    · simp [dec_mem hc]

theorem piece_inj {t : List Char} {S S' : Ip → Prop} (h : Piece t S) (h' : Piece t S') (x : Ip) : S x ↔ S' x := by
  have dash : ∀ {t : List Char} {a : Ip}, Reads t a → '-' ∉ t := fun h => reads_no h (by decide)
  have slash : ∀ {t : List Char} {a : Ip}, Reads t a → '/' ∉ t := fun h => reads_no h (by decide)
  have ddash : ∀ n, '-' ∉ Nat.toDigits 10 n := fun n hm => absurd (dec_mem hm) (by decide)
  cases h with
  | one h =>
    generalize ht : t = t' at h'
    cases h' with
    | one h' => subst ht; rw [C64_unambiguous h h']
    | range g g' => exact absurd (by rw [ht]; simp) (dash h)
    | net c g => exact absurd (by rw [ht]; simp) (slash h)
  | @range u w a b h1 h2 =>
    generalize ht : u ++ '-' :: w = t' at h'
    cases h' with
    | one h' => exact absurd (by rw [← ht]; simp) (dash h')
    | range g g' =>
      obtain ⟨e1, e2⟩ := sep_inj (dash h1) (dash g) ht
      subst e1 e2
      rw [C64_unambiguous h1 g, C64_unambiguous h2 g']
    | @net u' c g =>
      have : '/' ∈ u ++ '-' :: w := by rw [ht]; simp
      simp only [List.mem_append, List.mem_cons, show ('/' = '-') = False by decide, false_or] at this
      exact absurd this (fun h => h.elim (slash h1) (slash h2))
  | @net u c h1 =>
    generalize ht : u ++ '/' :: Nat.toDigits 10 c.len = t' at h'
    cases h' with
    | one h' => exact absurd (by rw [← ht]; simp) (slash h')
    | @range u' w a b g g' =>
      have : '-' ∈ u ++ '/' :: Nat.toDigits 10 c.len := by rw [ht]; simp
      simp only [List.mem_append, List.mem_cons, show ('-' = '/') = False by decide, false_or] at this
      exact absurd this (fun h => h.elim (dash h1) (ddash _))
    | net c' g =>
      obtain ⟨e1, e2⟩ := sep_inj (slash h1) (slash g) ht
      subst e1
      have e3 := C64_unambiguous h1 g
      have e4 := dec_inj e2
      obtain ⟨a, n, hn⟩ := c
      obtain ⟨a', n', hn'⟩ := c'
      simp only at e3 e4
      subst e3 e4
      exact Iff.rfl

/-- C64: a text of a block is the text of one set of addresses only. -/
theorem C64_block_unambiguous {t : List Char} {S S' : Ip → Prop} (h : BlockText t S) (h' : BlockText t S') (x : Ip) : S x ↔ S' x := by
  have mixed : ∀ {ps : List (List Char × (Ip → Prop))}, (∀ p ∈ ps, Piece p.1 p.2) → "Empty".toList = joinText ',' (ps.map (·.1)) → False := by
    intro ps hp h
    have : 'E' ∈ joinText ',' (ps.map (·.1)) := by rw [← h]; decide
    rcases mem_join this with h | ⟨w, hw, h⟩
    · exact absurd h (by decide)
    · obtain ⟨p, hpp, rfl⟩ := List.mem_map.1 hw
      exact absurd ((piece_chars (hp p hpp)).2 _ h) (by decide)
  rcases h with ⟨h1, h2⟩ | ⟨ps, h1, h2, h3⟩ <;> rcases h' with ⟨h1', h2'⟩ | ⟨ps', h1', h2', h3'⟩
  · exact iff_of_false (h2 x) (h2' x)
  · exact (mixed h2' (h1.symm.trans h1')).elim
  · exact (mixed h2 (h1'.symm.trans h1)).elim
  · have ok : ∀ {ps : List (List Char × (Ip → Prop))}, (∀ p ∈ ps, Piece p.1 p.2) → ∀ w ∈ ps.map (·.1), w ≠ [] ∧ ',' ∉ w := by
      intro ps hp w hw
      obtain ⟨p, hpp, rfl⟩ := List.mem_map.1 hw
      have := piece_chars (hp p hpp)
      exact ⟨this.1, fun hc => absurd (this.2 _ hc) (by decide)⟩
    have e := joinText_inj (ok h2) (ok h2') (h1.symm.trans h1')
    have half : ∀ {ps ps' : List (List Char × (Ip → Prop))}, (∀ p ∈ ps, Piece p.1 p.2) → (∀ p ∈ ps', Piece p.1 p.2) → ps.map (·.1) = ps'.map (·.1) →
        (∃ p ∈ ps, p.2 x) → ∃ p ∈ ps', p.2 x := by
      rintro ps ps' q q' e ⟨p, hp, hx⟩
      have : p.1 ∈ ps'.map (·.1) := by rw [← e]; exact List.mem_map_of_mem hp
      obtain ⟨p', hp', e'⟩ := List.mem_map.1 this
      exact ⟨p', hp', (piece_inj (q p hp) (e' ▸ q' p' hp') x).1 hx⟩
    rw [h3, h3']
    exact ⟨half h2 h2' e, half h2' h2 e.symm⟩

namespace IpBlock

/-- C64: the text with networks means the addresses of the block. -/
theorem C64_list_text {b : IpBlock} (h : Built b) : ∃ t, cidrListStr b = some t ∧ BlockText t b.Has := by
  obtain ⟨l, e, _, _, hx⟩ := C64_networks h
  refine ⟨_, by rw [cidrListStr, e]; rfl, .inr ⟨l.map fun c => (c.text, c.Has), by simp [Function.comp_def], ?_, fun x => by simp [hx]⟩⟩
  intro p hp
  obtain ⟨c, _, rfl⟩ := List.mem_map.1 hp
  exact .net c (C64_text c.addr)

theorem flatten_dropLast : ∀ {l : List (List Char)}, (l.map (· ++ [','])).flatten.dropLast = joinText ',' l := by
  intro l
  induction l with
  | nil => rfl
  | cons x l ih =>
    cases l with
    | nil => simp [joinText]
    | cons y l =>
      rw [List.map_cons, List.flatten_cons, List.dropLast_append_of_ne_nil (by simp), ih]
      simp [joinText]

/-- The text of one range. -/
def ivStr (i : IpIv) : List Char := i.s.text ++ (if i.s ≠ i.e then '-' :: i.e.text else [])

theorem range_piece (i : IpIv) (h : i.s.six = i.e.six ∧ i.s.val ≤ i.e.val) : ∃ S, Piece (ivStr i) S ∧
    ∀ x, S x ↔ i.s.six = x.six ∧ i.e.six = x.six ∧ i.s.val ≤ x.val ∧ x.val ≤ i.e.val := by
  unfold ivStr
  by_cases he : i.s = i.e
  · rw [if_neg (by simpa using he), List.append_nil]
    refine ⟨_, .one (C64_text i.s), fun x => ?_⟩
    obtain ⟨⟨s1, v1, w1⟩, ⟨s2, v2, w2⟩⟩ := i
    obtain ⟨s3, v3, w3⟩ := x
    simp only [Ip.mk.injEq] at he ⊢
    obtain ⟨rfl, rfl⟩ := he
    constructor
    · rintro ⟨rfl, rfl⟩; exact ⟨rfl, rfl, Nat.le_refl _, Nat.le_refl _⟩
    · rintro ⟨rfl, _, q1, q2⟩; exact ⟨rfl, by omega⟩
  · rw [if_pos he]
    exact ⟨_, .range (C64_text i.s) (C64_text i.e), fun x => Iff.rfl⟩

/-- C64: so does the text with ranges. -/
theorem C64_range_text {b : IpBlock} (h : Built b) : BlockText (rangeText b) b.Has := by
  obtain ⟨g, _⟩ := C21_never_mixed h
  unfold rangeText
  cases hb : b.isEmpty with
  | true =>
    rw [List.isEmpty_iff] at hb
    subst hb
    exact .inl ⟨rfl, by simp [Has]⟩
  | false =>
    rw [if_neg (by simp)]
    have e : (b.map fun i => i.s.text ++ (if i.s ≠ i.e then '-' :: i.e.text else []) ++ [',']) = (b.map ivStr).map (· ++ [',']) := by
      rw [List.map_map]; rfl
    rw [e, flatten_dropLast]
    refine .inr ⟨b.map fun i => (ivStr i, fun x => i.s.six = x.six ∧ i.e.six = x.six ∧ i.s.val ≤ x.val ∧ x.val ≤ i.e.val), by simp [Function.comp_def], ?_, fun x => by simp [Has]⟩
    intro p hp
    obtain ⟨i, hi, rfl⟩ := List.mem_map.1 hp
    obtain ⟨S, hS, hx⟩ := range_piece i (g i hi)
    have : S = fun x => i.s.six = x.six ∧ i.e.six = x.six ∧ i.s.val ≤ x.val ∧ x.val ≤ i.e.val := funext fun x => propext (hx x)
    rw [this] at hS
    exact hS

/-- C64: so does the text of the reports, whichever of the two is chosen; it is the one with the ranges if asked for, or
(see `C64_shorter_wrong`) if there are at most half as many ranges as networks. -/
theorem C64_short_text {b : IpBlock} (h : Built b) (rangeOnly : Bool) : ∃ t, shortText b rangeOnly = some t ∧ BlockText t b.Has ∧
    (rangeOnly = true → t = rangeText b) := by
  obtain ⟨l, e, _⟩ := C64_networks h
  obtain ⟨t, e', ht⟩ := C64_list_text h
  unfold shortText
  rw [e, Option.bind_some]
  split
  · exact ⟨_, rfl, C64_range_text h, fun _ => rfl⟩
  · rename_i hn
    exact ⟨t, e', ht, fun hr => absurd (.inr hr) hn⟩

/-- C64: different blocks have different texts, also when one text has ranges and the other has networks. -/
theorem C64_faithful {b b' : IpBlock} (h : Built b) (h' : Built b') {t : List Char}
    (ht : cidrListStr b = some t ∨ rangeText b = t ∨ ∃ r, shortText b r = some t)
    (ht' : cidrListStr b' = some t ∨ rangeText b' = t ∨ ∃ r, shortText b' r = some t) : b = b' := by
  have key : ∀ {b : IpBlock}, Built b → (cidrListStr b = some t ∨ rangeText b = t ∨ ∃ r, shortText b r = some t) → BlockText t b.Has := by
    rintro b h (e | e | ⟨r, e⟩)
    · obtain ⟨u, e', hu⟩ := C64_list_text h
      rw [e] at e'; cases e'; exact hu
    · rw [← e]; exact C64_range_text h
    · obtain ⟨u, e', hu, _⟩ := C64_short_text h r
      rw [e] at e'; cases e'; exact hu
  exact (C21_eq_extensional h h').2 (C64_block_unambiguous (key h ht) (key h' ht'))

/-- What the names of network sets need of the text (C61): different blocks, different texts. -/
theorem cidrText_inj {b b' : IpBlock} (h : Built b) (h' : Built b') (e : cidrText b = cidrText b') : b = b' := by
  obtain ⟨t, e1, _⟩ := C64_list_text h
  obtain ⟨t', e2, _⟩ := C64_list_text h'
  unfold cidrText at e
  rw [e1, e2, Option.getD_some, Option.getD_some] at e
  have : t = t' := String.ofList_injective e
  subst this
  exact C64_faithful h h' (.inl e1) (.inl e2)

/-- and its characters. -/
theorem cidrText_chars {b : IpBlock} (h : Built b) (hb : b ≠ []) : '(' ∉ (cidrText b).toList ∧ '/' ∈ (cidrText b).toList := by
  obtain ⟨g, _⟩ := C21_never_mixed h
  unfold cidrText
  rw [String.toList_ofList, cidrListStr, cidrList_eq g, Option.map_some, Option.getD_some]
  have hne : b.flatMap nets ≠ [] := by
    obtain ⟨i, hi⟩ := List.exists_mem_of_ne_nil _ hb
    obtain ⟨c, hc⟩ := List.exists_mem_of_ne_nil _ (nets_spec (g i hi).1 (g i hi).2).1
    exact List.ne_nil_of_mem (List.mem_flatMap.2 ⟨i, hi, hc⟩)
  generalize b.flatMap nets = l at *
  constructor
  · intro hm
    rcases mem_join hm with h | ⟨w, hw, h⟩
    · exact absurd h (by decide)
    · obtain ⟨c, _, rfl⟩ := List.mem_map.1 hw
      exact absurd ((piece_chars (.net c (C64_text c.addr))).2 _ h) (by decide)
  · cases l with
    | nil => exact absurd rfl hne
    | cons c l => cases l <;> simp [joinText, Cidr.text]

/-! ### Findings -/

/-- 1:: - 2:ffff:...:ffff, two networks. -/
def twoNets : IpBlock := [⟨⟨true, 2 ^ 112, by decide +kernel⟩, ⟨true, 3 * 2 ^ 112 - 1, by decide +kernel⟩⟩]

/-- The text of the reports is documented as the shorter notation; it need not be: ranges are counted, not characters.  The two
networks `1::/16` and `2::/16` are printed as a range of three times the length, and a single address is printed as a network. -/
theorem C64_shorter_wrong : Built twoNets ∧ cidrListStr twoNets = some "1::/16,2::/16".toList ∧
    shortText twoNets false = some "1::-2:ffff:ffff:ffff:ffff:ffff:ffff:ffff".toList ∧
    Built [⟨⟨false, 1, by decide⟩, ⟨false, 1, by decide⟩⟩] ∧ rangeText [⟨⟨false, 1, by decide⟩, ⟨false, 1, by decide⟩⟩] = "0.0.0.1".toList ∧
    shortText [⟨⟨false, 1, by decide⟩, ⟨false, 1, by decide⟩⟩] false = some "0.0.0.1/32".toList :=
  ⟨.range _ rfl (by decide +kernel), by decide +kernel, by decide +kernel, .range _ rfl (by decide), by decide +kernel, by decide +kernel⟩

/-! ### Examples -/

/-- 10.0.0.1-10.0.0.6 and the last address of IPv6, as networks. -/
example : cidrListStr ragged = some "10.0.0.1/32,10.0.0.2/31,10.0.0.4/31,10.0.0.6/32,ffff:ffff:ffff:ffff:ffff:ffff:ffff:ffff/128".toList := by decide +kernel

/-- Two ranges, five networks: the ranges are shorter. -/
example : shortText ragged false = some "10.0.0.1-10.0.0.6,ffff:ffff:ffff:ffff:ffff:ffff:ffff:ffff".toList := by decide +kernel

example : cidrListStr (allIps false false) = some "0.0.0.0/0,::/0".toList := by decide +kernel
example : shortText [] false = some "Empty".toList := by decide +kernel
example : cidrListStr [] = some [] := by decide +kernel

/-- The longest run of zeros, the first of them, not a single one. -/
example : text6 (0x20010db8000000000001000000000001) = "2001:db8::1:0:0:1".toList := by decide +kernel
example : text6 (0x20010db8000000010001000100010001) = "2001:db8:0:1:1:1:1:1".toList := by decide +kernel
example : text6 1 = "::1".toList := by decide +kernel
example : text6 (2 ^ 112) = "1::".toList := by decide +kernel

end IpBlock
end Verif
