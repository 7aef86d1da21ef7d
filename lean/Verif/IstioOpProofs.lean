import Verif.IstioParseProofs
/-!
Lemmas for C50: the ports, methods, hosts and paths of operations, and the connections of operations and conditions.
-/
namespace Verif
open ISet IpBlock PeerSet

namespace IstioParser
open Container CalicoParser

/-! ### Ports -/

theorem addOne (a : Int) : Canonical (addInterval [] ⟨a, a⟩) ∧ ∀ z, Mem z (addInterval [] ⟨a, a⟩) ↔ z = a := by
  have := addInterval_spec [] ⟨a, a⟩ canonical_nil (Int.le_refl a)
  refine ⟨this.1, fun z => ?_⟩
  rw [this.2]
  simp only [not_mem_nil, false_or, Iv.Mem]
  omega

theorem parsePort_sem {t : PortText} (h : PortLegal t) : ∃ P, parsePort t = some P ∧ Canonical P.ports ∧ P.named = ∅ ∧ P.excluded = ∅ ∧
    (∀ x, Mem x P.ports ↔ PortIs x t) ∧ ∀ x, Mem x P.ports → 1 ≤ x ∧ x ≤ 65535 := by
  obtain ⟨n, h1, h2⟩ := h
  have hv := (CalicoParser.validPort_iff n).2 h2
  have ha := addOne n
  have e : parsePort t = some ((PortSet.make false).addPort (.num n)) ∧ ∀ x, PortIs x t ↔ x = n := by
    cases t with
    | num m =>
      have : n = m := h1
      subst this
      exact ⟨if_pos hv, fun x => Iff.rfl⟩
    | text s =>
      have h1 : IsNum s.toList n := h1
      refine ⟨?_, fun x => ⟨fun h => ?_, fun h => by rw [h]; exact h1⟩⟩
      · unfold parsePort
        dsimp only
        have := pyInt_num h1
        rw [String.ofList_toList] at this
        rw [this, Option.bind_some, if_pos hv]
      · have h : IsNum s.toList x := h
        rw [h.2.2, h1.2.2]
  refine ⟨_, e.1, ha.1, rfl, rfl, fun x => (ha.2 x).trans (e.2 x).symm, fun x hx => ?_⟩
  have := (ha.2 x).1 hx
  omega

theorem rulePorts_sem {pos neg : Option (List PortText)} (hp : ListOk pos PortLegal) (hn : ListOk neg PortLegal) :
    ∃ P, rulePorts pos neg = some P ∧ Canonical P.ports ∧ P.named = ∅ ∧ P.excluded = ∅ ∧
      ∀ x, Mem x P.ports ↔ (1 ≤ x ∧ x ≤ 65535) ∧ Among pos (PortIs x) ∧ Apart neg (PortIs x) := by
  have or_ports : ∀ (l : List PortText) (P0 : PortSet), (∀ t ∈ l, PortLegal t) → Canonical P0.ports → P0.named = ∅ → P0.excluded = ∅ →
      ∃ P, l.foldlM (fun (acc : PortSet) p => (parsePort p).map acc.or) P0 = some P ∧ Canonical P.ports ∧ P.named = ∅ ∧ P.excluded = ∅ ∧
        ∀ x, Mem x P.ports ↔ Mem x P0.ports ∨ (1 ≤ x ∧ x ≤ 65535) ∧ ∃ t ∈ l, PortIs x t := by
    intro l
    induction l with
    | nil => exact fun P0 _ h0 h1 h2 => ⟨P0, rfl, h0, h1, h2, by simp⟩
    | cons t l ih =>
      intro P0 hl h0 h1 h2
      obtain ⟨P, e, c, n, x, hm, hb⟩ := parsePort_sem (hl t List.mem_cons_self)
      have hu := union_spec P0.ports P.ports h0 c.1
      obtain ⟨R, e2, c2, n2, x2, m2⟩ := ih (P0.or P) (fun t ht => hl t (List.mem_cons_of_mem _ ht)) hu.1 (by simp [PortSet.or, h1, n]) (by simp [PortSet.or, h2])
      refine ⟨R, by rw [List.foldlM_cons, e]; exact e2, c2, n2, x2, fun y => ?_⟩
      rw [m2]
      have : Mem y (P0.or P).ports ↔ Mem y P0.ports ∨ Mem y P.ports := hu.2 y
      have hb' := hb y
      rw [hm] at hb'
      rw [this, hm]
      simp only [List.mem_cons, exists_eq_or_imp]
      tauto
  have sub_ports : ∀ (l : List PortText) (P0 : PortSet), (∀ t ∈ l, PortLegal t) → Canonical P0.ports → P0.named = ∅ → P0.excluded = ∅ →
      ∃ P, l.foldlM (fun (acc : PortSet) p => (parsePort p).map acc.sub) P0 = some P ∧ Canonical P.ports ∧ P.named = ∅ ∧ P.excluded = ∅ ∧
        ∀ x, Mem x P.ports ↔ Mem x P0.ports ∧ ∀ t ∈ l, ¬ PortIs x t := by
    intro l
    induction l with
    | nil => exact fun P0 _ h0 h1 h2 => ⟨P0, rfl, h0, h1, h2, by simp⟩
    | cons t l ih =>
      intro P0 hl h0 h1 h2
      obtain ⟨P, e, c, n, x, hm, hb⟩ := parsePort_sem (hl t List.mem_cons_self)
      have hu := diff_spec P0.ports P.ports h0 c.1
      obtain ⟨R, e2, c2, n2, x2, m2⟩ := ih (P0.sub P) (fun t ht => hl t (List.mem_cons_of_mem _ ht)) hu.1 (by simp [PortSet.sub, h1]) (by simp [PortSet.sub, h2, n])
      refine ⟨R, by rw [List.foldlM_cons, e]; exact e2, c2, n2, x2, fun y => ?_⟩
      rw [m2]
      have : Mem y (P0.sub P).ports ↔ Mem y P0.ports ∧ ¬ Mem y P.ports := hu.2 y
      rw [this, hm, and_assoc]
      simp
  have first : ∃ P, positivePorts pos = some P ∧ Canonical P.ports ∧ P.named = ∅ ∧ P.excluded = ∅ ∧
      ∀ x, Mem x P.ports ↔ (1 ≤ x ∧ x ≤ 65535) ∧ Among pos (PortIs x) := by
    cases pos with
    | none =>
      refine ⟨PortSet.make true, rfl, canonical_singleton.2 (by decide), rfl, rfl, fun x => ?_⟩
      have : Mem x (PortSet.make true).ports ↔ 1 ≤ x ∧ x ≤ 65535 := mem_singleton
      rw [this]
      exact ⟨fun h => ⟨h, among_none⟩, And.left⟩
    | some l =>
      obtain ⟨P, e, c, n, x, m⟩ := or_ports l (PortSet.make false) (hp l rfl).2 canonical_nil rfl rfl
      refine ⟨P, e, c, n, x, fun y => ?_⟩
      rw [m, or_iff_right (show ¬ Mem y (PortSet.make false).ports from not_mem_nil), among_some (hp l rfl).1]
  obtain ⟨P1, e1, c1, n1, x1, m1⟩ := first
  obtain ⟨P, e, c, n, x, m⟩ := sub_ports (neg.getD []) P1 (listOk_getD hn) c1 n1 x1
  refine ⟨P, by unfold rulePorts; rw [e1, Option.bind_some, e], c, n, x, fun y => ?_⟩
  rw [m, m1, apart_iff, and_assoc]

/-! ### Methods -/

/-- The number of a method whose text is such. -/
def MethodAt (x : Int) (T : List Char → Prop) : Prop := ∃ n : Nat, x = n ∧ ∃ m, MethodSet.allMethods[n]? = some m ∧ T m.toList

theorem methodAt_unique {n : Nat} {m : String} (h : MethodSet.allMethods[n]? = some m) {T : List Char → Prop} : MethodAt n T ↔ T m.toList := by
  constructor
  · rintro ⟨n', e, m', h', hT⟩
    obtain rfl : n = n' := by omega
    rw [h] at h'; cases h'; exact hT
  · exact fun hT => ⟨n, rfl, m, h, hT⟩

theorem addMethod_sem {s : ISet} (hs : Canonical s) {m : String} (hm : m ∈ MethodSet.allMethods) :
    ∃ r, MethodSet.add s m = some r ∧ Canonical r ∧ ∀ x, Mem x r ↔ Mem x s ∨ MethodAt x (· = m.toList) := by
  have hlt := List.idxOf_lt_length_of_mem hm
  have ha := addInterval_spec s ⟨(MethodSet.allMethods.idxOf m : Nat), (MethodSet.allMethods.idxOf m : Nat)⟩ hs (Int.le_refl _)
  refine ⟨_, if_pos hlt, ha.1, fun x => ?_⟩
  rw [ha.2]
  refine or_congr_right ?_
  have hg : MethodSet.allMethods[MethodSet.allMethods.idxOf m]? = some m := by
    rw [List.getElem?_eq_getElem hlt, List.getElem_idxOf hlt]
  constructor
  · intro h
    have : x = (MethodSet.allMethods.idxOf m : Nat) := by unfold Iv.Mem at h; dsimp only at h; omega
    exact ⟨_, this, m, hg, rfl⟩
  · rintro ⟨n, rfl, m', h, e⟩
    have e : m' = m := String.toList_inj.1 e
    subst e
    have h1 := MethodSet.nodup
    obtain ⟨hn, hn'⟩ := List.getElem?_eq_some_iff.1 h
    have : MethodSet.allMethods.idxOf m' = n := by rw [← hn', h1.idxOf_getElem]
    unfold Iv.Mem; dsimp only; omega

theorem parseMethod_sem {s : List Char} (hs : Pattern s) : ∃ r, parseMethod s = some r ∧ Canonical r ∧ ∀ x, Mem x r ↔ MethodAt x (Matches s) := by
  obtain ⟨l, e, hl⟩ := matching_sem (vals := MethodSet.allMethods.map String.toList) (by decide) hs
  have key : ∀ (l : List (List Char)) (s0 : ISet), (∀ v ∈ l, v ∈ MethodSet.allMethods.map String.toList) → Canonical s0 →
      ∃ r, l.foldlM (fun res m => MethodSet.add res (String.ofList m)) s0 = some r ∧ Canonical r ∧
        ∀ x, Mem x r ↔ Mem x s0 ∨ MethodAt x (· ∈ l) := by
    intro l
    induction l with
    | nil => exact fun s0 _ h0 => ⟨s0, rfl, h0, fun x => by simp [MethodAt]⟩
    | cons v l ih =>
      intro s0 hv h0
      obtain ⟨m, hm, rfl⟩ := List.mem_map.1 (hv v List.mem_cons_self)
      obtain ⟨r1, e1, c1, m1⟩ := addMethod_sem h0 hm
      obtain ⟨r, e, c, mm⟩ := ih r1 (fun v h => hv v (List.mem_cons_of_mem _ h)) c1
      refine ⟨r, by rw [List.foldlM_cons, String.ofList_toList, e1]; exact e, c, fun x => ?_⟩
      rw [mm, m1, or_assoc]
      refine or_congr_right ?_
      simp only [MethodAt, List.mem_cons]
      constructor
      · rintro (⟨n, h1, m', h2, h3⟩ | ⟨n, h1, m', h2, h3⟩)
        · exact ⟨n, h1, m', h2, Or.inl h3⟩
        · exact ⟨n, h1, m', h2, Or.inr h3⟩
      · rintro ⟨n, h1, m', h2, h3 | h3⟩
        · exact Or.inl ⟨n, h1, m', h2, h3⟩
        · exact Or.inr ⟨n, h1, m', h2, h3⟩
  obtain ⟨r, e2, c, m⟩ := key l (MethodSet.make false) (fun v hv => ((hl v).1 hv).1) canonical_nil
  refine ⟨r, by unfold parseMethod; rw [e, Option.bind_some, e2], c, fun x => ?_⟩
  rw [m, or_iff_right (show ¬ Mem x (MethodSet.make false) from not_mem_nil)]
  constructor
  · rintro ⟨n, h1, m, h2, h3⟩
    exact ⟨n, h1, m, h2, ((hl _).1 h3).2⟩
  · rintro ⟨n, h1, m, h2, h3⟩
    exact ⟨n, h1, m, h2, (hl _).2 ⟨List.mem_map.2 ⟨m, List.mem_of_getElem? h2, rfl⟩, h3⟩⟩

theorem methodsSet_sem {pos neg : Option (List (List Char))} (hp : ListOk pos Pattern) (hn : ListOk neg Pattern) :
    ∃ M, methodsSet pos neg = some M ∧ Canonical M ∧
      ∀ x, Mem x M ↔ MethodAt x fun m => Among pos (Matches · m) ∧ Apart neg (Matches · m) := by
  have ors : ∀ (l : List (List Char)) (M0 : ISet) (T0 : List Char → Prop), (∀ t ∈ l, Pattern t) → Canonical M0 → (∀ x, Mem x M0 ↔ MethodAt x T0) →
      ∃ M, l.foldlM (fun acc m => (parseMethod m).map (ISet.union acc)) M0 = some M ∧ Canonical M ∧
        ∀ x, Mem x M ↔ MethodAt x fun m => T0 m ∨ ∃ t ∈ l, Matches t m := by
    intro l
    induction l with
    | nil => exact fun M0 T0 _ h0 hm => ⟨M0, rfl, h0, fun x => by simp [hm]⟩
    | cons t l ih =>
      intro M0 T0 hl h0 hm
      obtain ⟨r, e, c, m⟩ := parseMethod_sem (hl t List.mem_cons_self)
      have hu := union_spec M0 r h0 c.1
      obtain ⟨R, e2, c2, m2⟩ := ih (ISet.union M0 r) (fun m => T0 m ∨ Matches t m) (fun t ht => hl t (List.mem_cons_of_mem _ ht)) hu.1 (fun x => by
        rw [hu.2, hm, m]
        constructor
        · rintro (⟨n, h1, m', h2, h3⟩ | ⟨n, h1, m', h2, h3⟩)
          · exact ⟨n, h1, m', h2, Or.inl h3⟩
          · exact ⟨n, h1, m', h2, Or.inr h3⟩
        · rintro ⟨n, h1, m', h2, h3 | h3⟩
          · exact Or.inl ⟨n, h1, m', h2, h3⟩
          · exact Or.inr ⟨n, h1, m', h2, h3⟩)
      refine ⟨R, by rw [List.foldlM_cons, e]; exact e2, c2, fun x => (m2 x).trans ?_⟩
      simp only [List.mem_cons, exists_eq_or_imp, or_assoc]
  have subs : ∀ (l : List (List Char)) (M0 : ISet) (T0 : List Char → Prop), (∀ t ∈ l, Pattern t) → Canonical M0 → (∀ x, Mem x M0 ↔ MethodAt x T0) →
      ∃ M, l.foldlM (fun acc m => (parseMethod m).map (ISet.diff acc)) M0 = some M ∧ Canonical M ∧
        ∀ x, Mem x M ↔ MethodAt x fun m => T0 m ∧ ∀ t ∈ l, ¬ Matches t m := by
    intro l
    induction l with
    | nil => exact fun M0 T0 _ h0 hm => ⟨M0, rfl, h0, fun x => by simp [hm]⟩
    | cons t l ih =>
      intro M0 T0 hl h0 hm
      obtain ⟨r, e, c, m⟩ := parseMethod_sem (hl t List.mem_cons_self)
      have hu := diff_spec M0 r h0 c.1
      obtain ⟨R, e2, c2, m2⟩ := ih (ISet.diff M0 r) (fun m => T0 m ∧ ¬ Matches t m) (fun t ht => hl t (List.mem_cons_of_mem _ ht)) hu.1 (fun x => by
        rw [hu.2, hm, m]
        constructor
        · rintro ⟨⟨n, rfl, m', h2, h3⟩, h4⟩
          exact ⟨n, rfl, m', h2, h3, fun h5 => h4 ⟨n, rfl, m', h2, h5⟩⟩
        · rintro ⟨n, rfl, m', h2, h3, h4⟩
          exact ⟨⟨n, rfl, m', h2, h3⟩, fun h => h4 ((methodAt_unique h2).1 h)⟩)
      refine ⟨R, by rw [List.foldlM_cons, e]; exact e2, c2, fun x => (m2 x).trans ?_⟩
      simp only [List.mem_cons, forall_eq_or_imp, and_assoc]
  have first : ∃ M, positiveMethods pos = some M ∧ Canonical M ∧ ∀ x, Mem x M ↔ MethodAt x fun m => Among pos (Matches · m) := by
    cases pos with
    | none =>
      refine ⟨MethodSet.make true, rfl, canonical_singleton.2 (by decide), fun x => ?_⟩
      have : Mem x (MethodSet.make true) ↔ 0 ≤ x ∧ x ≤ 8 := mem_singleton
      rw [this]
      have hlen : MethodSet.allMethods.length = 9 := rfl
      constructor
      · intro h
        refine ⟨x.toNat, by omega, _, List.getElem?_eq_getElem (by omega), among_none⟩
      · rintro ⟨n, rfl, m, h, _⟩
        have := (List.getElem?_eq_some_iff.1 h).1
        omega
    | some l =>
      obtain ⟨M, e, c, m⟩ := ors l (MethodSet.make false) (fun _ => False) (hp l rfl).2 canonical_nil (fun x => by
        simp only [MethodAt, and_false, exists_false, iff_false]; exact not_mem_nil)
      refine ⟨M, e, c, fun x => (m x).trans ?_⟩
      simp only [false_or, among_some (hp l rfl).1]
  obtain ⟨M1, e1, c1, m1⟩ := first
  obtain ⟨M, e, c, m⟩ := subs (neg.getD []) M1 _ (listOk_getD hn) c1 m1
  refine ⟨M, by unfold methodsSet; rw [e1, Option.bind_some, e], c, fun x => (m x).trans ?_⟩
  simp only [apart_iff]

/-! ### Hosts and paths -/

/-- The part of a regular expression for a letter. -/
def rxLetter (a : Char) : RxAtom := if a = '.' then .dot else .chr a

theorem rxText_append (s t : List RxAtom) : rxText (s ++ t) = rxText s ++ rxText t := List.flatMap_append

theorem rxLang_append (s t : List RxAtom) (w : List Char) : rxLang (s ++ t) w ↔ ∃ u v, w = u ++ v ∧ rxLang s u ∧ rxLang t v := by
  induction s generalizing w with
  | nil =>
    constructor
    · exact fun h => ⟨[], w, rfl, rfl, h⟩
    · rintro ⟨u, v, rfl, hu, hv⟩
      have hu : u = [] := hu
      subst hu; exact hv
  | cons a s ih =>
    constructor
    · rintro ⟨u, v, rfl, hu, hv⟩
      obtain ⟨u', v', rfl, hu', hv'⟩ := (ih v).1 hv
      exact ⟨u ++ u', v', by simp, ⟨u, u', rfl, hu, hu'⟩, hv'⟩
    · rintro ⟨_, v, rfl, ⟨u, u', rfl, hu, hu'⟩, hv⟩
      exact ⟨u, u' ++ v, by simp, hu, (ih _).2 ⟨u', v, rfl, hu', hv⟩⟩

theorem letters_lang (s w : List Char) : rxLang (s.map rxLetter) w ↔ w = s := by
  induction s generalizing w with
  | nil => exact Iff.rfl
  | cons a s ih =>
    have ha : ∀ u, (rxLetter a).Lang u ↔ u = [a] := fun u => by
      unfold rxLetter
      split
      · rename_i h; subst h; exact Iff.rfl
      · exact Iff.rfl
    constructor
    · rintro ⟨u, v, rfl, hu, hv⟩
      rw [(ha u).1 hu, (ih v).1 hv]; rfl
    · rintro rfl
      exact ⟨[a], s, rfl, (ha _).2 rfl, (ih s).2 rfl⟩

theorem letters_text (s : List Char) : rxText (s.map rxLetter) = replaceChar '.' "[.]".toList s := by
  unfold rxText replaceChar
  rw [List.flatMap_map]
  congr 1
  funext a
  unfold rxLetter
  split <;> rfl

theorem letters_plain {s : List Char} (hs : ∀ a ∈ s, Letter a) : rxPlain (s.map rxLetter) := by
  intro a ha
  obtain ⟨b, hb, e⟩ := List.mem_map.1 ha
  unfold rxLetter at e
  split at e
  · cases e
  · cases e; rename_i h; exact ⟨hs _ hb, h⟩

theorem plain_append {s t : List RxAtom} (hs : rxPlain s) (ht : rxPlain t) : rxPlain (s ++ t) := fun a ha =>
  (List.mem_append.1 ha).elim (hs a) (ht a)

theorem plain_words {t : List RxAtom} (ht : rxPlain t) {w : List Char} (h : rxLang t w) : ∀ a ∈ w, Letter a := by
  induction t generalizing w with
  | nil =>
    have h : w = [] := h
    subst h; intro a ha; simp at ha
  | cons x t ih =>
    obtain ⟨u, v, rfl, hu, hv⟩ := h
    intro a ha
    rcases List.mem_append.1 ha with ha | ha
    · cases x with
      | chr b =>
        have hu : u = [b] := hu
        subst hu
        rw [List.mem_singleton] at ha
        subst ha; exact (ht a List.mem_cons_self).1
      | dot =>
        have hu : u = ['.'] := hu
        subst hu
        rw [List.mem_singleton] at ha
        subst ha; exact Or.inr (Or.inr (Or.inl rfl))
      | star => exact hu a ha
      | plus => exact hu.2 a ha
    · exact ih (fun a ha => ht a (List.mem_cons_of_mem _ ha)) hv a ha

theorem star_replace {s : List Char} (hs : '*' ∉ s) : '*' ∉ replaceChar '.' "[.]".toList s := by
  unfold replaceChar
  rw [List.mem_flatMap]
  rintro ⟨a, ha, h⟩
  split at h
  · exact absurd h (by decide)
  · rw [List.mem_singleton] at h; subst h; exact hs ha

theorem replace_none {a : Char} {t s : List Char} (hs : a ∉ s) : replaceChar a t s = s := by
  unfold replaceChar
  induction s with
  | nil => rfl
  | cons b s ih =>
    rw [List.flatMap_cons, if_neg (by rintro rfl; simp at hs), ih (by intro h; exact hs (List.mem_cons_of_mem _ h))]
    rfl

theorem replace_append (a : Char) (t s s' : List Char) : replaceChar a t (s ++ s') = replaceChar a t s ++ replaceChar a t s' := List.flatMap_append

theorem replace_ne {s : List Char} (hs : s ≠ []) : replaceChar '.' "[.]".toList s ≠ [] := by
  cases s with
  | nil => exact absurd rfl hs
  | cons a s =>
    unfold replaceChar
    rw [List.flatMap_cons]
    split <;> simp

section
variable {V : Env} {c : Container} {rg : PodReg}

theorem strValue_sem (hw : ∀ a, Letter a → a ∉ ['.', '/', '-'] → V.word a = true) {s : List Char} (hs : StrPattern s) :
    ∃ t, rxPlain t ∧ strValue V s = some (rxText t) ∧ ∀ w, (∀ a ∈ w, Letter a) → (rxLang t w ↔ Matches s w) := by
  obtain ⟨hp, hl⟩ := hs
  have hall : (!s.all (fun a => V.word a || decide (a ∈ ['*', '.', '/', '-']))) = false := by
    rw [Bool.not_eq_false', List.all_eq_true]
    intro a ha
    rw [Bool.or_eq_true, decide_eq_true_eq]
    rcases hl a ha with h | rfl
    · by_cases hm : a ∈ ['.', '/', '-']
      · exact Or.inr (List.mem_cons_of_mem _ hm)
      · exact Or.inl (hw a h hm)
    · exact Or.inr (by decide)
  unfold strValue
  rw [if_neg (by rw [hall]; simp)]
  dsimp only
  have hletters : ∀ t : List Char, '*' ∉ t → (∀ a ∈ t, a ∈ s) → ∀ a ∈ t, Letter a := fun t h1 h2 a ha =>
    (hl a (h2 a ha)).resolve_right (by rintro rfl; exact h1 ha)
  rcases hp with h | rfl | ⟨t, ht, h1, rfl | rfl⟩
  · rw [if_neg (star_replace h)]
    refine ⟨s.map rxLetter, letters_plain (hletters s h (fun _ h => h)), by rw [letters_text], fun w _ => ?_⟩
    rw [letters_lang, matches_exact h]
  · refine ⟨[.plus], fun a ha => by simp at ha, rfl, fun w hw => ?_⟩
    rw [matches_presence]
    constructor
    · rintro ⟨u, v, rfl, ⟨hu, _⟩, _⟩
      simp [hu]
    · exact fun h => ⟨w, [], by simp, ⟨h, hw⟩, rfl⟩
  · have ht' := hletters t h1 (fun a ha => List.mem_cons_of_mem _ ha)
    have e : replaceChar '.' "[.]".toList ('*' :: t) = '*' :: replaceChar '.' "[.]".toList t := rfl
    have h1' := star_replace h1
    rw [e, if_pos List.mem_cons_self, if_neg, if_neg, if_pos (Or.inl (by rfl))]
    · refine ⟨.star :: t.map rxLetter, plain_append (s := [.star]) (fun a ha => by simp at ha) (letters_plain ht'), ?_, fun w hw => ?_⟩
      · congr 1
        rw [show ('*' :: replaceChar '.' "[.]".toList t) = ['*'] ++ replaceChar '.' "[.]".toList t from rfl, replace_append, replace_none h1',
          ← letters_text]
        rfl
      · rw [matches_suffix ht h1]
        constructor
        · rintro ⟨u, v, rfl, _, hv⟩
          rw [letters_lang] at hv; subst hv; exact ⟨u, rfl⟩
        · rintro ⟨u, rfl⟩
          exact ⟨u, t, rfl, fun a ha => hw a (List.mem_append_left _ ha), (letters_lang _ _).2 rfl⟩
    · simp only [List.cons.injEq, true_and]; exact replace_ne ht
    · rw [(valid_iff _).2 (Or.inr (Or.inr ⟨_, replace_ne ht, h1', Or.inl rfl⟩))]; simp
  · have ht' := hletters t h1 (fun a ha => List.mem_append_left _ ha)
    have e : replaceChar '.' "[.]".toList (t ++ ['*']) = replaceChar '.' "[.]".toList t ++ ['*'] := replace_append _ _ _ _
    have h1' := star_replace h1
    rw [e, if_pos (by simp), if_neg, if_neg, if_pos (Or.inr (by simp))]
    · refine ⟨t.map rxLetter ++ [.star], plain_append (letters_plain ht') (fun a ha => by simp at ha), ?_, fun w hw => ?_⟩
      · congr 1
        rw [replace_append, replace_none h1', ← letters_text, rxText_append]
        rfl
      · rw [matches_prefix ht h1, rxLang_append]
        constructor
        · rintro ⟨u, v, rfl, hu, _⟩
          rw [letters_lang] at hu; subst hu; exact ⟨v, rfl⟩
        · rintro ⟨v, rfl⟩
          exact ⟨t, v, rfl, (letters_lang _ _).2 rfl, v, [], by simp, fun a ha => hw a (List.mem_append_right _ ha), rfl⟩
    · intro h
      have := replace_ne ht
      cases hr : replaceChar '.' "[.]".toList t with
      | nil => exact this hr
      | cons a r => rw [hr] at h; simp at h
    · rw [(valid_iff _).2 (Or.inr (Or.inr ⟨_, replace_ne ht, h1', Or.inr rfl⟩))]; simp

theorem valuesRegex_sem (hw : ∀ a, Letter a → a ∉ ['.', '/', '-'] → V.word a = true) {l : List (List Char)} (hl : l ≠ []) (hs : ∀ s ∈ l, StrPattern s) :
    ∃ r : List (List RxAtom), r ≠ [] ∧ (∀ t ∈ r, rxPlain t) ∧ valuesRegex V l = some (List.intercalate ['|'] (r.map rxText)) ∧
      ∀ w, (∀ a ∈ w, Letter a) → ((∃ t ∈ r, rxLang t w) ↔ ∃ s ∈ l, Matches s w) := by
  have key : ∀ l : List (List Char), (∀ s ∈ l, StrPattern s) → ∃ r : List (List RxAtom), r.length = l.length ∧ (∀ t ∈ r, rxPlain t) ∧
      l.mapM (strValue V) = some (r.map rxText) ∧ ∀ w, (∀ a ∈ w, Letter a) → ((∃ t ∈ r, rxLang t w) ↔ ∃ s ∈ l, Matches s w) := by
    intro l
    induction l with
    | nil => exact fun _ => ⟨[], rfl, by simp, rfl, by simp⟩
    | cons s l ih =>
      intro h
      obtain ⟨t, p, e, m⟩ := strValue_sem hw (h s List.mem_cons_self)
      obtain ⟨r, n, p2, e2, m2⟩ := ih fun s hs => h s (List.mem_cons_of_mem _ hs)
      refine ⟨t :: r, by simp [n], ?_, by rw [List.mapM_cons, e, e2]; rfl, fun w hw => ?_⟩
      · simp only [List.mem_cons, forall_eq_or_imp]; exact ⟨p, p2⟩
      · simp only [List.mem_cons, exists_eq_or_imp]
        rw [m w hw, m2 w hw]
  obtain ⟨r, n, p, e, m⟩ := key l hs
  refine ⟨r, by rintro rfl; exact hl (List.length_eq_zero_iff.1 n.symm), p, ?_, m⟩
  unfold valuesRegex
  rw [if_neg (by simpa using hl), e]; rfl

variable {V2 X2 : Type} {A2 : VAlg Dim V2 X2} {W2 : Dim → V2 → Prop} {dfa : List Char → V2} {word : X2 → List Char} {D : V2 → Prop}

/-- The values of hosts or paths. -/
theorem dimValues_sem (hw : ∀ a, Letter a → a ∉ ['.', '/', '-'] → V.word a = true) (hD : DfaLib A2 W2 dfa word D) {d : Dim} (hd : d.isDfa = true)
    (hdom : ∀ x, A2.mem x (A2.dom d) = true → ∀ a ∈ word x, Letter a) {pos neg : Option (List (List Char))} (hp : ListOk pos StrPattern)
    (hn : ListOk neg StrPattern) (hin : ∀ l, pos = some l → ∀ s ∈ l, ∀ x, (∀ a ∈ word x, Letter a) → Matches s (word x) → A2.mem x (A2.dom d) = true) :
    ∃ o, dimValues A2 dfa V d pos neg = some o ∧ (∀ v, o = some v → W2 d v) ∧
      ∀ x, A2.mem x (A2.dom d) = true → ((∀ v, o = some v → A2.mem x v = true) ↔ Among pos (Matches · (word x)) ∧ Apart neg (Matches · (word x))) := by
  have lang : ∀ l, l ≠ [] → (∀ s ∈ l, StrPattern s) → ∃ r, valuesRegex V l = some r ∧ D (dfa r) ∧
      ∀ x, A2.mem x (dfa r) = true ↔ (∀ a ∈ word x, Letter a) ∧ ∃ s ∈ l, Matches s (word x) := by
    intro l hl hs
    obtain ⟨r, hr, p, e, m⟩ := valuesRegex_sem hw hl hs
    obtain ⟨d1, d2⟩ := hD.regex r hr p
    refine ⟨_, e, d1, fun x => (d2 x).trans ?_⟩
    constructor
    · rintro ⟨t, ht, h⟩
      have := plain_words (p t ht) h
      exact ⟨this, (m _ this).1 ⟨t, ht, h⟩⟩
    · rintro ⟨h1, h2⟩
      exact (m _ h1).2 h2
  have first : ∃ v, positiveDfa A2 dfa V d pos = some v ∧ D v ∧ ∀ x, A2.mem x v = true ↔ A2.mem x (A2.dom d) = true ∧ Among pos (Matches · (word x)) := by
    cases pos with
    | none => exact ⟨_, rfl, hD.dom d hd, fun x => ⟨fun h => ⟨h, among_none⟩, And.left⟩⟩
    | some l =>
      obtain ⟨r, e, d1, m⟩ := lang l (hp l rfl).1 (hp l rfl).2
      refine ⟨_, by unfold positiveDfa; dsimp only; rw [e]; rfl, d1, fun x => ?_⟩
      rw [m, among_some (hp l rfl).1]
      exact ⟨fun ⟨h1, s, hs, h2⟩ => ⟨hin l rfl s hs x h1 h2, s, hs, h2⟩, fun ⟨h1, h2⟩ => ⟨hdom x h1, h2⟩⟩
  by_cases h0 : pos = none ∧ neg = none
  · obtain ⟨rfl, rfl⟩ := h0
    exact ⟨none, rfl, fun v h => (by cases h), fun x _ => ⟨fun _ => ⟨among_none, apart_none⟩, fun _ v h => by cases h⟩⟩
  · obtain ⟨v, e, d1, m⟩ := first
    cases neg with
    | none =>
      cases pos with
      | none => exact absurd ⟨rfl, rfl⟩ h0
      | some l =>
        refine ⟨some v, by unfold dimValues; dsimp only; rw [e]; rfl, fun v' h => ?_, fun x hx => ?_⟩
        · cases h; exact hD.legal hd d1 fun x hx => ((m x).1 hx).1
        · constructor
          · exact fun h => ⟨((m x).1 (h v rfl)).2, apart_none⟩
          · rintro ⟨h, _⟩ v' e'; cases e'; exact (m x).2 ⟨hx, h⟩
    | some l =>
      obtain ⟨r, er, dr, mr⟩ := lang l (hn l rfl).1 (hn l rfl).2
      obtain ⟨s1, s2⟩ := hD.sub d1 dr
      refine ⟨some (A2.sub v (dfa r)), ?_, fun v' h => ?_, fun x hx => ?_⟩
      · unfold dimValues
        cases pos <;> (dsimp only; rw [e, Option.bind_some, er]; rfl)
      · cases h
        refine hD.legal hd s1 fun x hx => ?_
        rw [s2, Bool.and_eq_true] at hx
        exact ((m x).1 hx.1).1
      · have key : A2.mem x (A2.sub v (dfa r)) = true ↔ Among pos (Matches · (word x)) ∧ Apart (some l) (Matches · (word x)) := by
          rw [s2, Bool.and_eq_true, Bool.not_eq_true', ← Bool.not_eq_true, m, mr]
          have hl := hdom x hx
          constructor
          · rintro ⟨⟨_, h1⟩, h2⟩
            exact ⟨h1, fun l' e' s hs hm => by cases e'; exact h2 ⟨hl, s, hs, hm⟩⟩
          · rintro ⟨h1, h2⟩
            exact ⟨⟨hx, h1⟩, fun ⟨_, s, hs, hm⟩ => h2 l rfl s hs hm⟩
        rw [← key]
        exact ⟨fun h => h _ rfl, fun h v' e' => by cases e'; exact h⟩

end
end IstioParser
end Verif
