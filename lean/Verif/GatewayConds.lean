import Verif.GatewayHosts
/-!
Lemmas for C59: what the code makes of the conditions of routes: paths, methods, names of TLS and gateways.
-/
namespace Verif
open ISet IpBlock PeerSet

namespace GtwParser
open Container CalicoParser IstioParser IngressParser SidecarParser

section
variable {V2 X2 : Type} {A2 : VAlg Dim V2 X2} {W2 : Dim → V2 → Prop} {dfa : List Char → V2} {word : X2 → List Char} {D : V2 → Prop}

/-! ### Paths -/

/-- What the code makes of a path. -/
def UriR (s : StrMatch) (w : List Char) : Prop :=
  if s.kind = .exact then w = s.text else s.text = ['/'] ∨ w = dropSlash s.text ∨ ∃ r, w = dropSlash s.text ++ '/' :: r

theorem dropSlash_cases (s : List Char) : s = dropSlash s ∨ s = dropSlash s ++ ['/'] := by
  unfold dropSlash
  split
  · rename_i h
    obtain ⟨t, rfl⟩ := List.getLast?_eq_some_iff.1 h
    right; simp
  · exact Or.inl rfl

theorem dropSlash_head {t : List Char} (h : '/' :: t ≠ ['/']) : ∃ t', dropSlash ('/' :: t) = '/' :: t' := by
  unfold dropSlash
  split
  · cases t with
    | nil => exact absurd rfl h
    | cons a t => exact ⟨(a :: t).dropLast, rfl⟩
  · exact ⟨t, rfl⟩

theorem uriDfa_sem (hD : IngressLib A2 W2 dfa word D) (L2 : A2.Lawful W2) {s : StrMatch} (hs : s.UriTame) :
    ∃ v, uriDfa A2 dfa (some s) = some v ∧ W2 .paths v ∧ A2.truthy v = true ∧
      ∀ x, A2.mem x (A2.dom .paths) = true → (A2.mem x v = true ↔ UriR s (word x)) := by
  obtain ⟨hk, t, ht, hlet⟩ := hs
  have hlet' : ∀ a ∈ '/' :: t, Letter a ∧ a ≠ '.' := fun a ha => by
    rcases List.mem_cons.1 ha with rfl | ha
    · exact ⟨slash_letter, by decide⟩
    · exact hlet a ha
  obtain ⟨x0, hx0⟩ := hD.every ('/' :: t) fun a ha => (hlet' a ha).1
  unfold uriDfa UriR
  dsimp only
  rcases hk with hk | hk
  · rw [hk]
    simp only [if_true]
    rw [ht]
    obtain ⟨d1, d2⟩ := hD.regex [('/' :: t).map rxLetter] (by simp) (by simpa using letters_plain fun a ha => (hlet' a ha).1)
    have et : List.intercalate ['|'] ([('/' :: t).map rxLetter].map rxText) = '/' :: t := by
      rw [List.map_singleton, letters_text, replace_none (fun h => (hlet' _ h).2 rfl)]
      simp [List.intercalate]
    rw [et] at d1 d2
    have mem : ∀ x, A2.mem x (dfa ('/' :: t)) = true ↔ word x = '/' :: t := fun x => by
      rw [d2]; simp only [List.mem_singleton, exists_eq_left, letters_lang]
    have wf : W2 .paths (dfa ('/' :: t)) := hD.legal rfl d1 fun x hx => (hD.paths x).2 ⟨t, (mem x).1 hx, fun a ha => (hlet a ha).1⟩
    exact ⟨_, rfl, wf, (L2.truthy_iff wf).2 ⟨x0, (mem x0).2 hx0⟩, fun x _ => mem x⟩
  · rw [hk]
    simp only [reduceCtorEq, if_false]
    rw [ht]
    unfold prefixDfa
    by_cases h0 : '/' :: t = ['/']
    · rw [if_pos h0]
      exact ⟨_, rfl, L2.wf_dom _, L2.dom_truthy _, fun x hx => ⟨fun _ => Or.inl h0, fun _ => hx⟩⟩
    · rw [if_neg h0, opt_text]
      obtain ⟨t', ht'⟩ := dropSlash_head h0
      have hlt : ∀ a ∈ dropSlash ('/' :: t), Letter a ∧ a ≠ '.' := fun a ha => hlet' a (dropSlash_sub ha)
      obtain ⟨d1, d2⟩ := hD.opt _ hlt
      have wf : W2 .paths (dfa (dropSlash ('/' :: t) ++ "(/[.\\w/\\-]*)?".toList)) := hD.legal rfl d1 fun x hx => by
        rw [hD.paths]
        rcases (d2 x).1 hx with h | ⟨r, h, hr⟩
        · exact ⟨t', by rw [h, ht'], fun a ha => (hlt a (by rw [ht']; exact List.mem_cons_of_mem _ ha)).1⟩
        · refine ⟨t' ++ '/' :: r, by rw [h, ht']; rfl, fun a ha => ?_⟩
          rcases List.mem_append.1 ha with ha | ha
          · exact (hlt a (by rw [ht']; exact List.mem_cons_of_mem _ ha)).1
          · rcases List.mem_cons.1 ha with rfl | ha
            · exact slash_letter
            · exact hr a ha
      obtain ⟨x1, hx1⟩ := hD.every (dropSlash ('/' :: t)) fun a ha => (hlt a ha).1
      refine ⟨_, rfl, wf, (L2.truthy_iff wf).2 ⟨x1, (d2 x1).2 (Or.inl hx1)⟩, fun x hx => ?_⟩
      rw [d2, or_iff_right h0]
      refine or_congr_right ?_
      constructor
      · rintro ⟨r, h, _⟩; exact ⟨r, h⟩
      · rintro ⟨r, h⟩
        refine ⟨r, h, fun a ha => ?_⟩
        obtain ⟨u, hu, hul⟩ := (hD.paths x).1 hx
        have : a ∈ '/' :: u := by rw [← hu, h]; simp [ha]
        rcases List.mem_cons.1 this with rfl | h'
        · exact slash_letter
        · exact hul a h'

theorem uriR_says {s : StrMatch} (hs : s.UriTame) {w : List Char} (hp : UriPlain s w) : UriR s w ↔ s.Says w := by
  unfold UriR StrMatch.Says
  rcases hs.1 with hk | hk
  · rw [hk, if_pos rfl]
  · rw [hk, if_neg (by decide)]
    dsimp only
    obtain ⟨p1, p2⟩ := hp hk
    by_cases h0 : s.text = ['/']
    · exact ⟨fun _ => h0 ▸ p1 h0, fun _ => Or.inl h0⟩
    · rw [or_iff_right h0]
      have p2 := p2 h0
      rw [trim_eq] at p2
      have hc := dropSlash_cases s.text
      constructor
      · rintro (h | ⟨r, h⟩)
        · rcases p2 (h ▸ List.prefix_rfl) with h' | h'
          · exact h' ▸ List.prefix_rfl
          · have := h'.length_le
            rw [h] at this
            rw [List.length_append, List.length_singleton] at this
            omega
        · rcases hc with hc | hc
          · rw [hc, h]; exact List.prefix_append _ _
          · rw [hc, h]; exact ⟨r, by simp⟩
      · intro h
        have hd : dropSlash s.text <+: w := by
          rcases hc with hc | hc
          · rw [← hc]; exact h
          · rw [hc] at h; exact (List.prefix_append _ _).trans h
        rcases p2 hd with h' | ⟨r, h'⟩
        · rcases hc with hc | hc
          · exact Or.inl (h'.trans hc)
          · exact Or.inr ⟨[], h'.trans hc⟩
        · exact Or.inr ⟨r, by rw [← h']; simp⟩

/-- The paths of a list of matches. -/
def uriFold (A2 : VAlg Dim V2 X2) (dfa : List Char → V2) (items : List HttpMatch) (o : Option V2) : Option V2 :=
  items.foldl (fun o m => match (uriDfa A2 dfa m.uri).filter A2.truthy with | none => o | some v => some (joinDfa A2 o v)) o

theorem uriFold_sem (hD : IngressLib A2 W2 dfa word D) (L2 : A2.Lawful W2) (items : List HttpMatch) (hi : ∀ i ∈ items, ∀ s, i.uri = some s → s.UriTame)
    {o : Option V2} {G : X2 → Prop} (ho : Collected A2 W2 .paths o G) :
    (Collected A2 W2 .paths (uriFold A2 dfa items o) fun x => G x ∨ ∃ i ∈ items, ∃ s, i.uri = some s ∧ UriR s (word x)) ∧
      (uriFold A2 dfa items o = none ↔ o = none ∧ ∀ i ∈ items, i.uri = none) := by
  unfold uriFold
  induction items generalizing o G with
  | nil => exact ⟨⟨ho.1, fun x hx => (ho.2 x hx).trans (by simp)⟩, by simp⟩
  | cons m items ih =>
    have hi' : ∀ i ∈ items, ∀ s, i.uri = some s → s.UriTame := fun i h => hi i (List.mem_cons_of_mem _ h)
    rw [List.foldl_cons]
    cases hu : m.uri with
    | none =>
      obtain ⟨h1, h2⟩ := ih hi' ho
      refine ⟨⟨h1.1, fun x hx => (h1.2 x hx).trans ?_⟩, ?_⟩
      · simp [hu]
      · rw [show uriDfa A2 dfa none = none from rfl, Option.filter_none]
        exact h2.trans (by simp [hu])
    | some s =>
      obtain ⟨v, e, wv, tv, mv⟩ := uriDfa_sem hD L2 (hi m List.mem_cons_self s hu)
      rw [e, Option.filter_some, if_pos tv]
      dsimp only
      obtain ⟨h1, h2⟩ := ih hi' (ho.join L2 wv)
      refine ⟨⟨h1.1, fun x hx => (h1.2 x hx).trans ?_⟩, ?_⟩
      · simp only [mv x hx, List.mem_cons, exists_eq_or_imp, hu, Option.some.injEq, exists_eq_left', or_assoc]
      · rw [h2]; simp [hu]

/-! ### Methods -/

/-- The methods are those of which `T` holds. -/
def MethodsAre (M : ISet) (T : List Char → Prop) : Prop := Canonical M ∧ ∀ x, Mem x M ↔ MethodAt x T

theorem regex_sem (r : String → Bool) {T : List Char → Prop} (h : ∀ m ∈ MethodSet.allMethods, r m = true ↔ T m.toList) :
    MethodsAre (MethodSet.addRegex (MethodSet.make false) r) T := by
  obtain ⟨h1, h2⟩ := MethodSet.addRegex_spec (MethodSet.make false) .empty r
  refine ⟨C04_reachable_canonical h1, fun x => ?_⟩
  rw [h2, or_iff_right (show ¬ Mem x (MethodSet.make false) from not_mem_nil)]
  constructor
  · rintro ⟨m, hm, hr⟩
    obtain ⟨_, _, hmem⟩ := MethodSet.resolve_valid hm
    unfold MethodSet.resolve at hm
    rw [if_pos hmem] at hm
    cases hm
    have hlt := List.idxOf_lt_length_of_mem hmem
    exact ⟨_, rfl, m, by rw [List.getElem?_eq_getElem hlt, List.getElem_idxOf hlt], (h m hmem).1 hr⟩
  · rintro ⟨n, rfl, m, hn, hT⟩
    obtain ⟨hlt, e⟩ := List.getElem?_eq_some_iff.1 hn
    have hmem : m ∈ MethodSet.allMethods := e ▸ List.getElem_mem hlt
    refine ⟨m, ?_, (h m hmem).2 hT⟩
    unfold MethodSet.resolve
    rw [if_pos hmem, ← e, MethodSet.nodup.idxOf_getElem]

theorem methods_all : MethodsAre (MethodSet.make true) fun _ => True := by
  have e : MethodSet.make true = [⟨0, 8⟩] := by decide
  refine ⟨by rw [e]; exact canonical_singleton.2 (by decide), fun x => ?_⟩
  rw [e, mem_singleton]
  constructor
  · rintro ⟨h1, h2⟩
    dsimp only at h1 h2
    have hlt : x.toNat < MethodSet.allMethods.length := by
      have : MethodSet.allMethods.length = 9 := by decide
      omega
    exact ⟨x.toNat, by omega, _, List.getElem?_eq_getElem hlt, trivial⟩
  · rintro ⟨n, rfl, m, hm, _⟩
    obtain ⟨hlt, _⟩ := List.getElem?_eq_some_iff.1 hm
    have : MethodSet.allMethods.length = 9 := by decide
    constructor <;> dsimp only <;> omega

theorem MethodsAre.truthy {M : ISet} {T : List Char → Prop} (h : MethodsAre M T) {m : String} (hm : m ∈ MethodSet.allMethods) (hT : T m.toList) :
    ISet.truthy M = true := by
  rw [truthy_spec M h.1]
  obtain ⟨n, hn, e⟩ := List.getElem_of_mem hm
  exact ⟨n, (h.2 _).2 ⟨n, rfl, m, by rw [List.getElem?_eq_getElem hn, e], hT⟩⟩

theorem methods_prefix : ∀ x ∈ MethodSet.allMethods, ∀ y ∈ MethodSet.allMethods, x.toList <+: y.toList → x = y := by decide +kernel

theorem methodSet_sem {rx : List Char → String → Bool} (hr : RxOk rx) {s : StrMatch} (hs : s.MethodTame) :
    ∃ M, methodSet rx (some s) = some M ∧ ISet.truthy M = true ∧ MethodsAre M s.Says := by
  obtain ⟨hup, ⟨hk, y, hy, hty⟩ | ⟨hk, y, hy, hty⟩⟩ := hs
  · have h : MethodsAre (MethodSet.addRegex (MethodSet.make false) (rx s.text)) s.Says := by
      refine regex_sem _ fun m hm => ?_
      rw [(hr s.text hup m).1]
      unfold StrMatch.Says
      rw [hk]
      dsimp only
      constructor
      · intro h
        rw [hty] at h ⊢
        rw [methods_prefix y hy m hm h]
      · intro h
        rw [h]
    refine ⟨_, ?_, h.truthy hy ?_, h⟩
    · unfold methodSet
      dsimp only
      rw [hk]
    · unfold StrMatch.Says
      rw [hk]; exact hty.symm
  · have e : anyText = "[.\\w/\\-]*".toList := by decide
    have h : MethodsAre (MethodSet.addRegex (MethodSet.make false) (rx (s.text ++ anyText))) s.Says := by
      refine regex_sem _ fun m hm => ?_
      rw [e, (hr s.text hup m).2]
      unfold StrMatch.Says
      rw [hk]
    refine ⟨_, ?_, h.truthy hy ?_, h⟩
    · unfold methodSet
      dsimp only
      rw [hk]
    · unfold StrMatch.Says
      rw [hk]; exact hty

/-- The methods of a list of matches. -/
def methodFold (rx : List Char → String → Bool) (items : List HttpMatch) (o : Option ISet) : Option ISet :=
  items.foldl (fun o m => some (joinMethods o (((methodSet rx m.method).filter ISet.truthy).getD (MethodSet.make true)))) o

theorem joinMethods_sem {o : Option ISet} {G T : List Char → Prop} (ho : match o with | none => ∀ w, ¬ G w | some M => MethodsAre M G)
    {M : ISet} (hM : MethodsAre M T) : MethodsAre (joinMethods o M) fun w => G w ∨ T w := by
  have or_at : ∀ x, MethodAt x (fun w => G w ∨ T w) ↔ MethodAt x G ∨ MethodAt x T := fun x => by
    unfold MethodAt
    constructor
    · rintro ⟨n, h1, m, h2, h3 | h3⟩
      · exact Or.inl ⟨n, h1, m, h2, h3⟩
      · exact Or.inr ⟨n, h1, m, h2, h3⟩
    · rintro (⟨n, h1, m, h2, h3⟩ | ⟨n, h1, m, h2, h3⟩)
      · exact ⟨n, h1, m, h2, Or.inl h3⟩
      · exact ⟨n, h1, m, h2, Or.inr h3⟩
  cases o with
  | none =>
    refine ⟨hM.1, fun x => (hM.2 x).trans ?_⟩
    rw [or_at, or_iff_right]
    rintro ⟨_, _, _, _, h⟩
    exact ho _ h
  | some N =>
    have ho : MethodsAre N G := ho
    unfold joinMethods
    dsimp only
    by_cases ht : ISet.truthy N = true
    · rw [if_pos ht]
      have h := union_spec N M ho.1 hM.1.1
      exact ⟨h.1, fun x => by rw [h.2, ho.2, hM.2, or_at]⟩
    · rw [if_neg ht]
      refine ⟨hM.1, fun x => (hM.2 x).trans ?_⟩
      rw [or_at, or_iff_right]
      intro h
      exact ht ((truthy_spec N ho.1).2 ⟨x, (ho.2 x).2 h⟩)

theorem methodFold_sem {rx : List Char → String → Bool} (hr : RxOk rx) (items : List HttpMatch) (hi : ∀ i ∈ items, ∀ s, i.method = some s → s.MethodTame)
    {o : Option ISet} {G : List Char → Prop} (ho : match o with | none => ∀ w, ¬ G w | some M => MethodsAre M G) :
    (match methodFold rx items o with
      | none => ∀ w, ¬ (G w ∨ ∃ i ∈ items, ∀ s, i.method = some s → s.Says w)
      | some M => MethodsAre M fun w => G w ∨ ∃ i ∈ items, ∀ s, i.method = some s → s.Says w) ∧ (items ≠ [] → methodFold rx items o ≠ none) := by
  unfold methodFold
  induction items generalizing o G with
  | nil =>
    refine ⟨?_, fun h => absurd rfl h⟩
    have : (fun w => G w ∨ ∃ i ∈ ([] : List HttpMatch), ∀ s, i.method = some s → s.Says w) = G := by funext w; simp
    cases o with
    | none => intro w; simpa using ho w
    | some M => show MethodsAre M _; rw [this]; exact ho
  | cons m items ih =>
    have hi' : ∀ i ∈ items, ∀ s, i.method = some s → s.MethodTame := fun i h => hi i (List.mem_cons_of_mem _ h)
    rw [List.foldl_cons]
    have one : MethodsAre (((methodSet rx m.method).filter ISet.truthy).getD (MethodSet.make true)) fun w => ∀ s, m.method = some s → s.Says w := by
      cases hm : m.method with
      | none =>
        have : (fun w => ∀ s, (none : Option StrMatch) = some s → s.Says w) = fun _ => True := by funext w; simp
        rw [this]
        exact methods_all
      | some s =>
        obtain ⟨M, e, t, h⟩ := methodSet_sem hr (hi m List.mem_cons_self s hm)
        rw [e, Option.filter_some, if_pos t]
        have : (fun w => ∀ s', some s = some s' → s'.Says w) = s.Says := by funext w; simp
        rw [this]
        exact h
    obtain ⟨h1, h2⟩ := ih hi' (o := some (joinMethods o _)) (joinMethods_sem ho one)
    have : (fun w => G w ∨ ∃ i ∈ m :: items, ∀ s, i.method = some s → s.Says w) =
        fun w => (G w ∨ ∀ s, m.method = some s → s.Says w) ∨ ∃ i ∈ items, ∀ s, i.method = some s → s.Says w := by
      funext w; simp [or_assoc]
    have hthis := fun w => congrFun this w
    refine ⟨?_, fun _ => ?_⟩
    · rw [this]
      simp only [hthis]
      exact h1
    · cases items with
      | nil => simp
      | cons a l => exact h2 (by simp)

/-! ### Gateways -/

/-- The names of the list, in full. -/
def Full (ns : Ns) (l : List String) (x : String) : Prop := x = "mesh" ∧ "mesh" ∈ l ∨ ∃ g ∈ l, g ≠ "mesh" ∧ x = gtwRef ns g

theorem addGateways_mem (ns : Ns) (l acc : List String) (x : String) : x ∈ addGateways ns acc l ↔ x ∈ acc ∨ Full ns l x := by
  unfold addGateways Full
  induction l generalizing acc with
  | nil => simp
  | cons g l ih =>
    rw [List.foldl_cons, ih]
    by_cases hg : g = "mesh"
    · subst hg
      rw [if_pos rfl]
      have : x ∈ (if "mesh" ∈ acc then acc else acc ++ ["mesh"]) ↔ x ∈ acc ∨ x = "mesh" := by
        split
        · rename_i h
          exact ⟨Or.inl, fun h' => h'.elim id fun e => e ▸ h⟩
        · simp
      rw [this]
      simp only [List.mem_cons, true_or, and_true, exists_eq_or_imp, ne_eq, not_true_eq_false, false_and, false_or, or_assoc]
      refine or_congr_right ?_
      constructor
      · rintro (h | h | h)
        · exact Or.inl h
        · exact Or.inl h.1
        · exact Or.inr h
      · rintro (h | h)
        · exact Or.inl h
        · exact Or.inr (Or.inr h)
    · rw [if_neg hg]
      simp only [List.mem_append, List.mem_cons, List.not_mem_nil, or_false, exists_eq_or_imp, Ne.symm hg, false_or, or_assoc, ne_eq, hg, not_false_eq_true, true_and]
      refine or_congr_right ?_
      constructor
      · rintro (h | h | h)
        · exact Or.inr (Or.inl h)
        · exact Or.inl h
        · exact Or.inr (Or.inr h)
      · rintro (h | h | h)
        · exact Or.inr (Or.inl h)
        · exact Or.inl h
        · exact Or.inr (Or.inr h)

theorem full_ne {ns : Ns} {l : List String} (h : l ≠ []) : ∃ x, Full ns l x := by
  cases l with
  | nil => exact absurd rfl h
  | cons g l =>
    by_cases hg : g = "mesh"
    · exact ⟨"mesh", Or.inl ⟨rfl, by simp [hg]⟩⟩
    · exact ⟨gtwRef ns g, Or.inr ⟨g, List.mem_cons_self, hg, rfl⟩⟩

theorem addGateways_nil (ns : Ns) (l : List String) : addGateways ns [] l = [] ↔ l = [] := by
  constructor
  · intro h
    by_cases hl : l = []
    · exact hl
    · obtain ⟨x, hx⟩ := full_ne (ns := ns) hl
      have := (addGateways_mem ns l [] x).2 (Or.inr hx)
      rw [h] at this
      exact absurd this List.not_mem_nil
  · rintro rfl; rfl

theorem gtwFold_mem (ns : Ns) (l : List (List String)) (acc : List String) (x : String) :
    x ∈ l.foldl (addGateways ns) acc ↔ x ∈ acc ∨ ∃ g ∈ l, Full ns g x := by
  induction l generalizing acc with
  | nil => simp
  | cons g l ih => rw [List.foldl_cons, ih, addGateways_mem]; simp [or_assoc]

theorem full_slash (ns : Ns) (n : String) : '/' ∈ (fullName n ns).toList := by
  rw [fullName_toList]; simp

/-- In full, the name is that of the gateway exactly if the gateway is named. -/
theorem full_named {ns : Ns} (hns : '/' ∉ ns.name.toList) {t : GatewayText} (ht : t.Tame) (l : List String) :
    Full ns l (fullName t.name t.ns) ↔ ∃ n ∈ l, t.Named ns n := by
  unfold Full
  have hm : fullName t.name t.ns ≠ "mesh" := fun e => by
    have := full_slash t.ns t.name
    rw [e] at this
    revert this; decide
  rw [or_iff_right (fun h => hm h.1)]
  refine exists_congr fun g => and_congr_right fun _ => ?_
  unfold gtwRef GatewayText.Named
  have efull : fullName t.name t.ns = t.ns.name ++ "/" ++ t.name := rfl
  constructor
  · rintro ⟨h1, h2⟩
    split at h2
    · exact Or.inl (h2.symm.trans efull)
    · obtain ⟨e1, e2⟩ := fullName_inj ht.ns hns h2
      exact Or.inr ⟨e1.symm, h1, e2⟩
  · rintro (h | ⟨h1, h2, h3⟩)
    · rw [← efull] at h
      subst h
      exact ⟨hm, by rw [if_pos (full_slash _ _)]⟩
    · refine ⟨h2, ?_⟩
      subst h1
      rw [if_neg ht.name]
      unfold fullName
      rw [h3]

theorem full_mesh {ns : Ns} (l : List String) : Full ns l "mesh" ↔ "mesh" ∈ l := by
  unfold Full
  constructor
  · rintro (h | ⟨g, hg, _, e⟩)
    · exact h.2
    · unfold gtwRef at e
      split at e
      · exact e ▸ hg
      · have := full_slash ns g
        rw [← e] at this
        exact absurd this (by decide)
  · exact fun h => Or.inl ⟨rfl, h⟩

end
end GtwParser
end Verif
