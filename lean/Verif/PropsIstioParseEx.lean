import Verif.PropsIstioParse
import Verif.PropsK8sParseEx
import Verif.PropsCalicoParseEx
/-!
C50: witnesses and examples.
-/
namespace Verif
open ISet IpBlock PeerSet

namespace IstioParser
open Container CalicoParser

namespace Ex
open K8sParser.Ex (podA podB cl reg)

/-! ### Languages satisfy what is assumed of the library of automata -/

theorem not_letter {a : Char} (h : a = '[' ∨ a = '|') : ¬ Letter a := by
  rcases h with rfl | rfl <;> (intro h; rcases h with h | h | h | h | h <;> revert h <;> decide)

theorem text_dot : RxAtom.dot.text = ['[', '.', ']'] := by decide
theorem text_star : RxAtom.star.text = ['[', '.', '\\', 'w', '/', '\\', '-', ']', '*'] := by decide
theorem text_plus : RxAtom.plus.text = ['[', '.', '\\', 'w', '/', '\\', '-', ']', '+'] := by decide
theorem text_chr (a : Char) : (RxAtom.chr a).text = [a] := rfl

theorem atom_inj {a b : RxAtom} {u v : List Char} (ha : ∀ x, a = .chr x → Letter x) (hb : ∀ x, b = .chr x → Letter x)
    (h : a.text ++ u = b.text ++ v) : a = b ∧ u = v := by
  have bad : ∀ x, Letter x → x ≠ '[' := fun x hx e => not_letter (Or.inl e) hx
  rcases a with x | _ | _ | _ <;> rcases b with y | _ | _ | _ <;>
    simp only [text_dot, text_star, text_plus, text_chr, List.cons_append, List.nil_append, List.cons.injEq] at h
  case chr.chr => exact ⟨by rw [h.1], h.2⟩
  case dot.dot => exact ⟨rfl, h.2.2.2⟩
  case star.star => exact ⟨rfl, h.2.2.2.2.2.2.2.2.2⟩
  case plus.plus => exact ⟨rfl, h.2.2.2.2.2.2.2.2.2⟩
  case chr.dot => exact absurd h.1 (bad x (ha x rfl))
  case chr.star => exact absurd h.1 (bad x (ha x rfl))
  case chr.plus => exact absurd h.1 (bad x (ha x rfl))
  case dot.chr => exact absurd h.1.symm (bad y (hb y rfl))
  case star.chr => exact absurd h.1.symm (bad y (hb y rfl))
  case plus.chr => exact absurd h.1.symm (bad y (hb y rfl))
  case dot.star => exact absurd h.2.2.1 (by decide)
  case dot.plus => exact absurd h.2.2.1 (by decide)
  case star.dot => exact absurd h.2.2.1 (by decide)
  case plus.dot => exact absurd h.2.2.1 (by decide)
  case star.plus => exact absurd h.2.2.2.2.2.2.2.2.1 (by decide)
  case plus.star => exact absurd h.2.2.2.2.2.2.2.2.1 (by decide)

/-- What can follow a sequence. -/
def Stop (u : List Char) : Prop := u = [] ∨ u.head? = some '|'

theorem atom_stop {a : RxAtom} (ha : ∀ x, a = .chr x → Letter x) (w : List Char) : ¬ Stop (a.text ++ w) := by
  have bad : ∀ x, Letter x → x ≠ '|' := fun x hx e => not_letter (Or.inr e) hx
  rcases a with x | _ | _ | _ <;> rintro (h | h) <;>
    simp only [text_dot, text_star, text_plus, text_chr, List.cons_append, List.nil_append, List.head?_cons, Option.some.injEq, reduceCtorEq] at h
  case chr.inr => exact bad x (ha x rfl) h
  all_goals exact absurd h (by decide)

theorem rx_inj : ∀ {s t : List RxAtom} {u v : List Char}, rxPlain s → rxPlain t → Stop u → Stop v → rxText s ++ u = rxText t ++ v → s = t ∧ u = v
  | [], [], u, v, _, _, _, _, h => ⟨rfl, by simpa [rxText] using h⟩
  | [], b :: t, u, v, _, ht, hu, _, h => by
    have : u = b.text ++ (rxText t ++ v) := by simpa [rxText] using h
    exact absurd (this ▸ hu) (atom_stop (fun x e => (ht x (e ▸ List.mem_cons_self)).1) _)
  | a :: s, [], u, v, hs, _, _, hv, h => by
    have : v = a.text ++ (rxText s ++ u) := by simpa [rxText] using h.symm
    exact absurd (this ▸ hv) (atom_stop (fun x e => (hs x (e ▸ List.mem_cons_self)).1) _)
  | a :: s, b :: t, u, v, hs, ht, hu, hv, h => by
    have h' : a.text ++ (rxText s ++ u) = b.text ++ (rxText t ++ v) := by simpa [rxText] using h
    obtain ⟨rfl, h1⟩ := atom_inj (fun x e => (hs x (e ▸ List.mem_cons_self)).1) (fun x e => (ht x (e ▸ List.mem_cons_self)).1) h'
    obtain ⟨rfl, h2⟩ := rx_inj (fun x hx => hs x (List.mem_cons_of_mem _ hx)) (fun x hx => ht x (List.mem_cons_of_mem _ hx)) hu hv h1
    exact ⟨rfl, h2⟩

/-- The text of alternatives. -/
def altText (r : List (List RxAtom)) : List Char := List.intercalate ['|'] (r.map rxText)

theorem alt_cons (t : List RxAtom) (r : List (List RxAtom)) : ∃ u, altText (t :: r) = rxText t ++ u ∧ Stop u ∧ (u = [] ↔ r = []) ∧
    (r ≠ [] → u = '|' :: altText r) := by
  cases r with
  | nil => exact ⟨[], by simp [altText, List.intercalate], Or.inl rfl, by simp, fun h => absurd rfl h⟩
  | cons t' r => exact ⟨'|' :: altText (t' :: r), by simp [altText, List.intercalate], Or.inr rfl, by simp, fun _ => rfl⟩

theorem alt_inj : ∀ {r s : List (List RxAtom)}, r ≠ [] → s ≠ [] → (∀ t ∈ r, rxPlain t) → (∀ t ∈ s, rxPlain t) → altText r = altText s → r = s
  | [], _, h, _, _, _, _ => absurd rfl h
  | _ :: _, [], _, h, _, _, _ => absurd rfl h
  | t :: r, t' :: s, _, _, hr, hs, h => by
    obtain ⟨u, e1, s1, n1, c1⟩ := alt_cons t r
    obtain ⟨v, e2, s2, n2, c2⟩ := alt_cons t' s
    rw [e1, e2] at h
    obtain ⟨rfl, rfl⟩ := rx_inj (hr t List.mem_cons_self) (hs t' List.mem_cons_self) s1 s2 h
    by_cases hr0 : r = []
    · rw [hr0, n2.1 (n1.2 hr0)]
    · have hs0 : s ≠ [] := fun hs0 => hr0 (n1.1 (n2.2 hs0))
      have := (c1 hr0).symm.trans (c2 hs0)
      rw [alt_inj hr0 hs0 (fun t ht => hr t (List.mem_cons_of_mem _ ht)) (fun t ht => hs t (List.mem_cons_of_mem _ ht)) (List.cons.inj this).2]

/-- The domains of the dimensions. -/
def dom : Dim → String → Prop
  | .hosts, w => ∀ a ∈ w.toList, Letter a
  | .paths, w => ∃ t, w.toList = '/' :: t ∧ ∀ a ∈ t, Letter a
  | _, _ => True

theorem dom_ne : ∀ d, ∃ x, dom d x := by
  intro d
  cases d
  case hosts => exact ⟨"", by simp [dom]⟩
  case paths => exact ⟨"/", [], by simp, by simp⟩
  all_goals exact ⟨"", trivial⟩

noncomputable abbrev LA : VAlg Dim (String → Prop) String := langAlg dom

abbrev LW : Dim → (String → Prop) → Prop := fun d a => ∀ x, a x → dom d x

theorem LL : LA.Lawful LW := langAlg_lawful dom dom_ne

/-- The language of the text of alternatives. -/
def lang (s : List Char) (w : String) : Prop := ∃ r, r ≠ [] ∧ (∀ t ∈ r, rxPlain t) ∧ altText r = s ∧ ∃ t ∈ r, rxLang t w.toList

theorem lang_alt {r : List (List RxAtom)} (h1 : r ≠ []) (h2 : ∀ t ∈ r, rxPlain t) (w : String) : lang (altText r) w ↔ ∃ t ∈ r, rxLang t w.toList := by
  constructor
  · rintro ⟨r', h3, h4, h5, h6⟩
    rwa [← alt_inj h3 h1 h4 h2 h5]
  · exact fun h => ⟨r, h1, h2, rfl, h⟩

theorem mem_lang (x : String) (v : String → Prop) : LA.mem x v = true ↔ v x := by simp [langAlg]

theorem dfaLib : DfaLib LA LW lang String.toList (fun _ => True) where
  regex := fun r h1 h2 => ⟨trivial, fun x => (mem_lang x _).trans (lang_alt h1 h2 x)⟩
  dom := fun _ _ => trivial
  sub := fun {a b} _ _ => ⟨trivial, fun x => by
    rw [Bool.eq_iff_iff, Bool.and_eq_true, mem_lang, mem_lang, Bool.not_eq_true', ← Bool.not_eq_true, mem_lang]
    rfl⟩
  legal := fun {d v} _ _ h x hx => (mem_lang x _).1 (h x ((mem_lang x v).2 hx))
  hosts := fun x => mem_lang x _
  paths := fun x => mem_lang x _

/-! ### A cluster -/

/-- The pods `default/a` and `default/b` with the service accounts `web` and `db`. -/
def env : Env where
  nss := ["default".toList, "prod".toList]
  sa := fun k => if k = "default/a" then "web".toList else "db".toList
  word := fun a => a.isAlphanum || a == '_'

theorem wordly {s : List Char} (h : s.all (fun a => env.word a || a == '-') = true) : ∀ a ∈ s, env.word a = true ∨ a = '-' := by
  intro a ha
  have := List.all_eq_true.1 h a ha
  simpa using this

theorem icluster : IstioCluster env reg cl where
  cluster := K8sParser.Ex.cluster
  inNs := by
    intro p hp _
    simp only [cl, List.mem_cons, List.not_mem_nil, or_false] at hp
    rcases hp with rfl | rfl <;> rfl
  room := by decide
  known := by
    intro p hp n hn
    simp only [cl, List.mem_cons, List.not_mem_nil, or_false] at hp
    rcases hp with rfl | rfl <;> (cases hn; decide)
  plain := by
    intro p hp n hn
    simp only [cl, List.mem_cons, List.not_mem_nil, or_false] at hp
    rcases hp with rfl | rfl <;> (cases hn; exact ⟨by decide, wordly (by decide)⟩)
  names := by decide
  accounts := by
    intro p hp k _ hk
    by_cases h : k = "default/a"
    · subst h; exact ⟨by decide, wordly (by decide)⟩
    · simp only [env, if_neg h]; exact ⟨by decide, wordly (by decide)⟩
  word := by
    intro a ha hn
    simp only [List.mem_cons, List.not_mem_nil, or_false, not_or] at hn
    rcases ha with h | h | h | h | h
    · simp [env, h]
    · subst h; rfl
    · exact absurd h hn.1
    · exact absurd h hn.2.1
    · exact absurd h hn.2.2
  notWord := by decide

/-! ### A policy -/

/-- Nothing asked. -/
def anySource : Source := ⟨none, none, none, none, none, none⟩
def anyOp : Operation := ⟨none, none, none, none, none, none, none, none⟩

/-- 10.0.0.0/8 -/
def ten : IpBlock.Cidr := ⟨⟨false, 10 * 2 ^ 24, by decide⟩, 8, by decide⟩

/-- Requests from namespaces `def…` and not from the account `db`; `GET` or `HEAD` below `/info`, or port 8080; the port is not 22. -/
def rule1 : AuthRule where
  sources := some [{ anySource with namespaces := some ["def*".toList], notPrincipals := some ["*/sa/db".toList] }]
  operations := some [{ anyOp with methods := some ["GET".toList, "HE*".toList], paths := some ["/info*".toList], notHosts := some ["*.org".toList] },
    { anyOp with ports := some [.text "8080"] }]
  conditions := some [.port none (some [.num 22])]

/-- Requests from 10.0.0.0/8. -/
def rule2 : AuthRule where
  sources := some [{ anySource with ipBlocks := some [ten] }]
  operations := none
  conditions := none

def spec : AuthSpec := ⟨some "ALLOW", .labels [("app", "db")], [rule1, rule2]⟩

def text : AuthText := ⟨K8sParser.nsDefault, some spec⟩

theorem one {α : Type} {P : α → Prop} {x : α} (h : P x) : ListOk (some [x]) P := fun l e => by
  cases e; exact ⟨by simp, fun y hy => by rw [List.mem_singleton.1 hy]; exact h⟩

theorem nothing {α : Type} {P : α → Prop} : ListOk none P := fun l e => by cases e

theorem star_end {s : List Char} (t : List Char) (h : s = t ++ ['*'] ∧ t ≠ [] ∧ '*' ∉ t) : Pattern s := Or.inr (Or.inr ⟨t, h.2.1, h.2.2, Or.inr h.1⟩)

theorem star_begin {s : List Char} (t : List Char) (h : s = '*' :: t ∧ t ≠ [] ∧ '*' ∉ t) : Pattern s := Or.inr (Or.inr ⟨t, h.2.1, h.2.2, Or.inl h.1⟩)

instance (a : Char) : Decidable (Letter a) := by unfold Letter; infer_instance

theorem rule1_tame (E : Place) : rule1.Tame E where
  sources := one ⟨one (star_end "def".toList (by decide)), nothing, nothing, one (star_begin "/sa/db".toList (by decide)), nothing, nothing,
    Or.inl (by simp), fun h => absurd rfl h, fun _ => Or.inl (by simp)⟩
  operations := fun l e => by
    cases e
    refine ⟨by simp, fun o ho => ?_⟩
    simp only [List.mem_cons, List.not_mem_nil, or_false] at ho
    rcases ho with rfl | rfl
    · refine ⟨nothing, nothing, fun l e => ?_, nothing, nothing, one ⟨star_begin ".org".toList (by decide), by decide⟩,
        one ⟨⟨star_end "/info".toList (by decide), by decide⟩, by decide⟩, nothing, by simp⟩
      cases e
      refine ⟨by simp, fun s hs => ?_⟩
      simp only [List.mem_cons, List.not_mem_nil, or_false] at hs
      rcases hs with rfl | rfl
      · exact Or.inl (by decide)
      · exact star_end "HE".toList (by decide)
    · exact ⟨one ⟨8080, (⟨by decide, by decide, by decide⟩ : IsNum "8080".toList 8080), by decide, by decide⟩, nothing, nothing, nothing, nothing, nothing, nothing, nothing, by simp⟩
  conditions := fun l e x hx => by
    cases e
    rw [List.mem_singleton.1 hx]
    exact ⟨nothing, one ⟨22, rfl, by decide, by decide⟩, Or.inr (by simp)⟩

theorem rule2_tame (E : Place) : rule2.Tame E where
  sources := one ⟨nothing, nothing, nothing, nothing, one trivial, nothing, by simp [anySource], fun h => absurd rfl h,
    fun h => by rcases h with h | h <;> exact absurd rfl h⟩
  operations := nothing
  conditions := fun l e => by cases e

/-- The hypotheses of `C50_policy_partial` are met. -/
example (ord : SetOrder) : ∃ P, parsePolicy LA lang env PeerDom.default ord reg cl text = some P ∧ P.deny = false ∧ P.rules.length = 2 := by
  obtain ⟨P, e, _, h2, _, _, _, f⟩ := C50_policy_partial LL (ord := ord) icluster dfaLib (t := text) rfl (Or.inr (Or.inl rfl))
    (fun l h => by cases h; simp) (fun r hr => by
      simp only [spec, List.mem_cons, List.not_mem_nil, or_false] at hr
      rcases hr with rfl | rfl
      · exact ⟨.pod "", rule1_tame _⟩
      · exact ⟨.pod "", rule2_tame _⟩)
  refine ⟨P, e, ?_, f.length_eq.symm⟩
  rw [← Bool.not_eq_true, h2]
  decide

/-- A request from `default/a` to `default/b`. -/
def req : Request := ⟨6, 80, "GET", "x.com".toList, "/info/1".toList⟩

def raw : Dim → Int ⊕ String
  | .srcPeers => .inl (minPodIndex + (0 : Nat)) | .dstPeers => .inl (minPodIndex + (1 : Nat)) | .protocols => .inl 6
  | .srcPorts => .inl 1 | .dstPorts => .inl 80
  | .methods => .inl 0 | .hosts => .inr "x.com" | .paths => .inr "/info/1" | .icmpType => .inl 0 | .icmpCode => .inl 0

theorem raw_dom : InDom (connA LA PeerDom.default) raw := by
  intro x
  cases x
  case srcPeers => exact (mem_inl LA PeerDom.default _ _ Base.all_canonical).2 (NamedEx.pod_mem 0 (by decide))
  case dstPeers => exact (mem_inl LA PeerDom.default _ _ Base.all_canonical).2 (NamedEx.pod_mem 1 (by decide))
  case hosts => exact (mem_lang _ _).2 (show ∀ a ∈ "x.com".toList, Letter a by decide)
  case paths => exact (mem_lang _ _).2 ⟨"info/1".toList, by decide, by decide⟩
  all_goals exact (mem_inl LA PeerDom.default _ _ (canonical_singleton.2 (by decide))).2 (mem_singleton.2 ⟨by decide, by decide⟩)

def pt : Point (connA LA PeerDom.default) := ⟨raw, raw_dom⟩

theorem isRequest : IsRequest String.toList reg cl pt (.pod "default/a") (.pod "default/b") req where
  src := ⟨⟨podA, by simp [cl], by decide +kernel⟩, 0, rfl, rfl⟩
  dst := ⟨⟨podB, by simp [cl], by decide +kernel⟩, 1, rfl, rfl⟩
  proto := rfl
  port := rfl
  method := ⟨0, rfl, rfl⟩
  host := ⟨_, rfl, rfl⟩
  path := ⟨_, rfl, rfl⟩

theorem among_one {α : Type} {P : α → Prop} {x : α} {l : List α} (hx : x ∈ l) (h : P x) : Among (some l) P := fun l' e _ => by
  cases e; exact ⟨x, hx, h⟩

theorem among_no {α : Type} {P : α → Prop} : Among none P := fun l e => by cases e
theorem apart_no {α : Type} {P : α → Prop} : Apart none P := fun l e => by cases e
theorem apart_one {α : Type} {P : α → Prop} {x : α} (h : ¬ P x) : Apart (some [x]) P := fun l e y hy => by
  cases e; rw [List.mem_singleton.1 hy]; exact h

theorem elemA : podA.elem = .pod "default/a" := by decide +kernel
theorem elemB : podB.elem = .pod "default/b" := by decide +kernel

theorem only_a {p : PeerInfo} (hp : p ∈ cl) (h : p.Holds (.pod "default/a")) : p = podA := by
  simp only [cl, List.mem_cons, List.not_mem_nil, or_false] at hp
  rcases hp with rfl | rfl
  · rfl
  · have h : podB.elem = .pod "default/a" := h
    rw [elemB] at h; exact absurd h (by decide)

theorem not_suffix {s t v : List Char} (h : t.isSuffixOf v = false) (hs : s = '*' :: t) (ht : t ≠ []) (hn : '*' ∉ t) : ¬ Matches s v := by
  subst hs
  intro hm
  rw [matches_suffix ht hn] at hm
  rw [← List.isSuffixOf_iff_suffix, h] at hm
  cases hm

/-- The first rule matches the request. -/
theorem rule1_says : RuleSays env.sa cl rule1 (.pod "default/a") req where
  sources := fun l e => by
    cases e
    refine ⟨_, List.mem_singleton.2 rfl, ?_, apart_no, among_no, ?_, among_no, apart_no⟩
    · exact among_one (List.mem_singleton.2 rfl) ⟨podA, by simp [cl], elemA, K8sParser.nsDefault, rfl,
        Matches.prefix (s := "def".toList) (t := "ault".toList) (by decide) (by decide)⟩
    · refine apart_one ?_
      rintro ⟨p, hp, h1, k, n, h2, h3, h4⟩
      obtain rfl := only_a hp h1
      rw [elemA] at h2; cases h2
      cases h3
      exact not_suffix (t := "/sa/db".toList) (by decide +kernel) rfl (by decide) (by decide) h4
  operations := fun l e => by
    cases e
    refine ⟨_, List.mem_cons_self, among_no, apart_no, ?_, apart_no, among_no, apart_one ?_, ?_, apart_no⟩
    · exact among_one List.mem_cons_self (Matches.exact (by decide))
    · exact not_suffix (t := ".org".toList) (by decide +kernel) rfl (by decide) (by decide)
    · exact among_one (List.mem_singleton.2 rfl) (Matches.prefix (s := "/info".toList) (t := "/1".toList) (by decide) (by decide))
  conditions := fun l e x hx => by
    cases e
    rw [List.mem_singleton.1 hx]
    exact ⟨among_no, apart_one (by show ¬ ((80 : Int) = 22); decide)⟩

/-- The hypotheses of `C50_rule_partial` are met, and the parsed rule has the request. -/
example (ord : SetOrder) : ∃ h, parseRule LA lang env PeerDom.default ord reg cl [.pod "default/b"] rule1 = some h ∧
    (connNet LL PeerDom.default).K.mem pt h = true := by
  obtain ⟨h, e, _, _, m⟩ := C50_rule_partial LL (ord := ord) icluster dfaLib (selected := [.pod "default/b"]) (fun b hb => by simp at hb)
    (fun k hk => by
      have hk : PeerElem.pod k ∈ [PeerElem.pod "default/b"] := hk
      rw [List.mem_singleton] at hk; cases hk
      exact ⟨podB, by simp [cl], elemB⟩) (rule1_tame (.pod "default/a"))
  refine ⟨h, e, (m pt _ _ req isRequest (rule1_tame _)).2 ⟨⟨podA, by simp [cl], elemA, by decide⟩, ?_, rule1_says, fun _ => rfl⟩⟩
  show PeerElem.pod "default/b" ∈ _
  simp

/-! ### Where the code fails -/

/-- The names of service accounts may have dots. -/
def dotted : Env := { env with sa := fun k => if k = "default/a" then "my.web".toList else "my".toList }

/-- What the parsed source says of the two pods. -/
def pods (V : Env) (s : Source) : Option (Bool × Bool) :=
  (source V cl s).map fun q => (decide (PeerElem.pod "default/a" ∈ q), decide (PeerElem.pod "default/b" ∈ q))

/-- C50, finding: if the name of a service account has a dot, its principal is read up to the dot: `principals: [cluster.local/ns/default/sa/my.web]` does
not match the pods of the account `my.web`, and it matches those of the account `my`. -/
theorem C50_dotted_account_wrong :
    let s : Source := { anySource with principals := some ["cluster.local/ns/default/sa/my.web".toList] }
    pods dotted s = some (false, true) ∧ SourceSays dotted.sa cl s (.pod "default/a") ∧ ¬ SourceSays dotted.sa cl s (.pod "default/b") := by
  refine ⟨by decide +kernel, ⟨among_no, apart_no, ?_, apart_no, among_no, apart_no⟩, fun h => ?_⟩
  · refine among_one (List.mem_singleton.2 rfl) ⟨podA, by simp [cl], elemA, "default/a", K8sParser.nsDefault, elemA, rfl, ?_⟩
    have : "cluster.local/ns/".toList ++ (K8sParser.nsDefault.name.toList ++ ("/sa/".toList ++ dotted.sa "default/a")) =
      "cluster.local/ns/default/sa/my.web".toList := by decide +kernel
    rw [this]
    exact .exact (by decide)
  · obtain ⟨x, hx, p, hp, h1, k, n, h2, h3, h4⟩ := h.principals _ rfl (by simp)
    rw [List.mem_singleton.1 hx] at h4
    have h1 : p.elem = .pod "default/b" := h1
    rw [h1] at h2; cases h2
    simp only [cl, List.mem_cons, List.not_mem_nil, or_false] at hp
    have hn : n = K8sParser.nsDefault := by rcases hp with rfl | rfl <;> (cases h3; rfl)
    subst hn
    have : "cluster.local/ns/".toList ++ (K8sParser.nsDefault.name.toList ++ ("/sa/".toList ++ dotted.sa "default/b")) =
      "cluster.local/ns/default/sa/my".toList := by decide +kernel
    rw [this] at h4
    exact absurd ((matches_exact (by decide)).1 h4) (by decide +kernel)

theorem no_holder {x : Ip} {p : PeerInfo} (hp : p ∈ cl) : ¬ p.Holds (.ip x) := by
  rintro ⟨b, hb, _⟩
  simp only [cl, List.mem_cons, List.not_mem_nil, or_false] at hp
  rcases hp with rfl | rfl
  · rw [elemA] at hb; cases hb
  · rw [elemB] at hb; cases hb

/-- C50, finding: `notNamespaces` leaves out all that is outside of the cluster: a source with `notNamespaces: [default]` matches no address. -/
theorem C50_negative_misses_outside (x : Ip) :
    let s : Source := { anySource with notNamespaces := some ["default".toList] }
    (source env cl s).map List.isEmpty = some true ∧ SourceSays env.sa cl s (.ip x) := by
  refine ⟨by decide +kernel, among_no, apart_one ?_, among_no, apart_no, among_no, apart_no⟩
  rintro ⟨p, hp, h, _⟩
  exact no_holder hp h

/-- C50, finding: networks together with excluded namespaces match nothing, although the addresses of the networks are in no namespace. -/
theorem C50_networks_and_namespaces_wrong (x : Ip) (hx : ten.Has x) :
    let s : Source := { anySource with ipBlocks := some [ten], notNamespaces := some ["default".toList] }
    source env cl s = some [] ∧ SourceSays env.sa cl s (.ip x) := by
  refine ⟨rfl, among_no, apart_one ?_, among_no, apart_no, among_one (List.mem_singleton.2 rfl) ⟨x, rfl, hx⟩, apart_no⟩
  rintro ⟨p, hp, h, _⟩
  exact no_holder hp h

/-- C50, finding: a source with `notIpBlocks` only is an exception. -/
theorem C50_not_ip_blocks_rejected (V : Env) (c : Container) (l : List IpBlock.Cidr) : source V c { anySource with notIpBlocks := some l } = none := by
  cases l <;> rfl

/-- C50, finding: an empty list matches nothing, while for Istio it is the same as no list. -/
theorem C50_empty_list_wrong :
    let s : Source := { anySource with namespaces := some [], notNamespaces := some ["prod".toList] }
    pods env s = some (false, false) ∧ SourceSays env.sa cl s (.pod "default/a") := by
  refine ⟨by decide +kernel, fun l e h => (by cases e; exact absurd rfl h), apart_one ?_, among_no, apart_no, among_no, apart_no⟩
  rintro ⟨p, hp, h, n, hn, hm⟩
  obtain rfl := only_a hp h
  cases hn
  have := (matches_exact (by decide)).1 hm
  revert this; decide +kernel

/-- C50, finding: principals are an exception if the cluster has host endpoints or network sets. -/
theorem C50_host_endpoints_rejected (V : Env) {c : Container} {p : PeerInfo} (hp : p ∈ c) (hk : p.kind = .hep ∨ p.kind = .netset) (s : List Char)
    (neg : Option (List (List Char))) : parsePrincipals V c (some [s]) neg = none := by
  have h : allPrincipals V c = none := by
    have key : ∀ l : List PeerInfo, p ∈ l → l.mapM (principalOf V) = none := by
      intro l
      induction l with
      | nil => exact fun h => (by cases h)
      | cons a l ih =>
        intro h
        rw [List.mapM_cons]
        rcases List.mem_cons.1 h with rfl | h
        · have : principalOf V p = none := by
            unfold principalOf
            rcases hk with hk | hk <;> rw [hk]
          rw [this]; rfl
        · rw [ih h]
          cases principalOf V a <;> rfl
    refine key _ (List.mem_filter.2 ⟨hp, ?_⟩)
    rcases hk with hk | hk <;> rw [hk] <;> rfl
  have h2 : principalStr V c s = none := by unfold principalStr; rw [h]; rfl
  unfold parsePrincipals positivePrincipals orAll
  dsimp only
  rw [List.foldlM_cons, h2]; rfl

/-- C50, finding: a policy without a spec has no effect, while for Istio it allows nothing. -/
theorem C50_no_spec_no_effect {V2 X2 : Type} (A2 : VAlg Dim V2 X2) (dfa : List Char → V2) (V : Env) (B : PeerDom) (ord : SetOrder) (rg : PodReg) (c : Container)
    (ns : Ns) : ∃ P, parsePolicy A2 dfa V B ord rg c ⟨ns, none⟩ = some P ∧ P.affectsIngress = false ∧ P.selected = [] ∧ P.rules = [] := ⟨_, rfl, rfl, rfl, rfl⟩

/-- C50, finding: `paths: ["*"]` has words that are no paths.  It has all paths, and so means the same as no `paths`, but it is another value: the code
says that two such policies differ. -/
theorem C50_path_presence_wrong : ∃ v, dimValues LA lang env .paths (some [['*']]) none = some (some v) ∧ (∀ w, dom .paths w → v w) ∧ v "x" ∧
    ¬ dom .paths "x" ∧ v ≠ LA.dom .paths := by
  have e : dimValues LA lang env .paths (some [['*']]) none = some (some (lang (altText [[RxAtom.plus]]))) := by
    have : valuesRegex env [['*']] = some (altText [[RxAtom.plus]]) := by decide +kernel
    unfold dimValues positiveDfa
    dsimp only
    rw [this]; rfl
  have m : ∀ w, lang (altText [[RxAtom.plus]]) w ↔ w.toList ≠ [] ∧ ∀ a ∈ w.toList, Letter a := by
    intro w
    rw [lang_alt (by simp) (fun t ht => by rw [List.mem_singleton.1 ht]; intro a ha; simp at ha)]
    simp only [List.mem_singleton, exists_eq_left, rxLang]
    constructor
    · rintro ⟨u, v, h1, h2, rfl⟩
      rw [h1, List.append_nil]; exact h2
    · exact fun h => ⟨_, [], (List.append_nil _).symm, h, rfl⟩
  have hx : ¬ dom .paths "x" := by
    rintro ⟨t, h, _⟩
    have : "x".toList = ['x'] := by decide
    rw [this] at h
    simp at h
  have hv : lang (altText [[RxAtom.plus]]) "x" := (m _).2 ⟨by decide, by decide⟩
  refine ⟨_, e, fun w hw => ?_, hv, hx, fun h => hx ?_⟩
  · obtain ⟨t, h1, h2⟩ := hw
    rw [m, h1]
    refine ⟨by simp, fun a ha => ?_⟩
    rcases List.mem_cons.1 ha with rfl | ha
    · decide
    · exact h2 a ha
  · rw [h] at hv; exact hv

end Ex
end IstioParser
end Verif
