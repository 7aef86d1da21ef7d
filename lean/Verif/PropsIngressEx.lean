import Verif.PropsIngress
import Verif.PropsIstioParseEx
/-!
C52, C53: witnesses and examples.
-/
namespace Verif
open ISet IpBlock PeerSet

namespace IngressParser
open Container CalicoParser IstioParser

namespace Ex
open K8sParser.Ex (podA podB cl reg cluster)
open IstioParser.Ex (altText alt_cons lang lang_alt mem_lang LA LW LL dom not_letter text_dot text_star text_plus text_chr Stop rx_inj elemA elemB)
open K8sParser (nsDefault)

/-! ### Languages satisfy what is assumed of the library of automata -/

def optSuffix : List Char := "(/[.\\w/\\-]*)?".toList
def wildPrefix : List Char := "[\\w]*".toList

theorem wild_eq : wildPrefix = ['[', '\\', 'w', ']', '*'] := by decide

/-- The language of an expression of one of the three forms that occur. -/
def lang3 (s : List Char) (w : String) : Prop :=
  lang s w ∨
  (∃ t, (∀ a ∈ t, Letter a ∧ a ≠ '.') ∧ s = t ++ optSuffix ∧ (w.toList = t ∨ ∃ r, w.toList = t ++ '/' :: r ∧ ∀ a ∈ r, Letter a)) ∨
  ∃ t, rxPlain t ∧ s = wildPrefix ++ rxText t ∧ ∃ u v, w.toList = u ++ v ∧ (∀ a ∈ u, WordChar a) ∧ rxLang t v

theorem atom_no_opt {a : RxAtom} (ha : ∀ x, a = .chr x → Letter x) : '?' ∉ a.text := by
  rcases a with x | _ | _ | _
  · rw [text_chr, List.mem_singleton]
    rintro rfl
    have := ha _ rfl
    revert this; decide
  · rw [text_dot]; decide
  · rw [text_star]; decide
  · rw [text_plus]; decide

theorem rx_no_opt {t : List RxAtom} (ht : rxPlain t) : '?' ∉ rxText t := by
  intro h
  obtain ⟨a, ha, h⟩ := List.mem_flatMap.1 (show '?' ∈ t.flatMap RxAtom.text from h)
  exact atom_no_opt (fun x e => (ht x (e ▸ ha)).1) h

theorem alt_no_opt {r : List (List RxAtom)} (hr : ∀ t ∈ r, rxPlain t) : '?' ∉ altText r := by
  induction r with
  | nil => simp [altText, List.intercalate]
  | cons t r ih =>
    obtain ⟨u, e, _, h1, h2⟩ := alt_cons t r
    rw [e, List.mem_append]
    rintro (h | h)
    · exact rx_no_opt (hr t List.mem_cons_self) h
    · by_cases hr0 : r = []
      · rw [h1.2 hr0] at h; exact absurd h List.not_mem_nil
      · rw [h2 hr0] at h
        rcases List.mem_cons.1 h with h | h
        · exact absurd h (by decide)
        · exact ih (fun t ht => hr t (List.mem_cons_of_mem _ ht)) h

theorem opt_has : '?' ∈ optSuffix := by decide

theorem alt_no_wild {r : List (List RxAtom)} (hr : ∀ t ∈ r, rxPlain t) (v : List Char) : altText r ≠ wildPrefix ++ v := by
  rw [wild_eq]
  cases r with
  | nil => simp [altText, List.intercalate]
  | cons t r =>
    obtain ⟨u, e, hu, _⟩ := alt_cons t r
    rw [e]
    cases t with
    | nil =>
      intro h
      have h : u = '[' :: '\\' :: 'w' :: ']' :: '*' :: v := by simpa [rxText] using h
      subst h
      rcases hu with h | h <;> simp at h
    | cons a t =>
      have : rxText (a :: t) = a.text ++ rxText t := by simp [rxText]
      rw [this]
      rcases a with x | _ | _ | _
      · intro h
        have := (List.cons.inj (show x :: (rxText t ++ u) = '[' :: _ from h)).1
        have hx := (hr _ List.mem_cons_self x List.mem_cons_self).1
        exact not_letter (Or.inl this) hx
      · rw [text_dot]; intro h; simp at h
      · rw [text_star]; intro h; simp at h
      · rw [text_plus]; intro h; simp at h

theorem opt_no_wild {t : List Char} (ht : ∀ a ∈ t, Letter a ∧ a ≠ '.') (v : List Char) : t ++ optSuffix ≠ wildPrefix ++ v := by
  rw [wild_eq]
  cases t with
  | nil =>
    intro h
    have : ∃ s, optSuffix = '(' :: s := ⟨_, rfl⟩
    obtain ⟨s, e⟩ := this
    rw [e] at h
    simp at h
  | cons a t =>
    intro h
    have := (List.cons.inj h).1
    exact not_letter (Or.inl this) (ht a List.mem_cons_self).1

theorem ingressLib : IngressLib LA LW lang3 String.toList (fun _ => True) where
  toDfaLib := { IstioParser.Ex.dfaLib with
    regex := fun r h1 h2 => ⟨trivial, fun x => (mem_lang x _).trans <| (show _ ↔ lang (altText r) x from ⟨fun h => by
      rcases h with h | ⟨t, _, h, _⟩ | ⟨t, _, h, _⟩
      · exact h
      · exact absurd (show '?' ∈ altText r by rw [show altText r = _ from h, List.mem_append]; exact Or.inr opt_has) (alt_no_opt h2)
      · exact absurd h (alt_no_wild h2 _), Or.inl⟩).trans (lang_alt h1 h2 x)⟩ }
  wild := fun t ht => ⟨trivial, fun x => (mem_lang x _).trans ⟨fun h => by
    rcases h with ⟨r, _, h2, h3, _⟩ | ⟨s, hs, h, _⟩ | ⟨s, hs, h, h'⟩
    · exact absurd h3 (alt_no_wild h2 _)
    · exact absurd h.symm (opt_no_wild hs _)
    · have h := List.append_cancel_left (show wildPrefix ++ rxText t = wildPrefix ++ rxText s from h)
      have := (rx_inj (u := []) (v := []) ht hs (Or.inl rfl) (Or.inl rfl) (by simpa using h)).1
      subst this
      exact h', fun h => Or.inr (Or.inr ⟨t, ht, rfl, h⟩)⟩⟩
  opt := fun s hs => ⟨trivial, fun x => (mem_lang x _).trans ⟨fun h => by
    rcases h with ⟨r, _, h2, h3, _⟩ | ⟨t, _, h, h'⟩ | ⟨t, ht, h, _⟩
    · exact absurd (show '?' ∈ altText r by rw [h3, List.mem_append]; exact Or.inr opt_has) (alt_no_opt h2)
    · have := List.append_cancel_right (show s ++ optSuffix = t ++ optSuffix from h)
      subst this
      exact h'
    · exact absurd h (opt_no_wild hs _), fun h => Or.inr (Or.inl ⟨s, hs, rfl, h⟩)⟩⟩
  every := fun w _ => ⟨String.ofList w, by simp⟩

/-! ### Services -/

/-- The controller, on the pod `default/a`. -/
def ctl : SvcText := ⟨"ingress-nginx-controller", nsDefault, [("app", "web")], [⟨some 443, some "https", none, some (.inl 8443)⟩]⟩
/-- A service of the pod `default/b`, which calls its port 80 `http`. -/
def db : SvcText := ⟨"db", nsDefault, [("app", "db")], [⟨some 8080, some "main", none, some (.inr "http")⟩]⟩
def svcs : List SvcText := [ctl, db]

theorem mem_cl {p : PeerInfo} (hp : p ∈ cl) : p = podA ∨ p = podB := by
  simpa only [cl, List.mem_cons, List.not_mem_nil, or_false] using hp

theorem picks_ctl : Picks cl ctl (.pod "default/a") :=
  ⟨by simp [ctl], podA, by simp [cl], elemA, ⟨nsDefault, rfl, rfl⟩, fun kv hkv => by
    simp only [ctl, List.mem_singleton] at hkv; subst hkv; exact Or.inl (by decide)⟩

theorem picks_db : Picks cl db (.pod "default/b") :=
  ⟨by simp [db], podB, by simp [cl], elemB, ⟨nsDefault, rfl, rfl⟩, fun kv hkv => by
    simp only [db, List.mem_singleton] at hkv; subst hkv; exact Or.inl (by decide)⟩

theorem only_db {E : Place} (h : Picks cl db E) : E = .pod "default/b" := by
  obtain ⟨_, p, hp, hE, _, hv⟩ := h
  have hv := hv ("app", "db") (by simp [db])
  rcases mem_cl hp with rfl | rfl
  · exact absurd hv (by unfold PeerInfo.HasVal; decide)
  · cases E with
    | pod k =>
      have hE : podB.elem = .pod k := hE
      rw [elemB] at hE; cases hE; rfl
    | ip x => obtain ⟨b, hb, _⟩ := hE; rw [elemB] at hb; cases hb

theorem only_ctl {E : Place} (h : Picks cl ctl E) : E = .pod "default/a" := by
  obtain ⟨_, p, hp, hE, _, hv⟩ := h
  have hv := hv ("app", "web") (by simp [ctl])
  rcases mem_cl hp with rfl | rfl
  · cases E with
    | pod k =>
      have hE : podA.elem = .pod k := hE
      rw [elemA] at hE; cases hE; rfl
    | ip x => obtain ⟨b, hb, _⟩ := hE; rw [elemA] at hb; cases hb
  · exact absurd hv (by unfold PeerInfo.HasVal; decide)

theorem mem_svcs {s : SvcText} (hs : s ∈ svcs) : s = ctl ∨ s = db := by
  simpa only [svcs, List.mem_cons, List.not_mem_nil, or_false] using hs

theorem target_db : TargetIs reg ⟨some 8080, some "main", none, some (.inr "http")⟩ (.pod "default/b") 80 := ⟨"default/b", rfl, by decide⟩

theorem ctl_tame : ctl.Tame reg cl where
  nums := fun p hp => by
    simp only [ctl, List.mem_singleton] at hp; subst hp; exact ⟨443, rfl, by decide, by decide⟩
  targets := fun p hp n hn => by
    simp only [ctl, List.mem_singleton] at hp; subst hp; cases hn; decide
  names := by decide
  numbers := by decide
  whole := fun p hp name hn => by
    simp only [ctl, List.mem_singleton] at hp; subst hp; cases hn

theorem db_tame : db.Tame reg cl where
  nums := fun p hp => by
    simp only [db, List.mem_singleton] at hp; subst hp; exact ⟨8080, rfl, by decide, by decide⟩
  targets := fun p hp n hn => by
    simp only [db, List.mem_singleton] at hp; subst hp; cases hn
  names := by decide
  numbers := by decide
  whole := fun p hp name hn E hE => by
    simp only [db, List.mem_singleton] at hp; subst hp; cases hn
    obtain rfl := only_db hE
    exact ⟨80, target_db⟩

theorem svcs_tame : SvcsTame reg cl svcs where
  each := fun s hs => by
    rcases mem_svcs hs with rfl | rfl
    · exact ctl_tame
    · exact db_tame
  ns := fun s hs => by rcases mem_svcs hs with rfl | rfl <;> decide
  uniq := by simp only [svcs, List.pairwise_cons, List.mem_singleton, forall_eq, List.not_mem_nil, false_implies, implies_true, List.Pairwise.nil, and_true]; decide
  controller := fun s hs h => by
    rcases mem_svcs hs with rfl | rfl <;> exact absurd h (by decide)

/-- Non-vacuity of C52: the pod of the service `db`. -/
example : ∃ v, populate reg cl db = some v ∧ Place.In (.pod "default/b") v.pods := by
  obtain ⟨v, e, h⟩ := C52_picked_pods_partial cluster db_tame
  exact ⟨v, e, (h _).2 picks_db⟩

/-- C52, finding: a pod that lacks one of the named ports is lost for all ports of the service, also for those with
numbers. -/
theorem C52_missing_port_wrong :
    let p : SvcPortText := ⟨some 1, some "x", none, some (.inl 9000)⟩
    let s : SvcText := ⟨"two", nsDefault, [("app", "web")], [p, ⟨some 2, some "y", none, some (.inr "http")⟩]⟩
    (populate reg cl s).map (fun v => v.pods) = some [] ∧ Picks cl s (.pod "default/a") ∧ TargetIs reg p (.pod "default/a") 9000 := by
  exact ⟨by decide +kernel, ⟨by simp, podA, by simp [cl], elemA, ⟨nsDefault, rfl, rfl⟩, fun kv hkv => by
    simp only [List.mem_singleton] at hkv; subst hkv; exact Or.inl (by decide)⟩, rfl⟩

/-! ### An Ingress -/

def bDb : Backend := ⟨false, some ⟨"db", some "main", none⟩⟩
def bDb' : Backend := ⟨false, some ⟨"db", none, some 8080⟩⟩
def bCtl : Backend := ⟨false, some ⟨"ingress-nginx-controller", none, some 443⟩⟩

theorem bDb_tame : bDb.Tame cl svcs nsDefault :=
  ⟨rfl, _, rfl, db, by simp [svcs], rfl, rfl, ⟨_, picks_db⟩, _, List.mem_singleton.2 rfl, Or.inl ⟨"main", by decide, rfl, rfl, rfl⟩, rfl⟩
theorem bDb'_tame : bDb'.Tame cl svcs nsDefault :=
  ⟨rfl, _, rfl, db, by simp [svcs], rfl, rfl, ⟨_, picks_db⟩, _, List.mem_singleton.2 rfl, Or.inr ⟨8080, rfl, rfl, rfl⟩, rfl⟩
theorem bCtl_tame : bCtl.Tame cl svcs nsDefault :=
  ⟨rfl, _, rfl, ctl, by simp [svcs], rfl, rfl, ⟨_, picks_ctl⟩, _, List.mem_singleton.2 rfl, Or.inr ⟨443, rfl, rfl, rfl⟩, rfl⟩

theorem bDb_is : BackendIs reg cl svcs nsDefault bDb (.pod "default/b") 80 :=
  ⟨_, rfl, db, by simp [svcs], rfl, rfl, _, List.mem_singleton.2 rfl, Or.inl ⟨"main", by decide, rfl, rfl, rfl⟩, picks_db, target_db⟩
theorem bCtl_is : BackendIs reg cl svcs nsDefault bCtl (.pod "default/a") 8443 :=
  ⟨_, rfl, ctl, by simp [svcs], rfl, rfl, _, List.mem_singleton.2 rfl, Or.inr ⟨443, rfl, rfl, rfl⟩, picks_ctl, rfl⟩
theorem bDb_only {E : Place} {x : Int} (h : BackendIs reg cl svcs nsDefault bDb E x) : E = .pod "default/b" := by
  obtain ⟨r, hr, s, hs, hn, _, p, _, _, hp, _⟩ := h
  cases hr
  rcases mem_svcs hs with rfl | rfl
  · exact absurd hn (by decide)
  · exact only_db hp

def pInfo : PathText := ⟨some "/info".toList, .prefix, bDb⟩
def pPing : PathText := ⟨some "/ping".toList, .exact, bDb'⟩
def hostX : List Char := "x.com".toList
def hostOrg : List Char := "*.org".toList

/-- For `x.com`: what is below `/info`, and `/ping`; for all hosts in `org`: only the default; the default is the controller. -/
def ing : IngressText where
  ns := nsDefault
  defaultBackend := some bCtl
  rules := [⟨some hostX, some (some [pInfo, pPing])⟩, ⟨some hostOrg, some none⟩]

theorem pInfo_tame : pInfo.Tame := ⟨"info".toList, by decide, by decide, Or.inr (by decide)⟩
theorem pPing_tame : pPing.Tame := ⟨"ping".toList, by decide, by decide, Or.inl rfl⟩
theorem hostX_legal : HostLegal hostX := ⟨by decide, Or.inl ⟨by decide, by decide⟩⟩
theorem hostOrg_legal : HostLegal hostOrg := ⟨by decide, Or.inr ⟨"org".toList, by decide, by decide, by decide⟩⟩

theorem ing_tame : ing.Tame cl svcs where
  ns := by decide
  rules := fun r hr => by
    simp only [ing, List.mem_cons, List.not_mem_nil, or_false] at hr
    rcases hr with rfl | rfl
    · refine ⟨fun h e => (by cases e; exact hostX_legal), by simp, by simp, fun p hp => ?_, ?_⟩
      · simp only [IngressRule.paths, Option.getD_some, List.mem_cons, List.not_mem_nil, or_false] at hp
        rcases hp with rfl | rfl
        · exact ⟨pInfo_tame, bDb_tame⟩
        · exact ⟨pPing_tame, bDb'_tame⟩
      · simp only [IngressRule.paths, Option.getD_some, List.pairwise_cons, List.mem_singleton, forall_eq, List.not_mem_nil, false_implies, implies_true,
          List.Pairwise.nil, and_true]
        decide
    · exact ⟨fun h e => (by cases e; exact hostOrg_legal), by simp, by simp, fun p hp => (by simp [IngressRule.paths] at hp), by simp [IngressRule.paths]⟩
  dflt := fun b hb => by cases hb; exact ⟨bCtl_tame, by simp [ing]⟩
  rest := fun b _ r hr => by
    simp only [ing, List.mem_cons, List.not_mem_nil, or_false] at hr
    rcases hr with rfl | rfl
    · refine ⟨by simp, fun p hp => ?_⟩
      simp only [IngressRule.paths, Option.getD_some, List.mem_cons, List.not_mem_nil, or_false] at hp
      rcases hp with rfl | rfl
      · exact Or.inr (by decide)
      · exact Or.inl rfl
    · exact ⟨by simp, fun p hp => by simp [IngressRule.paths] at hp⟩

theorem says_x : HostSays (some hostX) hostX := Or.inl ⟨by decide, rfl⟩
theorem says_org : ¬ HostSays (some hostOrg) hostX := by
  rintro (⟨h, _⟩ | ⟨s, l, h1, h2, _⟩)
  · exact absurd h (by decide)
  · have h1 := (List.cons.inj (List.cons.inj (show '*' :: '.' :: "org".toList = _ from h1)).2).2
    have : "org".toList.isSuffixOf hostX = true := by
      rw [List.isSuffixOf_iff_suffix, h1, h2]
      exact ⟨l ++ ['.'], by simp⟩
    exact absurd this (by decide)

theorem x_tame : HostTame ing hostX where
  one := by
    simp only [ing, List.pairwise_cons, List.mem_singleton, forall_eq, List.not_mem_nil, false_implies, implies_true, List.Pairwise.nil, and_true]
    exact fun h => says_org h.2
  label := fun r hr s hs => by
    unfold WordChar
    decide

theorem info_says : PathSays pInfo "/info/1".toList :=
  ⟨"/info".toList, rfl, by decide⟩

theorem info_wins : Wins [pInfo, pPing] pInfo "/info/1".toList := by
  refine ⟨by simp, info_says, fun p' hp' h => ?_⟩
  simp only [List.mem_cons, List.not_mem_nil, or_false] at hp'
  rcases hp' with rfl | rfl
  · exact Or.inl rfl
  · exact absurd (show pPing.path = some "/info/1".toList from h) (by decide)

/-- Non-vacuity of C53: the request from the controller to `db` for `x.com/info/1` is allowed. -/
example (ord : SetOrder) : ∃ S P, services reg cl svcs = some S ∧ parseIngress LA lang3 PeerDom.default ord reg IstioParser.Ex.env.word S ing = some P ∧
    ∃ h ∈ P.rules, (connNet LL PeerDom.default).K.mem IstioParser.Ex.pt h = true := by
  obtain ⟨S, P, h1, h2, _, _, _, _, h3⟩ := C53_ingress_partial LL (ord := ord) cluster ingressLib IstioParser.Ex.icluster.word svcs_tame ing_tame
  refine ⟨S, P, h1, h2, (h3 _ _ _ _ IstioParser.Ex.isRequest x_tame).2 ⟨⟨ctl, by simp [svcs], by decide, picks_ctl⟩, rfl, Or.inl ?_⟩⟩
  exact ⟨_, List.mem_cons_self, says_x, pInfo, info_wins, bDb_is⟩

/-! ### Where the code fails -/

theorem only_ctl_b {x : Int} : ¬ BackendIs reg cl svcs nsDefault bDb (.pod "default/a") x := fun h => absurd (Place.pod.inj (bDb_only h)) (by decide)

/-- A request that the code lets the controller send to its own port 8443, as the default backend. -/
def reqD (host path : List Char) : Request := ⟨6, 8443, "GET", host, path⟩

def rawD (host path : String) : Dim → Int ⊕ String
  | .srcPeers => .inl (minPodIndex + (0 : Nat)) | .dstPeers => .inl (minPodIndex + (0 : Nat)) | .protocols => .inl 6
  | .srcPorts => .inl 1 | .dstPorts => .inl 8443
  | .methods => .inl 0 | .hosts => .inr host | .paths => .inr path | .icmpType => .inl 0 | .icmpCode => .inl 0

theorem rawD_dom {host path : String} (h1 : dom .hosts host) (h2 : dom .paths path) : InDom (connA LA PeerDom.default) (rawD host path) := by
  intro x
  cases x
  case srcPeers => exact (mem_inl LA PeerDom.default _ _ Base.all_canonical).2 (NamedEx.pod_mem 0 (by decide))
  case dstPeers => exact (mem_inl LA PeerDom.default _ _ Base.all_canonical).2 (NamedEx.pod_mem 0 (by decide))
  case hosts => exact (mem_lang _ _).2 h1
  case paths => exact (mem_lang _ _).2 h2
  all_goals exact (mem_inl LA PeerDom.default _ _ (canonical_singleton.2 (by decide))).2 (mem_singleton.2 ⟨by decide, by decide⟩)

theorem isRequestD {host path : String} (h1 : dom .hosts host) (h2 : dom .paths path) :
    IsRequest String.toList reg cl ⟨rawD host path, rawD_dom h1 h2⟩ (.pod "default/a") (.pod "default/a") (reqD host.toList path.toList) where
  src := ⟨⟨podA, by simp [cl], elemA⟩, 0, rfl, rfl⟩
  dst := ⟨⟨podA, by simp [cl], elemA⟩, 0, rfl, rfl⟩
  proto := rfl
  port := rfl
  method := ⟨0, rfl, rfl⟩
  host := ⟨_, rfl, rfl⟩
  path := ⟨_, rfl, rfl⟩

/-- The code accepts the Ingress, and lets the controller send the request for the host and the path to its own port
8443, or not; for Kubernetes it is the other way round. -/
def WrongD (t : IngressText) (host path : String) (answer : Bool) : Prop :=
  ∀ (ord : SetOrder) (h1 : dom .hosts host) (h2 : dom .paths path), ∃ S P, services reg cl svcs = some S ∧
    parseIngress LA lang3 PeerDom.default ord reg IstioParser.Ex.env.word S t = some P ∧
    ((∃ h ∈ P.rules, (connNet LL PeerDom.default).K.mem ⟨rawD host path, rawD_dom h1 h2⟩ h = true) ↔ answer = true) ∧
    (Controller cl svcs (.pod "default/a") ∧ Routes reg cl svcs t host.toList path.toList (.pod "default/a") 8443 ↔ answer = false)

theorem wrongD {t : IngressText} (ht : t.Legal cl svcs) {host path : String} {answer : Bool}
    (h1 : Forwards reg cl svcs t host.toList path.toList (.pod "default/a") 8443 ↔ answer = true)
    (h2 : Routes reg cl svcs t host.toList path.toList (.pod "default/a") 8443 ↔ answer = false) : WrongD t host path answer := by
  intro ord d1 d2
  obtain ⟨S, P, e1, e2, _, _, _, _, h3⟩ := C53_reads LL (ord := ord) cluster ingressLib IstioParser.Ex.icluster.word svcs_tame ht
  have hctl : Controller cl svcs (.pod "default/a") := ⟨ctl, by simp [svcs], by decide, picks_ctl⟩
  refine ⟨S, P, e1, e2, (h3 _ _ _ _ (isRequestD d1 d2)).trans ⟨fun h => h1.1 h.2.2, fun h => ⟨hctl, rfl, h1.2 h⟩⟩, ⟨fun h => h2.1 h.2, fun h => ⟨hctl, h2.2 h⟩⟩⟩

/-- An Ingress with one rule and the controller as the default backend. -/
def one (host : Option (List Char)) (p : PathText) : IngressText := ⟨nsDefault, some bCtl, [⟨host, some (some [p])⟩]⟩

theorem one_legal {host : Option (List Char)} (hh : ∀ h, host = some h → HostLegal h) {p : PathText} (hp : p.Tame) (hb : p.backend = bDb) :
    (one host p).Legal cl svcs where
  ns := show '/' ∉ nsDefault.name.toList by decide
  rules := fun r hr => by
    rw [List.mem_singleton.1 hr]
    refine ⟨hh, by simp, by simp, fun p' hp' => ?_, by simp [IngressRule.paths]⟩
    rw [List.mem_singleton.1 hp']
    exact ⟨hp, hb ▸ bDb_tame⟩
  dflt := fun b hb => by cases hb; exact ⟨bCtl_tame, by simp [one]⟩

theorem one_routes {host : Option (List Char)} {p : PathText} (hb : p.backend = bDb) {w q : List Char} (h1 : HostSays host w) (h2 : PathSays p q) :
    ¬ Routes reg cl svcs (one host p) w q (.pod "default/a") 8443 := by
  rintro (⟨r, hr, _, p', hp', h⟩ | ⟨h, _⟩)
  · rw [List.mem_singleton.1 hr] at hp'
    rw [List.mem_singleton.1 (show p' ∈ [p] from hp'.1), hb] at h
    exact only_ctl_b h
  · exact h ⟨_, List.mem_singleton.2 rfl, h1, p, List.mem_singleton.2 rfl, h2⟩

/-- C53, finding: with a rule without a host, the default backend gets all requests, also those that match the rule: the
code subtracts all hosts from all hosts, and takes the empty remainder for "no condition". -/
theorem C53_no_host_default_wrong : WrongD (one none pInfo) "x.com" "/info/1" true :=
  wrongD (one_legal (fun h e => by cases e) pInfo_tame rfl)
    ⟨fun _ => rfl, fun _ => Or.inr ⟨Or.inr fun w _ => ⟨_, List.mem_singleton.2 rfl, fun s e => by cases e⟩, bCtl, rfl, bCtl_is⟩⟩
    ⟨fun h => absurd h (one_routes rfl trivial info_says), fun h => by cases h⟩

def pRoot : PathText := ⟨some "/".toList, .prefix, bDb⟩
theorem pRoot_tame : pRoot.Tame := ⟨[], by decide, by decide, Or.inr (by decide)⟩
theorem root_says {w : List Char} (h : IsPath w) : PathSays pRoot w := by
  obtain ⟨t, rfl, _⟩ := h
  refine ⟨"/".toList, rfl, ?_⟩
  rw [elems_prefix, trim_eq]
  exact Or.inr ⟨t, by simp [dropSlash]⟩

/-- C53, finding: likewise with a rule whose paths match everything, as the prefix `/` does. -/
theorem C53_root_default_wrong : WrongD (one (some hostX) pRoot) "x.com" "/info/1" true :=
  have hp : IsPath "/info/1".toList := ⟨"info/1".toList, by decide, by decide⟩
  wrongD (one_legal (fun h e => by cases e; exact hostX_legal) pRoot_tame rfl)
    ⟨fun _ => rfl, fun _ => Or.inl ⟨_, List.mem_singleton.2 rfl, fun s e => (by cases e; exact Or.inl ⟨by decide, rfl⟩),
      Or.inr ⟨Or.inr fun w hw => ⟨pRoot, List.mem_singleton.2 rfl, root_says hw⟩, bCtl, rfl, bCtl_is⟩⟩⟩
    ⟨fun h => absurd h (one_routes rfl says_x (root_says hp)), fun h => by cases h⟩

/-- Two rules for the same host. -/
def twice : IngressText := ⟨nsDefault, some bCtl, [⟨some hostX, some (some [pInfo])⟩, ⟨some hostX, some (some [pPing])⟩]⟩

theorem bDb'_only {E : Place} {x : Int} (h : BackendIs reg cl svcs nsDefault bDb' E x) : E = .pod "default/b" := by
  obtain ⟨r, hr, s, hs, hn, _, p, _, _, hp, _⟩ := h
  cases hr
  rcases mem_svcs hs with rfl | rfl
  · exact absurd hn (by decide)
  · exact only_db hp

/-- C53, finding: with two rules for a host, the default backend gets the requests of one rule, since they do not match
the other. -/
theorem C53_two_rules_wrong : WrongD twice "x.com" "/info/1" true := by
  have hx : HostsRead (some hostX) "x.com".toList := fun s e => by cases e; exact Or.inl ⟨by decide, rfl⟩
  refine wrongD ⟨by decide, fun r hr => ?_, fun b hb => (by cases hb; exact ⟨bCtl_tame, by simp [twice]⟩)⟩
    ⟨fun _ => rfl, fun _ => Or.inl ⟨_, List.mem_cons_of_mem _ List.mem_cons_self, hx, Or.inr ⟨Or.inl fun p hp h => ?_, bCtl, rfl, bCtl_is⟩⟩⟩
    ⟨fun h => ?_, fun h => by cases h⟩
  · simp only [twice, List.mem_cons, List.not_mem_nil, or_false] at hr
    rcases hr with rfl | rfl
    · refine ⟨fun h e => (by cases e; exact hostX_legal), by simp, by simp, fun p' hp' => ?_, by simp [IngressRule.paths]⟩
      rw [List.mem_singleton.1 hp']
      exact ⟨pInfo_tame, bDb_tame⟩
    · refine ⟨fun h e => (by cases e; exact hostX_legal), by simp, by simp, fun p' hp' => ?_, by simp [IngressRule.paths]⟩
      rw [List.mem_singleton.1 hp']
      exact ⟨pPing_tame, bDb'_tame⟩
  · rw [List.mem_singleton.1 hp] at h
    exact absurd (show pPing.path = some "/info/1".toList from h) (by decide)
  · exfalso
    rcases h with ⟨r, hr, _, p, hp, h⟩ | ⟨h, _⟩
    · simp only [twice, List.mem_cons, List.not_mem_nil, or_false] at hr
      rcases hr with rfl | rfl
      · rw [List.mem_singleton.1 (show p ∈ [pInfo] from hp.1)] at h
        exact only_ctl_b h
      · rw [List.mem_singleton.1 (show p ∈ [pPing] from hp.1)] at h
        exact absurd (Place.pod.inj (bDb'_only h)) (by decide)
    · exact h ⟨_, List.mem_cons_self, says_x, pInfo, List.mem_singleton.2 rfl, info_says⟩

/-- C53, finding: `*` in a host is read as `[\w]*`.  It misses labels with `-`, which then go to the default backend. -/
theorem C53_wildcard_wrong : WrongD (one (some hostOrg) pInfo) "my-app.org" "/info/1" true := by
  have hs : HostSays (some hostOrg) "my-app.org".toList := Or.inr ⟨"org".toList, "my-app".toList, by decide, by decide, by decide, by decide⟩
  refine wrongD (one_legal (fun h e => by cases e; exact hostOrg_legal) pInfo_tame rfl)
    ⟨fun _ => rfl, fun _ => Or.inr ⟨Or.inl fun r hr h => ?_, bCtl, rfl, bCtl_is⟩⟩ ⟨fun h => absurd h (one_routes rfl hs info_says), fun h => by cases h⟩
  rw [List.mem_singleton.1 hr] at h
  rcases h hostOrg rfl with ⟨h, _⟩ | ⟨s, u, h1, h2, h3⟩
  · exact absurd h (by decide)
  · have h1 := (List.cons.inj (List.cons.inj (show '*' :: '.' :: "org".toList = _ from h1)).2).2
    subst h1
    have : u = "my-app".toList := List.append_cancel_right (bs := '.' :: "org".toList) (h2.symm.trans (by decide))
    subst this
    have := h3 '-' (by decide)
    revert this
    unfold WordChar
    decide

/-- C53, finding: it also matches an empty label. -/
theorem C53_empty_label_wrong : HostRead hostOrg ".org".toList ∧ ¬ HostSays (some hostOrg) ".org".toList := by
  refine ⟨Or.inr ⟨"org".toList, [], by decide, by decide, by simp⟩, ?_⟩
  rintro (⟨h, _⟩ | ⟨s, u, h1, h2, h3, _⟩)
  · exact absurd h (by decide)
  · have h1 := (List.cons.inj (List.cons.inj (show '*' :: '.' :: "org".toList = _ from h1)).2).2
    subst h1
    exact h3 (List.append_cancel_right (bs := '.' :: "org".toList) (h2.symm.trans (by decide)))

section
variable {V2 X2 : Type} (A2 : VAlg Dim V2 X2) (dfa : List Char → V2) (B : PeerDom) (ord : SetOrder) (rg : PodReg) (cls : Char → Bool)
  (S : List (String × Svc)) (ns : Ns)

/-- C53, finding: a rule without `http`, which is legal and means the default backend, is an exception. -/
theorem C53_no_http_rejected (d : Target) (host : Option (List Char)) : parseRule A2 dfa B ord rg cls S ns d ⟨host, none⟩ = none := by
  unfold parseRule
  cases hostValue A2 dfa cls host <;> rfl

/-- C53, finding: an Ingress with a default backend and no rules is an exception. -/
theorem C53_default_only_rejected {b : Backend} {d : Target} (h : parseBackend S ns true (some b) = some d) (hp : somePeers d.peers = true) :
    parseIngress A2 dfa B ord rg cls S ⟨ns, some b, []⟩ = none := by
  unfold parseIngress
  dsimp only
  rw [h, Option.bind_some, List.foldlM_nil]
  show ((some (HC.empty allDims true, none)).bind fun st => _) = none
  rw [Option.bind_some]
  unfold otherHosts
  rw [if_pos hp]
  rfl

example : ((services reg cl svcs).bind fun S => (parseBackend S nsDefault true (some bCtl)).map fun d => somePeers d.peers) = some true := by decide +kernel

/-- C53, finding: dots in paths are not escaped, although they are in hosts.  If `.` matches every letter, as in regular
expressions, the path `/a.b` also matches `/axb`. -/
theorem C53_dot_wrong {word : X2 → List Char} (hdot : ∀ x, A2.mem x (dfa "/a.b".toList) = true ↔ ∃ a, word x = ['/', 'a', a, 'b'])
    {x : X2} (hx : word x = "/axb".toList) (b : Backend) (q : ParsedPath) (hq : Reads ⟨some "/a.b".toList, .exact, b⟩ q) :
    A2.mem x (pathDfa A2 dfa q) = true ∧ ¬ PathSays ⟨some "/a.b".toList, .exact, b⟩ (word x) := by
  obtain ⟨q1, q2⟩ := hq
  refine ⟨?_, ?_⟩
  · unfold pathDfa
    rw [if_pos (by rw [q1]; rfl), q2, if_pos rfl, Option.getD_some, hdot]
    exact ⟨'x', hx.trans (by decide)⟩
  · rw [hx]
    exact fun h => absurd (show some "/a.b".toList = some "/axb".toList from h) (by decide)

/-- C53, finding: the prefixes `/foo` and `/foo/` in one rule, which are the same, eliminate each other: no request matches
any of them. -/
theorem C53_same_prefix_wrong {W2 : Dim → V2 → Prop} {word : X2 → List Char} {D : V2 → Prop} (hD : IngressLib A2 W2 dfa word D) (b b' : Backend)
    {q q' : ParsedPath} (hq : Reads ⟨some "/foo".toList, .prefix, b⟩ q) (hq' : Reads ⟨some "/foo/".toList, .prefix, b'⟩ q') :
    ∀ e ∈ segregate A2 dfa [q, q'], ∀ x, A2.mem x e.2 = false := by
  have e1 : q.text = "/foo".toList := hq.norm.trans (show dropSlash "/foo".toList = _ by decide)
  have e2 : q'.text = "/foo".toList := hq'.norm.trans (show dropSlash "/foo/".toList = _ by decide)
  have x1 : q.exact = false := hq.1
  have x2 : q'.exact = false := hq'.1
  have k1 : q.key = "/foo".toList := by unfold ParsedPath.key; rw [x1, e1]; decide
  have k2 : q'.key = "/foo".toList := by unfold ParsedPath.key; rw [x2, e2]; decide
  have hv : pathDfa A2 dfa q' = pathDfa A2 dfa q := by unfold pathDfa; rw [x1, x2, k1, k2]; rfl
  have hd : D (pathDfa A2 dfa q) := (pathDfa_sem hD ⟨"foo".toList, show some _ = some _ by decide, by decide, Or.inr (by decide)⟩ hq).1
  have hs : ∀ x, A2.mem x (A2.sub (pathDfa A2 dfa q) (pathDfa A2 dfa q)) = false := fun x => by
    rw [(hD.sub hd hd).2, Bool.and_not_self]
  intro e he x
  unfold segregate at he
  simp only [List.zipIdx_cons, List.zipIdx_nil, List.map_cons, List.map_nil, List.foldl_cons, List.foldl_nil, x1, x2, k1, k2, hv, List.mem_cons,
    List.not_mem_nil, or_false, Bool.false_eq_true, if_false, List.prefix_rfl, and_true, ne_eq, not_true_eq_false] at he
  rcases he with rfl | rfl <;> simp [hs]

end

/-- A service without pods. -/
def idle : SvcText := ⟨"idle", nsDefault, [("app", "none")], [⟨some 80, none, none, none⟩]⟩

/-- C53, finding: a path to a service without pods goes to the default backend, while the controller answers with an error. -/
theorem C53_no_pods_wrong :
    let p : PathText := ⟨some "/info".toList, .prefix, ⟨false, some ⟨"idle", none, some 80⟩⟩⟩
    ((services reg cl (idle :: svcs)).bind fun S => (parseBackend S nsDefault true (some bCtl)).bind fun d =>
      ((parsePath IstioParser.Ex.env.word S nsDefault d p).bind id).map fun q => q.peers) = some (some [.pod "default/a"]) ∧
    ∀ E x, ¬ Routes reg cl (idle :: svcs) ⟨nsDefault, some bCtl, [⟨none, some (some [p])⟩]⟩ hostX "/info/1".toList E x := by
  refine ⟨by decide +kernel, fun E x h => ?_⟩
  rcases h with ⟨r, hr, _, p', hp', r', hr', s, hs, hn, _, _, _, _, hpick, _⟩ | ⟨h, _⟩
  · rw [List.mem_singleton.1 hr] at hp'
    rw [List.mem_singleton.1 (show p' ∈ [_] from hp'.1)] at hr'
    cases hr'
    rcases List.mem_cons.1 hs with rfl | hs
    · obtain ⟨_, p, hp, _, _, hv⟩ := hpick
      have hv := hv ("app", "none") (by simp [idle])
      rcases mem_cl hp with rfl | rfl <;> exact absurd hv (by unfold PeerInfo.HasVal; decide)
    · rcases mem_svcs hs with rfl | rfl <;> exact absurd hn (by decide)
  · exact h ⟨_, List.mem_singleton.2 rfl, trivial, _, List.mem_singleton.2 rfl, "/info".toList, rfl, by decide⟩

/-- C53, finding: a path to a service that does not exist is ignored, so that its requests go where a shorter path, or the
default backend, sends them. -/
theorem C53_missing_service_wrong {V2 X2 : Type} (A2 : VAlg Dim V2 X2) (dfa : List Char → V2) (B : PeerDom) (ord : SetOrder) (rg : PodReg)
    {cls : Char → Bool} {S : List (String × Svc)} {ns : Ns} {n : String} (hn : getService S n ns = none) (d : Target) (hosts : Option V2)
    (path : Option (List Char)) (type : PathType) (x : Int) (hx : 1 ≤ x ∧ x ≤ 65535) (ps : List PathText) :
    pathsConns A2 dfa B ord rg cls S ns d hosts (⟨path, type, ⟨false, some ⟨n, none, some x⟩⟩⟩ :: ps) = pathsConns A2 dfa B ord rg cls S ns d hosts ps := by
  have hp : parsePath cls S ns d ⟨path, type, ⟨false, some ⟨n, none, some x⟩⟩⟩ = some none := by
    unfold parsePath parseBackend
    have h0 : x ≠ 0 := by omega
    have hf : (some x).filter (fun n => decide (n ≠ 0)) = some x := by rw [Option.filter_some, if_pos (by simpa using h0)]
    have hv : K8sParser.validPort x = true := by simp [K8sParser.validPort, hx.1, hx.2]
    dsimp only
    rw [hf]
    simp [hv, hn, somePeers]
  unfold pathsConns
  rw [List.mapM_cons, hp]
  cases ps.mapM (parsePath cls S ns d) with
  | none => rfl
  | some l => rfl

/-- C53, finding: a path with a resource backend is read as the default backend.  Without a default backend, that is no
condition: all connections are allowed, to all pods and ports, even outside of the cluster. -/
theorem C53_resource_wrong {V2 X2 : Type} {A2 : VAlg Dim V2 X2} {W2 : Dim → V2 → Prop} (L2 : A2.Lawful W2) (dfa : List Char → V2) (ord : SetOrder)
    (rg : PodReg) (cls : Char → Bool) (S : List (String × Svc)) (ns : Ns) (c : Container) (l : List SvcText) :
    let r : IngressRule := ⟨none, some (some [⟨some "/".toList, .prefix, ⟨true, none⟩⟩])⟩
    (∃ d h, parseBackend S ns true none = some d ∧ parseRule A2 dfa PeerDom.default ord rg cls S ns d r = some (h, none) ∧
      ∀ p, (connNet L2 PeerDom.default).K.mem p h = true) ∧
    ∀ host path E x, ¬ Routes rg c l ⟨ns, none, [r]⟩ host path E x := by
  have la := connA_lawful PeerDom.default L2
  intro r
  refine ⟨⟨_, HC.or (connA A2 PeerDom.default) allDims (HC.or (connA A2 PeerDom.default) allDims (HC.empty allDims true)
    (hcOfCube (connA A2 PeerDom.default) allDims (connA A2 PeerDom.default).dom)) (HC.empty allDims true), show _ = some ⟨none, some (PortSet.make true), true⟩ from rfl, ?_, fun p => ?_⟩, ?_⟩
  · have hc : setDfa (((ConnCube.full A2 PeerDom.default).setPorts (some (PortSet.make true)))) .paths (some (A2.dom .paths)) =
        ConnCube.full A2 PeerDom.default := by
      unfold setDfa ConnCube.setPorts ConnCube.full ConnCube.set PortSet.make
      simp only [ConnCube.mk.injEq, and_true]
      funext y
      cases y <;> rfl
    have hm : makeConnProps A2 PeerDom.default ord rg (ConnCube.full A2 PeerDom.default) =
        some (hcOfCube (connA A2 PeerDom.default) allDims (connA A2 PeerDom.default).dom) := by
      unfold makeConnProps
      rw [if_pos ⟨rfl, rfl⟩]
      rfl
    have hl : leftCube ord rg (ConnCube.full A2 PeerDom.default) = some (ConnCube.full A2 PeerDom.default) := by
      unfold leftCube
      rw [if_pos ⟨rfl, rfl⟩]
    have hs : segregate A2 dfa [⟨[], false, none, some (PortSet.make true)⟩] = [(⟨[], false, none, some (PortSet.make true)⟩, A2.dom .paths)] := by
      simp [segregate, pathDfa, prefixDfa, ParsedPath.key]
    have hp : [(⟨some "/".toList, .prefix, ⟨true, none⟩⟩ : PathText)].mapM (parsePath cls S ns ⟨none, some (PortSet.make true), true⟩) =
        some [some ⟨[], false, none, some (PortSet.make true)⟩] := by
      simp [parsePath, parseBackend, somePeers, validPath, dropSlash]
    have hstep : pathStep A2 PeerDom.default ord rg ⟨ConnCube.full A2 PeerDom.default, HC.empty allDims true, none⟩
        (⟨[], false, none, some (PortSet.make true)⟩, A2.dom .paths) =
          some ⟨ConnCube.full A2 PeerDom.default, HC.or (connA A2 PeerDom.default) allDims (HC.empty allDims true)
            (hcOfCube (connA A2 PeerDom.default) allDims (connA A2 PeerDom.default).dom), some (A2.dom .paths)⟩ := by
      unfold pathStep
      dsimp only [ConnCube.setPeers, Option.bind_some]
      rw [hc, hm, hl]
      rfl
    unfold parseRule pathsConns
    dsimp only [r]
    rw [hp]
    dsimp only [hostValue, Option.bind_some, List.filterMap_cons, id, List.filterMap_nil]
    rw [hs, List.foldlM_cons]
    have hf : setDfa (ConnCube.full A2 PeerDom.default) .hosts none = ConnCube.full A2 PeerDom.default := rfl
    rw [hf, hstep]
    rfl
  · have le := (connNet_lawful L2 PeerDom.default).1
    obtain ⟨st, mm⟩ := ofCube_spec L2 (B := PeerDom.default) (v := (connA A2 PeerDom.default).dom) fun d => la.wf_dom d
    have he := le.net.strong_ok le.net.empty_strong
    have h1 := le.net.or_strong le.net.empty_strong (le.net.strong_ok st)
    exact (IstioParser.mem_or_iff L2 (le.net.strong_ok h1) he p).2 (Or.inl ((IstioParser.mem_or_iff L2 he (le.net.strong_ok st) p).2 (Or.inr ((mm p).2 fun d _ => p.2 d))))
  · rintro host path E x (⟨r', hr, _, p, hp, _, hr', _⟩ | ⟨_, b, hb, _⟩)
    · rw [List.mem_singleton.1 hr] at hp
      rw [List.mem_singleton.1 (show p ∈ [_] from hp.1)] at hr'
      cases hr'
    · cases hb

/-- A namespace of another team. -/
def nsTools : Ns := ⟨"ingress-nginx-tools", []⟩
def podT : PeerInfo := K8sParser.exPod "web" nsTools [("app", "web")]
def shop : SvcText := ⟨"shop", nsTools, [("app", "web")], [⟨some 80, none, none, none⟩]⟩

/-- C53, finding: all services of a namespace with `ingress-nginx` in its name are taken for the controller. -/
theorem C53_controller_namespace_wrong :
    (services [("ingress-nginx-tools/web", [])] [podT] [shop]).map (fun S => podsOfServices S "ingress-nginx") = some [.pod "ingress-nginx-tools/web"] ∧
    ∀ E, ¬ Controller [podT] [shop] E := by
  refine ⟨by decide +kernel, ?_⟩
  rintro E ⟨s, hs, h, _⟩
  rw [List.mem_singleton.1 hs] at h
  exact absurd h (by decide)

/-- The requests of the findings are in the domain. -/
example : dom .hosts "x.com" ∧ dom .hosts "my-app.org" ∧ dom .paths "/info/1" :=
  ⟨by unfold dom; decide, by unfold dom; decide, "info/1".toList, by decide, by decide⟩

end Ex
end IngressParser
end Verif
