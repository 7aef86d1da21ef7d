import Std.Data.String.ToNat
import Verif.PropsGateway
/-!
Lemmas for C60: the names of the policies that are made from gateways and virtual services.
-/
namespace Verif
open ISet IpBlock PeerSet

namespace GtwParser
open Container CalicoParser IstioParser IngressParser SidecarParser

/-! ### Names -/

/-- The full name of a policy, from the text of the virtual service. -/
def textKey (v : VsText) (what : String) (n : Nat) (kind of : String) : String :=
  v.ns.name ++ "/" ++ what ++ " for virtual service " ++ fullName v.name v.ns ++ ", route number " ++ toString n ++ ", " ++ kind ++ " " ++ of

theorem split_char {x : Char} {a b a' b' : List Char} (ha : x ∉ a) (ha' : x ∉ a') (h : a ++ x :: b = a' ++ x :: b') : a = a' ∧ b = b' := by
  induction a generalizing a' with
  | nil =>
    cases a' with
    | nil => simpa using h
    | cons y a' =>
      simp only [List.nil_append, List.cons_append, List.cons.injEq] at h
      exact absurd (by rw [← h.1]; exact List.mem_cons_self) ha'
  | cons y a ih =>
    cases a' with
    | nil =>
      simp only [List.nil_append, List.cons_append, List.cons.injEq] at h
      exact absurd (by rw [h.1]; exact List.mem_cons_self) ha
    | cons z a' =>
      simp only [List.cons_append, List.cons.injEq] at h
      obtain ⟨h1, h2⟩ := ih (fun h => ha (List.mem_cons_of_mem _ h)) (fun h => ha' (List.mem_cons_of_mem _ h)) h.2
      exact ⟨by rw [h.1, h1], h2⟩

theorem nat_digits (n : Nat) {a : Char} (h : a ∈ (toString n).toList) : a.isDigit = true := by
  rw [Nat.toString_eq_repr, Nat.repr_eq_ofList_toDigits, String.toList_ofList] at h
  exact Nat.isDigit_of_mem_toDigits (b := 10) (by decide) (by decide) h

/-- What the policies are. -/
def allowWhat : String := "Allow policy"
def denyWhat : String := "Deny policy from mesh to DNS entries"

theorem textKey_toList (v : VsText) (what : String) (n : Nat) (kind of : String) : (textKey v what n kind of).toList =
    v.ns.name.toList ++ '/' :: (what.toList ++ (" for virtual service ".toList ++ ((fullName v.name v.ns).toList ++ ',' :: (" route number ".toList ++
      ((toString n).toList ++ ',' :: (' ' :: (kind.toList ++ ' ' :: of.toList))))))) := by
  have e1 : ", route number ".toList = ',' :: " route number ".toList := by decide
  have e2 : ", ".toList = [',', ' '] := by decide
  have e3 : "/".toList = ['/'] := by decide
  have e4 : " ".toList = [' '] := by decide
  unfold textKey
  simp only [String.toList_append, e1, e2, e3, e4, List.append_assoc, List.cons_append, List.nil_append]

/-- A name tells what it is a name of. -/
theorem textKey_inj {v v' : VsText} (h : Readable v) (h' : Readable v') {what what' : String} (hw : what = allowWhat ∨ what = denyWhat)
    (hw' : what' = allowWhat ∨ what' = denyWhat) {kind kind' : String} (hk : kind = "gateway" ∨ kind = "destination") (hk' : kind' = "gateway" ∨ kind' = "destination")
    {n n' : Nat} {of of' : String} (e : textKey v what n kind of = textKey v' what' n' kind' of') :
    (v.name = v'.name ∧ v.ns.name = v'.ns.name) ∧ what = what' ∧ n = n' ∧ kind = kind' ∧ of = of' := by
  have e := congrArg String.toList e
  rw [textKey_toList, textKey_toList] at e
  obtain ⟨_, e⟩ := split_char h.slash h'.slash e
  have comma : ∀ {v : VsText}, Readable v → ',' ∉ (fullName v.name v.ns).toList := fun {v} h => by
    rw [fullName_toList]
    intro hm
    rcases List.mem_append.1 hm with hm | hm
    · exact h.ns hm
    · rcases List.mem_cons.1 hm with hm | hm
      · exact absurd hm (by decide)
      · exact h.name hm
  have num : ∀ n : Nat, ',' ∉ (toString n).toList := fun n hm => absurd (nat_digits n hm) (by decide)
  have sp : ∀ {kind : String}, (kind = "gateway" ∨ kind = "destination") → ' ' ∉ kind.toList := fun {kind} h => by
    rcases h with rfl | rfl <;> decide
  have same : what = what' ∧ ∃ r r' : List Char, " for virtual service ".toList ++ r = " for virtual service ".toList ++ r' ∧
      r = (fullName v.name v.ns).toList ++ ',' :: (" route number ".toList ++ ((toString n).toList ++ ',' :: (' ' :: (kind.toList ++ ' ' :: of.toList)))) ∧
      r' = (fullName v'.name v'.ns).toList ++ ',' :: (" route number ".toList ++ ((toString n').toList ++ ',' :: (' ' :: (kind'.toList ++ ' ' :: of'.toList)))) := by
    have hd : ∀ r r' : List Char, allowWhat.toList ++ r ≠ denyWhat.toList ++ r' := fun r r' h => by
      have e1 : allowWhat.toList = 'A' :: "llow policy".toList := by decide
      have e2 : denyWhat.toList = 'D' :: "eny policy from mesh to DNS entries".toList := by decide
      rw [e1, e2, List.cons_append, List.cons_append, List.cons.injEq] at h
      exact absurd h.1 (by decide)
    rcases hw with rfl | rfl <;> rcases hw' with rfl | rfl
    · exact ⟨rfl, _, _, List.append_cancel_left e, rfl, rfl⟩
    · exact absurd e (hd _ _)
    · exact absurd e.symm (hd _ _)
    · exact ⟨rfl, _, _, List.append_cancel_left e, rfl, rfl⟩
  obtain ⟨ew, r, r', er, e1, e2⟩ := same
  have er := List.append_cancel_left er
  rw [e1, e2] at er
  obtain ⟨en, er⟩ := split_char (comma h) (comma h') er
  obtain ⟨enn, er⟩ := split_char (num n) (num n') (List.append_cancel_left er)
  rw [List.cons.injEq] at er
  obtain ⟨ek, eo⟩ := split_char (sp hk) (sp hk') er.2
  have hn : n = n' := by
    have := String.toList_inj.1 enn
    rw [Nat.toString_eq_repr, Nat.toString_eq_repr] at this
    exact Nat.repr_inj.1 this
  exact ⟨fullName_inj h.slash h'.slash (String.toList_inj.1 en), ew, hn, String.toList_inj.1 ek, String.toList_inj.1 eo⟩

/-! ### Names of lists of policies -/

section
variable {V2 : Type}

/-- The names in a list of policies, and when they differ. -/
structure Keys (P : String → Prop) (N : Prop) (l : List (GPol V2)) : Prop where
  mem : ∀ k, k ∈ l.map GPol.key ↔ P k
  nodup : (l.map GPol.key).Nodup ↔ N

theorem Keys.congr {P P' : String → Prop} {N N' : Prop} {l : List (GPol V2)} (h : Keys P N l) (h1 : ∀ k, P k ↔ P' k) (h2 : N ↔ N') : Keys P' N' l :=
  ⟨fun k => (h.mem k).trans (h1 k), h.nodup.trans h2⟩

theorem Keys.nil : Keys (fun _ => False) True ([] : List (GPol V2)) := ⟨fun k => by simp, by simp⟩

theorem Keys.one (p : GPol V2) : Keys (fun k => k = p.key) True [p] := ⟨fun k => by simp, by simp⟩

theorem Keys.append {P P' : String → Prop} {N N' : Prop} {l l' : List (GPol V2)} (h : Keys P N l) (h' : Keys P' N' l') :
    Keys (fun k => P k ∨ P' k) (N ∧ N' ∧ ∀ k, P k → ¬ P' k) (l ++ l') := by
  refine ⟨fun k => ?_, ?_⟩
  · rw [List.map_append, List.mem_append, h.mem, h'.mem]
  · rw [List.map_append, List.nodup_append, h.nodup, h'.nodup]
    refine and_congr_right fun _ => and_congr_right fun _ => ⟨fun hd k hk hk' => hd k ((h.mem k).2 hk) k ((h'.mem k).2 hk') rfl, ?_⟩
    rintro hd k hk k' hk' rfl
    exact hd k ((h.mem k).1 hk) ((h'.mem k).1 hk')

theorem Keys.flat {α β : Type} {P : α → String → Prop} {N : α → Prop} {f : β → List (GPol V2)} {xs : List α} {os : List β}
    (h : List.Forall₂ (fun x o => Keys (P x) (N x) (f o)) xs os) :
    Keys (fun k => ∃ x ∈ xs, P x k) ((∀ x ∈ xs, N x) ∧ xs.Pairwise fun x y => ∀ k, P x k → ¬ P y k) (os.flatMap f) := by
  induction h with
  | nil => exact Keys.nil.congr (fun k => by simp) (by simp)
  | @cons x o xs os h1 _ ih =>
    rw [List.flatMap_cons]
    refine (h1.append ih).congr (fun k => by simp) ?_
    rw [List.forall_mem_cons, List.pairwise_cons]
    constructor
    · rintro ⟨h1, ⟨h2, h3⟩, h4⟩
      exact ⟨⟨h1, h2⟩, fun y hy k hk hk' => h4 k hk ⟨y, hy, hk'⟩, h3⟩
    · rintro ⟨⟨h1, h2⟩, h4, h3⟩
      exact ⟨h1, ⟨h2, h3⟩, fun k hk ⟨y, hy, hk'⟩ => h4 y hy k hk hk'⟩


theorem join_flat (l : List (Out V2)) : Out.join l = ⟨l.flatMap Out.ing, l.flatMap Out.mesh, l.flatMap Out.egr, l.flatMap Out.deny⟩ := by
  have key : ∀ (l : List (Out V2)) (b : Out V2), l.foldl Out.append b =
      ⟨b.ing ++ l.flatMap Out.ing, b.mesh ++ l.flatMap Out.mesh, b.egr ++ l.flatMap Out.egr, b.deny ++ l.flatMap Out.deny⟩ := by
    intro l
    induction l with
    | nil => intro b; simp
    | cons o l ih => intro b; rw [List.foldl_cons, ih]; simp [Out.append]
  unfold Out.join
  rw [key]
  simp

end

/-! ### The names of the policies of a route -/

section
variable {V2 X2 : Type} {A2 : VAlg Dim V2 X2} {W2 : Dim → V2 → Prop} {dfa : List Char → V2} {word : X2 → List Char} {D : V2 → Prop}
  {V : Env} {rg : PodReg} {c : Container} {ord : SetOrder} {l : List SvcText}

/-- The lists of policies of gateways, with the kinds of the gateways and what the policies are. -/
inductive Kinded : (Out V2 → List (GPol V2)) → String → String → Prop
  | ing : Kinded Out.ing "ingressgateway" allowWhat
  | egr : Kinded Out.egr "egressgateway" allowWhat
  | deny : Kinded Out.deny "egressgateway" denyWhat

theorem Kinded.what {f : Out V2 → List (GPol V2)} {kind what : String} (h : Kinded f kind what) : what = allowWhat ∨ what = denyWhat := by
  cases h <;> simp

theorem Kinded.append {f : Out V2 → List (GPol V2)} {kind what : String} (h : Kinded f kind what) (a b : Out V2) : f (a.append b) = f a ++ f b := by
  cases h <;> rfl

theorem Kinded.join {f : Out V2 → List (GPol V2)} {kind what : String} (h : Kinded f kind what) (os : List (Out V2)) : f (Out.join os) = os.flatMap f := by
  rw [join_flat]; cases h <;> rfl

theorem mesh_join (os : List (Out V2)) : (Out.join os).mesh = os.flatMap Out.mesh := by rw [join_flat]

theorem gtw_shape {v : Vs V2} {n : Nat} {r : Route V2} {x : Gtw V2 × V2} {o : Out V2} (e : gtwOut A2 PeerDom.default ord rg c v n r x = some o) :
    o.mesh = [] ∧ ∀ {f kind what}, Kinded f kind what → f o = [] ∨ ∃ p, f o = [p] ∧ p.key = polKey v what n "gateway" x.1.key := by
  unfold gtwOut at e
  dsimp only at e
  split at e
  · cases e
    exact ⟨rfl, fun h => by cases h <;> exact Or.inl rfl⟩
  · obtain ⟨rules, _, e⟩ := Option.bind_eq_some_iff.1 e
    split at e
    · split at e
      · cases e
      · obtain ⟨d, _, rfl⟩ := Option.map_eq_some_iff.1 e
        refine ⟨rfl, fun h => ?_⟩
        cases h
        · exact Or.inl rfl
        · exact Or.inr ⟨_, rfl, rfl⟩
        · exact Or.inr ⟨_, rfl, rfl⟩
    · cases e
      refine ⟨rfl, fun h => ?_⟩
      cases h
      · exact Or.inr ⟨_, rfl, rfl⟩
      · exact Or.inl rfl
      · exact Or.inl rfl

variable (L2 : A2.Lawful W2) {z : Int}

omit L2 in
theorem cover_ne {I α : Type} {P : I → Prop} {R : I → α → Prop} {l : List α} (h : Cover P R l) : l ≠ [] ↔ ∃ i, P i := by
  constructor
  · intro hn
    obtain ⟨a, ha⟩ := List.exists_mem_of_ne_nil _ hn
    obtain ⟨i, hi, _⟩ := h.sound a ha
    exact ⟨i, hi⟩
  · rintro ⟨i, hi⟩
    obtain ⟨a, ha, _⟩ := h.complete i hi
    exact List.ne_nil_of_mem ha

variable {L2} in
theorem outIs_ne {XG : VsText → RouteView → GatewayText → Prop} {XD : VsText → RouteView → DestText → Prop} {o : Out V2} (h : OutIs L2 word rg c l z XG XD o)
    {f : Out V2 → List (GPol V2)} {kind what : String} (hf : Kinded f kind what) : f o ≠ [] ↔ ∃ i : VsText × RouteView × GatewayText, XG i.1 i.2.1 i.2.2 ∧ i.2.2.Kind kind := by
  cases hf
  · exact cover_ne h.ing
  · exact cover_ne h.egr
  · exact cover_ne h.deny

omit L2 in
theorem VsIs.polKey {v : VsText} {v' : Vs V2} (hv : VsIs A2 W2 word rg c l v v') (what : String) (n : Nat) (kind of : String) :
    GtwParser.polKey v' what n kind of = textKey v what n kind of := by
  unfold GtwParser.polKey textKey
  rw [hv.ns, hv.key]

include L2 in
/-- The names of the policies of a gateway and a route. -/
theorem gtw_keys (hI : IstioCluster V rg c) (hD : IngressLib A2 W2 dfa word D) (hN : Named c l) (hz : Mem z PeerDom.default.idx)
    (hzS : ∀ S : PeerSet String, ¬ PeerSet.At (X2 := X2) rg.keys S (.inl z)) {v : VsText} {rv : RouteView} {r : Route V2}
    (hr : RouteIs A2 W2 word rg c l v rv r) {g : GatewayText} {x : Gtw V2 × V2} (hg : GtwIs A2 W2 word c g x.1)
    (hx : Means A2 W2 word x.2 fun w => ServesR g w ∧ AnyR v.hosts w) (htx : A2.truthy x.2 = true)
    (hint : g.Kind "egressgateway" → r.internal ≠ some true) {v' : Vs V2} (hv : VsIs A2 W2 word rg c l v v') {n : Nat} {o : Out V2}
    (e : gtwOut A2 PeerDom.default ord rg c v' n r x = some o) {f : Out V2 → List (GPol V2)} {kind what : String} (hf : Kinded f kind what) :
    Keys (fun k => (g.Kind kind ∧ Over v rv g) ∧ k = textKey v what n "gateway" (fullName g.name g.ns)) True (f o) := by
  obtain ⟨o', e', h⟩ := gtwOut_sem L2 (ord := ord) hI hD hN hz hzS hr hg hx htx hint v' n
  rw [e] at e'; cases e'
  have hne := outIs_ne h hf
  rcases (gtw_shape e).2 hf with h0 | ⟨p, h1, hk⟩
  · rw [h0]
    refine Keys.nil.congr (fun k => ⟨False.elim, fun hk => ?_⟩) Iff.rfl
    exact hne.2 ⟨(v, rv, g), ⟨⟨rfl, rfl, rfl⟩, hk.1.2⟩, hk.1.1⟩ h0
  · obtain ⟨⟨a, b, g'⟩, ⟨⟨_, _, rfl⟩, h2⟩, h3⟩ := hne.1 (by rw [h1]; simp)
    rw [h1]
    refine (Keys.one p).congr (fun k => ?_) Iff.rfl
    rw [hk, hv.polKey, hg.key]
    exact ⟨fun h => ⟨⟨h3, h2⟩, h⟩, fun h => h.2⟩

/-- The names of the policies for the gateways of a route. -/
def KG (c : Container) (gts : List GatewayText) (v : VsText) (kind what : String) (rv : RouteView) (n : Nat) (k : String) : Prop :=
  ∃ g ∈ gts, g.Kind kind ∧ BindsR c v rv g ∧ k = textKey v what n "gateway" (fullName g.name g.ns)

/-- The name of the policies for the egress gateway as a destination. -/
def KM (c : Container) (l : List SvcText) (v : VsText) (rv : RouteView) (n : Nat) (k : String) : Prop :=
  (∃ d, MeshR c l v rv d) ∧ k = textKey v allowWhat n "destination" (String.ofList egressHost)

/-- At most one destination is the egress gateway. -/
def OneD (c : Container) (l : List SvcText) (v : VsText) (rv : RouteView) : Prop :=
  (∃ i ∈ rv.conds, i.Mesh v) → rv.dests.Pairwise fun d d' => ¬ ((d.Known c l v.ns ∧ d.host = egressHost) ∧ d'.Known c l v.ns ∧ d'.host = egressHost)

omit L2 in
theorem pick_pairwise {gs : List (Gtw V2)} {v : Vs V2} {names : List String} {xs : List (Gtw V2 × V2)} (e : pick A2 gs v names = some xs) :
    xs.Pairwise fun x y => x.1.key ≠ y.1.key := by
  unfold pick at e
  obtain ⟨h, _, e⟩ := Option.bind_eq_some_iff.1 e
  have key : ∀ (names : List String) (acc : List (Gtw V2 × V2)), acc.Pairwise (fun x y => x.1.key ≠ y.1.key) → names.foldlM (pickStep A2 gs h) acc = some xs →
      xs.Pairwise fun x y => x.1.key ≠ y.1.key := by
    intro names
    induction names with
    | nil => intro acc ha e; cases e; exact ha
    | cons name names ih =>
      intro acc ha e
      rw [List.foldlM_cons] at e
      obtain ⟨acc1, e1, e2⟩ := Option.bind_eq_some_iff.1 e
      refine ih acc1 ?_ e2
      unfold pickStep at e1
      split at e1
      · cases e1; exact ha
      · split at e1
        · cases e1; exact ha
        · obtain ⟨gh, _, rfl⟩ := Option.map_eq_some_iff.1 e1
          split
          · exact ha
          · split
            · exact ha
            · rename_i hn
              refine List.pairwise_append.2 ⟨ha, by simp, fun x hx y hy hk => hn ?_⟩
              rw [List.mem_singleton.1 hy] at hk
              exact List.any_eq_true.2 ⟨x, hx, by simpa using hk⟩
  exact key names [] List.Pairwise.nil e

omit L2 in
/-- A list of the texts of a list. -/
theorem Cover.texts {I α : Type} {P : I → Prop} {R : I → α → Prop} {l : List α} (h : Cover P R l) : ∃ m, List.Forall₂ (fun i a => P i ∧ R i a) m l := by
  have := h.sound
  clear h
  induction l with
  | nil => exact ⟨[], .nil⟩
  | cons a l ih =>
    obtain ⟨m, hm⟩ := ih fun b hb => this b (List.mem_cons_of_mem _ hb)
    obtain ⟨i, hi⟩ := this a List.mem_cons_self
    exact ⟨i :: m, .cons hi hm⟩

omit L2 in
theorem forall₂_pairwise {α β : Type} {R : α → β → Prop} {S : α → α → Prop} {T : β → β → Prop} {xs : List α} {ys : List β} (h : List.Forall₂ R xs ys)
    (hp : ys.Pairwise T) (hi : ∀ a a' b b', R a b → R a' b' → T b b' → S a a') : xs.Pairwise S := by
  induction h with
  | nil => exact .nil
  | @cons a b xs ys h1 hF ih =>
    rw [List.pairwise_cons] at hp
    refine List.pairwise_cons.2 ⟨fun a' ha' => ?_, ih hp.2⟩
    obtain ⟨b', hb', h2⟩ := forall₂_left hF a' ha'
    exact hi a a' b b' h1 h2 (hp.1 b' hb')

omit L2 in
theorem forall₂_comp {α β γ : Type} {R : α → β → Prop} {S : β → γ → Prop} {T : α → γ → Prop} {xs : List α} {ys : List β} {zs : List γ} (h : List.Forall₂ R xs ys)
    (h' : List.Forall₂ S ys zs) (hi : ∀ a b d, R a b → S b d → T a d) : List.Forall₂ T xs zs := by
  induction h generalizing zs with
  | nil => cases h'; exact .nil
  | cons h1 _ ih =>
    cases h' with
    | cons h2 h3 => exact .cons (hi _ _ _ h1 h2) (ih h3)

omit L2 in
open Classical in
theorem mem_knownDests {ns : Ns} {ds : List DestText} {d : DestText} : d ∈ knownDests c l ns ds ↔ d ∈ ds ∧ d.Known c l ns := by
  unfold knownDests
  rw [List.mem_filter, decide_eq_true_eq]

omit L2 in
open Classical in
theorem pairwise_knownDests {ns : Ns} {ds : List DestText} {R : DestText → DestText → Prop} :
    (knownDests c l ns ds).Pairwise R ↔ ds.Pairwise fun d d' => d.Known c l ns → d'.Known c l ns → R d d' := by
  unfold knownDests
  rw [List.pairwise_filter]
  exact List.Pairwise.iff fun d d' => by simp only [decide_eq_true_eq]

include L2 in
/-- The names of the policies of a route. -/
theorem route_keys (hI : IstioCluster V rg c) (hD : IngressLib A2 W2 dfa word D) (hN : Named c l) (hz : Mem z PeerDom.default.idx)
    (hzS : ∀ S : PeerSet String, ¬ PeerSet.At (X2 := X2) rg.keys S (.inl z)) {gts : List GatewayText} (hgt : ∀ g ∈ gts, g.Tame) (hgd : NamesDiffer gts)
    {gs : List (Gtw V2)}
    (hp : gs.Pairwise fun g g' => g.key ≠ g'.key) (hgs : Cover (fun t => t ∈ gts ∧ t.Works c) (GtwIs A2 W2 word c) gs)
    {v : VsText} (hrd : Readable v) {v' : Vs V2} (hv : VsIs A2 W2 word rg c l v v') {global : List (Gtw V2 × V2)}
    (hglob : pick A2 gs v' v'.gateways = some global) {rv : RouteView} (ht : rv.Tame c l gts v) {r : Route V2} (hr : RouteIs A2 W2 word rg c l v rv r) {n : Nat}
    {o : Out V2} (eo : routeOut A2 PeerDom.default ord rg gs c v' global (r, n) = some o) :
    (∀ {f kind what}, Kinded f kind what → Keys (KG c gts v kind what rv n) True (f o)) ∧ Keys (KM c l v rv n) (OneD c l v rv) o.mesh := by
  have hvt := hrd.slash
  unfold routeOut at eo
  dsimp only at eo
  have e0 : (if r.gateways.isEmpty then some global else pick A2 gs v' r.gateways) = pick A2 gs v' (if r.gateways.isEmpty then v'.gateways else r.gateways) := by
    split
    · exact hglob.symm
    · rfl
  rw [e0] at eo
  have hnm := hr.names v'.gateways hv.gateways
  generalize (if r.gateways.isEmpty then v'.gateways else r.gateways) = names at hnm eo
  obtain ⟨xs, e1, cx⟩ := pick_sem L2 hD hp hgs hv names
  have px := pick_pairwise e1
  rw [e1, Option.bind_some] at eo
  obtain ⟨os, e2, eo⟩ := Option.bind_eq_some_iff.1 eo
  obtain ⟨ms, e3, rfl⟩ := Option.map_eq_some_iff.1 eo
  have F := mapM_pairs e2
  obtain ⟨gl, hgl⟩ := cx.texts
  have gmem : ∀ g ∈ gts, ∀ g' ∈ gts, fullName g.name g.ns = fullName g'.name g'.ns → g = g' := fun g hg g' hg' e => by
    by_contra hne
    obtain ⟨q1, q2⟩ := fullName_inj (hgt g hg).ns (hgt g' hg').ns e
    rcases pairwise_or hgd hg hg' hne with h | h
    · exact h ⟨q1, q2⟩
    · exact h ⟨q1.symm, q2.symm⟩
  have ms0 : ∀ o ∈ os, o.mesh = [] := fun o ho => by
    obtain ⟨x, _, e⟩ := forall₂_left (forall₂_swap F) o ho
    exact (gtw_shape e).1
  -- the destinations
  have mesh : (∀ o ∈ ms, ∀ {f kind what}, Kinded f kind what → f o = []) ∧ Keys (KM c l v rv n) (OneD c l v rv) (ms.flatMap Out.mesh) := by
    by_cases hc : r.internal = some true ∧ "mesh" ∈ names
    · rw [if_pos hc] at e3
      obtain ⟨i, hi, hfull⟩ := (hnm _).1 hc.2
      have hmesh : ∃ i ∈ rv.conds, i.Mesh v := ⟨i, hi, (full_mesh _).1 hfull⟩
      have F := mapM_pairs e3
      have sh : ∀ T o, meshOut A2 PeerDom.default ord rg c v' n r T = some o → (∀ {f kind what}, Kinded f kind what → f o = []) ∧
          Keys (fun k => T.host = egressHost ∧ k = textKey v allowWhat n "destination" (String.ofList egressHost)) True o.mesh := fun T o e => by
        unfold meshOut at e
        split at e
        · rename_i he
          obtain ⟨h, _, rfl⟩ := Option.map_eq_some_iff.1 e
          refine ⟨fun hf => by cases hf <;> rfl, (Keys.one _).congr (fun k => ?_) Iff.rfl⟩
          show k = GtwParser.polKey v' "Allow policy" n "destination" (String.ofList T.host) ↔ _
          rw [hv.polKey, he]
          exact ⟨fun h => ⟨rfl, h⟩, fun h => h.2⟩
        · rename_i he
          cases e
          exact ⟨fun hf => by cases hf <;> rfl, Keys.nil.congr (fun k => ⟨False.elim, fun h => he h.1⟩) Iff.rfl⟩
      refine ⟨fun o ho f kind what hf => ?_, ?_⟩
      · obtain ⟨T, _, e⟩ := forall₂_left (forall₂_swap F) o ho
        exact (sh T o e).1 hf
      have F2 : List.Forall₂ (fun d o => Keys (fun k => d.host = egressHost ∧ k = textKey v allowWhat n "destination" (String.ofList egressHost)) True (Out.mesh o))
          (knownDests c l v.ns rv.dests) ms := forall₂_comp hr.list F fun d T o h1 h2 => by
        rw [← h1.host]; exact (sh T o h2).2
      refine (Keys.flat F2).congr (fun k => ?_) ?_
      · constructor
        · rintro ⟨d, hd, h1, h2⟩
          rw [mem_knownDests] at hd
          exact ⟨⟨d, hd, h1, hmesh⟩, h2⟩
        · rintro ⟨⟨d, hd, h1, _⟩, h2⟩
          exact ⟨d, mem_knownDests.2 hd, h1, h2⟩
      · unfold OneD
        rw [and_iff_right (fun _ _ => trivial), pairwise_knownDests, forall_prop_of_true hmesh]
        refine List.Pairwise.iff fun d d' => ?_
        constructor
        · rintro h ⟨⟨h1, h2⟩, h3, h4⟩
          exact h h1 h3 _ ⟨h2, rfl⟩ ⟨h4, rfl⟩
        · rintro h h1 h3 k ⟨h2, _⟩ ⟨h4, _⟩
          exact h ⟨⟨h1, h2⟩, h3, h4⟩
    · rw [if_neg hc] at e3
      cases e3
      have no : ∀ d, ¬ MeshR c l v rv d := by
        rintro d ⟨h1, h2, i, hi, hm⟩
        refine hc ⟨?_, (hnm _).2 ⟨i, hi, (full_mesh _).2 hm⟩⟩
        by_contra hn
        obtain ⟨T, hT, _⟩ := hr.dests.complete d h1
        exact egress_not_external h2 (hr.outside hn (List.ne_nil_of_mem hT) d h1.1)
      refine ⟨fun o ho => absurd ho List.not_mem_nil, Keys.nil.congr (fun k => ⟨False.elim, fun h => ?_⟩) ⟨fun _ hm => ?_, fun _ => trivial⟩⟩
      · obtain ⟨d, hd⟩ := h.1
        exact no d hd
      · refine List.Pairwise.imp_of_mem (R := fun _ _ => True) (fun {d d'} hd _ _ h => ?_) (List.pairwise_of_forall fun _ _ => trivial)
        exact no d ⟨⟨hd, h.1.1⟩, h.1.2, hm⟩
  refine ⟨fun {f kind what} hf => ?_, ?_⟩
  · rw [hf.append, hf.join, hf.join]
    have : ms.flatMap f = [] := List.flatMap_eq_nil_iff.2 fun o ho => mesh.1 o ho hf
    rw [this, List.append_nil]
    have F2 : List.Forall₂ (fun g o => Keys (fun k => (g.Kind kind ∧ Over v rv g) ∧ k = textKey v what n "gateway" (fullName g.name g.ns)) True (f o)) gl os :=
      forall₂_comp hgl F fun g x o ⟨h1, h2, h3, h4⟩ e => gtw_keys L2 hI hD hN hz hzS hr h2 h3 h4 (fun hk hint => by
        obtain ⟨hne, hloc⟩ := hr.here.1 hint
        obtain ⟨T, hT⟩ := List.exists_mem_of_ne_nil _ hne
        obtain ⟨d, ⟨hd, _⟩, _⟩ := hr.dests.sound T hT
        obtain ⟨i, hi, hfull⟩ := (hnm _).1 h1.2.1
        exact local_not_external (hloc d hd) (ht.egress g h1.1.1 hk i hi ((full_named hvt (hgt g h1.1.1) _).1 hfull) d hd)) hv e hf
    refine (Keys.flat F2).congr (fun k => ?_) ?_
    · constructor
      · rintro ⟨g, hg, ⟨h1, h2⟩, h3⟩
        obtain ⟨x, _, ⟨⟨q1, q2⟩, q3, _⟩, _⟩ := forall₂_left hgl g hg
        obtain ⟨i, hi, hfull⟩ := (hnm _).1 q3
        exact ⟨g, q1, h1, ⟨q2, ⟨i, hi, (full_named hvt (hgt _ q1) _).1 hfull⟩, h2⟩, h3⟩
      · rintro ⟨g, hg, h1, ⟨h2, ⟨i, hi, hat⟩, h4⟩, h3⟩
        obtain ⟨w, hw, h5, h6⟩ := id h4
        obtain ⟨x, hx, q1, _⟩ := cx.complete g ⟨⟨hg, h2⟩, (hnm _).2 ⟨i, hi, (full_named hvt (hgt _ hg) _).2 hat⟩, w, hw, h5⟩
        obtain ⟨g', hg', ⟨⟨p1, _⟩, p2, _⟩⟩ := forall₂_left (forall₂_swap hgl) x hx
        obtain rfl := gmem g hg g' p1.1 (by rw [← q1.key, ← p2.key])
        exact ⟨g, hg', ⟨h1, h4⟩, h3⟩
    · refine ⟨fun _ => trivial, fun _ => ⟨fun _ _ => trivial, ?_⟩⟩
      refine forall₂_pairwise hgl px ?_
      rintro g g' x y ⟨_, h1, _⟩ ⟨_, h2, _⟩ hne k ⟨_, h3⟩ ⟨_, h4⟩
      rw [h3] at h4
      obtain ⟨_, _, _, _, h5⟩ := textKey_inj hrd hrd hf.what hf.what (Or.inl rfl) (Or.inl rfl) h4
      exact hne (by rw [h1.key, h2.key, h5])
  · show Keys _ _ ((Out.join os).mesh ++ (Out.join ms).mesh)
    have : os.flatMap Out.mesh = [] := List.flatMap_eq_nil_iff.2 ms0
    rw [mesh_join, mesh_join, this, List.nil_append]
    exact mesh.2

omit L2 in
theorem mem_zip {α : Type} {A : List α} {x : α × Nat} : x ∈ A.zipIdx 1 ↔ ∃ n, x.2 = n + 1 ∧ A[n]? = some x.1 := by
  obtain ⟨a, i⟩ := x
  rw [List.mk_mem_zipIdx_iff_le_and_getElem?_sub]
  constructor
  · rintro ⟨h1, h2⟩
    exact ⟨i - 1, by dsimp only; omega, h2⟩
  · rintro ⟨n, h1, h2⟩
    dsimp only at h1 h2
    subst h1
    exact ⟨by omega, h2⟩

omit L2 in
theorem forall₂_zip {α β : Type} {R : α → β → Prop} {xs : List α} {ys : List β} (h : List.Forall₂ R xs ys) (k : Nat) :
    List.Forall₂ (fun x y => R x.1 y.1 ∧ x.2 = y.2) (xs.zipIdx k) (ys.zipIdx k) := by
  induction h generalizing k with
  | nil => exact .nil
  | cons h1 _ ih => exact .cons ⟨h1, rfl⟩ (ih (k + 1))

omit L2 in
theorem zip_pairwise {α : Type} (xs : List α) (k : Nat) : (xs.zipIdx k).Pairwise fun x y => x.2 ≠ y.2 := by
  induction xs generalizing k with
  | nil => exact .nil
  | cons a xs ih =>
    refine List.pairwise_cons.2 ⟨fun y hy => ?_, ih (k + 1)⟩
    have := List.le_snd_of_mem_zipIdx hy
    dsimp only
    omega

include L2 in
/-- The names of the policies of the routes of a kind. -/
theorem routes_keys (hI : IstioCluster V rg c) (hD : IngressLib A2 W2 dfa word D) (hN : Named c l) (hz : Mem z PeerDom.default.idx)
    (hzS : ∀ S : PeerSet String, ¬ PeerSet.At (X2 := X2) rg.keys S (.inl z)) {gts : List GatewayText} (hgt : ∀ g ∈ gts, g.Tame) (hgd : NamesDiffer gts)
    {gs : List (Gtw V2)}
    (hp : gs.Pairwise fun g g' => g.key ≠ g'.key) (hgs : Cover (fun t => t ∈ gts ∧ t.Works c) (GtwIs A2 W2 word c) gs)
    {v : VsText} (hrd : Readable v) {v' : Vs V2} (hv : VsIs A2 W2 word rg c l v v') {global : List (Gtw V2 × V2)}
    (hglob : pick A2 gs v' v'.gateways = some global) {rvs : List RouteView} (ht : ∀ rv ∈ rvs, rv.Tame c l gts v) {rs : List (Route V2)}
    (hr : List.Forall₂ (RouteIs A2 W2 word rg c l v) rvs rs) {o : Out V2} (eo : routesOut A2 PeerDom.default ord rg gs c v' global rs = some o) :
    (∀ {f kind what}, Kinded f kind what → Keys (fun k => ∃ x ∈ rvs.zipIdx 1, KG c gts v kind what x.1 x.2 k) True (f o)) ∧
      Keys (fun k => ∃ x ∈ rvs.zipIdx 1, KM c l v x.1 x.2 k) (∀ rv ∈ rvs, OneD c l v rv) o.mesh := by
  unfold routesOut at eo
  obtain ⟨os, e, rfl⟩ := Option.map_eq_some_iff.1 eo
  have F : List.Forall₂ (fun x o => (∀ {f kind what}, Kinded f kind what → Keys (KG c gts v kind what x.1 x.2) True (f o)) ∧
      Keys (KM c l v x.1 x.2) (OneD c l v x.1) (Out.mesh o)) (rvs.zipIdx 1) os := by
    have F0 : List.Forall₂ (fun x y => (RouteIs A2 W2 word rg c l v x.1 y.1 ∧ x.2 = y.2) ∧ x.1.Tame c l gts v) (rvs.zipIdx 1) (rs.zipIdx 1) := by
      have h1 := forall₂_zip hr 1
      have h2 : ∀ x ∈ rvs.zipIdx 1, x.1.Tame c l gts v := fun x hx => ht x.1 (List.fst_mem_of_mem_zipIdx hx)
      generalize rvs.zipIdx 1 = a at h1 h2
      generalize rs.zipIdx 1 = b at h1
      clear e
      induction h1 with
      | nil => exact .nil
      | cons h _ ih => exact .cons ⟨h, h2 _ List.mem_cons_self⟩ (ih fun x hx => h2 x (List.mem_cons_of_mem _ hx))
    refine forall₂_comp F0 (mapM_pairs e) fun x y o ⟨⟨h1, h2⟩, h3⟩ eo => ?_
    obtain ⟨r, n⟩ := y
    dsimp only at h1 h2
    subst h2
    exact route_keys L2 hI hD hN hz hzS hgt hgd hp hgs hrd hv hglob h3 h1 eo
  refine ⟨fun {f kind what} hf => ?_, ?_⟩
  · rw [hf.join]
    refine (Keys.flat (F.imp fun x o h => h.1 hf)).congr (fun k => Iff.rfl) ⟨fun _ => trivial, fun _ => ⟨fun _ _ => trivial, ?_⟩⟩
    refine (zip_pairwise rvs 1).imp ?_
    rintro x y hne k ⟨g, _, _, _, h1⟩ ⟨g', _, _, _, h2⟩
    rw [h1] at h2
    exact hne (textKey_inj hrd hrd hf.what hf.what (Or.inl rfl) (Or.inl rfl) h2).2.2.1
  · rw [mesh_join]
    refine (Keys.flat (F.imp fun x o h => h.2)).congr (fun k => Iff.rfl) ⟨fun h rv hrv => ?_, fun h => ⟨fun x hx => h x.1 (List.fst_mem_of_mem_zipIdx hx), ?_⟩⟩
    · obtain ⟨n, hn, e⟩ := List.getElem_of_mem hrv
      exact h.1 (rv, n + 1) (mem_zip.2 ⟨n, rfl, by rw [List.getElem?_eq_getElem hn, e]⟩)
    · refine (zip_pairwise rvs 1).imp ?_
      rintro x y hne k ⟨_, h1⟩ ⟨_, h2⟩
      rw [h1] at h2
      exact hne (textKey_inj hrd hrd (Or.inl rfl) (Or.inl rfl) (Or.inr rfl) (Or.inr rfl) h2).2.2.1

/-- What the code takes as bound, for two lists of routes. -/
def ApartR (c : Container) (v : VsText) (g : GatewayText) (A B : List RouteView) : Prop :=
  ∀ (n : Nat) (r r' : RouteView), A[n]? = some r → B[n]? = some r' → ¬ (BindsR c v r g ∧ BindsR c v r' g)

def ApartM (c : Container) (l : List SvcText) (v : VsText) (A B : List RouteView) : Prop :=
  ∀ (n : Nat) (r r' : RouteView), A[n]? = some r → B[n]? = some r' → ¬ ((∃ d, MeshR c l v r d) ∧ ∃ d, MeshR c l v r' d)

/-- The names of the policies for gateways of a virtual service. -/
def VK (c : Container) (gts : List GatewayText) (kind what : String) (v : VsText) (k : String) : Prop :=
  ∃ group ∈ v.numbered, ∃ x ∈ group.zipIdx 1, KG c gts v kind what x.1 x.2 k

def VM (c : Container) (l : List SvcText) (v : VsText) (k : String) : Prop := ∃ group ∈ v.numbered, ∃ x ∈ group.zipIdx 1, KM c l v x.1 x.2 k

omit L2 in
theorem gtw_uniq {gts : List GatewayText} (hgt : ∀ g ∈ gts, g.Tame) (hgd : NamesDiffer gts) {g g' : GatewayText} (hg : g ∈ gts) (hg' : g' ∈ gts)
    (e : fullName g.name g.ns = fullName g'.name g'.ns) : g = g' := by
  by_contra hne
  obtain ⟨q1, q2⟩ := fullName_inj (hgt g hg).ns (hgt g' hg').ns e
  rcases pairwise_or hgd hg hg' hne with h | h
  · exact h ⟨q1, q2⟩
  · exact h ⟨q1.symm, q2.symm⟩

include L2 in
/-- The names of the policies of a virtual service. -/
theorem vs_keys (hI : IstioCluster V rg c) (hD : IngressLib A2 W2 dfa word D) (hN : Named c l) (hz : Mem z PeerDom.default.idx)
    (hzS : ∀ S : PeerSet String, ¬ PeerSet.At (X2 := X2) rg.keys S (.inl z)) {gts : List GatewayText} (hgt : ∀ g ∈ gts, g.Tame) (hgd : NamesDiffer gts)
    {gs : List (Gtw V2)}
    (hp : gs.Pairwise fun g g' => g.key ≠ g'.key) (hgs : Cover (fun t => t ∈ gts ∧ t.Works c) (GtwIs A2 W2 word c) gs)
    {v : VsText} (hvt : v.Tame c l gts) (hrd : Readable v) {v' : Vs V2} (hv : VsIs A2 W2 word rg c l v v') {o : Out V2}
    (eo : vsOut A2 PeerDom.default ord rg gs c v' = some o) :
    (∀ {f kind what}, Kinded f kind what → Keys (VK c gts kind what v) (∀ g ∈ gts, g.Kind kind → v.numbered.Pairwise (ApartR c v g)) (f o)) ∧
      Keys (VM c l v) ((∀ group ∈ v.numbered, ∀ rv ∈ group, OneD c l v rv) ∧ v.numbered.Pairwise (ApartM c l v)) o.mesh := by
  unfold vsOut at eo
  obtain ⟨global, e0, eo⟩ := Option.bind_eq_some_iff.1 eo
  obtain ⟨a, e1, eo⟩ := Option.bind_eq_some_iff.1 eo
  obtain ⟨b, e2, eo⟩ := Option.bind_eq_some_iff.1 eo
  obtain ⟨d, e3, rfl⟩ := Option.map_eq_some_iff.1 eo
  have h1 := routes_keys L2 hI hD hN hz hzS hgt hgd hp hgs hrd hv e0 (fun rv h => hvt.routes _ List.mem_cons_self rv h) hv.httpL e1
  have h2 := routes_keys L2 hI hD hN hz hzS hgt hgd hp hgs hrd hv e0
    (fun rv h => hvt.routes _ (List.mem_cons_of_mem _ List.mem_cons_self) rv (List.mem_filter.1 h).1) hv.tlsL e2
  have h3 := routes_keys L2 hI hD hN hz hzS hgt hgd hp hgs hrd hv e0
    (fun rv h => hvt.routes _ (List.mem_cons_of_mem _ (List.mem_cons_of_mem _ List.mem_cons_self)) rv h) hv.tcpL e3
  have F : List.Forall₂ (fun rvs o => (∀ {f kind what}, Kinded f kind what → Keys (fun k => ∃ x ∈ rvs.zipIdx 1, KG c gts v kind what x.1 x.2 k) True (f o)) ∧
      Keys (fun k => ∃ x ∈ rvs.zipIdx 1, KM c l v x.1 x.2 k) (∀ rv ∈ rvs, OneD c l v rv) (Out.mesh o)) v.numbered [a, b, d] := .cons h1 (.cons h2 (.cons h3 .nil))
  refine ⟨fun {f kind what} hf => ?_, ?_⟩
  · have : f ((a.append b).append d) = [a, b, d].flatMap f := by rw [hf.append, hf.append]; simp
    rw [this]
    refine (Keys.flat (F.imp fun x o h => h.1 hf)).congr (fun k => Iff.rfl) ?_
    rw [and_iff_right (fun _ _ => trivial)]
    constructor
    · intro h g hg hk
      refine h.imp fun {A B} hd n r r' hA hB ⟨q1, q2⟩ => ?_
      exact hd (textKey v what (n + 1) "gateway" (fullName g.name g.ns)) ⟨(r, n + 1), mem_zip.2 ⟨n, rfl, hA⟩, g, hg, hk, q1, rfl⟩
        ⟨(r', n + 1), mem_zip.2 ⟨n, rfl, hB⟩, g, hg, hk, q2, rfl⟩
    · intro h
      have : v.numbered.Pairwise fun A B => ∀ g ∈ gts, g.Kind kind → ApartR c v g A B := by
        generalize v.numbered = m at h
        induction m with
        | nil => exact .nil
        | cons A m ih =>
          refine List.pairwise_cons.2 ⟨fun B hB g hg hk => (List.pairwise_cons.1 (h g hg hk)).1 B hB, ih fun g hg hk => (List.pairwise_cons.1 (h g hg hk)).2⟩
      refine this.imp ?_
      rintro A B h k ⟨x, hx, g, hg, hk, q1, e1⟩ ⟨y, hy, g', hg', hk', q2, e2⟩
      rw [e1] at e2
      obtain ⟨_, _, en, _, eg⟩ := textKey_inj hrd hrd hf.what hf.what (Or.inl rfl) (Or.inl rfl) e2
      obtain rfl := gtw_uniq hgt hgd hg hg' eg
      obtain ⟨n, hn, hA⟩ := mem_zip.1 hx
      obtain ⟨n', hn', hB⟩ := mem_zip.1 hy
      obtain rfl : n = n' := by omega
      exact h g hg hk n _ _ hA hB ⟨q1, q2⟩
  · show Keys _ _ ((a.mesh ++ b.mesh) ++ d.mesh)
    have : (a.mesh ++ b.mesh) ++ d.mesh = [a, b, d].flatMap Out.mesh := by simp
    rw [this]
    refine (Keys.flat (F.imp fun x o h => h.2)).congr (fun k => Iff.rfl) (and_congr_right fun _ => List.Pairwise.iff fun A B => ?_)
    constructor
    · intro hd n r r' hA hB ⟨q1, q2⟩
      exact hd _ ⟨(r, n + 1), mem_zip.2 ⟨n, rfl, hA⟩, q1, rfl⟩ ⟨(r', n + 1), mem_zip.2 ⟨n, rfl, hB⟩, q2, rfl⟩
    · rintro h k ⟨x, hx, q1, e1⟩ ⟨y, hy, q2, e2⟩
      rw [e1] at e2
      obtain ⟨_, _, en, _, _⟩ := textKey_inj hrd hrd (Or.inl rfl) (Or.inl rfl) (Or.inr rfl) (Or.inr rfl) e2
      obtain ⟨n, hn, hA⟩ := mem_zip.1 hx
      obtain ⟨n', hn', hB⟩ := mem_zip.1 hy
      obtain rfl : n = n' := by omega
      exact h n _ _ hA hB ⟨q1, q2⟩

/-! ### All names -/

omit L2 in
theorem mem_numbered {v : VsText} {rv : RouteView} (hne : rv.conds ≠ []) : (∃ group ∈ v.numbered, rv ∈ group) ↔ ∃ group ∈ v.groups, rv ∈ group := by
  unfold VsText.numbered VsText.groups
  have : rv ∈ ((v.tls.map TlsText.view).filter fun r => !r.conds.isEmpty) ↔ rv ∈ v.tls.map TlsText.view := by
    rw [List.mem_filter]
    exact and_iff_left (by simpa using hne)
  simp only [List.exists_mem_cons_iff, this, List.not_mem_nil, false_and, exists_false]

omit L2 in
theorem in_groups {v : VsText} {group : List RouteView} (hg : group ∈ v.numbered) {rv : RouteView} (h : rv ∈ group) : ∃ group ∈ v.groups, rv ∈ group := by
  unfold VsText.numbered at hg
  unfold VsText.groups
  rcases List.mem_cons.1 hg with rfl | hg
  · exact ⟨_, List.mem_cons_self, h⟩
  · rcases List.mem_cons.1 hg with rfl | hg
    · exact ⟨_, List.mem_cons_of_mem _ List.mem_cons_self, (List.mem_filter.1 h).1⟩
    · rw [List.mem_singleton.1 hg] at h
      exact ⟨_, List.mem_cons_of_mem _ (List.mem_cons_of_mem _ List.mem_cons_self), h⟩

omit L2 in
theorem zip_group {group : List RouteView} {rv : RouteView} : rv ∈ group ↔ ∃ n, (rv, n) ∈ group.zipIdx 1 := by
  constructor
  · intro h
    obtain ⟨n, hn, e⟩ := List.getElem_of_mem h
    exact ⟨n + 1, mem_zip.2 ⟨n, rfl, by rw [List.getElem?_eq_getElem hn, e]⟩⟩
  · rintro ⟨n, h⟩
    exact List.fst_mem_of_mem_zipIdx h

omit L2 in
theorem apart_iff {gts : List GatewayText} {vts : List VsText} (hT : Texts c l gts vts) {v : VsText} (hv : v ∈ vts) {g : GatewayText} (hg : g ∈ gts) :
    v.numbered.Pairwise (ApartR c v g) ↔ v.numbered.Pairwise (Apart c v g) := by
  have key : ∀ {group rv}, group ∈ v.numbered → rv ∈ group → (BindsR c v rv g ↔ Binds c v rv g) := by
    intro group rv h1 h2
    obtain ⟨group', h3, h4⟩ := in_groups h1 h2
    constructor
    · intro h
      obtain ⟨i, hi, _⟩ := h.2.1
      exact (binds_iff (hT.vss v hv) ((hT.vss v hv).routes _ h3 rv h4) (hT.sane v hv _ h3 rv h4 (List.ne_nil_of_mem hi)) hg (hT.gtws g hg)).2 h
    · intro h
      obtain ⟨i, hi, _⟩ := h.2
      exact (binds_iff (hT.vss v hv) ((hT.vss v hv).routes _ h3 rv h4) (hT.sane v hv _ h3 rv h4 (List.ne_nil_of_mem hi)) hg (hT.gtws g hg)).1 h
  refine List.Pairwise.iff_of_mem fun {A B} hA hB => ?_
  refine forall_congr' fun n => forall_congr' fun r => forall_congr' fun r' => forall_congr' fun h1 => forall_congr' fun h2 => not_congr (and_congr ?_ ?_)
  · exact key hA (List.mem_of_getElem? h1)
  · exact key hB (List.mem_of_getElem? h2)

omit L2 in
theorem toEgress_iff (hN : Named c l) {v : VsText} {d : DestText} : d.Known c l v.ns ∧ d.host = egressHost ↔ ∃ s ∈ l, d.ToEgress s := by
  constructor
  · rintro ⟨h1, h2⟩
    obtain ⟨s, hs, h3⟩ := (egress_known hN h2).1 h1
    exact ⟨s, hs, h2, h3⟩
  · rintro ⟨s, hs, h2, h3⟩
    exact ⟨(egress_known hN h2).2 ⟨s, hs, h3⟩, h2⟩

omit L2 in
theorem meshR_iff (hN : Named c l) {v : VsText} {rv : RouteView} : (∃ d, MeshR c l v rv d) ↔ rv.ToEgress l v := by
  constructor
  · rintro ⟨d, ⟨h1, h2⟩, h3, h4⟩
    exact ⟨h4, d, h1, (toEgress_iff hN (v := v)).1 ⟨h2, h3⟩⟩
  · rintro ⟨h4, d, h1, h2⟩
    obtain ⟨h5, h6⟩ := (toEgress_iff hN (v := v)).2 h2
    exact ⟨d, ⟨h1, h5⟩, h6, h4⟩

omit L2 in
theorem oneD_iff (hN : Named c l) {v : VsText} {rv : RouteView} : OneD c l v rv ↔ rv.OneEgress l v :=
  forall_congr' fun _ => List.Pairwise.iff fun d d' => not_congr (and_congr (toEgress_iff hN) (toEgress_iff hN))

omit L2 in
theorem apartM_iff (hN : Named c l) {v : VsText} : v.numbered.Pairwise (ApartM c l v) ↔ v.numbered.Pairwise (ApartMesh l v) :=
  List.Pairwise.iff fun A B => forall_congr' fun n => forall_congr' fun r => forall_congr' fun r' => forall_congr' fun _ => forall_congr' fun _ =>
    not_congr (and_congr (meshR_iff hN) (meshR_iff hN))

omit L2 in
theorem vs_apart {vts : List VsText} (hrd : ∀ v ∈ vts, Readable v) (hvd : VsDiffer vts) {what kind : String} (hw : what = allowWhat ∨ what = denyWhat)
    (hk : kind = "gateway" ∨ kind = "destination") {P : VsText → String → Prop} (hP : ∀ v k, P v k → ∃ n of, k = textKey v what n kind of) :
    vts.Pairwise fun v v' => ∀ k, P v k → ¬ P v' k := by
  refine hvd.imp_of_mem fun {v v'} hv hv' hne k h h' => ?_
  obtain ⟨n, of, e⟩ := hP v k h
  obtain ⟨n', of', e'⟩ := hP v' k h'
  rw [e] at e'
  exact hne (textKey_inj (hrd v hv) (hrd v' hv') hw hw hk hk e').1

omit L2 in
theorem VK.form {gts : List GatewayText} {kind what : String} {v : VsText} {k : String} (h : VK c gts kind what v k) :
    ∃ n, ∃ g ∈ gts, g.Kind kind ∧ k = textKey v what n "gateway" (fullName g.name g.ns) := by
  obtain ⟨_, _, x, _, g, hg, hk, _, e⟩ := h
  exact ⟨x.2, g, hg, hk, e⟩

omit L2 in
theorem VM.form {v : VsText} {k : String} (h : VM c l v k) : ∃ n, k = textKey v allowWhat n "destination" (String.ofList egressHost) := by
  obtain ⟨_, _, x, _, _, e⟩ := h
  exact ⟨x.2, e⟩

omit L2 in
theorem kinds_differ {g : GatewayText} (hg : g.Tame) (h1 : g.Kind "ingressgateway") (h2 : g.Kind "egressgateway") : False := by
  have := hg.keys
  have key : ∀ m : List (String × String), (m.map (·.1)).Nodup → ∀ a b b', (a, b) ∈ m → (a, b') ∈ m → b = b' := by
    intro m
    induction m with
    | nil => intro _ a b b' h; cases h
    | cons x m ih =>
      intro hn a b b' h h'
      rw [List.map_cons, List.nodup_cons] at hn
      rcases List.mem_cons.1 h with e1 | h1 <;> rcases List.mem_cons.1 h' with e2 | h2
      · rw [← e1] at e2; cases e2; rfl
      · exact absurd (List.mem_map.2 ⟨_, h2, by rw [← e1]⟩) hn.1
      · exact absurd (List.mem_map.2 ⟨_, h1, by rw [← e2]⟩) hn.1
      · exact ih hn.2 a b b' h1 h2
  exact absurd (key _ this _ _ _ h1 h2) (by decide)

include L2 in
/-- The policies have different names just if the routes of each virtual service let them. -/
theorem pols_keys (hI : IstioCluster V rg c) (hD : IngressLib A2 W2 dfa word D) (hl : SvcsTame rg c l) (hN : Named c l) {rx : List Char → String → Bool}
    (hrx : RxOk rx) (hz : Mem z PeerDom.default.idx) (hzS : ∀ S : PeerSet String, ¬ PeerSet.At (X2 := X2) rg.keys S (.inl z))
    {gts : List GatewayText} (hgt : ∀ g ∈ gts, g.Tame) (hgd : NamesDiffer gts) {vts : List VsText} (hvt : ∀ v ∈ vts, v.Tame c l gts) (hvd : VsDiffer vts)
    (hrd : ∀ v ∈ vts, Readable v) {pols : List (GPol V2)}
    (e : gatewayPols A2 dfa V.word rx PeerDom.default ord rg (l.map fun s => (fullName s.name s.ns, svcOf rg c s)) c gts vts = some pols) :
    (pols.map GPol.key).Nodup ↔ ((∃ g ∈ gts, g.Works c) → ∀ v ∈ vts, v.Distinct c l gts vts) := by
  unfold gatewayPols at e
  obtain ⟨gs, e1, cg, hp⟩ := gateways_sem hD L2 hI.word hI.cluster hgt hgd
  obtain ⟨vs, e2, cv⟩ := virtualServices_sem hD L2 hI.word hI.cluster hl hN hrx hvt hvd
  rw [e1, Option.bind_some, e2, Option.bind_some] at e
  have hT : Texts c l gts vts := ⟨hgt, hvt, fun v hv group hg rv hr hne => by
    obtain ⟨v', _, h⟩ := forall₂_left cv v hv
    exact h.sane hg hr hne⟩
  by_cases h0 : gs.isEmpty = true
  · rw [if_pos h0] at e
    have hno : ¬ ∃ g ∈ gts, g.Works c := by
      rintro ⟨g, hg⟩
      obtain ⟨x, hx, _⟩ := cg.complete g hg
      rw [List.isEmpty_iff.1 h0] at hx; cases hx
    split at e
    · cases e
    · cases e
      exact ⟨fun _ h => absurd h hno, fun _ => by simp⟩
  rw [if_neg h0] at e
  by_cases h1 : vs.isEmpty = true
  · rw [if_pos h1] at e
    cases e
    have : vts = [] := by
      rw [List.isEmpty_iff] at h1
      subst h1
      cases cv; rfl
    subst this
    exact ⟨fun _ _ v hv => absurd hv List.not_mem_nil, fun _ => by simp⟩
  rw [if_neg h1] at e
  have hw : ∃ g ∈ gts, g.Works c := by
    obtain ⟨x, hx⟩ := List.exists_mem_of_ne_nil gs fun h => h0 (List.isEmpty_iff.2 h)
    obtain ⟨g, hg, _⟩ := cg.sound x hx
    exact ⟨g, hg⟩
  obtain ⟨os, e3, rfl⟩ := Option.map_eq_some_iff.1 e
  rw [forall_prop_of_true hw]
  have F : List.Forall₂ (fun v o => (∀ {f kind what}, Kinded f kind what →
      Keys (VK c gts kind what v) (∀ g ∈ gts, g.Kind kind → v.numbered.Pairwise (ApartR c v g)) (f o)) ∧
      Keys (VM c l v) ((∀ group ∈ v.numbered, ∀ rv ∈ group, OneD c l v rv) ∧ v.numbered.Pairwise (ApartM c l v)) (Out.mesh o)) vts os := by
    have F0 : List.Forall₂ (fun v v' => VsIs A2 W2 word rg c l v v' ∧ v ∈ vts) vts vs := by
      have key : ∀ (ts : List VsText) (vs : List (Vs V2)), List.Forall₂ (VsIs A2 W2 word rg c l) ts vs → (∀ v ∈ ts, v ∈ vts) →
          List.Forall₂ (fun v v' => VsIs A2 W2 word rg c l v v' ∧ v ∈ vts) ts vs := by
        intro ts vs h
        induction h with
        | nil => intro _; exact .nil
        | cons h _ ih => exact fun hm => .cons ⟨h, hm _ List.mem_cons_self⟩ (ih fun v hv => hm v (List.mem_cons_of_mem _ hv))
      exact key vts vs cv fun _ h => h
    exact forall₂_comp F0 (mapM_pairs e3) fun v v' o ⟨h2, h3⟩ eo => vs_keys L2 hI hD hN hz hzS hgt hgd hp cg (hvt v h3) (hrd v h3) h2 eo
  have G : ∀ {f kind what}, Kinded f kind what → Keys (fun k => ∃ v ∈ vts, VK c gts kind what v k)
      (∀ v ∈ vts, ∀ g ∈ gts, g.Kind kind → v.numbered.Pairwise (Apart c v g)) (f (Out.join os)) := fun {f kind what} hf => by
    rw [hf.join]
    refine (Keys.flat (F.imp fun x o h => h.1 hf)).congr (fun k => Iff.rfl) ?_
    rw [and_iff_left (vs_apart hrd hvd hf.what (Or.inl rfl) fun v k h => by obtain ⟨n, g, _, _, e⟩ := h.form; exact ⟨n, _, e⟩)]
    exact forall_congr' fun v => forall_congr' fun hv => forall_congr' fun g => forall_congr' fun hg => forall_congr' fun _ => apart_iff hT hv hg
  have M : Keys (fun k => ∃ v ∈ vts, VM c l v k) (∀ v ∈ vts, (∀ group ∈ v.numbered, ∀ rv ∈ group, rv.OneEgress l v) ∧ v.numbered.Pairwise (ApartMesh l v))
      (Out.join os).mesh := by
    rw [mesh_join]
    refine (Keys.flat (F.imp fun x o h => h.2)).congr (fun k => Iff.rfl) ?_
    rw [and_iff_left (vs_apart hrd hvd (Or.inl rfl) (Or.inr rfl) fun v k h => by obtain ⟨n, e⟩ := h.form; exact ⟨n, _, e⟩)]
    refine forall_congr' fun v => forall_congr' fun hv => and_congr ?_ (apartM_iff hN)
    exact forall_congr' fun _ => forall_congr' fun _ => forall_congr' fun _ => forall_congr' fun _ => oneD_iff hN
  have ne : ∀ {P : String → Prop} {N : Prop} {l : List (GPol V2)}, Keys P N l → (l.isEmpty = true ↔ ¬ ∃ k, P k) := fun {P N l} h => by
    rw [List.isEmpty_iff]
    constructor
    · rintro rfl ⟨k, hk⟩
      have := (h.mem k).2 hk
      simp at this
    · intro hn
      by_contra hne
      obtain ⟨p, hp⟩ := List.exists_mem_of_ne_nil _ hne
      exact hn ⟨p.key, (h.mem _).1 (List.mem_map.2 ⟨p, hp, rfl⟩)⟩
  -- the egress flow
  have flow : EgressFlow c l gts vts ↔ ((Out.join os).mesh.isEmpty || (Out.join os).egr.isEmpty) = false := by
    rw [egressFlow_iff hN hT, Bool.or_eq_false_iff, Bool.eq_false_iff, Bool.eq_false_iff, Ne, Ne, ne M, ne (G .egr), not_not, not_not]
    refine and_congr ⟨?_, ?_⟩ ⟨?_, ?_⟩
    · rintro ⟨⟨v, rv, d⟩, hv, hgr, hm⟩
      obtain ⟨i, hi, _⟩ := hm.2.2
      obtain ⟨group, h1, h2⟩ := (mem_numbered (List.ne_nil_of_mem hi)).2 hgr
      obtain ⟨n, hn⟩ := zip_group.1 h2
      exact ⟨_, v, hv, group, h1, (rv, n), hn, ⟨d, hm⟩, rfl⟩
    · rintro ⟨k, v, hv, group, h1, ⟨rv, n⟩, h2, ⟨d, hd⟩, _⟩
      exact ⟨(v, rv, d), hv, in_groups h1 (zip_group.2 ⟨n, h2⟩), hd⟩
    · rintro ⟨⟨v, rv, g⟩, ⟨hv, hgr, hg, hb⟩, hk⟩
      obtain ⟨i, hi, _⟩ := hb.2.1
      obtain ⟨group, h1, h2⟩ := (mem_numbered (List.ne_nil_of_mem hi)).2 hgr
      obtain ⟨n, hn⟩ := zip_group.1 h2
      exact ⟨_, v, hv, group, h1, (rv, n), hn, g, hg, hk, hb, rfl⟩
    · rintro ⟨k, v, hv, group, h1, ⟨rv, n⟩, h2, g, hg, hk, hb, _⟩
      exact ⟨(v, rv, g), ⟨hv, in_groups h1 (zip_group.2 ⟨n, h2⟩), hg, hb⟩, hk⟩
  generalize Out.join os = o at *
  have hd : ((if o.all.isEmpty then [dummy] else o.all).map GPol.key).Nodup ↔ (o.all.map GPol.key).Nodup := by
    split
    · rename_i h
      rw [List.isEmpty_iff.1 h]
      simp
    · rfl
  rw [hd]
  unfold Out.all
  by_cases hF : EgressFlow c l gts vts
  · rw [if_neg (by rw [flow.1 hF]; simp)]
    -- no name is in two lists
    have d1 : ∀ k, (∃ v ∈ vts, VM c l v k) → ¬ ∃ v ∈ vts, VK c gts "egressgateway" allowWhat v k := by
      rintro k ⟨v, hv, h⟩ ⟨v', hv', h'⟩
      obtain ⟨n, e⟩ := h.form
      obtain ⟨n', g, _, _, e'⟩ := h'.form
      rw [e] at e'
      exact absurd (textKey_inj (hrd v hv) (hrd v' hv') (Or.inl rfl) (Or.inl rfl) (Or.inr rfl) (Or.inl rfl) e').2.2.2.1 (by decide)
    have d2 : ∀ k, ((∃ v ∈ vts, VM c l v k) ∨ ∃ v ∈ vts, VK c gts "egressgateway" allowWhat v k) → ¬ ∃ v ∈ vts, VK c gts "egressgateway" denyWhat v k := by
      rintro k h ⟨v', hv', h'⟩
      obtain ⟨n', g', _, _, e'⟩ := h'.form
      rcases h with ⟨v, hv, h⟩ | ⟨v, hv, h⟩
      · obtain ⟨n, e⟩ := h.form
        rw [e] at e'
        exact absurd (textKey_inj (hrd v hv) (hrd v' hv') (Or.inl rfl) (Or.inr rfl) (Or.inr rfl) (Or.inl rfl) e').2.1 (by decide)
      · obtain ⟨n, g, _, _, e⟩ := h.form
        rw [e] at e'
        exact absurd (textKey_inj (hrd v hv) (hrd v' hv') (Or.inl rfl) (Or.inr rfl) (Or.inl rfl) (Or.inl rfl) e').2.1 (by decide)
    have d3 : ∀ k, (∃ v ∈ vts, VK c gts "ingressgateway" allowWhat v k) → ¬ (((∃ v ∈ vts, VM c l v k) ∨ ∃ v ∈ vts, VK c gts "egressgateway" allowWhat v k) ∨
        ∃ v ∈ vts, VK c gts "egressgateway" denyWhat v k) := by
      rintro k ⟨v', hv', h'⟩ h
      obtain ⟨n', g', hg', hk', e'⟩ := h'.form
      rcases h with (⟨v, hv, h⟩ | ⟨v, hv, h⟩) | ⟨v, hv, h⟩
      · obtain ⟨n, e⟩ := h.form
        rw [e] at e'
        exact absurd (textKey_inj (hrd v hv) (hrd v' hv') (Or.inl rfl) (Or.inl rfl) (Or.inr rfl) (Or.inl rfl) e').2.2.2.1 (by decide)
      · obtain ⟨n, g, hg, hk, e⟩ := h.form
        rw [e] at e'
        have := (textKey_inj (hrd v hv) (hrd v' hv') (Or.inl rfl) (Or.inl rfl) (Or.inl rfl) (Or.inl rfl) e').2.2.2.2
        obtain rfl := gtw_uniq hgt hgd hg hg' this
        exact kinds_differ (hgt g hg) hk' hk
      · obtain ⟨n, g, _, _, e⟩ := h.form
        rw [e] at e'
        exact absurd (textKey_inj (hrd v hv) (hrd v' hv') (Or.inr rfl) (Or.inl rfl) (Or.inl rfl) (Or.inl rfl) e').2.1 (by decide)
    rw [((G .ing).append ((M.append (G .egr)).append (G .deny))).nodup]
    constructor
    · rintro ⟨h1, ⟨⟨h2, h3, _⟩, h4, _⟩, _⟩ v hv
      refine ⟨fun g hg _ => ?_, fun _ => (h2 v hv).2, fun _ => (h2 v hv).1⟩
      by_cases hk : g.Kind "ingressgateway"
      · exact h1 v hv g hg hk
      · by_cases hk' : g.Kind "egressgateway"
        · exact h3 v hv g hg hk'
        · exact List.pairwise_of_forall fun A B n r r' _ _ h => h.1.1.1.elim hk hk'
    · intro h
      exact ⟨fun v hv g hg hk => (h v hv).gateways g hg (Or.inl hk), ⟨⟨fun v hv => ⟨(h v hv).one hF, (h v hv).mesh hF⟩,
        fun v hv g hg _ => (h v hv).gateways g hg (Or.inr hF), d1⟩, fun v hv g hg _ => (h v hv).gateways g hg (Or.inr hF), d2⟩, d3⟩
  · rw [if_pos (by rw [← Bool.not_eq_false, ← flow]; exact hF), List.append_nil, (G .ing).nodup]
    constructor
    · intro h v hv
      exact ⟨fun g hg hk => h v hv g hg (hk.resolve_right hF), fun h => absurd h hF, fun h => absurd h hF⟩
    · intro h v hv g hg hk
      exact (h v hv).gateways g hg (Or.inl hk)

end
end GtwParser
end Verif
