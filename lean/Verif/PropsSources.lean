import Verif.SourcesModel
import Verif.PropsTopology
/-!
Property theorems C67 (where the resources of a configuration come from).
-/
namespace Verif

namespace Sources
open Topology

variable {σ π : Type}

/-! ### Specification -/

/-- The files that are asked for a kind of resources: those of the specific list, if it names any, otherwise those of the general
list. -/
def chosen (specific general : Option (List String)) : List String :=
  if specific.getD [] = [] then general.getD [] else specific.getD []

/-- The namespaces in a document. -/
def Piece.nss : Piece σ π → List NsText
  | .topo d => d.items.filterMap Item.ns?
  | _ => []

/-- An endpoint, an endpoint of a `PodList`, or a service. -/
inductive Load (σ : Type) where
  | item (i : Item)
  | pod (p : PodText)
  | svc (ns : String) (s : σ)

/-- Resources that are no namespaces. -/
def notNs : Item → Bool
  | .ns _ => false
  | _ => true

/-- The endpoints and services in a document. -/
def Piece.load : Piece σ π → List (Load σ)
  | .topo (.one i) => ([i].filter notNs).map .item
  | .topo (.list l) => (l.filter notNs).map .item
  | .topo (.pods l) => l.map .pod
  | .svc n s => [.svc n s]
  | .pol _ => []

/-- The policies in a document. -/
def Piece.pols : Piece σ π → List π
  | .pol p => [p]
  | _ => []

/-- Whether a document is one of namespaces, endpoints or services. -/
def Piece.isTopo : Piece σ π → Bool
  | .pol _ => false
  | _ => true

/-- Files with the same namespaces. -/
def SameNs (a b : List (Piece σ π)) : Prop := a.flatMap Piece.nss = b.flatMap Piece.nss
/-- Files with the same endpoints and services. -/
def SamePods (a b : List (Piece σ π)) : Prop := a.flatMap Piece.load = b.flatMap Piece.load
/-- Files with the same policies. -/
def SamePols (a b : List (Piece σ π)) : Prop := a.flatMap Piece.pols = b.flatMap Piece.pols
/-- Files that differ in policies at most. -/
def SameTopo (a b : List (Piece σ π)) : Prop := a.filter Piece.isTopo = b.filter Piece.isTopo

/-- The files with namespaces. -/
def Lists.nsFrom (L : Lists) : List String := chosen L.ns L.res
/-- The files with endpoints and services. -/
def Lists.podFrom (L : Lists) : List String := chosen L.pods L.res
/-- The files with policies; an empty list counts. -/
def Lists.polFrom (L : Lists) : List String := L.np.getD (L.res.getD [])

/-- Another content of the files, with the same resources where they are looked for.  The files that may be added by
the program are the same.  If namespaces and endpoints come from the same list, their order is the same too. -/
structure Agree (W : World σ π) (F : String → List (Piece σ π)) (L : Lists) : Prop where
  nss : ∀ p ∈ L.nsFrom, SameNs (W.files p) (F p)
  pods : ∀ p ∈ L.podFrom, SamePods (W.files p) (F p)
  pols : ∀ p ∈ L.polFrom, SamePols (W.files p) (F p)
  both : L.nsFrom = L.podFrom → ∀ p ∈ L.nsFrom, SameTopo (W.files p) (F p)
  live : ∀ p, p ∈ W.dns ∨ p ∈ W.gateways ∨ p = W.controller → F p = W.files p

/-- A set is listed with its elements. -/
def World.Fair (W : World σ π) : Prop := ∀ l p, p ∈ W.some_order l ↔ p ∈ l

/-! ### Reading -/

variable {W : World σ π}

theorem determine_eq (a b : Option (List String)) : (determine a b).1.getD [] = chosen a b ∧ ((determine a b).2 = true ↔ a.getD [] ≠ []) ∧
    ((determine a b).2 = false → (determine a b).1 = b) := by
  unfold determine chosen
  split <;> rename_i h
  · simp
  · cases a with
    | none => simp
    | some l =>
      cases l with
      | nil => simp
      | cons x l => exact absurd rfl (h x l)

theorem items_ns (d : Doc) : d.items.filterMap Item.ns? = d.nss := by
  cases d with
  | one i => cases i <;> rfl
  | list l =>
    refine congrArg (fun f => List.filterMap f l) (funext fun i => ?_)
    cases i <;> rfl
  | pods l => simp [Doc.items, Doc.nss, Item.ns?]

theorem foldlM_some {α β : Type} (f : β → α → β) (l : List α) (b : β) : l.foldlM (m := Option) (fun b a => some (f b a)) b = some (l.foldl f b) := by
  induction l generalizing b with
  | nil => rfl
  | cons a l ih => simp [List.foldlM_cons, ih]

theorem readPiece_ns (f : Found σ) (x : Piece σ π) : readPiece W true false f x = some { f with topo := x.nss.foldl addNs f.topo } := by
  cases x <;> simp [readPiece, step, Piece.nss, nsPass, items_ns]

theorem readPaths_ns (f : Found σ) (l : List String) :
    readPaths W true false f l = some { f with topo := ((l.flatMap W.files).flatMap Piece.nss).foldl addNs f.topo } := by
  unfold readPaths
  generalize l.flatMap W.files = xs
  induction xs generalizing f with
  | nil => rfl
  | cons x xs ih =>
    rw [List.foldlM_cons, readPiece_ns]
    simp [ih]

/-- The effect of an endpoint or service. -/
def readLoad (cidrs : IpBlock → String) (ord : SetOrder) (f : Found σ) : Load σ → Option (Found σ)
  | .item i => (addItem cidrs ord f.topo i).map fun t => { f with topo := t }
  | .pod p => (addPod false f.topo p).map fun t => { f with topo := t }
  | .svc n s => some ⟨f.topo.touch n, f.svcs ++ [(f.topo.ns n, s)]⟩

theorem foldlM_topo {α : Type} (g : Topo → α → Option Topo) (l : List α) (f : Found σ) :
    (l.foldlM g f.topo).map (fun t => { f with topo := t }) = l.foldlM (fun (f : Found σ) a => (g f.topo a).map fun t => { f with topo := t }) f := by
  induction l generalizing f with
  | nil => rfl
  | cons a l ih =>
    rw [List.foldlM_cons, List.foldlM_cons]
    cases h : g f.topo a with
    | none => simp
    | some t => simpa using ih { f with topo := t }

theorem addItem_skip (cidrs : IpBlock → String) (ord : SetOrder) (l : List Item) (t : Topo) :
    l.foldlM (addItem cidrs ord) t = (l.filter notNs).foldlM (addItem cidrs ord) t := by
  induction l generalizing t with
  | nil => rfl
  | cons i l ih =>
    cases i
    case ns x => simpa [List.foldlM_cons, addItem, notNs] using ih t
    all_goals
      rw [List.filter_cons_of_pos (by rfl), List.foldlM_cons, List.foldlM_cons]
      exact congrArg _ (funext fun t => ih t)

theorem readPiece_eps (f : Found σ) (x : Piece σ π) : readPiece W false true f x = x.load.foldlM (readLoad W.cidrs W.ord) f := by
  cases x with
  | topo d =>
    cases d with
    | one i =>
      have := foldlM_topo (addItem W.cidrs W.ord) ([i].filter notNs) f
      rw [← addItem_skip] at this
      simpa [readPiece, step, epPass, Piece.load, List.foldlM_map, readLoad] using this
    | list l =>
      have := foldlM_topo (addItem W.cidrs W.ord) (l.filter notNs) f
      rw [← addItem_skip] at this
      simpa [readPiece, step, epPass, Piece.load, List.foldlM_map, readLoad] using this
    | pods l =>
      have := foldlM_topo (addPod false) l f
      simpa [readPiece, step, epPass, Piece.load, List.foldlM_map, readLoad] using this
  | svc n s => simp [readPiece, Piece.load, readLoad]
  | pol p => simp [readPiece, Piece.load]

theorem readPaths_eps (f : Found σ) (l : List String) :
    readPaths W false true f l = ((l.flatMap W.files).flatMap Piece.load).foldlM (readLoad W.cidrs W.ord) f := by
  unfold readPaths
  generalize l.flatMap W.files = xs
  induction xs generalizing f with
  | nil => rfl
  | cons x xs ih =>
    rw [List.foldlM_cons, readPiece_eps, List.flatMap_cons, List.foldlM_append]
    exact congrArg _ (funext fun t => ih t)

theorem readPaths_topo (nss eps : Bool) (f : Found σ) (l : List String) :
    readPaths W nss eps f l = ((l.flatMap W.files).filter Piece.isTopo).foldlM (readPiece W nss eps) f := by
  unfold readPaths
  generalize l.flatMap W.files = xs
  induction xs generalizing f with
  | nil => rfl
  | cons x xs ih =>
    cases x
    case pol p => simpa [List.foldlM_cons, readPiece, Piece.isTopo] using ih f
    all_goals
      rw [List.filter_cons_of_pos (by rfl), List.foldlM_cons, List.foldlM_cons]
      exact congrArg _ (funext fun t => ih t)

theorem flatMap_agree {β : Type} {F : String → List (Piece σ π)} {l : List String} {g : List (Piece σ π) → List β} (hg : ∀ a b, g (a ++ b) = g a ++ g b)
    (hn : g [] = []) (h : ∀ p ∈ l, g (W.files p) = g (F p)) : g (l.flatMap W.files) = g (l.flatMap F) := by
  induction l with
  | nil => simp [hn]
  | cons p l ih =>
    rw [List.flatMap_cons, List.flatMap_cons, hg, hg, h p (by simp), ih fun q hq => h q (by simp [hq])]

/-- Both kinds of resources come from the general list. -/
def Both (ns pods res : Option (List String)) : Prop := (determine pods res).1 = res ∧ (determine ns res).1 = res

instance (ns pods res : Option (List String)) : Decidable (Both ns pods res) := by unfold Both; infer_instance

theorem parseTopology_agree {F : String → List (Piece σ π)} {ns pods res : Option (List String)} (reg : PodReg)
    (h1 : ∀ p ∈ chosen ns res, SameNs (W.files p) (F p)) (h2 : ∀ p ∈ chosen pods res, SamePods (W.files p) (F p))
    (h3 : chosen ns res = chosen pods res → ∀ p ∈ chosen ns res, SameTopo (W.files p) (F p)) :
    parseTopology { W with files := F } reg ns pods res = parseTopology W reg ns pods res := by
  unfold parseTopology
  dsimp only
  split
  · rfl
  · congr 1
    split
    · rename_i hb
      have e1 : chosen ns res = res.getD [] := by rw [← (determine_eq ns res).1, hb.2]
      have e2 : chosen pods res = res.getD [] := by rw [← (determine_eq pods res).1, hb.1]
      rw [readPaths_topo, readPaths_topo]
      rw [show ((res.getD []).flatMap W.files).filter Piece.isTopo = ((res.getD []).flatMap F).filter Piece.isTopo from
        flatMap_agree (g := fun l => l.filter Piece.isTopo) (fun a b => List.filter_append ..) rfl fun p hp => h3 (e1.trans e2.symm) p (by rw [e1]; exact hp)]
      rfl
    · rw [(determine_eq ns res).1, (determine_eq pods res).1, readPaths_ns, readPaths_ns]
      rw [show ((chosen ns res).flatMap W.files).flatMap Piece.nss = ((chosen ns res).flatMap F).flatMap Piece.nss from
        flatMap_agree (g := fun l => l.flatMap Piece.nss) (fun a b => List.flatMap_append) rfl h1]
      simp only [Option.bind_some]
      rw [readPaths_eps, readPaths_eps]
      rw [show ((chosen pods res).flatMap W.files).flatMap Piece.load = ((chosen pods res).flatMap F).flatMap Piece.load from
        flatMap_agree (g := fun l => l.flatMap Piece.load) (fun a b => List.flatMap_append) rfl h2]

theorem polsOf_eq (l : List String) : polsOf W l = (l.flatMap W.files).flatMap Piece.pols := by
  unfold polsOf
  generalize l.flatMap W.files = xs
  induction xs with
  | nil => rfl
  | cons x xs ih => cases x <;> simp [Piece.pols, ih]

theorem parsePolicies_eq (L : Lists) : (parsePolicies W L.np L.res).1 = polsOf W L.polFrom := by
  unfold parsePolicies Lists.polFrom
  split
  · rename_i h; simp [h]
  · rename_i h
    rw [h]
    split
    · rename_i h; simp [h]
    · rename_i h
      cases hr : L.res with
      | none => simp [polsOf]
      | some l =>
        cases l with
        | nil => simp [polsOf]
        | cons a l => exact absurd hr (h a l)

theorem Agree.elements {F : String → List (Piece σ π)} {L : Lists} (h : Agree W F L) (g : Option (Global σ)) (reg : PodReg) (save : Bool) :
    parseElements { W with files := F } g reg L save = parseElements W g reg L save := by
  have hp : parsePolicies { W with files := F } L.np L.res = parsePolicies W L.np L.res := by
    refine Prod.ext ?_ ?_
    · rw [parsePolicies_eq, parsePolicies_eq, polsOf_eq, polsOf_eq]
      exact (flatMap_agree (g := fun l => l.flatMap Piece.pols) (fun a b => List.flatMap_append) rfl h.pols).symm
    · unfold parsePolicies
      split <;> try rfl
      split <;> rfl
  unfold parseElements setContainer
  rw [hp, parseTopology_agree reg h.nss h.pods h.both]

theorem fileLabels_agree {F : String → List (Piece σ π)} {p : String} (h : F p = W.files p) : fileLabels { W with files := F } p = fileLabels W p := by
  unfold fileLabels readPaths
  simp only [List.flatMap_cons, List.flatMap_nil, List.append_nil, h]
  rfl

theorem relevant_agree {F : String → List (Piece σ π)} {dir : List String} (h : ∀ p ∈ dir, F p = W.files p) (m : Labels) :
    relevant { W with files := F } dir m = relevant W dir m := by
  unfold relevant
  refine congrArg W.some_order (List.filter_congr fun p hp => ?_)
  rw [fileLabels_agree (h p hp)]

theorem addons_agree {F : String → List (Piece σ π)} (h : ∀ p, p ∈ W.dns ∨ p ∈ W.gateways ∨ p = W.controller → F p = W.files p) (c : Cont σ) (pols : List π) :
    addons { W with files := F } c pols = addons W c pols := by
  unfold addons
  rw [relevant_agree (dir := W.dns) fun p hp => h p (.inl hp), relevant_agree (dir := W.gateways) fun p hp => h p (.inr (.inl hp))]
  rfl

theorem addons_mem (hf : W.Fair) {c : Cont σ} {pols : List π} {p : String} (h : p ∈ addons W c pols) : p ∈ W.dns ∨ p ∈ W.gateways ∨ p = W.controller := by
  unfold addons relevant at h
  rw [List.mem_append, List.mem_append, hf, hf, List.mem_filter, List.mem_filter] at h
  rcases h with (h | h) | h
  · exact .inl h.1
  · split at h
    · exact .inr (.inr (by simpa using h))
    · simp at h
  · exact .inr (.inl h.1)

theorem extend_getD (add : List String) (o : Option (List String)) : (extend add o).getD [] = if o.getD [] = [] then [] else o.getD [] ++ add := by
  unfold extend
  split
  · simp
  · rename_i h
    cases o with
    | none => simp
    | some l =>
      cases l with
      | nil => simp
      | cons a l => exact absurd rfl (h a l)

theorem chosen_extend (add : List String) (a b : Option (List String)) :
    chosen (extend add a) (extend add b) = if chosen a b = [] then [] else chosen a b ++ add := by
  unfold chosen
  rw [extend_getD, extend_getD]
  by_cases h1 : a.getD [] = [] <;> by_cases h2 : b.getD [] = [] <;> simp [h1, h2]

theorem Agree.extend {F : String → List (Piece σ π)} {L : Lists} (h : Agree W F L) {add : List String} (ha : ∀ p ∈ add, F p = W.files p) :
    Agree W F (L.extend add) := by
  have ext : ∀ {a b : Option (List String)} {p : String}, p ∈ chosen (Sources.extend add a) (Sources.extend add b) → p ∈ chosen a b ∨ F p = W.files p := by
    intro a b p hp
    rw [chosen_extend] at hp
    split at hp
    · simp at hp
    · rcases List.mem_append.1 hp with hp | hp
      · exact .inl hp
      · exact .inr (ha p hp)
  refine ⟨fun p hp => ?_, fun p hp => ?_, fun p hp => ?_, fun e p hp => ?_, h.live⟩
  · rcases ext hp with hp | hp
    · exact h.nss p hp
    · rw [hp]; rfl
  · rcases ext hp with hp | hp
    · exact h.pods p hp
    · rw [hp]; rfl
  · unfold Lists.polFrom Lists.extend at hp
    dsimp only at hp
    have : p ∈ L.polFrom ∨ F p = W.files p := by
      unfold Lists.polFrom
      cases hn : L.np with
      | some l => rw [hn] at hp; exact .inl hp
      | none =>
        rw [hn] at hp
        simp only [Option.getD_none] at hp ⊢
        rw [extend_getD] at hp
        split at hp
        · simp at hp
        · rcases List.mem_append.1 hp with hp | hp
          · exact .inl hp
          · exact .inr (ha p hp)
    rcases this with hp | hp
    · exact h.pols p hp
    · rw [hp]; rfl
  · rcases ext hp with hp' | hp'
    · refine h.both ?_ p hp'
      change chosen _ _ = chosen _ _ at e
      unfold Lists.extend at e
      dsimp only at e
      rw [chosen_extend, chosen_extend] at e
      change chosen _ _ = chosen _ _
      have hne : chosen L.ns L.res ≠ [] := by intro h0; rw [h0] at hp'; simp at hp'
      rw [if_neg hne] at e
      by_cases h0 : chosen L.pods L.res = []
      · rw [if_pos h0] at e
        exact absurd (List.append_eq_nil_iff.1 e).1 hne
      · rw [if_neg h0] at e
        exact List.append_cancel_right e
    · rw [hp']; rfl

/-- C67: a configuration depends on nothing but the namespaces in the files named for namespaces, the
endpoints and services in the files named for pods, and the policies in the files named for policies; the general list stands in
where there is no specific one.  Other resources in these files do not matter. -/
theorem C67_override (hf : W.Fair) {F : String → List (Piece σ π)} {L : Lists} (h : Agree W F L) (g : Option (Global σ)) (reg : PodReg) (save : Bool) :
    getConfig { W with files := F } g reg L save = getConfig W g reg L save := by
  unfold getConfig
  rw [h.elements g reg save]
  refine congrArg _ (funext fun r => ?_)
  dsimp only
  rw [addons_agree h.live]
  rw [(h.extend fun p hp => h.live p (addons_mem hf hp)).elements]

end Sources
end Verif
