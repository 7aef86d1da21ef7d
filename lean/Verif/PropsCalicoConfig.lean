import Verif.CalicoQueryDom
import Verif.PropsK8sConfig
/-!
C49: the connections of a configuration of Kubernetes and Calico policies, from the texts of the policies.

The parsed policies (`Verif.K8sParseModel`, `Verif.CalicoParseModel`), reduced by a query (`Verif.QueryDom`,
`Verif.CalicoQueryDom`), are put into the model of configurations (`Verif.PolicyModel`) over the connection sets of the
program (`Verif.ConnNet`).
-/
namespace Verif
open ISet PeerSet

/-! ### The first in an order -/

section
variable {α β : Type}

/-- The first element, by rank and among equal ranks by position, of which `D` holds: it is one of which `V` holds. -/
def Leads (rank : α → Option Int) (D V : α → Prop) (l : List α) : Prop :=
  ∃ before x after, l = before ++ x :: after ∧ D x ∧ V x ∧ (∀ y ∈ before, D y → rankLt (rank x) (rank y) = true) ∧
    ∀ y ∈ after, D y → rankLt (rank y) (rank x) = false

theorem rank_irrefl (r : Option Int) : rankLt r r = false := by cases r <;> simp [rankLt]

theorem rank_total {x y : Option Int} (h1 : rankLt x y = false) (h2 : rankLt y x = false) : x = y := by
  cases x <;> cases y <;> simp_all [rankLt]
  omega

/-- The elements of a rank, in their order, around one of them. -/
theorem filter_split (rank : α → Option Int) {l : List α} {r : Option Int} {a b : List α} {x : α}
    (h : l.filter (fun q => decide (rank q = r)) = a ++ x :: b) :
    ∃ u v, l = u ++ x :: v ∧ u.filter (fun q => decide (rank q = r)) = a ∧ v.filter (fun q => decide (rank q = r)) = b := by
  rw [List.filter_eq_append_iff] at h
  obtain ⟨l1, l2, rfl, h1, h2⟩ := h
  rw [List.filter_eq_cons_iff] at h2
  obtain ⟨m1, m2, rfl, h3, _, h5⟩ := h2
  refine ⟨l1 ++ m1, m2, by simp, ?_, h5⟩
  rw [List.filter_append, h1, List.filter_eq_nil_iff.2 h3, List.append_nil]

/-- In a list sorted by rank it is the first one. -/
theorem leads_sorted (rank : α → Option Int) {l s : List α} (hs : RankSorted rank s)
    (hf : ∀ r, s.filter (fun q => decide (rank q = r)) = l.filter (fun q => decide (rank q = r))) (D V : α → Prop) :
    (∃ before x after, s = before ++ x :: after ∧ D x ∧ V x ∧ ∀ y ∈ before, ¬ D y) ↔ Leads rank D V l := by
  have hmem : ∀ y, y ∈ s ↔ y ∈ l := by
    intro y
    have := congrArg (y ∈ ·) (hf (rank y))
    simpa using this
  constructor
  · rintro ⟨u, x, v, rfl, hD, hV, hn⟩
    have h1 : l.filter (fun q => decide (rank q = rank x)) =
        u.filter (fun q => decide (rank q = rank x)) ++ x :: v.filter (fun q => decide (rank q = rank x)) := by
      rw [← hf, List.filter_append, List.filter_cons_of_pos (by simp)]
    obtain ⟨b, a, rfl, hb, ha⟩ := filter_split rank h1
    have sv : ∀ y ∈ v, rankLt (rank y) (rank x) = false := by
      have := (List.pairwise_append.1 hs).2.1
      exact (List.pairwise_cons.1 this).1
    refine ⟨b, x, a, rfl, hD, hV, fun y hy hDy => ?_, fun y hy hDy => ?_⟩
    · by_contra hlt
      have hys : y ∈ u ++ x :: v := (hmem y).2 (by simp [hy])
      have hne : rank y ≠ rank x := by
        intro he
        have : y ∈ u.filter (fun q => decide (rank q = rank x)) := by
          rw [← hb]; exact List.mem_filter.2 ⟨hy, by simpa using he⟩
        exact hn y (List.mem_filter.1 this).1 hDy
      rw [List.mem_append, List.mem_cons] at hys
      rcases hys with h | rfl | h
      · exact hn y h hDy
      · exact hne rfl
      · exact hne (rank_total (sv y h) (by simpa using hlt))
    · have hys : y ∈ u ++ x :: v := (hmem y).2 (by simp [hy])
      rw [List.mem_append, List.mem_cons] at hys
      rcases hys with h | rfl | h
      · exact absurd hDy (hn y h)
      · exact rank_irrefl _
      · exact sv y h
  · rintro ⟨b, x, a, rfl, hD, hV, h1, h2⟩
    have h3 : s.filter (fun q => decide (rank q = rank x)) =
        b.filter (fun q => decide (rank q = rank x)) ++ x :: a.filter (fun q => decide (rank q = rank x)) := by
      rw [hf, List.filter_append, List.filter_cons_of_pos (by simp)]
    obtain ⟨u, v, rfl, hu, hv⟩ := filter_split rank h3
    refine ⟨u, x, v, rfl, hD, hV, fun y hy hDy => ?_⟩
    have hsx : rankLt (rank x) (rank y) = false := (List.pairwise_append.1 hs).2.2 y hy x (by simp)
    have same : rank y ≠ rank x := by
      intro he
      have : y ∈ b.filter (fun q => decide (rank q = rank x)) := by
        rw [← hu]; exact List.mem_filter.2 ⟨hy, by simpa using he⟩
      have := h1 y (List.mem_filter.1 this).1 hDy
      rw [hsx] at this; cases this
    have hys : y ∈ b ++ x :: a := (hmem y).1 (by simp [hy])
    rw [List.mem_append, List.mem_cons] at hys
    rcases hys with h | rfl | h
    · have := h1 y h hDy
      rw [hsx] at this; cases this
    · exact same rfl
    · exact same (rank_total (h2 y h hDy) hsx)

theorem forall₂_split {R : α → β → Prop} {l : List α} {b a : List β} {x : β} (h : List.Forall₂ R l (b ++ x :: a)) :
    ∃ b' x' a', l = b' ++ x' :: a' ∧ List.Forall₂ R b' b ∧ R x' x ∧ List.Forall₂ R a' a := by
  induction b generalizing l with
  | nil =>
    cases h with
    | cons h1 h2 => exact ⟨[], _, _, rfl, .nil, h1, h2⟩
  | cons y b ih =>
    cases h with
    | cons h1 h2 =>
      obtain ⟨b', x', a', rfl, g1, g2, g3⟩ := ih h2
      exact ⟨_ :: b', x', a', rfl, .cons h1 g1, g2, g3⟩

theorem forall₂_left {R : α → β → Prop} {l : List α} {m : List β} (h : List.Forall₂ R l m) : ∀ x ∈ l, ∃ y ∈ m, R x y := by
  induction h with
  | nil => intro x hx; cases hx
  | cons h1 _ ih =>
    intro x hx
    rcases List.mem_cons.1 hx with rfl | hx
    · exact ⟨_, by simp, h1⟩
    · obtain ⟨y, hy, h⟩ := ih x hx
      exact ⟨y, by simp [hy], h⟩

theorem forall₂_swap {R : α → β → Prop} {l : List α} {m : List β} (h : List.Forall₂ R l m) : List.Forall₂ (fun y x => R x y) m l := by
  induction h with
  | nil => exact .nil
  | cons h1 _ ih => exact .cons h1 ih

theorem leads_congr {R : α → β → Prop} {l : List α} {m : List β} (h : List.Forall₂ R l m) {rank : α → Option Int} {rank' : β → Option Int}
    {D V : α → Prop} {D' V' : β → Prop} (hr : ∀ x y, R x y → rank x = rank' y) (hD : ∀ x y, R x y → (D x ↔ D' y))
    (hV : ∀ x y, R x y → D x → (V x ↔ V' y)) : Leads rank D V l ↔ Leads rank' D' V' m := by
  constructor
  · rintro ⟨b, x, a, rfl, h1, h2, h3, h4⟩
    obtain ⟨b', x', a', rfl, g1, g2, g3⟩ := forall₂_split (forall₂_swap h)
    refine ⟨b', x', a', rfl, (hD _ _ g2).1 h1, (hV _ _ g2 h1).1 h2, fun y hy hDy => ?_, fun y hy hDy => ?_⟩
    · obtain ⟨z, hz, hzy⟩ := forall₂_left g1 y hy
      rw [← hr _ _ g2, ← hr _ _ hzy]
      exact h3 z hz ((hD _ _ hzy).2 hDy)
    · obtain ⟨z, hz, hzy⟩ := forall₂_left g3 y hy
      rw [← hr _ _ g2, ← hr _ _ hzy]
      exact h4 z hz ((hD _ _ hzy).2 hDy)
  · rintro ⟨b, x, a, rfl, h1, h2, h3, h4⟩
    obtain ⟨b', x', a', rfl, g1, g2, g3⟩ := forall₂_split h
    have hd := (hD _ _ g2).2 h1
    refine ⟨b', x', a', rfl, hd, (hV _ _ g2 hd).2 h2, fun y hy hDy => ?_, fun y hy hDy => ?_⟩
    · obtain ⟨z, hz, hyz⟩ := forall₂_left g1 y hy
      rw [hr _ _ g2, hr _ _ hyz]
      exact h3 z hz ((hD _ _ hyz).1 hDy)
    · obtain ⟨z, hz, hyz⟩ := forall₂_left g3 y hy
      rw [hr _ _ g2, hr _ _ hyz]
      exact h4 z hz ((hD _ _ hyz).1 hDy)

theorem mapM_pairs {f : α → Option β} {l : List α} {m : List β} (h : l.mapM f = some m) : List.Forall₂ (fun a b => f a = some b) l m := by
  induction l generalizing m with
  | nil => simp at h; subst h; exact .nil
  | cons a l ih =>
    rw [List.mapM_cons, Option.bind_eq_bind, Option.bind_eq_some_iff] at h
    obtain ⟨b, hb, h⟩ := h
    rw [Option.bind_eq_bind, Option.bind_eq_some_iff] at h
    obtain ⟨k, hk, h⟩ := h
    cases h
    exact .cons hb (ih hk)

end

namespace CalicoParser
open Container

/-! ### Model -/

/-- A document: a Kubernetes or a Calico policy. -/
inductive Doc where
  | k8s (t : K8sParser.PolicyText)
  | calico (name : String) (t : CalicoText)

section
variable {V2 X2 : Type} {A2 : VAlg Dim V2 X2} {W2 : Dim → V2 → Prop} {B : PeerDom} {ord : SetOrder} {rg : PodReg} {c : Container} {K : CharCls}

/-- The rules of a parsed Calico policy as a query uses them (`reorganize_props_by_new_domains`, NetworkPolicy.py 189-204). -/
def queryRules (A2 : VAlg Dim V2 X2) (B : PeerDom) (rs : List (ParsedRule V2)) : List (Rule (HC Dim (ISet ⊕ V2))) :=
  rs.map (fun r => ⟨r.action, HC.reduce (connA A2 B) allDims r.props⟩)

/-- The policy object: `CalicoNetworkPolicy` with the parsed attributes (CalicoNetworkPolicy.py, `parse_policy` 622-669); the
name is that of `full_name` (NetworkPolicy.py 105-113). -/
noncomputable def calicoPolicy (A2 : VAlg Dim V2 X2) (W2 : Dim → V2 → Prop) (B : PeerDom) (rg : PodReg) (dflt : Ns) (name : String) (t : CalicoText)
    (q : ParsedPolicy V2) : Policy (HC Dim (ISet ⊕ V2)) (ConnPeers W2 B) where
  name := if t.isGlobal then name else (t.ns.getD dflt).name ++ "/" ++ name
  kind := if t.isGlobal then .calicoGlobal else .calico
  order := q.order
  action := .allow
  selected := K8sParser.peersVal A2 W2 B rg q.selected
  affectsIngress := q.affectsIngress
  affectsEgress := q.affectsEgress
  ingressRules := queryRules A2 B q.ingress
  egressRules := queryRules A2 B q.egress

/-- The policy of a document; `none` if it is rejected. -/
noncomputable def docPolicy (K : CharCls) (A2 : VAlg Dim V2 X2) (W2 : Dim → V2 → Prop) (B : PeerDom) (ord : SetOrder) (rg : PodReg) (c : Container) (dflt : Ns) :
    Doc → Option (Policy (HC Dim (ISet ⊕ V2)) (ConnPeers W2 B))
  | .k8s t => (K8sParser.parsePolicy A2 PeerDom.default ord rg c t).map (K8sParser.toPolicy A2 W2 B rg t)
  | .calico name t => (parsePolicy K c A2 PeerDom.default ord rg dflt t).map (calicoPolicy A2 W2 B rg dflt name t)

/-- The policies of the documents, in order. -/
noncomputable def docPolicies (K : CharCls) (A2 : VAlg Dim V2 X2) (W2 : Dim → V2 → Prop) (B : PeerDom) (ord : SetOrder) (rg : PodReg) (c : Container) (dflt : Ns)
    (ds : List Doc) : Option (List (Policy (HC Dim (ISet ⊕ V2)) (ConnPeers W2 B))) := ds.mapM (docPolicy K A2 W2 B ord rg c dflt)

/-- The peers of the configuration as the layers take them apart: network sets are counted with the pods, since they are
peers of the container that are no host endpoints (`get_all_peers_group`, PeerContainer.py 302-317; NetworkLayer.py
210-212). -/
noncomputable def calicoPeers (A2 : VAlg Dim V2 X2) (W2 : Dim → V2 → Prop) (B : PeerDom) (rg : PodReg) (c : Container) : Peers (ConnPeers W2 B) where
  pods := K8sParser.peersVal A2 W2 B rg (c.sel (fun p => decide (p.kind = .pod ∨ p.kind = .netset)))
  heps := K8sParser.peersVal A2 W2 B rg (c.sel (fun p => decide (p.kind = .hep)))
  dns := K8sParser.peersVal A2 W2 B rg (c.sel (fun p => decide (p.kind = .dns)))
  ips := K8sParser.peersVal A2 W2 B rg [.ip (IpBlock.allIps false false)]

/-! ### Specification -/

/-- A policy as Kubernetes or Calico understands it. -/
inductive Item where
  | k8s (t : K8sParser.PolicyText)
  | calico (t : CalicoText) (m : PolicyMeaning)

/-- What a document means. -/
inductive Doc.Means (K : CharCls) (dflt : Ns) : Doc → Item → Prop
  | k8s (t : K8sParser.PolicyText) : Doc.Means K dflt (.k8s t) (.k8s t)
  | calico (name : String) (t : CalicoText) (m : PolicyMeaning) (h : PolicyMeans K dflt t m) : Doc.Means K dflt (.calico name t) (.calico t m)

/-- The precedence: Kubernetes policies have order 1000, Calico policies the order they state. -/
def Item.order : Item → Option Int
  | .k8s _ => some 1000
  | .calico t _ => t.order

/-- The end, in the words of Kubernetes policies. -/
def SameEnd (c : Container) : Place → K8sParser.End → Prop
  | .pod k, .peer p => p ∈ c ∧ p.elem = .pod k
  | .ip x, .ip y => x = y
  | _, _ => False

/-- The rules of a direction. -/
def PolicyMeaning.rules (m : PolicyMeaning) (d : Bool) : List RuleSpec := if d then m.ingress else m.egress

/-- The policy governs the direction. -/
def Governs (t : CalicoText) (d : Bool) : Prop := if d then GovernsIngress t else GovernsEgress t

/-- The policy applies to the end in the direction. -/
def Item.Captures (c : Container) (d : Bool) (E : Place) : Item → Prop
  | .k8s t => ∃ s E', SameEnd c E E' ∧ t.spec = some s ∧ s.Governs d ∧ K8sParser.Applies t.ns s.podSelector E'
  | .calico t m => Governs t d ∧ Applies c m E

/-- The rules of the policy say `a` of the connection: allow, if a Kubernetes rule covers it; the action of the first
Calico rule that covers it, `Log` rules apart. -/
def Item.Verdict (rg : PodReg) (c : Container) (d : Bool) (src dst : Place) (q : Conn) (a : RuleAction) : Item → Prop
  | .k8s t => a = .allow ∧ ∃ s S D, SameEnd c src S ∧ SameEnd c dst D ∧ t.spec = some s ∧
      ∃ r ∈ s.rules d, K8sParser.RuleSays rg t.ns r (if d then S else D) D q.proto q.dstPort
  | .calico _ m => ∃ before r after, m.rules d = before ++ r :: after ∧ r.action = a ∧ a ≠ .log ∧ RuleSays rg c m.ns r src dst q ∧
      ∀ r' ∈ before, r'.action ≠ .log → ¬ RuleSays rg c m.ns r' src dst q

/-- Of the policies that apply to the end and say something of the connection, the first (by order, then by position) says
`a`. -/
def Decides (rg : PodReg) (c : Container) (is : List Item) (d : Bool) (E src dst : Place) (q : Conn) (a : RuleAction) : Prop :=
  Leads Item.order (fun i => i.Captures c d E ∧ ∃ b, i.Verdict rg c d src dst q b) (fun i => i.Verdict rg c d src dst q a) is

/-- The end is a peer of the kinds. -/
def IsKind (c : Container) (E : Place) (ks : List PeerKind) : Prop := AtSome c E (fun p => p.kind ∈ ks)

/-- The policies allow the connection at the end: it is an address, or the deciding policy allows it, or the deciding policy
passes it or no policy applies, and the end has the default profile (all but host endpoints). -/
def EndAllows (rg : PodReg) (c : Container) (is : List Item) (d : Bool) (E src dst : Place) (q : Conn) : Prop :=
  (∃ x, E = .ip x) ∨ Decides rg c is d E src dst q .allow ∨
  ((Decides rg c is d E src dst q .pass ∨ ∀ i ∈ is, ¬ i.Captures c d E) ∧ IsKind c E [.pod, .dns])

/-- The connection is allowed at both ends. -/
def CalicoSays (rg : PodReg) (c : Container) (is : List Item) (src dst : Place) (q : Conn) : Prop :=
  EndAllows rg c is true dst src dst q ∧ EndAllows rg c is false src src dst q

/-- The policies without the known defects. -/
def Item.Tame (c : Container) : Item → Prop
  | .k8s t => K8sParser.TameText c t
  | .calico t m => PolicyLegal t m ∧ PolicyTame c t m ∧ ∀ d, ∀ r ∈ m.rules d, r.action ≠ .pass

/-! ### Proofs -/

theorem mapM_triple {α β γ : Type} {f : α → Option β} {R T : α → γ → Prop} {l : List α} {m : List γ} {k : List β} (h : l.mapM f = some k)
    (hr : List.Forall₂ R l m) (ht : List.Forall₂ T l m) : ∀ b ∈ k, ∃ a, ∃ g ∈ m, f a = some b ∧ R a g ∧ T a g := by
  induction hr generalizing k with
  | nil => simp at h; subst h; intro b hb; cases hb
  | @cons a g l m hag _ ih =>
    rw [List.mapM_cons, Option.bind_eq_bind, Option.bind_eq_some_iff] at h
    obtain ⟨b, hb, h⟩ := h
    rw [Option.bind_eq_bind, Option.bind_eq_some_iff] at h
    obtain ⟨k', hk, h⟩ := h
    cases h
    cases ht with
    | cons t1 t2 =>
      intro b' hb'
      rcases List.mem_cons.1 hb' with rfl | hb'
      · exact ⟨a, g, by simp, hb, hag, t1⟩
      · obtain ⟨a, g, hg, h⟩ := ih hk t2 b' hb'
        exact ⟨a, g, by simp [hg], h⟩

theorem parsePolicy_some {dflt : Ns} {t : CalicoText} {P : ParsedPolicy V2} (h : parsePolicy K c A2 B ord rg dflt t = some P) :
    ∃ ns, policyNs dflt t = some ns ∧ (t.ingress.getD []).mapM (parseRule K c ns A2 B ord rg true P.selected) = some P.ingress ∧
      (t.egress.getD []).mapM (parseRule K c ns A2 B ord rg false P.selected) = some P.egress := by
  unfold parsePolicy at h
  rw [Option.bind_eq_bind, Option.bind_eq_some_iff] at h
  obtain ⟨ns, hns, h⟩ := h
  refine ⟨ns, hns, ?_⟩
  split at h; · cases h
  split at h; · cases h
  split at h; · cases h
  split at h; · cases h
  rw [Option.bind_eq_bind, Option.bind_eq_some_iff] at h
  obtain ⟨S, _, h⟩ := h
  rw [Option.bind_eq_bind, Option.bind_eq_some_iff] at h
  obtain ⟨i, hi, h⟩ := h
  rw [Option.bind_eq_some_iff] at h
  obtain ⟨e, he, h⟩ := h
  cases h
  exact ⟨hi, he⟩

variable (L2 : A2.Lawful W2)

theorem peersVal_mem (hC : CalCluster rg c) (hB : Covers rg c B) {S : PeerSet String} (hS : S.Ok ∧ InCluster c S) (e : Int ⊕ X2) :
    (connNet L2 B).Q.mem e (K8sParser.peersVal A2 W2 B rg S) = true ↔ S.At rg.keys e := by
  have reg : ∀ k, S.HasPod k → k ∈ rg.keys := by
    intro k hk
    obtain ⟨p, hp, he⟩ := hS.2 k hk
    exact hC.reg p hp k he
  obtain ⟨l, hl⟩ := (Base.C22_to_indices_defined hC.reach hS.1).2 reg
  have hcan := (Base.C22_to_indices_exact hC.reach hS.1 hl).1
  have hwf : connWf W2 B .srcPeers (.inl l) :=
    ⟨rfl, hcan, fun z hz => hB.at hS.2 ((at_iff (X2 := X2) hC.reach hS.1 hl z).1 hz)⟩
  have hv : (K8sParser.peersVal A2 W2 B rg S).1 = .inl l := by
    unfold K8sParser.peersVal
    rw [hl]
    exact (connExtra A2 W2 B).clip_src _ hwf
  have hm : (connNet L2 B).Q.mem e (K8sParser.peersVal A2 W2 B rg S) = (connA A2 B).mem e (K8sParser.peersVal A2 W2 B rg S).1 := rfl
  rw [hm, hv]
  rcases e with z | x
  · rw [← at_iff hC.reach hS.1 hl]
    exact mem_inl A2 _ z l hcan
  · constructor
    · intro h; change false = true at h; cases h
    · rintro (⟨_, h, _⟩ | ⟨_, _, h, _⟩) <;> cases h

theorem peersVal_place (hC : CalCluster rg c) (hB : Covers rg c B) {S : PeerSet String} (hS : S.Ok ∧ InCluster c S) {e : Int ⊕ X2} {E : Place}
    (hE : E.At rg c e) : (connNet L2 B).Q.mem e (K8sParser.peersVal A2 W2 B rg S) = true ↔ E.In S :=
  (peersVal_mem L2 hC hB hS e).trans (at_place hC.reach hE S)

/-- The policy object has the meaning of the item at the connection. -/
structure Fits (B : PeerDom) (rg : PodReg) (c : Container) (i : Item) (pol : Policy (HC Dim (ISet ⊕ V2)) (ConnPeers W2 B)) : Prop where
  rank : pol.precedence = i.order
  kind : pol.isK8sOrCalico = true
  legal : pol.Legal (connNet L2 B).toNet (HcStrongT (connA A2 B) (connWf W2 B) allDims)
  pass : pol.isCalico = true → ∀ d, ∀ r ∈ pol.rules d, r.action ≠ .pass
  captures : ∀ p src dst q, IsConn rg c p src dst q → ∀ d,
    (pol.captures (connNet L2 B).toNet d (endpoint (connNet L2 B).toNet d p) = true ↔ i.Captures c d (if d then dst else src))
  verdict : ∀ p src dst q, IsConn rg c p src dst q → ∀ d, i.Captures c d (if d then dst else src) → ∀ a,
    (pol.ruleVerdict (connNet L2 B).toNet d p = some a ↔ i.Verdict rg c d src dst q a)

theorem calico_fits (hK : K.Ok) (hC : CalCluster rg c) (hB : Covers rg c B) {dflt : Ns} {name : String} {t : CalicoText} {m : PolicyMeaning}
    (hm : PolicyMeans K dflt t m) (ht : Item.Tame c (.calico t m)) {P : ParsedPolicy V2} (h : parsePolicy K c A2 PeerDom.default ord rg dflt t = some P) :
    Fits L2 B rg c (.calico t m) (calicoPolicy A2 W2 B rg dflt name t P) := by
  obtain ⟨hl, ht, hpass⟩ := ht
  obtain ⟨P', e, o1, g1, g2, s1, s2, f1, f2⟩ := C48_policy_partial L2 (ord := ord) hK hC dflt hm hl ht
  rw [h] at e; cases e
  obtain ⟨ns, _, p1, p2⟩ := parsePolicy_some h
  have hin : InCluster c P.selected := by
    intro k hk
    obtain ⟨p, hp, h1, _⟩ := (s2 (.pod k)).1 hk
    exact ⟨p, hp, h1⟩
  have hkind : (calicoPolicy A2 W2 B rg dflt name t P).kind = .calico ∨ (calicoPolicy A2 W2 B rg dflt name t P).kind = .calicoGlobal := by
    change (if t.isGlobal then PolicyKind.calicoGlobal else .calico) = _ ∨ (if t.isGlobal then PolicyKind.calicoGlobal else .calico) = _
    cases t.isGlobal
    · exact Or.inl rfl
    · exact Or.inr rfl
  have hrules : ∀ d, (calicoPolicy A2 W2 B rg dflt name t P).rules d = queryRules A2 B (if d then P.ingress else P.egress) := by
    intro d; cases d <;> rfl
  have hgov : ∀ d, (calicoPolicy A2 W2 B rg dflt name t P).governs d = true ↔ Governs t d := by
    intro d
    unfold Policy.governs Governs
    rcases hkind with h | h <;> rw [h] <;> cases d
    · exact g2
    · exact g1
    · exact g2
    · exact g1
  have hok : ∀ d, List.Forall₂ (RuleOk L2 rg c m.ns (Applies c m) d) (if d then P.ingress else P.egress) (m.rules d) := by
    intro d; cases d
    · exact f2
    · exact f1
  have hfit : ∀ d, ∀ r ∈ (if d then P.ingress else P.egress), RuleFits L2 B rg c P.selected d r := by
    intro d r hr
    cases d
    · obtain ⟨a, g, hg, ha, x1, x2⟩ := mapM_triple p2 hm.egress ht.rules.2 r hr
      exact rule_fits L2 hK hC hB x1 (hl.rules g (by simp [hg])) x2 ⟨s1, hin⟩ ha
    · obtain ⟨a, g, hg, ha, x1, x2⟩ := mapM_triple p1 hm.ingress ht.rules.1 r hr
      exact rule_fits L2 hK hC hB x1 (hl.rules g (by simp [hg])) x2 ⟨s1, hin⟩ ha
  refine ⟨?_, ?_, ⟨fun d r hr => ?_, fun d r hr p hp => ?_⟩, fun _ d r hr => ?_, fun p src dst q hq d => ?_, fun p src dst q hq d hcap a => ?_⟩
  · unfold Policy.precedence
    rw [if_neg (by rcases hkind with h | h <;> rw [h] <;> decide)]
    exact o1
  · unfold Policy.isK8sOrCalico
    rcases hkind with h | h <;> rw [h] <;> decide
  · rw [hrules] at hr
    obtain ⟨b, hb, rfl⟩ := List.mem_map.1 hr
    exact (hfit d b hb).strong
  · rw [hrules] at hr
    obtain ⟨b, hb, rfl⟩ := List.mem_map.1 hr
    refine (peersVal_mem L2 hC hB ⟨s1, hin⟩ _).2 ?_
    have := (hfit d b hb).within _ (((hfit d b hb).same p).1 hp)
    cases d
    · exact this
    · exact this
  · rw [hrules] at hr
    obtain ⟨b, hb, rfl⟩ := List.mem_map.1 hr
    obtain ⟨g, hg, hbg⟩ := forall₂_left (hok d) b hb
    change b.action ≠ .pass
    rw [hbg.action]
    exact hpass d g hg
  · unfold Policy.captures
    rw [Bool.and_eq_true, hgov]
    refine and_congr_right fun _ => ?_
    have hend : Place.At rg c (endpoint (connNet L2 B).toNet d p) (if d then dst else src) := by
      cases d
      · exact hq.src
      · exact hq.dst
    exact (peersVal_place L2 hC hB ⟨s1, hin⟩ hend).trans (s2 _)
  · have hver : (calicoPolicy A2 W2 B rg dflt name t P).ruleVerdict (connNet L2 B).toNet d p =
        firstMatch (connNet L2 B).toNet p ((calicoPolicy A2 W2 B rg dflt name t P).rules d) := by
      unfold Policy.ruleVerdict
      rcases hkind with h | h <;> rw [h]
    rw [hver, firstMatch_iff, hrules]
    have hq' : IsConn rg c p.toDefault src dst q := ⟨hq.src, hq.dst, hq.proto, hq.srcPort, hq.dstPort, hq.icmpType, hq.icmpCode⟩
    have hmem : ∀ b g, b ∈ (if d then P.ingress else P.egress) → RuleOk L2 rg c m.ns (Applies c m) d b g →
        ((connNet L2 B).K.mem p (HC.reduce (connA A2 B) allDims b.props) = true ↔ RuleSays rg c m.ns g src dst q) := by
      intro b g hb hbg
      rw [(hfit d b hb).same p, hbg.mem _ src dst q hq', and_iff_right hcap.2]
    generalize hR : (if d then P.ingress else P.egress) = R at hmem
    have hok := hok d
    rw [hR] at hok
    constructor
    · rintro ⟨b, r, af, e, ha, hal, hmm, hbef⟩
      obtain ⟨l1, l2, rfl, e1, e2⟩ := List.map_eq_append_iff.1 e
      obtain ⟨r', l3, rfl, e3, e4⟩ := List.map_eq_cons_iff.1 e2
      subst e1 e3 e4
      obtain ⟨b', x', a', hb', q1, q2, q3⟩ := forall₂_split (forall₂_swap hok)
      refine ⟨b', x', a', hb', ?_, hal, (hmem r' x' (by simp) q2).1 hmm, fun g hg hlog hs => ?_⟩
      · rw [← q2.action]; exact ha
      · obtain ⟨z, hz, hzg⟩ := forall₂_left q1 g hg
        have := hbef ⟨z.action, HC.reduce (connA A2 B) allDims z.props⟩ (List.mem_map.2 ⟨z, hz, rfl⟩) (by
          change z.action ≠ .log
          rw [hzg.action]; exact hlog)
        rw [(hmem z g (by simp [hz]) hzg).2 hs] at this
        cases this
    · rintro ⟨b, g, af, e, ha, hal, hs, hbef⟩
      rw [e] at hok
      obtain ⟨b', x', a', rfl, q1, q2, q3⟩ := forall₂_split hok
      refine ⟨queryRules A2 B b', ⟨x'.action, HC.reduce (connA A2 B) allDims x'.props⟩, queryRules A2 B a', ?_, ?_, hal, (hmem x' g (by simp) q2).2 hs, fun z hz hlog => ?_⟩
      · simp [queryRules]
      · change x'.action = a
        rw [q2.action]; exact ha
      · obtain ⟨w, hw, rfl⟩ := List.mem_map.1 hz
        obtain ⟨g', hg', hwg⟩ := forall₂_left q1 w hw
        rw [← Bool.not_eq_true]
        intro hm'
        refine hbef g' hg' ?_ ((hmem w g' (by simp [hw]) hwg).1 hm')
        rw [← hwg.action]; exact hlog

theorem sameEnd_exists {E : Place} {e : Int ⊕ X2} (hE : E.At rg c e) : ∃ E', SameEnd c E E' ∧ E'.At rg c e := by
  cases E with
  | ip x => exact ⟨.ip x, rfl, hE⟩
  | pod k =>
    obtain ⟨⟨p, hp, hk⟩, n, hn, hr⟩ := hE
    exact ⟨.peer p, ⟨hp, hk⟩, hp, n, k, hn, hr, hk⟩

theorem sameEnd_unique (hu : c.Uniq) {E : Place} {a b : K8sParser.End} (ha : SameEnd c E a) (hb : SameEnd c E b) : a = b := by
  cases E <;> cases a <;> cases b <;> simp only [SameEnd] at ha hb
  · rw [hu _ ha.1 _ hb.1 (ha.2.trans hb.2.symm)]
  · subst ha; subst hb; rfl

theorem k8s_covers (hB : Covers rg c B) : K8sParser.Covers rg c B := by
  intro z E hE
  cases E with
  | ip x => exact hB z (.ip x) hE
  | peer p =>
    obtain ⟨hp, n, k, hn, hk, he⟩ := hE
    exact hB z (.pod k) ⟨⟨p, hp, he⟩, n, hn, hk⟩

theorem k8s_fits (hC : K8sParser.Cluster rg c) (hB : Covers rg c B) {t : K8sParser.PolicyText} (ht : Item.Tame c (.k8s t)) {P : K8sParser.Parsed V2}
    (h : K8sParser.parsePolicy A2 PeerDom.default ord rg c t = some P) : Fits L2 B rg c (.k8s t) (K8sParser.toPolicy A2 W2 B rg t P) := by
  obtain ⟨hl, hs⟩ := K8sParser.policy_sem L2 hC (k8s_covers hB) ht h
  have key : ∀ (p : Point (connA A2 B)) src dst q, IsConn rg c p src dst q → ∃ S D, SameEnd c src S ∧ SameEnd c dst D ∧ S.At rg c (p.1 .srcPeers) ∧ D.At rg c (p.1 .dstPeers) := by
    intro p src dst q hq
    obtain ⟨S, s1, s2⟩ := sameEnd_exists hq.src
    obtain ⟨D, d1, d2⟩ := sameEnd_exists hq.dst
    exact ⟨S, D, s1, d1, s2, d2⟩
  refine ⟨rfl, rfl, hl, fun h => (by cases h), fun p src dst q hq d => ?_, fun p src dst q hq d hcap a => ?_⟩
  · obtain ⟨S, D, s1, d1, s2, d2⟩ := key p src dst q hq
    rw [(hs p S D q.proto q.dstPort s2 d2 hq.proto hq.dstPort d).1]
    have hE : SameEnd c (if d then dst else src) (if d then D else S) := by
      cases d
      · exact s1
      · exact d1
    constructor
    · rintro ⟨s, h1, h2, h3⟩; exact ⟨s, _, hE, h1, h2, h3⟩
    · rintro ⟨s, E', hE', h1, h2, h3⟩
      rw [sameEnd_unique hC.uniq hE' hE] at h3
      exact ⟨s, h1, h2, h3⟩
  · obtain ⟨S, D, s1, d1, s2, d2⟩ := key p src dst q hq
    have hE : SameEnd c (if d then dst else src) (if d then D else S) := by
      cases d
      · exact s1
      · exact d1
    obtain ⟨s, E', hE', c1, c2, c3⟩ := hcap
    rw [sameEnd_unique hC.uniq hE' hE] at c3
    rw [C25_policy_verdict]
    have e1 : (K8sParser.toPolicy A2 W2 B rg t P).kind = .k8s := rfl
    have e2 : (K8sParser.toPolicy A2 W2 B rg t P).isCalico = false := rfl
    simp only [e1, e2, Bool.false_eq_true, false_and, false_or, reduceCtorEq, or_false, true_and]
    rw [(hs p S D q.proto q.dstPort s2 d2 hq.proto hq.dstPort d).2]
    refine and_congr_right fun _ => ⟨?_, ?_⟩
    · rintro ⟨s', h1, _, r, hr, h3⟩
      exact ⟨s', S, D, s1, d1, h1, r, hr, h3⟩
    · rintro ⟨s', S', D', s1', d1', h1, r, hr, h3⟩
      rw [c1] at h1; cases h1
      rw [sameEnd_unique hC.uniq s1' s1, sameEnd_unique hC.uniq d1' d1] at h3
      exact ⟨s, c1, c3, r, hr, h3⟩

theorem docs_fit (hK : K.Ok) (hC : CalCluster rg c) (hB : Covers rg c B) {dflt : Ns} {ds : List Doc} {is : List Item} (hm : List.Forall₂ (Doc.Means K dflt) ds is)
    (hk : ∀ t, Item.k8s t ∈ is → K8sParser.Cluster rg c) (ht : ∀ i ∈ is, i.Tame c) {pols : List (Policy (HC Dim (ISet ⊕ V2)) (ConnPeers W2 B))}
    (hp : docPolicies K A2 W2 B ord rg c dflt ds = some pols) : List.Forall₂ (Fits L2 B rg c) is pols := by
  replace hp := mapM_pairs hp
  induction hm generalizing pols with
  | nil => cases hp; exact .nil
  | @cons d i ds is hdi _ ih =>
    cases hp with
    | cons h1 h2 =>
      refine .cons ?_ (ih (fun t h => hk t (by simp [h])) (fun j h => ht j (by simp [h])) h2)
      cases hdi with
      | k8s t =>
        obtain ⟨P, hP, rfl⟩ := Option.map_eq_some_iff.1 h1
        exact k8s_fits L2 (hk t (by simp)) hB (ht _ (by simp)) hP
      | calico name t m h =>
        obtain ⟨P, hP, rfl⟩ := Option.map_eq_some_iff.1 h1
        exact calico_fits L2 hK hC hB h (ht _ (by simp)) hP

/-- The class of an end. -/
theorem calico_classes (hC : CalCluster rg c) (hB : Covers rg c B) {e : Int ⊕ X2} {E : Place} (hE : E.At rg c e) :
    ((connNet L2 B).Q.mem e (calicoPeers A2 W2 B rg c).pods = true ↔ IsKind c E [.pod, .netset]) ∧
    ((connNet L2 B).Q.mem e (calicoPeers A2 W2 B rg c).heps = true ↔ IsKind c E [.hep]) ∧
    ((connNet L2 B).Q.mem e (calicoPeers A2 W2 B rg c).dns = true ↔ IsKind c E [.dns]) ∧
    ((connNet L2 B).Q.mem e (calicoPeers A2 W2 B rg c).ips = true ↔ ∃ x, E = .ip x) := by
  have sel : ∀ (f : PeerInfo → Bool) (ks : List PeerKind), (∀ p, f p = true ↔ p.kind ∈ ks) →
      ((connNet L2 B).Q.mem e (K8sParser.peersVal A2 W2 B rg (c.sel f)) = true ↔ IsKind c E ks) := by
    intro f ks hf
    have hs := sem_sel hC.ok f
    rw [peersVal_place L2 hC hB ⟨hs.1, hs.inCluster⟩ hE, hs.2]
    exact exists_congr fun p => and_congr_right fun _ => and_congr_right fun _ => hf p
  refine ⟨sel _ _ (fun p => by simp), sel _ _ (fun p => by simp), sel _ _ (fun p => by simp), ?_⟩
  rw [show (calicoPeers A2 W2 B rg c).ips = K8sParser.peersVal A2 W2 B rg [.ip (IpBlock.allIps false false)] from rfl,
    peersVal_place L2 hC hB (K8sParser.ips_legal (c := c)) hE]
  cases E with
  | ip x =>
    simp only [Place.ip.injEq, exists_eq', iff_true]
    exact ⟨_, List.mem_singleton.2 rfl, (IpBlock.C21_all_exact false false x).2 (by simp)⟩
  | pod k =>
    simp only [reduceCtorEq, exists_false, iff_false]
    intro hk
    change PeerElem.pod k ∈ [_] at hk
    rw [List.mem_singleton] at hk; cases hk

theorem calico_no_heps (hC : CalCluster rg c) (hB : Covers rg c B) (hn : ∀ p ∈ c, p.kind ≠ .hep) (e : Int ⊕ X2) :
    (connNet L2 B).Q.mem e (calicoPeers A2 W2 B rg c).heps = false := by
  rw [← Bool.not_eq_true]
  intro h
  have hs := sem_sel hC.ok (fun p => decide (p.kind = .hep))
  rcases (peersVal_mem L2 hC hB ⟨hs.1, hs.inCluster⟩ e).1 h with ⟨x, _, hx⟩ | ⟨n, k, _, _, hk⟩
  · obtain ⟨p, hp, _, hf⟩ := (hs.2 (.ip x)).1 hx
    exact hn p hp (by simpa using hf)
  · obtain ⟨p, hp, _, hf⟩ := (hs.2 (.pod k)).1 hk
    exact hn p hp (by simpa using hf)

/-- The ends of a connection are peers of the configuration. -/
theorem calico_known (hC : CalCluster rg c) (hB : Covers rg c B) {E : Place} {e : Int ⊕ X2} (hE : E.At rg c e) :
    (calicoPeers A2 W2 B rg c).known (connNet L2 B).toNet e := by
  obtain ⟨s1, s2, s3, s4⟩ := calico_classes (A2 := A2) L2 hC hB hE
  unfold Peers.known Peers.nonDns Peers.workload
  rw [s1, s2, s3, s4]
  cases E with
  | ip x => exact Or.inl (Or.inr ⟨x, rfl⟩)
  | pod k =>
    obtain ⟨⟨a, ha, he⟩, _⟩ := hE
    cases hkd : a.kind with
    | pod => exact Or.inl (Or.inl (Or.inl ⟨a, ha, he, by simp [hkd]⟩))
    | netset => exact Or.inl (Or.inl (Or.inl ⟨a, ha, he, by simp [hkd]⟩))
    | hep => exact Or.inl (Or.inl (Or.inr ⟨a, ha, he, by simp [hkd]⟩))
    | dns => exact Or.inr ⟨a, ha, he, by simp [hkd]⟩

/-- The layer of Kubernetes and Calico policies, in a configuration with policies of any kinds. -/
theorem calico_layer (hC : CalCluster rg c) (hB : Covers rg c B) {is : List Item} {pols : List (Policy (HC Dim (ISet ⊕ V2)) (ConnPeers W2 B))}
    (F : List.Forall₂ (Fits L2 B rg c) is (pols.filter Policy.isK8sOrCalico)) {st : PolicyStore (HC Dim (ISet ⊕ V2)) (ConnPeers W2 B)}
    (hb : PolicyStore.build pols = some st) (p : Point (connA A2 B)) (src dst : Place) (q : Conn) (hq : IsConn rg c p src dst q)
    (hw : IsKind c src [.pod, .hep] ∨ IsKind c dst [.pod, .hep]) :
    layerAllows (connNet L2 B).toNet .k8sCalico (layerList st.layers .k8sCalico) (calicoPeers A2 W2 B rg c) p ↔ CalicoSays rg c is src dst q := by
  have F' := forall₂_left (forall₂_swap F)
  have hB' := build_built pols hb
  have noIp : ∀ x ks, PeerKind.netset ∉ ks → ¬ IsKind c (.ip x) ks := by
    rintro x ks hks ⟨a, ha, ⟨b, hb, _⟩, hkd⟩
    rw [(hC.sets a ha).2 ⟨b, hb⟩] at hkd
    exact hks hkd
  have work : ∀ (E : Place) (e : Int ⊕ X2), E.At rg c e → IsKind c E [.pod, .hep] → (calicoPeers A2 W2 B rg c).workload (connNet L2 B).toNet e := by
    intro E e hE h
    obtain ⟨s1, s2, _, _⟩ := calico_classes (A2 := A2) L2 hC hB hE
    unfold Peers.workload
    rw [s1, s2]
    obtain ⟨a, ha, he, hkd⟩ := h
    simp only [List.mem_cons, List.not_mem_nil, or_false] at hkd
    rcases hkd with hkd | hkd
    · exact Or.inl ⟨a, ha, he, by simp [hkd]⟩
    · exact Or.inr ⟨a, ha, he, by simp [hkd]⟩
  -- the deciding policy
  obtain ⟨hsort, hfil⟩ := C25_precedence pols hb
  have hmemL : ∀ pol, pol ∈ layerList st.layers .k8sCalico ↔ pol ∈ pols.filter Policy.isK8sOrCalico := by
    intro pol
    rw [hB'.mem_list, List.mem_filter]
    refine and_congr_right fun _ => ?_
    unfold Policy.isK8sOrCalico
    cases pol.kind <;> simp [layerOf]
  have hdec : ∀ d a, layerVerdict (connNet L2 B).toNet (layerList st.layers .k8sCalico) d p = some a ↔
      Decides rg c is d (if d then dst else src) src dst q a := by
    intro d a
    rw [layerVerdict_iff]
    have h1 := leads_sorted Policy.precedence hsort hfil
      (fun pol => pol.captures (connNet L2 B).toNet d (endpoint (connNet L2 B).toNet d p) = true ∧ ∃ b, pol.ruleVerdict (connNet L2 B).toNet d p = some b)
      (fun pol => pol.ruleVerdict (connNet L2 B).toNet d p = some a)
    have h2 : Decides rg c is d (if d then dst else src) src dst q a ↔ _ := leads_congr F
      (rank := Item.order) (rank' := Policy.precedence) (D := fun i => i.Captures c d (if d then dst else src) ∧ ∃ b, i.Verdict rg c d src dst q b)
      (V := fun i => i.Verdict rg c d src dst q a)
      (D' := fun pol => pol.captures (connNet L2 B).toNet d (endpoint (connNet L2 B).toNet d p) = true ∧ ∃ b, pol.ruleVerdict (connNet L2 B).toNet d p = some b)
      (V' := fun pol => pol.ruleVerdict (connNet L2 B).toNet d p = some a)
      (fun i pol h => h.rank.symm)
      (fun i pol h => by
        rw [h.captures p src dst q hq d]
        exact and_congr_right fun hcap => exists_congr fun b => (h.verdict p src dst q hq d hcap b).symm)
      (fun i pol h hD => (h.verdict p src dst q hq d hD.1 a).symm)
    rw [h2, ← h1]
    unfold FirstPolicy
    constructor
    · rintro ⟨b, x, af, e, hc, hv, hbef⟩
      refine ⟨b, x, af, e, ⟨hc, a, hv⟩, hv, ?_⟩
      rintro y hy ⟨hyc, w, hyw⟩
      rw [hbef y hy hyc] at hyw; cases hyw
    · rintro ⟨b, x, af, e, ⟨hc, _⟩, hv, hbef⟩
      refine ⟨b, x, af, e, hc, hv, fun y hy hyc => ?_⟩
      cases hyw : y.ruleVerdict (connNet L2 B).toNet d p with
      | none => rfl
      | some w => exact absurd ⟨hyc, w, hyw⟩ (hbef y hy)
  have hnone : ∀ d, (∀ pol ∈ layerList st.layers .k8sCalico, pol.captures (connNet L2 B).toNet d (endpoint (connNet L2 B).toNet d p) = false) ↔
      ∀ i ∈ is, ¬ i.Captures c d (if d then dst else src) := by
    intro d
    constructor
    · intro h i hi hcap
      obtain ⟨pol, hpol, hf⟩ := forall₂_left F i hi
      have := h pol ((hmemL pol).2 hpol)
      rw [(hf.captures p src dst q hq d).2 hcap] at this; cases this
    · intro h pol hpol
      obtain ⟨i, hi, hf⟩ := F' pol ((hmemL pol).1 hpol)
      rw [← Bool.not_eq_true, hf.captures p src dst q hq d]
      exact h i hi
  -- one direction
  have hdir : ∀ d, (layerDirAllows (connNet L2 B).toNet .k8sCalico (layerList st.layers .k8sCalico) (calicoPeers A2 W2 B rg c) d p ∨
      ((calicoPeers A2 W2 B rg c).workload (connNet L2 B).toNet (otherEnd (connNet L2 B).toNet d p) ∧
        (connNet L2 B).Q.mem (endpoint (connNet L2 B).toNet d p) (calicoPeers A2 W2 B rg c).ips = true)) ↔
      EndAllows rg c is d (if d then dst else src) src dst q := by
    intro d
    have hend : Place.At rg c (endpoint (connNet L2 B).toNet d p) (if d then dst else src) := by
      cases d
      · exact hq.src
      · exact hq.dst
    have hoth : Place.At rg c (otherEnd (connNet L2 B).toNet d p) (if d then src else dst) := by
      cases d
      · exact hq.dst
      · exact hq.src
    have hw' : IsKind c (if d then dst else src) [.pod, .hep] ∨ IsKind c (if d then src else dst) [.pod, .hep] := by
      cases d
      · exact hw
      · exact hw.symm
    obtain ⟨s1, s2, s3, s4⟩ := calico_classes (A2 := A2) L2 hC hB hend
    rw [s4]
    change calicoAllows _ _ _ _ _ ∨ _ ↔ _
    unfold calicoAllows EndAllows Peers.hasDefault
    rw [hdec, hdec, hnone, s1, s3]
    generalize (if d then dst else src) = E at *
    cases E with
    | ip x =>
      refine ⟨fun _ => Or.inl ⟨x, rfl⟩, fun _ => Or.inr ⟨work _ _ hoth ?_, x, rfl⟩⟩
      exact hw'.resolve_left (noIp x _ (by simp))
    | pod k =>
      simp only [reduceCtorEq, exists_false, and_false, or_false, false_or]
      refine or_congr Iff.rfl (and_congr_right fun _ => ?_)
      rw [and_iff_left (calico_known L2 hC hB hoth)]
      constructor
      · rintro (⟨a, ha, he, hkd⟩ | ⟨a, ha, he, hkd⟩)
        · simp only [List.mem_cons, List.not_mem_nil, or_false] at hkd
          rcases hkd with hkd | hkd
          · exact ⟨a, ha, he, by simp [hkd]⟩
          · obtain ⟨b, hb⟩ := (hC.sets a ha).1 hkd
            have he : a.elem = .pod k := he
            rw [hb] at he; cases he
        · simp only [List.mem_cons, List.not_mem_nil, or_false] at hkd
          exact ⟨a, ha, he, by simp [hkd]⟩
      · rintro ⟨a, ha, he, hkd⟩
        simp only [List.mem_cons, List.not_mem_nil, or_false] at hkd
        rcases hkd with hkd | hkd
        · exact Or.inl ⟨a, ha, he, by simp [hkd]⟩
        · exact Or.inr ⟨a, ha, he, by simp [hkd]⟩
  unfold CalicoSays
  have h1 := hdir true
  have h2 := hdir false
  simp only [if_true, Bool.false_eq_true, if_false] at h1 h2
  rw [← h1, ← h2]
  exact and_congr Iff.rfl (or_congr Iff.rfl and_comm)

/-- C49: in a configuration of Kubernetes and Calico policies, a connection with a pod or a host endpoint at one of its ends
is allowed exactly if at each end that is no address the first of the policies that apply to it and say something of the
connection allows it, or no policy applies and the end is no host endpoint.  The order is that of the policies (1000 for
Kubernetes), and among policies of one order the place in the configuration (see `C49_tie_by_position`).
PARTIAL: without the known defects of single texts (`Item.Tame`) and `Pass` rules (C24); Kubernetes policies in clusters of
pods and DNS entries only; with host endpoints, only for the filter that does not ask for explicitly allowed connections
(`C30_filter_hep_wrong`). -/
theorem C49_config_partial (hK : K.Ok) (hC : CalCluster rg c) (hB : Covers rg c B) {dflt : Ns} {ds : List Doc} {is : List Item}
    (hm : List.Forall₂ (Doc.Means K dflt) ds is) (hk : ∀ t, Item.k8s t ∈ is → K8sParser.Cluster rg c) (ht : ∀ i ∈ is, i.Tame c)
    {pols : List (Policy (HC Dim (ISet ⊕ V2)) (ConnPeers W2 B))} (hp : docPolicies K A2 W2 B ord rg c dflt ds = some pols)
    {st : PolicyStore (HC Dim (ISet ⊕ V2)) (ConnPeers W2 B)} (hb : PolicyStore.build pols = some st)
    (f : ConnFilter) (hf : f.calcAllAllowed = true) (hh : f.calcAllowed = false ∨ ∀ p ∈ c, p.kind ≠ .hep)
    (p : Point (connA A2 B)) (src dst : Place) (q : Conn) (hq : IsConn rg c p src dst q)
    (hw : IsKind c src [.pod, .hep] ∨ IsKind c dst [.pod, .hep]) :
    (connNet L2 B).K.mem p (configConns (connNet L2 B).toNet (calicoPeers A2 W2 B rg c) st.layers f).allAllowed = true ↔
      CalicoSays rg c is src dst q := by
  have F := docs_fit L2 hK hC hB hm hk ht hp
  have F' := forall₂_left (forall₂_swap F)
  have hlay : ∀ pol ∈ pols, layerOf pol.kind = .k8sCalico := by
    intro pol hpol
    obtain ⟨i, _, hi⟩ := F' pol hpol
    have := hi.kind
    unfold Policy.isK8sOrCalico at this
    cases hk : pol.kind <;> rw [hk] at this <;> first | rfl | cases this
  have hlegal : ∀ Ok, LegalPolicies (connNet L2 B).toNet Ok (HcStrongT (connA A2 B) (connWf W2 B) allDims) pols := fun _ =>
    ⟨fun pol hpol => (F' pol hpol).elim fun i hi => hi.2.legal, Or.inr fun pol hpol hcal => (F' pol hpol).elim fun i hi => hi.2.pass hcal⟩
  rw [C29_config_allows_partial (connNet_lawful L2 B).1.net pols (hlegal _) hb (calicoPeers A2 W2 B rg c) f hf
    (hh.imp_right fun h => calico_no_heps L2 hC hB h) p (by rintro n ⟨pol, h1, rfl⟩; rw [hlay pol h1]; trivial)]
  have hpres : Present (connNet L2 B).toNet pols (calicoPeers A2 W2 B rg c) .k8sCalico := by
    by_cases hp : pols = []
    · exact Or.inr ⟨rfl, Or.inl hp⟩
    · obtain ⟨pol, hpol⟩ := List.exists_mem_of_ne_nil _ hp
      exact Or.inl ⟨pol, hpol, hlay pol hpol⟩
  have hone : ∀ Q : LayerName → Prop, (∀ n, Present (connNet L2 B).toNet pols (calicoPeers A2 W2 B rg c) n → Q n) ↔ Q .k8sCalico := by
    intro Q
    refine ⟨fun h => h _ hpres, fun h n hn => ?_⟩
    rcases hn with ⟨pol, h4, rfl⟩ | ⟨rfl, _⟩
    · rw [hlay pol h4]; exact h
    · exact h
  rw [hone]
  have hall : pols.filter Policy.isK8sOrCalico = pols :=
    List.filter_eq_self.2 fun pol hpol => (F' pol hpol).elim fun i hi => hi.2.kind
  rw [calico_layer L2 hC hB (is := is) (by rw [hall]; exact F) hb p src dst q hq hw]
  exact ⟨fun h => h.2.2, fun h => ⟨calico_known L2 hC hB hq.src, calico_known L2 hC hB hq.dst, h⟩⟩

/-! ### Accepted configurations -/

/-- The name a document is known by, with its kind. -/
def Doc.key (dflt : Ns) : Doc → String × PolicyKind
  | .k8s t => (t.ns.name ++ "/" ++ t.name, .k8s)
  | .calico name t => if t.isGlobal then (name, .calicoGlobal) else ((t.ns.getD dflt).name ++ "/" ++ name, .calico)

theorem docs_keys {dflt : Ns} {ds : List Doc} {pols : List (Policy (HC Dim (ISet ⊕ V2)) (ConnPeers W2 B))}
    (h : docPolicies K A2 W2 B ord rg c dflt ds = some pols) : pols.map (fun pol => (pol.name, pol.kind)) = ds.map (Doc.key dflt) := by
  replace h := mapM_pairs h
  induction h with
  | nil => rfl
  | @cons d pol ds pols h1 _ ih =>
    rw [List.map_cons, List.map_cons, ih]
    congr 1
    cases d with
    | k8s t =>
      obtain ⟨P, _, rfl⟩ := Option.map_eq_some_iff.1 h1
      rfl
    | calico name t =>
      obtain ⟨P, _, rfl⟩ := Option.map_eq_some_iff.1 h1
      change (if t.isGlobal then name else (t.ns.getD dflt).name ++ "/" ++ name, if t.isGlobal then PolicyKind.calicoGlobal else .calico) =
        if t.isGlobal then (name, .calicoGlobal) else ((t.ns.getD dflt).name ++ "/" ++ name, .calico)
      cases t.isGlobal <;> rfl

include L2 in
/-- C49: a configuration of meaningful documents without the known defects is accepted exactly if the Kubernetes documents
are legal and no two documents of a kind have the same name (and namespace). -/
theorem C49_accepted_partial (hK : K.Ok) (hC : CalCluster rg c) {dflt : Ns} {ds : List Doc} {is : List Item} (hm : List.Forall₂ (Doc.Means K dflt) ds is)
    (hk : ∀ t, Item.k8s t ∈ is → K8sParser.Cluster rg c) (ht : ∀ i ∈ is, i.Tame c) :
    (∃ pols st, docPolicies K A2 W2 B ord rg c dflt ds = some pols ∧ PolicyStore.build pols = some st) ↔
      (∀ t, Doc.k8s t ∈ ds → ∀ s, t.spec = some s → s.Legal) ∧ ds.Pairwise (fun a b => a.key dflt ≠ b.key dflt) := by
  have hone : ∀ d ∈ ds, (∃ a, docPolicy K A2 W2 B ord rg c dflt d = some a) ↔ ∀ t, d = .k8s t → ∀ s, t.spec = some s → s.Legal := by
    intro d hd
    obtain ⟨i, hi, hdi⟩ := forall₂_left hm d hd
    cases hdi with
    | k8s t =>
      simp only [Doc.k8s.injEq, forall_eq']
      cases hs : t.spec with
      | none => simp [docPolicy, K8sParser.parsePolicy, hs]
      | some s =>
        have := K8sParser.C44_accepted (ord := ord) L2 (hk t hi) t.ns s
        simp only [Option.some.injEq, forall_eq']
        unfold K8sParser.PolicySpec.Legal
        rw [← this]
        unfold docPolicy K8sParser.parsePolicy
        dsimp only
        rw [hs]
        simp only [Option.map_eq_some_iff]
        constructor
        · rintro ⟨a, q, hq, _⟩; exact ⟨q, hq⟩
        · rintro ⟨q, hq⟩; exact ⟨_, q, hq, rfl⟩
    | calico name t m h =>
      obtain ⟨hl, htm, _⟩ := ht _ hi
      obtain ⟨P, e, _⟩ := C48_policy_partial L2 (ord := ord) hK hC dflt h hl htm
      simp only [reduceCtorEq, false_implies, implies_true, iff_true]
      exact ⟨_, by rw [docPolicy, e]; rfl⟩
  have hall : (∃ pols, docPolicies K A2 W2 B ord rg c dflt ds = some pols) ↔ ∀ t, Doc.k8s t ∈ ds → ∀ s, t.spec = some s → s.Legal := by
    unfold docPolicies
    rw [K8sParser.mapM_defined]
    constructor
    · intro h t htm; exact (hone _ htm).1 (h _ htm) t rfl
    · intro h d hd; exact (hone d hd).2 fun t e => h t (e ▸ hd)
  have hnames : ∀ pols : List (Policy (HC Dim (ISet ⊕ V2)) (ConnPeers W2 B)), docPolicies K A2 W2 B ord rg c dflt ds = some pols →
      ((∃ st, PolicyStore.build pols = some st) ↔ ds.Pairwise (fun a b => a.key dflt ≠ b.key dflt)) := by
    intro pols hp
    rw [build_some_iff]
    have e1 : pols.Pairwise (fun a b => ¬ (a.name = b.name ∧ a.kind = b.kind)) ↔
        (pols.map (fun pol => (pol.name, pol.kind))).Pairwise (fun a b => a ≠ b) := by
      rw [List.pairwise_map]
      simp only [ne_eq, Prod.mk.injEq]
    rw [e1, docs_keys hp, List.pairwise_map]
  rw [← hall]
  constructor
  · rintro ⟨pols, st, h1, h2⟩
    exact ⟨⟨pols, h1⟩, (hnames pols h1).1 ⟨st, h2⟩⟩
  · rintro ⟨⟨pols, h1⟩, h2⟩
    obtain ⟨st, h3⟩ := (hnames pols h1).2 h2
    exact ⟨pols, st, h1, h3⟩

end

/-! ### The domain of a query -/

/-- C49: the domain of a query over clusters with host endpoints and network sets is defined, and holds exactly the
addresses and the peers of the configurations of the query. -/
theorem C49_domain {rg : PodReg} {cs : List Container} (hC : ∀ c ∈ cs, CalCluster rg c) (hne : cs ≠ []) :
    ∃ B : PeerDom, K8sParser.queryDom rg cs = some B.idx ∧ (∀ z, Mem z B.idx ↔ ∃ c ∈ cs, ∃ E : Place, E.At (X2 := Empty) rg c (.inl z)) ∧
      ∀ c ∈ cs, Covers rg c B := by
  obtain ⟨h1, h2, h3⟩ := K8sParser.queryPeers_sem cs (fun c hc => (hC c hc).ok)
  obtain ⟨c0, hc0⟩ := List.exists_mem_of_ne_nil _ hne
  have hr := (hC c0 hc0).reach
  have hreg : ∀ k, (K8sParser.queryPeers cs).HasPod k → k ∈ rg.keys := by
    intro k hk
    obtain ⟨c, hc, p, hp, he⟩ := (h2 k).1 hk
    exact (hC c hc).reg p hp k he
  obtain ⟨l, hl⟩ := (Base.C22_to_indices_defined hr h1).2 hreg
  have hmem := at_iff (X2 := Empty) hr h1 hl
  have hex : ∀ z, Mem z l ↔ ∃ c ∈ cs, ∃ E : Place, E.At (X2 := Empty) rg c (.inl z) := by
    intro z
    rw [hmem]
    constructor
    · rintro (⟨x, hx, _⟩ | ⟨n, k, hn, hk, h⟩)
      · exact ⟨c0, hc0, .ip x, hx⟩
      · obtain ⟨c, hc, p, hp, he⟩ := (h2 k).1 h
        exact ⟨c, hc, .pod k, ⟨p, hp, he⟩, n, hn, hk⟩
    · rintro ⟨c, hc, E, hE⟩
      cases E with
      | ip x => exact Or.inl ⟨x, hE, (h3 x).2 hne⟩
      | pod k =>
        obtain ⟨⟨p, hp, he⟩, n, hn, hk⟩ := hE
        exact Or.inr ⟨n, k, hn, hk, (h2 k).2 ⟨c, hc, p, hp, he⟩⟩
  have hcan := (Base.C22_to_indices_exact hr h1 hl).1
  have hx : Mem (Ip.idx ⟨false, 0, by decide⟩) l := (hex _).2 ⟨c0, hc0, .ip ⟨false, 0, by decide⟩, rfl⟩
  refine ⟨⟨l, hcan, (truthy_spec _ hcan).2 ⟨_, hx⟩, fun z hz => at_default (X2 := Empty) hr ((hmem z).1 hz)⟩, hl, hex, fun c hc z E hE => ?_⟩
  exact (hex z).2 ⟨c, hc, E, hE⟩

end CalicoParser
end Verif
