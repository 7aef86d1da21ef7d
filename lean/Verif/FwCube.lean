import Verif.FwProofs
import Verif.QueryLaws
/-!
The operations used by the computation of firewall rules, for hyper-cube sets; they satisfy the laws.
-/
namespace Verif.Fw

section
variable {D V X : Type} [DecidableEq D]

/-! ### Model -/

/-- `get_connectivity_cube` (nca/CoreDS/ConnectivityProperties.py 98-111): the values of a cube at all dimensions. -/
def cubeVal (A : VAlg D V X) (act : List D) (cube : List V) (d : D) : V :=
  match (act.zip cube).find? (fun e => e.1 = d) with
  | some e => e.2
  | none => A.dom d

/-- `_reorder_by_dim_list` (ConnectivityProperties.py 433-454), to the order `all'`.  For the set of all connections
the code raises IndexError; here the result is empty. -/
def reorder (A : VAlg D V X) (all all' : List D) (h : HC D V) : HC D V :=
  (HC.cubes A all h).foldl (fun acc cube => HC.addCube A all' acc (cubeVal A h.act cube) (all'.filter (fun d => decide (d ∈ h.act))))
    (HC.empty all' true)

/-- `unset_all_but_peers` (nca/CoreDS/ConnectivityCube.py 124-127). -/
def onlyPeers (A : VAlg D V X) (srcD dstD : D) (v : D → V) (d : D) : V := if d = srcD ∨ d = dstD then v d else A.dom d

/-- The protocols of a cube, set to all protocols if these are the relevant ones (`extract_src_dst_peers_from_cube`,
ConnectivityProperties.py 478-488).  With all protocols relevant, the code compares with the empty protocol set, which
is in no cube. -/
def unsetProtos (A : VAlg D V X) (protD : D) (tcp nonTcp : V) (r : ProtoSel) (v : V) : V :=
  match r with
  | .any => v
  | .tcp => if @decide (v = tcp) (A.decEq _ _) then A.dom protD else v
  | .nonTcp => if @decide (v = nonTcp) (A.decEq _ _) then A.dom protD else v

/-- The connection attributes of a cube (`extract_src_dst_peers_from_cube`, ConnectivityProperties.py 468-489): without peers,
and without protocols if these are the relevant ones. -/
def withoutPeers (A : VAlg D V X) (srcD dstD protD : D) (tcp nonTcp : V) (r : ProtoSel) (v : D → V) (d : D) : V :=
  if d = srcD ∨ d = dstD then A.dom d
  else if d = protD then
    unsetProtos A protD tcp nonTcp r (v d)
  else v d

/-- What the instance needs to know about peers: their kinds, a list of those that are no addresses, the set of one
peer, the set of all addresses and whether a set of addresses is `0.0.0.0/0` or `::/0`. -/
structure FwExtra (A : VAlg D V X) (Wf : D → V → Prop) (srcD dstD : D) where
  kind : X → PeerKind
  peers : List X
  single : X → PeerVal Wf srcD dstD
  allIps : PeerVal Wf srcD dstD
  isFull : PeerVal Wf srcD dstD → Bool
  peers_all : ∀ {e}, A.mem e (A.dom srcD) = true → kind e ≠ .ip → e ∈ peers
  single_mem : ∀ {e x}, A.mem e (A.dom srcD) = true → kind e ≠ .ip → (A.mem x (single e).1 = true ↔ x = e)
  allIps_mem : ∀ {e}, A.mem e (A.dom srcD) = true → (A.mem e allIps.1 = true ↔ kind e = .ip)

/-- Hyper-cube connection sets with the operations used for firewall rules; `all'` is the order of dimensions with
sources and destinations switched. -/
def hcFwNet {A : VAlg D V X} {Wf : D → V → Prop} (L : A.Lawful Wf) (all all' : List D) (srcD dstD protD : D) (nil : V)
    (hnil : Wf srcD nil ∧ Wf dstD nil) (hn : ∀ x, A.mem x nil = false) (tcp nonTcp : V) (X' : PeerExtra A Wf srcD dstD)
    (F : FwExtra A Wf srcD dstD) : FwNet (HC D V) (Point A) X (PeerVal Wf srcD dstD) where
  toNetQ := hcNetQ L all srcD dstD protD nil hnil hn tcp nonTcp X'
  kind := F.kind
  members := fun s => F.peers.filter (fun e => A.mem e s.1 && decide (F.kind e ≠ .ip))
  ips := fun s => (hcPeers L srcD dstD nil hnil hn).and s F.allIps
  ofList := fun l => l.foldl (fun acc e => (hcPeers L srcD dstD nil hnil hn).or acc (F.single e)) (hcPeers L srcD dstD nil hnil hn).empty
  allIps := F.allIps
  isFull := F.isFull
  cubes := fun b h =>
    let g := if b then reorder A all all' h else h
    (HC.cubes A (if b then all' else all) g).map (fun cube => (X'.clip (cubeVal A g.act cube srcD), X'.clip (cubeVal A g.act cube dstD)))
  split := fun r h => (HC.cubes A all h).map (fun cube =>
    (hcOfCube A all (onlyPeers A srcD dstD (cubeVal A h.act cube)),
     hcOfCube A all (withoutPeers A srcD dstD protD tcp nonTcp r (cubeVal A h.act cube))))

/-! ### Proofs -/

variable {A : VAlg D V X} {Wf : D → V → Prop}

theorem cubeVal_zip {act : List D} {cube : List V} (hnd : act.Nodup) (hlen : act.length = cube.length) :
    ∀ e ∈ act.zip cube, cubeVal A act cube e.1 = e.2 := by
  intro e he
  unfold cubeVal
  have hndk : (act.zip cube).Pairwise (fun a b => a.1 ≠ b.1) := by
    have h2 : ((act.zip cube).map Prod.fst).Nodup := by
      rw [List.map_fst_zip (Nat.le_of_eq hlen)]
      exact hnd
    rw [List.nodup_iff_pairwise_ne, List.pairwise_map] at h2
    exact h2
  generalize act.zip cube = z at he hndk
  have : z.find? (fun e' => e'.1 = e.1) = some e := by
    induction z with
    | nil => simp at he
    | cons a z ih =>
      obtain ⟨h1, h2⟩ := List.pairwise_cons.1 hndk
      rcases List.mem_cons.1 he with rfl | he'
      · simp
      · rw [List.find?_cons_of_neg (by simpa using h1 e he')]
        exact ih he' h2
  rw [this]

theorem cubeVal_none {act : List D} {cube : List V} {d : D} (h : d ∉ act) : cubeVal A act cube d = A.dom d := by
  unfold cubeVal
  have : (act.zip cube).find? (fun e => e.1 = d) = none := by
    rw [List.find?_eq_none]
    intro e he
    have := (List.of_mem_zip (show (e.1, e.2) ∈ _ from he)).1
    simp only [decide_eq_true_eq]
    rintro rfl
    exact h this
  rw [this]

/-- The values of a cube. -/
theorem cubeVal_wf (L : A.Lawful Wf) {act : List D} {cube : List V}
    (hv : List.Forall₂ (fun d v => Wf d v ∧ A.truthy v = true) act cube) (d : D) :
    Wf d (cubeVal A act cube d) ∧ A.truthy (cubeVal A act cube d) = true := by
  unfold cubeVal
  cases hf : (act.zip cube).find? (fun e => e.1 = d) with
  | none => exact ⟨L.wf_dom d, L.dom_truthy d⟩
  | some e =>
    have hm := List.mem_of_find?_eq_some hf
    have hk := List.find?_some hf
    simp only [decide_eq_true_eq] at hk
    have := (List.forall₂_iff_zip.1 hv).2 (show (e.1, e.2) ∈ _ from hm)
    rw [hk] at this
    exact this

theorem inCube_iff (L : A.Lawful Wf) {act : List D} {cube : List V} (hnd : act.Nodup)
    (hv : List.Forall₂ (fun d v => Wf d v ∧ A.truthy v = true) act cube) {p : D → X} (hp : InDom A p) :
    InCube A act cube p ↔ ∀ d, A.mem (p d) (cubeVal A act cube d) = true := by
  have hz := cubeVal_zip (A := A) hnd hv.length_eq
  rw [InCube, List.forall₂_iff_zip]
  constructor
  · rintro ⟨-, h⟩ d
    by_cases hd : d ∈ act
    · obtain ⟨i, hi, rfl⟩ := List.mem_iff_getElem.1 hd
      have hi' : i < cube.length := hv.length_eq ▸ hi
      have hm : (act[i], cube[i]) ∈ act.zip cube := by
        rw [List.mem_iff_getElem]
        exact ⟨i, by rw [List.length_zip]; omega, by rw [List.getElem_zip]⟩
      rw [hz _ hm]
      exact h hm
    · rw [cubeVal_none hd]
      exact hp d
  · intro h
    refine ⟨hv.length_eq, fun {d v} hm => ?_⟩
    have := h d
    rw [hz (d, v) hm] at this
    exact this

/-- The cubes of a set, with values at all dimensions: legal, not empty, together the set. -/
theorem cubes_val (L : A.Lawful Wf) {all : List D} (hnd : all.Nodup) {h : HC D V} (i : HC.Inv A Wf all h) :
    (∀ cube ∈ HC.cubes A all h, ∀ d, Wf d (cubeVal A h.act cube d) ∧ A.truthy (cubeVal A h.act cube d) = true) ∧
    ∀ p, InDom A p → (h.Pt A p ↔ ∃ cube ∈ HC.cubes A all h, ∀ d, A.mem (p d) (cubeVal A h.act cube d) = true) := by
  unfold HC.cubes
  split
  · rename_i ha
    have hact : h.act = [] := by simpa [HC.isAll] using ha
    have hv : ∀ cube : List V, ∀ d, cubeVal A h.act cube d = A.dom d := fun cube d => cubeVal_none (by rw [hact]; simp)
    refine ⟨fun cube _ d => ?_, fun p hp => ?_⟩
    · rw [hv]
      exact ⟨L.wf_dom d, L.dom_truthy d⟩
    · refine ⟨fun _ => ⟨_, List.mem_singleton.2 rfl, fun d => ?_⟩, fun _ => HC.isAll_pt ha p⟩
      rw [hv]
      exact hp d
  · have hn := hnd.sublist i.sub
    refine ⟨fun cube hc => cubeVal_wf L (cubesT_values h.tree i.wf cube hc), fun p hp => ?_⟩
    unfold HC.Pt
    rw [← cubesT_cover h.tree p]
    refine exists_congr fun cube => and_congr_right fun hc => ?_
    exact inCube_iff L hn (cubesT_values h.tree i.wf cube hc) hp

omit [DecidableEq D] in
/-- A point with chosen values at some dimensions. -/
theorem exists_point (L : A.Lawful Wf) {v : D → V} (hv : ∀ d, Wf d (v d) ∧ A.truthy (v d) = true) (f : D → Option X)
    (hf : ∀ d x, f d = some x → A.mem x (A.dom d) = true) :
    ∃ p : Point A, ∀ d, (∀ x, f d = some x → p.1 d = x) ∧ (f d = none → A.mem (p.1 d) (v d) = true) := by
  have : ∀ d, ∃ y, A.mem y (A.dom d) = true ∧ (∀ x, f d = some x → y = x) ∧ (f d = none → A.mem y (v d) = true) := by
    intro d
    cases h : f d with
    | none =>
      obtain ⟨y, hy⟩ := (L.truthy_iff (hv d).1).1 (hv d).2
      exact ⟨y, L.sub_dom (hv d).1 y hy, by simp, fun _ => hy⟩
    | some x => exact ⟨x, hf d x h, fun y hy => Option.some.inj hy, by simp⟩
  exact ⟨⟨fun d => (this d).choose, fun d => (this d).choose_spec.1⟩, fun d => (this d).choose_spec.2⟩

theorem reorder_spec (L : A.Lawful Wf) {all all' : List D} (hnd : all.Nodup) (hnd' : all'.Nodup) (hall' : all' ≠ [])
    (hsame : ∀ d, d ∈ all ↔ d ∈ all') {h : HC D V} (i : HC.Inv A Wf all h) (hnf : h.isAll = false) :
    HC.Inv A Wf all' (reorder A all all' h) ∧ ∀ p, InDom A p → ((reorder A all all' h).Pt A p ↔ h.Pt A p) := by
  obtain ⟨h1, h2⟩ := cubes_val L hnd i
  unfold reorder
  have hact : h.act ≠ [] := by simpa [HC.isAll] using hnf
  have hdims : (all'.filter (fun d => decide (d ∈ h.act))) ≠ [] := by
    obtain ⟨d, hd⟩ := List.exists_mem_of_ne_nil _ hact
    exact List.ne_nil_of_mem (List.mem_filter.2 ⟨(hsame d).1 (i.sub.subset hd), by simpa using hd⟩)
  have key : ∀ (l : List (List V)), (∀ cube ∈ l, ∀ d, Wf d (cubeVal A h.act cube d)) → ∀ (acc : HC D V) (T : (D → X) → Prop),
      HC.Hist A Wf all' false acc T → HC.Hist A Wf all' false
        (l.foldl (fun acc cube => HC.addCube A all' acc (cubeVal A h.act cube) (all'.filter (fun d => decide (d ∈ h.act)))) acc)
        (fun p => (l.foldl (fun T cube => fun p => T p ∨ HC.CubePts A (cubeVal A h.act cube) (all'.filter (fun d => decide (d ∈ h.act))) p) T) p) := by
    intro l
    induction l with
    | nil => intro _ acc T H; exact H
    | cons c l ih =>
      intro hl acc T H
      rw [List.foldl_cons, List.foldl_cons]
      exact ih (fun x hx => hl x (List.mem_cons_of_mem _ hx)) _ _
        (.addCube _ _ H hdims List.filter_sublist (fun d _ => hl c List.mem_cons_self d))
  have key2 : ∀ (l : List (List V)) (T : (D → X) → Prop) (p : D → X),
      (l.foldl (fun T cube => fun p => T p ∨ HC.CubePts A (cubeVal A h.act cube) (all'.filter (fun d => decide (d ∈ h.act))) p) T) p ↔
        T p ∨ ∃ cube ∈ l, HC.CubePts A (cubeVal A h.act cube) (all'.filter (fun d => decide (d ∈ h.act))) p := by
    intro l
    induction l with
    | nil => intro T p; simp
    | cons c l ih =>
      intro T p
      rw [List.foldl_cons, ih]
      simp only [List.mem_cons, exists_eq_or_imp, or_assoc]
  have H := (key (HC.cubes A all h) (fun cube hc d => (h1 cube hc d).1) _ _ (.empty true (by simp))).spec L hnd' hall'
  refine ⟨H.1, fun p hp => ?_⟩
  rw [H.2.1 p hp, key2, h2 p hp, false_or]
  refine exists_congr fun cube => and_congr_right fun hc => ?_
  constructor
  · intro hc d
    by_cases hd : d ∈ h.act
    · exact hc d (List.mem_filter.2 ⟨(hsame d).1 (i.sub.subset hd), by simpa using hd⟩)
    · rw [cubeVal_none hd]
      exact hp d
  · intro hc d _
    exact hc d

/-- A value of a dimension occurs in some cube. -/
theorem valuesAt_cube (d : D) : ∀ (ds : List D) (t : Tree V ds), NeT ds t → ∀ v ∈ valuesAt d ds t,
    ∃ c ∈ cubesT ds t, (d, v) ∈ ds.zip c := by
  intro ds
  induction ds with
  | nil => intro t _ v hv; simp [valuesAt] at hv
  | cons x ds ih =>
    intro t hn v hv
    unfold valuesAt at hv
    split at hv
    · rename_i hx
      subst hx
      obtain ⟨e, he, rfl⟩ := List.mem_map.1 hv
      obtain ⟨c, hc⟩ := List.exists_mem_of_ne_nil _ (cubesT_ne e.2.2 (hn e he).2 (hn e he).1)
      refine ⟨e.1 :: c, ?_, by simp⟩
      rw [cubesT_cons, List.mem_flatMap]
      exact ⟨e, he, List.mem_map.2 ⟨c, hc, rfl⟩⟩
    · obtain ⟨e, he, hv⟩ := List.mem_flatMap.1 hv
      obtain ⟨c, hc, h⟩ := ih e.2.2 (hn e he).2 v hv
      refine ⟨e.1 :: c, ?_, ?_⟩
      · rw [cubesT_cons, List.mem_flatMap]
        exact ⟨e, he, List.mem_map.2 ⟨c, hc, rfl⟩⟩
      · rw [List.zip_cons_cons]
        exact List.mem_cons_of_mem _ h

/-- Hyper-cube sets satisfy the laws. -/
theorem hcFwNet_laws (L : A.Lawful Wf) {all all' : List D} (hnd : all.Nodup) (hall : all ≠ []) (hnd' : all'.Nodup)
    (hsame : ∀ d, d ∈ all ↔ d ∈ all')
    {srcD dstD protD : D} (h1 : srcD ∈ all) (h2 : dstD ∈ all) (h3 : protD ∈ all) (hsd : srcD ≠ dstD) (hsp : srcD ≠ protD)
    (hdp : dstD ≠ protD) {nil : V} (hnil : Wf srcD nil ∧ Wf dstD nil) (hn : ∀ x, A.mem x nil = false) {tcp nonTcp : V}
    (wt : Wf protD tcp) (wn : Wf protD nonTcp)
    (hpart : ∀ x, A.mem x (A.dom protD) = true → A.mem x nonTcp = !A.mem x tcp)
    (hhead : all.head? = some srcD) (X' : PeerExtra A Wf srcD dstD) (F : FwExtra A Wf srcD dstD) :
    (hcFwNet L all all' srcD dstD protD nil hnil hn tcp nonTcp X' F).Laws (HcOk A Wf all) (HcStrong A Wf all) (HcWide all) := by
  have base := hcNetQ_lawful L hnd hall h1 h2 h3 hsd hsp hdp hnil hn wt wn hpart hhead X'
  have hall' : all' ≠ [] := List.ne_nil_of_mem ((hsame srcD).1 h1)
  have mem : ∀ {h : HC D V}, HC.Inv A Wf all h → ∀ p : Point A, HC.contains A h p.1 = true ↔ h.Pt A p.1 :=
    fun i p => HC.contains_spec i p.1
  have notAll : ∀ {h : HC D V}, (∃ q : Point A, HC.contains A h q.1 = false) → h.isAll = false := by
    rintro h ⟨q, hq⟩
    rw [← Bool.not_eq_true]
    intro ha
    rw [HC.contains, if_pos ha] at hq
    exact absurd hq (by simp)
  have indom : ∀ (s : PeerVal Wf srcD dstD) {e}, A.mem e s.1 = true → A.mem e (A.dom srcD) = true := fun s {e} h => L.sub_dom s.2.1 e h
  -- The set whose cubes are asked for, in either order.
  have hord : ∀ (b : Bool) {c : HC D V}, HC.Inv A Wf all c → (∃ q : Point A, HC.contains A c q.1 = false) →
      (∀ cube ∈ HC.cubes A (if b then all' else all) (if b then reorder A all all' c else c), ∀ d,
        Wf d (cubeVal A (if b then reorder A all all' c else c).act cube d) ∧
          A.truthy (cubeVal A (if b then reorder A all all' c else c).act cube d) = true) ∧
      ∀ p, InDom A p → (c.Pt A p ↔ ∃ cube ∈ HC.cubes A (if b then all' else all) (if b then reorder A all all' c else c), ∀ d,
        A.mem (p d) (cubeVal A (if b then reorder A all all' c else c).act cube d) = true) := by
    intro b c i hq
    cases b
    · exact cubes_val L hnd i
    · obtain ⟨r1, r2⟩ := reorder_spec L hnd hnd' hall' hsame i (notAll hq)
      obtain ⟨r3, r4⟩ := cubes_val L hnd' r1
      exact ⟨r3, fun p hp => (r2 p hp).symm.trans (r4 p hp)⟩
  -- Two coordinates given.
  have two : ∀ {v : D → V} (_ : ∀ d, Wf d (v d) ∧ A.truthy (v d) = true) (x y : X), A.mem x (A.dom srcD) = true → A.mem y (A.dom dstD) = true →
      ∃ q : Point A, q.1 srcD = x ∧ q.1 dstD = y ∧ ∀ d, d ≠ srcD → d ≠ dstD → A.mem (q.1 d) (v d) = true := by
    intro v hv x y hx hy
    obtain ⟨q, hq⟩ := exists_point L hv (fun d => if d = srcD then some x else if d = dstD then some y else none) (by
      intro d z hz
      split at hz
      · subst d; rw [← Option.some.inj hz]; exact hx
      · split at hz
        · subst d; rw [← Option.some.inj hz]; exact hy
        · simp at hz)
    refine ⟨q, (hq srcD).1 x (by simp), (hq dstD).1 y (by simp [Ne.symm hsd]), fun d hd hd' => (hq d).2 (by simp [hd, hd'])⟩
  -- One coordinate given.
  have one : ∀ {v : D → V} (_ : ∀ d, Wf d (v d) ∧ A.truthy (v d) = true) (d0 : D) (x : X), A.mem x (v d0) = true →
      ∃ q : Point A, q.1 d0 = x ∧ ∀ d, A.mem (q.1 d) (v d) = true := by
    intro v hv d0 x hx
    obtain ⟨q, hq⟩ := exists_point L hv (fun d => if d = d0 then some x else none) (by
      intro d z hz
      split at hz
      · subst d; rw [← Option.some.inj hz]; exact L.sub_dom (hv d0).1 x hx
      · simp at hz)
    refine ⟨q, (hq d0).1 x (by simp), fun d => ?_⟩
    by_cases hd : d = d0
    · subst d
      rw [(hq d0).1 x (by simp)]
      exact hx
    · exact (hq d).2 (by simp [hd])
  have wo : ∀ {v : D → V} (_ : ∀ d, Wf d (v d) ∧ A.truthy (v d) = true), ∀ d ∈ all, Wf d (onlyPeers A srcD dstD v d) := by
    intro v hv d _
    unfold onlyPeers
    split
    · exact (hv d).1
    · exact L.wf_dom d
  have ww : ∀ (r : ProtoSel) {v : D → V} (_ : ∀ d, Wf d (v d) ∧ A.truthy (v d) = true), ∀ d ∈ all, Wf d (withoutPeers A srcD dstD protD tcp nonTcp r v d) := by
    intro r v hv d _
    unfold withoutPeers
    split
    · exact L.wf_dom d
    · split
      · rename_i hd
        subst hd
        unfold unsetProtos
        cases r
        · exact (hv d).1
        · dsimp only
          split
          · exact L.wf_dom d
          · exact (hv d).1
        · dsimp only
          split
          · exact L.wf_dom d
          · exact (hv d).1
      · exact (hv d).1
  have mo : ∀ {v : D → V} (_ : ∀ d, Wf d (v d) ∧ A.truthy (v d) = true) (p : Point A),
      HC.contains A (hcOfCube A all (onlyPeers A srcD dstD v)) p.1 = true ↔ A.mem (p.1 srcD) (v srcD) = true ∧ A.mem (p.1 dstD) (v dstD) = true := by
    intro v hv p
    rw [(hcOfCube_spec L hnd hall _ (wo hv)).2 p.1 p.2]
    constructor
    · intro h
      have a := h srcD h1
      have b := h dstD h2
      simp only [onlyPeers, true_or, or_true, if_true] at a b
      exact ⟨a, b⟩
    · intro h d _
      unfold onlyPeers
      split
      · rename_i hd
        rcases hd with rfl | rfl
        · exact h.1
        · exact h.2
      · exact p.2 d
  have sp : ∀ {r : ProtoSel} {c : HC D V} {e : HC D V × HC D V}, HC.Inv A Wf all c →
      e ∈ (hcFwNet L all all' srcD dstD protD nil hnil hn tcp nonTcp X' F).split r c →
      ∃ v : D → V, (∀ d, Wf d (v d) ∧ A.truthy (v d) = true) ∧ (∀ p : Point A, (∀ d, A.mem (p.1 d) (v d) = true) → c.Pt A p.1) ∧
        e = (hcOfCube A all (onlyPeers A srcD dstD v), hcOfCube A all (withoutPeers A srcD dstD protD tcp nonTcp r v)) := by
    intro r c e i he
    obtain ⟨cube, hc, rfl⟩ := List.mem_map.1 he
    obtain ⟨a1, a2⟩ := cubes_val L hnd i
    exact ⟨cubeVal A c.act cube, a1 cube hc, fun p hp => (a2 p.1 p.2).2 ⟨cube, hc, hp⟩, rfl⟩
  have proj : ∀ (d : D) (_ : ∀ v, Wf d v → (X'.clip v).1 = v) {c : HC D V} {e : X}, HcOk A Wf all c → c.truthy = true →
      A.mem e (hcProject (hcPeers L srcD dstD nil hnil hn) A X'.clip d c).1 = true → ∃ p : Point A, p.1 d = e ∧ HC.contains A c p.1 = true := by
    intro d hd c e i ht he
    obtain ⟨a1, a2⟩ := cubes_val L hnd i
    have hcase : ∃ cube ∈ HC.cubes A all c, A.mem e (cubeVal A c.act cube d) = true := by
      unfold hcProject at he
      split at he
      · rename_i hact
        rcases (foldl_or_mem (hcPeers L srcD dstD nil hnil hn) X'.clip _ e _).1 he with h | ⟨v, hv, h⟩
        · exact absurd ((hn e).symm.trans h) (by simp)
        · obtain ⟨cube, hc, hz⟩ := valuesAt_cube d c.act c.tree i.ne v hv
          refine ⟨cube, ?_, ?_⟩
          · unfold HC.cubes
            rw [if_neg (by simp only [HC.isAll, List.isEmpty_iff]; intro hn; rw [hn] at hact; simp at hact)]
            exact hc
          · rw [cubeVal_zip (hnd.sublist i.sub) (cubesT_values c.tree i.wf cube hc).length_eq (d, v) hz]
            change A.mem e (X'.clip v).1 = true at h
            rw [hd v (valuesAt_wf d c.act c.tree i.wf v hv)] at h
            exact h
      · rename_i hact
        obtain ⟨p, hp, hpt⟩ := (HC.truthy_iff L hnd i).1 ht
        obtain ⟨cube, hc, -⟩ := (a2 p hp).1 hpt
        refine ⟨cube, hc, ?_⟩
        rw [cubeVal_none hact]
        rw [hd _ (L.wf_dom d)] at he
        exact he
    obtain ⟨cube, hc, h⟩ := hcase
    obtain ⟨q, hq, hqv⟩ := one (a1 cube hc) d e h
    exact ⟨q, hq, (mem i q).2 ((a2 q.1 q.2).2 ⟨cube, hc, hqv⟩)⟩
  refine ⟨base, ?_, ?_, ?_, ?_, ?_, ?_, ?_, ?_, ?_, fun hc ht he => proj srcD X'.clip_src hc ht he, fun hc ht he => proj dstD X'.clip_dst hc ht he⟩
  · -- members_iff
    intro s e
    change e ∈ F.peers.filter (fun e => A.mem e s.1 && decide (F.kind e ≠ .ip)) ↔ A.mem e s.1 = true ∧ F.kind e ≠ .ip
    rw [List.mem_filter, Bool.and_eq_true, decide_eq_true_eq]
    exact ⟨fun h => h.2, fun h => ⟨F.peers_all (indom s h.1) h.2, h⟩⟩
  · -- ips_iff
    intro s e
    change (hcPeers L srcD dstD nil hnil hn).mem e ((hcPeers L srcD dstD nil hnil hn).and s F.allIps) = true ↔ A.mem e s.1 = true ∧ F.kind e = .ip
    rw [(hcPeers L srcD dstD nil hnil hn).mem_and, Bool.and_eq_true]
    refine and_congr_right fun h => ?_
    exact F.allIps_mem (indom s h)
  · -- ofList_iff
    intro l e hl
    refine (foldl_or_mem (hcPeers L srcD dstD nil hnil hn) F.single l e _).trans ?_
    rw [(hcPeers L srcD dstD nil hnil hn).mem_empty]
    simp only [Bool.false_eq_true, false_or]
    have hs : ∀ x ∈ l, A.mem e (F.single x).1 = true ↔ e = x := by
      intro x hx
      obtain ⟨s, hs⟩ := hl x hx
      rcases List.mem_filter.1 hs with ⟨-, hs⟩
      rw [Bool.and_eq_true, decide_eq_true_eq] at hs
      exact F.single_mem (indom s hs.1) hs.2
    constructor
    · rintro ⟨x, hx, h⟩
      rw [(hs x hx).1 h]
      exact hx
    · exact fun h => ⟨e, h, (hs e h).2 rfl⟩
  · -- cubes_iff
    intro c b i ho hq p
    obtain ⟨a1, a2⟩ := hord b i hq
    refine (mem i p).trans ((a2 p.1 p.2).trans ?_)
    constructor
    · rintro ⟨cube, hc, h⟩
      refine ⟨_, List.mem_map.2 ⟨cube, hc, rfl⟩, ?_, ?_⟩
      · change A.mem (p.1 srcD) (X'.clip _).1 = true
        rw [X'.clip_src _ (a1 cube hc srcD).1]
        exact h srcD
      · change A.mem (p.1 dstD) (X'.clip _).1 = true
        rw [X'.clip_dst _ (a1 cube hc dstD).1]
        exact h dstD
    · rintro ⟨sd, hsd', h4, h5⟩
      obtain ⟨cube, hc, rfl⟩ := List.mem_map.1 hsd'
      change A.mem (p.1 srcD) (X'.clip _).1 = true at h4
      change A.mem (p.1 dstD) (X'.clip _).1 = true at h5
      rw [X'.clip_src _ (a1 cube hc srcD).1] at h4
      rw [X'.clip_dst _ (a1 cube hc dstD).1] at h5
      obtain ⟨q, q1, q2, q3⟩ := two (a1 cube hc) (p.1 srcD) (p.1 dstD) (p.2 srcD) (p.2 dstD)
      have hqc : c.Pt A q.1 := (a2 q.1 q.2).2 ⟨cube, hc, fun d => by
        by_cases e1 : d = srcD
        · subst d; rw [q1]; exact h4
        · by_cases e2 : d = dstD
          · subst d; rw [q2]; exact h5
          · exact q3 d e1 e2⟩
      have := ho q p q1 q2
      exact (a2 p.1 p.2).1 ((mem i p).1 (this.symm.trans ((mem i q).2 hqc)))
  · -- cubes_src
    intro c b sd e i hq hsd' he
    obtain ⟨a1, a2⟩ := hord b i hq
    obtain ⟨cube, hc, rfl⟩ := List.mem_map.1 hsd'
    change A.mem e (X'.clip _).1 = true at he
    rw [X'.clip_src _ (a1 cube hc srcD).1] at he
    obtain ⟨q, q1, q2⟩ := one (a1 cube hc) srcD e he
    refine ⟨q, q1, ?_⟩
    change A.mem (q.1 dstD) (X'.clip _).1 = true
    rw [X'.clip_dst _ (a1 cube hc dstD).1]
    exact q2 dstD
  · -- cubes_dst
    intro c b sd e i hq hsd' he
    obtain ⟨a1, a2⟩ := hord b i hq
    obtain ⟨cube, hc, rfl⟩ := List.mem_map.1 hsd'
    change A.mem e (X'.clip _).1 = true at he
    rw [X'.clip_dst _ (a1 cube hc dstD).1] at he
    obtain ⟨q, q1, q2⟩ := one (a1 cube hc) dstD e he
    refine ⟨q, q1, ?_⟩
    change A.mem (q.1 srcD) (X'.clip _).1 = true
    rw [X'.clip_src _ (a1 cube hc srcD).1]
    exact q2 srcD
  · -- split_ok
    intro c r e i he
    obtain ⟨v, hv, -, rfl⟩ := sp i he
    refine ⟨(hcOfCube_spec L hnd hall _ (wo hv)).1.1, (hcOfCube_spec L hnd hall _ (ww r hv)).1.1, ?_, ?_⟩
    · intro p q e1 e2
      rw [Bool.eq_iff_iff]
      refine (mo hv p).trans (Iff.trans ?_ (mo hv q).symm)
      change p.1 srcD = q.1 srcD at e1
      change p.1 dstD = q.1 dstD at e2
      rw [e1, e2]
    · obtain ⟨q, hq⟩ := exists_point L hv (fun _ => none) (by simp)
      exact ⟨q, (mo hv q).2 ⟨(hq srcD).2 rfl, (hq dstD).2 rfl⟩⟩
  · -- split_back
    intro c r e p i he hp
    obtain ⟨v, hv, hc, rfl⟩ := sp i he
    have hp := (mo hv p).1 hp
    obtain ⟨q, q1, q2, q3⟩ := two hv (p.1 srcD) (p.1 dstD) (p.2 srcD) (p.2 dstD)
    refine ⟨q, q1, q2, (mem i q).2 (hc q fun d => ?_)⟩
    by_cases e1 : d = srcD
    · subst d; rw [q1]; exact hp.1
    · by_cases e2 : d = dstD
      · subst d; rw [q2]; exact hp.2
      · exact q3 d e1 e2
  · -- split_iff
    intro c r p i hr
    have mw : ∀ {v : D → V} (_ : ∀ d, Wf d (v d) ∧ A.truthy (v d) = true),
        ((A.mem (p.1 srcD) (v srcD) = true ∧ A.mem (p.1 dstD) (v dstD) = true) ∧
          HC.contains A (hcOfCube A all (withoutPeers A srcD dstD protD tcp nonTcp r v)) p.1 = true) ↔ ∀ d ∈ all, A.mem (p.1 d) (v d) = true := by
      intro v hv
      rw [(hcOfCube_spec L hnd hall _ (ww r hv)).2 p.1 p.2]
      have hprot : ∀ d, d = protD → (A.mem (p.1 d) (unsetProtos A protD tcp nonTcp r (v d)) = true ↔ A.mem (p.1 d) (v d) = true) := by
        rintro d rfl
        unfold unsetProtos
        cases r
        · exact Iff.rfl
        · dsimp only
          split
          · rename_i hd
            have hd : v d = tcp := by simpa using hd
            rw [hd]
            exact ⟨fun _ => hr, fun _ => p.2 d⟩
          · exact Iff.rfl
        · dsimp only
          split
          · rename_i hd
            have hd : v d = nonTcp := by simpa using hd
            rw [hd, hpart _ (p.2 d)]
            exact ⟨fun _ => hr, fun _ => p.2 d⟩
          · exact Iff.rfl
      constructor
      · rintro ⟨⟨e1, e2⟩, h⟩ d hd
        have := h d hd
        unfold withoutPeers at this
        split at this
        · rename_i hx
          rcases hx with rfl | rfl
          · exact e1
          · exact e2
        · split at this
          · rename_i hx
            exact (hprot d hx).1 this
          · exact this
      · intro h
        refine ⟨⟨h srcD h1, h dstD h2⟩, fun d hd => ?_⟩
        unfold withoutPeers
        split
        · exact p.2 d
        · split
          · rename_i hx
            exact (hprot d hx).2 (h d hd)
          · exact h d hd
    obtain ⟨a1, a2⟩ := cubes_val L hnd i
    refine (mem i p).trans ((a2 p.1 p.2).trans ?_)
    have hact : ∀ cube, (∀ d, A.mem (p.1 d) (cubeVal A c.act cube d) = true) ↔ ∀ d ∈ all, A.mem (p.1 d) (cubeVal A c.act cube d) = true := by
      intro cube
      refine ⟨fun h d _ => h d, fun h d => ?_⟩
      by_cases hd : d ∈ all
      · exact h d hd
      · rw [cubeVal_none (fun hm => hd (i.sub.subset hm))]
        exact p.2 d
    constructor
    · rintro ⟨cube, hc, h⟩
      have := (mw (a1 cube hc)).2 ((hact cube).1 h)
      exact ⟨_, List.mem_map.2 ⟨cube, hc, rfl⟩, (mo (a1 cube hc) p).2 this.1, this.2⟩
    · rintro ⟨e, he, e1, e2⟩
      obtain ⟨cube, hc, rfl⟩ := List.mem_map.1 he
      exact ⟨cube, hc, (hact cube).2 ((mw (a1 cube hc)).1 ⟨(mo (a1 cube hc) p).1 e1, e2⟩)⟩

end
end Verif.Fw
