import Verif.QueryModel
import Verif.PropsConfig
/-!
The laws of connection sets the query theorems rely on, and the proof that hyper-cube sets satisfy
them.  `Wide` sets are those whose first active dimension is that of the sources: when they are empty,
they may stand on the left of a subtraction, and they pass this on to intersections and differences.
-/
namespace Verif

section
variable {C P E S : Type}

/-- Laws of a `NetQ`. -/
structure NetQ.Lawful (N : NetQ C P E S) (Ok Strong Wide : C → Prop) : Prop where
  net : N.toNet.Lawful Ok Strong
  all_ok : Ok N.all
  mem_all : ∀ p, N.K.mem p N.all = true
  and_all : ∀ a, N.K.and a N.all = a
  /-- The projections contain the endpoints of all connections. -/
  srcs_sup : ∀ {c p}, Ok c → N.K.mem p c = true → N.Q.mem (N.src p) (N.srcs c) = true
  dsts_sup : ∀ {c p}, Ok c → N.K.mem p c = true → N.Q.mem (N.dst p) (N.dsts c) = true
  /-- Every endpoint of a set belongs to one of its elements, and conversely. -/
  elems_mem : ∀ s e, N.Q.mem e s = true ↔ ∃ a ∈ N.elems s, N.Q.mem e a = true
  /-- Only IP addresses share an element with other endpoints. -/
  elems_single : ∀ {s a e e'}, a ∈ N.elems s → N.Q.mem e a = true → N.Q.mem e' a = true →
    e = e' ∨ (N.ip e = true ∧ N.ip e' = true)
  v6_ip : ∀ {e}, N.Q.mem e N.v6 = true → N.ip e = true
  eq_refl : ∀ {a}, Ok a → N.K.eq a a = true
  strong_iff : ∀ {a}, Strong a ↔ Ok a ∧ (N.K.truthy a = true ∨ Wide a)
  /-- A connection with the source of another one. -/
  splice : ∀ p q, ∃ r, N.src r = N.src q ∧ N.dst r = N.dst p ∧ N.isTcp r = N.isTcp p ∧
    ∀ {a}, Ok a → N.K.mem p a = true → N.K.mem r a = false → Wide a
  and_wide : ∀ {a b}, Ok a → Ok b → (Wide a ∨ Wide b) → Strong (N.K.and a b)
  and_falsy : ∀ {a b}, Ok a → Ok b → N.K.truthy b = false → Strong (N.K.and a b)
  sub_wide : ∀ {a b}, Strong a → Ok b → (Wide a ∨ Wide b) → Strong (N.K.sub a b)

end

/-! ### Hyper-cube sets -/

section
variable {D V X : Type} [DecidableEq D]

/-- The values of a dimension in all cubes of a tree (`project_on_one_dimension`,
ConnectivityProperties.py 248-253). -/
def valuesAt (d : D) : (ds : List D) → Tree V ds → List V
  | [], _ => []
  | x :: ds, t => if x = d then (layers t).map (·.1) else (layers t).flatMap (fun e => valuesAt d ds e.2.2)

theorem valuesAt_mem {A : VAlg D V X} (d : D) : ∀ (ds : List D) (t : Tree V ds) (p : D → X), d ∈ ds → Den A ds t p →
    ∃ v ∈ valuesAt d ds t, A.mem (p d) v = true := by
  intro ds
  induction ds with
  | nil => intro t p h; simp at h
  | cons x ds ih =>
    intro t p hd hp
    obtain ⟨e, he, h1, h2⟩ := hp
    unfold valuesAt
    by_cases hx : x = d
    · subst hx
      rw [if_pos rfl]
      exact ⟨e.1, List.mem_map.2 ⟨e, he, rfl⟩, h1⟩
    · rw [if_neg hx]
      have hd' : d ∈ ds := by
        rcases List.mem_cons.1 hd with h | h
        · exact absurd h.symm hx
        · exact h
      obtain ⟨v, hv, h3⟩ := ih e.2.2 p hd' h2
      exact ⟨v, List.mem_flatMap.2 ⟨e, he, hv⟩, h3⟩

theorem valuesAt_wf {A : VAlg D V X} {Wf : D → V → Prop} (d : D) : ∀ (ds : List D) (t : Tree V ds), WfT A Wf ds t →
    ∀ v ∈ valuesAt d ds t, Wf d v := by
  intro ds
  induction ds with
  | nil => intro t _ v hv; simp [valuesAt] at hv
  | cons x ds ih =>
    intro t hw v hv
    unfold valuesAt at hv
    split at hv
    · rename_i hx
      subst hx
      obtain ⟨e, he, rfl⟩ := List.mem_map.1 hv
      exact (hw.1 e he).1
    · obtain ⟨e, he, hv⟩ := List.mem_flatMap.1 hv
      exact ih e.2.2 (hw.1 e he).2.2 v hv

/-- What the instance needs to know about peer values: the conversion of a legal value to a peer set,
the elements of a peer set, the addresses. -/
structure PeerExtra (A : VAlg D V X) (Wf : D → V → Prop) (srcD dstD : D) where
  clip : V → PeerVal Wf srcD dstD
  clip_src : ∀ v, Wf srcD v → (clip v).1 = v
  clip_dst : ∀ v, Wf dstD v → (clip v).1 = v
  elems : PeerVal Wf srcD dstD → List (PeerVal Wf srcD dstD)
  ip : X → Bool
  v6 : PeerVal Wf srcD dstD
  elems_mem : ∀ (s : PeerVal Wf srcD dstD) e, A.mem e s.1 = true ↔ ∃ a ∈ elems s, A.mem e a.1 = true
  elems_single : ∀ {s a e e'}, a ∈ elems s → A.mem e a.1 = true → A.mem e' a.1 = true → e = e' ∨ (ip e = true ∧ ip e' = true)
  v6_ip : ∀ {e}, A.mem e v6.1 = true → ip e = true

/-- `project_on_one_dimension` (ConnectivityProperties.py 227-254) for a peer dimension. -/
def hcProject (N : PAlg X S) (A : VAlg D V X) (clip : V → S) (d : D) (h : HC D V) : S :=
  if d ∈ h.act then (valuesAt d h.act h.tree).foldl (fun acc v => N.or acc (clip v)) N.empty else clip (A.dom d)

theorem foldl_or_mem {E S : Type} (Q : PAlg E S) {α : Type} (f : α → S) (l : List α) (e : E) : ∀ acc,
    Q.mem e (l.foldl (fun acc v => Q.or acc (f v)) acc) = true ↔ Q.mem e acc = true ∨ ∃ v ∈ l, Q.mem e (f v) = true := by
  induction l with
  | nil => intro acc; simp
  | cons v l ih =>
    intro acc
    rw [List.foldl_cons, ih, Q.mem_or, Bool.or_eq_true]
    simp only [List.mem_cons, exists_eq_or_imp, or_assoc]

/-- Hyper-cube connection sets with the operations the queries use. -/
def hcNetQ {A : VAlg D V X} {Wf : D → V → Prop} (L : A.Lawful Wf) (all : List D) (srcD dstD protD : D) (nil : V)
    (hnil : Wf srcD nil ∧ Wf dstD nil) (hn : ∀ x, A.mem x nil = false) (tcp nonTcp : V) (X' : PeerExtra A Wf srcD dstD) :
    NetQ (HC D V) (Point A) X (PeerVal Wf srcD dstD) where
  toNet := hcNet L all srcD dstD protD nil hnil hn tcp nonTcp
  all := HC.full true
  srcs := hcProject (hcPeers L srcD dstD nil hnil hn) A X'.clip srcD
  dsts := hcProject (hcPeers L srcD dstD nil hnil hn) A X'.clip dstD
  elems := X'.elems
  v6 := X'.v6
  ip := X'.ip

/-- The source dimension is active. -/
def HcWide (all : List D) (h : HC D V) : Prop := h.act.head? = all.head?

/-- Membership does not depend on a dimension that is not active. -/
theorem Den_congr {A : VAlg D V X} (ds : List D) (t : Tree V ds) (p q : D → X) (h : ∀ d ∈ ds, p d = q d) :
    Den A ds t p ↔ Den A ds t q := by
  induction ds with
  | nil => exact Iff.rfl
  | cons d ds ih =>
    unfold Den
    refine exists_congr fun e => and_congr_right fun _ => ?_
    rw [h d (by simp), ih e.2.2 (fun x hx => h x (by simp [hx]))]

theorem reduce_act_head (A : VAlg D V X) (all : List D) {h : HC D V} (hf : h.truthy = false) : (HC.reduce A all h).act = h.act := by
  rw [reduce_falsy A all hf]

theorem HC.eq_refl {A : VAlg D V X} {Wf : D → V → Prop} (L : A.Lawful Wf) {all : List D} {h : HC D V} (i : HC.Inv A Wf all h) :
    HC.eq A h h = true := by
  unfold HC.eq
  simp only [bne_self_eq_false, Bool.false_eq_true, if_false]
  split
  · rfl
  · simp only [dite_true]
    exact subEq_refl L (false, h.tree) i.wf

omit [DecidableEq D] in
theorem head_of_sublist {x : D} {l xs : List D} (h : l.Sublist (x :: xs)) (hn : (x :: xs).Nodup) (hm : x ∈ l) : l.head? = some x := by
  cases h with
  | cons _ h => exact absurd (h.subset hm) (List.nodup_cons.1 hn).1
  | cons_cons _ h => rfl

theorem hcNetQ_lawful {A : VAlg D V X} {Wf : D → V → Prop} (L : A.Lawful Wf) {all : List D} (hnd : all.Nodup) (hall : all ≠ [])
    {srcD dstD protD : D} (h1 : srcD ∈ all) (h2 : dstD ∈ all) (h3 : protD ∈ all) (hsd : srcD ≠ dstD) (hsp : srcD ≠ protD)
    (hdp : dstD ≠ protD) {nil : V} (hnil : Wf srcD nil ∧ Wf dstD nil) (hn : ∀ x, A.mem x nil = false) {tcp nonTcp : V}
    (wt : Wf protD tcp) (wn : Wf protD nonTcp)
    (hpart : ∀ x, A.mem x (A.dom protD) = true → A.mem x nonTcp = !A.mem x tcp)
    (hhead : all.head? = some srcD) (X' : PeerExtra A Wf srcD dstD) :
    (hcNetQ L all srcD dstD protD nil hnil hn tcp nonTcp X').Lawful (HcOk A Wf all) (HcStrong A Wf all) (HcWide all) := by
  have base := hcNet_lawful L hnd hall h1 h2 h3 hsd hsp hdp hnil hn wt wn hpart
  have mem : ∀ {h : HC D V}, HC.Inv A Wf all h → ∀ p : Point A, HC.contains A h p.1 = true ↔ h.Pt A p.1 :=
    fun i p => HC.contains_spec i p.1
  have proj : ∀ (d : D) (_ : ∀ v, Wf d v → (X'.clip v).1 = v) {c : HC D V} {p : Point A}, HcOk A Wf all c →
      HC.contains A c p.1 = true → A.mem (p.1 d) (hcProject (hcPeers L srcD dstD nil hnil hn) A X'.clip d c).1 = true := by
    intro d hd c p i hp
    unfold hcProject
    split
    · rename_i hact
      obtain ⟨v, hv, h⟩ := valuesAt_mem d c.act c.tree p.1 hact ((mem i p).1 hp)
      refine (foldl_or_mem (hcPeers L srcD dstD nil hnil hn) X'.clip _ (p.1 d) _).2 (Or.inr ⟨v, hv, ?_⟩)
      change A.mem (p.1 d) (X'.clip v).1 = true
      rw [hd v (valuesAt_wf d c.act c.tree i.wf v hv)]
      exact h
    · rw [hd _ (L.wf_dom d)]
      exact p.2 d
  have falsyAct : ∀ {h : HC D V}, h.truthy = false → h.isAll = false := by
    intro h hf
    rw [← Bool.not_eq_true]
    intro ha
    obtain ⟨c, act, t⟩ := h
    simp only [HC.isAll, List.isEmpty_iff] at ha
    subst ha
    simp [HC.truthy, neT] at hf
  have wideAll : ∀ {h : HC D V}, HcWide all h → h.isAll = false := by
    intro h hw
    rw [← Bool.not_eq_true]
    intro ha
    simp only [HC.isAll, List.isEmpty_iff] at ha
    unfold HcWide at hw
    rw [ha, hhead] at hw
    simp at hw
  have onc : ∀ (f : (ds : List D) → Tree V ds → Tree V ds → Tree V ds) (a b : HC D V), HcWide all a ∨ HcWide all b →
      WfT A Wf _ (f (HC.common all a.act b.act) (expand A a.cls a.act _ a.tree) (expand A b.cls b.act _ b.tree)) →
      NeT _ (f (HC.common all a.act b.act) (expand A a.cls a.act _ a.tree) (expand A b.cls b.act _ b.tree)) →
      OneFull A _ (f (HC.common all a.act b.act) (expand A a.cls a.act _ a.tree) (expand A b.cls b.act _ b.tree)) →
      HcStrong A Wf all (HC.onCommon A all f a b) := by
    intro f a b hw w n o
    have r := HC.reduce_spec L hnd ⟨a.cls, HC.common all a.act b.act, f _ (expand A a.cls a.act _ a.tree)
      (expand A b.cls b.act (HC.common all a.act b.act) b.tree)⟩ (HC.common_sub all a.act b.act) w n o
    refine ⟨r.1, ?_⟩
    unfold HC.onCommon
    by_cases hf' : (⟨a.cls, HC.common all a.act b.act, f _ (expand A a.cls a.act (HC.common all a.act b.act) a.tree)
        (expand A b.cls b.act (HC.common all a.act b.act) b.tree)⟩ : HC D V).truthy = false
    · right
      change (HC.reduce A all _).act.head? = all.head?
      rw [reduce_falsy A all hf']
      rcases hw with h | h
      · exact common_head _ h
      · exact common_head_right _ h
    · left
      rw [Bool.not_eq_false] at hf'
      rw [HC.truthy_iff L hnd r.1]
      obtain ⟨p0, hp0⟩ := exists_inDom L
      obtain ⟨p, hp, _, hd⟩ := exists_den L (hnd.sublist (HC.common_sub all a.act b.act)) _ w n hf' p0 hp0
      exact ⟨p, hp, (r.2.1 p hp).2 hd⟩
  have subc : ∀ (a b : HC D V), HcStrong A Wf all a → HC.Inv A Wf all b → HcWide all a ∨ HcWide all b →
      HcStrong A Wf all (HC.onCommon A all (subT A) a b) := by
    intro a b ha hb hw
    have sa := HC.left_sub_common b.act ha.1.sub
    have sb := HC.right_sub_common a.act hb.sub
    have nc := hnd.sublist (HC.common_sub all a.act b.act)
    have wa := expand_wf L sa a.cls a.tree ha.1.wf
    have wb := expand_wf L sb b.cls b.tree hb.wf
    have na : NeT _ (expand A a.cls a.act (HC.common all a.act b.act) a.tree) := by
      by_cases h : a.truthy = true
      · exact (expand_ne sa a.cls a.tree ha.1.ne h).1
      · have hh := ha.2.resolve_left h
        exact HC.NeT_of_falsy _ (HC.expand_falsy a.cls a.tree (by simpa [HC.truthy] using h) (by rw [common_head b.act hh, hh]))
    have oa := expand_one sa a.cls a.tree ha.1.one (fun _ => ha.1.notFull)
    exact onc _ a b hw (subT_wf L _ _ wa wb).1 (subT_ne _ _ na) (subT_one L nc _ _ wa wb oa (exists_inDom L))
  refine ⟨base, HC.full_inv all true, fun p => rfl, fun a => rfl, fun hc hp => proj srcD X'.clip_src hc hp,
    fun hc hp => proj dstD X'.clip_dst hc hp, X'.elems_mem, fun h => X'.elems_single h, fun h => X'.v6_ip h,
    fun i => HC.eq_refl L i, Iff.rfl, ?_, ?_, ?_, ?_⟩
  · intro p q
    refine ⟨⟨fun d => if d = srcD then q.1 d else p.1 d, fun d => ?_⟩, ?_, ?_, ?_, ?_⟩
    · dsimp only
      split
      · exact q.2 d
      · exact p.2 d
    · change (if srcD = srcD then _ else _) = _
      rw [if_pos rfl]; rfl
    · change (if dstD = srcD then _ else _) = _
      rw [if_neg (Ne.symm hsd)]; rfl
    · change A.mem (if protD = srcD then _ else _) tcp = _
      rw [if_neg (Ne.symm hsp)]; rfl
    · intro a i hp hr
      by_contra hw
      have hns : srcD ∉ a.act := by
        intro hm
        apply hw
        unfold HcWide
        rw [hhead]
        obtain ⟨rest, hrest⟩ : ∃ rest, all = srcD :: rest := by
          cases all with
          | nil => exact absurd rfl hall
          | cons x xs => simp at hhead; exact ⟨xs, by rw [hhead]⟩
        have hs := i.sub
        rw [hrest] at hs hnd
        exact head_of_sublist hs hnd hm
      have := (mem i p).1 hp
      have h5 : HC.contains A a (fun d => if d = srcD then q.1 d else p.1 d) = true := by
        rw [HC.contains_spec i]
        refine (Den_congr a.act a.tree _ _ (fun d hd => ?_)).1 this
        rw [if_neg (by rintro rfl; exact hns hd)]
      have hr' : HC.contains A a (fun d => if d = srcD then q.1 d else p.1 d) = false := hr
      rw [h5] at hr'
      exact absurd hr' (by simp)
  · intro a b ha hb hw
    change HcStrong A Wf all (HC.and A all a b)
    unfold HC.and
    by_cases hA : b.isAll = true
    · rw [if_pos hA]
      rcases hw with h | h
      · exact ⟨ha, Or.inr h⟩
      · rw [wideAll h] at hA; exact absurd hA (by simp)
    · rw [if_neg hA]
      by_cases hf : (!b.truthy || !a.truthy) = true
      · rw [if_pos hf]
        exact ⟨(HC.empty_inv (V := V) L all hall a.cls).1, Or.inr rfl⟩
      · rw [if_neg hf]
        by_cases hB : a.isAll = true
        · rw [if_pos hB]
          rcases hw with h | h
          · rw [wideAll h] at hB; exact absurd hB (by simp)
          · exact ⟨hb.recls _, Or.inr h⟩
        · rw [if_neg hB]
          have sa := HC.left_sub_common b.act ha.sub
          have sb := HC.right_sub_common a.act hb.sub
          have nc := hnd.sublist (HC.common_sub all a.act b.act)
          have wa := expand_wf L sa a.cls a.tree ha.wf
          have wb := expand_wf L sb b.cls b.tree hb.wf
          exact onc _ a b hw (andT_spec L _ _ wa wb).1 (andT_ne _ _) (andT_one L nc _ _ wa wb (exists_inDom L))
  · intro a b ha hb hf
    change HcStrong A Wf all (HC.and A all a b)
    have hf' : b.truthy = false := hf
    unfold HC.and
    rw [if_neg (by rw [falsyAct hf']; simp), if_pos (by simp [hf'])]
    have he := HC.empty_inv (V := V) L all hall a.cls
    exact ⟨he.1, Or.inr rfl⟩
  · intro a b ha hb hw
    change HcStrong A Wf all (HC.sub A all a b)
    have he := HC.empty_inv (V := V) L all hall a.cls
    unfold HC.sub
    by_cases hA : b.isAll = true
    · simp only [hA, if_true]
      split
      · exact ⟨he.1, Or.inr rfl⟩
      · exact subc _ b ⟨he.1, Or.inr rfl⟩ hb (Or.inl rfl)
    · simp only [hA, Bool.false_eq_true, if_false]
      split
      · exact ha
      · exact subc a b ha hb hw

end
end Verif
