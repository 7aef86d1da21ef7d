import Verif.LabelModel
import Mathlib.Tactic.ByContra
import Mathlib.Tactic.Tauto
/-!
C38: the label expressions and pod lists that describe a set of pods in firewall rules.
-/
namespace Verif.Fw

/-! ### Specification -/

section Spec
variable {ρ ν : Type} (I : Cluster ρ ν)

/-- The pod has this value for every part of the key; `none`: no such label. -/
def HasValue (p : ρ) (key : Key) (v : Val) : Prop := List.Forall₂ (fun k x => (I.labels p).lookup k = x) key v

/-- The pod has one of the values. -/
def HasOne (p : ρ) (kv : Key × List Val) : Prop := ∃ v ∈ kv.2, HasValue I p kv.1 v

mutual
/-- What a reader takes a printed expression to say about a pod with these labels. -/
def LExpr.sat (lk : String → Option String) : LExpr → Bool
  | .has k => (lk k).isSome
  | .nhas k => (lk k).isNone
  | .isIn k vs => match lk k with | some v => vs.contains v | none => false
  | .notIn k vs => match lk k with | some v => !vs.contains v | none => true
  | .ands l => satAll lk l
  | .ors l => satAny lk l
/-- All hold. -/
def satAll (lk : String → Option String) : List LExpr → Bool
  | [] => true
  | e :: l => e.sat lk && satAll lk l
/-- One holds. -/
def satAny (lk : String → Option String) : List LExpr → Bool
  | [] => false
  | e :: l => e.sat lk || satAny lk l
end

theorem satAll_iff (lk : String → Option String) (l : List LExpr) : satAll lk l = true ↔ ∀ e ∈ l, e.sat lk = true := by
  induction l with
  | nil => simp [satAll]
  | cons e l ih => simp [satAll, ih]

theorem satAny_iff (lk : String → Option String) (l : List LExpr) : satAny lk l = true ↔ ∃ e ∈ l, e.sat lk = true := by
  induction l with
  | nil => simp [satAny]
  | cons e l ih => simp [satAny, ih]

end Spec

section
variable {ρ ν : Type} [DecidableEq ρ] [DecidableEq ν] (I : Cluster ρ ν)

/-! ### The pods with a value -/

theorem mem_simplePods {k : String} {x : Option String} {p : ρ} (h : p ∈ I.simplePods k x) :
    p ∈ I.all ∧ (I.labels p).lookup k = x ∧
      (x = none → I.flat.contains k = true ∧ I.used k = true ∧
        ∃ q ∈ I.all, ((I.labels q).lookup k).isSome ∧ I.ns q = I.ns p) := by
  cases x with
  | some v =>
    simp only [Cluster.simplePods, List.mem_filter, decide_eq_true_eq] at h
    exact ⟨h.1, h.2, by simp⟩
  | none =>
    simp only [Cluster.simplePods] at h
    split at h
    · rename_i hc
      simp only [Bool.and_eq_true] at hc
      simp only [List.mem_filter, Bool.not_eq_true', List.contains_iff_mem, List.mem_map] at h
      obtain ⟨⟨h1, h2⟩, q, ⟨h3, h4⟩, h5⟩ := h
      refine ⟨h1, ?_, fun _ => ⟨hc.1, hc.2, q, h3, h4, h5⟩⟩
      have h2' : p ∉ I.all.filter (fun p => ((I.labels p).lookup k).isSome) := by
        intro hm
        rw [← List.contains_iff_mem, h2] at hm
        simp at hm
      simp only [List.mem_filter, not_and] at h2'
      exact Option.not_isSome_iff_eq_none.1 (h2' h1)
    · simp at h

theorem simplePods_of {k : String} {x : Option String} {p : ρ} (hp : p ∈ I.all) (hx : (I.labels p).lookup k = x)
    (hn : x = none → I.flat.contains k = true ∧ I.used k = true ∧
        ∃ q ∈ I.all, ((I.labels q).lookup k).isSome ∧ I.ns q = I.ns p) : p ∈ I.simplePods k x := by
  cases x with
  | some v => simp [Cluster.simplePods, hp, hx]
  | none =>
    obtain ⟨h1, h2, q, h3, h4, h5⟩ := hn rfl
    simp only [Cluster.simplePods, h1, h2, Bool.and_self, if_true]
    rw [List.mem_filter, List.mem_filter]
    refine ⟨⟨hp, ?_⟩, ?_⟩
    · rw [Bool.not_eq_true', ← Bool.not_eq_true, List.contains_iff_mem]
      simp [hx]
    · rw [List.contains_iff_mem, List.mem_map]
      exact ⟨q, by simp [h3, h4], h5⟩

/-- The pods of a value are the pods that have it for every part. -/
theorem mem_podsFor : ∀ {key : Key} {v : Val} {p : ρ}, key ≠ [] → v.length = key.length →
    (p ∈ I.podsFor key v ↔ List.Forall₂ (fun k x => p ∈ I.simplePods k x) key v)
  | [], _, _, h, _ => absurd rfl h
  | k :: ks, [], _, _, h => by simp at h
  | [k], [x], p, _, _ => by simp [Cluster.podsFor]
  | [k], x :: y :: v, _, _, h => by simp at h
  | k :: k' :: ks, x :: v, p, _, h => by
    have ih := mem_podsFor (key := k' :: ks) (v := v) (p := p) (by simp) (by simpa using h)
    simp only [Cluster.podsFor, List.mem_filter, List.contains_iff_mem, ih, List.forall₂_cons]

theorem mem_product {β : Type} : ∀ {ls : List (List β)} {v : List β}, v ∈ product ls ↔ List.Forall₂ (fun x l => x ∈ l) v ls
  | [], v => by
    simp only [product, List.mem_singleton]
    cases v <;> simp
  | l :: ls, v => by
    simp only [product, List.mem_flatMap, List.mem_map]
    cases v with
    | nil => simp
    | cons x v =>
      simp only [List.forall₂_cons, List.cons.injEq]
      constructor
      · rintro ⟨y, hy, xs, hxs, rfl, rfl⟩
        exact ⟨hy, mem_product.1 hxs⟩
      · rintro ⟨hx, hv⟩
        exact ⟨x, hx, v, mem_product.2 hv, rfl, rfl⟩

theorem nsValues_length {key : Key} {m : ν} {v : Val} (h : v ∈ I.nsValues key m) : v.length = key.length := by
  have h1 := mem_product.1 (List.mem_filter.1 h).1
  simpa using h1.length_eq

theorem nsValues_pod {key : Key} {m : ν} {v : Val} (h : v ∈ I.nsValues key m) : ∃ q ∈ I.podsFor key v, I.ns q = m := by
  have h1 := (List.mem_filter.1 h).2
  simpa using h1

theorem mem_simpleValues {k : String} {x : Option String} {p : ρ} (h : p ∈ I.simplePods k x) : x ∈ I.simpleValues k := by
  obtain ⟨h1, h2, h3⟩ := mem_simplePods I h
  unfold Cluster.simpleValues
  cases x with
  | some v =>
    rw [List.mem_append]
    left
    rw [List.mem_map]
    exact ⟨v, List.mem_dedup.2 (List.mem_filterMap.2 ⟨p, h1, h2⟩), rfl⟩
  | none =>
    obtain ⟨h4, h5, -⟩ := h3 rfl
    rw [h4, h5]
    simp

/-- The values of a namespace are those of its pods. -/
theorem nsValues_of {key : Key} {m : ν} {v : Val} {p : ρ} (hk : key ≠ []) (hl : v.length = key.length)
    (hp : p ∈ I.podsFor key v) (hm : I.ns p = m) : v ∈ I.nsValues key m := by
  unfold Cluster.nsValues
  rw [List.mem_filter]
  constructor
  · rw [Cluster.values, mem_product]
    have h := (mem_podsFor I hk hl).1 hp
    rw [List.forall₂_map_right_iff]
    exact h.flip.imp (fun x k hx => mem_simpleValues I hx)
  · rw [List.any_eq_true]
    exact ⟨p, hp, by simp [hm]⟩

/-- In a namespace that has the value, the pods recorded for it are the pods that have it. -/
theorem podsFor_iff {key : Key} {m : ν} {v : Val} (hk : key ≠ []) (hv : v ∈ I.nsValues key m) {p : ρ} (hp : p ∈ I.all)
    (hm : I.ns p = m) : p ∈ I.podsFor key v ↔ HasValue I p key v := by
  have hl := nsValues_length I hv
  rw [mem_podsFor I hk hl]
  obtain ⟨q, hq, hqm⟩ := nsValues_pod I hv
  rw [mem_podsFor I hk hl] at hq
  unfold HasValue
  constructor
  · exact fun h => h.imp (fun k x hx => (mem_simplePods I hx).2.1)
  · intro h
    clear hv hl hk
    induction hq with
    | nil => exact .nil
    | @cons k x ks v hx _ ih =>
      rw [List.forall₂_cons] at h ⊢
      refine ⟨simplePods_of I hp h.1 ?_, ih h.2⟩
      intro hn
      obtain ⟨h1, h2, q', h3, h4, h5⟩ := (mem_simplePods I hx).2.2 hn
      exact ⟨h1, h2, q', h3, h4, by rw [h5, hqm, hm]⟩

/-! ### The grouping -/

theorem sameSet_iff {β : Type} [DecidableEq β] {a b : List β} : sameSet a b = true ↔ ∀ x, x ∈ a ↔ x ∈ b := by
  simp only [sameSet, Bool.and_eq_true, List.all_eq_true, List.contains_iff_mem]
  exact ⟨fun h x => ⟨h.1 x, h.2 x⟩, fun h => ⟨fun x hx => (h x).1 hx, fun x hx => (h x).2 hx⟩⟩

/-- What an option for a key says. -/
structure OptOk (pods extra : List ρ) (m : ν) (o : Key × List Val × List ρ) : Prop where
  allowed : o.1 ∈ I.allowed
  vals : ∀ v ∈ o.2.1, v ∈ I.nsValues o.1 m
  ne : o.2.1 ≠ []
  pods_iff : ∀ p, p ∈ o.2.2 ↔ ∃ v ∈ o.2.1, p ∈ I.podsFor o.1 v ∧ p ∈ I.nsPods m
  sub : ∀ p ∈ o.2.2, p ∈ pods ∨ p ∈ extra
  own : ∀ v ∈ o.2.1, ∃ p ∈ pods, p ∈ I.podsFor o.1 v ∧ p ∈ I.nsPods m

theorem covered_ok (pods extra : List ρ) (m : ν) (key : Key) :
    (∀ v ∈ (I.covered pods extra m key).1, v ∈ I.nsValues key m) ∧
    (∀ p, p ∈ (I.covered pods extra m key).2 ↔ ∃ v ∈ (I.covered pods extra m key).1, p ∈ I.podsFor key v ∧ p ∈ I.nsPods m) ∧
    (∀ p ∈ (I.covered pods extra m key).2, p ∈ pods ∨ p ∈ extra) ∧
    ∀ v ∈ (I.covered pods extra m key).1, ∃ p ∈ pods, p ∈ I.podsFor key v ∧ p ∈ I.nsPods m := by
  unfold Cluster.covered
  have h : ∀ (vs : List Val) (acc : List Val × List ρ), (∀ v ∈ vs, v ∈ I.nsValues key m) →
      ((∀ v ∈ acc.1, v ∈ I.nsValues key m) ∧
        (∀ p, p ∈ acc.2 ↔ ∃ v ∈ acc.1, p ∈ I.podsFor key v ∧ p ∈ I.nsPods m) ∧
        (∀ p ∈ acc.2, p ∈ pods ∨ p ∈ extra) ∧
        ∀ v ∈ acc.1, ∃ p ∈ pods, p ∈ I.podsFor key v ∧ p ∈ I.nsPods m) →
      let r := vs.foldl (fun acc v =>
        let allV := (I.podsFor key v).filter (I.nsPods m).contains
        if allV.isEmpty then acc else
        let fromList := allV.filter (pods ++ extra).contains
        let fromOrig := allV.filter pods.contains
        if sameSet allV fromList && !fromOrig.isEmpty then (acc.1 ++ [v], acc.2 ++ fromList) else acc) acc
      (∀ v ∈ r.1, v ∈ I.nsValues key m) ∧
        (∀ p, p ∈ r.2 ↔ ∃ v ∈ r.1, p ∈ I.podsFor key v ∧ p ∈ I.nsPods m) ∧
        (∀ p ∈ r.2, p ∈ pods ∨ p ∈ extra) ∧
        ∀ v ∈ r.1, ∃ p ∈ pods, p ∈ I.podsFor key v ∧ p ∈ I.nsPods m := by
    intro vs
    induction vs with
    | nil => intro acc _ h; exact h
    | cons v vs ih =>
      intro acc hvs hacc
      rw [List.foldl_cons]
      refine ih _ (fun w hw => hvs w (by simp [hw])) ?_
      dsimp only
      split
      · exact hacc
      split
      · rename_i hc
        rw [Bool.and_eq_true, sameSet_iff] at hc
        obtain ⟨h1, h2, h3, h4⟩ := hacc
        refine ⟨?_, ?_, ?_, ?_⟩
        · intro w hw
          rcases List.mem_append.1 hw with hw | hw
          · exact h1 w hw
          · rw [List.mem_singleton.1 hw]
            exact hvs v (by simp)
        · intro p
          rw [List.mem_append, h2 p, ← hc.1 p]
          simp only [List.mem_filter, List.contains_iff_mem, List.mem_append, List.mem_singleton]
          constructor
          · rintro (⟨w, hw, h⟩ | h)
            · exact ⟨w, .inl hw, h⟩
            · exact ⟨v, .inr rfl, h⟩
          · rintro ⟨w, hw | rfl, h⟩
            · exact .inl ⟨w, hw, h⟩
            · exact .inr h
        · intro p hp
          rcases List.mem_append.1 hp with hp | hp
          · exact h3 p hp
          · simpa using (List.mem_filter.1 hp).2
        · intro w hw
          rcases List.mem_append.1 hw with hw | hw
          · exact h4 w hw
          · rw [List.mem_singleton.1 hw]
            have h5 := hc.2
            rw [Bool.not_eq_true', ← Bool.not_eq_true, List.isEmpty_iff] at h5
            obtain ⟨p, hp⟩ := List.exists_mem_of_ne_nil _ h5
            rw [List.mem_filter, List.mem_filter, List.contains_iff_mem, List.contains_iff_mem] at hp
            exact ⟨p, hp.2, hp.1⟩
      · exact hacc
  exact h _ ([], []) (fun v hv => hv) ⟨by simp, by simp, by simp, by simp⟩

theorem options_ok (single : Bool) (pods extra : List ρ) (m : ν) {o : Key × List Val × List ρ}
    (h : o ∈ I.options single pods extra m) : OptOk I pods extra m o := by
  unfold Cluster.options at h
  obtain ⟨key, hk, h⟩ := List.mem_filterMap.1 h
  dsimp only at h
  generalize (if single = true then 0 else 1) = n at h
  split at h
  · rename_i hc
    simp only [Option.some.injEq] at h
    subst h
    obtain ⟨h1, h2, h3, h4⟩ := covered_ok I pods extra m key
    refine ⟨hk, h1, ?_, h2, h3, h4⟩
    simp only [Bool.and_eq_true, Bool.not_eq_true'] at hc
    intro he
    rw [he] at hc
    simp at hc
  · simp at h

theorem mem_filter_not {β : Type} [DecidableEq β] {l ps : List β} {p : β} :
    p ∈ l.filter (fun p => !ps.contains p) ↔ p ∈ l ∧ p ∉ ps := by
  rw [List.mem_filter, Bool.not_eq_true', ← Bool.not_eq_true, List.contains_iff_mem]

omit [DecidableEq ν] in
theorem chooseReps_spec (pods : List ρ) : ∀ (opts : List (Key × List Val × List ρ)) (rem : List ρ),
    ∃ L : List (Key × List Val × List ρ), (chooseReps pods opts rem).1 = L.map (fun o => (o.1, o.2.1)) ∧
      (∀ o ∈ L, o ∈ opts) ∧ (∀ p, p ∈ (chooseReps pods opts rem).2 ↔ p ∈ rem ∧ ∀ o ∈ L, p ∉ o.2.2) ∧
      (∀ o ∈ L, ∀ p ∈ o.2.2, p ∈ pods → p ∈ rem) ∧
      L.Pairwise (fun a b => ∀ p ∈ a.2.2, p ∈ pods → p ∉ b.2.2)
  | [], rem => ⟨[], by simp [chooseReps]⟩
  | (k, vals, ps) :: opts, rem => by
    unfold chooseReps
    split
    · rename_i hc
      rw [List.all_eq_true] at hc
      have hc' : ∀ p ∈ ps, p ∈ pods → p ∈ rem := fun p hp hp' =>
        List.contains_iff_mem.1 (hc p (List.mem_filter.2 ⟨hp, List.contains_iff_mem.2 hp'⟩))
      dsimp only
      split
      · refine ⟨[(k, vals, ps)], rfl, by simp, fun p => ?_, by simpa using hc', List.pairwise_singleton _ _⟩
        rw [mem_filter_not]
        simp
      · obtain ⟨L, h1, h2, h3, h4, h5⟩ := chooseReps_spec pods opts (rem.filter (fun p => !ps.contains p))
        refine ⟨(k, vals, ps) :: L, by rw [List.map_cons, h1], ?_, ?_, ?_, ?_⟩
        · intro o ho
          rcases List.mem_cons.1 ho with rfl | ho
          · exact List.mem_cons_self
          · exact List.mem_cons_of_mem _ (h2 o ho)
        · intro p
          rw [h3, mem_filter_not]
          simp only [List.mem_cons, forall_eq_or_imp]
          tauto
        · intro o ho p hp hp'
          rcases List.mem_cons.1 ho with rfl | ho
          · exact hc' p hp hp'
          · exact (mem_filter_not.1 (h4 o ho p hp hp')).1
        · rw [List.pairwise_cons]
          exact ⟨fun b hb p hp hp' hpb => (mem_filter_not.1 (h4 b hb p hpb hp')).2 hp, h5⟩
    · split
      · exact ⟨[], by simp⟩
      · obtain ⟨L, h1, h2, h3, h4, h5⟩ := chooseReps_spec pods opts rem
        exact ⟨L, h1, fun o ho => List.mem_cons_of_mem _ (h2 o ho), h3, h4, h5⟩

omit [DecidableEq ρ] in
theorem mem_nsPods {m : ν} {p : ρ} : p ∈ I.nsPods m ↔ p ∈ I.all ∧ I.ns p = m := by simp [Cluster.nsPods]

theorem mem_all_of_podsFor {key : Key} {m : ν} {v : Val} {p : ρ} (hk : key ≠ []) (hv : v ∈ I.nsValues key m)
    (h : p ∈ I.podsFor key v) : p ∈ I.all := by
  rw [mem_podsFor I hk (nsValues_length I hv)] at h
  cases h with
  | nil => exact absurd rfl hk
  | cons h _ => exact (mem_simplePods I h).1

/-- The pods of an option are the pods of the namespace that have one of its values. -/
theorem OptOk.pods_spec {pods extra : List ρ} {m : ν} {o : Key × List Val × List ρ} (h : OptOk I pods extra m o)
    (hk : o.1 ≠ []) {p : ρ} : p ∈ o.2.2 ↔ p ∈ I.all ∧ I.ns p = m ∧ HasOne I p (o.1, o.2.1) := by
  rw [h.pods_iff]
  constructor
  · rintro ⟨v, hv, hp, hn⟩
    obtain ⟨ha, hm⟩ := (mem_nsPods I).1 hn
    exact ⟨ha, hm, v, hv, (podsFor_iff I hk (h.vals v hv) ha hm).1 hp⟩
  · rintro ⟨ha, hm, v, hv, hp⟩
    exact ⟨v, hv, (podsFor_iff I hk (h.vals v hv) ha hm).2 hp, (mem_nsPods I).2 ⟨ha, hm⟩⟩

/-- C38. The groups of pods by labels, and the remaining pods, are what was to be described: every pod is in
a group or remains, never both and never in two groups; nothing but the pods and the extra pods is in a group. -/
theorem C38_grouping (hk : ∀ key ∈ I.allowed, key ≠ []) (single : Bool)
    (sort : List (Key × List Val × List ρ) → List (Key × List Val × List ρ)) (hs : ∀ l, ∀ o ∈ sort l, o ∈ l)
    (pods extra : List ρ) (m : ν) (hp : ∀ p ∈ pods, p ∈ I.all ∧ I.ns p = m) :
    let r := I.group single sort pods extra m
    (∀ p, p ∈ r.2 ↔ p ∈ pods ∧ ∀ kv ∈ r.1, ¬ HasOne I p kv) ∧
    (∀ kv ∈ r.1, ∀ p ∈ I.all, I.ns p = m → HasOne I p kv → p ∈ pods ∨ p ∈ extra) ∧
    r.1.Pairwise (fun a b => ∀ p ∈ pods, HasOne I p a → ¬ HasOne I p b) ∧
    (∀ kv ∈ r.1, ∃ p ∈ pods, HasOne I p kv) ∧
    (∀ kv ∈ r.1, kv.1 ∈ I.allowed ∧ kv.2 ≠ [] ∧ ∀ v ∈ kv.2, v ∈ I.nsValues kv.1 m) := by
  unfold Cluster.group
  obtain ⟨L, h1, h2, h3, -, h5⟩ := chooseReps_spec pods (sort (I.options single pods extra m)) pods
  have hok : ∀ o ∈ L, OptOk I pods extra m o := fun o ho => options_ok I single pods extra m (hs _ o (h2 o ho))
  have hsp : ∀ o ∈ L, ∀ p, p ∈ o.2.2 ↔ p ∈ I.all ∧ I.ns p = m ∧ HasOne I p (o.1, o.2.1) := fun o ho p =>
    (hok o ho).pods_spec I (hk _ (hok o ho).allowed)
  dsimp only
  rw [h1]
  simp only [List.forall_mem_map]
  refine ⟨fun p => ?_, ?_, ?_, ?_, ?_⟩
  · rw [h3]
    refine and_congr_right fun hp' => ?_
    obtain ⟨ha, hm⟩ := hp p hp'
    exact ⟨fun h o ho hh => h o ho ((hsp o ho p).2 ⟨ha, hm, hh⟩), fun h o ho hh => h o ho ((hsp o ho p).1 hh).2.2⟩
  · exact fun o ho p ha hm hh => (hok o ho).sub p ((hsp o ho p).2 ⟨ha, hm, hh⟩)
  · rw [List.pairwise_map]
    refine List.Pairwise.imp_of_mem (fun {a b} ha hb h p hp' h1 h2 => ?_) h5
    obtain ⟨hpa, hpm⟩ := hp p hp'
    exact h p ((hsp a ha p).2 ⟨hpa, hpm, h1⟩) hp' ((hsp b hb p).2 ⟨hpa, hpm, h2⟩)
  · intro o ho
    obtain ⟨v, hv⟩ := List.exists_mem_of_ne_nil _ (hok o ho).ne
    obtain ⟨p, hp', h6, -⟩ := (hok o ho).own v hv
    obtain ⟨ha, hm⟩ := hp p hp'
    exact ⟨p, hp', v, hv, (podsFor_iff I (hk _ (hok o ho).allowed) ((hok o ho).vals v hv) ha hm).1 h6⟩
  · exact fun o ho => ⟨(hok o ho).allowed, (hok o ho).ne, (hok o ho).vals⟩

/-- C38. Over all namespaces: the described pods with the remaining ones are the pods to describe, and a group
holds nothing but these and the extra pods. -/
theorem C38_grouping_main (hk : ∀ key ∈ I.allowed, key ≠ []) (single : Bool)
    (sort : List (Key × List Val × List ρ) → List (Key × List Val × List ρ)) (hs : ∀ l, ∀ o ∈ sort l, o ∈ l)
    (pods extra : List ρ) :
    let r := I.groupMain single sort pods extra
    (∀ p ∈ I.all, p ∈ pods → p ∈ r.2 ∨ ∃ g ∈ r.1, I.ns p = g.2.2 ∧ HasOne I p (g.1, g.2.1)) ∧
    (∀ p ∈ r.2, p ∈ pods) ∧
    (∀ g ∈ r.1, ∀ p ∈ I.all, I.ns p = g.2.2 → HasOne I p (g.1, g.2.1) → p ∈ pods ∨ p ∈ extra) ∧
    (∀ g ∈ r.1, g.1 ∈ I.allowed ∧ g.2.1 ≠ [] ∧ ∀ v ∈ g.2.1, v ∈ I.nsValues g.1 g.2.2) := by
  unfold Cluster.groupMain
  have h : ∀ (ms : List ν) (acc : List (Key × List Val × ν) × List ρ),
      (∀ p ∈ acc.2, p ∈ pods) ∧
      (∀ g ∈ acc.1, ∀ p ∈ I.all, I.ns p = g.2.2 → HasOne I p (g.1, g.2.1) → p ∈ pods ∨ p ∈ extra) ∧
      (∀ g ∈ acc.1, g.1 ∈ I.allowed ∧ g.2.1 ≠ [] ∧ ∀ v ∈ g.2.1, v ∈ I.nsValues g.1 g.2.2) →
      let r := ms.foldl (fun acc m =>
        let r := I.group single sort (pods.filter (I.nsPods m).contains) (extra.filter (I.nsPods m).contains) m
        (acc.1 ++ r.1.map (fun kv => (kv.1, kv.2, m)), acc.2 ++ r.2)) acc
      (∀ p ∈ I.all, p ∈ pods → I.ns p ∈ ms → p ∈ r.2 ∨ ∃ g ∈ r.1, I.ns p = g.2.2 ∧ HasOne I p (g.1, g.2.1)) ∧
      (∀ p ∈ acc.2, p ∈ r.2) ∧ (∀ g ∈ acc.1, g ∈ r.1) ∧
      (∀ p ∈ r.2, p ∈ pods) ∧
      (∀ g ∈ r.1, ∀ p ∈ I.all, I.ns p = g.2.2 → HasOne I p (g.1, g.2.1) → p ∈ pods ∨ p ∈ extra) ∧
      (∀ g ∈ r.1, g.1 ∈ I.allowed ∧ g.2.1 ≠ [] ∧ ∀ v ∈ g.2.1, v ∈ I.nsValues g.1 g.2.2) := by
    intro ms
    induction ms with
    | nil =>
      intro acc ⟨h1, h2, h3⟩
      exact ⟨by simp, fun p hp => hp, fun g hg => hg, h1, h2, h3⟩
    | cons m ms ih =>
      intro acc ⟨h1, h2, h3⟩
      rw [List.foldl_cons]
      have hmem : ∀ (l : List ρ) (p : ρ), p ∈ l.filter (I.nsPods m).contains ↔ p ∈ l ∧ p ∈ I.all ∧ I.ns p = m := by
        intro l p
        rw [List.mem_filter, List.contains_iff_mem, mem_nsPods]
      obtain ⟨g1, g2, -, -, g5⟩ := C38_grouping I hk single sort hs (pods.filter (I.nsPods m).contains)
        (extra.filter (I.nsPods m).contains) m (fun p hp => ((hmem pods p).1 hp).2)
      generalize I.group single sort (pods.filter (I.nsPods m).contains) (extra.filter (I.nsPods m).contains) m = r
        at g1 g2 g5
      obtain ⟨i1, i2, i3, i4, i5, i6⟩ := ih (acc.1 ++ r.1.map (fun kv => (kv.1, kv.2, m)), acc.2 ++ r.2) (by
        refine ⟨?_, ?_, ?_⟩
        · intro p hp
          rcases List.mem_append.1 hp with hp | hp
          · exact h1 p hp
          · exact ((hmem pods p).1 ((g1 p).1 hp).1).1
        · intro g hg
          rcases List.mem_append.1 hg with hg | hg
          · exact h2 g hg
          · obtain ⟨kv, hkv, rfl⟩ := List.mem_map.1 hg
            intro p ha hm ho
            exact (g2 kv hkv p ha hm ho).imp (fun h => ((hmem _ p).1 h).1) (fun h => ((hmem _ p).1 h).1)
        · intro g hg
          rcases List.mem_append.1 hg with hg | hg
          · exact h3 g hg
          · obtain ⟨kv, hkv, rfl⟩ := List.mem_map.1 hg
            exact g5 kv hkv)
      refine ⟨?_, fun p hp => i2 p (List.mem_append.2 (.inl hp)), fun g hg => i3 g (List.mem_append.2 (.inl hg)),
        i4, i5, i6⟩
      intro p ha hpp hpm
      rcases List.mem_cons.1 hpm with hpm | hpm
      · by_cases hr : p ∈ r.2
        · exact .inl (i2 p (List.mem_append.2 (.inr hr)))
        · right
          rw [g1] at hr
          have : ∃ kv ∈ r.1, HasOne I p kv := by
            by_contra hn
            exact hr ⟨(hmem pods p).2 ⟨hpp, ha, hpm⟩, fun kv hkv ho => hn ⟨kv, hkv, ho⟩⟩
          obtain ⟨kv, hkv, ho⟩ := this
          exact ⟨(kv.1, kv.2, m), i3 _ (List.mem_append.2 (.inr (List.mem_map.2 ⟨kv, hkv, rfl⟩))), hpm, ho⟩
      · exact i1 p ha hpp hpm
  obtain ⟨h1, -, -, h4, h5, h6⟩ := h (pods.map I.ns).dedup ([], []) ⟨by simp, by simp, by simp⟩
  exact ⟨fun p ha hpp => h1 p ha hpp (List.mem_dedup.2 (List.mem_map.2 ⟨p, hpp, rfl⟩)), h4, h5, h6⟩

/-- C38. The pods taken for a group (`get_pods_set`) are the pods of the namespace that have one of its values. -/
theorem C38_group_pods {m : ν} {key : Key} {vals : List Val} (hk : key ≠ []) (hv : ∀ v ∈ vals, v ∈ I.nsValues key m)
    (p : ρ) : p ∈ I.labelPods m key vals ↔ p ∈ I.all ∧ I.ns p = m ∧ HasOne I p (key, vals) := by
  simp only [Cluster.labelPods, List.mem_flatMap, List.mem_filter, List.contains_iff_mem, mem_nsPods]
  constructor
  · rintro ⟨v, h, hp, ha, hm⟩
    exact ⟨ha, hm, v, h, (podsFor_iff I hk (hv v h) ha hm).1 hp⟩
  · rintro ⟨ha, hm, v, h, hp⟩
    exact ⟨v, h, (podsFor_iff I hk (hv v h) ha hm).2 hp, ha, hm⟩

/-! ### The printed expression -/

/-- What the labels of a pod say about a key. -/
def Cluster.look (p : ρ) (k : String) : Option String := (I.labels p).lookup k

theorem mem_comps {k : String} {m : ν} {x : Option String} :
    x ∈ (I.nsValues [k] m).map (fun v => (v[0]?).getD none) ↔ ∃ q ∈ I.simplePods k x, I.ns q = m := by
  rw [List.mem_map]
  constructor
  · rintro ⟨v, hv, rfl⟩
    have hl := nsValues_length I hv
    obtain ⟨q, hq, hm⟩ := nsValues_pod I hv
    match v, hl with
    | [x], _ => exact ⟨q, hq, hm⟩
  · rintro ⟨q, hq, hm⟩
    exact ⟨[x], nsValues_of I (by simp) rfl hq hm, rfl⟩

theorem look_comps {k : String} {m : ν} (hf : k ∈ I.flat) {x : Option String} {q : ρ} (hq : q ∈ I.simplePods k x)
    (hqm : I.ns q = m) {p : ρ} (hp : p ∈ I.all) (hm : I.ns p = m) : p ∈ I.simplePods k (I.look p k) := by
  refine simplePods_of I hp rfl (fun hn => ⟨List.contains_iff_mem.2 hf, ?_⟩)
  obtain ⟨h1, h2, h3⟩ := mem_simplePods I hq
  cases x with
  | none =>
    obtain ⟨-, h5, q', h6, h7, h8⟩ := h3 rfl
    exact ⟨h5, q', h6, h7, by rw [h8, hqm, hm]⟩
  | some v =>
    refine ⟨?_, q, h1, by rw [h2]; rfl, by rw [hqm, hm]⟩
    rw [Cluster.used, List.any_eq_true]
    exact ⟨q, h1, by rw [h2]; rfl⟩

/-- The expression for one simple key says that the label has one of the values. -/
theorem simpleExpr_sat {k : String} {m : ν} (hf : k ∈ I.flat) {vals : List (Option String)} (hne : vals ≠ [])
    (hv : ∀ x ∈ vals, ∃ q ∈ I.simplePods k x, I.ns q = m) {p : ρ} (hp : p ∈ I.all) (hm : I.ns p = m) :
    (simpleExpr k vals ((I.nsValues [k] m).map (fun v => (v[0]?).getD none))).sat (I.look p) = true ↔
      I.look p k ∈ vals := by
  have hB : I.look p k ∈ (I.nsValues [k] m).map (fun v => (v[0]?).getD none) := by
    obtain ⟨x, hx⟩ := List.exists_mem_of_ne_nil _ hne
    obtain ⟨q, hq, hqm⟩ := hv x hx
    exact (mem_comps I).2 ⟨p, look_comps I hf hq hqm hp hm, hm⟩
  have hA : ∀ x ∈ vals, x ∈ (I.nsValues [k] m).map (fun v => (v[0]?).getD none) := fun x hx =>
    (mem_comps I).2 (hv x hx)
  generalize (I.nsValues [k] m).map (fun v => (v[0]?).getD none) = allv at hA hB
  have hval : ∀ (l : List (Option String)) s, s ∈ (l.filterMap id).dedup ↔ some s ∈ l := by
    intro l s
    simp [List.mem_dedup]
  unfold simpleExpr
  dsimp only
  rw [LExpr.sat, satAny_iff]
  generalize hvs : (vals.filterMap id).dedup = vs
  generalize has : (allv.filterMap id).dedup = avs
  have hvs' : ∀ s, s ∈ vs ↔ some s ∈ vals := fun s => by rw [← hvs]; exact hval vals s
  have has' : ∀ s, s ∈ avs ↔ some s ∈ allv := fun s => by rw [← has]; exact hval allv s
  cases hl : I.look p k with
  | none =>
    rw [hl] at hB
    have hfirst : (∃ e ∈ (if vals.contains none = true then [LExpr.nhas k] else []), e.sat (I.look p) = true) ↔
        none ∈ vals := by
      split
      · rename_i h
        simpa [LExpr.sat, hl] using h
      · rename_i h
        simpa using h
    have hsecond : ¬ ∃ e ∈ (if vs.isEmpty = true then [] else
        if (sameSet vs avs && decide (avs.length > 1)) = true then [LExpr.has k]
        else [validExpr k vs (avs.filter (fun v => !vs.contains v)) (allv.contains none)]),
        e.sat (I.look p) = true := by
      split
      · simp
      split
      · simp [LExpr.sat, hl]
      · rw [List.contains_iff_mem.2 hB]
        unfold validExpr
        split
        · simp [LExpr.sat, satAll, hl]
        · simp [LExpr.sat, hl]
    rw [← hfirst]
    simp only [List.mem_append]
    constructor
    · rintro ⟨e, he | he, h⟩
      · exact ⟨e, he, h⟩
      · exact absurd ⟨e, he, h⟩ hsecond
    · rintro ⟨e, he, h⟩
      exact ⟨e, .inl he, h⟩
  | some s =>
    rw [hl, ← has'] at hB
    have hfirst : ¬ (∃ e ∈ (if vals.contains none = true then [LExpr.nhas k] else []), e.sat (I.look p) = true) := by
      split
      · simp [LExpr.sat, hl]
      · simp
    have hsecond : (∃ e ∈ (if vs.isEmpty = true then [] else
        if (sameSet vs avs && decide (avs.length > 1)) = true then [LExpr.has k]
        else [validExpr k vs (avs.filter (fun v => !vs.contains v)) (allv.contains none)]),
        e.sat (I.look p) = true) ↔ s ∈ vs := by
      split
      · rename_i h
        rw [List.isEmpty_iff] at h
        simp [h]
      split
      · rename_i h
        rw [Bool.and_eq_true, sameSet_iff] at h
        simp only [List.mem_singleton, exists_eq_left, LExpr.sat, hl, Option.isSome_some, true_iff]
        exact (h.1 s).2 hB
      · simp only [List.mem_singleton, exists_eq_left]
        unfold validExpr
        split
        · have : (LExpr.notIn k (avs.filter (fun v => !vs.contains v))).sat (I.look p) = true ↔ s ∈ vs := by
            simp only [LExpr.sat, hl]
            rw [Bool.not_eq_true', ← Bool.not_eq_true, List.contains_iff_mem, mem_filter_not]
            tauto
          split
          · rw [LExpr.sat, satAll_iff]
            simp only [List.mem_cons, List.not_mem_nil, or_false, forall_eq_or_imp, forall_eq, this]
            simp [LExpr.sat, hl]
          · exact this
        · simp only [LExpr.sat, hl]
          exact List.contains_iff_mem
    rw [← hvs', ← hsecond]
    simp only [List.mem_append]
    constructor
    · rintro ⟨e, he | he, h⟩
      · exact absurd ⟨e, he, h⟩ hfirst
      · exact ⟨e, he, h⟩
    · rintro ⟨e, he, h⟩
      exact ⟨e, .inr he, h⟩

omit [DecidableEq ρ] [DecidableEq ν] in
theorem hasValue_iff {p : ρ} {key : Key} {v : Val} : HasValue I p key v ↔ v = key.map (I.look p) := by
  unfold HasValue
  induction key generalizing v with
  | nil => cases v <;> simp
  | cons k ks ih =>
    cases v with
    | nil => simp
    | cons x v =>
      rw [List.forall₂_cons, ih]
      simp only [List.map_cons, List.cons.injEq, Cluster.look]
      constructor <;> rintro ⟨h, h'⟩ <;> exact ⟨h.symm, h'⟩

/-- Some pod has, for every part of the key, the value of one of the described pods, but not all of them from
one value. -/
def Mixed (m : ν) (key : Key) (vals : List Val) : Prop :=
  ∃ p ∈ I.all, I.ns p = m ∧ (∀ (i : Nat) k, key[i]? = some k → ∃ v ∈ vals, v[i]? = some (I.look p k)) ∧ ¬ HasOne I p (key, vals)

/-- C38. The printed expression selects, in the namespace, all pods of the group, and no others unless the
values of a conjunction of keys get mixed. -/
theorem C38_printed_partial {m : ν} {key : Key} {vals : List Val} (hk : key ≠ []) (ha : key ∈ I.allowed)
    (hne : vals ≠ []) (hv : ∀ v ∈ vals, v ∈ I.nsValues key m) {p : ρ} (hp : p ∈ I.all) (hm : I.ns p = m) :
    (HasOne I p (key, vals) → (I.expr m key vals).sat (I.look p) = true) ∧
    (¬ Mixed I m key vals → (I.expr m key vals).sat (I.look p) = true → HasOne I p (key, vals)) := by
  have hflat : ∀ k ∈ key, k ∈ I.flat := fun k hk' => List.mem_flatten.2 ⟨key, ha, hk'⟩
  have hcomp : ∀ v ∈ vals, ∀ (i : Nat) k, key[i]? = some k → ∃ x, v[i]? = some x ∧ ∃ q ∈ I.simplePods k x, I.ns q = m := by
    intro v hv' i k hi
    have h := hv v hv'
    obtain ⟨q, hq, hqm⟩ := nsValues_pod I h
    rw [mem_podsFor I hk (nsValues_length I h)] at hq
    have hl := hq.length_eq
    obtain ⟨hi', rfl⟩ := List.getElem?_eq_some_iff.1 hi
    refine ⟨v[i]'(hl ▸ hi'), List.getElem?_eq_getElem _, q, ?_, hqm⟩
    exact hq.get hi' (hl ▸ hi')
  have hpval : p ∈ I.podsFor key (key.map (I.look p)) := by
    rw [mem_podsFor I hk (by simp), List.forall₂_map_right_iff, List.forall₂_same]
    intro k hk'
    obtain ⟨i, hi, rfl⟩ := List.getElem_of_mem hk'
    obtain ⟨v, hv'⟩ := List.exists_mem_of_ne_nil _ hne
    obtain ⟨x, -, q, hq, hqm⟩ := hcomp v hv' i key[i] (List.getElem?_eq_getElem _)
    exact look_comps I (hflat _ hk') hq hqm hp hm
  have hone : HasOne I p (key, vals) ↔ key.map (I.look p) ∈ vals := by
    unfold HasOne
    simp only [hasValue_iff]
    exact ⟨fun ⟨v, h, h'⟩ => h' ▸ h, fun h => ⟨_, h, rfl⟩⟩
  have hsat : ((I.expr m key vals).sat (I.look p) = true ↔ HasOne I p (key, vals)) ∨
      ((I.expr m key vals).sat (I.look p) = true ↔
        ∀ (i : Nat) k, key[i]? = some k → ∃ v ∈ vals, v[i]? = some (I.look p k)) := by
    unfold Cluster.expr
    dsimp only
    split
    · left
      rename_i hc
      rw [Bool.and_eq_true, sameSet_iff] at hc
      rw [LExpr.sat, satAll_iff, hone, hc.1, List.mem_dedup, List.mem_filter]
      simp only [List.forall_mem_map, LExpr.sat]
      rw [Bool.not_eq_true', ← Bool.not_eq_true, List.contains_iff_mem]
      constructor
      · intro h
        refine ⟨nsValues_of I hk (by simp) hpval hm, ?_⟩
        rw [List.mem_map]
        rintro ⟨k, hk', hn⟩
        have := h k hk'
        rw [hn] at this
        simp at this
      · rintro ⟨-, h⟩ k hk'
        by_contra hn
        rw [Bool.not_eq_true, Option.isSome_eq_false_iff, Option.isNone_iff_eq_none] at hn
        exact h (List.mem_map.2 ⟨k, hk', hn⟩)
    · right
      rw [LExpr.sat, satAll_iff]
      simp only [List.forall_mem_map]
      constructor
      · intro h i k hi
        have h1 := h (k, i) (by simpa [List.mem_zipIdx_iff_getElem?] using hi)
        rw [simpleExpr_sat I (hflat k (List.mem_of_getElem? hi)) (by simpa using hne) ?_ hp hm] at h1
        · obtain ⟨v, hv', h2⟩ := List.mem_map.1 h1
          obtain ⟨x, hx, -⟩ := hcomp v hv' i k hi
          dsimp only at h2
          rw [hx] at h2
          exact ⟨v, hv', by rw [hx, ← h2]; rfl⟩
        · rw [List.forall_mem_map]
          intro v hv'
          obtain ⟨x, hx, hq⟩ := hcomp v hv' i k hi
          simpa [hx] using hq
      · rintro h ⟨k, i⟩ hki
        have hi : key[i]? = some k := by simpa [List.mem_zipIdx_iff_getElem?] using hki
        rw [simpleExpr_sat I (hflat k (List.mem_of_getElem? hi)) (by simpa using hne) ?_ hp hm]
        · obtain ⟨v, hv', hx⟩ := h i k hi
          exact List.mem_map.2 ⟨v, hv', by simp [hx]⟩
        · rw [List.forall_mem_map]
          intro v hv'
          obtain ⟨x, hx, hq⟩ := hcomp v hv' i k hi
          simpa [hx] using hq
  constructor
  · intro h
    rcases hsat with h' | h'
    · exact h'.2 h
    · refine h'.2 (fun i k hi => ⟨_, hone.1 h, ?_⟩)
      rw [List.getElem?_map, hi]
      rfl
  · intro hmix h
    rcases hsat with h' | h'
    · exact h'.1 h
    · by_contra hn
      exact hmix ⟨p, hp, hm, h'.1 h, hn⟩

omit [DecidableEq ρ] [DecidableEq ν] in
/-- Nothing is mixed for a key that is no conjunction. -/
theorem not_mixed_single {m : ν} {k : String} {vals : List Val} (hl : ∀ v ∈ vals, v.length = 1) :
    ¬ Mixed I m [k] vals := by
  rintro ⟨p, -, -, h, hn⟩
  obtain ⟨v, hv, h1⟩ := h 0 k rfl
  have := hl v hv
  match v, this with
  | [x], _ =>
    refine hn ⟨[x], hv, (hasValue_iff I).2 ?_⟩
    simp only [List.getElem?_cons_zero, Option.some.injEq] at h1
    simp [h1]

/-- C38. For a key that is no conjunction, the printed expression selects exactly the pods of the group. -/
theorem C38_printed_simple {m : ν} {k : String} {vals : List Val} (ha : [k] ∈ I.allowed) (hne : vals ≠ [])
    (hv : ∀ v ∈ vals, v ∈ I.nsValues [k] m) {p : ρ} (hp : p ∈ I.all) (hm : I.ns p = m) :
    (I.expr m [k] vals).sat (I.look p) = true ↔ ∃ v ∈ vals, v = [(I.labels p).lookup k] := by
  have h := C38_printed_partial I (by simp) ha hne hv hp hm
  have h1 : HasOne I p ([k], vals) ↔ ∃ v ∈ vals, v = [(I.labels p).lookup k] := by
    unfold HasOne
    simp only [hasValue_iff]
    rfl
  rw [← h1]
  exact ⟨h.2 (not_mixed_single I (fun v hv' => nsValues_length I (hv v hv'))), h.1⟩

instance (p : ρ) (kv : Key × List Val) : Decidable (HasOne I p kv) :=
  decidable_of_iff (kv.1.map (I.look p) ∈ kv.2) (by
    unfold HasOne
    simp only [hasValue_iff]
    exact ⟨fun h => ⟨_, h, rfl⟩, fun ⟨v, h, h'⟩ => h' ▸ h⟩)

end

/-! ### Examples -/

namespace Ex

/-- Pods 0, 1, 2, 3 in one namespace (`true`), 4 in the other.  0 and 1 have app=web resp. app=db, 2 app=mail,
3 no label; 4 is like 0. -/
def I : Cluster (Fin 5) Bool where
  all := [0, 1, 2, 3, 4]
  ns := fun p => p != 4
  labels := fun p => match p with
    | 0 => [("app", "web"), ("role", "x")]
    | 1 => [("app", "db"), ("role", "x")]
    | 2 => [("app", "mail")]
    | 3 => []
    | 4 => [("app", "web")]
  allowed := [["app"], ["role"], ["app", "role"]]

example : ∀ key ∈ I.allowed, key ≠ [] := by decide
/-- app in (web,db), or role=x: pods 0 and 1 are a group. -/
example : I.group false id [0, 1] [] true = ([(["app"], [[some "db"], [some "web"]])], []) := by decide +kernel
/-- 0, 1, 3: has no app, or app is web or db. -/
example : I.groupMain false id [0, 1, 3] [] = ([(["app"], [[some "db"], [some "web"], [none]], true)], []) := by
  decide +kernel
example : (I.expr true ["app"] [[some "web"], [some "db"], [none]]).sat (I.look 2) = false ∧
    (I.expr true ["app"] [[some "web"], [some "db"], [none]]).sat (I.look 3) = true ∧
    (I.expr true ["app"] [[some "web"], [some "db"], [none]]).sat (I.look 0) = true := by decide +kernel
/-- Pod 4 cannot be told by a group of one pod, unless this is asked for. -/
example : I.groupMain false id [2, 3, 4] [] = ([(["app"], [[some "mail"], [none]], true)], [4]) := by decide +kernel
example : I.groupMain true id [2, 3, 4] [] = ([(["app"], [[some "mail"], [none]], true), (["app"], [[some "web"]], false)], []) := by
  decide +kernel
/-- Pod 1 is borrowed to say "has a role". -/
example : I.group false id [0] [1] true = ([(["role"], [[some "x"]])], []) ∧ HasOne I 1 (["role"], [[some "x"]]) := by
  decide +kernel
/-- The hypotheses of `C38_printed_partial` hold with a conjunction whose values do not get mixed. -/
example : (∀ v ∈ [[some "web", some "x"], [some "db", some "x"]], v ∈ I.nsValues ["app", "role"] true) ∧
    (∀ p ∈ I.all, I.ns p = true →
      ((I.expr true ["app", "role"] [[some "web", some "x"], [some "db", some "x"]]).sat (I.look p) = true ↔
        HasOne I p (["app", "role"], [[some "web", some "x"], [some "db", some "x"]]))) := by decide +kernel

/-- Three pods with a=1,b=1 and a=2,b=2 and a=1,b=2. -/
def J : Cluster (Fin 3) Unit where
  all := [0, 1, 2]
  ns := fun _ => ()
  labels := fun p => match p with
    | 0 => [("a", "1"), ("b", "1")]
    | 1 => [("a", "2"), ("b", "2")]
    | 2 => [("a", "1"), ("b", "2")]
  allowed := [["a", "b"], ["a"], ["b"]]

end Ex

/-- C38, the full claim about the printed text: it selects exactly the pods of the group. -/
def PrintedExact (ρ ν : Type) [DecidableEq ρ] [DecidableEq ν] : Prop :=
  ∀ (I : Cluster ρ ν) (single : Bool) (pods : List ρ) (m : ν), (∀ p ∈ pods, p ∈ I.all ∧ I.ns p = m) →
    ∀ kv ∈ (I.group single id pods [] m).1, ∀ p ∈ I.all, I.ns p = m →
      ((I.expr m kv.1 kv.2).sat (I.look p) = true ↔ HasOne I p kv)

/-- C38 fails for conjunctions of keys: pods 0 and 1 are described by values 2:2 and 1:1 of a:b, printed as
"has(a) and has(b)", which also selects pod 2 (with 1:2), to which the rule does not apply. -/
theorem C38_conjunction_wrong : ¬ PrintedExact (Fin 3) Unit ∧
    Ex.J.group false id [0, 1] [] () = ([(["a", "b"], [[some "2", some "2"], [some "1", some "1"]])], []) ∧
    (Ex.J.expr () ["a", "b"] [[some "2", some "2"], [some "1", some "1"]]).sat (Ex.J.look 2) = true := by
  refine ⟨fun h => ?_, by decide +kernel, by decide +kernel⟩
  have := h Ex.J false [0, 1] () (by decide) (["a", "b"], [[some "2", some "2"], [some "1", some "1"]])
    (by decide +kernel) 2 (by decide) rfl
  exact absurd (this.1 (by decide +kernel)) (by decide +kernel)

end Verif.Fw
