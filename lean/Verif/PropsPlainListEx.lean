import Verif.PropsPlainList
import Verif.DemoNets
/-!
C70: examples, and the finding about names shared by several replicas.
-/
namespace Verif.PlainList.Ex
open Verif.Demo HC

/-- Peers 1..4 are pods, 5..9 are addresses: the pods of a set, and the ranges of its addresses. -/
def split (v : ISet) : List Iv :=
  ([1, 2, 3, 4].filter (fun i => ISet.contains v i)).map (fun i => ⟨i, i⟩) ++ ISet.inter v [⟨5, 9⟩]

/-- Every piece has a name of its own. -/
def own : Named ISet Int Iv where
  pieces := split
  isIn := fun x i => decide (i.s ≤ x ∧ x ≤ i.e)
  name := fun i => String.ofList (ivText i)

/-- Pods 1 and 2 are replicas of one deployment. -/
def shared : Named ISet Int Iv := { own with name := fun i => if i = ⟨1, 1⟩ ∨ i = ⟨2, 2⟩ then "dep" else String.ofList (ivText i) }

theorem split_mem {v : ISet} (hv : ISet.Canonical v) (hd : ∀ x, ISet.Mem x v → 1 ≤ x ∧ x ≤ 9) (x : Int) :
    ISet.contains v x = true ↔ ∃ s ∈ split v, decide (s.s ≤ x ∧ x ≤ s.e) = true := by
  have hi := ISet.inter_spec v [⟨5, 9⟩] hv (canonical_one 5 9 (by decide))
  have hi2 := hi.2 x
  rw [ISet.contains_spec v x hv]
  simp only [split, List.mem_append, List.mem_map, List.mem_filter, decide_eq_true_eq]
  constructor
  · intro hx
    have hr := hd x hx
    by_cases h5 : x ≤ 4
    · refine ⟨⟨x, x⟩, Or.inl ⟨x, ⟨?_, (ISet.contains_spec v x hv).2 hx⟩, rfl⟩, Int.le_refl _, Int.le_refl _⟩
      simp only [List.mem_cons, List.not_mem_nil, or_false]
      omega
    · obtain ⟨i, him, h1, h2⟩ := hi2.2 ⟨hx, ⟨⟨5, 9⟩, by simp, by simp only; omega, by simp only; omega⟩⟩
      exact ⟨i, Or.inr him, h1, h2⟩
  · rintro ⟨s, ⟨i, ⟨_, hi'⟩, rfl⟩ | hs, h1, h2⟩
    · have : i = x := by simp only at h1 h2; omega
      subst this
      exact (ISet.contains_spec v i hv).1 hi'
    · exact (hi2.1 ⟨s, hs, h1, h2⟩).1

theorem own_src : own.Covers alg (isetWf dom) .src :=
  ⟨fun hv x => split_mem hv.1 (fun y hy => (mem_peers y).1 (hv.2 y hy)) x⟩
theorem own_dst : own.Covers alg (isetWf dom) .dst :=
  ⟨fun hv x => split_mem hv.1 (fun y hy => (mem_peers y).1 (hv.2 y hy)) x⟩
theorem shared_src : shared.Covers alg (isetWf dom) .src :=
  ⟨fun hv x => split_mem hv.1 (fun y hy => (mem_peers y).1 (hv.2 y hy)) x⟩
theorem shared_dst : shared.Covers alg (isetWf dom) .dst :=
  ⟨fun hv x => split_mem hv.1 (fun y hy => (mem_peers y).1 (hv.2 y hy)) x⟩

/-- Pod 1 may reach pods 1 to 3 and addresses 5 to 7 at ports 80 to 90 by TCP. -/
def cMap : DemoDim → ISet
  | .src => [⟨1, 1⟩]
  | .dst => [⟨1, 3⟩, ⟨5, 7⟩]
  | .prot => [⟨6, 6⟩]
  | .port => [⟨80, 90⟩]

theorem wfMap : ∀ d ∈ dims, isetWf dom d (cMap d) := by
  intro d _
  cases d
  · exact wf_one _ 1 1 (by decide) (fun x h1 h2 => (mem_peers x).2 ⟨by omega, by omega⟩)
  · refine ⟨⟨?_, ?_⟩, ?_⟩
    · intro i hi; simp [cMap] at hi; rcases hi with rfl | rfl <;> decide
    · simp [cMap, List.pairwise_cons]
    · rintro x ⟨i, hi, h1, h2⟩
      simp [cMap] at hi
      rcases hi with rfl | rfl
      · exact (mem_peers x).2 ⟨by simp at h1; omega, by simp at h2; omega⟩
      · exact (mem_peers x).2 ⟨by simp at h1; omega, by simp at h2; omega⟩
  · exact wf_one _ 6 6 (by decide) (fun x h1 h2 => (mem_prot x).2 ⟨by omega, by omega⟩)
  · exact wf_one _ 80 90 (by decide) (fun x h1 h2 => ⟨⟨1, 65535⟩, by simp [dom], by simp only; omega, by simp only; omega⟩)

def theMap : HC DemoDim ISet := HC.fromCube alg dims cMap dims

theorem mapHist : Hist alg (isetWf dom) dims false theMap (CubePts alg cMap dims) := .cube _ _ (List.Sublist.refl _) wfMap

theorem mapStrong : HcStrong alg (isetWf dom) dims theMap :=
  ⟨(mapHist.spec lawful dims_nodup dims_ne).1, Or.inl (by decide +kernel)⟩

/-- The names of the lines. -/
def names (l : List (Line DemoDim ISet)) : List (String × String) := l.map (fun l => (l.src, l.dst))

theorem wt : isetWf dom .prot tcp :=
  ⟨tcp_canonical, fun x hx => (mem_prot x).2 (by have := (mem_tcp x).1 hx; omega)⟩

theorem hpart (x : Int) (hx : alg.mem x (alg.dom .prot) = true) : alg.mem x nonTcp = !alg.mem x tcp := by
  have hx' := (mem_prot x).1 ((ISet.contains_spec _ x (canonical_one 0 255 (by decide))).1 hx)
  change ISet.contains nonTcp x = !ISet.contains tcp x
  rw [Bool.eq_iff_iff, Bool.not_eq_true', ← Bool.not_eq_true, ISet.contains_spec _ x nonTcp_canonical, ISet.contains_spec _ x tcp_canonical,
    mem_tcp, mem_nonTcp]
  omega

/-- The lines: nothing for pod 1 and itself; the attributes are printed without the protocol in the TCP part. -/
example : names (lines alg dims .src .dst .prot tcp nonTcp own List.length true .any theMap) = [("1", "2"), ("1", "3"), ("1", "5-7")] := by
  decide +kernel
example : (sections alg dims .src .dst .prot tcp nonTcp own List.length true theMap).map (fun s => names s.2) =
    [[("1", "2"), ("1", "3"), ("1", "5-7")], []] := by decide +kernel

theorem split_piece {v : ISet} (hv : ISet.Canonical v) {s : Iv} (hs : s ∈ split v) :
    (1 ≤ s.s ∧ s.s = s.e ∧ s.e ≤ 4) ∨ (5 ≤ s.s ∧ s.s ≤ s.e ∧ s.e ≤ 9) := by
  have hi := ISet.inter_spec v [⟨5, 9⟩] hv (canonical_one 5 9 (by decide))
  simp only [split, List.mem_append, List.mem_map, List.mem_filter, List.mem_cons, List.not_mem_nil, or_false] at hs
  rcases hs with ⟨i, ⟨hi', _⟩, rfl⟩ | hs
  · left
    rcases hi' with rfl | rfl | rfl | rfl <;> decide
  · right
    have hle : s.s ≤ s.e := hi.1.1 s hs
    obtain ⟨k, hk, k1, _⟩ := ((hi.2 s.s).1 ⟨s, hs, Int.le_refl _, hle⟩).2
    obtain ⟨k', hk', _, k2⟩ := ((hi.2 s.e).1 ⟨s, hs, hle, Int.le_refl _⟩).2
    simp only [List.mem_singleton] at hk hk'
    subst hk; subst hk'
    exact ⟨k1, hle, k2⟩

theorem own_piece {d : DemoDim} {s : Iv} (h : own.Piece (isetWf dom) d s) :
    (1 ≤ s.s ∧ s.s = s.e ∧ s.e ≤ 4) ∨ (5 ≤ s.s ∧ s.s ≤ s.e ∧ s.e ≤ 9) := by
  obtain ⟨v, hv, hs⟩ := h
  exact split_piece hv.1 hs

theorem own_distinct (d : DemoDim) : own.Distinct (isetWf dom) d := by
  intro s s' hs hs' he x
  have h1 := own_piece hs
  have h2 := own_piece hs'
  have : s = s' := ivText_inj (by omega) (by omega) (String.ofList_injective he)
  rw [this]

theorem own_apart (q : Int) (po : Int) (excl : Bool) : Apart (isetWf dom) DemoDim.src DemoDim.dst own excl (coord 1 3 q po) := by
  intro s d hs hd h1 h2
  have p1 := own_piece hs
  have p2 := own_piece hd
  simp only [own, coord, decide_eq_true_eq] at h1 h2
  refine ⟨by rintro rfl; omega, fun _ he => ?_⟩
  have : s = d := ivText_inj (by omega) (by omega) (String.ofList_injective he)
  subst this
  omega

/-- Non-vacuity of C70_list_partial (and of the theorems before it): the list of the example, with both parts, tells of the
connection from pod 1 to pod 3 at port 80 by TCP and does not tell of port 79. -/
theorem example_list (istio : Bool) (po : Int) (hpo : 1 ≤ po ∧ po ≤ 65535) :
    (∃ part ∈ sections alg dims .src .dst .prot tcp nonTcp own List.length istio theMap, ∃ l ∈ part.2,
      Tells alg (isetWf dom) .src .dst .prot tcp nonTcp own .port part.1 l (coord 1 3 6 po)) ↔ CubePts alg cMap dims (coord 1 3 6 po) :=
  (C70_list_partial lawful dims_nodup dims_ne (by decide) wt hpart own_src own_dst (own_distinct _) (own_distinct _) .port
    mapHist mapStrong istio (conn 1 3 6 po ⟨by decide, by decide, by decide, hpo⟩).2 (own_apart 6 po true)).1

example : CubePts alg cMap dims (coord 1 3 6 80) ∧ ¬ CubePts alg cMap dims (coord 1 3 6 79) := by
  constructor
  · intro d _; cases d <;> decide +kernel
  · intro h; exact absurd (h .port (by decide)) (by decide +kernel)

/-- What is printed in the TCP part has no protocol, and in the whole list it has. -/
def repIs (l : List (Line DemoDim ISet)) (c : List (List (DemoDim × ISet))) : Bool :=
  l.all fun l => match l.conns with
    | .cubes c' => decide (c' = c)
    | _ => false

example : repIs (lines alg dims .src .dst .prot tcp nonTcp own List.length true .tcp theMap) [[(.port, [⟨80, 90⟩])]] = true ∧
    repIs (lines alg dims .src .dst .prot tcp nonTcp own List.length true .any theMap) [[(.prot, [⟨6, 6⟩]), (.port, [⟨80, 90⟩])]] = true := by
  decide +kernel

/-- Within the deployment of pods 1 and 2 nothing is listed, unless asked for. -/
example : names (lines alg dims .src .dst .prot tcp nonTcp shared List.length true .any theMap) = [("dep", "3"), ("dep", "5-7")] ∧
    names (lines alg dims .src .dst .prot tcp nonTcp shared List.length false .any theMap) = [("dep", "dep"), ("dep", "3"), ("dep", "5-7")] := by
  decide +kernel

/-- C70, finding: if the replicas of a workload differ (here pod 1 may reach pod 3, pod 2 may not), the list has one line
for the workload, which tells of connections that are not allowed. -/
theorem C70_shared_name_wrong : ∃ l ∈ lines alg dims .src .dst .prot tcp nonTcp shared List.length true .any theMap,
    Tells alg (isetWf dom) .src .dst .prot tcp nonTcp shared .port .any l (coord 2 3 6 80) ∧
      ¬ theMap.Pt alg (coord 2 3 6 80) := by
  have hp3 : InDom alg (coord 1 3 6 80) := (conn 1 3 6 80 ⟨by decide, by decide, by decide, by decide⟩).2
  have hq : InDom alg (coord 2 3 6 80) := (conn 2 3 6 80 ⟨by decide, by decide, by decide, by decide⟩).2
  have sp := mapHist.spec lawful dims_nodup dims_ne
  have piece : ∀ {d : DemoDim} {s : Iv}, shared.Piece (isetWf dom) d s ↔ own.Piece (isetWf dom) d s := Iff.rfl
  have ha : Apart (isetWf dom) DemoDim.src DemoDim.dst shared true (coord 1 3 6 80) := by
    intro s d hs hd h1 h2
    have p1 := own_piece (piece.1 hs)
    have p2 := own_piece (piece.1 hd)
    simp only [shared, own, coord, decide_eq_true_eq] at h1 h2
    have e1 : s = ⟨1, 1⟩ := by cases s; simp only [Iv.mk.injEq] at *; omega
    have e2 : d = ⟨3, 3⟩ := by cases d; simp only [Iv.mk.injEq] at *; omega
    subst e1; subst e2
    exact ⟨by decide, fun _ => by decide +kernel⟩
  obtain ⟨l, hl, ⟨s, hs, e1, i1⟩, ht2, hr, hm⟩ := C70_complete (tcp := tcp) (nonTcp := nonTcp) (protD := .prot) (r := .any) (len := List.length)
    lawful dims_nodup dims_ne shared_src shared_dst .port sp.1 hp3 ha trivial
    ((sp.2.1 _ hp3).2 (by intro d _; cases d <;> decide +kernel))
  refine ⟨l, hl, ⟨⟨⟨2, 2⟩, ⟨[⟨2, 2⟩], ?_, by decide +kernel⟩, ?_, by decide +kernel⟩, ht2, trivial, ?_⟩, fun h => ?_⟩
  · exact wf_one _ 2 2 (by decide) (fun x h1 h2 => (mem_peers x).2 ⟨by omega, by omega⟩)
  · have p1 := own_piece (piece.1 hs)
    simp only [shared, own, coord, decide_eq_true_eq] at i1
    have : s = ⟨1, 1⟩ := by cases s; simp only [Iv.mk.injEq] at *; omega
    rw [← e1, this]
    decide +kernel
  · obtain ⟨cube, hc, -, s', -, d', -, -, -, rfl⟩ := mem_lines.1 hl
    have hw := fun d => ((Fw.cubes_val lawful dims_nodup sp.1).1 cube hc d).1
    have hw' : ∀ d ∈ dims, isetWf dom d (Fw.withoutPeers alg .src .dst .prot tcp nonTcp .any (Fw.cubeVal alg theMap.act cube) d) :=
      fun d _ => withoutPeers_wf lawful hw .any d
    refine (cube_means lawful dims_nodup dims_ne _ hw' .prot .port List.length hq).2 fun d hd => ?_
    have := (cube_means lawful dims_nodup dims_ne _ hw' .prot .port List.length hp3).1 hm d hd
    cases d
    · exact withoutPeers_peer hq (Or.inl rfl)
    · exact this
    · exact this
    · exact this
  · exact absurd ((sp.2.1 _ hq).1 h .src (by decide)) (by decide +kernel)

/-- The text of a part. -/
example : textLines (fun _ : Rep DemoDim ISet => "All connections") (header .tcp) [⟨"b", "a", .all⟩, ⟨"a", "b", .all⟩, ⟨"b", "a", .all⟩] =
    ["TCP Connections:", "a => b : All connections", "b => a : All connections"] := by decide +kernel

end Verif.PlainList.Ex
