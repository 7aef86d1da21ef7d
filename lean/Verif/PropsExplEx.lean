import Verif.PropsExplText
/-!
C68: findings about explanations, and examples that meet the hypotheses of the theorems.
-/
namespace Verif

namespace Expl

def xi (f : String) (l : Nat) (w : String) : Item := ⟨f, l, w⟩

/-- Three pods; `a` and `c` may be reached by `b` and from some addresses, `b` is not limited. -/
def exW : World :=
  { ep := "pods"
    pods := [("ns/a", xi "pods.yaml" 1 "ns/a"), ("ns/b", xi "pods.yaml" 9 "ns/b"), ("ns/c", xi "pods.yaml" 17 "ns/c")]
    pols := [⟨"let-b", "p.yaml", 1, ["ns/a"], [], [(["ns/b"], ["ns/a"])], false, true⟩,
             ⟨"let-all", "q.yaml", 4, ["ns/a", "ns/c"], [], [(["ns/b", "10.0.0.0/8"], ["ns/a", "ns/c"])], false, true⟩]
    nodes := ["ns/a", "ns/b", "ns/c"]
    everyone := ["ns/a", "ns/b", "ns/c", "0.0.0.0/0"]
    conns := fun x y => !((x == "ns/a" && y == "ns/c") || (x == "ns/c" && y == "ns/a") ||
      ((x == "10.0.0.0/8" || x == "0.0.0.0/0") && (y == "10.0.0.0/8" || y == "0.0.0.0/0")))
    peers := [⟨"ns/a", false, ""⟩, ⟨"ns/b", false, ""⟩, ⟨"ns/c", false, ""⟩, ⟨"10.0.0.0/8", true, ""⟩, ⟨"0.0.0.0/0", true, ""⟩] }

theorem readByNames {W : World} (h : ∀ x ∈ W.nodes, x ≠ "" ∧ x ∈ W.pods.map (·.1)) :
    ∀ x ∈ W.nodes, x ≠ "" ∧ ∃ i, (x, i) ∈ W.pods := by
  intro x hx
  obtain ⟨h1, h2⟩ := h x hx
  obtain ⟨⟨n, i⟩, he, rfl⟩ := List.mem_map.1 h2
  exact ⟨h1, i, he⟩

theorem exW_fair : exW.Fair := by
  constructor
  case read => exact readByNames (W := exW) (by decide +kernel)
  all_goals decide +kernel

theorem exW_even : exW.Even := by
  constructor
  · intro p hp s hs s' d ⟨c, hc, _⟩
    simp only [exW, List.mem_cons, List.not_mem_nil, or_false] at hp
    rcases hp with rfl | rfl <;> exact absurd hc List.not_mem_nil
  · intro p hp d hd s d' ⟨c, hc, h1, h2⟩
    simp only [exW, List.mem_cons, List.not_mem_nil, or_false] at hp
    rcases hp with rfl | rfl
    · simp only [List.mem_singleton] at hc hd
      subst hc hd
      exact ⟨_, List.mem_singleton.2 rfl, h1, List.mem_singleton.2 rfl⟩
    · obtain rfl := List.mem_singleton.1 hc
      exact ⟨_, List.mem_singleton.2 rfl, h1, hd⟩
  · decide +kernel

/-- Two connected pods. -/
example : (run exW).explain2 "ns/b" "ns/a" = some ⟨true, ["Default-Policy", "ns/b"], ["let-all", "let-b", "ns/a"]⟩ := by
  decide +kernel

/-- Two pods that are not connected. -/
example : (run exW).explain2 "ns/c" "ns/a" =
    some ⟨false, ["Default-Policy", "let-all", "ns/c"], ["Default-Policy", "let-all", "let-b", "ns/a"]⟩ := by
  decide +kernel

example := C68_connected_partial exW exW_fair exW_even "ns/b" "ns/a" (by decide +kernel) (by decide +kernel) (by decide +kernel)

example := C68_complete_partial exW exW_fair "ns/b" "ns/a" (by decide +kernel) (by decide +kernel) (by decide +kernel)

example := C68_lack_partial exW exW_fair "ns/c" "ns/a" (by decide +kernel) (by decide +kernel) (by decide +kernel)

example := C68_single_partial exW exW_fair "ns/a" (by decide +kernel)

example := C68_default exW exW_fair "ns/b" "ns/a" (by decide +kernel) (by decide +kernel) (by decide +kernel)

/-- The map of the example is that of its policies, for a connection and for the lack of one. -/
example := C68_reason_partial exW exW_fair "ns/b" "ns/a" (by decide +kernel) (by decide +kernel)
  (fun _ => Or.inl (by unfold World.LimitsOut; decide +kernel))
  (fun _ => Or.inr ⟨⟨"let-b", "p.yaml", 1, ["ns/a"], [], [(["ns/b"], ["ns/a"])], false, true⟩, List.mem_cons_self, by simp,
    ⟨_, List.mem_cons_self, by simp, by simp⟩⟩)
  (fun _ _ => by decide +kernel)

example := C68_reason_partial exW exW_fair "ns/c" "ns/a" (by decide +kernel) (by decide +kernel)
  (fun h => absurd h (by decide +kernel)) (fun h => absurd h (by decide +kernel))
  (fun _ h => absurd (show exW.LimitsIn "ns/a" by unfold World.LimitsIn; decide +kernel) h)

/-- The same configuration, read in another order. -/
def exW' : World := { exW with pols := exW.pols.reverse, pods := exW.pods.reverse, nodes := exW.nodes.reverse }

theorem exW'_fair : exW'.Fair := by
  constructor
  case read => exact readByNames (W := exW') (by decide +kernel)
  all_goals decide +kernel

example := C68_order exW exW' exW_fair exW'_fair (fun p => (List.mem_reverse (as := exW.pols)).symm)
  (fun x => (List.mem_reverse (as := exW.nodes)).symm) (fun _ _ => rfl) "ns/b" "ns/a" (by decide +kernel) (by decide +kernel)

example := C68_text (run exW) "ns/a" "dst" ["let-all", "let-b"]
  (by intro i h; have e : (run exW).items.lookup "ns/a" = some (xi "pods.yaml" 1 "ns/a") := by decide +kernel
      rw [e] at h; cases h; decide) (by simp)

example : (run exW).nodeLines "ns/a" ["let-all", "let-b", "ns/a"] (some "dst") =
    ["\n(dst)ns/a:", "Policy Configurations:", "let-all: line 4 in file q.yaml", "let-b: line 1 in file p.yaml",
     "Resource Configurations:", "ns/a: line 1 in file pods.yaml"] := by
  decide +kernel

example := C68_policy_place_partial exW ⟨"let-b", "p.yaml", 1, ["ns/a"], [], [(["ns/b"], ["ns/a"])], false, true⟩
  List.mem_cons_self (by decide) (by decide)
  (by intro q hq hn
      simp only [exW, List.mem_cons, List.not_mem_nil, or_false] at hq
      rcases hq with rfl | rfl
      · rfl
      · exact absurd hn (by decide))

example := C68_resource_place_partial exW "ns/b" (xi "pods.yaml" 9 "ns/b") (by decide +kernel) (by decide) (by decide)
  (by intro j hj
      simp only [exW, List.mem_cons, List.not_mem_nil, or_false, Prod.mk.injEq] at hj
      rcases hj with h | h | h
      · exact absurd h.1 (by decide)
      · exact h.2
      · exact absurd h.1 (by decide))
  (by decide +kernel) "ns/b"

example := C68_all (run exW) (by decide +kernel)

theorem exW_filed (x : String) (i : Item) (h : (x, i) ∈ exW.pods) (h1 : i.path ≠ "") (h2 : ∀ e ∈ exW.pods, e.1 = x → e.2 = i)
    (h3 : ∀ q ∈ exW.pols, q.name ≠ x) : exW.Filed x i := ⟨h, h1, fun j hj => h2 (x, j) hj rfl, h3⟩

theorem exW_b : exW.Filed "ns/b" (xi "pods.yaml" 9 "ns/b") :=
  exW_filed _ _ (by decide +kernel) (by decide) (by decide +kernel) (by decide +kernel)

theorem exW_a : exW.Filed "ns/a" (xi "pods.yaml" 1 "ns/a") :=
  exW_filed _ _ (by decide +kernel) (by decide) (by decide +kernel) (by decide +kernel)

theorem exW_c : exW.Filed "ns/c" (xi "pods.yaml" 17 "ns/c") :=
  exW_filed _ _ (by decide +kernel) (by decide) (by decide +kernel) (by decide +kernel)

example := C68_shown_connected_partial exW exW_fair "ns/b" "ns/a" (by decide +kernel) (by decide +kernel) _ _ exW_b exW_a
  (by decide +kernel) (Or.inl (by unfold World.LimitsOut; decide +kernel))
  (Or.inr ⟨⟨"let-b", "p.yaml", 1, ["ns/a"], [], [(["ns/b"], ["ns/a"])], false, true⟩, List.mem_cons_self, by simp,
    ⟨_, List.mem_cons_self, by simp, by simp⟩⟩)

example := C68_shown_lack_partial exW exW_fair "ns/c" "ns/a" (by decide +kernel) (by decide +kernel) _ _ exW_c exW_a
  (by decide +kernel)

example : (run exW).lines2 "ns/c" "ns/a" =
    ["Configurations affecting the LACK of connectivity between (src)ns/c and (dst)ns/a:",
     "\n(src)ns/c:", "Policy Configurations:", "Default-Policy", "let-all: line 4 in file q.yaml",
     "Resource Configurations:", "ns/c: line 17 in file pods.yaml",
     "\n(dst)ns/a:", "Policy Configurations:", "Default-Policy", "let-all: line 4 in file q.yaml", "let-b: line 1 in file p.yaml",
     "Resource Configurations:", "ns/a: line 1 in file pods.yaml"] := by
  decide +kernel

example := C68_block_partial exW exW_fair "ns/b" "10.0.0.0/8" (by decide +kernel) (by decide +kernel) (by decide +kernel)
  (by decide +kernel) (by decide +kernel) (by decide +kernel)

/-- Pods of two deployments, shown by their deployments. -/
def exD : World :=
  { ep := "deployments"
    pods := [("ns/d-1", xi "d.yaml" 1 "ns/d(Deployment)"), ("ns/d-2", xi "d.yaml" 1 "ns/d(Deployment)"),
             ("ns/e-1", xi "e.yaml" 5 "ns/e(Deployment)")]
    pols := []
    nodes := ["ns/d-1", "ns/d-2", "ns/e-1"]
    everyone := ["ns/d-1", "ns/d-2", "ns/e-1", "0.0.0.0/0"]
    conns := fun _ _ => true
    peers := [⟨"ns/d-1", false, ""⟩, ⟨"ns/d-2", false, ""⟩, ⟨"ns/e-1", false, ""⟩] }

example := C68_all_shown_partial (run exD) (by decide +kernel) ⟨"ns/d-2", false, ""⟩ ⟨"ns/e-1", false, ""⟩ (by decide +kernel)
  (by decide +kernel) rfl rfl

example : ((run exD).explainAll.map (fun e => (e.1, e.2.1))) =
    [("ns/d(Deployment)", "ns/d(Deployment)"), ("ns/d(Deployment)", "ns/e(Deployment)"),
     ("ns/e(Deployment)", "ns/d(Deployment)"), ("ns/e(Deployment)", "ns/e(Deployment)")] := by
  decide +kernel

example := C68_names (run exD) "ns/d(Deployment)" (by decide +kernel)
  ⟨("ns/d-1", xi "d.yaml" 1 "ns/d(Deployment)"), by decide +kernel, Or.inl rfl⟩

/-! ### Findings -/

/-- Policies `deny` in two namespaces, in two files. -/
def twoNs : World :=
  { exW with pols := [⟨"deny", "ns1.yaml", 1, ["ns/a"], [], [], false, true⟩, ⟨"deny", "ns2.yaml", 7, ["ns/c"], [], [], false, true⟩] }

/-- **C68 (finding).**  Policies are kept by their names without namespaces: for a pod with the policy of one namespace, an
explanation gives the file of the policy of the other. -/
theorem C68_same_name_wrong :
    (run twoNs).explain1 "ns/a" = some ["Default-Policy", "deny", "ns/a"] ∧
    (run twoNs).entry "deny" "deny" = "deny: line 7 in file ns2.yaml" ∧
    ∀ p ∈ twoNs.pols, "ns/a" ∈ p.sel → p.path = "ns1.yaml" := by
  decide +kernel

/-- A policy that selects `a` and `c` and allows `b` at a named port, which only `a` has; another policy allows `b` to reach
`c`. -/
def namedPort : World :=
  { exW with pols := [⟨"http", "h.yaml", 1, ["ns/a", "ns/c"], [], [(["ns/b"], ["ns/a"])], false, true⟩,
                      ⟨"let-c", "c.yaml", 1, ["ns/c"], [], [(["ns/b"], ["ns/c"])], false, true⟩] }

/-- **C68 (finding).**  A policy is given as a reason although it allows nothing between the two: what it allows to one of the
peers it selects is recorded for all of them. -/
theorem C68_named_port_wrong :
    (run namedPort).explain2 "ns/b" "ns/c" = some ⟨true, ["Default-Policy", "ns/b"], ["http", "let-c", "ns/c"]⟩ ∧
    ¬ namedPort.ReasonIn "ns/b" "ns/c" "http" := by
  refine ⟨by decide +kernel, ?_⟩
  rintro (⟨p, hp, hn, -, c, hc, -, hd⟩ | ⟨h, -⟩)
  · simp only [namedPort, List.mem_cons, List.not_mem_nil, or_false] at hp
    rcases hp with rfl | rfl
    · simp only [List.mem_singleton] at hc
      subst hc
      exact absurd hd (by decide)
    · exact absurd hn (by decide)
  · exact absurd h (by decide)

/-- **C68 (finding).**  Blocks of addresses are kept by the texts of their addresses, which differ between policies, defaults and
the map: `b` is connected to the block `10.0.0.0/8` of the map, but no policy is listed, not even the default, and the pod itself
is shown as a policy. -/
theorem C68_block_wrong :
    exW.conns "ns/b" "10.0.0.0/8" = true ∧
    (run exW).explain2 "ns/b" "10.0.0.0/8" = some ⟨true, ["ns/b"], ["Default-Policy", "10.0.0.0/8"]⟩ ∧
    (run exW).nodeLines "ns/b" ["ns/b"] (some "src") =
      ["\n(src)ns/b:", "Policy Configurations:", "ns/b: line 9 in file pods.yaml"] := by
  decide +kernel

/-- A map by deployments with two blocks of addresses; both were built from indices, and have no name. -/
def twoBlocks : World :=
  { exD with peers := exD.peers ++ [⟨"10.0.0.0/8", true, ""⟩, ⟨"0.0.0.0/0", true, ""⟩] }

/-- **C68 (finding).**  By deployments, the explanation of everything has entries for one block of addresses only. -/
theorem C68_all_blocks_wrong :
    (∃ e ∈ (run twoBlocks).explainAll, e.1 = "10.0.0.0/8") ∧ (∀ e ∈ (run twoBlocks).explainAll, e.1 ≠ "0.0.0.0/0" ∧ e.2.1 ≠ "0.0.0.0/0") ∧
    ⟨"0.0.0.0/0", true, ""⟩ ∈ (run twoBlocks).peers := by
  decide +kernel

/-- The same cluster without policies. -/
def noPols : World := { exW with pols := [], conns := fun _ _ => true }

/-- **C68 (finding).**  The tracker keeps what it has of other configurations: after runs on two configurations, a policy of the
first is given as a reason in the second, which has no policies. -/
theorem C68_configs_wrong :
    (run noPols).explain2 "ns/b" "ns/a" = some ⟨true, ["Default-Policy", "ns/b"], ["Default-Policy", "ns/a"]⟩ ∧
    (runAll "pods" [exW, noPols]).explain2 "ns/b" "ns/a" = some ⟨true, ["Default-Policy", "ns/b"], ["let-all", "let-b", "ns/a"]⟩ := by
  decide +kernel

/-- **C68 (finding).**  A scheme passes the output format for the mode of endpoints: explanations are never by deployments,
although that is the mode of the graph unless it is given. -/
theorem C68_scheme_wrong (outputs : List String) (ep : String) (h : schemeEp outputs = some ep) : ep ≠ "deployments" := by
  unfold schemeEp at h
  split at h
  · split at h
    · cases h
    · cases h; decide
  · cases h

example : schemeEp ["html", "txt"] = some "html" := by decide +kernel

/-- The third pod of a deployment was read, but dropped. -/
def threePods : World :=
  { exD with ep := "pods", pods := exD.pods ++ [("ns/d-3", xi "d.yaml" 1 "ns/d(Deployment)")] }

/-- **C68 (finding).**  A pod that was dropped because there are two like it has no explanation. -/
theorem C68_dropped_wrong :
    (run threePods).explain1 "ns/d-3" = none ∧ (∃ i, ("ns/d-3", i) ∈ threePods.pods) ∧
    (run threePods).explain1 "ns/d-2" = some ["Default-Policy", "ns/d-2"] := by
  refine ⟨by decide +kernel, ⟨xi "d.yaml" 1 "ns/d(Deployment)", by decide +kernel⟩, by decide +kernel⟩

end Expl

end Verif
