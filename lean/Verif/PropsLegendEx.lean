import Verif.PropsLegendDraw
/-!
C69: examples for the theorems on legends, and what the code does not meet.
-/
namespace Verif.Legend.Ex

/-- Two workloads and a clique; three labels. -/
def ops : List Op := [
  .node "default" "a" .pod ["a", ""], .node "default" "b" .pod [" b "], .node "dev" "c" .multi ["c", "d"],
  .node "dev" "clique_1" .clique ["All"],
  .edge "a" "b" "{dst_ports:80}" true, .edge "b" "c" " {dst_ports:80,443}" false,
  .edge "c" "a" "{protocols:UDP,dst_ports:5300-5400}" true, .edge "b" "clique_1" "All" false]

def shown : Drawing :=
  { legend := some [⟨"All", "All", "All"⟩, ⟨"tcp80a", "{dst_ports:80,443}", "{dst_ports:80,443}"⟩, ⟨"tcp80b", "{dst_ports:80}", "{dst_ports:80}"⟩,
      ⟨"udp5300", "{protocols:UDP,dst_ports:5300-...", "{protocols:UDP,dst_ports:5300-5400}"⟩],
    boxes := [("cluster_default_namespace", .cells "a" .pod ["a"]), ("cluster_default_namespace", .cells "b" .pod ["b"]),
      ("cluster_dev_namespace", .cells "c" .multi ["c", "d"]), ("cluster_dev_namespace", .joint "clique_1" .clique "All" "All")],
    arrows := [⟨"a", "b", some ("tcp80b", "{dst_ports:80}"), true, false⟩, ⟨"b", "c", some ("tcp80a", "{dst_ports:80,443}"), true, true⟩,
      ⟨"c", "a", some ("udp5300", "{protocols:UDP,dst_ports:5300-5400}"), true, false⟩, ⟨"b", "clique_1", none, false, false⟩] }

theorem shown_eq : drawing false ops = some shown := by decide +kernel

theorem used (l : String) : Used ops l → l ∈ ["All", "{dst_ports:80}", "{dst_ports:80,443}", "{protocols:UDP,dst_ports:5300-5400}"] := by
  rintro (⟨s, d, t, dir, hm, rfl⟩ | ⟨sp, nm, k, ts, t, r, hm, hk, hf, rfl⟩)
  · simp only [ops, List.mem_cons, reduceCtorEq, Op.edge.injEq, List.not_mem_nil, or_false, false_or] at hm
    rcases hm with ⟨-, -, rfl, -⟩ | ⟨-, -, rfl, -⟩ | ⟨-, -, rfl, -⟩ | ⟨-, -, rfl, -⟩ <;> decide +kernel
  · simp only [ops, List.mem_cons, reduceCtorEq, Op.node.injEq, List.not_mem_nil, or_false] at hm
    rcases hm with ⟨-, -, rfl, rfl⟩ | ⟨-, -, rfl, rfl⟩ | ⟨-, -, rfl, rfl⟩ | ⟨-, -, rfl, rfl⟩
    · simp at hk
    · simp at hk
    · simp at hk
    · have : (["All"].filter (· ≠ "")) = ["All"] := by decide
      rw [this] at hf
      simp only [List.cons.injEq] at hf
      rw [← hf.1]; decide +kernel

theorem infix_dec {k t : List Char} (h : has k t = false) : ¬ k <:+: t := by
  rw [← has_iff, h]; decide

theorem usual80 : Usual "{dst_ports:80}" := by
  right
  have e : items "{dst_ports:80}" = ["dst_ports:80".toList] := by decide +kernel
  rw [e]
  intro i hi
  rw [List.mem_singleton] at hi
  subst hi
  refine ⟨fun h => absurd h (infix_dec (by decide +kernel)), fun _ => ⟨"dst_ports".toList, "80".toList, by decide +kernel, by decide +kernel, ?_, '8', ['0'], by decide +kernel, by decide⟩⟩
  decide +kernel

theorem usual443 : Usual "{dst_ports:80,443}" := by
  right
  have e : items "{dst_ports:80,443}" = ["dst_ports:80".toList, "443".toList] := by decide +kernel
  rw [e]
  intro i hi
  simp only [List.mem_cons, List.not_mem_nil, or_false] at hi
  rcases hi with rfl | rfl
  · refine ⟨fun h => absurd h (infix_dec (by decide +kernel)), fun _ => ⟨"dst_ports".toList, "80".toList, by decide +kernel, by decide +kernel, ?_, '8', ['0'], by decide +kernel, by decide⟩⟩
    decide +kernel
  · exact ⟨fun h => absurd h (infix_dec (by decide +kernel)), fun h => absurd h (infix_dec (by decide +kernel))⟩

theorem usualUdp : Usual "{protocols:UDP,dst_ports:5300-5400}" := by
  right
  have e : items "{protocols:UDP,dst_ports:5300-5400}" = ["protocols:UDP".toList, "dst_ports:5300-5400".toList] := by decide +kernel
  rw [e]
  intro i hi
  simp only [List.mem_cons, List.not_mem_nil, or_false] at hi
  rcases hi with rfl | rfl
  · exact ⟨fun _ => ⟨"protocols".toList, "UDP".toList, by decide +kernel, by decide +kernel, by decide +kernel, by decide +kernel, ['U', 'D'], 'P', by decide +kernel, by decide⟩,
      fun h => absurd h (infix_dec (by decide +kernel))⟩
  · refine ⟨fun h => absurd h (infix_dec (by decide +kernel)), fun _ => ⟨"dst_ports".toList, "5300-5400".toList, by decide +kernel, by decide +kernel, ?_, '5', "300-5400".toList, by decide +kernel, by decide⟩⟩
    decide +kernel

theorem usual (l : String) (h : Used ops l) : Usual l := by
  have := used l h
  simp only [List.mem_cons, List.not_mem_nil, or_false] at this
  rcases this with rfl | rfl | rfl | rfl
  · exact .inl rfl
  · exact usual80
  · exact usual443
  · exact usualUdp

theorem stands80 : Stands shown "tcp80b" "{dst_ports:80}" := .inl ⟨_, List.mem_cons_self, rfl⟩
theorem standsUdp : Stands shown "udp5300" "{protocols:UDP,dst_ports:5300-5400}" := .inl ⟨⟨"c", "a", some ("udp5300", "{protocols:UDP,dst_ports:5300-5400}"), true, false⟩, by decide +kernel, rfl⟩
theorem standsAll : Stands shown "All" "All" := .inr ⟨"cluster_dev_namespace", "clique_1", .clique, by decide +kernel⟩

example := C69_legend_partial false ops shown shown_eq usual "tcp80b" "{dst_ports:80}" stands80
example := C69_legend_partial false ops shown shown_eq usual "All" "All" standsAll
example := C69_same_partial false ops shown shown_eq usual _ _ _ _ stands80 standsUdp
example := C69_rows false ops shown shown_eq
example := C69_boxes false ops shown shown_eq
example : (drawing false ops).isSome := by
  cases h : build false ops with
  | none => exact absurd h (by decide +kernel)
  | some g => exact C69_answers_partial false ops g h usual

theorem oneKind : OneKind ops := by
  rintro name k k' ⟨s, l, h⟩ ⟨s', l', h'⟩
  simp only [ops, List.mem_cons, reduceCtorEq, Op.node.injEq, List.not_mem_nil, or_false] at h h'
  rcases h with ⟨-, rfl, rfl, -⟩ | ⟨-, rfl, rfl, -⟩ | ⟨-, rfl, rfl, -⟩ | ⟨-, rfl, rfl, -⟩ <;>
    rcases h' with ⟨-, e, rfl, -⟩ | ⟨-, e, rfl, -⟩ | ⟨-, e, rfl, -⟩ | ⟨-, e, rfl, -⟩ <;> first | rfl | exact absurd e (by decide)

example := C69_arrows_partial false ops shown shown_eq oneKind

/-- The same graph, flat and with edges in another order. -/
def ops' : List Op := ops.take 4 ++ (ops.drop 4).reverse

example : ∃ d', drawing true ops' = some d' ∧ d'.legend = shown.legend := by
  cases h : drawing true ops' with
  | none => exact absurd h (by decide +kernel)
  | some d' =>
    refine ⟨d', rfl, ?_⟩
    have hp : ∀ op, op ∈ ops' ↔ op ∈ ops := by
      intro op
      conv => rhs; rw [← List.take_append_drop 4 ops]
      simp only [ops', List.mem_append, List.mem_reverse]
    exact (C69_order true false ops' ops d' shown h shown_eq (fun l => by simp only [Used, hp])).1

example : "tcp80".toList <+: "tcp80b".toList :=
  C69_port false ops shown shown_eq "tcp80b" "{dst_ports:80}" stands80 (by simp [shown]) "80".toList [] [] (by decide +kernel) (.inl rfl)
    (by
      have e : items "{dst_ports:80}" = ["dst_ports:80".toList] := by decide +kernel
      rw [e]
      intro i hi
      rw [List.mem_singleton] at hi
      subst hi
      exact infix_dec (by decide +kernel))
    ⟨by decide, by decide +kernel⟩ (.inl rfl)

example : "udp5300".toList <+: "udp5300".toList :=
  C69_protocol_port false ops shown shown_eq "udp5300" "{protocols:UDP,dst_ports:5300-5400}" standsUdp (by simp [shown]) "UDP".toList
    "5300".toList "-5400".toList [] (by decide +kernel) (.inl rfl) ⟨by decide, by decide, by decide⟩ (infix_dec (by decide +kernel))
    ⟨by decide, by decide +kernel⟩ (.inr ⟨"5400".toList, by decide +kernel, by decide +kernel⟩)

example : cluster "kube-system" ≠ cluster "kube" := fun h => absurd (C69_clusters "kube-system" "kube" (by decide) (by decide) h) (by decide)

/-! ### What the code does not meet -/

/-- Names of protocols that end in small letters: the text of one label is that of another (`Usual` is
needed). -/
example : (drawing false [.node "" "a" .pod ["a"], .edge "a" "a" "{protocols:A}" true, .edge "a" "a" "{protocols:A,src_ports:1}" true,
    .edge "a" "a" "{protocols:Aa}" true]).map (fun d => d.arrows.map (·.text)) =
    some [some ("Ab", "{protocols:A}"), some ("Aa", "{protocols:A,src_ports:1}"), some ("Aa", "{protocols:Aa}")] := by decide +kernel

/-- A second path with `protocols` in it: the graph is not drawn (an `IndexError`). -/
theorem C69_crash_wrong : ∃ ops g, build false ops = some g ∧ Used ops "{dst_ports:80,paths:/a, /protocols}" ∧ drawing false ops = none :=
  ⟨[.node "default" "a" .pod ["a"], .node "default" "b" .pod ["b"], .edge "a" "b" "{dst_ports:80,paths:/a, /protocols}" true],
    (build false [.node "default" "a" .pod ["a"], .node "default" "b" .pod ["b"], .edge "a" "b" "{dst_ports:80,paths:/a, /protocols}" true]).get
      (by decide +kernel), by simp, .inl ⟨"a", "b", "{dst_ports:80,paths:/a, /protocols}", true, by simp, by decide +kernel⟩, by decide +kernel⟩

/-- Everything but a port of TCP: the arrow says `tcp80`, the port that is not allowed. -/
theorem C69_all_but_wrong : ∃ ops d, drawing false ops = some d ∧ Stands d "tcp80" "All but {protocols:TCP,dst_ports:80}" := by
  refine ⟨[.node "default" "a" .pod ["a"], .node "default" "b" .pod ["b"], .edge "a" "b" "All but {protocols:TCP,dst_ports:80}" true],
    { legend := some [⟨"tcp80", "All but {protocols:TCP,dst_por...", "All but {protocols:TCP,dst_ports:80}"⟩],
      boxes := [("cluster_default_namespace", .cells "a" .pod ["a"]), ("cluster_default_namespace", .cells "b" .pod ["b"])],
      arrows := [⟨"a", "b", some ("tcp80", "All but {protocols:TCP,dst_ports:80}"), true, false⟩] }, by decide +kernel,
    .inl ⟨_, List.mem_cons_self, rfl⟩⟩

end Verif.Legend.Ex
