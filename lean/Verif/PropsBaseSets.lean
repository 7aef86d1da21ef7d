import Verif.BaseSets
import Verif.PropsInterval
/-!
Property theorems C19 (port sets) and C20 (protocol and method sets).
-/
namespace Verif
open ISet

/-! ### C19 -/

/-- A history of a port set. -/
inductive PortExpr
  | empty | all
  | addPort (e : PortExpr) (p : Port) | removePort (e : PortExpr) (p : Port)
  | addRange (e : PortExpr) (lo hi : Int) | addPorts (e : PortExpr) (s : ISet)
  | or (e f : PortExpr) | sub (e f : PortExpr)

namespace PortExpr

/-- The object the history builds. -/
def eval : PortExpr → PortSet
  | empty => .make false
  | all => .make true
  | addPort e p => e.eval.addPort p
  | removePort e p => e.eval.removePort p
  | addRange e lo hi => e.eval.addPortRange lo hi
  | addPorts e s => e.eval.addPorts s
  | or e f => e.eval.or f.eval
  | sub e f => e.eval.sub f.eval

/-- Ranges are not inverted and added interval sets are legal objects. -/
def Legal : PortExpr → Prop
  | empty | all => True
  | addPort e _ | removePort e _ => e.Legal
  | addRange e lo hi => e.Legal ∧ lo ≤ hi
  | addPorts e s => e.Legal ∧ Reach s
  | or e f | sub e f => e.Legal ∧ f.Legal

/-- Specification: the port numbers that were added and not removed since. -/
def HasNum (x : Int) : PortExpr → Prop
  | empty => False
  | all => 1 ≤ x ∧ x ≤ 65535
  | addPort e (.num n) => HasNum x e ∨ x = n
  | addPort e (.name _) => HasNum x e
  | removePort e (.num n) => HasNum x e ∧ x ≠ n
  | removePort e (.name _) => HasNum x e
  | addRange e lo hi => HasNum x e ∨ (lo ≤ x ∧ x ≤ hi)
  | addPorts e s => HasNum x e ∨ Mem x s
  | or e f => HasNum x e ∨ HasNum x f
  | sub e f => HasNum x e ∧ ¬ HasNum x f

/-- Specification: what the history says about a name: included (`some true`), excluded (`some false`)
or nothing; the last operation that adds or removes it decides. -/
def status (x : String) : PortExpr → Option Bool
  | empty | all => none
  | addPort e (.name s) => if x = s then some true else status x e
  | addPort e (.num _) => status x e
  | removePort e (.name s) => if x = s then some false else status x e
  | removePort e (.num _) => status x e
  | addRange e _ _ | addPorts e _ => status x e
  | or e f => if status x f = some true then some true else status x e
  | sub e f => if status x f = some true then some false else status x e

theorem allPorts_eq : PortSet.allPorts = [⟨1, 65535⟩] := by decide +kernel

theorem reach_ports (e : PortExpr) (h : e.Legal) : Reach e.eval.ports := by
  induction e with
  | empty => exact .empty
  | all =>
    simp only [eval, PortSet.make, if_true, PortSet.allPorts, single]
    exact .addInterval _ .empty (by decide)
  | addPort e p ih =>
    cases p with
    | num n => exact .addInterval _ (ih h) (Int.le_refl _)
    | name s => exact ih h
  | removePort e p ih =>
    cases p with
    | num n => exact .addHole _ (ih h) (Int.le_refl _)
    | name s => exact ih h
  | addRange e lo hi ih => exact .addInterval _ (ih h.1) h.2
  | addPorts e s ih => exact .union (ih h.1) h.2
  | or e f ihe ihf => exact .union (ihe h.1) (ihf h.2)
  | sub e f ihe ihf => exact .diff (ihe h.1) (ihf h.2)

end PortExpr
open PortExpr

/-- C19: whatever the history, a port set holds exactly the port numbers that were added and not removed
since; `PortSet(True)` holds 1..65535. -/
theorem C19_numbers_exact (e : PortExpr) (h : e.Legal) (x : Int) : Mem x e.eval.ports ↔ HasNum x e := by
  induction e with
  | empty => simp [eval, PortSet.make, HasNum, not_mem_nil]
  | all => simp [eval, PortSet.make, HasNum, allPorts_eq, mem_singleton, Iv.Mem]
  | addPort e p ih =>
    cases p with
    | num n =>
      simp only [eval, PortSet.addPort, HasNum]
      rw [C01_addInterval_exact (reach_ports e h) ⟨n, n⟩ (Int.le_refl _), ih h]
      simp only
      constructor <;> rintro (hx | hx) <;> first | exact Or.inl hx | (right; omega)
    | name s => exact ih h
  | removePort e p ih =>
    cases p with
    | num n =>
      simp only [eval, PortSet.removePort, HasNum]
      rw [C03_addHole_exact (reach_ports e h) ⟨n, n⟩ (Int.le_refl _), ih h]
      simp only
      constructor <;> rintro ⟨h1, h2⟩ <;> exact ⟨h1, by omega⟩
    | name s => exact ih h
  | addRange e lo hi ih =>
    simp only [eval, PortSet.addPortRange, HasNum]
    rw [C01_addInterval_exact (reach_ports e h.1) ⟨lo, hi⟩ h.2, ih h.1]
  | addPorts e s ih =>
    simp only [eval, PortSet.addPorts, HasNum]
    rw [C01_union_exact (reach_ports e h.1) h.2, ih h.1]
  | or e f ihe ihf =>
    simp only [eval, PortSet.or, HasNum]
    rw [C01_union_exact (reach_ports e h.1) (reach_ports f h.2), ihe h.1, ihf h.2]
  | sub e f ihe ihf =>
    simp only [eval, PortSet.sub, HasNum]
    rw [C03_diff_exact (reach_ports e h.1) (reach_ports f h.2), ihe h.1, ihf h.2]

/-- C19: a name is included, excluded or neither according to the last operation on it. -/
theorem C19_names_exact (e : PortExpr) (x : String) :
    (x ∈ e.eval.named ↔ status x e = some true) ∧ (x ∈ e.eval.excluded ↔ status x e = some false) := by
  induction e with
  | empty | all => simp [eval, PortSet.make, status]
  | addPort e p ih =>
    cases p with
    | num n => exact ih
    | name s =>
      simp only [eval, PortSet.addPort, status, Finset.mem_insert, Finset.mem_erase]
      by_cases hx : x = s <;> simp [hx, ih]
  | removePort e p ih =>
    cases p with
    | num n => exact ih
    | name s =>
      simp only [eval, PortSet.removePort, status, Finset.mem_insert, Finset.mem_erase]
      by_cases hx : x = s <;> simp [hx, ih]
  | addRange e lo hi ih => exact ih
  | addPorts e s ih => exact ih
  | or e f ihe ihf =>
    simp only [eval, PortSet.or, status, Finset.mem_union, Finset.mem_sdiff, ihe, ihf]
    by_cases hf : status x f = some true <;> simp [hf]
  | sub e f ihe ihf =>
    simp only [eval, PortSet.sub, status, Finset.mem_union, Finset.mem_sdiff, ihe, ihf]
    by_cases hf : status x f = some true <;> simp [hf]

/-- C19: two port sets are equal exactly when they hold the same numbers and agree on all names. -/
theorem C19_eq_extensional (e f : PortExpr) (he : e.Legal) (hf : f.Legal) :
    PortSet.eq e.eval f.eval = true ↔ (∀ x, HasNum x e ↔ HasNum x f) ∧ ∀ x, status x e = status x f := by
  simp only [PortSet.eq, Bool.and_eq_true, decide_eq_true_eq]
  rw [C05_eq_extensional (reach_ports e he) (reach_ports f hf), Finset.ext_iff, Finset.ext_iff]
  constructor
  · rintro ⟨⟨h1, h2⟩, h3⟩
    refine ⟨fun x => by rw [← C19_numbers_exact e he, ← C19_numbers_exact f hf]; exact h1 x, fun x => ?_⟩
    have a := h2 x; have b := h3 x
    rw [(C19_names_exact e x).1, (C19_names_exact f x).1] at a
    rw [(C19_names_exact e x).2, (C19_names_exact f x).2] at b
    rcases hs : status x e with _ | _ | _ <;> rcases ht : status x f with _ | _ | _ <;> simp [hs, ht] at a b <;> rfl
  · rintro ⟨h1, h2⟩
    refine ⟨⟨fun x => by rw [C19_numbers_exact e he, C19_numbers_exact f hf]; exact h1 x, fun x => ?_⟩, fun x => ?_⟩
    · rw [(C19_names_exact e x).1, (C19_names_exact f x).1, h2]
    · rw [(C19_names_exact e x).2, (C19_names_exact f x).2, h2]

/-- C19: truth value, emptiness and fullness. -/
theorem C19_bool_exact (e : PortExpr) (h : e.Legal) :
    (e.eval.toBool = true ↔ (∃ x, HasNum x e) ∨ ∃ x, status x e = some true) ∧
    (e.eval.isEmpty = true ↔ (∀ x, ¬ HasNum x e) ∧ ∀ x, status x e ≠ some true) ∧
    (e.eval.isAll = true ↔ ∀ x, HasNum x e ↔ (1 ≤ x ∧ x ≤ 65535)) := by
  have ht : truthy e.eval.ports = true ↔ ∃ x, HasNum x e := by
    rw [C07_truthy_exact (reach_ports e h)]; simp only [C19_numbers_exact e h]
  have hn : e.eval.named = ∅ ↔ ∀ x, status x e ≠ some true := by
    simp only [Finset.eq_empty_iff_forall_notMem, (C19_names_exact e _).1, ne_eq]
  refine ⟨?_, ?_, ?_⟩
  · simp only [PortSet.toBool, Bool.or_eq_true, ht, decide_eq_true_eq, ne_eq, hn]
    simp
  · simp only [PortSet.isEmpty, Bool.and_eq_true, Bool.not_eq_true', ← Bool.not_eq_true, ht, decide_eq_true_eq, hn]
    simp
  · simp only [PortSet.isAll, decide_eq_true_eq]
    have hr : Reach PortSet.allPorts := by
      rw [PortSet.allPorts, single]; exact .addInterval _ .empty (by decide)
    rw [C05_eq_extensional (reach_ports e h) hr]
    simp only [C19_numbers_exact e h, allPorts_eq, mem_singleton, Iv.Mem]

/-- Non-vacuity: a history with numbers, a range, an interval set, names and exclusions. -/
def portDemo : PortExpr :=
  .sub (.or (.addPort (.addRange .empty 80 90) (.name "web")) (.removePort (.addPorts .empty [⟨100, 200⟩]) (.num 150)))
    (.addPort (.addPort .empty (.num 85)) (.name "web"))
example : portDemo.Legal := by
  refine ⟨⟨⟨trivial, by decide⟩, ⟨trivial, ?_⟩⟩, trivial⟩
  exact C04_canonical_reachable (by decide)
example : portDemo.eval.ports = [⟨80, 84⟩, ⟨86, 90⟩, ⟨100, 149⟩, ⟨151, 200⟩] ∧ portDemo.eval.named = ∅ ∧ portDemo.eval.excluded = {"web"} := by
  decide +kernel

/-- C19: union is not symmetric on exclusions: the right operand's excluded names are forgotten, so
`ports 80 | (all ports except the one named web)` and the reverse differ, and the former contains the
excluded port. -/
theorem C19_union_forgets_exclusions :
    ∃ e f : PortExpr, e.Legal ∧ f.Legal ∧ PortSet.eq (PortExpr.or e f).eval (PortExpr.or f e).eval = false ∧
      status "web" f = some false ∧ status "web" e = none ∧ status "web" (.or e f) = none :=
  ⟨.addPort .empty (.num 80), .removePort .all (.name "web"), trivial, trivial, by decide +kernel, rfl, rfl, rfl⟩

/-! ### C20: protocols -/

namespace ProtocolSet

/-- A history of a protocol set; failing steps are exceptions. -/
inductive Expr
  | make (all : Bool) | add (e : Expr) (p : ProtoArg) | remove (e : Expr) (p : ProtoArg) | set (e f : Expr)
  | or (e f : Expr) | and (e f : Expr) | sub (e f : Expr)

/-- The object the history builds; `none` if a step raises an exception. -/
def Expr.eval : Expr → Option ISet
  | .make b => some (ProtocolSet.make b)
  | .add e p => e.eval.bind (ProtocolSet.add · p)
  | .remove e p => e.eval.bind (ProtocolSet.remove · p)
  | .set e f => e.eval.bind fun s => f.eval.map (setProtocols s)
  | .or e f => e.eval.bind fun s => f.eval.map (union s)
  | .and e f => e.eval.bind fun s => f.eval.map (inter s)
  | .sub e f => e.eval.bind fun s => f.eval.map (diff s)

/-- Specification: the protocol numbers in the set. -/
def Expr.Has (n : Int) : Expr → Prop
  | .make b => b = true ∧ 0 ≤ n ∧ n ≤ 255
  | .add e p => e.Has n ∨ p.number = some n
  | .remove e p => e.Has n ∧ p.number ≠ some n
  | .set e f | .or e f => e.Has n ∨ f.Has n
  | .and e f => e.Has n ∧ f.Has n
  | .sub e f => e.Has n ∧ ¬ f.Has n

theorem mem_pyRange (a b n : Int) : n ∈ pyRange a b ↔ a ≤ n ∧ n ≤ b := by
  simp only [pyRange, List.mem_map, List.mem_range]
  constructor
  · rintro ⟨i, hi, rfl⟩; omega
  · intro h; exact ⟨(n - a).toNat, by omega, by omega⟩

/-- Printing a number and parsing the name gives the number back; checked over the whole domain. -/
theorem number_name : ∀ n ∈ pyRange 0 255, (Proto.getName n).bind Proto.getNumber = some n := by decide +kernel

theorem number_of_name {n : Int} {s : String} (h : Proto.getName n = some s) : Proto.getNumber s = some n := by
  have hv : 0 ≤ n ∧ n ≤ 255 := by
    by_contra hc
    have : Proto.isValid n = false := by
      simp only [Proto.isValid, Bool.and_eq_false_iff, decide_eq_false_iff_not]; omega
    simp [Proto.getName, this] at h
  have := number_name n ((mem_pyRange 0 255 n).2 hv)
  rw [h] at this; exact this

theorem getName_valid {n : Int} (h : 0 ≤ n ∧ n ≤ 255) : ∃ s, Proto.getName n = some s := by
  have : Proto.isValid n = true := by simp [Proto.isValid, h.1, h.2]
  exact ⟨(Proto.numberToName.lookup n).getD (toString n.toNat), by simp [Proto.getName, this]⟩

end ProtocolSet
open ProtocolSet

/-- C20: names and numbers are interchangeable: every protocol number has a name, and the name resolves
to that number. -/
theorem C20_name_number (n : Int) (h : 0 ≤ n ∧ n ≤ 255) : ∃ s, Proto.getName n = some s ∧ Proto.getNumber s = some n := by
  obtain ⟨s, hs⟩ := getName_valid h
  exact ⟨s, hs, number_of_name hs⟩

/-- C20: a resolved name is always a legal protocol number. -/
theorem C20_number_valid (s : String) (n : Int) (h : Proto.getNumber s = some n) : 0 ≤ n ∧ n ≤ 255 := by
  unfold Proto.getNumber at h
  split at h
  · rename_i m hm
    cases h
    have hm' := List.lookup_eq_some_iff.1 hm
    obtain ⟨l1, l2, hl, _⟩ := hm'
    have hin : (s, n) ∈ Proto.nameToNumber := by rw [hl]; simp
    have hall : ∀ q ∈ Proto.nameToNumber, 0 ≤ q.2 ∧ q.2 ≤ 255 := by decide +kernel
    exact hall _ hin
  · split at h
    · cases h
    · split at h
      · cases h
      · rename_i hv
        cases h
        simp [Proto.isValid] at hv
        exact hv

/-- C20: the sets built by any history that raises no exception are canonical, within 0..255, and hold
exactly the protocols added and not removed, whether given by name or by number. -/
theorem C20_protocols_exact (e : Expr) (s : ISet) (h : e.eval = some s) :
    Reach s ∧ (∀ n, Mem n s → 0 ≤ n ∧ n ≤ 255) ∧ ∀ n, Mem n s ↔ e.Has n := by
  induction e generalizing s with
  | make b =>
    simp only [Expr.eval, Option.some.injEq] at h; subst h
    cases b
    · exact ⟨.empty, fun n hn => absurd hn not_mem_nil, fun n => by simp [ProtocolSet.make, Expr.Has, not_mem_nil]⟩
    · have hm : ∀ n, Mem n (ProtocolSet.make true) ↔ 0 ≤ n ∧ n ≤ 255 := by
        intro n; simp [ProtocolSet.make, addInterval, mem_singleton, Iv.Mem]
      exact ⟨.addInterval _ .empty (by decide), fun n hn => (hm n).1 hn, fun n => by rw [hm]; simp [Expr.Has]⟩
  | add e p ih =>
    simp only [Expr.eval, Option.bind_eq_some_iff] at h
    obtain ⟨s', he, h⟩ := h
    obtain ⟨hr, hb, hm⟩ := ih s' he
    simp only [ProtocolSet.add, Option.bind_eq_some_iff] at h
    obtain ⟨k, hk, h⟩ := h
    split at h
    · rename_i hv
      cases h
      have hx := fun n => C01_addInterval_exact hr ⟨k, k⟩ (Int.le_refl _) n
      have hv' : 0 ≤ k ∧ k ≤ 255 := by simpa [Proto.isValid] using hv
      refine ⟨.addInterval _ hr (Int.le_refl _), fun n hn => ?_, fun n => ?_⟩
      · rcases (hx n).1 hn with h' | h'
        · exact hb n h'
        · simp only at h'; omega
      · rw [hx, hm, Expr.Has, hk]
        simp only [Option.some.injEq]
        constructor <;> rintro (h | h) <;> first | exact Or.inl h | (right; omega)
    · cases h
  | remove e p ih =>
    simp only [Expr.eval, Option.bind_eq_some_iff] at h
    obtain ⟨s', he, h⟩ := h
    obtain ⟨hr, hb, hm⟩ := ih s' he
    simp only [ProtocolSet.remove, Option.bind_eq_some_iff] at h
    obtain ⟨k, hk, h⟩ := h
    split at h
    · cases h
      have hx := fun n => C03_addHole_exact hr ⟨k, k⟩ (Int.le_refl _) n
      refine ⟨.addHole _ hr (Int.le_refl _), fun n hn => hb n ((hx n).1 hn).1, fun n => ?_⟩
      rw [hx, hm, Expr.Has, hk]
      simp only [ne_eq, Option.some.injEq]
      constructor <;> rintro ⟨h1, h2⟩ <;> exact ⟨h1, by omega⟩
    · cases h
  | set e f ihe ihf =>
    simp only [Expr.eval, Option.bind_eq_some_iff, Option.map_eq_some_iff] at h
    obtain ⟨s1, h1, s2, h2, rfl⟩ := h
    obtain ⟨r1, b1, m1⟩ := ihe s1 h1
    obtain ⟨r2, b2, m2⟩ := ihf s2 h2
    have hx := fun n => C01_union_exact r1 r2 n
    refine ⟨.union r1 r2, fun n hn => ?_, fun n => ?_⟩
    · rcases (hx n).1 hn with h | h
      · exact b1 n h
      · exact b2 n h
    · exact (hx n).trans (by rw [m1, m2, Expr.Has])
  | or e f ihe ihf =>
    simp only [Expr.eval, Option.bind_eq_some_iff, Option.map_eq_some_iff] at h
    obtain ⟨s1, h1, s2, h2, rfl⟩ := h
    obtain ⟨r1, b1, m1⟩ := ihe s1 h1
    obtain ⟨r2, b2, m2⟩ := ihf s2 h2
    have hx := fun n => C01_union_exact r1 r2 n
    refine ⟨.union r1 r2, fun n hn => ?_, fun n => ?_⟩
    · rcases (hx n).1 hn with h | h
      · exact b1 n h
      · exact b2 n h
    · rw [hx, m1, m2, Expr.Has]
  | and e f ihe ihf =>
    simp only [Expr.eval, Option.bind_eq_some_iff, Option.map_eq_some_iff] at h
    obtain ⟨s1, h1, s2, h2, rfl⟩ := h
    obtain ⟨r1, b1, m1⟩ := ihe s1 h1
    obtain ⟨r2, b2, m2⟩ := ihf s2 h2
    have hx := fun n => C02_inter_exact r1 r2 n
    exact ⟨.inter r1 r2, fun n hn => b1 n ((hx n).1 hn).1, fun n => by rw [hx, m1, m2, Expr.Has]⟩
  | sub e f ihe ihf =>
    simp only [Expr.eval, Option.bind_eq_some_iff, Option.map_eq_some_iff] at h
    obtain ⟨s1, h1, s2, h2, rfl⟩ := h
    obtain ⟨r1, b1, m1⟩ := ihe s1 h1
    obtain ⟨r2, b2, m2⟩ := ihf s2 h2
    have hx := fun n => C03_diff_exact r1 r2 n
    exact ⟨.diff r1 r2, fun n hn => b1 n ((hx n).1 hn).1, fun n => by rw [hx, m1, m2, Expr.Has]⟩

/-- C20: a history raises an exception only if it adds or removes something that is no protocol. -/
theorem C20_protocols_no_exception (e : Expr) (p : ProtoArg) (s : ISet) (h : e.eval = some s) :
    ((Expr.add e p).eval.isSome = true ↔ ∃ n, p.number = some n ∧ 0 ≤ n ∧ n ≤ 255) ∧
    ((Expr.remove e p).eval.isSome = true ↔ ∃ n, p.number = some n ∧ 0 ≤ n ∧ n ≤ 255) := by
  simp only [Expr.eval, h, Option.bind_some, ProtocolSet.add, ProtocolSet.remove]
  cases p.number with
  | none => simp
  | some n => by_cases hv : 0 ≤ n ∧ n ≤ 255 <;> simp [Proto.isValid, hv]

/-- C20: asking for a protocol by name or by number is membership. -/
theorem C20_contains_exact (e : Expr) (s : ISet) (h : e.eval = some s) (p : ProtoArg) (n : Int) (hp : p.number = some n) :
    ProtocolSet.contains s p = some true ↔ e.Has n := by
  obtain ⟨hr, _, hm⟩ := C20_protocols_exact e s h
  simp only [ProtocolSet.contains, hp, Option.map_some, Option.some.injEq]
  rw [C06_contains_exact hr, hm]

/-- C20: `get_non_tcp_protocols` is every protocol except 6. -/
theorem C20_nonTcp_exact : ∃ s, ProtocolSet.nonTcp = some s ∧ ∀ n, Mem n s ↔ (0 ≤ n ∧ n ≤ 255) ∧ n ≠ 6 := by
  have h6 : (ProtoArg.name "TCP").number = some 6 := by decide +kernel
  have hs : ProtocolSet.nonTcp.isSome = true := by decide +kernel
  obtain ⟨s, hs⟩ := Option.isSome_iff_exists.1 hs
  refine ⟨s, hs, fun n => ?_⟩
  have := (C20_protocols_exact (.remove (.make true) (.name "TCP")) s (by simpa [Expr.eval, ProtocolSet.nonTcp] using hs)).2.2 n
  rw [this, Expr.Has, Expr.Has, h6]
  simp only [true_and, ne_eq, Option.some.injEq]
  constructor <;> rintro ⟨h1, h2⟩ <;> exact ⟨h1, fun h => h2 h.symm⟩

/-- Specification: the protocol numbers a printed text denotes. -/
def Printed.Denotes (resolve : String → Option Int) (max : Int) (n : Int) : Printed → Prop
  | .star => 0 ≤ n ∧ n ≤ max
  | .empty => False
  | .list l => ∃ s ∈ l, resolve s = some n
  | .allBut l => (0 ≤ n ∧ n ≤ max) ∧ ¬ ∃ s ∈ l, resolve s = some n

/-- The printed names of a set denote the set. -/
theorem names_spec (s : ISet) (hb : ∀ n, Mem n s → 0 ≤ n ∧ n ≤ 255) (hr : Reach s) :
    ∃ l, ProtocolSet.names s = some l ∧ ∀ n, (∃ t ∈ l, Proto.getNumber t = some n) ↔ Mem n s := by
  have hc := C04_reachable_canonical hr
  have hall : s.all (fun i => decide (i.s ≥ 0) && decide (i.e ≤ 255)) = true := by
    rw [List.all_eq_true]
    intro i hi
    have h1 := hb i.s ⟨i, hi, Int.le_refl _, hc.1 i hi⟩
    have h2 := hb i.e ⟨i, hi, hc.1 i hi, Int.le_refl _⟩
    simp [h1.1, h2.2]
  have hmem : ∀ n, n ∈ s.flatMap (fun i => pyRange i.s i.e) ↔ Mem n s := by
    intro n; simp only [List.mem_flatMap, mem_pyRange, Mem, Iv.Mem]
  have hex : ∀ l : List Int, (∀ n ∈ l, 0 ≤ n ∧ n ≤ 255) → ∃ t, l.mapM Proto.getName = some t ∧
      ∀ n, (∃ x ∈ t, Proto.getNumber x = some n) ↔ n ∈ l := by
    intro l
    induction l with
    | nil => intro _; exact ⟨[], rfl, by simp⟩
    | cons a l ih =>
      intro h
      obtain ⟨t, ht, hi⟩ := ih (fun n hn => h n (by simp [hn]))
      obtain ⟨x, hx⟩ := getName_valid (h a (by simp))
      refine ⟨x :: t, by simp [List.mapM_cons, hx, ht], fun n => ?_⟩
      simp only [List.mem_cons, exists_eq_or_imp, hi, number_of_name hx, Option.some.injEq]
      constructor <;> rintro (h | h) <;> first | exact Or.inr h | exact Or.inl h.symm
  obtain ⟨l, hl, hd⟩ := hex _ (fun n hn => hb n ((hmem n).1 hn))
  exact ⟨l, by simp only [ProtocolSet.names, hall, if_true]; exact hl, fun n => by rw [hd, hmem]⟩

/-- C20: the printed form of a protocol set, including the complement form, denotes the same set, and
printing never fails. -/
theorem C20_protocols_printed (e : Expr) (s : ISet) (h : e.eval = some s) :
    ∃ p, ProtocolSet.str s = some p ∧ ∀ n, Printed.Denotes Proto.getNumber 255 n p ↔ e.Has n := by
  obtain ⟨hr, hb, hm⟩ := C20_protocols_exact e s h
  have hw : ProtocolSet.whole = [⟨0, 255⟩] := by decide +kernel
  have hwr : Reach ProtocolSet.whole := by
    rw [ProtocolSet.whole, single]; exact .addInterval _ .empty (by decide)
  simp only [← hm]
  unfold ProtocolSet.str
  split
  · rename_i hi
    simp only [isWhole, decide_eq_true_eq] at hi
    subst hi
    exact ⟨.star, rfl, fun n => by rw [hw]; simp [Printed.Denotes, mem_singleton, Iv.Mem]⟩
  · split
    · rename_i ht
      have : ¬ truthy s = true := by simpa using ht
      rw [C07_truthy_exact hr] at this
      exact ⟨.empty, rfl, fun n => ⟨fun h => h.elim, fun h => this ⟨n, h⟩⟩⟩
    · have hx := fun n => C03_diff_exact hwr hr n
      have hwm : ∀ n, Mem n ProtocolSet.whole ↔ 0 ≤ n ∧ n ≤ 255 := fun n => by rw [hw]; simp [mem_singleton, Iv.Mem]
      obtain ⟨l1, e1, d1⟩ := names_spec s hb hr
      obtain ⟨l2, e2, d2⟩ := names_spec (diff ProtocolSet.whole s) (fun n hn => (hwm n).1 ((hx n).1 hn).1) (.diff hwr hr)
      simp only [e1, e2, Option.bind_eq_bind, Option.bind_some]
      split
      · exact ⟨_, rfl, fun n => d1 n⟩
      · refine ⟨_, rfl, fun n => ?_⟩
        simp only [Printed.Denotes, d2, hx, hwm]
        constructor
        · rintro ⟨h1, h2⟩; by_contra hc; exact h2 ⟨h1, hc⟩
        · intro h; exact ⟨hb n h, fun hc => hc.2 h⟩

/-- Non-vacuity: both printed forms occur. -/
example : ((Expr.add (.add (.make false) (.name "TCP")) (.num 61)).eval.bind ProtocolSet.str) = some (.list ["TCP", "61"]) := by decide +kernel
example : ((Expr.remove (.remove (.make true) (.name "TCP")) (.num 17)).eval.bind ProtocolSet.str) = some (.allBut ["TCP", "UDP"]) := by decide +kernel
example : (Expr.add (.make false) (.name "nosuch")).eval = none ∧ (Expr.add (.make false) (.num 256)).eval = none := by decide +kernel
/-- Two names share the number 84, and only one of them is printed. -/
example : Proto.getNumber "TTP" = some 84 ∧ Proto.getNumber "IPTM" = some 84 ∧ Proto.getName 84 = some "IPTM" := by decide +kernel

/-! ### C20: methods -/

namespace MethodSet

/-- A history of a method set. -/
inductive Expr
  | make (all : Bool) | add (e : Expr) (m : String) | addRegex (e : Expr) (r : String → Bool) | set (e f : Expr)
  | or (e f : Expr) | and (e f : Expr) | sub (e f : Expr)

/-- The object the history builds; `none` if a step raises an exception. -/
def Expr.eval : Expr → Option ISet
  | .make b => some (MethodSet.make b)
  | .add e p => e.eval.bind (MethodSet.add · p)
  | .addRegex e r => e.eval.map (MethodSet.addRegex · r)
  | .set e f => e.eval.bind fun s => f.eval.map (setProtocols s)
  | .or e f => e.eval.bind fun s => f.eval.map (union s)
  | .and e f => e.eval.bind fun s => f.eval.map (inter s)
  | .sub e f => e.eval.bind fun s => f.eval.map (diff s)

/-- Specification: the HTTP method `m` is in the set. -/
def Expr.Has (m : String) : Expr → Prop
  | .make b => b = true
  | .add e p => e.Has m ∨ m = p
  | .addRegex e r => e.Has m ∨ r m = true
  | .set e f | .or e f => e.Has m ∨ f.Has m
  | .and e f => e.Has m ∧ f.Has m
  | .sub e f => e.Has m ∧ ¬ f.Has m

theorem nodup : allMethods.Nodup := by decide +kernel

/-- The number of a method. -/
def resolve (m : String) : Option Int := if m ∈ allMethods then some (allMethods.idxOf m : Nat) else none

theorem resolve_inj {m m' : String} {n : Int} (h : resolve m = some n) (h' : resolve m' = some n) : m = m' := by
  unfold resolve at h h'
  split at h <;> split at h' <;> first | cases h; done | cases h'; done | skip
  rename_i hm hm'
  simp only [Option.some.injEq] at h h'
  have : allMethods.idxOf m = allMethods.idxOf m' := by omega
  exact (List.idxOf_inj hm).1 this

theorem resolve_get {n : Nat} (h : n < allMethods.length) : resolve (allMethods[n]!) = some (n : Int) := by
  have : ∀ n < allMethods.length, resolve (allMethods[n]!) = some (n : Int) := by decide +kernel
  exact this n h

theorem resolve_valid {m : String} {n : Int} (h : resolve m = some n) : 0 ≤ n ∧ n ≤ 8 ∧ m ∈ allMethods := by
  unfold resolve at h
  split at h
  · rename_i hm
    simp only [Option.some.injEq] at h
    have h1 := List.idxOf_lt_length_of_mem hm
    have h2 : allMethods.length = 9 := by decide
    exact ⟨by omega, by omega, hm⟩
  · cases h

theorem resolve_ex {n : Int} (h : 0 ≤ n ∧ n ≤ 8) : ∃ m, resolve m = some n := by
  have h2 : allMethods.length = 9 := by decide
  exact ⟨_, by have := resolve_get (n := n.toNat) (by omega); rwa [show ((n.toNat : Nat) : Int) = n by omega] at this⟩

theorem addRegex_spec (s : ISet) (hr : Reach s) (r : String → Bool) :
    Reach (MethodSet.addRegex s r) ∧ ∀ n, Mem n (MethodSet.addRegex s r) ↔ Mem n s ∨ ∃ m, resolve m = some n ∧ r m = true := by
  have key : ∀ (l : List (String × Nat)) (s : ISet), Reach s →
      Reach (l.foldl (fun s mi => if r mi.1 then addInterval s ⟨(mi.2 : Nat), (mi.2 : Nat)⟩ else s) s) ∧
      ∀ n, Mem n (l.foldl (fun s mi => if r mi.1 then addInterval s ⟨(mi.2 : Nat), (mi.2 : Nat)⟩ else s) s) ↔
        Mem n s ∨ ∃ mi ∈ l, (mi.2 : Int) = n ∧ r mi.1 = true := by
    intro l
    induction l with
    | nil => intro s hs; exact ⟨hs, by simp⟩
    | cons a l ih =>
      intro s hs
      simp only [List.foldl_cons]
      split
      · rename_i ha
        obtain ⟨h1, h2⟩ := ih _ (.addInterval ⟨(a.2 : Nat), (a.2 : Nat)⟩ hs (Int.le_refl _))
        refine ⟨h1, fun n => ?_⟩
        rw [h2, C01_addInterval_exact hs _ (Int.le_refl _)]
        simp only [List.mem_cons, exists_eq_or_imp, ha, and_true]
        constructor
        · rintro ((h | h) | h)
          · exact Or.inl h
          · exact Or.inr (Or.inl (by omega))
          · exact Or.inr (Or.inr h)
        · rintro (h | h | h)
          · exact Or.inl (Or.inl h)
          · exact Or.inl (Or.inr (by omega))
          · exact Or.inr h
      · rename_i ha
        obtain ⟨h1, h2⟩ := ih _ hs
        refine ⟨h1, fun n => ?_⟩
        rw [h2]
        simp only [List.mem_cons, exists_eq_or_imp, ha, Bool.false_eq_true, and_false, false_or]
  obtain ⟨h1, h2⟩ := key allMethods.zipIdx s hr
  refine ⟨h1, fun n => ?_⟩
  refine (h2 n).trans (or_congr_right ?_)
  constructor
  · rintro ⟨⟨m, i⟩, hmi, rfl, hrm⟩
    have hg := List.mem_zipIdx hmi
    simp only [Nat.zero_add, Nat.sub_zero] at hg
    refine ⟨m, ?_, hrm⟩
    have := resolve_get hg.2.1
    rwa [show allMethods[i]! = m by rw [hg.2.2]; exact getElem!_pos allMethods i hg.2.1] at this
  · rintro ⟨m, hm, hrm⟩
    obtain ⟨_, _, hmem⟩ := resolve_valid hm
    refine ⟨(m, allMethods.idxOf m), ?_, ?_, hrm⟩
    · rw [List.mk_mem_zipIdx_iff_getElem?]
      exact List.getElem?_idxOf hmem
    · unfold resolve at hm; rw [if_pos hmem] at hm; simpa using hm

end MethodSet
open MethodSet

/-- C20: the sets of methods built by any history that raises no exception hold exactly the methods
added and not removed (`resolve` is the position of a method in the list of the nine methods). -/
theorem C20_methods_exact (e : MethodSet.Expr) (s : ISet) (h : e.eval = some s) :
    Reach s ∧ (∀ n, Mem n s → 0 ≤ n ∧ n ≤ 8) ∧ ∀ m n, resolve m = some n → (Mem n s ↔ e.Has m) := by
  induction e generalizing s with
  | make b =>
    simp only [MethodSet.Expr.eval, Option.some.injEq] at h; subst h
    cases b
    · exact ⟨.empty, fun n hn => absurd hn not_mem_nil, fun m n _ => by simp [MethodSet.make, MethodSet.Expr.Has, not_mem_nil]⟩
    · have hl : (allMethods.length : Int) - 1 = 8 := by decide
      have hle : (0 : Int) ≤ (allMethods.length : Int) - 1 := by decide
      have hm : ∀ n, Mem n (MethodSet.make true) ↔ 0 ≤ n ∧ n ≤ 8 := by
        intro n; simp [MethodSet.make, addInterval, mem_singleton, Iv.Mem, hl]
      refine ⟨.addInterval _ .empty hle, fun n hn => (hm n).1 hn, fun m n hmn => ?_⟩
      obtain ⟨h1, h2, _⟩ := resolve_valid hmn
      rw [hm]; simp [MethodSet.Expr.Has, h1, h2]
  | add e p ih =>
    simp only [MethodSet.Expr.eval, Option.bind_eq_some_iff] at h
    obtain ⟨s', he, h⟩ := h
    obtain ⟨hr, hb, hm⟩ := ih s' he
    simp only [MethodSet.add] at h
    split at h
    · rename_i hv
      cases h
      have hp : p ∈ allMethods := List.idxOf_lt_length_iff.1 hv
      have hrp : resolve p = some ((allMethods.idxOf p : Nat) : Int) := by simp [resolve, hp]
      have hx := fun n => C01_addInterval_exact hr ⟨(allMethods.idxOf p : Nat), (allMethods.idxOf p : Nat)⟩ (Int.le_refl _) n
      refine ⟨.addInterval _ hr (Int.le_refl _), fun n hn => ?_, fun m n hmn => ?_⟩
      · rcases (hx n).1 hn with h' | h'
        · exact hb n h'
        · obtain ⟨h1, h2, _⟩ := resolve_valid hrp
          simp only at h'; omega
      · rw [hx, hm m n hmn, MethodSet.Expr.Has]
        constructor
        · rintro (h | h)
          · exact Or.inl h
          · have hn : ((allMethods.idxOf p : Nat) : Int) = n := by simp only at h; omega
            exact Or.inr (resolve_inj hmn (by rw [hrp, hn]))
        · rintro (h | rfl)
          · exact Or.inl h
          · have hn : ((allMethods.idxOf m : Nat) : Int) = n := by rw [hrp] at hmn; exact Option.some.inj hmn
            right; show _ ≤ _ ∧ _ ≤ _; rw [hn]; exact ⟨Int.le_refl _, Int.le_refl _⟩
    · cases h
  | addRegex e r ih =>
    simp only [MethodSet.Expr.eval, Option.map_eq_some_iff] at h
    obtain ⟨s', he, rfl⟩ := h
    obtain ⟨hr, hb, hm⟩ := ih s' he
    obtain ⟨h1, h2⟩ := addRegex_spec s' hr r
    refine ⟨h1, fun n hn => ?_, fun m n hmn => ?_⟩
    · rcases (h2 n).1 hn with h | ⟨m, hmn, _⟩
      · exact hb n h
      · exact ⟨(resolve_valid hmn).1, (resolve_valid hmn).2.1⟩
    · rw [h2, hm m n hmn, MethodSet.Expr.Has]
      refine or_congr_right ⟨?_, fun h => ⟨m, hmn, h⟩⟩
      rintro ⟨m', hm', hrm⟩
      rwa [resolve_inj hmn hm']
  | set e f ihe ihf =>
    simp only [MethodSet.Expr.eval, Option.bind_eq_some_iff, Option.map_eq_some_iff] at h
    obtain ⟨s1, h1, s2, h2, rfl⟩ := h
    obtain ⟨r1, b1, m1⟩ := ihe s1 h1
    obtain ⟨r2, b2, m2⟩ := ihf s2 h2
    have hx := fun n => C01_union_exact r1 r2 n
    refine ⟨.union r1 r2, fun n hn => ?_, fun m n hmn => ?_⟩
    · rcases (hx n).1 hn with h | h
      · exact b1 n h
      · exact b2 n h
    · exact (hx n).trans (by rw [m1 m n hmn, m2 m n hmn, MethodSet.Expr.Has])
  | or e f ihe ihf =>
    simp only [MethodSet.Expr.eval, Option.bind_eq_some_iff, Option.map_eq_some_iff] at h
    obtain ⟨s1, h1, s2, h2, rfl⟩ := h
    obtain ⟨r1, b1, m1⟩ := ihe s1 h1
    obtain ⟨r2, b2, m2⟩ := ihf s2 h2
    have hx := fun n => C01_union_exact r1 r2 n
    refine ⟨.union r1 r2, fun n hn => ?_, fun m n hmn => ?_⟩
    · rcases (hx n).1 hn with h | h
      · exact b1 n h
      · exact b2 n h
    · rw [hx, m1 m n hmn, m2 m n hmn, MethodSet.Expr.Has]
  | and e f ihe ihf =>
    simp only [MethodSet.Expr.eval, Option.bind_eq_some_iff, Option.map_eq_some_iff] at h
    obtain ⟨s1, h1, s2, h2, rfl⟩ := h
    obtain ⟨r1, b1, m1⟩ := ihe s1 h1
    obtain ⟨r2, b2, m2⟩ := ihf s2 h2
    have hx := fun n => C02_inter_exact r1 r2 n
    exact ⟨.inter r1 r2, fun n hn => b1 n ((hx n).1 hn).1, fun m n hmn => by rw [hx, m1 m n hmn, m2 m n hmn, MethodSet.Expr.Has]⟩
  | sub e f ihe ihf =>
    simp only [MethodSet.Expr.eval, Option.bind_eq_some_iff, Option.map_eq_some_iff] at h
    obtain ⟨s1, h1, s2, h2, rfl⟩ := h
    obtain ⟨r1, b1, m1⟩ := ihe s1 h1
    obtain ⟨r2, b2, m2⟩ := ihf s2 h2
    have hx := fun n => C03_diff_exact r1 r2 n
    exact ⟨.diff r1 r2, fun n hn => b1 n ((hx n).1 hn).1, fun m n hmn => by rw [hx, m1 m n hmn, m2 m n hmn, MethodSet.Expr.Has]⟩

theorem foldl_erase (ns l : List String) (hl : l.Nodup) :
    ∀ x, x ∈ ns.foldl (fun res m => res.erase m) l ↔ x ∈ l ∧ x ∉ ns := by
  induction ns generalizing l with
  | nil => simp
  | cons a ns ih =>
    intro x
    simp only [List.foldl_cons]
    rw [ih _ (hl.erase a), hl.mem_erase_iff, List.mem_cons]
    constructor
    · rintro ⟨⟨h1, h2⟩, h3⟩; exact ⟨h2, by rintro (h | h); exact h1 h; exact h3 h⟩
    · rintro ⟨h1, h2⟩; exact ⟨⟨fun h => h2 (Or.inl h), h1⟩, fun h => h2 (Or.inr h)⟩

theorem method_names_spec (s : ISet) (hb : ∀ n, Mem n s → 0 ≤ n ∧ n ≤ 8) (hr : Reach s) :
    ∃ l, MethodSet.names s = some l ∧ ∀ m, m ∈ l ↔ ∃ n, resolve m = some n ∧ Mem n s := by
  have hc := C04_reachable_canonical hr
  have hlen : allMethods.length = 9 := by decide
  have hall : s.all (fun i => decide (i.s ≥ 0) && decide (i.e < (allMethods.length : Int))) = true := by
    rw [List.all_eq_true]
    intro i hi
    have h1 := hb i.s ⟨i, hi, Int.le_refl _, hc.1 i hi⟩
    have h2 := hb i.e ⟨i, hi, hc.1 i hi, Int.le_refl _⟩
    simp only [Bool.and_eq_true, decide_eq_true_eq]
    omega
  refine ⟨(s.flatMap (fun i => pyRange i.s i.e)).map (fun n => allMethods[n.toNat]!), by simp only [MethodSet.names, hall, if_true], fun m => ?_⟩
  simp only [List.mem_map, List.mem_flatMap, mem_pyRange]
  constructor
  · rintro ⟨n, ⟨i, hi, hn⟩, rfl⟩
    have hv := hb n ⟨i, hi, hn⟩
    refine ⟨n, ?_, ⟨i, hi, hn⟩⟩
    have := resolve_get (n := n.toNat) (by omega)
    rwa [show ((n.toNat : Nat) : Int) = n by omega] at this
  · rintro ⟨n, hmn, i, hi, hn⟩
    have hv := hb n ⟨i, hi, hn⟩
    refine ⟨n, ⟨i, hi, hn⟩, ?_⟩
    have := resolve_get (n := n.toNat) (by omega)
    rw [show ((n.toNat : Nat) : Int) = n by omega] at this
    exact resolve_inj this hmn

/-- Specification: the methods a printed text denotes. -/
def Printed.DenotesMethod (m : String) : Printed → Prop
  | .star => True
  | .empty => False
  | .list l => m ∈ l
  | .allBut l => m ∉ l

/-- C20: the printed form of a method set denotes the same set of methods. -/
theorem C20_methods_printed (e : MethodSet.Expr) (s : ISet) (h : e.eval = some s) :
    ∃ p, MethodSet.str s = some p ∧ ∀ m ∈ allMethods, Printed.DenotesMethod m p ↔ e.Has m := by
  obtain ⟨hr, hb, hm⟩ := C20_methods_exact e s h
  have hres : ∀ m ∈ allMethods, ∃ n, resolve m = some n := fun m hmm => ⟨(allMethods.idxOf m : Nat), by simp [resolve, hmm]⟩
  have hl : (allMethods.length : Int) - 1 = 8 := by decide
  unfold MethodSet.str
  split
  · rename_i hi
    simp only [MethodSet.isWhole, decide_eq_true_eq] at hi
    subst hi
    refine ⟨.star, rfl, fun m hmm => ?_⟩
    obtain ⟨n, hn⟩ := hres m hmm
    have hv := resolve_valid hn
    rw [← hm m n hn]
    simp [Printed.DenotesMethod, MethodSet.whole, single_eq, mem_singleton, Iv.Mem, hl, hv.1, hv.2.1]
  · split
    · rename_i ht
      have : ¬ truthy s = true := by simpa using ht
      rw [C07_truthy_exact hr] at this
      refine ⟨.empty, rfl, fun m hmm => ?_⟩
      obtain ⟨n, hn⟩ := hres m hmm
      rw [← hm m n hn]
      exact ⟨fun h => h.elim, fun h => this ⟨n, h⟩⟩
    · obtain ⟨l, el, hd⟩ := method_names_spec s hb hr
      have hml : ∀ m ∈ allMethods, (m ∈ l ↔ e.Has m) := by
        intro m hmm
        obtain ⟨n, hn⟩ := hres m hmm
        rw [hd, ← hm m n hn]
        constructor
        · rintro ⟨n', hn', h⟩; rw [hn] at hn'; cases hn'; exact h
        · intro h; exact ⟨n, hn, h⟩
      simp only [el, MethodSet.complNames, Option.map_some, Option.bind_eq_bind, Option.bind_some]
      split
      · exact ⟨_, rfl, fun m hmm => hml m hmm⟩
      · refine ⟨_, rfl, fun m hmm => ?_⟩
        simp only [Printed.DenotesMethod]
        rw [foldl_erase l allMethods nodup m, ← hml m hmm]
        simp only [hmm, true_and, not_not]

example : ((MethodSet.Expr.add (.add (.make false) "GET") "PATCH").eval.bind MethodSet.str) = some (.list ["GET", "PATCH"]) := by decide +kernel
example : ((MethodSet.Expr.sub (.make true) (.addRegex (.make false) (fun m => decide (m = "TRACE" ∨ m = "PUT")))).eval.bind MethodSet.str) =
    some (.allBut ["PUT", "TRACE"]) := by decide +kernel
example : (MethodSet.Expr.add (.make false) "get").eval = none := by decide +kernel

end Verif
