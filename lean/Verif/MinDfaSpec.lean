import Verif.MinDfaModel
import Verif.CubeSpec

/-!
# What a program that uses `MinDFA` objects relies on

The library is described by what its operations do to languages; a program by the sequence of its calls.
-/
namespace Verif
namespace MinDfa
variable {F X : Type}

/-- The operations of `greenery` are those of the languages, and (assumption (2) of the class, MinDFA.py
24-26) automata of the same language are equal. -/
structure FsmLib.Lawful (L : FsmLib F X) : Prop where
  acc_or : ∀ f g x, L.acc (L.or f g) x = (L.acc f x || L.acc g x)
  acc_and : ∀ f g x, L.acc (L.and f g) x = (L.acc f x && L.acc g x)
  acc_sub : ∀ f g x, L.acc (L.sub f g) x = (L.acc f x && !L.acc g x)
  empty_iff : ∀ f, L.empty f = true ↔ ∀ x, L.acc f x = false
  subset_iff : ∀ f g, L.subset f g = true ↔ ∀ x, L.acc f x = true → L.acc g x = true
  finite_iff : ∀ f, L.finite f = true ↔ ∃ ws : List X, ∀ x, L.acc f x = true → x ∈ ws
  first_acc : ∀ f, L.empty f = false → ∃ x, L.first f = some x ∧ L.acc f x = true
  ext : ∀ f g, (∀ x, L.acc f x = L.acc g x) → f = g

/-- The words of each dimension.  There are infinitely many. -/
structure Domains (D X : Type) where
  word : D → X → Prop
  infinite : ∀ d (ws : List X), ∃ x, word d x ∧ x ∉ ws

/-- One call of a program, with its dimension: making the object of all words, making the object of a
regular expression, or an operator on two objects. -/
inductive Call (D : Type)
  | all (d : D) (s : String)
  | regex (d : D) (s : String)
  | or (d : D) (a b : Nat)
  | and (d : D) (a b : Nat)
  | sub (d : D) (a b : Nat)

variable {D : Type}

/-- The dimension of a call. -/
def Call.dim : Call D → D
  | .all d _ => d
  | .regex d _ => d
  | .or d _ _ => d
  | .and d _ _ => d
  | .sub d _ _ => d

/-- The operands of a call. -/
def Call.args : Call D → List Nat
  | .all _ _ => []
  | .regex _ _ => []
  | .or _ a b => [a, b]
  | .and _ a b => [a, b]
  | .sub _ a b => [a, b]

/-- The method a call runs. -/
def Call.run (L : FsmLib F X) (h : Heap F) : Call D → Heap F × Nat
  | .all _ s => allWords L h s
  | .regex _ s => fromRegex L h s
  | .or _ a b => MinDfa.or L h a b
  | .and _ a b => MinDfa.and L h a b
  | .sub _ a b => MinDfa.sub L h a b

/-- The words a call asks for. -/
def Call.Asks (L : FsmLib F X) (h : Heap F) : Call D → X → Bool
  | .all _ s, x => L.acc (L.parse s) x
  | .regex _ s, x => L.acc (L.parse s) x
  | .or _ a b, x => accepts L h a x || accepts L h b x
  | .and _ a b, x => accepts L h a x && accepts L h b x
  | .sub _ a b, x => accepts L h a x && !accepts L h b x

/-- Entries dropped from the memo tables (each is bounded by 500 entries). -/
structure Evicted (h h' : Heap F) : Prop where
  obj : h'.obj = h.obj
  size : h'.size = h.size
  rx : h'.rx ⊆ h.rx
  orC : h'.orC ⊆ h.orC
  andC : h'.andC ⊆ h.andC
  subC : h'.subC ⊆ h.subC

/-- The regular expressions handed in: one for all words of a dimension has a star and denotes exactly
these words. -/
def Call.Meant (L : FsmLib F X) (dom : Domains D X) : Call D → Prop
  | .all d s => '*' ∈ s.toList ∧ ∀ x, L.acc (L.parse s) x = true ↔ dom.word d x
  | _ => True

/-- The call works on objects of its own dimension only, and gives one: `own` says which dimension each
object belongs to (assumption (5) of the class, MinDFA.py 41-42). -/
def Call.Unmixed (L : FsmLib F X) (own : Nat → D) (h : Heap F) (c : Call D) : Prop :=
  (∀ a ∈ c.args, own a = c.dim) ∧ own (c.run L h).2 = c.dim

/-- What a process may do from the start: calls on existing objects, and memo entries being dropped.
`T d s`: the text `s` may be used as a regular expression for dimension `d`. -/
inductive Exec (L : FsmLib F X) (dom : Domains D X) (T : D → String → Prop) (own : Nat → D) (h₀ : Heap F) : Heap F → Prop
  | start : Exec L dom T own h₀ h₀
  | call {h : Heap F} (c : Call D) : Exec L dom T own h₀ h → (∀ a ∈ c.args, a < h.size) → c.Meant L dom →
      (∀ d s, c = .regex d s → T d s) → c.Unmixed L own h → Exec L dom T own h₀ (c.run L h).1
  | evict {h h' : Heap F} : Exec L dom T own h₀ h → Evicted h h' → Exec L dom T own h₀ h'

/-- No object was made yet. -/
def Fresh (h : Heap F) : Prop := h.size = 0 ∧ h.rx = [] ∧ h.orC = [] ∧ h.andC = [] ∧ h.subC = []

end MinDfa
end Verif
