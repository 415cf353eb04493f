import Verif.Spec.Search

/-! Specification vocabulary for lookups among values whose `<` is not a linear order. -/

namespace Makeshift.Spec

/-- `lt` is a strict weak order whose equivalence ("neither is less") is what `eq` tests, as for `double` without NaN, where
`-0.0 == 0.0`. -/
structure WeakOps {α : Type} (lt eq : α → α → Bool) : Prop where
  irrefl : ∀ a, lt a a = false
  trans : ∀ a b c, lt a b = true → lt b c = true → lt a c = true
  notLessTrans : ∀ a b c, lt a b = false → lt b c = false → lt a c = false
  eq_iff : ∀ a b, eq a b = true ↔ lt a b = false ∧ lt b a = false

/-- What `try_expand` and its siblings must do when `==` is not identity: yield one of the listed values that compare equal to the
runtime value, or report that there is none. -/
def ExpandUpTo {α : Type} (eq : α → α → Bool) (values : List α) (value : α) (r : ExpandMode → Outcome (Option α)) : Prop :=
  ((∃ x ∈ values, eq x value = true) → ∃ y ∈ values, eq y value = true ∧ ∀ mode, r mode = .ok (some y)) ∧
  ((∀ x ∈ values, eq x value = false) → r .failfast = .failFast ∧ r .optional = .ok none ∧
    r .throwing = .throw (str "unsupported runtime value"))

/-- Floating-point numbers that matter here: integers, and `none` for NaN. -/
abbrev Flt := Option Int

/-- IEEE 754 `<`: false if an operand is NaN. -/
def fltLt : Flt → Flt → Bool
  | some a, some b => decide (a < b)
  | _, _ => false

/-- IEEE 754 `==`: false if an operand is NaN. -/
def fltEq : Flt → Flt → Bool
  | some a, some b => decide (a = b)
  | _, _ => false

/-- A record ordered by its first member only, compared for equality by both. -/
def recLt (a b : Nat × Nat) : Bool := decide (a.1 < b.1)

/-- Equality of such records. -/
def recEq (a b : Nat × Nat) : Bool := decide (a = b)

/-- Two flags ordered by inclusion. -/
def subLt (a b : Bool × Bool) : Bool := decide (a ≠ b) && (!a.1 || b.1) && (!a.2 || b.2)

/-- Equality of such flag sets. -/
def subEq (a b : Bool × Bool) : Bool := decide (a = b)

end Makeshift.Spec
