import Verif.Model.Expand

/-! Specification vocabulary for lookups. -/

namespace Makeshift.Spec

/-- `lt` and `eq` are the operators of a strict linear order. -/
structure LinearOps {α : Type} (lt eq : α → α → Bool) : Prop where
  irrefl : ∀ a, lt a a = false
  trans : ∀ a b c, lt a b = true → lt b c = true → lt a c = true
  connected : ∀ a b, lt a b = false → lt b a = false → a = b
  eq_iff : ∀ a b, eq a b = true ↔ a = b

/-- No later element is less than an earlier one. -/
def SortedBy {α : Type} (lt : α → α → Bool) (l : List α) : Prop := l.Pairwise (fun a b => lt b a = false)

/-- A lookup result is exact: an index holding the value, or -1 if the value does not occur. -/
def ExactIndex {α : Type} (values : List α) (value : α) (i : Int) : Prop :=
  (i = -1 ∧ value ∉ values) ∨ (0 ≤ i ∧ values[i.toNat]? = some value)

/-- The integer types of the platform. -/
def StdWidth (t : IntTy) : Prop := t.bits = 8 ∨ t.bits = 16 ∨ t.bits = 32 ∨ t.bits = 64

/-- A run of consecutive integers. -/
def run (v0 : Int) (n : Nat) : List Int := (List.range n).map (fun (k : Nat) => v0 + (k : Int))

/-- What the three functions must do for a runtime value and a list. -/
def ExpandSpec {α : Type} (values : List α) (value : α) (r : ExpandMode → Outcome (Option α)) : Prop :=
  (value ∈ values → ∀ mode, r mode = .ok (some value)) ∧
  (value ∉ values → r .failfast = .failFast ∧ r .optional = .ok none ∧
    r .throwing = .throw (str "unsupported runtime value"))

end Makeshift.Spec
