import Mathlib.Data.List.Forall2
import Mathlib.Algebra.BigOperators.Group.List.Basic

/-!
# Vocabulary for `mdarray`
-/

namespace Makeshift.Spec.Mdarray

/-- The subscripts are in range: as many as there are dimensions, each less than its dimension. -/
def InRange (dims is : List Nat) : Prop := List.Forall₂ (fun i n => i < n) is dims

/-- The position in row-major order: the last subscript varies fastest. -/
def rowMajor (dims is : List Nat) : Nat := (is.zip dims).foldl (fun acc p => acc * p.2 + p.1) 0

/-- The first sequence precedes the second: at the first position where the elements are ordered in one way or the other, the element of the
first is less. -/
def Precedes {α : Type} (lt : α → α → Bool) (x y : List α) : Prop :=
  ∃ k, ∃ (h1 : k < x.length) (h2 : k < y.length), lt x[k] y[k] = true ∧
    ∀ j, ∀ (g1 : j < x.length) (g2 : j < y.length), j < k → lt x[j] y[j] = false ∧ lt y[j] x[j] = false

end Makeshift.Spec.Mdarray
