import Mathlib.Logic.Function.Iterate
import Mathlib.Data.Finset.Card
import Mathlib.Data.Finset.Range

/-! Specification vocabulary for the cost of permuting: cycles of an index array, and sequences of swaps. -/

namespace Makeshift.Spec

/-- The position an index array refers to at position `p`. -/
def follow (idx : List Int) (p : Nat) : Nat := ((idx[p]?).map Int.toNat).getD p

/-- `p` is the smallest position of its cycle. -/
def SmallestOfCycle (idx : List Int) (p : Nat) : Prop := ∀ k, p ≤ (follow idx)^[k] p

open Classical in
/-- The number of cycles of a permutation given by an index array (positions which refer to themselves are cycles, too): every cycle is
counted at its smallest position. -/
noncomputable def cycleCount (idx : List Int) : Nat := ((Finset.range idx.length).filter fun p => SmallestOfCycle idx p).card

/-- A `swap` which also writes down for which positions it was called. -/
def logged {σ : Type} (swap : σ → Nat → Nat → σ) : σ × List (Nat × Nat) → Nat → Nat → Option (σ × List (Nat × Nat)) :=
  fun m a b => some (swap m.1 a b, m.2 ++ [(a, b)])

/-- The elements at positions `a` and `b` exchanged. -/
def exchange {α : Type} (g : Nat → α) (a b : Nat) : Nat → α := fun p => if p = a then g b else if p = b then g a else g p

/-- A sequence of exchanges. -/
def exchanges {α : Type} : (Nat → α) → List (Nat × Nat) → Nat → α
  | g, [] => g
  | g, (a, b) :: ts => exchanges (exchange g a b) ts

end Makeshift.Spec
