import Verif.Spec.UserOps

/-!
# Iterators which walk sequences

What it means that the user's ranges behave like sequences of elements, and what a functor should then receive.  `Leaf`, `Op`, `Event` are the arguments and the calls, see
`Verif/Model/UserOps.lean`.
-/

namespace Makeshift.Spec.OwnIterators

open Makeshift.UserOps (User Val Op Event Leaf)

variable {α : Type}

/-- This is `++it` for range `r`. -/
def isInc (r : Nat) : Event α → Bool
  | .did (.inc q) _ => q = r
  | _ => false

/-- How often the iterator of range `r` has been incremented. -/
def advanced (r : Nat) (h : List (Event α)) : Nat := h.countP (isInc r)

/-- Range `r` behaves like the sequence `L r`.  Nothing is assumed about an iterator at the end which is dereferenced or incremented, about one behind the end, or about the functor. -/
structure Sequences (u : User α) (L : Nat → List α) : Prop where
  size : ∀ h r, u h (.size r) = some ((L r).length : Int)
  begin_ : ∀ h r, u h (.begin_ r) = some ()
  end_ : ∀ h r, u h (.end_ r) = some ()
  data : ∀ h r, u h (.data r) = some ()
  eq : ∀ h r, advanced r h ≤ (L r).length → u h (.eq r) = some (decide (advanced r h = (L r).length))
  deref : ∀ h r a, (L r)[advanced r h]? = some a → u h (.deref r) = some a
  inc : ∀ h r, advanced r h < (L r).length → u h (.inc r) = some ()
  assign : ∀ h r, u h (.assign r) = some ()

/-- The number of elements of argument `r`; `none` for `range_index()`, which has no end. -/
def lengthOf (L : Nat → List α) (ls : List Leaf) (r : Nat) : Option Nat :=
  match ls[r]? with
  | none => none
  | some ⟨.rangeIndex, n⟩ => n
  | some _ => some (L r).length

/-- Constant sizes are those of the sequences. -/
def Truthful (L : Nat → List α) (ls : List Leaf) : Prop := ∀ r l n, ls[r]? = some l → l.fixed = some n → lengthOf L ls r = some n

/-- Arguments of which the size is known in advance. -/
def HasSize (ls : List Leaf) (r : Nat) : Prop := ∃ l, ls[r]? = some l ∧ UserOps.Sized l

/-- The arguments of call `k` of the functor: the elements with this index, resp. the index. -/
def Arguments (L : Nat → List α) (ls : List Leaf) (k : Nat) (vs : List (Val α)) : Prop :=
  vs.length = ls.length ∧ ∀ (r : Nat) (l : Leaf), ls[r]? = some l →
    match l.mode with
    | .iteratorPair | .iterator => ∃ a, (L r)[k]? = some a ∧ vs[r]? = some (.elem a)
    | .index => vs[r]? = some (.cell k)
    | .rangeIndex => vs[r]? = some (.index k)

/-- The calls of the functor with their arguments and results; `none`: an exception. -/
def functorCalls (es : List (Event α)) : List (List (Val α) × Option Bool) :=
  es.filterMap fun e => match e with
    | .did (.call vs) b => some (vs, some b)
    | .threw (.call vs) => some (vs, none)
    | _ => none

/-- The positions in the range to which values are assigned (`*it = value`), in order, for an iterator which is at position `k` at first. -/
def assigned (k : Nat) : List (Event α) → List Nat
  | [] => []
  | .did (.assign _) _ :: es => k :: assigned k es
  | .did (.inc _) _ :: es => assigned (k + 1) es
  | _ :: es => assigned k es

end Makeshift.Spec.OwnIterators
