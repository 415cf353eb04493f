import Verif.Model.SoaSpan
import Mathlib.Data.List.Forall2

/-!
# Vocabulary for spans whose rows are addressed without checks
-/

namespace Makeshift.Spec.Soa

open Makeshift.Soa (State Span Ptr)

/-- The value `d` places behind a pointer (in front of it if `d` is negative), if its array has that place. -/
def valueAt {α : Type} (st : State α) (p : Ptr) (d : Int) : Option α :=
  if 0 ≤ (p.off : Int) + d then (st.cells p.arr)[((p.off : Int) + d).toNat]? else none

/-- Row `d` of a span, counted from the first one in either direction and whether it belongs to the span or not, consists of these values. -/
def RowAt {α : Type} (st : State α) (s : Span) (d : Int) (vals : List α) : Prop :=
  List.Forall₂ (fun p v => valueAt st p d = some v) s.data vals

/-- Every column can be moved by `d` places without leaving its array. -/
def CanMove {α : Type} (st : State α) (s : Span) (d : Int) : Prop :=
  ∀ p ∈ s.data, 0 ≤ (p.off : Int) + d ∧ (p.off : Int) + d ≤ (st.cells p.arr).length

/-- The `std::size_t` argument `i` is the position `d`, possibly a negative one which was converted. -/
def Denotes (i : Nat) (d : Int) : Prop := -2 ^ 63 ≤ d ∧ d < 2 ^ 63 ∧ ((i : Int) = d ∨ (i : Int) = d + 2 ^ 64)

end Makeshift.Spec.Soa
