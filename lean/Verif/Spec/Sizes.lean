import Verif.Model.MergeSizes

/-! Specification vocabulary for sizes. -/

namespace Makeshift.Spec

/-- The length a size argument stands for; `none` is unknown (only a constant can be unknown). -/
def known : Size → Option Int
  | .static n => if n = -1 then none else some n
  | .dyn n => some n

/-- Run-time sizes are lengths, hence not negative. -/
def IsSize : Size → Prop
  | .static n => -1 ≤ n
  | .dyn n => 0 ≤ n

/-- A length known at compile time. -/
def staticKnown : Size → Prop
  | .static n => n ≠ -1
  | .dyn _ => False

/-- No two known lengths differ. -/
def Consistent (l : List Size) : Prop :=
  ∀ s ∈ l, ∀ t ∈ l, ∀ n m, known s = some n → known t = some m → n = m

end Makeshift.Spec
