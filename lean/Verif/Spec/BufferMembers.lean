import Verif.Model.BufferMembers

/-!
# Specification for C158

Storage as documented (experimental/buffer.hpp:34-46, 123-138), and what type traits say about an expression.
-/

namespace Makeshift.Spec.BufferMembers

open Makeshift.Buffer Makeshift.BufferMembers

/-- All elements are stored in place, whatever their number. -/
def InPlace : Ty → Prop
  | .buffer none _ => False
  | .buffer (some n) m => m < 0 ∨ (0 < m ∧ (n : Int) ≤ m)
  | .fixed _ _ => True

/-- Number of elements there is room for, if all are stored in place. -/
def room : Ty → Nat
  | .buffer none _ => 0
  | .buffer (some n) _ => n
  | .fixed none m => m
  | .fixed (some n) _ => n

/-- What `std::is_copy_constructible_v<>` etc. say: the expression is found valid without looking at the definitions of the functions. -/
def TraitHolds (v : Verdict) : Prop := v ≠ .rejected

/-- The program compiles. -/
def Compiles (v : Verdict) : Prop := ∃ acts, v = .does acts

/-- The second unless the first is rejected. -/
inductive Prefers (r l : Verdict) : Verdict → Prop
  | first : r ≠ .rejected → Prefers r l r
  | second : r = .rejected → Prefers r l l

end Makeshift.Spec.BufferMembers
