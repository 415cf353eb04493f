import Verif.Model.BufferTypes

/-! # What the documentation says about `make_buffer` and `make_fixed_buffer` -/

namespace Makeshift.Spec.BufferTypes

open Makeshift.Buffer

/-- Whether a size is a constval, and its value. -/
def IsConstval : SizeArg → Prop
  | .int _ => False
  | .constant _ => True
  | .derived _ => True

/-- buffer.hpp:104-105: "If `MaxStaticBufferExtent >= 0`, the elements are allocated in-place if `size <= MaxStaticBufferExtent`, and on
the heap otherwise.  If `MaxStaticBufferExtent == -1`, the elements are allocated in-place if `size` is a constval, and on the heap
otherwise."  (No elements need no allocation.) -/
def OnHeap (maxStatic : Int) (c : SizeArg) (n : Nat) : Prop :=
  0 < n ∧ if 0 ≤ maxStatic then maxStatic < n else ¬ IsConstval c

/-- The extent of the result: that of a constval is static. -/
def Extent (c : SizeArg) (n : Nat) (ext : Option Nat) : Prop :=
  (IsConstval c → ext = some n) ∧ (¬ IsConstval c → ext = none)

end Makeshift.Spec.BufferTypes
