import Verif.Spec.Buffer
import Verif.Model.BufferCaught

/-!
# What a program which catches exceptions may expect of buffers

A buffer variable holds a sequence of elements (`Spec/Buffer.lean`).  An operation which does not succeed has no effect at all.
-/

namespace Makeshift.Spec.BufCaught

open Makeshift.Buffer (Ty)
open Makeshift.BufferCaught (Seen Prog)
open Makeshift.Spec.Buf (Store)

/-- What a program observes, and the buffers it leaves; `none` if it does what it must not do (see `Spec/Buffer.lean`). -/
def run (limit : Nat) : Prog → Store → Option (List Seen × Store)
  | .done, a => some ([], a)
  | .op o k, a =>
    match Buf.step limit a o with
    | .ok (a', r) => (run limit (k (.returned r)) a').map fun x => (.returned r :: x.1, x.2)
    | .throw m => (run limit (k (.threw m)) a).map fun x => (.threw m :: x.1, x.2)
    | .failFast => (run limit (k .violated) a).map fun x => (.violated :: x.1, x.2)
    | .ub => .none

/-- Whether all operations of a program compile, given the types of the variables which hold buffers. -/
def WellFormed (tyOf : Nat → Ty) : Prog → Prop
  | .done => True
  | .op o k => o.wellFormed tyOf ∧ ∀ seen, WellFormed tyOf (k seen)

end Makeshift.Spec.BufCaught
