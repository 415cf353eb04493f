import Verif.Spec.BufferExceptions
import Verif.Model.BufferExCaught

/-!
# What a program may expect of buffers of a class type if violated contracts are reported by exceptions

Buffers are sequences of elements, and operations end in the ways `Spec/BufferExceptions.lean` allows.  Where they would terminate the program
there, they throw an exception, and nothing has changed.
-/

namespace Makeshift.Spec.BufExCaught

open Makeshift.Buffer (Ty Op Resp)
open Makeshift.BufferExCaught (Seen Prog)
open Makeshift.Spec.BufEx (Store Allowed InContract)

/-- What the program may observe of an operation, and the buffers there may be then. -/
inductive May (a : Store) (o : Op) : Seen → Store → Prop
  | returned {r : Resp} {a' : Store} : Allowed a o (.returned a' r) → May a o (.returned r) a'
  | threw {a' : Store} : Allowed a o (.threw a') → May a o .threw a'
  | violated : Allowed a o .failFast → May a o .violated a

/-- Whether all operations of a program compile, given the types of the variables which hold buffers. -/
def WellFormed (tyOf : Nat → Ty) : Prog → Prop
  | .done => True
  | .op o k => o.wellFormed tyOf ∧ ∀ seen, WellFormed tyOf (k seen)

/-- Whether a program keeps to the contract which is not checked (`InContract`), whichever way its operations end. -/
def Safe : Prog → Store → Prop
  | .done, _ => True
  | .op o k, a => InContract a o ∧ ∀ seen a', May a o seen a' → Safe (k seen) a'

/-- What a program may observe, and the buffers it may leave. -/
inductive Ends : Store → Prog → List Seen → Store → Prop
  | done (a : Store) : Ends a .done [] a
  | op {a a' a'' : Store} {o : Op} {k : Seen → Prog} {seen : Seen} {rest : List Seen} : May a o seen a' →
      Ends a' (k seen) rest a'' → Ends a (.op o k) (seen :: rest) a''

end Makeshift.Spec.BufExCaught
