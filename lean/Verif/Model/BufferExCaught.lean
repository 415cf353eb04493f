import Verif.Model.BufferExceptions

/-!
# Buffers of a class type, and violated contracts reported by exceptions

`experimental/buffer.hpp` and `experimental/detail/buffer.hpp` for an element type whose operations may throw (see `Model/BufferExceptions.lean`,
whose element operations, constructors and destructors are used here, and whose simplifications apply), with gsl-lite configured to throw an
exception when a contract is violated (`gsl_CONFIG_CONTRACT_VIOLATION_THROWS`, as in test/CMakeLists.txt:26).  The program catches all
exceptions and goes on, knowing which ones report violated contracts.

`none` stands for undefined behaviour and for termination (by an exception which is thrown during the clean-up for another one).
-/

namespace Makeshift.BufferExCaught

open Makeshift.Buffer (Ty Op Resp update)
open Makeshift.BufferEx (Env Obj St Res)

/-- What the program observes of an operation: its result, an exception thrown by an element or for lack of memory, or the exception which
reports that a contract is violated. -/
inductive Seen where
  | returned (r : Resp)
  | threw
  | violated
  deriving DecidableEq, Repr

/-- How a part of an operation without contract checks ends. -/
def plain : Res Resp → Option (Seen × St)
  | .ok r s => some (.returned r, s)
  | .threw s => some (.threw, s)
  | .failFast => none
  | .ub => none

/-- experimental/buffer.hpp:56-64 and 151-160: the constructors from an extent.  The check is in the body of the constructor; if the exception
leaves it, the base class, which has been constructed, is destroyed. -/
def constructExtent (env : Env) (b : Nat) (ty : Ty) (e : Int) (s : St) : Option (Seen × St) :=
  match BufferEx.construct env b ty (IntTy.sizeT.wrap e).toNat s with
  | .ok o s =>
    if Buffer.checkExtent ty e then
      some (.returned .unit, ⟨{ s.w with objs := update s.w.objs b (some o) }, s.ticks⟩)
    else
      match BufferEx.destroy b o s with
      | .ok _ s => some (.violated, s)
      | _ => none
  | .threw s => some (.threw, s)
  | _ => none

/-- One operation.  Those which check something first are listed; the others are those of `Model/BufferExceptions.lean`. -/
def step (env : Env) (s : St) : Op → Option (Seen × St)
  | .construct b ty e =>
    match s.w.objs b with
    | some _ => none
    | none => constructExtent env b ty e s
  | .assignArray b vals =>                                                             -- experimental/buffer.hpp:73-81, 169-177
    match s.w.objs b with
    | some o => if vals.length = o.size then plain (BufferEx.step env s (.assignArray b vals)) else some (.violated, s)
    | none => none
  | .front b =>                                                                        -- experimental/detail/buffer.hpp:75-84
    match s.w.objs b with
    | some o => if o.size ≠ 0 then plain (BufferEx.step env s (.read b 0)) else some (.violated, s)
    | none => none
  | .back b =>                                                                         -- experimental/detail/buffer.hpp:85-94
    match s.w.objs b with
    | some o => if o.size ≠ 0 then plain (BufferEx.step env s (.read b (o.size - 1))) else some (.violated, s)
    | none => none
  | op => plain (BufferEx.step env s op)

/-- A program which catches all exceptions: after every operation it goes on depending on what it has observed. -/
inductive Prog where
  | done
  | op (o : Op) (k : Seen → Prog)

/-- Run a program: what it observes, and the final state. -/
def run (env : Env) : Prog → St → Option (List Seen × St)
  | .done, s => some ([], s)
  | .op o k, s =>
    match step env s o with
    | some (seen, s) => (run env (k seen) s).map fun x => (seen :: x.1, x.2)
    | none => none

end Makeshift.BufferExCaught
