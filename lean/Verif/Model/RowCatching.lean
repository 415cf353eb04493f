import Verif.Model.RowPrograms

/-!
# Programs on the rows of a `soa_span` which catch violated contracts

Programs as in `Model/RowPrograms.lean` which refer to rows by index, with gsl-lite configured to throw an exception when a contract is violated
(`gsl_CONFIG_CONTRACT_VIOLATION_THROWS`, as in test/CMakeLists.txt:26).  A program may catch such exceptions anywhere, throw them itself, and let them
pass; a function which is called with a subspan may be left by one.
-/

namespace Makeshift.Soa

variable {α β : Type}

/-- What a program does with rows in one statement (client code). -/
inductive RowAct (α : Type) where
  /-- `value_type t = s[i];` -/
  | load (i : Nat)
  /-- `auto v = get<c>(s[i]);` -/
  | loadElem (i c : Nat)
  /-- `s[i] = t;` for a variable `t` of type `value_type` -/
  | store (i : Nat) (t : List α)
  /-- `get<c>(s[i]) = v;` -/
  | storeElem (i c : Nat) (v : α)
  /-- `s[i] = s[j];` -/
  | copy (i j : Nat)
  /-- `swap(s[i], s[j]);` -/
  | swap (i j : Nat)

/-- A program which works on the rows of a range, returns a `β` or is left by the exception which reports a violated contract (client code). -/
inductive CatchProg (α β : Type) where
  /-- `return x;` -/
  | done (x : β)
  /-- `throw gsl::fail_fast(...);`, also in a handler -/
  | raise
  /-- a statement, and `k` with the values which it has read -/
  | act (a : RowAct α) (k : List α → CatchProg α β)
  /-- `auto x = body(s.subspan(offset, count));` -/
  | part (offset count : Nat) (body : CatchProg α β) (k : β → CatchProg α β)
  /-- `try { x = body(s); } catch (gsl::fail_fast const&) { }`; then `k` with the value, if there is one -/
  | attempt (body : CatchProg α β) (k : Option β → CatchProg α β)

/-- How a function ends, and the state then. -/
inductive CatchRes (α β : Type) where
  | returned (x : β) (st : State α)
  | violated (st : State α)
  | ub

/-- One statement: the values which it reads, and the state afterwards.  The operands are evaluated first; only this checks anything
(experimental/span.hpp:95-101), so that memory is as it was if a check fails. -/
def runAct (st : State α) (b : Nat) : RowAct α → Outcome (List α × State α)
  | .load i => (at' st b i).bind fun r => (toTuple st r).bind fun t => .ok (t, st)
  | .loadElem i c => (at' st b i).bind fun r => (getElem st r c).bind fun
    | some v => .ok ([v], st)
    | none => .ub
  | .store i t => (at' st b i).bind fun r => (assignTuple st r t).bind fun st => .ok ([], st)
  | .storeElem i c v => (at' st b i).bind fun r =>
    st.withSpan b fun s => match assignElemQ (s.data.map fun _ => false) st r c v with
      | some o => o.bind fun st => .ok ([], st)
      | none => .ub
  | .copy i j => (at' st b i).bind fun r => (at' st b j).bind fun q => (assignRef st r q).bind fun st => .ok ([], st)
  | .swap i j => (at' st b i).bind fun r => (at' st b j).bind fun q => (swapRefs st r q).bind fun st => .ok ([], st)

/-- The program works on the span object `b`, as in `runSpan`.  The parameter of a function called with a subspan is destroyed also if the function is left by
an exception. -/
def runCatch : (b fresh : Nat) → CatchProg α β → State α → CatchRes α β
  | _, _, .done x, st => .returned x st
  | _, _, .raise, st => .violated st
  | b, fresh, .act a k, st =>
    match runAct st b a with
    | .ok (t, st) => runCatch b fresh (k t) st
    | .failFast => .violated st
    | _ => .ub
  | b, fresh, .part offset count body k, st =>
    match st.spans b with
    | none => .ub
    | some s =>
      match s.subspan offset count with
      | .ok t =>
        match runCatch fresh (fresh + 1) body (st.setSpan fresh (some t)) with
        | .returned x st => runCatch b fresh (k x) (st.setSpan fresh none)
        | .violated st => .violated (st.setSpan fresh none)
        | .ub => .ub
      | .failFast => .violated st
      | _ => .ub
  | b, fresh, .attempt body k, st =>
    match runCatch b fresh body st with
    | .returned x st => runCatch b fresh (k (some x)) st
    | .violated st => runCatch b fresh (k none) st
    | .ub => .ub

end Makeshift.Soa
