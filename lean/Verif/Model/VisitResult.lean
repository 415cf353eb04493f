import Verif.Model.VariantForward

/-!
# `visit<R>`: what becomes of the functor's result

Model of variant.hpp:219-238 with respect to what `visitRun` of Model/VariantForward.lean leaves out: the initialisation of the result
of type `R` from the result of the functor in `return std::forward<F>(func)(...)` (line 233), functors which return references or
throw, conversions which throw or change the object they convert from (moves), and the lifetime of temporaries.  The result of the lambda
is the result of `std::visit()` and of `visit<R>()` without further copies ([stmt.return], [variant.visit]).

Simplifications: classes are unrelated to each other (no references to base classes), and conversions yield new objects (no conversion
functions which return references).  `none`: the program is ill-formed.
-/

namespace Makeshift.VisitResult

open Makeshift.TupleAccess Makeshift.TupleMove Makeshift.VariantForward

variable {V F : Type}

/-- What a call does: nothing is returned, an object, a reference to the object at a location, or an exception is thrown. -/
inductive Ret (V : Type) where
  | void
  | val (v : V)
  | loc (l : Nat)
  | raise (msg : Str)
  deriving DecidableEq, Repr

/-- A functor type, as in Model/VariantForward.lean, for results of all kinds. -/
structure RFunctor (V F : Type) where
  resTy : Access → List Ty → Option RTy
  run : Access → List (Ref × V) → F → Ret V × (Nat → Option V) × F
  memberPointer : Bool

/-- Type of `f(args...)`; pointers to members cannot be called in this way. -/
def RFunctor.callTy (f : RFunctor V F) (a : Access) (ts : List Ty) : Option RTy := if f.memberPointer then none else f.resTy a ts

/-- The implicit conversions of a program, including copies and moves: for an expression of type `t` and a class, the new object (or the
exception) and what is left in the original object. -/
abbrev Conversions (V : Type) := Ty → Nat → Option (V → Outcome V × V)

/-- How the result is initialised: as the object returned itself, by binding to the object referred to, as a new object, or by binding to
a temporary, which is the object returned or a new one. -/
inductive How (V : Type) where
  | elide
  | bind
  | convert (c : V → Outcome V × V)
  | temporary
  | convertTemporary (c : V → Outcome V × V)

/-- Initialisation of a result of type `T` by an expression of type `t` ([dcl.init], [dcl.init.ref]). -/
def howInit (conv : Conversions V) (T t : Ty) : Option (How V) :=
  match T, t with
  | .obj C, .obj c => if c.ty = C.ty then some .elide else (conv (.obj c) C.ty).map .convert
  | .obj C, .lref c => (conv (.lref c) C.ty).map .convert
  | .obj C, .rref c => (conv (.rref c) C.ty).map .convert
  | .lref C, .lref c =>
    if c.ty = C.ty then (if c.const && !C.const then none else some .bind)
    else if C.const then (conv (.lref c) C.ty).map .convertTemporary else none
  | .lref C, .rref c =>
    if C.const then (if c.ty = C.ty then some .bind else (conv (.rref c) C.ty).map .convertTemporary) else none
  | .lref C, .obj c =>
    if C.const then (if c.ty = C.ty then some .temporary else (conv (.obj c) C.ty).map .convertTemporary) else none
  | .rref C, .lref c => if c.ty = C.ty then none else (conv (.lref c) C.ty).map .convertTemporary
  | .rref C, .rref c =>
    if c.ty = C.ty then (if c.const && !C.const then none else some .bind) else (conv (.rref c) C.ty).map .convertTemporary
  | .rref C, .obj c =>
    if c.ty = C.ty then (if c.const && !C.const then none else some .temporary) else (conv (.obj c) C.ty).map .convertTemporary

/-- variant.hpp:233 `return expr;` in a function with return type `R` compiles for an expression of type `r` ([stmt.return]). -/
def returns (conv : Conversions V) (R r : RTy) : Bool :=
  match R, r with
  | .void, .void => true
  | .ty T, .ty t => (howInit conv T t).isSome
  | _, _ => false

/-- A result of a call: nothing, an object, a reference to the object at a location, or a reference to an object which does not exist any
more. -/
inductive Got (V : Type) where
  | void
  | obj (v : V)
  | ref (l : Nat)
  | dangling
  deriving DecidableEq, Repr

/-- Contents after a conversion which leaves `x` in an object denoted by an expression of type `t`. -/
def leave (t : Ty) (l : Nat) (x : V) (m : Mem V) : Mem V :=
  match t with
  | .obj _ => m
  | .lref c | .rref c => if c.const then m else fun l' => if l' = l then x else m l'

/-- variant.hpp:233: the result of type `T` from a result `ret` of type `t`; temporaries are destroyed at the end of the statement. -/
def deliver (conv : Conversions V) (T t : Ty) (ret : Ret V) (m : Mem V) : Mem V × Outcome (Got V) :=
  match ret, howInit conv T t with
  | .raise msg, _ => (m, .throw msg)
  | .val v, some .elide => (m, .ok (.obj v))
  | .val v, some (.convert c) => (m, (c v).1.mapVal .obj)
  | .val _, some .temporary => (m, .ok .dangling)
  | .val v, some (.convertTemporary c) => (m, (c v).1.mapVal fun _ => .dangling)
  | .loc l, some .bind => (m, .ok (.ref l))
  | .loc l, some (.convert c) => (leave t l (c (m l)).2 m, (c (m l)).1.mapVal .obj)
  | .loc l, some (.convertTemporary c) => (leave t l (c (m l)).2 m, (c (m l)).1.mapVal fun _ => .dangling)
  | _, _ => (m, .ub)

/-- The same for any types. -/
def deliverR (conv : Conversions V) (R r : RTy) (ret : Ret V) (m : Mem V) : Mem V × Outcome (Got V) :=
  match R, r, ret with
  | _, _, .raise msg => (m, .throw msg)
  | .void, _, _ => (m, .ok .void)
  | .ty T, .ty t, ret => deliver conv T t ret m
  | .ty _, .void, _ => (m, .ub)

/-- [variant.visit] all combinations of alternatives are instantiated. -/
def allReturn (callTy : List Ty → Option RTy) (ok : RTy → Bool) (args : List VArg) : Bool :=
  match resultSeq callTy (visitTypes args) with
  | none => false
  | some rs => rs.all fun r => match r with
      | none => false
      | some r => ok r

/-- What `std::visit()` does with a functor whose calls have types `callTy`; `R` is the type of the result. -/
def visitWith (conv : Conversions V) (callTy : List Ty → Option RTy) (R : RTy) (f : RFunctor V F) (a : Access) (s : F) (args : List VArg)
    (m : Mem V) : Option (Run V F (Got V)) :=
  match activeRefs args, args.mapM refTy with
  | some refs, some ts =>
    let seen := refs.map fun r => (r, m r.loc)
    let call := f.run a seen s
    (callTy ts).map fun r =>
      let d := deliverR conv R r call.1 (writeBack (refs.map .elem) call.2.1 0 m)
      ⟨[(a, seen)], call.2.2, d.1, d.2⟩
  | _, _ => some ⟨[], s, m, .throw (str "bad_variant_access")⟩

/-- variant.hpp:219-238 `visit<R>(func, args...)`. -/
def visitR (conv : Conversions V) (R : RTy) (f : RFunctor V F) (a : Access) (s : F) (args : List VArg) (m : Mem V) :
    Option (Run V F (Got V)) :=
  if allReturn (f.callTy a) (returns conv R) args then visitWith conv (f.callTy a) R f a s args m else none

/-- `std::visit<R>(func, args...)` of C++20, to which the comment variant.hpp:214-215 says `visit<R>` is equivalent ([variant.visit],
[func.require]): `INVOKE<R>` also calls pointers to members, and discards results if `R` is void. -/
def stdVisitR (conv : Conversions V) (R : RTy) (f : RFunctor V F) (a : Access) (s : F) (args : List VArg) (m : Mem V) :
    Option (Run V F (Got V)) :=
  if allReturn (f.resTy a) (fun r => R = .void || returns conv R r) args then visitWith conv (f.resTy a) R f a s args m else none

end Makeshift.VisitResult
