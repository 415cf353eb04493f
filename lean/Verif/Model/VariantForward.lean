import Verif.Model.VariantTransform
import Verif.Model.TupleMove

/-!
# `visit<>`, `variant_transform`, `variant_transform_many`: value categories and functor objects

Model of variant.hpp:221-335 and detail/variant.hpp:182-277 with respect to what Model/VariantTransform.lean leaves out: constness and
value category of the variants and of the functor, functors with state, and results for which there is no variant type.

Types, references and the memory are those of Model/TupleAccess.lean and Model/TupleMove.lean.  `none`: the program is ill-formed.
-/

namespace Makeshift.VariantForward

open Makeshift.TupleAccess Makeshift.TupleMove

variable {V F : Type}

/-- Type of a call expression. -/
inductive RTy where
  | void
  | ty (t : Ty)
  deriving DecidableEq, Repr

/-- A variant argument: the alternatives, the index of the active one (`none`: valueless), the location of the active object, and
the expression which denotes the variant. -/
structure VArg where
  alts : List CTy
  active : Option Nat
  loc : Nat
  access : Access
  deriving DecidableEq, Repr

/-- A functor type.  `resTy a ts` is the type of a call of a functor denoted by an expression `a` with arguments of types `ts` (`none`:
there is no such call).  `run` yields the result, the contents left in the arguments, and the state of the functor object after the
call.  Pointers to members cannot be called with the syntax `f(args...)`, only with `INVOKE` ([func.require]). -/
structure Functor (V F : Type) where
  resTy : Access → List Ty → Option RTy
  run : Access → List (Ref × V) → F → V × (Nat → Option V) × F
  memberPointer : Bool

/-- Type of `f(args...)`. -/
def Functor.callTy (f : Functor V F) (a : Access) (ts : List Ty) : Option RTy := if f.memberPointer then none else f.resTy a ts

/-- [variant.get] `std::get<I>(std::forward<V>(v))`, which `std::visit` passes to the functor. -/
def getAlt (a : Access) (c : CTy) : Ty := stdGet a (.obj c)

/-- detail/variant.hpp:185-190 `std::declval<nth_variant_type<I, V>>()` (line 219), where `V` is deduced for a forwarding reference:
`V0&` or `V0 const&` for an lvalue and `V0` or `V0 const` for an rvalue.  There is no specialisation for `V0 const`. -/
def nthVariantType (a : Access) (c : CTy) : Option Ty :=
  match a.const, a.rvalue with
  | false, false => some (.lref c)
  | true, false => some (.lref { c with const := true })
  | false, true => some (.rref c)
  | true, true => none

/-- The argument types in detail/variant.hpp:219, for each argument and alternative. -/
def argTypes (args : List VArg) : Option (List (List Ty)) := args.mapM fun v => v.alts.mapM (nthVariantType v.access)

/-- detail/variant.hpp:233-240 `variant_transform_result_0_`: a result type for every combination of alternatives. -/
def results {R : Type} (callTy : List Ty → Option R) (args : List VArg) : Option (List R) :=
  (argTypes args).bind fun ts => (resultSeq callTy ts).bind fun rs => rs.mapM id

/-- The object type, unless it is void or a reference. -/
def RTy.objTy : RTy → Option CTy
  | .ty (.obj c) => some c
  | _ => none

/-- detail/variant.hpp:244-253 `variant_transform_result_`; a `std::variant<>` without alternatives or with references cannot be
instantiated ([variant.variant]). -/
def transformAlts (rs : List RTy) : Option (List CTy) :=
  let R := uniqueSequence (filterSequence (fun r => decide (r ≠ .void)) rs)
  if R.isEmpty then none else R.mapM RTy.objTy

/-- [variant.ctor] the converting constructor of `std::variant<Rs...>` for a value of type `T`: overload resolution among functions
`F(Ri)`.  Top-level const does not distinguish function types; with just one alternative of type `T` apart from const, this is the
best match.  With several there are equally good ones.  Otherwise `other` decides. -/
def chooseAlt (other : List CTy → CTy → Option Nat) (Rs : List CTy) (T : CTy) : Option Nat :=
  match Rs.countP (fun R => R.ty = T.ty) with
  | 0 => other Rs T
  | 1 => some (Rs.findIdx fun R => R.ty = T.ty)
  | _ => none

/-- The references which `std::visit` passes to the functor; `none` if a variant is valueless. -/
def activeRefs (args : List VArg) : Option (List Ref) :=
  args.mapM fun v => v.active.bind fun i => (v.alts[i]?).map fun c => refOfType (getAlt v.access c) v.loc

/-- What happened: the functor calls (how the functor was denoted, and the arguments with their contents), the state of the functor
object which was passed, the contents of objects, and the outcome. -/
structure Run (V F R : Type) where
  calls : List (Access × List (Ref × V))
  functor : F
  mem : Mem V
  out : Outcome R

/-- The type of an argument, from the reference; only const and the value category are known to the functor at run time, and the
alternative. -/
def refTy (v : VArg) : Option Ty := v.active.bind fun i => (v.alts[i]?).map fun c => getAlt v.access c

/-- Every result which is an object can be converted to the variant. -/
def allConvertible (other : List CTy → CTy → Option Nat) (R : List CTy) (rs : List RTy) : Bool :=
  rs.all fun r => match r.objTy with
    | some T => (chooseAlt other R T).isSome
    | none => true

/-- variant.hpp:249-289 `variant_transform`.  The body of the lambda (lines 269-284) is instantiated for all combinations of
alternatives, hence every result must be convertible. -/
def variantTransform (other : List CTy → CTy → Option Nat) (f : Functor V F) (a : Access) (s : F) (args : List VArg) (m : Mem V) :
    Option (Run V F (VariantVal CTy V)) :=
  (results (f.callTy a) args).bind fun rs =>
    (transformAlts rs).bind fun R =>
      if allConvertible other R rs then
        match activeRefs args, args.mapM refTy with
        | some refs, some ts =>
          let seen := refs.map fun r => (r, m r.loc)
          let call := f.run a seen s                                                   -- 276 or 281: std::forward<F>(func)(...)
          let m' := writeBack (refs.map .elem) call.2.1 0 m
          match f.callTy a ts with
          | some .void => some ⟨[(a, seen)], call.2.2, m', .failFast⟩                    -- 277
          | some (.ty (.obj T)) =>
            (chooseAlt other R T).map fun i => ⟨[(a, seen)], call.2.2, m', .ok ⟨R, some (i, call.1)⟩⟩
          | _ => none
        | _, _ => some ⟨[], s, m, .throw (str "bad_variant_access")⟩
      else none

/-- A functor type which returns variants: the alternatives of the variant returned, and the active alternative (`none`: valueless). -/
structure ManyFunctor (V F : Type) where
  resTys : Access → List Ty → Option (List CTy)
  run : Access → List (Ref × V) → F → Option (Nat × V) × (Nat → Option V) × F
  memberPointer : Bool
  copyable : Bool
  movable : Bool
  moved : F → F

/-- Alternatives of the variant which `f(args...)` yields. -/
def ManyFunctor.callTys (f : ManyFunctor V F) (a : Access) (ts : List Ty) : Option (List CTy) :=
  if f.memberPointer then none else f.resTys a ts

/-- detail/variant.hpp:268-277 `variant_transform_many_result_`. -/
def manyAlts (rs : List (List CTy)) : Option (List CTy) :=
  let R := uniqueSequence (flattenVariant [] rs)
  if R.isEmpty then none else some R

/-- variant.hpp:308 and 322 `[func = std::forward<F>(func)]`: the state of the functor object passed after the capture. -/
def capture (f : ManyFunctor V F) (a : Access) (s : F) : Option F :=
  if a.rvalue && !a.const then (if f.movable then some (f.moved s) else none)
  else (if f.copyable then some s else none)

/-- variant.hpp:299-335 `variant_transform_many`.  The result type is computed for the functor as it was passed, but the call operator
of the lambda is const, so the captured copy is called as a const lvalue (lines 316 and 330). -/
def variantTransformMany (other : List CTy → CTy → Option Nat) (f : ManyFunctor V F) (a : Access) (s : F) (args : List VArg) (m : Mem V) :
    Option (Run V F (VariantVal CTy V)) :=
  (results (f.callTys a) args).bind fun rs =>
    (manyAlts rs).bind fun R =>
      (results (f.callTys ⟨true, false⟩) args).bind fun cs =>
        (capture f a s).bind fun s' =>
          if cs.all fun Ts => Ts.all fun T => (chooseAlt other R T).isSome
          then
            match activeRefs args, args.mapM refTy with
            | some refs, some ts =>
              let seen := refs.map fun r => (r, m r.loc)
              let call := f.run ⟨true, false⟩ seen s
              let m' := writeBack (refs.map .elem) call.2.1 0 m
              match f.callTys ⟨true, false⟩ ts, call.1 with
              | some _, none => some ⟨[(⟨true, false⟩, seen)], s', m', .throw (str "bad_variant_access")⟩
              | some Ts, some (j, x) =>
                match Ts[j]? with
                | some T => (chooseAlt other R T).map fun i => ⟨[(⟨true, false⟩, seen)], s', m', .ok ⟨R, some (i, x)⟩⟩
                | none => some ⟨[(⟨true, false⟩, seen)], s', m', .ub⟩
              | none, _ => none
            | _, _ => some ⟨[], s', m, .throw (str "bad_variant_access")⟩
          else none

/-- A statement `return expr;` in a function with return type `R`, for an expression of type `r` ([stmt.return]); `conv` tells whether
there is an implicit conversion between types. -/
def returnOk (conv : Ty → Ty → Bool) (R r : RTy) : Bool :=
  match R, r with
  | .void, .void => true
  | .void, .ty _ => false
  | .ty _, .void => false
  | .ty T, .ty t => conv t T

/-- [variant.visit] all combinations of alternatives, as `std::visit` passes them. -/
def visitTypes (args : List VArg) : List (List Ty) := args.map fun v => v.alts.map (getAlt v.access)

/-- variant.hpp:223-243 `visit<R>`: whether it compiles. -/
def visitCompiles (conv : Ty → Ty → Bool) (R : RTy) (f : Functor V F) (a : Access) (args : List VArg) : Bool :=
  match resultSeq (f.callTy a) (visitTypes args) with
  | none => false
  | some rs => rs.all fun r => match r with
      | none => false
      | some r => returnOk conv R r

/-- variant.hpp:223-243 `visit<R>`: what it does if it compiles; the conversion to `R` is not modelled. -/
def visitRun (f : Functor V F) (a : Access) (s : F) (args : List VArg) (m : Mem V) : Run V F V :=
  match activeRefs args with
  | some refs =>
    let seen := refs.map fun r => (r, m r.loc)
    let call := f.run a seen s
    ⟨[(a, seen)], call.2.2, writeBack (refs.map .elem) call.2.1 0 m, .ok call.1⟩
  | none => ⟨[], s, m, .throw (str "bad_variant_access")⟩

end Makeshift.VariantForward
