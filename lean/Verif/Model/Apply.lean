import Verif.Model.VariantForward

/-!
# `apply`

Model of tuple.hpp:321-326 and detail/tuple.hpp:183-258 (with C++17; with C++20 the code calls `std::invoke`).

Expressions denote objects in memory; types are those of Model/TupleAccess.lean.  `none`: the program is ill-formed.  The return type of
`invoke` (detail/tuple.hpp:224), `std::invoke_result_t<F, ArgsT...>`, is the type of the expression returned and is not modelled
separately; neither are `noexcept` and `volatile`.
-/

namespace Makeshift.Apply

open Makeshift.TupleAccess Makeshift.TupleMove Makeshift.VariantForward

/-- An expression of object type `ty` (by number), const or not, rvalue or lvalue, which denotes the object at `loc`. -/
structure Expr where
  ty : Nat
  const : Bool
  rvalue : Bool
  loc : Nat
  deriving DecidableEq, Repr

/-- The reference type which a forwarding reference parameter has for the expression. -/
def Expr.refTy (e : Expr) : Ty := if e.rvalue then .rref ⟨e.ty, e.const⟩ else .lref ⟨e.ty, e.const⟩

/-- What is known about the object types and objects. -/
structure Env where
  isBase : Nat → Nat → Bool               -- `std::is_base_of_v<C, D>`
  refWrapper : Nat → Option CTy           -- the type is `std::reference_wrapper<T>`
  deref : Nat → Access → Option Ty        -- type of `*x`
  target : Nat → Nat                      -- the object which `*x` or `x.get()` denotes, for the object `x` at a location

/-- Ref-qualifier of a member function. -/
inductive RefQual where
  | none | lvalue | rvalue
  deriving DecidableEq, Repr

/-- What a pointer to member points to: a data member, const or not, or a member function with its qualifiers; `resTy` is the type of
a call with arguments of the given types, if these are accepted. -/
inductive Member where
  | data (const : Bool)
  | func (const : Bool) (ref : RefQual) (resTy : List Ty → Option RTy)

/-- What is passed as functor: something that can be called with `f(args...)`, or a pointer to a member of class `C`. -/
inductive Callable where
  | object (resTy : Access → List Ty → Option RTy)
  | memPtr (C : Nat) (m : Member)

/-- What the call does: the functor is called, a member function of an object is called, or the data member of an object is denoted; the
latter by an expression with the constness and value category given. -/
inductive Effect where
  | call (functor : Access) (args : List Expr) (res : RTy)
  | memberCall (obj : Expr) (args : List Expr) (res : RTy)
  | memberAccess (obj : Expr) (const rvalue : Bool)
  deriving DecidableEq, Repr

/-- [expr.mptr.oper] `e.*f` or `(e.*f)(args...)`. -/
def select (env : Env) (e : Expr) (C : Nat) (m : Member) (args : List Expr) : Option Effect :=
  if env.isBase C e.ty then
    match m with
    | .data k => if args.isEmpty then some (.memberAccess e (e.const || k) e.rvalue) else none
    | .func k q resTy =>
      if (e.const && !k) || (q == .lvalue && e.rvalue) || (q == .rvalue && !e.rvalue) then none
      else (resTy (args.map Expr.refTy)).map fun r => .memberCall e args r
  else none

/-- [refwrap.access] `t1.get()`, an lvalue. -/
def getExpr (env : Env) (t1 : Expr) (c : CTy) : Expr := ⟨c.ty, c.const, false, env.target t1.loc⟩

/-- `*std::forward<T1>(t1)`. -/
def derefExpr (env : Env) (t1 : Expr) : Option Expr :=
  (env.deref t1.ty ⟨t1.const, t1.rvalue⟩).map fun
    | .obj c => ⟨c.ty, c.const, true, env.target t1.loc⟩
    | .lref c => ⟨c.ty, c.const, false, env.target t1.loc⟩
    | .rref c => ⟨c.ty, c.const, true, env.target t1.loc⟩

/-- detail/tuple.hpp:187-221 `invoke_memptr`. -/
def invokeMemptr (env : Env) (C : Nat) (m : Member) (t1 : Expr) (args : List Expr) : Option Effect :=
  match m with
  | .func k q resTy =>                                                       -- 191
    if env.isBase C t1.ty then select env t1 C (.func k q resTy) args        -- 193-195
    else match env.refWrapper t1.ty with
      | some c => select env (getExpr env t1 c) C (.func k q resTy) args     -- 197-199
      | none => (derefExpr env t1).bind fun e => select env e C (.func k q resTy) args        -- 201-203
  | .data k =>
    if args.isEmpty then                                                     -- 208
      if env.isBase C t1.ty then select env t1 C (.data k) []                -- 209-211
      else match env.refWrapper t1.ty with
        | some c => select env (getExpr env t1 c) C (.data k) []             -- 213-215
        | none => (derefExpr env t1).bind fun e => select env e C (.data k) []                -- 217-219
    else none

/-- detail/tuple.hpp:222-235 `invoke`; `a` is the expression which denotes the functor. -/
def invoke (env : Env) (f : Callable) (a : Access) (args : List Expr) : Option Effect :=
  match f, args with
  | .memPtr C m, t1 :: args => invokeMemptr env C m t1 args                  -- 226-229
  | .memPtr _ _, [] => none
  | .object resTy, args => (resTy a (args.map Expr.refTy)).map fun r => .call a args r        -- 230-233

/-- `get<I>(std::forward<TupleT>(t))` in detail/tuple.hpp:247 or 245: an expression for the element. -/
def element (k : Kind) (a : Access) (e : Elem) : Expr :=
  match getOf k a e.ty with
  | .obj c => ⟨c.ty, c.const, true, e.loc⟩
  | .lref c => ⟨c.ty, c.const, false, e.loc⟩
  | .rref c => ⟨c.ty, c.const, true, e.loc⟩

/-- tuple.hpp:321-326 `apply`, detail/tuple.hpp:239-258 `apply_impl`, `apply_impl_1`: functor `f` denoted by an expression `fa`, tuple of
kind `k` denoted by an expression `a`. -/
def apply (env : Env) (f : Callable) (fa : Access) (k : Kind) (a : Access) (elems : List Elem) : Option Effect :=
  invoke env f fa (elems.map (element k a))

end Makeshift.Apply
