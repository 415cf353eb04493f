import Verif.Model.Apply
import Verif.Spec.TupleAccess
import Mathlib.Data.List.Forall2

/-! Specification vocabulary for `apply`: what the C++17 standard says about `INVOKE`. -/

namespace Makeshift.Spec.Apply

open Makeshift.TupleAccess Makeshift.TupleMove Makeshift.VariantForward Makeshift.Apply Makeshift.Spec.TupleAccess

/-- [expr.mptr.oper] What `e.*f`, or `(e.*f)(args...)`, does for a pointer `f` to a member of class `C`: the class of `e` must be `C` or
derived from it; a member function that is not const cannot be called for a const object, one with qualifier `&` not for an rvalue, one
with qualifier `&&` only for an rvalue. -/
inductive Selects (env : Env) (C : Nat) : Expr → Member → List Expr → Effect → Prop
  | data {e : Expr} {k : Bool} : env.isBase C e.ty = true → Selects env C e (.data k) [] (.memberAccess e (e.const || k) e.rvalue)
  | func {e : Expr} {k : Bool} {q : RefQual} {resTy : List Ty → Option RTy} {args : List Expr} {r : RTy} :
      env.isBase C e.ty = true → (e.const = true → k = true) → (q = .lvalue → e.rvalue = false) → (q = .rvalue → e.rvalue = true) →
      resTy (args.map Expr.refTy) = some r → Selects env C e (.func k q resTy) args (.memberCall e args r)

/-- Expression `e` has the type and value category of a call with return type `t`. -/
def HasType (e : Expr) : Ty → Prop
  | .obj c => e.ty = c.ty ∧ e.const = c.const ∧ e.rvalue = true
  | .lref c => e.ty = c.ty ∧ e.const = c.const ∧ e.rvalue = false
  | .rref c => e.ty = c.ty ∧ e.const = c.const ∧ e.rvalue = true

/-- [func.require] The object to which `INVOKE` applies a pointer to member of class `C` if the first argument is `t1`: `t1` itself if its
class is `C` or derived from `C`; otherwise `t1.get()` if it is a `reference_wrapper`; otherwise `*t1`. -/
inductive Subject (env : Env) (C : Nat) (t1 : Expr) : Expr → Prop
  | self : env.isBase C t1.ty = true → Subject env C t1 t1
  | wrapper {c : CTy} : env.isBase C t1.ty = false → env.refWrapper t1.ty = some c →
      Subject env C t1 ⟨c.ty, c.const, false, env.target t1.loc⟩
  | deref {t : Ty} {e : Expr} : env.isBase C t1.ty = false → env.refWrapper t1.ty = none →
      env.deref t1.ty ⟨t1.const, t1.rvalue⟩ = some t → HasType e t → e.loc = env.target t1.loc → Subject env C t1 e

/-- [func.require] `INVOKE(f, args...)`, for a functor which is denoted by an expression `a`. -/
inductive Invokes (env : Env) (a : Access) : Callable → List Expr → Effect → Prop
  | object {resTy : Access → List Ty → Option RTy} {args : List Expr} {r : RTy} :
      resTy a (args.map Expr.refTy) = some r → Invokes env a (.object resTy) args (.call a args r)
  | member {C : Nat} {m : Member} {t1 e : Expr} {args : List Expr} {eff : Effect} :
      Subject env C t1 e → Selects env C e m args eff → Invokes env a (.memPtr C m) (t1 :: args) eff

/-- [tuple.apply] The arguments to which `std::apply` applies the functor for a `std::tuple` denoted by `a`: `std::get<0>(t)`,
`std::get<1>(t)`, ... -/
def StdElements (a : Access) (elems : List Elem) (args : List Expr) : Prop :=
  List.Forall₂ (fun (e : Elem) (x : Expr) => x.loc = e.loc ∧ HasType x (StdGet a e.ty)) elems args

end Makeshift.Spec.Apply
