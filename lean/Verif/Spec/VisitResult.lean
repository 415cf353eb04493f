import Verif.Spec.VariantForward
import Verif.Model.VisitResult

/-! # Specification vocabulary for results of `visit<R>` -/

namespace Makeshift.Spec.VisitResult

open Makeshift.TupleAccess Makeshift.VariantForward Makeshift.VisitResult

variable {V : Type}

/-- The class of an object, or of the object a reference refers to. -/
def classOf : Ty → CTy
  | .obj c => c
  | .lref c => c
  | .rref c => c

/-- `t` is a reference type. -/
def IsRef : Ty → Prop
  | .obj _ => False
  | .lref _ => True
  | .rref _ => True

/-- The result belongs to a call of that type. -/
inductive Fits : RTy → Ret V → Prop
  | void : Fits .void .void
  | obj {c v} : Fits (.ty (.obj c)) (.val v)
  | lref {c l} : Fits (.ty (.lref c)) (.loc l)
  | rref {c l} : Fits (.ty (.rref c)) (.loc l)
  | raise {r msg} : Fits r (.raise msg)

/-- An expression of type `t` can initialise a result of type `T`. -/
inductive Accepts (conv : Conversions V) : Ty → Ty → Prop
  /-- a new object, of the same class -/
  | same {C c : CTy} : c.ty = C.ty → Accepts conv (.obj C) (.obj c)
  /-- a new object, by an implicit conversion -/
  | object {C t} : (¬ IsRef t → (classOf t).ty ≠ C.ty) → (conv t C.ty).isSome = true → Accepts conv (.obj C) t
  /-- a reference to a const object takes every object of the same class -/
  | constRef {C t} : C.const = true → (classOf t).ty = C.ty → Accepts conv (.lref C) t
  /-- another lvalue reference takes lvalues of the same class which are not const -/
  | lvalue {C c : CTy} : c.ty = C.ty → c.const = false → Accepts conv (.lref C) (.lref c)
  /-- an rvalue reference takes rvalues of the same class, which are const only if it refers to a const object -/
  | rvalue {C t} : (∀ c, t ≠ .lref c) → (classOf t).ty = C.ty → ((classOf t).const = true → C.const = true) → Accepts conv (.rref C) t
  /-- a reference to a const object and an rvalue reference take what can be converted -/
  | converted {T t} : (T = .lref ⟨(classOf T).ty, true⟩ ∨ T = .rref (classOf T)) → (classOf t).ty ≠ (classOf T).ty →
      (conv t (classOf T).ty).isSome = true → Accepts conv T t

/-- Reading the object which a result is or refers to. -/
inductive Reads (m : Nat → V) : Got V → Outcome V → Prop
  | obj {v} : Reads m (.obj v) (.ok v)
  | ref {l} : Reads m (.ref l) (.ok (m l))
  | dangling : Reads m .dangling .ub

end Makeshift.Spec.VisitResult
