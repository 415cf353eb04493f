import Verif.Model.ReduceTypes
import Verif.Spec.Search
import Mathlib.Data.Int.ModEq

/-! Specification of reductions in integer arithmetic. -/

namespace Makeshift.Spec

/-- The operation on mathematical integers. -/
def mathOp : ArithOp → Int → Int → Int
  | .plus => fun a b => a + b
  | .minus => fun a b => a - b
  | .multiplies => fun a b => a * b

/-- The mathematical result: `init`, combined with the elements from left to right. -/
def mathResult (op : ArithOp) (init : Int) (elems : List Int) : Int := elems.foldl (mathOp op) init

/-- The common type of the initial value and the elements seen so far. -/
def resultType (t : IntTy) (us : List IntTy) : IntTy := us.foldl IntTy.common t

/-- Reduction of integers, each with its type, one call of the function object after the other (`none`: undefined behaviour): exact in a signed common type, undefined if
the mathematical result is not a value of it, and modulo a power of two in an unsigned common type. -/
inductive Reduces (op : ArithOp) : IntTy × Int → List (IntTy × Int) → Option (IntTy × Int) → Prop
  | done {v} : Reduces op v [] (some v)
  | exact {t a u b l r} : (t.common u).signed = true → (t.common u).InRange (mathOp op a b) → Reduces op (t.common u, mathOp op a b) l r →
      Reduces op (t, a) ((u, b) :: l) r
  | overflow {t a u b l} : (t.common u).signed = true → ¬ (t.common u).InRange (mathOp op a b) → Reduces op (t, a) ((u, b) :: l) none
  | modular {t a u b l r x} : (t.common u).signed = false → (t.common u).InRange x → x ≡ mathOp op a b [ZMOD (2 ^ (t.common u).bits : Nat)] →
      Reduces op (t.common u, x) l r → Reduces op (t, a) ((u, b) :: l) r

end Makeshift.Spec
