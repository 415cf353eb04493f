import Verif.Outcome

/-!
# C++ integer types

Integer values are mathematical integers together with a type giving their range.  Assumptions: two's complement,
`int` has 32 bits, `std::size_t` and `std::ptrdiff_t` have 64 bits, narrowing conversions to signed types are modular
(implementation-defined before C++20, modular on all relevant compilers).
-/

namespace Makeshift

/-- An integer type: width and signedness. -/
structure IntTy where
  bits : Nat
  signed : Bool
  deriving DecidableEq, Repr

namespace IntTy

/-- Smallest value of the type. -/
def minVal (t : IntTy) : Int := if t.signed then -(2 ^ (t.bits - 1) : Nat) else 0

/-- Largest value of the type. -/
def maxVal (t : IntTy) : Int := if t.signed then (2 ^ (t.bits - 1) : Nat) - 1 else (2 ^ t.bits : Nat) - 1

/-- The value is representable in the type. -/
def InRange (t : IntTy) (x : Int) : Prop := t.minVal ≤ x ∧ x ≤ t.maxVal

instance (t : IntTy) (x : Int) : Decidable (t.InRange x) := by unfold InRange; infer_instance

/-- Conversion to the type ([conv.integral]): reduction modulo `2^bits`. -/
def wrap (t : IntTy) (x : Int) : Int := if t.signed then x.bmod (2 ^ t.bits) else x % (2 ^ t.bits : Nat)

/-- Integral promotion ([conv.prom]): types narrower than `int` become `int`. -/
def promote (t : IntTy) : IntTy := if t.bits < 32 then ⟨32, true⟩ else t

/-- Result of an arithmetic operation of type `t` with exact result `x`: signed overflow is undefined, unsigned
arithmetic is modular ([expr.pre], [basic.fundamental]). -/
def arith (t : IntTy) (x : Int) : Outcome Int :=
  if t.signed then (if t.InRange x then .ok x else .ub) else .ok (t.wrap x)

/-- `std::size_t`. -/
def sizeT : IntTy := ⟨64, false⟩
/-- `std::ptrdiff_t`. -/
def ptrdiffT : IntTy := ⟨64, true⟩

end IntTy

end Makeshift
