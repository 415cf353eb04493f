import Verif.Model.Constval
import Verif.Model.RangeToArray

/-!
# The project's own tests of constvals

test/test-constval.cpp, run on the model (see Conformance/Metadata.lean).
-/

namespace Makeshift.Conformance

open Makeshift.Constval

/-- Types: 0 `int`, 1 `Color`, 2 `std::array<int, 1>`, 3 `CustomType`, 4 `float`.  Functors: those passed to `MAKESHIFT_CONSTVAL`, and `std::plus<>`
(10), `ToArrayTransform` (11), `ToTupleTransform` (12), the lookup of test-constval.cpp:218 (13).  Objects: `SomeClass::ct` (0), `SomeClass::ca` (1). -/
def cvEnv : Env where
  call
    | 0, _ => .scalar 0 5                                                                                -- 5
    | 1, _ => .scalar 1 0                                                                                -- Color::red
    | 2, _ => .array true 0 [.scalar 0 4, .scalar 0 2]                                                   -- std::array<int, 2>{ 4, 2 }
    | 3, _ => .array false 2 [.array true 0 [.scalar 0 4], .array true 0 [.scalar 0 2]]                  -- the array of arrays
    | 4, _ => .tuple [.array true 0 [.scalar 0 3], .array true 0 [.scalar 0 1, .scalar 0 4]]             -- the tuple of arrays
    | 5, _ => .obj (.typeIdentity 0)                                                                     -- type_identity_c<int>
    | 6, _ => .obj (.typeSequence [0, 4])                                                                -- type_sequence<int, float>{ }
    | 7, _ => .other 3 0                                                                                 -- the CustomType
    | 8, _ => .scalar 0 4                                                                                -- SomeClass::ct.i
    | 9, _ => .scalar 0 2                                                                                -- 2
    | 10, [.scalar _ a, .scalar _ b] => .scalar 0 (a + b)
    | 11, [v] => .array false 3 [v, v]
    | 12, [v] => .tuple [v, v]
    | 13, [.obj (.integralConstant 0 2)] => .other 4 3                                                   -- 3.14f
    | 14, [_, v] => match v with                                                                         -- f(xC)
      | .obj (.integralConstant 0 2) => .other 4 3
      | _ => .scalar 0 0
    | _, _ => .scalar 0 0
  object
    | 0 => .other 3 1
    | _ => .array true 0 [.scalar 0 2, .scalar 0 4]

/-- test-constval.cpp:126-134, 202-203: `expect_constval_normalization` takes an `integral_constant`. -/
example : constvalT cvEnv (.functor 0) = some (.integralConstant 0 5) ∧ constvalT cvEnv (.functor 1) = some (.integralConstant 1 0) ∧
    constvalT cvEnv (.functor 8) = some (.integralConstant 0 4) := ⟨rfl, rfl, rfl⟩

/-- test-constval.cpp:136-138: one argument is an `int`. -/
example : constvalTransform cvEnv 10 [.obj (.integralConstant 0 1), .value (.scalar 0 42)] = some (.value (.scalar 0 43)) := by rfl

/-- test-constval.cpp:140-157: arrays, arrays of arrays and tuples of arrays, and their values. -/
example : constvalT cvEnv (.functor 2) = some (.arrayConstant 0 [4, 2]) ∧ eval cvEnv (.arrayConstant 0 [4, 2]) = some (cvEnv.call 2 []) ∧
    constvalT cvEnv (.functor 3) = some (.arrayConstantRef false 2 [.arrayConstant 0 [4], .arrayConstant 0 [2]]) ∧
    eval cvEnv (.arrayConstantRef false 2 [.arrayConstant 0 [4], .arrayConstant 0 [2]]) = some (cvEnv.call 3 []) ∧
    constvalT cvEnv (.functor 4) = some (.tupleConstant [.arrayConstant 0 [3], .arrayConstant 0 [1, 4]]) ∧
    eval cvEnv (.tupleConstant [.arrayConstant 0 [3], .arrayConstant 0 [1, 4]]) = some (cvEnv.call 4 []) := ⟨rfl, rfl, rfl, rfl, rfl, rfl⟩

/-- test-constval.cpp:159-169: a `type_identity<int>` is the value of the constval, a `type_sequence<int, float>` is the constval itself. -/
example : (∃ c, constvalT cvEnv (.functor 5) = some c ∧ eval cvEnv c = some (.obj (.typeIdentity 0))) ∧
    constvalT cvEnv (.typeIdentity 4) = some (.typeIdentity 4) ∧ constvalT cvEnv (.functor 6) = some (.typeSequence [0, 4]) ∧
    constvalT cvEnv (.typeSequence [4, 0]) = some (.typeSequence [4, 0]) := ⟨⟨_, rfl, rfl⟩, rfl, rfl, rfl⟩

/-- test-constval.cpp:171-187: functors returning an array and a tuple of a class type. -/
example : constvalT cvEnv (.functor 7) = some (.constval (.functor 7)) ∧
    (∃ refs, constvalTransform cvEnv 11 [.obj (.constval (.functor 7))] = some (.constval (.arrayConstantRef false 3 refs)) ∧ refs.length = 2 ∧
      (∃ c, getC cvEnv 0 (.arrayConstantRef false 3 refs) = some c ∧ eval cvEnv c = some (.other 3 0))) ∧
    (∃ cs, constvalTransform cvEnv 12 [.obj (.constval (.functor 7))] = some (.constval (.tupleConstant cs)) ∧ cs.length = 2 ∧
      (∃ c, getC cvEnv 0 (.tupleConstant cs) = some c ∧ eval cvEnv c = some (.other 3 0))) :=
  ⟨rfl, ⟨_, rfl, rfl, _, rfl, rfl⟩, ⟨_, rfl, rfl, _, rfl, rfl⟩⟩

/-- test-constval.cpp:189-198: references to objects. -/
example : (∃ c, refConstant cvEnv 0 = some c ∧ eval cvEnv c = some (cvEnv.object 0)) ∧ refConstant cvEnv 1 = some (.arrayConstant 0 [2, 4]) :=
  ⟨⟨_, rfl, rfl⟩, rfl⟩

/-- test-constval.cpp:206-233 "constval as comonad". -/
example : constvalExtract cvEnv (.obj (.integralConstant 0 2)) = some (.scalar 0 2) ∧
    (∃ c, constvalExtend cvEnv 14 [.obj (.functor 13), .obj (.integralConstant 0 2)] = some (.constval c) ∧ eval cvEnv c = some (.other 4 3)) ∧
    (∃ c, constvalExtend cvEnv 13 [.obj (.integralConstant 0 2)] = some (.constval c) ∧ eval cvEnv c = some (.other 4 3)) :=
  ⟨rfl, ⟨_, rfl, rfl⟩, ⟨_, rfl, rfl⟩⟩

/-- test-constval.cpp:236-252 `computeFibonacciSeqUpTo`. -/
def fibonacciFrom (max : Nat) : Nat → Nat → Nat → List Nat
  | 0, _, _ => []
  | fuel + 1, c0, c1 => if c0 + c1 > max then [] else (c0 + c1) :: fibonacciFrom max fuel c1 (c0 + c1)

/-- test-constval.cpp:254-260 `constval_range_to_array`. -/
example : let seq := 1 :: 1 :: fibonacciFrom 50 50 1 1
    RangeToArray.constvalRangeToArray (some 0) ⟨some seq, seq⟩ .constant = some (.ok [1, 1, 2, 3, 5, 8, 13, 21, 34]) := by decide +kernel

end Makeshift.Conformance
