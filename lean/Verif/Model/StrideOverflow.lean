import Verif.Model.VariantTransform

/-! # The arithmetic behind the enumeration of combinations, in machine integers

detail/variant.hpp:195: "Using a signed type here means we get a compile error on overflow."  `none` is that compile error; `max` is the largest `std::ptrdiff_t`. -/

namespace Makeshift.StrideOverflow

variable {Ty : Type}

/-- A product of two `std::ptrdiff_t` template arguments: overflow is not permitted in a constant expression ([expr.const]). -/
def mul (max a b : Nat) : Option Nat := if a * b ≤ max then some (a * b) else none

/-- detail/variant.hpp:193-194 `seq_size_`: the conversion of `sizeof...(Ts)` to `std::ptrdiff_t` must not narrow ([dcl.init.list]). -/
def seqSize (max : Nat) (Ts : List Ty) : Option Nat := if Ts.length ≤ max then some Ts.length else none

/-- detail/variant.hpp:196-202 `compute_strides_0_`: also the product with the last dimension is computed. -/
def strides0 (max cur : Nat) (strides : List Nat) : List Nat → Option (List Nat)
  | [] => some strides
  | nextDim :: dims => (mul max cur nextDim).bind fun next => strides0 max next (strides ++ [cur]) dims

/-- detail/variant.hpp:204-210 `compute_size_`: the fold `(Is * ... * 1)` associates to the right, as the recursion for C++14 does. -/
def size (max : Nat) : List Nat → Option Nat
  | [] => some 1
  | dim :: dims => (size max dims).bind fun n => mul max dim n

/-- detail/variant.hpp:219 `(I / std::size_t(Strides)) % std::size_t(Dims)...`: division by zero is no constant expression; nothing can overflow. -/
def decode (i : Nat) : List Nat → List Nat → Option (List Nat)
  | stride :: strides, dim :: dims =>
    if stride = 0 ∨ dim = 0 then none else (decode i strides dims).map ((i / stride) % dim :: ·)
  | _, _ => some []

/-- detail/variant.hpp:212-240 `variant_transform_result_0_`. -/
def results {R : Type} (max : Nat) (resTy : List Ty → R) (args : List (List Ty)) : Option (List R) :=
  (args.mapM (seqSize max)).bind fun shape =>                                                      -- 236
  (strides0 max 1 [] shape).bind fun strides =>                                                    -- 237
  (size max shape).bind fun n =>                                                                   -- 238
  (List.range n).mapM fun i => (decode i strides shape).bind fun is => (comboTypes args is).map resTy   -- 239

end Makeshift.StrideOverflow
