import Verif.Outcome
import Verif.Model.TypeTraits

/-!
# `visit`, `variant_transform`, `variant_transform_many`

Model of `detail/variant.hpp` lines 183-277 and `variant.hpp` lines 200-335.

A variant type is the list of its alternatives.  Simplifications: value categories are ignored; products of dimensions do
not overflow (an overflow is a compile error); the converting constructor of the resulting `std::variant` is modelled for
results whose type is one of the alternatives, which is then the best match.  `none` is an ill-formed program.
-/

namespace Makeshift

variable {Ty V : Type}

/-- A `std::variant<Ts...>` object: its alternatives, and the index and value of the active one; `none` is
`valueless_by_exception`. -/
structure VariantVal (Ty V : Type) where
  types : List Ty
  active : Option (Nat × V)
  deriving DecidableEq, Repr

/-- detail/variant.hpp:196-201 `compute_strides_0_`. -/
def computeStrides0 (curStride : Nat) (strides : List Nat) : List Nat → List Nat
  | [] => strides
  | nextDim :: dims => computeStrides0 (curStride * nextDim) (strides ++ [curStride]) dims

/-- detail/variant.hpp:201-202 `compute_strides_`. -/
def computeStrides (shape : List Nat) : List Nat := computeStrides0 1 [] shape

/-- detail/variant.hpp:204-210 `compute_size_`. -/
def computeSize (shape : List Nat) : Nat := shape.foldr (· * ·) 1

/-- detail/variant.hpp:219, the pack `(I / std::size_t(Strides)) % std::size_t(Dims)...`. -/
def decodeIndex (dims strides : List Nat) (i : Nat) : List Nat :=
  List.zipWith (fun stride dim => (i / stride) % dim) strides dims

/-- detail/variant.hpp:185-190 `nth_variant_type` for each argument, as expanded in line 219. -/
def comboTypes : List (List Ty) → List Nat → Option (List Ty)
  | [], [] => some []
  | Ts :: args, i :: is => do
    let T ← nthType i Ts
    let rest ← comboTypes args is
    pure (T :: rest)
  | _, _ => none

/-- detail/variant.hpp:212-240 `variant_transform_result_0_`: the result type for every linear index. -/
def resultSeq {R : Type} (resTy : List Ty → R) (args : List (List Ty)) : Option (List R) :=
  let shape := args.map List.length
  let strides := computeStrides shape
  (List.range (computeSize shape)).mapM fun i => (comboTypes args (decodeIndex shape strides i)).map resTy

/-- detail/variant.hpp:244-253 `variant_transform_result_`: alternatives of the resulting variant. -/
def variantTransformResult [DecidableEq Ty] (isVoid : Ty → Bool) (resTy : List Ty → Ty) (args : List (List Ty)) :
    Option (List Ty) :=
  (resultSeq resTy args).map fun results => uniqueSequence (filterSequence (fun T => !isVoid T) results)

/-- detail/variant.hpp:255-266 `flatten_variant_`. -/
def flattenVariant (Rs : List Ty) : List (List Ty) → List Ty
  | [] => Rs
  | V0Ts :: Vs => flattenVariant (Rs ++ V0Ts) Vs

/-- detail/variant.hpp:268-277 `variant_transform_many_result_`. -/
def variantTransformManyResult [DecidableEq Ty] (resTys : List Ty → List Ty) (args : List (List Ty)) : Option (List Ty) :=
  (resultSeq resTys args).map fun results => uniqueSequence (flattenVariant [] results)

/-- The active alternatives as `std::visit` sees them (variant.hpp:200-238): `bad_variant_access` if an argument is
valueless.  An active index out of range cannot occur in a `std::variant`; it is `ub` here. -/
def activeAlternatives : List (VariantVal Ty V) → Outcome (List (Ty × V))
  | [] => .ok []
  | v :: vs =>
    match v.active with
    | none => .throw (str "bad_variant_access")
    | some (i, x) =>
      match v.types[i]? with
      | none => .ub
      | some T => (activeAlternatives vs).bind fun rest => .ok ((T, x) :: rest)

/-- Construction of a `std::variant<Rs...>` from a value of type `T` ([variant.ctor]): `T` must occur exactly once. -/
def convertToVariant [DecidableEq Ty] (Rs : List Ty) (T : Ty) (x : V) : Option (VariantVal Ty V) :=
  if Rs.count T = 1 then some ⟨Rs, some (Rs.idxOf T, x)⟩ else none

/-- A functor as `variant_transform` sees it: its result type for given argument types and its result for given
arguments. -/
structure VFunctor (Ty V : Type) where
  resTy : List Ty → Ty
  run : List (Ty × V) → V

/-- What a call did: the arguments of every functor call, in order, and the outcome. -/
structure Traced (C R : Type) where
  calls : List C
  out : Outcome R
  deriving DecidableEq, Repr

/-- variant.hpp:249-289 `variant_transform`.  The instantiation of `std::variant<>` is ill-formed ([variant.variant]). -/
def variantTransform [DecidableEq Ty] (isVoid : Ty → Bool) (f : VFunctor Ty V) (args : List (VariantVal Ty V)) :
    Option (Traced (List (Ty × V)) (VariantVal Ty V)) :=
  (variantTransformResult isVoid f.resTy (args.map VariantVal.types)).bind fun R =>
    if R.isEmpty then none else
    match activeAlternatives args with
    | .ok act =>
      let RR := f.resTy (act.map Prod.fst)
      if isVoid RR then some ⟨[act], .failFast⟩                                             -- 274-278
      else (convertToVariant R RR (f.run act)).map fun r => ⟨[act], .ok r⟩                   -- 280-282
    | .throw m => some ⟨[], .throw m⟩
    | .failFast => some ⟨[], .failFast⟩
    | .ub => some ⟨[], .ub⟩

/-- A functor as `variant_transform_many` sees it: alternatives of the variant returned for given argument types, and the
active alternative of the variant returned for given arguments (`none`: valueless). -/
structure VMFunctor (Ty V : Type) where
  resTys : List Ty → List Ty
  run : List (Ty × V) → Option (Nat × V)

/-- variant.hpp:299-335 `variant_transform_many`. -/
def variantTransformMany [DecidableEq Ty] (f : VMFunctor Ty V) (args : List (VariantVal Ty V)) :
    Option (Traced (List (Ty × V)) (VariantVal Ty V)) :=
  (variantTransformManyResult f.resTys (args.map VariantVal.types)).bind fun R =>
    if R.isEmpty then none else
    match activeAlternatives args with
    | .ok act =>
      match activeAlternatives [(⟨f.resTys (act.map Prod.fst), f.run act⟩ : VariantVal Ty V)] with
      | .ok [(T, x)] => (convertToVariant R T x).map fun r => ⟨[act], .ok r⟩
      | .ok _ => some ⟨[act], .ub⟩
      | .throw m => some ⟨[act], .throw m⟩
      | .failFast => some ⟨[act], .failFast⟩
      | .ub => some ⟨[act], .ub⟩
    | .throw m => some ⟨[], .throw m⟩
    | .failFast => some ⟨[], .failFast⟩
    | .ub => some ⟨[], .ub⟩

end Makeshift
