import Verif.Model.Expand
import Verif.Model.VariantTransform
import Verif.Model.Metadata
import Verif.Model.StaticMetadata

/-!
# Dispatch from runtime values to constants

`expand` with the variant it returns, the overloads which take the values from the metadata, and `visit` applied to the result: model of
`detail/variant.hpp` lines 45-57 and `variant.hpp` lines 43-190 and 200-238, for values of integral, enumeration and Boolean type.

The alternatives of the variant are the types `constant<T, V>` = `std::integral_constant<T, V>` (detail/constval.hpp:222-227), given by
an injective map `const` from values to types.  Their objects are empty: `unit` is the only value of type `V`.  The outer `Option` is
`none` if the call does not compile.
-/

namespace Makeshift.ExpandVisit

variable {Ty V R : Type}

/-- detail/variant.hpp:45-54 `constval_variant_map`: the variant objects, one for each listed value.  Neither a `std::variant` without
alternatives nor an array `values[]` without elements exist.  Each object is constructed from a constant by the converting
constructor. -/
def variantMap [DecidableEq Ty] (const : Int → Ty) (unit : V) (values : List Int) : Option (List (VariantVal Ty V)) :=
  if values = [] then none else values.mapM fun v => convertToVariant (values.map const) (const v) unit

/-- variant.hpp:43-50 `expand_failfast`, 98-105 `try_expand`, 153-160 `expand`; `rep` is the representation type.  The contiguity test is a
constant expression (detail/variant.hpp:162), so an overflow in it does not compile. -/
def expand [DecidableEq Ty] (const : Int → Ty) (unit : V) (mode : ExpandMode) (rep : IntTy) (value : Int) (values : List Int) :
    Option (Outcome (Option (VariantVal Ty V))) :=
  (variantMap const unit values).bind fun map =>
    match areValuesContiguous rep values with
    | .ok _ => some (expandWith mode (searchIntegral rep value values) map)
    | _ => none

/-- variant.hpp:69-80, 125-136, 180-191: the same functions with the values of the metadata of type `T`; without values a
`static_assert` fails. -/
def expandByMetadata [DecidableEq Ty] (const : Int → Ty) (unit : V) (mode : ExpandMode) (rep : IntTy) (env : Metadata.Env) (T : Nat)
    (value : Int) : Option (Outcome (Option (VariantVal Ty V))) :=
  (Metadata.available (Metadata.values env T)).bind fun vs => (vs.mapM (Metadata.valOf T)).bind fun vs =>
    expand const unit mode rep value vs

/-- variant.hpp:200-238 `visit`: the functor gets the active alternatives. -/
def visit (f : List (Ty × V) → R) (args : List (VariantVal Ty V)) : Traced (List (Ty × V)) R :=
  match activeAlternatives args with
  | .ok act => ⟨[act], .ok (f act)⟩
  | .throw m => ⟨[], .throw m⟩
  | .failFast => ⟨[], .failFast⟩
  | .ub => ⟨[], .ub⟩

/-- A runtime value with its type and the list of values it may have. -/
structure Runtime (Ty : Type) where
  const : Int → Ty
  rep : IntTy
  value : Int
  values : List Int

/-- `expand(value1, values1), expand(value2, values2), ...` (client code).  The arguments of a call are evaluated in an unspecified order;
the model takes them from left to right. -/
def expandAll [DecidableEq Ty] (unit : V) : List (Runtime Ty) → Option (Outcome (List (VariantVal Ty V)))
  | [] => some (.ok [])
  | a :: as => (expand a.const unit .throwing a.rep a.value a.values).bind fun o => (expandAll unit as).map fun os =>
      o.bind fun v => match v with
        | some v => os.bind fun vs => .ok (v :: vs)
        | none => .ub

/-- `visit(f, expand(value1, values1), expand(value2, values2), ...)` (client code, as in the comment variant.hpp:28-41). -/
def dispatch [DecidableEq Ty] (unit : V) (f : List (Ty × V) → R) (args : List (Runtime Ty)) : Option (Traced (List (Ty × V)) R) :=
  (expandAll unit args).map fun
    | .ok vs => visit f vs
    | .throw m => ⟨[], .throw m⟩
    | .failFast => ⟨[], .failFast⟩
    | .ub => ⟨[], .ub⟩

/-- `variant_transform(f, expand(value1, values1), expand(value2, values2), ...)` (client code). -/
def dispatchTransform [DecidableEq Ty] (unit : V) (isVoid : Ty → Bool) (f : VFunctor Ty V) (args : List (Runtime Ty)) :
    Option (Traced (List (Ty × V)) (VariantVal Ty V)) :=
  (expandAll unit args).bind fun
    | .ok vs => variantTransform isVoid f vs
    | .throw m => some ⟨[], .throw m⟩
    | .failFast => some ⟨[], .failFast⟩
    | .ub => some ⟨[], .ub⟩

end Makeshift.ExpandVisit
