import Verif.Outcome

/-!
# Conversions between variants and optionals

Model of `experimental/variant.hpp` and `experimental/detail/variant.hpp`.  A variant type is the list of its alternatives; a variant
object is the index and the value of the alternative it holds, or `none` if it is valueless.  Values are elements of an arbitrary type
`Val`; copying or moving a value of the same type leaves it unchanged.  The outer `Option` of a function's result is `none` if the call
does not compile.
-/

namespace Makeshift.ExpVariant

variable {Ty Val : Type} [DecidableEq Ty]

/-- State of a variant: alternative index and value, or valueless. -/
abbrev Held (Val : Type) := Option (Nat × Val)

/-- `std::bad_variant_access`, thrown by `std::visit` for a valueless variant. -/
def badVariantAccess : Str := str "bad_variant_access"

/-- Overload resolution of the converting constructor of `std::variant` for alternatives other than the argument's type: chosen index
and conversion; `none` if there is no viable or no unique best alternative. -/
abbrev Convert (Ty Val : Type) := Ty → List Ty → Option (Nat × (Val → Val))

/-- The converting constructor `std::variant<dst...>(T)` ([variant.ctor]): an alternative of the very same type wins, if it is the only
one of that type; several such alternatives are ambiguous; otherwise `other` decides. -/
def select (other : Convert Ty Val) (T : Ty) (dst : List Ty) : Option (Nat × (Val → Val)) :=
  match dst.zipIdx.filter (fun p => p.1 = T) with
  | [p] => some (p.2, id)
  | [] => other T dst
  | _ => none

/-- `std::visit` with a functor which constructs a variant of type `dst` from every alternative; it must be valid for all alternatives
of `src`. -/
def visitConstruct (other : Convert Ty Val) (dst src : List Ty) (v : Held Val) : Option (Outcome (Held Val)) :=
  if src ≠ [] ∧ dst ≠ [] ∧ ∀ T ∈ src, (select other T dst).isSome then
    some (match v with
      | none => .throw badVariantAccess
      | some (i, x) =>
        match src[i]?.bind fun T => select other T dst with
        | some (k, conv) => .ok (some (k, conv x))
        | none => .ub)  -- not a state of `std::variant<src...>`
  else none

/-- experimental/variant.hpp:36-58 `variant_cast<DstV>(variant)`. -/
def variantCast (other : Convert Ty Val) (dst src : List Ty) (v : Held Val) : Option (Outcome (Held Val)) :=
  visitConstruct other dst src v

/-- experimental/variant.hpp:26-29, experimental/detail/variant.hpp:15-16 `with_monostate`. -/
def withMonostate (mono : Ty) (ts : List Ty) : List Ty := mono :: ts

/-- experimental/variant.hpp:31-34, experimental/detail/variant.hpp:17-18 `without_monostate`: only if `std::monostate` comes first. -/
def withoutMonostate (mono : Ty) : List Ty → Option (List Ty)
  | [] => none
  | t :: ts => if t = mono then some ts else none

/-- experimental/variant.hpp:63-86 `variant_to_optional`.  `std::holds_alternative<std::monostate>` requires exactly one such
alternative.  The visitor (experimental/detail/variant.hpp:20-32) need not be able to convert a monostate. -/
def variantToOptional (other : Convert Ty Val) (mono : Ty) (src : List Ty) (v : Held Val) :
    Option (Outcome (Option (Held Val))) :=
  (withoutMonostate mono src).bind fun r =>
    if src.count mono = 1 ∧ r ≠ [] ∧ ∀ T ∈ r, (select other T r).isSome then
      some (match v with
        | none => .throw badVariantAccess
        | some (i, x) =>
          if src[i]? = some mono then .ok none
          else
            match src[i]?.bind fun T => select other T r with
            | some (k, conv) => .ok (some (some (k, conv x)))
            | none => .ub)  -- not a state of the variant
    else none

/-- experimental/variant.hpp:91-103 `optional_to_variant`; `monoVal` is the value of `std::monostate{ }`. -/
def optionalToVariant (other : Convert Ty Val) (mono : Ty) (monoVal : Val) (ts : List Ty) (o : Option (Held Val)) :
    Option (Outcome (Held Val)) :=
  let r := withMonostate mono ts
  match select other mono r with
  | none => none
  | some (k, conv) =>
    -- the cast is compiled whether or not it is executed
    (variantCast other r ts none).bind fun _ =>
      match o with
      | none => some (.ok (some (k, conv monoVal)))
      | some v => variantCast other r ts v

/-- experimental/variant.hpp:109, experimental/detail/variant.hpp:34-46 `variant_cat_t`. -/
def variantCat : List (List Ty) → Option (List Ty)
  | [] => none
  | [ts] => some ts
  | ts :: us :: _ => some (ts ++ us)

end Makeshift.ExpVariant
