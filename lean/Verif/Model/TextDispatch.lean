import Verif.Model.ExpandVisit
import Verif.Model.StaticMetadata

/-!
# From text to constants

Programs which read the name of an enumerator, or a combination of flags, and call a functor with the matching constant: the functions of `string.hpp`
composed with those of `variant.hpp`.  `none`: does not compile.
-/

namespace Makeshift.TextDispatch

open ExpandVisit

variable {Ty V R : Type}

/-- `visit(f, expand(value))` for a value of a type with metadata, given by the outcome of the expression `value` (client code; variant.hpp:180-191,
200-238). -/
def visitExpanded [DecidableEq Ty] (const : Int → Ty) (unit : V) (rep : IntTy) (env : Metadata.Env) (T : Nat) (f : List (Ty × V) → R) :
    Outcome Int → Option (Traced (List (Ty × V)) R)
  | .ok value => (expandByMetadata const unit .throwing rep env T value).map fun
    | .ok (some v) => visit f [v]
    | .ok none => ⟨[], .ub⟩
    | .throw m => ⟨[], .throw m⟩
    | .failFast => ⟨[], .failFast⟩
    | .ub => ⟨[], .ub⟩
  -- whether the call compiles does not depend on the value
  | .throw m => (expandByMetadata const unit .throwing rep env T 0).map fun _ => ⟨[], .throw m⟩
  | .failFast => (expandByMetadata const unit .throwing rep env T 0).map fun _ => ⟨[], .failFast⟩
  | .ub => (expandByMetadata const unit .throwing rep env T 0).map fun _ => ⟨[], .ub⟩

/-- `visit(f, expand(parse_enum<T>(s)))` (client code; string.hpp:32-37). -/
def visitParsedEnum [DecidableEq Ty] (const : Int → Ty) (unit : V) (rep : IntTy) (env : Metadata.Env) (T : Nat) (f : List (Ty × V) → R) (s : Str) :
    Option (Traced (List (Ty × V)) R) :=
  (Metadata.parseEnumOf env T s).bind (visitExpanded const unit rep env T f)

/-- `visit(f, expand(parse_flags<T>(s)))` (client code; string.hpp:47-54), for an enumeration whose underlying type is unsigned and has `w` bits. -/
def visitParsedFlags [DecidableEq Ty] (const : Int → Ty) (unit : V) (w : Nat) (env : Metadata.Env) (T : Nat) (f : List (Ty × V) → R) (s : Str) :
    Option (Traced (List (Ty × V)) R) :=
  (Metadata.parseFlagsOf w env T s).bind fun o => visitExpanded const unit ⟨w, false⟩ env T f (o.mapVal fun b => (b.toNat : Int))

end Makeshift.TextDispatch
