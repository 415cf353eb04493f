import Verif.Model.VariantTransform
import Verif.Model.Expand

/-!
# The project's own tests of variants

test/test-variant.cpp, run on the model (see Conformance/Metadata.lean).
-/

namespace Makeshift.Conformance

/-- The types which occur in test-variant.cpp. -/
inductive VTy where
  | int | float | charPtr
  deriving DecidableEq, Repr

/-- test-variant.cpp:29-31 `V1`, `V2`, `V3`. -/
def v1 : List VTy := [.int, .float]
@[inherit_doc v1]
def v2 : List VTy := [.charPtr, .int]
@[inherit_doc v1]
def v3 : List VTy := [.charPtr, .float]

/-- test-variant.cpp:33-39 `VarTransformer`; values are integers here, 0 stands for "hi" and 1 for "there". -/
def varTransformer : VFunctor VTy Int where
  resTy := fun
    | [.float, .int] => .charPtr
    | _ => .int
  run := fun
    | [(.float, _), (.int, _)] => 0
    | (_, i) :: _ => i
    | [] => 0

/-- test-variant.cpp:40-46 `NestedVarTransformer`. -/
def nestedVarTransformer : VMFunctor VTy Int where
  resTys := fun
    | [.float, .int] => v2
    | [.float, .charPtr] => v3
    | _ => v1
  run := fun
    | [(.float, _), (.int, _)] => some (0, 0)
    | [(.float, f), (.charPtr, _)] => some (1, f)
    | (_, i) :: _ => some (0, i)
    | [] => none

/-- test-variant.cpp:48-58: `VT12`, `VTM12` and the values. -/
example : variantTransform (fun _ => false) varTransformer [⟨v1, some (0, 42)⟩, ⟨v2, some (0, 1)⟩] =
    some ⟨[[(.int, 42), (.charPtr, 1)]], .ok ⟨[.int, .charPtr], some (0, 42)⟩⟩ := by decide +kernel
example : variantTransformMany nestedVarTransformer [⟨v1, some (0, 42)⟩, ⟨v2, some (0, 1)⟩] =
    some ⟨[[(.int, 42), (.charPtr, 1)]], .ok ⟨[.float, .charPtr, .int], some (2, 42)⟩⟩ := by decide +kernel

/-- test-variant.cpp:62-83 `expand` with strings, which are compared by `<` and `==`: the alternative of the string given. -/
def strLt : Str → Str → Bool
  | _, [] => false
  | [], _ :: _ => true
  | a :: s, b :: t => decide (a < b) || (a == b && strLt s t)

example : ∀ s ∈ [str "foo", str "bar"],
    expandWith .throwing (searchGeneral (some strLt) (· == ·) s [str "foo", str "bar"]) [str "foo", str "bar"] = .ok (some s) := by
  decide +kernel

end Makeshift.Conformance
