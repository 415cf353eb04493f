import Verif.Model.TupleAlgo

/-!
# The project's own tests of tuple and array algorithms

test/test-tuple.cpp and test/test-array.cpp, run on the model (see Conformance/Metadata.lean).  All numbers are integers here.
-/

namespace Makeshift.Conformance

/-- test-tuple.cpp:18 and test-array.cpp:20 `numbers`. -/
def numbers : List Int := [2, 3]

/-- The number passed for an argument. -/
def TVal.num : TVal Int → Int
  | .elem a => a
  | .index i => i
  | .indexConstant i => i

/-- test-tuple.cpp:19-24 `foreach`. -/
example : templateFor (-1) (fun vs sum => ((), sum + ((vs.map TVal.num).headD 0))) [.tuple numbers] 0 = some (5 : Int) := by rfl

/-- test-tuple.cpp:25-29 `transform`. -/
example : ∀ order ∈ [[0, 1], [1, 0]], (tupleTransform (-1) (fun vs s => (let x := (vs.map TVal.num).headD 0; x * x, s)) [.tuple numbers] order ()).map
    Prod.fst = some [4, 9] := by decide +kernel

/-- test-tuple.cpp:30-42 `index`: the state is the tuple of results. -/
example : templateFor (-1) (fun vs (result : List Int) => match vs with
      | [_, .elem lhs, .indexConstant index] => ((), result.set index (lhs + 1 + index * 100))
      | _ => ((), result)) [.tuple [0, 0, 0], .tuple [10, 20, 30], .tupleIndex] [0, 0, 0] = some [11, 121, 231] := by rfl

/-- test-tuple.cpp:43-47 `reduce`. -/
example : (templateReduce numbers 0 (fun sum x s => (sum + TVal.num x, s)) ()).map Prod.fst = some (5 : Int) := by rfl

/-- test-tuple.cpp:48-62 `all/any/none`. -/
example : let gt (n : Int) : Func Int Bool Unit := fun vs s => (decide ((vs.map TVal.num).headD 0 > n), s)
    (templateAllOf (gt 0) [.tuple numbers] ()).map Prod.fst = some true ∧ (templateAllOf (gt 2) [.tuple numbers] ()).map Prod.fst = some false ∧
    (templateAnyOf (gt 2) [.tuple numbers] ()).map Prod.fst = some true ∧ (templateAnyOf (gt 4) [.tuple numbers] ()).map Prod.fst = some false ∧
    (templateNoneOf (gt 2) [.tuple numbers] ()).map Prod.fst = some false ∧ (templateNoneOf (gt 4) [.tuple numbers] ()).map Prod.fst = some true := by
  decide +kernel

/-- test-array.cpp:23-46 `array-transform`. -/
example : (arrayTransform (-1) (fun vs s => (let x := (vs.map TVal.num).headD 0; x * x, s)) [.tuple numbers] ()).map Prod.fst = some [4, 9] := by
  decide +kernel
example : tupleCat [[2, 3], [6, 8]] = some [2, 3, 6, 8] := by decide +kernel
example : (arrayTransform 3 (fun vs s => ((vs.map TVal.num).headD 0 * 1, s)) [.rangeIndex] ()).map Prod.fst = some [0, 1, 2] := by decide +kernel

end Makeshift.Conformance
