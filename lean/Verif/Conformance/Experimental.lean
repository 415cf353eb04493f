import Verif.Model.Buffer
import Verif.Model.SoaIterator
import Verif.Model.TypeEnum

/-!
# The project's own tests of experimental features

test/experimental/test-buffer.cpp, test-span.cpp and test-enum.cpp, run on the model (see Conformance/Metadata.lean).  The other files in
test/experimental contain no tests.
-/

namespace Makeshift.Conformance

/-- test-buffer.cpp:16-29, and the elements read back. -/
example : let ops : List Buffer.Op :=
      [.construct 1 (.buffer (some 1) (-1)) 1, .assignArray 1 [1], .construct 5 (.buffer (some 5) 1) 5, .assignArray 5 [1, 4, 1, 4, 2],
        .construct 3 (.buffer none 4) 3, .assignArray 3 [1, 4, 1], .construct 7 (.buffer none 4) 7, .assignArray 7 [1, 4, 1, 4, 2, 1, 3],
        .back 1, .back 5, .back 3, .back 7, .read 7 4, .size 3, .destroy 7, .destroy 3, .destroy 5, .destroy 1]
    ∃ s, Buffer.run 1000 .init ops = .ok (s, List.replicate 8 .unit ++ [.num 1, .num 2, .num 1, .num 3, .num 2, .num 3] ++ List.replicate 4 .unit) ∧
      (∀ id < 10, s.heap.blocks id = none) :=
  ⟨_, rfl, by decide⟩

/-- test-span.cpp:15-21: the columns `ivals` (array 0) and `uvals` (array 1), 42 elements each. -/
def soaState : Soa.State Int where
  cells a := if a = 0 then (List.range 42).map Int.ofNat else if a = 1 then List.replicate 42 0 else []
  isConst _ := false
  spans _ := none

/-- test-span.cpp:26-30: `for (auto&& ref : ss) get<1>(ref) = get<0>(ref);` with `n` elements left. -/
def copyColumn (st : Soa.State Int) (it : Soa.Ref) : Nat → Outcome (Soa.State Int)
  | 0 => .ok st
  | n + 1 => (Soa.getElem st it 0).bind fun v =>
    match Soa.assignElemQ [false, false] st it 1 (v.getD 0) with
    | some r => r.bind fun st => copyColumn st (it.plus 1) n
    | none => .failFast

/-- test-span.cpp:23-38. -/
example : ∃ s ss, Soa.makeSpan [(⟨0, 0⟩, 42), (⟨1, 0⟩, 42)] = .ok s ∧ s.subspan 2 3 = .ok ss ∧
    (∃ st, copyColumn ((soaState.setSpan 0 (some s)).setSpan 1 (some ss)) (Soa.begin' 1) ss.size = .ok st ∧
      st.cells 1 = (List.range 42).map (fun i : Nat => if 2 ≤ i ∧ i < 5 then (i : Int) else 0) ∧ st.cells 0 = (List.range 42).map Int.ofNat) ∧
    (∃ last, Soa.end' (soaState.setSpan 0 (some s)) 0 = .ok last ∧ last.diff (Soa.begin' 0) = .ok 42) :=
  ⟨_, _, rfl, rfl, ⟨_, rfl, by decide +kernel, by decide +kernel⟩, ⟨_, rfl, by decide +kernel⟩⟩

/-- test-enum.cpp:16-36: `float` is 0 and `double` 1. -/
example : let FloatTypes := [0, 1]
    TypeEnum.wellFormed FloatTypes = true ∧ TypeEnum.fromType FloatTypes 0 = some (.ok 0) ∧ TypeEnum.neType FloatTypes 0 1 = some true ∧
      TypeEnum.switchOn FloatTypes 0 [0, 1] = some (some 0) := by decide +kernel

end Makeshift.Conformance
