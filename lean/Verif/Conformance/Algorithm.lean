import Verif.Model.Zip
import Verif.Model.IteratorTag

/-!
# The project's own tests of `range_zip` and `range_for`

test/test-algorithm.cpp, run on the model (see Conformance/Metadata.lean).
-/

namespace Makeshift.Conformance

/-- test-algorithm.cpp:37-44: `vec0`, `list0`, `arr3`, `vec3`, `list3` and `range_index`. -/
def vec0 : Rng Int := ⟨.index, .dyn 0, []⟩
@[inherit_doc vec0]
def list0 : Rng Int := ⟨.iterator, .dyn 0, []⟩
@[inherit_doc vec0]
def arr3 : Rng Int := ⟨.index, .static 3, [21, 22, 23]⟩
@[inherit_doc vec0]
def vec3 : Rng Int := ⟨.index, .dyn 3, [1, 2, 3]⟩
@[inherit_doc vec0]
def list3 : Rng Int := ⟨.iterator, .dyn 3, [11, 12, 13]⟩
@[inherit_doc vec0]
def rangeIdx : Rng Int := ⟨.rangeIndex, .static unknownSize, []⟩

/-- test-algorithm.cpp:27-32, 52: iterator categories. -/
example : commonIteratorTag [.input, .forward] = some [.input] ∧ commonIteratorTag [.bidirectional, .forward] = some [.forward] ∧
    commonIteratorTag [.input, .output] = some [] ∧ commonIteratorTag [.randomAccess, .bidirectional, .randomAccess] = some [.bidirectional] := by
  decide +kernel

/-- test-algorithm.cpp:48-59 empty ranges. -/
example : mergeSizes [rangeIdx.size, list0.size, vec0.size] = .ok (.dyn 0) ∧
    rangeZipIterate [rangeIdx, list0, vec0] 1 = .done [] (.ok ()) := by decide +kernel

/-- test-algorithm.cpp:60-81 basic use. -/
example : mergeSizes [list3.size, vec3.size] = .ok (.dyn 3) ∧
    rangeZipIterate [list3, vec3] 4 = .done [[.elem 11, .elem 1], [.elem 12, .elem 2], [.elem 13, .elem 3]] (.ok ()) := by decide +kernel
example : let rs := [list3, vec3]
    let first := zipBegin rs
    let last := zipEnd (.dyn 3) rs
    zipNe first last = true ∧
    ∃ old it it' it'', zipPostInc rs first = .ok (old, it) ∧ zipNe old last = true ∧ zipDec rs it = .ok it' ∧ zipEq it' (zipBegin rs) = true ∧
      zipInc rs it' = .ok it'' ∧ zipNe it'' it' = true :=
  ⟨by decide +kernel, _, _, _, _, rfl, by decide +kernel, rfl, by decide +kernel, rfl, by decide +kernel⟩

/-- test-algorithm.cpp:82-95 basic use with index. -/
example : rangeZipIterate [rangeIdx, vec3, list3] 4 =
    .done [[.idx 0, .elem 1, .elem 11], [.idx 1, .elem 2, .elem 12], [.idx 2, .elem 3, .elem 13]] (.ok ()) := by decide +kernel

/-- test-algorithm.cpp:96-111 random access. -/
example : let rs := [arr3, vec3, rangeIdx]
    mergeSizes (rs.map Rng.size) = .ok (.static 3) ∧ zipSubscript rs (zipBegin rs) 1 = .ok [.elem 22, .elem 2, .idx 1] ∧
    zipNe (zipBegin rs) (zipEnd (.static 3) rs) = true ∧ zipLe (zipBegin rs) (zipBegin rs) = true ∧
    ∃ it it', zipAdvance rs (zipBegin rs) 1 = .ok it ∧ zipGt it (zipBegin rs) = true ∧ zipSubscript rs it 1 = .ok [.elem 23, .elem 3, .idx 2] ∧
      zipSubscript rs it (-1) = .ok [.elem 21, .elem 1, .idx 0] ∧ zipRetreat rs it 0 = .ok it' ∧ zipDiff it' (zipBegin rs) = 1 :=
  ⟨by decide +kernel, by decide +kernel, by decide +kernel, by decide +kernel, _, _, rfl, by decide +kernel, by decide +kernel,
    by decide +kernel, rfl, by decide +kernel⟩

/-- test-algorithm.cpp:117-128: different sizes; no size. -/
example : rangeZipIterate [vec3, vec0] 1 = .done [] .failFast ∧ rangeZipIterate [⟨.index, .static 0, []⟩, arr3] 1 = .illFormed ∧
    rangeZipIterate [rangeIdx] 1 = .illFormed := by decide +kernel

/-- test-algorithm.cpp:131-150 `range_for`. -/
example : rangeFor [rangeIdx, vec3, list3] 4 =
    .done [[.idx 0, .elem 1, .elem 11], [.idx 1, .elem 2, .elem 12], [.idx 2, .elem 3, .elem 13]] (.ok ()) := by decide +kernel

end Makeshift.Conformance
