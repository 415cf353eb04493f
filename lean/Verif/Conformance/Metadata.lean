import Verif.Model.Metadata

/-!
# The project's own tests of the metadata queries

test/test-metadata.cpp, run on the model.  These are tests of the model, not theorems about the library: they check that the model gives
the results which the library is known to give.  Types are numbered in the order of their definition in the test.  (The tests of
`tie_members` are in Conformance/TieMembers.lean.)
-/

namespace Makeshift.Conformance

open Makeshift.Metadata

/-- A string literal, of type `char const*`. -/
def lit (s : String) : Md := .cstr (str s)

/-- test-metadata.cpp:22-212: `Color0` ... `Color7` are 0 ... 7, `COO0` ... `COO4` are 8 ... 12, `SubCOO0a`, `SubCOO0b`, `SubCOO1`,
`SubCOO2` are 13 ... 16, `AltLayoutSubCOO1` is 17, `AltLayoutCOO1` is 18, `int` is 19, `double` is 20.  Members are numbered within
their class. -/
def testReflect : Nat → Md
  | 1 => lit "Color1"
  | 2 => .tup [lit "Color2", .arr (.ty 2) [.val 2 0, .val 2 1], lit "color 2"]
  | 3 => .arr (.ty 3) [.val 3 0, .val 3 1]
  | 4 => .arr (.tup [.ty 4, .cstr]) [.tup [.val 4 0, lit "red"], .tup [.val 4 1, lit "green"]]
  | 5 => .tup [lit "Color5", lit "color 5",
      .arr (.tup [.ty 5, .cstr, .cstr]) [.tup [.val 5 0, lit "red", lit "red color"], .tup [.val 5 1, lit "green", lit "green color"]]]
  | 6 => .tup [lit "Color6", lit "color 6",
      .tup [.tup [.val 6 0, lit "red", lit "red color"], .tup [.val 6 1, lit "green", lit "green color"]]]
  | 7 => .tup [.tup [.val 7 0, lit "red", lit "red color"], .tup [.val 7 1, lit "green", lit "green color"]]
  | 9 => .tup [.memPtr 9 19 0, .memPtr 9 19 1, .memPtr 9 20 2]
  | 10 => .tup [lit "COO2", .tup [.memPtr 10 19 0, .memPtr 10 19 1, .memPtr 10 20 2], lit "COO 2"]
  | 11 => .tup [.tup [.memPtr 11 19 0, lit "i", lit "row index"], .tup [.memPtr 11 19 1, lit "j", lit "column index"],
      .tup [.memPtr 11 20 2, lit "v", lit "element"]]
  | 12 => .tup [lit "COO4", lit "COO 4",
      .tup [.tup [.memPtr 12 19 0, lit "i", lit "row index"], .tup [.memPtr 12 19 1, lit "j", lit "column index"],
        .tup [.memPtr 12 20 2, lit "v", lit "element"]]]
  | 13 => .typeId 12
  | 14 => .tup [.typeId 12]
  | 15 => .tup [.tup [.typeId 12], .tup [.memPtr 15 20 0]]
  | 16 => .tup [.tup [.typeId 12], .tup [.tup [.memPtr 16 20 0, lit "v2", lit "element"]]]
  | 17 => .tup [.tup [.memPtr 17 20 0, lit "v"], .tup [.memPtr 17 20 1, lit "v2"], .tup [.memPtr 17 19 2, lit "i"],
      .tup [.memPtr 17 19 3, lit "j"]]
  | 18 => .tup [.tup [.memPtr 18 20 0, lit "v"], .tup [.memPtr 18 19 1, lit "i"], .tup [.memPtr 18 19 2, lit "j"]]
  | _ => .nullopt

/-- The classes of test-metadata.cpp. -/
def testEnv : Env where
  reflect := testReflect
  isBaseOf u t := decide (8 ≤ u ∧ u ≤ 18 ∧ u = t) || decide (u = 12 ∧ 13 ≤ t ∧ t ≤ 16)
  isClass t := decide (8 ≤ t ∧ t ≤ 18)
  base_le u t h := by
    simp only [Bool.or_eq_true, decide_eq_true_eq] at h
    omega

/-- An array of `std::string_view`. -/
def svs (l : List String) : Option Md := some (.arr .sv (l.map fun s => .sv (str s)))

/-- test-metadata.cpp:215-254, "enum metadata". -/
example : (testReflect 0).isAvailable = false ∧ name (testReflect 0) = some .nullopt ∧ description (testReflect 0) = some .nullopt ∧
    bases testEnv 0 = some .nullopt ∧ values testEnv 0 = some .nullopt ∧ valueNames testEnv 0 = some .nullopt ∧
    valueDescriptions testEnv 0 = some .nullopt := by
  refine ⟨rfl, rfl, rfl, rfl, rfl, rfl, rfl⟩

example : (testReflect 1).isAvailable = true ∧ name (testReflect 1) = some (.sv (str "Color1")) ∧
    description (testReflect 1) = some .nullopt ∧
    bases testEnv 1 = some .nullopt ∧ (∃ vs, values testEnv 1 = some vs ∧ vs.isAvailable = true) ∧
    valueNames testEnv 1 = some .nullopt ∧ valueDescriptions testEnv 1 = some .nullopt := by
  refine ⟨rfl, rfl, rfl, rfl, ⟨_, rfl, rfl⟩, rfl, rfl⟩

example : name (testReflect 2) = some (.sv (str "Color2")) ∧ description (testReflect 2) = some (.sv (str "color 2")) ∧
    bases testEnv 2 = some .nullopt ∧ values testEnv 2 = some (.arr (.ty 2) [.val 2 0, .val 2 1]) ∧
    valueNames testEnv 2 = some .nullopt ∧ valueDescriptions testEnv 2 = some .nullopt := by
  refine ⟨rfl, rfl, rfl, rfl, rfl, rfl⟩

example : name (testReflect 3) = some .nullopt ∧ description (testReflect 3) = some .nullopt ∧
    bases testEnv 3 = some .nullopt ∧ values testEnv 3 = some (.arr (.ty 3) [.val 3 0, .val 3 1]) ∧
    valueNames testEnv 3 = some .nullopt ∧ valueDescriptions testEnv 3 = some .nullopt := by
  refine ⟨rfl, rfl, rfl, rfl, rfl, rfl⟩

example : name (testReflect 4) = some .nullopt ∧ description (testReflect 4) = some .nullopt ∧
    bases testEnv 4 = some .nullopt ∧ values testEnv 4 = some (.arr (.ty 4) [.val 4 0, .val 4 1]) ∧
    valueNames testEnv 4 = svs ["red", "green"] ∧ valueDescriptions testEnv 4 = some .nullopt := by
  refine ⟨rfl, rfl, rfl, rfl, rfl, rfl⟩

/-- test-metadata.cpp:256-259. -/
example : findValueIndex testEnv 4 0 = some (.ok 0) ∧ findValueIndex testEnv 4 1 = some (.ok 1) ∧
    searchValueIndex testEnv 4 42 = some (-1) ∧ findValueIndex testEnv 4 42 = some .failFast := by
  refine ⟨rfl, rfl, rfl, rfl⟩

example : name (testReflect 5) = some (.sv (str "Color5")) ∧ description (testReflect 5) = some (.sv (str "color 5")) ∧
    bases testEnv 5 = some .nullopt ∧ values testEnv 5 = some (.arr (.ty 5) [.val 5 0, .val 5 1]) ∧
    valueNames testEnv 5 = svs ["red", "green"] ∧ valueDescriptions testEnv 5 = svs ["red color", "green color"] := by
  refine ⟨rfl, rfl, rfl, rfl, rfl, rfl⟩

example : name (testReflect 6) = some (.sv (str "Color6")) ∧ description (testReflect 6) = some (.sv (str "color 6")) ∧
    bases testEnv 6 = some .nullopt ∧ values testEnv 6 = some (.arr (.ty 6) [.val 6 0, .val 6 1]) ∧
    valueNames testEnv 6 = svs ["red", "green"] ∧ valueDescriptions testEnv 6 = svs ["red color", "green color"] := by
  refine ⟨rfl, rfl, rfl, rfl, rfl, rfl⟩

example : name (testReflect 7) = some .nullopt ∧ description (testReflect 7) = some .nullopt ∧
    bases testEnv 7 = some .nullopt ∧ values testEnv 7 = some (.arr (.ty 7) [.val 7 0, .val 7 1]) ∧
    valueNames testEnv 7 = svs ["red", "green"] ∧ valueDescriptions testEnv 7 = svs ["red color", "green color"] := by
  refine ⟨rfl, rfl, rfl, rfl, rfl, rfl⟩

/-- test-metadata.cpp:283-296, "struct metadata". -/
example : (testReflect 8).isAvailable = false ∧ name (testReflect 8) = some .nullopt ∧ description (testReflect 8) = some .nullopt ∧
    bases testEnv 8 = some .nullopt ∧ values testEnv 8 = some .nullopt ∧ valueNames testEnv 8 = some .nullopt ∧
    valueDescriptions testEnv 8 = some .nullopt ∧ exclusiveMembers testEnv 8 = some .nullopt ∧
    exclusiveMemberNames testEnv 8 = some .nullopt ∧ exclusiveMemberDescriptions testEnv 8 = some .nullopt := by
  refine ⟨rfl, rfl, rfl, rfl, rfl, rfl, rfl, rfl, rfl, rfl⟩

example : (testReflect 9).isAvailable = true ∧ bases testEnv 9 = some (.tup []) ∧ name (testReflect 9) = some .nullopt ∧
    description (testReflect 9) = some .nullopt ∧
    exclusiveMembers testEnv 9 = some (.tup [.memPtr 9 19 0, .memPtr 9 19 1, .memPtr 9 20 2]) := by
  refine ⟨rfl, rfl, rfl, rfl, rfl⟩

example : name (testReflect 10) = some (.sv (str "COO2")) ∧ description (testReflect 10) = some (.sv (str "COO 2")) ∧
    bases testEnv 10 = some (.tup []) ∧
    exclusiveMembers testEnv 10 = some (.tup [.memPtr 10 19 0, .memPtr 10 19 1, .memPtr 10 20 2]) ∧
    exclusiveMemberNames testEnv 10 = some .nullopt ∧ exclusiveMemberDescriptions testEnv 10 = some .nullopt := by
  refine ⟨rfl, rfl, rfl, rfl, rfl, rfl⟩

example : name (testReflect 11) = some .nullopt ∧ description (testReflect 11) = some .nullopt ∧ bases testEnv 11 = some (.tup []) ∧
    exclusiveMembers testEnv 11 = some (.tup [.memPtr 11 19 0, .memPtr 11 19 1, .memPtr 11 20 2]) ∧
    exclusiveMemberNames testEnv 11 = svs ["i", "j", "v"] ∧
    exclusiveMemberDescriptions testEnv 11 = svs ["row index", "column index", "element"] := by
  refine ⟨rfl, rfl, rfl, rfl, rfl, rfl⟩

example : name (testReflect 12) = some (.sv (str "COO4")) ∧ description (testReflect 12) = some (.sv (str "COO 4")) ∧
    bases testEnv 12 = some (.tup []) ∧
    exclusiveMembers testEnv 12 = some (.tup [.memPtr 12 19 0, .memPtr 12 19 1, .memPtr 12 20 2]) ∧
    exclusiveMemberNames testEnv 12 = svs ["i", "j", "v"] ∧
    exclusiveMemberDescriptions testEnv 12 = svs ["row index", "column index", "element"] := by
  refine ⟨rfl, rfl, rfl, rfl, rfl, rfl⟩

/-- test-metadata.cpp:325-338. -/
example : bases testEnv 13 = some (.tup [.typeId 12]) ∧ bases testEnv 14 = some (.tup [.typeId 12]) ∧
    bases testEnv 15 = some (.tup [.typeId 12]) ∧ exclusiveMembers testEnv 15 = some (.tup [.memPtr 15 20 0]) ∧
    memberNames testEnv 15 = some .nullopt := by
  refine ⟨rfl, rfl, rfl, rfl, rfl⟩

/-- `members` of `COO4`. -/
theorem allMembers12 : allMembers testEnv 12 = some (.tup [.memPtr 12 19 0, .memPtr 12 19 1, .memPtr 12 20 2]) := by
  rw [allMembers]; rfl

/-- `members` of `SubCOO1`. -/
theorem allMembers15 :
    allMembers testEnv 15 = some (.tup [.memPtr 12 19 0, .memPtr 12 19 1, .memPtr 12 20 2, .memPtr 15 20 0]) := by
  rw [allMembers, show extractMembers testEnv 15 (testEnv.reflect 15) = some (.tup [.memPtr 15 20 0]) from rfl,
    show extractBases testEnv 15 (testEnv.reflect 15) = some (.tup [.typeId 12]) from rfl]
  simp [Md.isAvailable, Md.elems, baseClass, allMembers12]

example : members testEnv 15 = some (.tup [.memPtr 12 19 0, .memPtr 12 19 1, .memPtr 12 20 2, .memPtr 15 20 0]) := allMembers15

/-- `members` of `SubCOO2`. -/
theorem allMembers16 :
    allMembers testEnv 16 = some (.tup [.memPtr 12 19 0, .memPtr 12 19 1, .memPtr 12 20 2, .memPtr 16 20 0]) := by
  rw [allMembers, show extractMembers testEnv 16 (testEnv.reflect 16) = some (.tup [.memPtr 16 20 0]) from rfl,
    show extractBases testEnv 16 (testEnv.reflect 16) = some (.tup [.typeId 12]) from rfl]
  simp [Md.isAvailable, Md.elems, baseClass, allMembers12]

example : bases testEnv 16 = some (.tup [.typeId 12]) ∧ exclusiveMembers testEnv 16 = some (.tup [.memPtr 16 20 0]) ∧
    exclusiveMemberNames testEnv 16 = svs ["v2"] ∧
    members testEnv 16 = some (.tup [.memPtr 12 19 0, .memPtr 12 19 1, .memPtr 12 20 2, .memPtr 16 20 0]) ∧
    memberNames testEnv 16 = svs ["i", "j", "v", "v2"] := by
  refine ⟨rfl, rfl, rfl, allMembers16, rfl⟩

end Makeshift.Conformance
