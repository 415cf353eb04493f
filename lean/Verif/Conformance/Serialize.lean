import Verif.Model.Iomanip

/-!
# The project's own tests of enum and flags serialization

test/test-serialize.cpp, run on the model (see Conformance/Metadata.lean).
-/

namespace Makeshift.Conformance

/-- test-serialize.cpp:25-37 `Color`. -/
def colorMd : EnumMd Nat := ⟨str "color", [(1, str "red"), (2, str "green")]⟩

example : makeEnumMetadata (str "color") [(1, str "red"), (2, str "green")] = .ok colorMd := by rfl

/-- test-serialize.cpp:39-62 `as_enum`. -/
example : asEnumExtract colorMd ⟨str "  green , ", false, false, false⟩ 0 = (⟨str " , ", false, false, false⟩, 2) := by decide +kernel
example : let r := asEnumExtract colorMd ⟨str "  bogus+ ", false, false, false⟩ 2
    r.1.good = false ∧ r.2 = 2 := by decide +kernel
example : asEnumInsert colorMd [] 2 = .ok (str "green") := by rfl

/-- test-serialize.cpp:64-82 `parse_enum`. -/
example : enumFromString 0 (str " red  ") colorMd = .ok 1 ∧ enumFromString 0 (str "  green ") colorMd = .ok 2 := by decide +kernel
example : ∀ s ∈ [str "bogus", str " +green", str "green+"], ∃ msg, enumFromString 0 s colorMd = .throw msg := by
  intro s hs
  refine ⟨enumFromStringError s colorMd, ?_⟩
  revert s; decide +kernel
example : enumFromString 0 (str "bogus") colorMd = .throw (str "color: unknown value 'bogus'; supported values: { 'red', 'green' }") := by
  decide +kernel

/-- test-serialize.cpp:84-89 `enum_to_string`. -/
example : enumToString 1 colorMd = .ok (str "red") ∧ enumToString 2 colorMd = .ok (str "green") ∧ enumToString 0 colorMd = .failFast := ⟨rfl, rfl, rfl⟩

/-- test-serialize.cpp:92-115 `Vegetables`, in the order of its `reflect()`. -/
def vegetables : List (BitVec 32 × Str) :=
  [(0, str "none"), (3, str "tomato_onion"), (1, str "tomato"), (2, str "onion"), (4, str "eggplant")]

/-- The table built from it. -/
def vegetablesMd : FlagsMd 32 :=
  { description := str "Vegetables"
    entries := [(1, str "tomato"), (2, str "onion"), (4, str "eggplant"), (0, str "none"), (3, str "tomato_onion")]
    allDefinedFlags := 7, noneName := str "none", numIndividualNames := 3 }

example : makeFlagsMetadata (str "Vegetables") vegetables = .ok vegetablesMd := by rfl

/-- test-serialize.cpp:117-163 `as_flags`: text, character read next, value; the variable read into starts as `other`. -/
example : ∀ t ∈ [(str " ", none, 0), (str "none ,", some (44 : CChar), 0), (str " ]", some 93, 0), (str "none )", some 41, 0),
      (str " tomato| onion ", none, 3), (str " tomato +onion ", none, 3), (str " tomato_onion] ", some 93, 3), (str " eggplant ", none, (4 : BitVec 32))],
    let r := asFlagsExtract vegetablesMd.toEnumMd ⟨t.1, false, false, false⟩ 8
    r.1.failbit = false ∧ r.1.badbit = false ∧ r.2 = t.2.2 ∧ (∀ c ∈ t.2.1, r.1.rest.head? = some c ∧ r.1.good = true) := by decide +kernel
example : ∀ s ∈ [str "x]", str "x", str "tomato+x", str "eggplant|x"],
    (asFlagsExtract vegetablesMd.toEnumMd ⟨s, false, false, false⟩ 8).1.failbit = true := by decide +kernel
example : ∀ t ∈ [((0 : BitVec 32), str "none"), (4, str "eggplant"), (3, str "tomato+onion"), (4 ||| 1, str "tomato+eggplant")],
    asFlagsInsert vegetablesMd [] t.1 = .ok t.2 ∧ flagsToString t.1 vegetablesMd = .ok t.2 := by decide +kernel

/-- test-serialize.cpp:165-195 `parse_flags`. -/
example : ∀ t ∈ [(str " ", (0 : BitVec 32)), (str "none ", 0), (str " tomato| onion", 3), (str " tomato +onion ", 3), (str " tomato_onion ", 3), (str " eggplant ", 4)],
    parseFlags t.1 vegetablesMd.toEnumMd = .ok t.2 := by decide +kernel
example : ∀ s ∈ [str "[none", str "x]", str "x", str "tomato+x", str "eggplant|x", str "eggplant]", str "eggplant ]"],
    (match parseFlags s vegetablesMd.toEnumMd with | .throw _ => true | _ => false) = true := by decide +kernel
example : parseFlags (str "bogus") vegetablesMd.toEnumMd = .throw
    (str "Vegetables: unknown value 'bogus'; supported values: a '+'-delimited subset of { 'tomato', 'onion', 'eggplant', 'none', 'tomato_onion' }") := by
  decide +kernel

/-- test-serialize.cpp:197-217 `flags_to_string`. -/
example : flagsToString (4 ||| 8) vegetablesMd = .failFast := by decide +kernel

end Makeshift.Conformance
