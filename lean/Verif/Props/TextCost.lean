import Verif.Lemmas.TextCost
import Verif.Props.Serialize

/-! # C161: the work done by conversions between values and text -/

namespace Makeshift.Props

open Makeshift.Spec

/-- The record of the work done does not change any result. -/
theorem C161_same {V : Type} [DecidableEq V] {w : Nat} (emd : EnumMd V) (fmd : FlagsMd w) (zero v : V) (x r : BitVec w) (s : Str) :
    (TextCost.enumToString v emd.entries).1 = enumToString v emd ∧ (TextCost.enumFromString zero s emd).1 = enumFromString zero s emd ∧
      (TextCost.flagsToString x fmd).1 = flagsToString x fmd ∧
      (TextCost.flagsFromStringLoop fmd.entries r s).result = flagsFromStringLoop fmd.entries r s := by
  refine ⟨by rw [TextCost.enumToString_eq]; rfl, ?_, ?_, TextCost.flagsFromStringLoop_result ..⟩
  · simp only [TextCost.enumFromString, TextCost.tryEnumFromString_eq, enumFromString, tryEnumFromString]
    rfl
  · simp only [TextCost.flagsToString, flagsToString, TextCost.flagsToStringLoop_eq]
    cases h : (x &&& ~~~fmd.allDefinedFlags) == 0#w
    · rfl
    · by_cases hx : x = 0#w <;> simp [hx, Bind.bind, Outcome.bind, Pure.pure]

example : (TextCost.enumToString 2 [(1, str "a"), (2, str "b"), (3, str "c")]) = (.ok (str "b"), 2) := by decide

/-- `enum_to_string` compares the value with the listed values up to the first match; `parse_enum` compares the text without surrounding whitespace
with the listed names up to the first match. So neither compares more than there are values. -/
theorem C161_enum {V : Type} [DecidableEq V] (md : EnumMd V) (zero v : V) (s : Str) :
    (TextCost.enumToString v md.entries).2 = searched (fun e => e.1 == v) md.entries ∧
      (TextCost.enumFromString zero s md).2 = searched (fun e => e.2 == strip s) md.entries ∧
      (TextCost.enumToString v md.entries).2 ≤ md.entries.length ∧ (TextCost.enumFromString zero s md).2 ≤ md.entries.length := by
  have h1 : (TextCost.enumToString v md.entries).2 = searched (fun e => e.1 == v) md.entries := by rw [TextCost.enumToString_eq]
  have h2 : (TextCost.enumFromString zero s md).2 = searched (fun e => e.2 == strip s) md.entries := by
    simp only [TextCost.enumFromString, TextCost.tryEnumFromString_eq, trim_eq_strip]
  exact ⟨h1, h2, h1 ▸ TextCost.searched_le .., h2 ▸ TextCost.searched_le ..⟩

example : (TextCost.enumFromString 0 (str " c ") ⟨[], [(1, str "a"), (2, str "b"), (3, str "c"), (4, str "d")]⟩).2 = 3 := by decide

open Classical in
/-- `flags_to_string` looks at every entry which is an individual flag once, whatever the value is, unless it is zero. -/
theorem C161_flags_to_string {w : Nat} (desc : Str) (entries : List (BitVec w × Str)) (md : FlagsMd w)
    (hmd : makeFlagsMetadata desc entries = .ok md) (x : BitVec w) (s : Str) (hs : flagsToString x md = .ok s) :
    (TextCost.flagsToString x md).2 = if x = 0#w then 0 else entries.countP fun e => decide (SingleBit e.1) := by
  have hc : (entries.countP fun e => decide (SingleBit e.1)) = (entries.filter fun e => isPowerOf2 e.1).length := by
    rw [List.countP_eq_length_filter]
    congr 2
    funext e
    rw [Bool.eq_iff_iff, decide_eq_true_iff, isPowerOf2_iff]
  rw [makeFlagsMetadata_eq] at hmd
  split at hmd
  · cases hmd
    rw [hc]
    simp only [TextCost.flagsToString, TextCost.flagsToStringLoop_eq]
    cases h : (x &&& ~~~union (entries.map Prod.fst)) == 0#w
    · simp [flagsToString, h, Bind.bind, Outcome.bind] at hs
    · by_cases hx : x = 0#w
      · simp [hx]
      · simp [hx]
  · cases hmd

example : ∃ md, makeFlagsMetadata (w := 4) [] [(1, str "r"), (2, str "w"), (3, str "rw"), (4, str "x")] = .ok md ∧
    flagsToString 5 md = .ok (str "r+x") ∧ (TextCost.flagsToString 5 md).2 = 3 := by
  refine ⟨_, rfl, by decide +kernel, by decide +kernel⟩

/-- `parse_flags` searches the names from the front for every token, up to the first token which is unknown. -/
theorem C161_parse_flags {w : Nat} (table : List (BitVec w × Str)) (r : BitVec w) (s : Str) :
    (TextCost.flagsFromStringLoop table r s).compared = tokensSearched table (flagTokens s) :=
  TextCost.flagsFromStringLoop_compared table r s

example : (TextCost.flagsFromStringLoop [(1#4, str "r"), (2#4, str "w"), (4#4, str "x")] 0#4 (str "x + w")).compared = 5 := by decide +kernel

/-- So the number of comparisons is at most the number of delimiters plus one, times the number of names. The characters of the text are looked at
at most twice each, apart from one, in search of delimiters and whitespace: the time taken is linear in the length of the text. -/
theorem C161_linear {w : Nat} (table : List (BitVec w × Str)) (r : BitVec w) (s : Str) :
    (TextCost.flagsFromStringLoop table r s).compared ≤ (s.countP isFlagDelim + 1) * table.length ∧
      (TextCost.flagsFromStringLoop table r s).looked ≤ 2 * s.length + 1 := by
  refine ⟨?_, TextCost.flagsFromStringLoop_looked table r s⟩
  rw [TextCost.flagsFromStringLoop_compared]
  exact Nat.le_trans (TextCost.tokensSearched_le ..) (Nat.mul_le_mul_right _ (TextCost.flagTokens_length_le s))

example : (TextCost.flagsFromStringLoop [(1#4, str "r"), (2#4, str "w")] 0#4 (str "w+w+w")).compared = 3 * 2 ∧
    (TextCost.flagsFromStringLoop [(1#4, str "r"), (2#4, str "w")] 0#4 (str "w+w+w")).looked = 2 * 5 + 1 := by decide +kernel

end Makeshift.Props
