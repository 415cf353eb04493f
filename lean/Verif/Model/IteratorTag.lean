/-!
# Iterator category of zipped ranges

Model of `detail/zip.hpp` lines 136-203.  `unsigned` has 32 bits.
-/

namespace Makeshift

/-- Iterator categories; a category derived from one of them selects the same overloads. `other` is any unrelated type. -/
inductive Category where
  | other | input | forward | bidirectional | randomAccess | output
  deriving DecidableEq, Repr

/-- detail/zip.hpp:141-145 `input_iterator_tag_bit`; bit indices 137-140. -/
def inputTagBit : Category → Nat
  | .input => 1
  | .forward => 2
  | .bidirectional => 3
  | .randomAccess => 4
  | _ => 0

/-- detail/zip.hpp:148-149 `output_iterator_tag_bit`. -/
def outputTagBit : Category → Nat
  | .output => 1
  | _ => 0

/-- detail/zip.hpp:151-154 `fill_mask`. -/
def fillMask (bit : Nat) : BitVec 32 := (1#32 <<< bit) - 1#32

/-- detail/zip.hpp:156-164 `cbitand`. -/
def cbitand (values : List (BitVec 32)) : BitVec 32 := values.foldl (fun result value => result &&& value) (~~~ 0#32)

/-- detail/zip.hpp:166-175 `bit_width`, the loop with variables `mask` and `bit`. -/
def bitWidthFrom (mask : BitVec 32) (bit : Nat) : Nat :=
  if h : mask ≠ 0#32 then bitWidthFrom (mask >>> 1) (bit + 1) else bit
  termination_by mask.toNat
  decreasing_by
    have : mask.toNat ≠ 0 := fun h0 => h (BitVec.eq_of_toNat_eq (by simpa using h0))
    simp only [BitVec.toNat_ushiftRight, Nat.shiftRight_eq_div_pow]
    omega

/-- detail/zip.hpp:166-175 `bit_width`. -/
def bitWidth (mask : BitVec 32) : Nat := bitWidthFrom mask 0

/-- detail/zip.hpp:177-181 `common_input_iterator_bit`. -/
def commonInputBit (tags : List Category) : Nat := bitWidth (cbitand (tags.map fun t => fillMask (inputTagBit t)))

/-- detail/zip.hpp:182-186 `common_output_iterator_bit`. -/
def commonOutputBit (tags : List Category) : Nat := bitWidth (cbitand (tags.map fun t => fillMask (outputTagBit t)))

/-- detail/zip.hpp:188-193 `input_iterator_tag_base`: the base classes selected by a bit index; `none` is the undefined primary
template. -/
def inputTagBase : Nat → Option (List Category)
  | 0 => some []
  | 1 => some [.input]
  | 2 => some [.forward]
  | 3 => some [.bidirectional]
  | 4 => some [.randomAccess]
  | _ => none

/-- detail/zip.hpp:194-196 `output_iterator_tag_base`. -/
def outputTagBase : Nat → Option (List Category)
  | 0 => some []
  | 1 => some [.output]
  | _ => none

/-- detail/zip.hpp:198-203 `common_iterator_tag`: the direct base classes. -/
def commonIteratorTag (tags : List Category) : Option (List Category) :=
  match inputTagBase (commonInputBit tags), outputTagBase (commonOutputBit tags) with
  | some a, some b => some (a ++ b)
  | _, _ => none

end Makeshift
