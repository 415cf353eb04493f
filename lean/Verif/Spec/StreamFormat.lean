import Verif.Model.StreamFormat

/-! # Formatted insertion of a string -/

namespace Makeshift.Spec

/-- `t` is `s` filled up to at least `width` characters, after `s` for `left` and before it otherwise. -/
def Padded (s : Str) (width : Nat) (fill : CChar) (left : Bool) (t : Str) : Prop :=
  t.length = max s.length width ∧ ∃ n, t = if left then s ++ List.replicate n fill else List.replicate n fill ++ s

/-- Setting state bits throws under an exception mask if one of the bits is in the mask. -/
def Throws (mask : IoMask) (eofbit failbit badbit : Bool) : Prop :=
  (mask.eof = true ∧ eofbit = true) ∨ (mask.fail = true ∧ failbit = true) ∨ (mask.bad = true ∧ badbit = true)

end Makeshift.Spec
