import Verif.Model.Csize
import Mathlib.Tactic.Ring
import Mathlib.Tactic.NormNum
import Mathlib.Tactic.Positivity

/-!
# `csize` and `cssize`: C71
-/

namespace Makeshift.Props

open Makeshift.Csize

/-- The number of elements of the argument, if it has one. -/
def sizeOf? : Arg → Option Int
  | .cArray n => some n
  | .tupleLike n => some n
  | .container _ s => some s
  | .other => none

/-- The size is known at compile time. -/
def SizeIsStatic : Arg → Prop
  | .cArray _ => True
  | .tupleLike _ => True
  | _ => False

/-- The argument can exist: static sizes are `std::size_t` values, dynamic sizes are nonnegative values of the result type of `size()`. -/
def Possible : Arg → Prop
  | .cArray n => n < 2 ^ 64
  | .tupleLike n => n < 2 ^ 64
  | .container ty s => ty.InRange s ∧ 0 ≤ s ∧ 0 < ty.bits
  | .other => True

/-- C71: `csize` yields the number of elements, as a constval iff it is known at compile time; it compiles for everything that has a
size. -/
theorem C71_csize (a : Arg) (h : Possible a) :
    (∀ n, sizeOf? a = some n → ∃ ty, (SizeIsStatic a → csize a = some (.constant ty n)) ∧
      (¬ SizeIsStatic a → csize a = some (.value ty n))) ∧
    (sizeOf? a = none → csize a = none) := by
  have hm : IntTy.sizeT.minVal = 0 ∧ IntTy.sizeT.maxVal = 2 ^ 64 - 1 := by decide
  cases a with
  | cArray n =>
    refine ⟨fun m hn => ⟨.sizeT, fun _ => ?_, fun hs => absurd trivial hs⟩, fun hn => nomatch hn⟩
    cases hn
    have h' : n < 2 ^ 64 := h
    simp only [csize, integralConstant, IntTy.InRange, hm]
    rw [if_pos (by omega)]
  | tupleLike n =>
    refine ⟨fun m hn => ⟨.sizeT, fun _ => ?_, fun hs => absurd trivial hs⟩, fun hn => nomatch hn⟩
    cases hn
    have h' : n < 2 ^ 64 := h
    simp only [csize, integralConstant, IntTy.InRange, hm]
    rw [if_pos (by omega)]
  | container ty s =>
    refine ⟨fun m hn => ⟨ty, fun hs => False.elim hs, fun _ => ?_⟩, fun hn => nomatch hn⟩
    cases hn; rfl
  | other => exact ⟨fun m hn => (nomatch hn), fun _ => rfl⟩

theorem wrap_signed_of_lt (b : Nat) (s : Int) (h0 : 0 ≤ s) (h1 : s < 2 ^ (b - 1)) (hb : 0 < b) : (IntTy.mk b true).wrap s = s := by
  obtain ⟨c, rfl⟩ : ∃ c, b = c + 1 := ⟨b - 1, by omega⟩
  simp only [IntTy.wrap, if_true]
  simp only [Nat.add_sub_cancel] at h1
  have h2 : ((2 ^ (c + 1) : Nat) : Int) = 2 * 2 ^ c := by push_cast; rw [pow_succ]; ring
  rw [Int.bmod_def, h2]
  have hp : (0 : Int) < 2 ^ c := by positivity
  rw [Int.emod_eq_of_lt h0 (by omega)]
  rw [if_pos (by omega)]

/-- C71: `cssize` yields the number of elements as a signed number, as a constval iff it is known at compile time, for all sizes below
2^63. -/
theorem C71_cssize (a : Arg) (h : Possible a) (n : Int) (hn : sizeOf? a = some n) (hlt : n < 2 ^ 63) :
    ∃ ty, ty.signed = true ∧ (SizeIsStatic a → cssize a = some (.constant ty n)) ∧
      (¬ SizeIsStatic a → cssize a = some (.value ty n)) := by
  have hm : IntTy.ptrdiffT.minVal = - 2 ^ 63 ∧ IntTy.ptrdiffT.maxVal = 2 ^ 63 - 1 := by decide
  cases a with
  | cArray m =>
    refine ⟨.ptrdiffT, rfl, fun _ => ?_, fun hs => absurd trivial hs⟩
    cases hn
    simp only [cssize, integralConstant, IntTy.InRange, hm]
    rw [if_pos (by omega)]
  | tupleLike m =>
    refine ⟨.ptrdiffT, rfl, fun _ => ?_, fun hs => absurd trivial hs⟩
    cases hn
    simp only [cssize, integralConstant, IntTy.InRange, hm]
    rw [if_pos (by omega)]
  | container ty s =>
    refine ⟨signedSizeType ty, rfl, fun hs => False.elim hs, fun _ => ?_⟩
    cases hn
    obtain ⟨-, h0, -⟩ := h
    simp only [cssize, signedSizeType]
    rw [wrap_signed_of_lt _ _ h0 _ (by omega)]
    have h63 : (2 : Int) ^ 63 ≤ 2 ^ (max 64 ty.bits - 1) := pow_le_pow_right₀ (by norm_num) (by omega)
    omega
  | other => cases hn

/-- C71: sizes of a type narrower than 64 bits never overflow. -/
theorem C71_cssize_narrow (ty : IntTy) (s : Int) (h : Possible (.container ty s)) (hb : ty.bits < 64) :
    cssize (.container ty s) = some (.value ⟨64, true⟩ s) := by
  obtain ⟨hr, h0, hpos⟩ := h
  have hs : s < 2 ^ 63 := by
    have hle : s ≤ ty.maxVal := hr.2
    have h1 : ty.maxVal < 2 ^ ty.bits := by
      unfold IntTy.maxVal
      split
      · have : (2 : Int) ^ (ty.bits - 1) ≤ 2 ^ ty.bits := pow_le_pow_right₀ (by norm_num) (by omega)
        push_cast; omega
      · push_cast; omega
    have h2 : (2 : Int) ^ ty.bits ≤ 2 ^ 63 := pow_le_pow_right₀ (by norm_num) (by omega)
    omega
  simp only [cssize, signedSizeType]
  have : max 64 ty.bits = 64 := by omega
  rw [this, wrap_signed_of_lt 64 s h0 (by simpa using hs) (by omega)]

/-- C71: for larger sizes, `cssize` of a container is negative, and `cssize` of an array or tuple does not compile. -/
theorem C71_cssize_large (n : Nat) (h1 : 2 ^ 63 ≤ n) (h2 : n < 2 ^ 64) :
    cssize (.container .sizeT n) = some (.value .ptrdiffT (n - 2 ^ 64)) ∧ cssize (.cArray n) = none ∧ cssize (.tupleLike n) = none := by
  have hm : IntTy.ptrdiffT.minVal = - 2 ^ 63 ∧ IntTy.ptrdiffT.maxVal = 2 ^ 63 - 1 := by decide
  refine ⟨?_, ?_, ?_⟩
  · have : signedSizeType .sizeT = .ptrdiffT := rfl
    have hp : (2 : Nat) ^ 64 = 18446744073709551616 := by norm_num
    have hp3 : (2 : Int) ^ 64 = 18446744073709551616 := by norm_num
    have hp2 : (2 : Nat) ^ 63 = 9223372036854775808 := by norm_num
    simp only [cssize, this, Option.some.injEq, Res.value.injEq, true_and]
    simp only [IntTy.ptrdiffT, IntTy.wrap, if_true]
    rw [hp] at h2 ⊢; rw [hp2] at h1; rw [hp3]
    rw [Int.bmod_def]
    split <;> omega
  · simp only [cssize, integralConstant, IntTy.InRange, hm]; rw [if_neg (by omega)]
  · simp only [cssize, integralConstant, IntTy.InRange, hm]; rw [if_neg (by omega)]

example : Possible (.container ⟨32, false⟩ 4000000000) := by
  refine ⟨?_, by omega, by decide⟩
  decide
example : csize (.tupleLike 3) = some (.constant .sizeT 3) ∧ cssize (.cArray 3) = some (.constant .ptrdiffT 3) := by decide
example : cssize (.container ⟨32, false⟩ 4000000000) = some (.value ⟨64, true⟩ 4000000000) := by decide
example : (2 ^ 63 : Nat) ≤ 2 ^ 63 + 5 ∧ (2 ^ 63 + 5 : Nat) < 2 ^ 64 := by decide

end Makeshift.Props
