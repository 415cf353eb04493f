import Verif.Spec.Flags
import Mathlib.Data.List.Basic

/-! Helper lemmas about bit vectors as sets of bits. -/

namespace Makeshift

open Spec

theorem nat_pow_two_of_and {n : Nat} (h : n ≠ 0) (h1 : n &&& (n - 1) = 0) : ∃ k, n = 2 ^ k := by
  induction n using Nat.strongRecOn with
  | _ n ih =>
    have hd : n / 2 &&& (n - 1) / 2 = 0 := by
      rw [← Nat.and_div_two, h1]
    by_cases ho : n % 2 = 1
    · have e : (n - 1) / 2 = n / 2 := by omega
      rw [e, Nat.and_self] at hd
      exact ⟨0, by omega⟩
    · have e : (n - 1) / 2 = n / 2 - 1 := by omega
      rw [e] at hd
      obtain ⟨k, hk⟩ := ih (n / 2) (by omega) (by omega) hd
      exact ⟨k + 1, by omega⟩

theorem eq_zero_iff_bits {w : Nat} (v : BitVec w) : v = 0#w ↔ ∀ i, v.getLsbD i = false := by
  constructor
  · rintro rfl i; simp
  · intro h; apply BitVec.eq_of_getLsbD_eq; intro i _; rw [h i]; simp

theorem ne_zero_iff_bits {w : Nat} (v : BitVec w) : v ≠ 0#w ↔ ∃ i, v.getLsbD i = true := by
  rw [Ne, eq_zero_iff_bits]; simp

theorem singleBit_toNat {w : Nat} {v : BitVec w} {i : Nat} :
    (∀ j, v.getLsbD j = decide (j = i)) ↔ v.toNat = 2 ^ i := by
  constructor
  · intro h
    apply Nat.eq_of_testBit_eq
    intro j
    rw [BitVec.testBit_toNat, h j, Nat.testBit_two_pow]
    simp [eq_comm]
  · intro h j
    rw [← BitVec.testBit_toNat, h, Nat.testBit_two_pow]
    simp [eq_comm]

end Makeshift
