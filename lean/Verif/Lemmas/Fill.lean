import Verif.Model.Fill
import Verif.Spec.Fill
import Verif.Lemmas.Expand

/-! Helper lemmas for integer increments. -/

namespace Makeshift

open Spec

theorem arith_promote_of_inRange {t : IntTy} (ht : StdWidth t) {x : Int} (h : t.InRange x) : t.promote.arith x = .ok x := by
  obtain ⟨b, s⟩ := t
  cases s <;> rcases ht with h' | h' | h' | h' <;> simp only at h' <;> subst h' <;>
    simp [IntTy.promote, IntTy.arith, IntTy.InRange, IntTy.minVal, IntTy.maxVal, IntTy.wrap] at h ⊢ <;> omega

theorem wrap_inRange {t : IntTy} (ht : StdWidth t) (x : Int) : t.InRange (t.wrap x) := by
  obtain ⟨b, s⟩ := t
  cases s <;> rcases ht with h' | h' | h' | h' <;> simp only at h' <;> subst h' <;>
    simp [IntTy.InRange, IntTy.minVal, IntTy.maxVal, IntTy.wrap] <;> first | omega | (rw [Int.bmod_def]; omega)

theorem wrap_add_wrap {t : IntTy} (x y : Int) : t.wrap (t.wrap x + y) = t.wrap (x + y) := by
  obtain ⟨b, s⟩ := t
  cases s <;> simp [IntTy.wrap]

theorem inc_wraps {t : IntTy} (ht : StdWidth t) (hs : t.signed = false ∨ t.bits < 32) {v : Int} (hv : t.InRange v) :
    t.inc v = .ok (t.wrap (v + 1)) := by
  obtain ⟨b, s⟩ := t
  unfold IntTy.inc
  by_cases hb : b < 32
  · have : (IntTy.promote ⟨b, s⟩).arith (v + 1) = .ok (v + 1) := by
      cases s <;> rcases ht with h' | h' | h' | h' <;> simp only at h' <;> subst h' <;>
        first
        | omega
        | (simp [IntTy.promote, IntTy.arith, IntTy.InRange, IntTy.minVal, IntTy.maxVal] at hv ⊢; omega)
    rw [this]
    rfl
  · have hs' : s = false := by rcases hs with h | h; exact h; exact absurd h hb
    subst hs'
    unfold IntTy.promote
    rw [if_neg (by simpa using hb)]
    simp only [IntTy.arith]
    simp only [Bool.false_eq_true, if_false, Outcome.bind_ok]
    rw [wrap_id ht (wrap_inRange ht _)]

end Makeshift
