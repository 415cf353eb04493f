import Verif.Spec.ReduceTypes
import Verif.Lemmas.Fill
import Mathlib.Data.Int.ModEq

/-! Helper lemmas for reductions of machine integers. -/

namespace Makeshift

open Spec

theorem wrap_modEq (t : IntTy) (x : Int) : t.wrap x ≡ x [ZMOD (2 ^ t.bits : Nat)] := by
  unfold IntTy.wrap Int.ModEq
  split
  · exact Int.bmod_emod
  · exact Int.emod_emod _ _

theorem wrap_congr {t : IntTy} {x y : Int} (h : x ≡ y [ZMOD (2 ^ t.bits : Nat)]) : t.wrap x = t.wrap y := by
  unfold IntTy.wrap
  unfold Int.ModEq at h
  split
  · rw [← Int.emod_bmod, h, Int.emod_bmod]
  · exact h

theorem common_std {t u : IntTy} (ht : StdWidth t) (hu : StdWidth u) : StdWidth (t.common u) := by
  obtain ⟨b, s⟩ := t
  obtain ⟨b', s'⟩ := u
  cases s <;> cases s' <;> rcases ht with h | h | h | h <;> simp only at h <;> subst h <;> rcases hu with h | h | h | h <;> simp only at h <;> subst h <;>
    simp [IntTy.common, IntTy.promote, StdWidth]

theorem common_bits_left {t u : IntTy} (ht : StdWidth t) (hu : StdWidth u) : t.bits ≤ (t.common u).bits := by
  obtain ⟨b, s⟩ := t
  obtain ⟨b', s'⟩ := u
  cases s <;> cases s' <;> rcases ht with h | h | h | h <;> simp only at h <;> subst h <;> rcases hu with h | h | h | h <;> simp only at h <;> subst h <;>
    simp [IntTy.common, IntTy.promote]

theorem common_bits_right {t u : IntTy} (ht : StdWidth t) (hu : StdWidth u) : u.bits ≤ (t.common u).bits := by
  obtain ⟨b, s⟩ := t
  obtain ⟨b', s'⟩ := u
  cases s <;> cases s' <;> rcases ht with h | h | h | h <;> simp only at h <;> subst h <;> rcases hu with h | h | h | h <;> simp only at h <;> subst h <;>
    simp [IntTy.common, IntTy.promote]

/-- Using the common type once more does not change it. -/
theorem common_common {t u : IntTy} (ht : StdWidth t) (hu : StdWidth u) : (t.common u).common u = t.common u := by
  obtain ⟨b, s⟩ := t
  obtain ⟨b', s'⟩ := u
  cases s <;> cases s' <;> rcases ht with h | h | h | h <;> simp only at h <;> subst h <;> rcases hu with h | h | h | h <;> simp only at h <;> subst h <;>
    simp [IntTy.common, IntTy.promote]

theorem common_inRange_left {t u : IntTy} (ht : StdWidth t) (hu : StdWidth u) (hs : (t.common u).signed = true) {x : Int} (h : t.InRange x) :
    (t.common u).InRange x := by
  obtain ⟨b, s⟩ := t
  obtain ⟨b', s'⟩ := u
  cases s <;> cases s' <;> rcases ht with h | h | h | h <;> simp only at h <;> subst h <;> rcases hu with h | h | h | h <;> simp only at h <;> subst h <;>
    simp [IntTy.common, IntTy.promote, IntTy.InRange, IntTy.minVal, IntTy.maxVal] at * <;> omega

theorem common_inRange_right {t u : IntTy} (ht : StdWidth t) (hu : StdWidth u) (hs : (t.common u).signed = true) {x : Int} (h : u.InRange x) :
    (t.common u).InRange x := by
  obtain ⟨b, s⟩ := t
  obtain ⟨b', s'⟩ := u
  cases s <;> cases s' <;> rcases ht with h | h | h | h <;> simp only at h <;> subst h <;> rcases hu with h | h | h | h <;> simp only at h <;> subst h <;>
    simp [IntTy.common, IntTy.promote, IntTy.InRange, IntTy.minVal, IntTy.maxVal] at * <;> omega

theorem modEq_mono {m n : Nat} (h : m ≤ n) {x y : Int} (hxy : x ≡ y [ZMOD (2 ^ n : Nat)]) : x ≡ y [ZMOD (2 ^ m : Nat)] :=
  hxy.of_dvd (by exact_mod_cast pow_dvd_pow 2 h)

theorem mathOp_modEq (op : ArithOp) {n a b c d : Int} (h : a ≡ b [ZMOD n]) (h' : c ≡ d [ZMOD n]) : mathOp op a c ≡ mathOp op b d [ZMOD n] := by
  cases op
  · exact h.add h'
  · exact h.sub h'
  · exact h.mul h'

theorem apply_eq_mathOp (op : ArithOp) : op.apply = mathOp op := by
  cases op <;> rfl

theorem mathResult_modEq (op : ArithOp) {n a b : Int} (h : a ≡ b [ZMOD n]) (l : List Int) : mathResult op a l ≡ mathResult op b l [ZMOD n] := by
  induction l generalizing a b with
  | nil => exact h
  | cons e l ih => exact ih (mathOp_modEq op h rfl)

/-- A call of a function object: in a signed common type the operands keep their values. -/
theorem call_signed (op : ArithOp) {t u : IntTy} (ht : StdWidth t) (hu : StdWidth u) (hs : (t.common u).signed = true) {a b : Int} (ha : t.InRange a)
    (hb : u.InRange b) : op.call t u a b = if (t.common u).InRange (mathOp op a b) then .ok (mathOp op a b) else .ub := by
  unfold ArithOp.call IntTy.arith
  rw [hs, if_pos rfl, wrap_id (common_std ht hu) (common_inRange_left ht hu hs ha), wrap_id (common_std ht hu) (common_inRange_right ht hu hs hb),
    apply_eq_mathOp]

theorem call_unsigned (op : ArithOp) {t u : IntTy} (hs : (t.common u).signed = false) (a b : Int) :
    op.call t u a b = .ok ((t.common u).wrap (mathOp op a b)) := by
  unfold ArithOp.call IntTy.arith
  rw [hs, if_neg (by simp), apply_eq_mathOp]
  congr 1
  exact wrap_congr (mathOp_modEq op (wrap_modEq _ _) (wrap_modEq _ _))

theorem wrap_wrap_common {t u : IntTy} (ht : StdWidth t) (hu : StdWidth u) (x : Int) : t.wrap ((t.common u).wrap x) = t.wrap x :=
  wrap_congr (modEq_mono (common_bits_left ht hu) (wrap_modEq _ _))

theorem reduceAssign_signed (op : ArithOp) {t u : IntTy} (ht : StdWidth t) (hu : StdWidth u) (hs : (t.common u).signed = true) {a b : Int} (ha : t.InRange a)
    (hb : u.InRange b) :
    reduceAssign op t u (.ok a) b = if (t.common u).InRange (mathOp op a b) then .ok (t.wrap (mathOp op a b)) else .ub := by
  unfold reduceAssign
  rw [Outcome.bind_ok, call_signed op ht hu hs ha hb]
  split <;> rfl

theorem reduceAssign_unsigned (op : ArithOp) {t u : IntTy} (ht : StdWidth t) (hu : StdWidth u) (hs : (t.common u).signed = false) (a b : Int) :
    reduceAssign op t u (.ok a) b = .ok (t.wrap (mathOp op a b)) := by
  unfold reduceAssign
  rw [Outcome.bind_ok, call_unsigned op hs, Outcome.mapVal_ok, wrap_wrap_common ht hu]

theorem rangeReduceInt_cons (op : ArithOp) (t u : IntTy) (init e : Int) (l : List Int) :
    rangeReduceInt op t u init (e :: l) = rangeReduce (reduceAssign op t u (.ok init) e) (reduceAssign op t u) l := rfl

theorem rangeReduce_ub (op : ArithOp) (t u : IntTy) (l : List Int) : rangeReduce .ub (reduceAssign op t u) l = .ub := by
  induction l with
  | nil => rfl
  | cons e l ih => exact ih

theorem reducePass_fold_ub (op : ArithOp) (l : List (IntTy × Int)) : l.foldl (reducePass op) .ub = .ub := by
  induction l with
  | nil => rfl
  | cons e l ih => exact ih

end Makeshift
