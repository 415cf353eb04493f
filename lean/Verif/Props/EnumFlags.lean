import Verif.Model.EnumFlags
import Verif.Lemmas.Serialize

/-!
# Flag predicates: C61

Flags values are seen as sets of bits here: bit `i` of `x` is `x.getLsbD i`.
-/

namespace Makeshift.Props

open Makeshift.Flags

variable {w : Nat}

/-- The value consists of the bit `i` only. -/
def IsBit (x : BitVec w) (i : Nat) : Prop := i < w ∧ ∀ j, x.getLsbD j = true ↔ j = i

theorem eq_iff_bits (x y : BitVec w) : x = y ↔ ∀ i, x.getLsbD i = y.getLsbD i := by
  constructor
  · rintro rfl i; rfl
  · intro h; exact BitVec.eq_of_getLsbD_eq (fun i _ => h i)

/-- C61: `has_any_flag_of` - there is a common bit. -/
theorem C61_any (haystack needles : BitVec w) :
    hasAnyFlagOf haystack needles = true ↔ ∃ i, needles.getLsbD i = true ∧ haystack.getLsbD i = true := by
  unfold hasAnyFlagOf
  rw [bne_iff_ne, ne_eq, eq_iff_bits, not_forall]
  simp [and_comm]

/-- C61: `has_no_flag_of` - there is no common bit; the opposite of `has_any_flag_of`. -/
theorem C61_none (haystack needles : BitVec w) :
    (hasNoFlagOf haystack needles = true ↔ ∀ i, needles.getLsbD i = true → haystack.getLsbD i = false) ∧
    hasNoFlagOf haystack needles = !hasAnyFlagOf haystack needles := by
  have h2 : hasNoFlagOf haystack needles = !hasAnyFlagOf haystack needles := by
    unfold hasNoFlagOf hasAnyFlagOf; simp [bne]
  refine ⟨?_, h2⟩
  rw [h2]
  have := C61_any haystack needles
  constructor
  · intro h i hi
    by_contra hc
    have : hasAnyFlagOf haystack needles = true := this.2 ⟨i, hi, by simpa using hc⟩
    simp [this] at h
  · intro h
    by_contra hc
    have hc' : hasAnyFlagOf haystack needles = true := by simpa using hc
    obtain ⟨i, h1, h3⟩ := this.1 hc'
    rw [h i h1] at h3; cases h3

/-- C61: `has_all_flags_of` - the bits are a subset. -/
theorem C61_all (haystack needles : BitVec w) :
    hasAllFlagsOf haystack needles = true ↔ ∀ i, needles.getLsbD i = true → haystack.getLsbD i = true := by
  unfold hasAllFlagsOf
  rw [beq_iff_eq, eq_iff_bits]
  constructor
  · intro h i hi
    have := h i
    rw [BitVec.getLsbD_and, hi] at this
    simpa using this
  · intro h i
    rw [BitVec.getLsbD_and]
    cases hn : needles.getLsbD i
    · simp
    · simp [h i hn]

/-- C61: the single-flag check accepts exactly the values consisting of a single bit; for signed underlying types, other than the sign
bit. -/
theorem C61_accepts (signed : Bool) (x : BitVec w) :
    isFlagPowerOf2 signed x = true ↔ ∃ i, IsBit x i ∧ (signed = true → i + 1 ≠ w) := by
  have key : ((x.toNat > 0 ∧ (x &&& (x - 1#w)) = 0#w) ↔ ∃ i, IsBit x i) := by
    have h := Makeshift.isPowerOf2_iff x
    unfold isPowerOf2 at h
    simp only [Bool.and_eq_true, decide_eq_true_eq, beq_iff_eq, BitVec.lt_def, BitVec.toNat_ofNat, Nat.zero_mod] at h
    rw [gt_iff_lt, h]
    unfold Spec.SingleBit IsBit
    constructor
    · rintro ⟨i, hi, hj⟩; exact ⟨i, hi, fun j => by rw [hj]; simp⟩
    · rintro ⟨i, hi, hj⟩
      refine ⟨i, hi, fun j => ?_⟩
      have := hj j
      by_cases hji : j = i
      · simp [this.2 hji, hji]
        rw [← hji]; exact this.2 hji
      · simp only [hji, iff_false, Bool.not_eq_true] at this
        simp [this, hji]
  cases signed
  · unfold isFlagPowerOf2
    simp only [Bool.false_eq_true, if_false, Bool.and_eq_true, decide_eq_true_eq, beq_iff_eq, false_implies, and_true]
    exact key
  · have hsign : x.toInt > 0 ↔ x.toNat > 0 ∧ x.msb = false := by
      rw [BitVec.toInt_eq_msb_cond]
      cases hm : x.msb
      · simp
      · have := x.isLt
        simp only [if_true, Bool.true_eq_false, and_false, iff_false]
        have : ((x.toNat : Int)) < 2 ^ w := by exact_mod_cast this
        push_cast
        omega
    unfold isFlagPowerOf2
    simp only [if_true, Bool.and_eq_true, decide_eq_true_eq, beq_iff_eq, hsign, true_implies]
    constructor
    · rintro ⟨⟨h1, h2⟩, h3⟩
      obtain ⟨i, hi⟩ := key.1 ⟨h1, h3⟩
      refine ⟨i, hi, fun hc => ?_⟩
      rw [BitVec.msb_eq_getLsbD_last] at h2
      have : x.getLsbD (w - 1) = true := (hi.2 (w - 1)).2 (by omega)
      rw [this] at h2; cases h2
    · rintro ⟨i, hi, hw⟩
      obtain ⟨h1, h3⟩ := key.2 ⟨i, hi⟩
      refine ⟨⟨h1, ?_⟩, h3⟩
      rw [BitVec.msb_eq_getLsbD_last]
      have h4 := hi.2 (w - 1)
      have h5 := hi.1
      have : ¬ (w - 1 = i) := by omega
      simp only [this, iff_false, Bool.not_eq_true] at h4
      exact h4

/-- C61: for a needle which is a single bit, `has_flag` decides whether the haystack has that bit, as do `has_any_flag_of` and
`has_all_flags_of`; provided that the audit check is off, or that the needle is not the sign bit of a signed type. -/
theorem C61_has_flag (audit signed : Bool) (haystack needle : BitVec w) (i : Nat) (hb : IsBit needle i)
    (hs : audit = true → signed = true → i + 1 ≠ w) :
    hasFlag audit signed haystack needle = .ok (haystack.getLsbD i) ∧
    hasAnyFlagOf haystack needle = haystack.getLsbD i ∧ hasAllFlagsOf haystack needle = haystack.getLsbD i := by
  have hall : hasAllFlagsOf haystack needle = haystack.getLsbD i := by
    rw [Bool.eq_iff_iff, C61_all]
    constructor
    · intro h; exact h i ((hb.2 i).2 rfl)
    · intro h j hj; rw [(hb.2 j).1 hj]; exact h
  have hany : hasAnyFlagOf haystack needle = haystack.getLsbD i := by
    rw [Bool.eq_iff_iff, C61_any]
    constructor
    · rintro ⟨j, hj, hh⟩; rw [← (hb.2 j).1 hj]; exact hh
    · intro h; exact ⟨i, (hb.2 i).2 rfl, h⟩
  refine ⟨?_, hany, hall⟩
  unfold hasFlag
  have hpre : (!audit || isFlagPowerOf2 signed needle) = true := by
    cases audit
    · rfl
    · simp only [Bool.not_true, Bool.false_or]
      exact (C61_accepts signed needle).2 ⟨i, hb, hs rfl⟩
  rw [hpre]
  unfold hasAllFlagsOf at hall
  rw [hall]; rfl

/-- C61: the audit check fails for everything else, and the form with a constant needle is then ill-formed; it needs no audit level. -/
theorem C61_has_flag_rejects (signed : Bool) (haystack needle : BitVec w) :
    ((¬ ∃ i, IsBit needle i ∧ (signed = true → i + 1 ≠ w)) → hasFlag true signed haystack needle = .failFast ∧
      hasFlagStatic signed needle haystack = none) ∧
    ∀ i, IsBit needle i → (signed = true → i + 1 ≠ w) → hasFlagStatic signed needle haystack = some (haystack.getLsbD i) := by
  refine ⟨fun h => ?_, fun i hb hs => ?_⟩
  · have hf : isFlagPowerOf2 signed needle = false := by
      rw [← Bool.not_eq_true, C61_accepts]; exact h
    constructor
    · unfold hasFlag; rw [hf]; rfl
    · unfold hasFlagStatic; rw [hf]; rfl
  · have ht := (C61_accepts signed needle).2 ⟨i, hb, hs⟩
    have h2 := (C61_has_flag false signed haystack needle i hb (by simp)).2.2
    unfold hasAllFlagsOf at h2
    unfold hasFlagStatic
    rw [ht, h2]; rfl

/-- C61: the sign bit of a signed type of any width is a single flag, and yet rejected. -/
theorem C61_sign_bit (n : Nat) (haystack : BitVec (n + 1)) :
    IsBit (BitVec.twoPow (n + 1) n) n ∧ hasFlag true true haystack (BitVec.twoPow (n + 1) n) = .failFast ∧
    hasFlag false true haystack (BitVec.twoPow (n + 1) n) = .ok (haystack.getLsbD n) := by
  have hb : IsBit (BitVec.twoPow (n + 1) n) n := by
    refine ⟨by omega, fun j => ?_⟩
    rw [BitVec.getLsbD_twoPow]
    simp [eq_comm]
  refine ⟨hb, ((C61_has_flag_rejects true haystack _).1 ?_).1, (C61_has_flag false true haystack _ n hb (by simp)).1⟩
  rintro ⟨i, hi, hne⟩
  have := (hi.2 n).1 ((hb.2 n).2 rfl)
  exact hne rfl (by omega)

-- the flag 4 of an eight bit type, signed or not
example : IsBit (4#8) 2 := ⟨by omega, fun j => by
  rw [show (4#8) = BitVec.twoPow 8 2 by decide, BitVec.getLsbD_twoPow]; simp [eq_comm]⟩
example : hasFlag true true (6#8) (4#8) = .ok true := by decide
example : hasFlag true true (3#8) (4#8) = .ok false := by decide
example : hasFlag true false (3#8) (6#8) = .failFast := by decide
example : hasFlag true true (0#8) (128#8) = .failFast := by decide
example : hasFlag true false (0#8) (128#8) = .ok false := by decide

end Makeshift.Props
