import Verif.Model.PermutationInt
import Verif.Props.Permutation
import Verif.Lemmas.Fill

/-!
# Permutations with bounded index types: C73
-/

namespace Makeshift.Props

open Makeshift.Spec

/-! ## Helper lemmas -/

theorem minVal_nonpos (t : IntTy) : t.minVal ≤ 0 := by
  unfold IntTy.minVal
  split
  · have := Int.natCast_nonneg (2 ^ (t.bits - 1)); omega
  · omega

theorem inc_ok {t : IntTy} (ht : StdWidth t) {x : Int} (h0 : 0 ≤ x) (h : x < t.maxVal) : t.inc x = .ok (x + 1) := by
  have hr : t.InRange x := ⟨by have := minVal_nonpos t; omega, by omega⟩
  have hr' : t.InRange (x + 1) := ⟨by have := hr.1; omega, by omega⟩
  unfold IntTy.inc
  rw [add_one ht hr (fun _ => by omega), Outcome.bind_ok, wrap_id ht hr']

theorem outer_done_of_nonpos {α : Type} (ty : IntTy) (body : Int → PermState α → PermEnd × PermState α) (length : Int) (h : length ≤ 0)
    (fuel : Nat) (s : PermState α) : PermInt.outer ty body length (fuel + 1) 0 s = some (.done, s) := by
  simp only [PermInt.outer]; rw [if_neg (by omega)]

theorem outer_perm {α : Type} {ty : IntTy} (ht : StdWidth ty) (n : Nat) (hn : (n : Int) ≤ ty.maxVal) :
    ∀ (m i fuel : Nat) (s : PermState α), i + m = n → m < fuel →
      PermInt.outer ty (fun i s => applyPermInner (n : Int).toNat i.toNat i.toNat s) n fuel i s = some (applyPermOuter n m i s)
  | 0, i, fuel, s, him, hf => by
    obtain ⟨f, rfl⟩ : ∃ f, fuel = f + 1 := ⟨fuel - 1, by omega⟩
    simp only [PermInt.outer, applyPermOuter]
    rw [if_neg (by omega)]
  | m + 1, i, fuel, s, him, hf => by
    obtain ⟨f, rfl⟩ : ∃ f, fuel = f + 1 := ⟨fuel - 1, by omega⟩
    simp only [PermInt.outer, applyPermOuter, Int.toNat_natCast]
    rw [if_pos (by omega)]
    rcases hr : applyPermInner n i i s with ⟨e, s'⟩
    cases e with
    | done =>
      simp only
      rw [inc_ok ht (by omega) (by omega)]
      have := outer_perm ht n hn m (i + 1) f s' (by omega) (by omega)
      simpa using this
    | failFast => rfl
    | ub => rfl

theorem outer_rev {α : Type} {ty : IntTy} (ht : StdWidth ty) (n : Nat) (hn : (n : Int) ≤ ty.maxVal) :
    ∀ (m i fuel : Nat) (s : PermState α), i + m = n → m < fuel →
      PermInt.outer ty (fun i s => applyRevInner (n : Int).toNat i.toNat s) n fuel i s = some (applyRevOuter n m i s)
  | 0, i, fuel, s, him, hf => by
    obtain ⟨f, rfl⟩ : ∃ f, fuel = f + 1 := ⟨fuel - 1, by omega⟩
    simp only [PermInt.outer, applyRevOuter]
    rw [if_neg (by omega)]
  | m + 1, i, fuel, s, him, hf => by
    obtain ⟨f, rfl⟩ : ∃ f, fuel = f + 1 := ⟨fuel - 1, by omega⟩
    simp only [PermInt.outer, applyRevOuter, Int.toNat_natCast]
    rw [if_pos (by omega)]
    rcases hr : applyRevInner n i s with ⟨e, s'⟩
    cases e with
    | done =>
      simp only
      rw [inc_ok ht (by omega) (by omega)]
      have := outer_rev ht n hn m (i + 1) f s' (by omega) (by omega)
      simpa using this
    | failFast => rfl
    | ub => rfl

theorem wrap_max_succ {ty : IntTy} (ht : StdWidth ty) : ty.wrap (ty.maxVal + 1) ≤ 0 := by
  obtain ⟨b, s⟩ := ty
  cases s <;> rcases ht with h' | h' | h' | h' <;> simp only at h' <;> subst h' <;> decide

/-! ## Properties -/

/-- C73: with an index type that can represent the number of elements, the algorithms do exactly what C20 to C24 say, for all
indices, valid or not. -/
theorem C73_exact {α : Type} (ty : IntTy) (ht : StdWidth ty) (s : PermState α) (hn : (s.elems.length : Int) ≤ ty.maxVal)
    (fuel : Nat) (hf : s.elems.length < fuel) :
    PermInt.applyPermutation ty fuel s = some (Makeshift.applyPermutation s) ∧
    PermInt.applyReversePermutation ty fuel s = some (Makeshift.applyReversePermutation s) := by
  have hw : ty.wrap (s.elems.length : Int) = s.elems.length :=
    wrap_id ht ⟨by have := minVal_nonpos ty; omega, hn⟩
  unfold PermInt.applyPermutation PermInt.applyReversePermutation
  rw [hw]
  exact ⟨outer_perm ht _ hn _ 0 fuel s (by omega) hf, outer_rev ht _ hn _ 0 fuel s (by omega) hf⟩

/-- C73: in particular, given a permutation, element `i` of the result is the old element `indices[i]`; the inverse moves the old
element `i` to position `indices[i]`. -/
theorem C73_permutes {α : Type} (ty : IntTy) (ht : StdWidth ty) (elems : List α) (idx : List Int)
    (h : IsPermutation idx elems.length) (hn : (elems.length : Int) ≤ ty.maxVal) (fuel : Nat) (hf : elems.length < fuel) :
    (∃ s', PermInt.applyPermutation ty fuel ⟨elems, idx⟩ = some (.done, s') ∧ s'.elems.length = elems.length ∧
      ∀ i p : Nat, idx[i]? = some (p : Int) → s'.elems[i]? = elems[p]?) ∧
    (∃ s', PermInt.applyReversePermutation ty fuel ⟨elems, idx⟩ = some (.done, s') ∧ s'.elems.length = elems.length ∧
      ∀ i p : Nat, idx[i]? = some (p : Int) → s'.elems[p]? = elems[i]?) := by
  obtain ⟨h1, h2⟩ := C73_exact ty ht ⟨elems, idx⟩ hn fuel hf
  obtain ⟨e1, h3, h4, h5⟩ := C20_apply_permutation elems idx h
  obtain ⟨e2, h6, h7, h8⟩ := C22_apply_reverse_permutation elems idx h
  exact ⟨⟨_, by rw [h1, h3], h4, h5⟩, ⟨_, by rw [h2, h6], h7, h8⟩⟩

/-- C73 is false without this precondition: there is exactly one length for which the indices of a permutation are representable but
the length is not, and for it the algorithms do nothing at all and report no error. -/
theorem C73_one_too_many {α : Type} (ty : IntTy) (ht : StdWidth ty) (elems : List α) (idx : List Int)
    (h : IsPermutation idx elems.length) (hr : ∀ x ∈ idx, ty.InRange x) (hn : ¬ (elems.length : Int) ≤ ty.maxVal) (fuel : Nat) :
    (elems.length : Int) = ty.maxVal + 1 ∧
    PermInt.applyPermutation ty (fuel + 1) ⟨elems, idx⟩ = some (.done, ⟨elems, idx⟩) ∧
    PermInt.applyReversePermutation ty (fuel + 1) ⟨elems, idx⟩ = some (.done, ⟨elems, idx⟩) := by
  have h0 : 0 ≤ ty.maxVal := by
    obtain ⟨b, s⟩ := ty
    cases s <;> rcases ht with h' | h' | h' | h' <;> simp only at h' <;> subst h' <;> decide
  have hlen : (elems.length : Int) = ty.maxVal + 1 := by
    have hm : ((elems.length - 1 : Nat) : Int) ∈ idx := h.mem_iff.mpr (mem_identity.mpr ⟨by omega, by omega⟩)
    have := (hr _ hm).2
    omega
  refine ⟨hlen, ?_, ?_⟩
  · unfold PermInt.applyPermutation
    exact outer_done_of_nonpos _ _ _ (by simp only; rw [hlen]; exact wrap_max_succ ht) _ _
  · unfold PermInt.applyReversePermutation
    exact outer_done_of_nonpos _ _ _ (by simp only; rw [hlen]; exact wrap_max_succ ht) _ _

/-- The reversal of 256 elements, given by indices of type `std::uint8_t`. -/
def reversal256 : List Int := ((List.range 256).map Int.ofNat).reverse

/-- C73: the hypotheses of `C73_one_too_many` can be met: a reversal of 256 elements with indices of type `std::uint8_t` is not
performed. -/
theorem C73_uint8_reversal (fuel : Nat) :
    IsPermutation reversal256 256 ∧
    PermInt.applyPermutation ⟨8, false⟩ (fuel + 1) ⟨List.range 256, reversal256⟩ = some (.done, ⟨List.range 256, reversal256⟩) := by
  have hp : IsPermutation reversal256 256 := List.reverse_perm _
  refine ⟨hp, (C73_one_too_many ⟨8, false⟩ (.inl rfl) (List.range 256) reversal256 (by simpa using hp) ?_ ?_ fuel).2.1⟩
  · intro x hx
    have := mem_identity.mp (hp.mem_iff.mp hx)
    constructor
    · show (0 : Int) ≤ x; exact this.1
    · show x ≤ (255 : Int); have := this.2; simp at this; omega
  · rw [List.length_range]; decide

/-- The hypotheses of `C73_permutes` are met by a permutation of 5 elements with indices of type `signed char`. -/
example : StdWidth ⟨8, true⟩ ∧ IsPermutation [2, 0, 1, 4, 3] [10, 11, 12, 13, 14].length
    ∧ (([10, 11, 12, 13, 14] : List Nat).length : Int) ≤ IntTy.maxVal ⟨8, true⟩ := by
  unfold IsPermutation StdWidth; decide

end Makeshift.Props
