import Verif.Lemmas.PermutationShort
import Verif.Props.Permutation

/-!
# C21, C23: too few indices
-/

namespace Makeshift.Props

/-- C21: with fewer indices than elements, `apply_permutation` never returns normally, whatever the indices are. -/
theorem C21_too_few {α : Type} (elems : List α) (idx : List Int) (h : idx.length < elems.length) : (applyPermutation ⟨elems, idx⟩).1 ≠ .done :=
  applyPermOuter_short _ _ 0 ⟨elems, idx⟩ (Nat.zero_le _) (by simpa using h)

/-- Non-vacuity of `C21_too_few`, for an index which is detected. -/
example : ([5] : List Int).length < [10, 11].length ∧ (applyPermutation (⟨[10, 11], [5]⟩ : PermState Nat)).1 = .failFast := by
  refine ⟨by decide, by decide +kernel⟩

/-- C21: in particular, a permutation of the first elements is performed, and then the index range is read past its end. -/
theorem C21_too_few_permutation {α : Type} (elems : List α) (idx : List Int) (m : Nat) (h : IsPermutation idx m) (hm : m < elems.length) :
    ∃ e, applyPermutation ⟨elems, idx⟩ = (.ub, ⟨e ++ elems.drop m, (List.range m).map Int.ofNat⟩) ∧ e.length = m ∧
      ∀ i p : Nat, idx[i]? = some (p : Int) → e[i]? = elems[p]? := by
  have hlt : (elems.take m).length = m := by simp; omega
  obtain ⟨e, h1, h2, h3⟩ := C20_apply_permutation (elems.take m) idx (by rw [hlt]; exact h)
  rw [hlt] at h1 h2
  unfold applyPermutation at h1 ⊢
  simp only [hlt] at h1
  refine ⟨e, ?_, h2, fun i p hip => ?_⟩
  · have h4 := (applyPermOuter_append m elems.length (by omega) (elems.drop m) m 0 (elems.take m) idx hlt (by omega)
      (fun x hx _ => (mem_identity.mp (h.mem_iff.mp hx)).2)).1
    rw [h1, List.take_append_drop] at h4
    obtain ⟨k, hk⟩ : ∃ k, elems.length = m + (k + 1) := ⟨elems.length - m - 1, by omega⟩
    show applyPermOuter elems.length elems.length 0 _ = _
    conv_lhs => arg 2; rw [hk]
    rw [applyPermOuter_add, h4]
    simp only [applyPermOuter]
    rw [applyPermInner_eq]
    rw [List.getElem?_eq_none (by simp)]
  · rw [h3 i p hip]
    have := (mem_identity.mp (h.mem_iff.mp (List.mem_of_getElem? hip))).2
    rw [List.getElem?_take_of_lt (by omega)]

/-- Non-vacuity of `C21_too_few_permutation`. -/
example : IsPermutation [1, 2, 0] 3 ∧ 3 < [10, 11, 12, 13, 14].length ∧
    applyPermutation (⟨[10, 11, 12, 13, 14], [1, 2, 0]⟩ : PermState Nat) = (.ub, ⟨[11, 12, 10, 13, 14], [0, 1, 2]⟩) := by
  refine ⟨by unfold IsPermutation; decide, by decide, by decide +kernel⟩

/-- C23: with fewer indices than elements, `apply_reverse_permutation` never returns normally either. -/
theorem C23_too_few {α : Type} (elems : List α) (idx : List Int) (h : idx.length < elems.length) : (applyReversePermutation ⟨elems, idx⟩).1 ≠ .done :=
  applyRevOuter_short _ _ 0 ⟨elems, idx⟩ (Nat.zero_le _) (by simpa using h)

/-- Non-vacuity of `C23_too_few`, for an index which is beyond the indices, but not beyond the elements. -/
example : ([1] : List Int).length < [10, 11].length ∧ (applyReversePermutation (⟨[10, 11], [1]⟩ : PermState Nat)).1 = .ub := by
  refine ⟨by decide, by decide +kernel⟩

/-- C23: a permutation of the first elements is performed, and then the index range is read past its end. -/
theorem C23_too_few_permutation {α : Type} (elems : List α) (idx : List Int) (m : Nat) (h : IsPermutation idx m) (hm : m < elems.length) :
    ∃ e, applyReversePermutation ⟨elems, idx⟩ = (.ub, ⟨e ++ elems.drop m, (List.range m).map Int.ofNat⟩) ∧ e.length = m ∧
      ∀ i p : Nat, idx[i]? = some (p : Int) → e[p]? = elems[i]? := by
  have hlt : (elems.take m).length = m := by simp; omega
  have hil : idx.length = m := by simpa [IsPermutation] using h.length_eq
  obtain ⟨e, h1, h2, h3⟩ := C22_apply_reverse_permutation (elems.take m) idx (by rw [hlt]; exact h)
  rw [hlt] at h1 h2
  unfold applyReversePermutation at h1 ⊢
  simp only [hlt] at h1
  refine ⟨e, ?_, h2, fun i p hip => ?_⟩
  · have h4 := applyRevOuter_append m elems.length (by omega) (elems.drop m) m 0 (elems.take m) idx hlt hil (by omega)
      (fun x hx _ => (mem_identity.mp (h.mem_iff.mp hx)).2)
    rw [h1, List.take_append_drop] at h4
    obtain ⟨k, hk⟩ : ∃ k, elems.length = m + (k + 1) := ⟨elems.length - m - 1, by omega⟩
    show applyRevOuter elems.length elems.length 0 _ = _
    conv_lhs => arg 2; rw [hk]
    rw [applyRevOuter_add, h4]
    simp only [applyRevOuter]
    rw [applyRevInner_eq]
    rw [List.getElem?_eq_none (by simp)]
  · rw [h3 i p hip]
    have : i < m := by
      by_contra hc; rw [List.getElem?_eq_none (by omega)] at hip; simp at hip
    rw [List.getElem?_take_of_lt this]

/-- Non-vacuity of `C23_too_few_permutation`. -/
example : IsPermutation [1, 2, 0] 3 ∧ 3 < [10, 11, 12, 13, 14].length ∧
    applyReversePermutation (⟨[10, 11, 12, 13, 14], [1, 2, 0]⟩ : PermState Nat) = (.ub, ⟨[12, 10, 11, 13, 14], [0, 1, 2]⟩) := by
  refine ⟨by unfold IsPermutation; decide, by decide, by decide +kernel⟩

end Makeshift.Props
