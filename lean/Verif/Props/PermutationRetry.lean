import Verif.Lemmas.PermutationRetry
import Verif.Props.Permutation

/-!
# What rejected permutations leave behind, and calls after a rejected one: C148

`IsPermutation` is defined in `Props/Permutation.lean`: the indices are a rearrangement of `0, 1, .., n-1`.
-/

namespace Makeshift.Props

open Makeshift.PermRetry

private theorem retry_not_perm {idx : List Int} {n j : Nat} {x : Int} (hj : idx[j]? = some x)
    (h : (x < 0 ∨ (n : Int) ≤ x) ∨ ∃ k : Nat, k ≠ j ∧ idx[k]? = some x) : ¬ IsPermutation idx n := by
  intro hp
  rcases h with h | ⟨k, hk, h⟩
  · have := mem_identity.mp (hp.mem_iff.mp (List.mem_of_getElem? hj)); omega
  · exact hk (nodup_get_inj (hp.nodup_iff.mpr (identity_nodup n)) h hj)

/-- C148: if `apply_permutation` rejects the indices, these afterwards hold the identity before some position, and there one of the
given indices which is out of range or had been given at least twice.  They are not a permutation. -/
theorem C148_apply_left {α : Type} (elems : List α) (idx : List Int) (hl : idx.length = elems.length)
    (hf : (applyPermutation ⟨elems, idx⟩).1 = .failFast) :
    (∃ (j : Nat) (x : Int), j < elems.length ∧ (∀ k < j, (applyPermutation ⟨elems, idx⟩).2.idx[k]? = some (k : Int)) ∧
      (applyPermutation ⟨elems, idx⟩).2.idx[j]? = some x ∧ x ∈ idx ∧ (x < 0 ∨ (elems.length : Int) ≤ x ∨ 2 ≤ idx.count x)) ∧
    (applyPermutation ⟨elems, idx⟩).2.idx.length = idx.length ∧
    ¬ IsPermutation (applyPermutation ⟨elems, idx⟩).2.idx elems.length := by
  obtain ⟨j, x, h1, h2, h3, h4, h5⟩ :=
    applyPermOuter_left elems.length elems.length 0 ⟨elems, idx⟩ (by omega) rfl hl (by simp) hf
  obtain ⟨-, -, g3, -⟩ := applyPermOuter_spec elems.length elems.length 0 ⟨elems, idx⟩ (by omega) rfl hl (by simp)
  refine ⟨⟨j, x, h1, h2, h3, h4, ?_⟩, g3.trans hl.symm, retry_not_perm h3 ?_⟩
  · rcases h5 with (h5 | h5) | ⟨h5, _⟩
    · exact .inl h5
    · exact .inr (.inl h5)
    · exact .inr (.inr h5)
  · rcases h5 with h5 | ⟨_, h5⟩
    · exact .inl h5
    · exact .inr h5

/-- The duplicate index 1 is found after three swaps and stored in place 0. -/
example : ([1, 2, 1] : List Int).length = [10, 11, 12].length ∧
    applyPermutation ⟨[10, 11, 12], [1, 2, 1]⟩ = (.failFast, ⟨[11, 10, 12], [1, 1, 2]⟩) := by
  decide +kernel

/-- C148: `apply_reverse_permutation` moves indices along with the elements: whether it succeeds or not, every element still has its index
beside it.  If it rejects the indices, they hold the identity before some position, and there an index which is out of range or had
been given at least twice.  They are not a permutation. -/
theorem C148_reverse_left {α : Type} (elems : List α) (idx : List Int) (hl : idx.length = elems.length) :
    ((applyReversePermutation ⟨elems, idx⟩).2.elems.zip (applyReversePermutation ⟨elems, idx⟩).2.idx).Perm (elems.zip idx) ∧
    (applyReversePermutation ⟨elems, idx⟩).2.idx.length = idx.length ∧
    ((applyReversePermutation ⟨elems, idx⟩).1 = .failFast →
      (∃ (j : Nat) (x : Int), j < elems.length ∧ (∀ k < j, (applyReversePermutation ⟨elems, idx⟩).2.idx[k]? = some (k : Int)) ∧
        (applyReversePermutation ⟨elems, idx⟩).2.idx[j]? = some x ∧ x ∈ idx ∧ (x < 0 ∨ (elems.length : Int) ≤ x ∨ 2 ≤ idx.count x)) ∧
      ¬ IsPermutation (applyReversePermutation ⟨elems, idx⟩).2.idx elems.length) := by
  obtain ⟨-, g2, g3, g4, -, -⟩ :=
    applyRevOuter_spec elems.length elems.length 0 ⟨elems, idx⟩ (by omega) rfl hl (by simp)
  refine ⟨g2, g4.trans hl.symm, fun hf => ?_⟩
  obtain ⟨j, x, h1, h2, h3, h4⟩ :=
    applyRevOuter_left elems.length elems.length 0 ⟨elems, idx⟩ (by omega) rfl hl (by simp) hf
  have hidx : (applyReversePermutation ⟨elems, idx⟩).2.idx.Perm idx := by
    have := g2.map Prod.snd
    rwa [List.map_snd_zip (by omega), List.map_snd_zip (by simp [hl])] at this
  refine ⟨⟨j, x, h1, h2, h3, hidx.mem_iff.mp (List.mem_of_getElem? h3), ?_⟩, retry_not_perm h3 h4⟩
  rcases h4 with (h4 | h4) | ⟨k, hk, h4⟩
  · exact .inl h4
  · exact .inr (.inl h4)
  · refine .inr (.inr ?_)
    rw [← hidx.count_eq]
    exact count_two hk h4 h3

example : ([1, 2, 1] : List Int).length = [10, 11, 12].length ∧
    applyReversePermutation ⟨[10, 11, 12], [1, 2, 1]⟩ = (.failFast, ⟨[12, 10, 11], [1, 1, 2]⟩) ∧
    applyReversePermutation ⟨[10, 11, 12], [1, 2, 0]⟩ = (.done, ⟨[12, 10, 11], [0, 1, 2]⟩) := by
  decide +kernel

/-- One call: how it ends depends on whether the indices are a permutation only, and so does whether they are one afterwards. -/
private theorem retry_call {α : Type} (c : Call) (elems : List α) (idx : List Int) (hl : idx.length = elems.length) :
    (call c ⟨elems, idx⟩).2.elems.Perm elems ∧ (call c ⟨elems, idx⟩).2.idx.length = elems.length ∧
    (IsPermutation idx elems.length → (call c ⟨elems, idx⟩).1 = .done ∧
      (call c ⟨elems, idx⟩).2.idx = (List.range elems.length).map Int.ofNat) ∧
    (¬ IsPermutation idx elems.length → (call c ⟨elems, idx⟩).1 = .failFast ∧
      ¬ IsPermutation (call c ⟨elems, idx⟩).2.idx elems.length) := by
  cases c with
  | apply =>
    obtain ⟨_, h2, _, h4⟩ := C21_apply_permutation_rejects elems idx hl
    obtain ⟨-, -, g3, -⟩ := applyPermOuter_spec elems.length elems.length 0 ⟨elems, idx⟩ (by omega) rfl hl (by simp)
    refine ⟨h4, g3, fun hp => ?_, fun hp => ⟨h2.2 hp, (C148_apply_left elems idx hl (h2.2 hp)).2.2⟩⟩
    obtain ⟨e, he, -⟩ := C20_apply_permutation elems idx hp
    simp only [call, he, true_and]
  | reverse =>
    obtain ⟨_, h2, _, h4, _⟩ := C23_apply_reverse_permutation_rejects elems idx hl
    obtain ⟨_, g2, g3⟩ := C148_reverse_left elems idx hl
    refine ⟨h4, g2.trans hl, fun hp => ?_, fun hp => ⟨h2.2 hp, (g3 (h2.2 hp)).2⟩⟩
    obtain ⟨e, he, -⟩ := C22_apply_reverse_permutation elems idx hp
    simp only [call, he, true_and]

private theorem retry_identity {α : Type} (c : Call) (elems : List α) :
    call c ⟨elems, (List.range elems.length).map Int.ofNat⟩ = (.done, ⟨elems, (List.range elems.length).map Int.ofNat⟩) := by
  have hp : IsPermutation ((List.range elems.length).map Int.ofNat) elems.length := List.Perm.refl _
  have hid : ∀ i : Nat, i < elems.length → ((List.range elems.length).map Int.ofNat)[i]? = some (i : Int) := fun i hi => identity_get hi
  have hsame : ∀ e : List α, e.length = elems.length → (∀ i : Nat, i < elems.length → e[i]? = elems[i]?) → e = elems := by
    intro e hle h
    apply List.ext_getElem?
    intro i
    by_cases hi : i < elems.length
    · exact h i hi
    · rw [List.getElem?_eq_none (by omega), List.getElem?_eq_none (by omega)]
  cases c with
  | apply =>
    obtain ⟨e, he, hle, h⟩ := C20_apply_permutation elems _ hp
    rw [call, he, hsame e hle fun i hi => h i i (hid i hi)]
  | reverse =>
    obtain ⟨e, he, hle, h⟩ := C22_apply_reverse_permutation elems _ hp
    rw [call, he, hsame e hle fun i hi => h i i (hid i hi)]

/-- C148: any number of calls of the two functions, in any order, on the same element and index ranges, where exceptions are caught.  If the
indices are a permutation, all calls succeed, and those after the first one change nothing. -/
theorem C148_calls_permutation {α : Type} (c : Call) (cs : List Call) (elems : List α) (idx : List Int)
    (hp : IsPermutation idx elems.length) :
    (calls (c :: cs) ⟨elems, idx⟩).1 = List.replicate (cs.length + 1) .done ∧
    (calls (c :: cs) ⟨elems, idx⟩).2 = (call c ⟨elems, idx⟩).2 := by
  have hl : idx.length = elems.length := by simpa using hp.length_eq
  obtain ⟨h1, _, h3, _⟩ := retry_call c elems idx hl
  obtain ⟨h3, h4⟩ := h3 hp
  have key : ∀ (cs : List Call) (e : List α), calls cs ⟨e, (List.range e.length).map Int.ofNat⟩ =
      (List.replicate cs.length .done, ⟨e, (List.range e.length).map Int.ofNat⟩) := by
    intro cs
    induction cs with
    | nil => intro e; rfl
    | cons c cs ih => intro e; rw [calls, retry_identity]; simp only [ih, List.length_cons, List.replicate_succ]
  rcases hr : call c ⟨elems, idx⟩ with ⟨r, ⟨e, ix⟩⟩
  rw [hr] at h1 h3 h4
  simp only at h1 h3 h4
  subst h3 h4
  rw [calls, hr]
  simp only
  rw [← h1.length_eq, key]
  exact ⟨rfl, rfl⟩

example : IsPermutation [2, 0, 1] [10, 11, 12].length ∧
    calls [.apply, .reverse, .apply] ⟨[10, 11, 12], [2, 0, 1]⟩ = ([.done, .done, .done], ⟨[12, 10, 11], [0, 1, 2]⟩) := by
  constructor
  · unfold IsPermutation; decide
  · decide +kernel

/-- C148: if the indices are not a permutation, all calls fail, and the elements are only rearranged. -/
theorem C148_calls_rejected {α : Type} (cs : List Call) (elems : List α) (idx : List Int) (hl : idx.length = elems.length)
    (hp : ¬ IsPermutation idx elems.length) :
    (calls cs ⟨elems, idx⟩).1 = List.replicate cs.length .failFast ∧ (calls cs ⟨elems, idx⟩).2.elems.Perm elems := by
  induction cs generalizing elems idx with
  | nil => exact ⟨rfl, List.Perm.refl _⟩
  | cons c cs ih =>
    obtain ⟨h1, h2, _, h4⟩ := retry_call c elems idx hl
    obtain ⟨h4, h5⟩ := h4 hp
    rcases hr : call c ⟨elems, idx⟩ with ⟨r, ⟨e, ix⟩⟩
    rw [hr] at h1 h2 h4 h5
    simp only at h1 h2 h4 h5
    subst h4
    rw [calls, hr]
    simp only
    obtain ⟨r1, r2⟩ := ih e ix (h2.trans h1.length_eq.symm) (by rw [h1.length_eq]; exact h5)
    rw [r1]
    exact ⟨rfl, r2.trans h1⟩

example : ([1, 2, 1] : List Int).length = [10, 11, 12].length ∧ ¬ IsPermutation [1, 2, 1] [10, 11, 12].length ∧
    (calls [.apply, .apply, .reverse] ⟨[10, 11, 12], [1, 2, 1]⟩).1 = [.failFast, .failFast, .failFast] := by
  refine ⟨rfl, ?_, by decide +kernel⟩
  unfold IsPermutation; decide

end Makeshift.Props
