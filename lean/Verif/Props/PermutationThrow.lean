import Verif.Lemmas.PermutationThrow
import Verif.Props.Permutation

/-!
# C102: permuting when `swap` throws

`revThrow calls s`, `permThrow calls s` and `shuffleThrow draw calls l` are calls of `apply_reverse_permutation`, `apply_permutation` and
`shuffle` in which the first `calls` calls of `swap` succeed and the next one, if there is one, throws.
-/

namespace Makeshift.Props

variable {α : Type}

/-- C102: if `swap` throws in `apply_reverse_permutation`, the elements and the indices are rearranged only, and calling the function once
more with the same ranges does what the interrupted call was to do (including failing fast if the indices are invalid). -/
theorem C102_reverse_resumes (calls : Nat) (s s' : PermState α) (hl : s.idx.length = s.elems.length)
    (h : revThrow calls s = (.thrown, s')) :
    s'.elems.Perm s.elems ∧ s'.idx.Perm s.idx ∧ applyReversePermutation s' = applyReversePermutation s := by
  obtain ⟨h1, h2, h3⟩ := revThrowOuter_thrown _ _ 0 calls s s' (by omega) rfl hl (by simp) h
  refine ⟨h2, h3, ?_⟩
  rw [applyReversePermutation, applyReversePermutation, h2.length_eq, h1]

example : ([2, 0, 1, 4, 3] : List Int).length = [10, 11, 12, 13, 14].length ∧
    revThrow 1 (⟨[10, 11, 12, 13, 14], [2, 0, 1, 4, 3]⟩ : PermState Nat) =
      (.thrown, ⟨[12, 11, 10, 13, 14], [1, 0, 2, 4, 3]⟩) := by decide +kernel

/-- C102: any number of calls which `swap` leaves by an exception, one after another. -/
inductive Interrupted : PermState α → PermState α → Prop where
  | none (s : PermState α) : Interrupted s s
  | more {s s1 s2 : PermState α} (calls : Nat) : revThrow calls s = (.thrown, s1) → Interrupted s1 s2 → Interrupted s s2

/-- C102: however often `apply_reverse_permutation` is interrupted and called again, the first call that is not left by an exception
completes the permutation: the element at position `i` has moved to position `indices[i]`. -/
theorem C102_reverse_retry (elems : List α) (idx : List Int) (h : IsPermutation idx elems.length) (s' : PermState α)
    (hi : Interrupted ⟨elems, idx⟩ s') (calls : Nat) (e : PermEnd) (s'' : PermState α)
    (hc : revThrow calls s' = (.ends e, s'')) :
    e = .done ∧ s''.idx = (List.range elems.length).map Int.ofNat ∧
    ∀ i p : Nat, idx[i]? = some (p : Int) → s''.elems[p]? = elems[i]? := by
  have hl : idx.length = elems.length := by simpa using h.length_eq
  have key : ∀ s s' : PermState α, Interrupted s s' → s.idx.length = s.elems.length →
      applyReversePermutation s' = applyReversePermutation s := by
    intro s s' hi
    induction hi with
    | none => intro _; rfl
    | more calls h1 _ ih =>
      intro hl
      obtain ⟨q1, q2, q3⟩ := C102_reverse_resumes calls _ _ hl h1
      rw [ih (by rw [q2.length_eq, q1.length_eq, hl]), q3]
  have hend : applyReversePermutation s' = (e, s'') := revThrowOuter_ends _ _ _ _ _ _ _ hc
  rw [key _ _ hi hl] at hend
  obtain ⟨elems', he, -, hm⟩ := C22_apply_reverse_permutation elems idx h
  rw [he] at hend
  simp only [Prod.mk.injEq] at hend
  obtain ⟨rfl, rfl⟩ := hend
  exact ⟨rfl, rfl, hm⟩

example : IsPermutation [2, 0, 1, 4, 3] [10, 11, 12, 13, 14].length ∧
    Interrupted (⟨[10, 11, 12, 13, 14], [2, 0, 1, 4, 3]⟩ : PermState Nat) ⟨[11, 12, 10, 13, 14], [0, 1, 2, 4, 3]⟩ ∧
    revThrow 1 (⟨[11, 12, 10, 13, 14], [0, 1, 2, 4, 3]⟩ : PermState Nat) =
      (.ends .done, ⟨[11, 12, 10, 14, 13], [0, 1, 2, 3, 4]⟩) := by
  refine ⟨by unfold IsPermutation; decide, ?_, by decide +kernel⟩
  refine .more (s1 := ⟨[12, 11, 10, 13, 14], [1, 0, 2, 4, 3]⟩) 1 (by decide +kernel) ?_
  exact .more 1 (by decide +kernel) (.none _)

/-- C102: if `swap` throws in `apply_permutation`, the elements are rearranged only. Missing for the full claim: the permutation
can be completed by another call only if the index array still is a permutation; if it is not, another call fails fast. -/
theorem C102_forward_partial (calls : Nat) (elems : List α) (idx : List Int) (h : IsPermutation idx elems.length)
    (s' : PermState α) (ht : permThrow calls ⟨elems, idx⟩ = (.thrown, s')) :
    s'.elems.Perm elems ∧
    (IsPermutation s'.idx elems.length → applyPermutation s' = applyPermutation ⟨elems, idx⟩) ∧
    (¬ IsPermutation s'.idx elems.length → (applyPermutation s').1 = .failFast) := by
  obtain ⟨h1, h2, h3⟩ := permThrowOuter_thrown elems.length elems.length 0 calls ⟨elems, idx⟩ s' (by simp) rfl h (by simp) ht
  simp only at h1
  refine ⟨h1, ?_, ?_⟩
  · intro hp
    rcases h3 with ⟨-, h3⟩ | h3
    · rw [applyPermutation, applyPermutation, h1.length_eq, h3]
    · exact absurd (hp.nodup_iff.mpr (identity_nodup _)) h3
  · intro hp
    have := (C21_apply_permutation_rejects s'.elems s'.idx (by rw [h2, h1.length_eq])).2.1.mpr (by rwa [h1.length_eq])
    exact this

example : IsPermutation [1, 0, 3, 4, 2] [10, 11, 12, 13, 14].length ∧
    (permThrow 1 (⟨[10, 11, 12, 13, 14], [1, 0, 3, 4, 2]⟩ : PermState Nat)).1 = .thrown ∧
    IsPermutation (permThrow 1 (⟨[10, 11, 12, 13, 14], [1, 0, 3, 4, 2]⟩ : PermState Nat)).2.idx 5 ∧
    (permThrow 2 (⟨[10, 11, 12, 13, 14], [1, 0, 3, 4, 2]⟩ : PermState Nat)).1 = .thrown ∧
    ¬ IsPermutation (permThrow 2 (⟨[10, 11, 12, 13, 14], [1, 0, 3, 4, 2]⟩ : PermState Nat)).2.idx 5 := by
  have h1 : permThrow 1 (⟨[10, 11, 12, 13, 14], [1, 0, 3, 4, 2]⟩ : PermState Nat) =
      (.thrown, ⟨[11, 10, 12, 13, 14], [0, 1, 3, 4, 2]⟩) := by decide +kernel
  have h2 : permThrow 2 (⟨[10, 11, 12, 13, 14], [1, 0, 3, 4, 2]⟩ : PermState Nat) =
      (.thrown, ⟨[11, 10, 13, 12, 14], [0, 1, 2, 4, 2]⟩) := by decide +kernel
  rw [h1, h2]
  refine ⟨?_, rfl, ?_, rfl, ?_⟩ <;> · unfold IsPermutation; decide

/-- C102: within a cycle of three elements, an exception thrown by the second call of `swap` makes `apply_permutation` leave an
index array which is not a permutation, and calling it again fails fast; `apply_reverse_permutation` can be called again. -/
theorem C102_forward_negated :
    permThrow 1 (⟨[10, 11, 12], [1, 2, 0]⟩ : PermState Nat) = (.thrown, ⟨[11, 10, 12], [0, 2, 0]⟩) ∧
    ¬ IsPermutation [0, 2, 0] 3 ∧
    (applyPermutation (⟨[11, 10, 12], [0, 2, 0]⟩ : PermState Nat)).1 = .failFast ∧
    revThrow 1 (⟨[10, 11, 12], [1, 2, 0]⟩ : PermState Nat) = (.thrown, ⟨[11, 10, 12], [2, 1, 0]⟩) ∧
    applyReversePermutation (⟨[11, 10, 12], [2, 1, 0]⟩ : PermState Nat) = (.done, ⟨[12, 10, 11], [0, 1, 2]⟩) := by
  refine ⟨by decide +kernel, by unfold IsPermutation; decide, by decide +kernel, by decide +kernel, by decide +kernel⟩

/-- C102: as many calls of `swap` as there are elements are enough: no further call is made, and the functions do what they do
when no call throws. -/
theorem C102_enough_calls (calls : Nat) (s : PermState α) (hl : s.idx.length = s.elems.length) (hc : s.elems.length ≤ calls) :
    permThrow calls s = (.ends (applyPermutation s).1, (applyPermutation s).2) ∧
    revThrow calls s = (.ends (applyReversePermutation s).1, (applyReversePermutation s).2) := by
  have hb : nonFixedFrom 0 s.idx ≤ calls := Nat.le_trans (nonFixedFrom_le 0 s.idx) (by omega)
  obtain ⟨e1, s1, h1⟩ := permThrowOuter_enough s.elems.length s.elems.length 0 calls s hb
  obtain ⟨e2, s2, h2⟩ := revThrowOuter_enough s.elems.length s.elems.length 0 calls s hb
  refine ⟨?_, ?_⟩
  · rw [permThrow, h1, applyPermutation, permThrowOuter_ends _ _ _ _ _ _ _ h1]
  · rw [revThrow, h2, applyReversePermutation, revThrowOuter_ends _ _ _ _ _ _ _ h2]

example : ([2, 0, 1] : List Int).length = [10, 11, 12].length ∧ [10, 11, 12].length ≤ 3 := by decide

/-- C102: `shuffle` leaves all elements in the range if `swap` throws, and never accesses memory out of bounds before.  If it ends without an
exception (as it does if at least `n - 1` calls of `swap` succeed, where `n` is the number of elements), the result is that of a `swap` which never throws. -/
theorem C102_shuffle (draw : Nat → Nat) (calls : Nat) (l : List α) (hd : ∀ i, draw i ≤ i) :
    ∃ l' b, shuffleThrow draw calls l = some (l', b) ∧ l'.Perm l ∧ (b = false → shuffle draw l = some l') ∧
      (l.length ≤ calls + 1 → b = false) := by
  cases h : shuffleThrow draw calls l with
  | none => exact absurd h (shuffleThrowLoop_defined draw _ calls l (by omega) (fun j _ => hd j))
  | some r =>
    obtain ⟨l', b⟩ := r
    refine ⟨l', b, rfl, shuffleThrowLoop_perm draw _ _ _ _ _ h, ?_, ?_⟩
    · rintro rfl
      exact shuffleThrowLoop_ends draw _ _ _ _ h
    · intro hc
      exact shuffleThrowLoop_enough draw _ _ _ _ _ (by omega) h

example : (∀ i, i / 2 ≤ i) ∧ shuffleThrow (fun i => i / 2) 1 [10, 11, 12] = some ([10, 12, 11], true) :=
  ⟨fun i => Nat.div_le_self i 2, by decide⟩

end Makeshift.Props
