import Verif.Spec.TupleCompare

/-! # Lemmas for C162: comparisons of `value_tuple`s with user-defined operators -/

namespace Makeshift.TupleCompare

open Makeshift.TupleCompare Makeshift.TupleCompare.Spec

theorem first_succ (call : Nat → Call) (m : Nat) : first call (m + 1) = first call m ++ [call m] := by
  simp [first, List.range_succ]

theorem both_succ (d : Bool) (m : Nat) : both d (m + 1) = both d m ++ [.lt m d, .lt m !d] := by
  simp [both, List.range_succ]

theorem and_aux (w : Answers) (call : Nat → Call) (n d m : Nat) (hn : m + d = n)
    (hw : ∀ k, 0 < k → k ≤ m → w (first call k) = .ok true) :
    AllInOrder w call n (andLoop w call (List.range' m d) (first call m)) := by
  induction d generalizing m with
  | zero =>
    exact ⟨m, by omega, rfl, fun k h1 h2 => hw k h1 (by omega), .inl ⟨by omega, rfl, fun h => hw m h (Nat.le_refl _)⟩⟩
  | succ d ih =>
    rw [List.range'_succ, andLoop, ← first_succ]
    have hlt : ∀ k, 0 < k → k < m + 1 → w (first call k) = .ok true := fun k h1 h2 => hw k h1 (by omega)
    split
    · next h =>
      refine ih (m + 1) (by omega) fun k h1 h2 => ?_
      rcases Nat.lt_or_ge k (m + 1) with h3 | h3
      · exact hlt k h1 h3
      · rw [show k = m + 1 by omega, h]
    · next h => exact ⟨m + 1, by omega, rfl, hlt, .inr ⟨Nat.succ_pos m, rfl, h⟩⟩

theorem lt_aux (w : Answers) (s : Bool) (n d m : Nat) (hn : m + d = n)
    (hw : ∀ k, k < m → w (both s k ++ [.lt k s]) = .ok false ∧ w (both s (k + 1)) = .ok false) :
    Lexicographic w s n (ltLoop w s (List.range' m d) (both s m)) := by
  induction d generalizing m with
  | zero =>
    have e : m = n := by omega
    subst e
    exact ⟨m, Nat.le_refl _, hw, .inl ⟨rfl, rfl⟩⟩
  | succ d ih =>
    rw [List.range'_succ, ltLoop, ← both_succ]
    split
    · next h => exact ⟨m, by omega, hw, .inr (.inl ⟨by omega, rfl, h.symm, by simp⟩)⟩
    · next h =>
      split
      · next h2 => exact ⟨m, by omega, hw, .inr (.inr ⟨by omega, h, rfl, by rw [h2]; simp, by rw [h2]; rfl⟩)⟩
      · next h2 =>
        refine ih (m + 1) (by omega) fun k hk => ?_
        rcases Nat.lt_or_ge k m with h3 | h3
        · exact hw k h3
        · rw [show k = m by omega]
          exact ⟨h, h2⟩
      · next h2 h3 =>
        refine ⟨m, by omega, hw, .inr (.inr ⟨by omega, h, rfl, h3, ?_⟩)⟩
        show w (both s (m + 1)) = (w (both s (m + 1))).bind _
        cases ho : w (both s (m + 1)) with
        | ok b => cases b <;> contradiction
        | throw e => rfl
        | failFast => rfl
        | ub => rfl
    · next h h3 => exact ⟨m, by omega, hw, .inr (.inl ⟨by omega, rfl, rfl, h3⟩)⟩

theorem pure_and {α : Type} (op : α → α → Bool) (call : Nat → Call) (w : Answers) :
    ∀ (d m : Nat) (lhs rhs : Nat → α) (made : List Call), (∀ made i, w (made ++ [call i]) = .ok (op (lhs i) (rhs i))) →
      (andLoop w call (List.range' m d) made).2 =
        .ok (((List.range' m d).map fun i => op (lhs i) (rhs i)).all id) := by
  intro d
  induction d with
  | zero => intros; rfl
  | succ d ih =>
    intro m lhs rhs made h
    rw [List.range'_succ, andLoop, h]
    cases ho : op (lhs m) (rhs m)
    · simp [ho]
    · simp only [List.map_cons, List.all_cons, ho, id, Bool.true_and]
      exact ih (m + 1) lhs rhs _ h

open Classical in
theorem pure_lt (lt : Nat → Bool → Bool) (w : Answers) (s : Bool) (h : ∀ made i d, w (made ++ [.lt i d]) = .ok (lt i d)) (d m : Nat)
    (made : List Call) :
    (ltLoop w s (List.range' m d) made).2 =
      .ok (decide (∃ i, m ≤ i ∧ i < m + d ∧ lt i s = true ∧ ∀ j, m ≤ j → j < i → lt j s = false ∧ lt j (!s) = false)) := by
  induction d generalizing m made with
  | zero =>
    show Outcome.ok false = _
    congr 1
    symm
    rw [decide_eq_false_iff_not]
    rintro ⟨i, h1, h2, -⟩
    omega
  | succ d ih =>
    have h' : w (made ++ [.lt m s, .lt m !s]) = .ok (lt m !s) := by
      rw [show made ++ [Call.lt m s, .lt m !s] = (made ++ [.lt m s]) ++ [.lt m !s] by simp]
      exact h _ _ _
    rw [List.range'_succ, ltLoop, h, h']
    cases h1 : lt m s
    · cases h2 : lt m !s
      · simp only
        rw [ih]
        congr 1
        rw [decide_eq_decide]
        constructor
        · rintro ⟨i, a, b, c, e⟩
          refine ⟨i, by omega, by omega, c, fun j hj hji => ?_⟩
          rcases Nat.eq_or_lt_of_le hj with rfl | hj
          · exact ⟨h1, h2⟩
          · exact e j hj hji
        · rintro ⟨i, a, b, c, e⟩
          rcases Nat.eq_or_lt_of_le a with rfl | a
          · rw [h1] at c; cases c
          · exact ⟨i, a, by omega, c, fun j hj hji => e j (by omega) hji⟩
      · simp only
        congr 1
        symm
        rw [decide_eq_false_iff_not]
        rintro ⟨i, a, b, c, e⟩
        rcases Nat.eq_or_lt_of_le a with rfl | a
        · rw [h1] at c; cases c
        · have := (e m (Nat.le_refl _) a).2
          rw [h2] at this
          cases this
    · simp only
      congr 1
      symm
      rw [decide_eq_true_iff]
      exact ⟨m, Nat.le_refl _, by omega, h1, fun j hj hji => by omega⟩

end Makeshift.TupleCompare
