import Verif.Lemmas.PermutationAnswers

/-! # C164: permuting with an index range which answers anything -/

namespace Makeshift.Props

open Makeshift.PermutationAnswers Makeshift.PermutationAnswers.Spec

/-- Whatever the index range answers, and however long it is watched: `apply_permutation()` accesses nothing outside the ranges and never swaps an element with itself; it ends with the
first call which throws, passing the exception on; and it runs to its end only if every position has been read from the index range. -/
theorem C164_forward (w : Answers) (length : Int) (steps : Nat) :
    (∀ op ∈ (forward w length steps).1, InRange length op ∧ NoSelfSwap op) ∧
    ((Answered w (forward w length steps).1 ∧ ((∃ b, (forward w length steps).2 = .ok b) ∨ (forward w length steps).2 = .failFast)) ∨
      Interrupted w (forward w length steps)) ∧
    ((forward w length steps).2 = .ok true → ∀ j, Position length j → Seen w (forward w length steps).1 j) := by
  obtain ⟨h1, h2⟩ := forward_run w length steps (0, 0) (Int.le_refl _) (fun h => ⟨Int.le_refl _, h⟩) [] (answered_nil' w) (by simp)
    (fun j h0 h1 => absurd h1 (by show ¬ j < 0; omega))
  refine ⟨h1, ?_, fun hb => ?_⟩
  · rcases h2 with ⟨h3, ⟨a, h4, -⟩ | h4⟩ | h3
    · exact .inl ⟨h3, .inl ⟨a, h4⟩⟩
    · exact .inl ⟨h3, .inr h4⟩
    · exact .inr h3
  · have hb' : (forwardRun w length steps (0, 0) []).2 = .ok true := hb
    rcases h2 with ⟨-, ⟨a, h4, h5⟩ | h4⟩ | ⟨-, -, -, -, ⟨e, -, h4⟩ | ⟨-, h4⟩ | ⟨-, h4⟩⟩
    · rw [h4] at hb'
      cases hb'
      exact fun j hj => h5 rfl j hj.1 hj.2
    all_goals rw [h4] at hb'; cases hb'

example : forward (fun made => match made.getLast? with | some (.read k) => .ok (2 - k) | _ => .ok 0) 3 4 =
    ([.read 0, .read 0, .swap 0 2, .write 0 0, .read 2, .write 2 2, .read 1, .write 1 1, .read 2, .read 2, .swap 2 0, .write 2 2], .ok false) := by decide

/-- Likewise for `apply_reverse_permutation()` (which may be made to swap an element with itself). -/
theorem C164_reverse (w : Answers) (length : Int) (steps : Nat) :
    (∀ op ∈ (reverse w length steps).1, InRange length op) ∧
    ((Answered w (reverse w length steps).1 ∧ ((∃ b, (reverse w length steps).2 = .ok b) ∨ (reverse w length steps).2 = .failFast)) ∨
      Interrupted w (reverse w length steps)) ∧
    ((reverse w length steps).2 = .ok true → ∀ j, Position length j → Seen w (reverse w length steps).1 j) := by
  obtain ⟨h1, h2⟩ := reverse_run w length steps 0 (Int.le_refl _) [] (answered_nil' w) (by simp)
    (fun j h0 h1 => absurd h1 (by omega))
  refine ⟨h1, ?_, fun hb => ?_⟩
  · rcases h2 with ⟨h3, ⟨a, h4, -⟩ | h4⟩ | h3
    · exact .inl ⟨h3, .inl ⟨a, h4⟩⟩
    · exact .inl ⟨h3, .inr h4⟩
    · exact .inr h3
  · have hb' : (reverseRun w length steps 0 []).2 = .ok true := hb
    rcases h2 with ⟨-, ⟨a, h4, h5⟩ | h4⟩ | ⟨-, -, -, -, ⟨e, -, h4⟩ | ⟨-, h4⟩ | ⟨-, h4⟩⟩
    · rw [h4] at hb'
      cases hb'
      exact fun j hj => h5 rfl j hj.1 hj.2
    all_goals rw [h4] at hb'; cases hb'

example : reverse (fun made => if made.length = 2 then .ok 0 else .ok 1) 2 1 = ([.read 0, .read 0, .read 0, .swap 0 0, .swapIndices 0 0], .ok false) := by decide

/-- But neither function needs to come to an end, if the index range does not keep what is stored in it, even though no contract is violated. -/
theorem C164_endless : (∃ w : Answers, ∀ steps, (forward w 3 steps).2 = .ok false) ∧ ∃ w : Answers, ∀ steps, (reverse w 2 steps).2 = .ok false := by
  constructor
  · refine ⟨computed fun k => if k = 1 then 2 else 1, fun steps => ?_⟩
    have h : ∀ (steps : Nat) (c : Int) (made : List Op), (c = 0 ∨ c = 1 ∨ c = 2) →
        (forwardRun (computed fun k => if k = 1 then 2 else 1) 3 steps (0, c) made).2 = .ok false := by
      intro steps
      induction steps with
      | zero => intros; rfl
      | succ steps ih =>
        intro c made hc
        rcases hc with rfl | rfl | rfl
        · rw [run_ok (by show (0 : Int) < 3; omega) (step_swap (computed_read ..) (computed_read ..) (computed_swap ..) (computed_write ..) (by decide) (by decide))]
          exact ih _ _ (by decide)
        · rw [run_ok (by show (0 : Int) < 3; omega) (step_swap (computed_read ..) (computed_read ..) (computed_swap ..) (computed_write ..) (by decide) (by decide))]
          exact ih _ _ (by decide)
        · rw [run_ok (by show (0 : Int) < 3; omega) (step_swap (computed_read ..) (computed_read ..) (computed_swap ..) (computed_write ..) (by decide) (by decide))]
          exact ih _ _ (by decide)
    exact h steps 0 [] (by omega)
  · refine ⟨computed fun k => 1 - k, fun steps => ?_⟩
    have h : ∀ (steps : Nat) (made : List Op), (reverseRun (computed fun k => 1 - k) 2 steps 0 made).2 = .ok false := by
      intro steps
      induction steps with
      | zero => intros; rfl
      | succ steps ih =>
        intro made
        rw [reverseRun, if_pos (by omega)]
        have e : reverseStep (computed fun k => 1 - k) 2 0 made =
            (made ++ [.read 0] ++ [.read 0] ++ [.read 1] ++ [.swap 0 1] ++ [.swapIndices 0 1], .ok 0) := by
          rw [reverseStep, andThen_call (computed_read ..), if_neg (by decide), andThen_call (computed_read ..), if_neg (by decide), andThen_call (computed_read ..),
            if_neg (by decide), andThen_call (computed_swap ..), andThen_call (computed_swapIndices ..)]
          rfl
        rw [Code.andThen, e]
        exact ih _
    exact h steps []

/-- With an array of indices at least as long as the range, which keeps what is stored, `apply_permutation()` comes to an end, and does what has been proved in C20 and C21. -/
theorem C164_array {α : Type} (elems : List α) (idx : List Int) (w : Answers) (hw : FromMemory elems idx w) (hl : elems.length ≤ idx.length) :
    ∃ steps, memory elems idx (forward w elems.length steps).1 = ((applyPermutation ⟨elems, idx⟩).2.elems, (applyPermutation ⟨elems, idx⟩).2.idx) ∧
      (((applyPermutation ⟨elems, idx⟩).1 = .done ∧ (forward w elems.length steps).2 = .ok true) ∨
        ((applyPermutation ⟨elems, idx⟩).1 = .failFast ∧ (forward w elems.length steps).2 = .failFast)) := by
  obtain ⟨steps, made', a, b⟩ := outer_simulates hw elems.length elems.length 0 ⟨elems, idx⟩ [] (by omega) rfl hl rfl
  have e : forward w elems.length steps = forwardRun w elems.length steps (((0 : Nat) : Int), ((0 : Nat) : Int)) [] := rfl
  refine ⟨steps, ?_, ?_⟩
  · rcases b with ⟨-, b⟩ | ⟨-, b⟩ <;> rw [e, b] <;> exact a
  · rcases b with ⟨b1, b⟩ | ⟨b1, b⟩
    · exact .inl ⟨b1, by rw [e, b]⟩
    · exact .inr ⟨b1, by rw [e, b]⟩

example : FromMemory [10, 20] [1, 0] fun made => match made.getLast? with
    | some (.read k) => (match (memory [10, 20] [1, 0] made.dropLast).2[k.toNat]? with | some v => .ok v | none => .ub)
    | _ => .ok 0 := by
  refine fun made => ⟨fun k v h => ?_, fun op h => ?_⟩
  · simp [h]
  · cases op with
    | read k => exact absurd rfl (h k)
    | write k v => exact ⟨0, by simp⟩
    | swap a b => exact ⟨0, by simp⟩
    | swapIndices a b => exact ⟨0, by simp⟩

/-- Likewise for `apply_reverse_permutation()` and C22 and C23. -/
theorem C164_array_reverse {α : Type} (elems : List α) (idx : List Int) (w : Answers) (hw : FromMemory elems idx w) (hl : elems.length ≤ idx.length) :
    ∃ steps, memory elems idx (reverse w elems.length steps).1 = ((applyReversePermutation ⟨elems, idx⟩).2.elems, (applyReversePermutation ⟨elems, idx⟩).2.idx) ∧
      (((applyReversePermutation ⟨elems, idx⟩).1 = .done ∧ (reverse w elems.length steps).2 = .ok true) ∨
        ((applyReversePermutation ⟨elems, idx⟩).1 = .failFast ∧ (reverse w elems.length steps).2 = .failFast)) := by
  obtain ⟨steps, made', a, b⟩ := router_simulates hw elems.length elems.length 0 ⟨elems, idx⟩ [] (by omega) rfl hl rfl
  have e : reverse w elems.length steps = reverseRun w elems.length steps ((0 : Nat) : Int) [] := rfl
  refine ⟨steps, ?_, ?_⟩
  · rcases b with ⟨-, b⟩ | ⟨-, b⟩ <;> rw [e, b] <;> exact a
  · rcases b with ⟨b1, b⟩ | ⟨b1, b⟩
    · exact .inl ⟨b1, by rw [e, b]⟩
    · exact .inr ⟨b1, by rw [e, b]⟩

example : (applyReversePermutation ⟨[10, 20], [1, 0]⟩ : PermEnd × PermState Nat) = (.done, ⟨[20, 10], [0, 1]⟩) := by decide +kernel

end Makeshift.Props
