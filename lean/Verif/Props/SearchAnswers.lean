import Verif.Lemmas.SearchAnswers

/-! # C163: `expand` and operators which throw or change their minds -/

namespace Makeshift.Props

open Makeshift.SearchAnswers Makeshift.SearchAnswers.Spec

/-- Whatever the operators of the user's type do: the search comes to an end, compares with listed values only, and if it finds something then because the
last answers say so.  The first comparison which throws ends the search, and the exception reaches the caller. -/
theorem C163_sound (w : Answers) (sorted : Bool) (n : Nat) : Sound w n (search w sorted n) := by
  cases sorted
  · exact linear_sound w n n 0 [] (Int.le_refl _) (by omega) (by simp) (answered_nil w)
  · exact binary_sound w n n 0 n [] (by omega) (Int.le_refl _) (by omega) (Int.le_refl _) (by simp) (answered_nil w)

example : search (fun made => if made.length = 2 then .throw (str "no") else .ok false) true 5 =
    ([.listedLess 2, .valueLess 2], .throw (str "no")) := by
  decide +kernel

/-- The number of comparisons is limited as in C101, no matter what the operators do: in a sorted list of at most 2ᵏ + 1 values at most 2 k + 3, and otherwise at most
one for each listed value. -/
theorem C163_number (w : Answers) (n : Nat) :
    (∀ k, n ≤ 2 ^ k + 1 → (search w true n).1.length ≤ 2 * k + 3) ∧ (search w false n).1.length ≤ n := by
  refine ⟨fun k hk => ?_, ?_⟩
  · have := binary_length w n k 0 n [] (by omega)
    simpa [search] using this
  · have := linear_length w n 0 []
    simpa [search] using this

example : (search (fun _ => .ok false) false 4).1.length = 4 := by decide +kernel

/-- In a list which is not sorted, or whose type has no `<`, the values are compared in order with `==` up to the first answer which is not `false`; if all answers are `false`, nothing
is found. -/
theorem C163_linear (w : Answers) (n : Nat) : ∃ m, m ≤ n ∧ (search w false n).1 = (inOrder m) ∧
    (∀ k, 0 < k → k < m → w (inOrder k) = .ok false) ∧
      ((m = n ∧ (search w false n).2 = .ok (-1) ∧ (0 < m → w (search w false n).1 = .ok false)) ∨
        (0 < m ∧ w (search w false n).1 = .ok true ∧ (search w false n).2 = .ok ((m : Int) - 1)) ∨
        (0 < m ∧ (∀ b, w (search w false n).1 ≠ .ok b) ∧ (search w false n).2 = (w (search w false n).1).bind fun _ => .ok (-1))) := by
  have := linear_order w n 0 (search w false n) (fun k h1 h2 => absurd h1 (by omega)) rfl
  rwa [Nat.zero_add] at this

example : search (fun made => .ok (decide (made.length = 2))) false 4 = ([.equal 0, .equal 1], .ok 1) := by decide +kernel

/-- For operators without side effects, the comparisons are those of C101, with the result of C15 and C115. -/
theorem C163_pure {α : Type} (lt eq : α → α → Bool) (value : α) (values : List α) (w : Answers) (h : pureAnswer lt eq value values w) :
    search w (areValuesSorted lt values) values.length =
      ((searchGeneralC (some lt) eq value values).made, (searchGeneralC (some lt) eq value values).result) ∧
    search w false values.length = ((searchGeneralC none eq value values).made, (searchGeneralC none eq value values).result) := by
  have hl : search w false values.length = ((linearSearchFromC eq value 0 values).made, (linearSearchFromC eq value 0 values).result) := by
    have := linear_agrees h values 0 [] (by simp)
    simpa [search] using this
  refine ⟨?_, hl⟩
  cases hs : areValuesSorted lt values
  · rw [hl]
    simp [searchGeneralC, hs]
  · have := binary_agrees h values.length 0 values.length [] (by omega) (Int.le_refl _) (by omega) (Int.le_refl _)
    simpa [search, searchGeneralC, hs, binarySearchC] using this

example : pureAnswer (fun a b : Nat => decide (a < b)) (fun a b => decide (a = b)) 7 [3, 7]
    fun made => match made.getLast? with
      | some (.listedLess i) => .ok (decide (([3, 7][i.toNat]?).getD 0 < 7))
      | some (.valueLess i) => .ok (decide (7 < ([3, 7][i.toNat]?).getD 0))
      | some (.equal i) => .ok (decide (([3, 7][i.toNat]?).getD 0 = 7))
      | none => .ub := by
  intro made i x hx
  simp [hx]

/-- So whatever the operators do, `expand()`, `try_expand()` and `expand_failfast()` yield a listed value, or report that the runtime value is not supported in their way, or the last
comparison has not returned, and an exception of it reaches the caller. -/
theorem C163_expand {α : Type} (w : Answers) (sorted : Bool) (values : List α) :
    (∃ x ∈ values, ∀ mode, expandWith mode (search w sorted values.length).2 values = .ok (some x)) ∨
    (expandWith .failfast (search w sorted values.length).2 values = .failFast ∧
      expandWith .optional (search w sorted values.length).2 values = .ok none ∧
      expandWith .throwing (search w sorted values.length).2 values = .throw (str "unsupported runtime value")) ∨
    ((search w sorted values.length).1 ≠ [] ∧ (∀ b, w (search w sorted values.length).1 ≠ .ok b) ∧
      ∀ e, w (search w sorted values.length).1 = .throw e → ∀ mode, expandWith mode (search w sorted values.length).2 values = .throw e) := by
  obtain ⟨-, ⟨-, h | ⟨i, h0, hn, h, -⟩⟩ | ⟨before, c, hc, -, h⟩⟩ := C163_sound w sorted values.length
  · right; left
    rw [h]
    exact ⟨rfl, rfl, rfl⟩
  · left
    obtain ⟨x, hx, hx'⟩ := at_some ⟨h0, hn⟩
    refine ⟨x, List.mem_of_getElem? hx', fun mode => ?_⟩
    rw [h]
    show (if i < 0 then _ else _) = _
    rw [if_neg (by omega), hx]
  · right; right
    refine ⟨by rw [hc]; simp, ?_⟩
    rcases h with ⟨e, h1, h2⟩ | ⟨h1, h2⟩ | ⟨h1, h2⟩
    · rw [h1, h2]
      refine ⟨by simp, fun e' he mode => ?_⟩
      cases he
      rfl
    · rw [h1]
      exact ⟨by simp, fun e he => by cases he⟩
    · rw [h1]
      exact ⟨by simp, fun e he => by cases he⟩

example : expandWith .optional (search (fun made => .ok (decide (made.length = 2))) false 4).2 [10, 20, 30, 40] = .ok (some 20) := by decide +kernel

end Makeshift.Props
