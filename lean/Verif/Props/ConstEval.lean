import Verif.Lemmas.ConstEval
import Verif.Props.Zip

/-! # C97: functions declared `constexpr` in constant expressions -/

namespace Makeshift.Props

open Spec

variable {α M V B : Type}

/-- If the size of one of the ranges is known - at run time or at compile time -, then the six range algorithms yield in a constant
expression exactly what they yield at run time, for all functors which return regularly; the other calls are no constant expressions.
(The property asks for this without the condition on the sizes.) -/
theorem C97_ranges_partial (rs : List (Rng Nat)) (hsz : ∀ r ∈ rs, IsSize r.size) (hs : ∃ r ∈ rs, r.size ≠ .static (-1)) (fuel : Nat)
    (m : M) :
    (∀ func, ConstEval.rangeFor func rs fuel m = sameAsRunTime (RangeObjects.rangeFor func rs fuel m)) ∧
    (∀ (selfMove : V → V) init (reduce : V → B → M → Outcome (RangeObjects.Returned V) × M) transform,
      ConstEval.rangeTransformReduce selfMove init reduce transform rs fuel m =
        sameAsRunTime (RangeObjects.rangeTransformReduce selfMove init reduce transform rs fuel m)) ∧
    (∀ p, ConstEval.rangeCountIf p rs fuel m = sameAsRunTime (RangeObjects.rangeCountIf p rs fuel m)) ∧
    (∀ p, ConstEval.rangeAllOf p rs fuel m = sameAsRunTime (RangeObjects.rangeAllOf p rs fuel m)) ∧
    (∀ p, ConstEval.rangeAnyOf p rs fuel m = sameAsRunTime (RangeObjects.rangeAnyOf p rs fuel m)) ∧
    (∀ p, ConstEval.rangeNoneOf p rs fuel m = sameAsRunTime (RangeObjects.rangeNoneOf p rs fuel m)) :=
  ⟨fun f => ConstEval.zipAlgorithm_eq rs hsz hs _ (ConstEval.leaves_for f) fuel m (),
   fun sm init r t => ConstEval.zipAlgorithm_eq rs hsz hs _ (ConstEval.leaves_reduce sm r t) fuel m init,
   fun p => ConstEval.zipAlgorithm_eq rs hsz hs _ (ConstEval.leaves_count p) fuel m 0,
   fun p => ConstEval.zipAlgorithm_eq rs hsz hs _ (ConstEval.leaves_search false false p) fuel m true,
   fun p => ConstEval.zipAlgorithm_eq rs hsz hs _ (ConstEval.leaves_search true true p) fuel m false,
   fun p => ConstEval.zipAlgorithm_eq rs hsz hs _ (ConstEval.leaves_search true false p) fuel m true⟩

/-- Adds the elements to a running total; throws if one of them is too large. -/
private def totalUpTo (bound : Nat) : RangeObjects.Fn Nat Unit
  | .elem x :: .elem y :: _, m => if bound < x then (.throw [98], m) else (.ok (), m + x * y)
  | _, m => (.ok (), m)

example : (∀ r ∈ sampleRanges, IsSize r.size) ∧ (∃ r ∈ sampleRanges, r.size ≠ .static (-1)) ∧
    ConstEval.rangeFor (totalUpTo 100) sampleRanges 4 5 = .value (5 + 200 + 231 + 264, ()) ∧
    ConstEval.rangeFor (totalUpTo 11) sampleRanges 4 5 = .notConstant := by
  refine ⟨?_, ⟨⟨.index, .dyn 3, [10, 11, 12]⟩, by simp [sampleRanges], by simp⟩, by decide +kernel, by decide +kernel⟩
  intro r hr
  simp only [sampleRanges, List.mem_cons, List.not_mem_nil, or_false] at hr
  rcases hr with rfl | rfl | rfl | rfl <;> simp [IsSize]

example : ConstEval.rangeCountIf (fun _ (m : Nat) => (.ok (m % 2 == 0), m + 1)) sampleRanges 4 0 = .value (3, 2) ∧
    ConstEval.rangeAllOf (fun _ (m : Nat) => (.ok (m < 1), m + 1)) sampleRanges 4 0 = .value (2, false) ∧
    ConstEval.rangeAnyOf (fun _ (m : Nat) => (.ok (m == 1), m + 1)) sampleRanges 4 0 = .value (2, true) ∧
    ConstEval.rangeNoneOf (fun _ (m : Nat) => (.ok (m == 7), m + 1)) sampleRanges 4 0 = .value (3, true) := by decide +kernel

/-- If no size is known, then no call of a range algorithm is a constant expression, whatever the functor and the elements are; not even
for empty ranges. -/
theorem C97_unsized (rs : List (Rng Nat)) (hv : ValidArgs rs) (hu : ∀ r ∈ rs, r.size = .static (-1)) (fuel : Nat) (m : M) :
    (∀ func, ConstEval.rangeFor func rs (fuel + 1) m = .notConstant) ∧
    (∀ (selfMove : V → V) init (reduce : V → B → M → Outcome (RangeObjects.Returned V) × M) transform,
      ConstEval.rangeTransformReduce selfMove init reduce transform rs (fuel + 1) m = .notConstant) ∧
    (∀ p, ConstEval.rangeCountIf p rs (fuel + 1) m = .notConstant) ∧
    (∀ p, ConstEval.rangeAllOf p rs (fuel + 1) m = .notConstant) ∧
    (∀ p, ConstEval.rangeAnyOf p rs (fuel + 1) m = .notConstant) ∧
    (∀ p, ConstEval.rangeNoneOf p rs (fuel + 1) m = .notConstant) :=
  ⟨fun _ => ConstEval.zipAlgorithm_unsized rs hv hu _ fuel _, fun _ _ _ _ => ConstEval.zipAlgorithm_unsized rs hv hu _ fuel _,
   fun _ => ConstEval.zipAlgorithm_unsized rs hv hu _ fuel _, fun _ => ConstEval.zipAlgorithm_unsized rs hv hu _ fuel _,
   fun _ => ConstEval.zipAlgorithm_unsized rs hv hu _ fuel _, fun _ => ConstEval.zipAlgorithm_unsized rs hv hu _ fuel _⟩

/-- A range which does not know its size, and an empty one. -/
private def unsizedRange (elems : List Nat) : List (Rng Nat) := [⟨.iteratorPair, .static (-1), elems⟩, ⟨.rangeIndex, .static (-1), []⟩]

private theorem unsizedRange_valid (elems : List Nat) : ValidArgs (unsizedRange elems) := by
  refine ⟨?_, ⟨⟨.iteratorPair, .static (-1), elems⟩, by simp [unsizedRange], by simp [IsReal]⟩, Or.inr ?_⟩
  · intro r hr
    simp only [unsizedRange, List.mem_cons, List.not_mem_nil, or_false] at hr
    rcases hr with rfl | rfl <;> simp [ValidRange]
  · intro k hk
    simp only [unsizedRange, List.length_drop, List.length_cons, List.length_nil] at hk
    omega

example : ValidArgs (unsizedRange [1, 2]) ∧ (∀ r ∈ unsizedRange [1, 2], r.size = .static (-1)) :=
  ⟨unsizedRange_valid _, by intro r hr; simp only [unsizedRange, List.mem_cons, List.not_mem_nil, or_false] at hr; rcases hr with rfl | rfl <;> rfl⟩

/-- Hence the algorithms do not always yield in a constant expression what they yield at run time: an empty range which does not know its
size. -/
theorem C97_ranges_negated :
    ¬ ∀ (rs : List (Rng Nat)) (_ : ValidArgs rs) (fuel : Nat) (m : Nat) (p : RangeObjects.Fn Nat Bool),
      ConstEval.rangeAllOf p rs fuel m = sameAsRunTime (RangeObjects.rangeAllOf p rs fuel m) := by
  intro h
  have := h (unsizedRange []) (unsizedRange_valid _) 1 0 (fun _ m => (.ok true, m))
  revert this
  decide +kernel

/-- No call of `expand`, `try_expand` or `expand_failfast` is a constant expression, although it ends regularly at run time. -/
theorem C97_expand (mode : ExpandMode) (values : List α) (i : Nat) (v : α) (h : values[i]? = some v) :
    expandWith mode (.ok i) values = .ok (some v) ∧ ConstEval.expand mode (.ok i) values = none := by
  refine ⟨?_, rfl⟩
  have hn : ¬ ((i : Int) < 0) := by omega
  simp only [expandWith, Outcome.bind, at?, hn, if_false, Int.toNat_natCast, h]

example : ([16, 32, 64] : List Nat)[1]? = some 32 := rfl

/-- Where the `swap` called for the elements is `constexpr`, `shuffle` does the same in constant expressions as at run time; otherwise it
is a constant expression exactly if every element stays in its place. -/
theorem C97_shuffle_partial (std : ConstEval.Std) (swap : ConstEval.Swap) (draw : Nat → Nat) (l l' : List α) :
    (swap = .own true ∨ swap = .std ∧ std = .cpp20 → ConstEval.shuffle std swap draw l = shuffle draw l) ∧
    (swap = .own false ∨ swap = .std ∧ std = .cpp17 →
      (ConstEval.shuffle std swap draw l = some l' ↔ (∀ i, 1 ≤ i → i < l.length → draw i = i) ∧ l' = l)) := by
  constructor
  · intro h
    have hc : swap.isConstexpr std = true := by rcases h with rfl | ⟨rfl, rfl⟩ <;> rfl
    simp only [ConstEval.shuffle, hc]
    exact ConstEval.shuffleOverLoop_true draw _ l
  · intro h
    have hc : swap.isConstexpr std = false := by rcases h with rfl | ⟨rfl, rfl⟩ <;> rfl
    simp only [ConstEval.shuffle, hc, shuffleOver]
    rw [ConstEval.shuffleOverLoop_false]
    refine and_congr_left fun _ => forall_congr' fun k => forall_congr' fun hk => ?_
    exact ⟨fun h hl => h (by omega), fun h hl => h (by omega)⟩

example : ConstEval.shuffle .cpp20 .std (fun _ => 0) [5, 6, 7] = some [6, 7, 5] ∧
    ConstEval.shuffle .cpp17 .std (fun _ => 0) [5, 6, 7] = none ∧ ConstEval.shuffle .cpp17 (.own true) (fun _ => 0) [5, 6, 7] = some [6, 7, 5] := by
  decide +kernel

/-- The same for `apply_permutation`. -/
theorem C97_permutation_partial (std : ConstEval.Std) (swap : ConstEval.Swap) (s s' : PermState α) :
    (swap = .own true ∨ swap = .std ∧ std = .cpp20 →
      (ConstEval.applyPermutation std swap s = some s' ↔ applyPermutation s = (.done, s'))) ∧
    (swap = .own false ∨ swap = .std ∧ std = .cpp17 →
      (ConstEval.applyPermutation std swap s = some s' ↔ InPlace s.idx s.elems.length ∧ s' = s)) := by
  constructor
  · intro h
    have hc : swap.isConstexpr std = true := by rcases h with rfl | ⟨rfl, rfl⟩ <;> rfl
    simp only [ConstEval.applyPermutation, hc, permOver]
    rw [ConstEval.permOverOuter_true, ConstEval.permResult_true]
    rfl
  · intro h
    have hc : swap.isConstexpr std = false := by rcases h with rfl | ⟨rfl, rfl⟩ <;> rfl
    simp only [ConstEval.applyPermutation, hc, permOver]
    rw [ConstEval.permResult_some, ConstEval.permOverOuter_false]
    simp only [InPlace, Nat.zero_add]
    refine and_congr_right fun _ => ⟨fun h => ?_, fun h => by rw [h]⟩
    cases s; cases s'
    simpa using h

/-- `apply_reverse_permutation` also swaps indices with `std::swap`, so before C++20 it is a constant expression exactly if nothing is
to be done, even if the elements have a `constexpr` `swap` of their own. -/
theorem C97_reverse_partial (std : ConstEval.Std) (swap : ConstEval.Swap) (s s' : PermState α) :
    (std = .cpp20 ∧ swap ≠ .own false →
      (ConstEval.applyReversePermutation std swap s = some s' ↔ applyReversePermutation s = (.done, s'))) ∧
    (std = .cpp17 ∨ swap = .own false →
      (ConstEval.applyReversePermutation std swap s = some s' ↔ InPlace s.idx s.elems.length ∧ s' = s)) := by
  constructor
  · rintro ⟨rfl, h⟩
    have hc : (swap.isConstexpr .cpp20 && ConstEval.Swap.std.isConstexpr .cpp20) = true := by
      rcases swap with _ | c
      · rfl
      · cases c
        · exact absurd rfl h
        · rfl
    simp only [ConstEval.applyReversePermutation, hc, revOver]
    rw [ConstEval.revOverOuter_true, ConstEval.permResult_true]
    rfl
  · intro h
    have hc : (swap.isConstexpr std && ConstEval.Swap.std.isConstexpr std) = false := by
      rcases h with rfl | rfl
      · simp [ConstEval.Swap.isConstexpr]
      · rfl
    simp only [ConstEval.applyReversePermutation, hc, revOver]
    rw [ConstEval.permResult_some, ConstEval.revOverOuter_false]
    simp only [InPlace, Nat.zero_add]
    refine and_congr_right fun _ => ⟨fun h => ?_, fun h => by rw [h]⟩
    cases s; cases s'
    simpa using h

/-- Rotating three elements, with `std::swap` and with a `swap` of their own. -/
example : (ConstEval.applyPermutation .cpp17 (.own true) ⟨['a', 'b', 'c'], [1, 2, 0]⟩).map (·.elems) = some ['b', 'c', 'a'] ∧
    (ConstEval.applyPermutation .cpp17 .std ⟨['a', 'b', 'c'], [1, 2, 0]⟩).map (·.elems) = none ∧
    (ConstEval.applyPermutation .cpp17 .std ⟨['a', 'b', 'c'], [0, 1, 2]⟩).map (·.elems) = some ['a', 'b', 'c'] ∧
    (ConstEval.applyReversePermutation .cpp17 (.own true) ⟨['a', 'b', 'c'], [1, 2, 0]⟩).map (·.elems) = none ∧
    (ConstEval.applyReversePermutation .cpp20 (.own true) ⟨['a', 'b', 'c'], [1, 2, 0]⟩).map (·.elems) = some ['c', 'a', 'b'] := by
  decide +kernel

/-- With C++17 and `std::swap`, none of the three is a constant expression in general although it ends regularly at run time. -/
theorem C97_swap_negated :
    (¬ ∀ (draw : Nat → Nat) (l : List Nat), ConstEval.shuffle .cpp17 .std draw l = shuffle draw l) ∧
    (¬ ∀ (s s' : PermState Nat), ConstEval.applyPermutation .cpp17 .std s = some s' ↔ applyPermutation s = (.done, s')) ∧
    (¬ ∀ (s s' : PermState Nat), ConstEval.applyReversePermutation .cpp17 (.own true) s = some s' ↔
      applyReversePermutation s = (.done, s')) := by
  refine ⟨fun h => ?_, fun h => ?_, fun h => ?_⟩
  · have := h (fun _ => 0) [1, 2]
    revert this
    decide +kernel
  · have h1 := (h ⟨[7, 8], [1, 0]⟩ ⟨[8, 7], [0, 1]⟩).mpr (by decide +kernel)
    have h2 : ConstEval.applyPermutation .cpp17 .std (⟨[7, 8], [1, 0]⟩ : PermState Nat) = none := by decide +kernel
    rw [h2] at h1; cases h1
  · have h1 := (h ⟨[7, 8], [1, 0]⟩ ⟨[8, 7], [0, 1]⟩).mpr (by decide +kernel)
    have h2 : ConstEval.applyReversePermutation .cpp17 (.own true) (⟨[7, 8], [1, 0]⟩ : PermState Nat) = none := by decide +kernel
    rw [h2] at h1; cases h1

end Makeshift.Props
