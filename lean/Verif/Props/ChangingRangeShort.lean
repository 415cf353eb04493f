import Verif.Lemmas.ChangingRangeShort
import Verif.Props.ChangingRange

/-! Properties of functors which change the containers an algorithm runs over (C127): ranges without a size which are too short. -/

namespace Makeshift.Props

open Makeshift Makeshift.ChangingRange Makeshift.ChangingRange.Spec

variable {α σ : Type}

/-- If the ranges which have a size have `n` elements, but a range without a size has fewer when the element number `m < n` is due, be it from the beginning or
because the functor has erased the others, then the functor is called for the first `m` elements and the program is terminated before the next call; in a
range-based for loop over `range_zip()` the next access is undefined.  If the functor has stopped the algorithm before, nothing happens.  The first `m` elements
are assumed to stay in place; `Inv` is any invariant of the functor. -/
theorem C127_unsized_short {m n : Nat} {w : World α} {s : σ} {ls : List Leaf} {body : Body α σ} (hmn : m < n)
    (hs : ∃ l ∈ ls, sizeNow w l = some n) (hall : ∀ l ∈ ls, ∀ k, sizeNow w l = some k → k = n) (hf : ∀ l ∈ ls, Fresh m w l)
    (Inv : Nat → World α → σ → Prop) (h0 : Inv 0 w s) (hin : ∀ i w' s', Inv i w' s' → ∀ l ∈ ls, InPlace m w w' l)
    (hb : ∀ i w s args w' s', Inv i w s → i < m → ls.mapM (elemAt w i) = some args → body w s args = (w', s', true) → Inv (i + 1) w' s') :
    ∃ w' s' early, ByIndex ls body m 0 w s w' s' early ∧ ∀ fuel, m < fuel →
      (early = true → algorithm ls body fuel w s = .done (w', s') (.ok ()) ∧ zipEach ls body fuel w s = .done (w', s') (.ok ())) ∧
      (early = false → (∃ c, Leaf.forwardList c ∈ ls ∧ (w'.lists c).length ≤ m) →
        algorithm ls body fuel w s = .done (w', s') .failFast ∧ zipEach ls body fuel w s = .done (w', s') .ub) := by
  obtain ⟨z, hz, hzv, hzu⟩ := merge_sized hs hall
  obtain ⟨w', s', early, h1, h2, h3⟩ := loop_upto hmn hzv hzu Inv hin hf hb m 0 w s _ (by omega) h0 (start_pos w ls)
  refine ⟨w', s', early, h1, fun fuel hfuel => ?_⟩
  simp only [algorithm, zipEach, begin_, not_all_index hs, hz, sentinel_sized hzu, if_neg hzu, hzv, if_true, Bool.false_eq_true, if_false]
  refine ⟨fun he => h2 he fuel hfuel, fun he hshort => ?_⟩
  obtain ⟨-, ps, hps, h⟩ := h3 he
  obtain ⟨ha, hc⟩ := h (fuel - m)
  rw [show fuel - m + m = fuel by omega] at ha hc
  obtain ⟨k, hk⟩ : ∃ k, fuel - m = k + 1 := ⟨fuel - m - 1, by omega⟩
  have hne : ¬ (m : Int) = n := by omega
  rw [show ((0 : Nat) : Int) = 0 from rfl] at ha hc
  rw [ha, hc, hk]
  constructor
  · simp [loop, It.isEnd, hzu, hzv, hne, check_short hps hshort, Outcome.mapVal, finish]
  · simp [commonLoop, hne, It.deref, deref_short hps hshort, finish]

/-- A list without a size with one element next to a vector with two: the hypotheses hold for a functor which changes nothing. -/
def oneAndTwo : World Nat := ⟨fun _ => [(1, 10)], fun _ => ⟨7, [30, 40]⟩⟩

example : ∃ w' s' early, ByIndex [.forwardList 0, .vector 0] (fun w (k : Nat) _ => (w, k + 1, true)) 1 0 oneAndTwo 0 w' s' early ∧ ∀ fuel, 1 < fuel →
    (early = true → algorithm [.forwardList 0, .vector 0] (fun w (k : Nat) _ => (w, k + 1, true)) fuel oneAndTwo 0 = .done (w', s') (.ok ()) ∧
      zipEach [.forwardList 0, .vector 0] (fun w (k : Nat) _ => (w, k + 1, true)) fuel oneAndTwo 0 = .done (w', s') (.ok ())) ∧
    (early = false → (∃ c, Leaf.forwardList c ∈ [Leaf.forwardList 0, .vector 0] ∧ (w'.lists c).length ≤ 1) →
      algorithm [.forwardList 0, .vector 0] (fun w (k : Nat) _ => (w, k + 1, true)) fuel oneAndTwo 0 = .done (w', s') .failFast ∧
      zipEach [.forwardList 0, .vector 0] (fun w (k : Nat) _ => (w, k + 1, true)) fuel oneAndTwo 0 = .done (w', s') .ub) := by
  refine C127_unsized_short (m := 1) (n := 2) (by omega) ⟨.vector 0, by simp, rfl⟩ (by simp [sizeNow, oneAndTwo])
    (by simp [Fresh, nodes, oneAndTwo]) (fun _ w _ => w = oneAndTwo) rfl ?_ ?_
  · rintro i w' s' rfl l hl
    simp only [List.mem_cons, List.not_mem_nil, or_false] at hl
    rcases hl with rfl | rfl <;> simp [InPlace, nodes, oneAndTwo]
  · rintro i w s args w' s' rfl hi ha hbody
    cases hbody
    rfl

/-- The outcomes, also for a functor which erases the last of two list elements while the first one is visited. -/
example : ending (algorithm [.forwardList 0, .vector 0] (fun w (k : Nat) _ => (w, k + 1, true)) 9 oneAndTwo 0) = some (1, .failFast) ∧
    ending (zipEach [.forwardList 0, .vector 0] (fun w (k : Nat) _ => (w, k + 1, true)) 9 oneAndTwo 0) = some (1, .ub) ∧
    ending (algorithm [.vector 0, .forwardList 0] (fun (w : World Nat) (k : Nat) _ => (⟨fun c => (w.lists c).take 1, w.vecs⟩, k + 1, true)) 9 twoAndTwo 0) =
      some (1, .failFast) := by decide +kernel

end Makeshift.Props
