import Verif.Lemmas.SinglePass

/-! Property theorem C126: ranges which read their elements from a stream. -/

namespace Makeshift.Props

open Makeshift.SinglePass Makeshift.SinglePass.Spec

variable {α σ : Type}

/-- The tokens 1, 2, 3 in stream 0, the tokens 7, 8, 9, 10 in stream 1. -/
def sampleStreams : World Nat
  | 0 => [1, 2, 3]
  | 1 => [7, 8, 9, 10]
  | _ => []

/-- C126: every algorithm - whatever it does with the elements, and wherever it stops - does the same with ranges which read their elements from
streams as with containers of these elements, provided that every range has a stream of its own. -/
theorem C126_as_container (ls : List (Leaf α)) (hs : Separate ls) (body : σ → List (Arg α) → σ × Bool) (fuel : Nat) (w : World α) (init : σ) :
    forget (algorithm ls body fuel w init) = zipAlgorithm (ls.map (container w)) body fuel init := algorithm_sim hs body fuel w init

example : Separate [Leaf.stream 0, .counted 1 3, .multi ⟨.index, .dyn 3, [4, 5, 6]⟩, .multi ⟨.rangeIndex, .static (-1), ([] : List Nat)⟩] := by
  unfold Separate; decide

/-- C126: when an algorithm is done, every stream has been read up to the element after those passed to the functor - or up to the last of these, if
the algorithm stopped there; other streams have not been read at all. -/
theorem C126_read (ls : List (Leaf α)) (hs : Separate ls) (body : σ → List (Arg α) → σ × Bool) (fuel : Nat) (w w' : World α) (init s : σ)
    (calls : List (List (Arg α))) (stopped : Bool)
    (h : algorithm ls (logged body) fuel w (init, [], false) = .done ((s, calls, stopped), w') (.ok ())) (id : Nat) :
    w' id = if (∃ l ∈ ls, source l = some id) then (w id).drop (if stopped then calls.length else calls.length + 1) else w id := by
  obtain ⟨h1, h2⟩ := algorithm_world hs (logged body) fuel w (init, [], false) (fun s => s.2.1.length) (fun s => s.2.2) (by simp [logged])
    (by simp [logged]) rfl rfl _ _ h
  split
  · rename_i hl
    rw [h1 id (List.mem_filterMap.mpr hl)]
    cases stopped <;> rfl
  · rename_i hl
    exact h2 id fun hc => hl (List.mem_filterMap.mp hc)

private theorem forget_done {β : Type} {r : Result (σ × β)} {s : σ} {o : Outcome Unit} (h : forget r = .done s o) : ∃ w, r = .done (s, w) o := by
  cases r with
  | done x o' =>
    simp only [forget, Result.done.injEq] at h
    obtain ⟨rfl, rfl⟩ := h
    exact ⟨x.2, rfl⟩
  | _ => cases h

/-- An algorithm like `range_any_of`, which looks for 2 in stream 0. -/
example : ∃ w', algorithm [.stream 0] (logged fun _ args => (args == [.elem 2], !(args == [.elem 2]))) 9 sampleStreams (false, [], false) =
    .done ((true, [[.elem 1], [.elem 2]], true), w') (.ok ()) := by
  apply forget_done
  rw [C126_as_container _ (by unfold Separate; decide)]
  decide +kernel

/-- C126 for `range_for` and `range_any_of`: the calls of the functor and the result are those for containers. -/
theorem C126_algorithms (pred : List (Arg α) → Bool) (ls : List (Leaf α)) (hs : Separate ls) (fuel : Nat) (w : World α) :
    forget (forEach ls fuel w) = rangeFor (ls.map (container w)) fuel ∧
    forget (anyOf pred ls fuel w) = rangeAnyOf pred (ls.map (container w)) fuel :=
  ⟨algorithm_sim hs _ fuel w _, algorithm_sim hs _ fuel w _⟩

example : Separate [Leaf.stream (α := Nat) 0, .stream 1] := by unfold Separate; decide

/-- C126 for `range_any_of`: what is left in the streams depends on the result. -/
theorem C126_any_of_read (pred : List (Arg α) → Bool) (ls : List (Leaf α)) (hs : Separate ls) (fuel : Nat) (w w' : World α) (found : Bool)
    (calls : List (List (Arg α))) (h : anyOf pred ls fuel w = .done ((found, calls), w') (.ok ())) (id : Nat) (hid : ∃ l ∈ ls, source l = some id) :
    w' id = (w id).drop (if found then calls.length else calls.length + 1) := by
  have h1 := (algorithm_world hs _ fuel w (false, []) (fun s => s.2.length) (fun s => s.1)
    (by intro s args; split <;> simp) (by intro s args h; split <;> simp_all) rfl rfl _ _ h).1 id (List.mem_filterMap.mpr hid)
  rw [h1]
  cases found <;> rfl

/-- `range_any_of([](int i) { return i == 2; }, stream0)` -/
example : ∃ w', anyOf (fun args => args == [.elem 2]) [.stream 0] 9 sampleStreams = .done ((true, [[.elem 1], [.elem 2]]), w') (.ok ()) := by
  apply forget_done
  rw [(C126_algorithms _ _ (by unfold Separate; decide) _ _).2]
  decide +kernel

/-- C126: `range_for(f, r, ..., r)` for a range which reads from a stream, passed `k` times: the elements are passed to the functor in groups of `k`, in
order; if some are left over in the end, they have been read, and the program is terminated. -/
theorem C126_groups (id k : Nat) (hk : 0 < k) (w : World α) (fuel : Nat) (hf : (w id).length / k < fuel) :
    ∃ calls w', Groups k (w id) calls ∧ w' id = [] ∧ (∀ j, j ≠ id → w' j = w j) ∧
      forEach (List.replicate k (.stream id)) fuel w = .done (calls, w') (if (w id).length % k = 0 then .ok () else .failFast) := by
  obtain ⟨h1, h2, h3⟩ := init_block id k w
  obtain ⟨w', g1, g2, g3⟩ := loop_block id k hk _ (w id) rfl 0 (initAll Leaf.start (List.replicate k (.stream id)) w).2 [] fuel h2 hf
  refine ⟨_, w', groupsOf_spec k hk _ (w id) rfl, g2, fun j hj => by rw [g3 j hj, h3 j hj], ?_⟩
  unfold forEach algorithm
  have e1 : (List.replicate k (Leaf.stream (α := α) id)).all (fun l => decide (l.mode = .rangeIndex)) = false := by
    cases k with
    | zero => omega
    | succ k => simp [List.replicate_succ, Leaf.mode]
  have e2 : (List.replicate k (Leaf.stream (α := α) id)).map Leaf.size = List.replicate k (.static unknownSize) := by simp [Leaf.size]
  have e3 : sentinelCompiles (List.replicate k (Leaf.stream (α := α) id)) (.static unknownSize) = true := by
    simp only [sentinelCompiles, if_true, List.map_replicate, Leaf.mode, decide_eq_true_eq]
    rw [isEndTy_iff]
    refine ⟨by simp; omega, fun m hm => ?_⟩
    simp at hm ⊢
    omega
  rw [e1, e2, merge_unknown]
  simp only [Bool.false_eq_true, if_false, e3, if_true, begin_, h1]
  rw [g1]
  simp

/-- The tokens 7, 8, 9, 10 in pairs. -/
example : Groups 2 (sampleStreams 1) [[.elem 7, .elem 8], [.elem 9, .elem 10]] ∧ (sampleStreams 1).length % 2 = 0 ∧
    (sampleStreams 0).length % 2 ≠ 0 := by
  refine ⟨⟨rfl, ?_⟩, rfl, by decide⟩
  intro i args hi
  rcases i with _ | _ | i <;> simp at hi <;> subst hi <;> refine ⟨rfl, fun j hj => ?_⟩ <;> rcases j with _ | _ | j <;> first | rfl | omega

/-- C126: `range_reduce` reads all elements of the stream. -/
theorem C126_reduce (reduce : σ → α → σ) (id : Nat) (w : World α) (init : σ) (fuel : Nat) (hf : (w id).length < fuel) :
    ∃ w', reduceStream reduce id w init fuel = some ((w id).foldl reduce init, w') ∧ w' id = [] ∧ ∀ j, j ≠ id → w' j = w j :=
  reduce_go reduce id (w id) w init fuel rfl hf

example : (sampleStreams 0).foldl (· + ·) 0 = 6 := rfl

/-- C126: iterating over `range_zip_sentinel`. -/
theorem C126_zip_sentinel (ls : List (Leaf α)) (hs : Separate ls) (fuel : Nat) (w : World α) :
    forget (zipSentinelEach ls fuel w) = rangeZipSentinelIterate (ls.map (container w)) fuel := zipSentinelEach_sim hs fuel w

example : Separate [Leaf.counted (α := Nat) 0 3, .multi ⟨.rangeIndex, .static (-1), []⟩] := by unfold Separate; decide

/-- Full claim (false, see `C126_zip_negated`): iterating over `range_zip` visits the elements of the streams as those of containers.  Proved if no
range which reads from a stream has a `size()`; for the others see `C126_zip_skips`. -/
theorem C126_zip_partial (ls : List (Leaf α)) (hs : Separate ls) (hc : ∀ id n, Leaf.counted id n ∉ ls) (fuel : Nat) (w : World α) :
    forget (zipEach ls fuel w) = rangeZipIterate (ls.map (container w)) fuel := by
  rw [zipEach_sim hs fuel w]
  congr 1
  apply List.map_congr_left
  intro l hl
  cases l with
  | counted id n => exact absurd hl (hc id n)
  | _ => rfl

example : Separate [Leaf.stream 0, .multi ⟨.index, .dyn 3, [4, 5, 6]⟩] ∧ ∀ id n, Leaf.counted id n ∉ [Leaf.stream 0, .multi ⟨.index, .dyn 3, [4, 5, 6]⟩] :=
  ⟨by unfold Separate; decide, by simp⟩

/-- C126 is false for `range_zip`: `end()` reads an element from every stream whose range has a `size()`, so that the second element is never visited. -/
theorem C126_zip_skips (ls : List (Leaf α)) (hs : Separate ls) (fuel : Nat) (w : World α) :
    forget (zipEach ls fuel w) = rangeZipIterate (ls.map (containerSkipping w)) fuel := zipEach_sim hs fuel w

/-- Two elements of the four in stream 1: 7 and 9 are visited, not 7 and 8. -/
theorem C126_zip_negated :
    (¬ ∀ (ls : List (Leaf Nat)) (w : World Nat) (fuel : Nat), Separate ls →
      forget (zipEach ls fuel w) = rangeZipIterate (ls.map (container w)) fuel) ∧
    forget (zipEach [.counted 1 2] 9 sampleStreams) = .done [[.elem 7], [.elem 9]] (.ok ()) ∧
    forget (zipSentinelEach [.counted 1 2] 9 sampleStreams) = .done [[.elem 7], [.elem 8]] (.ok ()) := by
  have hs : Separate [Leaf.counted (α := Nat) 1 2] := by simp [Separate, source]
  have h1 : forget (zipEach [.counted 1 2] 9 sampleStreams) = .done [[.elem 7], [.elem 9]] (.ok ()) := by
    rw [C126_zip_skips _ hs]
    decide +kernel
  refine ⟨fun h => ?_, h1, ?_⟩
  · have := h [.counted 1 2] sampleStreams 9 hs
    rw [h1] at this
    revert this
    decide +kernel
  · rw [C126_zip_sentinel _ hs]
    decide +kernel

end Makeshift.Props
