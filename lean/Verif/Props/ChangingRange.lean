import Verif.Lemmas.ChangingRange

/-! Properties of functors which change the containers an algorithm runs over (C127). -/

namespace Makeshift.Props

open Makeshift Makeshift.ChangingRange Makeshift.ChangingRange.Spec

variable {α σ : Type}

/-- The number of elements is taken once: if at least one of the ranges has a size, all those which have one have `n` elements, and the functor leaves the
first `n` elements of every range in place, then it is called for the elements number 0 to `n - 1` as they are when their turn comes, and for no others; what
is appended meanwhile is not visited.  If it has been appended to a range without a size, the program is terminated at the end, unless the functor has
stopped the algorithm before.  `Inv` is any invariant of the functor. -/
theorem C127_by_size {n : Nat} {w : World α} {s : σ} {ls : List Leaf} {body : Body α σ}
    (hs : ∃ l ∈ ls, sizeNow w l = some n) (hall : ∀ l ∈ ls, ∀ m, sizeNow w l = some m → m = n) (hf : ∀ l ∈ ls, Fresh n w l)
    (Inv : Nat → World α → σ → Prop) (h0 : Inv 0 w s) (hin : ∀ i w' s', Inv i w' s' → ∀ l ∈ ls, InPlace n w w' l)
    (hb : ∀ i w s args w' s', Inv i w s → i < n → ls.mapM (elemAt w i) = some args → body w s args = (w', s', true) → Inv (i + 1) w' s') :
    ∃ w' s' early, ByIndex ls body n 0 w s w' s' early ∧ ∀ fuel, n < fuel →
      ((early = true ∨ ∀ c, Leaf.forwardList c ∈ ls → (w'.lists c).length = n) → algorithm ls body fuel w s = .done (w', s') (.ok ())) ∧
      (early = false → (∃ c, Leaf.forwardList c ∈ ls ∧ (w'.lists c).length ≠ n) → algorithm ls body fuel w s = .done (w', s') .failFast) := by
  obtain ⟨z, hz, hzv, hzu⟩ := merge_sized hs hall
  obtain ⟨w', s', early, h1, h2, -⟩ := loop_by_size hzv hzu Inv hin hf hb n 0 w s _ (by omega) h0 (start_pos w ls)
  refine ⟨w', s', early, h1, fun fuel hfuel => ?_⟩
  have := h2 fuel hfuel
  simp only [algorithm, not_all_index hs, hz, sentinel_sized hzu]
  exact this

/-- A functor which appends an element to every list and vector it is called with elements of, and notes the values: the block of the vector is kept. -/
def appendAll (w : World Nat) (seen : List Nat) (args : List (Ref Nat)) : World Nat × List Nat × Bool :=
  args.foldl (fun (x : World Nat × List Nat × Bool) r => match r with
    | .node c _ v => (⟨fun d => if d = c then x.1.lists d ++ [((x.1.lists d).length + 1, v + 100)] else x.1.lists d, x.1.vecs⟩, x.2.1 ++ [v], true)
    | .cell c _ v =>
      (⟨x.1.lists, fun d => if d = c then ⟨(x.1.vecs d).block, (x.1.vecs d).elems ++ [v + 100]⟩ else x.1.vecs d⟩, x.2.1 ++ [v], true)
    | .idx _ => x) (w, seen, true)

/-- A list and a vector with two elements each. -/
def twoAndTwo : World Nat := ⟨fun _ => [(1, 10), (2, 20)], fun _ => ⟨7, [30, 40]⟩⟩

/-- Appending to a `std::list<>` and to a vector with enough capacity: the two elements each had at the beginning are visited. -/
example : (∃ l ∈ [Leaf.list 0, .vector 0, .index], sizeNow twoAndTwo l = some 2) ∧
    (∀ l ∈ [Leaf.list 0, .vector 0, .index], ∀ m, sizeNow twoAndTwo l = some m → m = 2) ∧
    (∀ l ∈ [Leaf.list 0, .vector 0, .index], Fresh 2 twoAndTwo l) := by
  refine ⟨⟨.list 0, by simp, rfl⟩, ?_, ?_⟩
  · simp [sizeNow, twoAndTwo]
  · simp [Fresh, nodes, twoAndTwo]
example : (match algorithm [.list 0, .vector 0, .index] appendAll 3 twoAndTwo [] with
    | .done (w, seen) out => some (seen, (w.lists 0).length, (w.vecs 0).elems.length, out)
    | _ => none) = some ([10, 30, 20, 40], 4, 4, .ok ()) := by decide +kernel
/-- The hypotheses hold for this functor and `std::list<>`: nothing it does moves the first two elements. -/
example : ∃ w' s' early, ByIndex [.list 0] appendAll 2 0 twoAndTwo [] w' s' early ∧ ∀ fuel, 2 < fuel →
    ((early = true ∨ ∀ c, Leaf.forwardList c ∈ [Leaf.list 0] → (w'.lists c).length = 2) →
      algorithm [.list 0] appendAll fuel twoAndTwo [] = .done (w', s') (.ok ())) ∧
    (early = false → (∃ c, Leaf.forwardList c ∈ [Leaf.list 0] ∧ (w'.lists c).length ≠ 2) →
      algorithm [.list 0] appendAll fuel twoAndTwo [] = .done (w', s') .failFast) := by
  refine C127_by_size ⟨.list 0, by simp, rfl⟩ (by simp [sizeNow, twoAndTwo]) (by simp [Fresh, nodes, twoAndTwo])
    (fun _ w _ => InPlace 2 twoAndTwo w (.list 0) ∧ 2 ≤ (w.lists 0).length) ⟨⟨by simp [nodes, twoAndTwo], rfl⟩, by simp [twoAndTwo]⟩ ?_ ?_
  · intro i w s h l hl
    rw [List.mem_singleton.mp hl]
    exact h.1
  · rintro i w s args w' s' ⟨⟨h1, h2⟩, h3⟩ hi hargs hbody
    simp only [List.mapM_cons, List.mapM_nil, elemAt] at hargs
    cases hx : (w.lists 0)[i]? with
    | none => rw [hx] at hargs; cases hargs
    | some x =>
      rw [hx] at hargs
      cases hargs
      cases hbody
      refine ⟨⟨h1, ?_⟩, ?_⟩
      · rw [← h2]
        simp only [nodes, if_true, List.map_append]
        rw [List.take_append_of_le_length (by simpa using h3)]
      · simp; omega

/-- If two ranges have different numbers of elements at the beginning, the program is terminated before the functor is called, whatever the functor would do. -/
theorem C127_sizes_differ {n m : Nat} {w : World α} {s : σ} {ls : List Leaf} {body : Body α σ} {l l' : Leaf} (hl : l ∈ ls) (hl' : l' ∈ ls)
    (hn : sizeNow w l = some n) (hm : sizeNow w l' = some m) (hne : n ≠ m) (fuel : Nat) :
    algorithm ls body fuel w s = .done (w, s) .failFast ∧ zipEach ls body fuel w s = .done (w, s) .failFast := by
  have h := merge_differ hl hl' hn hm hne
  exact ⟨by simp [algorithm, not_all_index ⟨l, hl, hn⟩, h], by simp [zipEach, h]⟩

/-- Three elements and two; `appendAll` would call. -/
example : sizeNow (⟨fun _ => [(1, 10), (2, 20), (3, 30)], fun _ => ⟨7, [30, 40]⟩⟩ : World Nat) (.list 0) = some 3 ∧
    sizeNow (⟨fun _ => [(1, 10), (2, 20), (3, 30)], fun _ => ⟨7, [30, 40]⟩⟩ : World Nat) (.vector 0) = some 2 := ⟨rfl, rfl⟩

/-- The same for a range-based for loop over `range_zip()`, which does not compare the ranges without a size at the end. -/
theorem C127_zip {n : Nat} {w : World α} {s : σ} {ls : List Leaf} {body : Body α σ}
    (hs : ∃ l ∈ ls, sizeNow w l = some n) (hall : ∀ l ∈ ls, ∀ m, sizeNow w l = some m → m = n) (hf : ∀ l ∈ ls, Fresh n w l)
    (Inv : Nat → World α → σ → Prop) (h0 : Inv 0 w s) (hin : ∀ i w' s', Inv i w' s' → ∀ l ∈ ls, InPlace n w w' l)
    (hb : ∀ i w s args w' s', Inv i w s → i < n → ls.mapM (elemAt w i) = some args → body w s args = (w', s', true) → Inv (i + 1) w' s') :
    ∃ w' s' early, ByIndex ls body n 0 w s w' s' early ∧ ∀ fuel, n < fuel → zipEach ls body fuel w s = .done (w', s') (.ok ()) := by
  obtain ⟨z, hz, hzv, hzu⟩ := merge_sized hs hall
  obtain ⟨w', s', early, h1, -, h2⟩ := loop_by_size hzv hzu Inv hin hf hb n 0 w s _ (by omega) h0 (start_pos w ls)
  refine ⟨w', s', early, h1, fun fuel hfuel => ?_⟩
  have := h2 fuel hfuel
  simp only [zipEach, hz, if_neg hzu, hzv]
  exact this

/-- Appending to a `std::forward_list<>` which is passed with a vector: `range_for()` terminates the program at the end, the loop over `range_zip()` does not. -/
example : ending (algorithm [.forwardList 0, .vector 0] appendAll 3 twoAndTwo []) = some ([10, 30, 20, 40], .failFast) := by decide +kernel
example : ending (zipEach [.forwardList 0, .vector 0] appendAll 3 twoAndTwo []) = some ([10, 30, 20, 40], .ok ()) := by decide +kernel

/-- An algorithm over one list without a size follows the list as it is: it goes from an element to the one which follows it when the functor has been
called, up to the end.  So elements which are inserted behind are visited, and elements which are erased there are not. -/
theorem C127_follow {c : Nat} {body : Body α σ} (hb : KeepsDistinct body) {w w' : World α} {s s' : σ} (hd : Distinct w) :
    (∃ fuel, algorithm [.forwardList c] body fuel w s = .done (w', s') (.ok ())) ↔ Following c body ((w.lists c).head?.map (·.1)) w s w' s' := by
  have hm : ∀ id, (w.lists c).head?.map (·.1) = some id → id ∈ nodes w c := by
    intro id hid
    obtain ⟨z, hz, rfl⟩ := Option.map_eq_some_iff.mp hid
    exact List.mem_map.mpr ⟨z, List.mem_of_mem_head? hz, rfl⟩
  constructor
  · rintro ⟨fuel, h⟩
    rw [algorithm_forward, forward_eq_list] at h
    rcases listLoop_done hb fuel _ w s w' s' _ hd hm h with ⟨-, h⟩ | ⟨h, -⟩
    · exact h
    · cases h
  · intro h
    obtain ⟨fuel, hfuel⟩ := follow_runs hb h hd
    exact ⟨fuel, by rw [algorithm_forward, forward_eq_list]; exact hfuel⟩

/-- It is undefined exactly if the functor erases the element it has been called with and lets the algorithm go on. -/
theorem C127_erasing {c : Nat} {body : Body α σ} (hb : KeepsDistinct body) {w w' : World α} {s s' : σ} (hd : Distinct w) :
    (∃ fuel, algorithm [.forwardList c] body fuel w s = .done (w', s') .ub) ↔ Erasing c body ((w.lists c).head?.map (·.1)) w s w' s' := by
  have hm : ∀ id, (w.lists c).head?.map (·.1) = some id → id ∈ nodes w c := by
    intro id hid
    obtain ⟨z, hz, rfl⟩ := Option.map_eq_some_iff.mp hid
    exact List.mem_map.mpr ⟨z, List.mem_of_mem_head? hz, rfl⟩
  constructor
  · rintro ⟨fuel, h⟩
    rw [algorithm_forward, forward_eq_list] at h
    rcases listLoop_done hb fuel _ w s w' s' _ hd hm h with ⟨h, -⟩ | ⟨-, h⟩
    · cases h
    · exact h
  · intro h
    obtain ⟨fuel, hfuel⟩ := erasing_runs hb h hd
    exact ⟨fuel, by rw [algorithm_forward, forward_eq_list]; exact hfuel⟩

/-- A functor which notes the values it is called with, and appends an element 30 when it is called with 10. -/
def appendOnce (w : World Nat) (seen : List Nat) (args : List (Ref Nat)) : World Nat × List Nat × Bool :=
  match args with
  | [.node c _ v] => (if v = 10 then ⟨fun d => if d = c then [(1, 10), (2, 20), (3, 30)] else w.lists d, w.vecs⟩ else w, seen ++ [v], true)
  | _ => (w, seen, true)

/-- A functor which erases the last element of the list. -/
def popBack (w : World Nat) (seen : List Nat) (args : List (Ref Nat)) : World Nat × List Nat × Bool :=
  match args with
  | [.node c _ v] => (⟨fun d => if d = c then (w.lists d).dropLast else w.lists d, w.vecs⟩, seen ++ [v], true)
  | _ => (w, seen, true)

theorem popBack_distinct : KeepsDistinct popBack := by
  intro w s args hd
  unfold popBack
  split
  · intro d
    simp only [nodes]
    split
    · rw [List.map_dropLast]
      exact (hd d).sublist (List.dropLast_sublist _)
    · exact hd d
  · exact hd

theorem appendOnce_distinct : KeepsDistinct appendOnce := by
  intro w s args hd
  unfold appendOnce
  split
  · split
    · intro d
      simp only [nodes]
      split
      · decide
      · exact hd d
    · exact hd
  · exact hd

/-- The element 30, which is appended while 10 is visited, is visited in a list without a size; the hypotheses of `C127_follow` hold here. -/
example : KeepsDistinct appendOnce ∧ Distinct twoAndTwo := ⟨appendOnce_distinct, fun _ => by simp [nodes, twoAndTwo]⟩
example : ending (algorithm [.forwardList 0] appendOnce 4 twoAndTwo []) = some ([10, 20, 30], .ok ()) := by decide +kernel
/-- Erasing the last element of a list erases the element 10 if it is the only one. -/
example : KeepsDistinct popBack := popBack_distinct
example : ending (algorithm [.forwardList 0] popBack 4 (⟨fun _ => [(1, 10)], fun _ => ⟨0, []⟩⟩ : World Nat) []) = some ([10], .ub) := by decide +kernel

/-- If every call leaves an element after the one it has been called with, an algorithm over a list without a size which is not empty does not end. -/
theorem C127_endless {c : Nat} {body : Body α σ} (hb : KeepsDistinct body)
    (hg : ∀ w s id v, (id, v) ∈ w.lists c → ∃ w' s' pre v' x post, body w s [.node c id v] = (w', s', true) ∧ w'.lists c = pre ++ (id, v') :: x :: post)
    {w : World α} (hd : Distinct w) (hne : w.lists c ≠ []) (s : σ) (fuel : Nat) : algorithm [.forwardList c] body fuel w s = .unfinished := by
  rw [algorithm_forward, forward_eq_list]
  cases hl : w.lists c with
  | nil => exact absurd hl hne
  | cons x l => exact listLoop_diverges hb hg fuel x.1 w s hd (by simp [nodes, hl])

/-- A functor which keeps the first element only and appends a new one to it. -/
def restart (w : World Nat) (seen : Nat) (args : List (Ref Nat)) : World Nat × Nat × Bool :=
  match args with
  | [.node c id v] => (⟨fun d => if d = c then [(id, v), (id + 1, v)] else w.lists d, w.vecs⟩, seen + 1, true)
  | _ => (w, seen, true)

theorem restart_distinct : KeepsDistinct restart := by
  intro w s args hd
  unfold restart
  split
  · intro d
    simp only [nodes]
    split
    · simp
    · exact hd d
  · exact hd

/-- `restart` meets the hypotheses. -/
example (s fuel : Nat) : algorithm [.forwardList 0] restart fuel twoAndTwo s = .unfinished :=
  C127_endless restart_distinct (fun w s id v _ => ⟨_, _, [], v, (id + 1, v), [], rfl, rfl⟩) (fun _ => by simp [nodes, twoAndTwo]) (by decide) s fuel

/-- `range_reduce()` over one list follows the list as it is, whether it has a size or not. -/
theorem C127_reduce_list (c : Nat) (reduce : World α → σ → Ref α → World α × σ) (fuel : Nat) (w : World α) (init : σ) :
    reduceList c reduce fuel w init = algorithm [.forwardList c] (always reduce) fuel w init := by
  rw [algorithm_forward, forward_eq_list]
  rfl

/-- So for a functor which appends to a `std::list<>`, `range_for()` and `range_reduce()` see other elements. -/
theorem C127_reduce_differs_negated : ∃ (reduce : World Nat → List Nat → Ref Nat → World Nat × List Nat) (w : World Nat),
    ending (algorithm [.list 0] (always reduce) 9 w []) = some ([10, 20], .ok ()) ∧ ending (reduceList 0 reduce 9 w []) = some ([10, 20, 30], .ok ()) :=
  ⟨fun w seen r => ((appendOnce w seen [r]).1, (appendOnce w seen [r]).2.1), twoAndTwo, by decide +kernel, by decide +kernel⟩

/-- `range_reduce()` over a vector visits its elements as they are when their turn comes, provided that the functor neither moves them to another block nor
changes their number. -/
theorem C127_reduce_vector {c : Nat} {w : World α} {s : σ} {reduce : World α → σ → Ref α → World α × σ} (Inv : Nat → World α → σ → Prop) (h0 : Inv 0 w s)
    (hin : ∀ i w' s', Inv i w' s' → (w'.vecs c).block = (w.vecs c).block ∧ (w'.vecs c).elems.length = (w.vecs c).elems.length)
    (hb : ∀ i w s v, Inv i w s → (w.vecs c).elems[i]? = some v → Inv (i + 1) (reduce w s (.cell c i v)).1 (reduce w s (.cell c i v)).2) :
    ∃ w' s', ByIndex [.vector c] (always reduce) (w.vecs c).elems.length 0 w s w' s' false ∧
      ∀ fuel, (w.vecs c).elems.length < fuel → reduceVector c reduce fuel w s = .done (w', s') (.ok ()) :=
  vectorLoop_kept rfl Inv hin hb _ 0 w s (by omega) h0

/-- A functor which doubles all elements of the vector and adds up what it is called with. -/
def doubling (w : World Nat) (sum : Nat) (r : Ref Nat) : World Nat × Nat :=
  match r with
  | .cell _ _ v => (⟨w.lists, fun d => ⟨(w.vecs d).block, (w.vecs d).elems.map (2 * ·)⟩⟩, sum + v)
  | _ => (w, sum)

/-- `doubling` meets the hypotheses: the first element is seen as it was, the second one doubled. -/
example : ∃ w' s', ByIndex [.vector 0] (always doubling) 2 0 twoAndTwo 0 w' s' false ∧
    ∀ fuel, 2 < fuel → reduceVector 0 doubling fuel twoAndTwo 0 = .done (w', s') (.ok ()) :=
  C127_reduce_vector (c := 0) (w := twoAndTwo) (s := 0) (reduce := doubling) (fun _ w _ => (w.vecs 0).block = 7 ∧ (w.vecs 0).elems.length = 2) ⟨rfl, rfl⟩ (fun _ _ _ h => h)
    (fun _ _ _ _ h _ => ⟨h.1, by simpa [doubling] using h.2⟩)
example : ending (reduceVector 0 doubling 3 twoAndTwo 0) = some (30 + 80, .ok ()) := by decide +kernel

/-- If the functor changes the number of elements of a vector, `range_reduce()` is undefined even if there is enough capacity for all elements, where
`range_for()` is not (`C127_by_size`). -/
theorem C127_reduce_vector_grown {c : Nat} {w : World α} {s : σ} {reduce : World α → σ → Ref α → World α × σ} {v : α} {rest : List α}
    (hv : (w.vecs c).elems = v :: rest) (hg : (((reduce w s (.cell c 0 v)).1).vecs c).elems.length ≠ (w.vecs c).elems.length) (fuel : Nat) (hf : 1 < fuel) :
    reduceVector c reduce fuel w s = .done (reduce w s (.cell c 0 v)) .ub := by
  obtain ⟨fuel, rfl⟩ : ∃ m, fuel = m + 2 := ⟨fuel - 2, by omega⟩
  have h0 : (w.vecs c).elems[0]? = some v := by rw [hv]; rfl
  rw [reduceVector, vectorLoop, if_neg (by simp), h0]
  simp only []
  rw [vectorLoop, if_pos (.inr (Ne.symm hg))]

/-- `push_back()` in the functor: undefined for `range_reduce()`, defined for `range_for()`. -/
def pushing (w : World Nat) (seen : List Nat) (r : Ref Nat) : World Nat × List Nat := ((appendAll w seen [r]).1, (appendAll w seen [r]).2.1)
example : ending (reduceVector 0 pushing 9 twoAndTwo []) = some ([30], .ub) := by decide +kernel
example : ending (algorithm [.vector 0] (always pushing) 9 twoAndTwo []) = some ([30, 40], .ok ()) := by decide +kernel

/-- If the functor moves the elements of a vector to another block and there are more of them, the algorithm is undefined. -/
theorem C127_moved {c : Nat} {w w' : World α} {s s' : σ} {body : Body α σ} {v v2 : α} {rest : List α} (hv : (w.vecs c).elems = v :: v2 :: rest)
    (hb : body w s [.cell c 0 v] = (w', s', true)) (hm : (w'.vecs c).block ≠ (w.vecs c).block) (fuel : Nat) (hf : 1 < fuel) :
    algorithm [.vector c] body fuel w s = .done (w', s') .ub := by
  obtain ⟨fuel, rfl⟩ : ∃ m, fuel = m + 2 := ⟨fuel - 2, by omega⟩
  have hz : mergeSizes [Size.dyn (v :: v2 :: rest).length] = .ok (.dyn (v :: v2 :: rest).length) := by rw [mergeSizes]
  have h0 : ¬ (0 : Int) = (rest.length : Int) + 1 + 1 := by omega
  have h1 : ¬ (1 : Int) = (rest.length : Int) + 1 + 1 := by omega
  simp only [algorithm, List.map_cons, List.map_nil, Leaf.size, hv, hz]
  simp [sentinelCompiles, begin_, Leaf.start, loop, It.isEnd, forAll, Leaf.checkEnd, Size.value, h0, h1, It.deref, Leaf.deref, hv, hb, It.inc, Leaf.inc,
    Outcome.bind, Outcome.mapVal, Ne.symm hm, finish]

/-- A functor which reallocates. -/
example : ending (algorithm [.vector 0] (fun (w : World Nat) (s : Nat) _ => (⟨w.lists, fun d => ⟨8, (w.vecs d).elems⟩⟩, s + 1, true)) 9 twoAndTwo 0) =
    some (1, .ub) := by decide +kernel

/-- If the functor erases the list element it has been called with and lets the algorithm go on, the algorithm is undefined for lists with a size, too. -/
theorem C127_list_erased {c id : Nat} {w w' : World α} {s s' : σ} {body : Body α σ} {v : α} {rest : List (Nat × α)} (hv : w.lists c = (id, v) :: rest)
    (hb : body w s [.node c id v] = (w', s', true)) (hm : id ∉ nodes w' c) (fuel : Nat) (hf : 0 < fuel) :
    algorithm [.list c] body fuel w s = .done (w', s') .ub := by
  obtain ⟨fuel, rfl⟩ : ∃ m, fuel = m + 1 := ⟨fuel - 1, by omega⟩
  have hz : mergeSizes [Size.dyn ((id, v) :: rest).length] = .ok (.dyn ((id, v) :: rest).length) := by rw [mergeSizes]
  have h0 : ¬ (0 : Int) = (rest.length : Int) + 1 := by omega
  simp only [algorithm, List.map_cons, List.map_nil, Leaf.size, hv, hz]
  simp [sentinelCompiles, begin_, Leaf.start, loop, It.isEnd, forAll, Leaf.checkEnd, Size.value, h0, It.deref, Leaf.deref, nodeDeref, valueOf, hv, hb, It.inc,
    Leaf.inc, nodeInc_erased hm, Outcome.bind, Outcome.mapVal, finish]

/-- A functor which clears the list. -/
example : ending (algorithm [.list 0] (fun (w : World Nat) (s : Nat) _ => (⟨fun _ => [], w.vecs⟩, s + 1, true)) 9 twoAndTwo 0) = some (1, .ub) := by
  decide +kernel

/-- Erasing elements which have not been visited yet is all right for a list without a size, but not for a list with one: the algorithm goes on to the number
of elements there were at the beginning. -/
theorem C127_shrunk_negated : ∃ w : World Nat,
    ending (algorithm [.forwardList 0] popBack 9 w []) = some ([10, 20], .ok ()) ∧ ending (algorithm [.list 0] popBack 9 w []) = some ([10, 20], .ub) :=
  ⟨⟨fun _ => [(1, 10), (2, 20), (3, 30), (4, 40)], fun _ => ⟨0, []⟩⟩, by decide +kernel, by decide +kernel⟩

private theorem followingFor_exists {c : Nat} {body : Body α σ} : ∀ (k : Nat) (p : Option Nat) (w : World α) (s : σ),
    (∀ id, p = some id → id ∈ nodes w c) → ∃ w' s' o, FollowingFor c body k p w s w' s' o := by
  intro k
  induction k with
  | zero => intro p w s _; exact ⟨_, _, _, .finished⟩
  | succ k ih =>
    intro p w s hp
    cases p with
    | none => exact ⟨_, _, _, .noMore⟩
    | some id =>
      obtain ⟨⟨j, v⟩, hx, rfl⟩ := List.mem_map.1 (hp id rfl)
      obtain ⟨pre, post, hl⟩ := List.append_of_mem hx
      dsimp only at hl ⊢
      rcases hb : body w s [.node c j v] with ⟨w', s', go⟩
      cases go with
      | false => exact ⟨_, _, _, .returned hl hb⟩
      | true =>
        by_cases hm : j ∈ nodes w' c
        · obtain ⟨⟨j', v'⟩, hx', rfl⟩ := List.mem_map.1 hm
          obtain ⟨pre', post', hl'⟩ := List.append_of_mem hx'
          obtain ⟨w'', s'', o, h⟩ := ih (post'.head?.map (·.1)) w' s' (by
            intro id hid
            obtain ⟨z, hz, rfl⟩ := Option.map_eq_some_iff.mp hid
            refine List.mem_map.mpr ⟨z, ?_, rfl⟩
            rw [hl']
            have := List.mem_of_mem_head? hz
            simp [this])
          exact ⟨_, _, _, .step hl hb hl' h⟩
        · exact ⟨_, _, _, .erased hl hb hm⟩

private theorem loop_list_end {c n : Nat} {body : Body α σ} {fuel : Nat} {p : Option Nat} {w : World α} {s : σ} :
    loop [.list c] (.dyn n) body (fuel + 1) ⟨(n : Int), [.node p]⟩ w s = .done (w, s) (.ok ()) := by
  simp [loop, It.isEnd, forAll, Leaf.checkEnd, Size.value, finish]

private theorem followingFor_runs {c n : Nat} {body : Body α σ} (hb : KeepsDistinct body) {k : Nat} {p : Option Nat} {w w' : World α} {s s' : σ}
    {o : Outcome Unit} (h : FollowingFor c body k p w s w' s' o) : ∀ (i fuel : Nat), Distinct w → i + k = n → k < fuel →
    loop [.list c] (.dyn n) body fuel ⟨(i : Int), [.node p]⟩ w s = .done (w', s') o := by
  induction h with
  | finished =>
    intro i fuel hd hi hf
    obtain ⟨fuel, rfl⟩ : ∃ f, fuel = f + 1 := ⟨fuel - 1, by omega⟩
    obtain rfl : i = n := by omega
    exact loop_list_end
  | noMore =>
    intro i fuel hd hi hf
    obtain ⟨fuel, rfl⟩ : ∃ f, fuel = f + 1 := ⟨fuel - 1, by omega⟩
    have hne : ¬ ((i : Int) = n) := by omega
    simp [loop, It.isEnd, forAll, Leaf.checkEnd, Size.value, hne, It.deref, Leaf.deref, nodeDeref, finish]
  | @step k id v v' pre post pre' post' w s w' s' w'' s'' o hl hbd hl' _ ih =>
    intro i fuel hd hi hf
    obtain ⟨fuel, rfl⟩ : ∃ f, fuel = f + 1 := ⟨fuel - 1, by omega⟩
    have hne : ¬ ((i : Int) = n) := by omega
    have hd' : Distinct w' := by have := hb w s [.node c id v] hd; rwa [hbd] at this
    have hv : valueOf id (w.lists c) = some v := by
      rw [hl]; refine valueOf_split fun h => ?_
      have := hd c; rw [nodes, hl] at this
      simp only [List.map_append, List.map_cons] at this
      exact (List.nodup_append.1 this).2.2 id h id (by simp) rfl
    have hinc := nodeInc_some (hd' c) hl'
    have := ih (i + 1) fuel hd' (by omega) (by omega)
    simp [loop, It.isEnd, forAll, Leaf.checkEnd, Size.value, hne, It.deref, Leaf.deref, nodeDeref, hv, hbd, It.inc, Leaf.inc, hinc]
    simpa using this
  | @returned k id v pre post w s w' s' hl hbd =>
    intro i fuel hd hi hf
    obtain ⟨fuel, rfl⟩ : ∃ f, fuel = f + 1 := ⟨fuel - 1, by omega⟩
    have hne : ¬ ((i : Int) = n) := by omega
    have hv : valueOf id (w.lists c) = some v := by
      rw [hl]; refine valueOf_split fun h => ?_
      have := hd c; rw [nodes, hl] at this
      simp only [List.map_append, List.map_cons] at this
      exact (List.nodup_append.1 this).2.2 id h id (by simp) rfl
    simp [loop, It.isEnd, forAll, Leaf.checkEnd, Size.value, hne, It.deref, Leaf.deref, nodeDeref, hv, hbd]
  | @erased k id v pre post w s w' s' hl hbd hm =>
    intro i fuel hd hi hf
    obtain ⟨fuel, rfl⟩ : ∃ f, fuel = f + 1 := ⟨fuel - 1, by omega⟩
    have hne : ¬ ((i : Int) = n) := by omega
    have hv : valueOf id (w.lists c) = some v := by
      rw [hl]; refine valueOf_split fun h => ?_
      have := hd c; rw [nodes, hl] at this
      simp only [List.map_append, List.map_cons] at this
      exact (List.nodup_append.1 this).2.2 id h id (by simp) rfl
    have hinc := nodeInc_erased hm
    simp [loop, It.isEnd, forAll, Leaf.checkEnd, Size.value, hne, It.deref, Leaf.deref, nodeDeref, hv, hbd, It.inc, Leaf.inc, hinc, finish]

/-- For one list with a size, all that can happen: the algorithm goes from an element to the one which follows it when the functor has been called, as many times as there were elements at
the beginning; it is undefined if the list ends before - the functor has made it too short -, or if the functor erases the element it has been called with and goes on. -/
theorem C127_list {c : Nat} {body : Body α σ} (hb : KeepsDistinct body) {w w' : World α} {s s' : σ} {o : Outcome Unit} (hd : Distinct w) (fuel : Nat)
    (hf : (w.lists c).length < fuel) :
    algorithm [.list c] body fuel w s = .done (w', s') o ↔ FollowingFor c body (w.lists c).length ((w.lists c).head?.map (·.1)) w s w' s' o := by
  have hm : ∀ id, (w.lists c).head?.map (·.1) = some id → id ∈ nodes w c := by
    intro id hid
    obtain ⟨z, hz, rfl⟩ := Option.map_eq_some_iff.mp hid
    exact List.mem_map.mpr ⟨z, List.mem_of_mem_head? hz, rfl⟩
  have ha : algorithm [.list c] body fuel w s = loop [.list c] (.dyn (w.lists c).length) body fuel ⟨0, [.node ((w.lists c).head?.map (·.1))]⟩ w s := by
    simp [algorithm, Leaf.size, mergeSizes, sentinelCompiles, begin_, Leaf.start]
  rw [ha]
  constructor
  · intro h
    obtain ⟨w1, s1, o1, h1⟩ := followingFor_exists (body := body) (w.lists c).length _ w s hm
    have h2 := followingFor_runs (n := (w.lists c).length) hb h1 0 fuel hd (by omega) hf
    rw [show ((0 : Nat) : Int) = 0 from rfl, h] at h2
    cases h2
    exact h1
  · intro h
    exact followingFor_runs (n := (w.lists c).length) hb h 0 fuel hd (by omega) hf

private theorem atIndices_exists {c block n : Nat} {body : Body α σ} : ∀ (k i : Nat) (w : World α) (s : σ), i + k = n →
    ∃ w' s' o, AtIndices c block n body i w s w' s' o := by
  intro k
  induction k with
  | zero => intro i w s hi; obtain rfl : i = n := by omega
            exact ⟨_, _, _, .finished⟩
  | succ k ih =>
    intro i w s hi
    by_cases h : (w.vecs c).block = block ∧ i < (w.vecs c).elems.length
    · rcases hb : body w s [.cell c i (w.vecs c).elems[i]] with ⟨w', s', go⟩
      cases go with
      | false => exact ⟨_, _, _, .returned (by omega) h.1 (List.getElem?_eq_getElem h.2) hb⟩
      | true =>
        obtain ⟨w'', s'', o, h1⟩ := ih (i + 1) w' s' (by omega)
        exact ⟨_, _, _, .step (by omega) h.1 (List.getElem?_eq_getElem h.2) hb h1⟩
    · refine ⟨_, _, _, .gone (by omega) ?_⟩
      by_cases hbl : (w.vecs c).block = block
      · exact .inr (by have := fun h' => h ⟨hbl, h'⟩; omega)
      · exact .inl hbl

private theorem atIndices_runs {c block n : Nat} {body : Body α σ} {i : Nat} {w w' : World α} {s s' : σ} {o : Outcome Unit}
    (h : AtIndices c block n body i w s w' s' o) : ∀ fuel, n < i + fuel → i ≤ n →
    loop [.vector c] (.dyn n) body fuel ⟨(i : Int), [.ptr block]⟩ w s = .done (w', s') o := by
  induction h with
  | finished =>
    intro fuel hf hi
    obtain ⟨fuel, rfl⟩ : ∃ f, fuel = f + 1 := ⟨fuel - 1, by omega⟩
    simp [loop, It.isEnd, forAll, Leaf.checkEnd, Size.value, finish]
  | @gone i w s hlt hg =>
    intro fuel hf hi
    obtain ⟨fuel, rfl⟩ : ∃ f, fuel = f + 1 := ⟨fuel - 1, by omega⟩
    have hne : ¬ ((i : Int) = n) := by omega
    have : Leaf.deref w (i : Int) (.vector c) (.ptr block) = .ub := by
      simp only [Leaf.deref, Int.toNat_natCast]
      rcases hg with hg | hg
      · rw [if_pos (.inl (Ne.symm hg))]
      · rw [List.getElem?_eq_none hg]; split <;> rfl
    simp [loop, It.isEnd, forAll, Leaf.checkEnd, Size.value, hne, It.deref, this, finish]
  | @step i v w s w' s' w'' s'' o hlt hbl hv hbd _ ih =>
    intro fuel hf hi
    obtain ⟨fuel, rfl⟩ : ∃ f, fuel = f + 1 := ⟨fuel - 1, by omega⟩
    have hne : ¬ ((i : Int) = n) := by omega
    have hd : Leaf.deref w (i : Int) (.vector c) (.ptr block) = .ok (.cell c i v) := by
      simp only [Leaf.deref, Int.toNat_natCast, hv]
      rw [if_neg (by rintro (h | h) <;> [exact h hbl.symm; omega])]
    have := ih fuel (by omega) (by omega)
    simp [loop, It.isEnd, forAll, Leaf.checkEnd, Size.value, hne, It.deref, hd, hbd, It.inc, Leaf.inc]
    simpa using this
  | @returned i v w s w' s' hlt hbl hv hbd =>
    intro fuel hf hi
    obtain ⟨fuel, rfl⟩ : ∃ f, fuel = f + 1 := ⟨fuel - 1, by omega⟩
    have hne : ¬ ((i : Int) = n) := by omega
    have hd : Leaf.deref w (i : Int) (.vector c) (.ptr block) = .ok (.cell c i v) := by
      simp only [Leaf.deref, Int.toNat_natCast, hv]
      rw [if_neg (by rintro (h | h) <;> [exact h hbl.symm; omega])]
    simp [loop, It.isEnd, forAll, Leaf.checkEnd, Size.value, hne, It.deref, hd, hbd]

/-- The same for one vector: the elements number 0, 1, ... are visited, as many as there were at the beginning; it is undefined if one of them is not there any more when its turn comes, or has been
moved to another memory block. -/
theorem C127_vector {c : Nat} {body : Body α σ} {w w' : World α} {s s' : σ} {o : Outcome Unit} (fuel : Nat) (hf : (w.vecs c).elems.length < fuel) :
    algorithm [.vector c] body fuel w s = .done (w', s') o ↔ AtIndices c (w.vecs c).block (w.vecs c).elems.length body 0 w s w' s' o := by
  have ha : algorithm [.vector c] body fuel w s = loop [.vector c] (.dyn (w.vecs c).elems.length) body fuel ⟨0, [.ptr (w.vecs c).block]⟩ w s := by
    simp [algorithm, Leaf.size, mergeSizes, sentinelCompiles, begin_, Leaf.start]
  rw [ha]
  constructor
  · intro h
    obtain ⟨w1, s1, o1, h1⟩ := atIndices_exists (c := c) (block := (w.vecs c).block) (body := body) (w.vecs c).elems.length 0 w s (Nat.zero_add _)
    have h2 := atIndices_runs h1 fuel (by omega) (by omega)
    rw [show ((0 : Nat) : Int) = 0 from rfl, h] at h2
    cases h2
    exact h1
  · intro h
    exact atIndices_runs h fuel (by omega) (by omega)

private theorem reducing_exists {c block n : Nat} {reduce : World α → σ → Ref α → World α × σ} : ∀ (k i : Nat) (w : World α) (s : σ), i + k = n →
    ∃ w' s' o, Reducing c block n reduce i w s w' s' o := by
  intro k
  induction k with
  | zero =>
    intro i w s hi
    obtain rfl : i = n := by omega
    by_cases h : (w.vecs c).block = block ∧ (w.vecs c).elems.length = i
    · exact ⟨_, _, _, .finished h.1 h.2⟩
    · exact ⟨_, _, _, .changed (by omega) (by by_cases hbl : (w.vecs c).block = block <;> [exact .inr fun e => h ⟨hbl, e⟩; exact .inl hbl])⟩
  | succ k ih =>
    intro i w s hi
    by_cases h : (w.vecs c).block = block ∧ (w.vecs c).elems.length = n
    · obtain ⟨w'', s'', o, h1⟩ := ih (i + 1) (reduce w s (.cell c i ((w.vecs c).elems[i]'(by omega)))).1 (reduce w s (.cell c i ((w.vecs c).elems[i]'(by omega)))).2 (by omega)
      exact ⟨_, _, _, .step h.1 h.2 (List.getElem?_eq_getElem (by omega)) rfl h1⟩
    · exact ⟨_, _, _, .changed (by omega) (by by_cases hbl : (w.vecs c).block = block <;> [exact .inr fun e => h ⟨hbl, e⟩; exact .inl hbl])⟩

private theorem reducing_runs {c block n : Nat} {reduce : World α → σ → Ref α → World α × σ} {i : Nat} {w w' : World α} {s s' : σ} {o : Outcome Unit}
    (h : Reducing c block n reduce i w s w' s' o) : ∀ fuel, n < i + fuel → i ≤ n → vectorLoop c block n reduce fuel i w s = .done (w', s') o := by
  induction h with
  | @finished w s hbl hlen =>
    intro fuel hf hi
    obtain ⟨fuel, rfl⟩ : ∃ f, fuel = f + 1 := ⟨fuel - 1, by omega⟩
    simp only [vectorLoop]
    rw [if_neg (by rintro (h | h) <;> [exact h hbl.symm; exact h hlen.symm]), List.getElem?_eq_none (by omega)]
  | @changed i w s hle hg =>
    intro fuel hf hi
    obtain ⟨fuel, rfl⟩ : ∃ f, fuel = f + 1 := ⟨fuel - 1, by omega⟩
    simp only [vectorLoop]
    rw [if_pos (hg.imp Ne.symm Ne.symm)]
  | @step i v w s w' s' w'' s'' o hbl hlen hv hr _ ih =>
    intro fuel hf hi
    have hlt := (List.getElem?_eq_some_iff.1 hv).1
    obtain ⟨fuel, rfl⟩ : ∃ f, fuel = f + 1 := ⟨fuel - 1, by omega⟩
    have := ih fuel (by omega) (by omega)
    simp only [vectorLoop]
    rw [if_neg (by rintro (h | h) <;> [exact h hbl.symm; exact h hlen.symm]), hv]
    simp only [hr]
    exact this

/-- `range_reduce()` over a vector, exactly: it is undefined if and only if one of the calls of the functor - maybe the last one - changes the number of the elements or moves them to another memory block. -/
theorem C127_reduce_vector_exact {c : Nat} {reduce : World α → σ → Ref α → World α × σ} {w w' : World α} {s s' : σ} {o : Outcome Unit} (fuel : Nat)
    (hf : (w.vecs c).elems.length < fuel) :
    reduceVector c reduce fuel w s = .done (w', s') o ↔ Reducing c (w.vecs c).block (w.vecs c).elems.length reduce 0 w s w' s' o := by
  unfold reduceVector
  constructor
  · intro h
    obtain ⟨w1, s1, o1, h1⟩ := reducing_exists (c := c) (block := (w.vecs c).block) (reduce := reduce) (w.vecs c).elems.length 0 w s (Nat.zero_add _)
    have h2 := reducing_runs h1 fuel (by omega) (by omega)
    rw [h] at h2
    cases h2
    exact h1
  · intro h
    exact reducing_runs h fuel (by omega) (by omega)

/-- Non-vacuity of `C127_list` and `C127_vector`: a functor which erases the last element, and one which clears a vector. -/
example : KeepsDistinct popBack ∧ Distinct twoAndTwo ∧ (twoAndTwo.lists 0).length = 2 ∧
    ending (algorithm [.list 0] popBack 3 (⟨fun _ => [(1, 10), (2, 20), (3, 30)], fun _ => ⟨0, []⟩⟩ : World Nat) []) = some ([10, 20], .ub) :=
  ⟨popBack_distinct, fun _ => by simp [nodes, twoAndTwo], rfl, by decide +kernel⟩
example : ending (algorithm [.vector 0] (fun (w : World Nat) (s : Nat) _ => (⟨w.lists, fun d => ⟨(w.vecs d).block, []⟩⟩, s + 1, true)) 9 twoAndTwo 0) =
    some (1, .ub) := by decide +kernel

end Makeshift.Props
