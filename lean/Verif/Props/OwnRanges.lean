import Verif.Model.OwnRanges
import Verif.Props.RangeArgs
import Verif.Props.Ranges
import Verif.Props.RangeTypes
import Verif.Props.BufferTypes

/-!
# C108: the range types of the library as arguments of the range algorithms

Buffers: `C96_range_argument`, `C96_range_for`.
-/

namespace Makeshift.Props

open Spec RangeArgs OwnRanges

/-- The values an `index_range` stands for are those which a loop over it visits. -/
theorem C108_index_range_elems (first last : Int) (h : first ≤ last) (hf : IntTy.ptrdiffT.InRange first) (hl : IntTy.ptrdiffT.InRange last)
    (fuel : Nat) (hfuel : (last - first).toNat < fuel) :
    ∃ r, indexRange2 first last = .ok r ∧ r.iterate fuel = some (.ok (indexRangeElems r)) := by
  obtain ⟨r, h1, h2⟩ := C36_enumerates first last h hf hl fuel hfuel
  refine ⟨r, h1, ?_⟩
  have : r = ⟨first, last⟩ := by
    simp [indexRange2, h] at h1
    exact h1.symm
  subst this
  exact h2

example : indexRangeElems ⟨-1, 2⟩ = [-1, 0, 1] := by decide

/-- Full claim (false): all range types of the library can be passed to the range algorithms and are iterated over their elements.  Proved
for `index_range` - alone, with others of its kind, or with arrays, containers and `range_index` -, and for buffers (`C96_range_for`); see
`C108_range`, `C108_zip`, `C108_soa` for the others.  The statement is about any arguments which compile and have `n` elements each,
some of them index ranges. -/
theorem C108_index_range_partial (rngs : List (IndexRange × Bool × Bool)) (others : List (Argument × List Int)) (n : Nat)
    (hc : algorithmCompiles (others.map Prod.fst) = true) (hh : ∀ p ∈ others, Honest p.2.length p.1.ty)
    (hn : ∀ p ∈ others, p.1.ty ≠ .rangeIndex → p.2.length = n) (hr : ∀ p ∈ rngs, p.1.last - p.1.first = n) (hne : rngs ≠ [])
    (hsized : (∃ p ∈ others, ∃ c, p.1.ty = .class c ∧ (c.constSize = true ∨ c.tupleSize.isSome = true)) ∨
      ∀ p ∈ others, p.1.ty ≠ .rangeIndex)
    (args : List (Argument × List Int))
    (hargs : args.Perm ((rngs.map fun p => (⟨indexRangeTy, p.2.1, p.2.2⟩, indexRangeElems p.1)) ++ others)) (fuel : Nat) (hf : n < fuel) :
    algorithmCompiles (args.map Prod.fst) = true ∧
    ∃ rs : List (Rng Int), List.Forall₂ (fun p r => toRng p.1 p.2 = some r ∧ r.elems = p.2 ∧ (IsReal r ↔ p.1.ty ≠ .rangeIndex)) args rs ∧
      ∃ calls, Zipped rs n calls ∧ rangeFor rs fuel = .done calls (.ok ()) := by
  have hmem : ∀ p, p ∈ args ↔ (∃ q ∈ rngs, p = (⟨indexRangeTy, q.2.1, q.2.2⟩, indexRangeElems q.1)) ∨ p ∈ others := by
    intro p
    rw [hargs.mem_iff, List.mem_append, List.mem_map]
    exact or_congr (exists_congr fun q => and_congr_right fun _ => eq_comm) Iff.rfl
  have hca : algorithmCompiles (args.map Prod.fst) = true := by
    simp only [algorithmCompiles, List.all_map, List.all_eq_true, Function.comp] at hc ⊢
    intro p hp
    rcases (hmem p).1 hp with ⟨q, _, rfl⟩ | hp
    · cases hq : q.2.1 <;> rfl
    · exact hc p hp
  refine ⟨hca, C90_range_for args n hca ?_ ?_ ?_ ?_ fuel hf⟩
  · intro p hp
    rcases (hmem p).1 hp with ⟨q, _, rfl⟩ | hp
    · intro k hk
      cases hk
    · exact hh p hp
  · intro p hp hty
    rcases (hmem p).1 hp with ⟨q, hq, rfl⟩ | hp
    · have := hr q hq
      simp only [indexRangeElems, List.length_map, List.length_range]
      omega
    · exact hn p hp hty
  · obtain ⟨q, l, rfl⟩ := List.exists_cons_of_ne_nil hne
    exact ⟨_, (hmem _).2 (.inl ⟨q, List.mem_cons_self .., rfl⟩), by simp [indexRangeTy]⟩
  · rcases hsized with ⟨p, hp, h⟩ | h
    · exact .inl ⟨p, (hmem p).2 (.inr hp), h⟩
    · refine .inr fun p hp => ?_
      rcases (hmem p).1 hp with ⟨q, _, rfl⟩ | hp
      · simp [indexRangeTy]
      · exact h p hp

/-- `range_for(f, vector, index_range(5, 8), range_index)` -/
example : let others : List (Argument × List Int) := [(⟨vectorTy, false, false⟩, [7, 8, 9]), (⟨.rangeIndex, true, false⟩, [])]
    algorithmCompiles (others.map Prod.fst) = true ∧ (∀ p ∈ others, p.1.ty ≠ .rangeIndex → p.2.length = 3) ∧
    (∃ p ∈ others, ∃ c, p.1.ty = .class c ∧ (c.constSize = true ∨ c.tupleSize.isSome = true)) ∧
    (∀ p ∈ [((⟨5, 8⟩ : IndexRange), false, true)], p.1.last - p.1.first = 3) := by
  refine ⟨by decide, by decide, ⟨_, List.mem_cons_self .., _, rfl, .inl rfl⟩, by decide⟩

/-- No `range` can be passed to the algorithms, whatever its iterators and its extent are, although all can be iterated with a range-based
`for` loop: `begin()` returns a reference.  They have a `size()` exactly if their iterators are random access iterators. -/
theorem C108_range (r : RangeTypes.RangeTy) (constDeref : Bool) (ty : Ty) (h : rangeTy r constDeref = some ty) (args : List Argument) (k rv : Bool)
    (hm : ⟨ty, k, rv⟩ ∈ args) :
    Iterable ⟨ty, k, rv⟩ ∧ algorithmCompiles args = false ∧
      ∃ c, ty = .class c ∧ (c.constSize = true ↔ r.it.randomAccess = true) := by
  simp only [rangeTy, Option.bind_eq_some_iff, Option.map_eq_some_iff] at h
  obtain ⟨base, hb, _, _, rfl⟩ := h
  refine ⟨by cases k <;> rfl, (C90_iterators args _ k rv hm (.inl rfl)).2, _, rfl, ?_⟩
  unfold RangeTypes.rangeBase at hb
  split at hb
  · cases hra : r.it.randomAccess <;> simp [hra] at hb <;> subst hb <;> simp
  · split at hb
    · rename_i hr
      split at hb <;> simp at hb
      subst hb
      simp [hr.2]
    · cases hb

/-- `range(p, std::integral_constant<int, 3>{ })` for a pointer `p`, and a range of a pointer and a sentinel. -/
example : (rangeTy ⟨pointerTy, pointerTy, 3⟩ true).isSome = true ∧ (rangeTy ⟨pointerTy, listIterTy, -1⟩ true).isSome = true := by decide

/-- A zipped range can be iterated, but not be passed to the algorithms or zipped again, because its iterators cannot be dereferenced if
they are const. -/
theorem C108_zip (args : List Argument) (ty : Ty) (hty : ty = zipTy ∨ ty = zipSentinelTy) (k r : Bool) (h : ⟨ty, k, r⟩ ∈ args) :
    Iterable ⟨ty, k, r⟩ ∧ algorithmCompiles args = false ∧ zipCompiles args = false ∧ zipSentinelCompiles args = false := by
  have key : algorithmCompiles args = false := by
    rcases hty with rfl | rfl
    · exact (C90_iterators args _ k r h (.inr ⟨rfl, rfl, rfl⟩)).2
    · exact (C90_iterators args _ k r h (.inr ⟨rfl, rfl, rfl⟩)).2
  refine ⟨?_, key, by simp [zipCompiles, key], by simp [zipSentinelCompiles, key]⟩
  rcases hty with rfl | rfl <;> cases k <;> rfl

example : (⟨zipTy, false, false⟩ : Argument) ∈ [(⟨vectorTy, false, false⟩ : Argument), ⟨zipTy, false, false⟩] := by decide

private theorem soa_loop {α : Type} (columns : Nat) (rows : List α) : ∀ (j p fuel : Nat) (calls : List (List (Makeshift.Arg α))),
    p + j = columns → p ≤ rows.length → j < fuel →
    zipLoop [⟨.iterator, .static columns, rows⟩] (.static columns) (fun calls args => (calls ++ [args], true)) fuel ⟨p, [p]⟩ calls =
      .done (calls ++ ((rows.drop p).take j).map fun a => [.elem a]) (if columns ≤ rows.length then .ok () else .ub) := by
  intro j
  have hu : (columns : Int) ≠ -1 := by omega
  have hsz : (Makeshift.Size.static (columns : Int)) ≠ .static unknownSize := by
    simp only [ne_eq, Size.static.injEq, unknownSize]
    exact hu
  induction j with
  | zero =>
    intro p fuel calls hp hp2 hf
    obtain ⟨fuel, rfl⟩ : ∃ g, fuel = g + 1 := ⟨fuel - 1, by omega⟩
    have : p = columns := by omega
    subst this
    have : zipIsEnd [⟨.iterator, .static (p : Int), rows⟩] (.static p) ⟨p, [(p : Int)]⟩ = .ok true := by
      simp [zipIsEnd, hsz, forLeaves, leafCheckEnd, Size.value]
    simp [zipLoop, this, hp2]
  | succ j ih =>
    intro p fuel calls hp hp2 hf
    obtain ⟨fuel, rfl⟩ : ∃ g, fuel = g + 1 := ⟨fuel - 1, by omega⟩
    have hne : ¬ (p : Int) = columns := by omega
    have he : zipIsEnd [⟨.iterator, .static (columns : Int), rows⟩] (.static columns) ⟨p, [(p : Int)]⟩ = .ok false := by
      simp [zipIsEnd, hsz, forLeaves, leafCheckEnd, Size.value, hne]
    by_cases hlt : p < rows.length
    · have hd : zipDeref [⟨.iterator, .static (columns : Int), rows⟩] ⟨p, [(p : Int)]⟩ = .ok [.elem rows[p]] := by
        have : ¬ (p : Int) < 0 := by omega
        simp [zipDeref, forLeaves, leafDeref, readAt, this, hlt]
      have hi : zipInc [⟨.iterator, .static (columns : Int), rows⟩] ⟨p, [(p : Int)]⟩ = .ok ⟨((p + 1 : Nat) : Int), [((p + 1 : Nat) : Int)]⟩ := by
        have : 0 ≤ (p : Int) + 1 ∧ (p : Int) + 1 ≤ rows.length := by omega
        simp [zipInc, forLeaves, leafInc, movePos, this]
      simp only [zipLoop, he, hd, hi, if_true]
      rw [ih (p + 1) fuel _ (by omega) (by omega) (by omega)]
      congr 1
      rw [List.append_assoc, List.drop_eq_getElem_cons hlt, List.take_succ_cons, List.map_cons, List.singleton_append]
    · have hpe : p = rows.length := by omega
      have hd : zipDeref [⟨.iterator, .static (columns : Int), rows⟩] ⟨p, [(p : Int)]⟩ = .ub := by
        have : ¬ (p : Int) < 0 := by omega
        simp [zipDeref, forLeaves, leafDeref, readAt, hpe]
      have hcol : ¬ columns ≤ rows.length := by omega
      have hdrop : rows.drop p = [] := List.drop_eq_nil_of_le (by omega)
      simp [zipLoop, he, hd, hcol, hdrop]

/-- `range_for` over an SoA span compiles, but visits as many rows as the span has columns: the remaining rows are left out, and if there are fewer rows
than columns, it reads past the end after having visited all of them.  Only if the span has as many rows as columns, exactly the rows are
visited. -/
theorem C108_soa {α : Type} (columns : Nat) (rows : List α) (k r : Bool) (fuel : Nat) (hf : columns < fuel) :
    Iterable ⟨soaSpanTy columns, k, r⟩ ∧
    rangeForSoa columns rows k r fuel =
      some (.done ((rows.take columns).map fun a => [.elem a]) (if columns ≤ rows.length then .ok () else .ub)) := by
  have hc : algorithmCompiles [⟨soaSpanTy columns, k, r⟩] = true := by cases k <;> rfl
  have ht : toRng ⟨soaSpanTy columns, k, r⟩ rows = some ⟨.iterator, .static columns, rows⟩ := rfl
  refine ⟨by cases k <;> rfl, ?_⟩
  have hm : mergeSizes [(Makeshift.Size.static (columns : Int))] = .ok (.static columns) := by simp [mergeSizes]
  have hw : sentinelWellFormed [⟨.iterator, .static (columns : Int), rows⟩] (.static columns) = true := by
    have : ¬ (columns : Int) = -1 := by omega
    simp [sentinelWellFormed, unknownSize, this]
  simp only [rangeForSoa, hc, if_true, ht, Option.map_some, rangeFor, zipAlgorithm, List.all_cons, List.map_cons, List.map_nil, hm, hw]
  have := soa_loop columns rows columns 0 fuel [] (by omega) (by omega) hf
  simp only [List.drop_zero, List.nil_append] at this
  simp only [zipBegin, List.map_cons, List.map_nil, leafBegin]
  exact congrArg some this

/-- Index ranges and spans which are named, or const, can be zipped. -/
theorem C108_zip_of (columns : Nat) (k r : Bool) (h : r = true → k = true) :
    zipCompiles [⟨indexRangeTy, k, r⟩] = true ∧ zipSentinelCompiles [⟨indexRangeTy, k, r⟩] = true ∧
    zipCompiles [⟨soaSpanTy columns, k, r⟩] = true ∧ zipSentinelCompiles [⟨soaSpanTy columns, k, r⟩] = true := by
  cases k <;> cases r <;> first | exact absurd (h rfl) (by decide) | (refine ⟨?_, ?_, ?_, ?_⟩ <;> rfl)

/-- An `index_range` does not take part in the check of the sizes: next to a container of `n` elements it may have any number of elements. -/
theorem C108_index_range_unchecked (c : Class) (hc : algorithmCompiles [⟨.class c, false, false⟩] = true) (hs : c.constSize = true)
    (ht : c.tupleSize = none) (elems : List Int) (r : IndexRange) (k rv : Bool) :
    ∃ x y : Rng Int, toRng ⟨.class c, false, false⟩ elems = some x ∧ toRng ⟨indexRangeTy, k, rv⟩ (indexRangeElems r) = some y ∧
      mergeSizes ([x, y].map Rng.size) = .ok (.dyn elems.length) ∧ mergeSizes ([y, x].map Rng.size) = .ok (.dyn elems.length) := by
  obtain ⟨x, h1, -⟩ := C90_valid ⟨.class c, false, false⟩ elems hc (by intro k hk; rw [ht] at hk; cases hk)
  refine ⟨x, _, h1, rfl, ?_⟩
  simp only [toRng, Option.map_eq_some_iff] at h1
  obtain ⟨m, -, rfl⟩ := h1
  simp [sizeOfRange, ht, hs, indexRangeTy, mergeSizes, unknownSize, mergeSizes0, MergeResult.bind]

example : algorithmCompiles [⟨vectorTy, false, false⟩] = true := by decide

/-- A span of two columns and three rows: the last row is not visited.  Three columns and one row: undefined. -/
theorem C108_soa_negated :
    (¬ ∀ (columns : Nat) (rows : List Nat) (fuel : Nat), columns < fuel → rows.length < fuel →
      rangeForSoa columns rows false false fuel = some (.done (rows.map fun a => [.elem a]) (.ok ()))) ∧
    rangeForSoa 2 [7, 8, 9] false false 9 = some (.done [[.elem 7], [.elem 8]] (.ok ())) ∧
    rangeForSoa 3 [7] false false 9 = some (.done [[.elem 7]] .ub) := by
  have h1 : rangeForSoa 2 [7, 8, 9] false false 9 = some (.done [[.elem 7], [.elem 8]] (.ok ())) := (C108_soa 2 [7, 8, 9] false false 9 (by decide)).2
  refine ⟨fun h => ?_, h1, (C108_soa 3 [7] false false 9 (by decide)).2⟩
  have := h 2 [7, 8, 9] 9 (by decide) (by decide)
  rw [h1] at this
  simp at this

/-- An SoA span with a container of the same number of elements: the program is terminated before the first call, unless the span has as many rows as
columns. -/
theorem C108_soa_with_container {α : Type} (columns : Nat) (rows elems : List α) (hne : rows.length ≠ columns) (hlen : elems.length = rows.length)
    (k r k' r' : Bool) (fuel : Nat) :
    ∃ rs : List (Rng α), List.Forall₂ (fun p r => toRng p.1 p.2 = some r)
        [((⟨soaSpanTy columns, k, r⟩ : Argument), rows), (⟨vectorTy, k', r'⟩, elems)] rs ∧
      algorithmCompiles [⟨soaSpanTy columns, k, r⟩, ⟨vectorTy, k', r'⟩] = true ∧ rangeFor rs fuel = .done [] .failFast := by
  refine ⟨[⟨.iterator, .static columns, rows⟩, ⟨.index, .dyn elems.length, elems⟩], .cons rfl (.cons rfl .nil), by cases k <;> cases k' <;> rfl, ?_⟩
  have hm : mergeSizes [(Makeshift.Size.static (columns : Int)), .dyn elems.length] = .failFast := by
    have h1 : ¬ (columns : Int) = -1 := by omega
    have h2 : ¬ (elems.length : Int) = -1 := by omega
    have h3 : ¬ (elems.length : Int) = columns := by omega
    simp [mergeSizes, mergeSizes0, MergeResult.bind, unknownSize, h1, h2, h3]
  simp [rangeFor, zipAlgorithm, hm]

example : ∃ rs : List (Rng Nat), List.Forall₂ (fun p r => toRng p.1 p.2 = some r)
        [((⟨soaSpanTy 2, false, false⟩ : Argument), [1, 2, 3]), (⟨vectorTy, false, false⟩, [4, 5, 6])] rs ∧
      algorithmCompiles [⟨soaSpanTy 2, false, false⟩, ⟨vectorTy, false, false⟩] = true ∧ rangeFor rs 9 = .done [] .failFast :=
  C108_soa_with_container 2 [1, 2, 3] [4, 5, 6] (by decide) rfl _ _ _ _ 9

end Makeshift.Props
