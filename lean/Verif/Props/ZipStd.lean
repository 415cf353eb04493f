import Verif.Lemmas.ZipStd
import Verif.Spec.IndexIterator

/-! # C109: zip iterators and the standard library -/

namespace Makeshift.Props

open Spec ZipStd

variable {α : Type}

/-- A vector, a deque without `data()`, and `range_index`. -/
def zipStdRanges : List (Rng Nat) :=
  [⟨.index, .dyn 3, [10, 11, 12]⟩, ⟨.iterator, .dyn 3, [20, 21, 22]⟩, ⟨.rangeIndex, .static (-1), []⟩]

theorem zipStdRanges_length : AllLength zipStdRanges 3 := by
  intro r hr hR
  simp only [zipStdRanges, List.mem_cons, List.not_mem_nil, or_false] at hr
  rcases hr with rfl | rfl | rfl <;> first | rfl | exact absurd rfl hR

/-- C109: from any position reached from `begin()`, `std::advance` and `std::next` by `d`, and `std::prev` by `-d`, go where `it + d` goes, for
every destination within the range, if the zipped iterators have the category needed for the direction. -/
theorem C109_advance (rs : List (Rng α)) (n : Nat) (hn : AllLength rs n) (cats : List Category) (hne : cats ≠ [])
    (hin : ∀ c ∈ cats, IsA c .input) (ms : List Move) (hs : StaysIn n ms 0) (it : ZipIt) (hit : walk rs ms (zipBegin rs) = .ok it) (d : Int)
    (h0 : 0 ≤ destination ms 0 + d) (h1 : destination ms 0 + d ≤ n) (hd : 0 ≤ d ∨ ∀ c ∈ cats, IsA c .bidirectional) :
    ∃ it', zipPlus rs it d = .ok it' ∧ stdAdvance cats rs it d = some (.ok it') ∧ stdNext cats rs it d = some (.ok it') ∧
      stdPrev cats rs it (-d) = some (.ok it') := by
  obtain ⟨it0, e0, a0, b0, b1⟩ := walk_at hn ms (at_begin rs) hs
  rw [hit] at e0
  cases e0
  obtain ⟨it', e', a'⟩ := zipAdvance_at (d := d) a0 h0 (fun r hr hR => by rw [hn r hr hR]; exact h1)
  obtain ⟨c1, c2, c3⟩ := category_spec cats hne hin
  have hinc : 0 ≤ d → incTimes rs d.toNat it = .ok it' := by
    intro hd0
    rw [incTimes_at hn d.toNat a0 b0 (by omega), show ((d.toNat : Nat) : Int) = d by omega, e']
  have hdec : ¬ 0 ≤ d → decTimes rs (-d).toNat it = .ok it' := by
    intro hd0
    rw [decTimes_at hn (-d).toNat a0 (by omega) b1, show (-((-d).toNat : Nat) : Int) = d by omega, e']
  have key : stdAdvance cats rs it d = some (.ok it') := by
    unfold stdAdvance
    by_cases hr : ∀ c ∈ cats, IsA c .randomAccess
    · simp [c1 hr, e']
    · have hr' : ∃ c ∈ cats, ¬ IsA c .randomAccess := by
        by_contra hc
        exact hr fun c hm => by by_contra hh; exact hc ⟨c, hm, hh⟩
      by_cases hb : ∀ c ∈ cats, IsA c .bidirectional
      · rw [c2 hb hr']
        by_cases hd0 : 0 ≤ d
        · simp [hd0, hinc hd0]
        · simp [hd0, hdec hd0]
      · have hb' : ∃ c ∈ cats, ¬ IsA c .bidirectional := by
          by_contra hc
          exact hb fun c hm => by by_contra hh; exact hc ⟨c, hm, hh⟩
        have hd0 : 0 ≤ d := by
          rcases hd with h | h
          · exact h
          · exact absurd h hb
        simp [c3 hb', hd0, hinc hd0]
  exact ⟨it', e', key, key, by unfold stdPrev; rw [Int.neg_neg]; exact key⟩

/-- Two steps back from the last tuple of a vector, a deque and `range_index`; and with a list in place of the deque. -/
example : AllLength zipStdRanges 3 ∧ StaysIn 3 [.add 2] 0 ∧
    ((walk zipStdRanges [.add 2] (zipBegin zipStdRanges)).bind fun it =>
      (stdPrev [.randomAccess, .randomAccess, .randomAccess] zipStdRanges it 2).getD .ub) = .ok ⟨0, [0, 0, 0]⟩ ∧
    ((walk zipStdRanges [.add 2] (zipBegin zipStdRanges)).bind fun it =>
      (stdPrev [.randomAccess, .bidirectional, .randomAccess] zipStdRanges it 2).getD .ub) = .ok ⟨0, [0, 0, 0]⟩ :=
  ⟨zipStdRanges_length, by simp [StaysIn, Move.shift], by decide +kernel, by decide +kernel⟩

/-- C109, the other direction: if one of the zipped iterators is not bidirectional (in the C++17 sense), going back by any number of steps is
undefined.  By `C107` and `IndexIt.category` this concerns every range zipped with an index range. -/
theorem C109_advance_undefined (rs : List (Rng α)) (cats : List Category) (hin : ∀ c ∈ cats, IsA c .input)
    (hb : ∃ c ∈ cats, ¬ IsA c .bidirectional) (it : ZipIt) (d : Int) (hd : 0 < d) :
    stdAdvance cats rs it (-d) = some .ub ∧ stdPrev cats rs it d = some .ub := by
  have hne : cats ≠ [] := by rintro rfl; simp at hb
  have hc := (category_spec cats hne hin).2.2 hb
  have key : stdAdvance cats rs it (-d) = some .ub := by
    simp [stdAdvance, hc]
    omega
  exact ⟨key, key⟩

/-- Zipping a vector and an index range: `it - 1` is defined, `std::prev(it)` is not. -/
example : (∃ c ∈ [Category.randomAccess, IndexIt.category], ¬ IsA c .bidirectional) ∧
    zipMinus [⟨.index, .dyn 2, [10, 11]⟩, ⟨.iteratorPair, .static (-1), [0, 1]⟩] ⟨1, [0, 1]⟩ 1 = .ok ⟨0, [0, 0]⟩ := by
  refine ⟨⟨_, List.mem_cons_of_mem _ (List.mem_cons_self ..), ?_⟩, by decide +kernel⟩
  simp [IndexIt.category, IsA, strength]

/-- C109: `std::distance` is the difference of the positions, if the second iterator is reachable from the first or all zipped iterators are
random access iterators; otherwise the second iterator is searched beyond the end of the range, which is undefined if one of
the ranges is traversed by its iterator, and never returns or is undefined if all are traversed by index. -/
theorem C109_distance (rs : List (Rng α)) (n : Nat) (hn : AllLength rs n) (cats : List Category) (hne : cats ≠ [])
    (hin : ∀ c ∈ cats, IsA c .input) (ms ns : List Move) (hs : StaysIn n ms 0) (hs' : StaysIn n ns 0) (a b : ZipIt)
    (ha : walk rs ms (zipBegin rs) = .ok a) (hb : walk rs ns (zipBegin rs) = .ok b) (fuel : Nat) (hf : n < fuel) :
    ((destination ms 0 ≤ destination ns 0 ∨ ∀ c ∈ cats, IsA c .randomAccess) →
      stdDistance cats rs fuel a b = some (some (.ok (destination ns 0 - destination ms 0)))) ∧
    (destination ns 0 < destination ms 0 → (∃ c ∈ cats, ¬ IsA c .randomAccess) →
      stdDistance cats rs fuel a b = some none ∨ stdDistance cats rs fuel a b = some (some .ub)) ∧
    (destination ns 0 < destination ms 0 → (∃ c ∈ cats, ¬ IsA c .randomAccess) → (∃ r ∈ rs, r.mode = .iteratorPair ∨ r.mode = .iterator) →
      stdDistance cats rs fuel a b = some (some .ub)) := by
  obtain ⟨a0, e0, aa, a1, a2⟩ := walk_at hn ms (at_begin rs) hs
  rw [ha] at e0
  cases e0
  obtain ⟨b0, e0, ab, b1, b2⟩ := walk_at hn ns (at_begin rs) hs'
  rw [hb] at e0
  cases e0
  obtain ⟨c1, c2, c3⟩ := category_spec cats hne hin
  have hcat : (∀ c ∈ cats, IsA c .randomAccess) ∨ (∃ c ∈ cats, ¬ IsA c .randomAccess) := by
    by_cases hr : ∀ c ∈ cats, IsA c .randomAccess
    · exact Or.inl hr
    · right
      by_contra hc
      exact hr fun c hm => by by_contra hh; exact hc ⟨c, hm, hh⟩
  have hloop : (∃ c ∈ cats, ¬ IsA c .randomAccess) → stdDistance cats rs fuel a b = some (distanceLoop rs b fuel a 0) := by
    intro hr
    by_cases hbi : ∀ c ∈ cats, IsA c .bidirectional
    · simp [stdDistance, c2 hbi hr]
    · have hb' : ∃ c ∈ cats, ¬ IsA c .bidirectional := by
        by_contra hc
        exact hbi fun c hm => by by_contra hh; exact hc ⟨c, hm, hh⟩
      simp [stdDistance, c3 hb']
  refine ⟨fun h => ?_, fun h hr => ?_, fun h hr hit => ?_⟩
  rotate_left
  · rw [hloop hr]
    simpa using distanceLoop_behind rs b fuel a 0 (by rw [aa.1, ab.1]; exact h)
  · rw [hloop hr, distanceLoop_past hn b hit (n - destination ms 0).toNat 0 fuel aa a1 (by omega) (by rw [ab.1]; exact h) (by omega)]
  rcases hcat with hr | hr
  · simp [stdDistance, c1 hr, zipDiff, aa.1, ab.1]
  · have hle : destination ms 0 ≤ destination ns 0 := by
      rcases h with h | h
      · exact h
      · obtain ⟨c, hc, hh⟩ := hr
        exact absurd (h c hc) hh
    rw [hloop hr, distanceLoop_at hn b (destination ns 0 - destination ms 0).toNat 0 aa a1 (by rw [ab.1]; omega) (by omega) fuel (by omega)]
    congr 3
    omega

example : stdDistance [.randomAccess, .forward, .randomAccess] zipStdRanges 4 (zipBegin zipStdRanges) (zipEnd (.dyn 3) zipStdRanges) =
    some (some (.ok 3)) ∧
    stdDistance [.randomAccess, .forward, .randomAccess] zipStdRanges 4 ⟨1, [0, 1, 0]⟩ (zipBegin zipStdRanges) = some (some .ub) := by
  constructor <;> decide +kernel

/-- C109: `std::prev(end(), k)` designates the `k`-th tuple from the end, if no zipped range has a `size()` but no `data()`. -/
theorem C109_prev_end (rs : List (Rng α)) (hval : ∀ r ∈ rs, ValidRange r) (n : Nat) (hn : AllLength rs n) (cats : List Category)
    (hne : cats ≠ []) (hb : ∀ c ∈ cats, IsA c .bidirectional) (z : Size) (hz : mergeSizes (rs.map Rng.size) = .ok z)
    (hz1 : z ≠ .static (-1)) (hno : ∀ r ∈ rs, r.mode ≠ .iterator) (k : Nat) (h0 : 0 < k) (hk : k ≤ n) :
    ∃ it args, stdPrev cats rs (zipEnd z rs) k = some (.ok it) ∧ zipDeref rs it = .ok args ∧ List.Forall₂ (ArgAt (n - k)) rs args := by
  have hvn : z.value = n := by
    obtain ⟨r2, hr2, hR2, hv2, -⟩ := size_value hval hz hz1
    rw [hv2, hn r2 hr2 hR2]
  have hin : ∀ c ∈ cats, IsA c .input := by
    intro c hc
    have := (isA_bidirectional c).mp (hb c hc)
    rcases this with rfl | rfl <;> simp [IsA, strength]
  have hat := zipEnd_at hn hvn hno
  obtain ⟨it, e, a⟩ := zipAdvance_at (d := -(k : Int)) hat (by omega) (fun r hr hR => by rw [hn r hr hR]; omega)
  rw [show (n : Int) + -(k : Int) = ((n - k : Nat) : Int) by omega] at a
  obtain ⟨args, hd, hargs⟩ := zipDeref_at a (fun r hr hR => by rw [hn r hr hR]; omega)
  refine ⟨it, args, ?_, hd, hargs⟩
  obtain ⟨c1, c2, -⟩ := category_spec cats hne hin
  unfold stdPrev stdAdvance
  by_cases hr : ∀ c ∈ cats, IsA c .randomAccess
  · simp [c1 hr, e]
  · have hr' : ∃ c ∈ cats, ¬ IsA c .randomAccess := by
      by_contra hc
      exact hr fun c hm => by by_contra hh; exact hc ⟨c, hm, hh⟩
    have : ¬ 0 ≤ -(k : Int) := by omega
    rw [c2 hb hr']
    simp only [Option.map_some, this, if_false]
    rw [decTimes_at hn _ hat (by omega) (by omega)]
    rw [show (-((-(-(k : Int))).toNat : Nat) : Int) = -(k : Int) by omega, e]

example : stdPrev [.randomAccess, .bidirectional] [⟨.index, .dyn 2, [10, 11]⟩, ⟨.iteratorPair, .static (-1), [20, 21]⟩]
    (zipEnd (.dyn 2) [⟨.index, .dyn 2, [10, 11]⟩, ⟨.iteratorPair, .static (-1), [20, 21]⟩]) 1 = some (.ok ⟨1, [0, 1]⟩) := by
  decide +kernel

/-- C109: with such a range, e.g. a `std::list` or a `std::deque`, `std::prev(end(), k)` is undefined for every `k > 0`, whatever the category. -/
theorem C109_prev_end_undefined (rs : List (Rng α)) (cats : List Category) (hne : cats ≠ []) (hin : ∀ c ∈ cats, IsA c .input) (z : Size)
    (hit : ∃ r ∈ rs, r.mode = .iterator) (k : Nat) (h0 : 0 < k) : stdPrev cats rs (zipEnd z rs) k = some .ub := by
  obtain ⟨c1, c2, c3⟩ := category_spec cats hne hin
  have hlow : ∀ (d : Int) (f : Rng α → Int → Outcome Int), d < 0 → (∀ r q, f r q = leafAdvance d r q) →
      forLeaves f rs (zipEnd z rs).pos = .ub := by
    intro d f hd hf
    refine forLeaves_fail (f := f) (rs := rs) (ps := (zipEnd z rs).pos) (e := .ub) (e' := .ub) (P := fun r q => q = leafEnd r)
      (fun _ => rfl) (fun _ => rfl) (forall2_of_all (fun r _ => rfl)) ?_ ?_
    · intro r hr q hq
      rw [hf]
      unfold leafAdvance movePos
      cases r.mode with
      | iteratorPair => simp only; split
                        · left; exact ⟨_, rfl⟩
                        · right; rfl
      | iterator => simp only; split
                    · left; exact ⟨_, rfl⟩
                    · right; rfl
      | index => left; exact ⟨_, rfl⟩
      | rangeIndex => left; exact ⟨_, rfl⟩
    · obtain ⟨r, hr, hm⟩ := hit
      refine ⟨r, hr, fun q hq => ?_⟩
      rw [hf]
      unfold leafAdvance movePos
      rw [hm]
      simp only
      rw [hq]
      unfold leafEnd
      rw [hm]
      simp only
      rw [if_neg (by omega)]
  have hdec : zipDec rs (zipEnd z rs) = .ub := by
    unfold zipDec
    rw [hlow (-1) leafDec (by omega) (fun r q => rfl)]
    rfl
  have hneg : ¬ 0 ≤ -(k : Int) := by omega
  unfold stdPrev stdAdvance
  by_cases hr : ∀ c ∈ cats, IsA c .randomAccess
  · simp only [c1 hr, Option.map_some]
    unfold zipAdvance
    rw [hlow (-(k : Int)) (leafAdvance (-(k : Int))) (by omega) (fun r q => rfl)]
    rfl
  · have hr' : ∃ c ∈ cats, ¬ IsA c .randomAccess := by
      by_contra hc
      exact hr fun c hm => by by_contra hh; exact hc ⟨c, hm, hh⟩
    by_cases hb : ∀ c ∈ cats, IsA c .bidirectional
    · rw [c2 hb hr']
      simp only [Option.map_some, hneg, if_false]
      obtain ⟨m, hm⟩ : ∃ m, (-(-(k : Int))).toNat = m + 1 := ⟨k - 1, by omega⟩
      rw [hm, decTimes, hdec]
      rfl
    · have hb' : ∃ c ∈ cats, ¬ IsA c .bidirectional := by
        by_contra hc
        exact hb fun c hm => by by_contra hh; exact hc ⟨c, hm, hh⟩
      rw [c3 hb']
      simp only [Option.map_some, hneg, if_false]

example : ∃ r ∈ zipStdRanges, r.mode = .iterator := ⟨_, List.mem_cons_of_mem _ (List.mem_cons_self ..), rfl⟩

private theorem reverseLoop_steps (rs : List (Rng α)) (n : Nat) (hn : AllLength rs n) (ts : List (List (Arg α))) (hz : Zipped rs n ts) :
    ∀ (p : Nat), p ≤ n → ∀ (it : ZipIt) (s : List (List (Arg α))) (fuel : Nat), At rs it p → p < fuel →
      reverseLoop rs (zipBegin rs) fuel it s = .done (s ++ (ts.take p).reverse) (.ok ()) := by
  intro p
  induction p with
  | zero =>
    intro _ it s fuel hat hf
    obtain ⟨f, rfl⟩ : ∃ f, fuel = f + 1 := ⟨fuel - 1, by omega⟩
    have : zipNe it (zipBegin rs) = false := by
      have := hat.1
      simp [zipNe, zipEq, this, zipBegin]
    simp [reverseLoop, this]
  | succ p ih =>
    intro hp it s fuel hat hf
    obtain ⟨f, rfl⟩ : ∃ f, fuel = f + 1 := ⟨fuel - 1, by omega⟩
    have hne : zipNe it (zipBegin rs) = true := by
      have := hat.1
      simp only [zipNe, zipEq, zipBegin, Bool.not_eq_true', beq_eq_false_iff_ne, ne_eq]
      omega
    obtain ⟨it1, e1, a1⟩ := zipDec_at hat (by omega) (fun r hr hR => by rw [hn r hr hR]; omega)
    rw [show ((p + 1 : Nat) : Int) - 1 = (p : Int) by omega] at a1
    obtain ⟨args, hd, hargs⟩ := zipDeref_at a1 (fun r hr hR => by rw [hn r hr hR]; omega)
    have hlt : p < ts.length := by rw [hz.1]; omega
    have htp : ts[p] = args := tuple_unique (hz.2 p _ (List.getElem?_eq_getElem hlt)) hargs
    simp only [reverseLoop, hne, if_true, reverseDeref, e1, Outcome.bind_ok, hd]
    rw [ih (by omega) it1 _ f a1 (by omega)]
    rw [List.take_succ_eq_append_getElem hlt, htp]
    simp

/-- C109: traversing a zipped range by reverse iterators yields the tuples in reverse order, if no zipped range has a `size()` but no `data()`. -/
theorem C109_reverse (rs : List (Rng α)) (hval : ∀ r ∈ rs, ValidRange r) (n : Nat) (hn : AllLength rs n)
    (hsized : ∃ r ∈ rs, r.size ≠ .static (-1)) (hno : ∀ r ∈ rs, r.mode ≠ .iterator) (fuel : Nat) (hf : n < fuel) :
    ∃ ts, Zipped rs n ts ∧ reverseIterate rs fuel = .done ts.reverse (.ok ()) := by
  obtain ⟨z, hz⟩ := merge_equal hval hn
  obtain ⟨r1, hr1, hs1⟩ := hsized
  obtain ⟨hv1, hne⟩ := sized_length hval hz hr1 hs1
  have hvn : z.value = n := by
    obtain ⟨r2, hr2, hR2, hv2, -⟩ := size_value hval hz hne
    rw [hv2, hn r2 hr2 hR2]
  obtain ⟨ts, hl, hts⟩ := tuplesFrom_exists (rs := rs) 0 n (fun r hr hR => by rw [hn r hr hR]; omega)
  have hzip : Zipped rs n ts := ⟨hl, by intro i args hi; simpa using hts i args hi⟩
  refine ⟨ts, hzip, ?_⟩
  unfold reverseIterate
  rw [hz]
  simp only
  rw [if_neg hne, reverseLoop_steps rs n hn ts hzip n (Nat.le_refl _) _ [] fuel (zipEnd_at hn hvn hno) hf]
  simp [List.take_of_length_le (Nat.le_of_eq hl)]

example : reverseIterate [⟨.index, .dyn 2, [10, 11]⟩, ⟨.iteratorPair, .static (-1), [20, 21]⟩, ⟨.rangeIndex, .static (-1), []⟩] 3 =
    .done [[.elem (11 : Nat), .elem 21, .idx 1], [.elem 10, .elem 20, .idx 0]] (.ok ()) := by decide +kernel

/-- C109: if the sizes of two ranges differ, traversing by reverse iterators is rejected by the compiler or terminates the program before any
tuple is seen. -/
theorem C109_reverse_mismatch (rs : List (Rng α)) (hval : ∀ r ∈ rs, ValidRange r) (r r' : Rng α) (hr : r ∈ rs) (hr' : r' ∈ rs)
    (hs : r.size ≠ .static (-1)) (hs' : r'.size ≠ .static (-1)) (hne : r.elems.length ≠ r'.elems.length) (fuel : Nat) :
    (reverseIterate rs fuel = .illFormed ∧
      ∃ q ∈ rs, ∃ q' ∈ rs, ∃ a b, q.size = .static a ∧ q'.size = .static b ∧ a ≠ -1 ∧ b ≠ -1 ∧ a ≠ b) ∨
    reverseIterate rs fuel = .done [] .failFast := by
  cases hm : mergeSizes (rs.map Rng.size) with
  | ok z =>
    have h1 := (sized_length hval hm hr hs).1
    have h2 := (sized_length hval hm hr' hs').1
    omega
  | failFast => exact .inr (by simp [reverseIterate, hm])
  | staticMismatch =>
    obtain ⟨a, b, ha, hb, h1, h2, h3⟩ := mergeSizes_static _ (sizes_ok hval) hm
    obtain ⟨q, hq, hqa⟩ := List.mem_map.mp ha
    obtain ⟨q', hq', hqb⟩ := List.mem_map.mp hb
    exact .inl ⟨by simp [reverseIterate, hm], q, hq, q', hq', a, b, hqa, hqb, h1, h2, h3⟩

example : reverseIterate [(⟨.index, .dyn 2, [10, 11]⟩ : Rng Nat), ⟨.iterator, .dyn 1, [20]⟩] 3 = .done [] .failFast := by decide +kernel

/-- C109: with such a range and at least one element, traversing by reverse iterators is undefined at the first element. -/
theorem C109_reverse_undefined (rs : List (Rng α)) (hval : ∀ r ∈ rs, ValidRange r) (n : Nat) (hn : AllLength rs n) (hpos : 0 < n)
    (hit : ∃ r ∈ rs, r.mode = .iterator) (fuel : Nat) : reverseIterate rs (fuel + 1) = .done [] .ub := by
  obtain ⟨z, hz⟩ := merge_equal hval hn
  obtain ⟨r1, hr1, hm1⟩ := hit
  have hs1 : r1.size ≠ .static (-1) := by
    have hv := hval r1 hr1
    unfold ValidRange at hv
    rw [hm1] at hv
    simp only at hv
    rcases hv with h | h <;> rw [h] <;> simp
  obtain ⟨hv1, hne⟩ := sized_length hval hz hr1 hs1
  have hvn : z.value = n := by
    obtain ⟨r2, hr2, hR2, hv2, -⟩ := size_value hval hz hne
    rw [hv2, hn r2 hr2 hR2]
  unfold reverseIterate
  rw [hz]
  simp only
  rw [if_neg hne]
  have hneq : zipNe (zipEnd z rs) (zipBegin rs) = true := by
    simp only [zipNe, zipEq, zipBegin, zipEnd, Bool.not_eq_true', beq_eq_false_iff_ne, ne_eq]
    omega
  have hp := C109_prev_end_undefined rs [.bidirectional] (by simp) (by simp [IsA, strength]) z ⟨r1, hr1, hm1⟩ 1 (by decide)
  have hdec : zipDec rs (zipEnd z rs) = .ub := by
    cases hd : zipDec rs (zipEnd z rs) with
    | ub => rfl
    | _ =>
      have hc : category [.bidirectional] = some .bidirectional := by decide +kernel
      simp [stdPrev, stdAdvance, hc, decTimes, hd, Outcome.bind] at hp
  simp [reverseLoop, hneq, reverseDeref, hdec, Outcome.bind]

example : reverseIterate zipStdRanges 4 = .done [] .ub := by decide +kernel

/-- C109: a zipped range has a subscript operator iff all zipped iterators are random access iterators. -/
theorem C109_subscript (cats : List Category) (hne : cats ≠ []) (hin : ∀ c ∈ cats, IsA c .input) :
    hasSubscript cats = true ↔ ∀ c ∈ cats, IsA c .randomAccess := by
  obtain ⟨c1, c2, c3⟩ := category_spec cats hne hin
  constructor
  · intro h
    by_contra hr
    have hr' : ∃ c ∈ cats, ¬ IsA c .randomAccess := by
      by_contra hc
      exact hr fun c hm => by by_contra hh; exact hc ⟨c, hm, hh⟩
    by_cases hb : ∀ c ∈ cats, IsA c .bidirectional
    · simp [hasSubscript, c2 hb hr'] at h
    · have hb' : ∃ c ∈ cats, ¬ IsA c .bidirectional := by
        by_contra hc
        exact hb fun c hm => by by_contra hh; exact hc ⟨c, hm, hh⟩
      simp [hasSubscript, c3 hb'] at h
  · intro h
    simp [hasSubscript, c1 h]

example : hasSubscript [.randomAccess, .randomAccess] = true ∧ hasSubscript [.randomAccess, IndexIt.category] = false := by
  constructor <;> decide +kernel

/-- C109: of the expressions which C++20 requires of random access iterators, a zip iterator lacks exactly default construction, `*it` for a
`const` iterator and `it[n]` for a `const` iterator, although a zip of random access iterators declares the random access concept. -/
theorem C109_concept (f : IndexIt.Function) (c : Bool) (h : (f, c) ∈ IndexIterator.required) :
    (¬ ∃ c', (f, c') ∈ declared ∧ (c = true → c' = true)) ↔ f = .defaultCtor ∨ f = .deref ∨ f = .subscript := by
  cases f <;> cases c <;> simp [IndexIterator.required] at h <;> simp [declared]

example : (IndexIt.Function.deref, true) ∈ IndexIterator.required ∧ (IndexIt.Function.deref, false) ∈ declared := by decide

/-- C109: with a `const` zip iterator one can copy, compare, add and subtract, but neither dereference it nor change it; with one which is not
`const`, everything but default construction is possible. -/
theorem C109_const (f : IndexIt.Function) :
    ((f, true) ∈ declared ↔ f ∈ [.copyCtor, .eq, .ne, .plus, .plusLeft, .minus, .difference, .lt, .le, .gt, .ge]) ∧
    ((∃ c, (f, c) ∈ declared) ↔ f ≠ .defaultCtor) := by
  constructor
  · cases f <;> simp [declared]
  · cases f <;> simp [declared]

end Makeshift.Props
