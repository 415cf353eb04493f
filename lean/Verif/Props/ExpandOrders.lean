import Verif.Lemmas.ExpandOrders

/-!
# C115: `expand` of values whose `<` is not a linear order

The functions modelled are those of `Model/Expand.lean`; here `<` and `==` are arbitrary.
-/

namespace Makeshift.Props

open Makeshift Makeshift.Spec

/-- Whatever `<` and `==` do: the lookup ends, reads no element out of bounds, and an alternative it selects is one of the listed values,
which either compares equal to the runtime value or is neither less nor greater. -/
theorem C115_safe {α : Type} (lt : Option (α → α → Bool)) (eq : α → α → Bool) (values : List α) (value : α) :
    (expandWith .failfast (searchGeneral lt eq value values) values = .failFast ∧
      expandWith .optional (searchGeneral lt eq value values) values = .ok none ∧
      expandWith .throwing (searchGeneral lt eq value values) values = .throw (str "unsupported runtime value")) ∨
    ∃ x ∈ values, (eq x value = true ∨ ∃ f, lt = some f ∧ f x value = false ∧ f value x = false) ∧
      ∀ mode, expandWith mode (searchGeneral lt eq value values) values = .ok (some x) := by
  have lin : ∃ i, (Outcome.ok (linearSearchFrom eq value 0 values) : Outcome Int) = .ok i ∧ (i = -1 ∨ 0 ≤ i ∧ ∃ x, values[i.toNat]? = some x ∧
      (eq x value = true ∨ ∃ f, lt = some f ∧ f x value = false ∧ f value x = false)) := by
    rcases linearSearchFrom_any eq value 0 values with ⟨h, -⟩ | ⟨k, h, x, hx, he, -⟩
    · exact ⟨_, rfl, Or.inl (by simpa using h)⟩
    · simp only [Int.ofNat_zero, Int.zero_add] at h
      exact ⟨_, rfl, Or.inr ⟨by rw [h]; omega, x, by rw [h]; simpa using hx, Or.inl he⟩⟩
  have : ∃ i, searchGeneral lt eq value values = .ok i ∧ (i = -1 ∨ 0 ≤ i ∧ ∃ x, values[i.toNat]? = some x ∧
      (eq x value = true ∨ ∃ f, lt = some f ∧ f x value = false ∧ f value x = false)) := by
    unfold searchGeneral
    cases lt with
    | none => exact lin
    | some f =>
      simp only
      by_cases hs : areValuesSorted f values = true
      · rw [if_pos hs]
        obtain ⟨i, hi, hr⟩ := binarySearchLoop_safe f eq value values 0 values.length (by omega) (by omega) (by omega)
        refine ⟨i, hi, ?_⟩
        rcases hr with hr | ⟨h0, -, x, hx, hc⟩
        · exact Or.inl hr
        · refine Or.inr ⟨h0, x, hx, ?_⟩
          rcases hc with hc | hc
          · exact Or.inl hc
          · exact Or.inr ⟨f, rfl, hc⟩
      · rw [if_neg hs]; exact lin
  obtain ⟨i, hi, hr⟩ := this
  rw [hi]
  rcases hr with rfl | ⟨h0, x, hx, hc⟩
  · exact Or.inl ⟨rfl, rfl, rfl⟩
  · refine Or.inr ⟨x, List.mem_of_getElem? hx, hc, fun mode => ?_⟩
    simp only [expandWith, Outcome.bind_ok]
    rw [if_neg (by omega), at?_eq values i h0, hx]

/-- The full claim would be `ExpandUpTo eq values value` for every `<` and `==`; it is refuted below.  It holds if `<` is a strict weak order
whose equivalence is `==` (such as `double` without NaN, with two zeros that compare equal), and for every `==` at all if the type has no `<`
or the list is not sorted with respect to it. -/
theorem C115_expand_partial {α : Type} (lt : Option (α → α → Bool)) (eq : α → α → Bool) (values : List α) (value : α)
    (h : ∀ f, lt = some f → WeakOps f eq ∨ ∃ a b : α, ∃ k : Nat, values[k]? = some a ∧ values[k + 1]? = some b ∧ f b a = true) :
    ExpandUpTo eq values value (fun mode => expandWith mode (searchGeneral lt eq value values) values) := by
  have lin : ∃ i, (Outcome.ok (linearSearchFrom eq value 0 values) : Outcome Int) = .ok i ∧ ((i = -1 ∧ ∀ x ∈ values, eq x value = false) ∨
      (0 ≤ i ∧ ∃ x, values[i.toNat]? = some x ∧ eq x value = true)) := by
    rcases linearSearchFrom_any eq value 0 values with ⟨h, h'⟩ | ⟨k, h, x, hx, he, -⟩
    · exact ⟨_, rfl, Or.inl ⟨by simpa using h, h'⟩⟩
    · simp only [Int.ofNat_zero, Int.zero_add] at h
      exact ⟨_, rfl, Or.inr ⟨by rw [h]; omega, x, by rw [h]; simpa using hx, he⟩⟩
  have : ∃ i, searchGeneral lt eq value values = .ok i ∧ ((i = -1 ∧ ∀ x ∈ values, eq x value = false) ∨
      (0 ≤ i ∧ ∃ x, values[i.toNat]? = some x ∧ eq x value = true)) := by
    unfold searchGeneral
    cases lt with
    | none => exact lin
    | some f =>
      simp only
      by_cases hs : areValuesSorted f values = true
      · rw [if_pos hs]
        rcases h f rfl with ho | ⟨a, b, k, ha, hb, hlt⟩
        · obtain ⟨i, hi, hr⟩ := binarySearchLoop_weak ho value values ((areValuesSorted_weak ho values).mp hs) 0 values.length
            (by omega) (by omega) (by omega)
          refine ⟨i, hi, ?_⟩
          rcases hr with ⟨rfl, hr⟩ | ⟨h0, -, hx⟩
          · refine Or.inl ⟨rfl, fun x hx => ?_⟩
            obtain ⟨k, hk⟩ := List.getElem?_of_mem hx
            have : k < values.length := by
              by_contra hc; rw [List.getElem?_eq_none (by omega)] at hk; simp at hk
            exact hr k (by omega) (by omega) x hk
          · exact Or.inr ⟨h0, hx⟩
        · exfalso
          clear lin h
          induction values generalizing k with
          | nil => simp at ha
          | cons x r ih =>
            cases r with
            | nil => simp at hb
            | cons y r =>
              rw [areValuesSorted] at hs
              by_cases hyx : f y x = true
              · rw [if_pos hyx] at hs; simp at hs
              · rw [if_neg hyx] at hs
                cases k with
                | zero =>
                  simp at ha hb
                  subst ha; subst hb
                  exact hyx hlt
                | succ k => exact ih hs k (by simpa using ha) (by simpa using hb)
      · rw [if_neg hs]; exact lin
  obtain ⟨i, hi, hr⟩ := this
  exact expandUpTo_of hi hr

/-- Numbers compared by their absolute value form such a weak order: `expand` finds `-2` when asked for `2`. -/
example : WeakOps (fun a b : Int => decide (a.natAbs < b.natAbs)) (fun a b => decide (a.natAbs = b.natAbs)) where
  irrefl a := by simp
  trans a b c h1 h2 := by simp at *; omega
  notLessTrans a b c h1 h2 := by simp at *; omega
  eq_iff a b := by simp; omega

/-- If several listed values compare equal to the runtime value, linear search takes the first. -/
theorem C115_first_match {α : Type} (eq : α → α → Bool) (before after : List α) (x value : α)
    (hb : ∀ y ∈ before, eq y value = false) (hx : eq x value = true) (mode : ExpandMode) :
    expandWith mode (searchGeneral none eq value (before ++ x :: after)) (before ++ x :: after) = .ok (some x) := by
  rcases linearSearchFrom_any eq value 0 (before ++ x :: after) with ⟨-, h⟩ | ⟨k, h, y, hy, he, hf⟩
  · rw [h x (by simp)] at hx; simp at hx
  · simp only [Int.ofNat_zero, Int.zero_add] at h
    have hk : k = before.length := by
      rcases Nat.lt_trichotomy k before.length with hlt | heq | hgt
      · rw [List.getElem?_append_left hlt] at hy
        rw [hb y (List.mem_of_getElem? hy)] at he; simp at he
      · exact heq
      · have := hf before.length hgt x (by simp)
        rw [hx] at this; simp at this
    subst hk
    have : y = x := by simpa using hy.symm
    subst this
    simp only [searchGeneral, expandWith, Outcome.bind_ok]
    rw [h, if_neg (by omega), at?_eq _ _ (by omega)]
    simp

example : ∃ v : ExpandMode → Outcome (Option Flt), ∀ mode, v mode = .ok (some (some 3)) ∧
    v mode = expandWith mode (searchGeneral none fltEq (some 3) [none, some 3, some 3]) [none, some 3, some 3] :=
  ⟨fun mode => expandWith mode (searchGeneral none fltEq (some 3) [none, some 3, some 3]) [none, some 3, some 3],
    fun mode => ⟨C115_first_match fltEq [none] [some 3] (some 3) (some 3) (by decide) (by decide) mode, rfl⟩⟩

/-- Negated, `<` a strict weak order coarser than `==`: a value that is not listed selects a different constant instead of being refused. -/
theorem C115_unlisted_accepted : (∀ x ∈ [(0, 0), (1, 0)], recEq x (1, 1) = false) ∧ ∀ mode,
    expandWith mode (searchGeneral (some recLt) recEq (1, 1) [(0, 0), (1, 0)]) [(0, 0), (1, 0)] = .ok (some (1, 0)) := by
  refine ⟨by decide, fun mode => ?_⟩
  have : searchGeneral (some recLt) recEq (1, 1) [(0, 0), (1, 0)] = .ok 1 := by
    simp [searchGeneral, areValuesSorted, binarySearch, binarySearchLoop, recLt, at?]
  rw [this]; rfl

/-- Negated, the same order: a value that is listed selects a different constant. -/
theorem C115_listed_mistaken : recEq (1, 0) (1, 0) = true ∧ (1, 0) ∈ [(1, 0), (1, 1), (2, 0), (3, 0)] ∧ ∀ mode,
    expandWith mode (searchGeneral (some recLt) recEq (1, 0) [(1, 0), (1, 1), (2, 0), (3, 0)]) [(1, 0), (1, 1), (2, 0), (3, 0)] =
      .ok (some (1, 1)) := by
  refine ⟨by decide, by decide, fun mode => ?_⟩
  have : searchGeneral (some recLt) recEq (1, 0) [(1, 0), (1, 1), (2, 0), (3, 0)] = .ok 1 := by
    simp [searchGeneral, areValuesSorted, binarySearch, binarySearchLoop, recLt, at?]
  rw [this]; rfl

/-- Negated, the same order: a value that is listed is refused. -/
theorem C115_listed_refused : recEq (1, 1) (1, 1) = true ∧ (1, 1) ∈ [(0, 0), (0, 1), (1, 0), (1, 1)] ∧
    expandWith .throwing (searchGeneral (some recLt) recEq (1, 1) [(0, 0), (0, 1), (1, 0), (1, 1)]) [(0, 0), (0, 1), (1, 0), (1, 1)] =
      .throw (str "unsupported runtime value") := by
  refine ⟨by decide, by decide, ?_⟩
  have : searchGeneral (some recLt) recEq (1, 1) [(0, 0), (0, 1), (1, 0), (1, 1)] = .ok (-1) := by
    simp [searchGeneral, areValuesSorted, binarySearch, binarySearchLoop, recLt, recEq, at?]
  rw [this]; rfl

/-- Negated, `<` a partial order (inclusion of sets): an unlisted value selects an incomparable constant. -/
theorem C115_incomparable_accepted : (∀ x ∈ [(false, false), (false, true)], subEq x (true, false) = false) ∧ ∀ mode,
    expandWith mode (searchGeneral (some subLt) subEq (true, false) [(false, false), (false, true)]) [(false, false), (false, true)] =
      .ok (some (false, true)) := by
  refine ⟨by decide, fun mode => ?_⟩
  have : searchGeneral (some subLt) subEq (true, false) [(false, false), (false, true)] = .ok 1 := by
    simp [searchGeneral, areValuesSorted, binarySearch, binarySearchLoop, subLt, at?]
  rw [this]; rfl

/-- Negated, floating point: a runtime NaN, which compares equal to nothing, selects the second of the listed numbers, whatever they are, as
soon as at least two are listed in ascending order. -/
theorem C115_nan_accepted (a b : Int) (rest : List Int) (h : (a :: b :: rest).Pairwise (· ≤ ·)) :
    (∀ x ∈ (a :: b :: rest).map some, fltEq x none = false) ∧ ∀ mode,
    expandWith mode (searchGeneral (some fltLt) fltEq none ((a :: b :: rest).map some)) ((a :: b :: rest).map some) = .ok (some (some b)) := by
  refine ⟨by simp [fltEq], fun mode => ?_⟩
  have : searchGeneral (some fltLt) fltEq none ((a :: b :: rest).map some) = .ok 1 := by
    simp only [searchGeneral, areValuesSorted_flt _ h, if_true]
    exact binarySearchLoop_incomparable (by simp [fltLt]) _ (by simp only [List.length_map, List.length_cons]; omega) (by omega)
  rw [this]; rfl

example : ([-1, 0, 5, 5, 9] : List Int).Pairwise (· ≤ ·) := by decide

/-- Negated, floating point: a list such as `{ 1, NaN, 0 }` passes as sorted, and the listed value `0` selects NaN. -/
theorem C115_nan_listed : fltEq (some 0) (some 0) = true ∧ some 0 ∈ [some 1, none, some 0] ∧ ∀ mode,
    expandWith mode (searchGeneral (some fltLt) fltEq (some 0) [some 1, none, some 0]) [some 1, none, some 0] = .ok (some none) := by
  refine ⟨by decide, by decide, fun mode => ?_⟩
  have : searchGeneral (some fltLt) fltEq (some 0) [some 1, none, some 0] = .ok 1 := by
    simp [searchGeneral, areValuesSorted, binarySearch, binarySearchLoop, fltLt, at?]
  rw [this]; rfl

end Makeshift.Props
