import Verif.Model.RangeToArray

/-!
# C106: `constval_range_to_array`
-/

namespace Makeshift.Props

open Makeshift.RangeToArray

variable {α : Type}

private theorem copy_same : ∀ (dst src : List α), dst.length = src.length → copyInto dst src = .ok src := by
  intro dst
  induction dst with
  | nil => intro src h; cases src <;> simp_all [copyInto]
  | cons d dst ih =>
    intro src h
    rcases src with _ | ⟨x, src⟩
    · simp at h
    · simp [copyInto, ih src (by simpa using h)]

private theorem copy_any : ∀ (dst src : List α),
    (src.length ≤ dst.length → copyInto dst src = .ok (src ++ dst.drop src.length)) ∧ (dst.length < src.length → copyInto dst src = .ub) := by
  intro dst
  induction dst with
  | nil => intro src; cases src <;> simp [copyInto]
  | cons d dst ih =>
    intro src
    rcases src with _ | ⟨x, src⟩
    · simp [copyInto]
    · constructor
      · intro h
        simp [copyInto, (ih src).1 (by simpa using h)]
      · intro h
        simp [copyInto, (ih src).2 (by simpa using h), Outcome.bind]

private theorem newArray_len {init : Option α} {n : Nat} {r : List α} (h : newArray init n = some r) : r.length = n := by
  cases n with
  | zero => simp only [newArray, Option.some.injEq] at h; subst h; rfl
  | succ n =>
    simp only [newArray, Option.map_eq_some_iff] at h
    obtain ⟨x, -, rfl⟩ := h
    simp

private theorem newArray_some {init : Option α} {n : Nat} (h : init.isSome = true ∨ n = 0) : ∃ r, newArray init n = some r := by
  cases n with
  | zero => exact ⟨[], rfl⟩
  | succ n =>
    rcases h with h | h
    · obtain ⟨x, rfl⟩ := Option.isSome_iff_exists.1 h
      exact ⟨_, rfl⟩
    · omega

/-- C106: in a constant expression, the result has the elements of the range in order, whatever the functor does; it compiles iff the functor can be
evaluated in a constant expression and the elements have a default constructor (unless there are none). -/
theorem C106_constant (init : Option α) (f : Functor α) :
    (∀ l, constvalRangeToArray init f .constant = some (.ok l) ↔ f.constant = some l ∧ (init.isSome = true ∨ l = [])) ∧
    (constvalRangeToArray init f .constant = none ∨ ∃ l, constvalRangeToArray init f .constant = some (.ok l)) := by
  rcases hf : f.constant with _ | m
  · simp [constvalRangeToArray, Functor.call, hf]
  · simp only [constvalRangeToArray, Functor.call, hf, Option.bind_some, impl, Option.some.injEq]
    by_cases hi : init.isSome = true ∨ m = []
    · obtain ⟨r, hr⟩ := newArray_some (init := init) (n := m.length) (hi.imp id fun h => by simp [h])
      have := copy_same r m (newArray_len hr)
      simp only [hr, Option.map_some, this, Option.some.injEq, Outcome.ok.injEq]
      refine ⟨fun l => ⟨?_, fun h => h.1⟩, .inr ⟨m, rfl⟩⟩
      rintro rfl
      exact ⟨rfl, hi⟩
    · have : newArray init m.length = none := by
        simp only [not_or, Bool.not_eq_true, Option.isSome_eq_false_iff, Option.isNone_iff_eq_none] at hi
        obtain ⟨rfl, hm⟩ := hi
        cases m with
        | nil => exact absurd rfl hm
        | cons x m => rfl
      simp only [this, Option.map_none, reduceCtorEq, false_iff, not_and, true_or, and_true]
      rintro l rfl
      exact hi

example : constvalRangeToArray (some 0) ⟨some [1, 2, 3], []⟩ .constant = some (.ok [1, 2, 3]) := rfl

/-- Full claim (false): the same holds for calls at run time.  Proved if the functor returns the same range whether or not it is evaluated in a
constant expression; see `C106_runtime_negated`. -/
theorem C106_runtime_partial (init : Option α) (f : Functor α) (l : List α) (hc : f.constant = some l) (hr : f.runtime = l)
    (hi : init.isSome = true ∨ l = []) : constvalRangeToArray init f .runtime = some (.ok l) := by
  obtain ⟨r, h⟩ := newArray_some (init := init) (n := l.length) (hi.imp id fun h => by simp [h])
  simp only [constvalRangeToArray, Functor.call, hc, Option.bind_some, impl, hr, h, Option.map_some, copy_same r l (newArray_len h)]

example : ∃ f : Functor Nat, f.constant = some [1, 2] ∧ f.runtime = [1, 2] := ⟨⟨some [1, 2], [1, 2]⟩, rfl, rfl⟩

/-- At run time in general: the array has the size of the range in a constant expression, and the elements of the range at run time; if there are
less, the remaining elements are value-initialised; if there are more, the behaviour is undefined. -/
theorem C106_runtime_negated (x : α) (f : Functor α) (l : List α) (hc : f.constant = some l) :
    (f.runtime.length ≤ l.length →
      constvalRangeToArray (some x) f .runtime = some (.ok (f.runtime ++ List.replicate (l.length - f.runtime.length) x))) ∧
    (l.length < f.runtime.length → constvalRangeToArray (some x) f .runtime = some .ub) := by
  have h : newArray (some x) l.length = some (List.replicate l.length x) := by
    cases l <;> simp [newArray]
  simp only [constvalRangeToArray, Functor.call, hc, Option.bind_some, impl, h, Option.map_some, Option.some.injEq]
  obtain ⟨h1, h2⟩ := copy_any (List.replicate l.length x) f.runtime
  simp only [List.length_replicate, List.drop_replicate] at h1 h2
  exact ⟨h1, h2⟩

example : constvalRangeToArray (some 0) ⟨some [1, 2], [5, 6, 7]⟩ .runtime = some .ub ∧
    constvalRangeToArray (some 0) ⟨some [1, 2], [5]⟩ .runtime = some (.ok [5, 0]) := ⟨rfl, rfl⟩

end Makeshift.Props
