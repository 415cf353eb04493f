import Verif.Model.FillAlias
import Mathlib.Data.List.Nodup
import Mathlib.Logic.Function.Iterate

/-! Properties of filling a range from itself (C128). -/

namespace Makeshift.Props

open Makeshift.FillAlias

variable {α S : Type}

/-- If assigning what `value` yields to an element does not change what `value` yields, all elements are the same afterwards. -/
theorem C128_fill_stable (value : Mem α → α) : ∀ (as : List Nat) (m : Mem α),
    (∀ m a, a ∈ as → value (fun b => if b = a then value m else m b) = value m) →
    ∀ a, rangeFill value as m a = if a ∈ as then value m else m a
  | [], _, _, a => by simp [rangeFill]
  | b :: as, m, h, a => by
    have hv : value (store m b (value m)) = value m := h m b (by simp)
    rw [rangeFill, C128_fill_stable value as _ (fun m a ha => h m a (by simp [ha])) a, hv]
    by_cases h1 : a ∈ as
    · simp [h1]
    · by_cases h2 : a = b <;> simp [h1, h2, store]

/-- A value which does not depend on the memory: an object elsewhere. -/
example (m : Mem Nat) : ∀ a, rangeFill (fun _ => 7) [3, 4, 4, 5] m a = if a ∈ [3, 4, 4, 5] then 7 else m a :=
  C128_fill_stable _ _ _ (fun _ _ _ => rfl)

/-- `range_fill(range, range[k])` fills the range with the value the element had before: this holds for any cell, whether it belongs to the range or not. -/
theorem C128_fill_element (p : Nat) (as : List Nat) (m : Mem α) (a : Nat) : rangeFill (fun m => m p) as m a = if a ∈ as then m p else m a := by
  apply C128_fill_stable
  intro m b _
  by_cases h : p = b <;> simp [h]

/-- The second of three elements. -/
example : [0, 1, 2, 3].map (rangeFill (fun m => m 1) [0, 1, 2] (fun n => 10 * n)) = [10, 10, 10, 30] := by decide

/-- If the value is converted by the assignment and refers to the element number `k` of the range, then the elements up to this one get the converted value,
and those after it get the value converted twice. -/
theorem C128_fill_converting (conv : α → α) (p : Nat) : ∀ (as : List Nat) (m : Mem α) (k : Nat), as.Nodup → as[k]? = some p →
    (∀ (i a : Nat), as[i]? = some a → rangeFill (fun m => conv (m p)) as m a = if i ≤ k then conv (m p) else conv (conv (m p))) ∧
    (∀ a, a ∉ as → rangeFill (fun m => conv (m p)) as m a = m a)
  | [], _, _, _, h => by simp at h
  | b :: as, m, 0, hn, h => by
    simp only [List.getElem?_cons_zero, Option.some.injEq] at h
    subst h
    obtain ⟨hb, hn⟩ := List.nodup_cons.mp hn
    have key : ∀ a, rangeFill (fun m => conv (m b)) as (store m b (conv (m b))) a =
        if a ∈ as then conv (store m b (conv (m b)) b) else store m b (conv (m b)) a := by
      -- the element itself is not assigned to any more
      have gen : ∀ (as : List Nat) (m : Mem α), b ∉ as → ∀ a, rangeFill (fun m => conv (m b)) as m a = if a ∈ as then conv (m b) else m a := by
        intro as
        induction as with
        | nil => intro m _ a; simp [rangeFill]
        | cons c as ih =>
          intro m hc a
          obtain ⟨h1, h2⟩ := not_or.mp (fun h => hc (List.mem_cons.mpr h))
          rw [rangeFill, ih _ h2 a]
          by_cases h3 : a ∈ as
          · simp [h3, store, h1]
          · by_cases h4 : a = c <;> simp [h3, h4, store, h1]
      exact gen as _ hb
    constructor
    · intro i a ha
      rw [rangeFill, key]
      cases i with
      | zero =>
        simp only [List.getElem?_cons_zero, Option.some.injEq] at ha
        subst ha
        simp [hb, store]
      | succ i =>
        simp only [List.getElem?_cons_succ] at ha
        simp [List.mem_of_getElem? ha, store]
    · intro a ha
      rw [rangeFill, key]
      have : a ≠ b ∧ a ∉ as := by simpa using ha
      simp [this.1, this.2, store]
  | b :: as, m, k + 1, hn, h => by
    simp only [List.getElem?_cons_succ] at h
    obtain ⟨hb, hn⟩ := List.nodup_cons.mp hn
    have hpb : p ≠ b := by rintro rfl; exact hb (List.mem_of_getElem? h)
    obtain ⟨h1, h2⟩ := C128_fill_converting conv p as (store m b (conv (m p))) k hn h
    have hp : store m b (conv (m p)) p = m p := by simp [store, hpb]
    rw [hp] at h1
    constructor
    · intro i a ha
      rw [rangeFill]
      cases i with
      | zero =>
        simp only [List.getElem?_cons_zero, Option.some.injEq] at ha
        subst ha
        rw [h2 b hb]
        simp [store]
      | succ i =>
        simp only [List.getElem?_cons_succ] at ha
        rw [h1 i a ha]
        simp
    · intro a ha
      have : a ≠ b ∧ a ∉ as := by simpa using ha
      rw [rangeFill, h2 a this.2]
      simp [store, this.1]

example : [5, 6, 7, 8].Nodup ∧ [5, 6, 7, 8][1]? = some 6 := by decide
example : [5, 6, 7, 8, 9].map (rangeFill (fun m => m 6 + 1) [5, 6, 7, 8] (fun n => 10 * n)) = [61, 61, 62, 62, 90] := by decide

/-- So `range_fill()` need not leave equal elements. -/
theorem C128_fill_equal_negated : ∃ (value : Mem Nat → Nat) (as : List Nat) (m : Mem Nat), as.Nodup ∧
    ∃ a ∈ as, ∃ b ∈ as, rangeFill value as m a ≠ rangeFill value as m b :=
  ⟨fun m => m 6 + 1, [5, 6, 7], fun n => 10 * n, by decide, 6, by decide, 7, by decide, by decide⟩

/-- `range_iota(range, range[k])` counts from the value the element had before. If a cell occurs several times in the range, its last occurrence counts. -/
theorem C128_iota_element (inc conv : α → α) (p : Nat) (as : List Nat) (m : Mem α) :
    (∀ (i a : Nat), as[i]? = some a → a ∉ as.drop (i + 1) → rangeIota inc conv p as m a = conv (inc^[i] (m p))) ∧
    (∀ a, a ∉ as → rangeIota inc conv p as m a = m a) := by
  unfold rangeIota
  generalize m p = v
  induction as generalizing m v with
  | nil => simp [iotaLoop]
  | cons b as ih =>
    obtain ⟨h1, h2⟩ := ih (store m b (conv v)) (inc v)
    constructor
    · intro i a ha hl
      rw [iotaLoop]
      cases i with
      | zero =>
        simp only [List.getElem?_cons_zero, Option.some.injEq] at ha
        subst ha
        rw [h2 b (by simpa using hl)]
        simp [store]
      | succ i =>
        rw [h1 i a (by simpa using ha) (by simpa using hl)]
        rfl
    · intro a ha
      have : a ≠ b ∧ a ∉ as := by simpa using ha
      rw [iotaLoop, h2 a this.2]
      simp [store, this.1]

example : [5, 6, 7, 8].map (rangeIota (· + 1) id 6 [5, 6, 7] (fun n => 10 * n)) = [60, 61, 62, 80] := by decide
example : [5, 6].map (rangeIota (· + 1) id 6 [5, 6, 5] (fun n => 10 * n)) = [62, 61] := by decide

/-- A generator which reads the range sees the elements before the current one as they have been generated, and the others as they were: the element number
`i` is what the generator yields when the first `i` elements have been filled. -/
theorem C128_generate_reads (generate : Mem α → S → α × Mem α × S) (hr : ∀ m s, (generate m s).2.1 = m) (as : List Nat) (m : Mem α) (s : S) :
    (∀ (i a : Nat), as[i]? = some a → a ∉ as.drop (i + 1) → (rangeGenerate generate as m s).1 a =
      (generate (rangeGenerate generate (as.take i) m s).1 (rangeGenerate generate (as.take i) m s).2).1) ∧
    (∀ a, a ∉ as → (rangeGenerate generate as m s).1 a = m a) := by
  induction as generalizing m s with
  | nil => simp [rangeGenerate]
  | cons b as ih =>
    obtain ⟨h1, h2⟩ := ih (store (generate m s).2.1 b (generate m s).1) (generate m s).2.2
    constructor
    · intro i a ha hl
      rw [rangeGenerate]
      cases i with
      | zero =>
        simp only [List.getElem?_cons_zero, Option.some.injEq] at ha
        subst ha
        rw [h2 b (by simpa using hl)]
        simp [store, rangeGenerate]
      | succ i =>
        rw [h1 i a (by simpa using ha) (by simpa using hl)]
        rfl
    · intro a ha
      have : a ≠ b ∧ a ∉ as := by simpa using ha
      rw [rangeGenerate, h2 a this.2, hr]
      simp [store, this.1]

/-- The state is the number of the next element: the generator adds the two elements before it. -/
def fibonacciOfRange (m : Mem Nat) (i : Nat) : Nat × Mem Nat × Nat := (m (i - 1) + m (i - 2), m, i + 1)
example : ∀ m s, (fibonacciOfRange m s).2.1 = m := fun _ _ => rfl
example : (List.range 8).map (rangeGenerate fibonacciOfRange [2, 3, 4, 5, 6, 7] (fun _ => 1) 2).1 = [1, 1, 2, 3, 5, 8, 13, 21] := by decide

/-- In particular, a generator which computes an element from the one before yields the sequence given by this recurrence. -/
theorem C128_generate_recurrence (f : α → α) (m : Mem α) (n k : Nat) (hk : k ≤ n) :
    (rangeGenerate (fun m (i : Nat) => (f (m (i - 1)), m, i + 1)) (List.range' 1 n) m 1).1 k = f^[k] (m 0) := by
  have gen : ∀ (n j : Nat) (m : Mem α) (v : α), m j = v → ∀ k ≤ n,
      (rangeGenerate (fun m (i : Nat) => (f (m (i - 1)), m, i + 1)) (List.range' (j + 1) n) m (j + 1)).1 (j + k) = f^[k] v := by
    intro n
    induction n with
    | zero =>
      intro j m v hv k hk
      obtain rfl : k = 0 := by omega
      simpa [rangeGenerate] using hv
    | succ n ih =>
      intro j m v hv k hk
      rw [List.range'_succ, rangeGenerate]
      cases k with
      | zero =>
        have := (C128_generate_reads (fun m (i : Nat) => (f (m (i - 1)), m, i + 1)) (fun _ _ => rfl) (List.range' (j + 1 + 1) n)
          (store m (j + 1) (f (m (j + 1 - 1)))) (j + 1 + 1)).2 (j + 0) (by simp [List.mem_range']; omega)
        rw [this]
        simp [store, hv]
      | succ k =>
        have := ih (j + 1) (store m (j + 1) (f (m (j + 1 - 1)))) (f v) (by simp [store, hv]) k (by omega)
        rw [show j + (k + 1) = j + 1 + k by omega]
        exact this
  simpa using gen n 0 m (m 0) rfl k hk

/-- Powers of two. -/
example (k : Nat) (hk : k ≤ 20) : (rangeGenerate (fun m (i : Nat) => (2 * m (i - 1), m, i + 1)) (List.range' 1 20) (fun _ => 1) 1).1 k = (2 * ·)^[k] 1 :=
  C128_generate_recurrence (2 * ·) (fun _ => 1) 20 k hk

/-- Filling a range is filling its parts one after another, even if the generator changes elements itself. -/
theorem C128_generate_parts (generate : Mem α → S → α × Mem α × S) (as bs : List Nat) (m : Mem α) (s : S) :
    rangeGenerate generate (as ++ bs) m s = rangeGenerate generate bs (rangeGenerate generate as m s).1 (rangeGenerate generate as m s).2 := by
  induction as generalizing m s with
  | nil => rfl
  | cons a as ih => exact ih _ _

/-- A generator which clears the next element: it is overwritten by its own value later on. -/
def clearing (m : Mem Nat) (i : Nat) : Nat × Mem Nat × Nat := (m i + 1, fun b => if b = i + 1 then 0 else m b, i + 1)
example : (List.range 4).map (rangeGenerate clearing [0, 1, 2] (fun _ => 5) 0).1 = [6, 1, 1, 0] := by decide

end Makeshift.Props
