import Verif.Lemmas.Fill

/-! # C34: `range_iota`, `range_fill`, `range_generate` -/

namespace Makeshift.Props

open Spec

variable {T E S : Type}

/-- For any type and increment: if `range_iota` returns, element `i` is `value` incremented `i` times. -/
theorem C34_iota_elements (inc : T → Outcome T) (conv : T → E) (l out : List E) (v : T) (h : rangeIota inc conv l v = .ok out) :
    out.length = l.length ∧ ∀ i < l.length, ∃ w, incremented inc i v = .ok w ∧ out[i]? = some (conv w) := by
  induction l generalizing v out with
  | nil => simp only [rangeIota, Outcome.ok.injEq] at h; subst h; simp
  | cons a l ih =>
    simp only [rangeIota] at h
    cases hv : inc v with
    | ok next =>
      rw [hv] at h
      simp only [Outcome.bind_ok] at h
      cases hr : rangeIota inc conv l next with
      | ok rest =>
        rw [hr] at h
        simp only [Outcome.bind_ok, Outcome.ok.injEq] at h
        subst h
        obtain ⟨h1, h2⟩ := ih rest next hr
        refine ⟨by simp [h1], ?_⟩
        intro i hi
        cases i with
        | zero => exact ⟨v, rfl, rfl⟩
        | succ i =>
          obtain ⟨w, hw, ho⟩ := h2 i (by simpa using hi)
          exact ⟨w, by simp [incremented, hv, hw], by simpa using ho⟩
      | _ => rw [hr] at h; simp at h
    | _ => rw [hv] at h; simp at h

/-- It returns iff `value` can be incremented once per element - once more than needed to compute the last element. -/
theorem C34_iota_returns_iff (inc : T → Outcome T) (conv : T → E) (l : List E) (v : T) :
    (∃ out, rangeIota inc conv l v = .ok out) ↔ ∃ w, incremented inc l.length v = .ok w := by
  induction l generalizing v with
  | nil => simp [rangeIota, incremented]
  | cons a l ih =>
    simp only [rangeIota, List.length_cons, incremented]
    cases hv : inc v with
    | ok next =>
      simp only [Outcome.bind_ok]
      rw [← ih next]
      constructor
      · rintro ⟨out, h⟩
        cases hr : rangeIota inc conv l next with
        | ok rest => exact ⟨rest, rfl⟩
        | _ => rw [hr] at h; simp at h
      · rintro ⟨rest, h⟩
        exact ⟨conv v :: rest, by rw [h]; rfl⟩
    | _ => simp

/-- Integers: if no value passes the maximum, the elements are `value`, `value + 1`, ... -/
theorem C34_iota_integers {t : IntTy} (ht : StdWidth t) (conv : Int → E) (l : List E) (v : Int) (hv : t.minVal ≤ v)
    (hmax : v + l.length ≤ t.maxVal) :
    rangeIota t.inc conv l v = .ok ((List.range l.length).map fun (i : Nat) => conv (v + i)) := by
  induction l generalizing v with
  | nil => rfl
  | cons a l ih =>
    simp only [List.length_cons] at hmax
    have hinc : t.inc v = .ok (v + 1) := by
      have hr : t.InRange (v + 1) := ⟨by omega, by omega⟩
      unfold IntTy.inc
      rw [arith_promote_of_inRange ht hr]
      simp only [Outcome.bind_ok, wrap_id ht hr]
    simp only [rangeIota, hinc, Outcome.bind_ok]
    rw [ih (v + 1) (by omega) (by omega)]
    simp only [Outcome.bind_ok, List.length_cons, List.range_succ_eq_map, List.map_cons, List.map_map]
    congr 2
    · simp
    · apply List.map_congr_left
      intro i _
      simp only [Function.comp_apply]
      congr 1
      omega

/-- Signed types as wide as `int`: if the maximum would be passed - possibly only by the value after the last element - the
behaviour is undefined. -/
theorem C34_iota_undefined {t : IntTy} (ht : StdWidth t) (hs : t.signed = true) (hw : 32 ≤ t.bits) (conv : Int → E) (l : List E)
    (v : Int) (hv : t.InRange v) (hmax : t.maxVal < v + l.length) : rangeIota t.inc conv l v = .ub := by
  have hp : t.promote = t := by unfold IntTy.promote; rw [if_neg (by omega)]
  induction l generalizing v with
  | nil => have := hv.2; simp only [List.length_nil] at hmax; omega
  | cons a l ih =>
    simp only [List.length_cons] at hmax
    simp only [rangeIota, IntTy.inc, hp]
    by_cases hr : t.InRange (v + 1)
    · have : t.arith (v + 1) = .ok (v + 1) := by unfold IntTy.arith; rw [if_pos hs, if_pos hr]
      rw [this]
      simp only [Outcome.bind_ok, wrap_id ht hr]
      rw [ih (v + 1) hr (by omega)]
      rfl
    · have : t.arith (v + 1) = .ub := by unfold IntTy.arith; rw [if_pos hs, if_neg hr]
      rw [this]
      rfl

/-- Hence the claim that `range_iota` works whenever all elements are representable is false: filling a one-element range of
`int` with the maximum is undefined. -/
theorem C34_iota_past_last : rangeIota (IntTy.inc ⟨32, true⟩) id [(0 : Int)] 2147483647 = .ub ∧
    (⟨32, true⟩ : IntTy).InRange 2147483647 := by
  constructor <;> decide

/-- Unsigned types and types narrower than `int` wrap around instead. -/
theorem C34_iota_wraps {t : IntTy} (ht : StdWidth t) (hs : t.signed = false ∨ t.bits < 32) (conv : Int → E) (l : List E)
    (v : Int) (hv : t.InRange v) :
    rangeIota t.inc conv l v = .ok ((List.range l.length).map fun (i : Nat) => conv (t.wrap (v + i))) := by
  induction l generalizing v with
  | nil => rfl
  | cons a l ih =>
    have hinc : t.inc v = .ok (t.wrap (v + 1)) := inc_wraps ht hs hv
    simp only [rangeIota, hinc, Outcome.bind_ok]
    rw [ih _ (wrap_inRange ht _)]
    simp only [Outcome.bind_ok, List.length_cons, List.range_succ_eq_map, List.map_cons, List.map_map]
    congr 2
    · simp [wrap_id ht hv]
    · apply List.map_congr_left
      intro i _
      simp only [Function.comp_apply]
      congr 1
      rw [wrap_add_wrap]
      congr 1
      omega

example : StdWidth ⟨32, true⟩ ∧ rangeIota (IntTy.inc ⟨32, true⟩) id [(0 : Int), 0, 0] 7 = .ok [7, 8, 9] :=
  ⟨by simp [StdWidth], by decide⟩

example : StdWidth ⟨8, true⟩ ∧ rangeIota (IntTy.inc ⟨8, true⟩) id [(0 : Int), 0, 0] 126 = .ok [126, 127, -128] :=
  ⟨by simp [StdWidth], by decide⟩

/-- `range_fill` sets every element. -/
theorem C34_fill (conv : T → E) (value : T) (l : List E) : rangeFill conv value l = List.replicate l.length (conv value) := by
  induction l with
  | nil => rfl
  | cons a l ih => simp [rangeFill, ih, List.replicate_succ]

/-- `range_generate` calls the generator once per element, in order, and stores the results. -/
theorem C34_generate (generate : S → T × S) (conv : T → E) (l : List E) (s : S) :
    rangeGenerate generate conv l s =
      ((List.range l.length).map (fun i => conv (generate (afterCalls generate i s)).1), afterCalls generate l.length s) := by
  induction l generalizing s with
  | nil => rfl
  | cons a l ih =>
    simp only [rangeGenerate, List.length_cons, afterCalls, List.range_succ_eq_map, List.map_cons, List.map_map]
    rw [ih]
    rfl

example : rangeGenerate (fun (s : Nat) => (s * s, s + 1)) id [0, 0, 0] 3 = ([9, 16, 25], 6) := rfl

end Makeshift.Props
