import Verif.Spec.RangeCatching
import Verif.Props.Ranges

/-!
# Programs on ranges which catch violated contracts: C152
-/

namespace Makeshift.Props

open Makeshift.RangeCatching
open Makeshift.Spec.RangeCatching

variable {α β : Type}

private theorem subscript_eq {array elems : List α} {r : AnyRange} (h63 : array.length < 2 ^ 63) (hc : Covers array elems r) (i : Nat) :
    r.subscript array i = match elems[i]? with | some v => .returned v | none => .terminated := by
  have key : ∀ before after : List α, array = before ++ elems ++ after → ∀ (h : i < elems.length) (h' : before.length + i < array.length),
      array[before.length + i] = elems[i] := by
    intro before after e h h'
    subst e
    simp [h]
  cases r with
  | dyn r =>
    obtain ⟨before, after, e, h1, h2⟩ := hc
    have hlen : array.length = before.length + elems.length + after.length := by rw [e]; simp only [List.length_append]
    obtain ⟨-, g1, g2⟩ := C37_subscript array before.length (before.length + elems.length) (by omega) (by omega) h63 i
    have hr : r = ⟨(before.length : Nat), ((before.length + elems.length : Nat) : Int)⟩ := by
      cases r; cases h1; cases h2; rfl
    simp only [AnyRange.subscript, callNoexcept, hr]
    by_cases hi : i < elems.length
    · rw [g1 (by omega), key before after e hi, List.getElem?_eq_getElem hi]; rfl
    · rw [g2 (by omega), List.getElem?_eq_none (by omega)]; rfl
  | static r =>
    obtain ⟨before, after, e, h1, h2⟩ := hc
    have hlen : array.length = before.length + elems.length + after.length := by rw [e]; simp only [List.length_append]
    obtain ⟨g1, g2, -⟩ := C37_static_subscript array before.length elems.length (by omega) i
    have hr : r = ⟨(before.length : Nat), elems.length⟩ := by
      cases r; cases h1; cases h2; rfl
    simp only [AnyRange.subscript, callNoexcept, hr]
    by_cases hi : i < elems.length
    · rw [g1 hi, key before after e hi, List.getElem?_eq_getElem hi]; rfl
    · rw [g2 (by omega), List.getElem?_eq_none (by omega)]; rfl

private theorem does_run {array elems : List α} {r : AnyRange} (h63 : array.length < 2 ^ 63) (hc : Covers array elems r) (p : Prog α β) :
    Does elems p (run array r p) := by
  induction p with
  | done x => exact .done
  | raise => exact .raise
  | subscript i k ih =>
    simp only [run, subscript_eq h63 hc]
    rcases hi : elems[i]? with _ | v
    · exact .outOfRange (List.getElem?_eq_none_iff.1 hi)
    · exact .read hi (ih v)
  | indices n k ih =>
    simp only [run, indexRange1]
    by_cases h : 0 ≤ n
    · simp only [ge_iff_le, h, decide_true, Outcome.expects_true, Outcome.bind_ok, call, Ends.andThen]
      exact .indices h (ih _)
    · simp only [ge_iff_le, h, decide_false]
      exact .negative (by omega)
  | indicesFrom first last k ih =>
    simp only [run, indexRange2]
    by_cases h : first ≤ last
    · simp only [h, decide_true, Outcome.expects_true, Outcome.bind_ok, call, Ends.andThen]
      exact .indicesFrom h (ih _)
    · simp only [h, decide_false]
      exact .reversed (by omega)
  | attempt body k ihb ihk =>
    simp only [run]
    rcases he : run array r body with x | _ | _ | _ <;> rw [he] at ihb
    · exact .completed ihb (ihk _)
    · exact .caught ihb (ihk _)
    · exact .notCaught ihb
    · exfalso
      clear he ihk
      generalize hu : (Ends.ub : Ends β) = u at ihb
      induction ihb with
      | read _ _ ih | indices _ _ ih | indicesFrom _ _ ih | completed _ _ _ ih | caught _ _ _ ih => exact ih hu
      | _ => cases hu

private theorem does_unique {elems : List α} {p : Prog α β} {e e' : Ends β} (h : Does elems p e) (h' : Does elems p e') : e = e' := by
  induction h generalizing e' with
  | done => cases h'; rfl
  | raise => cases h'; rfl
  | read hv _ ih =>
    cases h' with
    | read hv' h' => rw [hv] at hv'; cases hv'; exact ih h'
    | outOfRange hi => rw [List.getElem?_eq_none hi] at hv; cases hv
  | outOfRange hi =>
    cases h' with
    | read hv' h' => rw [List.getElem?_eq_none hi] at hv'; cases hv'
    | outOfRange hi => rfl
  | indices hn _ ih =>
    cases h' with
    | indices _ h' => exact ih h'
    | negative hn' => omega
  | negative hn =>
    cases h' with
    | indices hn' h' => omega
    | negative hn' => rfl
  | indicesFrom hn _ ih =>
    cases h' with
    | indicesFrom _ h' => exact ih h'
    | reversed hn' => omega
  | reversed hn =>
    cases h' with
    | indicesFrom hn' h' => omega
    | reversed hn' => rfl
  | completed _ _ ihb ih =>
    cases h' with
    | completed hb h' => cases ihb hb; exact ih h'
    | caught hb h' => cases ihb hb
    | notCaught hb => cases ihb hb
  | caught _ _ ihb ih =>
    cases h' with
    | completed hb h' => cases ihb hb
    | caught hb h' => exact ih h'
    | notCaught hb => cases ihb hb
  | notCaught _ ihb =>
    cases h' with
    | completed hb h' => cases ihb hb
    | caught hb h' => cases ihb hb
    | notCaught hb => rfl

/-- C152: what a program does which reads from a `range<>` and makes `index_range`s, when violated contracts are reported by exceptions: reversed or negative bounds
can be caught, but subscripting a range out of bounds terminates the program, whichever handlers there are.  (The behaviour is never undefined.) -/
theorem C152_runs (array elems : List α) (r : AnyRange) (h63 : array.length < 2 ^ 63) (hc : Covers array elems r) (p : Prog α β) (e : Ends β) :
    run array r p = e ↔ Does elems p e :=
  ⟨fun h => h ▸ does_run h63 hc p, fun h => does_unique (does_run h63 hc p) h⟩

/-- C152: a single subscript, inside of any handler. -/
theorem C152_subscript (array elems : List α) (r : AnyRange) (h63 : array.length < 2 ^ 63) (hc : Covers array elems r) (i : Nat)
    (hi : elems.length ≤ i) (body : α → Prog α β) (handler : Option β → Prog α β) :
    run array r (.attempt (.subscript i body) handler) = .terminated :=
  (C152_runs array elems r h63 hc _ _).2 (.notCaught (.outOfRange hi))

/-- C152: handlers for violated contracts around subscripts of a range are never executed: two programs which differ in them only do the same. -/
theorem C152_handlers_unused (array elems : List α) (r : AnyRange) (h63 : array.length < 2 ^ 63) (hc : Covers array elems r) (p q : Prog α β)
    (h : SameButHandlers p q) : run array r p = run array r q ∧ (run array r p = .terminated ∨ ∃ x, run array r p = .returned x) := by
  induction h with
  | done => exact ⟨rfl, .inr ⟨_, rfl⟩⟩
  | @subscript i k k' _ ih =>
    simp only [run, subscript_eq h63 hc]
    rcases hi : elems[i]? with _ | v
    · exact ⟨rfl, .inl rfl⟩
    · exact ih v
  | @attempt b b' k k' _ _ ihb ih =>
    obtain ⟨h1, h2⟩ := ihb
    simp only [run, ← h1]
    rcases h2 with h2 | ⟨x, h2⟩
    · rw [h2]; exact ⟨rfl, .inl rfl⟩
    · rw [h2]; exact ih x

/-- C152: a program which reads elements until a violated contract stops it, in order to find out how many there are, is terminated. -/
theorem C152_probe_negated (array elems : List α) (r : AnyRange) (h63 : array.length < 2 ^ 63) (hc : Covers array elems r) (limit i : Nat)
    (hi : i ≤ elems.length) (hlimit : elems.length < i + limit) : run array r (probe limit i) = .terminated := by
  induction limit generalizing i with
  | zero => omega
  | succ limit ih =>
    by_cases h : i = elems.length
    · exact C152_subscript array elems r h63 hc i (by omega) _ _
    · simp only [probe, run, subscript_eq h63 hc, List.getElem?_eq_getElem (show i < elems.length by omega), Ends.andThen]
      exact ih (i + 1) (by omega) (by omega)

/-- A program which catches a reversed `index_range`, and reads two elements then. -/
def rangeCatchExample (j : Nat) : Prog Nat Nat :=
  .attempt (.indicesFrom 3 1 fun _ => .done 0) fun
    | some x => .done x
    | none => .subscript 0 fun x => .attempt (.subscript j fun y => .done (x + y)) fun | some x => .done x | none => .done 99

example : Covers [10, 11, 12, 13] [11, 12] (.dyn ⟨1, 3⟩) ∧ Covers [10, 11, 12, 13] [11, 12] (.static ⟨1, 2⟩) ∧
    run [10, 11, 12, 13] (.dyn ⟨1, 3⟩) (rangeCatchExample 1) = .returned 23 ∧ run [10, 11, 12, 13] (.dyn ⟨1, 3⟩) (rangeCatchExample 2) = .terminated ∧
    run [10, 11, 12, 13] (.static ⟨1, 2⟩) (rangeCatchExample 2) = .terminated ∧
    run [10, 11, 12, 13] (.dyn ⟨1, 3⟩) (.attempt (.indices (-1) fun _ => .done 0) fun | some x => .done x | none => .raise) = (.violated : Ends Nat) :=
  ⟨⟨[10], [13], rfl, rfl, rfl⟩, ⟨[10], [13], rfl, rfl, rfl⟩, by decide +kernel, by decide +kernel, by decide +kernel, by decide +kernel⟩

example : SameButHandlers (.attempt (.subscript 5 fun x => .done x) fun | some x => .done x | none => .done 1 : Prog Nat Nat)
    (.attempt (.subscript 5 fun x => .done x) fun | some x => .done x | none => .raise) :=
  .attempt (.subscript fun _ => .done) fun _ => .done

end Makeshift.Props
