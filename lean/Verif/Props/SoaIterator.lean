import Verif.Spec.SoaIterator
import Verif.Props.SoaSpan

/-!
# Iterators of `soa_span`: C79
-/

namespace Makeshift.Props

open Makeshift.Soa Spec.Soa

variable {α : Type}

private theorem shift_ok {b : Nat} {p n : Int} (h : IntTy.ptrdiffT.InRange (p + n)) : Ref.shift ⟨b, p⟩ n = .ok ⟨b, p + n⟩ := by
  simp only [Ref.shift, IntTy.arith]
  rw [if_pos (by rfl), if_pos h]
  rfl

private theorem inRange_of {size : Nat} (hs : size < 2 ^ 63) {p : Int} (h1 : 0 ≤ p) (h2 : p ≤ size) : IntTy.ptrdiffT.InRange p := by
  simp only [IntTy.InRange, IntTy.minVal, IntTy.maxVal, IntTy.ptrdiffT]
  constructor
  · simp; omega
  · simp; omega

private theorem step_ok {b : Nat} {p : Int} (op : ItOp) (h : IntTy.ptrdiffT.InRange (p + displacement op)) :
    op.step ⟨b, p⟩ = .ok (⟨b, p + displacement op⟩, if isPostfix op then ⟨b, p⟩ else ⟨b, p + displacement op⟩) := by
  cases op <;> simp only [displacement] at h ⊢ <;> simp [ItOp.step, shift_ok h, isPostfix]

/-- C79: an iterator moved by any sequence of the operations, as long as it stays within the span (including the end), is where the sum of
the steps takes it, and each expression has the position it should (the old one for postfix operators). -/
theorem C79_walk_partial (b : Nat) (size : Nat) (hs : size < 2 ^ 63) (p : Int) (ops : List ItOp) (h : Within size p ops) :
    walkSoa ops ⟨b, p⟩ = .ok (⟨b, position p ops⟩, (results p ops).map fun i => ⟨b, i⟩) := by
  induction ops generalizing p with
  | nil => rfl
  | cons op ops ih =>
    have h1 := h 1 (by simp)
    simp only [List.take_succ_cons, List.take_zero, position] at h1
    have h2 : Within size (p + displacement op) ops := fun k hk => by
      have := h (k + 1) (by simp; omega)
      simpa only [List.take_succ_cons, position] using this
    simp only [walkSoa, step_ok op (inRange_of hs h1.1 h1.2), Outcome.bind_ok, ih _ h2, position, results, List.map_cons]
    cases isPostfix op <;> rfl

/-- C79: dereferencing an iterator at position `i` gives the elements of row `i`; `it[n]` is the same as `*(it + n)`. -/
theorem C79_deref (st : State α) (b : Nat) (s : Span) (hb : st.spans b = some s) (hv : Valid st s) (hs : s.size < 2 ^ 63) (i : Nat) (n : Int)
    (h1 : 0 ≤ i + n) (h2 : i + n < s.size) :
    ∃ r vals, Ref.subscript ⟨b, i⟩ n = .ok r ∧ toTuple st r = .ok vals ∧ Row st s (i + n).toNat vals := by
  have hr : Ref.subscript ⟨b, i⟩ n = .ok ⟨b, (i : Int) + n⟩ := shift_ok (inRange_of hs h1 (by omega))
  obtain ⟨r, vals, h3, h4, h5, _⟩ := (C58_index st b s hb hv ((i : Int) + n).toNat).1 (by omega)
  refine ⟨_, vals, hr, ?_, h4⟩
  have : at' st b ((i : Int) + n).toNat = .ok ⟨b, (i : Int) + n⟩ := by
    have h6 : (((i : Int) + n).toNat : Int) = i + n := by omega
    have h7 : ((i : Int) + n).toNat < s.size := by omega
    simp [at', State.withSpan, hb, Outcome.expects, h7, h6]
  rw [this] at h3
  cases h3
  exact h5

/-- C79: comparisons and differences agree with positions.  The difference of positions within a span is representable. -/
theorem C79_compare (b : Nat) (p q : Int) :
    (Ref.eq ⟨b, p⟩ ⟨b, q⟩ = true ↔ p = q) ∧ (Ref.ne ⟨b, p⟩ ⟨b, q⟩ = true ↔ p ≠ q) ∧ (Ref.lt ⟨b, p⟩ ⟨b, q⟩ = true ↔ p < q) ∧
    (Ref.gt ⟨b, p⟩ ⟨b, q⟩ = true ↔ q < p) ∧ (Ref.le ⟨b, p⟩ ⟨b, q⟩ = true ↔ p ≤ q) ∧ (Ref.ge ⟨b, p⟩ ⟨b, q⟩ = true ↔ q ≤ p) ∧
    ∀ size : Nat, size < 2 ^ 63 → 0 ≤ p → p ≤ size → 0 ≤ q → q ≤ size → Ref.diff ⟨b, p⟩ ⟨b, q⟩ = .ok (p - q) := by
  refine ⟨by simp [Ref.eq], by simp [Ref.eq, Ref.ne], by simp [Ref.lt], by simp [Ref.lt, Ref.gt], by simp [Ref.lt, Ref.le],
    by simp [Ref.lt, Ref.ge], ?_⟩
  intro size hs h1 h2 h3 h4
  have : IntTy.ptrdiffT.InRange (p - q) := by
    simp only [IntTy.InRange, IntTy.minVal, IntTy.maxVal, IntTy.ptrdiffT]
    constructor
    · simp; omega
    · simp; omega
  unfold Ref.diff IntTy.arith
  rw [if_pos (by rfl), if_pos this]

/-- C79: `(it + n) - it` is `n`. -/
theorem C79_advance_difference (b : Nat) (size : Nat) (hs : size < 2 ^ 63) (p n : Int) (h1 : 0 ≤ p) (h2 : p ≤ size) (h3 : 0 ≤ p + n)
    (h4 : p + n ≤ size) : ∃ it, walkSoa [.plus n] ⟨b, p⟩ = .ok (it, [it]) ∧ it.diff ⟨b, p⟩ = .ok n := by
  have hw := C79_walk_partial b size hs p [.plus n] (by
    intro k hk
    match k, hk with
    | 0, _ => simp [position]; omega
    | 1, _ => simp [position, displacement]; omega)
  refine ⟨⟨b, p + n⟩, hw, ?_⟩
  have := (C79_compare b (p + n) p).2.2.2.2.2.2 size hs h3 h4 h1 h2
  rw [this]
  congr 1
  omega

/-- C79 is false: the iterators are declared to be random access iterators in the sense of C++20, but lack default construction and
`-=`, and (only) these. -/
theorem C79_not_random_access : ∀ f, f ∈ requiredFunctions ∧ f ∉ declaredFunctions ↔ f = .defaultCtor ∨ f = .subAssign := by
  intro f
  cases f <;> decide

example : Within 3 0 [.preInc, .postInc, .addAssign 1, .minus 2, .postDec] := by
  intro k hk
  match k, hk with
  | 0, _ | 1, _ | 2, _ | 3, _ | 4, _ | 5, _ => decide

example : walkSoa [.preInc, .postInc, .addAssign 1, .minus 2, .postDec] ⟨0, 0⟩ = .ok (⟨0, 0⟩, [⟨0, 1⟩, ⟨0, 1⟩, ⟨0, 3⟩, ⟨0, 1⟩, ⟨0, 1⟩]) := by
  decide

example : Valid soaExample soaExampleSpan ∧ soaExample.spans 0 = some soaExampleSpan ∧ 1 < soaExampleSpan.size := by
  refine ⟨?_, rfl, by decide⟩
  unfold Valid
  decide

end Makeshift.Props
