import Verif.Model.TupleCompare

/-! # Specification: comparisons made one after the other until the result is known -/

namespace Makeshift.TupleCompare.Spec

open Makeshift.TupleCompare

/-- The first `m` calls. -/
def first (call : Nat → Call) (m : Nat) : List Call := (List.range m).map call

/-- The calls `call 0`, `call 1`, ... are made one after the other as long as the answer is `true`, at most `n`; the result is `true` if all answers are,
and otherwise the last answer, which is `false` or an exception. -/
def AllInOrder (w : Answers) (call : Nat → Call) (n : Nat) (r : List Call × Outcome Bool) : Prop :=
  ∃ m, m ≤ n ∧ r.1 = first call m ∧ (∀ k, 0 < k → k < m → w (first call k) = .ok true) ∧
    ((m = n ∧ r.2 = .ok true ∧ (0 < m → w (first call m) = .ok true)) ∨
      (0 < m ∧ r.2 = w (first call m) ∧ r.2 ≠ .ok true))

/-- Both directions for the first `m` elements, beginning with direction `d`. -/
def both (d : Bool) (m : Nat) : List Call := (List.range m).flatMap fun i => [.lt i d, .lt i !d]

/-- Elements are compared in both directions as long as both answers are `false`; the first other answer decides: `true` in the first direction means `true`, `true` in
the second means `false`, and an exception is passed on.  If all elements are found equivalent, the result is `false`. -/
def Lexicographic (w : Answers) (d : Bool) (n : Nat) (r : List Call × Outcome Bool) : Prop :=
  ∃ m, m ≤ n ∧ (∀ k, k < m → w (both d k ++ [.lt k d]) = .ok false ∧ w (both d (k + 1)) = .ok false) ∧
    ((m = n ∧ r = (both d n, .ok false)) ∨
      (m < n ∧ r.1 = both d m ++ [.lt m d] ∧ r.2 = w r.1 ∧ r.2 ≠ .ok false) ∨
      (m < n ∧ w (both d m ++ [.lt m d]) = .ok false ∧ r.1 = both d (m + 1) ∧ w r.1 ≠ .ok false ∧
        r.2 = (w r.1).bind fun _ => .ok false))

end Makeshift.TupleCompare.Spec
