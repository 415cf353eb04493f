import Verif.Model.SearchAnswers

/-! # Specification: what a search may conclude from the answers it gets -/

namespace Makeshift.SearchAnswers.Spec

/-- The index of the listed value in a comparison. -/
def position : Comparison → Int
  | .listedLess i | .valueLess i | .equal i => i

/-- All comparisons have returned an answer. -/
def Answered (w : Answers) (calls : List Comparison) : Prop := ∀ p, p ≠ [] → p <+: calls → ∃ b, w p = .ok b

/-- The last comparisons tell that the runtime value equals the listed value with index `i`: `==` has answered `true`, or `<` has answered `false` in both directions. -/
def Confirmed (w : Answers) (calls : List Comparison) (i : Int) : Prop :=
  (∃ before, calls = before ++ [.equal i] ∧ w calls = .ok true) ∨
    ∃ before, calls = before ++ [.listedLess i] ++ [.valueLess i] ∧ w (before ++ [.listedLess i]) = .ok false ∧ w calls = .ok false

/-- `==` with the first `m` listed values, in order. -/
def inOrder (m : Nat) : List Comparison := (List.range m).map fun (j : Nat) => .equal j

/-- Only listed values are compared with; either all comparisons return, and the result is -1 or an index confirmed by the last comparisons; or the
last comparison does not return, and this is the result. -/
def Sound (w : Answers) (n : Nat) (r : List Comparison × Outcome Int) : Prop :=
  (∀ c ∈ r.1, 0 ≤ position c ∧ position c < n) ∧
    ((Answered w r.1 ∧ (r.2 = .ok (-1) ∨ ∃ i : Int, 0 ≤ i ∧ i < n ∧ r.2 = .ok i ∧ Confirmed w r.1 i)) ∨
      ∃ before c, r.1 = before ++ [c] ∧ Answered w before ∧
        ((∃ e, w r.1 = .throw e ∧ r.2 = .throw e) ∨ (w r.1 = .failFast ∧ r.2 = .failFast) ∨ (w r.1 = .ub ∧ r.2 = .ub)))

/-- The answers of operators without side effects, for a runtime value and a list of values. -/
def pureAnswer {α : Type} (lt eq : α → α → Bool) (value : α) (values : List α) (w : Answers) : Prop :=
  ∀ (made : List Comparison) (i : Nat) (x : α), values[i]? = some x → w (made ++ [.listedLess i]) = .ok (lt x value) ∧
    w (made ++ [.valueLess i]) = .ok (lt value x) ∧ w (made ++ [.equal i]) = .ok (eq x value)

end Makeshift.SearchAnswers.Spec
