import Verif.Model.PermutationAnswers

/-! # Specification: what may be called, and how a run may end -/

namespace Makeshift.PermutationAnswers.Spec

/-- A position of the ranges. -/
def Position (length k : Int) : Prop := 0 ≤ k ∧ k < length

/-- A call which accesses nothing outside the ranges. -/
def InRange (length : Int) : Op → Prop
  | .read k => Position length k
  | .write k _ => Position length k
  | .swap a b => Position length a ∧ Position length b
  | .swapIndices a b => Position length a ∧ Position length b

/-- A call which does not swap an element with itself. -/
def NoSelfSwap : Op → Prop
  | .swap a b => a ≠ b
  | _ => True

/-- All calls have returned. -/
def Answered (w : Answers) (calls : List Op) : Prop := ∀ p, p ≠ [] → p <+: calls → ∃ v, w p = .ok v

/-- The last call has not returned, and this is the outcome. -/
def Interrupted {α : Type} (w : Answers) (r : List Op × Outcome α) : Prop :=
  ∃ before op, r.1 = before ++ [op] ∧ Answered w before ∧
    ((∃ e, w r.1 = .throw e ∧ r.2 = .throw e) ∨ (w r.1 = .failFast ∧ r.2 = .failFast) ∨ (w r.1 = .ub ∧ r.2 = .ub))

/-- The index `j` has been read. -/
def Seen (w : Answers) (calls : List Op) (j : Int) : Prop := ∃ p k, p ++ [.read k] <+: calls ∧ w (p ++ [.read k]) = .ok j

/-- The memory of a range of elements and of an array of indices, after some calls. -/
def memory {α : Type} (elems : List α) (idx : List Int) : List Op → List α × List Int
  | [] => (elems, idx)
  | .read _ :: ops => memory elems idx ops
  | .write k v :: ops => memory elems (idx.set k.toNat v) ops
  | .swap a b :: ops =>
    match elems[a.toNat]?, elems[b.toNat]? with
    | some x, some y => memory ((elems.set a.toNat y).set b.toNat x) idx ops
    | _, _ => memory elems idx ops
  | .swapIndices a b :: ops =>
    match idx[a.toNat]?, idx[b.toNat]? with
    | some x, some y => memory elems ((idx.set a.toNat y).set b.toNat x) ops
    | _, _ => memory elems idx ops

/-- An array answers with what has been stored there last. -/
def FromMemory {α : Type} (elems : List α) (idx : List Int) (w : Answers) : Prop :=
  ∀ (made : List Op), (∀ (k : Nat) (v : Int), (memory elems idx made).2[k]? = some v → w (made ++ [.read k]) = .ok v) ∧
    (∀ op, (∀ k, op ≠ .read k) → ∃ v, w (made ++ [op]) = .ok v)

end Makeshift.PermutationAnswers.Spec
