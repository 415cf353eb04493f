import Verif.Model.Permutation

/-!
# `apply_permutation`, `apply_reverse_permutation` and `shuffle` with a `swap` that throws

The functions of `Verif.Model.Permutation` once more. `calls` is the number of calls of `swap(first[a], first[b])` which succeed; the next one
throws an exception and leaves both elements as they were.  Every run in which a call of `swap` throws is of this kind, whatever
the reason for the exception, because the algorithms do not catch it.

Simplification: as in `Verif.Model.Permutation`, `Diff` is an unbounded signed integer; swapping indices does not throw.
-/

namespace Makeshift

/-- How a run ends: as before, or by an exception thrown by `swap`. -/
inductive PermEndT where
  | ends (e : PermEnd)
  | thrown
  deriving DecidableEq, Repr

/-- `swap(first[a], first[b])` with `calls` calls left that succeed: `none` is an exception. -/
def swapT {α : Type} (calls : Nat) (l : List α) (a b : Nat) : Option (Nat × Option (List α)) :=
  match calls with
  | 0 => none
  | k + 1 => some (k, swapAt l a b)

/-- The while loop of `apply_permutation`, experimental/algorithm.hpp:43-56. -/
def permThrowInner {α : Type} (length i current : Nat) (calls : Nat) (s : PermState α) : PermEndT × Nat × PermState α :=
  match h : s.idx[current]? with
  | none => (.ends .ub, calls, s)
  | some next =>
    if next = (i : Int) then (.ends .done, calls, { s with idx := s.idx.set current current })   -- 43, 56
    else if hx : next < 0 ∨ next ≥ (length : Int) ∨ next = (current : Int) then
      (.ends .failFast, calls, { s with idx := s.idx.set i next })                               -- 46-51
    else
      match swapT calls s.elems current next.toNat with                                          -- 52
      | none => (.thrown, calls, s)
      | some (calls, none) => (.ends .ub, calls, s)
      | some (calls, some e) => permThrowInner length i next.toNat calls ⟨e, s.idx.set current current⟩  -- 53-54
  termination_by nonFixedFrom 0 s.idx
  decreasing_by
    have := nonFixedFrom_set s.idx 0 current next current h
    have hne : next ≠ (current : Int) := fun hc => hx (Or.inr (Or.inr hc))
    simp [hne] at this ⊢
    omega

/-- The for loop of `apply_permutation`, experimental/algorithm.hpp:40-57. -/
def permThrowOuter {α : Type} (length : Nat) : Nat → Nat → Nat → PermState α → PermEndT × PermState α
  | 0, _, _, s => (.ends .done, s)
  | m + 1, i, calls, s =>
    match permThrowInner length i i calls s with
    | (.ends .done, calls, s) => permThrowOuter length m (i + 1) calls s
    | (r, _, s) => (r, s)

/-- experimental/algorithm.hpp:26-58 `apply_permutation`. -/
def permThrow {α : Type} (calls : Nat) (s : PermState α) : PermEndT × PermState α :=
  permThrowOuter s.elems.length s.elems.length 0 calls s

/-- The while loop of `apply_reverse_permutation`, experimental/algorithm.hpp:79-86. -/
def revThrowInner {α : Type} (length i : Nat) (calls : Nat) (s : PermState α) : PermEndT × Nat × PermState α :=
  match h : s.idx[i]? with
  | none => (.ends .ub, calls, s)
  | some next =>
    if hi : next = (i : Int) then (.ends .done, calls, s)                                        -- 79
    else if hr : next < 0 ∨ next ≥ (length : Int) then (.ends .failFast, calls, s)               -- 82
    else
      match h' : s.idx[next.toNat]? with
      | none => (.ends .ub, calls, s)
      | some nn =>
        if hn : next = nn then (.ends .failFast, calls, s)                                       -- 83
        else
          match swapT calls s.elems i next.toNat with                                            -- 84
          | none => (.thrown, calls, s)
          | some (calls, none) => (.ends .ub, calls, s)
          | some (calls, some e) => revThrowInner length i calls ⟨e, (s.idx.set i nn).set next.toNat next⟩  -- 85
  termination_by nonFixedFrom 0 s.idx
  decreasing_by
    have hpos : ((next.toNat : Nat) : Int) = next := by omega
    have h1 := nonFixedFrom_set s.idx 0 i next nn h
    have hne : i ≠ next.toNat := by omega
    have h2 := nonFixedFrom_set (s.idx.set i nn) 0 next.toNat nn next (by rw [List.getElem?_set_ne hne]; exact h')
    simp [hpos, hi] at h1 h2 ⊢
    have : nn ≠ next := fun hc => hn hc.symm
    simp [this] at h2
    split at h1 <;> omega

/-- The for loop of `apply_reverse_permutation`, experimental/algorithm.hpp:77-87. -/
def revThrowOuter {α : Type} (length : Nat) : Nat → Nat → Nat → PermState α → PermEndT × PermState α
  | 0, _, _, s => (.ends .done, s)
  | m + 1, i, calls, s =>
    match revThrowInner length i calls s with
    | (.ends .done, calls, s) => revThrowOuter length m (i + 1) calls s
    | (r, _, s) => (r, s)

/-- experimental/algorithm.hpp:63-88 `apply_reverse_permutation`. -/
def revThrow {α : Type} (calls : Nat) (s : PermState α) : PermEndT × PermState α :=
  revThrowOuter s.elems.length s.elems.length 0 calls s

/-- The loop of `shuffle`, algorithm.hpp:44-52; the second component tells whether the loop was left by an exception. -/
def shuffleThrowLoop {α : Type} (draw : Nat → Nat) : Nat → Nat → List α → Option (List α × Bool)
  | 0, _, l => some (l, false)
  | i + 1, calls, l =>
    let j := draw (i + 1)                       -- 46
    if i + 1 ≠ j then
      match swapT calls l (i + 1) j with
      | none => some (l, true)
      | some (_, none) => none
      | some (calls, some l) => shuffleThrowLoop draw i calls l
    else shuffleThrowLoop draw i calls l

/-- algorithm.hpp:34-53 `shuffle`. -/
def shuffleThrow {α : Type} (draw : Nat → Nat) (calls : Nat) (l : List α) : Option (List α × Bool) :=
  shuffleThrowLoop draw (l.length - 1) calls l

end Makeshift
