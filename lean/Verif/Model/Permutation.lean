import Mathlib.Data.List.Basic

/-!
# `apply_permutation`, `apply_reverse_permutation`, `shuffle`

Model of `experimental/algorithm.hpp` lines 26-88 and `algorithm.hpp` lines 34-53.

Simplifications: `Diff` is an unbounded signed integer (the real `Diff` is the value type of the index range and must be
able to represent the length); element swaps do not throw.
-/

namespace Makeshift

/-- The memory touched by the algorithms: the element range and the index range. -/
structure PermState (α : Type) where
  elems : List α
  idx : List Int
  deriving DecidableEq, Repr

/-- How a run ends. `ub` is an out-of-bounds access. -/
inductive PermEnd where
  | done | failFast | ub
  deriving DecidableEq, Repr

/-- `swap(first[a], first[b])`; `none` if a position is out of bounds. -/
def swapAt {α : Type} (l : List α) (a b : Nat) : Option (List α) :=
  match l[a]?, l[b]? with
  | some x, some y => some ((l.set a y).set b x)
  | _, _ => none

/-- Termination measure (not code): number of positions `k` of `l`, counted from `off`, with `l[k] ≠ off + k`. -/
def nonFixedFrom : Nat → List Int → Nat
  | _, [] => 0
  | off, x :: r => (if x = (off : Int) then 0 else 1) + nonFixedFrom (off + 1) r

theorem nonFixedFrom_set (l : List Int) (off p : Nat) (x y : Int) (h : l[p]? = some x) :
    nonFixedFrom off (l.set p y) + (if x = ((off + p : Nat) : Int) then 0 else 1) =
      nonFixedFrom off l + (if y = ((off + p : Nat) : Int) then 0 else 1) := by
  induction l generalizing off p with
  | nil => simp at h
  | cons a r ih =>
    cases p with
    | zero =>
      simp only [List.getElem?_cons_zero, Option.some.injEq] at h
      subst h
      simp only [List.set_cons_zero, nonFixedFrom, Nat.add_zero]; omega
    | succ p =>
      simp only [List.getElem?_cons_succ] at h
      have := ih (off + 1) p h
      rw [show off + 1 + p = off + (p + 1) by omega] at this
      simp only [List.set_cons_succ, nonFixedFrom]; omega

/-- The while loop of `apply_permutation`, experimental/algorithm.hpp:43-56; variables `i`, `current`. -/
def applyPermInner {α : Type} (length i current : Nat) (s : PermState α) : PermEnd × PermState α :=
  match h : s.idx[current]? with
  | none => (.ub, s)
  | some next =>
    if next = (i : Int) then (.done, { s with idx := s.idx.set current current })          -- 43, 56
    else if hx : next < 0 ∨ next ≥ (length : Int) ∨ next = (current : Int) then
      (.failFast, { s with idx := s.idx.set i next })                                      -- 46-51
    else
      match swapAt s.elems current next.toNat with                                         -- 52
      | none => (.ub, s)
      | some e => applyPermInner length i next.toNat ⟨e, s.idx.set current current⟩        -- 53-54
  termination_by nonFixedFrom 0 s.idx
  decreasing_by
    have := nonFixedFrom_set s.idx 0 current next current h
    have hne : next ≠ (current : Int) := fun hc => hx (Or.inr (Or.inr hc))
    simp [hne] at this ⊢
    omega

/-- The for loop of `apply_permutation`, experimental/algorithm.hpp:40-57; the first argument counts remaining
iterations. -/
def applyPermOuter {α : Type} (length : Nat) : Nat → Nat → PermState α → PermEnd × PermState α
  | 0, _, s => (.done, s)
  | m + 1, i, s =>
    match applyPermInner length i i s with
    | (.done, s) => applyPermOuter length m (i + 1) s
    | r => r

/-- experimental/algorithm.hpp:26-58 `apply_permutation`. -/
def applyPermutation {α : Type} (s : PermState α) : PermEnd × PermState α :=
  applyPermOuter s.elems.length s.elems.length 0 s

/-- The while loop of `apply_reverse_permutation`, experimental/algorithm.hpp:79-86. -/
def applyRevInner {α : Type} (length i : Nat) (s : PermState α) : PermEnd × PermState α :=
  match h : s.idx[i]? with
  | none => (.ub, s)
  | some next =>
    if hi : next = (i : Int) then (.done, s)                                               -- 79
    else if hr : next < 0 ∨ next ≥ (length : Int) then (.failFast, s)                      -- 82
    else
      match h' : s.idx[next.toNat]? with
      | none => (.ub, s)
      | some nn =>
        if hn : next = nn then (.failFast, s)                                              -- 83
        else
          match swapAt s.elems i next.toNat with                                           -- 84
          | none => (.ub, s)
          | some e => applyRevInner length i ⟨e, (s.idx.set i nn).set next.toNat next⟩     -- 85
  termination_by nonFixedFrom 0 s.idx
  decreasing_by
    have hpos : ((next.toNat : Nat) : Int) = next := by omega
    have h1 := nonFixedFrom_set s.idx 0 i next nn h
    have hne : i ≠ next.toNat := by omega
    have h2 := nonFixedFrom_set (s.idx.set i nn) 0 next.toNat nn next (by rw [List.getElem?_set_ne hne]; exact h')
    simp [hpos, hi] at h1 h2 ⊢
    have : nn ≠ next := fun hc => hn hc.symm
    simp [this] at h2
    split at h1 <;> omega

/-- The for loop of `apply_reverse_permutation`, experimental/algorithm.hpp:77-87. -/
def applyRevOuter {α : Type} (length : Nat) : Nat → Nat → PermState α → PermEnd × PermState α
  | 0, _, s => (.done, s)
  | m + 1, i, s =>
    match applyRevInner length i s with
    | (.done, s) => applyRevOuter length m (i + 1) s
    | r => r

/-- experimental/algorithm.hpp:63-88 `apply_reverse_permutation`. -/
def applyReversePermutation {α : Type} (s : PermState α) : PermEnd × PermState α :=
  applyRevOuter s.elems.length s.elems.length 0 s

/-- The loop of `shuffle`, algorithm.hpp:44-52, entered with `i = first argument`.  `draw i` is the value
the distribution returns for `Param(0, i)`; every bound is requested at most once.  `none` is an out-of-bounds access. -/
def shuffleLoop {α : Type} (draw : Nat → Nat) : Nat → List α → Option (List α)
  | 0, l => some l
  | i + 1, l =>
    let j := draw (i + 1)                       -- 46
    if i + 1 ≠ j then
      match swapAt l (i + 1) j with
      | none => none
      | some l => shuffleLoop draw i l
    else shuffleLoop draw i l

/-- algorithm.hpp:34-53 `shuffle`.  `draw i` is the value the distribution returns when asked for a value in `[0, i]`
(every bound is requested at most once, so a run is determined by this function). -/
def shuffle {α : Type} (draw : Nat → Nat) (l : List α) : Option (List α) :=
  shuffleLoop draw (l.length - 1) l

end Makeshift
