import Verif.Model.Permutation

/-!
# The permutation algorithms over arbitrary iterators

The function templates of `Verif.Model.Permutation` once more, for element ranges which are not a plain sequence (such as those with
proxy references): the elements are behind a memory `σ`, and `swap m a b` is what `swap(first[a], first[b])` does to it (`none`:
undefined).
-/

namespace Makeshift

/-- The memory behind the element range, and the index range. -/
structure PermMem (σ : Type) where
  mem : σ
  idx : List Int

/-- The while loop of `apply_permutation`, experimental/algorithm.hpp:43-56. -/
def permOverInner {σ : Type} (swap : σ → Nat → Nat → Option σ) (length i current : Nat) (s : PermMem σ) : PermEnd × PermMem σ :=
  match h : s.idx[current]? with
  | none => (.ub, s)
  | some next =>
    if next = (i : Int) then (.done, { s with idx := s.idx.set current current })          -- 43, 56
    else if hx : next < 0 ∨ next ≥ (length : Int) ∨ next = (current : Int) then
      (.failFast, { s with idx := s.idx.set i next })                                      -- 46-51
    else
      match swap s.mem current next.toNat with                                             -- 52
      | none => (.ub, s)
      | some m => permOverInner swap length i next.toNat ⟨m, s.idx.set current current⟩    -- 53-54
  termination_by nonFixedFrom 0 s.idx
  decreasing_by
    have := nonFixedFrom_set s.idx 0 current next current h
    have hne : next ≠ (current : Int) := fun hc => hx (Or.inr (Or.inr hc))
    simp [hne] at this ⊢
    omega

/-- The for loop of `apply_permutation`, experimental/algorithm.hpp:40-57. -/
def permOverOuter {σ : Type} (swap : σ → Nat → Nat → Option σ) (length : Nat) : Nat → Nat → PermMem σ → PermEnd × PermMem σ
  | 0, _, s => (.done, s)
  | m + 1, i, s =>
    match permOverInner swap length i i s with
    | (.done, s) => permOverOuter swap length m (i + 1) s
    | r => r

/-- experimental/algorithm.hpp:26-58 `apply_permutation`; `length` is `last - first`. -/
def permOver {σ : Type} (swap : σ → Nat → Nat → Option σ) (length : Nat) (s : PermMem σ) : PermEnd × PermMem σ :=
  permOverOuter swap length length 0 s

/-- The while loop of `apply_reverse_permutation`, experimental/algorithm.hpp:79-86. -/
def revOverInner {σ : Type} (swap : σ → Nat → Nat → Option σ) (length i : Nat) (s : PermMem σ) : PermEnd × PermMem σ :=
  match h : s.idx[i]? with
  | none => (.ub, s)
  | some next =>
    if hi : next = (i : Int) then (.done, s)                                               -- 79
    else if hr : next < 0 ∨ next ≥ (length : Int) then (.failFast, s)                      -- 82
    else
      match h' : s.idx[next.toNat]? with
      | none => (.ub, s)
      | some nn =>
        if hn : next = nn then (.failFast, s)                                              -- 83
        else
          match swap s.mem i next.toNat with                                               -- 84
          | none => (.ub, s)
          | some m => revOverInner swap length i ⟨m, (s.idx.set i nn).set next.toNat next⟩ -- 85
  termination_by nonFixedFrom 0 s.idx
  decreasing_by
    have hpos : ((next.toNat : Nat) : Int) = next := by omega
    have h1 := nonFixedFrom_set s.idx 0 i next nn h
    have hne : i ≠ next.toNat := by omega
    have h2 := nonFixedFrom_set (s.idx.set i nn) 0 next.toNat nn next (by rw [List.getElem?_set_ne hne]; exact h')
    simp [hpos, hi] at h1 h2 ⊢
    have : nn ≠ next := fun hc => hn hc.symm
    simp [this] at h2
    split at h1 <;> omega

/-- The for loop of `apply_reverse_permutation`, experimental/algorithm.hpp:77-87. -/
def revOverOuter {σ : Type} (swap : σ → Nat → Nat → Option σ) (length : Nat) : Nat → Nat → PermMem σ → PermEnd × PermMem σ
  | 0, _, s => (.done, s)
  | m + 1, i, s =>
    match revOverInner swap length i s with
    | (.done, s) => revOverOuter swap length m (i + 1) s
    | r => r

/-- experimental/algorithm.hpp:63-88 `apply_reverse_permutation`; `length` is `last - first`. -/
def revOver {σ : Type} (swap : σ → Nat → Nat → Option σ) (length : Nat) (s : PermMem σ) : PermEnd × PermMem σ :=
  revOverOuter swap length length 0 s

/-- The loop of `shuffle`, algorithm.hpp:44-52. -/
def shuffleOverLoop {σ : Type} (swap : σ → Nat → Nat → Option σ) (draw : Nat → Nat) : Nat → σ → Option σ
  | 0, m => some m
  | i + 1, m =>
    let j := draw (i + 1)                       -- 46
    if i + 1 ≠ j then
      match swap m (i + 1) j with
      | none => none
      | some m => shuffleOverLoop swap draw i m
    else shuffleOverLoop swap draw i m

/-- algorithm.hpp:34-53 `shuffle`; `length` is `last - first`. -/
def shuffleOver {σ : Type} (swap : σ → Nat → Nat → Option σ) (draw : Nat → Nat) (length : Nat) (m : σ) : Option σ :=
  shuffleOverLoop swap draw (length - 1) m

end Makeshift
