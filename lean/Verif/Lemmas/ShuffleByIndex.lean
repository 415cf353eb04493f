import Verif.Model.ShuffleByIndex
import Verif.Lemmas.Permutation

/-! Helper lemmas for shuffling by indices. -/

namespace Makeshift

variable {α β : Type}

theorem swapAt_map (f : α → β) (l : List α) (a b : Nat) : swapAt (l.map f) a b = (swapAt l a b).map (List.map f) := by
  unfold swapAt
  rw [List.getElem?_map, List.getElem?_map]
  cases l[a]? <;> cases l[b]? <;> simp [List.map_set]

theorem shuffleLoop_map (t : IntTy) (dist : Nat → Int → Int) (f : α → β) (i : Nat) (l : List α) :
    ShuffleDist.shuffleLoop t dist i (l.map f) = (ShuffleDist.shuffleLoop t dist i l).mapVal (List.map f) := by
  induction i generalizing l with
  | zero => rfl
  | succ i ih =>
    simp only [ShuffleDist.shuffleLoop]
    cases ShuffleDist.draw dist (i + 1) (t.wrap ((i + 1 : Nat) : Int)) with
    | ok v =>
      simp only [Outcome.bind_ok]
      split
      · split
        · rfl
        · rw [swapAt_map]
          cases swapAt l (i + 1) (IntTy.ptrdiffT.wrap v).toNat with
          | none => rfl
          | some l' => exact ih l'
      · exact ih l
    | throw m => rfl
    | failFast => rfl
    | ub => rfl

theorem shuffle_map (t : IntTy) (dist : Nat → Int → Int) (f : α → β) (l : List α) :
    ShuffleDist.shuffle t dist (l.map f) = (ShuffleDist.shuffle t dist l).mapVal (List.map f) := by
  unfold ShuffleDist.shuffle
  rw [List.length_map, shuffleLoop_map]

theorem shuffleLoop_perm (t : IntTy) (dist : Nat → Int → Int) (i : Nat) (l l' : List α) (h : ShuffleDist.shuffleLoop t dist i l = .ok l') : l'.Perm l := by
  induction i generalizing l with
  | zero => simp only [ShuffleDist.shuffleLoop, Outcome.ok.injEq] at h; rw [h]
  | succ i ih =>
    simp only [ShuffleDist.shuffleLoop] at h
    cases hd : ShuffleDist.draw dist (i + 1) (t.wrap ((i + 1 : Nat) : Int)) with
    | ok v =>
      rw [hd] at h
      simp only [Outcome.bind_ok] at h
      split at h
      · split at h
        · simp at h
        · cases hs : swapAt l (i + 1) (IntTy.ptrdiffT.wrap v).toNat with
          | none => rw [hs] at h; simp at h
          | some l1 => rw [hs] at h; exact (ih l1 h).trans (swapAt_perm hs)
      · exact ih l h
    | throw m => rw [hd] at h; cases h
    | failFast => rw [hd] at h; cases h
    | ub => rw [hd] at h; cases h

theorem shuffleLoop_ends (t : IntTy) (dist : Nat → Int → Int) (i : Nat) (l : List α) :
    (∃ l', ShuffleDist.shuffleLoop t dist i l = .ok l') ∨ ShuffleDist.shuffleLoop t dist i l = .ub := by
  induction i generalizing l with
  | zero => exact .inl ⟨l, rfl⟩
  | succ i ih =>
    simp only [ShuffleDist.shuffleLoop, ShuffleDist.draw]
    split
    · exact .inr rfl
    · simp only [Outcome.bind_ok]
      split
      · split
        · exact .inr rfl
        · split
          · exact .inr rfl
          · exact ih _
      · exact ih _

theorem identity_map_get (l : List α) : (identity l.length).map (fun x => l[x.toNat]?) = l.map some := by
  apply List.ext_getElem?
  intro i
  by_cases hi : i < l.length
  · rw [List.getElem?_map, identity_get hi, List.getElem?_map]
    simp [hi]
  · rw [List.getElem?_eq_none (by simp [identity]; omega), List.getElem?_eq_none (by simp; omega)]

/-- Shuffling a list is shuffling its positions. -/
theorem shuffle_positions (t : IntTy) (dist : Nat → Int → Int) (l : List α) :
    (∀ idx, ShuffleDist.shuffle t dist (identity l.length) = .ok idx →
      ∃ l', ShuffleDist.shuffle t dist l = .ok l' ∧ l'.map some = idx.map (fun x => l[x.toNat]?)) ∧
    (ShuffleDist.shuffle t dist (identity l.length) = .ub → ShuffleDist.shuffle t dist l = .ub) := by
  have h1 := shuffle_map t dist some l
  have h2 := shuffle_map t dist (fun x : Int => l[x.toNat]?) (identity l.length)
  rw [identity_map_get, h1] at h2
  constructor
  · intro idx hidx
    rw [hidx] at h2
    rcases shuffleLoop_ends t dist (l.length - 1) l with ⟨l', h⟩ | h
    · replace h : ShuffleDist.shuffle t dist l = .ok l' := h
      rw [h] at h2
      exact ⟨l', h, by simpa [Outcome.mapVal] using h2⟩
    · replace h : ShuffleDist.shuffle t dist l = .ub := h
      rw [h] at h2; simp [Outcome.mapVal] at h2
  · intro hub
    rw [hub] at h2
    rcases shuffleLoop_ends t dist (l.length - 1) l with ⟨l', h⟩ | h
    · replace h : ShuffleDist.shuffle t dist l = .ok l' := h
      rw [h] at h2; simp [Outcome.mapVal] at h2
    · exact h

end Makeshift
