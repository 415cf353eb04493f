import Verif.Lemmas.ShuffleByIndex
import Verif.Props.SortByIndex
import Verif.Props.ShuffleDist

/-!
# C139: shuffling by indices
-/

namespace Makeshift.Props

open Makeshift.Spec Makeshift.ShuffleByIndex

variable {α β : Type}

private theorem apply_shuffled {ty : IntTy} (ht : StdWidth ty) {t : IntTy} {dist : Nat → Int → Int} {l l' : List α} {idx : List Int}
    (hi : ShuffleDist.shuffle t dist (identity l.length) = .ok idx) (hm : l'.map some = idx.map (fun x => l[x.toNat]?))
    (hn : (l.length : Int) ≤ ty.maxVal) {fuel : Nat} (hf : l.length < fuel) :
    PermInt.applyPermutation ty fuel ⟨l, idx⟩ = some (.done, ⟨l', identity l.length⟩) := by
  have hp : IsPermutation idx l.length := shuffleLoop_perm t dist _ _ _ hi
  obtain ⟨e, h1, h2, -, h3⟩ := apply_spec ht hp hn hf
  have hl : l'.length = idx.length := by simpa using congrArg List.length hm
  have hil : idx.length = l.length := by simpa [IsPermutation] using hp.length_eq
  rw [h1]
  have : e = l' := by
    apply List.ext_getElem?
    intro i
    by_cases hi : i < l.length
    · obtain ⟨p, hp', ep⟩ := (perm_get hp).1 i hi
      rw [h3 i p ep]
      have := congrArg (fun z => z[i]?) hm
      simp only [List.getElem?_map, ep, Option.map_some, Int.toNat_natCast] at this
      cases hg : l'[i]? with
      | none => rw [List.getElem?_eq_none_iff] at hg; omega
      | some x => rw [hg] at this; simpa using this.symm
    · rw [List.getElem?_eq_none (by omega), List.getElem?_eq_none (by omega)]
  rw [this]

/-- C139: if the index type can represent the number of rows, shuffling the indices and permuting the rows and others with copies of them gives what
shuffling each of them with the same random numbers would give; the rows and others stay in step.  This is undefined exactly if shuffling them is. -/
theorem C139_same (ty : IntTy) (ht : StdWidth ty) (t : IntTy) (dist : Nat → Int → Int) (rows : List α) (others : List β)
    (ho : others.length = rows.length) (indices : List Int) (hi : indices.length = rows.length) (hn : (rows.length : Int) ≤ ty.maxVal)
    (fuel : Nat) (hf : rows.length < fuel) :
    (∃ rows' others', ShuffleDist.shuffle t dist rows = .ok rows' ∧ ShuffleDist.shuffle t dist others = .ok others' ∧
      shuffleBoth ty t dist rows others indices fuel = .ok (some (.done, rows', others')) ∧
      rows'.length = rows.length ∧ others'.length = rows.length ∧ (rows'.zip others').Perm (rows.zip others)) ∨
    (ShuffleDist.shuffle t dist rows = .ub ∧ ShuffleDist.shuffle t dist others = .ub ∧ shuffleBoth ty t dist rows others indices fuel = .ub) := by
  obtain ⟨a1, a2⟩ := shuffle_positions t dist rows
  obtain ⟨b1, b2⟩ := shuffle_positions t dist others
  rw [ho] at b1 b2
  rw [shuffleBoth, shuffleIndices, iota_identity ht indices (by omega), Outcome.bind_ok, hi]
  rcases shuffleLoop_ends t dist ((identity rows.length).length - 1) (identity rows.length) with ⟨idx, h⟩ | h
  · replace h : ShuffleDist.shuffle t dist (identity rows.length) = .ok idx := h
    obtain ⟨rows', r1, r2⟩ := a1 idx h
    obtain ⟨others', o1, o2⟩ := b1 idx h
    have hp : IsPermutation idx rows.length := shuffleLoop_perm t dist _ _ _ h
    have hil : idx.length = rows.length := by simpa [IsPermutation] using hp.length_eq
    have hrl : rows'.length = rows.length := by rw [← hil]; simpa using congrArg List.length r2
    have hol : others'.length = rows.length := by rw [← hil]; simpa using congrArg List.length o2
    refine .inl ⟨rows', others', r1, o1, ?_, hrl, hol, ?_⟩
    · rw [h, Outcome.bind_ok, apply_shuffled ht h r2 hn hf]
      simp only
      rw [apply_shuffled ht (l := others) (by rw [ho]; exact h) o2 (by omega) (by omega)]
      rfl
    · refine perm_of_get (idx := idx) (by simpa [ho] using hp) (by simp; omega) (fun i p hip => ?_)
      have hpl : p < rows.length := by
        have := (mem_identity.mp (hp.mem_iff.mp (List.mem_of_getElem? hip))).2; omega
      have hil' : i < rows.length := by
        by_contra hc; rw [List.getElem?_eq_none (by omega)] at hip; simp at hip
      have hr := congrArg (fun z => z[i]?) r2
      have ho' := congrArg (fun z => z[i]?) o2
      simp only [List.getElem?_map, hip, Option.map_some, Int.toNat_natCast] at hr ho'
      rw [List.getElem?_eq_getElem (by omega)] at hr ho'
      simp only [Option.map_some, Option.some.injEq] at hr ho'
      simp only [List.zip, List.getElem?_zipWith, ← hr, ← ho']
      rw [List.getElem?_eq_getElem (by omega : i < rows'.length), List.getElem?_eq_getElem (by omega : i < others'.length)]
  · replace h : ShuffleDist.shuffle t dist (identity rows.length) = .ub := h
    exact .inr ⟨a2 h, b2 h, by rw [h]; rfl⟩

/-- Non-vacuity of `C139_same`: draws 0 and 1, and a draw which is out of bounds. -/
example : shuffleBoth ⟨8, false⟩ ⟨32, true⟩ (fun k _ => if k = 2 then 0 else 1) [1, 2, 3] ["one", "two", "three"] [9, 9, 9] 4 =
      .ok (some (.done, [3, 2, 1], ["three", "two", "one"])) ∧
    shuffleBoth ⟨8, false⟩ ⟨32, true⟩ (fun _ _ => 7) [1, 2, 3] ["one", "two", "three"] [9, 9, 9] 4 = .ub := by
  refine ⟨by decide +kernel, by decide +kernel⟩

/-- C139: with a distribution over a type which is wide enough, the program always succeeds, and every order of the rows comes from exactly one sequence of
random numbers, so that all orders are equally likely. -/
theorem C139_uniform (ty : IntTy) (ht : StdWidth ty) (t : IntTy) (htd : StdWidth t) (rows : List α) (others : List β)
    (ho : others.length = rows.length) (indices : List Int) (hi : indices.length = rows.length) (hn : (rows.length : Int) ≤ ty.maxVal)
    (hd : (rows.length : Int) ≤ t.maxVal + 1) (hl : rows.length ≤ 2 ^ 63) (fuel : Nat) (hf : rows.length < fuel) :
    (∀ dist, UniformDraws dist → ∃ rows' others', shuffleBoth ty t dist rows others indices fuel = .ok (some (.done, rows', others')) ∧ rows'.Perm rows) ∧
    (rows.Nodup → ∀ d d', UniformDraws d → UniformDraws d' → ∀ rows' others' others'',
      shuffleBoth ty t d rows others indices fuel = .ok (some (.done, rows', others')) →
      shuffleBoth ty t d' rows others indices fuel = .ok (some (.done, rows', others'')) → ∀ k : Nat, 1 ≤ k → k < rows.length → d k k = d' k k) ∧
    (∀ rows', rows'.Perm rows → ∃ dist, UniformDraws dist ∧
      ∃ others', shuffleBoth ty t dist rows others indices fuel = .ok (some (.done, rows', others'))) := by
  obtain ⟨h1, h2, h3⟩ := C116_wide htd rows hd hl
  have hs := fun dist => C139_same ty ht t dist rows others ho indices hi hn fuel hf
  refine ⟨fun dist hu => ?_, fun hnd d d' hu hu' rows' o o' e e' => ?_, fun rows' hp => ?_⟩
  · obtain ⟨l', k1, k2⟩ := h1 dist hu
    rcases hs dist with ⟨r, o, a, b, c, -⟩ | ⟨a, -⟩
    · rw [k1, Outcome.ok.injEq] at a; subst a
      exact ⟨l', o, c, k2⟩
    · rw [k1] at a; simp at a
  · refine h2 hnd d d' hu hu' ?_
    rcases hs d with ⟨r, o1, a, b, c, -⟩ | ⟨-, -, c⟩
    · rw [e] at c
      rcases hs d' with ⟨r', o2, a', b', c', -⟩ | ⟨-, -, c'⟩
      · rw [e'] at c'
        simp only [Outcome.ok.injEq, Option.some.injEq, Prod.mk.injEq, true_and] at c c'
        rw [a, a', ← c.1, ← c'.1]
      · rw [e'] at c'; simp at c'
    · rw [e] at c; simp at c
  · obtain ⟨dist, hu, hd⟩ := h3 rows' hp
    rcases hs dist with ⟨r, o, a, b, c, -⟩ | ⟨a, -⟩
    · rw [hd, Outcome.ok.injEq] at a; subst a
      exact ⟨dist, hu, o, c⟩
    · rw [hd] at a; simp at a

/-- Non-vacuity of `C139_uniform`: a distribution whose values are within the bounds. -/
example : UniformDraws (fun _ b => b / 2) ∧ (4 : Int) ≤ (⟨8, false⟩ : IntTy).maxVal ∧
    shuffleBoth ⟨8, false⟩ ⟨32, true⟩ (fun _ b => b / 2) [1, 2, 3, 4] ["a", "b", "c", "d"] [9, 9, 9, 9] 5 =
      .ok (some (.done, [3, 1, 4, 2], ["c", "a", "d", "b"])) := by
  refine ⟨fun k b hb => ⟨by simp only; omega, by simp only; omega⟩, by decide, by decide +kernel⟩

/-- C139: with one row more than the largest value of an unsigned index type, or of one which is narrower than `int`, nothing is shuffled, whatever the random
numbers are, and nothing reports this. -/
theorem C139_one_too_many (ty : IntTy) (ht : StdWidth ty) (hu : ty.signed = false ∨ ty.bits < 32) (t : IntTy) (dist : Nat → Int → Int)
    (rows : List α) (others : List β) (ho : others.length = rows.length) (indices : List Int) (hi : indices.length = rows.length)
    (hn : (rows.length : Int) = ty.maxVal + 1) (fuel : Nat) :
    shuffleBoth ty t dist rows others indices (fuel + 1) = .ok (some (.done, rows, others)) ∨
    (ShuffleDist.shuffle t dist rows = .ub ∧ shuffleBoth ty t dist rows others indices (fuel + 1) = .ub) := by
  have hmin := minVal_nonpos ty
  have h0 : 0 ≤ ty.maxVal := by
    obtain ⟨b, s⟩ := ty
    cases s <;> rcases ht with h' | h' | h' | h' <;> simp only at h' <;> subst h' <;> decide
  have hio : rangeIota ty.inc id indices 0 = .ok (identity rows.length) := by
    rw [C34_iota_wraps ht hu id indices 0 ⟨hmin, by omega⟩]
    congr 1
    rw [hi]
    unfold identity
    refine List.map_congr_left fun i hi => ?_
    have := List.mem_range.mp hi
    simp only [id, Int.zero_add, Int.ofNat_eq_natCast]
    exact wrap_id ht ⟨by omega, by omega⟩
  rw [shuffleBoth, shuffleIndices, hio, Outcome.bind_ok]
  rcases shuffleLoop_ends t dist ((identity rows.length).length - 1) (identity rows.length) with ⟨idx, h⟩ | h
  · replace h : ShuffleDist.shuffle t dist (identity rows.length) = .ok idx := h
    have hp : IsPermutation idx rows.length := shuffleLoop_perm t dist _ _ _ h
    have hr : ∀ x ∈ idx, ty.InRange x := fun x hx => by
      have := mem_identity.mp (hp.mem_iff.mp hx)
      exact ⟨by omega, by omega⟩
    left
    rw [h, Outcome.bind_ok, (C73_one_too_many ty ht rows idx hp hr (by omega) fuel).2.1]
    simp only
    rw [(C73_one_too_many ty ht others idx (by rw [ho]; exact hp) hr (by omega) fuel).2.1]
    rfl
  · replace h : ShuffleDist.shuffle t dist (identity rows.length) = .ub := h
    exact .inr ⟨(shuffle_positions t dist rows).2 h, by rw [h]; rfl⟩

/-- Non-vacuity of `C139_one_too_many`. -/
example : ((List.range 256).length : Int) = (⟨8, false⟩ : IntTy).maxVal + 1 := by
  rw [List.length_range]; decide

/-- C139: a copy of the shuffled indices restores the rows. -/
theorem C139_undo (ty : IntTy) (ht : StdWidth ty) (t : IntTy) (dist : Nat → Int → Int) (rows : List α) (indices : List Int)
    (hi : indices.length = rows.length) (hn : (rows.length : Int) ≤ ty.maxVal) (fuel : Nat) (hf : rows.length < fuel) (rows' : List α)
    (h : ShuffleDist.shuffle t dist rows = .ok rows') :
    ∃ idx, shuffleIndices ty t dist indices = .ok idx ∧
      PermInt.applyPermutation ty fuel ⟨rows, idx⟩ = some (.done, ⟨rows', (List.range rows.length).map Int.ofNat⟩) ∧
      PermInt.applyReversePermutation ty fuel ⟨rows', idx⟩ = some (.done, ⟨rows, (List.range rows.length).map Int.ofNat⟩) := by
  obtain ⟨a1, a2⟩ := shuffle_positions t dist rows
  rw [shuffleIndices, iota_identity ht indices (by omega), Outcome.bind_ok, hi]
  rcases shuffleLoop_ends t dist ((identity rows.length).length - 1) (identity rows.length) with ⟨idx, hx⟩ | hx
  · replace hx : ShuffleDist.shuffle t dist (identity rows.length) = .ok idx := hx
    obtain ⟨r, r1, r2⟩ := a1 idx hx
    rw [h, Outcome.ok.injEq] at r1; subst r1
    have hp : IsPermutation idx rows.length := shuffleLoop_perm t dist _ _ _ hx
    have h1 := apply_shuffled ht hx r2 hn hf
    refine ⟨idx, hx, h1, ?_⟩
    rw [(C73_exact ty ht ⟨rows, idx⟩ hn fuel hf).1, Option.some.injEq] at h1
    have hl : rows'.length = rows.length := (shuffleLoop_perm t dist _ _ _ h).length_eq
    rw [(C73_exact ty ht ⟨rows', idx⟩ (by simp only; omega) fuel (by simp only; omega)).2]
    obtain ⟨e, k1, k2, k3⟩ := C22_apply_reverse_permutation rows' idx (by rw [hl]; exact hp)
    have := (C24_cancel rows idx hp).1
    rw [h1] at this
    simp only [k1] at this
    rw [k1, this, hl]
  · replace hx : ShuffleDist.shuffle t dist (identity rows.length) = .ub := hx
    rw [a2 hx] at h; simp at h

/-- Non-vacuity of `C139_undo`. -/
example : ShuffleDist.shuffle ⟨32, true⟩ (fun _ b => b / 2) [1, 2, 3, 4] = .ok [3, 1, 4, 2] := by decide +kernel

end Makeshift.Props
