import Verif.Model.PermutationAlias
import Verif.Props.Permutation
import Mathlib.Data.Nat.Find

/-!
# C113: permuting a range which contains its own index array
-/

namespace Makeshift.Props

open Makeshift PermAlias

variable {α : Type}

private theorem pa_set_same (rows : List (α × Int)) (p : Nat) (v : Int) (h : index rows p = some v) : setIndex rows p v = rows := by
  apply List.ext_getElem?
  intro k
  simp only [setIndex, List.getElem?_modify]
  split
  · rename_i e
    subst e
    simp only [index, Option.map_eq_some_iff] at h
    obtain ⟨r, hr, rfl⟩ := h
    simp [hr]
  · simp

private theorem pa_fixed (length i fuel : Nat) (rows : List (α × Int)) (h : index rows i = some (i : Int)) :
    permInner length i (fuel + 1) i rows = some (.done, rows) ∧ revInner length i (fuel + 1) rows = some (.done, rows) := by
  simp [permInner, revInner, h, pa_set_same rows i i h]

/-- The first position whose index is not the position itself: all before are skipped. -/
private theorem pa_prefix (length fuel : Nat) (rows : List (α × Int)) : ∀ (m i k : Nat), k ≤ m →
    (∀ j, i ≤ j → j < i + k → index rows j = some (j : Int)) →
    permOuter length (fuel + 1) m i rows = permOuter length (fuel + 1) (m - k) (i + k) rows ∧
    revOuter length (fuel + 1) m i rows = revOuter length (fuel + 1) (m - k) (i + k) rows := by
  intro m i k
  induction k generalizing m i with
  | zero => simp
  | succ k ih =>
    intro hk h
    obtain ⟨m, rfl⟩ : ∃ n, m = n + 1 := ⟨m - 1, by omega⟩
    have h0 := pa_fixed length i fuel rows (h i (by omega) (by omega))
    have := ih m (i + 1) (by omega) (fun j h1 h2 => h j (by omega) (by omega))
    simp only [permOuter, revOuter, h0.1, h0.2]
    rw [show m + 1 - (k + 1) = m - k by omega, show i + (k + 1) = i + 1 + k by omega]
    exact this

private theorem pa_first (rows : List (α × Int)) :
    (∀ j, j < rows.length → index rows j = some (j : Int)) ∨
    ∃ i x, i < rows.length ∧ (∀ j, j < i → index rows j = some (j : Int)) ∧ index rows i = some x ∧ x ≠ (i : Int) := by
  by_cases h : ∃ i, i < rows.length ∧ index rows i ≠ some (i : Int)
  · right
    classical
    have hs := Nat.find_spec h
    obtain ⟨x, hx⟩ : ∃ x, index rows (Nat.find h) = some x := by
      obtain ⟨r, hr⟩ : ∃ r, rows[Nat.find h]? = some r := ⟨_, List.getElem?_eq_getElem hs.1⟩
      exact ⟨r.2, by rw [index, hr]; rfl⟩
    refine ⟨Nat.find h, x, hs.1, fun j hj => ?_, hx, fun e => hs.2 (by rw [hx, e])⟩
    have := Nat.find_min h hj
    by_contra hc
    exact this ⟨by omega, hc⟩
  · left
    intro j hj
    by_contra hc
    exact h ⟨j, hj, hc⟩

private theorem pa_identity (rows : List (α × Int)) :
    rows.map Prod.snd = (List.range rows.length).map Int.ofNat ↔ ∀ j, j < rows.length → index rows j = some (j : Int) := by
  constructor
  · intro h j hj
    have := congrArg (·[j]?) h
    simpa [index, List.getElem?_map, hj] using this
  · intro h
    apply List.ext_getElem?
    intro j
    by_cases hj : j < rows.length
    · have := h j hj
      simp only [index, List.getElem?_eq_getElem hj, Option.map_some, Option.some.injEq] at this
      simp [hj, this]
    · simp [hj]

private theorem pa_index_set (rows : List (α × Int)) (p k : Nat) (v : Int) (hp : p < rows.length) :
    index (setIndex rows p v) k = if k = p then some v else index rows k := by
  simp only [index, setIndex, List.getElem?_modify]
  by_cases h : k = p
  · subst h; simp [hp]
  · have h' : ¬ p = k := fun e => h e.symm
    simp [h, h']

private theorem pa_set_fst (rows : List (α × Int)) (p : Nat) (v : Int) : (setIndex rows p v).map Prod.fst = rows.map Prod.fst := by
  apply List.ext_getElem?
  intro k
  simp only [setIndex, List.getElem?_map, List.getElem?_modify]
  split <;> cases rows[k]? <;> rfl

private theorem pa_set_length (rows : List (α × Int)) (p : Nat) (v : Int) : (setIndex rows p v).length = rows.length := by simp [setIndex]

private theorem pa_lt {rows : List (α × Int)} {k : Nat} {x : Int} (h : index rows k = some x) : k < rows.length := by
  by_contra hc
  simp [index, List.getElem?_eq_none (show rows.length ≤ k by omega)] at h

/-- Full claim (false): `apply_permutation` permutes the elements also if the index array is part of them, e.g. a column of the SoA span which is
permuted.  It does so only if there is nothing to permute; otherwise, even with a valid permutation, it fails fast, after at most one swap.  In
particular an index array cannot be applied to itself. -/
theorem C113_forward_partial (rows : List (α × Int)) (fuel : Nat) (hf : 2 ≤ fuel) :
    (rows.map Prod.snd = (List.range rows.length).map Int.ofNat → PermAlias.applyPermutation fuel rows = some (.done, rows)) ∧
    (rows.map Prod.snd ≠ (List.range rows.length).map Int.ofNat →
      ∃ rows', PermAlias.applyPermutation fuel rows = some (.failFast, rows') ∧
        (rows'.map Prod.fst = rows.map Prod.fst ∨ ∃ a b, swapAt (rows.map Prod.fst) a b = some (rows'.map Prod.fst))) := by
  obtain ⟨fuel, rfl⟩ : ∃ g, fuel = g + 2 := ⟨fuel - 2, by omega⟩
  rw [pa_identity, ne_eq, pa_identity]
  constructor
  · intro h
    have := (pa_prefix rows.length (fuel + 1) rows rows.length 0 rows.length (by omega) (fun j _ hj => h j (by omega))).1
    simpa [PermAlias.applyPermutation, permOuter] using this
  · intro h
    rcases pa_first rows with h' | ⟨i, x, hi, hp, hx, hne⟩
    · exact absurd h' h
    have h1 := (pa_prefix rows.length (fuel + 1) rows rows.length 0 i (by omega) (fun j _ hj => hp j (by omega))).1
    obtain ⟨m, hm⟩ : ∃ m, rows.length - i = m + 1 := ⟨rows.length - i - 1, by omega⟩
    simp only [PermAlias.applyPermutation, h1, hm, Nat.zero_add, permOuter]
    simp only [permInner, hx, if_neg hne]
    by_cases hr : x < 0 ∨ x ≥ (rows.length : Int) ∨ x = (i : Int)
    · simp only [if_pos hr]
      exact ⟨_, rfl, .inl (pa_set_fst _ _ _)⟩
    · simp only [if_neg hr]
      obtain ⟨n, rfl⟩ : ∃ n : Nat, x = n := ⟨x.toNat, by omega⟩
      obtain ⟨l, hl⟩ := swapAt_isSome rows hi (show n < rows.length by omega)
      have hlen := swapAt_length hl
      have hidx : index l n = some (n : Int) := by
        simp only [index, swapAt_get hl n]
        have : n ≠ i := by omega
        simpa [this, index] using hx
      simp only [Int.toNat_natCast, hl]
      have h2 : index (setIndex l i (i : Int)) n = some (n : Int) := by
        rw [pa_index_set _ _ _ _ (by omega), if_neg (by omega), hidx]
      simp only [h2]
      rw [if_neg hne, if_pos (Or.inr (Or.inr trivial))]
      refine ⟨_, rfl, .inr ⟨i, n, ?_⟩⟩
      rw [pa_set_fst, pa_set_fst]
      obtain ⟨a, b, ha, hb, rfl⟩ := swapAt_some hl
      simp [swapAt, List.getElem?_map, ha, hb, List.map_set]

private theorem pa_rev_any (i x : Nat) (hxi : x ≠ i) (y : Int) (hxy : y ≠ x) : ∀ (fuel : Nat) (rows : List (α × Int)), x < rows.length →
    index rows i = some (x : Int) → index rows x = some y → revInner rows.length i fuel rows = none := by
  intro fuel
  induction fuel with
  | zero => intros; rfl
  | succ fuel ih =>
    intro rows hl hi hx
    have hil := pa_lt hi
    obtain ⟨l, hs⟩ := swapAt_isSome rows hil hl
    have hlen := swapAt_length hs
    have h1 : index l i = some y := by
      simp only [index, swapAt_get hs i, if_true]; exact hx
    have h2 : index l x = some (x : Int) := by
      simp only [index, swapAt_get hs x, if_neg hxi, if_true]; exact hi
    simp only [revInner, hi]
    rw [if_neg (by omega), if_neg (by omega)]
    simp only [Int.toNat_natCast, hx]
    rw [if_neg (fun e => hxy e.symm)]
    simp only [hs, Option.bind_some, swapIndices, h1, h2]
    have hlen2 : (setIndex (setIndex l i (x : Int)) x y).length = rows.length := by rw [pa_set_length, pa_set_length, hlen]
    rw [← hlen2]
    refine ih _ (by omega) ?_ ?_
    · rw [pa_index_set _ _ _ _ (by rw [pa_set_length]; omega), if_neg (fun e => hxi e.symm), pa_index_set _ _ _ _ (by omega), if_pos rfl]
    · rw [pa_index_set _ _ _ _ (by rw [pa_set_length]; omega), if_pos rfl]

/-- Full claim (false): the same for `apply_reverse_permutation`.  It returns if there is nothing to permute.  Otherwise it does not: with a valid
permutation, it swaps the same two elements for ever. -/
theorem C113_reverse_partial (rows : List (α × Int)) (h : IsPermutation (rows.map Prod.snd) rows.length) :
    (rows.map Prod.snd = (List.range rows.length).map Int.ofNat → ∀ fuel, 1 ≤ fuel → PermAlias.applyReversePermutation fuel rows = some (.done, rows)) ∧
    (rows.map Prod.snd ≠ (List.range rows.length).map Int.ofNat → ∀ fuel, PermAlias.applyReversePermutation fuel rows = none) := by
  rw [pa_identity, ne_eq, pa_identity]
  constructor
  · intro h fuel hf
    obtain ⟨fuel, rfl⟩ : ∃ g, fuel = g + 1 := ⟨fuel - 1, by omega⟩
    have := (pa_prefix rows.length fuel rows rows.length 0 rows.length (by omega) (fun j _ hj => h j (by omega))).2
    simpa [PermAlias.applyReversePermutation, revOuter] using this
  · intro hn fuel
    rcases pa_first rows with h' | ⟨i, x, hi, hp, hx, hne⟩
    · exact absurd h' hn
    have hmem : ∀ k v, index rows k = some v → 0 ≤ v ∧ v < rows.length := by
      intro k v hv
      have : v ∈ rows.map Prod.snd := by
        simp only [index, Option.map_eq_some_iff] at hv
        obtain ⟨r, hr, rfl⟩ := hv
        exact List.mem_map_of_mem (List.mem_of_getElem? hr)
      have := h.mem_iff.mp this
      simp only [List.mem_map, List.mem_range] at this
      obtain ⟨a, ha, rfl⟩ := this
      simp only [Int.ofNat_eq_natCast]
      omega
    have hnd : (rows.map Prod.snd).Nodup := by
      rw [h.nodup_iff]
      exact (List.nodup_range).map (fun a b => Int.ofNat.inj)
    obtain ⟨n, rfl⟩ : ∃ n : Nat, x = n := ⟨x.toNat, by have := hmem _ _ hx; omega⟩
    have hnl : n < rows.length := by have := hmem _ _ hx; omega
    obtain ⟨y, hy⟩ : ∃ y, index rows n = some y := by simp [index, hnl]
    obtain ⟨y, rfl⟩ : ∃ k : Nat, y = k := ⟨y.toNat, by have := hmem _ _ hy; omega⟩
    have hni : n ≠ i := by omega
    have hyn : y ≠ n := by
      rintro rfl
      refine hni (nodup_get_inj hnd (a := y) (b := i) (x := (y : Int)) ?_ ?_)
      · simpa [index, List.getElem?_map] using hy
      · simpa [index, List.getElem?_map] using hx
    cases fuel with
    | zero =>
      obtain ⟨m, hm⟩ : ∃ m, rows.length = m + 1 := ⟨rows.length - 1, by omega⟩
      simp only [PermAlias.applyReversePermutation, hm, revOuter, revInner]
    | succ fuel =>
      have h1 := (pa_prefix rows.length fuel rows rows.length 0 i (by omega) (fun j _ hj => hp j (by omega))).2
      obtain ⟨m, hm⟩ : ∃ m, rows.length - i = m + 1 := ⟨rows.length - i - 1, by omega⟩
      simp only [PermAlias.applyReversePermutation, h1, hm, Nat.zero_add, revOuter, pa_rev_any i n hni y (by omega) (fuel + 1) rows hnl hx hy]

/-- What `apply_reverse_permutation` does with any indices, valid or not, is settled at the first position `i` whose index `x` is another one: it fails fast
with everything unchanged if `x` is not a position, or is a position which holds its own number; otherwise it never returns. -/
theorem C113_reverse_any (rows : List (α × Int)) {i : Nat} {x : Int} (hi : (rows.map Prod.snd)[i]? = some x) (hx : x ≠ i)
    (hp : ∀ j, j < i → (rows.map Prod.snd)[j]? = some (j : Int)) :
    ((x < 0 ∨ rows.length ≤ x ∨ (rows.map Prod.snd)[x.toNat]? = some x) →
      ∀ fuel, 1 ≤ fuel → PermAlias.applyReversePermutation fuel rows = some (.failFast, rows)) ∧
    (¬ (x < 0 ∨ rows.length ≤ x ∨ (rows.map Prod.snd)[x.toNat]? = some x) → ∀ fuel, PermAlias.applyReversePermutation fuel rows = none) := by
  have hidx : ∀ k, index rows k = (rows.map Prod.snd)[k]? := fun k => by simp [index, List.getElem?_map]
  rw [← hidx] at hi ⊢
  have hil := pa_lt hi
  obtain ⟨m, hm⟩ : ∃ m, rows.length - i = m + 1 := ⟨rows.length - i - 1, by omega⟩
  have hpre : ∀ fuel, PermAlias.applyReversePermutation (fuel + 1) rows = revOuter rows.length (fuel + 1) (m + 1) i rows := by
    intro fuel
    have h1 := (pa_prefix rows.length fuel rows rows.length 0 i (by omega) (fun j _ hj => by rw [hidx]; exact hp j (by omega))).2
    rw [PermAlias.applyReversePermutation, h1, hm, Nat.zero_add]
  constructor
  · intro hbad fuel hf
    obtain ⟨fuel, rfl⟩ : ∃ g, fuel = g + 1 := ⟨fuel - 1, by omega⟩
    have : revInner rows.length i (fuel + 1) rows = some (.failFast, rows) := by
      simp only [revInner, hi, if_neg hx]
      by_cases hr : x < 0 ∨ x ≥ (rows.length : Int)
      · rw [if_pos hr]
      · rw [if_neg hr]
        rcases hbad with h | h | h
        · omega
        · omega
        · simp [h]
    simp only [hpre, revOuter, this]
  · intro hok fuel
    push Not at hok
    obtain ⟨n, rfl⟩ : ∃ n : Nat, x = n := ⟨x.toNat, by omega⟩
    obtain ⟨y, hy⟩ : ∃ y, index rows n = some y := by
      have : n < rows.length := by omega
      simp [index, this]
    have hyn : y ≠ n := by
      rintro rfl
      exact hok.2.2 (by simpa using hy)
    cases fuel with
    | zero =>
      obtain ⟨k, hk⟩ : ∃ k, rows.length = k + 1 := ⟨rows.length - 1, by omega⟩
      simp only [PermAlias.applyReversePermutation, hk, revOuter, revInner]
    | succ fuel =>
      simp only [hpre, revOuter, pa_rev_any i n (by omega) y hyn (fuel + 1) rows (by omega) hi hy]

/-- Indices which are not a permutation: the second element is named twice, or an index is too large. -/
example : PermAlias.applyReversePermutation 1 [(10, 1), (11, 1)] = some (.failFast, [(10, 1), (11, 1)]) := by decide
example : PermAlias.applyReversePermutation 1 [(10, 0), (11, 2)] = some (.failFast, [(10, 0), (11, 2)]) := by decide
example : ([((10 : Nat), (1 : Int)), (11, 1)].map Prod.snd)[0]? = some 1 ∧ ([((10 : Nat), (1 : Int)), (11, 1)].map Prod.snd)[(1 : Int).toNat]? = some 1 := by decide
/-- The index of the element named is invalid, but is not looked at. -/
example : PermAlias.applyReversePermutation 7 [(10, 1), (11, 5)] = none := by decide

/-- A span whose second column is the index array: fails fast, or does not return, although the indices are a permutation. -/
example : IsPermutation ([(10, 1), (11, 2), (12, 0)].map (Prod.snd : Nat × Int → Int)) 3 ∧
    PermAlias.applyPermutation 9 [(10, 1), (11, 2), (12, 0)] = some (.failFast, [(11, 1), (10, 1), (12, 0)]) ∧
    PermAlias.applyReversePermutation 9 [(10, 1), (11, 2), (12, 0)] = none := by
  refine ⟨?_, by decide, by decide⟩
  unfold IsPermutation; decide

/-- Hence the claim is false already for two elements. -/
theorem C113_negated :
    (¬ ∀ rows : List (Nat × Int), IsPermutation (rows.map Prod.snd) rows.length → ∃ fuel rows', PermAlias.applyPermutation fuel rows = some (.done, rows')) ∧
    ¬ ∀ rows : List (Nat × Int), IsPermutation (rows.map Prod.snd) rows.length →
      ∃ fuel rows', PermAlias.applyReversePermutation fuel rows = some (.done, rows') := by
  have hp : IsPermutation ([(10, 1), (11, 0)].map (Prod.snd : Nat × Int → Int)) 2 := by unfold IsPermutation; decide
  constructor
  · intro h
    obtain ⟨fuel, rows', hr⟩ := h _ hp
    rcases Nat.lt_or_ge fuel 2 with hf | hf
    · obtain rfl | rfl : fuel = 0 ∨ fuel = 1 := by omega
      · cases hr
      · exact absurd hr (by simp [PermAlias.applyPermutation, permOuter, permInner, index, swapAt])
    · obtain ⟨r, h1, -⟩ := (C113_forward_partial [(10, 1), (11, 0)] fuel hf).2 (by decide)
      rw [h1] at hr
      cases hr
  · intro h
    obtain ⟨fuel, rows', hr⟩ := h _ hp
    rw [(C113_reverse_partial [(10, 1), (11, 0)] hp).2 (by decide) fuel] at hr
    cases hr

end Makeshift.Props
