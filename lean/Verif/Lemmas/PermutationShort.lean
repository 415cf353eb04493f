import Verif.Lemmas.PermutationOver
import Verif.Lemmas.Permutation
import Verif.Lemmas.PermutationThrow

/-! Helper lemmas for the permutation algorithms where the number of indices, or the length after its conversion, differs from the number of elements. -/

namespace Makeshift

variable {α : Type}

theorem swapAt_append {l l' r : List α} {a b : Nat} (h : swapAt l a b = some l') : swapAt (l ++ r) a b = some (l' ++ r) := by
  obtain ⟨x, y, hx, hy, rfl⟩ := swapAt_some h
  have ha : a < l.length := by by_contra hc; rw [List.getElem?_eq_none (by omega)] at hx; simp at hx
  have hb : b < l.length := by by_contra hc; rw [List.getElem?_eq_none (by omega)] at hy; simp at hy
  unfold swapAt
  rw [List.getElem?_append_left ha, List.getElem?_append_left hb, hx, hy]
  simp only [Option.some.injEq]
  rw [List.set_append_left _ _ ha, List.set_append_left _ _ (by simpa using hb)]

/-- A run whose indices stay below `m` does not touch the elements from `m` on. -/
theorem applyPermInner_append (m L i : Nat) (hmL : m ≤ L) (r : List α) (N : Nat) :
    ∀ (cur : Nat) (e : List α) (idx : List Int), nonFixedFrom 0 idx ≤ N → e.length = m → cur < m → (∀ x ∈ idx, x < L → x < m) →
      applyPermInner L i cur ⟨e ++ r, idx⟩ =
        ((applyPermInner m i cur ⟨e, idx⟩).1, ⟨(applyPermInner m i cur ⟨e, idx⟩).2.elems ++ r, (applyPermInner m i cur ⟨e, idx⟩).2.idx⟩) ∧
      (applyPermInner m i cur ⟨e, idx⟩).2.elems.length = m ∧
      ((applyPermInner m i cur ⟨e, idx⟩).1 = .done → ∀ x ∈ (applyPermInner m i cur ⟨e, idx⟩).2.idx, x < L → x < m) := by
  induction N using Nat.strongRecOn with
  | ind N ih =>
    intro cur e idx hN he hc hx
    have hset : ∀ x ∈ idx.set cur (cur : Int), x < L → x < m := by
      intro x hm hxL
      rcases List.mem_or_eq_of_mem_set hm with h | h
      · exact hx x h hxL
      · omega
    rw [applyPermInner_eq L, applyPermInner_eq m]
    simp only
    cases hg : idx[cur]? with
    | none => simp only; exact ⟨by trivial, he, by simp⟩
    | some next =>
      simp only
      have hnm := hx next (List.mem_of_getElem? hg)
      by_cases h1 : next = (i : Int)
      · rw [if_pos h1, if_pos h1]
        exact ⟨rfl, he, fun _ => hset⟩
      · rw [if_neg h1, if_neg h1]
        by_cases h2 : next < 0 ∨ next ≥ (m : Int) ∨ next = (cur : Int)
        · rw [if_pos (by omega), if_pos h2]
          exact ⟨rfl, he, by simp⟩
        · rw [if_neg (by omega), if_neg h2]
          obtain ⟨e', he'⟩ := swapAt_isSome e (a := cur) (b := next.toNat) (by omega) (by omega)
          rw [he', swapAt_append he']
          simp only
          exact ih _ (Nat.lt_of_lt_of_le (perm_measure hg (by omega)) hN) _ _ _ (Nat.le_refl _) (by rw [swapAt_length he', he]) (by omega) hset

theorem applyPermOuter_append (m L : Nat) (hmL : m ≤ L) (r : List α) (k : Nat) :
    ∀ (i : Nat) (e : List α) (idx : List Int), e.length = m → i + k ≤ m → (∀ x ∈ idx, x < L → x < m) →
      applyPermOuter L k i ⟨e ++ r, idx⟩ =
        ((applyPermOuter m k i ⟨e, idx⟩).1, ⟨(applyPermOuter m k i ⟨e, idx⟩).2.elems ++ r, (applyPermOuter m k i ⟨e, idx⟩).2.idx⟩) ∧
      (applyPermOuter m k i ⟨e, idx⟩).2.elems.length = m := by
  induction k with
  | zero => intro i e idx he _ _; exact ⟨rfl, he⟩
  | succ k ih =>
    intro i e idx he hk hx
    obtain ⟨h1, h2, h3⟩ := applyPermInner_append m L i hmL r _ i e idx (Nat.le_refl _) he (by omega) hx
    simp only [applyPermOuter]
    rw [h1]
    rcases hr : applyPermInner m i i ⟨e, idx⟩ with ⟨en, ⟨e', idx'⟩⟩
    rw [hr] at h2 h3
    cases en with
    | done => simp only; exact ih (i + 1) e' idx' h2 (by omega) (h3 rfl)
    | failFast => exact ⟨rfl, h2⟩
    | ub => exact ⟨rfl, h2⟩

theorem applyPermOuter_add (L a b i : Nat) (s : PermState α) :
    applyPermOuter L (a + b) i s =
      match applyPermOuter L a i s with
      | (.done, s) => applyPermOuter L b (i + a) s
      | r => r := by
  induction a generalizing i s with
  | zero => simp [applyPermOuter]
  | succ a ih =>
    rw [show a + 1 + b = (a + b) + 1 by omega]
    simp only [applyPermOuter]
    rcases hr : applyPermInner L i i s with ⟨en, s'⟩
    cases en with
    | done => simp only; rw [ih, show i + 1 + a = i + (a + 1) by omega]
    | failFast => rfl
    | ub => rfl

theorem applyPermInner_idx_length (L i : Nat) (N : Nat) :
    ∀ (cur : Nat) (s : PermState α), nonFixedFrom 0 s.idx ≤ N → (applyPermInner L i cur s).2.idx.length = s.idx.length := by
  induction N using Nat.strongRecOn with
  | ind N ih =>
    intro cur s hN
    rw [applyPermInner_eq]
    cases hg : s.idx[cur]? with
    | none => rfl
    | some next =>
      simp only
      split
      · simp
      · split
        · simp
        · cases hs : swapAt s.elems cur next.toNat with
          | none => rfl
          | some e =>
            simp only
            rw [ih _ (Nat.lt_of_lt_of_le (perm_measure hg (by omega)) hN) next.toNat ⟨e, s.idx.set cur cur⟩ (Nat.le_refl _)]
            simp

theorem applyPermOuter_short (L k : Nat) : ∀ (i : Nat) (s : PermState α), i ≤ s.idx.length → s.idx.length < i + k → (applyPermOuter L k i s).1 ≠ .done := by
  induction k with
  | zero => intro i s h1 h2; omega
  | succ k ih =>
    intro i s h1 h2
    simp only [applyPermOuter]
    by_cases hi : i = s.idx.length
    · have : applyPermInner L i i s = (.ub, s) := by
        rw [applyPermInner_eq, List.getElem?_eq_none (by omega)]
      rw [this]; simp
    · have hlen := applyPermInner_idx_length L i _ i s (Nat.le_refl _)
      rcases hr : applyPermInner L i i s with ⟨en, s'⟩
      rw [hr] at hlen
      simp only at hlen
      cases en with
      | done => exact ih (i + 1) s' (by omega) (by omega)
      | failFast => simp
      | ub => simp

/-! ## the reverse permutation -/

theorem applyRevInner_append (m L i : Nat) (hmL : m ≤ L) (r : List α) (hi : i < m) (N : Nat) :
    ∀ (e : List α) (idx : List Int), nonFixedFrom 0 idx ≤ N → e.length = m → idx.length = m → (∀ x ∈ idx, x < L → x < m) →
      applyRevInner L i ⟨e ++ r, idx⟩ =
        ((applyRevInner m i ⟨e, idx⟩).1, ⟨(applyRevInner m i ⟨e, idx⟩).2.elems ++ r, (applyRevInner m i ⟨e, idx⟩).2.idx⟩) ∧
      (applyRevInner m i ⟨e, idx⟩).2.elems.length = m ∧ (applyRevInner m i ⟨e, idx⟩).2.idx.length = m ∧
      (∀ x ∈ (applyRevInner m i ⟨e, idx⟩).2.idx, x < L → x < m) := by
  induction N using Nat.strongRecOn with
  | ind N ih =>
    intro e idx hN he hlen hx
    rw [applyRevInner_eq L, applyRevInner_eq m]
    simp only
    cases hg : idx[i]? with
    | none => simp only; exact ⟨by trivial, he, hlen, hx⟩
    | some next =>
      simp only
      have hnm := hx next (List.mem_of_getElem? hg)
      by_cases h1 : next = (i : Int)
      · rw [if_pos h1, if_pos h1]
        exact ⟨rfl, he, hlen, hx⟩
      · rw [if_neg h1, if_neg h1]
        by_cases h2 : next < 0 ∨ next ≥ (m : Int)
        · rw [if_pos (by omega), if_pos h2]
          exact ⟨rfl, he, hlen, hx⟩
        · rw [if_neg (by omega), if_neg h2]
          have hn' : next.toNat < idx.length := by omega
          have hgn := List.getElem?_eq_getElem hn'
          have hnn := hx _ (List.getElem_mem hn')
          generalize idx[next.toNat] = nn at hgn hnn
          rw [hgn]
          simp only
          by_cases h3 : next = nn
          · rw [if_pos h3, if_pos h3]
            exact ⟨rfl, he, hlen, hx⟩
          · rw [if_neg h3, if_neg h3]
            obtain ⟨e', he'⟩ := swapAt_isSome e (a := i) (b := next.toNat) (by omega) (by omega)
            rw [he', swapAt_append he']
            simp only
            refine ih _ (Nat.lt_of_lt_of_le (rev_measure hg h1 (by omega) hgn h3) hN) _ _ (Nat.le_refl _) (by rw [swapAt_length he', he])
              (by simp [hlen]) ?_
            intro x hm hxL
            rcases List.mem_or_eq_of_mem_set hm with h | h
            · rcases List.mem_or_eq_of_mem_set h with h | h
              · exact hx x h hxL
              · subst h; exact hnn hxL
            · subst h; omega

theorem applyRevOuter_append (m L : Nat) (hmL : m ≤ L) (r : List α) (k : Nat) :
    ∀ (i : Nat) (e : List α) (idx : List Int), e.length = m → idx.length = m → i + k ≤ m → (∀ x ∈ idx, x < L → x < m) →
      applyRevOuter L k i ⟨e ++ r, idx⟩ =
        ((applyRevOuter m k i ⟨e, idx⟩).1, ⟨(applyRevOuter m k i ⟨e, idx⟩).2.elems ++ r, (applyRevOuter m k i ⟨e, idx⟩).2.idx⟩) := by
  induction k with
  | zero => intro i e idx _ _ _ _; rfl
  | succ k ih =>
    intro i e idx he hl hk hx
    obtain ⟨h1, h2, h3, h4⟩ := applyRevInner_append m L i hmL r (by omega) _ e idx (Nat.le_refl _) he hl hx
    simp only [applyRevOuter]
    rw [h1]
    rcases hr : applyRevInner m i ⟨e, idx⟩ with ⟨en, ⟨e', idx'⟩⟩
    rw [hr] at h2 h3 h4
    cases en with
    | done => simp only; exact ih (i + 1) e' idx' h2 h3 (by omega) h4
    | failFast => rfl
    | ub => rfl

theorem applyRevOuter_add (L a b i : Nat) (s : PermState α) :
    applyRevOuter L (a + b) i s =
      match applyRevOuter L a i s with
      | (.done, s) => applyRevOuter L b (i + a) s
      | r => r := by
  induction a generalizing i s with
  | zero => simp [applyRevOuter]
  | succ a ih =>
    rw [show a + 1 + b = (a + b) + 1 by omega]
    simp only [applyRevOuter]
    rcases hr : applyRevInner L i s with ⟨en, s'⟩
    cases en with
    | done => simp only; rw [ih, show i + 1 + a = i + (a + 1) by omega]
    | failFast => rfl
    | ub => rfl

theorem applyRevInner_idx_length (L i : Nat) (N : Nat) :
    ∀ (s : PermState α), nonFixedFrom 0 s.idx ≤ N → (applyRevInner L i s).2.idx.length = s.idx.length := by
  induction N using Nat.strongRecOn with
  | ind N ih =>
    intro s hN
    rw [applyRevInner_eq]
    cases hg : s.idx[i]? with
    | none => rfl
    | some next =>
      simp only
      split
      · rfl
      · next h1 =>
        split
        · rfl
        · next h2 =>
          cases hgn : s.idx[next.toNat]? with
          | none => rfl
          | some nn =>
            simp only
            split
            · rfl
            · next h3 =>
              cases hs : swapAt s.elems i next.toNat with
              | none => rfl
              | some e =>
                simp only
                rw [ih _ (Nat.lt_of_lt_of_le (rev_measure hg h1 (by omega) hgn h3) hN) ⟨e, (s.idx.set i nn).set next.toNat next⟩ (Nat.le_refl _)]
                simp

theorem applyRevOuter_short (L k : Nat) : ∀ (i : Nat) (s : PermState α), i ≤ s.idx.length → s.idx.length < i + k → (applyRevOuter L k i s).1 ≠ .done := by
  induction k with
  | zero => intro i s h1 h2; omega
  | succ k ih =>
    intro i s h1 h2
    simp only [applyRevOuter]
    by_cases hi : i = s.idx.length
    · have : applyRevInner L i s = (.ub, s) := by
        rw [applyRevInner_eq, List.getElem?_eq_none (by omega)]
      rw [this]; simp
    · have hlen := applyRevInner_idx_length L i _ s (Nat.le_refl _)
      rcases hr : applyRevInner L i s with ⟨en, s'⟩
      rw [hr] at hlen
      simp only at hlen
      cases en with
      | done => exact ih (i + 1) s' (by omega) (by omega)
      | failFast => simp
      | ub => simp

end Makeshift
