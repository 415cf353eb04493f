import Verif.Lemmas.Permutation
import Verif.Model.PermutationRetry

/-!
# What failing permutation algorithms leave behind
-/

namespace Makeshift

/-- The state in which the while loop of `apply_permutation` fails. -/
theorem applyPermInner_left {α : Type} (n i cur : Nat) (s : PermState α)
    (hn : s.elems.length = n) (hl : s.idx.length = n) (hi : i < n) (hc : cur < n)
    (hfix : cur ≠ i → s.idx[i]? = some (i : Int)) (hf : (applyPermInner n i cur s).1 = .failFast) :
    ∃ x : Int, (applyPermInner n i cur s).2.idx[i]? = some x ∧ x ∈ s.idx ∧
      (∀ k : Nat, k ≠ i → s.idx[k]? = some (k : Int) → (applyPermInner n i cur s).2.idx[k]? = some (k : Int)) ∧
      ((x < 0 ∨ (n : Int) ≤ x) ∨
        2 ≤ ((cur : Int) :: s.idx).count x ∧ x ≠ i ∧ ∃ k : Nat, k ≠ i ∧ (applyPermInner n i cur s).2.idx[k]? = some x) := by
  induction hm : nonFixedFrom 0 s.idx using Nat.strongRecOn generalizing cur s with
  | _ m ih =>
  have hcl : cur < s.idx.length := by omega
  have hil : i < s.idx.length := by omega
  unfold applyPermInner at hf ⊢
  split
  · rename_i h; rw [List.getElem?_eq_getElem hcl] at h; simp at h
  · rename_i next h
    split at hf
    · rename_i h'; rw [h] at h'; cases h'
    · rename_i next' h'
      rw [h] at h'
      obtain rfl : next = next' := by simpa using h'
      split at hf
      · simp at hf
      · rename_i hxi
        rw [if_neg hxi]
        split at hf
        · rename_i hx
          rw [dif_pos hx]
          refine ⟨next, by simp [hil], List.mem_of_getElem? h, fun k hki hk => ?_, ?_⟩
          · simp only [List.getElem?_set_ne (Ne.symm hki)]; exact hk
          · rcases hx with hx | hx | hx
            · exact .inl (.inl hx)
            · exact .inl (.inr hx)
            · right
              subst hx
              have hci : cur ≠ i := by intro hc; subst hc; exact hxi rfl
              refine ⟨?_, hxi, cur, hci, by simp only [List.getElem?_set_ne (Ne.symm hci)]; exact h⟩
              have : 1 ≤ s.idx.count (cur : Int) := List.one_le_count_iff.mpr (List.mem_of_getElem? h)
              simp only [List.count_cons_self]; omega
        · rename_i hx
          rw [dif_neg hx]
          have hx1 : 0 ≤ next := by omega
          have hx2 : next < n := by omega
          have hx3 : next ≠ cur := fun hc => hx (Or.inr (Or.inr hc))
          obtain ⟨e, he⟩ := swapAt_isSome s.elems (a := cur) (b := next.toNat) (by omega) (by omega)
          rw [he] at hf ⊢
          simp only at hf ⊢
          have hdec := nonFixedFrom_set s.idx 0 cur next cur h
          simp [hx3] at hdec
          obtain ⟨x, r1, r2, r3, r4⟩ := ih _ (by simp only; omega) next.toNat ⟨e, s.idx.set cur cur⟩
            (by simpa using (swapAt_length he).trans hn) (by simpa using hl) (by omega)
            (by
              intro _
              by_cases hci : cur = i
              · subst hci; simp [hcl]
              · simp only [List.getElem?_set_ne hci]; exact hfix hci) hf rfl
          have hp := perm_cons_set (cur : Int) h
          have hcast : ((next.toNat : Nat) : Int) = next := by omega
          have hcount : ((next.toNat : Int) :: s.idx.set cur (cur : Int)).count x = ((cur : Int) :: s.idx).count x := by
            rw [hcast]; exact (hp.count_eq x).symm
          refine ⟨x, r1, ?_, fun k hki hk => r3 k hki ?_, ?_⟩
          · have hmem : x ∈ (cur : Int) :: s.idx := hp.mem_iff.mpr (List.mem_cons_of_mem _ r2)
            rcases List.mem_cons.mp hmem with hxc | hxc
            · rcases r4 with r4 | ⟨r4, _, _⟩
              · omega
              · rw [hcount] at r4
                subst hxc
                rw [List.count_cons_self] at r4
                exact List.one_le_count_iff.mp (by omega)
            · exact hxc
          · simp only
            by_cases hck : cur = k
            · subst hck; simp [hcl]
            · simp only [List.getElem?_set_ne hck]; exact hk
          · rcases r4 with r4 | ⟨r4, r5⟩
            · exact .inl r4
            · rw [hcount] at r4
              exact .inr ⟨r4, r5⟩

/-- The state in which `apply_permutation` fails. -/
theorem applyPermOuter_left {α : Type} (n m i : Nat) (s : PermState α) (him : i + m = n)
    (hn : s.elems.length = n) (hl : s.idx.length = n) (hdone : ∀ k < i, s.idx[k]? = some (k : Int))
    (hf : (applyPermOuter n m i s).1 = .failFast) :
    ∃ (j : Nat) (x : Int), j < n ∧ (∀ k < j, (applyPermOuter n m i s).2.idx[k]? = some (k : Int)) ∧
      (applyPermOuter n m i s).2.idx[j]? = some x ∧ x ∈ s.idx ∧
      ((x < 0 ∨ (n : Int) ≤ x) ∨ 2 ≤ s.idx.count x ∧ ∃ k : Nat, k ≠ j ∧ (applyPermOuter n m i s).2.idx[k]? = some x) := by
  induction m generalizing i s with
  | zero => simp [applyPermOuter] at hf
  | succ m ih =>
    obtain ⟨h1, h2, h3, h5⟩ := applyPermInner_spec n i i s hn hl (by omega) (by omega) (fun h => absurd rfl h)
    rcases hr : applyPermInner n i i s with ⟨e, s'⟩
    have hleft := applyPermInner_left n i i s hn hl (by omega) (by omega) (fun h => absurd rfl h)
    rw [hr] at h1 h2 h3 h5 hleft
    simp only [applyPermOuter, hr] at hf ⊢
    rcases e with _ | _ | _
    · simp only at hf ⊢
      obtain ⟨q1, q2, q3⟩ := h5 rfl
      have hperm : s.idx.Perm s'.idx := (List.perm_cons _).mp q1
      obtain ⟨j, x, r1, r2, r3, r4, r5⟩ := ih (i + 1) s' (by omega) (h2.length_eq.trans hn) h3 (by
        intro k hk
        by_cases hki : k = i
        · subst hki; exact q2
        · exact q3 k (hdone k (by omega))) hf
      refine ⟨j, x, r1, r2, r3, hperm.mem_iff.mpr r4, ?_⟩
      rw [hperm.count_eq]
      exact r5
    · simp only
      obtain ⟨x, r1, r2, r3, r4⟩ := hleft rfl
      refine ⟨i, x, by omega, fun k hk => r3 k (by omega) (hdone k hk), r1, r2, ?_⟩
      rcases r4 with r4 | ⟨r4, hxi, k, hk, r5⟩
      · exact .inl r4
      · refine .inr ⟨?_, k, hk, r5⟩
        rw [List.count_cons_of_ne (Ne.symm hxi)] at r4
        exact r4
    · exact absurd rfl h1

/-- The state in which the while loop of `apply_reverse_permutation` fails. -/
theorem applyRevInner_left {α : Type} (n i : Nat) (s : PermState α)
    (hn : s.elems.length = n) (hl : s.idx.length = n) (hi : i < n) (hf : (applyRevInner n i s).1 = .failFast) :
    ∃ x : Int, (applyRevInner n i s).2.idx[i]? = some x ∧
      (∀ k : Nat, s.idx[k]? = some (k : Int) → (applyRevInner n i s).2.idx[k]? = some (k : Int)) ∧
      ((x < 0 ∨ (n : Int) ≤ x) ∨ ∃ k : Nat, k ≠ i ∧ (k : Int) = x ∧ (applyRevInner n i s).2.idx[k]? = some x) := by
  induction hm : nonFixedFrom 0 s.idx using Nat.strongRecOn generalizing s with
  | _ m ih =>
  have hil : i < s.idx.length := by omega
  rw [applyRevInner] at hf ⊢
  split
  · rename_i h; rw [List.getElem?_eq_getElem hil] at h; simp at h
  · rename_i next h
    split at hf
    · rename_i h'; rw [h] at h'; cases h'
    rename_i next' h2'
    rw [h] at h2'
    obtain rfl : next = next' := by simpa using h2'
    split at hf
    · simp at hf
    · rename_i hxi
      rw [dif_neg hxi]
      split at hf
      · rename_i hr
        rw [dif_pos hr]
        exact ⟨next, h, fun k hk => hk, .inl hr⟩
      · rename_i hr
        rw [dif_neg hr]
        have hnl : next.toNat < s.idx.length := by omega
        split
        · rename_i h'; rw [List.getElem?_eq_getElem hnl] at h'; simp at h'
        · rename_i nn h'
          split at hf
          · rename_i h''; rw [h'] at h''; cases h''
          rename_i nn' h3'
          rw [h'] at h3'
          obtain rfl : nn = nn' := by simpa using h3'
          split at hf
          · rename_i hnn
            rw [dif_pos hnn]
            subst hnn
            exact ⟨next, h, fun k hk => hk, .inr ⟨next.toNat, by omega, by omega, h'⟩⟩
          · rename_i hnn
            rw [dif_neg hnn]
            obtain ⟨e, he⟩ := swapAt_isSome s.elems (a := i) (b := next.toNat) (by omega) (by omega)
            have hidx : swapAt s.idx i next.toNat = some ((s.idx.set i nn).set next.toNat next) := by
              unfold swapAt; rw [h, h']
            have hne : i ≠ next.toNat := by omega
            have hd1 := nonFixedFrom_set s.idx 0 i next nn h
            have hd2 := nonFixedFrom_set (s.idx.set i nn) 0 next.toNat nn next
              (by rw [List.getElem?_set_ne hne]; exact h')
            have hcast : ((next.toNat : Nat) : Int) = next := by omega
            have hnn' : nn ≠ next := fun hc => hnn hc.symm
            rw [he] at hf ⊢
            simp only at hf ⊢
            obtain ⟨x, r1, r2, r3⟩ := ih _ (by
                simp [hcast, hxi, hnn'] at hd1 hd2 ⊢
                split at hd1 <;> omega)
              ⟨e, (s.idx.set i nn).set next.toNat next⟩ ((swapAt_length he).trans hn) (by simpa using hl) hf rfl
            refine ⟨x, r1, fun k hk => r2 k ?_, r3⟩
            simp only
            rw [swapAt_get hidx]
            have hki : k ≠ i := by rintro rfl; rw [h, Option.some.injEq] at hk; exact hxi hk
            have hkn : k ≠ next.toNat := by
              rintro rfl; rw [h', Option.some.injEq] at hk; exact hnn' (hk.trans hcast)
            simp [hki, hkn, hk]

/-- The state in which `apply_reverse_permutation` fails. -/
theorem applyRevOuter_left {α : Type} (n m i : Nat) (s : PermState α) (him : i + m = n)
    (hn : s.elems.length = n) (hl : s.idx.length = n) (hdone : ∀ k < i, s.idx[k]? = some (k : Int))
    (hf : (applyRevOuter n m i s).1 = .failFast) :
    ∃ (j : Nat) (x : Int), j < n ∧ (∀ k < j, (applyRevOuter n m i s).2.idx[k]? = some (k : Int)) ∧
      (applyRevOuter n m i s).2.idx[j]? = some x ∧
      ((x < 0 ∨ (n : Int) ≤ x) ∨ ∃ k : Nat, k ≠ j ∧ (applyRevOuter n m i s).2.idx[k]? = some x) := by
  induction m generalizing i s with
  | zero => simp [applyRevOuter] at hf
  | succ m ih =>
    obtain ⟨h1, h2, h3, h4, h5, h6⟩ := applyRevInner_spec n i s hn hl (by omega)
    have hleft := applyRevInner_left n i s hn hl (by omega)
    rcases hr : applyRevInner n i s with ⟨e, s'⟩
    rw [hr] at h1 h2 h3 h4 h6 hleft
    simp only [applyRevOuter, hr] at hf ⊢
    rcases e with _ | _ | _
    · simp only at hf ⊢
      obtain ⟨q2, q3⟩ := h6 rfl
      exact ih (i + 1) s' (by omega) h3 h4 (by
        intro k hk
        by_cases hki : k = i
        · subst hki; exact q2
        · exact q3 k (hdone k (by omega))) hf
    · simp only
      obtain ⟨x, r1, r2, r3⟩ := hleft rfl
      refine ⟨i, x, by omega, fun k hk => r2 k (hdone k hk), r1, ?_⟩
      rcases r3 with r3 | ⟨k, hk, _, r3⟩
      · exact .inl r3
      · exact .inr ⟨k, hk, r3⟩
    · exact absurd rfl h1

end Makeshift
