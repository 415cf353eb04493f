import Verif.Model.PermutationThrow
import Verif.Lemmas.Permutation
import Verif.Lemmas.PermutationOver

/-! Helper lemmas for the permutation algorithms with a `swap` that throws. -/

namespace Makeshift

variable {α : Type}

theorem permThrowInner_eq (length i current calls : Nat) (s : PermState α) : permThrowInner length i current calls s =
    match s.idx[current]? with
    | none => (.ends .ub, calls, s)
    | some next =>
      if next = (i : Int) then (.ends .done, calls, { s with idx := s.idx.set current current })
      else if next < 0 ∨ next ≥ (length : Int) ∨ next = (current : Int) then
        (.ends .failFast, calls, { s with idx := s.idx.set i next })
      else
        match swapT calls s.elems current next.toNat with
        | none => (.thrown, calls, s)
        | some (calls, none) => (.ends .ub, calls, s)
        | some (calls, some e) => permThrowInner length i next.toNat calls ⟨e, s.idx.set current current⟩ := by
  rw [permThrowInner]
  split
  · rename_i h; simp only [h]
  · rename_i next h; simp only [h, dite_eq_ite]; rcases swapT calls s.elems current next.toNat with _ | ⟨_, _ | _⟩ <;> rfl

theorem revThrowInner_eq (length i calls : Nat) (s : PermState α) : revThrowInner length i calls s =
    match s.idx[i]? with
    | none => (.ends .ub, calls, s)
    | some next =>
      if next = (i : Int) then (.ends .done, calls, s)
      else if next < 0 ∨ next ≥ (length : Int) then (.ends .failFast, calls, s)
      else
        match s.idx[next.toNat]? with
        | none => (.ends .ub, calls, s)
        | some nn =>
          if next = nn then (.ends .failFast, calls, s)
          else
            match swapT calls s.elems i next.toNat with
            | none => (.thrown, calls, s)
            | some (calls, none) => (.ends .ub, calls, s)
            | some (calls, some e) => revThrowInner length i calls ⟨e, (s.idx.set i nn).set next.toNat next⟩ := by
  rw [revThrowInner]
  split
  · rename_i h; simp only [h]
  · rename_i next h
    simp only [h, dite_eq_ite]
    split
    · rfl
    · split
      · rfl
      · split
        · rename_i h'; simp only [h']
        · rename_i h'; simp only [h']; rcases swapT calls s.elems i next.toNat with _ | ⟨_, _ | _⟩ <;> rfl

theorem perm_measure {idx : List Int} {current : Nat} {next : Int} (h : idx[current]? = some next)
    (hne : next ≠ (current : Int)) : nonFixedFrom 0 (idx.set current current) < nonFixedFrom 0 idx := by
  have := nonFixedFrom_set idx 0 current next current h
  simp [hne] at this
  omega

theorem rev_measure {idx : List Int} {i : Nat} {next nn : Int} (h : idx[i]? = some next) (h1 : next ≠ (i : Int))
    (h2 : 0 ≤ next) (g : idx[next.toNat]? = some nn) (h3 : next ≠ nn) :
    nonFixedFrom 0 ((idx.set i nn).set next.toNat next) < nonFixedFrom 0 idx := by
  have hpos : ((next.toNat : Nat) : Int) = next := by omega
  have e1 := nonFixedFrom_set idx 0 i next nn h
  have hne : i ≠ next.toNat := by omega
  have e2 := nonFixedFrom_set (idx.set i nn) 0 next.toNat nn next (by rw [List.getElem?_set_ne hne]; exact g)
  simp [hpos, h1] at e1 e2 ⊢
  have : nn ≠ next := fun hc => h3 hc.symm
  simp [this] at e2
  split at e1 <;> omega

/-- A run of the inner loop in which no call of `swap` throws. -/
theorem permThrowInner_ends (length i : Nat) (n : Nat) :
    ∀ (current calls calls' : Nat) (s s' : PermState α) (e : PermEnd), nonFixedFrom 0 s.idx ≤ n →
      permThrowInner length i current calls s = (.ends e, calls', s') → applyPermInner length i current s = (e, s') := by
  induction n using Nat.strongRecOn with
  | ind n ih =>
    intro current calls calls' s s' e hn h
    rw [permThrowInner_eq] at h
    rw [applyPermInner_eq]
    cases hx : s.idx[current]? with
    | none => simp only [hx, Prod.mk.injEq, PermEndT.ends.injEq] at h ⊢; exact ⟨h.1, h.2.2⟩
    | some next =>
      simp only [hx] at h ⊢
      by_cases h1 : next = (i : Int)
      · simp only [h1, if_true, Prod.mk.injEq, PermEndT.ends.injEq] at h ⊢; exact ⟨h.1, h.2.2⟩
      · simp only [if_neg h1] at h ⊢
        by_cases h2 : next < 0 ∨ next ≥ (length : Int) ∨ next = (current : Int)
        · simp only [if_pos h2, Prod.mk.injEq, PermEndT.ends.injEq] at h ⊢; exact ⟨h.1, h.2.2⟩
        · simp only [if_neg h2] at h ⊢
          have hlt := perm_measure hx (fun hc => h2 (.inr (.inr hc)))
          cases calls with
          | zero => simp [swapT] at h
          | succ k =>
            simp only [swapT] at h
            cases hs : swapAt s.elems current next.toNat with
            | none => simp only [hs, Prod.mk.injEq, PermEndT.ends.injEq] at h ⊢; exact ⟨h.1, h.2.2⟩
            | some l =>
              simp only [hs] at h ⊢
              exact ih _ (Nat.lt_of_lt_of_le hlt hn) _ _ _ _ _ _ (Nat.le_refl _) h

/-- The same for the reverse algorithm. -/
theorem revThrowInner_ends (length i : Nat) (n : Nat) :
    ∀ (calls calls' : Nat) (s s' : PermState α) (e : PermEnd), nonFixedFrom 0 s.idx ≤ n →
      revThrowInner length i calls s = (.ends e, calls', s') → applyRevInner length i s = (e, s') := by
  induction n using Nat.strongRecOn with
  | ind n ih =>
    intro calls calls' s s' e hn h
    rw [revThrowInner_eq] at h
    rw [applyRevInner_eq]
    cases hx : s.idx[i]? with
    | none => simp only [hx, Prod.mk.injEq, PermEndT.ends.injEq] at h ⊢; exact ⟨h.1, h.2.2⟩
    | some next =>
      simp only [hx] at h ⊢
      by_cases h1 : next = (i : Int)
      · simp only [h1, if_true, Prod.mk.injEq, PermEndT.ends.injEq] at h ⊢; exact ⟨h.1, h.2.2⟩
      · simp only [if_neg h1] at h ⊢
        by_cases h2 : next < 0 ∨ next ≥ (length : Int)
        · simp only [if_pos h2, Prod.mk.injEq, PermEndT.ends.injEq] at h ⊢; exact ⟨h.1, h.2.2⟩
        · simp only [if_neg h2] at h ⊢
          cases hy : s.idx[next.toNat]? with
          | none => simp only [hy, Prod.mk.injEq, PermEndT.ends.injEq] at h ⊢; exact ⟨h.1, h.2.2⟩
          | some nn =>
            simp only [hy] at h ⊢
            by_cases h3 : next = nn
            · simp only [if_pos h3, Prod.mk.injEq, PermEndT.ends.injEq] at h ⊢; exact ⟨h.1, h.2.2⟩
            · simp only [if_neg h3] at h ⊢
              have hlt := rev_measure hx h1 (by omega) hy h3
              cases calls with
              | zero => simp [swapT] at h
              | succ k =>
                simp only [swapT] at h
                cases hs : swapAt s.elems i next.toNat with
                | none => simp only [hs, Prod.mk.injEq, PermEndT.ends.injEq] at h ⊢; exact ⟨h.1, h.2.2⟩
                | some l =>
                  simp only [hs] at h ⊢
                  exact ih _ (Nat.lt_of_lt_of_le hlt hn) _ _ _ _ _ (Nat.le_refl _) h

/-- What is left when a call of `swap` throws in the inner loop of the reverse algorithm: the loop can be continued. -/
theorem revThrowInner_thrown (length i : Nat) (n : Nat) :
    ∀ (calls calls' : Nat) (s s' : PermState α), nonFixedFrom 0 s.idx ≤ n →
      revThrowInner length i calls s = (.thrown, calls', s') →
      applyRevInner length i s' = applyRevInner length i s ∧ s'.elems.Perm s.elems ∧ s'.idx.Perm s.idx ∧
      ∀ k : Nat, s.idx[k]? = some (k : Int) → s'.idx[k]? = some (k : Int) := by
  induction n using Nat.strongRecOn with
  | ind n ih =>
    intro calls calls' s s' hn h
    rw [revThrowInner_eq] at h
    cases hx : s.idx[i]? with
    | none => simp [hx] at h
    | some next =>
      simp only [hx] at h
      by_cases h1 : next = (i : Int)
      · simp [h1] at h
      · simp only [if_neg h1] at h
        by_cases h2 : next < 0 ∨ next ≥ (length : Int)
        · simp [if_pos h2] at h
        · simp only [if_neg h2] at h
          cases hy : s.idx[next.toNat]? with
          | none => simp [hy] at h
          | some nn =>
            simp only [hy] at h
            by_cases h3 : next = nn
            · simp [if_pos h3] at h
            · simp only [if_neg h3] at h
              have hlt := rev_measure hx h1 (by omega) hy h3
              cases calls with
              | zero =>
                simp only [swapT, Prod.mk.injEq] at h
                obtain ⟨-, -, rfl⟩ := h
                exact ⟨rfl, .refl _, .refl _, fun _ h => h⟩
              | succ k =>
                simp only [swapT] at h
                cases hs : swapAt s.elems i next.toNat with
                | none => simp [hs] at h
                | some l =>
                  simp only [hs] at h
                  obtain ⟨e1, e2, e3, e4⟩ := ih _ (Nat.lt_of_lt_of_le hlt hn) _ _ _ _ (Nat.le_refl _) h
                  have hidx : swapAt s.idx i next.toNat = some ((s.idx.set i nn).set next.toNat next) := by
                    unfold swapAt; rw [hx, hy]
                  refine ⟨?_, e2.trans (swapAt_perm hs), e3.trans (swapAt_perm hidx), ?_⟩
                  · rw [e1, applyRevInner_eq length i s]
                    simp only [hx, if_neg h1, if_neg h2, hy, if_neg h3, hs]
                  · intro p hp
                    apply e4
                    simp only
                    rw [swapAt_get hidx]
                    have hpi : p ≠ i := by rintro rfl; rw [hx, Option.some.injEq] at hp; exact h1 hp
                    have hpn : p ≠ next.toNat := by
                      rintro rfl; rw [hy, Option.some.injEq] at hp; omega
                    simp [hpi, hpn, hp]

/-- The outer loop passes over positions that are in place. -/
theorem applyRevOuter_skip (n i m : Nat) (s : PermState α) (hf : ∀ k < i, s.idx[k]? = some (k : Int)) :
    applyRevOuter n (i + m) 0 s = applyRevOuter n m i s := by
  induction i generalizing m with
  | zero => simp
  | succ i ih =>
    rw [show i + 1 + m = i + (m + 1) by omega, ih (m + 1) (fun k hk => hf k (by omega)), applyRevOuter, applyRevInner_eq,
      hf i (by omega)]
    simp

theorem revThrowOuter_thrown (n m i calls : Nat) (s s' : PermState α) (him : i + m = n) (hn : s.elems.length = n)
    (hl : s.idx.length = n) (hf : ∀ k < i, s.idx[k]? = some (k : Int))
    (h : revThrowOuter n m i calls s = (.thrown, s')) :
    applyRevOuter n n 0 s' = applyRevOuter n m i s ∧ s'.elems.Perm s.elems ∧ s'.idx.Perm s.idx := by
  induction m generalizing i calls s with
  | zero => simp [revThrowOuter] at h
  | succ m ih =>
    rw [revThrowOuter] at h
    rcases hr : revThrowInner n i calls s with ⟨e, calls', s1⟩
    rw [hr] at h
    cases e with
    | thrown =>
      simp only [Prod.mk.injEq, true_and] at h
      subst h
      obtain ⟨h1, h2, h3, h4⟩ := revThrowInner_thrown n i _ _ _ _ _ (Nat.le_refl _) hr
      refine ⟨?_, h2, h3⟩
      have := applyRevOuter_skip n i (m + 1) s1 (fun k hk => h4 k (hf k hk))
      rw [him] at this
      rw [this, applyRevOuter, applyRevOuter, h1]
    | ends e =>
      have h1 := revThrowInner_ends n i _ _ _ _ _ _ (Nat.le_refl _) hr
      obtain ⟨-, q2, q3, q4, -, q6⟩ := applyRevInner_spec n i s hn hl (by omega)
      rw [h1] at q2 q3 q4 q6
      cases e with
      | done =>
        simp only at h q2 q3 q4
        obtain ⟨q7, q8⟩ := q6 rfl
        have hp1 : s1.elems.Perm s.elems := by
          have := q2.map Prod.fst
          rwa [List.map_fst_zip (by omega), List.map_fst_zip (by omega)] at this
        have hp2 : s1.idx.Perm s.idx := by
          have := q2.map Prod.snd
          rwa [List.map_snd_zip (by omega), List.map_snd_zip (by omega)] at this
        obtain ⟨r1, r2, r3⟩ := ih (i + 1) calls' s1 (by omega) q3 q4 (by
          intro k hk
          by_cases hki : k = i
          · subst hki; exact q7
          · exact q8 k (hf k (by omega))) h
        refine ⟨?_, r2.trans hp1, r3.trans hp2⟩
        rw [r1, applyRevOuter, h1]
      | failFast => simp at h
      | ub => simp at h

theorem revThrowOuter_ends (n m i calls : Nat) (s s' : PermState α) (e : PermEnd)
    (h : revThrowOuter n m i calls s = (.ends e, s')) : applyRevOuter n m i s = (e, s') := by
  induction m generalizing i calls s with
  | zero =>
    simp only [revThrowOuter, Prod.mk.injEq, PermEndT.ends.injEq] at h
    simp [applyRevOuter, h]
  | succ m ih =>
    rw [revThrowOuter] at h
    rcases hr : revThrowInner n i calls s with ⟨e1, calls', s1⟩
    rw [hr] at h
    cases e1 with
    | thrown => simp at h
    | ends e1 =>
      have h1 := revThrowInner_ends n i _ _ _ _ _ _ (Nat.le_refl _) hr
      rw [applyRevOuter, h1]
      cases e1 with
      | done => exact ih _ _ _ h
      | failFast => simpa using h
      | ub => simpa using h

/-! ## apply_permutation -/

/-- In the inner loop, once `i` has been put in place: an index array left by an exception has `i` twice. -/
theorem permThrowInner_later (length i c : Nat) (n : Nat) :
    ∀ (current calls calls' : Nat) (s s' : PermState α), nonFixedFrom 0 s.idx ≤ n → current ≠ i → c ≠ i →
      s.idx[i]? = some (i : Int) → s.idx[c]? = some (i : Int) →
      permThrowInner length i current calls s = (.thrown, calls', s') →
      s'.idx[i]? = some (i : Int) ∧ s'.idx[c]? = some (i : Int) ∧ s'.elems.Perm s.elems ∧ s'.idx.length = s.idx.length := by
  induction n using Nat.strongRecOn with
  | ind n ih =>
    intro current calls calls' s s' hn hc hci hfi hfc h
    rw [permThrowInner_eq] at h
    cases hx : s.idx[current]? with
    | none => simp [hx] at h
    | some next =>
      simp only [hx] at h
      by_cases h1 : next = (i : Int)
      · simp [h1] at h
      · simp only [if_neg h1] at h
        by_cases h2 : next < 0 ∨ next ≥ (length : Int) ∨ next = (current : Int)
        · simp [if_pos h2] at h
        · simp only [if_neg h2] at h
          have hlt := perm_measure hx (fun hc => h2 (.inr (.inr hc)))
          cases calls with
          | zero =>
            simp only [swapT, Prod.mk.injEq] at h
            obtain ⟨-, -, rfl⟩ := h
            exact ⟨hfi, hfc, .refl _, rfl⟩
          | succ k =>
            simp only [swapT] at h
            cases hs : swapAt s.elems current next.toNat with
            | none => simp [hs] at h
            | some l =>
              simp only [hs] at h
              have hcc : current ≠ c := by
                rintro rfl; rw [hx, Option.some.injEq] at hfc; exact h1 hfc
              obtain ⟨e1, e2, e3, e4⟩ := ih _ (Nat.lt_of_lt_of_le hlt hn) next.toNat k calls' ⟨l, s.idx.set current current⟩ s' (Nat.le_refl _)
                (by omega) hci (by simpa [List.getElem?_set_ne hc] using hfi)
                (by simpa [List.getElem?_set_ne hcc] using hfc) h
              exact ⟨e1, e2, e3.trans (swapAt_perm hs), by simpa using e4⟩

/-- What is left when a call of `swap` throws in the inner loop: everything as it was before the loop, or `i` twice. -/
theorem permThrowInner_thrown (length i c calls calls' : Nat) (s s' : PermState α) (hi : i < s.idx.length) (hci : c ≠ i)
    (hfc : s.idx[c]? = some (i : Int))
    (h : permThrowInner length i i calls s = (.thrown, calls', s')) :
    s' = s ∨ (s'.idx[i]? = some (i : Int) ∧ s'.idx[c]? = some (i : Int) ∧ s'.elems.Perm s.elems ∧
      s'.idx.length = s.idx.length) := by
  rw [permThrowInner_eq] at h
  cases hx : s.idx[i]? with
  | none => simp [hx] at h
  | some next =>
    simp only [hx] at h
    by_cases h1 : next = (i : Int)
    · simp [h1] at h
    · simp only [if_neg h1] at h
      by_cases h2 : next < 0 ∨ next ≥ (length : Int)
      · have h2' : next < 0 ∨ next ≥ (length : Int) ∨ next = (i : Int) := h2.elim .inl (fun h => .inr (.inl h))
        simp [if_pos h2'] at h
      · rw [if_neg (fun hc => h2 (hc.elim .inl (fun hc => hc.elim .inr (fun hc => absurd hc h1))))] at h
        cases calls with
        | zero =>
          simp only [swapT, Prod.mk.injEq] at h
          exact .inl h.2.2.symm
        | succ k =>
          simp only [swapT] at h
          cases hs : swapAt s.elems i next.toNat with
          | none => simp [hs] at h
          | some l =>
            simp only [hs] at h
            obtain ⟨e1, e2, e3, e4⟩ := permThrowInner_later length i c _ next.toNat k calls' ⟨l, s.idx.set i i⟩ s'
              (Nat.le_refl _) (by omega) hci (by simp [hi]) (by simpa [List.getElem?_set_ne hci.symm] using hfc) h
            exact .inr ⟨e1, e2, e3.trans (swapAt_perm hs), by simpa using e4⟩

/-- The outer loop passes over positions that are in place. -/
theorem applyPermOuter_skip (n i m : Nat) (s : PermState α) (hf : ∀ k < i, s.idx[k]? = some (k : Int)) :
    applyPermOuter n (i + m) 0 s = applyPermOuter n m i s := by
  induction i generalizing m with
  | zero => simp
  | succ i ih =>
    have hi := hf i (by omega)
    have hset : s.idx.set i (i : Int) = s.idx := by
      apply List.ext_getElem?
      intro k
      by_cases hk : i = k
      · subst hk
        have : i < s.idx.length := by
          by_contra hc; rw [List.getElem?_eq_none (by omega)] at hi; simp at hi
        rw [List.getElem?_set_self this, hi]
      · rw [List.getElem?_set_ne hk]
    rw [show i + 1 + m = i + (m + 1) by omega, ih (m + 1) (fun k hk => hf k (by omega)), applyPermOuter, applyPermInner_eq, hi]
    simp [hset]

theorem permThrowOuter_thrown (n m i calls : Nat) (s s' : PermState α) (him : i + m = n) (hn : s.elems.length = n)
    (hp : s.idx.Perm (identity n)) (hf : ∀ k < i, s.idx[k]? = some (k : Int))
    (h : permThrowOuter n m i calls s = (.thrown, s')) :
    s'.elems.Perm s.elems ∧ s'.idx.length = n ∧
    ((s'.idx.Perm (identity n) ∧ applyPermOuter n n 0 s' = applyPermOuter n m i s) ∨ ¬ s'.idx.Nodup) := by
  induction m generalizing i calls s with
  | zero => simp [permThrowOuter] at h
  | succ m ih =>
    have hl : s.idx.length = n := by simpa [identity_length] using hp.length_eq
    rw [permThrowOuter] at h
    rcases hr : permThrowInner n i i calls s with ⟨e, calls', s1⟩
    rw [hr] at h
    cases e with
    | thrown =>
      simp only [Prod.mk.injEq, true_and] at h
      subst h
      have hmem : (i : Int) ∈ s.idx := hp.mem_iff.mpr (mem_identity.mpr ⟨by omega, by omega⟩)
      obtain ⟨c, hc⟩ := List.mem_iff_getElem?.mp hmem
      by_cases hci : c = i
      · subst hci
        rw [permThrowInner_eq, hc] at hr
        simp at hr
      · rcases permThrowInner_thrown n i c _ _ _ _ (by omega) hci hc hr with rfl | ⟨e1, e2, e3, e4⟩
        · refine ⟨.refl _, hl, .inl ⟨hp, ?_⟩⟩
          have := applyPermOuter_skip n i (m + 1) s1 hf
          rwa [him] at this
        · exact ⟨e3, by omega, .inr (fun hd => hci (nodup_get_inj hd e2 e1))⟩
    | ends e =>
      have h1 := permThrowInner_ends n i _ _ _ _ _ _ _ (Nat.le_refl _) hr
      obtain ⟨-, q2, q3, q4⟩ := applyPermInner_spec n i i s hn hl (by omega) (by omega) (fun h => absurd rfl h)
      rw [h1] at q2 q3 q4
      cases e with
      | done =>
        simp only at h q2 q3 q4
        obtain ⟨q5, q6, q7⟩ := q4 trivial
        obtain ⟨r1, r2, r3⟩ := ih (i + 1) calls' s1 (by omega) (q2.length_eq.trans hn)
          (((List.perm_cons _).mp q5).symm.trans hp) (by
            intro k hk
            by_cases hki : k = i
            · subst hki; exact q6
            · exact q7 k (hf k (by omega))) h
        refine ⟨r1.trans q2, r2, r3.imp_left (fun hh => ⟨hh.1, ?_⟩)⟩
        rw [hh.2, applyPermOuter, h1]
      | failFast => simp at h
      | ub => simp at h

theorem permThrowOuter_ends (n m i calls : Nat) (s s' : PermState α) (e : PermEnd)
    (h : permThrowOuter n m i calls s = (.ends e, s')) : applyPermOuter n m i s = (e, s') := by
  induction m generalizing i calls s with
  | zero =>
    simp only [permThrowOuter, Prod.mk.injEq, PermEndT.ends.injEq] at h
    simp [applyPermOuter, h]
  | succ m ih =>
    rw [permThrowOuter] at h
    rcases hr : permThrowInner n i i calls s with ⟨e1, calls', s1⟩
    rw [hr] at h
    cases e1 with
    | thrown => simp at h
    | ends e1 =>
      have h1 := permThrowInner_ends n i _ _ _ _ _ _ _ (Nat.le_refl _) hr
      rw [applyPermOuter, h1]
      cases e1 with
      | done => exact ih _ _ _ h
      | failFast => simpa using h
      | ub => simpa using h

/-! ## Enough calls -/

theorem nonFixedFrom_le (off : Nat) (l : List Int) : nonFixedFrom off l ≤ l.length := by
  induction l generalizing off with
  | nil => simp [nonFixedFrom]
  | cons x r ih =>
    have := ih (off + 1)
    simp only [nonFixedFrom, List.length_cons]
    split <;> omega

theorem permThrowInner_enough (length i : Nat) (n : Nat) :
    ∀ (current calls : Nat) (s : PermState α), nonFixedFrom 0 s.idx ≤ n → nonFixedFrom 0 s.idx ≤ calls →
      ∃ e calls' s', permThrowInner length i current calls s = (.ends e, calls', s') ∧
        (e = .done → nonFixedFrom 0 s'.idx ≤ calls') := by
  induction n using Nat.strongRecOn with
  | ind n ih =>
    intro current calls s hn hc
    rw [permThrowInner_eq]
    cases hx : s.idx[current]? with
    | none => exact ⟨_, _, _, rfl, by simp⟩
    | some next =>
      simp only
      by_cases h1 : next = (i : Int)
      · rw [if_pos h1]
        refine ⟨_, _, _, rfl, fun _ => ?_⟩
        have := nonFixedFrom_set s.idx 0 current next current hx
        simp at this ⊢
        omega
      · rw [if_neg h1]
        by_cases h2 : next < 0 ∨ next ≥ (length : Int) ∨ next = (current : Int)
        · rw [if_pos h2]
          exact ⟨_, _, _, rfl, by simp⟩
        · rw [if_neg h2]
          have hlt := perm_measure hx (fun hc => h2 (.inr (.inr hc)))
          cases calls with
          | zero => omega
          | succ k =>
            simp only [swapT]
            cases hs : swapAt s.elems current next.toNat with
            | none => exact ⟨_, _, _, rfl, by simp⟩
            | some l =>
              simp only
              exact ih _ (Nat.lt_of_lt_of_le hlt hn) next.toNat k ⟨l, _⟩ (Nat.le_refl _) (by simp only; omega)

theorem permThrowOuter_enough (n m i calls : Nat) (s : PermState α) (hc : nonFixedFrom 0 s.idx ≤ calls) :
    ∃ e s', permThrowOuter n m i calls s = (.ends e, s') := by
  induction m generalizing i calls s with
  | zero => exact ⟨_, _, rfl⟩
  | succ m ih =>
    obtain ⟨e, calls', s', h, hd⟩ := permThrowInner_enough n i _ i calls s (Nat.le_refl _) hc
    rw [permThrowOuter, h]
    cases e with
    | done => exact ih _ _ _ (hd rfl)
    | failFast => exact ⟨_, _, rfl⟩
    | ub => exact ⟨_, _, rfl⟩

theorem revThrowInner_enough (length i : Nat) (n : Nat) :
    ∀ (calls : Nat) (s : PermState α), nonFixedFrom 0 s.idx ≤ n → nonFixedFrom 0 s.idx ≤ calls →
      ∃ e calls' s', revThrowInner length i calls s = (.ends e, calls', s') ∧
        (e = .done → nonFixedFrom 0 s'.idx ≤ calls') := by
  induction n using Nat.strongRecOn with
  | ind n ih =>
    intro calls s hn hc
    rw [revThrowInner_eq]
    cases hx : s.idx[i]? with
    | none => exact ⟨_, _, _, rfl, by simp⟩
    | some next =>
      simp only
      by_cases h1 : next = (i : Int)
      · rw [if_pos h1]
        exact ⟨_, _, _, rfl, fun _ => hc⟩
      · rw [if_neg h1]
        by_cases h2 : next < 0 ∨ next ≥ (length : Int)
        · rw [if_pos h2]
          exact ⟨_, _, _, rfl, by simp⟩
        · rw [if_neg h2]
          cases hy : s.idx[next.toNat]? with
          | none => exact ⟨_, _, _, rfl, by simp⟩
          | some nn =>
            simp only
            by_cases h3 : next = nn
            · rw [if_pos h3]
              exact ⟨_, _, _, rfl, by simp⟩
            · rw [if_neg h3]
              have hlt := rev_measure hx h1 (by omega) hy h3
              cases calls with
              | zero => omega
              | succ k =>
                simp only [swapT]
                cases hs : swapAt s.elems i next.toNat with
                | none => exact ⟨_, _, _, rfl, by simp⟩
                | some l =>
                  simp only
                  exact ih _ (Nat.lt_of_lt_of_le hlt hn) k ⟨l, _⟩ (Nat.le_refl _) (by simp only; omega)

theorem revThrowOuter_enough (n m i calls : Nat) (s : PermState α) (hc : nonFixedFrom 0 s.idx ≤ calls) :
    ∃ e s', revThrowOuter n m i calls s = (.ends e, s') := by
  induction m generalizing i calls s with
  | zero => exact ⟨_, _, rfl⟩
  | succ m ih =>
    obtain ⟨e, calls', s', h, hd⟩ := revThrowInner_enough n i _ calls s (Nat.le_refl _) hc
    rw [revThrowOuter, h]
    cases e with
    | done => exact ih _ _ _ (hd rfl)
    | failFast => exact ⟨_, _, rfl⟩
    | ub => exact ⟨_, _, rfl⟩

/-! ## shuffle -/

theorem shuffleThrowLoop_perm (draw : Nat → Nat) (i calls : Nat) (l l' : List α) (b : Bool)
    (h : shuffleThrowLoop draw i calls l = some (l', b)) : l'.Perm l := by
  induction i generalizing calls l with
  | zero =>
    simp only [shuffleThrowLoop, Option.some.injEq, Prod.mk.injEq] at h
    rw [h.1]
  | succ i ih =>
    simp only [shuffleThrowLoop] at h
    by_cases hj : i + 1 ≠ draw (i + 1)
    · rw [if_pos hj] at h
      cases calls with
      | zero =>
        simp only [swapT, Option.some.injEq, Prod.mk.injEq] at h
        rw [h.1]
      | succ k =>
        simp only [swapT] at h
        cases hs : swapAt l (i + 1) (draw (i + 1)) with
        | none => simp [hs] at h
        | some l1 =>
          simp only [hs] at h
          exact (ih _ _ h).trans (swapAt_perm hs)
    · rw [if_neg hj] at h
      exact ih _ _ h

theorem shuffleThrowLoop_ends (draw : Nat → Nat) (i calls : Nat) (l l' : List α)
    (h : shuffleThrowLoop draw i calls l = some (l', false)) : shuffleLoop draw i l = some l' := by
  induction i generalizing calls l with
  | zero =>
    simp only [shuffleThrowLoop, Option.some.injEq, Prod.mk.injEq, and_true] at h
    simp [shuffleLoop, h]
  | succ i ih =>
    simp only [shuffleThrowLoop] at h
    simp only [shuffleLoop]
    by_cases hj : i + 1 ≠ draw (i + 1)
    · rw [if_pos hj] at h ⊢
      cases calls with
      | zero => simp [swapT] at h
      | succ k =>
        simp only [swapT] at h
        cases hs : swapAt l (i + 1) (draw (i + 1)) with
        | none => simp [hs] at h
        | some l1 =>
          simp only [hs] at h ⊢
          exact ih _ _ h
    · rw [if_neg hj] at h ⊢
      exact ih _ _ h

theorem shuffleThrowLoop_enough (draw : Nat → Nat) (i calls : Nat) (l l' : List α) (b : Bool) (hc : i ≤ calls)
    (h : shuffleThrowLoop draw i calls l = some (l', b)) : b = false := by
  induction i generalizing calls l with
  | zero =>
    simp only [shuffleThrowLoop, Option.some.injEq, Prod.mk.injEq] at h
    exact h.2.symm
  | succ i ih =>
    simp only [shuffleThrowLoop] at h
    by_cases hj : i + 1 ≠ draw (i + 1)
    · rw [if_pos hj] at h
      cases calls with
      | zero => omega
      | succ k =>
        simp only [swapT] at h
        cases hs : swapAt l (i + 1) (draw (i + 1)) with
        | none => simp [hs] at h
        | some l1 =>
          simp only [hs] at h
          exact ih _ _ (by omega) h
    · rw [if_neg hj] at h
      exact ih _ _ (by omega) h

theorem shuffleThrowLoop_defined (draw : Nat → Nat) (i calls : Nat) (l : List α) (hi : i < l.length ∨ i = 0)
    (hd : ∀ j ≤ i, draw j ≤ j) : shuffleThrowLoop draw i calls l ≠ none := by
  induction i generalizing calls l with
  | zero => simp [shuffleThrowLoop]
  | succ i ih =>
    simp only [shuffleThrowLoop]
    by_cases hj : i + 1 ≠ draw (i + 1)
    · rw [if_pos hj]
      cases calls with
      | zero => simp [swapT]
      | succ k =>
        simp only [swapT]
        have := hd (i + 1) (Nat.le_refl _)
        obtain ⟨l1, hs⟩ := swapAt_isSome l (a := i + 1) (b := draw (i + 1)) (by omega) (by omega)
        simp only [hs]
        have hlen := swapAt_length hs
        exact ih _ _ (by omega) (fun j hj => hd j (by omega))
    · rw [if_neg hj]
      exact ih _ _ (by omega) (fun j hj => hd j (by omega))

end Makeshift
