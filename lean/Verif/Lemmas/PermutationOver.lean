import Verif.Model.PermutationOver

/-!
# The permutation algorithms over a memory do what they do to a list, when swapping corresponds
-/

namespace Makeshift

/-- Swapping in memory corresponds to swapping in the list, as long as the latter is defined. -/
def SwapSim {σ α : Type} (swap : σ → Nat → Nat → Option σ) (R : σ → List α → Prop) : Prop :=
  ∀ m l a b l', R m l → swapAt l a b = some l' → ∃ m', swap m a b = some m' ∧ R m' l'

/-- Same end, same indices, corresponding elements. -/
def EndSim {σ α : Type} (R : σ → List α → Prop) (x : PermEnd × PermMem σ) (y : PermEnd × PermState α) : Prop :=
  y.1 ≠ .ub → x.1 = y.1 ∧ x.2.idx = y.2.idx ∧ R x.2.mem y.2.elems

variable {σ α : Type} {swap : σ → Nat → Nat → Option σ} {R : σ → List α → Prop}

theorem permOverInner_eq (length i current : Nat) (s : PermMem σ) : permOverInner swap length i current s =
    match s.idx[current]? with
    | none => (.ub, s)
    | some next =>
      if next = (i : Int) then (.done, { s with idx := s.idx.set current current })
      else if next < 0 ∨ next ≥ (length : Int) ∨ next = (current : Int) then (.failFast, { s with idx := s.idx.set i next })
      else
        match swap s.mem current next.toNat with
        | none => (.ub, s)
        | some m => permOverInner swap length i next.toNat ⟨m, s.idx.set current current⟩ := by
  rw [permOverInner]
  split
  · rename_i h; simp only [h]
  · rename_i next h; simp only [h, dite_eq_ite]; rcases swap s.mem current next.toNat <;> rfl

theorem applyPermInner_eq (length i current : Nat) (s : PermState α) : applyPermInner length i current s =
    match s.idx[current]? with
    | none => (.ub, s)
    | some next =>
      if next = (i : Int) then (.done, { s with idx := s.idx.set current current })
      else if next < 0 ∨ next ≥ (length : Int) ∨ next = (current : Int) then (.failFast, { s with idx := s.idx.set i next })
      else
        match swapAt s.elems current next.toNat with
        | none => (.ub, s)
        | some e => applyPermInner length i next.toNat ⟨e, s.idx.set current current⟩ := by
  rw [applyPermInner]
  split
  · rename_i h; simp only [h]
  · rename_i next h; simp only [h, dite_eq_ite]; rcases swapAt s.elems current next.toNat <;> rfl

theorem revOverInner_eq (length i : Nat) (s : PermMem σ) : revOverInner swap length i s =
    match s.idx[i]? with
    | none => (.ub, s)
    | some next =>
      if next = (i : Int) then (.done, s)
      else if next < 0 ∨ next ≥ (length : Int) then (.failFast, s)
      else
        match s.idx[next.toNat]? with
        | none => (.ub, s)
        | some nn =>
          if next = nn then (.failFast, s)
          else
            match swap s.mem i next.toNat with
            | none => (.ub, s)
            | some m => revOverInner swap length i ⟨m, (s.idx.set i nn).set next.toNat next⟩ := by
  rw [revOverInner]
  split
  · rename_i h; simp only [h]
  · rename_i next h
    simp only [h, dite_eq_ite]
    split
    · rfl
    · split
      · rfl
      · split
        · rename_i h'; simp only [h']
        · rename_i h'; simp only [h']; rcases swap s.mem i next.toNat <;> rfl

theorem applyRevInner_eq (length i : Nat) (s : PermState α) : applyRevInner length i s =
    match s.idx[i]? with
    | none => (.ub, s)
    | some next =>
      if next = (i : Int) then (.done, s)
      else if next < 0 ∨ next ≥ (length : Int) then (.failFast, s)
      else
        match s.idx[next.toNat]? with
        | none => (.ub, s)
        | some nn =>
          if next = nn then (.failFast, s)
          else
            match swapAt s.elems i next.toNat with
            | none => (.ub, s)
            | some e => applyRevInner length i ⟨e, (s.idx.set i nn).set next.toNat next⟩ := by
  rw [applyRevInner]
  split
  · rename_i h; simp only [h]
  · rename_i next h
    simp only [h, dite_eq_ite]
    split
    · rfl
    · split
      · rfl
      · split
        · rename_i h'; simp only [h']
        · rename_i h'; simp only [h']; rcases swapAt s.elems i next.toNat <;> rfl

theorem permOverInner_sim (hs : SwapSim swap R) (length i : Nat) (n : Nat) :
    ∀ (current : Nat) (m : σ) (l : List α) (idx : List Int), nonFixedFrom 0 idx ≤ n → R m l →
      EndSim R (permOverInner swap length i current ⟨m, idx⟩) (applyPermInner length i current ⟨l, idx⟩) := by
  induction n using Nat.strongRecOn with
  | ind n ih =>
    intro current m l idx hn hR
    rw [permOverInner_eq, applyPermInner_eq]
    simp only
    rcases h : idx[current]? with _ | next
    · intro hne; exact absurd rfl hne
    · simp only
      by_cases h1 : next = (i : Int)
      · simp only [h1, if_true]; exact fun _ => ⟨rfl, rfl, hR⟩
      · by_cases h2 : next < 0 ∨ next ≥ (length : Int) ∨ next = (current : Int)
        · simp only [h1, if_false, h2, if_true]; exact fun _ => ⟨rfl, rfl, hR⟩
        · simp only [h1, if_false, h2]
          rcases hsw : swapAt l current next.toNat with _ | l'
          · intro hne; exact absurd rfl hne
          · obtain ⟨m', hm', hR'⟩ := hs m l current next.toNat l' hR hsw
            rw [hm']
            have hlt : nonFixedFrom 0 (idx.set current current) < nonFixedFrom 0 idx := by
              have := nonFixedFrom_set idx 0 current next current h
              have hne : next ≠ (current : Int) := fun hc => h2 (Or.inr (Or.inr hc))
              simp [hne] at this
              omega
            exact ih _ (by omega) _ _ _ _ (Nat.le_refl _) hR'

theorem permOverOuter_sim (hs : SwapSim swap R) (length : Nat) (k : Nat) :
    ∀ (i : Nat) (m : σ) (l : List α) (idx : List Int), R m l →
      EndSim R (permOverOuter swap length k i ⟨m, idx⟩) (applyPermOuter length k i ⟨l, idx⟩) := by
  induction k with
  | zero => intro i m l idx hR; exact fun _ => ⟨rfl, rfl, hR⟩
  | succ k ih =>
    intro i m l idx hR
    have h := permOverInner_sim hs length i _ i m l idx (Nat.le_refl _) hR
    rw [permOverOuter, applyPermOuter]
    rcases h1 : applyPermInner length i i ⟨l, idx⟩ with ⟨e, l', idx'⟩
    rcases h2 : permOverInner swap length i i ⟨m, idx⟩ with ⟨e', m', idx''⟩
    rw [h1, h2] at h
    cases e with
    | done =>
      obtain ⟨a, b, c⟩ := h (by simp)
      simp only at a b c
      subst a b
      exact ih _ _ _ _ c
    | failFast =>
      obtain ⟨a, b, c⟩ := h (by simp)
      simp only at a b c
      subst a b
      exact fun _ => ⟨rfl, rfl, c⟩
    | ub => intro hne; exact absurd rfl hne

theorem permOver_sim (hs : SwapSim swap R) (m : σ) (l : List α) (idx : List Int) (hR : R m l) :
    EndSim R (permOver swap l.length ⟨m, idx⟩) (applyPermutation ⟨l, idx⟩) :=
  permOverOuter_sim hs _ _ 0 m l idx hR

theorem revOverInner_sim (hs : SwapSim swap R) (length i : Nat) (n : Nat) :
    ∀ (m : σ) (l : List α) (idx : List Int), nonFixedFrom 0 idx ≤ n → R m l →
      EndSim R (revOverInner swap length i ⟨m, idx⟩) (applyRevInner length i ⟨l, idx⟩) := by
  induction n using Nat.strongRecOn with
  | ind n ih =>
    intro m l idx hn hR
    rw [revOverInner_eq, applyRevInner_eq]
    simp only
    rcases h : idx[i]? with _ | next
    · intro hne; exact absurd rfl hne
    · simp only
      by_cases h1 : next = (i : Int)
      · simp only [h1, if_true]; exact fun _ => ⟨rfl, rfl, hR⟩
      · by_cases h2 : next < 0 ∨ next ≥ (length : Int)
        · simp only [h1, if_false, h2, if_true]; exact fun _ => ⟨rfl, rfl, hR⟩
        · simp only [h1, if_false, h2]
          rcases g : idx[next.toNat]? with _ | nn
          · intro hne; exact absurd rfl hne
          · simp only
            by_cases h3 : next = nn
            · simp only [h3, if_true]; exact fun _ => ⟨rfl, rfl, hR⟩
            · simp only [h3, if_false]
              rcases hsw : swapAt l i next.toNat with _ | l'
              · intro hne; exact absurd rfl hne
              · obtain ⟨m', hm', hR'⟩ := hs m l i next.toNat l' hR hsw
                rw [hm']
                have hlt : nonFixedFrom 0 ((idx.set i nn).set next.toNat next) < nonFixedFrom 0 idx := by
                  have hpos : ((next.toNat : Nat) : Int) = next := by omega
                  have e1 := nonFixedFrom_set idx 0 i next nn h
                  have hne : i ≠ next.toNat := by omega
                  have e2 := nonFixedFrom_set (idx.set i nn) 0 next.toNat nn next
                    (by rw [List.getElem?_set_ne hne]; exact g)
                  simp [hpos, h1] at e1 e2 ⊢
                  have : nn ≠ next := fun hc => h3 hc.symm
                  simp [this] at e2
                  split at e1 <;> omega
                exact ih _ (by omega) _ _ _ (Nat.le_refl _) hR'

theorem revOverOuter_sim (hs : SwapSim swap R) (length : Nat) (k : Nat) :
    ∀ (i : Nat) (m : σ) (l : List α) (idx : List Int), R m l →
      EndSim R (revOverOuter swap length k i ⟨m, idx⟩) (applyRevOuter length k i ⟨l, idx⟩) := by
  induction k with
  | zero => intro i m l idx hR; exact fun _ => ⟨rfl, rfl, hR⟩
  | succ k ih =>
    intro i m l idx hR
    have h := revOverInner_sim hs length i _ m l idx (Nat.le_refl _) hR
    rw [revOverOuter, applyRevOuter]
    rcases h1 : applyRevInner length i ⟨l, idx⟩ with ⟨e, l', idx'⟩
    rcases h2 : revOverInner swap length i ⟨m, idx⟩ with ⟨e', m', idx''⟩
    rw [h1, h2] at h
    cases e with
    | done =>
      obtain ⟨a, b, c⟩ := h (by simp)
      simp only at a b c
      subst a b
      exact ih _ _ _ _ c
    | failFast =>
      obtain ⟨a, b, c⟩ := h (by simp)
      simp only at a b c
      subst a b
      exact fun _ => ⟨rfl, rfl, c⟩
    | ub => intro hne; exact absurd rfl hne

theorem revOver_sim (hs : SwapSim swap R) (m : σ) (l : List α) (idx : List Int) (hR : R m l) :
    EndSim R (revOver swap l.length ⟨m, idx⟩) (applyReversePermutation ⟨l, idx⟩) :=
  revOverOuter_sim hs _ _ 0 m l idx hR

theorem shuffleOverLoop_sim (hs : SwapSim swap R) (draw : Nat → Nat) (i : Nat) :
    ∀ (m : σ) (l l' : List α), R m l → shuffleLoop draw i l = some l' → ∃ m', shuffleOverLoop swap draw i m = some m' ∧ R m' l' := by
  induction i with
  | zero =>
    intro m l l' hR h
    simp only [shuffleLoop, Option.some.injEq] at h
    subst h
    exact ⟨m, rfl, hR⟩
  | succ i ih =>
    intro m l l' hR h
    simp only [shuffleLoop] at h
    simp only [shuffleOverLoop]
    by_cases hj : i + 1 ≠ draw (i + 1)
    · rw [if_pos hj] at h ⊢
      rcases hsw : swapAt l (i + 1) (draw (i + 1)) with _ | l1
      · rw [hsw] at h; cases h
      · rw [hsw] at h
        obtain ⟨m1, hm1, hR1⟩ := hs m l _ _ l1 hR hsw
        rw [hm1]
        exact ih _ _ _ hR1 h
    · rw [if_neg hj] at h ⊢
      exact ih _ _ _ hR h

theorem shuffleOver_sim (hs : SwapSim swap R) (draw : Nat → Nat) (m : σ) (l l' : List α) (hR : R m l)
    (h : shuffle draw l = some l') : ∃ m', shuffleOver swap draw l.length m = some m' ∧ R m' l' :=
  shuffleOverLoop_sim hs draw _ m l l' hR h

end Makeshift
