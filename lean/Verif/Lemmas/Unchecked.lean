import Verif.Model.Unchecked
import Verif.Spec.Unchecked
import Verif.Lemmas.Zip
import Verif.Lemmas.Permutation

/-! Helper lemmas for algorithms without contract checks. -/

namespace Makeshift.Unchecked

open Makeshift Makeshift.Spec

/-! ## permutations -/

/-- How a run with checks relates to the existing model. -/
def Matches {α : Type} (r : PermEnd × PermState α) (run : Run α) : Prop :=
  match r.1 with
  | .done => run = .done r.2
  | .failFast => run = .failFast r.2
  | .ub => run = .ub

theorem bad_iff (length current : Nat) (next : Int) :
    (decide (next < 0) || decide (next ≥ (length : Int)) || decide (next = (current : Int))) = true ↔
      next < 0 ∨ next ≥ (length : Int) ∨ next = (current : Int) := by
  simp only [Bool.or_eq_true, decide_eq_true_eq]; tauto

/-- An index which repeats an earlier one keeps the loop going. -/
theorem permInner_stuck {α : Type} (length i current : Nat) (hi : current ≠ i) (fuel : Nat) (s : PermState α)
    (h : s.idx[current]? = some (current : Int)) : ∀ s', permInner .off length i fuel current s ≠ .done s' := by
  induction fuel generalizing s with
  | zero => intro s'; simp [permInner]
  | succ fuel ih =>
    intro s'
    have hne : ¬ ((current : Int) = (i : Int)) := by omega
    have hbad := (bad_iff length current (current : Int)).mpr (by tauto)
    have hlt : current < s.idx.length := by
      by_contra hc; rw [List.getElem?_eq_none (by omega)] at h; simp at h
    simp only [permInner, h, if_neg hne, hbad, if_true, Checks.expects]
    rw [if_neg (by omega)]
    split
    · simp
    · refine ih _ ?_ s'
      simp [hlt]

/-- A run which has finished does not change if it is given more steps. -/
theorem permInner_mono {α : Type} (c : Checks) (length i fuel d current : Nat) (s : PermState α)
    (h : permInner c length i fuel current s ≠ .unfinished) :
    permInner c length i (fuel + d) current s = permInner c length i fuel current s := by
  induction fuel generalizing current s with
  | zero => simp [permInner] at h
  | succ fuel ih =>
    rw [show fuel + 1 + d = (fuel + d) + 1 by omega]
    revert h
    simp only [permInner]
    cases hn : s.idx[current]? with
    | none => simp
    | some next =>
      simp only
      split
      · simp
      · split
        · split
          · simp
          · split
            · simp
            · intro h; exact ih _ _ h
        · simp

theorem permInner_cases {α : Type} (length i current : Nat) (s : PermState α) (hl : s.elems.length = length) :
    ((applyPermInner length i current s).1 = .done → ∀ c, ∃ k, ∀ fuel, k ≤ fuel →
      permInner c length i fuel current s = .done (applyPermInner length i current s).2) ∧
    (∃ k, ∀ fuel, k ≤ fuel → Matches (applyPermInner length i current s) (permInner .on length i fuel current s)) ∧
    ((applyPermInner length i current s).1 ≠ .done → ∀ fuel s', permInner .off length i fuel current s ≠ .done s') := by
  induction hm : nonFixedFrom 0 s.idx using Nat.strongRecOn generalizing current s with
  | _ m ih =>
  rw [applyPermInner]
  split
  · rename_i h
    refine ⟨by simp, ⟨1, fun fuel hf => ?_⟩, fun _ fuel s' => ?_⟩
    · obtain ⟨f, rfl⟩ : ∃ f, fuel = f + 1 := ⟨fuel - 1, by omega⟩
      simp [permInner, h, Matches]
    · cases fuel with
      | zero => simp [permInner]
      | succ f => simp [permInner, h]
  · rename_i next h
    by_cases hi : next = (i : Int)
    · rw [if_pos hi]
      refine ⟨fun _ c => ⟨1, fun fuel hf => ?_⟩, ⟨1, fun fuel hf => ?_⟩, by simp⟩
      all_goals
        obtain ⟨f, rfl⟩ : ∃ f, fuel = f + 1 := ⟨fuel - 1, by omega⟩
        simp [permInner, h, hi, Matches]
    · rw [if_neg hi]
      by_cases hb : next < 0 ∨ next ≥ (length : Int) ∨ next = (current : Int)
      · rw [dif_pos hb]
        have hbad := (bad_iff length current next).mpr hb
        refine ⟨by simp, ⟨1, fun fuel hf => ?_⟩, fun _ fuel s' => ?_⟩
        · obtain ⟨f, rfl⟩ : ∃ f, fuel = f + 1 := ⟨fuel - 1, by omega⟩
          simp only [permInner, h, if_neg hi, hbad, if_true, Bool.not_true, Checks.expects, Outcome.expects_false, Matches]
        · by_cases hc : next = (current : Int)
          · subst hc
            exact permInner_stuck length i current (by omega) fuel s h s'
          · cases fuel with
            | zero => simp [permInner]
            | succ f =>
              simp only [permInner, h, if_neg hi, hbad, if_true, Checks.expects]
              by_cases h0 : next < 0
              · rw [if_pos h0]; simp
              · rw [if_neg h0]
                have : s.elems[next.toNat]? = none := List.getElem?_eq_none (by omega)
                simp only [swapAt, this]
                split <;> simp_all
      · rw [dif_neg hb]
        have hbad : (decide (next < 0) || decide (next ≥ (length : Int)) || decide (next = (current : Int))) = false := by
          rw [Bool.eq_false_iff]; exact fun hc => hb ((bad_iff length current next).mp hc)
        have h0 : ¬ next < 0 := fun hc => hb (Or.inl hc)
        cases hsw : swapAt s.elems current next.toNat with
        | none =>
          simp only
          refine ⟨by simp, ⟨1, fun fuel hf => ?_⟩, fun _ fuel s' => ?_⟩
          · obtain ⟨f, rfl⟩ : ∃ f, fuel = f + 1 := ⟨fuel - 1, by omega⟩
            simp only [permInner, h, if_neg hi, hbad, Bool.false_eq_true, if_false, Bool.not_false, Checks.expects, Outcome.expects_true, if_neg h0, hsw, Matches]
          · cases fuel with
            | zero => simp [permInner]
            | succ f => simp only [permInner, h, if_neg hi, hbad, Bool.false_eq_true, if_false, Bool.not_false, Checks.expects, Outcome.expects_true, if_neg h0, hsw]; simp
        | some e =>
          simp only
          have hstep : ∀ c f, permInner c length i (f + 1) current s =
              permInner c length i f next.toNat ⟨e, s.idx.set current current⟩ := by
            intro c f
            cases c <;> simp only [permInner, h, if_neg hi, hbad, Bool.false_eq_true, if_false, Bool.not_false, Checks.expects, Outcome.expects_true, if_neg h0, hsw]
          have hdec : nonFixedFrom 0 (s.idx.set current current) < m := by
            have := nonFixedFrom_set s.idx 0 current next current h
            have hne : next ≠ (current : Int) := fun hc => hb (Or.inr (Or.inr hc))
            simp [hne] at this
            omega
          obtain ⟨h1, ⟨k, h2⟩, h3⟩ := ih _ hdec next.toNat ⟨e, s.idx.set current current⟩
            (by rw [← hl]; exact swapAt_length hsw) rfl
          refine ⟨fun hd c => ?_, ⟨k + 1, fun fuel hf => ?_⟩, fun hnd fuel s' => ?_⟩
          · obtain ⟨k, hk⟩ := h1 hd c
            refine ⟨k + 1, fun fuel hf => ?_⟩
            obtain ⟨f, rfl⟩ : ∃ f, fuel = f + 1 := ⟨fuel - 1, by omega⟩
            rw [hstep]; exact hk f (by omega)
          · obtain ⟨f, rfl⟩ : ∃ f, fuel = f + 1 := ⟨fuel - 1, by omega⟩
            rw [hstep]; exact h2 f (by omega)
          · cases fuel with
            | zero => simp [permInner]
            | succ f => rw [hstep]; exact h3 hnd f s'

theorem applyPermInner_length {α : Type} (length i current : Nat) (s : PermState α) :
    (applyPermInner length i current s).2.elems.length = s.elems.length ∧
    (applyPermInner length i current s).2.idx.length = s.idx.length := by
  induction hm : nonFixedFrom 0 s.idx using Nat.strongRecOn generalizing current s with
  | _ m ih =>
  rw [applyPermInner]
  split
  · simp
  · rename_i next h
    split
    · simp
    · split
      · simp
      · rename_i hb
        split
        · simp
        · rename_i e hsw
          have hdec : nonFixedFrom 0 (s.idx.set current current) < m := by
            have := nonFixedFrom_set s.idx 0 current next current h
            have hne : next ≠ (current : Int) := fun hc => hb (Or.inr (Or.inr hc))
            simp [hne] at this
            omega
          have := ih _ hdec next.toNat ⟨e, s.idx.set current current⟩ rfl
          simpa [swapAt_length hsw] using this

theorem permOuter_cases {α : Type} (length m i : Nat) (s : PermState α) (hl : s.elems.length = length) :
    ((applyPermOuter length m i s).1 = .done → ∀ c, ∃ k, ∀ fuel, k ≤ fuel →
      permOuter c fuel length m i s = .done (applyPermOuter length m i s).2) ∧
    (∃ k, ∀ fuel, k ≤ fuel → Matches (applyPermOuter length m i s) (permOuter .on fuel length m i s)) ∧
    ((applyPermOuter length m i s).1 ≠ .done → ∀ fuel s', permOuter .off fuel length m i s ≠ .done s') := by
  induction m generalizing i s with
  | zero => simp [applyPermOuter, permOuter, Matches]
  | succ m ih =>
    obtain ⟨h1, ⟨k2, h2⟩, h3⟩ := permInner_cases length i i s hl
    have hlen := (applyPermInner_length length i i s).1
    simp only [applyPermOuter, permOuter]
    generalize applyPermInner length i i s = r at h1 h2 h3 hlen
    obtain ⟨e, s1⟩ := r
    cases e with
    | done =>
      simp only
      obtain ⟨g1, ⟨l2, g2⟩, g3⟩ := ih (i + 1) s1 (by simpa [hl] using hlen)
      refine ⟨fun hd c => ?_, ⟨max k2 l2, fun fuel hf => ?_⟩, fun hnd fuel s' => ?_⟩
      · obtain ⟨k, hk⟩ := h1 rfl c
        obtain ⟨l, hll⟩ := g1 hd c
        refine ⟨max k l, fun fuel hf => ?_⟩
        rw [hk fuel (by omega)]
        exact hll fuel (by omega)
      · have := h2 fuel (by omega)
        simp only [Matches] at this
        rw [this]
        exact g2 fuel (by omega)
      · obtain ⟨k, hk⟩ := h1 rfl .off
        cases hr : permInner .off length i fuel i s with
        | done s2 =>
          simp only
          -- more steps do not change the result
          by_cases hf : k ≤ fuel
          · rw [hk fuel hf] at hr
            cases hr
            exact g3 hnd fuel s'
          · have hm := permInner_mono .off length i fuel (k - fuel) i s (by rw [hr]; simp)
            rw [show fuel + (k - fuel) = k by omega, hk k (by omega), hr] at hm
            cases hm
            exact g3 hnd fuel s'
        | _ => simp
    | failFast =>
      refine ⟨by simp, ⟨k2, fun fuel hf => ?_⟩, fun _ fuel s' => ?_⟩
      · have := h2 fuel hf
        simp only [Matches] at this ⊢
        rw [this]
      · have := h3 (by simp) fuel
        cases hr : permInner .off length i fuel i s with
        | done s2 => exact absurd hr (this s2)
        | _ => simp
    | ub =>
      refine ⟨by simp, ⟨k2, fun fuel hf => ?_⟩, fun _ fuel s' => ?_⟩
      · have := h2 fuel hf
        simp only [Matches] at this ⊢
        rw [this]
      · have := h3 (by simp) fuel
        cases hr : permInner .off length i fuel i s with
        | done s2 => exact absurd hr (this s2)
        | _ => simp

/-- All indices in range, and as many as elements. -/
structure InRange {α : Type} (n : Nat) (s : PermState α) : Prop where
  elems : s.elems.length = n
  idx : s.idx.length = n
  range : ∀ x ∈ s.idx, 0 ≤ x ∧ x < n

theorem InRange.set {α : Type} {n : Nat} {s : PermState α} (h : InRange n s) (p : Nat) (x : Int) (hx : 0 ≤ x ∧ x < n) :
    InRange n (⟨s.elems, s.idx.set p x⟩ : PermState α) where
  elems := h.elems
  idx := by simpa using h.idx
  range := by
    intro y hy
    rcases List.mem_or_eq_of_mem_set hy with hy | rfl
    · exact h.range y hy
    · exact hx

theorem permInner_inRange {α : Type} (n i : Nat) (hi : i < n) (fuel current : Nat) (hc : current < n) (s : PermState α)
    (h : InRange n s) : permInner .off n i fuel current s = .unfinished ∨
      ∃ s', permInner .off n i fuel current s = .done s' ∧ InRange n s' := by
  induction fuel generalizing current s with
  | zero => left; rfl
  | succ fuel ih =>
    obtain ⟨next, hg⟩ : ∃ next, s.idx[current]? = some next := ⟨_, List.getElem?_eq_getElem (by rw [h.idx]; exact hc)⟩
    have hr := h.range _ (List.mem_of_getElem? hg)
    simp only [permInner, hg]
    by_cases hni : next = (i : Int)
    · rw [if_pos hni]
      right
      exact ⟨_, rfl, h.set current current ⟨by omega, by omega⟩⟩
    · rw [if_neg hni]
      generalize hb : (decide (next < 0) || decide (next ≥ (n : Int)) || decide (next = (current : Int))) = bad
      have hs' : InRange n (if bad = true then (⟨s.elems, s.idx.set i next⟩ : PermState α) else s) := by
        split
        · exact h.set i next hr
        · exact h
      generalize (if bad = true then (⟨s.elems, s.idx.set i next⟩ : PermState α) else s) = s1 at hs' ⊢
      simp only [Checks.expects]
      rw [if_neg (by omega)]
      obtain ⟨e, he⟩ := swapAt_isSome s1.elems (a := current) (b := next.toNat) (by rw [hs'.elems]; exact hc)
        (by rw [hs'.elems]; omega)
      rw [he]
      refine ih next.toNat (by omega) _ ?_
      have := hs'.set current current ⟨by omega, by omega⟩
      exact ⟨by rw [← hs'.elems]; exact swapAt_length he, this.idx, this.range⟩

theorem permOuter_inRange {α : Type} (n fuel m i : Nat) (hm : i + m = n) (s : PermState α)
    (h : InRange n s) : permOuter .off fuel n m i s = .unfinished ∨
      ∃ s', permOuter .off fuel n m i s = .done s' := by
  induction m generalizing i s with
  | zero => right; exact ⟨s, rfl⟩
  | succ m ih =>
    simp only [permOuter]
    rcases permInner_inRange n i (by omega) fuel i (by omega) s h with h1 | ⟨s1, h1, h2⟩
    · rw [h1]; left; rfl
    · rw [h1]; exact ih (i + 1) (by omega) s1 h2

theorem cons_set_perm {l O : List Int} {i current : Nat} {next : Int} (h : l[current]? = some next)
    (hp : ((current : Int) :: l).Perm ((i : Int) :: O)) : (next :: l.set current current).Perm ((i : Int) :: O) :=
  ((perm_cons_set (current : Int) h).symm.trans hp)

/-- If no index occurs twice, the loop comes to an end or to an index out of range. -/
theorem permInner_nodup {α : Type} (n i current : Nat) (hc : current < n) (s : PermState α) (O : List Int) (hO : O.Nodup)
    (hp : ((current : Int) :: s.idx).Perm ((i : Int) :: O)) (hel : s.elems.length = n) (hil : s.idx.length = n) :
    ∃ k, (∀ fuel, k ≤ fuel → permInner .off n i fuel current s = .ub) ∨
      ∃ s', s'.idx.Perm O ∧ s'.elems.length = n ∧ ∀ fuel, k ≤ fuel → permInner .off n i fuel current s = .done s' := by
  induction hm : nonFixedFrom 0 s.idx using Nat.strongRecOn generalizing current s with
  | _ m ih =>
  obtain ⟨next, hg⟩ : ∃ next, s.idx[current]? = some next := ⟨_, List.getElem?_eq_getElem (by omega)⟩
  by_cases hi : next = (i : Int)
  · refine ⟨1, Or.inr ⟨{ s with idx := s.idx.set current current }, ?_, hel, fun fuel hf => ?_⟩⟩
    · have := cons_set_perm hg hp
      rw [hi] at this
      exact List.Perm.cons_inv this
    · obtain ⟨f, rfl⟩ : ∃ f, fuel = f + 1 := ⟨fuel - 1, by omega⟩
      simp only [permInner, hg, if_pos hi]
  · have hne : next ≠ (current : Int) := by
      intro hc'
      subst hc'
      have hmem : (current : Int) ∈ s.idx := List.mem_of_getElem? hg
      have hcount := hp.count_eq (current : Int)
      have h1 : 1 ≤ s.idx.count (current : Int) := List.one_le_count_iff.mpr hmem
      have h2 : O.count (current : Int) ≤ 1 := List.nodup_iff_count_le_one.mp hO _
      rw [List.count_cons_self, List.count_cons_of_ne (Ne.symm hi)] at hcount
      omega
    by_cases hb : next < 0 ∨ next ≥ (n : Int)
    · refine ⟨1, Or.inl fun fuel hf => ?_⟩
      obtain ⟨f, rfl⟩ : ∃ f, fuel = f + 1 := ⟨fuel - 1, by omega⟩
      have hbad := (bad_iff n current next).mpr (by tauto)
      simp only [permInner, hg, if_neg hi, hbad, if_true, Checks.expects]
      by_cases h0 : next < 0
      · rw [if_pos h0]
      · rw [if_neg h0]
        have : s.elems[next.toNat]? = none := List.getElem?_eq_none (by omega)
        simp only [swapAt, this]
        cases s.elems[current]? <;> rfl
    · have hbad : (decide (next < 0) || decide (next ≥ (n : Int)) || decide (next = (current : Int))) = false := by
        rw [Bool.eq_false_iff]; exact fun hc => by have := (bad_iff n current next).mp hc; tauto
      have h0 : ¬ next < 0 := fun hc => hb (Or.inl hc)
      obtain ⟨e, hsw⟩ := swapAt_isSome s.elems (a := current) (b := next.toNat) (by omega) (by omega)
      have hstep : ∀ f, permInner .off n i (f + 1) current s =
          permInner .off n i f next.toNat ⟨e, s.idx.set current current⟩ := by
        intro f
        simp only [permInner, hg, if_neg hi, hbad, Bool.false_eq_true, if_false, Checks.expects, if_neg h0, hsw]
      have hdec : nonFixedFrom 0 (s.idx.set current current) < m := by
        have := nonFixedFrom_set s.idx 0 current next current hg
        simp [hne] at this
        omega
      have hnn : ((next.toNat : Nat) : Int) = next := by omega
      obtain ⟨k, hk⟩ := ih _ hdec next.toNat (by omega) ⟨e, s.idx.set current current⟩
        (by rw [hnn]; exact cons_set_perm hg hp) (by rw [← hel]; exact swapAt_length hsw) (by simpa using hil) rfl
      refine ⟨k + 1, ?_⟩
      rcases hk with hk | ⟨s', h1, h2, hk⟩
      · left
        intro fuel hf
        obtain ⟨f, rfl⟩ : ∃ f, fuel = f + 1 := ⟨fuel - 1, by omega⟩
        rw [hstep]; exact hk f (by omega)
      · right
        refine ⟨s', h1, h2, fun fuel hf => ?_⟩
        obtain ⟨f, rfl⟩ : ∃ f, fuel = f + 1 := ⟨fuel - 1, by omega⟩
        rw [hstep]; exact hk f (by omega)

theorem permOuter_nodup {α : Type} (n m i : Nat) (hm : i + m = n) (s : PermState α) (hO : s.idx.Nodup)
    (hel : s.elems.length = n) (hil : s.idx.length = n) :
    ∃ k, (∀ fuel, k ≤ fuel → permOuter .off fuel n m i s = .ub) ∨
      ∃ s', ∀ fuel, k ≤ fuel → permOuter .off fuel n m i s = .done s' := by
  induction m generalizing i s with
  | zero => exact ⟨0, Or.inr ⟨s, fun _ _ => rfl⟩⟩
  | succ m ih =>
    obtain ⟨k, hk⟩ := permInner_nodup n i i (by omega) s s.idx hO (List.Perm.refl _) hel hil
    rcases hk with hk | ⟨s1, h1, h2, hk⟩
    · exact ⟨k, Or.inl fun fuel hf => by simp only [permOuter, hk fuel hf]⟩
    · obtain ⟨l, hl⟩ := ih (i + 1) (by omega) s1 (h1.nodup_iff.mpr hO) h2 (by rw [h1.length_eq]; exact hil)
      refine ⟨max k l, ?_⟩
      rcases hl with hl | ⟨s', hl⟩
      · left; intro fuel hf
        simp only [permOuter, hk fuel (by omega)]
        exact hl fuel (by omega)
      · right; refine ⟨s', fun fuel hf => ?_⟩
        simp only [permOuter, hk fuel (by omega)]
        exact hl fuel (by omega)

/-! ### reverse permutations -/

theorem revInner_mono {α : Type} (c : Checks) (length i fuel d : Nat) (s : PermState α)
    (h : revInner c length i fuel s ≠ .unfinished) :
    revInner c length i (fuel + d) s = revInner c length i fuel s := by
  induction fuel generalizing s with
  | zero => simp [revInner] at h
  | succ fuel ih =>
    rw [show fuel + 1 + d = (fuel + d) + 1 by omega]
    revert h
    simp only [revInner]
    cases hn : s.idx[i]? with
    | none => simp
    | some next =>
      simp only
      split
      · simp
      · split
        · split
          · simp
          · split
            · simp
            · split
              · split
                · simp
                · intro h; exact ih _ h
              · simp
        · simp

/-- An index which occurs twice keeps the loop going. -/
theorem revInner_stuck {α : Type} (length i : Nat) (next : Nat) (hne : next ≠ i) (fuel : Nat) (s : PermState α)
    (h : s.idx[i]? = some (next : Int)) (h' : s.idx[next]? = some (next : Int)) :
    ∀ s', revInner .off length i fuel s ≠ .done s' := by
  induction fuel generalizing s with
  | zero => intro s'; simp [revInner]
  | succ fuel ih =>
    intro s'
    have hni : ¬ ((next : Int) = (i : Int)) := by omega
    have hlt : next < s.idx.length := by
      by_contra hc; rw [List.getElem?_eq_none (by omega)] at h'; simp at h'
    have hlt' : i < s.idx.length := by
      by_contra hc; rw [List.getElem?_eq_none (by omega)] at h; simp at h
    simp only [revInner, h, if_neg hni, Checks.expects]
    rw [if_neg (by omega)]
    simp only [Int.toNat_natCast, h']
    split
    · simp
    · refine ih _ ?_ ?_ s'
      · simp [List.getElem?_set, hlt', hne]
      · simp [hlt]

theorem revInner_cases {α : Type} (length i : Nat) (s : PermState α) (hl : s.elems.length = length) :
    ((applyRevInner length i s).1 = .done → ∀ c, ∃ k, ∀ fuel, k ≤ fuel →
      revInner c length i fuel s = .done (applyRevInner length i s).2) ∧
    (∃ k, ∀ fuel, k ≤ fuel → Matches (applyRevInner length i s) (revInner .on length i fuel s)) ∧
    ((applyRevInner length i s).1 ≠ .done → ∀ fuel s', revInner .off length i fuel s ≠ .done s') ∧
    (applyRevInner length i s).2.elems.length = s.elems.length := by
  induction hm : nonFixedFrom 0 s.idx using Nat.strongRecOn generalizing s with
  | _ m ih =>
  rw [applyRevInner]
  split
  · rename_i h
    refine ⟨by simp, ⟨1, fun fuel hf => ?_⟩, fun _ fuel s' => ?_, rfl⟩
    · obtain ⟨f, rfl⟩ : ∃ f, fuel = f + 1 := ⟨fuel - 1, by omega⟩
      simp [revInner, h, Matches]
    · cases fuel with
      | zero => simp [revInner]
      | succ f => simp [revInner, h]
  · rename_i next h
    by_cases hi : next = (i : Int)
    · rw [dif_pos hi]
      refine ⟨fun _ c => ⟨1, fun fuel hf => ?_⟩, ⟨1, fun fuel hf => ?_⟩, by simp, rfl⟩
      all_goals
        obtain ⟨f, rfl⟩ : ∃ f, fuel = f + 1 := ⟨fuel - 1, by omega⟩
        simp [revInner, h, hi, Matches]
    · rw [dif_neg hi]
      by_cases hb : next < 0 ∨ next ≥ (length : Int)
      · rw [dif_pos hb]
        have hbad : (decide (next ≥ 0) && decide (next < (length : Int))) = false := by
          rw [Bool.eq_false_iff]; intro hc; simp only [Bool.and_eq_true, decide_eq_true_eq] at hc; omega
        refine ⟨by simp, ⟨1, fun fuel hf => ?_⟩, fun _ fuel s' => ?_, rfl⟩
        · obtain ⟨f, rfl⟩ : ∃ f, fuel = f + 1 := ⟨fuel - 1, by omega⟩
          simp only [revInner, h, if_neg hi, hbad, Checks.expects, Outcome.expects_false, Matches]
        · cases fuel with
          | zero => simp [revInner]
          | succ f =>
            simp only [revInner, h, if_neg hi, Checks.expects]
            by_cases h0 : next < 0
            · rw [if_pos h0]; simp
            · rw [if_neg h0]
              have : s.elems[next.toNat]? = none := List.getElem?_eq_none (by omega)
              split
              · simp
              · simp only [swapAt, this]
                split <;> simp_all
      · rw [dif_neg hb]
        have hbad : (decide (next ≥ 0) && decide (next < (length : Int))) = true := by
          simp only [Bool.and_eq_true, decide_eq_true_eq]; omega
        have h0 : ¬ next < 0 := by omega
        split
        · rename_i h'
          refine ⟨by simp, ⟨1, fun fuel hf => ?_⟩, fun _ fuel s' => ?_, rfl⟩
          · obtain ⟨f, rfl⟩ : ∃ f, fuel = f + 1 := ⟨fuel - 1, by omega⟩
            simp only [revInner, h, if_neg hi, hbad, Checks.expects, Outcome.expects_true, if_neg h0, h', Matches]
          · cases fuel with
            | zero => simp [revInner]
            | succ f => simp only [revInner, h, if_neg hi, Checks.expects, if_neg h0, h']; simp
        · rename_i nn h'
          have hnn : ((next.toNat : Nat) : Int) = next := by omega
          by_cases hn : next = nn
          · rw [dif_pos hn]
            refine ⟨by simp, ⟨1, fun fuel hf => ?_⟩, fun _ fuel s' => ?_, rfl⟩
            · obtain ⟨f, rfl⟩ : ∃ f, fuel = f + 1 := ⟨fuel - 1, by omega⟩
              have : decide (next ≠ nn) = false := by simpa using hn
              simp only [revInner, h, if_neg hi, hbad, Checks.expects, Outcome.expects_true, Outcome.expects_false, if_neg h0, h', this,
                Matches]
            · exact revInner_stuck length i next.toNat (by omega) fuel s (by rw [hnn]; exact h) (by rw [hnn, h', ← hn]) s'
          · rw [dif_neg hn]
            have hd : decide (next ≠ nn) = true := by simpa using hn
            cases hsw : swapAt s.elems i next.toNat with
            | none =>
              simp only
              refine ⟨by simp, ⟨1, fun fuel hf => ?_⟩, fun _ fuel s' => ?_, by simp⟩
              · obtain ⟨f, rfl⟩ : ∃ f, fuel = f + 1 := ⟨fuel - 1, by omega⟩
                simp only [revInner, h, if_neg hi, hbad, Checks.expects, Outcome.expects_true, if_neg h0, h', hd, hsw, Matches]
              · cases fuel with
                | zero => simp [revInner]
                | succ f => simp only [revInner, h, if_neg hi, Checks.expects, if_neg h0, h', hsw]; simp
            | some e =>
              simp only
              have hstep : ∀ c f, revInner c length i (f + 1) s =
                  revInner c length i f ⟨e, (s.idx.set i nn).set next.toNat next⟩ := by
                intro c f
                cases c
                · simp only [revInner, h, if_neg hi, hbad, Checks.expects, Outcome.expects_true, if_neg h0, h', hd, hsw]
                · simp only [revInner, h, if_neg hi, Checks.expects, if_neg h0, h', hsw]
              have hdec : nonFixedFrom 0 ((s.idx.set i nn).set next.toNat next) < m := by
                have h1 := nonFixedFrom_set s.idx 0 i next nn h
                have hne : i ≠ next.toNat := by omega
                have h2 := nonFixedFrom_set (s.idx.set i nn) 0 next.toNat nn next (by rw [List.getElem?_set_ne hne]; exact h')
                simp [hnn, hi] at h1 h2
                have : nn ≠ next := fun hc => hn hc.symm
                simp [this] at h2
                split at h1 <;> omega
              obtain ⟨h1, ⟨k, h2⟩, h3, h4⟩ := ih _ hdec ⟨e, (s.idx.set i nn).set next.toNat next⟩
                (by rw [← hl]; exact swapAt_length hsw) rfl
              refine ⟨fun hd c => ?_, ⟨k + 1, fun fuel hf => ?_⟩, fun hnd fuel s' => ?_, by rw [h4]; exact swapAt_length hsw⟩
              · obtain ⟨k, hk⟩ := h1 hd c
                refine ⟨k + 1, fun fuel hf => ?_⟩
                obtain ⟨f, rfl⟩ : ∃ f, fuel = f + 1 := ⟨fuel - 1, by omega⟩
                rw [hstep]; exact hk f (by omega)
              · obtain ⟨f, rfl⟩ : ∃ f, fuel = f + 1 := ⟨fuel - 1, by omega⟩
                rw [hstep]; exact h2 f (by omega)
              · cases fuel with
                | zero => simp [revInner]
                | succ f => rw [hstep]; exact h3 hnd f s'

theorem revOuter_cases {α : Type} (length m i : Nat) (s : PermState α) (hl : s.elems.length = length) :
    ((applyRevOuter length m i s).1 = .done → ∀ c, ∃ k, ∀ fuel, k ≤ fuel →
      revOuter c fuel length m i s = .done (applyRevOuter length m i s).2) ∧
    (∃ k, ∀ fuel, k ≤ fuel → Matches (applyRevOuter length m i s) (revOuter .on fuel length m i s)) ∧
    ((applyRevOuter length m i s).1 ≠ .done → ∀ fuel s', revOuter .off fuel length m i s ≠ .done s') := by
  induction m generalizing i s with
  | zero => simp [applyRevOuter, revOuter, Matches]
  | succ m ih =>
    obtain ⟨h1, ⟨k2, h2⟩, h3, hlen⟩ := revInner_cases length i s hl
    simp only [applyRevOuter, revOuter]
    generalize applyRevInner length i s = r at h1 h2 h3 hlen
    obtain ⟨e, s1⟩ := r
    cases e with
    | done =>
      simp only
      obtain ⟨g1, ⟨l2, g2⟩, g3⟩ := ih (i + 1) s1 (by simpa [hl] using hlen)
      refine ⟨fun hd c => ?_, ⟨max k2 l2, fun fuel hf => ?_⟩, fun hnd fuel s' => ?_⟩
      · obtain ⟨k, hk⟩ := h1 rfl c
        obtain ⟨l, hll⟩ := g1 hd c
        refine ⟨max k l, fun fuel hf => ?_⟩
        rw [hk fuel (by omega)]
        exact hll fuel (by omega)
      · have := h2 fuel (by omega)
        simp only [Matches] at this
        rw [this]
        exact g2 fuel (by omega)
      · obtain ⟨k, hk⟩ := h1 rfl .off
        cases hr : revInner .off length i fuel s with
        | done s2 =>
          simp only
          by_cases hf : k ≤ fuel
          · rw [hk fuel hf] at hr
            cases hr
            exact g3 hnd fuel s'
          · have hm := revInner_mono .off length i fuel (k - fuel) s (by rw [hr]; simp)
            rw [show fuel + (k - fuel) = k by omega, hk k (by omega), hr] at hm
            cases hm
            exact g3 hnd fuel s'
        | _ => simp
    | failFast =>
      refine ⟨by simp, ⟨k2, fun fuel hf => ?_⟩, fun _ fuel s' => ?_⟩
      · have := h2 fuel hf
        simp only [Matches] at this ⊢
        rw [this]
      · have := h3 (by simp) fuel
        cases hr : revInner .off length i fuel s with
        | done s2 => exact absurd hr (this s2)
        | _ => simp
    | ub =>
      refine ⟨by simp, ⟨k2, fun fuel hf => ?_⟩, fun _ fuel s' => ?_⟩
      · have := h2 fuel hf
        simp only [Matches] at this ⊢
        rw [this]
      · have := h3 (by simp) fuel
        cases hr : revInner .off length i fuel s with
        | done s2 => exact absurd hr (this s2)
        | _ => simp

theorem revInner_inRange {α : Type} (n i : Nat) (hi : i < n) (fuel : Nat) (s : PermState α)
    (h : InRange n s) : revInner .off n i fuel s = .unfinished ∨
      ∃ s', revInner .off n i fuel s = .done s' ∧ InRange n s' := by
  induction fuel generalizing s with
  | zero => left; rfl
  | succ fuel ih =>
    obtain ⟨next, hg⟩ : ∃ next, s.idx[i]? = some next := ⟨_, List.getElem?_eq_getElem (by rw [h.idx]; exact hi)⟩
    have hr := h.range _ (List.mem_of_getElem? hg)
    simp only [revInner, hg]
    by_cases hni : next = (i : Int)
    · rw [if_pos hni]
      right
      exact ⟨_, rfl, h⟩
    · rw [if_neg hni]
      simp only [Checks.expects]
      rw [if_neg (by omega)]
      obtain ⟨nn, hg'⟩ : ∃ nn, s.idx[next.toNat]? = some nn := ⟨_, List.getElem?_eq_getElem (by rw [h.idx]; omega)⟩
      have hr' := h.range _ (List.mem_of_getElem? hg')
      obtain ⟨e, he⟩ := swapAt_isSome s.elems (a := i) (b := next.toNat) (by rw [h.elems]; exact hi) (by rw [h.elems]; omega)
      simp only [hg', he]
      refine ih _ ?_
      have := (h.set i nn hr').set next.toNat next hr
      exact ⟨by rw [← h.elems]; exact swapAt_length he, this.idx, this.range⟩

theorem revOuter_inRange {α : Type} (n fuel m i : Nat) (hm : i + m = n) (s : PermState α)
    (h : InRange n s) : revOuter .off fuel n m i s = .unfinished ∨
      ∃ s', revOuter .off fuel n m i s = .done s' := by
  induction m generalizing i s with
  | zero => right; exact ⟨s, rfl⟩
  | succ m ih =>
    simp only [revOuter]
    rcases revInner_inRange n i (by omega) fuel s h with h1 | ⟨s1, h1, h2⟩
    · rw [h1]; left; rfl
    · rw [h1]; exact ih (i + 1) (by omega) s1 h2

theorem swap_idx_perm {l : List Int} {a b : Nat} {x y : Int} (hx : l[a]? = some x) (hy : l[b]? = some y) :
    ((l.set a y).set b x).Perm l := by
  have : swapAt l a b = some ((l.set a y).set b x) := by simp [swapAt, hx, hy]
  exact swapAt_perm this

theorem revInner_nodup {α : Type} (n i : Nat) (hi' : i < n) (s : PermState α) (hO : s.idx.Nodup)
    (hel : s.elems.length = n) (hil : s.idx.length = n) :
    ∃ k, (∀ fuel, k ≤ fuel → revInner .off n i fuel s = .ub) ∨
      ∃ s', s'.idx.Perm s.idx ∧ s'.elems.length = n ∧ ∀ fuel, k ≤ fuel → revInner .off n i fuel s = .done s' := by
  induction hm : nonFixedFrom 0 s.idx using Nat.strongRecOn generalizing s with
  | _ m ih =>
  obtain ⟨next, hg⟩ : ∃ next, s.idx[i]? = some next := ⟨_, List.getElem?_eq_getElem (by omega)⟩
  by_cases hi : next = (i : Int)
  · refine ⟨1, Or.inr ⟨s, List.Perm.refl _, hel, fun fuel hf => ?_⟩⟩
    obtain ⟨f, rfl⟩ : ∃ f, fuel = f + 1 := ⟨fuel - 1, by omega⟩
    simp only [revInner, hg, if_pos hi]
  · by_cases hb : next < 0 ∨ next ≥ (n : Int)
    · refine ⟨1, Or.inl fun fuel hf => ?_⟩
      obtain ⟨f, rfl⟩ : ∃ f, fuel = f + 1 := ⟨fuel - 1, by omega⟩
      simp only [revInner, hg, if_neg hi, Checks.expects]
      by_cases h0 : next < 0
      · rw [if_pos h0]
      · rw [if_neg h0]
        have : s.idx[next.toNat]? = none := List.getElem?_eq_none (by omega)
        simp only [this]
    · have h0 : ¬ next < 0 := fun hc => hb (Or.inl hc)
      obtain ⟨nn, hg'⟩ : ∃ nn, s.idx[next.toNat]? = some nn := ⟨_, List.getElem?_eq_getElem (by omega)⟩
      have hnn : ((next.toNat : Nat) : Int) = next := by omega
      have hne : nn ≠ next := by
        intro hc
        subst hc
        have := nodup_get_inj hO hg hg'
        omega
      obtain ⟨e, hsw⟩ := swapAt_isSome s.elems (a := i) (b := next.toNat) (by omega) (by omega)
      have hstep : ∀ f, revInner .off n i (f + 1) s = revInner .off n i f ⟨e, (s.idx.set i nn).set next.toNat next⟩ := by
        intro f
        simp only [revInner, hg, if_neg hi, Checks.expects, if_neg h0, hg', hsw]
      have hdec : nonFixedFrom 0 ((s.idx.set i nn).set next.toNat next) < m := by
        have h1 := nonFixedFrom_set s.idx 0 i next nn hg
        have hne' : i ≠ next.toNat := by omega
        have h2 := nonFixedFrom_set (s.idx.set i nn) 0 next.toNat nn next (by rw [List.getElem?_set_ne hne']; exact hg')
        simp [hnn, hi] at h1 h2
        simp [hne] at h2
        split at h1 <;> omega
      have hpm := swap_idx_perm hg hg'
      obtain ⟨k, hk⟩ := ih _ hdec ⟨e, (s.idx.set i nn).set next.toNat next⟩ (hpm.nodup_iff.mpr hO)
        (by rw [← hel]; exact swapAt_length hsw) (by simpa using hil) rfl
      refine ⟨k + 1, ?_⟩
      rcases hk with hk | ⟨s', h1, h2, hk⟩
      · left
        intro fuel hf
        obtain ⟨f, rfl⟩ : ∃ f, fuel = f + 1 := ⟨fuel - 1, by omega⟩
        rw [hstep]; exact hk f (by omega)
      · right
        refine ⟨s', h1.trans hpm, h2, fun fuel hf => ?_⟩
        obtain ⟨f, rfl⟩ : ∃ f, fuel = f + 1 := ⟨fuel - 1, by omega⟩
        rw [hstep]; exact hk f (by omega)

theorem revOuter_nodup {α : Type} (n m i : Nat) (hm : i + m = n) (s : PermState α) (hO : s.idx.Nodup)
    (hel : s.elems.length = n) (hil : s.idx.length = n) :
    ∃ k, (∀ fuel, k ≤ fuel → revOuter .off fuel n m i s = .ub) ∨
      ∃ s', ∀ fuel, k ≤ fuel → revOuter .off fuel n m i s = .done s' := by
  induction m generalizing i s with
  | zero => exact ⟨0, Or.inr ⟨s, fun _ _ => rfl⟩⟩
  | succ m ih =>
    obtain ⟨k, hk⟩ := revInner_nodup n i (by omega) s hO hel hil
    rcases hk with hk | ⟨s1, h1, h2, hk⟩
    · exact ⟨k, Or.inl fun fuel hf => by simp only [revOuter, hk fuel hf]⟩
    · obtain ⟨l, hl⟩ := ih (i + 1) (by omega) s1 (h1.nodup_iff.mpr hO) h2 (by rw [h1.length_eq]; exact hil)
      refine ⟨max k l, ?_⟩
      rcases hl with hl | ⟨s', hl⟩
      · left; intro fuel hf
        simp only [revOuter, hk fuel (by omega)]
        exact hl fuel (by omega)
      · right; refine ⟨s', fun fuel hf => ?_⟩
        simp only [revOuter, hk fuel (by omega)]
        exact hl fuel (by omega)

end Makeshift.Unchecked
