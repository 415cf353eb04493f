import Verif.Spec.ShuffleAnswers
import Verif.Lemmas.Permutation
import Verif.Lemmas.PermutationShort

/-! Helper lemmas for C167. -/

namespace Makeshift.ShuffleAnswers

open Spec

variable {α : Type}

/-- One step with a number which is a position. -/
def move (l : List α) (i d : Nat) : List α := if i ≠ d then (swapAt l i d).getD l else l

theorem move_perm (l : List α) (i d : Nat) : (move l i d).Perm l := by
  unfold move
  split
  · cases h : swapAt l i d with
    | none => exact List.Perm.refl _
    | some l' => exact swapAt_perm h
  · exact List.Perm.refl _

theorem move_length (l : List α) (i d : Nat) : (move l i d).length = l.length := (move_perm l i d).length_eq

theorem move_append (a b : List α) (i d : Nat) (hi : i < a.length) (hd : d < a.length) : move (a ++ b) i d = move a i d ++ b := by
  unfold move
  split
  · obtain ⟨l', h⟩ := swapAt_isSome a hi hd
    rw [h, swapAt_append h]; rfl
  · rfl

theorem move_last (l : List α) (i d : Nat) (hl : l.length = i + 1) (hd : d ≤ i) :
    ∃ a y, move l i d = a ++ [y] ∧ a.length = i ∧ l[d]? = some y := by
  have hlen : (move l i d).length = i + 1 := by rw [move_length, hl]
  have hne : move l i d ≠ [] := fun h => by rw [h] at hlen; simp at hlen
  refine ⟨(move l i d).dropLast, (move l i d).getLast hne, (List.dropLast_append_getLast hne).symm, by simp [hlen], ?_⟩
  have hg : (move l i d)[i]? = l[d]? := by
    unfold move
    split
    · obtain ⟨l', h⟩ := swapAt_isSome l (a := i) (b := d) (by omega) (by omega)
      rw [h, Option.getD_some, swapAt_get h]
      simp
    · rename_i h
      rw [show i = d by omega]
  rw [← hg, List.getLast_eq_getElem, List.getElem?_eq_getElem (by omega)]
  simp [hlen]

/-- The range after the given numbers. -/
def after : List Nat → Nat → List α → List α
  | d :: ds, i + 1, l => after ds i (move l (i + 1) d)
  | _, _, l => l

theorem after_perm (ds : List Nat) : ∀ (i : Nat) (l : List α), (after ds i l).Perm l := by
  induction ds with
  | nil => intro i l; simp [after]
  | cons d ds ih =>
    intro i l
    cases i with
    | zero => simp [after]
    | succ i => exact (ih i _).trans (move_perm l _ d)

theorem after_length (ds : List Nat) (i : Nat) (l : List α) : (after ds i l).length = l.length := (after_perm ds i l).length_eq

theorem fair_tail {n d : Nat} {ds : List Nat} (h : Fair (n + 1) (d :: ds)) : d < n + 1 ∧ Fair n ds :=
  ⟨by have := h 0 d rfl; omega, fun m e hm => by have := h (m + 1) e hm; omega⟩

theorem fair_cons {n d : Nat} {ds : List Nat} (h1 : d < n + 1) (h2 : Fair n ds) : Fair (n + 1) (d :: ds) := by
  rintro (_ | m) e hm
  · cases hm; omega
  · have := h2 m e hm; omega

theorem after_append (ds : List Nat) : ∀ (i : Nat) (a b : List α), a.length = i + 1 → Fair (i + 1) ds → after ds i (a ++ b) = after ds i a ++ b := by
  induction ds with
  | nil => intro i a b _ _; simp [after]
  | cons d ds ih =>
    intro i a b ha hf
    cases i with
    | zero => simp [after]
    | succ i =>
      obtain ⟨h1, h2⟩ := fair_tail hf
      simp only [after]
      rw [move_append a b _ _ (by omega) (by omega)]
      obtain ⟨c, y, h3, h4, -⟩ := move_last a (i + 1) d ha (by omega)
      rw [h3, List.append_assoc, ih i c _ h4 h2, ih i c _ h4 h2, List.append_assoc]

/-- The first number determines the last element, the others the rest. -/
theorem after_cons (d : Nat) (ds : List Nat) (i : Nat) (l : List α) (hl : l.length = i + 1 + 1) (hf : Fair (i + 1 + 1) (d :: ds)) :
    ∃ a y, a.length = i + 1 ∧ l[d]? = some y ∧ (a ++ [y]).Perm l ∧ (∀ ds', Fair (i + 1) ds' → after (d :: ds') (i + 1) l = after ds' i a ++ [y]) := by
  obtain ⟨h1, h2⟩ := fair_tail hf
  obtain ⟨a, y, h3, h4, h5⟩ := move_last l (i + 1) d hl (by omega)
  exact ⟨a, y, h4, h5, h3 ▸ move_perm l _ _, fun ds' hds' => by simp only [after]; rw [h3, after_append ds' i a [y] h4 hds']⟩

theorem fair_nil (n : Nat) : Fair n [] := fun m d h => by simp at h

theorem after_sample (k : Nat) : ∀ (i : Nat) (l : List α) (s : List α), l.Nodup → l.length = i + 1 → k ≤ i → s.Nodup → (∀ x ∈ s, x ∈ l) → s.length = k →
    ∃ ds, (ds.length = k ∧ Fair (i + 1) ds ∧ (after ds i l).drop (i + 1 - k) = s) ∧
      ∀ ds', ds'.length = k → Fair (i + 1) ds' → (after ds' i l).drop (i + 1 - k) = s → ds' = ds := by
  induction k with
  | zero =>
    intro i l s _ hl _ _ _ hs
    rw [List.length_eq_zero_iff] at hs
    subst hs
    exact ⟨[], ⟨rfl, fair_nil _, by simp [after, hl]⟩, fun ds' h _ _ => List.length_eq_zero_iff.1 h⟩
  | succ k ih =>
    intro i l s hn hl hk hsn hsl hs
    obtain ⟨i, rfl⟩ : ∃ j, i = j + 1 := ⟨i - 1, by omega⟩
    have hne : s ≠ [] := fun h => by rw [h] at hs; simp at hs
    obtain ⟨s', y, rfl⟩ : ∃ s' y, s = s' ++ [y] := ⟨_, _, (List.dropLast_append_getLast hne).symm⟩
    rw [List.length_append, List.length_singleton, Nat.add_right_cancel_iff] at hs
    obtain ⟨d, hd⟩ := List.getElem?_of_mem (hsl y (by simp))
    have hdl : d < l.length := (List.getElem?_eq_some_iff.1 hd).1
    obtain ⟨a, y', ha, hy', hp, hafter⟩ := after_cons d [] i l hl (fair_cons (by omega) (fair_nil _))
    rw [hd] at hy'
    cases hy'
    have hcut : ∀ ds', Fair (i + 1) ds' → (after (d :: ds') (i + 1) l).drop (i + 1 + 1 - (k + 1)) = (after ds' i a).drop (i + 1 - k) ++ [y] := by
      intro ds' hds'
      rw [hafter ds' hds', List.drop_append_of_le_length (by rw [after_length, ha]; omega), show i + 1 + 1 - (k + 1) = i + 1 - k by omega]
    have hna : (a ++ [y]).Nodup := hp.nodup_iff.2 hn
    rw [List.nodup_append] at hna hsn
    obtain ⟨ds, ⟨h1, h2, h3⟩, h4⟩ := ih i a s' hna.1 ha (by omega) hsn.1 (fun x hx => by
      have hx' : x ∈ a ++ [y] := hp.mem_iff.2 (hsl x (by simp [hx]))
      rw [List.mem_append, List.mem_singleton] at hx'
      exact hx'.resolve_right (hsn.2.2 x hx y (by simp))) hs
    refine ⟨d :: ds, ⟨by simp [h1], fair_cons (by omega) h2, by rw [hcut ds h2, h3]⟩, fun ds' h5 h6 h7 => ?_⟩
    obtain _ | ⟨d', ds'⟩ := ds'
    · simp at h5
    · obtain ⟨a', z, ha', hz, -, hafter'⟩ := after_cons d' ds' i l hl h6
      rw [hafter' ds' (fair_tail h6).2, List.drop_append_of_le_length (by rw [after_length, ha']; omega)] at h7
      have hyz : z = y := by
        have := congrArg List.getLast? h7
        simpa using this
      subst hyz
      have hdd : d' = d := by
        obtain ⟨u1, u2⟩ := List.getElem?_eq_some_iff.1 hz
        obtain ⟨v1, v2⟩ := List.getElem?_eq_some_iff.1 hd
        exact (List.Nodup.getElem_inj_iff hn).1 (u2.trans v2.symm)
      subst hdd
      rw [← List.drop_append_of_le_length (l₂ := [z]) (by rw [after_length, ha']; omega), ← hafter' ds' (fair_tail h6).2, hcut ds' (fair_tail h6).2] at h7
      rw [h4 ds' (by simpa using h5) (fair_tail h6).2 (List.append_cancel_right h7)]

theorem fair_take {n : Nat} {ds : List Nat} (h : Fair n ds) (k : Nat) : Fair n (ds.take k) := fun m d hm => by
  rw [List.getElem?_take] at hm
  split at hm
  · exact h m d hm
  · cases hm

theorem after_take (ds : List Nat) : ∀ (i k : Nat) (l : List α), l.length = i + 1 → Fair (i + 1) ds → k ≤ ds.length → k ≤ i →
    (after ds i l).drop (i + 1 - k) = (after (ds.take k) i l).drop (i + 1 - k) := by
  induction ds with
  | nil => intro i k l _ _ _ _; simp
  | cons d ds ih =>
    intro i k l hl hf hk hki
    cases k with
    | zero => rw [List.drop_eq_nil_of_le (by rw [after_length]; omega), List.drop_eq_nil_of_le (by rw [after_length]; omega)]
    | succ k =>
      obtain ⟨i, rfl⟩ : ∃ j, i = j + 1 := ⟨i - 1, by omega⟩
      obtain ⟨a, y, ha, -, -, hafter⟩ := after_cons d ds i l hl hf
      have hf' := (fair_tail hf).2
      rw [List.take_succ_cons, hafter ds hf', hafter _ (fair_take hf' k), List.drop_append_of_le_length (by rw [after_length, ha]; omega),
        List.drop_append_of_le_length (by rw [after_length, ha]; omega), show i + 1 + 1 - (k + 1) = i + 1 - k by omega,
        ih i k a ha hf' (by simpa using hk) (by omega)]

/-- The loop draws numbers `ds`, moves elements accordingly, and ends in one of these ways. -/
theorem loop_run (w : Answers) (i : Nat) : ∀ (made : List Nat) (l : List α), i < l.length ∨ i = 0 → ∃ ds,
    (loop w i made l).draws = made ++ ds ∧ (∀ m d, ds[m]? = some d → w (made ++ ds.take m) = .ok d) ∧ ds.length ≤ i ∧ (loop w i made l).elems.Perm l ∧
    (((loop w i made l).out = .ok () ∧ ds.length = i ∧ (∀ d ∈ ds, d < l.length) ∧ (loop w i made l).elems = after ds i l) ∨
     (ds.length < i ∧ (∀ d ∈ ds, d < l.length) ∧ (loop w i made l).elems = after ds i l ∧
       ((∃ e, w (made ++ ds) = .throw e ∧ (loop w i made l).out = .throw e) ∨ (w (made ++ ds) = .failFast ∧ (loop w i made l).out = .failFast) ∨
        (w (made ++ ds) = .ub ∧ (loop w i made l).out = .ub))) ∨
     ((loop w i made l).out = .ub ∧ ∃ d, ds.getLast? = some d ∧ l.length ≤ d)) := by
  induction i with
  | zero => intro made l _; exact ⟨[], by simp [loop, after]⟩
  | succ i ih =>
    intro made l hi
    have hi : i + 1 < l.length := hi.resolve_right (by omega)
    cases hw : w made with
    | throw e => exact ⟨[], by simp [loop, hw, after]⟩
    | failFast => exact ⟨[], by simp [loop, hw, after]⟩
    | ub => exact ⟨[], by simp [loop, hw, after]⟩
    | ok j =>
      by_cases hj : j < l.length
      · have hstep : loop w (i + 1) made l = loop w i (made ++ [j]) (move l (i + 1) j) := by
          simp only [loop, hw, move]
          split
          · obtain ⟨l', h⟩ := swapAt_isSome l (a := i + 1) (b := j) hi hj
            rw [h]; rfl
          · rfl
        obtain ⟨ds, h1, h2, h3, h4, h5⟩ := ih (made ++ [j]) (move l (i + 1) j) (.inl (by rw [move_length]; omega))
        rw [hstep]
        refine ⟨j :: ds, by rw [h1]; simp, ?_, by simp; omega, h4.trans (move_perm _ _ _), ?_⟩
        · rintro (_ | m) d hm
          · cases hm; simpa using hw
          · have := h2 m d hm
            simpa using this
        · rw [move_length] at h5
          rw [show made ++ j :: ds = made ++ [j] ++ ds by simp]
          rcases h5 with ⟨a, b, c, e⟩ | ⟨a, b, c, e⟩ | ⟨a, d, b, c⟩
          · exact .inl ⟨a, by simp [b], by simpa using ⟨hj, c⟩, e⟩
          · exact .inr (.inl ⟨by simp; omega, by simpa using ⟨hj, b⟩, c, e⟩)
          · refine .inr (.inr ⟨a, d, ?_, c⟩)
            rw [List.getLast?_cons, b]; rfl
      · have hs : swapAt l (i + 1) j = none := by
          simp only [swapAt]
          rw [List.getElem?_eq_none (by omega : l.length ≤ j)]
          cases l[i + 1]? <;> rfl
        have hstep : loop w (i + 1) made l = ⟨made ++ [j], l, .ub⟩ := by
          simp only [loop, hw]
          rw [if_pos (by omega), hs]
        rw [hstep]
        refine ⟨[j], rfl, ?_, by simp, List.Perm.refl _, .inr (.inr ⟨rfl, j, rfl, by omega⟩)⟩
        rintro (_ | m) d hm
        · cases hm; simpa using hw
        · simp at hm

theorem loop_scripted (ds : List Nat) (e : Str) (l : List α) (hd : Fair l.length ds) (hl : ds.length < l.length) :
    (shuffle (scripted ds e) l).elems = after ds (l.length - 1) l := by
  obtain ⟨ds', h1, h2, h3, -, h5⟩ := loop_run (scripted ds e) (l.length - 1) [] l (by omega)
  have hpre : ∀ (m d : Nat), ds'[m]? = some d → ds[m]? = some d := by
    intro m d hm
    have := h2 m d hm
    have hml := (List.getElem?_eq_some_iff.1 hm).1
    simp only [List.nil_append, scripted, List.length_take, Nat.min_eq_left (Nat.le_of_lt hml)] at this
    split at this
    · cases this; assumption
    · cases this
  have hle : ds'.length ≤ ds.length := by
    by_contra hc
    have hm : ds'[ds.length]? = some (ds'[ds.length]'(by omega)) := List.getElem?_eq_getElem _
    have := hpre _ _ hm
    simp at this
  have heq : ds'.length = ds.length → ds' = ds := by
    intro h
    apply List.ext_getElem? 
    intro m
    cases hm : ds'[m]? with
    | some d => exact (hpre m d hm).symm
    | none =>
      rw [List.getElem?_eq_none_iff] at hm
      exact (List.getElem?_eq_none (by omega)).symm
  show (loop (scripted ds e) (l.length - 1) [] l).elems = _
  rcases h5 with ⟨-, b, -, h⟩ | ⟨a, -, h, h6⟩ | ⟨-, d, b, c⟩
  · rw [h, heq (by omega)]
  · rw [h, heq]
    by_contra hc
    have hs : scripted ds e ([] ++ ds') = .ok (ds[ds'.length]'(by omega)) := by
      simp only [List.nil_append, scripted]
      rw [List.getElem?_eq_getElem (by omega)]
    rw [hs] at h6
    simp at h6
  · have hne : ds' ≠ [] := fun h => by rw [h] at b; cases b
    rw [List.getLast?_eq_getElem?] at b
    have := hd _ _ (hpre _ _ b)
    omega

end Makeshift.ShuffleAnswers
