import Verif.Lemmas.Expand
import Verif.Spec.SearchOrders

/-! Helper lemmas for lookups with arbitrary comparison operators. -/

namespace Makeshift

open Spec

theorem binarySearchLoop_safe {α : Type} (lt eq : α → α → Bool) (value : α) (values : List α)
    (first last : Int) (h0 : 0 ≤ first) (h1 : first ≤ last) (h2 : last ≤ values.length) :
    ∃ i, binarySearchLoop lt eq value values first last = .ok i ∧
      (i = -1 ∨ (first ≤ i ∧ i < last ∧ ∃ x, values[i.toNat]? = some x ∧
        (eq x value = true ∨ (lt x value = false ∧ lt value x = false)))) := by
  induction hm : (last - first).toNat using Nat.strongRecOn generalizing first last with
  | _ m ih =>
  unfold binarySearchLoop
  by_cases hgt : last - first > 1
  · rw [dif_pos hgt]
    simp only
    have hb1 : first + (last - first) / 2 < last := by omega
    have hb2 : first < first + (last - first) / 2 := by omega
    generalize hhalf : first + (last - first) / 2 = half at hb1 hb2
    obtain ⟨x, hx, hx'⟩ := at?_some values half (by omega) (by omega)
    rw [hx]
    simp only
    cases hlt : lt x value with
    | true =>
      simp only [if_true]
      obtain ⟨i, hi, hr⟩ := ih _ (by omega) (half + 1) last (by omega) (by omega) h2 rfl
      refine ⟨i, hi, ?_⟩
      rcases hr with hr | ⟨hr1, hr2, hr3⟩
      · exact Or.inl hr
      · exact Or.inr ⟨by omega, hr2, hr3⟩
    | false =>
      simp only [Bool.false_eq_true, if_false]
      cases hgt' : lt value x with
      | true =>
        simp only [if_true]
        obtain ⟨i, hi, hr⟩ := ih _ (by omega) first half (by omega) (by omega) (by omega) rfl
        refine ⟨i, hi, ?_⟩
        rcases hr with hr | ⟨hr1, hr2, hr3⟩
        · exact Or.inl hr
        · exact Or.inr ⟨hr1, by omega, hr3⟩
      | false =>
        simp only [Bool.false_eq_true, if_false]
        by_cases hl : half + 1 = last
        · rw [dif_pos hl]
          exact ⟨half, rfl, Or.inr ⟨by omega, hb1, x, hx', Or.inr ⟨hlt, hgt'⟩⟩⟩
        · rw [dif_neg hl]
          obtain ⟨i, hi, hr⟩ := ih _ (by omega) first (half + 1) (by omega) (by omega) (by omega) rfl
          refine ⟨i, hi, ?_⟩
          rcases hr with hr | ⟨hr1, hr2, hr3⟩
          · exact Or.inl hr
          · exact Or.inr ⟨hr1, by omega, hr3⟩
  · rw [dif_neg hgt]
    by_cases h3 : last - first = 1
    · rw [if_pos h3]
      obtain ⟨x, hx, hx'⟩ := at?_some values first (by omega) (by omega)
      rw [hx]
      simp only
      by_cases he : eq x value = true
      · rw [if_pos he]
        exact ⟨first, rfl, Or.inr ⟨by omega, by omega, x, hx', Or.inl he⟩⟩
      · rw [if_neg he]
        exact ⟨-1, rfl, Or.inl rfl⟩
    · rw [if_neg h3]
      exact ⟨-1, rfl, Or.inl rfl⟩

theorem linearSearchFrom_any {α : Type} (eq : α → α → Bool) (value : α) (j : Nat) (values : List α) :
    (linearSearchFrom eq value j values = -1 ∧ ∀ x ∈ values, eq x value = false) ∨
    ∃ k : Nat, linearSearchFrom eq value j values = (j : Int) + k ∧
      ∃ x, values[k]? = some x ∧ eq x value = true ∧ ∀ l : Nat, l < k → ∀ y, values[l]? = some y → eq y value = false := by
  induction values generalizing j with
  | nil => left; simp [linearSearchFrom]
  | cons x r ih =>
    simp only [linearSearchFrom]
    by_cases h : eq x value = true
    · rw [if_pos h]
      right; exact ⟨0, by simp, x, by simp, h, fun l hl => by omega⟩
    · rw [if_neg h]
      rcases ih (j + 1) with ⟨h1, h2⟩ | ⟨k, h1, y, h2, h3, h4⟩
      · left
        refine ⟨by simpa using h1, fun z hz => ?_⟩
        rcases List.mem_cons.mp hz with rfl | hz
        · simpa using h
        · exact h2 z hz
      · right
        refine ⟨k + 1, by push_cast at h1 ⊢; omega, y, by simpa using h2, h3, fun l hl z hz => ?_⟩
        cases l with
        | zero => simp at hz; subst hz; simpa using h
        | succ l => exact h4 l (by omega) z (by simpa using hz)

theorem areValuesSorted_weak {α : Type} {lt eq : α → α → Bool} (ho : WeakOps lt eq) (l : List α) :
    areValuesSorted lt l = true ↔ SortedBy lt l := by
  unfold SortedBy
  induction l with
  | nil => simp [areValuesSorted]
  | cons a r ih =>
    cases r with
    | nil => simp [areValuesSorted]
    | cons b r =>
      have : areValuesSorted lt (a :: b :: r) = true ↔ lt b a = false ∧ areValuesSorted lt (b :: r) = true := by
        simp only [areValuesSorted]
        cases lt b a <;> simp
      rw [this, ih, List.pairwise_cons (a := a)]
      constructor
      · rintro ⟨h1, h2⟩
        refine ⟨?_, h2⟩
        intro x hx
        rcases List.mem_cons.mp hx with rfl | hx
        · exact h1
        · exact ho.notLessTrans x b a ((List.pairwise_cons.mp h2).1 x hx) h1
      · rintro ⟨h1, h2⟩
        exact ⟨h1 b (by simp), h2⟩

theorem binarySearchLoop_weak {α : Type} {lt eq : α → α → Bool} (ho : WeakOps lt eq) (value : α) (values : List α)
    (hs : SortedBy lt values) (first last : Int) (h0 : 0 ≤ first) (h1 : first ≤ last) (h2 : last ≤ values.length) :
    ∃ i, binarySearchLoop lt eq value values first last = .ok i ∧
      ((i = -1 ∧ ∀ k : Nat, first ≤ k → k < last → ∀ x, values[k]? = some x → eq x value = false) ∨
       (first ≤ i ∧ i < last ∧ ∃ x, values[i.toNat]? = some x ∧ eq x value = true)) := by
  have heq : ∀ x, lt x value = true → eq x value = false := by
    intro x hx
    cases he : eq x value with
    | false => rfl
    | true => rw [((ho.eq_iff _ _).mp he).1] at hx; simp at hx
  have heq' : ∀ x, lt value x = true → eq x value = false := by
    intro x hx
    cases he : eq x value with
    | false => rfl
    | true => rw [((ho.eq_iff _ _).mp he).2] at hx; simp at hx
  -- an element not greater than one below the value is itself below the value
  have below : ∀ x y, lt x value = true → lt x y = false → lt y value = true := by
    intro x y h h'
    cases hy : lt y value with
    | true => rfl
    | false => rw [ho.notLessTrans x y value h' hy] at h; simp at h
  have above : ∀ x y, lt value x = true → lt y x = false → lt value y = true := by
    intro x y h h'
    cases hy : lt value y with
    | true => rfl
    | false => rw [ho.notLessTrans value y x hy h'] at h; simp at h
  induction hm : (last - first).toNat using Nat.strongRecOn generalizing first last with
  | _ m ih =>
  unfold binarySearchLoop
  by_cases hgt : last - first > 1
  · rw [dif_pos hgt]
    simp only
    have hb1 : first + (last - first) / 2 < last := by omega
    have hb2 : first < first + (last - first) / 2 := by omega
    generalize hhalf : first + (last - first) / 2 = half at hb1 hb2
    obtain ⟨x, hx, hx'⟩ := at?_some values half (by omega) (by omega)
    rw [hx]
    simp only
    cases hlt : lt x value with
    | true =>
      simp only [if_true]
      obtain ⟨i, hi, hr⟩ := ih _ (by omega) (half + 1) last (by omega) (by omega) h2 rfl
      refine ⟨i, hi, ?_⟩
      rcases hr with ⟨rfl, hr⟩ | ⟨hr1, hr2, hr3⟩
      · left
        refine ⟨rfl, fun k hk1 hk2 y hk => ?_⟩
        by_cases hkh : (k : Int) ≤ half
        · rcases Nat.lt_or_eq_of_le (show k ≤ half.toNat by omega) with hlt' | heq''
          · exact heq y (below x y hlt (sorted_get hs hlt' hk hx'))
          · rw [heq'', hx', Option.some.injEq] at hk; subst hk; exact heq _ hlt
        · exact hr k (by omega) hk2 y hk
      · right; exact ⟨by omega, hr2, hr3⟩
    | false =>
      simp only [Bool.false_eq_true, if_false]
      cases hgt' : lt value x with
      | true =>
        simp only [if_true]
        obtain ⟨i, hi, hr⟩ := ih _ (by omega) first half (by omega) (by omega) (by omega) rfl
        refine ⟨i, hi, ?_⟩
        rcases hr with ⟨rfl, hr⟩ | ⟨hr1, hr2, hr3⟩
        · left
          refine ⟨rfl, fun k hk1 hk2 y hk => ?_⟩
          by_cases hkh : half ≤ (k : Int)
          · rcases Nat.lt_or_eq_of_le (show half.toNat ≤ k by omega) with hlt' | heq''
            · exact heq' y (above x y hgt' (sorted_get hs hlt' hx' hk))
            · rw [← heq'', hx', Option.some.injEq] at hk; subst hk; exact heq' _ hgt'
          · exact hr k hk1 (by omega) y hk
        · right; exact ⟨hr1, by omega, hr3⟩
      | false =>
        have hxe : eq x value = true := (ho.eq_iff _ _).mpr ⟨hlt, hgt'⟩
        simp only [Bool.false_eq_true, if_false]
        by_cases hl : half + 1 = last
        · rw [dif_pos hl]
          exact ⟨half, rfl, Or.inr ⟨by omega, hb1, x, hx', hxe⟩⟩
        · rw [dif_neg hl]
          obtain ⟨i, hi, hr⟩ := ih _ (by omega) first (half + 1) (by omega) (by omega) (by omega) rfl
          refine ⟨i, hi, ?_⟩
          rcases hr with ⟨rfl, hr⟩ | ⟨hr1, hr2, hr3⟩
          · have := hr half.toNat (by omega) (by omega) x hx'
            rw [hxe] at this; simp at this
          · right; exact ⟨hr1, by omega, hr3⟩
  · rw [dif_neg hgt]
    by_cases h3 : last - first = 1
    · rw [if_pos h3]
      obtain ⟨x, hx, hx'⟩ := at?_some values first (by omega) (by omega)
      rw [hx]
      simp only
      by_cases he : eq x value = true
      · rw [if_pos he]
        exact ⟨first, rfl, Or.inr ⟨by omega, by omega, x, hx', he⟩⟩
      · rw [if_neg he]
        refine ⟨-1, rfl, Or.inl ⟨rfl, fun k hk1 hk2 y hk => ?_⟩⟩
        have : k = first.toNat := by omega
        rw [this, hx', Option.some.injEq] at hk
        subst hk; simpa using he
    · rw [if_neg h3]
      exact ⟨-1, rfl, Or.inl ⟨rfl, fun k hk1 hk2 => by omega⟩⟩

/-- A runtime value that is incomparable to all listed values ends at index 1. -/
theorem binarySearchLoop_incomparable {α : Type} {lt eq : α → α → Bool} {value : α} {values : List α}
    (h : ∀ x ∈ values, lt x value = false ∧ lt value x = false) (last : Int) (h1 : 2 ≤ last) (h2 : last ≤ values.length) :
    binarySearchLoop lt eq value values 0 last = .ok 1 := by
  induction hm : last.toNat using Nat.strongRecOn generalizing last with
  | _ m ih =>
  unfold binarySearchLoop
  rw [dif_pos (by omega)]
  simp only [Int.sub_zero, Int.zero_add]
  obtain ⟨x, hx, hx'⟩ := at?_some values (last / 2) (by omega) (by omega)
  obtain ⟨hl, hg⟩ := h x (List.mem_of_getElem? hx')
  rw [hx]
  simp only [hl, hg, Bool.false_eq_true, if_false]
  by_cases hh : last / 2 + 1 = last
  · rw [dif_pos hh]
    have : last / 2 = 1 := by omega
    rw [this]
  · rw [dif_neg hh]
    exact ih _ (by omega) (last / 2 + 1) (by omega) (by omega) rfl

theorem areValuesSorted_flt (nums : List Int) (h : nums.Pairwise (· ≤ ·)) : areValuesSorted fltLt (nums.map some) = true := by
  induction nums with
  | nil => rfl
  | cons a r ih =>
    cases r with
    | nil => rfl
    | cons b r =>
      obtain ⟨h1, h2⟩ := List.pairwise_cons.mp h
      have hab := h1 b (by simp)
      have hba : fltLt (some b) (some a) = false := by simpa [fltLt] using hab
      have := ih h2
      simp only [List.map_cons, areValuesSorted, hba, Bool.false_eq_true, if_false] at this ⊢
      exact this

/-- From a lookup that is exact up to `eq` to `expand`. -/
theorem expandUpTo_of {α : Type} {eq : α → α → Bool} {values : List α} {value : α} {s : Outcome Int} {i : Int} (hs : s = .ok i)
    (h : (i = -1 ∧ ∀ x ∈ values, eq x value = false) ∨ (0 ≤ i ∧ ∃ x, values[i.toNat]? = some x ∧ eq x value = true)) :
    ExpandUpTo eq values value (fun mode => expandWith mode s values) := by
  subst hs
  rcases h with ⟨rfl, h⟩ | ⟨h0, x, hx, he⟩
  · refine ⟨?_, fun _ => ⟨rfl, rfl, rfl⟩⟩
    rintro ⟨x, hx, he⟩
    rw [h x hx] at he; simp at he
  · refine ⟨fun _ => ⟨x, List.mem_of_getElem? hx, he, fun mode => ?_⟩, fun hn => ?_⟩
    · simp only [expandWith, Outcome.bind_ok]
      rw [if_neg (by omega), at?_eq values i h0, hx]
    · rw [hn x (List.mem_of_getElem? hx)] at he; simp at he

end Makeshift
