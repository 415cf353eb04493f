import Verif.Spec.SearchAnswers

/-! # Lemmas for C163: `expand` and operators which throw or change their minds -/

namespace Makeshift.SearchAnswers

open Makeshift.SearchAnswers Makeshift.SearchAnswers.Spec

theorem answered_nil (w : Answers) : Answered w [] := fun _ h hp => absurd (List.prefix_nil.1 hp) h

theorem answered_snoc {w : Answers} {l : List Comparison} {c : Comparison} {b : Bool} (h : Answered w l) (hc : w (l ++ [c]) = .ok b) :
    Answered w (l ++ [c]) := by
  intro p hp hl
  rcases List.prefix_concat_iff.1 hl with rfl | h'
  · exact ⟨b, hc⟩
  · exact h p hp h'

theorem range_snoc {n : Nat} {l : List Comparison} {c : Comparison} (h : ∀ c ∈ l, 0 ≤ position c ∧ position c < (n : Int))
    (hc : 0 ≤ position c ∧ position c < (n : Int)) : ∀ d ∈ l ++ [c], 0 ≤ position d ∧ position d < (n : Int) := by
  intro d hd
  rcases List.mem_append.1 hd with hd | hd
  · exact h d hd
  · rw [List.mem_singleton.1 hd]; exact hc

theorem pass_sound {w : Answers} {n : Nat} {l : List Comparison} {c : Comparison} (hr : ∀ d ∈ l ++ [c], 0 ≤ position d ∧ position d < (n : Int))
    (h : Answered w l) (h1 : ∀ b, w (l ++ [c]) ≠ .ok b) : Sound w n (l ++ [c], pass (w (l ++ [c]))) := by
  refine ⟨hr, .inr ⟨l, c, rfl, h, ?_⟩⟩
  show (∃ e, w (l ++ [c]) = .throw e ∧ pass (w (l ++ [c])) = .throw e) ∨ (w (l ++ [c]) = .failFast ∧ pass (w (l ++ [c])) = .failFast) ∨
    (w (l ++ [c]) = .ub ∧ pass (w (l ++ [c])) = .ub)
  cases hw : w (l ++ [c]) with
  | ok b => exact absurd hw (h1 b)
  | throw e => exact .inl ⟨e, rfl, rfl⟩
  | failFast => exact .inr (.inl ⟨rfl, rfl⟩)
  | ub => exact .inr (.inr ⟨rfl, rfl⟩)

theorem not_ok {o : Outcome Bool} (h1 : o = .ok true → False) (h2 : o = .ok false → False) : ∀ b, o ≠ .ok b
  | true, h => h1 h
  | false, h => h2 h

theorem binary_sound (w : Answers) (n : Nat) (s : Nat) : ∀ (first last : Int) (made : List Comparison), (last - first).toNat ≤ s → 0 ≤ first →
    first ≤ last → last ≤ n → (∀ c ∈ made, 0 ≤ position c ∧ position c < (n : Int)) → Answered w made →
    Sound w n (binaryLoop w n first last made) := by
  induction s with
  | zero =>
    intro first last made hs h0 h1 h2 hr ha
    rw [binaryLoop, dif_neg (by omega), if_neg (by omega)]
    exact ⟨hr, .inl ⟨ha, .inl rfl⟩⟩
  | succ s ih =>
    intro first last made hs h0 h1 h2 hr ha
    rw [binaryLoop]
    split
    · next h =>
      simp only
      rw [if_pos (by omega)]
      have hp : 0 ≤ first + (last - first) / 2 ∧ first + (last - first) / 2 < (n : Int) := by omega
      generalize hh : first + (last - first) / 2 = half at hp
      have hr1 := range_snoc (c := .listedLess half) hr hp
      have hr2 := range_snoc (c := .valueLess half) hr1 hp
      split
      · next h3 => exact ih _ _ _ (by omega) (by omega) (by omega) h2 hr1 (answered_snoc ha h3)
      · next h3 =>
        have ha1 := answered_snoc ha h3
        split
        · next h4 => exact ih _ _ _ (by omega) h0 (by omega) (by omega) hr2 (answered_snoc ha1 h4)
        · next h4 =>
          split
          · exact ⟨hr2, .inl ⟨answered_snoc ha1 h4, .inr ⟨half, hp.1, hp.2, rfl, .inr ⟨made, rfl, h3, h4⟩⟩⟩⟩
          · exact ih _ _ _ (by omega) h0 (by omega) (by omega) hr2 (answered_snoc ha1 h4)
        · next h4 h5 => exact pass_sound hr2 ha1 (not_ok h4 h5)
      · next h3 h4 => exact pass_sound hr1 ha (not_ok h3 h4)
    · next h =>
      split
      · next h3 =>
        rw [if_pos (by omega)]
        have hr1 := range_snoc (c := .equal first) hr ⟨h0, by show first < _; omega⟩
        split
        · next b h4 =>
          refine ⟨hr1, .inl ⟨answered_snoc ha h4, ?_⟩⟩
          cases b
          · exact .inl rfl
          · exact .inr ⟨first, h0, by omega, rfl, .inl ⟨made, rfl, h4⟩⟩
        · next h4 => exact pass_sound hr1 ha fun b hb => h4 b hb
      · exact ⟨hr, .inl ⟨ha, .inl rfl⟩⟩

theorem linear_sound (w : Answers) (n left : Nat) : ∀ (i : Int) (made : List Comparison), 0 ≤ i → i + left = n →
    (∀ c ∈ made, 0 ≤ position c ∧ position c < (n : Int)) → Answered w made → Sound w n (linearLoop w i left made) := by
  induction left with
  | zero => exact fun i made _ _ hr ha => ⟨hr, .inl ⟨ha, .inl rfl⟩⟩
  | succ left ih =>
    intro i made h0 hn hr ha
    have hr1 := range_snoc (c := .equal i) hr ⟨h0, by show i < _; omega⟩
    rw [linearLoop]
    split
    · next h => exact ⟨hr1, .inl ⟨answered_snoc ha h, .inr ⟨i, h0, by omega, rfl, .inl ⟨made, rfl, h⟩⟩⟩⟩
    · next h => exact ih _ _ (by omega) (by omega) hr1 (answered_snoc ha h)
    · next h3 h4 => exact pass_sound hr1 ha (not_ok h3 h4)

theorem binary_length (w : Answers) (n k : Nat) : ∀ (first last : Int) (made : List Comparison), (last - first).toNat ≤ 2 ^ k + 1 →
    (binaryLoop w n first last made).1.length ≤ made.length + (2 * k + 3) := by
  have small : ∀ (first last : Int) (made : List Comparison), ¬ last - first > 1 → (binaryLoop w n first last made).1.length ≤ made.length + 1 := by
    intro first last made h
    rw [binaryLoop, dif_neg h]
    split
    · split
      · split <;> simp
      · simp
    · simp
  induction k with
  | zero =>
    intro first last made h
    by_cases h1 : last - first > 1
    · rw [binaryLoop, dif_pos h1]
      simp only
      split
      · split
        · refine Nat.le_trans (small _ _ _ (by omega)) ?_
          simp only [List.length_append, List.length_cons, List.length_nil]
          omega
        · split
          · refine Nat.le_trans (small _ _ _ (by omega)) ?_
            simp only [List.length_append, List.length_cons, List.length_nil]
            omega
          · rw [dif_pos (by omega)]
            simp only [List.length_append, List.length_cons, List.length_nil]
            omega
          · simp only [List.length_append, List.length_cons, List.length_nil]
            omega
        · simp only [List.length_append, List.length_cons, List.length_nil]
          omega
      · simp
    · have := small first last made h1
      omega
  | succ k ih =>
    intro first last made h
    by_cases h1 : last - first > 1
    · rw [binaryLoop, dif_pos h1]
      simp only
      rw [Nat.pow_succ] at h
      split
      · split
        · refine Nat.le_trans (ih _ _ _ (by omega)) ?_
          simp only [List.length_append, List.length_cons, List.length_nil]
          omega
        · split
          · refine Nat.le_trans (ih _ _ _ (by omega)) ?_
            simp only [List.length_append, List.length_cons, List.length_nil]
            omega
          · split
            · simp only [List.length_append, List.length_cons, List.length_nil]
              omega
            · refine Nat.le_trans (ih _ _ _ (by omega)) ?_
              simp only [List.length_append, List.length_cons, List.length_nil]
              omega
          · simp only [List.length_append, List.length_cons, List.length_nil]
            omega
        · simp only [List.length_append, List.length_cons, List.length_nil]
          omega
      · simp
    · have := small first last made h1
      omega

theorem linear_length (w : Answers) (left : Nat) : ∀ (i : Int) (made : List Comparison), (linearLoop w i left made).1.length ≤ made.length + left := by
  induction left with
  | zero => exact fun i made => Nat.le_refl _
  | succ left ih =>
    intro i made
    rw [linearLoop]
    split
    · simp
    · refine Nat.le_trans (ih _ _) ?_
      simp only [List.length_append, List.length_cons, List.length_nil]
      omega
    · simp

theorem linear_order (w : Answers) (left : Nat) : ∀ (i : Nat) (r : List Comparison × Outcome Int),
    (∀ k, 0 < k → k ≤ i → w (inOrder k) = .ok false) → linearLoop w i left (inOrder i) = r →
    ∃ m, m ≤ i + left ∧ r.1 = (inOrder m) ∧ (∀ k, 0 < k → k < m → w (inOrder k) = .ok false) ∧
      ((m = i + left ∧ r.2 = .ok (-1) ∧ (0 < m → w r.1 = .ok false)) ∨ (0 < m ∧ w r.1 = .ok true ∧ r.2 = .ok ((m : Int) - 1)) ∨
        (0 < m ∧ (∀ b, w r.1 ≠ .ok b) ∧ r.2 = (w r.1).bind fun _ => .ok (-1))) := by
  induction left with
  | zero =>
    rintro i r hw rfl
    exact ⟨i, Nat.le_refl _, rfl, fun k h1 h2 => hw k h1 (by omega), .inl ⟨rfl, rfl, fun h => hw i h (Nat.le_refl _)⟩⟩
  | succ left ih =>
    rintro i r hw rfl
    have e : inOrder i ++ [.equal (i : Int)] = inOrder (i + 1) := by
      simp [inOrder, List.range_succ]
    rw [linearLoop, e]
    have hlt : ∀ k, 0 < k → k < i + 1 → w (inOrder k) = .ok false := fun k h1 h2 => hw k h1 (by omega)
    split
    · next h => exact ⟨i + 1, by omega, rfl, hlt, .inr (.inl ⟨by omega, h, by show Outcome.ok (i : Int) = _; congr 1; omega⟩)⟩
    · next h =>
      obtain ⟨m, h1, h2⟩ := ih (i + 1) _ (fun k h1 h2 => by
        rcases Nat.lt_or_ge k (i + 1) with h3 | h3
        · exact hlt k h1 h3
        · rw [show k = i + 1 by omega, h]) rfl
      refine ⟨m, by omega, ?_⟩
      rw [show i + (left + 1) = i + 1 + left by omega]
      exact h2
    · next h1 h2 => exact ⟨i + 1, by omega, rfl, hlt, .inr (.inr ⟨by omega, not_ok h1 h2, rfl⟩)⟩

theorem at_some {α : Type} {values : List α} {i : Int} (h : 0 ≤ i ∧ i < values.length) : ∃ x, at? values i = some x ∧ values[i.toNat]? = some x := by
  have hi : i.toNat < values.length := by omega
  refine ⟨values[i.toNat], ?_, List.getElem?_eq_getElem hi⟩
  rw [at?, if_neg (by omega), List.getElem?_eq_getElem hi]

theorem binary_agrees {α : Type} {lt eq : α → α → Bool} {value : α} {values : List α} {w : Answers} (h : pureAnswer lt eq value values w) (s : Nat) :
    ∀ (first last : Int) (made : List Comparison), (last - first).toNat ≤ s → 0 ≤ first → first ≤ last → last ≤ values.length →
      binaryLoop w values.length first last made =
        (made ++ (binarySearchLoopC lt eq value values first last).made, (binarySearchLoopC lt eq value values first last).result) := by
  have ans : ∀ {i : Int} {x : α} (_ : 0 ≤ i) (_ : values[i.toNat]? = some x) (made : List Comparison), w (made ++ [.listedLess i]) = .ok (lt x value) ∧
      w (made ++ [.valueLess i]) = .ok (lt value x) ∧ w (made ++ [.equal i]) = .ok (eq x value) := by
    intro i x h0 hx made
    have := h made i.toNat x hx
    rwa [Int.toNat_of_nonneg h0] at this
  induction s with
  | zero =>
    intro first last made hs h0 h1 h2
    rw [binaryLoop, dif_neg (by omega), if_neg (by omega), binarySearchLoopC, dif_neg (by omega), if_neg (by omega)]
    simp
  | succ s ih =>
    intro first last made hs h0 h1 h2
    by_cases hgt : last - first > 1
    · have hp : 0 ≤ first + (last - first) / 2 ∧ first + (last - first) / 2 < (values.length : Int) := by omega
      rw [binaryLoop, binarySearchLoopC, dif_pos hgt, dif_pos hgt]
      simp only
      rw [if_pos hp]
      obtain ⟨x, hx, hx'⟩ := at_some hp
      generalize hh : first + (last - first) / 2 = half at hp hx hx'
      rw [hx]
      simp only
      obtain ⟨a1, -, -⟩ := ans hp.1 hx' made
      obtain ⟨-, a2, -⟩ := ans hp.1 hx' (made ++ [.listedLess half])
      rw [a1, a2]
      cases lt x value
      · cases lt value x
        · simp only [Bool.false_eq_true, if_false]
          by_cases hl : half + 1 = last
          · rw [dif_pos hl, dif_pos hl]
            simp
          · rw [dif_neg hl, dif_neg hl, ih _ _ _ (by omega) h0 (by omega) (by omega)]
            simp [Search.after]
        · simp only [Bool.false_eq_true, if_false, if_true]
          rw [ih _ _ _ (by omega) h0 (by omega) (by omega)]
          simp [Search.after]
      · simp only [if_true]
        rw [ih _ _ _ (by omega) (by omega) (by omega) h2]
        simp [Search.after]
    · rw [binaryLoop, binarySearchLoopC, dif_neg hgt, dif_neg hgt]
      by_cases h3 : last - first = 1
      · have hp : 0 ≤ first ∧ first < (values.length : Int) := by omega
        obtain ⟨x, hx, hx'⟩ := at_some hp
        rw [if_pos h3, if_pos h3, if_pos hp, hx, (ans hp.1 hx' made).2.2]
      · rw [if_neg h3, if_neg h3]
        simp

theorem linear_agrees {α : Type} {lt eq : α → α → Bool} {value : α} {values : List α} {w : Answers} (h : pureAnswer lt eq value values w) (rest : List α) :
    ∀ (i : Nat) (made : List Comparison), values.drop i = rest →
      linearLoop w i rest.length made = (made ++ (linearSearchFromC eq value i rest).made, (linearSearchFromC eq value i rest).result) := by
  induction rest with
  | nil => intro i made _; simp [linearLoop, linearSearchFromC]
  | cons x rest ih =>
    intro i made hd
    have hx : values[i]? = some x := by
      have := congrArg (·[0]?) hd
      simpa using this
    rw [List.length_cons, linearLoop, linearSearchFromC, (h made i x hx).2.2]
    cases eq x value
    · simp only [Bool.false_eq_true, if_false]
      have hd' : values.drop (i + 1) = rest := by
        rw [← List.tail_drop, hd, List.tail_cons]
      have := ih (i + 1) (made ++ [.equal i]) hd'
      rw [Int.natCast_add, Int.natCast_one] at this
      rw [this]
      simp [Search.after]
    · simp

end Makeshift.SearchAnswers
