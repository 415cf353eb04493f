import Verif.Lemmas.TupleCompare

/-! # C162: comparisons of `value_tuple`s with user-defined operators -/

namespace Makeshift.Props

open Makeshift.TupleCompare Makeshift.TupleCompare.Spec

/-- `==` calls the operators `==` of the elements one after the other as long as they answer `true`, whatever they do otherwise; the result is
`true` if all answer so, and otherwise the last answer.  `!=` does the same with the operators `!=`: it is `true` only if all elements are unequal (C43). -/
theorem C162_equal (w : Answers) (n : Nat) :
    AllInOrder w .eq n (equal w n) ∧ AllInOrder w .ne n (notEqual w n) := by
  have h : ∀ call, AllInOrder w call n (andLoop w call (List.range n) []) := by
    intro call
    rw [List.range_eq_range']
    exact and_aux w call n n 0 (by omega) fun k h1 h2 => absurd h1 (by omega)
  exact ⟨h .eq, h .ne⟩

example : equal (fun made => if made.length = 2 then .ok false else .ok true) 3 = ([.eq 0, .eq 1], .ok false) := by decide

/-- `<` compares the elements one after the other with `lhs < rhs` and then `rhs < lhs`, up to the first answer which is not `false`, which decides; no operator but
`<` is used.  `>` begins with the other direction.  `<=` and `>=` make the same calls as `>` and `<`, and negate the result. -/
theorem C162_less (w : Answers) (n : Nat) :
    Lexicographic w false n (less w n) ∧ Lexicographic w true n (greater w n) ∧
      (∃ r, Lexicographic w true n r ∧ lessEqual w n = (r.1, r.2.mapVal (!·))) ∧
      ∃ r, Lexicographic w false n r ∧ greaterEqual w n = (r.1, r.2.mapVal (!·)) := by
  have h : ∀ s, Lexicographic w s n (ltLoop w s (List.range n) []) := by
    intro s
    rw [List.range_eq_range']
    exact lt_aux w s n n 0 (by omega) fun k hk => absurd hk (by omega)
  exact ⟨h false, h true, ⟨_, h true, rfl⟩, ⟨_, h false, rfl⟩⟩

example : less (fun made => if made.length = 4 then .ok true else .ok false) 3 =
    ([.lt 0 false, .lt 0 true, .lt 1 false, .lt 1 true], .ok false) := by decide

/-- So no operator of an element is called twice in one comparison, and at most one or two are called for each element. -/
theorem C162_number (w : Answers) (n : Nat) :
    (equal w n).1.length ≤ n ∧ (notEqual w n).1.length ≤ n ∧ (less w n).1.length ≤ 2 * n ∧ (greater w n).1.length ≤ 2 * n ∧
      (lessEqual w n).1.length ≤ 2 * n ∧ (greaterEqual w n).1.length ≤ 2 * n := by
  have hb : ∀ d m, (both d m).length = 2 * m := by
    intro d m
    induction m with
    | zero => rfl
    | succ m ih => rw [both_succ, List.length_append, ih]; rfl
  have h1 : ∀ call r, AllInOrder w call n r → r.1.length ≤ n := by
    rintro call r ⟨m, hm, e, -⟩
    rw [e]
    simpa [first] using hm
  have h2 : ∀ d r, Lexicographic w d n r → r.1.length ≤ 2 * n := by
    rintro d r ⟨m, hm, -, ⟨-, rfl⟩ | ⟨hl, e, -⟩ | ⟨hl, -, e, -⟩⟩
    · rw [hb]; exact Nat.le_refl _
    · rw [e, List.length_append, hb]; simp only [List.length_cons, List.length_nil]; omega
    · rw [e, hb]; omega
  obtain ⟨a, b⟩ := C162_equal w n
  obtain ⟨c, d, -, -⟩ := C162_less w n
  exact ⟨h1 _ _ a, h1 _ _ b, h2 _ _ c, h2 _ _ d, h2 true (greater w n) d, h2 false (less w n) c⟩

example : (less (fun _ => .ok false) 3).1.length = 2 * 3 := by decide

/-- For operators without side effects, the results are those of C42 and C43: all elements are equal, or all are unequal. -/
theorem C162_pure_equal {n : Nat} (eq ne : Nat → Bool) (w : Answers) (heq : ∀ made i, w (made ++ [.eq i]) = .ok (eq i))
    (hne : ∀ made i, w (made ++ [.ne i]) = .ok (ne i)) :
    (equal w n).2 = .ok (decide (∀ i, i < n → eq i = true)) ∧ (notEqual w n).2 = .ok (decide (∀ i, i < n → ne i = true)) := by
  have h : ∀ (f : Nat → Bool), (((List.range' 0 n).map fun i => f i).all id) = decide (∀ i, i < n → f i = true) := by
    intro f
    rw [← List.range_eq_range', Bool.eq_iff_iff, List.all_eq_true, decide_eq_true_iff]
    simp
  constructor
  · rw [equal, List.range_eq_range', pure_and (α := Nat) (fun i _ => eq i) .eq w n 0 id id [] heq, ← h]
    rfl
  · rw [notEqual, List.range_eq_range', pure_and (α := Nat) (fun i _ => ne i) .ne w n 0 id id [] hne, ← h]
    rfl

example : ∀ made i, (fun made : List Call => match made.getLast? with | some (.eq i) => Outcome.ok (decide (i < 2)) | _ => .ok true) (made ++ [.eq i]) =
    .ok (decide (i < 2)) := by
  intro made i
  simp

/-- For operators `<` without side effects, the results are lexicographic (`lt i false` is `lhs < rhs` for the elements with index `i`, `lt i true` is `rhs < lhs`). -/
theorem C162_pure_less {n : Nat} (lt : Nat → Bool → Bool) (w : Answers) (h : ∀ made i d, w (made ++ [.lt i d]) = .ok (lt i d)) :
    (∃ b, (less w n).2 = .ok b ∧ (greaterEqual w n).2 = .ok (!b) ∧
        (b = true ↔ ∃ i, i < n ∧ lt i false = true ∧ ∀ j, j < i → lt j false = false ∧ lt j true = false)) ∧
      ∃ b, (greater w n).2 = .ok b ∧ (lessEqual w n).2 = .ok (!b) ∧
        (b = true ↔ ∃ i, i < n ∧ lt i true = true ∧ ∀ j, j < i → lt j true = false ∧ lt j false = false) := by
  have h1 := pure_lt lt w false h n 0 []
  have h2 := pure_lt lt w true h n 0 []
  rw [← List.range_eq_range'] at h1 h2
  refine ⟨⟨_, h1, ?_, ?_⟩, ⟨_, h2, ?_, ?_⟩⟩
  · show (ltLoop w false (List.range n) []).2.mapVal _ = _
    rw [h1]
    rfl
  · simp
  · show (ltLoop w true (List.range n) []).2.mapVal _ = _
    rw [h2]
    rfl
  · simp

example : (less (fun made => match made.getLast? with | some (.lt 1 false) => .ok true | _ => .ok false) 3).2 = .ok true := by decide

/-- The type of `==` and `!=` is `bool` unless there is exactly one element; then it is the type of its comparison, whatever this is.  With several elements, they are found only
if all comparisons can be converted to `bool`. -/
theorem C162_equal_type (rs : List ResTy) :
    (∀ r, rs = [r] → equalType rs = .type r) ∧
      (rs.length ≠ 1 → equalType rs = if ∀ r ∈ rs, r.toBool = true then .type .bool else .notFound) := by
  refine ⟨?_, fun h => ?_⟩
  · rintro r rfl
    rfl
  · match rs with
    | [] => rfl
    | [r] => exact absurd rfl h
    | a :: b :: rs =>
      simp only [equalType, declared, List.all_eq_true]
      by_cases hc : ∀ r ∈ a :: b :: rs, r.toBool = true
      · rw [if_pos hc, if_pos hc]
      · rw [if_neg hc, if_neg hc]

example : equalType [.other 0 true false false] = .type (.other 0 true false false) := rfl

/-- The other operators are found whenever `==` would be for comparisons of the same types, with the same result type.  But for one element which is not compared with the result
`bool`, they do not compile unless the type of the comparison can be converted from and to `bool` (and, for `<=` and `>=`, the result of its operator `!` to itself). -/
theorem C162_less_type (rs : List ResTy) :
    (∀ r, rs = [r] → lessType rs = (if r.toBool && r.fromBool then .type r else .broken) ∧
      lessEqualType rs = (if r.toBool && r.fromBool && r.notOk then .type r else .broken)) ∧
    (rs.length ≠ 1 → lessType rs = equalType rs ∧ lessEqualType rs = equalType rs) := by
  refine ⟨?_, fun h => ?_⟩
  · rintro r rfl
    have e : lessType [r] = if r.toBool && r.fromBool then .type r else .broken := by simp [lessType, declared]
    refine ⟨e, ?_⟩
    rw [lessEqualType, e]
    cases r.toBool <;> cases r.fromBool <;> cases ho : r.notOk <;> simp [ho]
  · have e : lessType rs = equalType rs ∧ (equalType rs = .type .bool ∨ equalType rs = .notFound) := by
      match rs with
      | [] => exact ⟨rfl, .inl rfl⟩
      | [r] => exact absurd rfl h
      | a :: b :: rs =>
        cases hc : (a :: b :: rs).all ResTy.toBool
        · simp [lessType, equalType, declared, hc]
        · simp [lessType, equalType, declared, hc, ResTy.fromBool]
    refine ⟨e.1, ?_⟩
    rw [lessEqualType, e.1]
    rcases e.2 with h2 | h2 <;> rw [h2] <;> rfl

example : lessType [.other 0 true false false] = .broken ∧ lessType [.other 0 true false false, .bool] = .type .bool := by decide

end Makeshift.Props
