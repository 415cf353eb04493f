import Verif.Spec.IndexIterator

/-!
# `index_iterator`: C107
-/

namespace Makeshift.Props

open Makeshift.IndexIt Spec.IndexIterator

private theorem ii_inRange (x : Int) : IntTy.ptrdiffT.InRange x ↔ Representable x := by
  simp [IntTy.InRange, IntTy.minVal, IntTy.maxVal, IntTy.ptrdiffT, Representable]

private theorem ii_arith (x : Int) : IntTy.ptrdiffT.arith x = if Representable x then .ok x else .ub := by
  simp only [IntTy.arith, ii_inRange]
  rfl

private theorem ii_inc (p : Int) : IndexIt.inc ⟨p⟩ = if Representable (p + 1) then .ok ⟨p + 1⟩ else .ub := by
  simp only [IndexIt.inc, ii_arith]; split <;> rfl

private theorem ii_dec (p : Int) : IndexIt.dec ⟨p⟩ = if Representable (p - 1) then .ok ⟨p - 1⟩ else .ub := by
  simp only [IndexIt.dec, ii_arith]; split <;> rfl

private theorem ii_add (p n : Int) : IndexIt.add ⟨p⟩ n = if Representable (p + n) then .ok ⟨p + n⟩ else .ub := by
  simp only [IndexIt.add, ii_arith]; split <;> rfl

private theorem ii_sub (p n : Int) : IndexIt.sub ⟨p⟩ n = if Representable (p - n) then .ok ⟨p - n⟩ else .ub := by
  simp only [IndexIt.sub, ii_arith]; split <;> rfl

private theorem ii_step (op : Move) (p : Int) :
    op.step ⟨p⟩ = if Representable (p + shift op) then .ok (⟨p + shift op⟩, ⟨if yieldsOld op then p else p + shift op⟩) else .ub := by
  cases op <;> simp only [Move.step, ii_inc, ii_dec, ii_add, ii_sub, shift, yieldsOld, Int.sub_eq_add_neg] <;> split <;> simp [*]

/-- C107: any sequence of operations takes the iterator where integer arithmetic does, and every expression designates the position it should
(the old one for postfix operators).  It is undefined exactly if one of the positions is not representable. -/
theorem C107_walk (p : Int) (ops : List Move) :
    moves ops ⟨p⟩ =
      if ∀ q ∈ path p ops, Representable q then .ok (⟨(path p ops).getLastD p⟩, (yielded p ops).map IndexIt.mk) else .ub := by
  induction ops generalizing p with
  | nil => simp [moves, path, yielded]
  | cons op ops ih =>
    simp only [moves, ii_step, path, yielded, List.mem_cons, forall_eq_or_imp]
    by_cases h : Representable (p + shift op)
    · simp only [h, if_true, Outcome.bind_ok, ih, true_and]
      split
      · rename_i h2
        simp only [Outcome.bind_ok, List.map_cons]
        cases hq : path (p + shift op) ops <;> simp [List.getLast?_cons]
      · rfl
    · simp [h]

example : path 3 [.preInc, .postDec, .minus 5, .plusLeft 2] = [4, 3, -2, 0] ∧ yielded 3 [.preInc, .postDec, .minus 5, .plusLeft 2] = [4, 4, -2, 0] ∧
    ∀ q ∈ path 3 [.preInc, .postDec, .minus 5, .plusLeft 2], Representable q := by decide

/-- C107: `*it` is the position, `it[n]` is `*(it + n)`, and `(it + n) - it` is `n`. -/
theorem C107_access (p n : Int) (hp : Representable p) (hn : Representable n) (h : Representable (p + n)) :
    IndexIt.deref ⟨p⟩ = p ∧ ∃ it, IndexIt.add ⟨p⟩ n = .ok it ∧ IndexIt.subscript ⟨p⟩ n = .ok it.deref ∧ it.deref = p + n ∧
      it.diff ⟨p⟩ = .ok n ∧ it.sub n = .ok ⟨p⟩ := by
  refine ⟨rfl, ⟨p + n⟩, by simp [ii_add, h], by simp [IndexIt.subscript, ii_arith, h, IndexIt.deref], rfl, ?_, ?_⟩
  · have : p + n - p = n := by omega
    simp [IndexIt.diff, ii_arith, this, hn]
  · have : p + n - n = p := by omega
    simp [ii_sub, this, hp]

example : Representable (2 ^ 63 - 1) ∧ Representable (-2 ^ 63) ∧ Representable (2 ^ 63 - 1 + -2 ^ 63) := by decide

/-- C107: every expression required of a random access iterator by C++20 is supported, also for `const` iterators where this is required, and the
concept is declared. -/
theorem C107_concept : (∀ f c, (f, c) ∈ required → ∃ c', (f, c') ∈ declared ∧ (c = true → c' = true)) ∧ concept = .randomAccess := by
  refine ⟨fun f c h => ?_, rfl⟩
  revert h
  cases f <;> cases c <;> decide

/-- C107: a `const` iterator can be read and compared, but not be moved or assigned to. -/
theorem C107_const (f : Function) :
    (f, true) ∈ declared ↔ f ∉ [.defaultCtor, .copyAssign, .preInc, .postInc, .preDec, .postDec, .addAssign, .subAssign] := by
  cases f <;> decide

/-- C107: a default-constructed iterator is at -1, so it can be compared with all others. -/
theorem C107_default (p : Int) : (IndexIt.eq IndexIt.default ⟨p⟩ = true ↔ p = -1) ∧ IndexIt.default.deref = -1 := by
  refine ⟨?_, rfl⟩
  simp only [IndexIt.eq, IndexIt.default, beq_iff_eq]
  omega

private theorem ii_incTimes (n : Nat) : ∀ p : Int, Representable p →
    incTimes n ⟨p⟩ = if Representable (p + n) then .ok ⟨p + n⟩ else .ub := by
  induction n with
  | zero => intro p h; simp [incTimes, h]
  | succ n ih =>
    intro p h
    simp only [incTimes, ii_inc]
    by_cases h1 : Representable (p + 1)
    · simp only [h1, if_true, Outcome.bind_ok, ih _ h1]
      have : p + 1 + (n : Int) = p + ((n + 1 : Nat) : Int) := by omega
      rw [this]
    · have : ¬ Representable (p + ((n + 1 : Nat) : Int)) := by
        simp only [Representable] at h h1 ⊢
        omega
      simp only [h1, this, if_false, Outcome.bind_ub]

/-- C107: `std::next` and `std::advance` with a count that is not negative are the same as `+`. -/
theorem C107_next (p n : Int) (hp : Representable p) (hn : 0 ≤ n) :
    stdNext ⟨p⟩ n = IndexIt.add ⟨p⟩ n ∧ stdAdvance category ⟨p⟩ n = IndexIt.add ⟨p⟩ n := by
  have h1 : ((n.toNat : Nat) : Int) = n := by omega
  have : stdAdvance category ⟨p⟩ n = IndexIt.add ⟨p⟩ n := by
    simp only [stdAdvance, category, if_pos hn]
    rw [if_neg (by decide), ii_incTimes _ _ hp, ii_add, h1]
  exact ⟨this, this⟩

/-- C107, the part which is false: `std::prev`, and `std::advance` with a negative count, are undefined, because the iterator category is that of
input iterators; while `it - n` is defined. -/
theorem C107_prev_negated (p n : Int) (hn : 0 < n) :
    stdPrev ⟨p⟩ n = .ub ∧ stdAdvance category ⟨p⟩ (-n) = .ub ∧ (Representable (p - n) → IndexIt.sub ⟨p⟩ n = .ok ⟨p - n⟩) := by
  have h : ∀ m : Int, m < 0 → stdAdvance category ⟨p⟩ m = .ub := by
    intro m hm
    have h1 : ¬ 0 ≤ m := by omega
    have h2 : category ≠ .randomAccess := by decide
    have h3 : category ≠ .bidirectional := by decide
    simp [stdAdvance, h1, h2, h3]
  refine ⟨?_, h _ (by omega), fun h1 => by simp [ii_sub, h1]⟩
  simp only [stdPrev, ii_arith]
  split
  · simp only [Outcome.bind_ok, h (-n) (by omega)]
  · rfl

example : Representable ((5 : Int) - 1) ∧ stdPrev ⟨5⟩ 1 = .ub := ⟨by decide, (C107_prev_negated 5 1 (by decide)).1⟩

private theorem ii_distance_step (first last : IndexIt) (n : Int) :
    distanceLoop first last n = if first.ne last then first.inc.bind fun first' => (IntTy.ptrdiffT.arith (n + 1)).bind fun n' => distanceLoop first' last n'
      else .ok n := by
  rw [distanceLoop]
  split
  · split <;> simp [*]
  · rfl

private theorem ii_distance_up (k : Nat) : ∀ (p n : Int), Representable (p + k) → Representable p → 0 ≤ n →
    distanceLoop ⟨p⟩ ⟨p + k⟩ n = if Representable (n + k) ∨ k = 0 then .ok (n + k) else .ub := by
  induction k with
  | zero => intro p n _ _ _; rw [ii_distance_step]; simp [IndexIt.ne]
  | succ k ih =>
    intro p n h1 h2 h3
    rw [ii_distance_step]
    have hne : IndexIt.ne ⟨p⟩ ⟨p + ((k + 1 : Nat) : Int)⟩ = true := by
      simp only [IndexIt.ne, bne_iff_ne, ne_eq]; omega
    have hr : Representable (p + 1) := by simp only [Representable] at *; omega
    simp only [hne, if_true, ii_inc, hr, Outcome.bind_ok, ii_arith]
    have e1 : p + ((k + 1 : Nat) : Int) = p + 1 + k := by omega
    have e2 : n + ((k + 1 : Nat) : Int) = n + 1 + k := by omega
    by_cases hn : Representable (n + 1)
    · simp only [hn, if_true, Outcome.bind_ok]
      rw [e1, ih (p + 1) (n + 1) (by rw [← e1]; exact h1) hr (by omega), e2]
      have : (Representable (n + 1 + ↑k) ∨ k = 0) ↔ (Representable (n + 1 + ↑k) ∨ k + 1 = 0) := by
        constructor
        · rintro (h | h)
          · exact .inl h
          · subst h; left; simpa using hn
        · rintro (h | h)
          · exact .inl h
          · omega
      simp only [this]
    · have : ¬ Representable (n + ((k + 1 : Nat) : Int)) := by simp only [Representable] at *; omega
      simp only [hn, this, if_false, Outcome.bind_ub, Nat.add_one_ne_zero, or_false]

private theorem ii_distance_over (k : Nat) : ∀ (p q n : Int), q < p → (2 ^ 63 - p).toNat = k → distanceLoop ⟨p⟩ ⟨q⟩ n = .ub := by
  induction k with
  | zero =>
    intro p q n h hk
    rw [ii_distance_step]
    have hne : IndexIt.ne ⟨p⟩ ⟨q⟩ = true := by simp only [IndexIt.ne, bne_iff_ne, ne_eq]; omega
    have : ¬ Representable (p + 1) := by simp only [Representable]; omega
    simp [hne, ii_inc, this]
  | succ k ih =>
    intro p q n h hk
    rw [ii_distance_step]
    have hne : IndexIt.ne ⟨p⟩ ⟨q⟩ = true := by simp only [IndexIt.ne, bne_iff_ne, ne_eq]; omega
    simp only [hne, if_true, ii_inc]
    split
    · simp only [Outcome.bind_ok, ii_arith]
      split
      · exact ih (p + 1) q (n + 1) (by omega) (by omega)
      · rfl
    · rfl

/-- C107: `std::distance(first, last)` is the difference of the positions if `last` can be reached from `first` by increments (and undefined like `-`
if the difference is not representable), otherwise undefined. -/
theorem C107_distance (p q : Int) (hp : Representable p) (hq : Representable q) :
    stdDistance category ⟨p⟩ ⟨q⟩ = if p ≤ q then IndexIt.diff ⟨q⟩ ⟨p⟩ else .ub := by
  have hc : category ≠ .randomAccess := by decide
  simp only [stdDistance, hc, if_false]
  split
  · rename_i h
    obtain ⟨k, hk⟩ := Int.eq_ofNat_of_zero_le (show 0 ≤ q - p by omega)
    have e : q = p + k := by omega
    subst e
    rw [ii_distance_up k p 0 hq hp (by omega)]
    simp only [IndexIt.diff, ii_arith]
    have e2 : p + (k : Int) - p = 0 + k := by omega
    rw [e2]
    by_cases h0 : k = 0
    · subst h0; simp [Representable]
    · simp [h0]
  · exact ii_distance_over _ p q 0 (by omega) rfl

example : Representable (-3) ∧ Representable 4 ∧ (-3 : Int) ≤ 4 ∧ IndexIt.diff ⟨4⟩ ⟨-3⟩ = .ok 7 := by decide

private theorem ii_reverse (n : Nat) : ∀ (first : Int) (fuel : Nat), Representable first → Representable (first + n) → n < fuel →
    reverseLoop ⟨first⟩ fuel ⟨first + n⟩ = some (.ok ((List.range n).map fun (k : Nat) => first + n - 1 - k)) := by
  induction n with
  | zero =>
    intro first fuel _ _ hf
    obtain ⟨fuel, rfl⟩ : ∃ g, fuel = g + 1 := ⟨fuel - 1, by omega⟩
    simp [reverseLoop, IndexIt.ne]
  | succ n ih =>
    intro first fuel h1 h2 hf
    obtain ⟨fuel, rfl⟩ : ∃ g, fuel = g + 1 := ⟨fuel - 1, by omega⟩
    have hne : IndexIt.ne ⟨first + ((n + 1 : Nat) : Int)⟩ ⟨first⟩ = true := by
      simp only [IndexIt.ne, bne_iff_ne, ne_eq]; omega
    have e : first + ((n + 1 : Nat) : Int) - 1 = first + n := by omega
    have hr : Representable (first + n) := by simp only [Representable] at *; omega
    simp only [reverseLoop, hne, if_true, reverseDeref, ii_dec, e, hr, Outcome.bind_ok, ih first fuel h1 hr (by omega), Option.map_some,
      IndexIt.deref]
    congr 2
    rw [List.range_succ_eq_map]
    simp only [List.map_cons, List.map_map]
    congr 1
    · omega
    · apply List.map_congr_left
      intro k _
      simp only [Function.comp, Nat.succ_eq_add_one]
      omega

/-- C107: reverse iterators visit the indices in descending order, including the smallest representable one. -/
theorem C107_reverse (first last : Int) (hf : Representable first) (hl : Representable last) (h : first ≤ last) (fuel : Nat)
    (hfuel : (last - first).toNat < fuel) :
    reverseLoop ⟨first⟩ fuel ⟨last⟩ = some (.ok ((List.range (last - first).toNat).map fun (k : Nat) => last - 1 - k)) := by
  obtain ⟨n, hn⟩ := Int.eq_ofNat_of_zero_le (show 0 ≤ last - first by omega)
  have e : last = first + n := by omega
  subst e
  have e2 : (first + (n : Int) - first).toNat = n := by omega
  rw [e2] at hfuel ⊢
  exact ii_reverse n first fuel hf hl hfuel

example : Representable (-2 ^ 63) ∧ reverseLoop ⟨-2 ^ 63⟩ 3 ⟨-2 ^ 63 + 2⟩ = some (.ok [-2 ^ 63 + 1, -2 ^ 63]) := by decide

/-- C107: if the end comes before the beginning, reverse iterators run through all smaller indices and then overflow. -/
theorem C107_reverse_behind (first last : Int) (h : last < first) (hl : Representable last) (fuel : Nat) :
    reverseLoop ⟨first⟩ fuel ⟨last⟩ = if (last + 2 ^ 63).toNat < fuel then some .ub else none := by
  obtain ⟨k, hk⟩ : ∃ k : Nat, last = -2 ^ 63 + k := ⟨(last + 2 ^ 63).toNat, by simp only [Representable] at hl; omega⟩
  induction k generalizing last fuel with
  | zero =>
    cases fuel with
    | zero => simp [reverseLoop]
    | succ fuel =>
      have hne : IndexIt.ne ⟨last⟩ ⟨first⟩ = true := by simp only [IndexIt.ne, bne_iff_ne, ne_eq]; omega
      have hr : ¬ Representable (last - 1) := by simp only [Representable]; omega
      have : (last + 2 ^ 63).toNat < fuel + 1 := by omega
      rw [if_pos this]
      simp only [reverseLoop, hne, if_true, reverseDeref, ii_dec, hr, if_false, Outcome.bind_ub]
  | succ k ih =>
    cases fuel with
    | zero => simp [reverseLoop]
    | succ fuel =>
      have hne : IndexIt.ne ⟨last⟩ ⟨first⟩ = true := by simp only [IndexIt.ne, bne_iff_ne, ne_eq]; omega
      have hr : Representable (last - 1) := by simp only [Representable] at hl ⊢; omega
      simp only [reverseLoop, hne, if_true, reverseDeref, ii_dec, hr, Outcome.bind_ok, ih (last - 1) (by omega) hr fuel (by omega)]
      by_cases hf : (last - 1 + 2 ^ 63).toNat < fuel
      · rw [if_pos hf, if_pos (by omega)]; rfl
      · rw [if_neg hf, if_neg (by omega)]; rfl

example : (-2 ^ 63 + 1 : Int) < 5 ∧ Representable (-2 ^ 63 + 1) ∧ reverseLoop ⟨5⟩ 2 ⟨-2 ^ 63 + 1⟩ = some .ub := by decide

end Makeshift.Props
