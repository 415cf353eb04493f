import Verif.Props.SoaSpan
import Verif.Model.SoaSwap

/-! `swap()` for named references to the rows of a `soa_span` (C131). -/

namespace Makeshift.Props

open Makeshift.Soa Makeshift.Spec.Soa

variable {α : Type}

theorem writeCell_keeps {st st' : State α} {p : Ptr} {i : Int} {v : α} (h : writeCell st p i v = .ok st') : st'.isConst = st.isConst ∧ st'.spans = st.spans := by
  unfold writeCell at h
  dsimp only at h
  split at h
  · cases h
  · cases h; exact ⟨rfl, rfl⟩

theorem copyRow_keeps {i j : Int} : ∀ {ps qs : List Ptr} {st st' : State α}, copyRow st i j ps qs = .ok st' → st'.isConst = st.isConst ∧ st'.spans = st.spans
  | [], _, st, st', h => by simp only [copyRow] at h; cases h; exact ⟨rfl, rfl⟩
  | _ :: _, [], st, st', h => by simp only [copyRow] at h; cases h; exact ⟨rfl, rfl⟩
  | p :: ps, q :: qs, st, st', h => by
    rw [copyRow] at h
    cases hr : readCell st q j with
    | ok v =>
      rw [hr, Outcome.bind] at h
      cases hw : writeCell st p i v with
      | ok st1 =>
        rw [hw, Outcome.bind] at h
        obtain ⟨h1, h2⟩ := copyRow_keeps h
        obtain ⟨k1, k2⟩ := writeCell_keeps hw
        exact ⟨h1.trans k1, h2.trans k2⟩
      | throw m => rw [hw] at h; cases h
      | failFast => rw [hw] at h; cases h
      | ub => rw [hw] at h; cases h
    | throw m => rw [hr] at h; cases h
    | failFast => rw [hr] at h; cases h
    | ub => rw [hr] at h; cases h

theorem assignRef_keeps {a b : Ref} {st st' : State α} (h : assignRef st a b = .ok st') : st'.isConst = st.isConst ∧ st'.spans = st.spans := by
  unfold assignRef State.withSpan at h
  split at h
  · split at h
    · exact copyRow_keeps h
    · cases h
  · cases h

theorem valid_after {st st' : State α} {s : Span} {i : Nat} {vals : List α} (hv : Valid st s) (hi : i < s.size) (h : OnlyRowSet s st st' i vals) : Valid st' s := by
  have hrow : ∃ v, Row st' s (s.size - 1) v := by
    by_cases hk : s.size - 1 = i
    · exact ⟨vals, hk ▸ h.1⟩
    · obtain ⟨v, hr⟩ := row_exists hv (i := s.size - 1) (by omega)
      exact ⟨v, (h.2.1 _ _ hk).mp hr⟩
  obtain ⟨v, hr⟩ := hrow
  intro p hp
  have : ∃ x, elem st' p (s.size - 1) = some x := by
    unfold Row at hr
    clear h hv
    revert hp
    generalize s.data = ps at hr
    intro hp
    induction hr with
    | nil => cases hp
    | cons h _ ih =>
      rcases List.mem_cons.mp hp with rfl | hp
      · exact ⟨_, h⟩
      · exact ih hp
  obtain ⟨x, hx⟩ := this
  have := (List.getElem?_eq_some_iff.mp hx).1
  omega

theorem at_ok {st : State α} {b : Nat} {s : Span} (hb : st.spans b = some s) {i : Nat} (hi : i < s.size) : at' st b i = .ok ⟨b, i⟩ := by
  simp [at', withSpan_some hb, Outcome.expects, hi]

/-- The two references given by lvalues, with `std::swap()` around. -/
def Pitfall (usingStd : Bool) (cols : List ColumnType) (fa fb : Form) : Prop :=
  fa = .lvalue ∧ fb = .lvalue ∧ (usingStd = true ∨ ∃ c ∈ cols, c.ofStd = true)

/-- Which function is called: `std::swap()` in the case of the pitfall, whatever the columns; otherwise the one for rows, if no column is `const`; otherwise the
call is ill-formed. -/
theorem C131_selected (usingStd : Bool) (cols : List ColumnType) (fa fb : Form) :
    (selectSwap usingStd cols fa fb = some .generic ↔ Pitfall usingStd cols fa fb) ∧
    (selectSwap usingStd cols fa fb = some .rows ↔ ¬ Pitfall usingStd cols fa fb ∧ ∀ c ∈ cols, c.isConst = false) ∧
    (selectSwap usingStd cols fa fb = none ↔ ¬ Pitfall usingStd cols fa fb ∧ ∃ c ∈ cols, c.isConst = true) := by
  have hg : (genericFound usingStd cols && genericViable fa fb) = true ↔ Pitfall usingStd cols fa fb := by
    unfold Pitfall genericFound
    cases fa <;> cases fb <;> simp [genericViable, deducedConst]
  have hr : rowsViable cols = true ↔ ∀ c ∈ cols, c.isConst = false := by simp [rowsViable]
  have hn : (¬ ∀ c ∈ cols, c.isConst = false) ↔ ∃ c ∈ cols, c.isConst = true := by simp
  unfold selectSwap
  by_cases hp : Pitfall usingStd cols fa fb
  · simp [hg.mpr hp, hp]
  · have : (genericFound usingStd cols && genericViable fa fb) = false := by
      rw [Bool.eq_false_iff]; exact fun h => hp (hg.mp h)
    by_cases hc : ∀ c ∈ cols, c.isConst = false
    · simp only [this, hr.mpr hc, Bool.false_eq_true, if_false, if_true, hp, not_false_eq_true, true_and, ← hn]
      exact ⟨by simp, by simpa using hc, by simpa using hc⟩
    · have hr' : rowsViable cols = false := by rw [Bool.eq_false_iff]; exact fun h => hc (hr.mp h)
      simp only [this, hr', Bool.false_eq_true, if_false, hp, not_false_eq_true, true_and, hc, iff_false]
      exact ⟨by simp, by simp, ⟨fun _ => hn.mp hc, fun _ => trivial⟩⟩

/-- Strings make `std::swap()` visible, numbers do not. -/
example : Pitfall false [⟨false, false⟩, ⟨false, true⟩] .lvalue .lvalue := ⟨rfl, rfl, .inr ⟨⟨false, true⟩, by simp, rfl⟩⟩
example : ¬ Pitfall false [⟨false, false⟩] .lvalue .lvalue := by simp [Pitfall]

/-- The claim, as far as it holds: without the pitfall, in particular for `swap(s[i], s[j])` and `std::iter_swap()`, the two rows are exchanged and nothing else is
changed. -/
theorem C131_exchanges_partial (usingStd : Bool) (cols : List ColumnType) (hc : ∀ c ∈ cols, c.isConst = false) (fa fb : Form)
    (hp : ¬ Pitfall usingStd cols fa fb) (st : State α) (b : Nat) (s : Span) (hb : st.spans b = some s) (hv : Valid st s) (hs : Separate s)
    (hw : Writable st s) (i j : Nat) (hi : i < s.size) (hj : j < s.size) :
    ∃ r q st', at' st b i = .ok r ∧ at' st b j = .ok q ∧ swapCall usingStd cols fa fb st r q = some (.ok st') ∧
      RowsMoved s st st' (fun k => if k = i then j else if k = j then i else k) := by
  obtain ⟨r, q, st', h1, h2, h3, h4⟩ := C60_swap st b s hb hv hs hw i j hi hj
  refine ⟨r, q, st', h1, h2, ?_, h4⟩
  rw [swapCall, (C131_selected usingStd cols fa fb).2.1.mpr ⟨hp, hc⟩, Option.map_some, h3]

example : ¬ Pitfall true [⟨false, true⟩] .prvalue .prvalue ∧ ¬ Pitfall true [⟨false, true⟩] .constLvalue .lvalue := by simp [Pitfall]

/-- In particular, `std::iter_swap(s.begin() + i, s.begin() + j)` exchanges the rows. -/
theorem C131_iter_swap (cols : List ColumnType) (hc : ∀ c ∈ cols, c.isConst = false) (st : State α) (b : Nat) (s : Span) (hb : st.spans b = some s)
    (hv : Valid st s) (hs : Separate s) (hw : Writable st s) (i j : Nat) (hi : i < s.size) (hj : j < s.size) :
    ∃ st', iterSwap cols st ((begin' b).plus i) ((begin' b).plus j) = some (.ok st') ∧
      RowsMoved s st st' (fun k => if k = i then j else if k = j then i else k) := by
  obtain ⟨r, q, st', h1, h2, h3, h4⟩ := C131_exchanges_partial true cols hc .prvalue .prvalue (by simp [Pitfall]) st b s hb hv hs hw i j hi hj
  rw [at_ok hb hi] at h1
  rw [at_ok hb hj] at h2
  cases h1; cases h2
  exact ⟨st', by simpa [iterSwap, begin', Ref.plus] using h3, h4⟩

theorem genericSwap_spec {st : State α} {b : Nat} {s : Span} (hb : st.spans b = some s) (hv : Valid st s) (hs : Separate s) (hw : Writable st s) {i j : Nat}
    (hi : i < s.size) (hj : j < s.size) {vals : List α} (hr : Row st s j vals) :
    ∃ st', genericSwap st ⟨b, i⟩ ⟨b, j⟩ = .ok st' ∧ OnlyRowSet s st st' i vals := by
  obtain ⟨r, q, st1, h1, h2, h3, h4⟩ := C60_assign_row st b s hb hv hs hw i j hi hj vals hr
  rw [at_ok hb hi] at h1
  rw [at_ok hb hj] at h2
  cases h1; cases h2
  obtain ⟨k1, k2⟩ := assignRef_keeps h3
  have hv1 := valid_after hv hi h4
  have hw1 : Writable st1 s := fun p hp => by rw [k1]; exact hw p hp
  obtain ⟨r, q, st2, h1, h2, h5, h6⟩ := C60_assign_row st1 b s (by rw [k2]; exact hb) hv1 hs hw1 j i hj hi vals h4.1
  rw [at_ok (by rw [k2]; exact hb) hj] at h1
  rw [at_ok (by rw [k2]; exact hb) hi] at h2
  cases h1; cases h2
  refine ⟨st2, by rw [genericSwap, h3, Outcome.bind, h5], ?_, ?_, ?_⟩
  · by_cases hij : i = j
    · rw [hij]; exact h6.1
    · exact (h6.2.1 i vals hij).mp h4.1
  · intro k r hk
    by_cases hkj : k = j
    · rw [hkj]
      exact ⟨fun h => (row_unique hr h) ▸ h6.1, fun h => (row_unique h6.1 h) ▸ hr⟩
    · exact (h4.2.1 k r hk).trans (h6.2.1 k r hkj)
  · exact ⟨h6.2.2.1.trans h4.2.2.1, fun a p hp => (h6.2.2.2 a p hp).trans (h4.2.2.2 a p hp)⟩

/-- In the case of the pitfall - `auto a = s[i]; auto b = s[j]; using std::swap; swap(a, b);` -, row `i` is overwritten with row `j`, and nothing else changes:
what was in row `i` is lost. This holds for `const` columns as well. -/
theorem C131_row_lost (usingStd : Bool) (cols : List ColumnType) (fa fb : Form) (hp : Pitfall usingStd cols fa fb) (st : State α) (b : Nat) (s : Span)
    (hb : st.spans b = some s) (hv : Valid st s) (hs : Separate s) (hw : Writable st s) (i j : Nat) (hi : i < s.size) (hj : j < s.size) (vals : List α)
    (hr : Row st s j vals) :
    ∃ r q st', at' st b i = .ok r ∧ at' st b j = .ok q ∧ swapCall usingStd cols fa fb st r q = some (.ok st') ∧ OnlyRowSet s st st' i vals := by
  obtain ⟨st', h1, h2⟩ := genericSwap_spec hb hv hs hw hi hj hr
  refine ⟨⟨b, i⟩, ⟨b, j⟩, st', at_ok hb hi, at_ok hb hj, ?_, h2⟩
  rw [swapCall, (C131_selected usingStd cols fa fb).1.mpr hp, Option.map_some, h1]

example : Pitfall true [⟨false, false⟩, ⟨true, false⟩] .lvalue .lvalue ∧ Row soaExample soaExampleSpan 2 [13, 23] :=
  ⟨by simp [Pitfall], by unfold Row elem soaExampleSpan soaExample; simp⟩

/-- So the claim that `swap()` exchanges rows is false. -/
theorem C131_exchanges_negated : ∃ (st st' : State Nat) (b i j : Nat) (s : Span) (r q : Ref), st.spans b = some s ∧ Valid st s ∧ Separate s ∧ Writable st s ∧
    i < s.size ∧ j < s.size ∧ at' st b i = .ok r ∧ at' st b j = .ok q ∧
    swapCall true [⟨false, false⟩, ⟨false, false⟩] .lvalue .lvalue st r q = some (.ok st') ∧
    ¬ RowsMoved s st st' (fun k => if k = i then j else if k = j then i else k) := by
  have hr : Row soaExample soaExampleSpan 2 [13, 23] := by unfold Row elem soaExampleSpan soaExample; simp
  have hr0 : Row soaExample soaExampleSpan 0 [11, 21] := by unfold Row elem soaExampleSpan soaExample; simp
  obtain ⟨r, q, st', h1, h2, h3, h4⟩ := C131_row_lost true [⟨false, false⟩, ⟨false, false⟩] .lvalue .lvalue (by simp [Pitfall]) soaExample 0 soaExampleSpan
    soaExample_span soaExample_valid soaExample_separate soaExample_writable 0 2 (by decide) (by decide) _ hr
  refine ⟨soaExample, st', 0, 0, 2, soaExampleSpan, r, q, soaExample_span, soaExample_valid, soaExample_separate, soaExample_writable, by decide, by decide,
    h1, h2, h3, fun hm => ?_⟩
  have e1 : Row st' soaExampleSpan 2 [11, 21] := hm.1 2 (by decide) _ hr0
  have e2 : Row st' soaExampleSpan 2 [13, 23] := (h4.2.1 2 _ (by decide)).mp hr
  exact absurd (row_unique e1 e2) (by decide)

/-- `std::ranges::swap()` does the same as `swap()` after `using std::swap;`, and can be used in the same cases. -/
theorem C131_ranges_swap (cols : List ColumnType) (fa fb : Form) (st : State α) (a b : Ref) :
    rangesSwap cols fa fb st a b = swapCall true cols fa fb st a b := by
  unfold rangesSwap swapCall selectSwap genericFound
  cases fa <;> cases fb <;> cases h : rowsViable cols <;> simp [genericViable, pillViable, deducedConst]

example : rangesSwap [⟨false, false⟩] .constLvalue .constLvalue soaExample ⟨0, 0⟩ ⟨0, 1⟩ = some (swapRefs soaExample ⟨0, 0⟩ ⟨0, 1⟩) := rfl

/-- Exchanging rows by way of an object of the `value_type` works for named references, too. -/
theorem C131_by_value (st : State α) (b : Nat) (s : Span) (hb : st.spans b = some s) (hv : Valid st s) (hs : Separate s) (hw : Writable st s) (i j : Nat)
    (hi : i < s.size) (hj : j < s.size) (v w : List α) (hri : Row st s i v) (hrj : Row st s j w) :
    ∃ r q mid st', at' st b i = .ok r ∧ at' st b j = .ok q ∧ exchangeByValue st r q = .ok st' ∧ OnlyRowSet s st mid i w ∧ OnlyRowSet s mid st' j v := by
  obtain ⟨r, q, st1, h1, h2, h3, h4⟩ := C60_assign_row st b s hb hv hs hw i j hi hj w hrj
  rw [at_ok hb hi] at h1
  rw [at_ok hb hj] at h2
  cases h1; cases h2
  obtain ⟨k1, k2⟩ := assignRef_keeps h3
  have hb1 : st1.spans b = some s := by rw [k2]; exact hb
  have hv1 := valid_after hv hi h4
  have hw1 : Writable st1 s := fun p hp => by rw [k1]; exact hw p hp
  obtain ⟨q, st2, h2, h5, h6⟩ := C60_assign_values st1 b s hb1 hv1 hs hw1 j hj v hri.length_eq.symm
  rw [at_ok hb1 hj] at h2
  cases h2
  obtain ⟨r', vals, e1, e2, e3, -⟩ := (C58_index st b s hb hv i).1 hi
  rw [at_ok hb hi] at e1
  cases e1
  cases row_unique hri e2
  refine ⟨⟨b, i⟩, ⟨b, j⟩, st1, st2, at_ok hb hi, at_ok hb hj, ?_, h4, h6⟩
  rw [exchangeByValue, e3, Outcome.bind, h3, Outcome.bind, h5]

example : Row soaExample soaExampleSpan 0 [11, 21] ∧ Row soaExample soaExampleSpan 2 [13, 23] :=
  ⟨by unfold Row elem soaExampleSpan soaExample; simp, by unfold Row elem soaExampleSpan soaExample; simp⟩

end Makeshift.Props
