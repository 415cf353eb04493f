import Verif.Model.UncheckedRanges
import Verif.Spec.UncheckedRanges
import Verif.Props.Ranges
import Verif.Props.SoaSpan
import Verif.Props.Expand
import Verif.Props.TypeEnum

/-!
# Ranges, spans, type enumerations and `expand_failfast()` when contract checks are switched off: C146
-/

namespace Makeshift.Props

open Makeshift Makeshift.Spec Makeshift.Unchecked Makeshift.Spec.Soa

variable {α : Type}

private theorem eOn (b : Bool) : Checks.expects .on b = Outcome.expects b := rfl
private theorem eOff (b : Bool) : Checks.expects .off b = .ok () := rfl

private theorem denotes_wrap {i : Nat} {d : Int} (h : Denotes i d) : IntTy.ptrdiffT.wrap i = d := by
  have h2 : (2 : Nat) ^ 64 = 18446744073709551616 := by decide
  obtain ⟨h0, h1, h3⟩ := h
  simp only [IntTy.ptrdiffT, IntTy.wrap, if_true, h2]
  rw [Int.bmod_def]
  rcases h3 with h3 | h3 <;> rw [h3] <;> split <;> omega

private theorem sizeT_sub (a b : Nat) (ha : a < 2 ^ 64) (hb : b < 2 ^ 64) :
    (IntTy.sizeT.wrap ((a : Int) - b)).toNat = (a + 2 ^ 64 - b) % 2 ^ 64 := by
  have h2 : (2 : Nat) ^ 64 = 18446744073709551616 := by decide
  simp only [IntTy.sizeT, IntTy.wrap, h2, Bool.false_eq_true, if_false]
  omega

/-! ## the configurations describe the same code -/

/-- C146: with checks switched on, ranges behave as in C37 and C38. -/
theorem C146_checked_ranges (array : List α) (r : DynRange) (q : StaticRange) (i start n first last : Int) (len extent : Nat) :
    Unchecked.dynGet .on array r i = DynRange.get array r i ∧
    Unchecked.staticGet .on array q i = StaticRange.get array q i ∧
    Unchecked.makeStaticFromExtent .on len extent start n = Makeshift.makeStaticFromExtent len extent start n ∧
    Unchecked.indexRange1 .on n = Makeshift.indexRange1 n ∧
    Unchecked.indexRange2 .on first last = Makeshift.indexRange2 first last := ⟨rfl, rfl, rfl, rfl, rfl⟩

private theorem checkAllEqual_on (l : List Nat) : Unchecked.checkAllEqual .on l = Makeshift.Soa.checkAllEqual l := by
  induction l with
  | nil => rfl
  | cons v l ih =>
    cases l with
    | nil => rfl
    | cons v' vs => simp only [Unchecked.checkAllEqual, Makeshift.Soa.checkAllEqual, ih, eOn]

private theorem ptrsAdd_ok {st : Soa.State α} {d : Int} : ∀ {ps : List Soa.Ptr},
    (∀ p ∈ ps, 0 ≤ (p.off : Int) + d ∧ (p.off : Int) + d ≤ (st.cells p.arr).length) →
    Unchecked.ptrsAdd st d ps = .ok (ps.map fun p => ⟨p.arr, ((p.off : Int) + d).toNat⟩)
  | [], _ => rfl
  | p :: ps, h => by
    have ih := ptrsAdd_ok (ps := ps) (fun q hq => h q (by simp [hq]))
    simp only [Unchecked.ptrsAdd, Unchecked.ptrAdd, if_pos (h p (by simp)), Outcome.bind_ok, ih, List.map_cons]

private theorem ptrsAdd_ub {st : Soa.State α} {d : Int} : ∀ {ps : List Soa.Ptr},
    ¬ (∀ p ∈ ps, 0 ≤ (p.off : Int) + d ∧ (p.off : Int) + d ≤ (st.cells p.arr).length) → Unchecked.ptrsAdd st d ps = .ub
  | [], h => absurd (by simp) h
  | p :: ps, h => by
    simp only [Unchecked.ptrsAdd, Unchecked.ptrAdd]
    by_cases hp : 0 ≤ (p.off : Int) + d ∧ (p.off : Int) + d ≤ (st.cells p.arr).length
    · rw [if_pos hp, Outcome.bind_ok, ptrsAdd_ub (fun hc => h (by simpa [hp] using hc))]; rfl
    · rw [if_neg hp]; rfl

private theorem wrap_small {n : Nat} (h : n < 2 ^ 63) : IntTy.ptrdiffT.wrap n = n := denotes_wrap ⟨by omega, by omega, Or.inl rfl⟩

private theorem subspan_valid (c : Checks) (st : Soa.State α) (s : Soa.Span) (hv : Valid st s) (hs : s.size < 2 ^ 63) (offset count : Nat)
    (h : offset ≤ s.size) (h' : count = Soa.npos ∨ count ≤ s.size - offset) :
    Unchecked.subspan c st s offset count = s.subspan offset count := by
  have hb : (decide (offset ≤ s.size) && (decide (count = Soa.npos) || decide (count ≤ s.size - offset))) = true := by
    simpa [h] using h'
  have he : c.expects true = .ok () := by cases c <;> rfl
  simp only [Unchecked.subspan, Soa.Span.subspan, hb, he, Outcome.expects_true, Outcome.bind_ok]
  rw [wrap_small (by omega), ptrsAdd_ok (fun p hp => by have := hv p hp; omega), sizeT_sub _ _ (by omega) (by omega)]
  simp only [Outcome.bind_ok, Outcome.ok.injEq, Soa.Span.mk.injEq]
  refine ⟨List.map_congr_left fun p _ => ?_, ?_⟩
  · simp only [Soa.Ptr.mk.injEq, true_and]; omega
  · split
    · rfl
    · omega

/-- C146: with checks switched on, spans behave as in C73 - C76 as long as their rows exist. -/
theorem C146_checked_span (st : Soa.State α) (s : Soa.Span) (hv : Valid st s) (hs : s.size < 2 ^ 63) (cols : List (Soa.Ptr × Nat))
    (offset count i b : Nat) (hb : st.spans b = some s) :
    Unchecked.makeSpan .on cols = Soa.makeSpan cols ∧
    Unchecked.subspan .on st s offset count = s.subspan offset count ∧
    Unchecked.first .on st s count = s.first count ∧
    Unchecked.last .on st s count = s.last count ∧
    Unchecked.soaAt .on st b i = Soa.at' st b i ∧
    Unchecked.soaFront .on st b = Soa.front st b ∧
    Unchecked.soaBack .on st b = Soa.back st b := by
  have hsub : ∀ offset count, Unchecked.subspan .on st s offset count = s.subspan offset count := by
    intro offset count
    by_cases h : offset ≤ s.size ∧ (count = Soa.npos ∨ count ≤ s.size - offset)
    · exact subspan_valid _ st s hv hs _ _ h.1 h.2
    · have hb : (decide (offset ≤ s.size) && (decide (count = Soa.npos) || decide (count ≤ s.size - offset))) = false := by
        rw [Bool.eq_false_iff]; intro hc; apply h; simpa using hc
      simp only [Unchecked.subspan, Soa.Span.subspan, hb, eOn]; rfl
  refine ⟨?_, hsub _ _, hsub _ _, ?_, ?_, rfl, rfl⟩
  · simp only [Unchecked.makeSpan, Soa.makeSpan, checkAllEqual_on]
  · simp only [Unchecked.last, Soa.Span.last, eOn]
    by_cases h : count ≤ s.size
    · have h0 : (IntTy.sizeT.wrap ((s.size : Int) - count)).toNat = s.size - count := by
        rw [sizeT_sub _ _ (by omega) (by omega)]; omega
      simp only [decide_eq_true h, Outcome.expects_true, Outcome.bind_ok, h0, hsub]
    · simp only [decide_eq_false h]; rfl
  · simp only [Unchecked.soaAt, Soa.at', Soa.State.withSpan, hb, eOn]
    by_cases h : i < s.size
    · rw [wrap_small (Nat.lt_trans h hs)]
    · simp only [decide_eq_false h]; show (Outcome.failFast : Outcome Soa.Ref) = .failFast; rfl

/-! ## nothing changes for arguments which satisfy the checks -/

/-- C146: a range operation which does not fail fast with checks has the same outcome without. -/
theorem C146_valid_ranges (array : List α) (r : DynRange) (q : StaticRange) (i start n first last : Int) (len extent : Nat) :
    (DynRange.get array r i ≠ .failFast → Unchecked.dynGet .off array r i = DynRange.get array r i) ∧
    (StaticRange.get array q i ≠ .failFast → Unchecked.staticGet .off array q i = StaticRange.get array q i) ∧
    (Makeshift.makeStaticFromExtent len extent start n ≠ .failFast →
      Unchecked.makeStaticFromExtent .off len extent start n = Makeshift.makeStaticFromExtent len extent start n) ∧
    (Makeshift.indexRange1 n ≠ .failFast → Unchecked.indexRange1 .off n = Makeshift.indexRange1 n) ∧
    (Makeshift.indexRange2 first last ≠ .failFast → Unchecked.indexRange2 .off first last = Makeshift.indexRange2 first last) := by
  have key : ∀ {β : Type} (b : Bool) (f : Unit → Outcome β), (Outcome.expects b).bind f ≠ .failFast → f () = (Outcome.expects b).bind f := by
    intro β b f h
    cases b with
    | true => rfl
    | false => exact absurd rfl h
  refine ⟨fun h => key _ _ h, fun h => key _ _ h, fun h => ?_, fun h => key _ (fun _ => Outcome.ok _) h, fun h => key _ (fun _ => Outcome.ok _) h⟩
  unfold Makeshift.makeStaticFromExtent at h ⊢
  unfold Unchecked.makeStaticFromExtent
  cases hi : iterAdd len start n with
  | ok x => rw [hi] at h; exact key _ (fun _ => Outcome.ok _) h
  | throw m => rfl
  | failFast => rfl
  | ub => rfl

/-- C146: a part of a span whose rows exist which can be taken with checks is the same without. -/
theorem C146_valid_span (st : Soa.State α) (s : Soa.Span) (hv : Valid st s) (hs : s.size < 2 ^ 63) (cols : List (Soa.Ptr × Nat))
    (offset count i b : Nat) (hb : st.spans b = some s) :
    (∀ t, Soa.makeSpan cols = .ok t → Unchecked.makeSpan .off cols = .ok t) ∧
    (∀ t, s.subspan offset count = .ok t → Unchecked.subspan .off st s offset count = .ok t) ∧
    (∀ t, s.first count = .ok t → Unchecked.first .off st s count = .ok t) ∧
    (∀ t, s.last count = .ok t → Unchecked.last .off st s count = .ok t) ∧
    (∀ r, Soa.at' st b i = .ok r → Unchecked.soaAt .off st b i = .ok r) ∧
    (∀ r, Soa.front st b = .ok r → Unchecked.soaFront .off st b = .ok r) ∧
    (∀ r, Soa.back st b = .ok r → Unchecked.soaBack .off st b = .ok r) := by
  have hsub : ∀ offset count t, s.subspan offset count = .ok t → Unchecked.subspan .off st s offset count = .ok t := by
    intro offset count t ht
    by_cases h : offset ≤ s.size ∧ (count = Soa.npos ∨ count ≤ s.size - offset)
    · rw [subspan_valid _ st s hv hs _ _ h.1 h.2]; exact ht
    · have hb : (decide (offset ≤ s.size) && (decide (count = Soa.npos) || decide (count ≤ s.size - offset))) = false := by
        rw [Bool.eq_false_iff]; intro hc; apply h; simpa using hc
      simp only [Soa.Span.subspan, hb] at ht; cases ht
  have hcheck : ∀ l n, Makeshift.Soa.checkAllEqual l = .ok n → Unchecked.checkAllEqual .off l = .ok n := by
    intro l
    induction l with
    | nil => exact fun n h => h
    | cons v l ih =>
      cases l with
      | nil => exact fun n h => h
      | cons v' vs =>
        intro n h
        simp only [Makeshift.Soa.checkAllEqual] at h
        cases hc : Makeshift.Soa.checkAllEqual (v' :: vs) with
        | ok m =>
          rw [hc, Outcome.bind_ok] at h
          by_cases hvm : v = m
          · simp only [decide_eq_true hvm, Outcome.expects_true, Outcome.bind_ok] at h
            simp only [Unchecked.checkAllEqual, ih m hc, eOff, Outcome.bind_ok, h]
          · simp only [decide_eq_false hvm] at h; cases h
        | throw m => rw [hc] at h; cases h
        | failFast => rw [hc] at h; cases h
        | ub => rw [hc] at h; cases h
  refine ⟨fun t h => ?_, hsub _ _, hsub _ _, fun t h => ?_, fun r h => ?_, fun r h => ?_, fun r h => ?_⟩
  · unfold Soa.makeSpan at h
    unfold Unchecked.makeSpan
    cases hc : Makeshift.Soa.checkAllEqual (cols.map (·.2)) with
    | ok m => rw [hc] at h; rw [hcheck _ _ hc]; exact h
    | throw m => rw [hc] at h; cases h
    | failFast => rw [hc] at h; cases h
    | ub => rw [hc] at h; cases h
  · by_cases hc : count ≤ s.size
    · simp only [Soa.Span.last, decide_eq_true hc, Outcome.expects_true, Outcome.bind_ok] at h
      simp only [Unchecked.last, eOff, Outcome.bind_ok]
      rw [sizeT_sub _ _ (by omega) (by omega), show (s.size + 2 ^ 64 - count) % 2 ^ 64 = s.size - count by omega]
      exact hsub _ _ _ h
    · simp only [Soa.Span.last, decide_eq_false hc] at h; cases h
  · simp only [Soa.at', Soa.State.withSpan, hb] at h
    simp only [Unchecked.soaAt, Soa.State.withSpan, hb, eOff, Outcome.bind_ok]
    by_cases hi : i < s.size
    · rw [wrap_small (by omega)]; simpa only [decide_eq_true hi, Outcome.expects_true, Outcome.bind_ok] using h
    · simp only [decide_eq_false hi] at h; cases h
  · simp only [Soa.front, Soa.State.withSpan, hb] at h
    simp only [Unchecked.soaFront, Soa.State.withSpan, hb, eOff, Outcome.bind_ok]
    cases he : s.empty with
    | true => simp only [he] at h; cases h
    | false => simpa only [he, Bool.not_false, Outcome.expects_true, Outcome.bind_ok] using h
  · simp only [Soa.back, Soa.State.withSpan, hb] at h
    simp only [Unchecked.soaBack, Soa.State.withSpan, hb, eOff, Outcome.bind_ok]
    cases he : s.empty with
    | true => simp only [he] at h; cases h
    | false => simpa only [he, Bool.not_false, Outcome.expects_true, Outcome.bind_ok] using h

/-- Two columns with three and four cells, of which a span shows two. -/
private def tab : Soa.State Nat :=
  ⟨fun a => if a = 0 then [10, 11, 12] else if a = 1 then [20, 21, 22, 23] else [], fun _ => false,
    fun b => if b = 0 then some ⟨[⟨0, 1⟩, ⟨1, 1⟩], 2⟩ else none⟩
private def tabSpan : Soa.Span := ⟨[⟨0, 1⟩, ⟨1, 1⟩], 2⟩

example : Valid tab tabSpan ∧ tabSpan.size < 2 ^ 63 ∧ tab.spans 0 = some tabSpan ∧
    tabSpan.subspan 1 1 = .ok ⟨[⟨0, 2⟩, ⟨1, 2⟩], 1⟩ ∧ tabSpan.last 3 = .failFast :=
  ⟨by simp [Valid, tab, tabSpan], by decide, rfl, by decide, by decide⟩

/-! ## ranges -/

/-- C146: without checks `r[i]` is the element `i` places behind the beginning, whether the range contains it or not; it is
undefined exactly if the underlying array has no such element. -/
theorem C146_range_subscript (array : List α) (first : Nat) (last : Int) (extent i : Nat) :
    (∀ h : first + i < array.length, Unchecked.dynGet .off array ⟨first, last⟩ i = .ok array[first + i] ∧
      Unchecked.staticGet .off array ⟨first, extent⟩ i = .ok array[first + i]) ∧
    (array.length ≤ first + i → Unchecked.dynGet .off array ⟨first, last⟩ i = .ub ∧
      Unchecked.staticGet .off array ⟨first, extent⟩ i = .ub) := by
  have hr : ∀ x : Outcome α, iterSubscript array first i = x →
      Unchecked.dynGet .off array ⟨first, last⟩ i = x ∧ Unchecked.staticGet .off array ⟨first, extent⟩ i = x :=
    fun x h => ⟨h, h⟩
  constructor
  · intro h
    refine hr _ ?_
    simp only [iterSubscript, iterAdd]
    rw [if_pos ⟨by omega, by omega⟩, Outcome.bind_ok, iterRead, if_neg (by omega),
      show ((first : Int) + i).toNat = first + i by omega, List.getElem?_eq_getElem h]
  · intro h
    refine hr _ ?_
    simp only [iterSubscript, iterAdd]
    by_cases he : first + i ≤ array.length
    · rw [if_pos ⟨by omega, by omega⟩, Outcome.bind_ok, iterRead, if_neg (by omega),
        show ((first : Int) + i).toNat = first + i by omega, List.getElem?_eq_none (by omega)]
    · rw [if_neg (by omega)]; rfl

example : Unchecked.dynGet .off [10, 11, 12, 13] ⟨1, 3⟩ 2 = .ok 13 ∧ Unchecked.dynGet .on [10, 11, 12, 13] ⟨1, 3⟩ 2 = .failFast ∧
    Unchecked.dynGet .off [10, 11, 12, 13] ⟨1, 3⟩ 3 = .ub := by decide

/-- C146: without checks a range with a compile-time extent can be made with any number of elements; it still has its compile-time
extent, and asking for its end is undefined if the array is too short for it. -/
theorem C146_static_extent (len extent start n : Nat) (h : start + n ≤ len) :
    ∃ r, Unchecked.makeStaticFromExtent .off len extent start n = .ok r ∧ r.first = start ∧ r.size = extent ∧
      (start + extent ≤ len → r.end len = .ok (start + extent : Nat)) ∧ (len < start + extent → r.end len = .ub) := by
  refine ⟨⟨start, extent⟩, ?_, rfl, rfl, fun he => ?_, fun he => ?_⟩
  · simp only [Unchecked.makeStaticFromExtent, iterAdd]
    rw [if_pos ⟨by omega, by omega⟩]; rfl
  · simp only [StaticRange.end, iterAdd]
    rw [if_pos ⟨by omega, by omega⟩]; simp
  · simp only [StaticRange.end, iterAdd]
    rw [if_neg (by omega)]

example : Unchecked.makeStaticFromExtent .off 4 3 2 1 = .ok ⟨2, 3⟩ ∧ (⟨2, 3⟩ : StaticRange).end 4 = .ub := by decide

private theorem indexLoop_reversed (stop : Int) : ∀ (fuel : Nat) (i : Int), stop < i → i ≤ 2 ^ 63 - 1 → -2 ^ 63 ≤ stop →
    indexLoop ⟨stop⟩ fuel ⟨i⟩ = if (fuel : Int) ≤ 2 ^ 63 - 1 - i then none else some .ub
  | 0, i, h, hi, hs => by rw [if_pos (by simp; omega)]; rfl
  | fuel + 1, i, h, hi, hs => by
    have hne : IndexIt.ne ⟨i⟩ ⟨stop⟩ = true := by simp [IndexIt.ne]; omega
    simp only [indexLoop, hne, if_true, IndexIt.inc, IntTy.arith, IntTy.ptrdiffT, IntTy.InRange, IntTy.minVal, IntTy.maxVal]
    have hp : ((2 ^ (64 - 1) : Nat) : Int) = 9223372036854775808 := by decide
    simp only [hp]
    by_cases hm : i = 2 ^ 63 - 1
    · rw [if_neg (by omega), if_neg (by push_cast; omega)]; rfl
    · rw [if_pos (by omega)]
      simp only [Outcome.bind_ok, indexLoop_reversed stop fuel (i + 1) (by omega) (by omega) hs]
      by_cases hf : (fuel : Int) ≤ 2 ^ 63 - 1 - (i + 1)
      · rw [if_pos hf, if_pos (by push_cast; omega)]; rfl
      · rw [if_neg hf, if_neg (by push_cast; omega)]; rfl

/-- C146: without checks a loop over `index_range(first, last)` with `last < first` counts up to the largest index and overflows there;
it never ends. -/
theorem C146_index_range_reversed (first last : Int) (h : last < first) (h0 : -2 ^ 63 ≤ last) (h1 : first < 2 ^ 63) :
    ∃ r, Unchecked.indexRange2 .off first last = .ok r ∧
      ∀ fuel : Nat, r.iterate fuel = if (fuel : Int) ≤ 2 ^ 63 - 1 - first then none else some .ub :=
  ⟨⟨first, last⟩, rfl, fun fuel => indexLoop_reversed last fuel first h (by omega) h0⟩

/-- C146: the same holds for `index_range(n)` with a negative `n`. -/
theorem C146_index_range_negative (n : Int) (h : n < 0) (h0 : -2 ^ 63 ≤ n) :
    ∃ r, Unchecked.indexRange1 .off n = .ok r ∧ ∀ fuel : Nat, r.iterate fuel = if fuel ≤ 2 ^ 63 - 1 then none else some .ub := by
  refine ⟨⟨0, n⟩, rfl, fun fuel => ?_⟩
  have := indexLoop_reversed n fuel 0 h (by omega) h0
  rw [IndexRange.iterate, show (IndexRange.end ⟨0, n⟩) = ⟨n⟩ from rfl, show (IndexRange.begin ⟨0, n⟩) = ⟨0⟩ from rfl, this]
  by_cases hf : fuel ≤ 2 ^ 63 - 1
  · rw [if_pos (by omega), if_pos hf]
  · rw [if_neg (by omega), if_neg hf]

example : (-3 : Int) < 0 ∧ -2 ^ 63 ≤ (-3 : Int) ∧ Unchecked.indexRange1 .on (-3) = .failFast := by decide

/-! ## spans -/

/-- C146: without checks a span of columns of different lengths has as many rows as the last column has elements. -/
theorem C146_span_size (cols : List (Soa.Ptr × Nat)) (h : cols ≠ []) :
    Unchecked.makeSpan .off cols = .ok ⟨cols.map (·.1), (cols.getLast h).2⟩ := by
  have key : ∀ (l : List Nat) (hl : l ≠ []), Unchecked.checkAllEqual .off l = .ok (l.getLast hl) := by
    intro l
    induction l with
    | nil => exact fun hl => absurd rfl hl
    | cons v l ih =>
      intro hl
      cases l with
      | nil => rfl
      | cons v' vs => simp only [Unchecked.checkAllEqual, ih (by simp), eOff, Outcome.bind_ok, List.getLast_cons_cons]
  have hm : cols.map (·.2) ≠ [] := by simpa using h
  simp only [Unchecked.makeSpan, key _ hm, Outcome.bind_ok, List.getLast_map]

example : Unchecked.makeSpan .off [((⟨0, 0⟩ : Soa.Ptr), 2), (⟨1, 0⟩, 5)] = .ok ⟨[⟨0, 0⟩, ⟨1, 0⟩], 5⟩ ∧
    Unchecked.makeSpan .on [((⟨0, 0⟩ : Soa.Ptr), 2), (⟨1, 0⟩, 5)] = .failFast := by decide

private theorem readCell_value (st : Soa.State α) (p : Soa.Ptr) (d : Int) :
    Soa.readCell st p d = match valueAt st p d with | some v => .ok v | none => .ub := by
  simp only [Soa.readCell, valueAt]
  by_cases h : (p.off : Int) + d < 0
  · rw [if_pos h, if_neg (by omega)]
  · rw [if_neg h, if_pos (by omega)]
    cases (st.cells p.arr)[((p.off : Int) + d).toNat]? <;> rfl

private theorem readRow_ok {st : Soa.State α} {d : Int} {ps : List Soa.Ptr} {vals : List α}
    (h : List.Forall₂ (fun p v => valueAt st p d = some v) ps vals) : Soa.readRow st d ps = .ok vals := by
  induction h with
  | nil => rfl
  | cons h _ ih => simp only [Soa.readRow, readCell_value, h, ih, Outcome.bind_ok]

private theorem readRow_ub {st : Soa.State α} {d : Int} : ∀ {ps : List Soa.Ptr},
    (∀ vals, ¬ List.Forall₂ (fun p v => valueAt st p d = some v) ps vals) → Soa.readRow st d ps = .ub
  | [], h => absurd List.Forall₂.nil (h [])
  | p :: ps, h => by
    simp only [Soa.readRow, readCell_value]
    cases hp : valueAt st p d with
    | none => rfl
    | some v => rw [Outcome.bind_ok, readRow_ub (fun vals hv => h (v :: vals) (List.Forall₂.cons hp hv))]; rfl

private theorem toTuple_row {st : Soa.State α} {s : Soa.Span} {b : Nat} (hb : st.spans b = some s) (d : Int) :
    (∀ vals, RowAt st s d vals → Soa.toTuple st ⟨b, d⟩ = .ok vals) ∧
    ((∀ vals, ¬ RowAt st s d vals) → Soa.toTuple st ⟨b, d⟩ = .ub) := by
  simp only [Soa.toTuple, Soa.State.withSpan, hb]
  exact ⟨fun vals h => readRow_ok h, fun h => readRow_ub h⟩

/-- C146: without checks `s[i]` is the row `i` places behind the first one, also behind the end of the span or, if a negative number
was converted to `std::size_t`, in front of it; reading it is undefined exactly if one of the arrays has no such element. -/
theorem C146_span_subscript (st : Soa.State α) (s : Soa.Span) (b : Nat) (hb : st.spans b = some s) (i : Nat) (d : Int) (hd : Denotes i d) :
    (∀ vals, RowAt st s d vals → (Unchecked.soaAt .off st b i).bind (Soa.toTuple st) = .ok vals) ∧
    ((∀ vals, ¬ RowAt st s d vals) → (Unchecked.soaAt .off st b i).bind (Soa.toTuple st) = .ub) := by
  have : Unchecked.soaAt .off st b i = .ok ⟨b, d⟩ := by
    simp only [Unchecked.soaAt, Soa.State.withSpan, hb, eOff, Outcome.bind_ok, denotes_wrap hd]
  rw [this]
  exact toTuple_row hb d

example : Denotes (2 ^ 64 - 1) (-1) ∧ RowAt tab tabSpan (-1) [10, 20] ∧
    (Unchecked.soaAt .off tab 0 (2 ^ 64 - 1)).bind (Soa.toTuple tab) = .ok [10, 20] ∧
    (Unchecked.soaAt .off tab 0 2).bind (Soa.toTuple tab) = .ub ∧ Unchecked.soaAt .on tab 0 2 = .failFast :=
  ⟨by unfold Denotes; decide, .cons rfl (.cons rfl .nil), by decide, by decide, by decide⟩

/-- C146: without checks `front()` and `back()`, which with checks fail fast for all spans with elements, are the first and the last row;
for a span without elements `back()` is the row in front of it. -/
theorem C146_span_ends (st : Soa.State α) (s : Soa.Span) (b : Nat) (hb : st.spans b = some s) :
    (∀ vals, RowAt st s 0 vals → (Unchecked.soaFront .off st b).bind (Soa.toTuple st) = .ok vals) ∧
    ((∀ vals, ¬ RowAt st s 0 vals) → (Unchecked.soaFront .off st b).bind (Soa.toTuple st) = .ub) ∧
    (∀ vals, RowAt st s (s.size - 1) vals → (Unchecked.soaBack .off st b).bind (Soa.toTuple st) = .ok vals) ∧
    ((∀ vals, ¬ RowAt st s (s.size - 1) vals) → (Unchecked.soaBack .off st b).bind (Soa.toTuple st) = .ub) ∧
    (s.size ≠ 0 → Unchecked.soaFront .on st b = .failFast ∧ Unchecked.soaBack .on st b = .failFast) := by
  have hf : Unchecked.soaFront .off st b = .ok ⟨b, 0⟩ := by
    simp only [Unchecked.soaFront, Soa.State.withSpan, hb, eOff, Outcome.bind_ok]
  have hl : Unchecked.soaBack .off st b = .ok ⟨b, (s.size : Int) - 1⟩ := by
    simp only [Unchecked.soaBack, Soa.State.withSpan, hb, eOff, Outcome.bind_ok]
  rw [hf, hl]
  refine ⟨(toTuple_row hb 0).1, (toTuple_row hb 0).2, (toTuple_row hb _).1, (toTuple_row hb _).2, fun hs => ?_⟩
  have he : s.empty = true := by simpa [Soa.Span.empty] using hs
  simp only [Unchecked.soaFront, Unchecked.soaBack, Soa.State.withSpan, hb, he, eOn]
  exact ⟨rfl, rfl⟩

example : (Unchecked.soaFront .off tab 0).bind (Soa.toTuple tab) = .ok [11, 21] ∧
    (Unchecked.soaBack .off tab 0).bind (Soa.toTuple tab) = .ok [12, 22] := by decide

private theorem rowAt_moved {st : Soa.State α} {d : Int} (k : Int) : ∀ {ps : List Soa.Ptr} {vals : List α},
    (∀ p ∈ ps, 0 ≤ (p.off : Int) + d ∧ (p.off : Int) + d ≤ (st.cells p.arr).length) →
    (List.Forall₂ (fun p v => valueAt st p k = some v) (ps.map fun p => (⟨p.arr, ((p.off : Int) + d).toNat⟩ : Soa.Ptr)) vals ↔
      List.Forall₂ (fun p v => valueAt st p (d + k) = some v) ps vals)
  | [], vals, _ => by simp
  | p :: ps, vals, h => by
    have hp := h p (by simp)
    have he : valueAt st (⟨p.arr, ((p.off : Int) + d).toNat⟩ : Soa.Ptr) k = valueAt st p (d + k) := by
      simp only [valueAt]
      rw [show (((((p.off : Int) + d).toNat : Nat) : Int) + k) = (p.off : Int) + (d + k) by omega]
    cases vals with
    | nil => simp
    | cons v vs =>
      have ih := rowAt_moved k (ps := ps) (vals := vs) (fun q hq => h q (by simp [hq]))
      simp only [List.map_cons, List.forall₂_cons, he, ih]

/-- C146: without checks `subspan(offset, count)` is undefined if a column cannot be moved that far within its array, and otherwise is
a span whose first row is row `offset` (possibly in front of the original span, or behind its end) and whose size is `count` or, if
no count is given, the difference of size and offset modulo 2^64, whether these rows exist or not. -/
theorem C146_subspan (st : Soa.State α) (s : Soa.Span) (hs : s.size < 2 ^ 64) (offset count : Nat) (d : Int) (ho : offset < 2 ^ 64)
    (hd : Denotes offset d) :
    (CanMove st s d → ∃ t, Unchecked.subspan .off st s offset count = .ok t ∧
      t.size = (if count = 2 ^ 64 - 1 then (s.size + 2 ^ 64 - offset) % 2 ^ 64 else count) ∧
      ∀ k vals, RowAt st t k vals ↔ RowAt st s (d + k) vals) ∧
    (¬ CanMove st s d → Unchecked.subspan .off st s offset count = .ub) := by
  constructor
  · intro hm
    refine ⟨⟨s.data.map fun p => ⟨p.arr, ((p.off : Int) + d).toNat⟩,
      if count ≠ Soa.npos then count else (s.size + 2 ^ 64 - offset) % 2 ^ 64⟩, ?_, ?_, fun k vals => rowAt_moved k hm⟩
    · simp only [Unchecked.subspan, eOff, Outcome.bind_ok, denotes_wrap hd, ptrsAdd_ok hm, sizeT_sub _ _ hs ho]
    · show (if count ≠ Soa.npos then count else (s.size + 2 ^ 64 - offset) % 2 ^ 64) =
        if count = Soa.npos then (s.size + 2 ^ 64 - offset) % 2 ^ 64 else count
      by_cases hc : count = Soa.npos
      · rw [if_neg (fun h => h hc), if_pos hc]
      · rw [if_pos hc, if_neg hc]
  · intro hm
    simp only [Unchecked.subspan, eOff, Outcome.bind_ok, denotes_wrap hd, ptrsAdd_ub hm]
    rfl

/-- C146: `first(count)` without checks is the span with another size. -/
theorem C146_first (st : Soa.State α) (s : Soa.Span) (hv : Valid st s) (hs : s.size < 2 ^ 64) (count : Nat) (hc : count < 2 ^ 64 - 1) :
    ∃ t, Unchecked.first .off st s count = .ok t ∧ t.size = count ∧ ∀ k vals, RowAt st t k vals ↔ RowAt st s k vals := by
  obtain ⟨t, h1, h2, h3⟩ := (C146_subspan st s hs 0 count 0 (by omega) ⟨by omega, by omega, Or.inl rfl⟩).1
    (fun p hp => by have := hv p hp; omega)
  exact ⟨t, h1, by rw [h2, if_neg (by omega)], fun k vals => by simpa using h3 k vals⟩

/-- C146: `last(count)` of a span with fewer than `count` rows is, without checks, a span which starts in front of the original one:
its first row is row `size - count`; it is undefined if the rows in front do not exist. -/
theorem C146_last (st : Soa.State α) (s : Soa.Span) (count : Nat) (hs : s.size < count) (hc : count < 2 ^ 63) :
    (CanMove st s (s.size - count) → ∃ t, Unchecked.last .off st s count = .ok t ∧ t.size = count ∧
      ∀ k vals, RowAt st t k vals ↔ RowAt st s (s.size - count + k) vals) ∧
    (¬ CanMove st s (s.size - count) → Unchecked.last .off st s count = .ub) := by
  have h0 : (IntTy.sizeT.wrap ((s.size : Int) - count)).toNat = s.size + 2 ^ 64 - count := by
    rw [sizeT_sub _ _ (by omega) (by omega)]; omega
  have hsub := C146_subspan st s (by omega) (s.size + 2 ^ 64 - count) count ((s.size : Int) - count) (by omega)
    ⟨by omega, by omega, Or.inr (by omega)⟩
  simp only [Unchecked.last, eOff, Outcome.bind_ok, h0]
  refine ⟨fun hm => ?_, hsub.2⟩
  obtain ⟨t, h1, h2, h3⟩ := hsub.1 hm
  exact ⟨t, h1, by rw [h2, if_neg (by omega)], h3⟩

example : Unchecked.last .off tab tabSpan 3 = .ok ⟨[⟨0, 0⟩, ⟨1, 0⟩], 3⟩ ∧ Unchecked.last .off tab tabSpan 4 = .ub ∧
    Unchecked.last .on tab tabSpan 3 = .failFast ∧ Unchecked.first .off tab tabSpan 5 = .ok ⟨[⟨0, 1⟩, ⟨1, 1⟩], 5⟩ ∧
    Unchecked.subspan .off tab tabSpan (2 ^ 64 - 1) (2 ^ 64 - 1) = .ok ⟨[⟨0, 0⟩, ⟨1, 0⟩], 3⟩ := by decide

example : CanMove tab tabSpan (-1) ∧ ¬ CanMove tab tabSpan (-2) ∧ Denotes (2 ^ 64 - 1) (-1) := by
  refine ⟨by simp [CanMove, tab, tabSpan], by simp [CanMove, tab, tabSpan], by unfold Denotes; decide⟩

/-! ## type enumerations -/

/-- C146: with checks switched on, type enumerations are those of C62; a value which is accepted is the same without checks. -/
theorem C146_type_enum_checked {Ty : Type} [DecidableEq Ty] (Ts : List Ty) (v : Int) :
    Unchecked.typeEnumFromInt .on Ts v = TypeEnum.fromInt Ts v ∧
    ∀ e, TypeEnum.fromInt Ts v = some (.ok e) → Unchecked.typeEnumFromInt .off Ts v = some (.ok e) := by
  refine ⟨rfl, fun e h => ?_⟩
  unfold TypeEnum.fromInt at h
  unfold Unchecked.typeEnumFromInt
  by_cases hT : Ts = []
  · rw [if_pos hT] at h; cases h
  · rw [if_neg hT] at h ⊢
    simp only at h ⊢
    generalize hb : (decide (TypeEnum.int32.wrap v ≥ 0) && decide (TypeEnum.int32.wrap v < TypeEnum.int32.wrap Ts.length)) = b at h
    cases b with
    | true => exact h
    | false => simp only [Option.some.injEq] at h; cases h

/-- C146: without checks a type enumeration takes on any 32-bit number; a number which does not belong to a type differs from all
types, and no case label of a `switch` statement matches it. -/
theorem C146_type_enum_any {Ty : Type} [DecidableEq Ty] (Ts : List Ty) (hw : TypeEnum.wellFormed Ts = true) (hn : Ts.Nodup) (hne : Ts ≠ [])
    (v : Int) (h0 : -2147483648 ≤ v) (h1 : v < 2147483648) :
    ∃ e, Unchecked.typeEnumFromInt .off Ts v = some (.ok e) ∧ TypeEnum.toInt e = v ∧
      (¬ (0 ≤ v ∧ v < Ts.length) →
        (∀ T ∈ Ts, TypeEnum.eqType Ts e T = some false ∧ TypeEnum.neType Ts e T = some true) ∧
        ∀ labels r, TypeEnum.switchOn Ts e labels = some r → r = none) := by
  refine ⟨v, ?_, rfl, fun hv => ?_⟩
  · simp only [Unchecked.typeEnumFromInt, if_neg hne, eOff, Outcome.bind_ok, wrap32 h0 h1]
  · have hlen : Ts.length < 24 := by unfold TypeEnum.wellFormed at hw; simpa [hne] using hw
    have hidx : ∀ T ∈ Ts, ∃ k : Nat, k < Ts.length ∧ tryTypePackIndex T Ts = k := by
      intro T hT
      obtain ⟨k, hk⟩ := List.mem_iff_getElem?.1 hT
      exact ⟨k, (List.getElem?_eq_some_iff.1 hk).1, index_nodup hn hk⟩
    have heq : ∀ T ∈ Ts, TypeEnum.eqType Ts v T = some false := by
      intro T hT
      obtain ⟨k, hk, hi⟩ := hidx T hT
      simp only [TypeEnum.eqType, hi]
      rw [if_pos (by omega), wrap32 (by omega) (by omega)]
      rw [decide_eq_false]
      show ¬ (k : Int) = v
      omega
    refine ⟨fun T hT => ⟨heq T hT, by simp only [TypeEnum.neType, heq T hT]; rfl⟩, fun labels r hr => ?_⟩
    unfold TypeEnum.switchOn at hr
    split at hr
    · rename_i hl
      simp only [Option.some.injEq] at hr
      rw [← hr, List.find?_eq_none]
      intro T hT
      have hm : T ∈ Ts := by
        by_contra hc
        have := hl.1 T hT
        simp [TypeEnum.caseLabel, index_absent hc] at this
      obtain ⟨k, hk, hi⟩ := hidx T hm
      simp only [TypeEnum.caseLabel, hi]
      rw [if_pos (by omega), wrap32 (by omega) (by omega)]
      simp only [Option.some.injEq, decide_eq_true_eq]
      omega
    · cases hr

example : Unchecked.typeEnumFromInt .off [1, 2] 7 = some (.ok 7) ∧ Unchecked.typeEnumFromInt .on [1, 2] 7 = some .failFast ∧
    TypeEnum.switchOn [1, 2] 7 [2, 1] = some none ∧ TypeEnum.wellFormed [1, 2] = true := by decide

/-! ## `expand_failfast()` -/

/-- C146: with checks switched on, `expand_failfast()` is that of C14. -/
theorem C146_expand_checked (search : Outcome Int) (values : List α) :
    (Unchecked.expandFailfast .on search values).mapVal some = expandWith .failfast search values := by
  cases search with
  | ok i =>
    simp only [Unchecked.expandFailfast, expandWith, Outcome.bind_ok, eOn]
    by_cases h : i < 0
    · rw [if_pos h, decide_eq_false (by omega)]; rfl
    · rw [if_neg h, decide_eq_true (by omega)]
      simp only [Outcome.expects_true, Outcome.bind_ok]
      cases at? values i <;> rfl
  | throw m => rfl
  | failFast => rfl
  | ub => rfl

private theorem expand_off {search : Outcome Int} {values : List α} {value : α}
    (h : ExpandSpec values value (fun mode => expandWith mode search values)) :
    (value ∈ values → Unchecked.expandFailfast .off search values = .ok value) ∧
    (value ∉ values → Unchecked.expandFailfast .off search values = .ub) := by
  constructor
  · intro hv
    have h1 := h.1 hv .optional
    have h2 := h.1 hv .failfast
    cases search with
    | ok i =>
      simp only [expandWith, Outcome.bind_ok] at h2
      by_cases hi : i < 0
      · rw [if_pos hi] at h2; cases h2
      · rw [if_neg hi] at h2
        simp only [Unchecked.expandFailfast, eOff, Outcome.bind_ok]
        cases ha : at? values i with
        | none => rw [ha] at h2; cases h2
        | some v => rw [ha] at h2; simp only [Outcome.ok.injEq, Option.some.injEq] at h2; rw [h2]
    | throw m => cases h1
    | failFast => cases h1
    | ub => cases h1
  · intro hv
    have h1 := (h.2 hv).2.1
    cases search with
    | ok i =>
      simp only [expandWith, Outcome.bind_ok] at h1
      by_cases hi : i < 0
      · simp only [Unchecked.expandFailfast, eOff, Outcome.bind_ok, at?, if_pos hi]
      · rw [if_neg hi] at h1
        cases ha : at? values i with
        | none => rw [ha] at h1; cases h1
        | some v => rw [ha] at h1; cases h1
    | throw m => cases h1
    | failFast => cases h1
    | ub => cases h1

/-- C146: without checks `expand_failfast()` gives the value which `try_expand()` gives, and is undefined if that returns nothing (or is
undefined itself). -/
theorem C146_expand_versus_try (search : Outcome Int) (values : List α) :
    (∀ v, expandWith .optional search values = .ok (some v) → Unchecked.expandFailfast .off search values = .ok v) ∧
    (expandWith .optional search values = .ok none → Unchecked.expandFailfast .off search values = .ub) ∧
    (expandWith .optional search values = .ub → Unchecked.expandFailfast .off search values = .ub) := by
  cases search with
  | ok i =>
    simp only [expandWith, Unchecked.expandFailfast, eOff, Outcome.bind_ok]
    by_cases hi : i < 0
    · simp [hi, at?]
    · simp only [if_neg hi]
      cases at? values i <;> simp
  | throw m => simp [expandWith, Outcome.bind]
  | failFast => simp [expandWith, Outcome.bind]
  | ub => simp [expandWith, Unchecked.expandFailfast, Outcome.bind]

example : expandWith .optional (searchIntegral tUInt 0 [4294967295, 0]) [4294967295, 0] = .ok none ∧
    Unchecked.expandFailfast .off (searchIntegral tUInt 0 [4294967295, 0]) [4294967295, 0] = .ub := by decide

/-- C146: without checks `expand_failfast()` for values which are neither of enumeration nor of integral type finds listed values all
the same, and is undefined exactly for values which are not listed. -/
theorem C146_expand_unlisted (lt : Option (α → α → Bool)) (eq : α → α → Bool)
    (heq : ∀ a b, eq a b = true ↔ a = b) (hlt : ∀ f, lt = some f → LinearOps f eq) (values : List α) (value : α) :
    (value ∈ values → Unchecked.expandFailfast .off (searchGeneral lt eq value values) values = .ok value) ∧
    (value ∉ values → Unchecked.expandFailfast .off (searchGeneral lt eq value values) values = .ub) :=
  expand_off (C14_expand_general lt eq heq hlt values value)

/-- C146: the same for values of integral, enumeration or Boolean type, with the provisos of `C14_expand_integral_partial`. -/
theorem C146_expand_unlisted_integral {t : IntTy} (ht : StdWidth t) (values : List Int) (value : Int)
    (hx : ∀ x ∈ values, t.InRange x) (hv : t.InRange value) (hn : values.length < 2 ^ 63)
    (hw : 32 ≤ t.bits → ∀ x ∈ values.dropLast, x ≠ t.maxVal)
    (hd : t.signed = true → 32 ≤ t.bits → ∀ v0, values.head? = some v0 → value - v0 ≤ t.maxVal) :
    (value ∈ values → Unchecked.expandFailfast .off (searchIntegral t value values) values = .ok value) ∧
    (value ∉ values → Unchecked.expandFailfast .off (searchIntegral t value values) values = .ub) :=
  expand_off (C14_expand_integral_partial ht values value hx hv hn hw hd)

example : Unchecked.expandFailfast .off (searchIntegral tInt 4 [3, 4, 5]) [3, 4, 5] = .ok 4 ∧
    Unchecked.expandFailfast .off (searchIntegral tInt 9 [3, 4, 5]) [3, 4, 5] = .ub ∧
    Unchecked.expandFailfast .on (searchIntegral tInt 9 [3, 4, 5]) [3, 4, 5] = .failFast := by decide

end Makeshift.Props
