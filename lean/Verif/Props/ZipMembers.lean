import Verif.Lemmas.ZipMembers
import Verif.Props.Zip
import Verif.Props.ZipStd
import Verif.Props.MergeSizes
import Mathlib.Tactic.NormNum

/-! # C141: the member functions of zipped ranges -/

namespace Makeshift.Props

open Makeshift.Spec Makeshift.ZipMembers

variable {α : Type}

/-- A vector, an unsized range and `range_index`. -/
private def memberRanges : List (Rng Nat) :=
  [⟨.index, .dyn 3, [10, 11, 12]⟩, ⟨.iteratorPair, .static (-1), [20, 21, 22]⟩, ⟨.rangeIndex, .static (-1), []⟩]

private theorem memberRanges_valid : ∀ r ∈ memberRanges, ValidRange r := by
  intro r hr
  simp only [memberRanges, List.mem_cons, List.not_mem_nil, or_false] at hr
  rcases hr with rfl | rfl | rfl <;> simp [ValidRange]

private theorem memberRanges_length : AllLength memberRanges 3 := by
  intro r hr hR
  simp only [memberRanges, List.mem_cons, List.not_mem_nil, or_false] at hr
  rcases hr with rfl | rfl | rfl <;> first | rfl | exact absurd rfl hR

private theorem memberRanges_fit : ∀ r ∈ memberRanges, r.elems.length < 9223372036854775808 := by
  intro r hr
  simp only [memberRanges, List.mem_cons, List.not_mem_nil, or_false] at hr
  rcases hr with rfl | rfl | rfl <;> simp

/-- C141: when a zipped range can be made: it does not compile if no range has a size or two constant sizes differ, the program is
terminated if two other sizes differ, and otherwise all ranges which have a size are of the same length. -/
theorem C141_make (rs : List (Rng α)) (hval : ∀ r ∈ rs, ValidRange r) :
    ((∀ r ∈ rs, r.size = .static (-1)) → make rs = none) ∧
    (make rs = none → (∀ r ∈ rs, r.size = .static (-1)) ∨
      ∃ r ∈ rs, ∃ r' ∈ rs, ∃ n m, r.size = .static n ∧ r'.size = .static m ∧ n ≠ -1 ∧ m ≠ -1 ∧ n ≠ m) ∧
    ((∃ r ∈ rs, r.size ≠ .static (-1)) →
      ((∃ z, make rs = some (.ok z)) ↔
        ∀ r ∈ rs, ∀ r' ∈ rs, r.size ≠ .static (-1) → r'.size ≠ .static (-1) → r.elems.length = r'.elems.length)) ∧
    (∀ o, make rs = some o → o = .failFast ∨ ∃ z, o = .ok z) := by
  have hs := sizes_ok hval
  have hok : ∀ s, mergeSizes (rs.map Rng.size) = .ok s → s = .static (-1) → ∀ r ∈ rs, r.size = .static (-1) := by
    intro s he hs1 r hr
    by_contra hc
    exact (sized_length hval he hr hc).2 hs1
  have hun : (∀ r ∈ rs, r.size = .static (-1)) → ∀ s, mergeSizes (rs.map Rng.size) = .ok s → s = .static (-1) := by
    intro h s he
    by_contra hc
    obtain ⟨r, hr, -, -, hn⟩ := size_value hval he hc
    exact hn (h r hr)
  have hcons : (∃ s, mergeSizes (rs.map Rng.size) = .ok s) ↔
      ∀ r ∈ rs, ∀ r' ∈ rs, r.size ≠ .static (-1) → r'.size ≠ .static (-1) → r.elems.length = r'.elems.length := by
    constructor
    · rintro ⟨s, he⟩ r hr r' hr' h h'
      have h1 := (sized_length hval he hr h).1
      have h2 := (sized_length hval he hr' h').1
      omega
    · intro h
      rw [C28_merge_iff _ hs]
      intro a ha b hb n m hn hm
      obtain ⟨r, hr, rfl⟩ := List.mem_map.mp ha
      obtain ⟨r', hr', rfl⟩ := List.mem_map.mp hb
      have h1 := validRange_known (hval r hr) hn
      have h2 := validRange_known (hval r' hr') hm
      have := h r hr r' hr' (value_of_known hn).2 (value_of_known hm).2
      omega
  refine ⟨?_, ?_, ?_, ?_⟩
  · intro h
    obtain ⟨s, he⟩ := hcons.mpr (fun r hr _ _ hn _ => absurd (h r hr) hn)
    have := hun h s he
    subst this
    simp [make, he]
  · intro h
    cases he : mergeSizes (rs.map Rng.size) with
    | staticMismatch =>
      obtain ⟨n, m, hn, hm, h1, h2, h3⟩ := C28_static_rejection _ hs he
      obtain ⟨r, hr, hrn⟩ := List.mem_map.mp hn
      obtain ⟨r', hr', hrm⟩ := List.mem_map.mp hm
      exact Or.inr ⟨r, hr, r', hr', n, m, hrn, hrm, h1, h2, h3⟩
    | failFast => simp [make, he] at h
    | ok s =>
      left
      apply hok s he
      cases s with
      | dyn n => simp [make, he] at h
      | static N =>
        by_cases hN : N = -1
        · simp [hN]
        · simp [make, he, hN] at h
  · intro hex
    rw [← hcons]
    constructor
    · rintro ⟨z, hz⟩
      cases he : mergeSizes (rs.map Rng.size) with
      | staticMismatch => simp [make, he] at hz
      | failFast => simp [make, he] at hz
      | ok s => exact ⟨s, rfl⟩
    · rintro ⟨s, he⟩
      cases s with
      | dyn n => exact ⟨⟨.dyn (IntTy.sizeT.wrap n), rs⟩, by simp only [make, he]⟩
      | static N =>
        by_cases hN : N = -1
        · obtain ⟨r, hr, hn⟩ := hex
          exact absurd (hok _ he (by rw [hN]) r hr) hn
        · exact ⟨_, by simp only [make, he]; rw [if_neg hN]⟩
  · intro o ho
    unfold make at ho
    split at ho
    · simp at ho
    · simp at ho; exact Or.inl ho.symm
    · split at ho
      · simp at ho
      · simp at ho; exact Or.inr ⟨_, ho.symm⟩
    · simp at ho; exact Or.inr ⟨_, ho.symm⟩

example : make memberRanges = some (.ok ⟨.dyn 3, memberRanges⟩) ∧
    make [⟨.index, .dyn 3, [10, 11, 12]⟩, ⟨.index, .dyn 2, [10, 11]⟩] = some (Outcome.failFast : Outcome (ZipObj Nat)) := by
  constructor <;> decide +kernel

/-- C141: `size()` is the common length of the ranges which have a size, `empty()` tells whether it is 0 and whether `begin() == end()`,
and `end() - begin()` is `size()`.  Both functions can be called in constant expressions iff one of the sizes is a constant. -/
theorem C141_size (rs : List (Rng α)) (hval : ∀ r ∈ rs, ValidRange r) (hfit : ∀ r ∈ rs, r.elems.length < 9223372036854775808)
    (z : ZipObj α) (hz : make rs = some (.ok z)) :
    ∃ n : Nat, size z = n ∧ (∃ r ∈ rs, r.size ≠ .static (-1) ∧ r.elems.length = n) ∧
      (∀ r ∈ rs, r.size ≠ .static (-1) → r.elems.length = n) ∧
      (empty z = true ↔ n = 0) ∧ (zipEq (begin' z) (end' z) = true ↔ n = 0) ∧ zipDiff (end' z) (begin' z) = n ∧
      (sizeIsStatic z = true ↔ ∃ r ∈ rs, r.size = .static r.elems.length) := by
  obtain ⟨s, he, hne, hr, hzs, hin, -, n, hv, hsz, hem, r0, hr0, -, hs0, hl0⟩ := make_ok hval hz hfit
  have hall : ∀ r ∈ rs, r.size ≠ .static (-1) → r.elems.length = n := by
    intro r hr h
    have := (sized_length hval he hr h).1
    omega
  refine ⟨n, hsz, ⟨r0, hr0, hs0, hl0⟩, hall, hem, ?_, ?_, ?_⟩
  · simp only [zipEq, begin', end', zipBegin, zipEnd, hin, hv, beq_iff_eq]
    omega
  · simp only [zipDiff, begin', end', zipBegin, zipEnd, hin, hv]
    omega
  · have hk := C28_merge_kind _ (sizes_ok hval) s he
    have h1 : sizeIsStatic z = true ↔ staticKnown s := by
      unfold sizeIsStatic
      rw [hzs]
      cases s with
      | dyn m => simp [staticKnown]
      | static m => simpa [staticKnown] using hne
    rw [h1, hk]
    constructor
    · rintro ⟨t, ht, hst⟩
      obtain ⟨r, hr', rfl⟩ := List.mem_map.mp ht
      refine ⟨r, hr', ?_⟩
      cases hsr : r.size with
      | dyn m => simp [hsr, staticKnown] at hst
      | static m =>
        have hm : m ≠ -1 := by simpa [hsr, staticKnown] using hst
        have hkn : known r.size = some m := by simp [hsr, known, hm]
        rw [(validRange_known (hval r hr') hkn).1]
    · rintro ⟨r, hr', hsr⟩
      refine ⟨r.size, List.mem_map_of_mem hr', ?_⟩
      rw [hsr]
      simp [staticKnown]

example : size (⟨.dyn 3, memberRanges⟩ : ZipObj Nat) = 3 := rfl

/-- C141: for ranges of equal length, the three ways to visit the elements - from `begin()` to `end()`, from `begin()` to the sentinel of
`range_zip_sentinel`, and by index from 0 to `size()` - give the same `size()` tuples in the same order. -/
theorem C141_visits (rs : List (Rng α)) (hval : ∀ r ∈ rs, ValidRange r) (n : Nat) (hn : AllLength rs n)
    (hfit : ∀ r ∈ rs, r.elems.length < 9223372036854775808) (z : ZipObj α) (hz : make rs = some (.ok z)) (cats : List Category)
    (hne : cats ≠ []) (hra : ∀ c ∈ cats, IsA c .randomAccess) (fuel : Nat) (hf : n < fuel) :
    ∃ ts, Zipped rs n ts ∧ size z = ts.length ∧
      zipCommonLoop z.ranges (end' z) fuel (begin' z) [] = .done ts (.ok ()) ∧
      zipLoop z.ranges (endSentinel z) (fun calls args => (calls ++ [args], true)) fuel (begin' z) [] = .done ts (.ok ()) ∧
      zipIndexLoop cats z fuel 0 [] = some (.done ts (.ok ())) := by
  obtain ⟨s, he, hns, hr, hzs, hin, hen, k, hv, hsz, hem, r0, hr0, hR0, hs0, hl0⟩ := make_ok hval hz hfit
  have hkn : k = n := by rw [← hl0, hn r0 hr0 hR0]
  subst hkn
  obtain ⟨ts, hts, h1⟩ := C29_iteration rs hval k hn ⟨r0, hr0, hs0⟩ fuel hf
  refine ⟨ts, hts, by rw [hsz, hts.1], ?_, ?_, ?_⟩
  · unfold rangeZipIterate at h1
    rw [he] at h1
    simp only at h1
    rw [if_neg hns] at h1
    rw [hr, end', hin, begin', hr]
    exact h1
  · have h2 : rangeZipSentinelIterate rs fuel = rangeFor rs fuel := C31_sentinel_like_range_for rs hval ⟨r0, hr0, hs0⟩ fuel
    have hargs : ValidArgs rs := ⟨hval, ⟨r0, hr0, hR0⟩, Or.inl ⟨r0, hr0, hs0⟩⟩
    obtain ⟨ts', hts', h3⟩ := C26_range_for rs hargs k hn fuel hf
    have hu := C26_tuples_unique rs k ts' ts hts' hts
    subst hu
    rw [h3] at h2
    unfold rangeZipSentinelIterate at h2
    rw [he] at h2
    simp only at h2
    rw [if_neg hns] at h2
    rw [hr, hen, begin', hr]
    exact h2
  · have hc := (C109_subscript cats hne (fun c hc => by have := hra c hc; rw [ZipStd.isA_randomAccess] at this; subst this; simp [ZipStd.isA_input])).mpr hra
    have hlen : ∀ r ∈ rs, IsReal r → 0 + ts.length ≤ r.elems.length := fun r hr hR => by rw [hn r hr hR, hts.1]; omega
    have hk := hfit r0 hr0
    obtain ⟨f', rfl⟩ : ∃ f', fuel = (f' + 1) + ts.length := ⟨fuel - 1 - ts.length, by have := hts.1; omega⟩
    have := zipIndexLoop_steps hc z hr ts 0 [] (f' + 1) (fun i args hi => by simpa using hts.2 i args hi) hlen
      (by rw [hsz]; have := hts.1; omega) (by have := hts.1; omega)
    simp only [Int.natCast_zero, Nat.zero_add, List.nil_append] at this
    rw [this, zipIndexLoop, if_pos (by rw [hsz, hts.1])]

example : AllLength memberRanges 3 ∧ (∀ r ∈ memberRanges, ValidRange r) ∧ (∀ r ∈ memberRanges, r.elems.length < 9223372036854775808) ∧
    zipIndexLoop [.randomAccess] (⟨.dyn 3, memberRanges⟩ : ZipObj Nat) 4 0 [] =
      some (.done [[.elem 10, .elem 20, .idx 0], [.elem 11, .elem 21, .idx 1], [.elem 12, .elem 22, .idx 2]] (.ok ())) :=
  ⟨memberRanges_length, memberRanges_valid, memberRanges_fit, by decide +kernel⟩

/-- C141: `z[i]` is the tuple of the `i`-th elements, for every position within all of the ranges; it exists iff all zipped iterators are
random access iterators. -/
theorem C141_subscript (rs : List (Rng α)) (z : ZipObj α) (hz : make rs = some (.ok z))
    (hfit : ∀ r ∈ rs, r.elems.length < 9223372036854775808) (cats : List Category) (hne : cats ≠ []) (hin : ∀ c ∈ cats, IsA c .input) :
    (∀ i, subscript cats z i = none ↔ ∃ c ∈ cats, ¬ IsA c .randomAccess) ∧
    ((∀ c ∈ cats, IsA c .randomAccess) → ∀ i : Nat, (∃ r ∈ rs, IsReal r) → (∀ r ∈ rs, IsReal r → i < r.elems.length) →
      ∃ args, subscript cats z i = some (.ok args) ∧ List.Forall₂ (ArgAt i) rs args) ∧
    ((∀ c ∈ cats, IsA c .randomAccess) → ∀ i : Int, 0 ≤ i → i < 18446744073709551616 → (∃ r ∈ rs, IsReal r ∧ (r.elems.length : Int) ≤ i) →
      subscript cats z i = some .ub) := by
  have hr : z.ranges = rs := by
    unfold make at hz
    split at hz
    · simp at hz
    · simp at hz
    · split at hz
      · simp at hz
      · simp at hz; rw [← hz]
    · simp at hz; rw [← hz]
  have hc := C109_subscript cats hne hin
  refine ⟨?_, ?_, ?_⟩
  · intro i
    unfold subscript
    by_cases h : ZipStd.hasSubscript cats = true
    · simp only [h, if_true, reduceCtorEq, false_iff]
      rintro ⟨c, hm, hn⟩
      exact hn (hc.mp h c hm)
    · simp only [h, if_false, true_iff, Bool.false_eq_true]
      by_contra hh
      refine h (hc.mpr fun c hm => ?_)
      by_contra hn
      exact hh ⟨c, hm, hn⟩
  · intro hra i ⟨r, hm, hR⟩ hi
    have := hfit r hm
    have := hi r hm hR
    obtain ⟨args, h1, h2⟩ := zipSubscript_at (d := i) (at_begin rs) (Int.zero_add _) hi
    refine ⟨args, ?_, h2⟩
    simp only [subscript, hc.mpr hra, if_true, begin', hr]
    rw [ShuffleDist.ptrdiff_id (by omega) (by omega), h1]
  · intro hra i h0 h1 ⟨r, hm, hR, hl⟩
    simp only [subscript, hc.mpr hra, if_true, begin', hr]
    congr 1
    apply subscript_ub
    refine ⟨r, hm, hR, ?_⟩
    by_cases h : i < 9223372036854775808
    · rw [ShuffleDist.ptrdiff_id h0 h]; exact Or.inr hl
    · left
      simp only [IntTy.wrap, IntTy.ptrdiffT, if_true]
      rw [Int.bmod_def]
      norm_num
      omega

example : subscript [.randomAccess] (⟨.dyn 3, memberRanges⟩ : ZipObj Nat) 1 = some (.ok [.elem 11, .elem 21, .idx 1]) ∧
    subscript [.randomAccess] (⟨.dyn 3, memberRanges⟩ : ZipObj Nat) 3 = some .ub ∧
    subscript [.bidirectional] (⟨.dyn 3, memberRanges⟩ : ZipObj Nat) 1 = none := by
  refine ⟨by decide +kernel, by decide +kernel, by decide +kernel⟩

/-- C141: `size()` is not the number of tuples if a range without a size is shorter than the others: not all of the indices below `size()`
are valid. -/
theorem C141_shorter_unsized (rs : List (Rng α)) (hfit : ∀ r ∈ rs, r.elems.length < 9223372036854775808) (z : ZipObj α)
    (hz : make rs = some (.ok z)) (r : Rng α) (hr : r ∈ rs) (hR : IsReal r) (hs : (r.elems.length : Int) < size z) (cats : List Category)
    (hne : cats ≠ []) (hra : ∀ c ∈ cats, IsA c .randomAccess) :
    ∃ i : Nat, (i : Int) < size z ∧ subscript cats z i = some .ub := by
  refine ⟨r.elems.length, hs, ?_⟩
  have hf := hfit r hr
  refine (C141_subscript rs z hz hfit cats hne (fun c hc => ?_)).2.2 hra _ (by omega) (by omega) ⟨r, hr, hR, Int.le_refl _⟩
  have := hra c hc
  rw [ZipStd.isA_randomAccess] at this
  subst this
  simp [ZipStd.isA_input]

example : ∃ z, make [⟨.index, .dyn 3, [10, 11, 12]⟩, ⟨.iteratorPair, .static (-1), [20, 21]⟩] = some (Outcome.ok (z : ZipObj Nat)) ∧
    (2 : Int) < size z :=
  ⟨⟨.dyn 3, [⟨.index, .dyn 3, [10, 11, 12]⟩, ⟨.iteratorPair, .static (-1), [20, 21]⟩]⟩, by decide +kernel, by decide⟩

end Makeshift.Props
