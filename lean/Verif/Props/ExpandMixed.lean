import Verif.Model.ExpandMixed
import Verif.Props.Expand

/-! Property theorems C93: `expand` if the listed values have another type than the runtime value. -/

namespace Makeshift.Props

open Spec

/-! Helper lemmas. -/

/-- Values of the list's type which are representable in the type of the runtime value compare as they are. -/
private theorem common_both {t u : IntTy} (ht : StdWidth t) (hu : StdWidth u) {x : Int} (h1 : t.InRange x) (h2 : u.InRange x) :
    (t.common u).wrap x = x := by
  obtain ⟨b, s⟩ := t
  obtain ⟨b', s'⟩ := u
  cases s <;> cases s' <;> rcases ht with h | h | h | h <;> rcases hu with h' | h' | h' | h' <;> simp only at h h' <;> subst h <;> subst h' <;>
    simp [IntTy.InRange, IntTy.minVal, IntTy.maxVal, IntTy.wrap, IntTy.common, IntTy.promote] at h1 h2 ⊢ <;>
    first | omega | (rw [Int.bmod_eq_of_le] <;> omega)

/-- A runtime value either compares as it is or as a value which is not representable in its type. -/
private theorem common_value {t u : IntTy} (ht : StdWidth t) (hu : StdWidth u) {v : Int} (h1 : t.InRange v) :
    (t.common u).wrap v = v ∨ ¬u.InRange v ∧ ¬t.InRange ((t.common u).wrap v) := by
  obtain ⟨b, s⟩ := t
  obtain ⟨b', s'⟩ := u
  cases s <;> cases s' <;> rcases ht with h | h | h | h <;> rcases hu with h' | h' | h' | h' <;> simp only at h h' <;> subst h <;> subst h' <;>
    simp [IntTy.InRange, IntTy.minVal, IntTy.maxVal, IntTy.wrap, IntTy.common, IntTy.promote] at h1 ⊢ <;>
    first | omega | (left; rw [Int.bmod_eq_of_le] <;> omega)

private theorem binarySearchLoop_congr {lt lt' eq eq' : Int → Int → Bool} {value value' : Int} {values : List Int}
    (h1 : ∀ x ∈ values, lt x value = lt' x value') (h2 : ∀ x ∈ values, lt value x = lt' value' x)
    (h3 : ∀ x ∈ values, eq x value = eq' x value') (first last : Int) :
    binarySearchLoop lt eq value values first last = binarySearchLoop lt' eq' value' values first last := by
  have hat : ∀ {i : Int} {x : Int}, at? values i = some x → x ∈ values := by
    intro i x h
    unfold at? at h
    split at h
    · simp at h
    · exact List.mem_of_getElem? h
  induction hm : (last - first).toNat using Nat.strongRecOn generalizing first last with
  | _ m ih =>
  unfold binarySearchLoop
  by_cases hgt : last - first > 1
  · rw [dif_pos hgt, dif_pos hgt]
    simp only
    have hb1 : first + (last - first) / 2 < last := by omega
    have hb2 : first < first + (last - first) / 2 := by omega
    generalize first + (last - first) / 2 = half at hb1 hb2
    cases hx : at? values half with
    | none => rfl
    | some x =>
      simp only [h1 x (hat hx), h2 x (hat hx)]
      rw [ih _ (by omega) (half + 1) last rfl, ih _ (by omega) first half rfl]
      by_cases hl : half + 1 = last
      · rw [dif_pos hl, dif_pos hl]
      · rw [dif_neg hl, dif_neg hl, ih _ (by omega) first (half + 1) rfl]
  · rw [dif_neg hgt, dif_neg hgt]
    cases hx : at? values first with
    | none => rfl
    | some x => simp only [h3 x (hat hx)]

private theorem linearSearchFrom_congr {eq eq' : Int → Int → Bool} {value value' : Int} {values : List Int}
    (h3 : ∀ x ∈ values, eq x value = eq' x value') (i : Int) :
    linearSearchFrom eq value i values = linearSearchFrom eq' value' i values := by
  induction values generalizing i with
  | nil => rfl
  | cons x r ih =>
    simp only [linearSearchFrom, h3 x (by simp)]
    rw [ih (fun y hy => h3 y (by simp [hy]))]

/-- If the comparisons leave the listed values as they are, the search is that of the converted runtime value. -/
private theorem searchGeneralMixed_eq {t u : IntTy} {value : Int} {values : List Int}
    (h : ∀ x ∈ values, (t.common u).wrap x = x) :
    searchGeneralMixed t u value values =
      searchGeneral (some (fun a b => decide (a < b))) (fun a b => decide (a = b)) ((t.common u).wrap value) values := by
  unfold searchGeneralMixed searchGeneral binarySearch
  simp only
  rw [binarySearchLoop_congr (lt' := fun a b => decide (a < b)) (eq' := fun a b => decide (a = b)) (value' := (t.common u).wrap value)
      (fun x hx => by simp [mixedLess, h x hx]) (fun x hx => by simp [mixedLess, h x hx]) (fun x hx => by simp [mixedEq, h x hx]),
    linearSearchFrom_congr (eq' := fun a b => decide (a = b)) (value' := (t.common u).wrap value) (fun x hx => by simp [mixedEq, h x hx])]

private theorem searchGeneral_exact (value : Int) (values : List Int) :
    ∃ i, searchGeneral (some (fun a b => decide (a < b))) (fun a b => decide (a = b)) value values = .ok i ∧ ExactIndex values value i := by
  unfold searchGeneral
  simp only
  by_cases hs : areValuesSorted (fun a b : Int => decide (a < b)) values = true
  · rw [if_pos hs]
    exact binarySearch_exact intOps value values ((areValuesSorted_iff intOps values).mp hs)
  · rw [if_neg hs]
    exact ⟨_, rfl, linearSearch_exact intOps.eq_iff value values⟩

/-- C93: if all listed values are representable in the type of the runtime value, the types may be different: `expand` is exact.  The
provisos `hw` and `hd` are those of C16.  Missing for the full claim: listed values which are not representable in the type of the
runtime value (`C93_finds_absent_value`, `C93_misses_listed_value`, `C93_conversion_finds_absent_value`). -/
theorem C93_expand_partial {t u : IntTy} (ht : StdWidth t) (hu : StdWidth u) (values : List Int) (value : Int)
    (hx : ∀ x ∈ values, u.InRange x) (hxt : ∀ x ∈ values, t.InRange x) (hv : t.InRange value) (hn : values.length < 2 ^ 63)
    (hw : 32 ≤ t.bits → ∀ x ∈ values.dropLast, x ≠ t.maxVal)
    (hd : t.signed = true → 32 ≤ t.bits → ∀ v0, values.head? = some v0 → value - v0 ≤ t.maxVal) :
    ExpandSpec values value (fun mode => expandMixed mode t u value values) := by
  have hg : ∃ i, searchGeneralMixed t u value values = .ok i ∧ ExactIndex values value i := by
    rw [searchGeneralMixed_eq (fun x h => common_both ht hu (hxt x h) (hx x h))]
    obtain ⟨i, hi, he⟩ := searchGeneral_exact ((t.common u).wrap value) values
    refine ⟨i, hi, ?_⟩
    rcases common_value ht hu hv with h | ⟨h1, h2⟩
    · rwa [h] at he
    · rcases he with ⟨rfl, _⟩ | ⟨_, he⟩
      · exact Or.inl ⟨rfl, fun hc => h1 (hx _ hc)⟩
      · exact absurd (hxt _ (List.mem_of_getElem? he)) h2
  have key : ∃ i, searchMixed t u value values = .ok i ∧ ExactIndex values value i := by
    cases values with
    | nil => simpa only [searchMixed, areValuesContiguous, Outcome.bind_ok] using hg
    | cons v0 rest =>
      have h1 := C16_contiguity_test_partial ht v0 rest hxt hw
      unfold searchMixed
      rw [h1]
      by_cases hr : v0 :: rest = run v0 (rest.length + 1)
      · obtain ⟨i, hi, he⟩ := searchContiguous_exact (n := rest.length + 1) ht hv (hxt v0 (by simp)) (by simpa using hn)
          (fun h2 h3 => hd h2 h3 v0 rfl)
        rw [decide_eq_true hr]
        exact ⟨i, by simpa using hi, hr ▸ he⟩
      · rw [decide_eq_false hr]
        exact hg
  obtain ⟨i, hi, he⟩ := key
  unfold expandMixed
  rw [hi]
  exact expandSpec_of_exact he

example : StdWidth tUInt ∧ StdWidth tInt ∧ (∀ x ∈ ([16, 64, 32] : List Int), tInt.InRange x) ∧ (∀ x ∈ ([16, 64, 32] : List Int), tUInt.InRange x) ∧
    tUInt.InRange 4294967295 ∧ (32 ≤ tUInt.bits → ∀ x ∈ ([16, 64, 32] : List Int).dropLast, x ≠ tUInt.maxVal) ∧
    (tUInt.signed = true → 32 ≤ tUInt.bits → ∀ v0, ([16, 64, 32] : List Int).head? = some v0 → 4294967295 - v0 ≤ tUInt.maxVal) := by
  simp [StdWidth, tInt, tUInt, IntTy.InRange, IntTy.minVal, IntTy.maxVal]

/-- The values of the list's type compare as they are, unless the list is signed and the runtime value is of an unsigned type of at least
this width and at least the width of `int`. -/
def ComparesAsIs (t u : IntTy) : Prop := u.signed = true → t.signed = false → 32 ≤ t.bits → t.bits < u.bits

private theorem common_asIs {t u : IntTy} (ht : StdWidth t) (hu : StdWidth u) (hc : ComparesAsIs t u) {x : Int} (h2 : u.InRange x) :
    (t.common u).wrap x = x := by
  obtain ⟨b, s⟩ := t
  obtain ⟨b', s'⟩ := u
  cases s <;> cases s' <;> rcases ht with h | h | h | h <;> rcases hu with h' | h' | h' | h' <;> simp only at h h' <;> subst h <;> subst h' <;>
    simp [ComparesAsIs] at hc <;>
    simp [IntTy.InRange, IntTy.minVal, IntTy.maxVal, IntTy.wrap, IntTy.common, IntTy.promote] at h2 ⊢ <;>
    first | omega | (rw [Int.bmod_eq_of_le] <;> omega)

private theorem wrap_inRange {t : IntTy} (ht : StdWidth t) (x : Int) : t.InRange (t.wrap x) := by
  obtain ⟨b, s⟩ := t
  cases s
  · rcases ht with h | h | h | h <;> simp only at h <;> subst h <;> simp [IntTy.InRange, IntTy.minVal, IntTy.maxVal, IntTy.wrap] <;> omega
  · rcases ht with h | h | h | h <;> simp only at h <;> subst h <;> simp only [IntTy.InRange, IntTy.minVal, IntTy.maxVal, IntTy.wrap, if_true] <;>
      [have h1 := @Int.le_bmod x (2 ^ 8) (by decide); have h1 := @Int.le_bmod x (2 ^ 16) (by decide); have h1 := @Int.le_bmod x (2 ^ 32) (by decide);
       have h1 := @Int.le_bmod x (2 ^ 64) (by decide)] <;>
      [have h2 := @Int.bmod_lt x (2 ^ 8) (by decide); have h2 := @Int.bmod_lt x (2 ^ 16) (by decide); have h2 := @Int.bmod_lt x (2 ^ 32) (by decide);
       have h2 := @Int.bmod_lt x (2 ^ 64) (by decide)] <;> simp at h1 h2 ⊢ <;> omega

private theorem areContiguousFrom_wrap {t : IntTy} (ht : StdWidth t) (r : Int) (xs : List Int) :
    areContiguousFrom t r xs = areContiguousFrom t r (xs.map t.wrap) := by
  induction xs generalizing r with
  | nil => rfl
  | cons x xs ih =>
    simp only [areContiguousFrom, List.map_cons, wrap_id ht (wrap_inRange ht x), ih]

private theorem contiguous_wrap {t : IntTy} (ht : StdWidth t) (v0 : Int) (rest : List Int) :
    areValuesContiguous t (v0 :: rest) = areValuesContiguous t ((v0 :: rest).map t.wrap) := by
  simp only [areValuesContiguous, List.map_cons, wrap_id ht (wrap_inRange ht v0)]
  exact areContiguousFrom_wrap ht _ _

/-- C93: a value which is listed is found also if other listed values are not representable in the type of the runtime value, provided that the list
is not of a signed type and the runtime value of an unsigned type which is not narrower.  `hw` is the proviso of C16. -/
theorem C93_listed_partial {t u : IntTy} (ht : StdWidth t) (hu : StdWidth u) (hc : ComparesAsIs t u) (values : List Int) (value : Int)
    (hx : ∀ x ∈ values, u.InRange x) (hv : t.InRange value) (hn : values.length ≤ 2 ^ 31)
    (hw : 32 ≤ t.bits → ∀ x ∈ values.dropLast, t.wrap x ≠ t.maxVal) (hm : value ∈ values) (mode : ExpandMode) :
    expandMixed mode t u value values = .ok (some value) := by
  have hg : ∃ i, searchGeneralMixed t u value values = .ok i ∧ ExactIndex values value i := by
    rw [searchGeneralMixed_eq (fun x h => common_asIs ht hu hc (hx x h)), common_asIs ht hu hc (hx _ hm)]
    exact searchGeneral_exact value values
  have key : ∃ i, searchMixed t u value values = .ok i ∧ ExactIndex values value i := by
    cases values with
    | nil => simp at hm
    | cons v0 rest =>
      have h0 := wrap_inRange ht v0
      have h1 : areValuesContiguous t (v0 :: rest) = .ok (decide ((v0 :: rest).map t.wrap = run (t.wrap v0) (rest.length + 1))) := by
        rw [contiguous_wrap ht, List.map_cons, C16_contiguity_test_partial ht]
        · simp
        · intro x h
          rw [← List.map_cons] at h
          obtain ⟨y, -, rfl⟩ := List.mem_map.mp h
          exact wrap_inRange ht y
        · intro hb x h
          rw [← List.map_cons, ← List.map_dropLast] at h
          obtain ⟨y, hy, rfl⟩ := List.mem_map.mp h
          exact hw hb y hy
      unfold searchMixed
      rw [h1]
      by_cases hr : (v0 :: rest).map t.wrap = run (t.wrap v0) (rest.length + 1)
      · -- the index of the value in the run is its index in the list
        obtain ⟨k, hk⟩ := List.getElem?_of_mem hm
        have hk' : ((v0 :: rest).map t.wrap)[k]? = some value := by
          rw [List.getElem?_map, hk, Option.map_some, wrap_id ht hv]
        have hkl : k < rest.length + 1 := by
          have := (List.getElem?_eq_some_iff.mp hk).1; simpa using this
        rw [hr, run_get hkl, Option.some.injEq] at hk'
        have hn' : rest.length + 1 ≤ 2 ^ 31 := by simpa using hn
        obtain ⟨i, hi, he⟩ := searchContiguous_exact (n := rest.length + 1) ht hv h0 (by omega) (by
          intro h2 h3
          obtain ⟨b, s⟩ := t
          simp only at h2 h3; subst h2
          rcases ht with h | h | h | h <;> simp only at h <;> subst h <;> simp [IntTy.maxVal] at h3 ⊢ <;> omega)
        have hik : i = (k : Int) := by
          rcases he with ⟨-, hc⟩ | ⟨h2, h3⟩
          · exact absurd (mem_run.mpr (by omega)) hc
          · have hil : i.toNat < rest.length + 1 := by
              have := (List.getElem?_eq_some_iff.mp h3).1; simpa [run] using this
            rw [run_get hil, Option.some.injEq] at h3
            omega
        have hi' : searchContiguous t value v0 (rest.length + 1) = .ok i := by
          rw [← hi]; simp only [searchContiguous, wrap_id ht h0]
        rw [decide_eq_true hr]
        exact ⟨i, by simpa using hi', Or.inr ⟨by omega, by rw [hik]; simpa using hk⟩⟩
      · rw [decide_eq_false hr]
        exact hg
  obtain ⟨i, hi, he⟩ := key
  unfold expandMixed
  rw [hi]
  exact (expandSpec_of_exact he).1 hm mode

example : StdWidth tSChar ∧ StdWidth tInt ∧ ComparesAsIs tSChar tInt ∧ (∀ x ∈ ([256, 1, 1000] : List Int), tInt.InRange x) ∧
    ¬(∀ x ∈ ([256, 1, 1000] : List Int), tSChar.InRange x) ∧ tSChar.InRange 1 ∧
    (32 ≤ tSChar.bits → ∀ x ∈ ([256, 1, 1000] : List Int).dropLast, tSChar.wrap x ≠ tSChar.maxVal) := by
  simp [StdWidth, tInt, tSChar, ComparesAsIs, IntTy.InRange, IntTy.minVal, IntTy.maxVal]

/-- `expand(-1, {UINT_MAX, 5u})` holds the constant `UINT_MAX`. -/
theorem C93_finds_absent_value : (-1 : Int) ∉ ([4294967295, 5] : List Int) ∧ ∀ mode, expandMixed mode tInt tUInt (-1) [4294967295, 5] = .ok (some 4294967295) :=
  ⟨by decide, fun mode => by cases mode <;> decide +kernel⟩

/-- `expand(5u, {-3, -2, 5})` throws although 5 is listed: the list is sorted, but not if its values are converted to `unsigned`. -/
theorem C93_misses_listed_value : (5 : Int) ∈ ([-3, -2, 5] : List Int) ∧
    expandMixed .throwing tUInt tInt 5 [-3, -2, 5] = .throw (str "unsupported runtime value") ∧
    expandMixed .failfast tUInt tInt 5 [-3, -2, 5] = .failFast ∧ expandMixed .optional tUInt tInt 5 [-3, -2, 5] = .ok none := by
  refine ⟨by decide, ?_, ?_, ?_⟩ <;> decide +kernel

/-- `expand((signed char) 0, {256, 257})` holds the constant 256, but with the list `{256, 258}` it throws: whether the listed values are converted
to the type of the runtime value depends on whether they are contiguous. -/
theorem C93_conversion_finds_absent_value :
    (∀ mode, expandMixed mode tSChar tInt 0 [256, 257] = .ok (some 256)) ∧
    expandMixed .throwing tSChar tInt 0 [256, 258] = .throw (str "unsupported runtime value") :=
  ⟨fun mode => by cases mode <;> decide +kernel, by decide +kernel⟩

end Makeshift.Props
