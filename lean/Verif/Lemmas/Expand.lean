import Verif.Model.Expand
import Verif.Spec.Search
import Mathlib.Data.List.Basic

/-! Helper lemmas for lookups. -/

namespace Makeshift

open Spec

theorem areValuesSorted_iff {α : Type} {lt eq : α → α → Bool} (ho : LinearOps lt eq) (l : List α) :
    areValuesSorted lt l = true ↔ SortedBy lt l := by
  unfold SortedBy
  induction l with
  | nil => simp [areValuesSorted]
  | cons a r ih =>
    cases r with
    | nil => simp [areValuesSorted]
    | cons b r =>
      have : areValuesSorted lt (a :: b :: r) = true ↔ lt b a = false ∧ areValuesSorted lt (b :: r) = true := by
        simp only [areValuesSorted]
        cases lt b a <;> simp
      rw [this, ih, List.pairwise_cons (a := a)]
      constructor
      · rintro ⟨h1, h2⟩
        refine ⟨?_, h2⟩
        intro x hx
        rcases List.mem_cons.mp hx with rfl | hx
        · exact h1
        · have hbx := (List.pairwise_cons.mp h2).1 x hx
          cases hxa : lt x a with
          | false => rfl
          | true =>
            -- x < a, and not x < b, not b < a: then b ≤ x < a
            cases hbx' : lt b x with
            | true => rw [ho.trans b x a hbx' hxa] at h1; simp at h1
            | false => rw [ho.connected b x hbx' hbx] at h1; rw [h1] at hxa; simp at hxa
      · rintro ⟨h1, h2⟩
        exact ⟨h1 b (by simp), h2⟩

theorem at?_eq {α : Type} (l : List α) (i : Int) (h0 : 0 ≤ i) : at? l i = l[i.toNat]? := by
  unfold at?; rw [if_neg (by omega)]

theorem at?_some {α : Type} (l : List α) (i : Int) (h0 : 0 ≤ i) (h1 : i < l.length) :
    ∃ x, at? l i = some x ∧ l[i.toNat]? = some x := by
  have : i.toNat < l.length := by omega
  exact ⟨l[i.toNat], by rw [at?_eq l i h0, List.getElem?_eq_getElem this], List.getElem?_eq_getElem this⟩

theorem sorted_get {α : Type} {lt : α → α → Bool} {l : List α} (hs : SortedBy lt l) {i j : Nat} (hij : i < j) {x y : α}
    (hx : l[i]? = some x) (hy : l[j]? = some y) : lt y x = false := by
  rw [List.getElem?_eq_some_iff] at hx hy
  obtain ⟨hi, rfl⟩ := hx
  obtain ⟨hj, rfl⟩ := hy
  exact (List.pairwise_iff_getElem.mp hs) i j hi hj hij

theorem binarySearchLoop_spec {α : Type} {lt eq : α → α → Bool} (ho : LinearOps lt eq) (value : α) (values : List α)
    (hs : SortedBy lt values) (first last : Int) (h0 : 0 ≤ first) (h1 : first ≤ last) (h2 : last ≤ values.length) :
    ∃ i, binarySearchLoop lt eq value values first last = .ok i ∧
      ((i = -1 ∧ ∀ k : Nat, first ≤ k → k < last → values[k]? ≠ some value) ∨
       (first ≤ i ∧ i < last ∧ values[i.toNat]? = some value)) := by
  induction hm : (last - first).toNat using Nat.strongRecOn generalizing first last with
  | _ m ih =>
  unfold binarySearchLoop
  by_cases hgt : last - first > 1
  · rw [dif_pos hgt]
    simp only
    have hb1 : first + (last - first) / 2 < last := by omega
    have hb2 : first < first + (last - first) / 2 := by omega
    generalize hhalf : first + (last - first) / 2 = half at hb1 hb2
    obtain ⟨x, hx, hx'⟩ := at?_some values half (by omega) (by omega)
    rw [hx]
    simp only
    cases hlt : lt x value with
    | true =>
      simp only [if_true]
      obtain ⟨i, hi, hr⟩ := ih _ (by omega) (half + 1) last (by omega) (by omega) h2 rfl
      refine ⟨i, hi, ?_⟩
      rcases hr with ⟨rfl, hr⟩ | ⟨hr1, hr2, hr3⟩
      · left
        refine ⟨rfl, fun k hk1 hk2 hk => ?_⟩
        by_cases hkh : (k : Int) ≤ half
        · rcases Nat.lt_or_eq_of_le (show k ≤ half.toNat by omega) with hlt' | heq
          · have := sorted_get hs hlt' hk hx'; rw [hlt] at this; simp at this
          · rw [heq, hx', Option.some.injEq] at hk; rw [hk, ho.irrefl] at hlt; simp at hlt
        · exact hr k (by omega) hk2 hk
      · right; exact ⟨by omega, hr2, hr3⟩
    | false =>
      simp only [Bool.false_eq_true, if_false]
      cases hgt' : lt value x with
      | true =>
        simp only [if_true]
        obtain ⟨i, hi, hr⟩ := ih _ (by omega) first half (by omega) (by omega) (by omega) rfl
        refine ⟨i, hi, ?_⟩
        rcases hr with ⟨rfl, hr⟩ | ⟨hr1, hr2, hr3⟩
        · left
          refine ⟨rfl, fun k hk1 hk2 hk => ?_⟩
          by_cases hkh : half ≤ (k : Int)
          · rcases Nat.lt_or_eq_of_le (show half.toNat ≤ k by omega) with hlt' | heq
            · have := sorted_get hs hlt' hx' hk; rw [hgt'] at this; simp at this
            · rw [← heq, hx', Option.some.injEq] at hk; rw [hk, ho.irrefl] at hgt'; simp at hgt'
          · exact hr k hk1 (by omega) hk
        · right; exact ⟨hr1, by omega, hr3⟩
      | false =>
        have hxv : x = value := ho.connected _ _ hlt hgt'
        subst hxv
        simp only [Bool.false_eq_true, if_false]
        by_cases hl : half + 1 = last
        · rw [dif_pos hl]
          exact ⟨half, rfl, Or.inr ⟨by omega, hb1, hx'⟩⟩
        · rw [dif_neg hl]
          obtain ⟨i, hi, hr⟩ := ih _ (by omega) first (half + 1) (by omega) (by omega) (by omega) rfl
          refine ⟨i, hi, ?_⟩
          rcases hr with ⟨rfl, hr⟩ | ⟨hr1, hr2, hr3⟩
          · exact absurd hx' (hr half.toNat (by omega) (by omega))
          · right; exact ⟨hr1, by omega, hr3⟩
  · rw [dif_neg hgt]
    by_cases h3 : last - first = 1
    · rw [if_pos h3]
      obtain ⟨x, hx, hx'⟩ := at?_some values first (by omega) (by omega)
      rw [hx]
      simp only
      by_cases he : eq x value = true
      · rw [if_pos he]
        rw [(ho.eq_iff _ _).mp he] at hx'
        exact ⟨first, rfl, Or.inr ⟨by omega, by omega, hx'⟩⟩
      · rw [if_neg he]
        refine ⟨-1, rfl, Or.inl ⟨rfl, fun k hk1 hk2 hk => ?_⟩⟩
        have : k = first.toNat := by omega
        rw [this, hx', Option.some.injEq] at hk
        exact he ((ho.eq_iff _ _).mpr hk)
    · rw [if_neg h3]
      exact ⟨-1, rfl, Or.inl ⟨rfl, fun k hk1 hk2 => by omega⟩⟩

theorem binarySearch_exact {α : Type} {lt eq : α → α → Bool} (ho : LinearOps lt eq) (value : α) (values : List α)
    (hs : SortedBy lt values) : ∃ i, binarySearch lt eq value values = .ok i ∧ ExactIndex values value i := by
  obtain ⟨i, hi, hr⟩ := binarySearchLoop_spec ho value values hs 0 values.length (by omega) (by omega) (by omega)
  refine ⟨i, hi, ?_⟩
  rcases hr with ⟨rfl, hr⟩ | ⟨h1, h2, h3⟩
  · left
    refine ⟨rfl, fun hm => ?_⟩
    obtain ⟨k, hk⟩ := List.getElem?_of_mem hm
    have : k < values.length := by
      by_contra hc; rw [List.getElem?_eq_none (by omega)] at hk; simp at hk
    exact hr k (by omega) (by omega) hk
  · exact Or.inr ⟨h1, h3⟩

theorem linearSearchFrom_spec {α : Type} {eq : α → α → Bool} (he : ∀ a b, eq a b = true ↔ a = b) (value : α) (j : Nat)
    (values : List α) :
    (linearSearchFrom eq value j values = -1 ∧ value ∉ values) ∨
    ∃ k : Nat, linearSearchFrom eq value j values = (j : Int) + k ∧ values[k]? = some value := by
  induction values generalizing j with
  | nil => left; simp [linearSearchFrom]
  | cons x r ih =>
    simp only [linearSearchFrom]
    by_cases h : eq x value = true
    · rw [if_pos h]
      right; exact ⟨0, by simp, by simp [(he _ _).mp h]⟩
    · rw [if_neg h]
      have hne : x ≠ value := fun hx => h ((he _ _).mpr hx)
      rcases ih (j + 1) with ⟨h1, h2⟩ | ⟨k, h1, h2⟩
      · left; refine ⟨by simpa using h1, ?_⟩; simp [h2]; exact fun hx => hne hx.symm
      · right; exact ⟨k + 1, by push_cast at h1 ⊢; omega, by simpa using h2⟩

theorem linearSearch_exact {α : Type} {eq : α → α → Bool} (he : ∀ a b, eq a b = true ↔ a = b) (value : α)
    (values : List α) : ExactIndex values value (linearSearchFrom eq value 0 values) := by
  rcases linearSearchFrom_spec he value 0 values with h | ⟨k, h1, h2⟩
  · left; simpa using h
  · right
    simp only [Int.ofNat_zero] at h1
    push_cast at h1
    rw [h1]
    refine ⟨by omega, ?_⟩
    simpa using h2

theorem intOps : LinearOps (fun a b : Int => decide (a < b)) (fun a b => decide (a = b)) where
  irrefl a := by simp
  trans a b c h1 h2 := by simp at *; omega
  connected a b h1 h2 := by simp at *; omega
  eq_iff a b := by simp

/-! ## machine integers -/

theorem wrap_id {t : IntTy} (ht : StdWidth t) {x : Int} (h : t.InRange x) : t.wrap x = x := by
  obtain ⟨b, s⟩ := t
  cases s <;> rcases ht with h' | h' | h' | h' <;> simp only at h' <;> subst h' <;>
    simp [IntTy.InRange, IntTy.minVal, IntTy.maxVal, IntTy.wrap] at h ⊢ <;> first | omega | (rw [Int.bmod_eq_of_le] <;> omega)

/-- `r + 1` neither overflows nor wraps unless `r` is the maximum of a type at least as wide as `int`. -/
theorem add_one {t : IntTy} (ht : StdWidth t) {x : Int} (h : t.InRange x) (hm : 32 ≤ t.bits → x ≠ t.maxVal) :
    t.promote.arith (x + 1) = .ok (x + 1) := by
  obtain ⟨b, s⟩ := t
  cases s <;> rcases ht with h' | h' | h' | h' <;> simp only at h' <;> subst h' <;>
    simp [IntTy.InRange, IntTy.minVal, IntTy.maxVal, IntTy.wrap, IntTy.promote, IntTy.arith] at h hm ⊢ <;> omega

/-- `r - r0` is exact if it is non-negative and, for signed types at least as wide as `int`, representable. -/
theorem sub_exact {t : IntTy} (ht : StdWidth t) {x y : Int} (h : t.InRange x) (h' : t.InRange y) (hle : y ≤ x)
    (hm : t.signed = true → 32 ≤ t.bits → x - y ≤ t.maxVal) :
    t.promote.arith (x - y) = .ok (x - y) ∧ x - y < (2 ^ 64 : Nat) := by
  obtain ⟨b, s⟩ := t
  cases s <;> rcases ht with hb | hb | hb | hb <;> simp only at hb <;> subst hb <;>
    simp [IntTy.InRange, IntTy.minVal, IntTy.maxVal, IntTy.wrap, IntTy.promote, IntTy.arith] at h h' hm ⊢ <;> omega

theorem sub_overflow {t : IntTy} (ht : StdWidth t) {x y : Int} (hs : t.signed = true) (hb : 32 ≤ t.bits)
    (hm : x - y > t.maxVal) : t.promote.arith (x - y) = .ub := by
  obtain ⟨b, s⟩ := t
  simp only at hs; subst hs
  rcases ht with h' | h' | h' | h' <;> simp only at h' <;> subst h' <;>
    simp [IntTy.InRange, IntTy.minVal, IntTy.maxVal, IntTy.promote, IntTy.arith] at hb hm ⊢ <;> omega

theorem run_succ (v0 : Int) (n : Nat) : run v0 (n + 1) = v0 :: run (v0 + 1) n := by
  unfold run
  rw [List.range_succ_eq_map]
  simp only [List.map_cons, List.map_map]
  refine congrArg₂ List.cons (by simp) ?_
  apply List.map_congr_left
  intro k _
  simp [Function.comp]; omega

theorem areContiguousFrom_spec {t : IntTy} (ht : StdWidth t) (r : Int) (xs : List Int) (hr : t.InRange r)
    (hx : ∀ x ∈ xs, t.InRange x) (hw : 32 ≤ t.bits → ∀ x ∈ (r :: xs).dropLast, x ≠ t.maxVal) :
    areContiguousFrom t r xs = .ok (decide (xs = run (r + 1) xs.length)) := by
  induction xs generalizing r with
  | nil => simp [areContiguousFrom, run]
  | cons x xs ih =>
    have hxr := hx x (by simp)
    rw [areContiguousFrom, add_one ht hr (fun hb => hw hb r (by simp)), wrap_id ht hxr]
    simp only [Outcome.bind_ok, List.length_cons, run_succ]
    by_cases hxe : x = r + 1
    · subst hxe
      rw [if_neg (by simp), ih _ hxr (fun y hy => hx y (by simp [hy]))
        (fun hb y hy => hw hb y (by rw [List.dropLast_cons_of_ne_nil (by simp)]; simp [hy]))]
      simp
    · rw [if_pos hxe]
      simp [hxe]

theorem mem_run {v0 x : Int} {n : Nat} : x ∈ run v0 n ↔ v0 ≤ x ∧ x < v0 + n := by
  unfold run
  simp only [List.mem_map, List.mem_range]
  constructor
  · rintro ⟨k, hk, rfl⟩; omega
  · rintro ⟨h1, h2⟩; exact ⟨(x - v0).toNat, by omega, by omega⟩

theorem run_get {v0 : Int} {n k : Nat} (h : k < n) : (run v0 n)[k]? = some (v0 + k) := by
  simp [run, h]

theorem searchContiguous_exact {t : IntTy} (ht : StdWidth t) {value v0 : Int} {n : Nat} (hv : t.InRange value)
    (h0 : t.InRange v0) (hn : n < 2 ^ 63) (hm : t.signed = true → 32 ≤ t.bits → value - v0 ≤ t.maxVal) :
    ∃ i, searchContiguous t value v0 n = .ok i ∧ ExactIndex (run v0 n) value i := by
  unfold searchContiguous
  rw [wrap_id ht hv, wrap_id ht h0]
  simp only
  by_cases hlt : value < v0
  · rw [if_pos hlt]
    exact ⟨-1, rfl, Or.inl ⟨rfl, fun hc => by have := mem_run.mp hc; omega⟩⟩
  · rw [if_neg hlt]
    obtain ⟨hsub, hbig⟩ := sub_exact ht hv h0 (by omega) hm
    rw [hsub]
    simp only [Outcome.bind_ok]
    have hw : IntTy.sizeT.wrap (value - v0) = value - v0 := by
      simp [IntTy.sizeT, IntTy.wrap] at hbig ⊢; omega
    rw [hw]
    by_cases hge : value - v0 ≥ n
    · rw [if_pos hge]
      exact ⟨-1, rfl, Or.inl ⟨rfl, fun hc => by have := mem_run.mp hc; omega⟩⟩
    · rw [if_neg hge]
      have hw2 : IntTy.ptrdiffT.wrap (value - v0) = value - v0 := by
        apply wrap_id (Or.inr (Or.inr (Or.inr rfl)))
        simp [IntTy.ptrdiffT, IntTy.InRange, IntTy.minVal, IntTy.maxVal]; omega
      rw [hw2]
      refine ⟨_, rfl, Or.inr ⟨by omega, ?_⟩⟩
      rw [run_get (by omega)]
      congr 1; omega

theorem expandSpec_of_exact {α : Type} {values : List α} {value : α} {i : Int} (h : ExactIndex values value i) :
    ExpandSpec values value (fun mode => expandWith mode (.ok i) values) := by
  rcases h with ⟨rfl, hn⟩ | ⟨h0, hi⟩
  · exact ⟨fun hm => absurd hm hn, fun _ => by simp [expandWith]⟩
  · refine ⟨fun _ mode => ?_, fun hn => absurd (List.mem_of_getElem? hi) hn⟩
    simp only [expandWith, Outcome.bind_ok]
    rw [if_neg (by omega), at?_eq values i h0, hi]

end Makeshift
