import Verif.Model.ZipMembers
import Verif.Lemmas.ZipStd
import Verif.Lemmas.Ranges
import Verif.Lemmas.ShuffleDist

/-! Lemmas about the member functions of zipped ranges. -/

namespace Makeshift.ZipMembers

open Spec ShuffleDist

variable {α : Type}

/-- What a zipped range that has been made looks like. -/
theorem make_ok {rs : List (Rng α)} (hval : ∀ r ∈ rs, ValidRange r) {z : ZipObj α} (h : make rs = some (.ok z))
    (hfit : ∀ r ∈ rs, r.elems.length < 9223372036854775808) :
    ∃ s : Size, mergeSizes (rs.map Rng.size) = .ok s ∧ s ≠ .static (-1) ∧ z.ranges = rs ∧ z.size = s ∧ innerSize z = s ∧ endSentinel z = s ∧
      ∃ n : Nat, s.value = n ∧ size z = n ∧ (empty z = true ↔ n = 0) ∧ ∃ r ∈ rs, IsReal r ∧ r.size ≠ .static (-1) ∧ r.elems.length = n := by
  unfold make at h
  cases hm : mergeSizes (rs.map Rng.size) with
  | staticMismatch => simp [hm] at h
  | failFast => simp [hm] at h
  | ok s =>
    cases s with
    | static N =>
      simp only [hm] at h
      by_cases hN : N = unknownSize
      · simp [hN] at h
      · simp only [hN, if_false, Option.some.injEq, Outcome.ok.injEq] at h
        subst h
        have hne : Size.static N ≠ .static (-1) := by simpa using hN
        obtain ⟨r, hr, hR, hv, hs⟩ := size_value hval hm hne
        have hl := hfit r hr
        simp only [Size.value] at hv
        refine ⟨_, rfl, hne, rfl, rfl, rfl, rfl, r.elems.length, hv, ?_, ?_, r, hr, hR, hs, rfl⟩
        · simp only [size, hv]; exact sizeT_wrap (by omega) (by omega)
        · simp [empty, hv]
    | dyn n =>
      simp only [hm, Option.some.injEq, Outcome.ok.injEq] at h
      subst h
      obtain ⟨r, hr, hR, hv, hs⟩ := size_value hval hm (by simp)
      have hl := hfit r hr
      simp only [Size.value] at hv
      subst hv
      have e1 : IntTy.sizeT.wrap (r.elems.length : Int) = r.elems.length := sizeT_wrap (by omega) (by omega)
      have e2 : IntTy.ptrdiffT.wrap (r.elems.length : Int) = r.elems.length := ptrdiff_id (by omega) (by omega)
      refine ⟨_, rfl, by simp, rfl, ?_, ?_, ?_, r.elems.length, rfl, ?_, ?_, r, hr, hR, hs, rfl⟩
      · simp [e1]
      · simp [innerSize, e1, e2]
      · simp [endSentinel, e1, e2]
      · simp [size, e1]
      · simp [empty, e1]

/-- Reading beyond the end of one of the ranges. -/
theorem subscript_ub {rs : List (Rng α)} {d : Int} (hr : ∃ r ∈ rs, IsReal r ∧ (d < 0 ∨ (r.elems.length : Int) ≤ d)) :
    zipSubscript rs (zipBegin rs) d = .ub := by
  unfold zipSubscript
  obtain ⟨hi, hp⟩ := at_begin rs
  refine forLeaves_fail (e' := .ub) (fun _ => rfl) (fun _ => rfl) hp ?_ ?_
  · intro r _ q _
    have hread : ∀ x, (∃ b, readAt r x = .ok b) ∨ readAt r x = .ub := by
      intro x
      by_cases hx : x < 0 ∨ (r.elems.length : Int) ≤ x
      · exact Or.inr (readAt_ub hx)
      · obtain ⟨y, -, hy⟩ := readAt_ok (r := r) (p := x) (by omega) (by omega)
        exact Or.inl ⟨_, hy⟩
    unfold leafDerefAt
    cases r.mode <;> first | exact hread _ | exact Or.inl ⟨_, rfl⟩
  · obtain ⟨r, hr, hR, hd⟩ := hr
    refine ⟨r, hr, fun q hq => ?_⟩
    unfold leafDerefAt
    cases hm : r.mode with
    | iteratorPair => rw [hq (Or.inl hm), Int.zero_add]; exact readAt_ub hd
    | iterator => rw [hq (Or.inr hm), Int.zero_add]; exact readAt_ub hd
    | index => rw [hi, Int.zero_add]; exact readAt_ub hd
    | rangeIndex => exact absurd hm hR

theorem zipIndexLoop_steps {rs : List (Rng α)} {cats : List Category} (hc : ZipStd.hasSubscript cats = true) (z : ZipObj α)
    (hz : z.ranges = rs) (ts : List (List (Arg α))) (p : Nat) (s : List (List (Arg α))) (fuel : Nat) (hts : TuplesFrom rs p ts)
    (hlen : ∀ r ∈ rs, IsReal r → p + ts.length ≤ r.elems.length) (hstop : (p + ts.length : Nat) ≤ size z)
    (hfit : p + ts.length < 9223372036854775808) :
    zipIndexLoop cats z (fuel + ts.length) p s = zipIndexLoop cats z fuel (p + ts.length : Nat) (s ++ ts) := by
  induction ts generalizing p s with
  | nil => simp
  | cons t ts ih =>
    simp only [List.length_cons] at hlen hstop hfit ⊢
    obtain ⟨args, hd, hargs⟩ := zipSubscript_at (d := p) (at_begin rs) (Int.zero_add _) (fun r hr hm => by have := hlen r hr hm; omega)
    have hta : List.Forall₂ (ArgAt p) rs t := by simpa using hts 0 t rfl
    have : args = t := tuple_unique hargs hta
    subst this
    have e : subscript cats z p = some (.ok args) := by
      simp only [subscript, hc, if_true, begin', hz]
      rw [ptrdiff_id (by omega) (by omega), hd]
    have ew : IntTy.sizeT.wrap ((p : Int) + 1) = (p + 1 : Nat) := by
      rw [sizeT_wrap (by omega) (by omega)]; omega
    rw [show fuel + (ts.length + 1) = (fuel + ts.length) + 1 by omega, zipIndexLoop, if_neg (by omega)]
    simp only [e, ew]
    rw [ih (p + 1) (s ++ [args]) (tuplesFrom_tail hts) (fun r hr hm => by have := hlen r hr hm; omega) (by omega) (by omega)]
    rw [List.append_assoc, show p + 1 + ts.length = p + (ts.length + 1) by omega]
    rfl

end Makeshift.ZipMembers
