import Verif.Model.ShuffleDist
import Verif.Lemmas.Permutation
import Verif.Lemmas.Expand

/-! Helper lemmas for `shuffle` with distributions over machine integers. -/

namespace Makeshift.ShuffleDist

open Makeshift.Spec

theorem ptrdiff_id {v : Int} (h0 : 0 ≤ v) (h : v < 9223372036854775808) : IntTy.ptrdiffT.wrap v = v :=
  wrap_id (Or.inr (Or.inr (Or.inr rfl))) (by simp [IntTy.InRange, IntTy.minVal, IntTy.maxVal, IntTy.ptrdiffT]; omega)

/-- As long as no bound becomes negative, the loop is that of the model without conversions. -/
theorem shuffleLoop_eq {α : Type} {t : IntTy} {dist : Nat → Int → Int} (i : Nat) (l : List α) (hi : (i : Int) < 9223372036854775808)
    (hl : i < l.length ∨ i = 0)
    (hb : ∀ k : Nat, 1 ≤ k → k ≤ i → 0 ≤ t.wrap k ∧ 0 ≤ dist k (t.wrap k) ∧ dist k (t.wrap k) ≤ k) :
    ∃ l', ShuffleDist.shuffleLoop t dist i l = .ok l' ∧ Makeshift.shuffleLoop (fun k => (dist k (t.wrap k)).toNat) i l = some l' := by
  induction i generalizing l with
  | zero => exact ⟨l, rfl, rfl⟩
  | succ i ih =>
    obtain ⟨h1, h2, h3⟩ := hb (i + 1) (by omega) (by omega)
    have hil : i + 1 < l.length := by omega
    rw [shuffleLoop_succ _ _ _ hil]
    simp only [ShuffleDist.shuffleLoop, draw]
    rw [if_neg (by omega)]
    simp only [Outcome.bind_ok]
    rw [ptrdiff_id h2 (by omega)]
    generalize dist (i + 1) (t.wrap ((i + 1 : Nat) : Int)) = v at h2 h3
    by_cases hv : ((i + 1 : Nat) : Int) = v
    · rw [if_neg (by simpa using hv)]
      have : v.toNat = i + 1 := by omega
      rw [this, swapAt_self hil]
      exact ih l (by omega) (by omega) (fun k a b => hb k a (by omega))
    · rw [if_pos hv, if_neg (by omega)]
      obtain ⟨l1, hs⟩ := swapAt_isSome l hil (b := v.toNat) (by omega)
      have hlen := swapAt_length hs
      rw [hs]
      exact ih l1 (by omega) (by omega) (fun k a b => hb k a (by omega))

/-- The first step decides on the element at the last position. -/
theorem shuffleLoop_last {α : Type} {d : Nat → Nat} {i : Nat} {l l' : List α} (hl : i + 1 < l.length) (hd : ∀ k, 1 ≤ k → k ≤ i + 1 → d k ≤ k)
    (h : Makeshift.shuffleLoop d (i + 1) l = some l') : l'[i + 1]? = l[d (i + 1)]? := by
  rw [shuffleLoop_succ d i l hl] at h
  have hdi := hd (i + 1) (by omega) (by omega)
  obtain ⟨l1, hs⟩ := swapAt_isSome l hl (b := d (i + 1)) (by omega)
  rw [hs] at h
  have hlen := swapAt_length hs
  obtain ⟨l2, h1, -, h3⟩ := shuffleLoop_ok d i l1 (by omega) (fun k a b => hd k a (by omega))
  have : l2 = l' := by
    have h' : Makeshift.shuffleLoop d i l1 = some l' := h
    rw [h1] at h'; simpa using h'
  subst this
  rw [h3 (i + 1) (by omega)]
  unfold swapAt at hs
  split at hs
  · rename_i x y hx hy
    simp only [Option.some.injEq] at hs
    subst hs
    by_cases he : d (i + 1) = i + 1
    · rw [he] at hy ⊢
      rw [hx] at hy
      simp only [Option.some.injEq] at hy
      subst hy
      rw [hx]
      exact List.getElem?_set_self (by simpa using hl)
    · rw [List.getElem?_set_ne he]
      simp [hl, hy]
  · simp at hs

theorem wrap_unsigned_le {t : IntTy} (hs : t.signed = false) (k : Nat) : 0 ≤ t.wrap k ∧ t.wrap k ≤ k := by
  unfold IntTy.wrap
  rw [hs]
  simp only [Bool.false_eq_true, if_false]
  have : ((2 ^ t.bits : Nat) : Int) ≠ 0 := by
    have := Nat.two_pow_pos t.bits
    omega
  refine ⟨Int.emod_nonneg _ this, ?_⟩
  rw [show (k : Int) % ((2 ^ t.bits : Nat) : Int) = ((k % 2 ^ t.bits : Nat) : Int) by simp]
  exact_mod_cast Nat.mod_le _ _

/-- A negative bound at some position below makes the behaviour undefined, if nothing has before. -/
theorem shuffleLoop_ub {α : Type} {t : IntTy} {dist : Nat → Int → Int} (i : Nat) (l : List α) (hi : (i : Int) < 9223372036854775808)
    (hl : i < l.length) (hd : ∀ (k : Nat) (b : Int), 0 ≤ b → 0 ≤ dist k b ∧ dist k b ≤ b)
    (hw : ∀ k : Nat, 0 ≤ t.wrap k → t.wrap k ≤ k) (m : Nat) (hm1 : 1 ≤ m) (hm2 : m ≤ i) (hm : t.wrap m < 0) :
    ShuffleDist.shuffleLoop t dist i l = .ub := by
  induction i generalizing l with
  | zero => omega
  | succ i ih =>
    simp only [ShuffleDist.shuffleLoop, draw]
    by_cases h0 : t.wrap ((i + 1 : Nat) : Int) < 0
    · rw [if_pos h0]; rfl
    · rw [if_neg h0]
      simp only [Outcome.bind_ok]
      have hne : m ≠ i + 1 := by
        intro he
        rw [he] at hm
        exact h0 hm
      obtain ⟨h2, h3⟩ := hd (i + 1) _ (Int.not_lt.mp h0)
      have h4 := hw (i + 1) (Int.not_lt.mp h0)
      generalize dist (i + 1) (t.wrap ((i + 1 : Nat) : Int)) = v at h2 h3
      have h5 : v ≤ ((i + 1 : Nat) : Int) := Int.le_trans h3 h4
      rw [ptrdiff_id h2 (by omega)]
      by_cases hv : ((i + 1 : Nat) : Int) = v
      · rw [if_neg (by simpa using hv)]
        exact ih l (by omega) (by omega) (by omega)
      · rw [if_pos hv, if_neg (by omega)]
        obtain ⟨l1, hs⟩ := swapAt_isSome l hl (b := v.toNat) (by omega)
        have hlen := swapAt_length hs
        rw [hs]
        exact ih l1 (by omega) (by omega) (by omega)

/-- The step for position `k` leads to an access out of bounds, or asks for a value from an empty interval. -/
def BadDraw (t : IntTy) (dist : Nat → Int → Int) (n k : Nat) : Prop :=
  t.wrap k < 0 ∨ IntTy.ptrdiffT.wrap (dist k (t.wrap k)) < 0 ∨ (n : Int) ≤ IntTy.ptrdiffT.wrap (dist k (t.wrap k))

theorem shuffleLoop_bad {α : Type} (t : IntTy) (dist : Nat → Int → Int) (i : Nat) (l : List α) (hl : i = 0 ∨ i < l.length) :
    ((∃ k, 1 ≤ k ∧ k ≤ i ∧ BadDraw t dist l.length k) → ShuffleDist.shuffleLoop t dist i l = .ub) ∧
    ((∀ k, 1 ≤ k → k ≤ i → ¬ BadDraw t dist l.length k) → ∃ l', ShuffleDist.shuffleLoop t dist i l = .ok l') := by
  induction i generalizing l with
  | zero => exact ⟨fun ⟨k, h1, h2, _⟩ => by omega, fun _ => ⟨l, rfl⟩⟩
  | succ i ih =>
    have hl' : i + 1 < l.length := by omega
    simp only [ShuffleDist.shuffleLoop, draw]
    by_cases h0 : t.wrap ((i + 1 : Nat) : Int) < 0
    · rw [if_pos h0]
      exact ⟨fun _ => rfl, fun h => absurd (.inl h0) (h (i + 1) (by omega) (by omega))⟩
    · rw [if_neg h0]
      simp only [Outcome.bind_ok]
      have hbad : BadDraw t dist l.length (i + 1) ↔ IntTy.ptrdiffT.wrap (dist (i + 1) (t.wrap ((i + 1 : Nat) : Int))) < 0 ∨
          (l.length : Int) ≤ IntTy.ptrdiffT.wrap (dist (i + 1) (t.wrap ((i + 1 : Nat) : Int))) := by
        unfold BadDraw
        exact ⟨fun h => h.resolve_left h0, .inr⟩
      generalize IntTy.ptrdiffT.wrap (dist (i + 1) (t.wrap ((i + 1 : Nat) : Int))) = v at hbad
      have step : ∀ l1 : List α, l1.length = l.length → ¬ BadDraw t dist l.length (i + 1) →
          ((∃ k, 1 ≤ k ∧ k ≤ i + 1 ∧ BadDraw t dist l.length k) → ShuffleDist.shuffleLoop t dist i l1 = .ub) ∧
          ((∀ k, 1 ≤ k → k ≤ i + 1 → ¬ BadDraw t dist l.length k) → ∃ l', ShuffleDist.shuffleLoop t dist i l1 = .ok l') := by
        intro l1 h1 h2
        obtain ⟨a, b⟩ := ih l1 (by omega)
        rw [h1] at a b
        refine ⟨fun ⟨k, k1, k2, k3⟩ => a ⟨k, k1, ?_, k3⟩, fun h => b fun k k1 k2 => h k k1 (by omega)⟩
        by_contra hc
        have : k = i + 1 := by omega
        exact h2 (this ▸ k3)
      by_cases hv : ((i + 1 : Nat) : Int) = v
      · rw [if_neg (by simpa using hv)]
        exact step l rfl (by rw [hbad]; omega)
      · rw [if_pos hv]
        by_cases hneg : v < 0
        · rw [if_pos hneg]
          exact ⟨fun _ => rfl, fun h => absurd (hbad.2 (.inl hneg)) (h (i + 1) (by omega) (by omega))⟩
        · rw [if_neg hneg]
          by_cases hbig : (l.length : Int) ≤ v
          · have hnone : swapAt l (i + 1) v.toNat = none := by
              have : l[v.toNat]? = none := List.getElem?_eq_none (by omega)
              simp [swapAt, this]
            rw [hnone]
            exact ⟨fun _ => rfl, fun h => absurd (hbad.2 (.inr hbig)) (h (i + 1) (by omega) (by omega))⟩
          · obtain ⟨l1, hs⟩ := swapAt_isSome l hl' (b := v.toNat) (by omega)
            rw [hs]
            exact step l1 (swapAt_length hs) (by rw [hbad]; omega)

theorem wrap_signed_le {t : IntTy} (ht : StdWidth t) (hs : t.signed = true) (k : Nat) (h : 0 ≤ t.wrap k) : t.wrap k ≤ k := by
  obtain ⟨b, s⟩ := t
  simp only at hs
  subst hs
  rcases ht with h' | h' | h' | h' <;> simp only at h' <;> subst h' <;> simp [IntTy.wrap, Int.bmod_def] at h ⊢ <;> split at h <;> split <;> omega

end Makeshift.ShuffleDist
