import Verif.Lemmas.ShuffleDist
import Verif.Lemmas.ShuffleByIndex
import Verif.Props.Permutation

/-!
# C116: `shuffle` with a distribution over a given integer type

`dist k b` is the value drawn for position `k` when the distribution is asked for a value in `[0, b]`.
-/

namespace Makeshift.Props

open Makeshift Makeshift.Spec

/-- What the distribution promises: if the bounds are valid, a value between them. -/
def UniformDraws (dist : Nat → Int → Int) : Prop := ∀ (k : Nat) (b : Int), 0 ≤ b → 0 ≤ dist k b ∧ dist k b ≤ b

private theorem wide_bounds {t : IntTy} (ht : StdWidth t) {n : Nat} (hn : (n : Int) ≤ t.maxVal + 1) (k : Nat) (hk : k < n) :
    t.wrap k = k := by
  apply wrap_id ht
  refine ⟨?_, by omega⟩
  obtain ⟨b, s⟩ := t
  have : (0 : Int) < 2 ^ (b - 1) := Int.pow_pos (by decide)
  cases s <;> simp [IntTy.minVal] <;> omega

/-- If the integer type can represent all positions, `shuffle` rearranges the range; the values drawn determine the arrangement one-to-one;
and every arrangement is the result of some draws.  (Statements of C25, including the conversions.) -/
theorem C116_wide {α : Type} {t : IntTy} (ht : StdWidth t) (l : List α) (hn : (l.length : Int) ≤ t.maxVal + 1)
    (hl : l.length ≤ 2 ^ 63) :
    (∀ dist, UniformDraws dist → ∃ l', ShuffleDist.shuffle t dist l = .ok l' ∧ l'.Perm l) ∧
    (l.Nodup → ∀ d d', UniformDraws d → UniformDraws d' → ShuffleDist.shuffle t d l = ShuffleDist.shuffle t d' l →
      ∀ k : Nat, 1 ≤ k → k < l.length → d k k = d' k k) ∧
    (∀ l', l'.Perm l → ∃ dist, UniformDraws dist ∧ ShuffleDist.shuffle t dist l = .ok l') := by
  have hw := wide_bounds ht hn
  have key : ∀ dist, UniformDraws dist → ∃ l', ShuffleDist.shuffle t dist l = .ok l' ∧
      Makeshift.shuffle (fun k => (dist k (t.wrap k)).toNat) l = some l' := by
    intro dist hd
    refine ShuffleDist.shuffleLoop_eq (l.length - 1) l (by omega) (by omega) (fun k h1 h2 => ?_)
    have := hd k k (by omega)
    rw [hw k (by omega)]
    omega
  have valid : ∀ dist, UniformDraws dist → ValidDraws l.length (fun k => (dist k (t.wrap k)).toNat) := by
    intro dist hd k h1 h2
    have := hd k k (by omega)
    simp only [hw k (by omega)]
    omega
  refine ⟨fun dist hd => ?_, fun hnd d d' hd hd' he k h1 h2 => ?_, fun l' hp => ?_⟩
  · obtain ⟨l', h1, h2⟩ := key dist hd
    obtain ⟨l'', h3, h4⟩ := C25_shuffle_permutes l _ (valid dist hd)
    rw [h2, Option.some.injEq] at h3
    subst h3
    exact ⟨l', h1, h4⟩
  · obtain ⟨r, e1, e2⟩ := key d hd
    obtain ⟨r', e1', e2'⟩ := key d' hd'
    rw [e1, e1', Outcome.ok.injEq] at he
    have := C25_shuffle_injective l hnd _ _ (valid d hd) (valid d' hd') (by rw [e2, e2', he]) k h1 h2
    simp only [hw k (by omega)] at this
    have a := hd k k (by omega)
    have b := hd' k k (by omega)
    omega
  · obtain ⟨draw, hv, he⟩ := C25_shuffle_surjective l l' hp
    have hd : UniformDraws (fun k b => if ((draw k : Nat) : Int) ≤ b then draw k else 0) := by
      intro k b hb
      simp only
      split <;> omega
    refine ⟨_, hd, ?_⟩
    obtain ⟨r, e1, e2⟩ := key _ hd
    rw [e1]
    have : Makeshift.shuffle draw l = some r := by
      rw [← e2]
      refine C25_shuffle_draws_used l _ _ (fun k h1 h2 => ?_)
      have := hv k h1 h2
      simp only [hw k (by omega)]
      rw [if_pos (by omega)]
      simp
    rw [he, Option.some.injEq] at this
    rw [this]

/-- 32768 elements can be shuffled with a distribution over `short`. -/
example : StdWidth ⟨16, true⟩ ∧ (((List.range 32768).length : Nat) : Int) ≤ (IntTy.mk 16 true).maxVal + 1 ∧
    (List.range 32768).length ≤ 2 ^ 63 ∧ UniformDraws (fun _ b => b / 2) :=
  ⟨Or.inr (Or.inl rfl), by rw [List.length_range]; decide, by rw [List.length_range]; decide, fun _ _ _ => by dsimp only; omega⟩

/-- A distribution over an unsigned type, whatever its width: no access out of bounds, and the range is rearranged. -/
theorem C116_unsigned {α : Type} {t : IntTy} (hs : t.signed = false) (l : List α) (hl : l.length ≤ 2 ^ 63) (dist : Nat → Int → Int)
    (hd : UniformDraws dist) : ∃ l', ShuffleDist.shuffle t dist l = .ok l' ∧ l'.Perm l := by
  have hb : ∀ k : Nat, 0 ≤ t.wrap k ∧ 0 ≤ dist k (t.wrap k) ∧ dist k (t.wrap k) ≤ k := by
    intro k
    obtain ⟨h1, h2⟩ := ShuffleDist.wrap_unsigned_le hs k
    obtain ⟨h3, h4⟩ := hd k _ h1
    exact ⟨h1, h3, Int.le_trans h4 h2⟩
  obtain ⟨l', h1, h2⟩ := ShuffleDist.shuffleLoop_eq (t := t) (dist := dist) (l.length - 1) l (by omega) (by omega) (fun k _ _ => hb k)
  obtain ⟨l'', h3, h4⟩ := C25_shuffle_permutes l (fun k => (dist k (t.wrap k)).toNat) (by
    intro k _ _
    have := hb k
    simp only
    omega)
  rw [show Makeshift.shuffle _ l = some l' from h2, Option.some.injEq] at h3
  subst h3
  exact ⟨l', h1, h4⟩

example : UniformDraws (fun _ b => b) := fun _ _ _ => by dsimp only; omega

/-- Negated for unsigned types with too few values: the last element never stays in its place, so that not every arrangement is possible. -/
theorem C116_unsigned_narrow {α : Type} {t : IntTy} (hs : t.signed = false) (l : List α) (x : α) (hnd : (l ++ [x]).Nodup)
    (hn : t.maxVal < l.length) (hl : l.length < 2 ^ 63) (dist : Nat → Int → Int)
    (hd : UniformDraws dist) (l' : List α) (h : ShuffleDist.shuffle t dist (l ++ [x]) = .ok l') : l'[l.length]? ≠ some x := by
  have hb : ∀ k : Nat, 0 ≤ t.wrap k ∧ 0 ≤ dist k (t.wrap k) ∧ dist k (t.wrap k) ≤ k := by
    intro k
    obtain ⟨h1, h2⟩ := ShuffleDist.wrap_unsigned_le hs k
    obtain ⟨h3, h4⟩ := hd k _ h1
    exact ⟨h1, h3, Int.le_trans h4 h2⟩
  have hm : t.maxVal = (2 ^ t.bits : Nat) - 1 := by simp [IntTy.maxVal, hs]
  have hpos := Nat.two_pow_pos t.bits
  cases hln : l.length with
  | zero => omega
  | succ m =>
    have hlen : (l ++ [x]).length = m + 2 := by simp [hln]
    obtain ⟨r, h1, h2⟩ := ShuffleDist.shuffleLoop_eq (t := t) (dist := dist) (m + 1) (l ++ [x]) (by omega) (by omega) (fun k _ _ => hb k)
    have : ShuffleDist.shuffle t dist (l ++ [x]) = .ok r := by
      unfold ShuffleDist.shuffle; rw [hlen]; exact h1
    rw [h, Outcome.ok.injEq] at this
    subst this
    rw [ShuffleDist.shuffleLoop_last (by omega) (fun k _ _ => by have := hb k; omega) h2]
    have hlt : t.wrap ((m + 1 : Nat) : Int) < ((m + 1 : Nat) : Int) := by
      have : t.wrap ((m + 1 : Nat) : Int) < ((2 ^ t.bits : Nat) : Int) := by
        unfold IntTy.wrap
        rw [hs]
        simp only [Bool.false_eq_true, if_false]
        exact Int.emod_lt_of_pos _ (by omega)
      omega
    have hdl := (hd (m + 1) _ (hb (m + 1)).1).2
    have h0 := (hb (m + 1)).2.1
    intro hc
    have hj : (dist (m + 1) (t.wrap ((m + 1 : Nat) : Int))).toNat < l.length := by omega
    rw [List.getElem?_append_left hj] at hc
    have hmem := List.mem_of_getElem? hc
    rw [List.nodup_append] at hnd
    exact hnd.2.2 x hmem x (by simp) rfl

/-- 257 elements and a distribution over `unsigned char`. -/
example : (IntTy.mk 8 false).signed = false ∧ (List.range 256 ++ [256]).Nodup ∧ (IntTy.mk 8 false).maxVal < ((List.range 256).length : Int) ∧
    (List.range 256).length < 2 ^ 63 :=
  ⟨rfl, by rw [← List.range_succ]; exact List.nodup_range, by rw [List.length_range]; decide, by rw [List.length_range]; decide⟩

/-- Negated for signed types that cannot represent all positions: the distribution is asked for a value in an empty interval, so that behaviour
is undefined, whatever is drawn before. -/
theorem C116_signed_narrow {α : Type} {t : IntTy} (ht : StdWidth t) (hs : t.signed = true) (l : List α) (hn : t.maxVal + 1 < l.length)
    (hl : l.length ≤ 2 ^ 63) (dist : Nat → Int → Int) (hd : UniformDraws dist) : ShuffleDist.shuffle t dist l = .ub := by
  have hm : ∃ m : Nat, (m : Int) = t.maxVal + 1 ∧ 1 ≤ m ∧ t.wrap m < 0 := by
    obtain ⟨b, s⟩ := t
    simp only at hs
    subst hs
    rcases ht with h' | h' | h' | h' <;> simp only at h' <;> subst h'
    · exact ⟨128, by decide, by decide, by decide⟩
    · exact ⟨32768, by decide, by decide, by decide⟩
    · exact ⟨2147483648, by decide, by decide, by decide⟩
    · exact ⟨9223372036854775808, by decide, by decide, by decide⟩
  obtain ⟨m, h1, h2, h3⟩ := hm
  exact ShuffleDist.shuffleLoop_ub (l.length - 1) l (by omega) (by omega) hd (fun k => ShuffleDist.wrap_signed_le ht hs k) m h2 (by omega) h3

/-- 32769 elements and a distribution over `short`. -/
example : StdWidth ⟨16, true⟩ ∧ (IntTy.mk 16 true).maxVal + 1 < ((List.range 32769).length : Int) ∧ (List.range 32769).length ≤ 2 ^ 63 :=
  ⟨Or.inr (Or.inl rfl), by rw [List.length_range]; decide, by rw [List.length_range]; decide⟩

/-- Exactly when behaviour is undefined, for a distribution of any kind: if for some position the distribution is asked for a value from an empty interval, or a value
drawn is not a position of the range. -/
theorem C116_undefined {α : Type} (t : IntTy) (dist : Nat → Int → Int) (l : List α) :
    ((∃ k : Nat, 1 ≤ k ∧ k < l.length ∧ (t.wrap k < 0 ∨ IntTy.ptrdiffT.wrap (dist k (t.wrap k)) < 0 ∨
      (l.length : Int) ≤ IntTy.ptrdiffT.wrap (dist k (t.wrap k)))) → ShuffleDist.shuffle t dist l = .ub) ∧
    ((∀ k : Nat, 1 ≤ k → k < l.length → 0 ≤ t.wrap k ∧ 0 ≤ IntTy.ptrdiffT.wrap (dist k (t.wrap k)) ∧
      IntTy.ptrdiffT.wrap (dist k (t.wrap k)) < l.length) → ∃ l', ShuffleDist.shuffle t dist l = .ok l' ∧ l'.Perm l) := by
  obtain ⟨h1, h2⟩ := ShuffleDist.shuffleLoop_bad t dist (l.length - 1) l (by omega)
  refine ⟨fun ⟨k, k1, k2, k3⟩ => h1 ⟨k, k1, by omega, k3⟩, fun h => ?_⟩
  obtain ⟨l', h3⟩ := h2 fun k k1 k2 hb => by
    have := h k k1 (by omega)
    unfold ShuffleDist.BadDraw at hb
    omega
  exact ⟨l', h3, Makeshift.shuffleLoop_perm t dist _ _ _ h3⟩

/-- Non-vacuity of `C116_undefined`: a distribution which yields a value above the bound, but in the range, is not noticed. -/
example : ShuffleDist.shuffle ⟨32, true⟩ (fun _ _ => 2) [1, 2, 3] = .ok [1, 3, 2] ∧ ShuffleDist.shuffle ⟨32, true⟩ (fun _ _ => 3) [1, 2, 3] = .ub := by
  decide

end Makeshift.Props
