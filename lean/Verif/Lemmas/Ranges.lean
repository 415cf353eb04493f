import Verif.Spec.Ranges
import Verif.Lemmas.Expand

/-! Helper lemmas for `range` and `index_range`. -/

namespace Makeshift

open Spec

variable {α : Type}

theorem ptrdiff_arith {x : Int} (h : IntTy.ptrdiffT.InRange x) : IntTy.ptrdiffT.arith x = .ok x := by
  unfold IntTy.arith
  rw [if_pos (by rfl), if_pos h]

theorem between_inRange {a b x : Int} (ha : IntTy.ptrdiffT.InRange a) (hb : IntTy.ptrdiffT.InRange b) (h1 : a ≤ x) (h2 : x ≤ b) :
    IntTy.ptrdiffT.InRange x := ⟨by have := ha.1; omega, by have := hb.2; omega⟩

theorem run_cons (a : Int) (n : Nat) : run a (n + 1) = a :: run (a + 1) n := by
  unfold run
  rw [List.range_succ_eq_map, List.map_cons, List.map_map]
  congr 1
  · simp
  · apply List.map_congr_left
    intro i _
    simp only [Function.comp_apply]
    omega

theorem indexLoop_spec (n : Nat) (fuel : Nat) (a b : Int) (hn : b - a = n) (hf : n < fuel) (hb : IntTy.ptrdiffT.InRange b)
    (ha : IntTy.ptrdiffT.InRange a) : indexLoop ⟨b⟩ fuel ⟨a⟩ = some (.ok (run a n)) := by
  induction n generalizing a fuel with
  | zero =>
    obtain ⟨f, rfl⟩ : ∃ f, fuel = f + 1 := ⟨fuel - 1, by omega⟩
    have : a = b := by omega
    subst this
    simp [indexLoop, IndexIt.ne, run]
  | succ n ih =>
    obtain ⟨f, rfl⟩ : ∃ f, fuel = f + 1 := ⟨fuel - 1, by omega⟩
    have hne : IndexIt.ne ⟨a⟩ ⟨b⟩ = true := by
      simp only [IndexIt.ne, bne_iff_ne]; omega
    have hr := between_inRange (x := a + 1) ha hb (by omega) (by omega)
    have hinc : IndexIt.inc ⟨a⟩ = .ok ⟨a + 1⟩ := by
      unfold IndexIt.inc
      rw [ptrdiff_arith hr]
      rfl
    unfold indexLoop
    rw [hne, hinc]
    simp only [if_true]
    rw [ih f (a + 1) (by omega) (by omega) hr, run_cons]
    rfl

theorem walkIndex_spec {lo hi : Int} (hlo : IntTy.ptrdiffT.InRange lo) (hhi : IntTy.ptrdiffT.InRange hi) (ms : List Move) (p : Int)
    (h : StaysBetween lo hi ms p) : walkIndex ms ⟨p⟩ = .ok ⟨destination ms p⟩ ∧ lo ≤ destination ms p ∧ destination ms p ≤ hi := by
  induction ms generalizing p with
  | nil => exact ⟨rfl, h.1, h.2⟩
  | cons m ms ih =>
    obtain ⟨h1, h2, h3⟩ := h
    have hb : lo ≤ p + m.shift ∧ p + m.shift ≤ hi := by
      cases ms with
      | nil => exact h3
      | cons m' ms => exact ⟨h3.1, h3.2.1⟩
    have hr := between_inRange hlo hhi hb.1 hb.2
    have : m.takeIndex ⟨p⟩ = .ok ⟨p + m.shift⟩ := by
      cases m with
      | inc => simp only [Move.takeIndex, IndexIt.inc, Move.shift] at hr ⊢; rw [ptrdiff_arith hr]; rfl
      | dec =>
        simp only [Move.takeIndex, IndexIt.dec, Move.shift] at hr ⊢
        rw [show p - 1 = p + -1 by omega, ptrdiff_arith hr]; rfl
      | add d => simp only [Move.takeIndex, IndexIt.add, Move.shift] at hr ⊢; rw [ptrdiff_arith hr]; rfl
      | sub d =>
        simp only [Move.takeIndex, IndexIt.sub, Move.shift] at hr ⊢
        rw [show p - d = p + -d by omega, ptrdiff_arith hr]; rfl
    simp only [walkIndex, this, Outcome.bind_ok, destination]
    exact ih _ h3

theorem iterSubscript_ok {array : List α} {it d : Int} {k : Nat} (hk : it + d = k) (hlt : k < array.length) :
    iterSubscript array it d = .ok array[k] := by
  unfold iterSubscript iterAdd
  rw [if_pos ⟨by omega, by omega⟩]
  simp only [Outcome.bind_ok, iterRead]
  rw [if_neg (by omega), hk]
  simp [List.getElem?_eq_getElem hlt]

theorem sizeT_wrap {x : Int} (h0 : 0 ≤ x) (h1 : x < 2 ^ 64) : IntTy.sizeT.wrap x = x := by
  simp only [IntTy.sizeT, IntTy.wrap]
  simp
  omega

end Makeshift
