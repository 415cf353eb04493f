import Verif.Lemmas.Cycles
import Verif.Props.Permutation

/-!
# C100: the permutation algorithms call `swap` as rarely as possible

The elements are behind a memory of any kind, which `swap` may change in any way; `logged swap` also writes down the positions for which
it was called.
-/

namespace Makeshift.Props

open Makeshift.Spec

variable {σ α : Type}

private theorem isPerm_of {idx : List Int} {n : Nat} (h : IsPermutation idx n) : IsPerm idx ∧ idx.length = n := by
  have hl : idx.length = n := by simpa [IsPermutation] using h.length_eq
  exact ⟨⟨h.nodup_iff.mpr (identity_nodup n), fun x hx => by rw [hl]; exact mem_identity.mp (h.mem_iff.mp hx)⟩, hl⟩

private theorem cycleCount_pos {idx : List Int} (h : 0 < idx.length) : 0 < cycleCount idx := by
  classical
  exact Finset.card_pos.mpr ⟨0, Finset.mem_filter.mpr ⟨Finset.mem_range.mpr h, fun k => Nat.zero_le _⟩⟩

/-- C100: `apply_permutation` calls `swap` once less for every cycle of the permutation than there are elements - so never more often than
there are elements less one -, and only for different elements which the permutation moves. -/
theorem C100_apply_permutation (swap : σ → Nat → Nat → σ) (m : σ) (idx : List Int) (n : Nat) (h : IsPermutation idx n) :
    ∃ m' log, permOver (logged swap) n ⟨(m, []), idx⟩ = (.done, ⟨(m', log), (List.range n).map Int.ofNat⟩) ∧
      log.length + cycleCount idx = n ∧ log.length ≤ n - 1 ∧
      ∀ t ∈ log, t.1 ≠ t.2 ∧ t.1 < n ∧ t.2 < n ∧ idx[t.1]? ≠ some (t.1 : Int) ∧ idx[t.2]? ≠ some (t.2 : Int) := by
  obtain ⟨hp, rfl⟩ := isPerm_of h
  obtain ⟨m', log, he, hc, hm⟩ := permOver_rounds swap (fun k => idx[k]? = some (k : Int)) m [] idx hp (fun _ h => h)
  refine ⟨m', log, by simpa [identity] using he, hc, ?_, hm⟩
  by_cases h0 : 0 < idx.length
  · have := cycleCount_pos h0; omega
  · omega

/-- Non-vacuity of `C100_apply_permutation`: the permutation (0 2 1)(3 4) needs three swaps; position 5 is not touched. -/
example : IsPermutation [2, 0, 1, 4, 3, 5] 6 ∧
    (permOver (logged fun (m : Unit) _ _ => m) 6 ⟨((), []), [2, 0, 1, 4, 3, 5]⟩).2.mem.2 = [(0, 2), (2, 1), (3, 4)] := by
  refine ⟨by unfold IsPermutation; decide, by decide +kernel⟩

/-- C100: the same for `apply_reverse_permutation`. -/
theorem C100_apply_reverse_permutation (swap : σ → Nat → Nat → σ) (m : σ) (idx : List Int) (n : Nat) (h : IsPermutation idx n) :
    ∃ m' log, revOver (logged swap) n ⟨(m, []), idx⟩ = (.done, ⟨(m', log), (List.range n).map Int.ofNat⟩) ∧
      log.length + cycleCount idx = n ∧ log.length ≤ n - 1 ∧
      ∀ t ∈ log, t.1 ≠ t.2 ∧ t.1 < n ∧ t.2 < n ∧ idx[t.1]? ≠ some (t.1 : Int) ∧ idx[t.2]? ≠ some (t.2 : Int) := by
  obtain ⟨hp, rfl⟩ := isPerm_of h
  obtain ⟨m', log, he, hc, hm⟩ := revOver_rounds swap (fun k => idx[k]? = some (k : Int)) m [] idx hp (fun _ h => h)
  refine ⟨m', log, by simpa [identity] using he, hc, ?_, hm⟩
  by_cases h0 : 0 < idx.length
  · have := cycleCount_pos h0; omega
  · omega

/-- Non-vacuity of `C100_apply_reverse_permutation`. -/
example : IsPermutation [2, 0, 1, 4, 3, 5] 6 ∧
    (revOver (logged fun (m : Unit) _ _ => m) 6 ⟨((), []), [2, 0, 1, 4, 3, 5]⟩).2.mem.2 = [(0, 2), (0, 1), (3, 4)] := by
  refine ⟨by unfold IsPermutation; decide, by decide +kernel⟩

private theorem exchanges_comp (elems g : Nat → α) (c : Nat → Nat) (h : ∀ p, g p = elems (c p)) (ts : List (Nat × Nat)) (p : Nat) :
    exchanges g ts p = elems (exchanges c ts p) := by
  induction ts generalizing g c with
  | nil => exact h p
  | cons t ts ih =>
    refine ih (exchange g t.1 t.2) (exchange c t.1 t.2) ?_
    intro p
    simp only [exchange]
    split
    · exact h _
    · split
      · exact h _
      · exact h _

private theorem exchanges_lt {n : Nat} (c : Nat → Nat) (hc : ∀ p, p < n → c p < n) (ts : List (Nat × Nat))
    (hts : ∀ t ∈ ts, t.1 < n ∧ t.2 < n) (p : Nat) (hp : p < n) : exchanges c ts p < n := by
  induction ts generalizing c with
  | nil => exact hc p hp
  | cons t ts ih =>
    refine ih (exchange c t.1 t.2) ?_ (fun u hu => hts u (.tail _ hu))
    intro q hq
    obtain ⟨h1, h2⟩ := hts t (.head _)
    simp only [exchange]
    split
    · exact hc _ h2
    · split
      · exact hc _ h1
      · exact hc _ hq

/-- C100: no sequence of swaps which permutes different elements in this way, or in the reverse way, is shorter. -/
theorem C100_minimal (elems : Nat → α) (n : Nat) (hinj : ∀ a b, a < n → b < n → elems a = elems b → a = b) (idx : List Int)
    (h : IsPermutation idx n) (ts : List (Nat × Nat)) (hts : ∀ t ∈ ts, t.1 < n ∧ t.2 < n)
    (hres : (∀ p q : Nat, idx[p]? = some (q : Int) → exchanges elems ts p = elems q) ∨
      (∀ p q : Nat, idx[p]? = some (q : Int) → exchanges elems ts q = elems p)) :
    n ≤ ts.length + cycleCount idx := by
  obtain ⟨hp, rfl⟩ := isPerm_of h
  obtain ⟨c, hc, hcard⟩ := labels idx.length ts id id 0 (fun _ => rfl) (by simp)
  have hlt := exchanges_lt id (fun p hp => hp) ts hts
  have hcomp := exchanges_comp elems elems id (fun _ => rfl) ts
  have hle := labels_le_cycles hp c fun p hpl => by
    obtain ⟨q, hq, hql⟩ := hp.entry hpl
    rw [follow_of hq, Int.toNat_natCast]
    rcases hres with hres | hres
    · have := hres p q hq
      rw [hcomp] at this
      have := hinj _ _ (hlt p hpl) hql this
      rw [← this]
      exact hc p
    · have := hres p q hq
      rw [hcomp] at this
      have := hinj _ _ (hlt q hql) hpl this
      rw [← this]
      exact (hc q).symm
  omega

/-- Non-vacuity of `C100_minimal`: two swaps for the cycle (0 2 1); so there is one cycle at least. -/
example : 3 ≤ [(0, 2), (2, 1)].length + cycleCount [2, 0, 1] :=
  C100_minimal (fun p => p) 3 (fun _ _ _ _ h => h) [2, 0, 1] (by unfold IsPermutation; decide) [(0, 2), (2, 1)] (by decide)
    (.inl (by
      intro p q h
      match p with
      | 0 => simp at h; have : q = 2 := by omega
             subst this; decide
      | 1 => simp at h; have : q = 0 := by omega
             subst this; decide
      | 2 => simp at h; have : q = 1 := by omega
             subst this; decide
      | p + 3 => simp at h))

/-- C100: `shuffle` calls `swap` once for every position other than 0 for which another position is drawn, and for no others. -/
theorem C100_shuffle (swap : σ → Nat → Nat → σ) (draw : Nat → Nat) (n : Nat) (m : σ) :
    ∃ m', shuffleOver (logged swap) draw n (m, []) =
      some (m', (((List.range n).reverse.filter fun i => i ≠ 0 ∧ draw i ≠ i).map fun i => (i, draw i))) := by
  have key : ∀ (k : Nat) (m : σ) (log : List (Nat × Nat)), ∃ m', shuffleOverLoop (logged swap) draw k (m, log) =
      some (m', log ++ (((List.range (k + 1)).reverse.filter fun i => i ≠ 0 ∧ draw i ≠ i).map fun i => (i, draw i))) := by
    intro k
    induction k with
    | zero => intro m log; exact ⟨m, by simp [shuffleOverLoop]⟩
    | succ k ih =>
      intro m log
      simp only [shuffleOverLoop]
      rw [List.range_succ (n := k + 1), List.reverse_append]
      by_cases hj : k + 1 = draw (k + 1)
      · rw [if_neg (by simpa using hj)]
        obtain ⟨m', hm'⟩ := ih m log
        exact ⟨m', by rw [hm']; simp [← hj]⟩
      · rw [if_pos hj]
        simp only [logged]
        obtain ⟨m', hm'⟩ := ih (swap m (k + 1) (draw (k + 1))) (log ++ [(k + 1, draw (k + 1))])
        exact ⟨m', by rw [hm']; simp [Ne.symm hj]⟩
  cases n with
  | zero => exact ⟨m, by simp [shuffleOver, shuffleOverLoop]⟩
  | succ n => simpa [shuffleOver] using key n m []

/-- Non-vacuity of `C100_shuffle`. -/
example : (shuffleOver (logged fun (m : Unit) _ _ => m) (fun i => if i = 2 then 2 else 0) 4 ((), [])).map (·.2) = some [(3, 0), (1, 0)] := by
  decide

end Makeshift.Props
