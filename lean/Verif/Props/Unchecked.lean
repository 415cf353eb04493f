import Verif.Lemmas.Unchecked
import Verif.Lemmas.UncheckedZip
import Verif.Props.Permutation

/-!
# Permutations and range algorithms when contract checks are switched off: C144

`Checks.off` is a program which was compiled with gsl-lite configured to drop `gsl_Expects` and `gsl_Assert`.
-/

namespace Makeshift.Props

open Makeshift.Unchecked Makeshift.Spec Makeshift.Unchecked.Spec

/-! ## the two configurations describe the same code -/

/-- C144: with checks switched on, the functions do what C20 - C23 say about them. -/
theorem C144_permutation_checked {α : Type} (s : PermState α) :
    ∃ k, ∀ fuel, k ≤ fuel → Unchecked.applyPermutation .on fuel s =
      match Makeshift.applyPermutation s with
      | (.done, s') => .done s'
      | (.failFast, s') => .failFast s'
      | (.ub, _) => .ub := by
  obtain ⟨-, ⟨k, h⟩, -⟩ := permOuter_cases s.elems.length s.elems.length 0 s rfl
  refine ⟨k, fun fuel hf => ?_⟩
  have := h fuel hf
  unfold Unchecked.applyPermutation Makeshift.applyPermutation
  generalize applyPermOuter s.elems.length s.elems.length 0 s = r at this
  obtain ⟨e, s1⟩ := r
  cases e <;> exact this

/-- C144: the same for `apply_reverse_permutation`. -/
theorem C144_reverse_checked {α : Type} (s : PermState α) :
    ∃ k, ∀ fuel, k ≤ fuel → Unchecked.applyReversePermutation .on fuel s =
      match Makeshift.applyReversePermutation s with
      | (.done, s') => .done s'
      | (.failFast, s') => .failFast s'
      | (.ub, _) => .ub := by
  obtain ⟨-, ⟨k, h⟩, -⟩ := revOuter_cases s.elems.length s.elems.length 0 s rfl
  refine ⟨k, fun fuel hf => ?_⟩
  have := h fuel hf
  unfold Unchecked.applyReversePermutation Makeshift.applyReversePermutation
  generalize applyRevOuter s.elems.length s.elems.length 0 s = r at this
  obtain ⟨e, s1⟩ := r
  cases e <;> exact this

/-- C144: with checks switched on, the range algorithms do what C29 and its siblings say about them. -/
theorem C144_range_checked {α σ : Type} (rs : List (Rng α)) (body : σ → List (Arg α) → σ × Bool) (fuel : Nat) (init : σ) :
    Unchecked.zipAlgorithm .on rs body fuel init = Makeshift.zipAlgorithm rs body fuel init := zipAlgorithm_on rs body fuel init

example : Unchecked.zipAlgorithm .on [⟨.index, .dyn 2, [5, 6]⟩, ⟨.index, .dyn 3, [7, 8, 9]⟩] (fun n args => (n + args.length, true)) 4 0
    = .done 0 .failFast := by decide +kernel

/-! ## permutations -/

/-- C144: without checks, `apply_permutation` does the same as with checks if it is given a permutation: it ends, element `i` of the
result is the old element `indices[i]`, and the index array holds the identity afterwards. -/
theorem C144_permutation_valid {α : Type} (elems : List α) (idx : List Int) (h : IsPermutation idx elems.length) :
    ∃ elems' k, (∀ fuel, k ≤ fuel → Unchecked.applyPermutation .off fuel ⟨elems, idx⟩ =
        .done ⟨elems', (List.range elems.length).map Int.ofNat⟩) ∧
      elems'.length = elems.length ∧ ∀ i p : Nat, idx[i]? = some (p : Int) → elems'[i]? = elems[p]? := by
  obtain ⟨elems', he, hl, hs⟩ := C20_apply_permutation elems idx h
  obtain ⟨h1, -, -⟩ := permOuter_cases elems.length elems.length 0 ⟨elems, idx⟩ rfl
  unfold Makeshift.applyPermutation at he
  simp only at he
  rw [he] at h1
  obtain ⟨k, hk⟩ := h1 rfl .off
  exact ⟨elems', k, hk, hl, hs⟩

example : IsPermutation [1, 2, 0, 3] [10, 11, 12, 13].length := by unfold IsPermutation; decide

/-- C144: without checks, `apply_permutation` never returns if it is not given a permutation: there is no wrong result. -/
theorem C144_permutation_never_returns {α : Type} (elems : List α) (idx : List Int) (hl : idx.length = elems.length)
    (h : ¬ IsPermutation idx elems.length) (fuel : Nat) (s' : PermState α) :
    Unchecked.applyPermutation .off fuel ⟨elems, idx⟩ ≠ .done s' := by
  obtain ⟨-, -, h3⟩ := permOuter_cases elems.length elems.length 0 ⟨elems, idx⟩ rfl
  have := (C21_apply_permutation_rejects elems idx hl).1
  exact h3 (fun hd => h (this.mp hd)) fuel s'

example : ([1, 2, 1] : List Int).length = [10, 11, 12].length ∧ ¬ IsPermutation [1, 2, 1] [10, 11, 12].length := by
  unfold IsPermutation; decide

/-- C144: if all indices are in range but some occur twice, it runs forever. -/
theorem C144_permutation_duplicates {α : Type} (elems : List α) (idx : List Int) (hl : idx.length = elems.length)
    (hr : ∀ x ∈ idx, 0 ≤ x ∧ x < elems.length) (h : ¬ idx.Nodup) (fuel : Nat) :
    Unchecked.applyPermutation .off fuel ⟨elems, idx⟩ = .unfinished := by
  have hp : ¬ IsPermutation idx elems.length := fun hp => h (hp.nodup_iff.mpr (identity_nodup _))
  rcases permOuter_inRange elems.length fuel elems.length 0 (by omega) ⟨elems, idx⟩ ⟨rfl, hl, hr⟩ with h1 | ⟨s', h1⟩
  · exact h1
  · exact absurd h1 (C144_permutation_never_returns elems idx hl hp fuel s')

example : ([2, 0, 2, 1] : List Int).length = [10, 11, 12, 13].length ∧ (∀ x ∈ ([2, 0, 2, 1] : List Int), 0 ≤ x ∧ x < 4) ∧
    ¬ ([2, 0, 2, 1] : List Int).Nodup := by decide

/-- C144: if no index occurs twice but some are out of range, it accesses an element out of range (after a bounded number of steps). -/
theorem C144_permutation_out_of_range {α : Type} (elems : List α) (idx : List Int) (hl : idx.length = elems.length)
    (hn : idx.Nodup) (h : ∃ x ∈ idx, ¬ (0 ≤ x ∧ x < elems.length)) :
    ∃ k, ∀ fuel, k ≤ fuel → Unchecked.applyPermutation .off fuel ⟨elems, idx⟩ = .ub := by
  have hp : ¬ IsPermutation idx elems.length := by
    intro hp
    obtain ⟨x, hx, hnx⟩ := h
    exact hnx (mem_identity.mp (hp.mem_iff.mp hx))
  obtain ⟨k, hk⟩ := permOuter_nodup elems.length elems.length 0 (by omega) ⟨elems, idx⟩ hn rfl hl
  refine ⟨k, ?_⟩
  rcases hk with hk | ⟨s', hk⟩
  · exact hk
  · exact absurd (hk k (Nat.le_refl _)) (C144_permutation_never_returns elems idx hl hp k s')

example : ([2, -1, 0] : List Int).length = [10, 11, 12].length ∧ ([2, -1, 0] : List Int).Nodup ∧
    ∃ x ∈ ([2, -1, 0] : List Int), ¬ (0 ≤ x ∧ x < 3) := by decide

/-- C144: without checks, `apply_reverse_permutation` does the same as with checks if it is given a permutation. -/
theorem C144_reverse_valid {α : Type} (elems : List α) (idx : List Int) (h : IsPermutation idx elems.length) :
    ∃ elems' k, (∀ fuel, k ≤ fuel → Unchecked.applyReversePermutation .off fuel ⟨elems, idx⟩ =
        .done ⟨elems', (List.range elems.length).map Int.ofNat⟩) ∧
      elems'.length = elems.length ∧ ∀ i p : Nat, idx[i]? = some (p : Int) → elems'[p]? = elems[i]? := by
  obtain ⟨elems', he, hl, hs⟩ := C22_apply_reverse_permutation elems idx h
  obtain ⟨h1, -, -⟩ := revOuter_cases elems.length elems.length 0 ⟨elems, idx⟩ rfl
  unfold Makeshift.applyReversePermutation at he
  simp only at he
  rw [he] at h1
  obtain ⟨k, hk⟩ := h1 rfl .off
  exact ⟨elems', k, hk, hl, hs⟩

example : IsPermutation [3, 1, 0, 2] [10, 11, 12, 13].length := by unfold IsPermutation; decide

/-- C144: without checks, `apply_reverse_permutation` never returns if it is not given a permutation. -/
theorem C144_reverse_never_returns {α : Type} (elems : List α) (idx : List Int) (hl : idx.length = elems.length)
    (h : ¬ IsPermutation idx elems.length) (fuel : Nat) (s' : PermState α) :
    Unchecked.applyReversePermutation .off fuel ⟨elems, idx⟩ ≠ .done s' := by
  obtain ⟨-, -, h3⟩ := revOuter_cases elems.length elems.length 0 ⟨elems, idx⟩ rfl
  have := (C23_apply_reverse_permutation_rejects elems idx hl).1
  exact h3 (fun hd => h (this.mp hd)) fuel s'

example : ([1, 2, 1] : List Int).length = [10, 11, 12].length ∧ ¬ IsPermutation [1, 2, 1] [10, 11, 12].length := by
  unfold IsPermutation; decide

/-- C144: if all indices are in range but some occur twice, `apply_reverse_permutation` runs forever. -/
theorem C144_reverse_duplicates {α : Type} (elems : List α) (idx : List Int) (hl : idx.length = elems.length)
    (hr : ∀ x ∈ idx, 0 ≤ x ∧ x < elems.length) (h : ¬ idx.Nodup) (fuel : Nat) :
    Unchecked.applyReversePermutation .off fuel ⟨elems, idx⟩ = .unfinished := by
  have hp : ¬ IsPermutation idx elems.length := fun hp => h (hp.nodup_iff.mpr (identity_nodup _))
  rcases revOuter_inRange elems.length fuel elems.length 0 (by omega) ⟨elems, idx⟩ ⟨rfl, hl, hr⟩ with h1 | ⟨s', h1⟩
  · exact h1
  · exact absurd h1 (C144_reverse_never_returns elems idx hl hp fuel s')

example : ([2, 0, 2, 1] : List Int).length = [10, 11, 12, 13].length ∧ (∀ x ∈ ([2, 0, 2, 1] : List Int), 0 ≤ x ∧ x < 4) ∧
    ¬ ([2, 0, 2, 1] : List Int).Nodup := by decide

/-- C144: if no index occurs twice but some are out of range, `apply_reverse_permutation` accesses an element out of range. -/
theorem C144_reverse_out_of_range {α : Type} (elems : List α) (idx : List Int) (hl : idx.length = elems.length)
    (hn : idx.Nodup) (h : ∃ x ∈ idx, ¬ (0 ≤ x ∧ x < elems.length)) :
    ∃ k, ∀ fuel, k ≤ fuel → Unchecked.applyReversePermutation .off fuel ⟨elems, idx⟩ = .ub := by
  have hp : ¬ IsPermutation idx elems.length := by
    intro hp
    obtain ⟨x, hx, hnx⟩ := h
    exact hnx (mem_identity.mp (hp.mem_iff.mp hx))
  obtain ⟨k, hk⟩ := revOuter_nodup elems.length elems.length 0 (by omega) ⟨elems, idx⟩ hn rfl hl
  refine ⟨k, ?_⟩
  rcases hk with hk | ⟨s', hk⟩
  · exact hk
  · exact absurd (hk k (Nat.le_refl _)) (C144_reverse_never_returns elems idx hl hp k s')

example : ([2, -1, 0] : List Int).length = [10, 11, 12].length ∧ ([2, -1, 0] : List Int).Nodup ∧
    ∃ x ∈ ([2, -1, 0] : List Int), ¬ (0 ≤ x ∧ x < 3) := by decide

/-! ## range algorithms -/

/-- C144: if all ranges have the same length, every algorithm does the same with and without checks, whatever its functor does. -/
theorem C144_range_valid {α σ : Type} (rs : List (Rng α)) (hv : ValidArgs rs) (n : Nat) (hn : AllLength rs n)
    (body : σ → List (Arg α) → σ × Bool) (init : σ) (fuel : Nat) (hf : n < fuel) :
    Unchecked.zipAlgorithm .off rs body fuel init = Unchecked.zipAlgorithm .on rs body fuel init ∧
    ∃ s, Unchecked.zipAlgorithm .off rs body fuel init = .done s (.ok ()) := by
  have hst : StaticSizesAgree rs := by
    intro r hr r' hr' a b ha hb
    have h1 := validRange_known (hv.1 r hr) (n := (a : Int)) (by rw [ha]; simp only [known]; rw [if_neg (by omega)])
    have h2 := validRange_known (hv.1 r' hr') (n := (b : Int)) (by rw [hb]; simp only [known]; rw [if_neg (by omega)])
    have h3 := hn r hr h1.2
    have h4 := hn r' hr' h2.2
    omega
  obtain ⟨L, -, ⟨r, hr, hR, hl⟩, -, h⟩ := zipAlgorithm_off (σ := σ) rs hv hst
  have hLn : L = n := by rw [← hl]; exact hn r hr hR
  subst hLn
  obtain ⟨ts, hz, he⟩ := (h body init fuel).1 (fun r hr hR => by have := hn r hr hR; omega) hf
  obtain ⟨ts', hz', he'⟩ := zipAlgorithm_equal rs hv body init L hn fuel hf
  have hts : ts = ts' := by
    apply List.ext_getElem?
    intro i
    by_cases hi : i < L
    · have e1 := List.getElem?_eq_getElem (l := ts) (i := i) (by rw [hz.1]; exact hi)
      have e2 := List.getElem?_eq_getElem (l := ts') (i := i) (by rw [hz'.1]; exact hi)
      rw [e1, e2]
      congr 1
      exact tuple_unique (hz.2 i _ e1) (hz'.2 i _ e2)
    · rw [List.getElem?_eq_none (by rw [hz.1]; omega), List.getElem?_eq_none (by rw [hz'.1]; omega)]
  refine ⟨?_, _, he⟩
  rw [zipAlgorithm_on, he, he', hts]

example : ValidArgs [⟨.index, .dyn 2, [5, 6]⟩, ⟨.iteratorPair, .static (-1), [7, 8]⟩, (⟨.rangeIndex, .static (-1), []⟩ : Rng Nat)] ∧
    AllLength [⟨.index, .dyn 2, [5, 6]⟩, ⟨.iteratorPair, .static (-1), [7, 8]⟩, (⟨.rangeIndex, .static (-1), []⟩ : Rng Nat)] 2 := by
  refine ⟨⟨?_, ?_, Or.inl ?_⟩, ?_⟩ <;> simp [ValidRange, IsReal, AllLength]

/-- C144: `range_for` without checks.  One length `L` decides (`Decides`), and it is the length of one of the ranges.  If every other range
is at least as long, the functor is called for the first `L` positions only, and nobody hears about the elements left over.  If a range
is shorter, the functor is called for the positions which exist in all ranges; then the program reads past the end of a range. -/
theorem C144_range_for {α : Type} (rs : List (Rng α)) (hv : ValidArgs rs) (hst : StaticSizesAgree rs) :
    ∃ L : Nat, Decides rs L ∧ (∃ r ∈ rs, IsReal r ∧ r.elems.length = L) ∧ ∀ fuel,
      (AtLeast rs L → L < fuel → ∃ calls, Zipped rs L calls ∧ Unchecked.rangeFor .off rs fuel = .done calls (.ok ())) ∧
      (∀ m, (∃ r ∈ rs, IsReal r ∧ r.elems.length = m) → AtLeast rs m → m < L → m < fuel →
        ∃ calls, Zipped rs m calls ∧ Unchecked.rangeFor .off rs fuel = .done calls .ub) := by
  obtain ⟨L, hd, hr, -, h⟩ := zipAlgorithm_off (σ := List (List (Arg α))) rs hv hst
  refine ⟨L, hd, hr, fun fuel => ⟨fun hge hf => ?_, fun m hm hge hlt hf => ?_⟩⟩
  · obtain ⟨ts, hz, he⟩ := (h (fun calls args => (calls ++ [args], true)) [] fuel).1 hge hf
    refine ⟨ts, hz, ?_⟩
    unfold Unchecked.rangeFor
    rw [he, runBody_log]
    simp
  · obtain ⟨ts, hz, he⟩ := (h (fun calls args => (calls ++ [args], true)) [] fuel).2 m hm hge hlt hf
    refine ⟨ts, hz, ?_⟩
    unfold Unchecked.rangeFor
    rw [he, runBody_log]
    simp

example : ValidArgs [⟨.iteratorPair, .static (-1), [5, 6, 7]⟩, (⟨.index, .static 2, [8, 9]⟩ : Rng Nat), ⟨.index, .dyn 3, [1, 2, 3]⟩] ∧
    StaticSizesAgree [⟨.iteratorPair, .static (-1), [5, 6, 7]⟩, (⟨.index, .static 2, [8, 9]⟩ : Rng Nat), ⟨.index, .dyn 3, [1, 2, 3]⟩] ∧
    AtLeast [⟨.iteratorPair, .static (-1), [5, 6, 7]⟩, (⟨.index, .static 2, [8, 9]⟩ : Rng Nat), ⟨.index, .dyn 3, [1, 2, 3]⟩] 2 := by
  refine ⟨⟨?_, ?_, Or.inl ?_⟩, ?_, ?_⟩
  · simp [ValidRange]
  · simp [IsReal]
  · simp
  · intro r hr r' hr' n m hn hm
    simp only [List.mem_cons, List.not_mem_nil, or_false] at hr hr'
    rcases hr with rfl | rfl | rfl <;> rcases hr' with rfl | rfl | rfl <;> simp at hn hm <;> omega
  · simp [AtLeast, IsReal]

/-- Two ranges with run-time sizes: what an algorithm does. -/
private theorem two_sized {α σ : Type} (r1 r2 : Rng α) (h1 : ValidRange r1) (h2 : ValidRange r2) (d1 : r1.size = .dyn r1.elems.length)
    (d2 : r2.size = .dyn r2.elems.length) : IsReal r2 ∧ ∀ (body : σ → List (Arg α) → σ × Bool) (init : σ) (fuel : Nat),
      (AtLeast [r1, r2] r1.elems.length → r1.elems.length < fuel → ∃ ts, Zipped [r1, r2] r1.elems.length ts ∧
        Unchecked.zipAlgorithm .off [r1, r2] body fuel init = .done (runBody body init ts).1 (.ok ())) ∧
      (∀ m, (∃ r ∈ [r1, r2], IsReal r ∧ r.elems.length = m) → AtLeast [r1, r2] m → m < r1.elems.length → m < fuel →
        ∃ ts, Zipped [r1, r2] m ts ∧ Unchecked.zipAlgorithm .off [r1, r2] body fuel init =
          .done (runBody body init ts).1 (if (runBody body init ts).2 then .ub else .ok ())) := by
  have real : ∀ r : Rng α, r.size = .dyn r.elems.length → ValidRange r → IsReal r := by
    intro r hd hv hc
    unfold ValidRange at hv
    rw [hc, hd] at hv
    simp at hv
  have hv : ValidArgs [r1, r2] := by
    refine ⟨?_, ⟨r1, by simp, real r1 d1 h1⟩, Or.inl ⟨r1, by simp, by rw [d1]; simp⟩⟩
    intro r hr
    simp only [List.mem_cons, List.not_mem_nil, or_false] at hr
    rcases hr with rfl | rfl <;> assumption
  have hst : StaticSizesAgree [r1, r2] := by
    intro r hr r' hr' n m hn hm
    simp only [List.mem_cons, List.not_mem_nil, or_false] at hr
    rcases hr with rfl | rfl
    · rw [d1] at hn; cases hn
    · rw [d2] at hn; cases hn
  obtain ⟨L, -, -, hdyn, h⟩ := zipAlgorithm_off (σ := σ) [r1, r2] hv hst
  have hL : r1.elems.length = L := by
    have := hdyn r1.elems.length (by
      simp only [List.map_cons, List.map_nil, d1, d2]
      simp only [Unchecked.mergeSizes, List.nil_append, MergeResult.bind, Unchecked.mergeSizes0, unknownSize, Checks.merge]
      rw [if_neg (by omega)])
    omega
  subst hL
  exact ⟨real r2 d2 h2, h⟩

/-- C144: of two ranges which report run-time sizes, the first one decides: a longer second range is cut off silently, a shorter one is
read past its end. -/
theorem C144_first_decides {α : Type} (r1 r2 : Rng α) (h1 : ValidRange r1) (h2 : ValidRange r2) (d1 : r1.size = .dyn r1.elems.length)
    (d2 : r2.size = .dyn r2.elems.length) (fuel : Nat) (hf : r1.elems.length < fuel) :
    (r1.elems.length ≤ r2.elems.length → ∃ calls, Zipped [r1, r2] r1.elems.length calls ∧
      Unchecked.rangeFor .off [r1, r2] fuel = .done calls (.ok ())) ∧
    (r2.elems.length < r1.elems.length → ∃ calls, Zipped [r1, r2] r2.elems.length calls ∧
      Unchecked.rangeFor .off [r1, r2] fuel = .done calls .ub) := by
  obtain ⟨hR2, h⟩ := two_sized (σ := List (List (Arg α))) r1 r2 h1 h2 d1 d2
  refine ⟨fun hle => ?_, fun hlt => ?_⟩
  · obtain ⟨ts, hz, he⟩ := (h (fun calls args => (calls ++ [args], true)) [] fuel).1 (by
      intro r hr _
      simp only [List.mem_cons, List.not_mem_nil, or_false] at hr
      rcases hr with rfl | rfl <;> omega) hf
    refine ⟨ts, hz, ?_⟩
    unfold Unchecked.rangeFor
    rw [he, runBody_log]
    simp
  · obtain ⟨ts, hz, he⟩ := (h (fun calls args => (calls ++ [args], true)) [] fuel).2 r2.elems.length
      ⟨r2, by simp, hR2, rfl⟩ (by
      intro r hr _
      simp only [List.mem_cons, List.not_mem_nil, or_false] at hr
      rcases hr with rfl | rfl <;> omega) hlt (by omega)
    refine ⟨ts, hz, ?_⟩
    unfold Unchecked.rangeFor
    rw [he, runBody_log]
    simp

example : ValidRange (⟨.index, .dyn 2, [5, 6]⟩ : Rng Nat) ∧ ValidRange (⟨.iterator, .dyn 3, [7, 8, 9]⟩ : Rng Nat) := by
  simp [ValidRange]

/-- C144: results can be wrong silently: `range_all_of(pred, a, b)` of two ranges with run-time sizes returns `true` if the predicate
holds at the positions of the first range, whatever follows in the second (with checks, the call fails if anything follows). -/
theorem C144_all_of_wrong {α : Type} (r1 r2 : Rng α) (h1 : ValidRange r1) (h2 : ValidRange r2) (d1 : r1.size = .dyn r1.elems.length)
    (d2 : r2.size = .dyn r2.elems.length) (hle : r1.elems.length ≤ r2.elems.length) (pred : List (Arg α) → Bool)
    (hp : ∀ i args, i < r1.elems.length → List.Forall₂ (ArgAt i) [r1, r2] args → pred args = true)
    (fuel : Nat) (hf : r1.elems.length < fuel) : Unchecked.rangeAllOf .off pred [r1, r2] fuel = .done true (.ok ()) := by
  obtain ⟨-, h⟩ := two_sized (σ := Bool) r1 r2 h1 h2 d1 d2
  obtain ⟨ts, hz, he⟩ := (h (fun s args => if !pred args then (false, false) else (s, true)) true fuel).1 (by
    intro r hr _
    simp only [List.mem_cons, List.not_mem_nil, or_false] at hr
    rcases hr with rfl | rfl <;> omega) hf
  have hall : ∀ t ∈ ts, pred t = true := by
    intro t ht
    obtain ⟨i, hi⟩ := List.getElem?_of_mem ht
    have hlt : i < ts.length := by
      by_contra hc; rw [List.getElem?_eq_none (by omega)] at hi; simp at hi
    exact hp i t (by rw [← hz.1]; exact hlt) (hz.2 i t hi)
  have hrun : ∀ ts : List (List (Arg α)), (∀ t ∈ ts, pred t = true) →
      runBody (fun s args => if !pred args then (false, false) else (s, true)) true ts = (true, true) := by
    intro ts
    induction ts with
    | nil => intro _; rfl
    | cons t ts ih =>
      intro ht
      have := ih (fun t' h' => ht t' (by simp [h']))
      simp only [runBody, ht t (by simp), Bool.not_true, Bool.false_eq_true, if_false, if_true]
      exact this
  unfold Unchecked.rangeAllOf
  rw [he, hrun ts hall]

example : Unchecked.rangeAllOf .off (fun args => decide (∀ a ∈ args, a ≠ Arg.elem 0))
    [⟨.index, .dyn 2, [5, 6]⟩, ⟨.index, .dyn 4, [7, 8, 0, 0]⟩] 9 = .done true (.ok ()) ∧
  Unchecked.rangeAllOf .on (fun args => decide (∀ a ∈ args, a ≠ Arg.elem 0))
    [⟨.index, .dyn 2, [5, 6]⟩, ⟨.index, .dyn 4, [7, 8, 0, 0]⟩] 9 = .done true .failFast := by decide +kernel

/-- C144: so are sums and counts: `range_transform_reduce` and `range_count_if` of two ranges with run-time sizes take the positions of the
first range only, if the second is longer, and are undefined if it is shorter. -/
theorem C144_reduce_cut_off {α σ τ : Type} (r1 r2 : Rng α) (h1 : ValidRange r1) (h2 : ValidRange r2) (d1 : r1.size = .dyn r1.elems.length)
    (d2 : r2.size = .dyn r2.elems.length) (init : σ) (reduce : σ → τ → σ) (transform : List (Arg α) → τ) (pred : List (Arg α) → Bool)
    (fuel : Nat) (hf : r1.elems.length < fuel) :
    (r1.elems.length ≤ r2.elems.length → ∃ ts, Zipped [r1, r2] r1.elems.length ts ∧
      Unchecked.rangeTransformReduce .off init reduce transform [r1, r2] fuel = .done ((ts.map transform).foldl reduce init) (.ok ()) ∧
      Unchecked.rangeCountIf .off pred [r1, r2] fuel = .done (ts.countP pred) (.ok ())) ∧
    (r2.elems.length < r1.elems.length →
      (∃ s, Unchecked.rangeTransformReduce .off init reduce transform [r1, r2] fuel = .done s .ub) ∧
      ∃ n, Unchecked.rangeCountIf .off pred [r1, r2] fuel = .done n .ub) := by
  have hred : ∀ (ts : List (List (Arg α))) (s : σ), runBody (fun acc args => (reduce acc (transform args), true)) s ts =
      ((ts.map transform).foldl reduce s, true) := by
    intro ts
    induction ts with
    | nil => intro s; rfl
    | cons t ts ih => intro s; simp only [runBody, if_true, ih, List.map_cons, List.foldl_cons]
  have hcnt : ∀ (ts : List (List (Arg α))) (n : Nat), runBody (fun s args => (if pred args then s + 1 else s, true)) n ts =
      (n + ts.countP pred, true) := by
    intro ts
    induction ts with
    | nil => intro n; rfl
    | cons t ts ih =>
      intro n
      simp only [runBody, if_true, ih, List.countP_cons]
      split <;> simp <;> omega
  obtain ⟨hR2, hr⟩ := two_sized (σ := σ) r1 r2 h1 h2 d1 d2
  obtain ⟨-, hc⟩ := two_sized (σ := Nat) r1 r2 h1 h2 d1 d2
  have ge : ∀ m, m ≤ r1.elems.length → m ≤ r2.elems.length → AtLeast [r1, r2] m := by
    intro m hm1 hm2 r hr _
    simp only [List.mem_cons, List.not_mem_nil, or_false] at hr
    rcases hr with rfl | rfl <;> omega
  refine ⟨fun hle => ?_, fun hlt => ⟨?_, ?_⟩⟩
  · obtain ⟨ts, hz, he⟩ := (hr (fun acc args => (reduce acc (transform args), true)) init fuel).1 (ge _ (Nat.le_refl _) hle) hf
    obtain ⟨ts', hz', he'⟩ := (hc (fun s args => (if pred args then s + 1 else s, true)) 0 fuel).1 (ge _ (Nat.le_refl _) hle) hf
    have hts : ts' = ts := by
      apply List.ext_getElem?
      intro i
      by_cases hi : i < r1.elems.length
      · have e1 := List.getElem?_eq_getElem (l := ts') (i := i) (by rw [hz'.1]; exact hi)
        have e2 := List.getElem?_eq_getElem (l := ts) (i := i) (by rw [hz.1]; exact hi)
        rw [e1, e2]
        congr 1
        exact tuple_unique (hz'.2 i _ e1) (hz.2 i _ e2)
      · rw [List.getElem?_eq_none (by rw [hz'.1]; omega), List.getElem?_eq_none (by rw [hz.1]; omega)]
    refine ⟨ts, hz, ?_, ?_⟩
    · unfold Unchecked.rangeTransformReduce
      rw [he, hred]
    · unfold Unchecked.rangeCountIf
      rw [he', hcnt, hts]
      simp
  · obtain ⟨ts, -, he⟩ := (hr (fun acc args => (reduce acc (transform args), true)) init fuel).2 r2.elems.length
      ⟨r2, by simp, hR2, rfl⟩ (ge _ (by omega) (Nat.le_refl _)) hlt (by omega)
    unfold Unchecked.rangeTransformReduce
    rw [he, hred]
    exact ⟨_, rfl⟩
  · obtain ⟨ts, -, he⟩ := (hc (fun s args => (if pred args then s + 1 else s, true)) 0 fuel).2 r2.elems.length
      ⟨r2, by simp, hR2, rfl⟩ (ge _ (by omega) (Nat.le_refl _)) hlt (by omega)
    unfold Unchecked.rangeCountIf
    rw [he, hcnt]
    exact ⟨_, rfl⟩

example : ValidRange (⟨.iterator, .dyn 3, [5, 6, 7]⟩ : Rng Nat) ∧ ValidRange (⟨.index, .dyn 2, [8, 9]⟩ : Rng Nat) := by
  simp [ValidRange]

end Makeshift.Props
