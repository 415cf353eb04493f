import Verif.Spec.ConstEval
import Verif.Lemmas.Zip
import Verif.Lemmas.PermutationOver

/-! # Lemmas about evaluation in constant expressions -/

namespace Makeshift.ConstEval

open Spec

variable {α σ M V B : Type}

/-- The state after the algorithm ended, if it ended regularly. -/
def ofResult : Result (M × Outcome B) → CRes (M × B)
  | .illFormed => .illFormed
  | .unfinished => .unfinished
  | .done (m, .ok b) (.ok ()) => .value (m, b)
  | _ => .notConstant

theorem ofResult_eq (x : Result (M × Outcome B)) : ofResult x = sameAsRunTime (RangeObjects.finish x) := by
  rcases x with _ | _ | ⟨⟨m, o⟩, o'⟩
  · rfl
  · rfl
  · cases o' <;> cases o <;> rfl

/-- An exceptional outcome ends the loop. -/
def Leaves (body : M × Outcome B → List (Arg Nat) → (M × Outcome B) × Bool) : Prop :=
  ∀ m b args, constant (body (m, .ok b) args).1.2 = none → (body (m, .ok b) args).2 = false

theorem constant_some {x : Outcome α} {a : α} (h : constant x = some a) : x = .ok a := by
  cases x <;> simp_all [constant]

theorem constant_none {x : Outcome α} (h : constant x = none) : ∀ a, x ≠ .ok a := by
  cases x <;> simp_all [constant]

theorem ofResult_exc {m : M} {o : Outcome B} (o' : Outcome Unit) (h : constant o = none) : ofResult (.done (m, o) o') = .notConstant := by
  cases o <;> simp_all [constant, ofResult]

theorem zipLoop_eq (rs : List (Rng Nat)) (size : Size) (hs : size ≠ .static (-1))
    (body : M × Outcome B → List (Arg Nat) → (M × Outcome B) × Bool) (hb : Leaves body) (fuel : Nat) (it : ZipIt) (m : M) (b : B) :
    zipLoop rs size (round body) fuel it (m, b) = ofResult (Makeshift.zipLoop rs size body fuel it (m, .ok b)) := by
  induction fuel generalizing it m b with
  | zero => rfl
  | succ fuel ih =>
    have he : zipIsEnd rs size it = constant (Makeshift.zipIsEnd rs size it) := by
      simp [zipIsEnd, unknownSize, hs, callOf]
    simp only [zipLoop, Makeshift.zipLoop, he]
    cases h1 : Makeshift.zipIsEnd rs size it with
    | throw e => rfl
    | failFast => rfl
    | ub => rfl
    | ok e =>
      cases e with
      | true => rfl
      | false =>
        simp only [constant]
        cases h2 : zipDeref rs it with
        | throw e => rfl
        | failFast => rfl
        | ub => rfl
        | ok args =>
          simp only [round]
          rcases h3 : body (m, .ok b) args with ⟨⟨m', o⟩, go⟩
          cases h4 : constant o with
          | none =>
            have := hb m b args (by rw [h3]; exact h4)
            rw [h3] at this
            simp only at this
            subst this
            simp only [Option.map_none, Bool.false_eq_true, if_false, ofResult_exc _ h4]
          | some b' =>
            have := constant_some h4; subst this
            simp only [Option.map_some]
            cases go with
            | false => rfl
            | true =>
              simp only [if_true]
              cases h5 : zipInc rs it with
              | throw e => rfl
              | failFast => rfl
              | ub => rfl
              | ok it' => exact ih it' m' b'

theorem merged_known {rs : List (Rng α)} (hsz : ∀ r ∈ rs, IsSize r.size) (hs : ∃ r ∈ rs, r.size ≠ .static (-1)) (z : Size)
    (hz : mergeSizes (rs.map Rng.size) = .ok z) : z ≠ .static (-1) := by
  obtain ⟨r, hr, hk⟩ := hs
  rcases mergeSizes_spec (rs.map Rng.size) (by intro s hs; obtain ⟨r, hr, rfl⟩ := List.mem_map.mp hs; exact hsz r hr) with
    ⟨z', hz', hsum⟩ | ⟨hno, -⟩
  · rw [hz] at hz'
    injection hz' with hz'
    subst hz'
    cases hkn : known r.size with
    | none => exact absurd (known_none hkn) hk
    | some n => exact (value_of_known (hsum.all r.size (List.mem_map_of_mem hr) n hkn)).2
  · exact absurd hz (hno z)

theorem zipAlgorithm_eq (rs : List (Rng Nat)) (hsz : ∀ r ∈ rs, IsSize r.size) (hs : ∃ r ∈ rs, r.size ≠ .static (-1))
    (body : M × Outcome B → List (Arg Nat) → (M × Outcome B) × Bool) (hb : Leaves body) (fuel : Nat) (m : M) (b : B) :
    zipAlgorithm rs (round body) fuel (m, b) =
      sameAsRunTime (RangeObjects.finish (Makeshift.zipAlgorithm rs body fuel (m, .ok b))) := by
  rw [← ofResult_eq]
  simp only [zipAlgorithm, Makeshift.zipAlgorithm]
  split
  · rfl
  · cases h : mergeSizes (rs.map Rng.size) with
    | staticMismatch => rfl
    | failFast => rfl
    | ok z =>
      simp only
      split
      · exact zipLoop_eq rs z (merged_known hsz hs z h) body hb fuel _ m b
      · rfl

theorem zipAlgorithm_unsized (rs : List (Rng α)) (hv : ValidArgs rs) (hu : ∀ r ∈ rs, r.size = .static (-1))
    (body : σ → List (Arg α) → Option (σ × Bool)) (fuel : Nat) (s : σ) : zipAlgorithm rs body (fuel + 1) s = .notConstant := by
  have hall := not_all_index hv.2.1
  rcases mergeSizes_spec (rs.map Rng.size) (sizes_ok hv.1) with ⟨z, hz, hsum⟩ | ⟨-, hno⟩
  · have hzu : z = .static unknownSize := by
      cases hk : known z with
      | none => exact known_none hk
      | some n =>
        obtain ⟨t, ht, hkt⟩ := hsum.some n hk
        obtain ⟨r, hr, rfl⟩ := List.mem_map.mp ht
        rw [hu r hr] at hkt
        simp [known] at hkt
    have hwf := sentinel_ok hv hz hsum
    subst hzu
    simp only [zipAlgorithm, hall, hz, hwf, zipLoop, zipIsEnd, callOf]
    simp
  · exact absurd (by
      intro s hs t ht n m hn
      obtain ⟨r, hr, rfl⟩ := List.mem_map.mp hs
      rw [hu r hr] at hn
      simp [known] at hn) hno

theorem leaves_for (func : RangeObjects.Fn M Unit) : Leaves (RangeObjects.forBody func) := by
  intro m b args h
  simp only [RangeObjects.forBody] at h ⊢
  rcases hf : func args m with ⟨o, m'⟩
  cases o <;> simp_all [RangeObjects.leave, constant]

theorem leaves_reduce (selfMove : V → V) (reduce : V → B → M → Outcome (RangeObjects.Returned V) × M)
    (transform : RangeObjects.Fn M B) : Leaves (RangeObjects.reduceBody selfMove reduce transform) := by
  intro m b args h
  simp only [RangeObjects.reduceBody] at h ⊢
  rcases hf : transform args m with ⟨o, m'⟩
  cases o with
  | ok x =>
    rw [hf] at h
    simp only at h ⊢
    rcases hg : reduce b x m' with ⟨o, m''⟩
    cases o <;> simp_all [RangeObjects.leave, constant]
  | _ => simp_all [RangeObjects.leave, constant]

theorem leaves_count (predicate : RangeObjects.Fn M Bool) : Leaves (RangeObjects.countBody predicate) := by
  intro m b args h
  simp only [RangeObjects.countBody] at h ⊢
  rcases hf : predicate args m with ⟨o, m'⟩
  cases o <;> simp_all [RangeObjects.leave, constant]

theorem leaves_search (stop hit : Bool) (predicate : RangeObjects.Fn M Bool) :
    Leaves (RangeObjects.searchBody stop hit predicate) := by
  intro m b args h
  simp only [RangeObjects.searchBody] at h ⊢
  rcases hf : predicate args m with ⟨o, m'⟩
  cases o with
  | ok x => rw [hf] at h; simp only at h ⊢; split at h <;> simp_all [constant]
  | _ => simp_all [RangeObjects.leave, constant]

/-! ### Permutations -/

theorem swapElems_true : swapElems (α := α) true = swapAt := rfl

theorem swapElems_false : swapElems (α := α) false = fun _ _ _ => none := rfl

theorem shuffleOverLoop_true (draw : Nat → Nat) (i : Nat) (l : List α) :
    shuffleOverLoop (swapElems true) draw i l = shuffleLoop draw i l := by
  induction i generalizing l with
  | zero => rfl
  | succ i ih =>
    simp only [shuffleOverLoop, shuffleLoop, swapElems_true]
    split
    · cases swapAt l (i + 1) (draw (i + 1)) with
      | none => rfl
      | some l' => exact ih l'
    · exact ih l

theorem shuffleOverLoop_false (draw : Nat → Nat) (i : Nat) (l l' : List α) :
    shuffleOverLoop (swapElems false) draw i l = some l' ↔ (∀ k, 1 ≤ k → k ≤ i → draw k = k) ∧ l' = l := by
  induction i with
  | zero =>
    simp only [shuffleOverLoop, Option.some.injEq]
    exact ⟨fun h => ⟨fun k h1 h2 => by omega, h.symm⟩, fun h => h.2.symm⟩
  | succ i ih =>
    simp only [shuffleOverLoop, swapElems_false]
    by_cases hd : i + 1 = draw (i + 1)
    · rw [if_neg (by simpa using hd)]
      rw [swapElems_false] at ih
      rw [ih]
      constructor
      · rintro ⟨h, rfl⟩
        refine ⟨fun k h1 h2 => ?_, rfl⟩
        by_cases hk : k = i + 1
        · rw [hk]; exact hd.symm
        · exact h k h1 (by omega)
      · rintro ⟨h, rfl⟩
        exact ⟨fun k h1 h2 => h k h1 (by omega), rfl⟩
    · rw [if_pos hd]
      simp only [reduceCtorEq, false_iff, not_and]
      intro h
      exact absurd (h (i + 1) (by omega) (by omega)).symm hd

/-- The same end with the same state. -/
def toMem (x : PermEnd × PermState α) : PermEnd × PermMem (List α) := (x.1, ⟨x.2.elems, x.2.idx⟩)

theorem permOverInner_true (length i : Nat) (n : Nat) : ∀ (current : Nat) (s : PermState α), nonFixedFrom 0 s.idx ≤ n →
    permOverInner (swapElems true) length i current ⟨s.elems, s.idx⟩ = toMem (applyPermInner length i current s) := by
  induction n using Nat.strongRecOn with
  | ind n ih =>
    intro current s hn
    rw [permOverInner_eq, applyPermInner_eq]
    simp only [swapElems_true]
    cases h : s.idx[current]? with
    | none => rfl
    | some next =>
      simp only
      split
      · rfl
      · split
        · rfl
        · rename_i h1 h2
          cases hsw : swapAt s.elems current next.toNat with
          | none => rfl
          | some e =>
            have hd : nonFixedFrom 0 (s.idx.set current (current : Int)) < nonFixedFrom 0 s.idx := by
              have := nonFixedFrom_set s.idx 0 current next current h
              have hne : next ≠ (current : Int) := fun hc => h2 (Or.inr (Or.inr hc))
              simp [hne] at this
              omega
            exact ih (nonFixedFrom 0 (s.idx.set current (current : Int))) (by omega) next.toNat ⟨e, s.idx.set current current⟩ (by simp)

theorem permOverOuter_true (length k : Nat) : ∀ (i : Nat) (s : PermState α),
    permOverOuter (swapElems true) length k i ⟨s.elems, s.idx⟩ = toMem (applyPermOuter length k i s) := by
  induction k with
  | zero => intro i s; rfl
  | succ k ih =>
    intro i s
    simp only [permOverOuter, applyPermOuter, permOverInner_true length i _ i s (Nat.le_refl _)]
    rcases h : applyPermInner length i i s with ⟨e, s'⟩
    cases e with
    | done => exact ih (i + 1) s'
    | failFast => rfl
    | ub => rfl

theorem revOverInner_true (length i : Nat) (n : Nat) : ∀ (s : PermState α), nonFixedFrom 0 s.idx ≤ n →
    revOverInner (swapElems true) length i ⟨s.elems, s.idx⟩ = toMem (applyRevInner length i s) := by
  induction n using Nat.strongRecOn with
  | ind n ih =>
    intro s hn
    rw [revOverInner_eq, applyRevInner_eq]
    simp only [swapElems_true]
    cases h : s.idx[i]? with
    | none => rfl
    | some next =>
      simp only
      split
      · rfl
      · split
        · rfl
        · rename_i hi hr
          cases h' : s.idx[next.toNat]? with
          | none => rfl
          | some nn =>
            simp only
            split
            · rfl
            · rename_i hnn
              cases hsw : swapAt s.elems i next.toNat with
              | none => rfl
              | some e =>
                have hd : nonFixedFrom 0 ((s.idx.set i nn).set next.toNat next) < nonFixedFrom 0 s.idx := by
                  have hpos : ((next.toNat : Nat) : Int) = next := by omega
                  have h1 := nonFixedFrom_set s.idx 0 i next nn h
                  have hne : i ≠ next.toNat := by omega
                  have h2 := nonFixedFrom_set (s.idx.set i nn) 0 next.toNat nn next (by rw [List.getElem?_set_ne hne]; exact h')
                  simp [hpos, hi] at h1 h2 ⊢
                  have : nn ≠ next := fun hc => hnn hc.symm
                  simp [this] at h2
                  split at h1 <;> omega
                exact ih (nonFixedFrom 0 ((s.idx.set i nn).set next.toNat next)) (by omega)
                  ⟨e, (s.idx.set i nn).set next.toNat next⟩ (by simp)

theorem revOverOuter_true (length k : Nat) : ∀ (i : Nat) (s : PermState α),
    revOverOuter (swapElems true) length k i ⟨s.elems, s.idx⟩ = toMem (applyRevOuter length k i s) := by
  induction k with
  | zero => intro i s; rfl
  | succ k ih =>
    intro i s
    simp only [revOverOuter, applyRevOuter, revOverInner_true length i _ s (Nat.le_refl _)]
    rcases h : applyRevInner length i s with ⟨e, s'⟩
    cases e with
    | done => exact ih (i + 1) s'
    | failFast => rfl
    | ub => rfl

theorem permResult_true (x : PermEnd × PermState α) (s' : PermState α) : permResult (toMem x) = some s' ↔ x = (.done, s') := by
  rcases x with ⟨e, s⟩
  cases e <;> simp [toMem, permResult]

theorem set_self {l : List Int} {i : Nat} {x : Int} (h : l[i]? = some x) : l.set i x = l := by
  apply List.ext_getElem?
  intro j
  rw [List.getElem?_set]
  split
  · rename_i hj; subst hj
    rw [h]
    have : i < l.length := by
      by_contra hc
      rw [List.getElem?_eq_none (by omega)] at h
      cases h
    simp [this]
  · rfl

theorem permOverInner_false (length i : Nat) (s : PermMem (List α)) (s' : PermMem (List α)) :
    permOverInner (swapElems false) length i i s = (.done, s') ↔ s.idx[i]? = some (i : Int) ∧ s' = s := by
  rw [permOverInner_eq]
  simp only [swapElems_false]
  cases h : s.idx[i]? with
  | none => simp
  | some next =>
    simp only [Option.some.injEq]
    split
    · rename_i hn
      subst hn
      rw [set_self h]
      simp only [Prod.mk.injEq, true_and]
      exact eq_comm
    · rename_i hn
      split <;> simp [hn]

theorem permOverOuter_false (length k : Nat) : ∀ (i : Nat) (s s' : PermMem (List α)),
    permOverOuter (swapElems false) length k i s = (.done, s') ↔ (∀ j < k, s.idx[i + j]? = some ((i + j : Nat) : Int)) ∧ s' = s := by
  induction k with
  | zero => intro i s s'; simp [permOverOuter, eq_comm]
  | succ k ih =>
    intro i s s'
    have hin := permOverInner_false length i s
    simp only [permOverOuter]
    have hsplit : (∀ j < k + 1, s.idx[i + j]? = some ((i + j : Nat) : Int)) ↔
        s.idx[i]? = some (i : Int) ∧ ∀ j < k, s.idx[i + 1 + j]? = some ((i + 1 + j : Nat) : Int) := by
      constructor
      · intro h
        refine ⟨by simpa using h 0 (by omega), fun j hj => ?_⟩
        have := h (j + 1) (by omega)
        rwa [show i + (j + 1) = i + 1 + j by omega] at this
      · rintro ⟨h0, h⟩ j hj
        rcases j with _ | j
        · simpa using h0
        · have := h j (by omega)
          rwa [show i + 1 + j = i + (j + 1) by omega] at this
    rw [hsplit]
    rcases hx : permOverInner (swapElems false) length i i s with ⟨e, t⟩
    cases e with
    | done =>
      obtain ⟨h0, rfl⟩ := (hin t).mp hx
      rw [ih (i + 1) t s']
      simp [h0]
    | failFast =>
      simp only [Prod.mk.injEq, reduceCtorEq, false_and, false_iff, not_and]
      rintro ⟨h0, -⟩
      have := (hin s).mpr ⟨h0, rfl⟩
      rw [hx] at this; cases this
    | ub =>
      simp only [Prod.mk.injEq, reduceCtorEq, false_and, false_iff, not_and]
      rintro ⟨h0, -⟩
      have := (hin s).mpr ⟨h0, rfl⟩
      rw [hx] at this; cases this

theorem revOverInner_false (length i : Nat) (s : PermMem (List α)) (s' : PermMem (List α)) :
    revOverInner (swapElems false) length i s = (.done, s') ↔ s.idx[i]? = some (i : Int) ∧ s' = s := by
  rw [revOverInner_eq]
  simp only [swapElems_false]
  cases h : s.idx[i]? with
  | none => simp
  | some next =>
    simp only [Option.some.injEq]
    split
    · rename_i hn
      simp [hn, eq_comm]
    · rename_i hn
      split
      · simp [hn]
      · cases s.idx[next.toNat]? with
        | none => simp [hn]
        | some nn => simp only; split <;> simp [hn]

theorem revOverOuter_false (length k : Nat) : ∀ (i : Nat) (s s' : PermMem (List α)),
    revOverOuter (swapElems false) length k i s = (.done, s') ↔ (∀ j < k, s.idx[i + j]? = some ((i + j : Nat) : Int)) ∧ s' = s := by
  induction k with
  | zero => intro i s s'; simp [revOverOuter, eq_comm]
  | succ k ih =>
    intro i s s'
    have hin := revOverInner_false length i s
    simp only [revOverOuter]
    have hsplit : (∀ j < k + 1, s.idx[i + j]? = some ((i + j : Nat) : Int)) ↔
        s.idx[i]? = some (i : Int) ∧ ∀ j < k, s.idx[i + 1 + j]? = some ((i + 1 + j : Nat) : Int) := by
      constructor
      · intro h
        refine ⟨by simpa using h 0 (by omega), fun j hj => ?_⟩
        have := h (j + 1) (by omega)
        rwa [show i + (j + 1) = i + 1 + j by omega] at this
      · rintro ⟨h0, h⟩ j hj
        rcases j with _ | j
        · simpa using h0
        · have := h j (by omega)
          rwa [show i + 1 + j = i + (j + 1) by omega] at this
    rw [hsplit]
    rcases hx : revOverInner (swapElems false) length i s with ⟨e, t⟩
    cases e with
    | done =>
      obtain ⟨h0, rfl⟩ := (hin t).mp hx
      rw [ih (i + 1) t s']
      simp [h0]
    | failFast =>
      simp only [Prod.mk.injEq, reduceCtorEq, false_and, false_iff, not_and]
      rintro ⟨h0, -⟩
      have := (hin s).mpr ⟨h0, rfl⟩
      rw [hx] at this; cases this
    | ub =>
      simp only [Prod.mk.injEq, reduceCtorEq, false_and, false_iff, not_and]
      rintro ⟨h0, -⟩
      have := (hin s).mpr ⟨h0, rfl⟩
      rw [hx] at this; cases this

theorem permResult_some (x : PermEnd × PermMem (List α)) (s' : PermState α) :
    permResult x = some s' ↔ x = (.done, ⟨s'.elems, s'.idx⟩) := by
  rcases x with ⟨e, s⟩
  cases e with
  | done =>
    simp only [permResult, Option.some.injEq, Prod.mk.injEq, true_and]
    constructor
    · rintro rfl; rfl
    · rintro rfl; rfl
  | _ => simp [permResult]

end Makeshift.ConstEval
