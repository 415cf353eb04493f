import Verif.Model.TypeTraits
import Mathlib.Data.List.Basic

/-! Helper lemmas for type lists. -/

namespace Makeshift

variable {Ty : Type}

theorem isIn_iff [DecidableEq Ty] (T : Ty) (Ts : List Ty) : isIn T Ts = true ↔ T ∈ Ts := by
  simp [isIn]

theorem uniqueSequence0_append [DecidableEq Ty] (Rs Ts : List Ty) :
    uniqueSequence0 Rs Ts = Rs ++ uniqueSequence0 [] Ts := by
  induction Ts generalizing Rs with
  | nil => simp [uniqueSequence0]
  | cons T Ts ih =>
    simp only [uniqueSequence0]
    split
    · exact ih Rs
    · rw [ih (Rs ++ [T]), ih ([] ++ [T])]; simp

theorem uniqueSequence_cons [DecidableEq Ty] (T : Ty) (Ts : List Ty) :
    uniqueSequence (T :: Ts) = if T ∈ Ts then uniqueSequence Ts else T :: uniqueSequence Ts := by
  simp only [uniqueSequence, uniqueSequence0, isIn_iff]
  split
  · rfl
  · rw [uniqueSequence0_append]; simp

theorem mem_uniqueSequence [DecidableEq Ty] (T : Ty) (Ts : List Ty) : T ∈ uniqueSequence Ts ↔ T ∈ Ts := by
  induction Ts with
  | nil => simp [uniqueSequence, uniqueSequence0]
  | cons U Ts ih =>
    rw [uniqueSequence_cons]
    split
    · rename_i h
      rw [ih]; simp only [List.mem_cons]
      constructor
      · exact Or.inr
      · rintro (rfl | h')
        · exact h
        · exact h'
    · simp [ih]

theorem nodup_uniqueSequence [DecidableEq Ty] (Ts : List Ty) : (uniqueSequence Ts).Nodup := by
  induction Ts with
  | nil => simp [uniqueSequence, uniqueSequence0]
  | cons U Ts ih =>
    rw [uniqueSequence_cons]
    split
    · exact ih
    · rename_i h
      exact List.nodup_cons.mpr ⟨fun hm => h ((mem_uniqueSequence _ _).mp hm), ih⟩

theorem uniqueSequence_of_nodup [DecidableEq Ty] (Ts : List Ty) (h : Ts.Nodup) : uniqueSequence Ts = Ts := by
  induction Ts with
  | nil => rfl
  | cons U Ts ih =>
    rw [List.nodup_cons] at h
    rw [uniqueSequence_cons, if_neg h.1, ih h.2]

theorem filterSequence0_eq (Rs : List Ty) (p : Ty → Bool) (Ts : List Ty) :
    filterSequence0 Rs p Ts = Rs ++ Ts.filter p := by
  induction Ts generalizing Rs with
  | nil => simp [filterSequence0]
  | cons T Ts ih =>
    simp only [filterSequence0, List.filter_cons]
    split <;> rw [ih] <;> simp

theorem filterSequence_eq (p : Ty → Bool) (Ts : List Ty) : filterSequence p Ts = Ts.filter p := by
  simp [filterSequence, filterSequence0_eq]

theorem typeSequenceCat0_eq (Rs : List Ty) (Ts : List (List Ty)) : typeSequenceCat0 Rs Ts = Rs ++ Ts.flatten := by
  induction Ts generalizing Rs with
  | nil => simp [typeSequenceCat0]
  | cons N Ts ih => simp [typeSequenceCat0, ih]

theorem filter_zipIdx_idx (l : List Ty) (k i : Nat) :
    (l.zipIdx k).filter (fun p => p.2 = i) = if h : k ≤ i ∧ i - k < l.length then [(l[i - k]'h.2, i)] else [] := by
  induction l generalizing k with
  | nil => simp
  | cons x l ih =>
    simp only [List.zipIdx_cons, List.filter_cons]
    rw [ih]
    by_cases hk : k = i
    · subst hk
      simp only [decide_true, if_true, show ¬ (k + 1 ≤ k) by omega, false_and, dif_neg, not_false_eq_true]
      simp
    · by_cases hlt : k < i
      · obtain ⟨d, rfl⟩ : ∃ d, i = k + 1 + d := ⟨i - k - 1, by omega⟩
        simp [hk, show k + 1 + d - k = d + 1 by omega]
        simp only [show k ≤ k + 1 + d by omega, true_and]
      · simp [hk, show ¬ k ≤ i by omega, show ¬ k + 1 ≤ i by omega]

theorem filter_zipIdx_type [DecidableEq Ty] (T : Ty) (l : List Ty) (k : Nat) :
    ((l.zipIdx k).filter (fun p => p.1 = T)).length = l.count T ∧
    ∀ p ∈ (l.zipIdx k).filter (fun p => p.1 = T), k ≤ p.2 ∧ l[p.2 - k]? = some T := by
  induction l generalizing k with
  | nil => simp
  | cons x l ih =>
    obtain ⟨h1, h2⟩ := ih (k + 1)
    simp only [List.zipIdx_cons, List.filter_cons]
    constructor
    · by_cases hx : x = T
      · simp [hx, h1]
      · simp [hx, h1]
    · intro p hp
      by_cases hx : x = T
      · simp only [hx, decide_true, if_true, List.mem_cons] at hp
        rcases hp with rfl | hp
        · simp [hx]
        · obtain ⟨h3, h4⟩ := h2 p hp
          refine ⟨by omega, ?_⟩
          rw [show p.2 - k = (p.2 - (k + 1)) + 1 by omega]
          simpa using h4
      · simp only [hx, decide_false, Bool.false_eq_true, if_false] at hp
        obtain ⟨h3, h4⟩ := h2 p hp
        refine ⟨by omega, ?_⟩
        rw [show p.2 - k = (p.2 - (k + 1)) + 1 by omega]
        simpa using h4

theorem count_one_unique [DecidableEq Ty] {T : Ty} {l : List Ty} (h : l.count T = 1) {i j : Nat}
    (hi : l[i]? = some T) (hj : l[j]? = some T) : i = j := by
  induction l generalizing i j with
  | nil => simp at hi
  | cons x l ih =>
    by_cases hx : x = T
    · have h0 : l.count T = 0 := by simpa [hx] using h
      have hnm : T ∉ l := List.count_eq_zero.mp h0
      cases i with
      | succ i => exact absurd (List.mem_of_getElem? (by simpa using hi)) hnm
      | zero =>
        cases j with
        | succ j => exact absurd (List.mem_of_getElem? (by simpa using hj)) hnm
        | zero => rfl
    · cases i with
      | zero => simp at hi; exact absurd hi hx
      | succ i =>
        cases j with
        | zero => simp at hj; exact absurd hj hx
        | succ j =>
          have := ih (by simpa [hx] using h) (i := i) (j := j) (by simpa using hi) (by simpa using hj)
          omega

theorem tryTypePackIndex_spec [DecidableEq Ty] (T : Ty) (Ts : List Ty) :
    (Ts.count T = 1 ∧ ∃ k : Nat, tryTypePackIndex T Ts = k ∧ Ts[k]? = some T) ∨
    (Ts.count T ≠ 1 ∧ tryTypePackIndex T Ts = -1) := by
  obtain ⟨h1, h2⟩ := filter_zipIdx_type T Ts 0
  unfold tryTypePackIndex
  generalize Ts.zipIdx.filter (fun p => p.1 = T) = l at h1 h2
  match l, h1, h2 with
  | [], h1, _ => right; simp at h1; exact ⟨by omega, rfl⟩
  | [p], h1, h2 =>
    left
    refine ⟨by simpa using h1.symm, p.2, rfl, by simpa using (h2 p (by simp)).2⟩
  | _ :: _ :: _, h1, _ => right; simp at h1; exact ⟨by omega, rfl⟩

theorem searchFrom_spec (unique : Bool) (pred : Ty → Bool) (i : Nat) (Ts : List Ty) :
    (Ts.countP pred = 0 ∧ searchTupleElementIndexFrom unique pred i Ts = -1) ∨
    (unique = true ∧ 2 ≤ Ts.countP pred ∧ searchTupleElementIndexFrom unique pred i Ts = -2) ∨
    ((unique = true → Ts.countP pred = 1) ∧ ∃ k : Nat, searchTupleElementIndexFrom unique pred i Ts = (i : Int) + k ∧
      (∃ T, Ts[k]? = some T ∧ pred T = true) ∧ ∀ j < k, ∀ U, Ts[j]? = some U → pred U = false) := by
  induction Ts generalizing i with
  | nil => left; simp [searchTupleElementIndexFrom, elementNotFound]
  | cons T Ts ih =>
    have ih := ih (i + 1)
    simp only [searchTupleElementIndexFrom, List.countP_cons]
    cases hp : pred T with
    | true =>
      simp only [if_true]
      cases unique with
      | false =>
        right; right
        exact ⟨by simp, 0, by simp, ⟨T, by simp, hp⟩, by simp⟩
      | true =>
        simp only [if_true]
        rcases ih with ⟨h1, h2⟩ | ⟨_, h1, h2⟩ | ⟨h1, k, h2, h3, h4⟩
        · right; right
          refine ⟨by simp [h1], 0, by simp [h2, elementNotFound], ⟨T, by simp, hp⟩, by simp⟩
        · right; left
          exact ⟨trivial, by omega, by simp [h2, elementNotFound, elementNotUnique]⟩
        · right; left
          refine ⟨trivial, by have := h1 rfl; omega, ?_⟩
          rw [if_neg (by rw [h2, elementNotFound]; omega)]; rfl
    | false =>
      simp only [Bool.false_eq_true, if_false, Nat.add_zero]
      rcases ih with ⟨h1, h2⟩ | h | ⟨h1, k, h2, ⟨U, h3, h3'⟩, h4⟩
      · left; exact ⟨h1, h2⟩
      · right; left; exact h
      · right; right
        refine ⟨h1, k + 1, by rw [h2]; push_cast; omega, ⟨U, by simpa using h3, h3'⟩, ?_⟩
        intro j hj V hV
        cases j with
        | zero => simp at hV; exact hV ▸ hp
        | succ j => exact h4 j (by omega) V (by simpa using hV)

theorem equalTypes_spec [DecidableEq Ty] (Ts : List Ty) (T : Ty) :
    equalTypes Ts = some T ↔ Ts ≠ [] ∧ ∀ U ∈ Ts, U = T := by
  induction hm : Ts.length using Nat.strongRecOn generalizing Ts with
  | _ m ih =>
  match Ts with
  | [] => simp [equalTypes]
  | [A] => simp [equalTypes]
  | A :: B :: Ts =>
    rw [equalTypes]
    by_cases h : A = B
    · subst h
      rw [if_pos rfl, ih _ (by rw [← hm]; simp) (A :: Ts) rfl]
      simp
    · rw [if_neg h]
      simp only [reduceCtorEq, false_iff]
      rintro ⟨-, h2⟩
      exact h ((h2 A (by simp)).trans (h2 B (by simp)).symm)

end Makeshift
