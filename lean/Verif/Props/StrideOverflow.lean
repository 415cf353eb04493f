import Verif.Lemmas.StrideOverflow

/-! # C166: too many combinations of alternatives are a compile error -/

namespace Makeshift.Props

open Makeshift.StrideOverflow

variable {Ty : Type}

/-- The results for the combinations of alternatives are computed just if the numbers of alternatives and the products of the first ones and of the last ones of them are representable;
then there is one result for every combination, and none is lost or repeated by overflow. -/
theorem C166_exact {R : Type} (max : Nat) (resTy : List Ty → R) (args : List (List Ty)) (rs : List R) :
    let shape := args.map List.length
    results max resTy args = some rs ↔
      (∀ n ∈ shape, n ≤ max) ∧ (∀ k, 1 ≤ k → k ≤ shape.length → (shape.take k).prod ≤ max) ∧ (∀ k < shape.length, (shape.drop k).prod ≤ max) ∧
      rs = (Spec.combinations args).map resTy := by
  intro shape
  have hm : (∀ n ∈ shape, n ≤ max) ↔ ∀ Ts ∈ args, Ts.length ≤ max := by simp [shape]
  rw [hm]
  simp only [results, Option.bind_eq_some_iff, seqSizes_iff, StrideOverflow.strides0_iff, size_iff, Nat.one_mul]
  constructor
  · rintro ⟨_, ⟨h1, rfl⟩, _, ⟨h2, rfl⟩, _, ⟨h3, rfl⟩, h4⟩
    rw [results_eq] at h4
    exact ⟨h1, h2, h3, (Option.some.inj h4).symm⟩
  · rintro ⟨h1, h2, h3, rfl⟩
    exact ⟨_, ⟨h1, rfl⟩, _, ⟨h2, rfl⟩, _, ⟨h3, rfl⟩, results_eq resTy args⟩

example : results 6 List.sum [[1, 2], [10, 20, 30]] = some [11, 12, 21, 22, 31, 32] ∧ results 5 List.sum [[1, 2], [10, 20, 30]] = none := by decide

/-- For arguments which have at least one alternative, as every `std::variant` has, it is the number of combinations which must be representable. -/
theorem C166_combinations {R : Type} (max : Nat) (h1 : 1 ≤ max) (resTy : List Ty → R) (args : List (List Ty)) (h : ∀ Ts ∈ args, Ts ≠ []) :
    (results max resTy args).isSome ↔ (args.map List.length).prod ≤ max := by
  have hpos : ∀ l : List Nat, (∀ n ∈ l, n ∈ args.map List.length) → 1 ≤ l.prod := by
    intro l hl
    induction l with
    | nil => simp
    | cons n l ih =>
      have hn := hl n (by simp)
      obtain ⟨Ts, hTs, rfl⟩ := List.mem_map.1 hn
      rw [List.prod_cons]
      exact Nat.mul_pos (List.length_pos_iff.2 (h Ts hTs)) (ih fun m hm => hl m (by simp [hm]))
  rw [Option.isSome_iff_exists]
  constructor
  · rintro ⟨rs, hrs⟩
    obtain ⟨-, -, h3, -⟩ := (C166_exact max resTy args rs).1 hrs
    cases args with
    | nil => simpa using h1
    | cons Ts args => simpa using h3 0 (by simp)
  · intro hp
    have hsplit : ∀ k, ((args.map List.length).take k).prod * ((args.map List.length).drop k).prod ≤ max := fun k => by
      rw [← List.prod_append, List.take_append_drop]; exact hp
    refine ⟨_, (C166_exact max resTy args _).2 ⟨fun n hn => ?_, fun k _ _ => ?_, fun k _ => ?_, rfl⟩⟩
    · obtain ⟨a, b, hab⟩ := List.append_of_mem hn
      have ha := hpos a (fun m hm => by rw [hab]; simp [hm])
      have hb := hpos b (fun m hm => by rw [hab]; simp [hm])
      rw [hab, List.prod_append, List.prod_cons] at hp
      exact Nat.le_trans (Nat.le_trans (Nat.le_mul_of_pos_right n hb) (Nat.le_mul_of_pos_left _ ha)) hp
    · exact Nat.le_trans (Nat.le_mul_of_pos_right _ (hpos _ fun m hm => List.mem_of_mem_drop hm)) (hsplit k)
    · exact Nat.le_trans (Nat.le_mul_of_pos_left _ (hpos _ fun m hm => List.mem_of_mem_take hm)) (hsplit k)

example : (results 4 (fun Ts : List Nat => Ts) [[1, 2], [3, 4]]).isSome ∧ ¬ (results 3 (fun Ts : List Nat => Ts) [[1, 2], [3, 4]]).isSome := by decide

/-- Lists without alternatives do not prevent the error: whether there is one depends on their position, although there are no combinations at all. -/
theorem C166_empty (n : Nat) (T : Ty) (h : 2 ≤ n) :
    results (n * n - 1) (fun Ts => Ts) [List.replicate n T, List.replicate n T, []] = none ∧
    results (n * n - 1) (fun Ts => Ts) [[], List.replicate n T, List.replicate n T] = none ∧
    results (n * n - 1) (fun Ts => Ts) [List.replicate n T, [], List.replicate n T] = some [] := by
  have hn : 1 ≤ n * n := Nat.mul_pos (by omega) (by omega)
  have h2 : n ≤ n * n - 1 := by
    have : 2 * n ≤ n * n := Nat.mul_le_mul_right n h
    omega
  refine ⟨?_, ?_, ?_⟩
  · rw [Option.eq_none_iff_forall_ne_some]
    intro rs hrs
    have := ((C166_exact _ _ _ rs).1 hrs).2.1 2 (by omega) (by simp)
    simp at this
    omega
  · rw [Option.eq_none_iff_forall_ne_some]
    intro rs hrs
    have := ((C166_exact _ _ _ rs).1 hrs).2.2.1 1 (by simp)
    simp at this
    omega
  · refine (C166_exact _ _ _ _).2 ⟨by simpa using h2, fun k hk1 hk2 => ?_, fun k hk => ?_, by simp [Spec.combinations]⟩
    · simp only [List.map_cons, List.map_nil, List.length_cons, List.length_nil] at hk2
      obtain rfl | rfl | rfl : k = 1 ∨ k = 2 ∨ k = 3 := by omega
      all_goals simp [h2]
    · simp only [List.map_cons, List.map_nil, List.length_cons, List.length_nil] at hk
      obtain rfl | rfl | rfl : k = 0 ∨ k = 1 ∨ k = 2 := by omega
      all_goals simp [h2]

example : results 3 (fun Ts : List Nat => Ts) [[1, 1], [], [1, 1]] = some [] := by decide

end Makeshift.Props
