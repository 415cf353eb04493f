import Verif.Model.StrideOverflow
import Verif.Props.VariantLaws

/-! Helper lemmas for C166: products in machine integers. -/

namespace Makeshift.StrideOverflow

variable {Ty : Type}

theorem mul_iff (max a b r : Nat) : mul max a b = some r ↔ a * b ≤ max ∧ r = a * b := by
  unfold mul; split <;> simp_all [eq_comm]; omega

theorem seqSizes_iff (max : Nat) (args : List (List Ty)) : ∀ shape : List Nat, args.mapM (seqSize max) = some shape ↔
    (∀ Ts ∈ args, Ts.length ≤ max) ∧ shape = args.map List.length := by
  induction args with
  | nil => intro shape; simp [eq_comm]
  | cons Ts args ih =>
    intro shape
    simp only [List.mapM_cons, Option.bind_eq_bind, Option.bind_eq_some_iff, Option.pure_def, Option.some.injEq, ih, seqSize]
    constructor
    · rintro ⟨n, h1, ns, ⟨h2, rfl⟩, rfl⟩
      split at h1
      · cases h1; exact ⟨by simpa using ⟨by assumption, h2⟩, rfl⟩
      · cases h1
    · rintro ⟨h1, rfl⟩
      exact ⟨Ts.length, by rw [if_pos (h1 Ts (by simp))], _, ⟨fun U hU => h1 U (by simp [hU]), rfl⟩, rfl⟩

theorem strides0_iff (max : Nat) (dims : List Nat) : ∀ (cur : Nat) (s r : List Nat), strides0 max cur s dims = some r ↔
    (∀ k, 1 ≤ k → k ≤ dims.length → cur * (dims.take k).prod ≤ max) ∧ r = computeStrides0 cur s dims := by
  induction dims with
  | nil =>
    intro cur s r
    simp only [strides0, computeStrides0, List.length_nil, Option.some.injEq]
    exact ⟨fun h => ⟨fun k h1 h2 => by omega, h.symm⟩, fun h => h.2.symm⟩
  | cons d dims ih =>
    intro cur s r
    simp only [strides0, computeStrides0, Option.bind_eq_some_iff, mul_iff, ih, List.length_cons]
    constructor
    · rintro ⟨n, ⟨h1, rfl⟩, h2, h3⟩
      refine ⟨fun k h4 h5 => ?_, h3⟩
      obtain _ | _ | k := k
      · omega
      · simpa using h1
      · have := h2 (k + 1) (by omega) (by omega)
        rw [List.take_succ_cons, List.prod_cons, ← Nat.mul_assoc]
        exact this
    · rintro ⟨h1, h2⟩
      refine ⟨_, ⟨by simpa using h1 1 (by omega) (by omega), rfl⟩, fun k h3 h4 => ?_, h2⟩
      have := h1 (k + 1) (by omega) (by omega)
      rwa [List.take_succ_cons, List.prod_cons, ← Nat.mul_assoc] at this

theorem size_iff (max : Nat) (dims : List Nat) : ∀ r, size max dims = some r ↔
    (∀ k < dims.length, (dims.drop k).prod ≤ max) ∧ r = dims.prod := by
  induction dims with
  | nil => intro r; simp [size, eq_comm]
  | cons d dims ih =>
    intro r
    simp only [size, Option.bind_eq_some_iff, mul_iff, ih, List.length_cons]
    constructor
    · rintro ⟨n, ⟨h1, rfl⟩, h2, rfl⟩
      refine ⟨fun k hk => ?_, by simp⟩
      cases k with
      | zero => simpa using h2
      | succ k => simpa using h1 k (by omega)
    · rintro ⟨h1, rfl⟩
      exact ⟨_, ⟨fun k hk => by simpa using h1 (k + 1) (by omega), rfl⟩, by simpa using h1 0 (by omega), by simp⟩

theorem strides_append (dims : List Nat) : ∀ (cur : Nat) (s : List Nat), computeStrides0 cur s dims = s ++ computeStrides0 cur [] dims := by
  induction dims with
  | nil => intro cur s; simp [computeStrides0]
  | cons d dims ih => intro cur s; simp only [computeStrides0]; rw [ih _ (s ++ [cur]), ih _ ([] ++ [cur])]; simp

theorem decode_pos (i : Nat) (dims : List Nat) : ∀ cur, 0 < cur → 0 < dims.prod →
    decode i (computeStrides0 cur [] dims) dims = some (decodeIndex dims (computeStrides0 cur [] dims) i) := by
  induction dims with
  | nil => intro cur _ _; rfl
  | cons d dims ih =>
    intro cur h1 h2
    rw [List.prod_cons] at h2
    have hd : 0 < d := Nat.pos_of_ne_zero fun h => by simp [h] at h2
    have hp : 0 < dims.prod := Nat.pos_of_ne_zero fun h => by simp [h] at h2
    simp only [computeStrides0, List.nil_append]
    rw [strides_append]
    simp only [List.singleton_append, decode, decodeIndex, List.zipWith_cons_cons]
    rw [if_neg (by omega), ih _ (Nat.mul_pos h1 hd) hp]
    rfl

theorem computeSize_prod (dims : List Nat) : computeSize dims = dims.prod := by
  induction dims with
  | nil => rfl
  | cons d dims ih => rw [List.prod_cons, ← ih]; rfl

theorem results_eq {R : Type} (resTy : List Ty → R) (args : List (List Ty)) :
    ((List.range (args.map List.length).prod).mapM fun i =>
      (decode i (computeStrides0 1 [] (args.map List.length)) (args.map List.length)).bind fun is => (comboTypes args is).map resTy) =
    some ((Spec.combinations args).map resTy) := by
  have h := resultSeq_map resTy args
  rw [Props.resultSeq_combinations] at h
  rw [← Option.map_some, ← h]
  simp only [resultSeq, computeSize_prod, computeStrides]
  apply mapM_congr_mem
  intro i hi
  rw [decode_pos i _ 1 (by omega) (by have := List.mem_range.1 hi; omega)]
  rfl

end Makeshift.StrideOverflow
