import Verif.Lemmas.VariantTransform
import Mathlib.Data.List.Nodup

/-! Property theorems C17, C18, C19: `variant_transform`, `variant_transform_many`. -/

namespace Makeshift.Props

open Spec

variable {Ty V : Type}

/-! ## C18 -/

/-- Decoding the linear indices `0, ..., size - 1` enumerates the index tuples of the product shape: each exactly once,
and nothing else. Holds for every number of dimensions, including none, and for dimensions of size zero. -/
theorem C18_enumerates_shape (shape : List Nat) :
    let tuples := (List.range (computeSize shape)).map (decodeIndex shape (computeStrides shape))
    tuples.Nodup ∧ ∀ idx, idx ∈ tuples ↔ List.Forall₂ (· < ·) idx shape := by
  simp only
  have key : decodeIndex shape (computeStrides shape) = digits shape := by
    funext i; rw [computeStrides, decode_eq_digits, Nat.div_one]
  rw [key]
  constructor
  · refine List.Nodup.map_on ?_ List.nodup_range
    intro i hi j hj h
    exact digits_inj shape i j (List.mem_range.mp hi) (List.mem_range.mp hj) h
  · intro idx
    simp only [List.mem_map, List.mem_range]
    constructor
    · rintro ⟨i, hi, rfl⟩; exact digits_bound shape i hi
    · intro h
      obtain ⟨i, hi, he⟩ := digits_surj shape idx h
      exact ⟨i, hi, he⟩

example : (List.range (computeSize [2, 3])).map (decodeIndex [2, 3] (computeStrides [2, 3])) =
    [[0, 0], [1, 0], [0, 1], [1, 1], [0, 2], [1, 2]] := by decide

/-! ## C17 -/

/-- The type of the result is well-formed and lists every non-void result type over all combinations of alternatives
exactly once, and nothing else. -/
theorem C17_result_type [DecidableEq Ty] (isVoid : Ty → Bool) (resTy : List Ty → Ty) (args : List (List Ty)) :
    ∃ R, variantTransformResult isVoid resTy args = some R ∧ R.Nodup ∧
      ∀ T, T ∈ R ↔ isVoid T = false ∧ ∃ types, Combination types args ∧ resTy types = T := by
  obtain ⟨rs, h1, h2⟩ := resultSeq_spec resTy args
  refine ⟨_, by rw [variantTransformResult, h1]; rfl, nodup_uniqueSequence _, fun T => ?_⟩
  rw [mem_uniqueSequence, filterSequence_eq, List.mem_filter, h2]
  simp only [Bool.not_eq_true', Combination]
  exact And.comm

private theorem nonempty_of_someResult [DecidableEq Ty] {isVoid : Ty → Bool} {f : VFunctor Ty V} {args : List (VariantVal Ty V)} {R : List Ty}
    (hmem : ∀ T, T ∈ R ↔ isVoid T = false ∧ ∃ types, Combination types (args.map VariantVal.types) ∧ f.resTy types = T) :
    (∃ types, Combination types (args.map VariantVal.types) ∧ isVoid (f.resTy types) = false) ↔ R.isEmpty = false := by
  rw [List.isEmpty_eq_false_iff_exists_mem]
  constructor
  · rintro ⟨types, h1, h2⟩
    exact ⟨_, (hmem _).mpr ⟨h2, types, h1, rfl⟩⟩
  · rintro ⟨T, hT⟩
    obtain ⟨h1, types, h2, rfl⟩ := (hmem T).mp hT
    exact ⟨types, h2, h1⟩

/-- `variant_transform` compiles exactly if the functor has a non-void result for some combination of alternatives. -/
theorem C17_compiles_iff [DecidableEq Ty] (isVoid : Ty → Bool) (f : VFunctor Ty V) (args : List (VariantVal Ty V)) (hw : WellFormed args) :
    (∃ t, variantTransform isVoid f args = some t) ↔
      ∃ types, Combination types (args.map VariantVal.types) ∧ isVoid (f.resTy types) = false := by
  obtain ⟨R, hR, hnd, hmem⟩ := C17_result_type isVoid f.resTy (args.map VariantVal.types)
  rw [nonempty_of_someResult hmem]
  unfold variantTransform
  rw [hR, Option.bind_some]
  constructor
  · rintro ⟨t, ht⟩
    by_contra hc
    rw [Bool.not_eq_false] at hc
    rw [hc] at ht
    cases ht
  · intro hc
    rw [hc]
    simp only [Bool.false_eq_true, if_false]
    by_cases hv : ∃ v ∈ args, v.active = none
    · rw [activeAlternatives_valueless hw hv]
      exact ⟨_, rfl⟩
    · have : ∃ act, List.Forall₂ Active args act := by
        clear hR hmem hc hnd
        induction args with
        | nil => exact ⟨[], .nil⟩
        | cons v vs ih =>
          obtain ⟨act, ha⟩ := ih (fun v' hv' => hw v' (List.mem_cons_of_mem _ hv'))
            (fun ⟨v', h1, h2⟩ => hv ⟨v', List.mem_cons_of_mem _ h1, h2⟩)
          obtain ⟨p, hp⟩ := hw v List.mem_cons_self (fun hn => hv ⟨v, List.mem_cons_self, hn⟩)
          exact ⟨p :: act, .cons hp ha⟩
      obtain ⟨act, ha⟩ := this
      rw [activeAlternatives_ok ha]
      simp only
      cases hb : isVoid (f.resTy (act.map Prod.fst)) with
      | true => exact ⟨_, rfl⟩
      | false =>
        obtain ⟨i, hi, _⟩ := convertToVariant_spec hnd ((hmem _).mpr ⟨hb, _, active_types ha, rfl⟩) (f.run act)
        rw [hi]
        exact ⟨_, rfl⟩

/-- If no argument is valueless, the functor is called exactly once, with the active alternatives; the result holds its
result in an alternative of the functor's result type; if that type is void, the call fails fast afterwards. -/
theorem C17_transform [DecidableEq Ty] (isVoid : Ty → Bool) (f : VFunctor Ty V) (args : List (VariantVal Ty V))
    (act : List (Ty × V)) (h : List.Forall₂ Active args act)
    (hr : ∃ types, Combination types (args.map VariantVal.types) ∧ isVoid (f.resTy types) = false) :
    ∃ t, variantTransform isVoid f args = some t ∧ t.calls = [act] ∧
      (isVoid (f.resTy (act.map Prod.fst)) = true → t.out = .failFast) ∧
      (isVoid (f.resTy (act.map Prod.fst)) = false → ∃ v, t.out = .ok v ∧
        variantTransformResult isVoid f.resTy (args.map VariantVal.types) = some v.types ∧
        Active v (f.resTy (act.map Prod.fst), f.run act)) := by
  obtain ⟨R, hR, hnd, hmem⟩ := C17_result_type isVoid f.resTy (args.map VariantVal.types)
  unfold variantTransform
  rw [hR, activeAlternatives_ok h]
  simp only [Option.bind_some, (nonempty_of_someResult hmem).mp hr, Bool.false_eq_true, if_false]
  cases hv : isVoid (f.resTy (act.map Prod.fst)) with
  | true => exact ⟨_, rfl, rfl, by simp, by simp⟩
  | false =>
    have hm : f.resTy (act.map Prod.fst) ∈ R := (hmem _).mpr ⟨hv, _, active_types h, rfl⟩
    obtain ⟨i, hc, hi⟩ := convertToVariant_spec hnd hm (f.run act)
    simp only [Bool.false_eq_true, if_false]
    rw [hc]
    exact ⟨_, rfl, rfl, by simp, fun _ => ⟨_, rfl, rfl, i, rfl, hi⟩⟩

/-- If some argument is valueless, `std::bad_variant_access` is thrown and the functor is not called. -/
theorem C17_valueless [DecidableEq Ty] (isVoid : Ty → Bool) (f : VFunctor Ty V) (args : List (VariantVal Ty V))
    (hw : WellFormed args) (h : ∃ v ∈ args, v.active = none)
    (hr : ∃ types, Combination types (args.map VariantVal.types) ∧ isVoid (f.resTy types) = false) :
    variantTransform isVoid f args = some ⟨[], .throw (str "bad_variant_access")⟩ := by
  obtain ⟨R, hR, -, hmem⟩ := C17_result_type isVoid f.resTy (args.map VariantVal.types)
  unfold variantTransform
  rw [hR, activeAlternatives_valueless hw h, Option.bind_some, (nonempty_of_someResult hmem).mp hr]
  rfl

/-- Two variants, `{10, 11}` holding the second and `{20, 21, 20}` holding the third alternative. -/
def exArgs : List (VariantVal Nat Int) := [⟨[10, 11], some (1, 7)⟩, ⟨[20, 21, 20], some (2, 8)⟩]

example : List.Forall₂ Active exArgs [(11, 7), (20, 8)] :=
  .cons ⟨1, rfl, rfl⟩ (.cons ⟨2, rfl, rfl⟩ .nil)

example : variantTransform (fun T => T = 31) ⟨List.sum, fun l => (l.map Prod.snd).sum⟩ exArgs =
    some ⟨[[(11, 7), (20, 8)]], .failFast⟩ := by decide

example : variantTransform (fun T => T = 32) ⟨List.sum, fun l => (l.map Prod.snd).sum⟩ exArgs =
    some ⟨[[(11, 7), (20, 8)]], .ok ⟨[30, 31], some (1, 15)⟩⟩ := by decide

/-- If all results are void, `variant_transform` does not compile. -/
example : variantTransform (fun _ => true) ⟨List.sum, fun l => (l.map Prod.snd).sum⟩ exArgs = none := by decide

example : ∃ types, Combination types (exArgs.map VariantVal.types) ∧ decide (types.sum = 31) = false :=
  ⟨[10, 20], .cons (by simp) (.cons (by simp) .nil), by decide⟩

example : WellFormed ([⟨[10, 11], some (1, 7)⟩, ⟨[20], none⟩] : List (VariantVal Nat Int)) ∧
    ∃ v ∈ ([⟨[10, 11], some (1, 7)⟩, ⟨[20], none⟩] : List (VariantVal Nat Int)), v.active = none := by
  refine ⟨?_, ⟨[20], none⟩, by simp, rfl⟩
  intro v hv hn
  simp only [List.mem_cons, List.not_mem_nil, or_false] at hv
  rcases hv with rfl | rfl
  · exact ⟨(11, 7), 1, rfl, rfl⟩
  · exact absurd rfl hn

/-! ## C19 -/

/-- The type of the flattened result lists every alternative of every variant type the functor can return exactly once,
and nothing else. -/
theorem C19_result_type [DecidableEq Ty] (resTys : List Ty → List Ty) (args : List (List Ty)) :
    ∃ R, variantTransformManyResult resTys args = some R ∧ R.Nodup ∧
      ∀ T, T ∈ R ↔ ∃ types, Combination types args ∧ T ∈ resTys types := by
  obtain ⟨rs, h1, h2⟩ := resultSeq_spec resTys args
  refine ⟨_, by rw [variantTransformManyResult, h1]; rfl, nodup_uniqueSequence _, fun T => ?_⟩
  rw [mem_uniqueSequence, flattenVariant_eq, List.nil_append, List.mem_flatten]
  constructor
  · rintro ⟨l, hl, hT⟩
    obtain ⟨types, hc, rfl⟩ := (h2 l).mp hl
    exact ⟨types, hc, hT⟩
  · rintro ⟨types, hc, hT⟩
    exact ⟨_, (h2 _).mpr ⟨types, hc, rfl⟩, hT⟩

/-- If no argument is valueless, the functor is called exactly once, with the active alternatives, and the result holds
the alternative held by the variant it returned. -/
theorem C19_transform_many [DecidableEq Ty] (f : VMFunctor Ty V) (args : List (VariantVal Ty V)) (act : List (Ty × V))
    (h : List.Forall₂ Active args act) (p : Ty × V)
    (hp : Active (⟨f.resTys (act.map Prod.fst), f.run act⟩ : VariantVal Ty V) p) :
    ∃ v, variantTransformMany f args = some ⟨[act], .ok v⟩ ∧
      variantTransformManyResult f.resTys (args.map VariantVal.types) = some v.types ∧ Active v p := by
  obtain ⟨R, hR, hnd, hmem⟩ := C19_result_type f.resTys (args.map VariantVal.types)
  unfold variantTransformMany
  rw [hR, activeAlternatives_ok h]
  simp only [Option.bind_some]
  rw [activeAlternatives_ok (List.Forall₂.cons hp List.Forall₂.nil)]
  have hm : p.1 ∈ R := by
    obtain ⟨i, -, h2⟩ := hp
    exact (hmem _).mpr ⟨_, active_types h, List.mem_of_getElem? h2⟩
  obtain ⟨i, hc, hi⟩ := convertToVariant_spec hnd hm p.2
  simp only [hc, List.isEmpty_eq_false_iff_exists_mem.mpr ⟨_, hm⟩, Bool.false_eq_true, if_false]
  exact ⟨_, rfl, rfl, i, rfl, hi⟩

/-- If the functor returns a valueless variant, `std::bad_variant_access` is thrown after the call. -/
theorem C19_valueless_result [DecidableEq Ty] (f : VMFunctor Ty V) (args : List (VariantVal Ty V)) (act : List (Ty × V))
    (h : List.Forall₂ Active args act) (hn : f.run act = none) (ht : f.resTys (act.map Prod.fst) ≠ []) :
    variantTransformMany f args = some ⟨[act], .throw (str "bad_variant_access")⟩ := by
  obtain ⟨R, hR, -, hmem⟩ := C19_result_type f.resTys (args.map VariantVal.types)
  obtain ⟨T, hT⟩ := List.exists_mem_of_ne_nil _ ht
  have hne : R.isEmpty = false := List.isEmpty_eq_false_iff_exists_mem.mpr ⟨T, (hmem T).mpr ⟨_, active_types h, hT⟩⟩
  unfold variantTransformMany
  rw [hR, activeAlternatives_ok h]
  simp only [Option.bind_some, activeAlternatives, hn, hne, Bool.false_eq_true, if_false]

/-- `f` returns `variant<T0, 99>` holding its first alternative. -/
def exMany : VMFunctor Nat Int := ⟨fun l => [l.sum, 99], fun l => some (0, (l.map Prod.snd).sum)⟩

example : Active (⟨exMany.resTys [11, 20], exMany.run [(11, 7), (20, 8)]⟩ : VariantVal Nat Int) (31, 15) :=
  ⟨0, rfl, rfl⟩

example : variantTransformMany exMany exArgs = some ⟨[[(11, 7), (20, 8)]], .ok ⟨[32, 30, 31, 99], some (2, 15)⟩⟩ := by decide

example : (⟨fun l => [l.sum], fun _ => none⟩ : VMFunctor Nat Int).run [(11, 7), (20, 8)] = none ∧
    (⟨fun l => [l.sum], fun _ => none⟩ : VMFunctor Nat Int).resTys [11, 20] ≠ [] := ⟨rfl, by decide⟩

end Makeshift.Props
