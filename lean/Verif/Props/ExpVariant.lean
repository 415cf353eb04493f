import Verif.Model.ExpVariant
import Verif.Props.TypeTraits
import Mathlib.Data.List.Nodup

/-!
# Variants and optionals: C63

`Holds ts v T x`: the variant `v` of type `std::variant<ts...>` holds the value `x` as an alternative of type `T`.
-/

namespace Makeshift.Props

open Makeshift.ExpVariant

set_option linter.unusedSectionVars false

variable {Ty Val : Type} [DecidableEq Ty]

/-- The variant holds the value `x` in an alternative of type `T`. -/
def Holds (ts : List Ty) (v : Held Val) (T : Ty) (x : Val) : Prop := ∃ i, v = some (i, x) ∧ ts[i]? = some T

theorem select_one (other : Convert Ty Val) (T : Ty) (dst : List Ty) (h : dst.count T = 1) :
    ∃ k, select other T dst = some (k, id) ∧ dst[k]? = some T := by
  rcases tryTypePackIndex_spec T dst with ⟨-, k, hk, hd⟩ | ⟨h1, -⟩
  · unfold tryTypePackIndex at hk
    unfold select
    split at hk
    · rename_i p hp
      have : p.2 = k := by exact_mod_cast hk
      exact ⟨k, by rw [hp]; simp only [this], hd⟩
    · simp [elementNotFound] at hk
  · exact absurd h h1

theorem filter_zipIdx_length (T : Ty) : ∀ (dst : List Ty) (n : Nat),
    ((dst.zipIdx n).filter (fun p => p.1 = T)).length = dst.count T
  | [], _ => rfl
  | U :: dst, n => by
    simp only [List.zipIdx_cons, List.filter_cons, List.count_cons]
    by_cases h : U = T
    · simp [h, filter_zipIdx_length T dst (n + 1)]
    · simp [h, filter_zipIdx_length T dst (n + 1)]

theorem select_many (other : Convert Ty Val) (T : Ty) (dst : List Ty) (h : 2 ≤ dst.count T) : select other T dst = none := by
  have hl := filter_zipIdx_length T dst 0
  unfold select
  split
  · rename_i p hp; rw [hp] at hl; simp at hl; omega
  · rename_i hp; rw [hp] at hl; simp at hl; omega
  · rfl

/-- C63: `variant_cast` to a variant that has every alternative of the source exactly once compiles, and preserves the type and value
held; a valueless variant is reported by an exception. -/
theorem C63_cast (other : Convert Ty Val) (dst src : List Ty) (hne : src ≠ []) (h : ∀ T ∈ src, dst.count T = 1) :
    (∀ v T x, Holds src v T x → ∃ w, variantCast other dst src v = some (.ok w) ∧ Holds dst w T x) ∧
    variantCast other dst src none = some (.throw (str "bad_variant_access")) := by
  have hd : dst ≠ [] := by
    rintro rfl
    obtain ⟨T, hT⟩ := List.exists_mem_of_ne_nil src hne
    simpa using h T hT
  have hc : src ≠ [] ∧ dst ≠ [] ∧ ∀ T ∈ src, (select other T dst).isSome := by
    refine ⟨hne, hd, fun T hT => ?_⟩
    obtain ⟨k, hk, -⟩ := select_one other T dst (h T hT)
    rw [hk]; rfl
  unfold variantCast visitConstruct
  constructor
  · rintro v T x ⟨i, rfl, hi⟩
    obtain ⟨k, hk, hdk⟩ := select_one other T dst (h T (List.mem_of_getElem? hi))
    refine ⟨some (k, x), ?_, k, rfl, hdk⟩
    rw [if_pos hc]
    simp [hi, hk]
  · rw [if_pos hc]; rfl

/-- C63: if an alternative of the source occurs several times in the destination, the cast does not compile. -/
theorem C63_cast_ambiguous (other : Convert Ty Val) (dst src : List Ty) (T : Ty) (hT : T ∈ src) (h : 2 ≤ dst.count T) (v : Held Val) :
    variantCast other dst src v = none := by
  unfold variantCast visitConstruct
  rw [if_neg]
  rintro ⟨-, -, hs⟩
  have := hs T hT
  rw [select_many other T dst h] at this
  simp at this

/-- C63: `with_monostate` and `without_monostate` are inverse to each other; the latter exists only if monostate comes first. -/
theorem C63_monostate_types (mono : Ty) (ts us : List Ty) :
    withoutMonostate mono (withMonostate mono ts) = some ts ∧
    (withoutMonostate mono us = some ts ↔ us = withMonostate mono ts) := by
  constructor
  · simp [withoutMonostate, withMonostate]
  · unfold withMonostate
    cases us with
    | nil => simp [withoutMonostate]
    | cons t us =>
      unfold withoutMonostate
      by_cases h : t = mono
      · simp [h]
      · simp [h]

theorem holds_unique {us : List Ty} (hu : us.Nodup) {v w : Held Val} {T : Ty} {x : Val} (h1 : Holds us v T x) (h2 : Holds us w T x) :
    v = w := by
  obtain ⟨i, rfl, hi⟩ := h1
  obtain ⟨j, rfl, hj⟩ := h2
  obtain ⟨hi1, hi2⟩ := List.getElem?_eq_some_iff.1 hi
  obtain ⟨hj1, hj2⟩ := List.getElem?_eq_some_iff.1 hj
  rw [(List.Nodup.getElem_inj_iff hu).1 (hi2.trans hj2.symm)]

section
variable (other : Convert Ty Val) (mono : Ty) (monoVal : Val) (ts : List Ty) (hne : ts ≠ []) (hn : ts.Nodup) (hm : mono ∉ ts)
include hne hn hm

theorem count_with {T : Ty} (hT : T ∈ ts) : (withMonostate mono ts).count T = 1 ∧ ts.count T = 1 := by
  have h1 : ts.count T = 1 := List.count_eq_one_of_mem hn hT
  refine ⟨?_, h1⟩
  unfold withMonostate
  have : mono ≠ T := by rintro rfl; exact hm hT
  simp [h1, this]

theorem count_mono : (withMonostate mono ts).count mono = 1 := by
  unfold withMonostate
  simp [List.count_eq_zero_of_not_mem hm]

theorem select_mono : ∃ (k : Nat), select other mono (withMonostate mono ts) = some (k, id) ∧ k = 0 := by
  obtain ⟨k, hk, hd⟩ := select_one other mono (withMonostate mono ts) (count_mono mono ts hne hn hm)
  refine ⟨k, hk, ?_⟩
  cases k with
  | zero => rfl
  | succ k =>
    simp only [withMonostate, List.getElem?_cons_succ] at hd
    exact absurd (List.mem_of_getElem? hd) hm

/-- C63: `optional_to_variant` maps the empty optional to monostate, and a variant to the variant holding the same value in the
alternative of the same type. -/
theorem C63_optional_to_variant :
    optionalToVariant other mono monoVal ts none = some (.ok (some (0, monoVal))) ∧
    (∀ v T x, Holds ts v T x → ∃ w, optionalToVariant other mono monoVal ts (some v) = some (.ok w) ∧
      Holds (withMonostate mono ts) w T x) ∧
    optionalToVariant other mono monoVal ts (some none) = some (.throw (str "bad_variant_access")) := by
  obtain ⟨k, hk, rfl⟩ := select_mono other mono ts hne hn hm
  obtain ⟨h1, h2⟩ := C63_cast other (withMonostate mono ts) ts hne (fun T hT => (count_with mono ts hne hn hm hT).1)
  unfold optionalToVariant
  simp only [hk, h2, Option.bind_some, id]
  exact ⟨trivial, h1, trivial⟩

/-- C63: `variant_to_optional` maps monostate to the empty optional, and any other alternative to the variant holding the same value in
the alternative of the same type. -/
theorem C63_variant_to_optional :
    (∀ v x, Holds (withMonostate mono ts) v mono x → variantToOptional other mono (withMonostate mono ts) v = some (.ok none)) ∧
    (∀ v T x, Holds (withMonostate mono ts) v T x → T ≠ mono →
      ∃ w, variantToOptional other mono (withMonostate mono ts) v = some (.ok (some w)) ∧ Holds ts w T x) ∧
    variantToOptional other mono (withMonostate mono ts) none = some (.throw (str "bad_variant_access")) := by
  have hc : (withMonostate mono ts).count mono = 1 ∧ ts ≠ [] ∧ ∀ T ∈ ts, (select other T ts).isSome := by
    refine ⟨count_mono mono ts hne hn hm, hne, fun T hT => ?_⟩
    obtain ⟨k, hk, -⟩ := select_one other T ts (count_with mono ts hne hn hm hT).2
    rw [hk]; rfl
  unfold variantToOptional
  rw [(C63_monostate_types mono ts ts).1]
  simp only [Option.bind_some, if_pos hc]
  refine ⟨?_, ?_, rfl⟩
  · rintro v x ⟨i, rfl, hi⟩
    simp [hi]
  · rintro v T x ⟨i, rfl, hi⟩ hT
    have hmem : T ∈ ts := by
      have := List.mem_of_getElem? hi
      unfold withMonostate at this
      rcases List.mem_cons.1 this with h | h
      · exact absurd h hT
      · exact h
    obtain ⟨k, hk, hd⟩ := select_one other T ts (count_with mono ts hne hn hm hmem).2
    exact ⟨some (k, x), by simp [hi, hT, hk], k, rfl, hd⟩

/-- C63: converting an optional to a variant and back gives the same optional, whether it is empty or holds a variant (which is not
valueless). -/
theorem C63_round_trip_optional (o : Option (Held Val)) (ho : ∀ v, o = some v → ∃ T x, Holds ts v T x) :
    ∃ w, optionalToVariant other mono monoVal ts o = some (.ok w) ∧
      variantToOptional other mono (withMonostate mono ts) w = some (.ok o) := by
  obtain ⟨a1, a2, -⟩ := C63_optional_to_variant other mono monoVal ts hne hn hm
  obtain ⟨b1, b2, -⟩ := C63_variant_to_optional other mono ts hne hn hm
  cases o with
  | none => exact ⟨_, a1, b1 _ monoVal ⟨0, rfl, rfl⟩⟩
  | some v =>
    obtain ⟨T, x, hv⟩ := ho v rfl
    obtain ⟨w, hw, hw2⟩ := a2 v T x hv
    have hT : T ≠ mono := by
      rintro rfl
      obtain ⟨i, -, hi⟩ := hv
      exact hm (List.mem_of_getElem? hi)
    obtain ⟨w', hw', hw2'⟩ := b2 w T x hw2 hT
    refine ⟨w, hw, ?_⟩
    rw [hw', holds_unique hn hw2' hv]

/-- C63: converting a variant to an optional and back gives the same variant; the value of a monostate is `monoVal`, its only value. -/
theorem C63_round_trip_variant (v : Held Val) (T : Ty) (x : Val) (hv : Holds (withMonostate mono ts) v T x)
    (hmono : T = mono → x = monoVal) :
    ∃ o, variantToOptional other mono (withMonostate mono ts) v = some (.ok o) ∧
      optionalToVariant other mono monoVal ts o = some (.ok v) := by
  obtain ⟨a1, a2, -⟩ := C63_optional_to_variant other mono monoVal ts hne hn hm
  obtain ⟨b1, b2, -⟩ := C63_variant_to_optional other mono ts hne hn hm
  have hnd : (withMonostate mono ts).Nodup := List.nodup_cons.2 ⟨hm, hn⟩
  by_cases hT : T = mono
  · subst hT
    refine ⟨none, b1 v x hv, ?_⟩
    rw [a1, holds_unique hnd hv (w := some (0, monoVal)) ⟨0, by rw [hmono rfl], rfl⟩]
  · obtain ⟨w, hw, hw2⟩ := b2 v T x hv hT
    obtain ⟨v', hv', hv2⟩ := a2 w T x hw2
    refine ⟨some w, hw, ?_⟩
    rw [hv', holds_unique hnd hv2 hv]

end

/-- C63: neither conversion compiles if monostate is among the alternatives a second time. -/
theorem C63_second_monostate (other : Convert Ty Val) (mono : Ty) (monoVal : Val) (ts : List Ty) (h : mono ∈ ts) (o : Option (Held Val))
    (v : Held Val) :
    optionalToVariant other mono monoVal ts o = none ∧ variantToOptional other mono (withMonostate mono ts) v = none := by
  have hc : 2 ≤ (withMonostate mono ts).count mono := by
    have := List.count_pos_iff.2 h
    unfold withMonostate
    simp [List.count_cons]; omega
  constructor
  · unfold optionalToVariant
    simp only [select_many other mono _ hc]
  · unfold variantToOptional
    rw [(C63_monostate_types mono ts ts).1, Option.bind_some, if_neg]
    rintro ⟨h1, -⟩; omega

/-- C63 (partial): `variant_cat_t` lists the alternatives of all its arguments; missing: more than two arguments. -/
theorem C63_cat_partial (vs : List (List Ty)) (h0 : vs ≠ []) (h2 : vs.length ≤ 2) : variantCat vs = some vs.flatten := by
  match vs, h0, h2 with
  | [a], _, _ => simp [variantCat]
  | [a, b], _, _ => simp [variantCat]
  | _ :: _ :: _ :: _, _, h => simp at h

/-- C63: every argument of `variant_cat_t` after the second is ignored, so that the property fails whenever one of these has any
alternatives. -/
theorem C63_cat_drops (a b : List Ty) (vs : List (List Ty)) :
    variantCat (a :: b :: vs) = variantCat [a, b] ∧
    (vs.flatten ≠ [] → variantCat (a :: b :: vs) ≠ some (a :: b :: vs).flatten) := by
  refine ⟨rfl, fun h hc => h ?_⟩
  simp only [variantCat, List.flatten_cons, Option.some.injEq, List.append_cancel_left_eq] at hc
  have hl := congrArg List.length hc
  rw [List.length_append] at hl
  exact List.length_eq_zero_iff.1 (by omega)

-- `std::variant<std::monostate, int, double>`, types named by numbers, no other conversions
example : ([1, 2] : List Nat) ≠ [] ∧ [1, 2].Nodup ∧ 0 ∉ [1, 2] := by decide
example : Holds [1, 2] (some (1, 5)) 2 5 := ⟨1, rfl, rfl⟩
example : variantCast (fun _ _ => none) [3, 2, 1] [1, 2] (some (0, 5)) = some (.ok (some (2, 5))) := by decide
example : optionalToVariant (fun _ _ => none) 0 7 [1, 2] (some (some (1, 5))) = some (.ok (some (2, 5))) := by decide
example : variantToOptional (fun _ _ => none) 0 [0, 1, 2] (some (2, 5)) = some (.ok (some (some (1, 5)))) := by decide
example : variantCat [[1], [2], [3]] = some [1, 2] := rfl

end Makeshift.Props
