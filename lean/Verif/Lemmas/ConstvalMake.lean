import Verif.Lemmas.Constval
import Verif.Lemmas.TypeTraits
import Verif.Model.ConstvalMake
import Verif.Spec.ConstvalMake

namespace Makeshift.Constval

open Spec

mutual
/-- The canonical type is what normalisation yields, whatever the functor. -/
theorem canonical_norm : ∀ (v : Val) (c d : CT), CanonicalOf v c → norm1 v d = some c ∧ Normalisable v
  | .scalar _ _, _, _, h => by cases h; exact ⟨rfl, .scalar _ _⟩
  | .other _ _, _, _, h => by cases h
  | .tupleLike _ _, _, _, h => by cases h
  | .obj _, _, _, h => by cases h
  | .array true _ _, _, _, h => by
    cases h with
    | scalarArray ty xs => exact ⟨by simp only [norm1, asScalar_map]; rfl, .scalarArray _ xs⟩
  | .array false _ vs, _, d, h => by
    cases h with
    | array ty h =>
      obtain ⟨h1, h2⟩ := canonical_normArray vs _ 0 d h
      exact ⟨by simp only [norm1, h1]; rfl, .array _ vs h2⟩
  | .tuple vs, _, d, h => by
    cases h with
    | tuple h =>
      obtain ⟨h1, h2⟩ := canonical_normTuple vs _ 0 d h
      exact ⟨by simp only [norm1, h1]; rfl, .tuple vs h2⟩
theorem canonical_normArray : ∀ (vs : List Val) (cs : List CT) (i : Nat) (d : CT), List.Forall₂ CanonicalOf vs cs →
    normArray vs i d = some cs ∧ ∀ v ∈ vs, Normalisable v
  | [], _, _, _, h => by cases h; exact ⟨rfl, by simp⟩
  | v :: vs, _, i, d, h => by
    cases h with
    | cons h1 h2 =>
      obtain ⟨h3, h4⟩ := canonical_norm v _ (.arrayAccessor i d) h1
      obtain ⟨h5, h6⟩ := canonical_normArray vs _ (i + 1) d h2
      have hp := (hasTagged_iff v).2 (normalisable_kept h4)
      refine ⟨by simp [normArray, hp, h3, h5], ?_⟩
      simp only [List.mem_cons, forall_eq_or_imp]
      exact ⟨h4, h6⟩
theorem canonical_normTuple : ∀ (vs : List Val) (cs : List CT) (i : Nat) (d : CT), List.Forall₂ CanonicalOf vs cs →
    normTuple vs i d = some cs ∧ ∀ v ∈ vs, Normalisable v
  | [], _, _, _, h => by cases h; exact ⟨rfl, by simp⟩
  | v :: vs, _, i, d, h => by
    cases h with
    | cons h1 h2 =>
      obtain ⟨h3, h4⟩ := canonical_norm v _ (.tupleAccessor i d) h1
      obtain ⟨h5, h6⟩ := canonical_normTuple vs _ (i + 1) d h2
      have hp := norm1_hasValueType h3 (by rintro d _ rfl; cases h1)
      refine ⟨by simp [normTuple, hp, h3, h5], ?_⟩
      simp only [List.mem_cons, forall_eq_or_imp]
      exact ⟨h4, h6⟩
end

mutual
/-- The type normalisation yields is either canonical or contains the functor. -/
theorem norm1_canonical_or : ∀ (v : Val) (c d : CT), Plain v → norm1 v d = some c → CanonicalOf v c ∨ sizeOf d ≤ sizeOf c
  | .scalar _ _, _, _, _, h => by simp only [norm1, Option.some.injEq] at h; subst h; exact .inl (.scalar _ _)
  | .other _ _, _, d, _, h => by
    right
    simp only [norm1] at h
    split at h <;> (simp only [Option.some.injEq] at h; subst h; simp)
  | .tupleLike _ _, _, d, _, h => by
    right
    simp only [norm1, Option.some.injEq] at h; subst h; simp
  | .obj c0, _, d, hp, h => by
    right
    cases hp with
    | obj _ ht =>
      simp only [norm1, ht, Bool.false_eq_true, if_false] at h
      split at h <;> (simp only [Option.some.injEq] at h; subst h; simp)
  | .array true ty vs, _, d, _, h => by
    simp only [norm1, Option.map_eq_some_iff] at h
    obtain ⟨xs, hxs, rfl⟩ := h
    rw [mapM_asScalar hxs]
    exact .inl (.scalarArray ty xs)
  | .array false ty vs, _, d, hp, h => by
    simp only [norm1, Option.map_eq_some_iff] at h
    obtain ⟨cs, hcs, rfl⟩ := h
    have hp : ∀ v ∈ vs, Plain v := by cases hp with | array _ _ _ h => exact h
    rcases normArray_canonical_or vs cs 0 d hp hcs with h | h
    · exact .inl (.array ty h)
    · exact .inr (by simp; omega)
  | .tuple vs, _, d, hp, h => by
    simp only [norm1, Option.map_eq_some_iff] at h
    obtain ⟨cs, hcs, rfl⟩ := h
    have hp : ∀ v ∈ vs, Plain v := by cases hp with | tuple _ h => exact h
    rcases normTuple_canonical_or vs cs 0 d hp hcs with h | h
    · exact .inl (.tuple h)
    · exact .inr (by simp; omega)
theorem normArray_canonical_or : ∀ (vs : List Val) (cs : List CT) (i : Nat) (d : CT), (∀ v ∈ vs, Plain v) →
    normArray vs i d = some cs → List.Forall₂ CanonicalOf vs cs ∨ sizeOf d ≤ sizeOf cs
  | [], _, _, _, _, h => by simp only [normArray, Option.some.injEq] at h; subst h; exact .inl .nil
  | v :: vs, _, i, d, hp, h => by
    simp only [normArray] at h
    split at h
    · cases h
    · simp only [Option.bind_eq_some_iff, Option.map_eq_some_iff] at h
      obtain ⟨c', hc', cs', hcs', rfl⟩ := h
      rcases norm1_canonical_or v c' _ (hp v (by simp)) hc' with h1 | h1
      · rcases normArray_canonical_or vs cs' _ d (fun w hw => hp w (by simp [hw])) hcs' with h2 | h2
        · exact .inl (.cons h1 h2)
        · exact .inr (by simp; omega)
      · refine .inr ?_
        simp at h1 ⊢
        omega
theorem normTuple_canonical_or : ∀ (vs : List Val) (cs : List CT) (i : Nat) (d : CT), (∀ v ∈ vs, Plain v) →
    normTuple vs i d = some cs → List.Forall₂ CanonicalOf vs cs ∨ sizeOf d ≤ sizeOf cs
  | [], _, _, _, _, h => by simp only [normTuple, Option.some.injEq] at h; subst h; exact .inl .nil
  | v :: vs, _, i, d, hp, h => by
    simp only [normTuple, Option.bind_eq_some_iff] at h
    obtain ⟨c', hc', h⟩ := h
    split at h
    · simp only [Option.map_eq_some_iff] at h
      obtain ⟨cs', hcs', rfl⟩ := h
      rcases norm1_canonical_or v c' _ (hp v (by simp)) hc' with h1 | h1
      · rcases normTuple_canonical_or vs cs' _ d (fun w hw => hp w (by simp [hw])) hcs' with h2 | h2
        · exact .inl (.cons h1 h2)
        · exact .inr (by simp; omega)
      · refine .inr ?_
        simp at h1 ⊢
        omega
    · cases h
end

mutual
/-- The canonical constval of a value has that value. -/
theorem canonical_eval (env : Env) : ∀ (v : Val) (c : CT), CanonicalOf v c → eval env c = some v ∧ hasValueType c = true
  | .scalar _ _, _, h => by cases h; exact ⟨rfl, rfl⟩
  | .other _ _, _, h => by cases h
  | .tupleLike _ _, _, h => by cases h
  | .obj _, _, h => by cases h
  | .array true _ _, _, h => by cases h; exact ⟨rfl, rfl⟩
  | .array false _ vs, _, h => by
    cases h with
    | array ty h => exact ⟨by simp [eval, canonical_evalList env vs _ h], rfl⟩
  | .tuple vs, _, h => by
    cases h with
    | tuple h => exact ⟨by simp [eval, canonical_evalList env vs _ h], rfl⟩
theorem canonical_evalList (env : Env) : ∀ (vs : List Val) (cs : List CT), List.Forall₂ CanonicalOf vs cs →
    evalList env cs = some vs
  | [], _, h => by cases h; rfl
  | v :: vs, _, h => by
    cases h with
    | cons h1 h2 => simp [evalList, (canonical_eval env v _ h1).1, canonical_evalList env vs _ h2]
end

theorem evalList_iff {env : Env} {cs : List CT} {vs : List Val} :
    evalList env cs = some vs ↔ List.Forall₂ (fun c v => eval env c = some v) cs vs := by
  induction cs generalizing vs with
  | nil => cases vs <;> simp [evalList]
  | cons c cs ih =>
    cases vs with
    | nil => simp [evalList, Option.bind_eq_some_iff]
    | cons v vs => simp [evalList, Option.bind_eq_some_iff, ih]

theorem valueType_spec {name : Val → Nat} {vs : List Val} {b : Bool} {ty : Nat} :
    (∀ U ∈ vs.map (valueType name), U = (b, ty)) ↔ AllOfType name b ty vs := by
  constructor
  · intro h
    simp only [List.mem_map, forall_exists_index, and_imp, forall_apply_eq_imp_iff₂] at h
    cases b with
    | true =>
      have : ∃ xs : List Int, vs = xs.map (.scalar ty) := by
        induction vs with
        | nil => exact ⟨[], rfl⟩
        | cons v vs ih =>
          obtain ⟨xs, hxs⟩ := ih (fun w hw => h w (by simp [hw]))
          have := h v (by simp)
          cases v with
          | scalar ty' x =>
            simp only [valueType, Prod.mk.injEq, true_and] at this
            subst this
            exact ⟨x :: xs, by simp [hxs]⟩
          | _ => simp [valueType] at this
      obtain ⟨xs, rfl⟩ := this
      exact .scalars ty xs
    | false =>
      refine .others ty vs (fun v hv => ?_)
      have := h v hv
      cases v <;> simp_all [valueType]
  · intro h
    cases h with
    | scalars _ xs => simp [valueType]
    | others _ _ h =>
      simp only [List.mem_map, forall_exists_index, and_imp, forall_apply_eq_imp_iff₂]
      intro v hv
      obtain ⟨h1, h2⟩ := h v hv
      cases v with
      | scalar ty' x => exact absurd rfl (h2 ty' x)
      | _ => simp only [valueType, h1]

theorem makeArrayConstant_of {env : Env} {name : Val → Nat} {cs : List CT} {vs : List Val}
    (hc : ∀ c ∈ cs, hasValueType c = true) (hv : evalList env cs = some vs) (a : CT) :
    makeArrayConstant env name cs = some a ↔ vs ≠ [] ∧
      ((∃ ty xs, vs = xs.map (.scalar ty) ∧ a = .arrayConstant ty xs) ∨
       (∃ ty, AllOfType name false ty vs ∧ a = .arrayConstantRef false ty cs)) := by
  have hall : cs.all hasValueType = true := List.all_eq_true.2 hc
  simp only [makeArrayConstant, hall, if_true, hv, Option.bind_some]
  constructor
  · intro h
    split at h
    · rename_i ty he
      obtain ⟨h1, h2⟩ := (equalTypes_spec _ _).1 he
      rw [valueType_spec] at h2
      simp only [Option.map_eq_some_iff] at h
      obtain ⟨xs, hxs, rfl⟩ := h
      exact ⟨by simpa using h1, .inl ⟨ty, xs, mapM_asScalar hxs, rfl⟩⟩
    · rename_i ty he
      obtain ⟨h1, h2⟩ := (equalTypes_spec _ _).1 he
      rw [valueType_spec] at h2
      simp only [Option.some.injEq] at h
      exact ⟨by simpa using h1, .inr ⟨ty, h2, h.symm⟩⟩
    · cases h
  · rintro ⟨hne, ⟨ty, xs, rfl, rfl⟩ | ⟨ty, h, rfl⟩⟩
    · have : equalTypes ((xs.map (Val.scalar ty)).map (valueType name)) = some (true, ty) :=
        (equalTypes_spec _ _).2 ⟨by simpa using hne, valueType_spec.2 (.scalars ty xs)⟩
      rw [this]
      simp only [asScalar_map, Option.map_some]
    · have : equalTypes (vs.map (valueType name)) = some (false, ty) :=
        (equalTypes_spec _ _).2 ⟨by simpa using hne, valueType_spec.2 h⟩
      rw [this]

theorem hasValueType_iff (c : CT) : hasValueType c = true ↔ isConstval c = true ∧ ¬ Spec.RepresentsTypes c := by
  cases c <;> simp [hasValueType, isConstval, tagged, Spec.RepresentsTypes]

end Makeshift.Constval
