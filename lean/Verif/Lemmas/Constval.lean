import Mathlib.Data.List.Basic
import Verif.Spec.Constval

namespace Makeshift.Constval

open Spec

theorem mapM_asScalar {ty : Nat} {vs : List Val} {xs : List Int} (h : vs.mapM (asScalar ty) = some xs) :
    vs = xs.map (.scalar ty) := by
  induction vs generalizing xs with
  | nil => simp only [List.mapM_nil] at h; cases h; rfl
  | cons v vs ih =>
    simp only [List.mapM_cons, Option.bind_eq_bind, Option.bind_eq_some_iff] at h
    obtain ⟨x, hx, ys, hys, h⟩ := h
    cases h
    cases v with
    | scalar ty' x' =>
      simp only [asScalar] at hx
      split at hx
      · rename_i he; subst he; cases hx; simp [ih hys]
      · cases hx
    | _ => simp [asScalar] at hx

theorem asScalar_map (ty : Nat) (xs : List Int) : (xs.map (Val.scalar ty)).mapM (asScalar ty) = some xs := by
  induction xs with
  | nil => rfl
  | cons x xs ih => simp [List.mapM_cons, asScalar, ih]

mutual
theorem hasTagged_iff : ∀ v : Val, hasTagged v = false ↔ Kept v
  | .scalar _ _ => ⟨fun _ => .scalar _ _, fun _ => rfl⟩
  | .other _ _ => ⟨fun _ => .other _ _, fun _ => rfl⟩
  | .tupleLike _ _ => ⟨fun _ => .tupleLike _ _, fun _ => rfl⟩
  | .obj c => by
    constructor
    · intro h
      cases c <;> first | exact .typeTag _ | exact .obj _ h
    · intro h
      cases h with
      | obj _ h => cases c <;> first | exact h | rfl
      | typeTag t => rfl
  | .tuple vs => by
    simp only [hasTagged, anyHasTagged_iff vs]
    exact ⟨fun h => .tuple vs h, fun h => by cases h with | tuple _ h => exact h⟩
  | .array b ty vs => by
    simp only [hasTagged, anyHasTagged_iff vs]
    exact ⟨fun h => .array b ty vs h, fun h => by cases h with | array _ _ _ h => exact h⟩
theorem anyHasTagged_iff : ∀ vs : List Val, anyHasTagged vs = false ↔ ∀ v ∈ vs, Kept v
  | [] => by simp [anyHasTagged]
  | v :: vs => by simp [anyHasTagged, hasTagged_iff v, anyHasTagged_iff vs]
end

mutual
theorem extractVal_plain (env : Env) : ∀ v : Val, hasTagged v = false → extractVal env v = some v
  | .scalar _ _, _ => rfl
  | .other _ _, _ => rfl
  | .tupleLike _ _, _ => rfl
  | .array _ _ _, _ => rfl
  | .obj c, h => by
    cases (hasTagged_iff _).1 h with
    | obj _ h => simp [extractVal, h]
    | typeTag t => rfl
  | .tuple vs, h => by simp only [hasTagged] at h; simp [extractVal, extractVals_plain env vs h]
theorem extractVals_plain (env : Env) : ∀ vs : List Val, anyHasTagged vs = false → extractVals env vs = some vs
  | [], _ => rfl
  | v :: vs, h => by
    simp only [anyHasTagged, Bool.or_eq_false_iff] at h
    simp [extractVals, extractVal_plain env v h.1, extractVals_plain env vs h.2]
end

mutual
theorem norm1_eval (env : Env) : ∀ (v : Val) (c c' : CT), eval env c = some v → norm1 v c = some c' →
    eval env c' = extractVal env v
  | .scalar ty v, c, c', _, h => by simp only [norm1, Option.some.injEq] at h; subst h; rfl
  | .other ty v, c, c', hv, h => by
    simp only [norm1] at h
    split at h <;> (simp only [Option.some.injEq] at h; subst h; simpa [eval, extractVal] using hv)
  | .tupleLike ty vs, c, c', hv, h => by
    simp only [norm1, Option.some.injEq] at h; subst h; simpa [eval, extractVal] using hv
  | .obj c0, c, c', hv, h => by
    simp only [norm1] at h
    by_cases ht : tagged c0 = true
    · rw [if_pos ht] at h
      simp only [Option.some.injEq] at h
      subst h
      simp [extractVal, ht]
    · rw [if_neg ht] at h
      split at h <;> (simp only [Option.some.injEq] at h; subst h; simpa [eval, extractVal, ht] using hv)
  | .array true ty vs, c, c', hv, h => by
    simp only [norm1, Option.map_eq_some_iff] at h
    obtain ⟨xs, hxs, rfl⟩ := h
    simp [eval, extractVal, mapM_asScalar hxs]
  | .array false ty vs, c, c', hv, h => by
    simp only [norm1, Option.map_eq_some_iff] at h
    obtain ⟨cs, hcs, rfl⟩ := h
    have := normArray_eval env vs 0 c [] false ty cs (by simpa using hv) rfl hcs
    simp [eval, extractVal, this]
  | .tuple vs, c, c', hv, h => by
    simp only [norm1, Option.map_eq_some_iff] at h
    obtain ⟨cs, hcs, rfl⟩ := h
    have := normTuple_eval env vs 0 c [] cs (by simpa using hv) rfl hcs
    simp [eval, extractVal, this]
theorem normArray_eval (env : Env) : ∀ (vs : List Val) (i : Nat) (c : CT) (pre : List Val) (b : Bool) (ty : Nat) (cs : List CT),
    eval env c = some (.array b ty (pre ++ vs)) → i = pre.length → normArray vs i c = some cs → evalList env cs = some vs
  | [], i, c, pre, b, ty, cs, _, _, h => by simp only [normArray, Option.some.injEq] at h; subst h; rfl
  | v :: vs, i, c, pre, b, ty, cs, hv, hi, h => by
    simp only [normArray] at h
    split at h
    · cases h
    · rename_i hp
      simp only [Option.bind_eq_some_iff, Option.map_eq_some_iff] at h
      obtain ⟨c', hc', cs', hcs', rfl⟩ := h
      have h1 := norm1_eval env v (.arrayAccessor i c) c' (by simp [eval, hv, getArray, hi]) hc'
      rw [extractVal_plain env v (by simpa using hp)] at h1
      have h2 := normArray_eval env vs (i + 1) c (pre ++ [v]) b ty cs' (by simpa using hv) (by simp [hi]) hcs'
      simp [evalList, h1, h2]
theorem normTuple_eval (env : Env) : ∀ (vs : List Val) (i : Nat) (c : CT) (pre : List Val) (cs : List CT),
    eval env c = some (.tuple (pre ++ vs)) → i = pre.length → normTuple vs i c = some cs → evalList env cs = extractVals env vs
  | [], i, c, pre, cs, _, _, h => by simp only [normTuple, Option.some.injEq] at h; subst h; rfl
  | v :: vs, i, c, pre, cs, hv, hi, h => by
    simp only [normTuple, Option.bind_eq_some_iff] at h
    obtain ⟨c', hc', h⟩ := h
    split at h
    · simp only [Option.map_eq_some_iff] at h
      obtain ⟨cs', hcs', rfl⟩ := h
      have h1 := norm1_eval env v (.tupleAccessor i c) c' (by simp [eval, hv, getTuple, hi]) hc'
      have h2 := normTuple_eval env vs (i + 1) c (pre ++ [v]) cs' (by simpa using hv) (by simp [hi]) hcs'
      simp only [evalList, h1, h2, extractVals]
    · cases h
end

/-- Normalisation yields a type which normalisation returns unaltered (`type_sequence` and `type_tag` via the `<C, C>` shortcut). -/
theorem norm1_known {v : Val} {c c' : CT} (h : norm1 v c = some c') : known c' = true ∨ RepresentsTypes c' := by
  cases v with
  | scalar ty v => simp only [norm1, Option.some.injEq] at h; subst h; exact .inl rfl
  | other ty v => simp only [norm1] at h; split at h <;> (simp only [Option.some.injEq] at h; subst h; exact .inl rfl)
  | tupleLike ty vs => simp only [norm1, Option.some.injEq] at h; subst h; exact .inl rfl
  | array b ty vs =>
    cases b <;> (simp only [norm1, Option.map_eq_some_iff] at h; obtain ⟨_, _, rfl⟩ := h; exact .inl rfl)
  | tuple vs => simp only [norm1, Option.map_eq_some_iff] at h; obtain ⟨_, _, rfl⟩ := h; exact .inl rfl
  | obj c0 =>
    simp only [norm1] at h
    split at h
    · rename_i ht
      simp only [Option.some.injEq] at h
      subst h
      cases c0 <;> simp [tagged, known, RepresentsTypes] at ht ⊢
    · split at h <;> (simp only [Option.some.injEq] at h; subst h; exact .inl rfl)

theorem norm1_hasValueType {v : Val} {c c' : CT} (h : norm1 v c = some c') (hv : ∀ d, RepresentsTypes d → v ≠ .obj d) :
    hasValueType c' = true := by
  cases v with
  | scalar ty v => simp only [norm1, Option.some.injEq] at h; subst h; rfl
  | other ty v => simp only [norm1] at h; split at h <;> (simp only [Option.some.injEq] at h; subst h; rfl)
  | tupleLike ty vs => simp only [norm1, Option.some.injEq] at h; subst h; rfl
  | array b ty vs =>
    cases b <;> (simp only [norm1, Option.map_eq_some_iff] at h; obtain ⟨_, _, rfl⟩ := h; rfl)
  | tuple vs => simp only [norm1, Option.map_eq_some_iff] at h; obtain ⟨_, _, rfl⟩ := h; rfl
  | obj c0 =>
    simp only [norm1] at h
    split at h
    · rename_i ht
      simp only [Option.some.injEq] at h
      subst h
      cases c0 <;> simp [tagged, hasValueType, isConstval] at ht ⊢
      · exact hv (.typeSequence _) trivial rfl
      · exact hv (.typeTag _) trivial rfl
    · split at h <;> (simp only [Option.some.injEq] at h; subst h; rfl)

mutual
theorem norm1_exists : ∀ (v : Val) (c : CT), Representable v → ∃ c', norm1 v c = some c'
  | .scalar _ _, c, _ => ⟨_, rfl⟩
  | .other _ _, c, _ => by simp only [norm1]; split <;> exact ⟨_, rfl⟩
  | .tupleLike _ _, c, _ => ⟨_, rfl⟩
  | .obj c0, c, _ => by
    simp only [norm1]
    split
    · exact ⟨_, rfl⟩
    · split <;> exact ⟨_, rfl⟩
  | .array true ty vs, c, h => by
    cases h with
    | scalarArray _ xs => exact ⟨_, by simp only [norm1, asScalar_map]; rfl⟩
  | .array false ty vs, c, h => by
    cases h with
    | array _ _ h1 h2 =>
      obtain ⟨cs, hcs⟩ := normArray_exists vs 0 c (fun v hv => ⟨h1 v hv, h2 v hv⟩)
      exact ⟨_, by simp only [norm1, hcs]; rfl⟩
  | .tuple vs, c, h => by
    cases h with
    | tuple _ h1 h2 =>
      obtain ⟨cs, hcs⟩ := normTuple_exists vs 0 c (fun v hv => ⟨h1 v hv, fun d hd he => h2 d hd (he ▸ hv)⟩)
      exact ⟨_, by simp only [norm1, hcs]; rfl⟩
theorem normArray_exists : ∀ (vs : List Val) (i : Nat) (c : CT), (∀ v ∈ vs, Representable v ∧ Kept v) →
    ∃ cs, normArray vs i c = some cs
  | [], _, _, _ => ⟨[], rfl⟩
  | v :: vs, i, c, h => by
    obtain ⟨c', hc'⟩ := norm1_exists v (.arrayAccessor i c) (h v (by simp)).1
    obtain ⟨cs, hcs⟩ := normArray_exists vs (i + 1) c (fun w hw => h w (by simp [hw]))
    have hp := (hasTagged_iff v).2 (h v (by simp)).2
    exact ⟨c' :: cs, by simp [normArray, hp, hc', hcs]⟩
theorem normTuple_exists : ∀ (vs : List Val) (i : Nat) (c : CT),
    (∀ v ∈ vs, Representable v ∧ ∀ d, RepresentsTypes d → v ≠ .obj d) → ∃ cs, normTuple vs i c = some cs
  | [], _, _, _ => ⟨[], rfl⟩
  | v :: vs, i, c, h => by
    obtain ⟨c', hc'⟩ := norm1_exists v (.tupleAccessor i c) (h v (by simp)).1
    obtain ⟨cs, hcs⟩ := normTuple_exists vs (i + 1) c (fun w hw => h w (by simp [hw]))
    have ht := norm1_hasValueType hc' (h v (by simp)).2
    exact ⟨c' :: cs, by simp [normTuple, hc', ht, hcs]⟩
end

mutual
/-- A successful normalisation shows that the value is representable. -/
theorem norm1_representable : ∀ (v : Val) (c c' : CT), norm1 v c = some c' → Representable v
  | .scalar _ _, _, _, _ => .scalar _ _
  | .other _ _, _, _, _ => .other _ _
  | .tupleLike _ _, _, _, _ => .tupleLike _ _
  | .obj _, _, _, _ => .obj _
  | .array true ty vs, c, c', h => by
    simp only [norm1, Option.map_eq_some_iff] at h
    obtain ⟨xs, hxs, rfl⟩ := h
    rw [mapM_asScalar hxs]
    exact .scalarArray ty xs
  | .array false ty vs, c, c', h => by
    simp only [norm1, Option.map_eq_some_iff] at h
    obtain ⟨cs, hcs, rfl⟩ := h
    exact .array ty vs (fun v hv => (normArray_representable vs 0 c cs hcs v hv).1)
      (fun v hv => (normArray_representable vs 0 c cs hcs v hv).2)
  | .tuple vs, c, c', h => by
    simp only [norm1, Option.map_eq_some_iff] at h
    obtain ⟨cs, hcs, rfl⟩ := h
    exact .tuple vs (fun v hv => (normTuple_representable vs 0 c cs hcs v hv).1)
      (fun d hd hv => (normTuple_representable vs 0 c cs hcs _ hv).2 d hd rfl)
theorem normArray_representable : ∀ (vs : List Val) (i : Nat) (c : CT) (cs : List CT), normArray vs i c = some cs →
    ∀ v ∈ vs, Representable v ∧ Kept v
  | [], _, _, _, _ => by simp
  | v :: vs, i, c, cs, h => by
    simp only [normArray] at h
    split at h
    · cases h
    · rename_i hp
      simp only [Option.bind_eq_some_iff, Option.map_eq_some_iff] at h
      obtain ⟨c', hc', cs', hcs', rfl⟩ := h
      have h1 := norm1_representable v _ _ hc'
      have h2 := normArray_representable vs _ _ _ hcs'
      simp only [List.mem_cons, forall_eq_or_imp]
      exact ⟨⟨h1, (hasTagged_iff v).1 (by simpa using hp)⟩, h2⟩
theorem normTuple_representable : ∀ (vs : List Val) (i : Nat) (c : CT) (cs : List CT), normTuple vs i c = some cs →
    ∀ v ∈ vs, Representable v ∧ ∀ d, RepresentsTypes d → v ≠ .obj d
  | [], _, _, _, _ => by simp
  | v :: vs, i, c, cs, h => by
    simp only [normTuple, Option.bind_eq_some_iff] at h
    obtain ⟨c', hc', h⟩ := h
    split at h
    · rename_i hvt
      simp only [Option.map_eq_some_iff] at h
      obtain ⟨cs', hcs', rfl⟩ := h
      have h1 := norm1_representable v _ _ hc'
      have h2 := normTuple_representable vs _ _ _ hcs'
      simp only [List.mem_cons, forall_eq_or_imp]
      refine ⟨⟨h1, ?_⟩, h2⟩
      rintro d hd rfl
      have ht : tagged d = true := by cases d <;> simp_all [RepresentsTypes, tagged]
      simp only [norm1, ht, if_true, Option.some.injEq] at hc'
      subst hc'
      cases d <;> simp_all [RepresentsTypes, hasValueType]
    · cases h
end

mutual
theorem norm1_canonical : ∀ (v : Val) (c₁ c₂ : CT), Normalisable v → norm1 v c₁ = norm1 v c₂
  | .scalar _ _, _, _, _ => rfl
  | .other _ _, _, _, h => by cases h
  | .tupleLike _ _, _, _, h => by cases h
  | .obj _, _, _, h => by cases h
  | .array true ty vs, _, _, _ => by simp only [norm1]
  | .array false ty vs, c₁, c₂, h => by
    cases h with
    | array _ _ h => simp only [norm1, normArray_canonical vs 0 c₁ c₂ h]
  | .tuple vs, c₁, c₂, h => by
    cases h with
    | tuple _ h => simp only [norm1, normTuple_canonical vs 0 0 c₁ c₂ h]
theorem normArray_canonical : ∀ (vs : List Val) (i : Nat) (c₁ c₂ : CT), (∀ v ∈ vs, Normalisable v) →
    normArray vs i c₁ = normArray vs i c₂
  | [], _, _, _, _ => rfl
  | v :: vs, i, c₁, c₂, h => by
    simp only [normArray, norm1_canonical v (.arrayAccessor i c₁) (.arrayAccessor i c₂) (h v (by simp)),
      normArray_canonical vs (i + 1) c₁ c₂ (fun w hw => h w (by simp [hw]))]
theorem normTuple_canonical : ∀ (vs : List Val) (i j : Nat) (c₁ c₂ : CT), (∀ v ∈ vs, Normalisable v) →
    normTuple vs i c₁ = normTuple vs j c₂
  | [], _, _, _, _, _ => rfl
  | v :: vs, i, j, c₁, c₂, h => by
    simp only [normTuple, norm1_canonical v (.tupleAccessor i c₁) (.tupleAccessor j c₂) (h v (by simp)),
      normTuple_canonical vs (i + 1) (j + 1) c₁ c₂ (fun w hw => h w (by simp [hw]))]
end

theorem normalisable_plain : ∀ {v : Val}, Normalisable v → Plain v := by
  intro v h
  induction h with
  | scalar ty v => exact .scalar ty v
  | scalarArray ty vs =>
    refine .array _ _ _ (fun v hv => ?_)
    simp only [List.mem_map] at hv
    obtain ⟨x, _, rfl⟩ := hv
    exact .scalar ty x
  | array ty vs _ ih => exact .array _ _ _ ih
  | tuple vs _ ih => exact .tuple _ ih

theorem kept_of_plain : ∀ {v : Val}, Plain v → Kept v := by
  intro v h
  induction h with
  | scalar ty v => exact .scalar ty v
  | other ty v => exact .other ty v
  | tupleLike ty vs => exact .tupleLike ty vs
  | array b ty vs _ ih => exact .array b ty vs ih
  | tuple vs _ ih => exact .tuple vs ih
  | obj c h => exact .obj c h

theorem normalisable_kept {v : Val} (h : Normalisable v) : Kept v := kept_of_plain (normalisable_plain h)

theorem normalisable_representable : ∀ {v : Val}, Normalisable v → Representable v := by
  intro v h
  induction h with
  | scalar ty v => exact .scalar ty v
  | scalarArray ty vs => exact .scalarArray ty vs
  | array ty vs h ih => exact .array _ _ ih (fun v hv => normalisable_kept (h v hv))
  | tuple vs h ih =>
    refine .tuple _ ih ?_
    intro d _ hv
    cases h _ hv

theorem evalList_get {env : Env} {cs : List CT} {vs : List Val} (h : evalList env cs = some vs) :
    cs.length = vs.length ∧ ∀ (i : Nat) (c : CT) (v : Val), cs[i]? = some c → vs[i]? = some v → eval env c = some v := by
  induction cs generalizing vs with
  | nil => simp only [evalList, Option.some.injEq] at h; subst h; simp
  | cons c cs ih =>
    simp only [evalList, Option.bind_eq_some_iff, Option.map_eq_some_iff] at h
    obtain ⟨v, hv, vs', hvs, rfl⟩ := h
    obtain ⟨h1, h2⟩ := ih hvs
    refine ⟨by simp [h1], ?_⟩
    intro i c' v' hc' hv'
    cases i with
    | zero => simp only [List.getElem?_cons_zero, Option.some.injEq] at hc' hv'; subst hc' hv'; exact hv
    | succ i => exact h2 i c' v' (by simpa using hc') (by simpa using hv')

theorem normTuple_get : ∀ (vs : List Val) (i : Nat) (c : CT) (cs : List CT), normTuple vs i c = some cs →
    cs.length = vs.length ∧ ∀ (j : Nat) (v : Val) (c' : CT), vs[j]? = some v → cs[j]? = some c' → norm1 v (.tupleAccessor (i + j) c) = some c'
  | [], _, _, cs, h => by simp only [normTuple, Option.some.injEq] at h; subst h; simp
  | v :: vs, i, c, cs, h => by
    simp only [normTuple, Option.bind_eq_some_iff] at h
    obtain ⟨c', hc', h⟩ := h
    split at h
    · simp only [Option.map_eq_some_iff] at h
      obtain ⟨cs', hcs', rfl⟩ := h
      obtain ⟨h1, h2⟩ := normTuple_get vs (i + 1) c cs' hcs'
      refine ⟨by simp [h1], ?_⟩
      intro j w d hw hd
      cases j with
      | zero => simp only [List.getElem?_cons_zero, Option.some.injEq] at hw hd; subst hw hd; simpa using hc'
      | succ j =>
        have := h2 j w d (by simpa using hw) (by simpa using hd)
        rwa [show i + (j + 1) = i + 1 + j by omega]
    · cases h

end Makeshift.Constval
