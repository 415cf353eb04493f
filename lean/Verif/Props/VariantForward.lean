import Verif.Lemmas.VariantForward

/-! # C86: variants and functors are forwarded as by `std::visit` -/

namespace Makeshift.Props

open Makeshift.TupleAccess Makeshift.TupleMove Makeshift.VariantForward Makeshift.Spec.VariantForward

variable {V F : Type}

private theorem exists_combo {args : List VArg} (h : ∀ v ∈ args, v.alts ≠ []) : ∃ ts, Combo args ts := by
  induction args with
  | nil => exact ⟨[], .nil⟩
  | cons v vs ih =>
    obtain ⟨ts, hts⟩ := ih (fun v hv => h v (List.mem_cons_of_mem _ hv))
    obtain ⟨c, hc⟩ := List.exists_mem_of_ne_nil _ (h v List.mem_cons_self)
    exact ⟨_ :: ts, .cons ⟨c, hc, rfl⟩ hts⟩

private theorem callTy_some {f : Functor V F} {a : Access} {ts : List Ty} {r : RTy} :
    f.callTy a ts = some r ↔ f.memberPointer = false ∧ f.resTy a ts = some r := by
  unfold Functor.callTy
  cases f.memberPointer <;> simp

private theorem callTys_some {f : ManyFunctor V F} {a : Access} {ts : List Ty} {r : List CTy} :
    f.callTys a ts = some r ↔ f.memberPointer = false ∧ f.resTys a ts = some r := by
  unfold ManyFunctor.callTys
  cases f.memberPointer <;> simp

/-! ## `variant_transform` -/

private theorem transform_choice (other : List CTy → CTy → Option Nat) (f : Functor V F) (a : Access) (args : List VArg)
    (hw : ∀ v ∈ args, IsVariant v) {rs : List RTy} {R : List CTy} (hrs : results (f.callTy a) args = some rs)
    (hR : transformAlts rs = some R) :
    allConvertible other R rs = true ↔
      ∀ ts ts' T T', Combo args ts → Combo args ts' → f.callTy a ts = some (.ty (.obj T)) → f.callTy a ts' = some (.ty (.obj T')) →
        T.ty = T'.ty → T = T' := by
  obtain ⟨hn, hmem⟩ := transformAlts_spec hR
  have hm := results_mem (fun v hv => (hw v hv).1) hrs
  rw [allConvertible, List.all_eq_true]
  constructor
  · intro h ts ts' T T' h1 h2 h3 h4 hty
    by_contra hne
    have hTr := (hm _).2 ⟨ts, h1, h3⟩
    have hT := (hmem T).2 hTr
    have hT' := (hmem T').2 ((hm _).2 ⟨ts', h2, h4⟩)
    have := h _ hTr
    simp only [RTy.objTy, chooseAlt_ambiguous other hT hT' hty.symm (fun h => hne h.symm), Option.isSome_none, Bool.false_eq_true] at this
  · intro h r hr
    cases r with
    | void => rfl
    | ty t =>
      cases t with
      | lref c => rfl
      | rref c => rfl
      | obj T =>
        obtain ⟨ts, h1, h2⟩ := (hm _).1 hr
        obtain ⟨i, hi, _⟩ := chooseAlt_exact other hn ((hmem T).2 hr) (by
          intro T' hT' hty
          obtain ⟨ts', h1', h2'⟩ := (hm _).1 ((hmem T').1 hT')
          exact h ts' ts T' T h1' h1 h2' h2 hty)
        simp [RTy.objTy, hi]

/-- `variant_transform` compiles exactly if no variant is a const rvalue, the functor is not a pointer to member, there is a call for
every choice of alternatives, none of them returns a reference, not all return void, and no two result types differ only in const.
`std::visit` does not impose the first two conditions. -/
theorem C86_transform_compiles_partial (other : List CTy → CTy → Option Nat) (f : Functor V F) (a : Access) (s : F) (args : List VArg)
    (m : Mem V) (hw : ∀ v ∈ args, IsVariant v) :
    (∃ r, VariantForward.variantTransform other f a s args m = some r) ↔
      (∀ v ∈ args, ¬ (v.access.const = true ∧ v.access.rvalue = true)) ∧ f.memberPointer = false ∧
      (∀ ts, Combo args ts → f.resTy a ts = some .void ∨ ∃ T, f.resTy a ts = some (.ty (.obj T))) ∧
      (∃ ts, Combo args ts ∧ f.resTy a ts ≠ some .void) ∧
      (∀ ts ts' T T', Combo args ts → Combo args ts' → f.resTy a ts = some (.ty (.obj T)) → f.resTy a ts' = some (.ty (.obj T')) →
        T.ty = T'.ty → T = T') := by
  have ha : ∀ v ∈ args, v.alts ≠ [] := fun v hv => (hw v hv).1
  unfold VariantForward.variantTransform
  constructor
  · rintro ⟨r, hr⟩
    cases hrs : results (f.callTy a) args with
    | none => rw [hrs] at hr; cases hr
    | some rs =>
      rw [hrs, Option.bind_some] at hr
      cases hR : transformAlts rs with
      | none => rw [hR] at hr; cases hr
      | some R =>
        rw [hR, Option.bind_some] at hr
        have hm := results_mem ha hrs
        obtain ⟨h1, h2⟩ := (results_iff (f.callTy a) args ha).1 ⟨rs, hrs⟩
        obtain ⟨h3, h4⟩ := (transformAlts_iff rs).1 ⟨R, hR⟩
        obtain ⟨ts0, hts0⟩ := exists_combo ha
        obtain ⟨r0, hr0⟩ := h2 ts0 hts0
        have hmp := (callTy_some.1 hr0).1
        have hct : ∀ ts, f.callTy a ts = f.resTy a ts := fun ts => by simp [Functor.callTy, hmp]
        refine ⟨h1, hmp, ?_, ?_, ?_⟩
        · intro ts hts
          obtain ⟨q, hq⟩ := h2 ts hts
          have hq' := (hm q).2 ⟨ts, hts, hq⟩
          cases q with
          | void => exact .inl (by rw [← hct, hq])
          | ty t =>
            obtain ⟨c, rfl⟩ := h4 t hq'
            exact .inr ⟨c, by rw [← hct, hq]⟩
        · obtain ⟨t, ht⟩ := h3
          obtain ⟨ts, hts, he⟩ := (hm _).1 ht
          exact ⟨ts, hts, by rw [← hct, he]; simp⟩
        · have hall : allConvertible other R rs = true := by
            by_contra hn
            rw [if_neg hn] at hr
            cases hr
          have := (transform_choice other f a args hw hrs hR).1 hall
          simpa only [hct] using this
  · rintro ⟨h1, hmp, h2, ⟨ts1, hts1, h3⟩, h4⟩
    have hct : ∀ ts, f.callTy a ts = f.resTy a ts := fun ts => by simp [Functor.callTy, hmp]
    obtain ⟨rs, hrs⟩ := (results_iff (f.callTy a) args ha).2 ⟨h1, fun ts hts => by
      rcases h2 ts hts with h | ⟨T, h⟩
      · exact ⟨_, by rw [hct, h]⟩
      · exact ⟨_, by rw [hct, h]⟩⟩
    have hm := results_mem ha hrs
    obtain ⟨R, hR⟩ := (transformAlts_iff rs).2 ⟨by
      rcases h2 ts1 hts1 with h | ⟨T, h⟩
      · exact absurd h h3
      · exact ⟨_, (hm _).2 ⟨ts1, hts1, by rw [hct, h]⟩⟩, by
      intro t ht
      obtain ⟨ts, hts, he⟩ := (hm _).1 ht
      rw [hct] at he
      rcases h2 ts hts with h | ⟨T, h⟩
      · rw [h] at he; cases he
      · rw [h] at he; cases he; exact ⟨T, rfl⟩⟩
    have hall := (transform_choice other f a args hw hrs hR).2 (by simpa only [hct] using h4)
    rw [hrs, Option.bind_some, hR, Option.bind_some, if_pos hall]
    rcases holds_or hw with hv | ⟨cs, hcs⟩
    · rw [activeRefs_none hv]
      exact ⟨_, rfl⟩
    · rw [activeRefs_eq hcs, refTy_eq hcs]
      simp only [hct]
      have hc := combo_typesOf hcs
      rcases h2 _ hc with h | ⟨T, h⟩
      · rw [h]; exact ⟨_, rfl⟩
      · rw [h]
        obtain ⟨hn, hmem⟩ := transformAlts_spec hR
        obtain ⟨i, hi, _⟩ := chooseAlt_exact other hn ((hmem T).2 ((hm _).2 ⟨_, hc, by rw [hct, h]⟩)) (by
          intro T' hT' hty
          obtain ⟨ts', h1', h2'⟩ := (hm _).1 ((hmem T').1 hT')
          rw [hct] at h2'
          exact h4 ts' _ T' T h1' hc h2' h hty)
        simp only [hi, Option.map_some]
        exact ⟨_, rfl⟩

/-- `variant_transform` does not compile for a const rvalue variant, whatever the functor. -/
theorem C86_transform_const_rvalue (other : List CTy → CTy → Option Nat) (f : Functor V F) (a : Access) (s : F) (args : List VArg)
    (m : Mem V) (h : ∃ v ∈ args, v.access.const = true ∧ v.access.rvalue = true ∧ v.alts ≠ []) :
    VariantForward.variantTransform other f a s args m = none := by
  simp [VariantForward.variantTransform, results, argTypes_none args h]

/-- If `variant_transform` compiles and no variant is valueless: the functor object passed is called exactly once, with the value
category with which it was passed, and its state afterwards is that left by the call.  The arguments are the objects in the variants,
with the value categories of the variants.  The objects have the contents left by the call.  The result holds the result of the call,
in an alternative of its type; a void result fails fast. -/
theorem C86_transform (other : List CTy → CTy → Option Nat) (f : Functor V F) (a : Access) (s : F) (args : List VArg) (m : Mem V)
    (hw : ∀ v ∈ args, IsVariant v) (cs : List CTy) (hcs : List.Forall₂ HoldsAlt args cs) (r : Run V F (VariantVal CTy V))
    (hr : VariantForward.variantTransform other f a s args m = some r) :
    r.calls = [(a, argsOf m args cs)] ∧ r.functor = (f.run a (argsOf m args cs) s).2.2 ∧
    (OwnVariants args → AfterCall m args cs (f.run a (argsOf m args cs) s).2.1 r.mem) ∧
    ((f.resTy a (typesOf args cs) = some .void ∧ r.out = .failFast) ∨
      ∃ T v i, f.resTy a (typesOf args cs) = some (.ty (.obj T)) ∧ r.out = .ok v ∧
        v.active = some (i, (f.run a (argsOf m args cs) s).1) ∧ v.types[i]? = some T ∧ v.types.Nodup ∧
        ∀ T, T ∈ v.types ↔ ∃ ts, Combo args ts ∧ f.resTy a ts = some (.ty (.obj T))) := by
  have ha : ∀ v ∈ args, v.alts ≠ [] := fun v hv => (hw v hv).1
  obtain ⟨_, hmp, _, _, h4⟩ := (C86_transform_compiles_partial other f a s args m hw).1 ⟨r, hr⟩
  have hct : ∀ ts, f.callTy a ts = f.resTy a ts := fun ts => by simp [Functor.callTy, hmp]
  unfold VariantForward.variantTransform at hr
  cases hrs : results (f.callTy a) args with
  | none => rw [hrs] at hr; cases hr
  | some rs =>
    rw [hrs, Option.bind_some] at hr
    cases hR : transformAlts rs with
    | none => rw [hR] at hr; cases hr
    | some R =>
      rw [hR, Option.bind_some] at hr
      have hm := results_mem ha hrs
      have hall : allConvertible other R rs = true := by
        by_contra hn
        rw [if_neg hn] at hr
        cases hr
      rw [if_pos hall, activeRefs_eq hcs, refTy_eq hcs] at hr
      simp only [hct, seen_eq] at hr
      have hc := combo_typesOf hcs
      cases ht : f.resTy a (typesOf args cs) with
      | none => rw [ht] at hr; cases hr
      | some q =>
        rw [ht] at hr
        cases q with
        | void =>
          cases hr
          exact ⟨rfl, rfl, fun ho => afterCall cs ho m _, .inl ⟨rfl, rfl⟩⟩
        | ty t =>
          cases t with
          | lref c => cases hr
          | rref c => cases hr
          | obj T =>
            obtain ⟨hn, hmem⟩ := transformAlts_spec hR
            obtain ⟨i, hi, hi'⟩ := chooseAlt_exact other hn ((hmem T).2 ((hm _).2 ⟨_, hc, by rw [hct, ht]⟩)) (by
              intro T' hT' hty
              obtain ⟨ts', h1', h2'⟩ := (hm _).1 ((hmem T').1 hT')
              rw [hct] at h2'
              exact h4 ts' _ T' T h1' hc h2' ht hty)
            simp only [hi, Option.map_some, Option.some.injEq] at hr
            subst hr
            refine ⟨rfl, rfl, fun ho => afterCall cs ho m _, .inr ⟨T, _, i, rfl, rfl, rfl, hi', hn, fun T => ?_⟩⟩
            rw [hmem, hm]
            simp only [hct]

/-- If a variant is valueless, an exception is thrown, the functor is not called and no object is changed. -/
theorem C86_transform_valueless (other : List CTy → CTy → Option Nat) (f : Functor V F) (a : Access) (s : F) (args : List VArg)
    (m : Mem V) (hv : ∃ v ∈ args, v.active = none) (r : Run V F (VariantVal CTy V))
    (hr : VariantForward.variantTransform other f a s args m = some r) :
    r.calls = [] ∧ r.functor = s ∧ r.mem = m ∧ r.out = .throw (str "bad_variant_access") := by
  unfold VariantForward.variantTransform at hr
  cases hrs : results (f.callTy a) args with
  | none => rw [hrs] at hr; cases hr
  | some rs =>
    rw [hrs, Option.bind_some] at hr
    cases hR : transformAlts rs with
    | none => rw [hR] at hr; cases hr
    | some R =>
      rw [hR, Option.bind_some, activeRefs_none hv] at hr
      simp only [Option.ite_none_right_eq_some, Option.some.injEq] at hr
      obtain ⟨_, rfl⟩ := hr
      exact ⟨rfl, rfl, rfl, rfl⟩

/-! ## `variant_transform_many` -/

private theorem manyAlts_spec {rs : List (List CTy)} {R : List CTy} (h : manyAlts rs = some R) :
    R.Nodup ∧ ∀ T, T ∈ R ↔ ∃ Ts ∈ rs, T ∈ Ts := by
  unfold manyAlts at h
  simp only [Option.ite_none_left_eq_some, Option.some.injEq] at h
  obtain ⟨_, rfl⟩ := h
  refine ⟨nodup_uniqueSequence _, fun T => ?_⟩
  rw [mem_uniqueSequence, flattenVariant_eq, List.nil_append, List.mem_flatten]

private theorem many_cases {other : List CTy → CTy → Option Nat} {f : ManyFunctor V F} {a : Access} {s : F} {args : List VArg}
    {m : Mem V} {r : Run V F (VariantVal CTy V)} (hr : VariantForward.variantTransformMany other f a s args m = some r) :
    ∃ rs R cs s', results (f.callTys a) args = some rs ∧ manyAlts rs = some R ∧ results (f.callTys ⟨true, false⟩) args = some cs ∧
      capture f a s = some s' ∧ (cs.all fun Ts => Ts.all fun T => (chooseAlt other R T).isSome) = true := by
  unfold VariantForward.variantTransformMany at hr
  cases h1 : results (f.callTys a) args with
  | none => rw [h1] at hr; cases hr
  | some rs =>
    rw [h1, Option.bind_some] at hr
    cases h2 : manyAlts rs with
    | none => rw [h2] at hr; cases hr
    | some R =>
      rw [h2, Option.bind_some] at hr
      cases h3 : results (f.callTys ⟨true, false⟩) args with
      | none => rw [h3] at hr; cases hr
      | some cs =>
        rw [h3, Option.bind_some] at hr
        cases h4 : capture f a s with
        | none => rw [h4] at hr; cases hr
        | some s' =>
          rw [h4, Option.bind_some] at hr
          refine ⟨rs, R, cs, s', rfl, h2, rfl, rfl, ?_⟩
          by_contra hn
          rw [if_neg hn] at hr
          cases hr

/-- If `variant_transform_many` compiles, then the functor is called on a copy, as a const lvalue: it must be callable as such for every
choice of alternatives, a functor passed as an lvalue never changes, and one passed as an rvalue is left moved from. -/
theorem C86_many_calls_copy (other : List CTy → CTy → Option Nat) (f : ManyFunctor V F) (a : Access) (s : F) (args : List VArg)
    (m : Mem V) (hw : ∀ v ∈ args, IsVariant v) (r : Run V F (VariantVal CTy V))
    (hr : VariantForward.variantTransformMany other f a s args m = some r) :
    (∀ c ∈ r.calls, c.1 = ⟨true, false⟩) ∧ r.functor = (if a.rvalue = true ∧ a.const = false then f.moved s else s) ∧
    (∀ ts, Combo args ts → ∃ Ts, f.resTys ⟨true, false⟩ ts = some Ts) ∧
    (if a.rvalue = true ∧ a.const = false then f.movable = true else f.copyable = true) := by
  obtain ⟨rs, R, cs, s', h1, h2, h3, h4, h5⟩ := many_cases hr
  have hcap : s' = (if a.rvalue = true ∧ a.const = false then f.moved s else s) ∧
      (if a.rvalue = true ∧ a.const = false then f.movable = true else f.copyable = true) := by
    unfold capture at h4
    cases hr' : a.rvalue <;> cases hc' : a.const <;> cases hm : f.movable <;> cases hp : f.copyable <;> simp_all
  have hcomb : ∀ ts, Combo args ts → ∃ Ts, f.resTys ⟨true, false⟩ ts = some Ts := by
    intro ts hts
    obtain ⟨Ts, hTs⟩ := ((results_iff _ args (fun v hv => (hw v hv).1)).1 ⟨cs, h3⟩).2 ts hts
    exact ⟨Ts, (callTys_some.1 hTs).2⟩
  unfold VariantForward.variantTransformMany at hr
  rw [h1, Option.bind_some, h2, Option.bind_some, h3, Option.bind_some, h4, Option.bind_some, if_pos h5] at hr
  rcases holds_or hw with hv | ⟨alts, halts⟩
  · rw [activeRefs_none hv] at hr
    cases hr
    exact ⟨by simp, hcap.1, hcomb, hcap.2⟩
  · rw [activeRefs_eq halts, refTy_eq halts] at hr
    simp only [seen_eq] at hr
    cases h6 : f.callTys ⟨true, false⟩ (typesOf args alts) with
    | none => rw [h6] at hr; cases hr
    | some Ts =>
      rw [h6] at hr
      cases h7 : (f.run ⟨true, false⟩ (argsOf m args alts) s).1 with
      | none =>
        rw [h7] at hr
        cases hr
        exact ⟨by simp, hcap.1, hcomb, hcap.2⟩
      | some p =>
        obtain ⟨j, x⟩ := p
        rw [h7] at hr
        cases h8 : Ts[j]? with
        | none =>
          simp only [h8] at hr
          cases hr
          exact ⟨by simp, hcap.1, hcomb, hcap.2⟩
        | some T =>
          simp only [h8] at hr
          cases h9 : chooseAlt other R T with
          | none => rw [h9] at hr; cases hr
          | some i =>
            rw [h9] at hr
            cases hr
            exact ⟨by simp, hcap.1, hcomb, hcap.2⟩

/-- For a functor whose result types do not depend on how it is denoted, `variant_transform_many` compiles exactly if no variant is
a const rvalue, the functor is not a pointer to member and can be copied or moved, there is a call for every choice of alternatives,
and no two alternatives of the variants returned differ only in const. -/
theorem C86_many_compiles_partial (other : List CTy → CTy → Option Nat) (f : ManyFunctor V F) (a : Access) (s : F) (args : List VArg)
    (m : Mem V) (hw : ∀ v ∈ args, IsVariant v) (hf : ∀ ts, f.resTys a ts = f.resTys ⟨true, false⟩ ts)
    (hne : ∀ ts Ts, f.resTys a ts = some Ts → Ts ≠ []) :
    (∃ r, VariantForward.variantTransformMany other f a s args m = some r) ↔
      (∀ v ∈ args, ¬ (v.access.const = true ∧ v.access.rvalue = true)) ∧ f.memberPointer = false ∧
      (if a.rvalue = true ∧ a.const = false then f.movable = true else f.copyable = true) ∧
      (∀ ts, Combo args ts → ∃ Ts, f.resTys a ts = some Ts) ∧
      (∀ ts ts' Ts Ts' T T', Combo args ts → Combo args ts' → f.resTys a ts = some Ts → f.resTys a ts' = some Ts' → T ∈ Ts → T' ∈ Ts' →
        T.ty = T'.ty → T = T') := by
  have ha : ∀ v ∈ args, v.alts ≠ [] := fun v hv => (hw v hv).1
  have hff : f.callTys ⟨true, false⟩ = f.callTys a := by
    funext ts
    simp [ManyFunctor.callTys, hf]
  constructor
  · rintro ⟨r, hr⟩
    obtain ⟨_, _, _, h4⟩ := C86_many_calls_copy other f a s args m hw r hr
    obtain ⟨rs, R, cs, s', g1, g2, g3, g4, g5⟩ := many_cases hr
    obtain ⟨h1, h2⟩ := (results_iff (f.callTys a) args ha).1 ⟨rs, g1⟩
    obtain ⟨ts0, hts0⟩ := exists_combo ha
    obtain ⟨r0, hr0⟩ := h2 ts0 hts0
    have hmp := (callTys_some.1 hr0).1
    refine ⟨h1, hmp, h4, fun ts hts => ?_, ?_⟩
    · obtain ⟨Ts, hTs⟩ := h2 ts hts
      exact ⟨Ts, (callTys_some.1 hTs).2⟩
    · intro ts ts' Ts Ts' T T' k1 k2 k3 k4 k5 k6 hty
      by_contra hne'
      have hm := results_mem ha g1
      rw [hff, g1] at g3
      cases g3
      obtain ⟨hn, hmem⟩ := manyAlts_spec g2
      have e1 := (hm Ts).2 ⟨ts, k1, callTys_some.2 ⟨hmp, k3⟩⟩
      have e2 := (hm Ts').2 ⟨ts', k2, callTys_some.2 ⟨hmp, k4⟩⟩
      have := chooseAlt_ambiguous other ((hmem T).2 ⟨Ts, e1, k5⟩) ((hmem T').2 ⟨Ts', e2, k6⟩) hty.symm (fun h => hne' h.symm)
      have g6 := List.all_eq_true.1 (List.all_eq_true.1 g5 Ts e1) T k5
      rw [this] at g6
      cases g6
  · rintro ⟨h1, hmp, h2, h3, h4⟩
    obtain ⟨rs, hrs⟩ := (results_iff (f.callTys a) args ha).2 ⟨h1, fun ts hts => by
      obtain ⟨Ts, hTs⟩ := h3 ts hts
      exact ⟨Ts, callTys_some.2 ⟨hmp, hTs⟩⟩⟩
    have hm := results_mem ha hrs
    obtain ⟨ts0, hts0⟩ := exists_combo ha
    obtain ⟨Ts0, hTs0⟩ := h3 ts0 hts0
    obtain ⟨T0, hT0⟩ := List.exists_mem_of_ne_nil _ (hne ts0 Ts0 hTs0)
    have hR : ∃ R, manyAlts rs = some R := by
      unfold manyAlts
      have : (uniqueSequence (flattenVariant [] rs)).isEmpty = false := by
        rw [List.isEmpty_eq_false_iff_exists_mem]
        refine ⟨T0, ?_⟩
        rw [mem_uniqueSequence, flattenVariant_eq, List.nil_append, List.mem_flatten]
        exact ⟨Ts0, (hm Ts0).2 ⟨ts0, hts0, callTys_some.2 ⟨hmp, hTs0⟩⟩, hT0⟩
      simp only [this]
      exact ⟨_, rfl⟩
    obtain ⟨R, hR⟩ := hR
    obtain ⟨hn, hmem⟩ := manyAlts_spec hR
    have hcap : ∃ s', capture f a s = some s' := by
      unfold capture
      cases hr' : a.rvalue <;> cases hc' : a.const <;> simp_all
    obtain ⟨s', hs'⟩ := hcap
    have hex : ∀ Ts ∈ rs, ∀ T ∈ Ts, ∃ i, chooseAlt other R T = some i := by
      intro Ts hTs T hT
      obtain ⟨ts, hts, he⟩ := (hm Ts).1 hTs
      obtain ⟨i, hi, _⟩ := chooseAlt_exact other hn ((hmem T).2 ⟨Ts, hTs, hT⟩) (by
        intro T' hT' hty
        obtain ⟨Ts', hTs', hT'⟩ := (hmem T').1 hT'
        obtain ⟨ts', hts', he'⟩ := (hm Ts').1 hTs'
        exact h4 ts' ts Ts' Ts T' T hts' hts (callTys_some.1 he').2 (callTys_some.1 he).2 hT' hT hty)
      exact ⟨i, hi⟩
    have hall : (rs.all fun Ts => Ts.all fun T => (chooseAlt other R T).isSome) = true := by
      rw [List.all_eq_true]
      intro Ts hTs
      rw [List.all_eq_true]
      intro T hT
      obtain ⟨i, hi⟩ := hex Ts hTs T hT
      simp [hi]
    unfold VariantForward.variantTransformMany
    rw [hff, hrs, Option.bind_some, hR, Option.bind_some, Option.bind_some, hs', Option.bind_some, if_pos hall]
    rcases holds_or hw with hv | ⟨alts, halts⟩
    · rw [activeRefs_none hv]
      exact ⟨_, rfl⟩
    · rw [activeRefs_eq halts, refTy_eq halts]
      simp only [seen_eq]
      obtain ⟨Ts, hTs⟩ := h3 _ (combo_typesOf halts)
      rw [callTys_some.2 ⟨hmp, hTs⟩]
      cases (f.run ⟨true, false⟩ (argsOf m args alts) s).1 with
      | none => exact ⟨_, rfl⟩
      | some p =>
        obtain ⟨j, x⟩ := p
        simp only
        cases hj : Ts[j]? with
        | none => exact ⟨_, rfl⟩
        | some T =>
          obtain ⟨i, hi⟩ := hex Ts ((hm Ts).2 ⟨_, combo_typesOf halts, callTys_some.2 ⟨hmp, hTs⟩⟩) T (List.mem_of_getElem? hj)
          simp only [hi, Option.map_some]
          exact ⟨_, rfl⟩

/-- If the result types do not depend on how the functor is denoted and no variant is valueless: the copy of the functor is called
exactly once, with the objects in the variants; the result holds the alternative held by the variant returned, and lists every
alternative of every variant type which the functor can return exactly once. -/
theorem C86_many_partial (other : List CTy → CTy → Option Nat) (f : ManyFunctor V F) (a : Access) (s : F) (args : List VArg) (m : Mem V)
    (hw : ∀ v ∈ args, IsVariant v) (hf : ∀ ts, f.resTys a ts = f.resTys ⟨true, false⟩ ts) (cs : List CTy)
    (hcs : List.Forall₂ HoldsAlt args cs) (r : Run V F (VariantVal CTy V))
    (hr : VariantForward.variantTransformMany other f a s args m = some r) :
    r.calls = [(⟨true, false⟩, argsOf m args cs)] ∧
    (OwnVariants args → AfterCall m args cs (f.run ⟨true, false⟩ (argsOf m args cs) s).2.1 r.mem) ∧
    ((f.run ⟨true, false⟩ (argsOf m args cs) s).1 = none → r.out = .throw (str "bad_variant_access")) ∧
    (∀ j x Ts T, (f.run ⟨true, false⟩ (argsOf m args cs) s).1 = some (j, x) → f.resTys a (typesOf args cs) = some Ts → Ts[j]? = some T →
      ∃ v i, r.out = .ok v ∧ v.active = some (i, x) ∧ v.types[i]? = some T ∧ v.types.Nodup ∧
        ∀ T, T ∈ v.types ↔ ∃ ts Ts, Combo args ts ∧ f.resTys a ts = some Ts ∧ T ∈ Ts) := by
  have ha : ∀ v ∈ args, v.alts ≠ [] := fun v hv => (hw v hv).1
  have hff : f.callTys ⟨true, false⟩ = f.callTys a := by
    funext ts
    simp [ManyFunctor.callTys, hf]
  obtain ⟨rs, R, cs', s', g1, g2, g3, g4, g5⟩ := many_cases hr
  have hm := results_mem ha g1
  obtain ⟨hn, hmem⟩ := manyAlts_spec g2
  rw [hff, g1] at g3
  cases g3
  have hc := combo_typesOf hcs
  obtain ⟨Ts0, hTs0⟩ := ((results_iff (f.callTys a) args ha).1 ⟨rs, g1⟩).2 _ hc
  have hmp := (callTys_some.1 hTs0).1
  unfold VariantForward.variantTransformMany at hr
  rw [hff, g1, Option.bind_some, g2, Option.bind_some, Option.bind_some, g4, Option.bind_some, if_pos g5, activeRefs_eq hcs,
    refTy_eq hcs] at hr
  simp only [seen_eq, hTs0] at hr
  cases h7 : (f.run ⟨true, false⟩ (argsOf m args cs) s).1 with
  | none =>
    rw [h7] at hr
    cases hr
    refine ⟨rfl, fun ho => afterCall cs ho m _, fun _ => rfl, ?_⟩
    intro j x Ts T h
    cases h
  | some p =>
    obtain ⟨j, x⟩ := p
    rw [h7] at hr
    simp only at hr
    cases h8 : Ts0[j]? with
    | none =>
      rw [h8] at hr
      cases hr
      refine ⟨rfl, fun ho => afterCall cs ho m _, by simp, ?_⟩
      intro j' x' Ts T h1 h2 h3
      cases h1
      rw [(callTys_some.1 hTs0).2] at h2
      cases h2
      rw [h8] at h3
      cases h3
    | some T0 =>
      simp only [h8] at hr
      have hall := g5
      rw [List.all_eq_true] at hall
      have h9 := hall Ts0 ((hm Ts0).2 ⟨_, hc, hTs0⟩)
      rw [List.all_eq_true] at h9
      have h10 := h9 T0 (List.mem_of_getElem? h8)
      have hT0 : T0 ∈ R := (hmem T0).2 ⟨Ts0, (hm Ts0).2 ⟨_, hc, hTs0⟩, List.mem_of_getElem? h8⟩
      obtain ⟨i, hi, hi'⟩ := chooseAlt_exact other hn hT0 (by
        intro T' hT' hty
        by_contra hne'
        rw [chooseAlt_ambiguous other hT0 hT' hty hne'] at h10
        cases h10)
      simp only [hi, Option.map_some, Option.some.injEq] at hr
      subst hr
      refine ⟨rfl, fun ho => afterCall cs ho m _, by simp, ?_⟩
      intro j' x' Ts T h1 h2 h3
      cases h1
      rw [(callTys_some.1 hTs0).2] at h2
      cases h2
      rw [h8] at h3
      cases h3
      refine ⟨_, i, rfl, rfl, hi', hn, fun T => ?_⟩
      rw [hmem]
      constructor
      · rintro ⟨Ts, hTs, hT⟩
        obtain ⟨ts, hts, he⟩ := (hm Ts).1 hTs
        exact ⟨ts, Ts, hts, (callTys_some.1 he).2, hT⟩
      · rintro ⟨ts, Ts, hts, he, hT⟩
        exact ⟨Ts, (hm Ts).2 ⟨ts, hts, callTys_some.2 ⟨hmp, he⟩⟩, hT⟩

/-! ## `visit<R>` -/

private theorem visitTypes_eq (args : List VArg) : visitTypes args = args.map fun v => v.alts.map (Forwarded v.access) := by
  unfold visitTypes
  congr 1
  funext v
  congr 1
  funext c
  exact getAlt_eq _ _

private theorem visit_iff (conv : Ty → Ty → Bool) (R : RTy) (f : Functor V F) (a : Access) (args : List VArg) :
    visitCompiles conv R f a args = true ↔ ∀ ts, Combo args ts → ∃ r, f.callTy a ts = some r ∧ returnOk conv R r = true := by
  obtain ⟨rs, h1, h2⟩ := resultSeq_spec (f.callTy a) (args.map fun v => v.alts.map (Forwarded v.access))
  unfold visitCompiles
  rw [visitTypes_eq, h1]
  simp only [List.all_eq_true]
  constructor
  · intro h ts hts
    have := h _ ((h2 _).2 ⟨ts, (combination_iff args ts).2 hts, rfl⟩)
    cases hc : f.callTy a ts with
    | none => rw [hc] at this; cases this
    | some r => rw [hc] at this; exact ⟨r, rfl, this⟩
  · intro h r hr
    obtain ⟨ts, hts, rfl⟩ := (h2 r).1 hr
    obtain ⟨q, hq, hq'⟩ := h ts ((combination_iff args ts).1 hts)
    rw [hq]
    exact hq'

/-- `visit<R>` for a type `R` and a functor which is not a pointer to member compiles exactly if every result converts to `R`, like
`std::visit<R>`. -/
theorem C86_visit_compiles_partial (conv : Ty → Ty → Bool) (R : Ty) (f : Functor V F) (a : Access) (args : List VArg)
    (hf : f.memberPointer = false) :
    visitCompiles conv (.ty R) f a args = true ↔ ∀ ts, Combo args ts → ∃ t, f.resTy a ts = some (.ty t) ∧ conv t R = true := by
  rw [visit_iff]
  refine forall_congr' fun ts => imp_congr_right fun _ => ?_
  constructor
  · rintro ⟨r, h1, h2⟩
    cases r with
    | void => cases h2
    | ty t => exact ⟨t, (callTy_some.1 h1).2, h2⟩
  · rintro ⟨t, h1, h2⟩
    exact ⟨.ty t, callTy_some.2 ⟨hf, h1⟩, h2⟩

/-- `visit<void>` compiles only if all results are void, whereas `std::visit<void>` discards results; and `visit<R>` does not compile
for pointers to members, which `std::visit<R>` accepts. -/
theorem C86_visit_void (conv : Ty → Ty → Bool) (f : Functor V F) (a : Access) (args : List VArg) (ha : ∀ v ∈ args, v.alts ≠ []) :
    (visitCompiles conv .void f a args = true ↔ f.memberPointer = false ∧ ∀ ts, Combo args ts → f.resTy a ts = some .void) ∧
    (f.memberPointer = true → ∀ R, visitCompiles conv R f a args = false) := by
  obtain ⟨ts0, hts0⟩ := exists_combo ha
  constructor
  · rw [visit_iff]
    constructor
    · intro h
      obtain ⟨r, h1, _⟩ := h ts0 hts0
      refine ⟨(callTy_some.1 h1).1, fun ts hts => ?_⟩
      obtain ⟨r, h1, h2⟩ := h ts hts
      cases r with
      | void => exact (callTy_some.1 h1).2
      | ty t => cases h2
    · rintro ⟨h1, h2⟩ ts hts
      exact ⟨.void, callTy_some.2 ⟨h1, h2 ts hts⟩, rfl⟩
  · intro hf R
    by_contra hc
    rw [Bool.not_eq_false, visit_iff] at hc
    obtain ⟨r, h1, _⟩ := hc ts0 hts0
    rw [(callTy_some.1 h1).1] at hf
    cases hf

/-- `visit<R>` calls the functor object passed exactly once, with its value category and the objects in the variants. -/
theorem C86_visit (f : Functor V F) (a : Access) (s : F) (args : List VArg) (m : Mem V) (cs : List CTy)
    (hcs : List.Forall₂ HoldsAlt args cs) :
    (visitRun f a s args m).calls = [(a, argsOf m args cs)] ∧ (visitRun f a s args m).functor = (f.run a (argsOf m args cs) s).2.2 ∧
    (visitRun f a s args m).out = .ok (f.run a (argsOf m args cs) s).1 ∧
    (OwnVariants args → AfterCall m args cs (f.run a (argsOf m args cs) s).2.1 (visitRun f a s args m).mem) := by
  unfold visitRun
  rw [activeRefs_eq hcs]
  simp only [seen_eq]
  exact ⟨trivial, trivial, trivial, fun ho => afterCall cs ho m _⟩

/-- If a variant is valueless, `visit<R>` throws, the functor is not called and no object is changed. -/
theorem C86_visit_valueless (f : Functor V F) (a : Access) (s : F) (args : List VArg) (m : Mem V) (hv : ∃ v ∈ args, v.active = none) :
    (visitRun f a s args m).calls = [] ∧ (visitRun f a s args m).functor = s ∧ (visitRun f a s args m).mem = m ∧
    (visitRun f a s args m).out = .throw (str "bad_variant_access") := by
  unfold visitRun
  rw [activeRefs_none hv]
  exact ⟨rfl, rfl, rfl, rfl⟩

/-! ## Examples and witnesses

`variant<int, float>` (types 1 and 2) holding a `float`, as an lvalue; and `variant<int const>` as an rvalue. -/

private def vfA : VArg := ⟨[⟨1, false⟩, ⟨2, false⟩], some 1, 0, ⟨false, false⟩⟩
private def vfB : VArg := ⟨[⟨1, true⟩], some 0, 1, ⟨false, true⟩⟩
private def vfC : VArg := ⟨[⟨1, false⟩], some 0, 1, ⟨true, true⟩⟩
private def vfMem : Mem Nat := fun l => 10 + l

/-- A counter which can be called with anything, adds up its arguments, sets them to 7, and returns type 3 if the first argument has
type 1 and type 4 otherwise. -/
private def vfCount : Functor Nat Nat where
  resTy _ ts := some (.ty (.obj (match ts with
    | .lref ⟨1, _⟩ :: _ => ⟨3, false⟩
    | _ => ⟨4, false⟩)))
  run _ vs s := ((vs.map Prod.snd).sum + 100 * s, fun _ => some 7, s + 1)
  memberPointer := false

private theorem vfIsVariant : ∀ v ∈ [vfA, vfB], IsVariant v := by
  intro v hv
  simp only [List.mem_cons, List.not_mem_nil, or_false] at hv
  rcases hv with rfl | rfl
  · exact ⟨by decide, fun i h => by cases h; decide⟩
  · exact ⟨by decide, fun i h => by cases h; decide⟩

private theorem vfHolds : List.Forall₂ HoldsAlt [vfA, vfB] [⟨2, false⟩, ⟨1, true⟩] :=
  .cons ⟨1, rfl, rfl⟩ (.cons ⟨0, rfl, rfl⟩ .nil)

/-- The counter compiles, is called as an rvalue, counts, and the result holds a value of type 4. -/
example : ∃ r, VariantForward.variantTransform (fun _ _ => none) vfCount ⟨false, true⟩ 5 [vfA, vfB] vfMem = some r ∧
    r.functor = 6 ∧ r.mem 0 = 7 ∧ r.mem 1 = 11 ∧ r.calls = [(⟨false, true⟩, [(⟨0, false, false⟩, 10), (⟨1, true, true⟩, 11)])] ∧
    ∃ v, r.out = .ok v ∧ v.types = [⟨3, false⟩, ⟨4, false⟩] ∧ v.active = some (1, 521) :=
  ⟨_, rfl, rfl, rfl, rfl, rfl, _, rfl, rfl, rfl⟩

example : OwnVariants [vfA, vfB] := by simp [OwnVariants, vfA, vfB]

/-- `std::visit` accepts a const rvalue variant; `variant_transform` does not. -/
theorem C86_transform_const_rvalue_witness :
    visitCompiles (fun _ _ => true) (.ty (.obj ⟨3, false⟩)) vfCount ⟨false, false⟩ [vfC] = true ∧
    VariantForward.variantTransform (fun _ _ => none) vfCount ⟨false, false⟩ 0 [vfC] vfMem = none :=
  ⟨by decide, C86_transform_const_rvalue _ _ _ _ _ _ ⟨vfC, by simp, rfl, rfl, by decide⟩⟩

example : ∃ r, VariantForward.variantTransform (fun _ _ => none) vfCount ⟨false, false⟩ 0 [{ vfA with active := none }, vfB] vfMem = some r :=
  ⟨_, rfl⟩

/-- The counter as a functor for `variant_transform_many`, which returns `variant<int>` for an argument of type 1 and
`variant<int, char>` otherwise, with the last alternative active.  It can be called as const if `c`. -/
private def vfMany (c : Bool) : ManyFunctor Nat Nat where
  resTys a ts := if a.const && !c then none else some (match ts with
    | .lref ⟨1, _⟩ :: _ => [⟨1, false⟩]
    | _ => [⟨1, false⟩, ⟨5, false⟩])
  run a vs s := (some (1, (vs.map Prod.snd).sum + 100 * s), fun _ => some 7, if a.const then s else s + 1)
  memberPointer := false
  copyable := true
  movable := true
  moved _ := 0

/-- The functor is called once, with the objects in the variants, and the result holds alternative 5. -/
example : ∃ r, VariantForward.variantTransformMany (fun _ _ => none) (vfMany true) ⟨false, true⟩ 5 [vfA, vfB] vfMem = some r ∧
    r.functor = 0 ∧ r.mem 0 = 7 ∧ r.mem 1 = 11 ∧ r.calls = [(⟨true, false⟩, [(⟨0, false, false⟩, 10), (⟨1, true, true⟩, 11)])] ∧
    ∃ v, r.out = .ok v ∧ v.types = [⟨1, false⟩, ⟨5, false⟩] ∧ v.active = some (1, 521) :=
  ⟨_, rfl, rfl, rfl, rfl, rfl, _, rfl, rfl, rfl⟩

example : (∀ ts, (vfMany true).resTys ⟨false, true⟩ ts = (vfMany true).resTys ⟨true, false⟩ ts) ∧
    ∀ ts Ts, (vfMany true).resTys ⟨false, true⟩ ts = some Ts → Ts ≠ [] := by
  refine ⟨fun ts => rfl, fun ts Ts h => ?_⟩
  simp only [vfMany, Bool.not_true, Bool.and_false, Bool.false_eq_true, if_false, Option.some.injEq] at h
  subst h
  split <;> simp

/-- A functor which counts its calls and can only be called if it is not const: `variant_transform` and `std::visit` call it, but
`variant_transform_many` does not compile. -/
theorem C86_many_mutable_witness :
    (∀ ts, ((vfMany false).resTys ⟨false, false⟩ ts).isSome = true) ∧
    ∀ other s m, VariantForward.variantTransformMany other (vfMany false) ⟨false, false⟩ s [vfA, vfB] m = none := by
  refine ⟨fun ts => rfl, fun other s m => ?_⟩
  cases h : VariantForward.variantTransformMany other (vfMany false) ⟨false, false⟩ s [vfA, vfB] m with
  | none => rfl
  | some r =>
    obtain ⟨_, _, h3, _⟩ := C86_many_calls_copy other (vfMany false) ⟨false, false⟩ s [vfA, vfB] m vfIsVariant r h
    obtain ⟨Ts, hTs⟩ := h3 _ (combo_typesOf vfHolds)
    cases hTs

/-- A functor with overloads for const and non-const objects, which return `variant<A>` and `variant<B>`. -/
private def vfOverloaded : ManyFunctor Nat Nat where
  resTys a _ := some (if a.const then [⟨8, false⟩] else [⟨9, false⟩])
  run a _ s := (some (0, if a.const then 1 else 2), fun _ => none, s)
  memberPointer := false
  copyable := true
  movable := true
  moved s := s

/-- For a functor passed as an lvalue which is not const, the result type is that of the overload for non-const objects, but the other
overload is called: if `A` does not convert to `B` the program does not compile, and otherwise the result is a converted value. -/
theorem C86_many_overload_witness :
    VariantForward.variantTransformMany (fun _ _ => none) vfOverloaded ⟨false, false⟩ 0 [vfA, vfB] vfMem = none ∧
    ∃ r v, VariantForward.variantTransformMany (fun _ _ => some 0) vfOverloaded ⟨false, false⟩ 0 [vfA, vfB] vfMem = some r ∧
      r.out = .ok v ∧ v.types = [⟨9, false⟩] ∧ v.active = some (0, 1) :=
  ⟨rfl, _, _, rfl, rfl, rfl, rfl⟩

/-- `visit<void>` with a functor which returns something does not compile. -/
theorem C86_visit_void_witness :
    visitCompiles (fun _ _ => true) .void vfCount ⟨false, false⟩ [vfA, vfB] = false ∧
    visitCompiles (fun _ _ => true) (.ty (.obj ⟨3, false⟩)) vfCount ⟨false, false⟩ [vfA, vfB] = true := by
  decide

example : (visitRun vfCount ⟨false, false⟩ 5 [vfA, vfB] vfMem).functor = 6 ∧
    (visitRun vfCount ⟨false, false⟩ 5 [vfA, vfB] vfMem).mem 0 = 7 := ⟨rfl, rfl⟩

end Makeshift.Props
