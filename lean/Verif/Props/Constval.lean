import Verif.Lemmas.Constval

/-! # C48-C50: constvals -/

namespace Makeshift.Props

open Spec Constval

/-! ## C48 -/

/-- The constval made of a functor has the value which the functor returns, for every nesting of values which contains no
constval objects itself. -/
theorem C48_value (env : Env) (c c' : CT) (v : Val) (hv : eval env c = some v) (hp : Kept v) (h : constvalT env c = some c') :
    eval env c' = some v := by
  unfold constvalT at h
  split at h
  · simp only [Option.some.injEq] at h; subst h; exact hv
  · rw [hv, Option.bind_some] at h
    rw [norm1_eval env v c c' hv h]
    exact extractVal_plain env v ((hasTagged_iff v).2 hp)

/-- In general, constval objects inside the value (at top level and in `std::tuple`s) are replaced by the values they
represent. -/
theorem C48_value_extracted (env : Env) (c c' : CT) (v : Val) (hk : known c = false) (hv : eval env c = some v)
    (h : constvalT env c = some c') : eval env c' = extractVal env v := by
  unfold constvalT at h
  simp only [hk, Bool.false_eq_true, if_false, hv, Option.bind_some] at h
  exact norm1_eval env v c c' hv h

/-- Types which are constvals already are returned unaltered, and these are the only ones which are not looked into. -/
theorem C48_unaltered (env : Env) (c : CT) : (known c = true ↔ Given c) ∧ (Given c → constvalT env c = some c) := by
  have h : known c = true ↔ Given c := by
    constructor
    · intro h
      cases c <;> first | (simp [known] at h; done) | constructor
    · rintro ⟨⟩ <;> rfl
  exact ⟨h, fun hg => by simp [constvalT, h.2 hg]⟩

example : Given (.typeIdentity 3) ∧ ¬ Given (.functor 3) := ⟨.typeIdentity 3, by rintro ⟨⟩⟩

/-- A constval can be made exactly of the representable values: array elements must not contain constval objects, and tuples no
`type_sequence`. -/
theorem C48_exists_iff (env : Env) (c : CT) (v : Val) (hk : known c = false) (hv : eval env c = some v) :
    (∃ c', constvalT env c = some c') ↔ Representable v := by
  unfold constvalT
  simp only [hk, Bool.false_eq_true, if_false, hv, Option.bind_some]
  exact ⟨fun ⟨c', h⟩ => norm1_representable v c c' h, fun h => norm1_exists v c h⟩

/-- The result is a constval (or, for a functor returning a `type_sequence` or a `type_tag`, that object). -/
theorem C48_is_constval (env : Env) (c c' : CT) (hk : known c = false) (h : constvalT env c = some c') :
    isConstval c' = true := by
  unfold constvalT at h
  simp only [hk, Bool.false_eq_true, if_false, Option.bind_eq_some_iff] at h
  obtain ⟨v, _, h⟩ := h
  cases v with
  | obj c0 =>
    simp only [norm1] at h
    split at h
    · rename_i ht
      simp only [Option.some.injEq] at h
      subst h
      cases c0 <;> simp_all [tagged, isConstval]
    · split at h <;> (simp only [Option.some.injEq] at h; subst h; rfl)
  | _ =>
    have := norm1_hasValueType h (by simp)
    unfold hasValueType at this
    split at this
    · cases this
    · cases this
    · exact this

/-- `get<I>` of a constval of an array, tuple or tuple-like value is a constval of the element. -/
theorem C48_get (env : Env) (c c' : CT) (v w : Val) (vs : List Val) (i : Nat) (hk : known c = false) (hv : eval env c = some v)
    (hp : Kept v) (h : constvalT env c = some c')
    (hvs : v = .tuple vs ∨ (∃ ty, v = .tupleLike ty vs) ∨ ∃ b ty, v = .array b ty vs) (hi : vs[i]? = some w)
    (hw : Representable w) (hpw : Kept w) :
    ∃ d, getC env i c' = some d ∧ eval env d = some w := by
  have hval := C48_value env c c' v hv hp h
  have key : ∀ a : CT, known a = false → eval env a = some w → ∃ d, constvalT env a = some d ∧ eval env d = some w := by
    intro a ha hav
    obtain ⟨d, hd⟩ := (C48_exists_iff env a w ha hav).2 hw
    exact ⟨d, hd, C48_value env a d w hav hpw hd⟩
  have hil : i < vs.length := (List.getElem?_eq_some_iff.1 hi).1
  unfold constvalT at h
  simp only [hk, Bool.false_eq_true, if_false, hv, Option.bind_some] at h
  rcases hvs with rfl | ⟨ty, rfl⟩ | ⟨b, ty, rfl⟩
  · simp only [norm1, Option.map_eq_some_iff] at h
    obtain ⟨cs, hcs, rfl⟩ := h
    have hl := (normTuple_get vs 0 c cs hcs).1
    simp only [getC, hl, hil, if_true]
    refine key _ rfl ?_
    simp only [eval] at hval ⊢
    simp [hval, getTuple, hi]
  · simp only [norm1, Option.some.injEq] at h
    subst h
    simp only [getC]
    exact key _ rfl (by simp only [eval] at hval ⊢; simp [hval, getTuple, hi])
  · cases b with
    | true =>
      simp only [norm1, Option.map_eq_some_iff] at h
      obtain ⟨xs, hxs, rfl⟩ := h
      have hl : xs.length = vs.length := by rw [mapM_asScalar hxs]; simp
      simp only [getC, hl, hil, if_true]
      refine key _ rfl ?_
      simp only [eval] at hval ⊢
      simp [hval, getArray, hi]
    | false =>
      simp only [norm1, Option.map_eq_some_iff] at h
      obtain ⟨cs, hcs, rfl⟩ := h
      have hval' := hval
      simp only [eval, Option.map_eq_some_iff, Val.array.injEq, true_and] at hval'
      obtain ⟨vs', hvs', rfl⟩ := hval'
      have hl := (evalList_get hvs').1
      simp only [getC, hl, hil, if_true]
      refine key _ rfl ?_
      simp only [eval] at hval ⊢
      simp [hval, getArray, hi]

/-- A functor which returns a constval object yields that constval. -/
theorem C48_collapse (env : Env) (c d : CT) (hk : known c = false) (hv : eval env c = some (.obj d)) (ht : tagged d = true) :
    constvalT env c = some d := by
  simp [constvalT, hk, hv, norm1, ht]

/-- Arrays of constval objects, and tuples with a `type_sequence` or a `type_tag`, cannot be made constvals. -/
theorem C48_not_representable :
    constvalT ⟨fun _ _ => .array false 0 [.obj (.arrayConstant 0 [1])], fun _ => .scalar 0 0⟩ (.functor 0) = none ∧
    constvalT ⟨fun _ _ => .tuple [.obj (.typeSequence [0])], fun _ => .scalar 0 0⟩ (.functor 0) = none ∧
    constvalT ⟨fun _ _ => .tuple [.obj (.typeTag 0)], fun _ => .scalar 0 0⟩ (.functor 0) = none :=
  ⟨rfl, rfl, rfl⟩

/-- An environment for examples: functor 0 returns `{ { 1, 2 }, 3.0 }`, functor 1 the number 3.0, functor 2 an array of arrays. -/
private def exEnv : Env where
  call n _ := match n with
    | 0 => .tuple [.array true 0 [.scalar 0 1, .scalar 0 2], .other 1 3]
    | 1 => .other 1 3
    | 2 => .array false 2 [.array true 0 [.scalar 0 1], .array true 0 [.scalar 0 2]]
    | _ => .scalar 0 7
  object _ := .array true 0 [.scalar 0 1]

example : known (.functor 0) = false ∧ Kept (.tuple [.array true 0 [.scalar 0 1, .scalar 0 2], .other 1 3]) ∧
    constvalT exEnv (.functor 0) =
      some (.tupleConstant [.arrayConstant 0 [1, 2], .constval (.tupleAccessor 1 (.functor 0))]) := by
  refine ⟨rfl, ?_, rfl⟩
  refine .tuple _ ?_
  simp only [List.mem_cons, List.not_mem_nil, or_false, forall_eq_or_imp, forall_eq]
  refine ⟨.array _ _ _ ?_, .other _ _⟩
  simp only [List.mem_cons, List.not_mem_nil, or_false, forall_eq_or_imp, forall_eq]
  exact ⟨.scalar _ _, .scalar _ _⟩

/-! ## C49 -/

/-- Normalising a constval type yields the same type. -/
theorem C49_idempotent (env : Env) (c c' : CT) (h : constvalT env c = some c') : constvalT env c' = some c' := by
  have hk : known c' = true ∨ RepresentsTypes c' := by
    unfold constvalT at h
    split at h
    · rename_i hk
      simp only [Option.some.injEq] at h
      subst h
      exact .inl hk
    · simp only [Option.bind_eq_some_iff] at h
      obtain ⟨v, _, h⟩ := h
      exact norm1_known h
  rcases hk with hk | hr
  · simp [constvalT, hk]
  · cases c' <;> first | exact hr.elim | rfl

/-- For values of scalars, arrays and tuples, the constval type is determined by the value: two functors with the same value
yield the same type, and functors with different values yield different types. -/
theorem C49_same_type_iff (env : Env) (c₁ c₂ : CT) (v₁ v₂ : Val) (hk₁ : known c₁ = false) (hk₂ : known c₂ = false)
    (hv₁ : eval env c₁ = some v₁) (hv₂ : eval env c₂ = some v₂) (hn₁ : Normalisable v₁) (hn₂ : Normalisable v₂) :
    constvalT env c₁ = constvalT env c₂ ↔ v₁ = v₂ := by
  constructor
  · intro h
    obtain ⟨d, hd⟩ := (C48_exists_iff env c₁ v₁ hk₁ hv₁).2 (normalisable_representable hn₁)
    have h1 := C48_value env c₁ d v₁ hv₁ (normalisable_kept hn₁) hd
    have h2 := C48_value env c₂ d v₂ hv₂ (normalisable_kept hn₂) (h ▸ hd)
    rw [h1] at h2
    exact Option.some.inj h2
  · rintro rfl
    unfold constvalT
    simp only [hk₁, hk₂, Bool.false_eq_true, if_false, hv₁, hv₂, Option.bind_some]
    exact norm1_canonical v₁ c₁ c₂ hn₁

/-- The type does not even depend on the environment. -/
theorem C49_any_environment (env₁ env₂ : Env) (c₁ c₂ : CT) (v : Val) (hk₁ : known c₁ = false) (hk₂ : known c₂ = false)
    (hv₁ : eval env₁ c₁ = some v) (hv₂ : eval env₂ c₂ = some v) (hn : Normalisable v) :
    constvalT env₁ c₁ = constvalT env₂ c₂ := by
  unfold constvalT
  simp only [hk₁, hk₂, Bool.false_eq_true, if_false, hv₁, hv₂, Option.bind_some]
  exact norm1_canonical v c₁ c₂ hn

/-- A constval for a reference to a static object (`ref_constant`) has the type of a constval for its value. -/
theorem C49_ref_constant (env : Env) (o : Nat) (c : CT) (hk : known c = false) (hv : eval env c = some (env.object o))
    (hn : Normalisable (env.object o)) : refConstant env o = constvalT env c := by
  unfold constvalT refConstant
  simp only [hk, Bool.false_eq_true, if_false, hv, Option.bind_some]
  exact norm1_canonical _ _ _ hn

/-- `get<I>` of the constval of a tuple is, as a type, its `I`-th argument and the constval of the `I`-th element. -/
theorem C49_get_tuple (env : Env) (c d : CT) (cs : List CT) (vs : List Val) (i : Nat) (w : Val) (hk : known c = false)
    (hv : eval env c = some (.tuple vs)) (hn : Normalisable (.tuple vs)) (h : constvalT env c = some (.tupleConstant cs))
    (hi : vs[i]? = some w) (hkd : known d = false) (hd : eval env d = some w) :
    getC env i (.tupleConstant cs) = cs[i]? ∧ getC env i (.tupleConstant cs) = constvalT env d := by
  have hnw : ∀ w ∈ vs, Normalisable w := by cases hn with | tuple _ h => exact h
  have hw := hnw w (List.mem_of_getElem? hi)
  have hval := C48_value env c _ _ hv (normalisable_kept hn) h
  have h' := h
  unfold constvalT at h'
  simp only [hk, Bool.false_eq_true, if_false, hv, Option.bind_some, norm1, Option.map_eq_some_iff,
    CT.tupleConstant.injEq] at h'
  obtain ⟨cs', hcs, rfl⟩ := h'
  obtain ⟨hl, hg⟩ := normTuple_get vs 0 c cs' hcs
  have hil : i < vs.length := (List.getElem?_eq_some_iff.1 hi).1
  have hci : cs'[i]? = some (cs'[i]'(by omega)) := List.getElem?_eq_getElem (by omega)
  have h1 := hg i w _ hi hci
  have hacc : eval env (.tupleAccessor i (.tupleConstant cs')) = some w := by
    have : eval env (.tupleAccessor i (.tupleConstant cs')) = (eval env (.tupleConstant cs')).bind (getTuple i) := by
      simp only [eval]
    rw [this, hval]
    simpa [getTuple] using hi
  have h2 : getC env i (.tupleConstant cs') = constvalT env (.tupleAccessor i (.tupleConstant cs')) := by
    simp only [getC, hl, hil, if_true]
  have h3 : constvalT env (.tupleAccessor i (.tupleConstant cs')) = constvalT env d :=
    (C49_same_type_iff env _ d w w rfl hkd hacc hd hw hw).2 rfl
  refine ⟨?_, h2.trans h3⟩
  rw [h2, hci]
  unfold constvalT
  simp only [known, Bool.false_eq_true, if_false, hacc, Option.bind_some]
  rw [norm1_canonical w _ (.tupleAccessor (0 + i) c) hw, h1]

/-- For other types (here: floating-point numbers), constvals of the same value may differ in type. -/
theorem C49_not_canonical_other :
    eval exEnv (.functor 1) = some (.other 1 3) ∧ eval exEnv (.tupleAccessor 1 (.functor 0)) = some (.other 1 3) ∧
    constvalT exEnv (.functor 1) ≠ constvalT exEnv (.tupleAccessor 1 (.functor 0)) := by
  refine ⟨rfl, rfl, ?_⟩
  show some (CT.constval (.functor 1)) ≠ some (CT.constval (.tupleAccessor 1 (.functor 0)))
  simp

/-- A constval type written by hand is not normalised: `array_constant<int const&, x>` and `array_constant<int, 1>` have the same
value (if `x` is 1) but different types, and are both returned unaltered. -/
theorem C49_not_canonical_by_hand :
    let env : Env := ⟨fun _ _ => .scalar 0 0, fun _ => .scalar 0 1⟩
    let a := CT.arrayConstantRef true 0 [.refConstval 0]
    let b := CT.arrayConstant 0 [1]
    eval env a = eval env b ∧ constvalT env a = some a ∧ constvalT env b = some b ∧ a ≠ b := by
  refine ⟨rfl, rfl, rfl, ?_⟩
  simp

example : known (.functor 2) = false ∧ eval exEnv (.functor 2) = some (exEnv.call 2 []) ∧ Normalisable (exEnv.call 2 []) ∧
    constvalT exEnv (.functor 2) = some (.arrayConstantRef false 2 [.arrayConstant 0 [1], .arrayConstant 0 [2]]) := by
  refine ⟨rfl, rfl, ?_, rfl⟩
  refine .array _ _ ?_
  simp only [List.mem_cons, List.not_mem_nil, or_false, forall_eq_or_imp, forall_eq]
  exact ⟨.scalarArray 0 [1], .scalarArray 0 [2]⟩

/-! ## C50 -/

/-- The value an argument stands for: of a constval its value, of anything which is not an empty class itself. -/
inductive ArgValue (env : Env) : HArg → Val → Prop
  | constval {c : CT} {v : Val} : isConstval c = true → eval env c = some v → ArgValue env (.obj c) v
  | value (v : Val) : (∀ c, v ≠ .obj c) → ArgValue env (.value v) v

private theorem transportable_objs (cs : List CT) : transportable (cs.map HArg.obj) = some cs := by
  induction cs with
  | nil => rfl
  | cons c cs ih => simp [transportable, ih]

private theorem transportable_none {args : List HArg} {v : Val} (h : HArg.value v ∈ args) (hv : ∀ c, v ≠ .obj c) :
    transportable args = none := by
  induction args with
  | nil => simp at h
  | cons a as ih =>
    cases a with
    | obj c =>
      simp only [List.mem_cons, reduceCtorEq, false_or] at h
      simp [transportable, ih h]
    | value w =>
      simp only [List.mem_cons, HArg.value.injEq] at h
      rcases h with rfl | h
      · cases v <;> first | rfl | exact absurd rfl (hv _)
      · cases w <;> first | rfl | simp [transportable, ih h]

private theorem evalList_of_argValues {env : Env} {cs : List CT} {vs : List Val}
    (h : List.Forall₂ (ArgValue env) (cs.map HArg.obj) vs) : evalList env cs = some vs := by
  induction cs generalizing vs with
  | nil => cases h; rfl
  | cons c cs ih =>
    cases h with
    | cons h1 h2 =>
      cases h1 with
      | constval _ hv => simp [evalList, hv, ih h2]

/-- If all arguments are constvals, `constval_transform(f, cs...)` is a constval with value `f(values...)`. -/
theorem C50_transform_constvals (env : Env) (f : Nat) (cs : List CT) (vs : List Val)
    (h : List.Forall₂ (ArgValue env) (cs.map HArg.obj) vs) (hr : Representable (env.call f vs)) (hp : Kept (env.call f vs)) :
    ∃ c, constvalTransform env f (cs.map HArg.obj) = some (.constval c) ∧ isConstval c = true ∧ eval env c = some (env.call f vs) := by
  have hv : eval env (.transform f cs) = some (env.call f vs) := by simp [eval, evalList_of_argValues h]
  obtain ⟨c, hc⟩ := (C48_exists_iff env (.transform f cs) _ rfl hv).2 hr
  refine ⟨c, ?_, C48_is_constval env _ c rfl hc, C48_value env _ c _ hv hp hc⟩
  simp [constvalTransform, transportable_objs, hc]

/-- If some argument is not an empty class, the result is the plain value `f(values...)`. -/
theorem C50_transform_values (env : Env) (f : Nat) (args : List HArg) (vs : List Val) (v : Val) (hm : HArg.value v ∈ args)
    (hv : ∀ c, v ≠ .obj c) (h : List.Forall₂ (ArgValue env) args vs) : constvalTransform env f args = some (.value (env.call f vs)) := by
  have hg : getHValues env args = some vs := by
    clear hm hv
    induction h with
    | nil => rfl
    | cons h1 _ ih =>
      cases h1 with
      | constval hc hv => simp [getHValues, getHValue, hc, hv, ih]
      | value v hv => cases v <;> first | exact absurd rfl (hv _) | simp [getHValues, getHValue, ih]
  simp [constvalTransform, transportable_none hm hv, hg]

/-- `constval_extend(f, args...)`: the functor is called with the arguments themselves; the result is a constval iff all arguments
are type-transportable. -/
theorem C50_extend_constvals (env : Env) (f : Nat) (cs : List CT) (hr : Representable (env.call f (cs.map .obj)))
    (hp : Kept (env.call f (cs.map .obj))) :
    ∃ c, constvalExtend env f (cs.map HArg.obj) = some (.constval c) ∧ isConstval c = true ∧
      eval env c = some (env.call f (cs.map .obj)) := by
  have hv : eval env (.extend f cs) = some (env.call f (cs.map .obj)) := by simp [eval]
  obtain ⟨c, hc⟩ := (C48_exists_iff env (.extend f cs) _ rfl hv).2 hr
  refine ⟨c, ?_, C48_is_constval env _ c rfl hc, C48_value env _ c _ hv hp hc⟩
  simp [constvalExtend, transportable_objs, hc]

theorem C50_extend_values (env : Env) (f : Nat) (args : List HArg) (v : Val) (hm : HArg.value v ∈ args) (hv : ∀ c, v ≠ .obj c) :
    constvalExtend env f args = some (.value (env.call f (args.map fun a => match a with | .obj c => .obj c | .value v => v))) := by
  simp only [constvalExtend, transportable_none hm hv]
  rfl

/-- `constval_extract` undoes `make_constval`, and passes plain values through. -/
theorem C50_extract (env : Env) (c c' : CT) (v : Val) (hk : known c = false) (hv : eval env c = some v) (hp : Kept v)
    (h : constvalT env c = some c') :
    constvalExtract env (.obj c') = some v ∧ ((∀ d, v ≠ .obj d) → constvalExtract env (.value v) = some v) := by
  refine ⟨?_, fun ho => by cases v <;> first | rfl | exact absurd rfl (ho _)⟩
  simp [constvalExtract, C48_is_constval env c c' hk h, C48_value env c c' v hv hp h]

/-- An object of an empty class is treated by its type, wherever it comes from: one that another function has returned like one that is named. -/
theorem C50_returned_objects (env : Env) (f : Nat) (args args' : List HArg)
    (h : List.Forall₂ (fun a b => a = b ∨ ∃ c, a = .value (.obj c) ∧ b = .obj c) args args') :
    constvalTransform env f args = constvalTransform env f args' ∧ constvalExtend env f args = constvalExtend env f args' ∧
      args.map (constvalExtract env) = args'.map (constvalExtract env) := by
  have ht : transportable args = transportable args' := by
    induction h with
    | nil => rfl
    | @cons a b as bs hab _ ih =>
      rcases hab with rfl | ⟨c, rfl, rfl⟩
      · cases a with
        | obj c => simp [transportable, ih]
        | value v => cases v <;> simp [transportable, ih]
      · simp [transportable, ih]
  have hg : getHValues env args = getHValues env args' := by
    clear ht
    induction h with
    | nil => rfl
    | @cons a b as bs hab _ ih =>
      rcases hab with rfl | ⟨c, rfl, rfl⟩
      · simp [getHValues, ih]
      · simp [getHValues, getHValue, ih]
  have hm : args.map HArg.toVal = args'.map HArg.toVal ∧ args.map (constvalExtract env) = args'.map (constvalExtract env) := by
    clear ht hg
    induction h with
    | nil => exact ⟨rfl, rfl⟩
    | @cons a b as bs hab _ ih =>
      rcases hab with rfl | ⟨c, rfl, rfl⟩
      · exact ⟨by simp [ih.1], by simp [ih.2]⟩
      · exact ⟨by simp [ih.1, HArg.toVal], by simp [ih.2, constvalExtract]⟩
  exact ⟨by simp only [constvalTransform, ht, hg], by simp only [constvalExtend, ht, hm.1], hm.2⟩

example : List.Forall₂ (fun a b => a = b ∨ ∃ c, a = .value (.obj c) ∧ b = .obj c)
    [HArg.value (.obj (.integralConstant 0 42)), .value (.scalar 0 1)] [HArg.obj (.integralConstant 0 42), .value (.scalar 0 1)] :=
  .cons (.inr ⟨_, rfl, rfl⟩) (.cons (.inl rfl) .nil)

/-- A stateless functor which is not a constval is treated like one by `constval_transform` only if all arguments are empty
classes: `f` then receives its value, but next to a run-time argument it receives the functor itself. -/
theorem C50_functor_argument (env : Env) (f g : Nat) (v : Val) (hv : ∀ c, v ≠ .obj c) :
    eval env (.transform f [.functor g]) = some (env.call f [env.call g []]) ∧
    constvalTransform env f [.obj (.functor g), .value v] = some (.value (env.call f [.obj (.functor g), v])) := by
  constructor
  · simp [eval, evalList]
  · cases v <;> first | exact absurd rfl (hv _) | simp [constvalTransform, transportable, getHValues, getHValue, isConstval, tagged]

/-- A plain argument of an empty class type which cannot be called (e.g. `std::monostate`) makes `constval_transform` ill-formed
unless there is an argument which is not empty. -/
theorem C50_empty_argument (env : Env) (f n : Nat) (v : Val) (hv : ∀ c, v ≠ .obj c) :
    constvalTransform env f [.obj (.emptyType n)] = none ∧
    constvalTransform env f [.obj (.emptyType n), .value v] = some (.value (env.call f [.obj (.emptyType n), v])) := by
  constructor
  · simp [constvalTransform, transportable, constvalT, known, eval, evalList]
  · cases v <;> first | exact absurd rfl (hv _) | simp [constvalTransform, transportable, getHValues, getHValue, isConstval, tagged]

example : let cs := [CT.integralConstant 0 42, CT.integralConstant 0 3]
    List.Forall₂ (ArgValue exEnv) (cs.map HArg.obj) [.scalar 0 42, .scalar 0 3] ∧
      Representable (exEnv.call 9 [.scalar 0 42, .scalar 0 3]) ∧ Kept (exEnv.call 9 [.scalar 0 42, .scalar 0 3]) :=
  ⟨.cons (.constval rfl rfl) (.cons (.constval rfl rfl) .nil), .scalar _ _, .scalar _ _⟩

end Makeshift.Props
