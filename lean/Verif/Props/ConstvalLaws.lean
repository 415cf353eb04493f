import Verif.Props.Constval

/-! Property theorems C120: laws of `constval_transform`, `constval_extend` and `constval_extract`. -/

namespace Makeshift.Props

open Spec Constval

/-- What a function returned, passed on as an argument. -/
def asArgument : HResult → HArg
  | .constval c => .obj c
  | .value v => .value v

private theorem forall₂_obj_or_value {env : Env} {args : List HArg} {vs : List Val} (h : List.Forall₂ (ArgValue env) args vs) :
    (∃ cs : List CT, args = cs.map HArg.obj) ∨ ∃ v, HArg.value v ∈ args ∧ ∀ c, v ≠ .obj c := by
  induction h with
  | nil => exact .inl ⟨[], rfl⟩
  | @cons a v as vs ha _ ih =>
    cases ha with
    | @constval c v _ _ =>
      rcases ih with ⟨cs, rfl⟩ | ⟨w, hw⟩
      · exact .inl ⟨c :: cs, rfl⟩
      · exact .inr ⟨w, by simp [hw.1], hw.2⟩
    | value v hv => exact .inr ⟨v, by simp, hv⟩

/-- `constval_extract(constval_transform(f, args...))` is `f(constval_extract(args)...)`, for constvals, plain values and any mixture
of them. -/
theorem C120_extract_transform (env : Env) (f : Nat) (args : List HArg) (vs : List Val) (h : List.Forall₂ (ArgValue env) args vs)
    (hr : Representable (env.call f vs)) (hp : Kept (env.call f vs))
    (ho : (∃ v, HArg.value v ∈ args) → ∀ c, env.call f vs ≠ .obj c) :
    args.mapM (constvalExtract env) = some vs ∧
    ∃ r, constvalTransform env f args = some r ∧ constvalExtract env (asArgument r) = some (env.call f vs) := by
  constructor
  · clear hr hp ho
    induction h with
    | nil => rfl
    | cons ha _ ih =>
      cases ha with
      | constval hc hv => simp [constvalExtract, hc, hv, ih]
      | value w hw => rename_i w; cases w <;> first | exact absurd rfl (hw _) | simp [constvalExtract, ih]
  · rcases forall₂_obj_or_value h with ⟨cs, rfl⟩ | ⟨v, hv, hv'⟩
    · obtain ⟨c, h1, h2, h3⟩ := C50_transform_constvals env f cs vs h hr hp
      exact ⟨_, h1, by simp [asArgument, constvalExtract, h2, h3]⟩
    · refine ⟨_, C50_transform_values env f args vs v hv hv' h, ?_⟩
      have := ho ⟨v, hv⟩
      generalize env.call f vs = w at this
      cases w <;> first | rfl | exact absurd rfl (this _)

/-- The values of results are the values of arguments: the result of `constval_transform` can be used like any other argument. -/
theorem C120_result_as_argument (env : Env) (f : Nat) (args : List HArg) (vs : List Val) (h : List.Forall₂ (ArgValue env) args vs)
    (hr : Representable (env.call f vs)) (hp : Kept (env.call f vs))
    (ho : (∃ v, HArg.value v ∈ args) → ∀ c, env.call f vs ≠ .obj c) :
    ∃ r, constvalTransform env f args = some r ∧ ArgValue env (asArgument r) (env.call f vs) := by
  rcases forall₂_obj_or_value h with ⟨cs, rfl⟩ | ⟨v, hv, hv'⟩
  · obtain ⟨c, h1, h2, h3⟩ := C50_transform_constvals env f cs vs h hr hp
    exact ⟨_, h1, .constval h2 h3⟩
  · exact ⟨_, C50_transform_values env f args vs v hv hv' h, .value _ (ho ⟨v, hv⟩)⟩

private theorem transform_type (env : Env) (f : Nat) (cs : List CT) (vs : List Val)
    (h : List.Forall₂ (ArgValue env) (cs.map HArg.obj) vs) :
    eval env (.transform f cs) = some (env.call f vs) ∧
    constvalTransform env f (cs.map HArg.obj) = (constvalT env (.transform f cs)).map .constval := by
  have h1 : evalList env cs = some vs := by
    induction cs generalizing vs with
    | nil => cases h; rfl
    | cons c cs ih =>
      cases h with
      | cons h1 h2 => cases h1 with | constval _ hv => simp [evalList, hv, ih _ h2]
  have h2 : transportable (cs.map HArg.obj) = some cs := by
    clear h h1
    induction cs with
    | nil => rfl
    | cons c cs ih => simp [transportable, ih]
  exact ⟨by simp [eval, h1], by simp [constvalTransform, h2]⟩

/-- `constval_transform(g, constval_transform(f, args...))` and `constval_transform([](auto... xs) { return g(f(xs...)); }, args...)`
are the same, also in type, if the value is built of scalars, arrays and tuples.  (`k` is the composed functor.) -/
theorem C120_compose (env : Env) (f g k : Nat) (args : List HArg) (vs : List Val) (h : List.Forall₂ (ArgValue env) args vs)
    (hr : Representable (env.call f vs)) (hp : Kept (env.call f vs)) (hk : env.call k vs = env.call g [env.call f vs])
    (hn : Normalisable (env.call k vs)) (ho : (∃ v, HArg.value v ∈ args) → ∀ c, env.call f vs ≠ .obj c) :
    ∃ r s, constvalTransform env f args = some r ∧ constvalTransform env g [asArgument r] = some s ∧
      constvalTransform env k args = some s := by
  rcases forall₂_obj_or_value h with ⟨cs, rfl⟩ | ⟨v, hv, hv'⟩
  · obtain ⟨c, h1, h2, h3⟩ := C50_transform_constvals env f cs vs h hr hp
    obtain ⟨e1, t1⟩ := transform_type env g [c] [env.call f vs] (.cons (.constval h2 h3) .nil)
    obtain ⟨e2, t2⟩ := transform_type env k cs vs h
    rw [← hk] at e1
    have heq := (C49_same_type_iff env (.transform g [c]) (.transform k cs) _ _ rfl rfl e1 e2 hn hn).2 rfl
    obtain ⟨d, hd⟩ := (C48_exists_iff env (.transform k cs) _ rfl e2).2 (normalisable_representable hn)
    refine ⟨_, .constval d, h1, ?_, ?_⟩
    · have : [asArgument (HResult.constval c)] = [c].map HArg.obj := rfl
      rw [this, t1, heq, hd]
      rfl
    · rw [t2, hd]
      rfl
  · refine ⟨_, _, C50_transform_values env f args vs v hv hv' h, ?_, C50_transform_values env k args vs v hv hv' h⟩
    rw [hk]
    exact C50_transform_values env g [.value (env.call f vs)] [env.call f vs] (env.call f vs) (by simp) (ho ⟨v, hv⟩)
      (.cons (.value _ (ho ⟨v, hv⟩)) .nil)

/-- If the function returns an object of an empty class at run time, the laws do not hold: a returned `integral_constant` is extracted when it is
passed on to the next call, and makes the result of that a constant. -/
theorem C120_compose_objects :
    ∃ (env : Env) (v : Val), (∀ c, v ≠ .obj c) ∧ (∀ vs, env.call 2 vs = env.call 1 [env.call 0 vs]) ∧
      constvalTransform env 0 [.value v] = some (.value (.obj (.integralConstant 0 3))) ∧
      constvalTransform env 1 [.value (.obj (.integralConstant 0 3))] = some (.constval (.integralConstant 0 3)) ∧
      constvalTransform env 2 [.value v] = some (.value (.scalar 0 9)) := by
  refine ⟨⟨fun n vs => match n, vs with
    | 0, _ => .obj (.integralConstant 0 3)
    | 1, [.scalar 0 a] => .scalar 0 a
    | 1, [.obj _] => .scalar 0 9
    | 1, _ => .scalar 0 0
    | _, _ => .scalar 0 9, fun _ => .scalar 0 0⟩, .scalar 0 7, by simp, fun _ => rfl, rfl, rfl, rfl⟩

/-- For other values (e.g. floating-point numbers), the two have the same value but may differ in type. -/
theorem C120_compose_other_types :
    ∃ (env : Env) (c : CT), (∀ vs, env.call 2 vs = env.call 1 [env.call 0 vs]) ∧
      constvalTransform env 0 [.obj (.integralConstant 0 1)] = some (.constval c) ∧
      constvalTransform env 1 [.obj c] ≠ constvalTransform env 2 [.obj (.integralConstant 0 1)] := by
  refine ⟨⟨fun n vs => if n = 0 then .scalar 0 5 else .other 1 3, fun _ => .scalar 0 0⟩, .integralConstant 0 5, by simp, rfl, ?_⟩
  show some (HResult.constval (.constval (.transform 1 [.integralConstant 0 5]))) ≠
    some (HResult.constval (.constval (.transform 2 [.integralConstant 0 1])))
  simp

/-- The identity: `constval_transform([](auto x) { return x; }, c)` has the type of `c`, if `c` was made from a value of scalars, arrays
and tuples; plain values are passed through. -/
theorem C120_identity (env : Env) (f : Nat) (d c : CT) (v : Val) (hf : env.call f [v] = v) (hk : known d = false)
    (hv : eval env d = some v) (hn : Normalisable v) (hc : constvalT env d = some c) :
    constvalTransform env f [.obj c] = some (.constval c) ∧ constvalTransform env f [.value v] = some (.value v) := by
  have hic := C48_is_constval env d c hk hc
  have hev := C48_value env d c v hv (normalisable_kept hn) hc
  obtain ⟨e1, t1⟩ := transform_type env f [c] [v] (.cons (.constval hic hev) .nil)
  rw [hf] at e1
  constructor
  · have : [HArg.obj c] = [c].map HArg.obj := rfl
    rw [this, t1, (C49_same_type_iff env (.transform f [c]) d v v rfl hk e1 hv hn hn).2 rfl, hc]
    rfl
  · have ho : ∀ c, v ≠ .obj c := by rintro c rfl; cases hn
    rw [C50_transform_values env f [.value v] [v] v (by simp) ho (.cons (.value v ho) .nil), hf]

/-- `constval_extend` with a functor which extracts its arguments is `constval_transform`: the same value, and the same type if the value
is built of scalars, arrays and tuples.  (`k` is the functor which calls `constval_extract` for each of its arguments and passes the
results to `f`.) -/
theorem C120_extend_extracting (env : Env) (f k : Nat) (args : List HArg) (vs : List Val) (h : List.Forall₂ (ArgValue env) args vs)
    (hk : env.call k (args.map fun a => match a with | .obj c => .obj c | .value v => v) = env.call f vs)
    (hn : Normalisable (env.call f vs)) :
    ∃ r, constvalExtend env k args = some r ∧ constvalTransform env f args = some r := by
  rcases forall₂_obj_or_value h with ⟨cs, rfl⟩ | ⟨v, hv, hv'⟩
  · obtain ⟨e2, t2⟩ := transform_type env f cs vs h
    rw [List.map_map] at hk
    have hobj : (cs.map ((fun a => match a with | HArg.obj c => Val.obj c | HArg.value v => v) ∘ HArg.obj)) = cs.map Val.obj := by
      apply List.map_congr_left
      intros
      rfl
    rw [hobj] at hk
    have e1 : eval env (.extend k cs) = some (env.call f vs) := by simp [eval, hk]
    have heq := (C49_same_type_iff env (.extend k cs) (.transform f cs) _ _ rfl rfl e1 e2 hn hn).2 rfl
    obtain ⟨d, hd⟩ := (C48_exists_iff env (.transform f cs) _ rfl e2).2 (normalisable_representable hn)
    have ht : transportable (cs.map HArg.obj) = some cs := by
      clear * -
      induction cs with
      | nil => rfl
      | cons c cs ih => simp [transportable, ih]
    refine ⟨.constval d, ?_, by rw [t2, hd]; rfl⟩
    simp [constvalExtend, ht, heq, hd]
  · exact ⟨_, (C50_extend_values env k args v hv hv').trans (congrArg (fun z => some (HResult.value z)) hk), C50_transform_values env f args vs v hv hv' h⟩

/-- Functor 0 adds, functor 1 doubles, functor 2 doubles the sum, functor 3 returns its argument; functor 4 is a constant. -/
private def lawEnv : Env where
  call n vs := match n, vs with
    | 0, [.scalar 0 a, .scalar 0 b] => .scalar 0 (a + b)
    | 1, [.scalar 0 a] => .scalar 0 (2 * a)
    | 2, [.scalar 0 a, .scalar 0 b] => .scalar 0 (2 * (a + b))
    | 3, [v] => v
    | 5, [.obj (.integralConstant 0 a), .scalar 0 b] => .scalar 0 (a + b)
    | _, _ => .scalar 0 7
  object _ := .scalar 0 0

example : let args := [HArg.obj (.integralConstant 0 40), .value (.scalar 0 2)]
    List.Forall₂ (ArgValue lawEnv) args [.scalar 0 40, .scalar 0 2] ∧ Representable (lawEnv.call 0 [.scalar 0 40, .scalar 0 2]) ∧
      Kept (lawEnv.call 0 [.scalar 0 40, .scalar 0 2]) ∧
      lawEnv.call 2 [.scalar 0 40, .scalar 0 2] = lawEnv.call 1 [lawEnv.call 0 [.scalar 0 40, .scalar 0 2]] ∧
      Normalisable (lawEnv.call 2 [.scalar 0 40, .scalar 0 2]) ∧
      lawEnv.call 5 (args.map fun a => match a with | .obj c => .obj c | .value v => v) = lawEnv.call 0 [.scalar 0 40, .scalar 0 2] :=
  ⟨.cons (.constval rfl rfl) (.cons (.value _ (by simp)) .nil), .scalar _ _, .scalar _ _, rfl, .scalar _ _, rfl⟩

example : constvalTransform lawEnv 0 [.obj (.integralConstant 0 40), .obj (.integralConstant 0 2)] =
      some (.constval (.integralConstant 0 42)) ∧
    constvalTransform lawEnv 1 [.obj (.integralConstant 0 42)] = some (.constval (.integralConstant 0 84)) ∧
    constvalTransform lawEnv 2 [.obj (.integralConstant 0 40), .obj (.integralConstant 0 2)] =
      some (.constval (.integralConstant 0 84)) := ⟨rfl, rfl, rfl⟩

example : lawEnv.call 3 [.scalar 0 7] = .scalar 0 7 ∧ known (.functor 4) = false ∧ eval lawEnv (.functor 4) = some (.scalar 0 7) ∧
    constvalT lawEnv (.functor 4) = some (.integralConstant 0 7) := ⟨rfl, rfl, rfl, rfl⟩

end Makeshift.Props
