import Verif.Model.TypeTags
import Verif.Props.ConstvalLaws

/-! Property theorems C142: type tags as constants and as arguments of functions. -/

namespace Makeshift.Props

open Spec Constval TypeTags

/-- The objects `type_c<Ts>`. -/
def tagObjects (ts : List Nat) : List Val := ts.map fun t => .obj (.typeTag t)

/-- The function object maps type tags to type tags: it computes the function `g` on types. -/
def OnTypes (env : Env) (f : Nat) (g : List Nat → Nat) : Prop := ∀ ts, env.call f (tagObjects ts) = .obj (.typeTag (g ts))

/-- A tag is a constval, and the value it represents is the tag: extracting it and making a constval of it change nothing. -/
theorem C142_tag (env : Env) (t : Nat) :
    isConstval (.typeTag t) = true ∧ eval env (.typeTag t) = some (.obj (.typeTag t)) ∧
    constvalT env (.typeTag t) = some (.typeTag t) ∧ constvalExtract env (typeC t) = some (.obj (.typeTag t)) :=
  ⟨rfl, rfl, rfl, rfl⟩

/-- `==` yields `true` exactly for tags of the same type, `!=` exactly for tags of different types. -/
theorem C142_compare (env : Env) (b t u : Nat) :
    ∃ e n : Int, eval env (eqTags b t u) = some (.scalar b e) ∧ eval env (neTags b t u) = some (.scalar b n) ∧
      (e = 1 ↔ t = u) ∧ (n = 1 ↔ t ≠ u) ∧ e + n = 1 := by
  refine ⟨_, _, rfl, rfl, ?_, ?_, ?_⟩ <;> by_cases h : t = u <;> simp [h]

/-- Comparisons agree with the types of the objects: two tags compare equal iff they are objects of the same type. -/
theorem C142_same_type (env : Env) (b t u : Nat) :
    eval env (eqTags b t u) = some (.scalar b 1) ↔ CT.typeTag t = CT.typeTag u := by
  by_cases h : t = u <;> simp [eqTags, eval, h]

/-- The two results are of different kinds: `constval_extract` yields the Boolean value for `!=`, but not for `==`, where it returns the
`std::is_same` object. -/
theorem C142_extract (env : Env) (b t u : Nat) :
    constvalExtract env (.obj (neTags b t u)) = eval env (neTags b t u) ∧
    constvalExtract env (.obj (eqTags b t u)) = some (.obj (eqTags b t u)) ∧
    constvalExtract env (.obj (eqTags b t u)) ≠ eval env (eqTags b t u) := by
  refine ⟨rfl, rfl, ?_⟩
  simp [constvalExtract, eqTags, isConstval, tagged, eval]

/-- `make_constval` of either result is the `integral_constant` of the Boolean value. -/
theorem C142_constval_of_result (env : Env) (b t u : Nat) :
    ∃ e n : Int, constvalT env (eqTags b t u) = some (.integralConstant b e) ∧ constvalT env (neTags b t u) = some (.integralConstant b n) ∧
      (e = 1 ↔ t = u) ∧ (n = 1 ↔ t ≠ u) ∧ e + n = 1 := by
  refine ⟨_, _, rfl, rfl, ?_, ?_, ?_⟩ <;> by_cases h : t = u <;> simp [h]

private theorem evalList_tags (env : Env) (ts : List Nat) : evalList env (ts.map CT.typeTag) = some (tagObjects ts) := by
  induction ts with
  | nil => rfl
  | cons t ts ih => simp [evalList, eval, ih, tagObjects]

private theorem transportable_tags (ts : List Nat) : transportable (ts.map typeC) = some (ts.map CT.typeTag) := by
  induction ts with
  | nil => rfl
  | cons t ts ih => simp [transportable, typeC] at ih ⊢; exact ih

private theorem transform_tags (env : Env) (f : Nat) (ts : List Nat) :
    constvalTransform env f (ts.map typeC) = (norm1 (env.call f (tagObjects ts)) (.transform f (ts.map CT.typeTag))).map .constval ∧
    constvalExtend env f (ts.map typeC) = (norm1 (env.call f (tagObjects ts)) (.extend f (ts.map CT.typeTag))).map .constval := by
  constructor
  · simp [constvalTransform, transportable_tags, constvalT, known, eval, evalList_tags]
  · simp only [constvalExtend, transportable_tags, constvalT, known, eval]
    simp [tagObjects, Function.comp_def]

/-- A function of types, called for tags by `constval_transform` or by `constval_extend`, yields the tag of the result. -/
theorem C142_type_function (env : Env) (f : Nat) (g : List Nat → Nat) (hf : OnTypes env f g) (ts : List Nat) :
    constvalTransform env f (ts.map typeC) = some (.constval (.typeTag (g ts))) ∧
    constvalExtend env f (ts.map typeC) = some (.constval (.typeTag (g ts))) := by
  rw [(transform_tags env f ts).1, (transform_tags env f ts).2, hf ts]
  exact ⟨rfl, rfl⟩

/-- Calls can be chained: applying functions of one type one after the other yields the tag of the type their composition yields. -/
theorem C142_chain (env : Env) (fs : List Nat) (g : Nat → Nat → Nat) (hf : ∀ f ∈ fs, ∀ t, env.call f [.obj (.typeTag t)] = .obj (.typeTag (g f t)))
    (t : Nat) :
    fs.foldl (fun r f => r.bind fun a => (constvalTransform env f [a]).map asArgument) (some (typeC t)) =
      some (typeC (fs.foldl (fun t f => g f t) t)) := by
  induction fs generalizing t with
  | nil => rfl
  | cons f fs ih =>
    have h := (transform_tags env f [t]).1
    simp only [tagObjects, List.map_cons, List.map_nil, hf f (by simp) t] at h
    simp only [List.foldl_cons, Option.bind_some, h]
    exact ih (fun f' h' => hf f' (by simp [h'])) (g f t)

/-- For tags, `constval_transform` and `constval_extend` do the same: they compile for the same functions, the constvals have the same
value, which is the value of the call for the tags themselves, and if that value is made of scalars, arrays and tuples only, they are of
the same type. -/
theorem C142_transform_extend (env : Env) (f : Nat) (ts : List Nat) :
    ((∃ c, constvalTransform env f (ts.map typeC) = some (.constval c)) ↔ Representable (env.call f (tagObjects ts))) ∧
    ((∃ c, constvalExtend env f (ts.map typeC) = some (.constval c)) ↔ Representable (env.call f (tagObjects ts))) ∧
    (Kept (env.call f (tagObjects ts)) →
      (∀ c, constvalTransform env f (ts.map typeC) = some (.constval c) → eval env c = some (env.call f (tagObjects ts))) ∧
      (∀ c, constvalExtend env f (ts.map typeC) = some (.constval c) → eval env c = some (env.call f (tagObjects ts)))) ∧
    (Normalisable (env.call f (tagObjects ts)) →
      constvalTransform env f (ts.map typeC) = constvalExtend env f (ts.map typeC)) := by
  rw [(transform_tags env f ts).1, (transform_tags env f ts).2]
  have e1 : eval env (.transform f (ts.map CT.typeTag)) = some (env.call f (tagObjects ts)) := by simp [eval, evalList_tags]
  have e2 : eval env (.extend f (ts.map CT.typeTag)) = some (env.call f (tagObjects ts)) := by simp [eval, tagObjects, Function.comp_def]
  refine ⟨⟨?_, ?_⟩, ⟨?_, ?_⟩, fun hp => ⟨?_, ?_⟩, fun hn => by rw [norm1_canonical _ _ (.extend f (ts.map CT.typeTag)) hn]⟩
  · rintro ⟨c, h⟩
    simp at h
    exact norm1_representable _ _ _ h
  · intro h
    obtain ⟨c, hc⟩ := norm1_exists _ (.transform f (ts.map CT.typeTag)) h
    exact ⟨c, by simp [hc]⟩
  · rintro ⟨c, h⟩
    simp at h
    exact norm1_representable _ _ _ h
  · intro h
    obtain ⟨c, hc⟩ := norm1_exists _ (.extend f (ts.map CT.typeTag)) h
    exact ⟨c, by simp [hc]⟩
  · intro c h
    simp at h
    exact C48_value env _ c _ e1 hp (by simp [constvalT, known, e1, h])
  · intro c h
    simp at h
    exact C48_value env _ c _ e2 hp (by simp [constvalT, known, e2, h])

/-- Next to values known at run time, tags are passed on as they are, by `constval_transform` as by `constval_extend`. -/
theorem C142_mixed (env : Env) (f : Nat) (args : List (Nat ⊕ Val)) (w : Val) (hw : .inr w ∈ args)
    (ho : ∀ v, .inr v ∈ args → ∀ c, v ≠ .obj c) :
    constvalTransform env f (args.map (Sum.elim typeC .value)) =
      some (.value (env.call f (args.map (Sum.elim (fun t => .obj (.typeTag t)) id)))) ∧
    constvalExtend env f (args.map (Sum.elim typeC .value)) =
      some (.value (env.call f (args.map (Sum.elim (fun t => .obj (.typeTag t)) id)))) := by
  have hm : HArg.value w ∈ args.map (Sum.elim typeC HArg.value) := List.mem_map.2 ⟨_, hw, rfl⟩
  constructor
  · refine C50_transform_values env f _ _ w hm (ho w hw) ?_
    clear hw hm
    induction args with
    | nil => exact .nil
    | cons a as ih =>
      refine .cons ?_ (ih fun v hv => ho v (by simp [hv]))
      rcases a with t | v
      · exact .constval rfl rfl
      · exact .value v (ho v (by simp))
  · rw [C50_extend_values env f _ w hm (ho w hw), List.map_map]
    congr 3
    refine List.map_congr_left fun a _ => ?_
    rcases a with t | v <;> rfl

/-- Comparing by means of `constval_transform`: for `std::equal_to<>` and `std::not_equal_to<>` the value of the result is not a Boolean value
but an object which represents one. -/
theorem C142_compare_transform (env : Env) (eq ne b : Nat)
    (heq : ∀ t u, env.call eq (tagObjects [t, u]) = .obj (eqTags b t u)) (hne : ∀ t u, env.call ne (tagObjects [t, u]) = .obj (neTags b t u))
    (t u : Nat) :
    (∃ c, constvalTransform env eq [typeC t, typeC u] = some (.constval c) ∧ constvalExtract env (.obj c) = some (.obj (eqTags b t u))) ∧
    (∃ c, constvalTransform env ne [typeC t, typeC u] = some (.constval c) ∧ constvalExtract env (.obj c) = some (.obj (neTags b t u))) := by
  have h1 := (transform_tags env eq [t, u]).1
  have h2 := (transform_tags env ne [t, u]).1
  rw [heq] at h1
  rw [hne] at h2
  have e1 : eval env (.transform eq [.typeTag t, .typeTag u]) = some (.obj (eqTags b t u)) := by
    have := heq t u
    simp only [tagObjects, List.map_cons, List.map_nil] at this
    simp [eval, evalList, this]
  have e2 : eval env (.transform ne [.typeTag t, .typeTag u]) = some (.obj (neTags b t u)) := by
    have := hne t u
    simp only [tagObjects, List.map_cons, List.map_nil] at this
    simp [eval, evalList, this]
  exact ⟨⟨_, h1, by simpa [constvalExtract, isConstval, tagged, eval] using e1⟩,
    ⟨_, h2, by simpa [constvalExtract, isConstval, tagged, eval] using e2⟩⟩

/-- No constant tuple containing a tag can be made: the constval of such a tuple is ill-formed. -/
theorem C142_no_tuples (env : Env) (f : Nat) (vs : List Val) (t : Nat) (ht : .obj (.typeTag t) ∈ vs)
    (hf : env.call f [] = .tuple vs) : constvalT env (.functor f) = none := by
  rw [Option.eq_none_iff_forall_not_mem]
  intro c hc
  have h := (C48_exists_iff env (.functor f) (.tuple vs) rfl (by simp [eval, hf])).1 ⟨c, hc⟩
  cases h with
  | tuple _ _ h2 => exact h2 (.typeTag t) trivial ht

private theorem normArray_tags (t : Nat) (n i : Nat) (d : CT) :
    normArray (List.replicate n (.obj (.typeTag t))) i d = some (List.replicate n (.typeTag t)) := by
  induction n generalizing i with
  | zero => rfl
  | succ n ih => simp [List.replicate_succ, normArray, hasTagged, norm1, tagged, ih]

private theorem evalList_replicate (env : Env) (t n : Nat) :
    evalList env (List.replicate n (.typeTag t)) = some (List.replicate n (.obj (.typeTag t))) := by
  have := evalList_tags env (List.replicate n t)
  simpa [tagObjects] using this

/-- A constant array of tags (which are all of one type then) can be made, unlike a tuple: its value is the array, and its elements are the tag. -/
theorem C142_arrays (env : Env) (f ty t n : Nat) (hf : env.call f [] = .array false ty (List.replicate n (.obj (.typeTag t)))) :
    ∃ a, constvalT env (.functor f) = some a ∧ isConstval a = true ∧ eval env a = some (env.call f []) ∧
      ∀ i, getC env i a = if i < n then some (.typeTag t) else none := by
  refine ⟨.arrayConstantRef false ty (List.replicate n (.typeTag t)), ?_, rfl, ?_, fun i => ?_⟩
  · simp [constvalT, known, eval, hf, norm1, normArray_tags]
  · simp [eval, evalList_replicate, hf]
  · simp only [getC, List.length_replicate]
    by_cases h : i < n
    · simp [h, constvalT, known, eval, evalList_replicate, getArray, norm1, tagged]
    · simp [h]

/-- Of an array of type sequences no constval can be made. -/
theorem C142_no_arrays_of_sequences (env : Env) (f ty : Nat) (tys : List Nat) (vs : List Val)
    (hf : env.call f [] = .array false ty vs) (hs : .obj (.typeSequence tys) ∈ vs) : constvalT env (.functor f) = none := by
  rw [Option.eq_none_iff_forall_not_mem]
  intro c hc
  have h := (C48_exists_iff env (.functor f) (.array false ty vs) rfl (by simp [eval, hf])).1 ⟨c, hc⟩
  cases h with
  | array _ _ _ h2 =>
    cases h2 _ hs with
    | obj _ h => simp [tagged] at h

/-- Type numbers: 0 `int`, 1 `bool`, n + 10 `std::add_pointer_t` of n.  Functions: 0 adds a pointer, 1 is `sizeof`, 2 is `std::equal_to<>`, 3 is
`std::not_equal_to<>`, 4 makes a tuple, 5 and 6 make arrays. -/
def tagEnv : Env where
  call
    | 0, [.obj (.typeTag t)] => .obj (.typeTag (t + 10))
    | 0, vs => .obj (.typeTag vs.length)
    | 1, [.obj (.typeTag t)] => .scalar 0 (if t = 1 then 1 else 4)
    | 2, [.obj (.typeTag t), .obj (.typeTag u)] => .obj (.isSame 1 t u)
    | 3, [.obj (.typeTag t), .obj (.typeTag u)] => .obj (.integralConstant 1 (if t = u then 0 else 1))
    | 4, _ => .tuple [.scalar 0 1, .obj (.typeTag 0)]
    | 5, _ => .array false 2 [.obj (.typeTag 0), .obj (.typeTag 0)]
    | 6, _ => .array false 3 [.obj (.typeSequence [0, 1])]
    | _, _ => .scalar 0 0
  object _ := .scalar 0 0

example : (∀ t u, tagEnv.call 2 (tagObjects [t, u]) = .obj (eqTags 1 t u)) ∧ (∀ t u, tagEnv.call 3 (tagObjects [t, u]) = .obj (neTags 1 t u)) :=
  ⟨fun _ _ => rfl, fun _ _ => rfl⟩

example : ∀ f ∈ [0, 0], ∀ t, tagEnv.call f [.obj (.typeTag t)] = .obj (.typeTag (t + 10)) := by
  intro f hf t
  simp at hf
  subst hf
  rfl

example : OnTypes ⟨fun _ vs => .obj (.typeTag (vs.length + 5)), fun _ => .scalar 0 0⟩ 0 (fun ts => ts.length + 5) := by
  intro ts
  simp [tagObjects]

example : constvalTransform tagEnv 1 [typeC 1] = some (.constval (.integralConstant 0 1)) ∧
    Normalisable (tagEnv.call 1 (tagObjects [1])) := ⟨rfl, .scalar _ _⟩

example : tagEnv.call 4 [] = .tuple [.scalar 0 1, .obj (.typeTag 0)] := rfl

example : tagEnv.call 5 [] = .array false 2 (List.replicate 2 (.obj (.typeTag 0))) ∧
    tagEnv.call 6 [] = .array false 3 [.obj (.typeSequence [0, 1])] := ⟨rfl, rfl⟩

example : (Sum.inr (Val.scalar 0 7) : Nat ⊕ Val) ∈ [.inl 3, .inr (.scalar 0 7)] := by simp

end Makeshift.Props
