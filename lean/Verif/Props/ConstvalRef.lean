import Verif.Model.ConstvalRef
import Verif.Props.Constval

/-!
# C110: constvals of functors which return references or `const` objects
-/

namespace Makeshift.Props

open Constval
open Spec

/-- C110: however the functor declares its result, the constval made of it represents the value which the functor returns. -/
theorem C110_value (fe : FEnv) (id : Nat) (r : QT) (hp : Plain (fe.env.call id [])) (h : makeConstval fe (.functor id) = some r) :
    eval fe.env r.type = some (fe.env.call id []) := by
  simp only [makeConstval] at h
  split at h
  · simp only [Option.map_eq_some_iff] at h
    obtain ⟨c, hc, rfl⟩ := h
    exact C48_value fe.env (.functor id) c _ rfl (kept_of_plain hp) (by simpa [constvalT, known, eval] using hc)
  · obtain rfl := Option.some.inj h
    generalize hv : fe.env.call id [] = v at hp
    cases v <;> simp [normConst, eval, hv]
    cases hp with
    | obj c ht => simp [ht, eval, hv]
  · obtain rfl := Option.some.inj h
    simp [eval]
  · obtain rfl := Option.some.inj h
    simp [eval]

/-- C110: in any case the result is a constval. -/
theorem C110_is_constval (fe : FEnv) (id : Nat) (r : QT) (h : makeConstval fe (.functor id) = some r) : isConstval r.type = true := by
  simp only [makeConstval] at h
  split at h
  · simp only [Option.map_eq_some_iff] at h
    obtain ⟨c, hc, rfl⟩ := h
    exact C48_is_constval fe.env (.functor id) c rfl (by simpa [constvalT, known, eval] using hc)
  · obtain rfl := Option.some.inj h
    generalize fe.env.call id [] = v
    cases v <;> simp only [normConst] <;> try rfl
    rename_i c
    by_cases ht : tagged c = true
    · simp only [ht, if_true]
      cases c <;> simp_all [tagged, isConstval]
    · simp only [ht]
      rfl
  · obtain rfl := Option.some.inj h
    rfl
  · obtain rfl := Option.some.inj h
    rfl

/-- C110: a constval can be made of every functor which returns a reference or a `const` object; of a functor which returns a plain value
if and only if the value is representable. -/
theorem C110_exists (fe : FEnv) (id : Nat) :
    (∃ r, makeConstval fe (.functor id) = some r) ↔ (fe.returns id = .value → Representable (fe.env.call id [])) := by
  have h := C48_exists_iff fe.env (.functor id) (fe.env.call id []) rfl rfl
  simp only [constvalT, known, eval, Bool.false_eq_true, if_false, Option.bind_some] at h
  rw [← h]
  cases hr : fe.returns id <;> simp [makeConstval, hr]

/-- C110: the canonical type is obtained if the functor returns a plain value, or a `const` value of scalar type (for which the `const` has
no effect). -/
theorem C110_canonical (fe fe' : FEnv) (id id' : Nat) (hv : fe.env.call id [] = fe'.env.call id' [])
    (hn : Normalisable (fe.env.call id []))
    (h : fe.returns id = .value ∨ (fe.returns id = .constValue ∧ ∃ ty v, fe.env.call id [] = .scalar ty v))
    (h' : fe'.returns id' = .value ∨ (fe'.returns id' = .constValue ∧ ∃ ty v, fe'.env.call id' [] = .scalar ty v)) :
    makeConstval fe (.functor id) = makeConstval fe' (.functor id') := by
  have key : ∀ (g : FEnv) (i : Nat),
      (g.returns i = .value ∨ (g.returns i = .constValue ∧ ∃ ty v, g.env.call i [] = .scalar ty v)) →
      makeConstval g (.functor i) = (constvalT g.env (.functor i)).map (⟨false, ·⟩) := by
    intro g i hi
    rcases hi with hi | ⟨hi, ty, v, he⟩
    · simp [makeConstval, hi, constvalT, known, eval]
    · simp [makeConstval, hi, he, constvalT, known, eval, normConst, norm1]
  rw [key fe id h, key fe' id' h', C49_any_environment fe.env fe'.env (.functor id) (.functor id') (fe.env.call id []) rfl rfl rfl
    (by simp [eval, hv]) hn]

/-- C110: but for references, every functor has its own constval type, which is not the type of a constval made by value, even if the
values are equal. -/
theorem C110_reference_type (fe fe' : FEnv) (id id' : Nat) (h : fe.returns id = .constRef ∨ fe.returns id = .ref) :
    ((fe'.returns id' = .constRef ∨ fe'.returns id' = .ref) →
      (makeConstval fe (.functor id) = makeConstval fe' (.functor id') ↔ id = id')) ∧
    (fe'.returns id' = .value → Normalisable (fe'.env.call id' []) →
      makeConstval fe (.functor id) ≠ makeConstval fe' (.functor id')) := by
  have hl : makeConstval fe (.functor id) = some ⟨false, .constval (.functor id)⟩ := by rcases h with h | h <;> simp [makeConstval, h]
  rw [hl]
  constructor
  · intro h'
    have hl' : makeConstval fe' (.functor id') = some ⟨false, .constval (.functor id')⟩ := by
      rcases h' with h | h <;> simp [makeConstval, h]
    simp [hl']
  · intro h' hn
    simp only [makeConstval, h']
    generalize fe'.env.call id' [] = v at hn
    intro he
    rw [eq_comm, Option.map_eq_some_iff] at he
    obtain ⟨c, hc, he⟩ := he
    cases he
    cases hn with
    | _ => simp [norm1] at hc

/-- C110: the same is true for `const` arrays and tuples. -/
theorem C110_const_type (fe fe' : FEnv) (id id' : Nat) (hn : Normalisable (fe.env.call id []))
    (hs : ∀ ty v, fe.env.call id [] ≠ .scalar ty v) (h : fe.returns id = .constValue) (h' : fe'.returns id' = .value)
    (hn' : Normalisable (fe'.env.call id' [])) : makeConstval fe (.functor id) ≠ makeConstval fe' (.functor id') := by
  have hl : makeConstval fe (.functor id) = some ⟨false, .tupleLikeConstval (.functor id)⟩ := by
    simp only [makeConstval, h]
    generalize fe.env.call id [] = v at hn hs
    cases hn with
    | scalar ty v => exact absurd rfl (hs ty v)
    | _ => simp [normConst]
  rw [hl]
  simp only [makeConstval, h']
  generalize fe'.env.call id' [] = v at hn'
  intro he
  rw [eq_comm, Option.map_eq_some_iff] at he
  obtain ⟨c, hc, he⟩ := he
  cases he
  cases hn' with
  | _ => simp [norm1] at hc

/-- C110: `get<I>` of a constval made of a functor which returns a `const` array or tuple is the canonical constval of the element. -/
theorem C110_const_get (fe : FEnv) (id i : Nat) (r : QT) (vs : List Val) (w : Val) (h : fe.returns id = .constValue)
    (hm : makeConstval fe (.functor id) = some r)
    (hvs : fe.env.call id [] = .tuple vs ∨ (∃ ty, fe.env.call id [] = .tupleLike ty vs) ∨ ∃ b ty, fe.env.call id [] = .array b ty vs)
    (hi : vs[i]? = some w) (hn : Normalisable w) (d : CT) (hd : known d = false) (hdw : eval fe.env d = some w) :
    getC fe.env i r.type = constvalT fe.env d ∧ ∃ e, constvalT fe.env d = some e ∧ eval fe.env e = some w := by
  have hl : r.type = .tupleLikeConstval (.functor id) := by
    simp only [makeConstval, h, Option.some.injEq] at hm
    subst hm
    rcases hvs with he | ⟨ty, he⟩ | ⟨b, ty, he⟩ <;> simp [he, normConst]
  have hv : eval fe.env (.tupleAccessor i (.tupleLikeConstval (.functor id))) = some w := by
    simp only [eval, Option.bind_some]
    rcases hvs with he | ⟨ty, he⟩ | ⟨b, ty, he⟩ <;> simp [he, getTuple, hi]
  obtain ⟨e, he⟩ := (C48_exists_iff fe.env d w hd hdw).2 (normalisable_representable hn)
  refine ⟨?_, e, he, C48_value fe.env d e w hdw (normalisable_kept hn) he⟩
  rw [hl]
  exact C49_any_environment fe.env fe.env _ d w rfl hd hv hdw hn

/-- C110: a constval made of a functor which returns a reference to an array or tuple has no `get<I>`. -/
theorem C110_reference_get (fe : FEnv) (id i : Nat) (r : QT) (h : fe.returns id = .constRef ∨ fe.returns id = .ref)
    (hm : makeConstval fe (.functor id) = some r) : getC fe.env i r.type = none := by
  have hl : makeConstval fe (.functor id) = some ⟨false, .constval (.functor id)⟩ := by rcases h with h | h <;> simp [makeConstval, h]
  rw [hl] at hm
  obtain rfl := Option.some.inj hm
  rfl

/-- C110: `constval_transform` leads back to canonical types: with a functor that returns its argument, the result has the type of a
constval of the same value made by value, however the original functor returns it. -/
theorem C110_transform (fe : FEnv) (id f : Nat) (r : QT) (hn : Normalisable (fe.env.call id []))
    (hm : makeConstval fe (.functor id) = some r) (hf : ∀ v, fe.env.call f [v] = v) (d : CT) (hd : known d = false)
    (hdv : eval fe.env d = some (fe.env.call id [])) :
    constvalTransform fe.env f [.obj r.type] = (constvalT fe.env d).map .constval ∧ (constvalT fe.env d).isSome = true := by
  have hv := C110_value fe id r (normalisable_plain hn) hm
  have ht : eval fe.env (.transform f [r.type]) = some (fe.env.call id []) := by
    simp [eval, evalList, hv, hf]
  obtain ⟨e, he⟩ := (C48_exists_iff fe.env d _ hd hdv).2 (normalisable_representable hn)
  refine ⟨?_, by simp [he]⟩
  rw [← C49_any_environment fe.env fe.env (.transform f [r.type]) d _ rfl hd ht hdv hn]
  rfl

/-- C110: the constval of a functor which returns a reference returns a reference to the same object; but its member `value` names a copy,
and for a reference to a non-`const` object neither `value` nor `constval_extract` can be used. -/
theorem C110_reference_object (fe : FEnv) (id : Nat) (r : QT) (hm : makeConstval fe (.functor id) = some r) :
    (fe.returns id = .constRef → callObject fe r.type = some (.user (fe.object id)) ∧
      (∃ o, valueObject fe r.type = some o ∧ some o ≠ callObject fe r.type) ∧ extract fe r.type = some (fe.env.call id [])) ∧
    (fe.returns id = .ref → callObject fe r.type = some (.user (fe.object id)) ∧ valueObject fe r.type = none ∧
      extract fe r.type = none) := by
  constructor
  · intro h
    have hl : makeConstval fe (.functor id) = some ⟨false, .constval (.functor id)⟩ := by simp [makeConstval, h]
    rw [hl] at hm
    obtain rfl := Option.some.inj hm
    refine ⟨by simp [callObject, h], ⟨.copy (.functor id), by simp [valueObject, functorReturns, h], by simp [callObject, h]⟩, ?_⟩
    simp [extract, functorReturns, h, eval]
  · intro h
    have hl : makeConstval fe (.functor id) = some ⟨false, .constval (.functor id)⟩ := by simp [makeConstval, h]
    rw [hl] at hm
    obtain rfl := Option.some.inj hm
    simp [callObject, valueObject, extract, functorReturns, h]

/-- C110: whatever else is made by value or `const` value is a value: the call returns no reference, and `constval_extract` yields it. -/
theorem C110_value_object (fe : FEnv) (id : Nat) (r : QT) (hp : Plain (fe.env.call id []))
    (h : fe.returns id = .value ∨ fe.returns id = .constValue) (hm : makeConstval fe (.functor id) = some r) :
    callObject fe r.type = none ∧ valueObject fe r.type = some (.member r.type) ∧ extract fe r.type = some (fe.env.call id []) := by
  have hv := C110_value fe id r hp hm
  have key : ∀ c : CT, (∀ f, c = .constval f → f = .functor id) → callObject fe c = none ∧ valueObject fe c = some (.member c) ∧
      extract fe c = eval fe.env c := by
    intro c hc
    cases c with
    | constval f =>
      obtain rfl := hc f rfl
      rcases h with h | h <;> simp [callObject, valueObject, extract, functorReturns, h, eval]
    | _ => exact ⟨rfl, rfl, rfl⟩
  have := key r.type ?_
  · exact ⟨this.1, this.2.1, by rw [this.2.2, hv]⟩
  · intro f hf
    simp only [makeConstval] at hm
    generalize fe.env.call id [] = v at hm hp
    rcases h with h | h <;> simp only [h] at hm
    · rw [Option.map_eq_some_iff] at hm
      obtain ⟨c, hc, rfl⟩ := hm
      simp only at hf
      subst hf
      cases hp with
      | obj c ht => simp only [norm1, ht, Bool.false_eq_true, if_false, Option.some.injEq, CT.constval.injEq] at hc; exact hc.symm
      | array b => cases b <;> simp [norm1] at hc
      | other => simp only [norm1, Option.some.injEq, CT.constval.injEq] at hc; exact hc.symm
      | _ => simp [norm1] at hc
    · obtain rfl := Option.some.inj hm
      cases hp with
      | obj c ht => simp only [normConst, ht, Bool.false_eq_true, if_false, CT.constval.injEq] at hf; exact hf.symm
      | other => simp only [normConst, CT.constval.injEq] at hf; exact hf.symm
      | _ => simp [normConst] at hf

/-- C110: a functor which returns a `const` object of a constval type `X` yields the type `X const`; one which returns it by value yields
`X`; for one which returns a reference, the constval object itself remains the value. -/
theorem C110_of_constval (fe : FEnv) (id : Nat) (c : CT) (hc : fe.env.call id [] = .obj c) (ht : tagged c = true) :
    (fe.returns id = .value → makeConstval fe (.functor id) = some ⟨false, c⟩) ∧
    (fe.returns id = .constValue → makeConstval fe (.functor id) = some ⟨true, c⟩) ∧
    ((fe.returns id = .constRef ∨ fe.returns id = .ref) →
      ∃ r, makeConstval fe (.functor id) = some r ∧ eval fe.env r.type = some (.obj c)) := by
  refine ⟨fun h => ?_, fun h => ?_, fun h => ?_⟩
  · simp [makeConstval, h, hc, norm1, ht]
  · simp [makeConstval, h, hc, normConst, ht]
  · exact ⟨⟨false, .constval (.functor id)⟩, by rcases h with h | h <;> simp [makeConstval, h], by simp [eval, hc]⟩

example : tagged (.arrayConstant 0 [1]) = true := rfl

/-- C110: this is the only case in which the type is `const`. -/
theorem C110_const (fe : FEnv) (c : CT) (r : QT) (h : makeConstval fe c = some r) :
    r.isConst = true ↔ ∃ id c', c = .functor id ∧ fe.returns id = .constValue ∧ fe.env.call id [] = .obj c' ∧ tagged c' = true := by
  by_cases hf : ∃ id, c = .functor id
  · obtain ⟨id, rfl⟩ := hf
    cases hr : fe.returns id with
    | constValue =>
      simp only [makeConstval, hr, Option.some.injEq] at h
      subst h
      rcases hv : fe.env.call id [] with _ | _ | _ | _ | _ | c'
      all_goals try simp [normConst, hr, hv]
      cases ht : tagged c' <;> simp
    | value =>
      simp only [makeConstval, hr, Option.map_eq_some_iff] at h
      obtain ⟨_, _, rfl⟩ := h
      simp [hr]
    | constRef =>
      simp only [makeConstval, hr, Option.some.injEq] at h
      subst h
      simp [hr]
    | ref =>
      simp only [makeConstval, hr, Option.some.injEq] at h
      subst h
      simp [hr]
  · have : r.isConst = false := by
      unfold makeConstval at h
      split at h
      · exact absurd ⟨_, rfl⟩ hf
      · rw [Option.map_eq_some_iff] at h
        obtain ⟨_, _, rfl⟩ := h
        rfl
    rw [this]
    constructor
    · intro h'; cases h'
    · rintro ⟨id, c', rfl, -⟩
      exact absurd ⟨_, rfl⟩ hf

/-! A functor of each kind for the tuple `{ 3, { 1, 2 } }` (0 to 3) and for the number 3 (4 to 7), and two others. -/

/-- Example environment. -/
def refFunctors : FEnv where
  env :=
    { call := fun n args => match args with
        | [v] => v
        | _ => if n < 4 then .tuple [.scalar 0 3, .array true 0 [.scalar 0 1, .scalar 0 2]] else .scalar 0 3
      object := fun _ => .scalar 0 0 }
  returns n := match n % 4 with
    | 0 => .value
    | 1 => .constValue
    | 2 => .constRef
    | _ => .ref
  object n := n

example : makeConstval refFunctors (.functor 0) =
      some ⟨false, .tupleConstant [.integralConstant 0 3, .arrayConstant 0 [1, 2]]⟩ ∧
    makeConstval refFunctors (.functor 1) = some ⟨false, .tupleLikeConstval (.functor 1)⟩ ∧
    makeConstval refFunctors (.functor 2) = some ⟨false, .constval (.functor 2)⟩ ∧
    makeConstval refFunctors (.functor 3) = some ⟨false, .constval (.functor 3)⟩ ∧
    makeConstval refFunctors (.functor 4) = some ⟨false, .integralConstant 0 3⟩ ∧
    makeConstval refFunctors (.functor 5) = some ⟨false, .integralConstant 0 3⟩ ∧
    makeConstval refFunctors (.functor 6) = some ⟨false, .constval (.functor 6)⟩ := ⟨rfl, rfl, rfl, rfl, rfl, rfl, rfl⟩

example : Normalisable (refFunctors.env.call 1 []) ∧ refFunctors.env.call 1 [] = refFunctors.env.call 0 [] ∧
    (∀ v, refFunctors.env.call 9 [v] = v) ∧ (∀ ty v, refFunctors.env.call 1 [] ≠ .scalar ty v) := by
  refine ⟨?_, rfl, fun _ => rfl, by intro ty v h; cases h⟩
  refine .tuple _ ?_
  intro v hv
  simp only [List.mem_cons, List.not_mem_nil, or_false] at hv
  rcases hv with rfl | rfl
  · exact .scalar 0 3
  · exact .scalarArray 0 [1, 2]

end Makeshift.Props
