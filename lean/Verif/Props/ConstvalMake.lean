import Verif.Lemmas.ConstvalMake
import Verif.Props.Constval

/-! # C82: constvals of arrays and tuples made of constvals -/

namespace Makeshift.Props

open Spec Constval

/-- `c` is a constval (other than a `type_sequence` or a `type_tag`, which have no `value_type`) of value `v`. -/
def ConstvalOf (env : Env) (c : CT) (v : Val) : Prop :=
  isConstval c = true ∧ ¬ RepresentsTypes c ∧ eval env c = some v

private theorem constvalOfs {env : Env} {cs : List CT} {vs : List Val} (h : List.Forall₂ (ConstvalOf env) cs vs) :
    (∀ c ∈ cs, hasValueType c = true) ∧ evalList env cs = some vs ∧ cs.length = vs.length := by
  induction h with
  | nil => exact ⟨by simp, rfl, rfl⟩
  | cons h1 _ ih =>
    obtain ⟨h2, h3, h4⟩ := h1
    refine ⟨?_, by simp [evalList, h4, ih.2.1], by simp [ih.2.2]⟩
    simp only [List.mem_cons, forall_eq_or_imp]
    exact ⟨(hasValueType_iff _).2 ⟨h2, h3⟩, ih.1⟩

/-- `make_array_constant` accepts constvals if there is at least one and their values all have the same type. -/
theorem C82_make_array_iff (env : Env) (name : Val → Nat) (cs : List CT) (vs : List Val)
    (h : List.Forall₂ (ConstvalOf env) cs vs) :
    (∃ a, makeArrayConstant env name cs = some a) ↔ vs ≠ [] ∧ ∃ b ty, AllOfType name b ty vs := by
  obtain ⟨h1, h2, _⟩ := constvalOfs h
  simp only [makeArrayConstant_of h1 h2]
  constructor
  · rintro ⟨a, hne, ⟨ty, xs, rfl, _⟩ | ⟨ty, ht, _⟩⟩
    · exact ⟨hne, true, ty, .scalars ty xs⟩
    · exact ⟨hne, false, ty, ht⟩
  · rintro ⟨hne, b, ty, ht⟩
    cases ht with
    | scalars _ xs => exact ⟨_, hne, .inl ⟨ty, xs, rfl, rfl⟩⟩
    | others _ _ ht => exact ⟨_, hne, .inr ⟨ty, .others ty vs ht, rfl⟩⟩

/-- The result is a constval, and its value is the `std::array` of the values in order. -/
theorem C82_make_array_value (env : Env) (name : Val → Nat) (cs : List CT) (vs : List Val) (a : CT)
    (h : List.Forall₂ (ConstvalOf env) cs vs) (ha : makeArrayConstant env name cs = some a) :
    ∃ b ty, AllOfType name b ty vs ∧ ConstvalOf env a (.array b ty vs) := by
  obtain ⟨h1, h2, _⟩ := constvalOfs h
  obtain ⟨hne, ⟨ty, xs, rfl, rfl⟩ | ⟨ty, ht, rfl⟩⟩ := (makeArrayConstant_of h1 h2 a).1 ha
  · exact ⟨true, ty, .scalars ty xs, rfl, not_false, rfl⟩
  · exact ⟨false, ty, ht, rfl, not_false, by simp [eval, h2]⟩

/-- Nothing but constvals is accepted. -/
theorem C82_make_array_constvals (env : Env) (name : Val → Nat) (cs : List CT) (c : CT) (hc : c ∈ cs)
    (h : isConstval c = false ∨ RepresentsTypes c) :
    makeArrayConstant env name cs = none ∧ makeTupleConstant cs = none := by
  have : ¬ cs.all hasValueType = true := by
    intro hall
    have := (hasValueType_iff c).1 (List.all_eq_true.1 hall c hc)
    rcases h with h | h
    · rw [h] at this; cases this.1
    · exact this.2 h
  simp [makeArrayConstant, makeTupleConstant, this]

/-- `make_tuple_constant` accepts any constvals; the value of the result is the `std::tuple` of the values in order. -/
theorem C82_make_tuple (env : Env) (cs : List CT) (vs : List Val) (h : List.Forall₂ (ConstvalOf env) cs vs) :
    ∃ t, makeTupleConstant cs = some t ∧ ConstvalOf env t (.tuple vs) := by
  obtain ⟨h1, h2, _⟩ := constvalOfs h
  exact ⟨.tupleConstant cs, by simp only [makeTupleConstant, List.all_eq_true.2 h1, if_true], rfl, not_false, by simp [eval, h2]⟩

/-- For elements made of scalars, arrays and tuples: the constval of an array is, as a type, what `make_array_constant` returns for
the constvals which `get` returns. -/
theorem C82_split_join_array_partial (env : Env) (name : Val → Nat) (b : Bool) (ty : Nat) (a : CT) (vs : List Val) (cs : List CT)
    (ha : CanonicalOf (.array b ty vs) a) (hne : vs ≠ []) (ht : AllOfType name b ty vs) (hl : cs.length = vs.length)
    (hcs : ∀ i < cs.length, getC env i a = cs[i]?) : makeArrayConstant env name cs = some a := by
  cases ha with
  | scalarArray _ xs =>
    have hl' : cs.length = xs.length := by simpa using hl
    have : cs = xs.map (.integralConstant ty) := by
      apply List.ext_getElem?
      intro i
      by_cases hi : i < cs.length
      · rw [← hcs i hi]
        have hx : xs[i]? = some (xs[i]'(by omega)) := List.getElem?_eq_getElem (by omega)
        have he : eval env (.arrayAccessor i (.arrayConstant ty xs)) = some (.scalar ty (xs[i]'(by omega))) := by
          simp [eval, getArray, hx]
        simp only [getC, show i < xs.length by omega, if_true, constvalT, known, Bool.false_eq_true, if_false, he, Option.bind_some,
          norm1, List.getElem?_map, hx, Option.map_some]
      · rw [List.getElem?_eq_none (by omega), List.getElem?_eq_none (by simp; omega)]
    have hv : evalList env cs = some (xs.map (.scalar ty)) := by
      rw [this]
      clear * -
      induction xs with
      | nil => rfl
      | cons x xs ih => simp [evalList, eval, ih]
    rw [makeArrayConstant_of (by rw [this]; simp [hasValueType, isConstval]) hv]
    exact ⟨hne, .inl ⟨ty, xs, rfl, rfl⟩⟩
  | @array _ _ refs h =>
    have hr : refs.length = vs.length := (List.Forall₂.length_eq h).symm
    have hvs := canonical_evalList env vs refs h
    have : cs = refs := by
      apply List.ext_getElem?
      intro i
      by_cases hi : i < cs.length
      · rw [← hcs i hi]
        have hx : vs[i]? = some (vs[i]'(by omega)) := List.getElem?_eq_getElem (by omega)
        have he : eval env (.arrayAccessor i (.arrayConstantRef false ty refs)) = some (vs[i]'(by omega)) := by
          simp [eval, hvs, getArray, hx]
        simp only [getC, show i < refs.length by omega, if_true, constvalT, known, Bool.false_eq_true, if_false, he, Option.bind_some]
        rw [List.getElem?_eq_getElem (by omega)]
        exact (canonical_norm _ _ _ (List.Forall₂.get h (i := i) (by omega) (by omega))).1
      · rw [List.getElem?_eq_none (by omega), List.getElem?_eq_none (by omega)]
    subst this
    have hval : ∀ c ∈ cs, hasValueType c = true := by
      intro c hc
      obtain ⟨i, hi, rfl⟩ := List.getElem_of_mem hc
      exact (canonical_eval env _ _ (List.Forall₂.get h (i := i) (by omega) hi)).2
    rw [makeArrayConstant_of hval hvs]
    exact ⟨hne, .inr ⟨ty, ht, rfl⟩⟩

/-- Likewise for the constval of a tuple and `make_tuple_constant`. -/
theorem C82_split_join_tuple_partial (env : Env) (t : CT) (vs : List Val) (cs : List CT) (ha : CanonicalOf (.tuple vs) t)
    (hl : cs.length = vs.length) (hcs : ∀ i < cs.length, getC env i t = cs[i]?) : makeTupleConstant cs = some t := by
  cases ha with
  | @tuple _ refs h =>
    have hr : refs.length = vs.length := (List.Forall₂.length_eq h).symm
    have hvs := canonical_evalList env vs refs h
    have : cs = refs := by
      apply List.ext_getElem?
      intro i
      by_cases hi : i < cs.length
      · rw [← hcs i hi]
        have hx : vs[i]? = some (vs[i]'(by omega)) := List.getElem?_eq_getElem (by omega)
        have he : eval env (.tupleAccessor i (.tupleConstant refs)) = some (vs[i]'(by omega)) := by
          simp [eval, hvs, getTuple, hx]
        simp only [getC, show i < refs.length by omega, if_true, constvalT, known, Bool.false_eq_true, if_false, he, Option.bind_some]
        rw [List.getElem?_eq_getElem (by omega)]
        exact (canonical_norm _ _ _ (List.Forall₂.get h (i := i) (by omega) (by omega))).1
      · rw [List.getElem?_eq_none (by omega), List.getElem?_eq_none (by omega)]
    subst this
    have hval : ∀ c ∈ cs, hasValueType c = true := by
      intro c hc
      obtain ⟨i, hi, rfl⟩ := List.getElem_of_mem hc
      exact (canonical_eval env _ _ (List.Forall₂.get h (i := i) (by omega) hi)).2
    simp only [makeTupleConstant, List.all_eq_true.2 hval, if_true]

/-- Canonical types are those normalisation assigns. -/
theorem C82_canonical (env : Env) (d c : CT) (v : Val) (hk : known d = false) (hv : eval env d = some v) (hn : Normalisable v) :
    constvalT env d = some c ↔ CanonicalOf v c := by
  simp only [constvalT, hk, Bool.false_eq_true, if_false, hv, Option.bind_some]
  constructor
  · intro h
    -- the type does not depend on the functor, hence it cannot contain an arbitrarily large one
    rw [norm1_canonical v d (.refTo c) hn] at h
    rcases norm1_canonical_or v c _ (normalisable_plain hn) h with h | h
    · exact h
    · simp at h; omega
  · exact fun h => (canonical_norm v c d h).1

/-- `array_constant{ cs... }` (other than a copy of an `array_constant`) is what `make_array_constant` returns, but is well-formed only
if in addition every argument is the canonical constval of a value of scalars, arrays and tuples. -/
theorem C82_deduced_iff (env : Env) (name : Val → Nat) (cs : List CT) (vs : List Val) (a : CT)
    (h : List.Forall₂ (ConstvalOf env) cs vs) (hp : ∀ v ∈ vs, Plain v)
    (hs : ∀ ty xs, cs ≠ [.arrayConstant ty xs]) (hs' : ∀ b ty refs, cs ≠ [.arrayConstantRef b ty refs]) :
    DeducedArrayConstant env name cs a ↔ makeArrayConstant env name cs = some a ∧ List.Forall₂ CanonicalOf vs cs := by
  have key : DeducedArrayConstant env name cs a ↔
      makeArrayConstant env name cs = some a ∧ ∀ c ∈ cs, constantOf env c = some c := by
    unfold DeducedArrayConstant
    split
    · rename_i h1
      rename_i c
      cases c <;> simp [isArrayConstant] at h1
      · exact absurd rfl (hs _ _)
      · exact absurd rfl (hs' _ _ _)
    · rfl
  rw [key]
  refine and_congr_right fun hm => ?_
  clear key hs hs' hm
  induction h with
  | nil => simp
  | @cons c v cs vs h1 _ ih =>
    simp only [List.mem_cons, forall_eq_or_imp, List.forall₂_cons]
    refine and_congr ?_ (ih fun w hw => hp w (by simp [hw]))
    simp only [constantOf, h1.2.2, Option.bind_some]
    constructor
    · intro h
      rcases norm1_canonical_or v c _ (hp v (by simp)) h with h | h
      · exact h
      · simp at h; omega
    · exact fun h => (canonical_norm v c _ h).1

/-- `array_constant{ a }` for an `array_constant` `a` is a copy of `a`, whereas `make_array_constant(a)` is an array of one array. -/
theorem C82_deduced_copy (env : Env) (name : Val → Nat) (ty : Nat) (xs : List Int) :
    let a := CT.arrayConstant ty xs
    let v := Val.array true ty (xs.map (.scalar ty))
    (∀ c, DeducedArrayConstant env name [a] c ↔ c = a) ∧
    (∀ b ty refs c, DeducedArrayConstant env name [.arrayConstantRef b ty refs] c ↔ c = .arrayConstantRef b ty refs) ∧
    ∃ c, makeArrayConstant env name [a] = some c ∧ ConstvalOf env c (.array false (name v) [v]) ∧ c ≠ a := by
  refine ⟨fun c => Iff.rfl, fun b ty refs c => Iff.rfl, .arrayConstantRef false (name (.array true ty (xs.map (.scalar ty)))) [.arrayConstant ty xs], ?_, ?_, by simp⟩
  · rw [makeArrayConstant_of (vs := [.array true ty (xs.map (.scalar ty))]) (by simp [hasValueType, isConstval, tagged])
      (by simp [evalList, eval])]
    exact ⟨by simp, .inr ⟨_, .others _ _ (by simp), rfl⟩⟩
  · exact ⟨rfl, not_false, by simp [eval, evalList]⟩

/-- An environment whose functors return floating-point numbers. -/
private def makeEnv : Env := ⟨fun _ _ => .other 1 3, fun _ => .other 1 4⟩

/-- For other element types (here: a floating-point number), neither holds: `array_constant{ c }` is ill-formed although
`make_array_constant(c)` is not, and putting together what `get` returns gives the same value but a different type. -/
theorem C82_other_elements :
    let env : Env := makeEnv
    let name : Val → Nat := fun _ => 1
    let c := CT.constval (.functor 1)
    let a := CT.arrayConstantRef false 1 [c]
    constvalT env (.functor 1) = some c ∧ makeArrayConstant env name [c] = some a ∧ (∀ d, ¬ DeducedArrayConstant env name [c] d) ∧
    ∃ c' a', getC env 0 a = some c' ∧ makeArrayConstant env name [c'] = some a' ∧ eval env a' = eval env a ∧ a' ≠ a := by
  have hm : ∀ f, eval makeEnv f = some (.other 1 3) →
      makeArrayConstant makeEnv (fun _ => 1) [.constval f] = some (.arrayConstantRef false 1 [.constval f]) := by
    intro f hf
    rw [makeArrayConstant_of (vs := [.other 1 3]) (by simp [hasValueType, isConstval, tagged]) (by simp [evalList, eval, hf])]
    exact ⟨by simp, .inr ⟨1, .others _ _ (by simp), rfl⟩⟩
  refine ⟨rfl, hm _ rfl, ?_, .constval (.arrayAccessor 0 (.arrayConstantRef false 1 [.constval (.functor 1)])),
    .arrayConstantRef false 1 [.constval (.arrayAccessor 0 (.arrayConstantRef false 1 [.constval (.functor 1)]))],
    rfl, hm _ (by simp [eval, evalList, getArray, makeEnv]), by simp [eval, evalList, getArray, makeEnv], by simp⟩
  intro d hd
  have h : List.Forall₂ (ConstvalOf makeEnv) [CT.constval (.functor 1)] [.other 1 3] := .cons ⟨rfl, not_false, rfl⟩ .nil
  have := ((C82_deduced_iff makeEnv (fun _ => 1) _ _ d h (by simpa using Plain.other 1 3) (by simp) (by simp)).1 hd).2
  cases this with
  | cons h _ => cases h

/-- A non-trivial case: an array of two tuples is split, put together, and deduced. -/
example : ∃ (cs : List CT) (vs : List Val) (a : CT),
    CanonicalOf (.array false 7 vs) a ∧ vs.length = 2 ∧ AllOfType (fun _ => 7) false 7 vs ∧ cs.length = vs.length ∧
    (∀ i < cs.length, getC makeEnv i a = cs[i]?) ∧ List.Forall₂ (ConstvalOf makeEnv) cs vs ∧ (∀ v ∈ vs, Plain v) ∧
    (∀ ty xs, cs ≠ [.arrayConstant ty xs]) ∧ (∀ b ty refs, cs ≠ [.arrayConstantRef b ty refs]) ∧ DeducedArrayConstant makeEnv (fun _ => 7) cs a := by
  let t (x : Int) := Val.tuple [.scalar 0 x, .array true 1 ([x, x + 1].map (.scalar 1))]
  let c (x : Int) := CT.tupleConstant [.integralConstant 0 x, .arrayConstant 1 [x, x + 1]]
  have ht : ∀ x, CanonicalOf (t x) (c x) := fun x => .tuple (.cons (.scalar 0 x) (.cons (.scalarArray 1 [x, x + 1]) .nil))
  have h : List.Forall₂ (ConstvalOf makeEnv) [c 1, c 5] [t 1, t 5] :=
    .cons ⟨rfl, not_false, rfl⟩ (.cons ⟨rfl, not_false, rfl⟩ .nil)
  have hp : ∀ v ∈ [t 1, t 5], Plain v := by
    simp only [List.mem_cons, List.not_mem_nil, or_false, forall_eq_or_imp, forall_eq]
    exact ⟨normalisable_plain (canonical_norm _ _ (.functor 0) (ht 1)).2, normalisable_plain (canonical_norm _ _ (.functor 0) (ht 5)).2⟩
  have hall : AllOfType (fun _ => 7) false 7 [t 1, t 5] := .others _ _ (by simp [t])
  have hc : List.Forall₂ CanonicalOf [t 1, t 5] [c 1, c 5] := .cons (ht 1) (.cons (ht 5) .nil)
  have hg : ∀ i < [c 1, c 5].length, getC makeEnv i (.arrayConstantRef false 7 [c 1, c 5]) = [c 1, c 5][i]? := by
    intro i hi
    match i, hi with
    | 0, _ => rfl
    | 1, _ => rfl
  refine ⟨[c 1, c 5], [t 1, t 5], .arrayConstantRef false 7 [c 1, c 5], .array 7 hc, rfl, hall, rfl, hg, h, hp,
    by simp, by simp, ?_⟩
  rw [C82_deduced_iff makeEnv _ _ _ _ h hp (by simp) (by simp)]
  exact ⟨C82_split_join_array_partial makeEnv _ false 7 _ _ _ (.array 7 hc) (by simp) hall rfl hg, hc⟩

end Makeshift.Props
