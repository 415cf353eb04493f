/-!
# The traits and concepts for constvals and tuple-like types

Model of `is_constval_` and `is_constval_of_` (detail/type_traits.hpp:175-199), `is_tuple_like` (detail/type_traits.hpp:202-203) and
the concepts `constval`, `constval_of` and `tuple_like` (concepts.hpp:36-74).  A class is described by what these expressions inspect.
Not modelled: pointers and `volatile`; that `constexpr` is "assumed but not checked" is taken literally.
-/

namespace Makeshift.ConstvalTrait

/-- Kind of a reference type. -/
inductive Ref where
  | none | lvalue | rvalue
  deriving DecidableEq, Repr

/-- A type: object type, whether it is `const`, and whether it is a reference to it. -/
structure QTy where
  base : Nat
  isConst : Bool
  ref : Ref
  deriving DecidableEq, Repr

/-- What `T::value` names, if it is well-formed. -/
inductive Member where
  /-- a static data member of the given declared type -/
  | dataMember (declared : QTy)
  /-- an enumerator of the given enumeration type -/
  | enumerator (base : Nat)
  deriving DecidableEq, Repr

/-- `decltype(T::value)`: the declared type ([dcl.type.decltype]). -/
def Member.decltype : Member → QTy
  | .dataMember d => d
  | .enumerator b => ⟨b, false, .none⟩

/-- `decltype((T::value))`: an lvalue reference for a data member, whatever its declared type; an enumerator is a prvalue. -/
def Member.decltypeParen : Member → QTy
  | .dataMember d => ⟨d.base, d.isConst, .lvalue⟩
  | .enumerator b => ⟨b, false, .none⟩

/-- The properties of a class that matter here. -/
structure ClassDesc where
  /-- derives from `constval_tag` -/
  tagged : Bool
  /-- is itself a specialisation of `std::integral_constant` (not derived from one) -/
  isIntegralConstant : Bool
  /-- `typename T::value_type` -/
  valueType : Option QTy
  /-- `T::value` -/
  value : Option Member
  /-- `decltype(std::declval<T>()())` -/
  callResult : Option QTy
  /-- `std::is_convertible<T, ·>` -/
  convertible : QTy → Bool

/-- detail/type_traits.hpp:186-189 `is_constval_1_`. -/
def isConstval1 (t : ClassDesc) (vt : QTy) (v : Member) (r : QTy) : Bool :=
  t.convertible vt && decide (v.decltype = vt) && decide (r = vt)

/-- detail/type_traits.hpp:177-184, 190-194 `has_value_type_`, `has_value_member_`, `is_nullary_functor_`, `is_constval_0_`. -/
def isConstval0 (t : ClassDesc) : Bool :=
  match t.valueType, t.value, t.callResult with
  | some vt, some v, some r => isConstval1 t vt v r
  | _, _, _ => false

/-- detail/type_traits.hpp:195-196 `is_constval_`, type_traits.hpp:205-217 `is_constval`. -/
def isConstval (t : ClassDesc) : Bool := t.isIntegralConstant || t.tagged || isConstval0 t

/-- detail/type_traits.hpp:198-199 `is_constval_of_`; `conv` is `std::is_convertible`.  `none`: ill-formed, as a tagged class need not
have a `value_type`. -/
def isConstvalOf (conv : QTy → QTy → Bool) (t : ClassDesc) (r : QTy) : Option Bool :=
  if isConstval t then t.valueType.map fun vt => conv vt r else some false

/-- concepts.hpp:60-67 concept `constval`; `callParen` is `decltype((c()))`, which is `callResult` for a prvalue or a reference
returned. -/
def constvalConcept (t : ClassDesc) : Bool :=
  match t.valueType, t.value, t.callResult with
  | some vt, some v, some r => t.convertible vt && decide (v.decltypeParen = vt) && decide (r = vt)
  | _, _, _ => false

/-- concepts.hpp:74-76 concept `constval_of`. -/
def constvalOfConcept (conv : QTy → QTy → Bool) (t : ClassDesc) (r : QTy) : Bool :=
  constvalConcept t && (t.valueType.map fun vt => conv vt r).getD false

/-- detail/type_traits.hpp:202-203 `is_tuple_like`: `std::tuple_size<T>::value` is well-formed. -/
def isTupleLike (tupleSizeValue : Option Member) : Bool := tupleSizeValue.isSome

/-- concepts.hpp:36-39 concept `tuple_like`; `sizeT` is `std::size_t`. -/
def tupleLikeConcept (sizeT : Nat) (tupleSizeValue : Option Member) : Bool :=
  match tupleSizeValue with
  | some v => decide (v.decltypeParen = ⟨sizeT, false, .none⟩)
  | none => false

end Makeshift.ConstvalTrait
