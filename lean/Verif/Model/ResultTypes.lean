import Verif.Model.TupleAlgo
import Verif.Model.TypeTraits

/-!
# Result types of `array_transform`, `array_cat` and `tuple_transform`

Model of the type computations of `detail/array.hpp`, `array.hpp` and `detail/tuple.hpp`.  A type is an object type (or `void`), possibly
`const`, possibly a reference to it.  A functor is described by the type of its call expression for each list of argument types (a
type without reference is a prvalue argument), which may also depend on whether the functor itself is an lvalue or an rvalue; `none`
is an ill-formed call.  Array and function types, `volatile` and non-copyable types are not modelled.  `conv a b`: there is an implicit
conversion from `a` to the different type `b` which is not narrowing, as in an initialiser list.
-/

namespace Makeshift.ResultTypes

/-- Unqualified types; `index` is `std::ptrdiff_t` (also known as `gsl::index`), `indexConstant i` is
`std::integral_constant<gsl::index, i>`. -/
inductive Base where
  | void
  | index
  | indexConstant (i : Nat)
  | ty (id : Nat)
  deriving DecidableEq, Repr

/-- Kind of a reference type. -/
inductive Ref where
  | none | lvalue | rvalue
  deriving DecidableEq, Repr

/-- A type. -/
structure CTy where
  base : Base
  isConst : Bool
  ref : Ref
  deriving DecidableEq, Repr

/-- `std::decay_t`. -/
def CTy.decay (t : CTy) : CTy := ⟨t.base, false, .none⟩

/-- The tuple-like arguments: `std::array<elem, n>`, `std::tuple<elems...>`, `range_index`, `tuple_index`. -/
inductive Kind where
  | array (elem : Base) (elemConst : Bool) (n : Nat)
  | tuple (elems : List CTy)
  | rangeIndex
  | tupleIndex

/-- A forwarded argument: its type, whether it is `const`, and whether it is an lvalue. -/
structure Arg where
  kind : Kind
  isConst : Bool
  lvalue : Bool

/-- The argument as far as its size is concerned. -/
def Arg.sizeOnly (a : Arg) : TArg Unit :=
  match a.kind with
  | .array _ _ n => .tuple (List.replicate n ())
  | .tuple es => .tuple (List.replicate es.length ())
  | .rangeIndex => .rangeIndex
  | .tupleIndex => .tupleIndex

/-- The type of `std::get<I>(arg)` for an element of type `e` ([tuple.elem], [array.tuple]). -/
def qualify (a : Arg) (e : CTy) : CTy :=
  ⟨e.base, if e.ref = .none then e.isConst || a.isConst else e.isConst, if a.lvalue || e.ref == .lvalue then .lvalue else .rvalue⟩

/-- detail/tuple-transform.hpp:62-67 `get_element<I>` (type of the call). -/
def getElementType (i : Nat) (a : Arg) : Option CTy :=
  match a.kind with
  | .array e c n => if i < n then some (qualify a ⟨e, c, .none⟩) else none
  | .tuple es => (es[i]?).map (qualify a)
  | .rangeIndex => some ⟨.index, false, .none⟩
  | .tupleIndex => some ⟨.indexConstant i, false, .none⟩

/-- `get_element<I>(args)...`. -/
def getElementTypes (i : Nat) : List Arg → Option (List CTy)
  | [] => some []
  | a :: as => (getElementType i a).bind fun t => (getElementTypes i as).map (t :: ·)

/-- A functor. -/
structure Fn where
  /-- `decltype(f(args...))` where `f` is an rvalue (`true`) or lvalue (`false`). -/
  call : Bool → List CTy → Option CTy

/-- detail/array.hpp:22-25 `is_array_like_`, `is_homogeneous_arg_`. -/
def isHomogeneousArg (a : Arg) : Bool :=
  match a.kind with
  | .array .. => true
  | .rangeIndex => true
  | _ => false

/-- detail/array.hpp:27-28 `homogeneous_arg_type_`; for other arguments it does not exist. -/
def homogeneousArgType (a : Arg) : Option Base :=
  match a.kind with
  | .array e _ _ => some e
  | .rangeIndex => some .index
  | _ => none

/-- detail/array.hpp:45-48 `transfer_ref_` followed by `std::declval` (56). -/
def transferRef (a : Arg) (b : Base) : CTy :=
  if a.lvalue then (if a.isConst then ⟨b, true, .lvalue⟩ else ⟨b, false, .lvalue⟩) else ⟨b, false, .rvalue⟩

/-- The argument types in detail/array.hpp:56. -/
def homogeneousArgTypes : List Arg → Option (List CTy)
  | [] => some []
  | a :: as => (homogeneousArgType a).bind fun b => (homogeneousArgTypes as).map (transferRef a b :: ·)

/-- detail/array.hpp:52-57 `homogeneous_result_<N, true, F, Ts...>`. -/
def homogeneousResult (frv : Bool) (f : Fn) (args : List Arg) : Option CTy :=
  (homogeneousArgTypes args).bind fun ts => (f.call frv ts).map CTy.decay

/-- detail/array.hpp:30 `result_type_`. -/
def resultType (frv : Bool) (f : Fn) (args : List Arg) (i : Nat) : Option CTy := (getElementTypes i args).bind (f.call frv)

/-- detail/array.hpp:58-71 `check_homogeneous_result_`, `homogeneous_result_<N, false, F, Ts...>`. -/
def checkHomogeneousResult (n : Nat) (frv : Bool) (f : Fn) (args : List Arg) : Option CTy :=
  ((List.range n).mapM (resultType frv f args)).bind equalTypes

/-- `std::array<R, N>` is well-formed only for object types. -/
def isObject (t : CTy) : Bool := t.ref == .none && t.base != .void

/-- Initialisation of an array element of type `R` from the result of `transform_element`, which is the decayed result of the functor
(detail/tuple-transform.hpp:70-75, return type `auto`). -/
def initialises (conv : Base → Base → Bool) (r : CTy) (R : CTy) : Bool :=
  r.base != .void && (r.base == R.base || conv r.base R.base)

/-- The calls `transform_element<Is>(func, args...)...` as initialisers of elements of type `R`; `func` is an lvalue here. -/
def initAll (conv : Base → Base → Bool) (f : Fn) (args : List Arg) (R : CTy) (n : Nat) : Bool :=
  (List.range n).all fun i =>
    match resultType false f args i with
    | some r => initialises conv r R
    | none => false

/-- detail/array.hpp:78-100 `array_transform_impl`, array.hpp:43-135 `array_transform` without element type: the element type and the size
of the result.  `n` is -1 if no size is given, `frv` if the functor is passed as an rvalue. -/
def arrayTransformType (conv : Base → Base → Bool) (n : Int) (frv : Bool) (f : Fn) (args : List Arg) : Option (CTy × Nat) :=
  (tupleTransformSize n (args.map Arg.sizeOnly)).bind fun size =>
    (if args.all isHomogeneousArg then homogeneousResult frv f args
     else if size = 0 then none
     else checkHomogeneousResult size frv f args).bind fun R =>
    if isObject R && initAll conv f args R size then some (R, size) else none

/-- detail/array.hpp:102-116 `array_transform_to_impl`, array.hpp:76-176 `array_transform` with element type `T`. -/
def arrayTransformToType (conv : Base → Base → Bool) (n : Int) (T : CTy) (f : Fn) (args : List Arg) : Option (CTy × Nat) :=
  (tupleTransformSize n (args.map Arg.sizeOnly)).bind fun size =>
    if isObject T && initAll conv f args T size then some (T, size) else none

/-- detail/tuple.hpp:129-142 `tuple_transform_impl`: the element types of the result. -/
def tupleTransformType (n : Int) (f : Fn) (args : List Arg) : Option (List CTy) :=
  (tupleTransformSize n (args.map Arg.sizeOnly)).bind fun size =>
    (List.range size).mapM fun i => (resultType false f args i).bind fun r => if r.base = .void then none else some r.decay

/-- The element types of a tuple or array argument of `array_cat`; there is no `std::tuple_size<>` for `range_index` and `tuple_index`. -/
def elementTypes (a : Arg) : Option (List CTy) :=
  match a.kind with
  | .array e c n => some (List.replicate n ⟨e, c, .none⟩)
  | .tuple es => some es
  | _ => none

/-- detail/array.hpp:119-133 `array_cat_impl`, array.hpp:246-279 `array_cat`: each element initialises an element of type `T`. -/
def arrayCatType (conv : Base → Base → Bool) (T : CTy) (args : List Arg) : Option (CTy × Nat) :=
  (args.mapM elementTypes).bind fun tss => (tupleCat tss).bind fun ts =>
    if isObject T && ts.all (fun t => initialises conv t T) then some (T, ts.length) else none

end Makeshift.ResultTypes
