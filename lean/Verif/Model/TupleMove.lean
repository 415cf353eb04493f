import Verif.Model.TupleAccess
import Verif.Model.TupleAlgo

/-!
# Tuple algorithms on objects: forwarding, copying and moving

Model of the forwarding in detail/tuple-transform.hpp:62-92, detail/tuple.hpp:129-181 and 260-273, tuple.hpp:116-299 and 338-363,
array.hpp:43-176 and 246-279, detail/array.hpp:82-133.

The elements of the tuples are objects in a memory (`Mem`).  The algorithms of Model/TupleAlgo.lean are run on references to these
objects, whose value categories are those which `get<>` yields for the arguments as they are forwarded.  A functor call reads the
objects it is given, may change those it has a non-const reference to - in particular it may move from those passed as rvalues -, and
returns an object or a reference.  All objects hold contents of one type `V`; the contents of a moved-from object are some value of
this type as well.
-/

namespace Makeshift.TupleMove

open Makeshift.TupleAccess

variable {V S : Type}

/-- A reference to an object, as received by a functor. -/
structure Ref where
  loc : Nat
  const : Bool
  rvalue : Bool
  deriving DecidableEq, Repr

/-- `T&&`, with reference collapsing ([dcl.ref]). -/
def addRRef : Ty → Ty
  | .obj c => .rref c
  | .lref c => .lref c
  | .rref c => .rref c

/-- [tuple.elem], [array.tuple], [pair.astuple] `std::get<I>`: four overloads with return types `T&`, `T const&`, `T&&`, `T const&&`. -/
def stdGet (a : Access) (t : Ty) : Ty :=
  match a.const, a.rvalue with
  | false, false => t.addLRef
  | true, false => t.addConst.addLRef
  | false, true => addRRef t
  | true, true => addRRef t.addConst

/-- The kind of a tuple: `std::tuple`, `std::pair`, `std::array`, or `value_tuple`. -/
inductive Kind where
  | std | value
  deriving DecidableEq, Repr

/-- An element of a tuple: its declared type, and the object it is or refers to. -/
structure Elem where
  ty : Ty
  loc : Nat
  deriving DecidableEq, Repr

/-- An argument of a tuple algorithm. -/
inductive TupArg where
  | tuple (k : Kind) (a : Access) (elems : List Elem)
  | rangeIndex
  | tupleIndex

/-- The type of `get<I>(tuple)` for an element of type `t`. -/
def getOf (k : Kind) (a : Access) (t : Ty) : Ty :=
  match k with
  | .std => stdGet a t
  | .value => TupleAccess.get a t

/-- A reference of type `t` to the object at `loc`; `get<>` does not return objects. -/
def refOfType (t : Ty) (loc : Nat) : Ref :=
  match t with
  | .obj c => ⟨loc, c.const, true⟩
  | .lref c => ⟨loc, c.const, false⟩
  | .rref c => ⟨loc, c.const, true⟩

/-- detail/tuple-transform.hpp:62-67 `get_element<I>(std::forward<T>(arg))`: the value category of the argument is that of the tuple
passed to the algorithm, for every index, because it is forwarded at each call. -/
def elemRef (k : Kind) (a : Access) (e : Elem) : Ref := refOfType (getOf k a e.ty) e.loc

/-- The argument as the algorithms of Model/TupleAlgo.lean see it: a tuple of references. -/
def TupArg.refs : TupArg → TArg Ref
  | .tuple k a es => .tuple (es.map (elemRef k a))
  | .rangeIndex => .rangeIndex
  | .tupleIndex => .tupleIndex

/-- What a functor returns: an object, or a reference to an object. -/
inductive Res (V : Type) where
  | val (v : V)
  | ref (r : Ref)

/-- A functor: from the references it is given, with the contents of the objects, and the program state to its result, the contents
which it leaves in the object that argument number `j` refers to (`none`: it does not change the object), and the program state. -/
abbrev Fn (V S : Type) := List (TVal (Ref × V)) → S → Res V × (Nat → Option V) × S

/-- The arguments with the contents of the objects. -/
def view (m : Mem V) : TVal Ref → TVal (Ref × V)
  | .elem r => .elem (r, m r.loc)
  | .index i => .index i
  | .indexConstant i => .indexConstant i

/-- Effect of a functor on the objects, from argument number `j` on: those with non-const references get the contents it leaves. -/
def writeBack : List (TVal Ref) → (Nat → Option V) → Nat → Mem V → Mem V
  | [], _, _, m => m
  | .elem r :: vs, news, j, m =>
    writeBack vs news (j + 1)
      (match r.const, news j with
        | false, some v => fun l => if l = r.loc then v else m l
        | _, _ => m)
  | .index _ :: vs, news, j, m => writeBack vs news (j + 1) m
  | .indexConstant _ :: vs, news, j, m => writeBack vs news (j + 1) m

/-- Initialisation of an object from the result of a functor: a reference is copied from, or moved from if it is a non-const rvalue;
`moved v` is what a move leaves behind. -/
def take (moved : V → V) (m : Mem V) : Res V → V × Mem V
  | .val v => (v, m)
  | .ref r => (m r.loc, if r.rvalue && !r.const then m.moveFrom moved r.loc else m)

/-- detail/tuple-transform.hpp:70-75 `transform_element<I>`: calls the functor; as the return type is `auto`, a reference returned by
the functor becomes a new object. -/
def call (moved : V → V) (f : Fn V S) : Func Ref V (Mem V × S) := fun vs ms =>
  let r := f (vs.map (view ms.1)) ms.2
  let t := take moved (writeBack vs r.2.1 0 ms.1) r.1
  (t.1, t.2, r.2.2)

/-- tuple.hpp:116-142 `template_for`. -/
def templateForM (n : Int) (moved : V → V) (f : Fn V S) (args : List TupArg) (m : Mem V) (s : S) : Option (Mem V × S) :=
  templateFor n (call moved f) (args.map TupArg.refs) (m, s)

/-- array.hpp:43-176 `array_transform`; the results initialise the array elements directly. -/
def arrayTransformM (n : Int) (moved : V → V) (f : Fn V S) (args : List TupArg) (m : Mem V) (s : S) :
    Option (List V × Mem V × S) :=
  arrayTransform n (call moved f) (args.map TupArg.refs) (m, s)

/-- tuple.hpp:154-216 `tuple_transform`; the results initialise the tuple elements. -/
def tupleTransformM (n : Int) (moved : V → V) (f : Fn V S) (args : List TupArg) (order : List Nat) (m : Mem V) (s : S) :
    Option (List V × Mem V × S) :=
  tupleTransform n (call moved f) (args.map TupArg.refs) order (m, s)

/-- The accumulated value: a temporary object, or the initial value that was passed by reference. -/
inductive Acc (V : Type) where
  | temp (v : V)
  | ref (r : Ref)

/-- detail/tuple.hpp:154-156 `reduceFunc_(std::forward<V>(value), ...)`.  The functor gets the contents of the accumulated value and
the transformed element; it returns an object (not a reference), the contents it leaves in the accumulated value, and the program
state. -/
def reduceCall (g : V → V → S → V × V × S) (acc : Acc V) (x : V) (ms : Mem V × S) : Acc V × (Mem V × S) :=
  match acc with
  | .temp v =>
    let r := g v x ms.2
    (.temp r.1, ms.1, r.2.2)
  | .ref rf =>
    let r := g (ms.1 rf.loc) x ms.2
    (.temp r.1, if rf.const then ms.1 else fun l => if l = rf.loc then r.2.1 else ms.1 l, r.2.2)

/-- detail/tuple.hpp:159-163 `return std::forward<V>(value);` with return type `auto`. -/
def finish (moved : V → V) (m : Mem V) : Acc V → V × Mem V
  | .temp v => (v, m)
  | .ref r => take moved m (.ref r)

/-- tuple.hpp:229-238 `template_transform_reduce`. -/
def templateTransformReduceM (moved : V → V) (initial : Ref) (g : V → V → S → V × V × S) (f : Fn V S) (args : List TupArg)
    (m : Mem V) (s : S) : Option (V × Mem V × S) :=
  (templateTransformReduce (Acc.ref initial) (reduceCall g) (call moved f) (args.map TupArg.refs) (m, s)).map fun r =>
    let t := finish moved r.2.1 r.1
    (t.1, t.2, r.2.2)

/-- tuple.hpp:250-259 `template_reduce`: the transformation is `gsl::identity`, which returns its (only) argument by reference. -/
def identityFn : Fn V S := fun vs s =>
  match vs with
  | .elem (r, _) :: _ => (.ref r, fun _ => none, s)
  | _ => (.ref ⟨0, true, false⟩, fun _ => none, s)

/-- tuple.hpp:250-259 `template_reduce`. -/
def templateReduceM (moved : V → V) (initial : Ref) (g : V → V → S → V × V × S) (k : Kind) (a : Access) (es : List Elem)
    (m : Mem V) (s : S) : Option (V × Mem V × S) :=
  templateTransformReduceM moved initial g identityFn [.tuple k a es] m s

/-- A predicate: the object made of the result is converted to `bool` (detail/tuple.hpp:174: the parameter type of `gsl::identity` and
`negation_fn` and the condition of `if`). -/
def callBool (toBool : V → Bool) (moved : V → V) (f : Fn V S) : Func Ref Bool (Mem V × S) := fun vs ms =>
  let r := call moved f vs ms
  (toBool r.1, r.2)

/-- tuple.hpp:270-279 `template_all_of`. -/
def templateAllOfM (toBool : V → Bool) (moved : V → V) (f : Fn V S) (args : List TupArg) (m : Mem V) (s : S) :
    Option (Bool × Mem V × S) :=
  templateAllOf (callBool toBool moved f) (args.map TupArg.refs) (m, s)

/-- tuple.hpp:290-299 `template_any_of`. -/
def templateAnyOfM (toBool : V → Bool) (moved : V → V) (f : Fn V S) (args : List TupArg) (m : Mem V) (s : S) :
    Option (Bool × Mem V × S) :=
  templateAnyOf (callBool toBool moved f) (args.map TupArg.refs) (m, s)

/-- tuple.hpp:310-319 `template_none_of`. -/
def templateNoneOfM (toBool : V → Bool) (moved : V → V) (f : Fn V S) (args : List TupArg) (m : Mem V) (s : S) :
    Option (Bool × Mem V × S) :=
  templateNoneOf (callBool toBool moved f) (args.map TupArg.refs) (m, s)

/-- The result of a concatenation: an element, with its declared type and a reference to where it comes from. -/
def catElems (tuples : List (Kind × Access × List Elem)) : Option (List (Ty × Ref)) :=
  tupleCat (tuples.map fun t => t.2.2.map fun e => (e.ty, elemRef t.1 t.2.1 e))

/-- tuple.hpp:338-363 `tuple_cat` and detail/tuple.hpp:260-273 for a `std::tuple`, which initialises each element from the forwarded
argument; the arguments are evaluated in order.  In `get<row>(std::move(tupleOfTuples))` the elements have type `T&&`, so each tuple
keeps its value category. -/
def tupleCatM (cls : Classes) (moved : V → V) (tuples : List (Kind × Access × List Elem)) (m : Mem V) :
    Option (List (Stored V) × Mem V) :=
  (catElems tuples).bind fun es =>
    initParams cls moved (es.map (·.1)) (es.map fun e => Arg.ref e.2.loc e.2.const e.2.rvalue) m

/-- `tuple_cat<value_tuple>`: the constructor of `value_tuple` gets the references. -/
def tupleCatValueM (cls : Classes) (moved : V → V) (tuples : List (Kind × Access × List Elem)) (m : Mem V) :
    Option (List (Stored V) × Mem V) :=
  (catElems tuples).bind fun es =>
    construct cls moved (es.map (·.1)) (es.map fun e => Arg.ref e.2.loc e.2.const e.2.rvalue) m

/-- array.hpp:246-279 `array_cat<T>`: all elements of the array are objects of type `c` (the elements of the tuples have the same
type, apart from references and const). -/
def arrayCatM (cls : Classes) (moved : V → V) (c : CTy) (tuples : List (Kind × Access × List Elem)) (m : Mem V) :
    Option (List (Stored V) × Mem V) :=
  (catElems tuples).bind fun es =>
    initParams cls moved (es.map fun _ => .obj c) (es.map fun e => Arg.ref e.2.loc e.2.const e.2.rvalue) m

end Makeshift.TupleMove
