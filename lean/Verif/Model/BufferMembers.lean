import Verif.Model.Buffer

/-!
# Which buffers can be copied, moved and assigned

Model of the special member functions of `buffer` and `fixed_buffer` (experimental/buffer.hpp, experimental/detail/buffer.hpp) for elements of any
class: which of them are declared, deleted or ignored by overload resolution, which have a body that does not compile, and what happens to the
elements.  Nothing here depends on the number of elements except that `std::array<T, 0>` has no elements (as in libstdc++).

Simplifications: copy operations take a reference to const; access control is not modelled (an inaccessible function counts as deleted); destructors are
accessible.
-/

namespace Makeshift.BufferMembers

open Makeshift.Buffer

/-- What happens to a subobject: it is copied from or moved from (by constructor or assignment, according to the operation), or created by
value initialisation and then assigned a copy. -/
inductive Act where
  | copy
  | move
  | initThenCopy
  deriving DecidableEq, Repr

/-- A special member function: not declared, ignored by overload resolution ([class.copy.ctor]/10, [class.copy.assign]/8: defaulted move operations which are
deleted), deleted, or with a definition; `none` if the definition does not compile. -/
inductive Fn where
  | undeclared
  | ignored
  | deleted
  | defined (body : Option (List Act))
  deriving DecidableEq, Repr

/-- Copy and move operation, which are both constructors or both assignment operators. -/
structure Pair where
  copy : Fn
  move : Fn
  deriving DecidableEq, Repr

/-- A class: whether it can be initialised from `{ }`, and its special member functions. -/
structure Class where
  init : Bool
  ctor : Pair
  assign : Pair
  deriving DecidableEq, Repr

/-- What a program gets for an expression: it has an effect, overload resolution does not find a function which may be called (so type traits say no), or it finds one
whose definition does not compile (so type traits say yes but the program does not compile). -/
inductive Verdict where
  | does (acts : List Act)
  | rejected
  | broken
  deriving DecidableEq, Repr

/-- The function has been chosen. -/
def Fn.call : Fn → Verdict
  | .defined (some acts) => .does acts
  | .defined none => .broken
  | _ => .rejected

/-- Overload resolution for an lvalue. -/
def Pair.lvalue (p : Pair) : Verdict := p.copy.call

/-- Overload resolution for an rvalue: the move operation is preferred, also if it is deleted ([over.ics.rank]). -/
def Pair.rvalue (p : Pair) : Verdict :=
  match p.move with
  | .undeclared | .ignored => p.copy.call
  | f => f.call

/-- Definition of a defaulted function with these operations of the subobjects, none of which is rejected. -/
def joined : List Verdict → Option (List Act)
  | [] => some []
  | .does acts :: vs => (joined vs).map (acts ++ ·)
  | _ :: _ => none

/-- Implicit copy operation ([class.copy.ctor]/6, [class.copy.assign]/2, 7). -/
def implicitCopy (vs : List Verdict) : Fn := if .rejected ∈ vs then .deleted else .defined (joined vs)

/-- Implicit move operation ([class.copy.ctor]/8, 10, [class.copy.assign]/4, 7, 8). -/
def implicitMove (vs : List Verdict) : Fn := if .rejected ∈ vs then .ignored else .defined (joined vs)

/-- A class without user-declared special member functions. -/
def implicitClass (init : Bool) (subs : List Class) : Class :=
  { init := init,
    ctor := ⟨implicitCopy (subs.map (·.ctor.lvalue)), implicitMove (subs.map (·.ctor.rvalue))⟩,
    assign := ⟨implicitCopy (subs.map (·.assign.lvalue)), implicitMove (subs.map (·.assign.rvalue))⟩ }

/-- Types like `std::size_t`, and empty classes such as experimental/detail/buffer.hpp:23-94 `buffer_interface_mixin`. -/
def trivial : Class := ⟨true, ⟨.defined (some []), .defined (some [])⟩, ⟨.defined (some []), .defined (some [])⟩⟩

/-- `std::array<T, n>`. -/
def stdArray (T : Class) : Nat → Class
  | 0 => trivial
  | _ + 1 => implicitClass T.init [T]

/-- experimental/detail/buffer.hpp:189-195, 235-241 the copy constructor: `dynamic_buffer_base(rhs.size_)`, which value-initialises elements, and `std::copy()`. -/
def dynamicCopyCtor (T : Class) : Fn :=
  .defined (if T.init then
    match T.assign.lvalue with
    | .does _ => some [.initThenCopy]
    | _ => none
  else none)

/-- experimental/detail/buffer.hpp:173-267 `dynamic_buffer_base`: the copy assignment operator (196-200, 242-246) uses the move assignment operator, which
is deleted (202, 248), as is the move constructor (201, 247). -/
def dynamicBase (T : Class) : Class :=
  ⟨false, ⟨dynamicCopyCtor T, .deleted⟩, ⟨.defined (match Fn.deleted.call with | .does acts => some acts | _ => none), .deleted⟩⟩

/-- experimental/detail/buffer.hpp:97-171 `static_buffer_base`. -/
def staticBase (T : Class) : Kind → Class
  | .inPlaceMax cap => implicitClass false [trivial, stdArray T cap, trivial]
  | .inPlace n => implicitClass false [trivial, stdArray T n]
  | _ => trivial

/-- The base class which holds the elements. -/
def storage (T : Class) (k : Kind) : Class :=
  match k with
  | .inPlace _ | .inPlaceMax _ => staticBase T k
  | .small _ | .heap => dynamicBase T

/-- experimental/buffer.hpp:48-82 `buffer`, which is derived from experimental/detail/buffer.hpp:287-318 `buffer_base`, and 140-178 `fixed_buffer`.  Function templates
are no special member functions. -/
def bufferClass (T : Class) : Ty → Class
  | .buffer ext m => implicitClass false [implicitClass false [storage T (Ty.kind (.buffer ext m))]]
  | .fixed ext m => implicitClass false [storage T (Ty.kind (.fixed ext m))]

/-- Whether a constructor which value-initialises the elements compiles. -/
def initOk (T : Class) : Kind → Bool
  | .inPlace 0 | .inPlaceMax 0 => true
  | _ => T.init

/-- experimental/buffer.hpp:56-64, 148-157 construction from an extent which fits; the condition on the constructor does not concern the elements. -/
def fromExtent (T : Class) (ty : Ty) : Verdict := if initOk T ty.kind then .does [] else .broken

/-- experimental/buffer.hpp:73-81, 169-177 `operator =(T (&&)[n])`, for a length which fits: `is_convertible<T, T>` (which tells whether an rvalue can be returned as `T`;
line 77, 173), and `std::copy()` with move iterators. -/
def assignArray (T : Class) : Verdict :=
  match T.ctor.rvalue with
  | .rejected => .broken
  | _ =>
    match T.assign.rvalue with
    | .does acts => .does acts
    | _ => .broken

/-- experimental/buffer.hpp:65-72, 158-168 construction from `T (&&)[n]`. -/
def fromArray (T : Class) (ty : Ty) : Verdict := if initOk T ty.kind then assignArray T else .broken

end Makeshift.BufferMembers
