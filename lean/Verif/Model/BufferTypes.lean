import Verif.Model.Buffer
import Verif.Model.RangeArgs
import Verif.Model.TupleAccess

/-!
# `make_buffer`, `make_fixed_buffer`, and buffers as ranges and tuples

Model of experimental/buffer.hpp:56-64, 84-123, 151-160, 185-214 (size arguments), 217-262 (tuple protocol) and
experimental/detail/buffer.hpp:42-60, 107-130 (iterators), 320-329.
-/

namespace Makeshift.Buffer

open Makeshift.TupleAccess (Access CTy)

/-- The size argument: a run-time integer, an object of type `std::integral_constant<I, v>`, or an object of a class derived from it
(such as `std::tuple_size<X>`, `std::extent<X>`). -/
inductive SizeArg where
  | int (v : Int)
  | constant (v : Int)
  | derived (v : Int)
  deriving DecidableEq, Repr

/-- The value to which the argument converts. -/
def SizeArg.value : SizeArg → Int
  | .int v => v
  | .constant v => v
  | .derived v => v

/-- experimental/detail/buffer.hpp:320-329 `buffer_extent_from_constval`: for a class derived from `std::integral_constant` the first overload is the
better match.  The value is converted to `std::ptrdiff_t`. -/
def extentFromConstval : SizeArg → Int
  | .int _ => -1
  | .constant v => IntTy.ptrdiffT.wrap v
  | .derived _ => -1

/-- A number as the template argument `Extent`: -1 is `dynamic_extent` (experimental/buffer.hpp:27).  Other negative numbers are left out (`none`):
the class templates do not reject all of them. -/
def toExtent (e : Int) : Option (Option Nat) :=
  if e = -1 then some none else if e < 0 then none else some (some e.toNat)

/-- The `static_assert`s of the constructors from an extent: experimental/buffer.hpp:61-62, 156-158. -/
def extentCompiles (ty : Ty) (c : SizeArg) : Bool :=
  let rhsExtent := extentFromConstval c
  match ty with
  | .buffer ext _ => decide (extentNum ext = -1) || decide (rhsExtent = -1) || decide (extentNum ext = rhsExtent)
  | .fixed ext max =>
    (decide (extentNum ext = -1) || decide (rhsExtent = -1) || decide (extentNum ext = rhsExtent)) &&
      (decide (rhsExtent = -1) || decide (rhsExtent ≤ max))

/-- experimental/buffer.hpp:56-64, 151-160: the constructors from an extent; `none`: does not compile. -/
def constructFrom (limit : Nat) (h : Heap) (ty : Ty) (c : SizeArg) : Option (Outcome (Heap × Obj)) :=
  if ty.wellFormed && extentCompiles ty c then some (constructExtent limit h ty c.value) else none

/-- experimental/buffer.hpp:101-123 `make_buffer<T, MaxStaticBufferExtent>(size)`. -/
def makeBufferMax (limit : Nat) (h : Heap) (maxStatic : Int) (c : SizeArg) : Option (Outcome (Heap × Obj)) :=
  (toExtent (extentFromConstval c)).bind fun ext => constructFrom limit h (.buffer ext maxStatic) c

/-- experimental/buffer.hpp:84-99 `make_buffer<T>(size)`; the default template argument is in line 48. -/
def makeBuffer (limit : Nat) (h : Heap) (c : SizeArg) : Option (Outcome (Heap × Obj)) :=
  (toExtent (extentFromConstval c)).bind fun ext => constructFrom limit h (.buffer ext (-1)) c

/-- experimental/buffer.hpp:185-197 `make_fixed_buffer<T>(size)`: the parameter type is `std::integral_constant<SizeT, Size>`, and template argument
deduction considers base classes.  The `static_assert` in line 144 rejects negative sizes; a size which is not representable as
`std::ptrdiff_t` is not a valid template argument. -/
def makeFixedBuffer (limit : Nat) (h : Heap) (c : SizeArg) : Option (Outcome (Heap × Obj)) :=
  match c with
  | .int _ => none
  | .constant v | .derived v =>
    if v < 0 || v ≥ 2 ^ 63 then none else constructFrom limit h (.fixed (some v.toNat) v.toNat) (.constant v)

/-- experimental/buffer.hpp:199-214 `make_fixed_buffer<T, MaxBufferExtent>(size)`. -/
def makeFixedBufferMax (limit : Nat) (h : Heap) (max : Nat) (c : SizeArg) : Option (Outcome (Heap × Obj)) :=
  (toExtent (extentFromConstval c)).bind fun ext => constructFrom limit h (.fixed ext max) c

/-- experimental/buffer.hpp:254-262 `std::tuple_size`; declared but not defined for dynamic extents. -/
def Ty.tupleSize (ty : Ty) : Option Nat := ty.extent

/-- experimental/buffer.hpp:256, 261 `std::tuple_element<I, buffer<T, Extent, ...>>`; [tuple.helper] adds the const of the buffer type.  `elem` is the
number of the type `T`. -/
def elementTy (elem : Nat) (const : Bool) : TupleAccess.Ty := .obj ⟨elem, const⟩

/-- experimental/buffer.hpp:217-248 `get<I>(buf)`: the type of the call; `none`: there is no viable overload, or the `static_assert` fails.  Rvalues
bind to the overload for const lvalues. -/
def getTy (elem : Nat) (a : Access) (ty : Ty) (i : Nat) : Option TupleAccess.Ty :=
  match ty.extent with
  | none => none
  | some k =>
    if i < k then some (.lref ⟨elem, if a.const then true else a.rvalue⟩)
    else none

/-- experimental/buffer.hpp:217-248 `get<I>(buf)`: the value, `buffer[I]`. -/
def getAt (s : State) (b i : Nat) : Outcome Int := s.withObj b fun o => load s.heap o i

/-- The number of elements of the array to which the iterators point. -/
def storageSize (h : Heap) (o : Obj) : Nat :=
  match o.data with
  | .null => 0
  | .own => o.inPlace.length
  | .block id => ((h.blocks id).getD []).length

/-- The position of `end()`: experimental/detail/buffer.hpp:52-59 `_data() + _size()`; for static extents in place 122-129, the end of the
`std::array`. -/
def endPos (o : Obj) : Nat :=
  match o.ty.kind with
  | .inPlace n => n
  | _ => o.size

/-- The loop `for (auto it = buf.begin(); it != buf.end(); ++it) f(*it)`, at position `pos`.  `fuel` is the number of positions left in
the array, including the one past the end; incrementing an iterator past that is undefined. -/
def iterateFrom (h : Heap) (o : Obj) : (fuel pos : Nat) → Outcome (List Int)
  | 0, _ => .ub
  | fuel + 1, pos =>
    if pos = endPos o then .ok []
    else (load h o pos).bind fun v => (iterateFrom h o fuel (pos + 1)).bind fun vs => .ok (v :: vs)

/-- The elements seen by a loop from `begin()` (experimental/detail/buffer.hpp:44-51, 114-121) to `end()`. -/
def iterate (s : State) (b : Nat) : Outcome (List Int) :=
  s.withObj b fun o => iterateFrom s.heap o (storageSize s.heap o + 1) 0

/-- What the range algorithms see of the buffer types: member functions `begin`, `end`, `data` with and without const, `size`
(experimental/detail/buffer.hpp:42-60, 107-143, 158-170, 209-221, 254-266), and the tuple protocol for static extents. -/
def Ty.rangeTy (ty : Ty) : RangeArgs.Ty := .class ⟨true, true, true, true, false, true, ty.tupleSize, true, true, true⟩

end Makeshift.Buffer
