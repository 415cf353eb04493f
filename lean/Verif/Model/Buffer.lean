import Verif.Model.MachineInt

/-!
# `buffer` and `fixed_buffer`

Model of `experimental/buffer.hpp` and `experimental/detail/buffer.hpp` for a scalar element type (so that default initialisation
leaves elements indeterminate and destruction of elements does nothing).

Heap blocks and in-place arrays are lists of cells.  Reading an uninitialised cell, accessing a block which is not allocated or an
index out of the bounds of an array, and releasing a block which is not allocated are undefined.  `limit` is the largest number of
elements for which `new T[n]` succeeds; a larger request throws `std::bad_alloc` (or `std::bad_array_new_length`).
`static_assert`s are collected in `Op.wellFormed`.
-/

namespace Makeshift.Buffer

/-- A scalar object: indeterminate or with a value. -/
inductive Cell where
  | uninit
  | val (v : Int)
  deriving DecidableEq, Repr

/-- The storage classes: experimental/detail/buffer.hpp:97-144 `static_buffer_base<T, n>`, 145-171 `static_buffer_base<T, -1, cap>`, 173-222
`dynamic_buffer_base<T, cap>` with `cap > 0`, 224-267 `dynamic_buffer_base<T, 0>`. -/
inductive Kind where
  | inPlace (n : Nat)
  | inPlaceMax (cap : Nat)
  | small (cap : Nat)
  | heap
  deriving DecidableEq, Repr

/-- experimental/detail/buffer.hpp:270-275 `memory_location`. -/
inductive Loc where
  | alwaysOnStack | dynamic | neverOnStack
  deriving DecidableEq, Repr

/-- experimental/detail/buffer.hpp:277-284 `determine_memory_location`. -/
def determineMemoryLocation (bufExtent maxStaticBufferExtent : Int) : Loc :=
  if maxStaticBufferExtent < 0 then (if bufExtent < 0 then .neverOnStack else .alwaysOnStack)
  else if maxStaticBufferExtent = 0 then .neverOnStack
  else if bufExtent < 0 then .dynamic
  else if bufExtent ≤ maxStaticBufferExtent then .alwaysOnStack
  else .neverOnStack

/-- The class templates with their arguments: experimental/buffer.hpp:48-82 `buffer<T, Extent, MaxStaticBufferExtent>` and 140-178
`fixed_buffer<T, Extent, MaxBufferExtent>`; `none` is `dynamic_extent`. -/
inductive Ty where
  | buffer (extent : Option Nat) (maxStatic : Int)
  | fixed (extent : Option Nat) (max : Nat)
  deriving DecidableEq, Repr

/-- The number which represents an extent: experimental/buffer.hpp:27 `dynamic_extent`. -/
def extentNum : Option Nat → Int
  | none => -1
  | some n => n

/-- The base class: experimental/detail/buffer.hpp:287-318 `buffer_base`; experimental/buffer.hpp:142 for `fixed_buffer`. -/
def Ty.kind : Ty → Kind
  | .buffer ext maxStatic =>
    match determineMemoryLocation (extentNum ext) maxStatic with
    | .alwaysOnStack => .inPlace (extentNum ext).toNat
    | .dynamic => .small maxStatic.toNat
    | .neverOnStack => .heap
  | .fixed none max => .inPlaceMax max
  | .fixed (some n) _ => .inPlace n

/-- The extent template argument. -/
def Ty.extent : Ty → Option Nat
  | .buffer ext _ => ext
  | .fixed ext _ => ext

/-- The pointer `data_` (`own` is `buf_.data()` resp. `data_.data()`). -/
inductive Ptr where
  | null
  | own
  | block (id : Nat)
  deriving DecidableEq, Repr

/-- The data members of a buffer object. -/
structure Obj where
  ty : Ty
  size : Nat
  data : Ptr
  inPlace : List Cell
  deriving DecidableEq, Repr

/-- The free store; block ids are never reused. -/
structure Heap where
  blocks : Nat → Option (List Cell)
  next : Nat

/-- Pointwise update. -/
def update {α : Type} (f : Nat → Option α) (k : Nat) (x : Option α) : Nat → Option α := fun j => if j = k then x else f j

/-- `new T[n]{ }`: value-initialised elements. -/
def Heap.new (limit : Nat) (h : Heap) (n : Nat) : Outcome (Heap × Nat) :=
  if n > limit then .throw (str "bad_alloc")
  else .ok ({ blocks := update h.blocks h.next (some (List.replicate n (.val 0))), next := h.next + 1 }, h.next)

/-- `delete[] p` for a pointer to a block. -/
def Heap.delete (h : Heap) (id : Nat) : Outcome Heap :=
  match h.blocks id with
  | some _ => .ok { h with blocks := update h.blocks id none }
  | none => .ub

/-- `data_[i]` as an rvalue. -/
def load (h : Heap) (o : Obj) (i : Nat) : Outcome Int :=
  let cell := match o.data with
    | .null => none
    | .own => o.inPlace[i]?
    | .block id => (h.blocks id).bind fun cells => cells[i]?
  match cell with
  | some (.val v) => .ok v
  | _ => .ub

/-- `data_[i] = v`. -/
def store (h : Heap) (o : Obj) (i : Nat) (v : Int) : Outcome (Heap × Obj) :=
  match o.data with
  | .null => .ub
  | .own => if i < o.inPlace.length then .ok (h, { o with inPlace := o.inPlace.set i (.val v) }) else .ub
  | .block id =>
    match h.blocks id with
    | some cells =>
      if i < cells.length then .ok ({ h with blocks := update h.blocks id (some (cells.set i (.val v))) }, o) else .ub
    | none => .ub

/-- `std::copy(array, array + n, begin())` from position `i` on. -/
def storeAll (h : Heap) (o : Obj) (i : Nat) : List Int → Outcome (Heap × Obj)
  | [] => .ok (h, o)
  | v :: vs => (store h o i v).bind fun r => storeAll r.1 r.2 (i + 1) vs

/-- `std::copy(rhs.begin(), rhs.end(), data_)` from position `i` on, with `n` elements left. -/
def copyElems (h : Heap) (rhs o : Obj) (i : Nat) : Nat → Outcome (Heap × Obj)
  | 0 => .ok (h, o)
  | n + 1 => (load h rhs i).bind fun v => (store h o i v).bind fun r => copyElems r.1 rhs r.2 (i + 1) n

/-- The constructors from a size: experimental/detail/buffer.hpp:109-112, 153-156, 182-189, 232-235. -/
def construct (limit : Nat) (h : Heap) (ty : Ty) (size : Nat) : Outcome (Heap × Obj) :=
  match ty.kind with
  | .inPlace n => .ok (h, ⟨ty, n, .own, List.replicate n (.val 0)⟩)
  | .inPlaceMax cap => .ok (h, ⟨ty, size, .own, List.replicate cap (.val 0)⟩)
  | .small cap =>
    if size ≤ cap then .ok (h, ⟨ty, size, .own, List.replicate cap .uninit⟩)
    else (h.new limit size).bind fun r => .ok (r.1, ⟨ty, size, .block r.2, List.replicate cap .uninit⟩)
  | .heap =>
    if size > 0 then (h.new limit size).bind fun r => .ok (r.1, ⟨ty, size, .block r.2, []⟩)
    else .ok (h, ⟨ty, 0, .null, []⟩)

/-- experimental/detail/buffer.hpp:331-350 `check_buffer_extents`, `check_fixed_buffer_extents`, called with the run-time extent. -/
def checkExtent (ty : Ty) (e : Int) : Bool :=
  match ty with
  | .buffer none _ => decide (e ≥ 0)
  | .buffer (some n) _ => decide (e = n)
  | .fixed none max => decide (e ≥ 0) && decide (e ≤ max)
  | .fixed (some n) _ => decide (e = n)

/-- experimental/buffer.hpp:56-64 and 151-160: the constructors from an extent.  The base class is constructed, with the extent converted to
`std::size_t`, before the extent is checked. -/
def constructExtent (limit : Nat) (h : Heap) (ty : Ty) (e : Int) : Outcome (Heap × Obj) :=
  (construct limit h ty (IntTy.sizeT.wrap e).toNat).bind fun r => (Outcome.expects (checkExtent ty e)).bind fun _ => .ok r

/-- experimental/buffer.hpp:65-72 and 161-168: the constructors from an array. -/
def constructArray (limit : Nat) (h : Heap) (ty : Ty) (vals : List Int) : Outcome (Heap × Obj) :=
  (construct limit h ty vals.length).bind fun r => storeAll r.1 r.2 0 vals

/-- Copy constructors: experimental/detail/buffer.hpp:190-195, 236-241; the implicit ones of `static_buffer_base` copy the members.  (Moving a
buffer is copying it: the move constructors of `dynamic_buffer_base` are deleted, so that the implicit ones of the derived classes
do not take part in overload resolution.) -/
def copyConstruct (limit : Nat) (h : Heap) (rhs : Obj) : Outcome (Heap × Obj) :=
  match rhs.ty.kind with
  | .inPlace _ => .ok (h, rhs)
  | .inPlaceMax _ => .ok (h, rhs)
  | .small _ => (construct limit h rhs.ty rhs.size).bind fun r => copyElems r.1 rhs r.2 0 rhs.size
  | .heap => (construct limit h rhs.ty rhs.size).bind fun r => copyElems r.1 rhs r.2 0 rhs.size

/-- Destructors: experimental/detail/buffer.hpp:203-207, 249-252. -/
def destroy (h : Heap) (o : Obj) : Outcome Heap :=
  match o.ty.kind with
  | .inPlace _ => .ok h
  | .inPlaceMax _ => .ok h
  | .small _ =>
    match o.data with
    | .own => .ok h
    | .null => .ok h
    | .block id => h.delete id
  | .heap =>
    match o.data with
    | .own => .ub
    | .null => .ok h
    | .block id => h.delete id

/-- The whole program state: free store and buffer objects (by number). -/
structure State where
  heap : Heap
  objs : Nat → Option Obj

/-- The state before any buffer exists. -/
def State.init : State := ⟨⟨fun _ => none, 0⟩, fun _ => none⟩

/-- Operations of a program on buffers. -/
inductive Op where
  | construct (b : Nat) (ty : Ty) (extent : Int)
  | constructArray (b : Nat) (ty : Ty) (vals : List Int)
  | copy (b src : Nat)
  | assignArray (b : Nat) (vals : List Int)
  | copyAssign (b src : Nat)
  | size (b : Nat)
  | empty (b : Nat)
  | read (b i : Nat)
  | write (b i : Nat) (v : Int)
  | front (b : Nat)
  | back (b : Nat)
  | destroy (b : Nat)

/-- What an operation returns. -/
inductive Resp where
  | unit
  | num (v : Int)
  deriving DecidableEq, Repr

/-- Using an object which does not exist is undefined. -/
def State.withObj {α : Type} (s : State) (b : Nat) (f : Obj → Outcome α) : Outcome α :=
  match s.objs b with
  | some o => f o
  | none => .ub

/-- One operation.  Creating an object where one lives already is undefined as well. -/
def step (limit : Nat) (s : State) : Op → Outcome (State × Resp)
  | .construct b ty e =>
    match s.objs b with
    | some _ => .ub
    | none => (constructExtent limit s.heap ty e).bind fun r => .ok (⟨r.1, update s.objs b (some r.2)⟩, .unit)
  | .constructArray b ty vals =>
    match s.objs b with
    | some _ => .ub
    | none => (constructArray limit s.heap ty vals).bind fun r => .ok (⟨r.1, update s.objs b (some r.2)⟩, .unit)
  | .copy b src =>
    match s.objs b with
    | some _ => .ub
    | none => s.withObj src fun o =>
      (copyConstruct limit s.heap o).bind fun r => .ok (⟨r.1, update s.objs b (some r.2)⟩, .unit)
  | .assignArray b vals => s.withObj b fun o =>                                        -- experimental/buffer.hpp:73-81, 169-177
    (Outcome.expects (decide (vals.length = o.size))).bind fun _ =>
    (storeAll s.heap o 0 vals).bind fun r => .ok (⟨r.1, update s.objs b (some r.2)⟩, .unit)
  | .copyAssign b src => s.withObj b fun _ => s.withObj src fun o =>                   -- implicit, for in-place storage only
    .ok (⟨s.heap, update s.objs b (some o)⟩, .unit)
  | .size b => s.withObj b fun o => .ok (s, .num o.size)                               -- experimental/detail/buffer.hpp:131-134 etc.
  | .empty b => s.withObj b fun o => .ok (s, .num (if o.size = 0 then 1 else 0))       -- experimental/detail/buffer.hpp:61-64
  | .read b i => s.withObj b fun o => (load s.heap o i).bind fun v => .ok (s, .num v)  -- experimental/detail/buffer.hpp:66-73
  | .write b i v => s.withObj b fun o =>
    (store s.heap o i v).bind fun r => .ok (⟨r.1, update s.objs b (some r.2)⟩, .unit)
  | .front b => s.withObj b fun o =>                                                   -- experimental/detail/buffer.hpp:75-84
    (Outcome.expects (decide (o.size ≠ 0))).bind fun _ => (load s.heap o 0).bind fun v => .ok (s, .num v)
  | .back b => s.withObj b fun o =>                                                    -- experimental/detail/buffer.hpp:85-94
    (Outcome.expects (decide (o.size ≠ 0))).bind fun _ => (load s.heap o (o.size - 1)).bind fun v => .ok (s, .num v)
  | .destroy b => s.withObj b fun o =>
    (destroy s.heap o).bind fun h => .ok (⟨h, update s.objs b none⟩, .unit)

/-- A program: operations in sequence, with their responses. -/
def run (limit : Nat) : State → List Op → Outcome (State × List Resp)
  | s, [] => .ok (s, [])
  | s, op :: ops => (step limit s op).bind fun r => (run limit r.1 ops).bind fun rs => .ok (rs.1, r.2 :: rs.2)

/-- The `static_assert`s which concern the class templates (experimental/detail/buffer.hpp:100, experimental/buffer.hpp:144-145); extents are template
arguments of type `std::ptrdiff_t`. -/
def Ty.wellFormed : Ty → Bool
  | .buffer none maxStatic => decide (maxStatic < 2 ^ 63)
  | .buffer (some n) maxStatic => decide (maxStatic < 2 ^ 63) && decide (n < 2 ^ 63)
  | .fixed none max => decide (max < 2 ^ 63)
  | .fixed (some n) max => decide (max < 2 ^ 63) && decide (n ≤ max)

/-- Whether the static extent, if any, matches the length of an array (experimental/buffer.hpp:69, 76, 165, 172). -/
def Ty.arrayOk (ty : Ty) (n : Nat) : Bool :=
  match ty.extent with
  | none => true
  | some m => decide (n = m)

/-- Whether copy assignment compiles: that of `dynamic_buffer_base` (experimental/detail/buffer.hpp:196-200, 242-246) calls the deleted move
assignment operator. -/
def Ty.copyAssignable (ty : Ty) : Bool :=
  match ty.kind with
  | .inPlace _ => true
  | .inPlaceMax _ => true
  | _ => false

/-- Whether the operation compiles, given the static types of the variables which hold the buffers.  The run-time extent is a value
of an integer type of at most 64 bits, the length of an array one of type `std::ptrdiff_t`. -/
def Op.wellFormed (tyOf : Nat → Ty) : Op → Prop
  | .construct b ty e => ty = tyOf b ∧ ty.wellFormed = true ∧ -2 ^ 63 ≤ e ∧ e < 2 ^ 64
  | .constructArray b ty vals => ty = tyOf b ∧ ty.wellFormed = true ∧ ty.arrayOk vals.length = true ∧ vals.length < 2 ^ 63
  | .copy b src => tyOf b = tyOf src
  | .assignArray b vals => (tyOf b).arrayOk vals.length = true
  | .copyAssign b src => (tyOf b).copyAssignable = true ∧ tyOf b = tyOf src
  | _ => True

end Makeshift.Buffer
