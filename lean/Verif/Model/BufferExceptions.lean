import Verif.Model.Buffer

/-!
# `buffer` and `fixed_buffer` of a class type whose operations may throw

Model of `experimental/buffer.hpp` and `experimental/detail/buffer.hpp` for an element type with a default constructor (which yields the
value 0), copy operations and a destructor, where constructors and assignments may throw at any time.  The program catches exceptions and
goes on.  (`Verif.Model.Buffer` is about scalar elements, whose default initialisation leaves them indeterminate.)

Memory is a partial function from places and indices to element objects which are alive.  Constructing an object where one is alive, and
destroying, reading or assigning an object which is not alive is undefined, as is releasing a block which is not allocated.  The types,
operations and extent checks are those of `Verif.Model.Buffer`.

What the language does on its own account is modelled too: elements of arrays are constructed in order and destroyed in reverse order; if
the construction of an array element throws, the elements constructed already are destroyed, and `new[]` releases the memory; if the body
of a constructor throws, members and base classes are destroyed, and the destructor is called if the constructor delegated to has
completed. Exceptions in destructors are not modelled (they terminate the program).
-/

namespace Makeshift.BufferEx

open Makeshift.Buffer (Ty Kind Ptr Op Resp update)

/-- Where the elements of a buffer may reside: nowhere, inside the buffer object `b`, or in a heap block. -/
inductive Place where
  | null
  | own (b : Nat)
  | block (id : Nat)
  deriving DecidableEq, Repr

/-- The data members of a buffer object apart from the elements in place. -/
structure Obj where
  ty : Ty
  size : Nat
  data : Ptr
  deriving DecidableEq, Repr

/-- Memory and buffer objects. -/
structure World where
  /-- element objects which are alive -/
  mem : Place → Nat → Option Int
  /-- number of elements of heap blocks -/
  alloc : Nat → Option Nat
  next : Nat
  objs : Nat → Option Obj

/-- A world together with the number of element operations so far. -/
structure St where
  w : World
  ticks : Nat

/-- What may fail: `new T[n]` for more than `limit` elements, and the element operations of which `fails` tells that they throw (an
assignment which throws leaves the value given). -/
structure Env where
  limit : Nat
  fails : Nat → Option Int

/-- How a function ends: it returns, throws, terminates the program because an expectation is violated, or is undefined. -/
inductive Res (α : Type) where
  | ok (a : α) (s : St)
  | threw (s : St)
  | failFast
  | ub

/-- Sequential execution. -/
def Res.bind {α β : Type} (r : Res α) (f : α → St → Res β) : Res β :=
  match r with
  | .ok a s => f a s
  | .threw s => .threw s
  | .failFast => .failFast
  | .ub => .ub

/-- What is done while an exception passes: the exception is thrown on afterwards. -/
def Res.onThrow {α : Type} (r : Res α) (cleanup : St → Res Unit) : Res α :=
  match r with
  | .threw s =>
    match cleanup s with
    | .ok _ s => .threw s
    | .threw _ => .failFast
    | .failFast => .failFast
    | .ub => .ub
  | r => r

/-- Set the element object at an address. -/
def World.put (w : World) (p : Place) (i : Nat) (x : Option Int) : World :=
  { w with mem := fun q j => if q = p ∧ j = i then x else w.mem q j }

/-- Construct an element of the given value (the default constructor or the copy constructor of the element type). -/
def constructElem (env : Env) (p : Place) (i : Nat) (v : Int) (s : St) : Res Unit :=
  match s.w.mem p i with
  | some _ => .ub
  | none =>
    match env.fails s.ticks with
    | some _ => .threw ⟨s.w, s.ticks + 1⟩
    | none => .ok () ⟨s.w.put p i (some v), s.ticks + 1⟩

/-- Destroy an element. -/
def destroyElem (p : Place) (i : Nat) (s : St) : Res Unit :=
  match s.w.mem p i with
  | some _ => .ok () ⟨s.w.put p i none, s.ticks⟩
  | none => .ub

/-- Assign to an element. -/
def assignElem (env : Env) (p : Place) (i : Nat) (v : Int) (s : St) : Res Unit :=
  match s.w.mem p i with
  | none => .ub
  | some _ =>
    match env.fails s.ticks with
    | some x => .threw ⟨s.w.put p i (some x), s.ticks + 1⟩
    | none => .ok () ⟨s.w.put p i (some v), s.ticks + 1⟩

/-- Read an element. -/
def readElem (p : Place) (i : Nat) (s : St) : Res Int :=
  match s.w.mem p i with
  | some v => .ok v s
  | none => .ub

/-- Where values come from: default construction, elements of another buffer, or an array. -/
inductive Source where
  | default
  | elems (p : Place)
  | array (vals : List Int)

/-- The value of a source at an index. -/
def Source.read (src : Source) (i : Nat) (s : St) : Res Int :=
  match src with
  | .default => .ok 0 s
  | .elems p => readElem p i s
  | .array vals =>
    match vals[i]? with
    | some v => .ok v s
    | none => .ub

/-- Destroy the `n` elements of an array, the last one first. -/
def destroyArray (p : Place) : Nat → St → Res Unit
  | 0, s => .ok () s
  | n + 1, s => (destroyElem p n s).bind fun _ s => destroyArray p n s

/-- Construct the elements of an array from index `i` on, with `k` elements left.  If one throws, those before are destroyed. -/
def constructArrayFrom (env : Env) (p : Place) (src : Source) (i : Nat) : Nat → St → Res Unit
  | 0, s => .ok () s
  | k + 1, s =>
    (src.read i s).bind fun v s =>
    ((constructElem env p i v s).onThrow (destroyArray p i)).bind fun _ s => constructArrayFrom env p src (i + 1) k s

/-- `std::copy` resp. the implicit assignment of arrays: assign to the elements from index `i` on, with `k` elements left. -/
def assignFrom (env : Env) (p : Place) (src : Source) (i : Nat) : Nat → St → Res Unit
  | 0, s => .ok () s
  | k + 1, s =>
    (src.read i s).bind fun v s => (assignElem env p i v s).bind fun _ s => assignFrom env p src (i + 1) k s

/-- `new T[n]{ }`. -/
def newArray (env : Env) (n : Nat) (s : St) : Res Nat :=
  if n > env.limit then .threw s
  else
    let id := s.w.next
    ((constructArrayFrom env (.block id) .default 0 n ⟨{ s.w with alloc := update s.w.alloc id (some n), next := id + 1 }, s.ticks⟩).onThrow
      fun s => .ok () ⟨{ s.w with alloc := update s.w.alloc id none }, s.ticks⟩).bind fun _ s => .ok id s

/-- `delete[] p` for a pointer to a block. -/
def deleteArray (id : Nat) (s : St) : Res Unit :=
  match s.w.alloc id with
  | none => .ub
  | some n => (destroyArray (.block id) n s).bind fun _ s => .ok () ⟨{ s.w with alloc := update s.w.alloc id none }, s.ticks⟩

/-- The number of elements which reside inside a buffer object: experimental/detail/buffer.hpp:103, 149, 179 `data_`, `buf_`. -/
def inPlaceCount : Kind → Nat
  | .inPlace n => n
  | .inPlaceMax cap => cap
  | .small cap => cap
  | .heap => 0

/-- Where `data()` points to: experimental/detail/buffer.hpp:136-143, 163-170, 214-221, 259-266. -/
def place (b : Nat) : Ptr → Place
  | .null => .null
  | .own => .own b
  | .block id => .block id

/-- The constructors from a size: experimental/detail/buffer.hpp:109-112, 153-156, 182-189, 232-235. -/
def construct (env : Env) (b : Nat) (ty : Ty) (size : Nat) (s : St) : Res Obj :=
  match ty.kind with
  | .inPlace n => (constructArrayFrom env (.own b) .default 0 n s).bind fun _ s => .ok ⟨ty, n, .own⟩ s
  | .inPlaceMax cap => (constructArrayFrom env (.own b) .default 0 cap s).bind fun _ s => .ok ⟨ty, size, .own⟩ s
  | .small cap =>
    (constructArrayFrom env (.own b) .default 0 cap s).bind fun _ s =>
    if size ≤ cap then .ok ⟨ty, size, .own⟩ s
    else ((newArray env size s).onThrow (destroyArray (.own b) cap)).bind fun id s => .ok ⟨ty, size, .block id⟩ s
  | .heap =>
    if size > 0 then (newArray env size s).bind fun id s => .ok ⟨ty, size, .block id⟩ s
    else .ok ⟨ty, 0, .null⟩ s

/-- Destructors: experimental/detail/buffer.hpp:203-207, 249-252, followed by the destruction of the members. -/
def destroy (b : Nat) (o : Obj) (s : St) : Res Unit :=
  match o.ty.kind with
  | .inPlace n => destroyArray (.own b) n s
  | .inPlaceMax cap => destroyArray (.own b) cap s
  | .small cap =>
    (match o.data with
      | .block id => deleteArray id s
      | _ => .ok () s).bind fun _ s => destroyArray (.own b) cap s
  | .heap =>
    match o.data with
    | .block id => deleteArray id s
    | .null => .ok () s
    | .own => .ub

/-- experimental/buffer.hpp:56-64 and 151-160: the constructors from an extent. -/
def constructExtent (env : Env) (b : Nat) (ty : Ty) (e : Int) (s : St) : Res Obj :=
  (construct env b ty (IntTy.sizeT.wrap e).toNat s).bind fun o s =>
    if Buffer.checkExtent ty e then .ok o s else .failFast

/-- experimental/buffer.hpp:65-72 and 161-168: the constructors from an array.  If an assignment throws, the base class is destroyed. -/
def constructArray (env : Env) (b : Nat) (ty : Ty) (vals : List Int) (s : St) : Res Obj :=
  (construct env b ty vals.length s).bind fun o s =>
    ((assignFrom env (place b o.data) (.array vals) 0 vals.length s).onThrow (destroy b o)).bind fun _ s => .ok o s

/-- Copy constructors: experimental/detail/buffer.hpp:190-195, 236-241; the implicit ones of `static_buffer_base` copy the members.  The constructor
delegated to has completed when an assignment throws, hence the destructor is called. -/
def copyConstruct (env : Env) (b src : Nat) (rhs : Obj) (s : St) : Res Obj :=
  match rhs.ty.kind with
  | .inPlace n => (constructArrayFrom env (.own b) (.elems (.own src)) 0 n s).bind fun _ s => .ok rhs s
  | .inPlaceMax cap => (constructArrayFrom env (.own b) (.elems (.own src)) 0 cap s).bind fun _ s => .ok rhs s
  | _ =>
    (construct env b rhs.ty rhs.size s).bind fun o s =>
      ((assignFrom env (place b o.data) (.elems (place src rhs.data)) 0 rhs.size s).onThrow (destroy b o)).bind fun _ s => .ok o s

/-- Using an object which does not exist is undefined. -/
def withObj {α : Type} (s : St) (b : Nat) (f : Obj → Res α) : Res α :=
  match s.w.objs b with
  | some o => f o
  | none => .ub

/-- Creating an object where one lives already is undefined; an object comes into existence when its constructor has returned. -/
def create (s : St) (b : Nat) (r : Res Obj) : Res Resp :=
  match s.w.objs b with
  | some _ => .ub
  | none => r.bind fun o s => .ok .unit ⟨{ s.w with objs := update s.w.objs b (some o) }, s.ticks⟩

/-- One operation. -/
def step (env : Env) (s : St) : Op → Res Resp
  | .construct b ty e => create s b (constructExtent env b ty e s)
  | .constructArray b ty vals => create s b (constructArray env b ty vals s)
  | .copy b src => withObj s src fun o => create s b (copyConstruct env b src o s)
  | .assignArray b vals => withObj s b fun o =>                                        -- experimental/buffer.hpp:73-81, 169-177
    if vals.length = o.size then
      (assignFrom env (place b o.data) (.array vals) 0 vals.length s).bind fun _ s => .ok .unit s
    else .failFast
  | .copyAssign b src => withObj s b fun o => withObj s src fun rhs =>                 -- implicit, for in-place storage only
    (assignFrom env (.own b) (.elems (.own src)) 0 (inPlaceCount o.ty.kind) s).bind fun _ s =>
      .ok .unit ⟨{ s.w with objs := update s.w.objs b (some { o with size := rhs.size }) }, s.ticks⟩
  | .size b => withObj s b fun o => .ok (.num o.size) s                                -- experimental/detail/buffer.hpp:131-134 etc.
  | .empty b => withObj s b fun o => .ok (.num (if o.size = 0 then 1 else 0)) s        -- experimental/detail/buffer.hpp:61-64
  | .read b i => withObj s b fun o => (readElem (place b o.data) i s).bind fun v s => .ok (.num v) s  -- experimental/detail/buffer.hpp:66-73
  | .write b i v => withObj s b fun o => (assignElem env (place b o.data) i v s).bind fun _ s => .ok .unit s
  | .front b => withObj s b fun o =>                                                   -- experimental/detail/buffer.hpp:75-84
    if o.size ≠ 0 then (readElem (place b o.data) 0 s).bind fun v s => .ok (.num v) s else .failFast
  | .back b => withObj s b fun o =>                                                    -- experimental/detail/buffer.hpp:85-94
    if o.size ≠ 0 then (readElem (place b o.data) (o.size - 1) s).bind fun v s => .ok (.num v) s else .failFast
  | .destroy b => withObj s b fun o =>
    (destroy b o s).bind fun _ s => .ok .unit ⟨{ s.w with objs := update s.w.objs b none }, s.ticks⟩

/-- What the program observes of an operation: its result, or that it threw. -/
inductive Seen where
  | returned (r : Resp)
  | threw
  deriving DecidableEq, Repr

/-- A program which catches all exceptions: after every operation it goes on depending on what it has observed. -/
inductive Prog where
  | done
  | op (o : Op) (k : Seen → Prog)

/-- Run a program: what it observes, and the final state. -/
def run (env : Env) : Prog → St → Res (List Seen)
  | .done, s => .ok [] s
  | .op o k, s =>
    match step env s o with
    | .ok r s => (run env (k (.returned r)) s).bind fun rs s => .ok (.returned r :: rs) s
    | .threw s => (run env (k .threw) s).bind fun rs s => .ok (.threw :: rs) s
    | .failFast => .failFast
    | .ub => .ub

/-- The state before any buffer exists. -/
def St.init : St := ⟨⟨fun _ _ => none, fun _ => none, 0, fun _ => none⟩, 0⟩

end Makeshift.BufferEx
