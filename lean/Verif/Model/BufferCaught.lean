import Verif.Model.Buffer

/-!
# Programs on buffers which catch exceptions

`experimental/buffer.hpp` and `experimental/detail/buffer.hpp` once more, for scalar elements (see `Model/Buffer.lean`, whose simplifications
apply), with gsl-lite configured to throw an exception when a contract is violated (`gsl_CONFIG_CONTRACT_VIOLATION_THROWS`, as in
test/CMakeLists.txt:26).  The program catches the exceptions thrown by operations and goes on.  (`Model/BufferExceptions.lean` is about
exceptions thrown by elements; there a violated contract terminates the program.)

What the language does on its own account is modelled: if the body of a constructor throws, the base class, which has been constructed, is
destroyed.
-/

namespace Makeshift.BufferCaught

open Makeshift.Buffer (Ty Cell Obj Heap State Op Resp update)

/-- How a function ends, and the free store (resp. program state) then. -/
inductive Res (σ α : Type) where
  | ok (a : α) (s : σ)
  | threw (msg : Str) (s : σ)
  | violated (s : σ)
  | ub

/-- Sequential execution. -/
def Res.bind {σ α β : Type} (r : Res σ α) (f : α → σ → Res σ β) : Res σ β :=
  match r with
  | .ok a s => f a s
  | .threw m s => .threw m s
  | .violated s => .violated s
  | .ub => .ub

/-- `gsl_Expects(cond)`. -/
def expects {σ : Type} (cond : Bool) (s : σ) : Res σ Unit := if cond then .ok () s else .violated s

/-- Element accesses and releasing memory: these return or are undefined. -/
def plain {σ α : Type} : Outcome (σ × α) → Res σ α
  | .ok (s, a) => .ok a s
  | _ => .ub

/-- `new T[n]{ }`. -/
def newArray (limit n : Nat) (h : Heap) : Res Heap Nat :=
  if n > limit then .threw (str "bad_alloc") h
  else .ok h.next { blocks := update h.blocks h.next (some (List.replicate n (.val 0))), next := h.next + 1 }

/-- The constructors from a size: experimental/detail/buffer.hpp:109-112, 153-156, 182-189, 232-235. -/
def construct (limit : Nat) (ty : Ty) (size : Nat) (h : Heap) : Res Heap Obj :=
  match ty.kind with
  | .inPlace n => .ok ⟨ty, n, .own, List.replicate n (.val 0)⟩ h
  | .inPlaceMax cap => .ok ⟨ty, size, .own, List.replicate cap (.val 0)⟩ h
  | .small cap =>
    if size ≤ cap then .ok ⟨ty, size, .own, List.replicate cap .uninit⟩ h
    else (newArray limit size h).bind fun id h => .ok ⟨ty, size, .block id, List.replicate cap .uninit⟩ h
  | .heap =>
    if size > 0 then (newArray limit size h).bind fun id h => .ok ⟨ty, size, .block id, []⟩ h
    else .ok ⟨ty, 0, .null, []⟩ h

/-- Destructors: experimental/detail/buffer.hpp:203-207, 249-252. -/
def destroy (o : Obj) (h : Heap) : Res Heap Unit := plain ((Buffer.destroy h o).mapVal fun h => (h, ()))

/-- An exception leaves the body of a constructor: the base class is destroyed, and the exception is thrown on. -/
def unwind (o : Obj) : Res Heap Unit → Res Heap Unit
  | .threw m h => (destroy o h).bind fun _ h => .threw m h
  | .violated h => (destroy o h).bind fun _ h => .violated h
  | r => r

/-- experimental/buffer.hpp:56-64 and 151-160: the constructors from an extent. -/
def constructExtent (limit : Nat) (ty : Ty) (e : Int) (h : Heap) : Res Heap Obj :=
  (construct limit ty (IntTy.sizeT.wrap e).toNat h).bind fun o h =>
    (unwind o (expects (Buffer.checkExtent ty e) h)).bind fun _ h => .ok o h

/-- experimental/buffer.hpp:65-72 and 161-168: the constructors from an array. -/
def constructArray (limit : Nat) (ty : Ty) (vals : List Int) (h : Heap) : Res Heap Obj :=
  (construct limit ty vals.length h).bind fun o h => plain (Buffer.storeAll h o 0 vals)

/-- Copy constructors: experimental/detail/buffer.hpp:190-195, 236-241; the implicit ones of `static_buffer_base` copy the members. -/
def copyConstruct (limit : Nat) (rhs : Obj) (h : Heap) : Res Heap Obj :=
  match rhs.ty.kind with
  | .inPlace _ => .ok rhs h
  | .inPlaceMax _ => .ok rhs h
  | _ => (construct limit rhs.ty rhs.size h).bind fun o h => plain (Buffer.copyElems h rhs o 0 rhs.size)

/-- Using an object which does not exist is undefined. -/
def withObj {α : Type} (s : State) (b : Nat) (f : Obj → Res State α) : Res State α :=
  match s.objs b with
  | some o => f o
  | none => .ub

/-- Creating an object where one lives already is undefined; an object comes into existence when its constructor has returned. -/
def create (s : State) (b : Nat) (r : Heap → Res Heap Obj) : Res State Resp :=
  match s.objs b with
  | some _ => .ub
  | none =>
    match r s.heap with
    | .ok o h => .ok .unit ⟨h, update s.objs b (some o)⟩
    | .threw m h => .threw m ⟨h, s.objs⟩
    | .violated h => .violated ⟨h, s.objs⟩
    | .ub => .ub

/-- Element accesses in a program state. -/
def access (s : State) (b : Nat) (r : Outcome (Heap × Obj)) : Res State Resp :=
  match plain r with
  | .ok o h => .ok .unit ⟨h, update s.objs b (some o)⟩
  | _ => .ub

/-- Reading an element. -/
def read (s : State) (r : Outcome Int) : Res State Resp := plain (r.mapVal fun v => (s, .num v))

/-- One operation. -/
def step (limit : Nat) (s : State) : Op → Res State Resp
  | .construct b ty e => create s b (constructExtent limit ty e)
  | .constructArray b ty vals => create s b (constructArray limit ty vals)
  | .copy b src => withObj s src fun o => create s b (copyConstruct limit o)
  | .assignArray b vals => withObj s b fun o =>                                        -- experimental/buffer.hpp:73-81, 169-177
    (expects (decide (vals.length = o.size)) s).bind fun _ s => access s b (Buffer.storeAll s.heap o 0 vals)
  | .copyAssign b src => withObj s b fun _ => withObj s src fun o =>                   -- implicit, for in-place storage only
    .ok .unit ⟨s.heap, update s.objs b (some o)⟩
  | .size b => withObj s b fun o => .ok (.num o.size) s                                -- experimental/detail/buffer.hpp:131-134 etc.
  | .empty b => withObj s b fun o => .ok (.num (if o.size = 0 then 1 else 0)) s        -- experimental/detail/buffer.hpp:61-64
  | .read b i => withObj s b fun o => read s (Buffer.load s.heap o i)                  -- experimental/detail/buffer.hpp:66-73
  | .write b i v => withObj s b fun o => access s b (Buffer.store s.heap o i v)
  | .front b => withObj s b fun o =>                                                   -- experimental/detail/buffer.hpp:75-84
    (expects (decide (o.size ≠ 0)) s).bind fun _ s => read s (Buffer.load s.heap o 0)
  | .back b => withObj s b fun o =>                                                    -- experimental/detail/buffer.hpp:85-94
    (expects (decide (o.size ≠ 0)) s).bind fun _ s => read s (Buffer.load s.heap o (o.size - 1))
  | .destroy b => withObj s b fun o =>
    match destroy o s.heap with
    | .ok _ h => .ok .unit ⟨h, update s.objs b none⟩
    | .threw m h => .threw m ⟨h, s.objs⟩
    | .violated h => .violated ⟨h, s.objs⟩
    | .ub => .ub

/-- What the program observes of an operation: its result, an exception, or the exception which reports that a contract is violated. -/
inductive Seen where
  | returned (r : Resp)
  | threw (msg : Str)
  | violated
  deriving DecidableEq, Repr

/-- A program which catches all exceptions: after every operation it goes on depending on what it has observed. -/
inductive Prog where
  | done
  | op (o : Op) (k : Seen → Prog)

/-- Run a program: what it observes, and the final state; `none` if it is undefined. -/
def run (limit : Nat) : Prog → State → Option (List Seen × State)
  | .done, s => some ([], s)
  | .op o k, s =>
    match step limit s o with
    | .ok r s => (run limit (k (.returned r)) s).map fun x => (.returned r :: x.1, x.2)
    | .threw m s => (run limit (k (.threw m)) s).map fun x => (.threw m :: x.1, x.2)
    | .violated s => (run limit (k .violated) s).map fun x => (.violated :: x.1, x.2)
    | .ub => none

end Makeshift.BufferCaught
