import Verif.Model.Buffer

/-!
# Pointers and iterators into buffers

Model of `data()`, `begin()` and `end()` of `buffer` and `fixed_buffer` (experimental/detail/buffer.hpp:36-59, 114-143, 158-170, 209-221,
254-266; the iterators of all buffers are modelled as pointers, also those of `static_buffer_base`, which are the ones of
`std::array<>`), of the language's pointer arithmetic, and of programs which store such pointers and use them later, between other
operations on buffers.  (const and non-const versions are not distinguished.)

An array is identified by the heap block, or by the object which contains it and the number of objects which have been constructed in
the same variable.  Pointers into an array which does not exist any more are still there, but using them is undefined, as is leaving
the array, and comparing or subtracting pointers into different arrays.
-/

namespace Makeshift.BufPtr

open Makeshift.Buffer

/-- The array into which a pointer points: none (null pointer), the in-place array of the `gen`-th object in variable `b`, a heap block. -/
inductive Base where
  | null
  | own (b gen : Nat)
  | block (id : Nat)
  deriving DecidableEq, Repr

/-- A pointer. -/
structure Addr where
  base : Base
  off : Nat
  deriving DecidableEq, Repr

/-- The program state: that of the buffers, the number of objects constructed in every variable so far, the pointer variables. -/
structure State where
  st : Buffer.State
  gen : Nat → Nat
  ptrs : Nat → Option Addr

/-- The state before any buffer exists. -/
def State.init : State := ⟨Buffer.State.init, fun _ => 0, fun _ => none⟩

/-- The array which the member `data_` (experimental/detail/buffer.hpp:103, 149, 177, 228) points to. -/
def baseOf (b gen : Nat) : Ptr → Base
  | .null => .null
  | .own => .own b gen
  | .block id => .block id

/-- The cells of an array, if it exists. -/
def State.cells (s : State) : Base → Option (List Cell)
  | .null => some []
  | .own b gen => if s.gen b = gen then (s.st.objs b).map (·.inPlace) else none
  | .block id => s.st.heap.blocks id

/-- Replace the cells of an array. -/
def State.setCells (s : State) (cs : List Cell) : Base → State
  | .null => s
  | .own b _ => { s with st := ⟨s.st.heap, update s.st.objs b ((s.st.objs b).map fun o => { o with inPlace := cs })⟩ }
  | .block id => { s with st := ⟨{ s.st.heap with blocks := update s.st.heap.blocks id (some cs) }, s.st.objs⟩ }

/-- Operations of a program: those on buffers, and `p = b.begin()` (or `b.data()`), `p = b.end()`, `p = q + n`, `*p`, `*p = v`,
`p == q`, `p - q`. -/
inductive PtrOp where
  | buf (op : Op)
  | begin_ (p b : Nat)
  | end_ (p b : Nat)
  | advance (p q : Nat) (n : Int)
  | load (p : Nat)
  | store (p : Nat) (v : Int)
  | equal (p q : Nat)
  | distance (p q : Nat)

/-- The variable in which an operation constructs a buffer. -/
def created : Op → Option Nat
  | .construct b _ _ => some b
  | .constructArray b _ _ => some b
  | .copy b _ => some b
  | _ => none

/-- Count the constructed objects. -/
def bump (gen : Nat → Nat) (op : Op) : Nat → Nat := fun b => if created op = some b then gen b + 1 else gen b

/-- Using a pointer variable without value is undefined, and so is using a pointer into an array which does not exist. -/
def State.withPtr {α : Type} (s : State) (p : Nat) (f : Addr → List Cell → Outcome α) : Outcome α :=
  match s.ptrs p with
  | none => .ub
  | some a =>
    match s.cells a.base with
    | none => .ub
    | some cs => f a cs

/-- Assign to a pointer variable. -/
def State.setPtr (s : State) (p : Nat) (a : Addr) : State := { s with ptrs := update s.ptrs p (some a) }

/-- One operation. -/
def step (limit : Nat) (s : State) : PtrOp → Outcome (State × Resp)
  | .buf op => (Buffer.step limit s.st op).bind fun r => .ok (⟨r.1, bump s.gen op, s.ptrs⟩, r.2)
  | .begin_ p b => s.st.withObj b fun o =>                   -- experimental/detail/buffer.hpp:44-51, 114-121, 136-143, 163-170, 214-221, 259-266
    .ok (s.setPtr p ⟨baseOf b (s.gen b) o.data, 0⟩, .unit)
  | .end_ p b => s.st.withObj b fun o =>                     -- experimental/detail/buffer.hpp:52-59, 122-129
    .ok (s.setPtr p ⟨baseOf b (s.gen b) o.data, o.size⟩, .unit)
  | .advance p q n => s.withPtr q fun a cs =>
    if 0 ≤ (a.off : Int) + n ∧ (a.off : Int) + n ≤ cs.length then .ok (s.setPtr p ⟨a.base, ((a.off : Int) + n).toNat⟩, .unit) else .ub
  | .load p => s.withPtr p fun a cs =>
    match cs[a.off]? with
    | some (.val v) => .ok (s, .num v)
    | _ => .ub
  | .store p v => s.withPtr p fun a cs =>
    if a.off < cs.length then .ok (s.setCells (cs.set a.off (.val v)) a.base, .unit) else .ub
  | .equal p q => s.withPtr p fun a _ => s.withPtr q fun a' _ =>
    if a.base = a'.base then .ok (s, .num (if a.off = a'.off then 1 else 0)) else .ub
  | .distance p q => s.withPtr p fun a _ => s.withPtr q fun a' _ =>
    if a.base = a'.base then .ok (s, .num ((a.off : Int) - a'.off)) else .ub

/-- A program, which may let its next operation depend on the responses so far. -/
inductive Prog (β : Type) where
  | ret (x : β)
  | op (o : PtrOp) (k : Resp → Prog β)

/-- One program after the other. -/
def Prog.bind {β γ : Type} : Prog β → (β → Prog γ) → Prog γ
  | .ret x, f => f x
  | .op o k, f => .op o fun r => (k r).bind f

/-- Run a program. -/
def run {β : Type} (limit : Nat) (s : State) : Prog β → Outcome (State × β)
  | .ret x => .ok (s, x)
  | .op o k => (step limit s o).bind fun r => run limit r.1 (k r.2)

/-- Whether the operation compiles. -/
def PtrOp.wellFormed (tyOf : Nat → Ty) : PtrOp → Prop
  | .buf op => op.wellFormed tyOf
  | _ => True

/-- Whether the program compiles. -/
def Prog.wellFormed {β : Type} (tyOf : Nat → Ty) : Prog β → Prop
  | .ret _ => True
  | .op o k => o.wellFormed tyOf ∧ ∀ r, (k r).wellFormed tyOf

end Makeshift.BufPtr
