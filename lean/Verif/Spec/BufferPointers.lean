import Verif.Model.BufferPointers
import Verif.Spec.Buffer

/-!
# What a program may expect of pointers into buffers

A pointer designates a position of a buffer object; there is no storage.  Using a pointer to a position of a buffer which has been
destroyed is undefined, even if another one has been constructed in the same variable; so is leaving the buffer's elements, and
comparing or subtracting pointers into different buffers.
-/

namespace Makeshift.Spec.BufPtr

open Makeshift.Buffer (Ty Cell Op Resp)
open Makeshift.BufPtr (PtrOp Prog)

/-- Position `off` of the `gen`-th buffer which has been constructed in variable `b`. -/
structure Pos where
  b : Nat
  gen : Nat
  off : Nat
  deriving DecidableEq, Repr

structure State where
  bufs : Buf.Store
  gen : Nat → Nat
  ptrs : Nat → Option Pos

def State.init : State := ⟨Buf.none, fun _ => 0, fun _ => none⟩

/-- The variable, if any, in which an operation constructs a buffer. -/
def constructs : Op → Nat → Bool
  | .construct b _ _, j => b == j
  | .constructArray b _ _, j => b == j
  | .copy b _, j => b == j
  | _, _ => false

/-- A pointer which is used has to have been set, and its buffer must still exist. -/
def State.at_ {α : Type} (s : State) (p : Nat) (f : Pos → List Cell → Outcome α) : Outcome α :=
  match s.ptrs p with
  | none => .ub
  | some x => if s.gen x.b = x.gen then Buf.use s.bufs x.b fun _ elems => f x elems else .ub

def State.point (s : State) (p : Nat) (x : Pos) : State := { s with ptrs := fun j => if j = p then some x else s.ptrs j }

def step (limit : Nat) (s : State) : PtrOp → Outcome (State × Resp)
  | .buf op => (Buf.step limit s.bufs op).bind fun r =>
    .ok (⟨r.1, fun j => s.gen j + (if constructs op j then 1 else 0), s.ptrs⟩, r.2)
  | .begin_ p b => Buf.use s.bufs b fun _ _ => .ok (s.point p ⟨b, s.gen b, 0⟩, .unit)
  | .end_ p b => Buf.use s.bufs b fun _ elems => .ok (s.point p ⟨b, s.gen b, elems.length⟩, .unit)
  | .advance p q n => s.at_ q fun x elems =>
    if 0 ≤ (x.off : Int) + n ∧ (x.off : Int) + n ≤ elems.length then
      .ok (s.point p ⟨x.b, x.gen, ((x.off : Int) + n).toNat⟩, .unit) else .ub
  | .load p => s.at_ p fun x elems => (Buf.get elems x.off).bind fun v => .ok (s, .num v)
  | .store p v => s.at_ p fun x elems =>
    if x.off < elems.length then
      (Buf.step limit s.bufs (.write x.b x.off v)).bind fun r => .ok (⟨r.1, s.gen, s.ptrs⟩, .unit) else .ub
  | .equal p q => s.at_ p fun x _ => s.at_ q fun y _ =>
    if x.b = y.b then .ok (s, .num (if x.off = y.off then 1 else 0)) else .ub
  | .distance p q => s.at_ p fun x _ => s.at_ q fun y _ =>
    if x.b = y.b then .ok (s, .num ((x.off : Int) - y.off)) else .ub

def run {β : Type} (limit : Nat) (s : State) : Prog β → Outcome (State × β)
  | .ret x => .ok (s, x)
  | .op o k => (step limit s o).bind fun r => run limit r.1 (k r.2)

/-- The pointer variable to which an operation assigns. -/
def assigns : PtrOp → Nat → Prop
  | .begin_ p _, j => p = j
  | .end_ p _, j => p = j
  | .advance p _ _, j => p = j
  | _, _ => False

/-- A program which assigns to pointer variable `p` nowhere. -/
def KeepsPointer {β : Type} (p : Nat) : Prog β → Prop
  | .ret _ => True
  | .op o k => ¬ assigns o p ∧ ∀ r, KeepsPointer p (k r)

/-- A program which destroys buffer `b` nowhere. -/
def KeepsBuffer {β : Type} (b : Nat) : Prog β → Prop
  | .ret _ => True
  | .op o k => o ≠ .buf (.destroy b) ∧ ∀ r, KeepsBuffer b (k r)

end Makeshift.Spec.BufPtr
