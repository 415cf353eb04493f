import Verif.Spec.Buffer

/-!
# What a program gets from buffers whose checks are switched off

A buffer variable holds a number, which `size()` returns, and a sequence of cells, which can be accessed; without checks the two need not
agree.  There are no pointers and no heap.
-/

namespace Makeshift.Spec.RawBuf

open Makeshift.Buffer (Ty Cell Op Resp)

/-- A buffer: its type, what `size()` returns, and the accessible cells. -/
structure Raw where
  ty : Ty
  size : Nat
  cells : List Cell
  deriving DecidableEq, Repr

/-- Whether the elements always are part of the buffer object. -/
def inObject : Ty → Bool
  | .buffer none _ => false
  | .buffer (some k) m => decide (m < 0) || (decide (0 < m) && decide ((k : Int) ≤ m))
  | .fixed _ _ => true

/-- `n` cells from the heap. -/
def allocated (limit : Nat) (ty : Ty) (n : Nat) : Outcome Raw :=
  if limit < n then .throw (str "bad_alloc") else .ok ⟨ty, n, List.replicate n (.val 0)⟩

/-- A new buffer when `n` elements are asked for. -/
def make (limit : Nat) (ty : Ty) (n : Nat) : Outcome Raw :=
  match ty with
  | .buffer none m => if n ≤ m.toNat then .ok ⟨ty, n, List.replicate m.toNat .uninit⟩ else allocated limit ty n
  | .buffer (some k) _ => if inObject ty then .ok ⟨ty, k, List.replicate k (.val 0)⟩ else allocated limit ty n
  | .fixed none m => .ok ⟨ty, n, List.replicate m (.val 0)⟩
  | .fixed (some k) _ => .ok ⟨ty, k, List.replicate k (.val 0)⟩

/-- The first cells get these values. -/
def fill (vals : List Int) (r : Raw) : Outcome Raw :=
  if vals.length ≤ r.cells.length then .ok { r with cells := vals.map .val ++ r.cells.drop vals.length } else .ub

/-- The values of the first `n` cells, if they exist and have values. -/
def firstValues : Nat → List Cell → Option (List Int)
  | 0, _ => some []
  | n + 1, .val v :: cells => (firstValues n cells).map (v :: ·)
  | _ + 1, _ => none

/-- A copy. -/
def copied (limit : Nat) (r : Raw) : Outcome Raw :=
  if inObject r.ty then .ok r
  else (make limit r.ty r.size).bind fun t =>
    match firstValues r.size r.cells with
    | some vals => fill vals t
    | none => .ub

/-- Buffers by variable. -/
abbrev Store := Nat → Option Raw

def set (s : Store) (b : Nat) (x : Option Raw) : Store := fun j => if j = b then x else s j

/-- A buffer used has to exist. -/
def use {α : Type} (s : Store) (b : Nat) (f : Raw → Outcome α) : Outcome α :=
  match s b with
  | some r => f r
  | none => .ub

/-- A buffer created must not exist. -/
def create (s : Store) (b : Nat) (x : Outcome Raw) : Outcome (Store × Resp) :=
  match s b with
  | some _ => .ub
  | none => x.bind fun r => .ok (set s b (some r), .unit)

def step (limit : Nat) (s : Store) : Op → Outcome (Store × Resp)
  | .construct b ty e => create s b (make limit ty (Buf.request e))
  | .constructArray b ty vals => create s b ((make limit ty vals.length).bind (fill vals))
  | .copy b src => use s src fun r => create s b (copied limit r)
  | .assignArray b vals => use s b fun r => (fill vals r).bind fun r => .ok (set s b (some r), .unit)
  | .copyAssign b src => use s b fun _ => use s src fun r => .ok (set s b (some r), .unit)
  | .size b => use s b fun r => .ok (s, .num r.size)
  | .empty b => use s b fun r => .ok (s, .num (if r.size = 0 then 1 else 0))
  | .read b i => use s b fun r => (Buf.get r.cells i).bind fun v => .ok (s, .num v)
  | .write b i v => use s b fun r =>
    if i < r.cells.length then .ok (set s b (some { r with cells := r.cells.set i (.val v) }), .unit) else .ub
  | .front b => use s b fun r => (Buf.get r.cells 0).bind fun v => .ok (s, .num v)
  | .back b => use s b fun r => if r.size = 0 then .ub else (Buf.get r.cells (r.size - 1)).bind fun v => .ok (s, .num v)
  | .destroy b => use s b fun _ => .ok (set s b none, .unit)

def run (limit : Nat) : Store → List Op → Outcome (Store × List Resp)
  | s, [] => .ok (s, [])
  | s, op :: ops => (step limit s op).bind fun r => (run limit r.1 ops).bind fun rs => .ok (rs.1, r.2 :: rs.2)

/-- No buffers. -/
def none : Store := fun _ => .none

end Makeshift.Spec.RawBuf
