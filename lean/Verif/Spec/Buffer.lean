import Verif.Model.Buffer

/-!
# What a program may expect of buffers

A buffer variable holds a sequence of elements; there is no storage.  The operations, types and responses are those of the API
(`Verif.Model.Buffer`).  `ub` marks what the caller must not do: use a buffer which does not exist, index out of range, use an element
which has no value yet - and construct a `fixed_buffer` from too long an array, which the library does not check.
-/

namespace Makeshift.Spec.Buf

open Makeshift.Buffer (Ty Cell Op Resp)

/-- The number of elements asked for by an extent argument: a negative one is converted to an unsigned 64-bit number. -/
def request (e : Int) : Nat := if e < 0 then (2 ^ 64 + e).toNat else e.toNat

/-- Whether `n` elements are put on the heap.  (With a static extent `k` and a maximum of `m`: never if `m` is negative, and
otherwise if `k > m`, the number of elements which is asked for notwithstanding.) -/
def allocates : Ty → Nat → Prop
  | .buffer none m, n => n > m.toNat
  | .buffer (some k) m, n => 0 < n ∧ 0 ≤ m ∧ (m = 0 ∨ m < k)
  | .fixed _ _, _ => False

instance (ty : Ty) (n : Nat) : Decidable (allocates ty n) := by
  unfold allocates; split <;> infer_instance

/-- Whether an extent argument is acceptable. -/
def extentOk : Ty → Int → Prop
  | .buffer none _, e => 0 ≤ e
  | .buffer (some k) _, e => e = k
  | .fixed none m, e => 0 ≤ e ∧ e ≤ m
  | .fixed (some k) _, e => e = k

instance (ty : Ty) (e : Int) : Decidable (extentOk ty e) := by
  unfold extentOk; split <;> infer_instance

/-- Whether elements are left without a value: dynamic extent and in-place storage in a `buffer`. -/
def leftUninit : Ty → Nat → Prop
  | .buffer none m, n => n ≤ m.toNat
  | _, _ => False

instance (ty : Ty) (n : Nat) : Decidable (leftUninit ty n) := by
  unfold leftUninit; split <;> infer_instance

/-- The elements of a buffer constructed from an extent. -/
def fresh (limit : Nat) (ty : Ty) (e : Int) : Outcome (List Cell) :=
  if allocates ty (request e) ∧ limit < request e then .throw (str "bad_alloc")
  else if ¬ extentOk ty e then .failFast
  else .ok (List.replicate e.toNat (if leftUninit ty e.toNat then .uninit else .val 0))

/-- The elements of a buffer constructed from an array. -/
def fromArray (limit : Nat) (ty : Ty) (vals : List Int) : Outcome (List Cell) :=
  if allocates ty vals.length ∧ limit < vals.length then .throw (str "bad_alloc")
  else match ty with
    | .fixed none m => if vals.length ≤ m then .ok (vals.map .val) else .ub
    | _ => .ok (vals.map .val)

/-- The elements of a copy. -/
def copied (limit : Nat) (ty : Ty) (elems : List Cell) : Outcome (List Cell) :=
  if allocates ty elems.length ∧ limit < elems.length then .throw (str "bad_alloc")
  else if Cell.uninit ∈ elems then .ub
  else .ok elems

/-- Buffers by variable: type and elements. -/
abbrev Store := Nat → Option (Ty × List Cell)

def set (s : Store) (b : Nat) (x : Option (Ty × List Cell)) : Store := fun j => if j = b then x else s j

/-- The element at an index has to exist and to have a value. -/
def get (elems : List Cell) (i : Nat) : Outcome Int :=
  match elems[i]? with
  | some (.val v) => .ok v
  | _ => .ub

/-- A buffer used has to exist. -/
def use {α : Type} (s : Store) (b : Nat) (f : Ty → List Cell → Outcome α) : Outcome α :=
  match s b with
  | some (ty, elems) => f ty elems
  | none => .ub

/-- A buffer created must not exist. -/
def create (s : Store) (b : Nat) (ty : Ty) (x : Outcome (List Cell)) : Outcome (Store × Resp) :=
  match s b with
  | some _ => .ub
  | none => x.bind fun elems => .ok (set s b (some (ty, elems)), .unit)

def step (limit : Nat) (s : Store) : Op → Outcome (Store × Resp)
  | .construct b ty e => create s b ty (fresh limit ty e)
  | .constructArray b ty vals => create s b ty (fromArray limit ty vals)
  | .copy b src => use s src fun ty elems => create s b ty (copied limit ty elems)
  | .assignArray b vals => use s b fun ty elems =>
    if vals.length = elems.length then .ok (set s b (some (ty, vals.map .val)), .unit) else .failFast
  | .copyAssign b src => use s b fun _ _ => use s src fun ty elems => .ok (set s b (some (ty, elems)), .unit)
  | .size b => use s b fun _ elems => .ok (s, .num elems.length)
  | .empty b => use s b fun _ elems => .ok (s, .num (if elems = [] then 1 else 0))
  | .read b i => use s b fun _ elems => (get elems i).bind fun v => .ok (s, .num v)
  | .write b i v => use s b fun ty elems =>
    if i < elems.length then .ok (set s b (some (ty, elems.set i (.val v))), .unit) else .ub
  | .front b => use s b fun _ elems =>
    if elems = [] then .failFast else (get elems 0).bind fun v => .ok (s, .num v)
  | .back b => use s b fun _ elems =>
    if elems = [] then .failFast else (get elems (elems.length - 1)).bind fun v => .ok (s, .num v)
  | .destroy b => use s b fun _ _ => .ok (set s b none, .unit)

def run (limit : Nat) : Store → List Op → Outcome (Store × List Resp)
  | s, [] => .ok (s, [])
  | s, op :: ops => (step limit s op).bind fun r => (run limit r.1 ops).bind fun rs => .ok (rs.1, r.2 :: rs.2)

/-- No buffers. -/
def none : Store := fun _ => .none

end Makeshift.Spec.Buf
