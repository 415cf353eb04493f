import Mathlib.Data.List.Forall2
import Verif.Model.Borrowed

/-!
# Specification for C134: where the rows of a range are

Which places of the storage form a row of a range object, and what is read there; nothing of this refers to iterators.
-/

namespace Makeshift.Spec

open Makeshift.Borrowed

/-- A component of a row: a place in the storage, or a number. -/
inductive Cell where
  | place (block : Nat) (pos : Int)
  | num (i : Int)

/-- The component of row `k` for an argument of `range_zip()`. -/
inductive ArgCell {α : Type} (s : State α) (k : Int) : ZArg → Cell → Prop
  | vector {o b} : s.objs o = some (.vector b) → ArgCell s k (.ref o) (.place b k)
  | list {o b} : s.objs o = some (.list b) → ArgCell s k (.ref o) (.place b k)
  | span {o a len} : s.objs o = some (.span a len) → ArgCell s k (.ref o) (.place a.block (a.pos + k))
  | index : ArgCell s k .index (.num k)
  | heldSpan {a len} : ArgCell s k (.span a len) (.place a.block (a.pos + k))
  | heldArray {b} : ArgCell s k (.array b) (.place b k)

/-- Row `k` of the range object `o`. -/
inductive RowOf {α : Type} (s : State α) (o : Nat) (k : Int) : List Cell → Prop
  | range {first last} : s.objs o = some (.range first last) → RowOf s o k [.place first.block (first.pos + k)]
  | indexRange {first last} : s.objs o = some (.indexRange first last) → RowOf s o k [.num (first + k)]
  | zip {n args cells} : s.objs o = some (.zip n args) → List.Forall₂ (ArgCell s k) args cells → RowOf s o k cells

/-- Number of rows of the range object `o`. -/
inductive Extent {α : Type} (s : State α) (o : Nat) : Nat → Prop
  | range {first last n} : s.objs o = some (.range first last) → last.block = first.block → last.pos = first.pos + Int.ofNat n → Extent s o n
  | indexRange {first last n} : s.objs o = some (.indexRange first last) → last = first + Int.ofNat n → Extent s o n
  | zip {n args} : s.objs o = some (.zip n args) → Extent s o n

/-- What is read at a place; nothing if there is no element. -/
inductive CellIs {α : Type} (mem : Nat → Option (List α)) : Cell → Val α → Prop
  | place {b p l i x} : mem b = some l → p = Int.ofNat i → l[i]? = some x → CellIs mem (.place b p) (.elem x)
  | num {i} : CellIs mem (.num i) (.index i)

/-- What is read at the places of a row. -/
def Reads {α : Type} (mem : Nat → Option (List α)) : List Cell → List (Val α) → Prop := List.Forall₂ (CellIs mem)

/-- By how much a program moves an iterator variable. -/
def moved {α : Type} (it : Nat) : List (Cmd α) → Int
  | [] => 0
  | .advance it' d :: cs => (if it' = it then d else 0) + moved it cs
  | _ :: cs => moved it cs

/-- Whether a statement gives the iterator variable another value than by moving it. -/
def Sets {α : Type} (it : Nat) : Cmd α → Prop
  | .begin_ it' _ => it' = it
  | .end_ it' _ => it' = it
  | .bind it' _ => it' = it
  | .copy it' _ => it' = it
  | _ => False

/-- Objects whose destruction does not destroy elements. -/
def IsView : Obj → Prop
  | .span _ _ => True
  | .range _ _ => True
  | .indexRange _ _ => True
  | .zip _ args => ∀ b, ZArg.array b ∉ args
  | _ => False

/-- The size of an argument at the time of the call. -/
inductive SizeIs {α : Type} (s : State α) : ZSrc α → Nat → Prop
  | vector {o b l} : s.objs o = some (.vector b) → s.mem b = some l → SizeIs s (.lvalue o) l.length
  | list {o b l} : s.objs o = some (.list b) → s.mem b = some l → SizeIs s (.lvalue o) l.length
  | lspan {o a len} : s.objs o = some (.span a len) → SizeIs s (.lvalue o) len
  | span {o off len} : SizeIs s (.span o off len) len
  | array {elems} : SizeIs s (.array elems) elems.length

end Makeshift.Spec
