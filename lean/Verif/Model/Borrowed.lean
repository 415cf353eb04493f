import Verif.Outcome

/-!
# Lifetimes of ranges and of their iterators

Model of `range`, `index_range` (ranges.hpp:29-49, 90-117, 131-136; detail/ranges.hpp:24-64), of the zip ranges (detail/algorithm.hpp:94-168, 210-216, 290-324,
372-400, 441-457) and of the leaves of their iterators (detail/zip.hpp:282-303, 353-426), in programs which keep ranges and iterators while the objects they were made
from change or are destroyed.  Elements live in numbered blocks of storage; objects and iterator variables are numbered, too.  A name is used for one object only.

Simplifications: the ranges that can be zipped are vectors, lists, spans, constant arrays and `range_index`, i.e. leaves in the modes `index`, `iterator` and
`range_index` (not `iterator_pair`); the zip range is the one of `range_zip()`, whose end is an iterator; iterators of `range` are pointers or vector iterators.
Programs which are not C++ (a name is used for two objects, `begin()` is called on something that has none) have the result `.ub`.
-/

namespace Makeshift.Borrowed

/-- A position in a block of storage: what a pointer or an iterator refers to. -/
structure Addr where
  block : Nat
  pos : Int
  deriving DecidableEq, Repr

/-- What `*it` consists of: elements, and the index if `range_index` is among the zipped ranges. -/
inductive Val (α : Type) where
  | elem (x : α)
  | index (i : Int)
  deriving DecidableEq, Repr

/-- State of a leaf of a zip iterator: `data` (detail/zip.hpp:394), `pos` (360), nothing (409-426). -/
inductive Leaf where
  | data (a : Addr)
  | pos (a : Addr)
  | index
  deriving DecidableEq, Repr

/-- An iterator variable: pointer, `index_iterator`, zip iterator with its position `i_` (detail/algorithm.hpp:101), or a reference which is bound to the
member `first_` of a `range` object. -/
inductive Iter where
  | ptr (a : Addr)
  | idx (i : Int)
  | zip (i : Int) (leaves : List Leaf)
  | bound (o : Nat)
  deriving DecidableEq, Repr

/-- An element of `ranges_`, detail/algorithm.hpp:381: a reference for an lvalue argument, otherwise a copy of the argument.  The elements of a `std::array` are
part of the object. -/
inductive ZArg where
  | ref (o : Nat)
  | index
  | span (a : Addr) (len : Nat)
  | array (block : Nat)
  deriving DecidableEq, Repr

/-- Objects.  A `range` stores its iterators (detail/ranges.hpp:27-28, 43-44), an `index_range` two numbers (ranges.hpp:93-94), a zip range the common size
and the arguments (detail/algorithm.hpp:295, 381). -/
inductive Obj where
  | vector (block : Nat)
  | list (block : Nat)
  | span (a : Addr) (len : Nat)
  | range (first last : Addr)
  | indexRange (first last : Int)
  | zip (n : Nat) (args : List ZArg)
  | destroyed
  deriving DecidableEq, Repr

/-- Storage, objects, iterator variables; blocks from `next` on have not been used. -/
structure State (α : Type) where
  mem : Nat → Option (List α)
  objs : Nat → Option Obj
  its : Nat → Option Iter
  next : Nat

/-- Change a function at one argument (auxiliary definition). -/
def upd {β : Type} (f : Nat → β) (i : Nat) (x : β) : Nat → β := fun j => if j = i then x else f j

/-- Read what is stored at a position; undefined if there is no element. -/
def load {α : Type} (mem : Nat → Option (List α)) (a : Addr) : Outcome α :=
  match mem a.block with
  | none => .ub
  | some l => if a.pos < 0 then .ub else
    match l[a.pos.toNat]? with
    | none => .ub
    | some x => .ok x

/-- Move a pointer or iterator; undefined if it leaves the elements (the end is allowed) or if these do not exist any more. -/
def move {α : Type} (mem : Nat → Option (List α)) (a : Addr) (d : Int) : Outcome Addr :=
  match mem a.block with
  | none => .ub
  | some l => if 0 ≤ a.pos + d ∧ a.pos + d ≤ l.length then .ok ⟨a.block, a.pos + d⟩ else .ub

/-- `_deref(i)`, detail/zip.hpp:378-381, 400-403, 418-421. -/
def Leaf.deref {α : Type} (mem : Nat → Option (List α)) (i : Int) : Leaf → Outcome (Val α)
  | .data a => (load mem ⟨a.block, a.pos + i⟩).bind fun x => .ok (.elem x)
  | .pos a => (load mem a).bind fun x => .ok (.elem x)
  | .index => .ok (.index i)

/-- `_advance(d)`, detail/zip.hpp:374-377 and the default 292-294. -/
def Leaf.advance {α : Type} (mem : Nat → Option (List α)) (d : Int) : Leaf → Outcome Leaf
  | .data a => .ok (.data a)
  | .pos a => (move mem a d).bind fun a' => .ok (.pos a')
  | .index => .ok .index

/-- Dereference all leaves, detail/algorithm.hpp:146-149. -/
def derefLeaves {α : Type} (mem : Nat → Option (List α)) (i : Int) : List Leaf → Outcome (List (Val α))
  | [] => .ok []
  | l :: ls => (l.deref mem i).bind fun v => (derefLeaves mem i ls).bind fun vs => .ok (v :: vs)

/-- Advance all leaves, detail/algorithm.hpp:210-216. -/
def advanceLeaves {α : Type} (mem : Nat → Option (List α)) (d : Int) : List Leaf → Outcome (List Leaf)
  | [] => .ok []
  | l :: ls => (l.advance mem d).bind fun l' => (advanceLeaves mem d ls).bind fun ls' => .ok (l' :: ls')

/-- `*it`. A reference to the member of a `range` object can be used while the object exists. -/
def deref {α : Type} (s : State α) : Iter → Outcome (List (Val α))
  | .ptr a => (load s.mem a).bind fun x => .ok [.elem x]
  | .idx i => .ok [.index i]
  | .zip i leaves => derefLeaves s.mem i leaves
  | .bound o =>
    match s.objs o with
    | some (.range first _) => (load s.mem first).bind fun x => .ok [.elem x]
    | _ => .ub

/-- `it += d`; does not compile for a reference to const. -/
def advance {α : Type} (s : State α) (d : Int) : Iter → Outcome Iter
  | .ptr a => (move s.mem a d).bind fun a' => .ok (.ptr a')
  | .idx i => .ok (.idx (i + d))
  | .zip i leaves => (advanceLeaves s.mem d leaves).bind fun ls => .ok (.zip (i + d) ls)
  | .bound _ => .ub

/-- The leaf made for an argument, detail/zip.hpp:362-365, 396-399 and 415-417 (`begin()`, `data()`); undefined if the argument is a reference to an object which does not
exist any more. -/
def leafOf {α : Type} (s : State α) : ZArg → Outcome Leaf
  | .ref o =>
    match s.objs o with
    | some (.vector b) => .ok (.data ⟨b, 0⟩)
    | some (.list b) => .ok (.pos ⟨b, 0⟩)
    | some (.span a _) => .ok (.data a)
    | _ => .ub
  | .index => .ok .index
  | .span a _ => .ok (.data a)
  | .array b => .ok (.data ⟨b, 0⟩)

/-- The leaves of an iterator, detail/algorithm.hpp:129-136. -/
def leavesOf {α : Type} (s : State α) : List ZArg → Outcome (List Leaf)
  | [] => .ok []
  | a :: as => (leafOf s a).bind fun l => (leavesOf s as).bind fun ls => .ok (l :: ls)

/-- `begin()`: detail/ranges.hpp:36, 52; ranges.hpp:107-111; detail/algorithm.hpp:390-394. The result is copied. -/
def beginOf {α : Type} (s : State α) (o : Nat) : Outcome Iter :=
  match s.objs o with
  | some (.range first _) => .ok (.ptr first)
  | some (.indexRange first _) => .ok (.idx first)
  | some (.zip _ args) => (leavesOf s args).bind fun ls => .ok (.zip 0 ls)
  | _ => .ub

/-- `end()`: detail/ranges.hpp:37, 53; ranges.hpp:112-116; detail/algorithm.hpp:395-399, 452-456. -/
def endOf {α : Type} (s : State α) (o : Nat) : Outcome Iter :=
  match s.objs o with
  | some (.range _ last) => .ok (.ptr last)
  | some (.indexRange _ last) => .ok (.idx last)
  | some (.zip n args) => (leavesOf s args).bind fun ls => .ok (.zip n ls)
  | _ => .ub

/-- `auto const& it = o.begin();`: the function returns a reference for a `range`, detail/ranges.hpp:36, 52, and an object whose lifetime is extended for the
others. -/
def bindOf {α : Type} (s : State α) (o : Nat) : Outcome Iter :=
  match s.objs o with
  | some (.range _ _) => .ok (.bound o)
  | _ => beginOf s o

/-- `it == end`; zip iterators are compared by position, detail/algorithm.hpp:165-168. -/
def same : Iter → Iter → Bool
  | .ptr a, .ptr b => a = b
  | .idx i, .idx j => i = j
  | .zip i _, .zip j _ => i = j
  | _, _ => false

/-- A range-based `for` loop which looks at the elements. -/
def loop {α : Type} (s : State α) (e : Iter) : Nat → Iter → Outcome (List (List (Val α)))
  | 0, _ => .ub
  | fuel + 1, it =>
    if same it e then .ok [] else
      (deref s it).bind fun row => (advance s 1 it).bind fun it' => (loop s e fuel it').bind fun rows => .ok (row :: rows)

/-- Number of steps from one iterator to another; a loop which starts behind the end runs on until behaviour is undefined (auxiliary definition). -/
def steps : Iter → Iter → Nat
  | .ptr a, .ptr b => (b.pos - a.pos).toNat
  | .idx i, .idx j => (j - i).toNat
  | .zip i _, .zip j _ => (j - i).toNat
  | _, _ => 0

/-- An argument of `range_zip()`: an lvalue, `range_index`, a constant rvalue of a span or array type. -/
inductive ZSrc (α : Type) where
  | lvalue (o : Nat)
  | index
  | span (o : Nat) (off len : Nat)
  | array (elems : List α)

/-- The elements of `ranges_` and the sizes of the arguments (detail/zip.hpp:540-568); an array gets a new block. -/
def makeArg {α : Type} (s : State α) : ZSrc α → Outcome (State α × ZArg × Option Nat)
  | .lvalue o =>
    match s.objs o with
    | some (.vector b) | some (.list b) =>
      match s.mem b with
      | some l => .ok (s, .ref o, some l.length)
      | none => .ub
    | some (.span _ len) => .ok (s, .ref o, some len)
    | _ => .ub
  | .index => .ok (s, .index, none)
  | .span o off len =>
    match s.objs o with
    | some (.vector b) =>
      match s.mem b with
      | some l => (Outcome.expects (off + len ≤ l.length)).bind fun _ => .ok (s, .span ⟨b, off⟩ len, some len)
      | none => .ub
    | _ => .ub
  | .array elems => .ok ({ s with mem := upd s.mem s.next (some elems), next := s.next + 1 }, .array s.next, some elems.length)

/-- All arguments from left to right. -/
def makeArgs {α : Type} (s : State α) : List (ZSrc α) → Outcome (State α × List ZArg × List Nat)
  | [] => .ok (s, [], [])
  | a :: as =>
    (makeArg s a).bind fun r => (makeArgs r.1 as).bind fun rs => .ok (rs.1, r.2.1 :: rs.2.1, r.2.2.toList ++ rs.2.2)

/-- Merge the sizes, detail/zip.hpp:467-538, when all arguments but `range_index` have a size; at least one is needed (static assertion in `range_zip()`). Arrays of
different sizes are rejected at compile time. -/
def commonSize : List Nat → Outcome Nat
  | [] => .ub
  | n :: ns => (Outcome.expects (ns.all (· = n))).bind fun _ => .ok n

/-- Copy of `ranges_`: references stay references, the elements of an array are copied. -/
def copyArgs {α : Type} (s : State α) : List ZArg → Outcome (State α × List ZArg)
  | [] => .ok (s, [])
  | .array b :: as =>
    match s.mem b with
    | some l =>
      (copyArgs { s with mem := upd s.mem s.next (some l), next := s.next + 1 } as).bind fun r => .ok (r.1, .array s.next :: r.2)
    | none => .ub
  | a :: as => (copyArgs s as).bind fun r => .ok (r.1, a :: r.2)

/-- The storage which is released with an object. -/
def owned : Obj → List Nat
  | .vector b => [b]
  | .list b => [b]
  | .zip _ args => args.filterMap fun a => match a with | .array b => some b | _ => none
  | _ => []

/-- Give a new object a name. -/
def create {α : Type} (s : State α) (o : Nat) (x : Obj) : Outcome (State α) :=
  match s.objs o with
  | none => .ok { s with objs := upd s.objs o (some x) }
  | some _ => .ub

/-- Statements of a program. `assign` replaces the contents of a vector within its capacity, `realloc` is a reallocation (as for `reserve()`). -/
inductive Cmd (α : Type) where
  | vector (o : Nat) (elems : List α)
  | list (o : Nat) (elems : List α)
  | set (o : Nat) (i : Nat) (x : α)
  | assign (o : Nat) (elems : List α)
  | realloc (o : Nat)
  | span (o v off len : Nat)
  | range (o v i j : Nat)
  | indexRange (o : Nat) (first last : Int)
  | zip (o : Nat) (args : List (ZSrc α))
  | copyZip (o z : Nat)
  | destroy (o : Nat)
  | begin_ (it o : Nat)
  | end_ (it o : Nat)
  | bind (it o : Nat)
  | copy (it it' : Nat)
  | advance (it : Nat) (d : Int)
  | deref (it : Nat)
  | each (o : Nat)

/-- Execute a statement: new state and what the program gets to see. -/
def exec {α : Type} (s : State α) : Cmd α → Outcome (State α × List (List (Val α)))
  | .vector o elems =>
    (create { s with mem := upd s.mem s.next (some elems), next := s.next + 1 } o (.vector s.next)).bind fun s' => .ok (s', [])
  | .list o elems =>
    (create { s with mem := upd s.mem s.next (some elems), next := s.next + 1 } o (.list s.next)).bind fun s' => .ok (s', [])
  | .set o i x =>
    match s.objs o with
    | some (.vector b) | some (.list b) =>
      match s.mem b with
      | some l => if i < l.length then .ok ({ s with mem := upd s.mem b (some (l.set i x)) }, []) else .ub
      | none => .ub
    | _ => .ub
  | .assign o elems =>
    match s.objs o with
    | some (.vector b) => .ok ({ s with mem := upd s.mem b (some elems) }, [])
    | _ => .ub
  | .realloc o =>
    match s.objs o with
    | some (.vector b) =>
      .ok ({ s with mem := upd (upd s.mem s.next (s.mem b)) b none, objs := upd s.objs o (some (.vector s.next)), next := s.next + 1 }, [])
    | _ => .ub
  | .span o v off len =>
    match s.objs v with
    | some (.vector b) =>
      match s.mem b with
      | some l =>
        (Outcome.expects (off + len ≤ l.length)).bind fun _ => (create s o (.span ⟨b, off⟩ len)).bind fun s' => .ok (s', [])
      | none => .ub
    | _ => .ub
  | .range o v i j =>
    match s.objs v with
    | some (.vector b) =>
      (move s.mem ⟨b, 0⟩ i).bind fun first => (move s.mem ⟨b, 0⟩ j).bind fun last =>
        (create s o (.range first last)).bind fun s' => .ok (s', [])
    | _ => .ub
  | .indexRange o first last =>
    (Outcome.expects (first ≤ last)).bind fun _ => (create s o (.indexRange first last)).bind fun s' => .ok (s', [])
  | .zip o args =>
    (makeArgs s args).bind fun r => (commonSize r.2.2).bind fun n =>
      (create r.1 o (.zip n r.2.1)).bind fun s' => .ok (s', [])
  | .copyZip o z =>
    match s.objs z with
    | some (.zip n args) =>
      (copyArgs s args).bind fun r => (create r.1 o (.zip n r.2)).bind fun s' => .ok (s', [])
    | _ => .ub
  | .destroy o =>
    match s.objs o with
    | none | some .destroyed => .ub
    | some x => .ok ({ s with mem := fun b => if b ∈ owned x then none else s.mem b, objs := upd s.objs o (some .destroyed) }, [])
  | .begin_ it o => (beginOf s o).bind fun i => .ok ({ s with its := upd s.its it (some i) }, [])
  | .end_ it o => (endOf s o).bind fun i => .ok ({ s with its := upd s.its it (some i) }, [])
  | .bind it o => (bindOf s o).bind fun i => .ok ({ s with its := upd s.its it (some i) }, [])
  | .copy it it' =>
    match s.its it' with
    | some (.bound o) => (beginOf s o).bind fun i => .ok ({ s with its := upd s.its it (some i) }, [])
    | some i => .ok ({ s with its := upd s.its it (some i) }, [])
    | none => .ub
  | .advance it d =>
    match s.its it with
    | some i => (advance s d i).bind fun i' => .ok ({ s with its := upd s.its it (some i') }, [])
    | none => .ub
  | .deref it =>
    match s.its it with
    | some i => (deref s i).bind fun row => .ok (s, [row])
    | none => .ub
  | .each o =>
    (beginOf s o).bind fun b => (endOf s o).bind fun e => (loop s e (steps b e + 1) b).bind fun rows => .ok (s, rows)

/-- Execute statements one after the other. -/
def run {α : Type} (s : State α) : List (Cmd α) → Outcome (State α × List (List (Val α)))
  | [] => .ok (s, [])
  | c :: cs => (exec s c).bind fun r => (run r.1 cs).bind fun r' => .ok (r'.1, r.2 ++ r'.2)

/-- At the start of the program there are no objects. -/
def start {α : Type} : State α := ⟨fun _ => none, fun _ => none, fun _ => none, 0⟩

end Makeshift.Borrowed
