/-!
# `overload`

Model of `functional.hpp` lines 30-37: a class which inherits from all its template arguments and makes their call operators visible.

Types are identified by numbers.  Overload resolution for a given list of arguments is given by the viable call operators and the order
of better conversions ([over.match.best]).  Simplification: compilers which reject a class that inherits two call operators of the same
signature do so when the class is defined; in the model (as in the standard's wording on using-declarations naming members of different bases) only
calls are ambiguous.
-/

namespace Makeshift.Overload

/-- A call operator: the class it is defined in, its number there, and whether it is a const member function. -/
structure Op where
  owner : Nat
  index : Nat
  const : Bool
  deriving DecidableEq, Repr

/-- A type which may be an argument of `overload`: its identity, whether it is a class, whether it is final, the visible call operators, and
the classes with call operators of their own which it consists of (itself, or its bases). -/
structure FTy where
  id : Nat
  isClass : Bool
  isFinal : Bool
  ops : List Op
  leaves : List Nat
  deriving DecidableEq, Repr

/-- The type of a lambda expression or another function object, with call operators of its own; `consts` tells which are const. -/
def closure (id : Nat) (consts : List Bool) : FTy :=
  ⟨id, true, false, consts.zipIdx.map fun c => ⟨id, c.2, c.1⟩, [id]⟩

/-- functional.hpp:30-34 `overload<Fs...>`: a type can be a base if it is a class and not final, and only once; `using Fs::operator ()...` needs
a call operator in every base.  `code` gives the identity of the type. -/
def overloadTy (code : List Nat → Nat) (Fs : List FTy) : Option FTy :=
  if (Fs.all fun F => F.isClass && !F.isFinal && !F.ops.isEmpty) && decide (Fs.map FTy.id).Nodup then
    some ⟨code (Fs.map FTy.id), true, false, Fs.flatMap FTy.ops, Fs.flatMap FTy.leaves⟩
  else none

/-- Overload resolution: the viable candidate which is better than all other viable candidates, if there is one. -/
def resolve (viable : Op → Bool) (better : Op → Op → Bool) (ops : List Op) : Option Op :=
  ops.find? fun o => viable o && ops.all fun p => decide (p = o) || !viable p || better o p

/-- A call `f(args...)` of an object (const or not) of type `F`: the call operator which is called.  A call operator which is not const is not viable for a const
object.  The object must be converted to the class of the call operator, which is ambiguous if there are several such subobjects; two
call operators in the list which are the same (of different subobjects) are ambiguous for the same reason. -/
def call (viable : Op → Bool) (better : Op → Op → Bool) (constObject : Bool) (F : FTy) : Option Op :=
  (resolve (fun o => viable o && (o.const || !constObject)) better F.ops).bind fun o =>
    if F.leaves.count o.owner = 1 then some o else none

/-- An object: the states of the function objects it consists of. -/
structure Obj (S : Type) where
  ty : FTy
  state : Nat → Option S

/-- An object of a closure type. -/
def closureObj {S : Type} (id : Nat) (consts : List Bool) (s : S) : Obj S := ⟨closure id consts, fun i => if i = id then some s else none⟩

/-- C++ language version, as far as it matters: parenthesised initialisation of aggregates is allowed since C++20. -/
inductive Lang where
  | cpp17 | cpp20
  deriving DecidableEq, Repr

/-- The form of the expression: `overload{ args... }` or `overload(args...)`. -/
inductive Form where
  | braces | parens
  deriving DecidableEq, Repr

/-- The subobject state: the first argument which contains the class. -/
def subobject {S : Type} : List (Obj S) → Nat → Option S
  | [], _ => none
  | a :: as, i => if i ∈ a.ty.leaves then a.state i else subobject as i

/-- functional.hpp:30-37: the expression `overload{ args... }` or `overload(args...)`.  The type is deduced by the guide (lines 36-37), or by the copy deduction
candidate if there is a single argument whose type is an `overload<>` (`isOverload`).  The class is an aggregate: its bases are initialised
by the arguments in order. -/
def make {S : Type} (code : List Nat → Nat) (isOverload : FTy → Bool) (lang : Lang) (form : Form) (args : List (Obj S)) : Option (Obj S) :=
  match args with
  | [] => (overloadTy code []).map fun T => ⟨T, fun _ => none⟩
  | [a] =>
    if isOverload a.ty then some a
    else if form = .braces ∨ lang = .cpp20 then (overloadTy code [a.ty]).map fun T => ⟨T, subobject [a]⟩ else none
  | as =>
    if form = .braces ∨ lang = .cpp20 then (overloadTy code (as.map Obj.ty)).map fun T => ⟨T, subobject as⟩ else none

end Makeshift.Overload
