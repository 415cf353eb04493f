/-!
# `value_tuple`: element access, construction and class template argument deduction

Model of detail/tuple.hpp:41-66, tuple.hpp:76-103 and 434-435.

Types are object types, possibly const, and references to them; `volatile`, arrays and functions are left out.  A tuple is accessed
through an expression which is const or not and an lvalue or not.  `Option`: `none` means that the program is ill-formed.
-/

namespace Makeshift.TupleAccess

/-- An object type: the type without qualifiers (by number), and whether it is const. -/
structure CTy where
  ty : Nat
  const : Bool
  deriving DecidableEq, Repr

/-- A type: `T`, `T&` or `T&&`. -/
inductive Ty where
  | obj (c : CTy)
  | lref (c : CTy)
  | rref (c : CTy)
  deriving DecidableEq, Repr

/-- `T&`, with reference collapsing ([dcl.ref]). -/
def Ty.addLRef : Ty → Ty
  | .obj c => .lref c
  | .lref c => .lref c
  | .rref c => .lref c

/-- `T const`, which is `T` for a reference type ([dcl.ref]). -/
def Ty.addConst : Ty → Ty
  | .obj c => .obj { c with const := true }
  | .lref c => .lref c
  | .rref c => .rref c

/-- The type without the reference. -/
def Ty.referred : Ty → CTy
  | .obj c => c
  | .lref c => c
  | .rref c => c

/-- Const and value category of an expression that denotes a tuple. -/
structure Access where
  const : Bool
  rvalue : Bool
  deriving DecidableEq, Repr

/-- detail/tuple.hpp:47-51 `_tuple_get(value_tuple_leaf&)`: the return type `T&`. -/
def leafGet (t : Ty) : Ty := t.addLRef

/-- detail/tuple.hpp:52-56 `_tuple_get(value_tuple_leaf const&)`: the return type `T const&`. -/
def leafGetConst (t : Ty) : Ty := t.addConst.addLRef

/-- tuple.hpp:84-97 `get<I>` for an element of type `t`: the type of the call expression.  There are two overloads, for
`value_tuple&` and `value_tuple const&`; the first one is chosen for non-const lvalues, as it needs no qualification conversion, and
is not viable otherwise.  The return types are `auto&` and `auto const&`. -/
def get (a : Access) (t : Ty) : Ty :=
  if !a.const && !a.rvalue then .lref (leafGet t).referred
  else .lref { (leafGetConst t).referred with const := true }

/-- tuple.hpp:435 `tuple_element<I, value_tuple<Ts...>>` for an element of type `t`; [tuple.helper] adds the qualifiers of a const
tuple type. -/
def tupleElement (const : Bool) (t : Ty) : Ty := if const then t.addConst else t

/-! ## Construction -/

/-- An argument of a constructor: a new object, or a reference to the object at location `loc`. -/
inductive Arg (V : Type) where
  | prvalue (v : V)
  | ref (loc : Nat) (const rvalue : Bool)

/-- What a variable or leaf holds: an object or a reference. -/
inductive Stored (V : Type) where
  | val (v : V)
  | ref (loc : Nat)
  deriving DecidableEq, Repr

/-- Which special members of the types are usable. -/
structure Classes where
  copyable : Nat → Bool
  movable : Nat → Bool

/-- Contents of objects. -/
abbrev Mem (V : Type) := Nat → V

/-- Contents after a move from the object at `loc`; `moved v` is what a move leaves behind in an object that held `v`. -/
def Mem.moveFrom {V : Type} (moved : V → V) (m : Mem V) (loc : Nat) : Mem V := fun l => if l = loc then moved (m l) else m l

/-- Initialisation of the constructor parameter (detail/tuple.hpp:62) of type `t` from an argument of the same type apart from
qualifiers and references.  A prvalue initialises an object directly ([dcl.init]); the move constructor cannot be used for a const
object. -/
def initParam {V : Type} (cls : Classes) (moved : V → V) (t : Ty) (a : Arg V) (m : Mem V) : Option (Stored V × Mem V) :=
  match t, a with
  | .obj _, .prvalue v => some (.val v, m)
  | .obj c, .ref loc const rvalue =>
    if rvalue && !const then
      if cls.movable c.ty then some (.val (m loc), m.moveFrom moved loc) else none
    else if cls.copyable c.ty then some (.val (m loc), m) else none
  | .lref c, .ref loc const rvalue => if !rvalue && (c.const || !const) then some (.ref loc, m) else none
  | .rref c, .ref loc const rvalue => if rvalue && (c.const || !const) then some (.ref loc, m) else none
  | .lref _, .prvalue _ => none
  | .rref _, .prvalue _ => none

/-- detail/tuple.hpp:63 `value_tuple_leaf<Is, Ts>{ values }`: initialisation of the leaf's member of type `t` from the parameter,
which is an lvalue.  (Simplification: const lvalue references do not bind to temporaries.) -/
def initLeaf {V : Type} (cls : Classes) (t : Ty) (param : Stored V) : Option (Stored V) :=
  match t, param with
  | .obj c, .val v => if cls.copyable c.ty then some (.val v) else none
  | .lref _, .ref loc => some (.ref loc)
  | _, _ => none

/-- Initialisation of the parameters, in order ([dcl.init.list]; for a call with parentheses the order is unspecified). -/
def initParams {V : Type} (cls : Classes) (moved : V → V) : List Ty → List (Arg V) → Mem V → Option (List (Stored V) × Mem V)
  | [], [], m => some ([], m)
  | t :: ts, a :: as, m =>
    (initParam cls moved t a m).bind fun p => (initParams cls moved ts as p.2).map fun ps => (p.1 :: ps.1, ps.2)
  | _, _, _ => none

/-- Initialisation of the leaves. -/
def initLeaves {V : Type} (cls : Classes) : List Ty → List (Stored V) → Option (List (Stored V))
  | [], [] => some []
  | t :: ts, p :: ps => (initLeaf cls t p).bind fun l => (initLeaves cls ts ps).map (l :: ·)
  | _, _ => none

/-- detail/tuple.hpp:62-65 the constructor of `value_tuple`, called with a braced list (inherited at tuple.hpp:80). -/
def construct {V : Type} (cls : Classes) (moved : V → V) (ts : List Ty) (args : List (Arg V)) (m : Mem V) :
    Option (List (Stored V) × Mem V) :=
  (initParams cls moved ts args m).bind fun r => (initLeaves cls ts r.1).map fun ls => (ls, r.2)

/-! ## Deduction of the type -/

/-- Object types, as far as nesting of `value_tuple` is concerned. -/
inductive DTy where
  | base (n : Nat)
  | valueTuple (ts : List DTy)

/-- tuple.hpp:82-83: the type deduced for `value_tuple{ args... }` from the (decayed) types of the arguments.  The candidates are the
deduction guide `value_tuple(Ts...)` and the copy deduction candidate `value_tuple(value_tuple<Ts...>)` ([over.match.class.deduct]);
for a single argument of a `value_tuple<>` type the latter is more specialised. -/
def deduce : List DTy → DTy
  | [.valueTuple ts] => .valueTuple ts
  | args => .valueTuple args

/-- tuple.hpp:99-104 `make_value_tuple(args...)`: the return type. -/
def makeValueTuple (args : List DTy) : DTy := .valueTuple args

end Makeshift.TupleAccess
