import Verif.Model.Metadata

/-!
# `tie_members` and `tie_members_by_name`

Model of tuple.hpp:35-57 and 366-429 and detail/tuple.hpp:240-257 and 276-287.

The members of all objects are cells of a memory.  A cell is identified by the object, the class which declares the member (the
object's class or a base class), and the member; an object has at most one base class subobject of a given class, as a member pointer
could not be applied otherwise.  The tuple of references is the list of the cells referred to.  All members hold integers; the type
of the tuple (`TupleT`) does not matter.  The overloads which take a list of members are not modelled: their constraint is never
satisfied (see `C70_tuple_like_never`).
-/

namespace Makeshift.TieMembers

open Makeshift.Metadata

/-- A member of an object. -/
structure Cell where
  obj : Nat
  cls : Nat
  member : Nat
  deriving DecidableEq, Repr

/-- Contents of the memory. -/
abbrev Mem := Cell → Int

/-- `x.*member` for an lvalue `x`; `none`: `member` is not a member pointer. -/
def access (obj : Nat) : Md → Option Cell
  | .memPtr c _ id => some ⟨obj, c, id⟩
  | _ => none

/-- tuple.hpp:366-390 `tie_members` for an object of class `T`, with detail/tuple.hpp:240-257 `apply_impl` and 276-287
`tie_members_functor`.  `none`: ill-formed, in particular by the `static_assert` if there is no metadata. -/
def tieMembers (env : Env) (T obj : Nat) : Option (List Cell) :=
  (members env T).bind fun allMembers =>
  if allMembers.isAvailable then allMembers.elems.bind fun ms => ms.mapM (access obj) else none

/-- tuple.hpp:41-47 `tie_members_by_name_functor::_invoke`. -/
def invokeByName (env : Env) (T obj : Nat) (name : Str) : Option Cell := (findMemberByName env T name).bind (access obj)

/-- tuple.hpp:411-429 `tie_members_by_name`, with 48-53 `tie_members_by_name_functor::operator ()`. -/
def tieMembersByName (env : Env) (T obj : Nat) (names : List Str) : Option (List Cell) := names.mapM (invokeByName env T obj)

/-- Assignment to a member. -/
def write (m : Mem) (c : Cell) (v : Int) : Mem := fun d => if d = c then v else m d

/-- `t = u` for a tuple `t` of references and a tuple `u` of values.  [tuple.assign] assigns element by element but does not fix the
order, which is a parameter. -/
def assignValues (order : List Nat) (t : List Cell) (u : List Int) (m : Mem) : Mem :=
  order.foldl (fun m i => match t[i]?, u[i]? with
    | some c, some v => write m c v
    | _, _ => m) m

/-- `t = u` for tuples of references: each element is read when it is assigned. -/
def assignRefs (order : List Nat) (t u : List Cell) (m : Mem) : Mem :=
  order.foldl (fun m i => match t[i]?, u[i]? with
    | some c, some d => write m c (m d)
    | _, _ => m) m

/-- `t == u` for tuples of references. -/
def equal (m : Mem) (t u : List Cell) : Bool := t.map m == u.map m

end Makeshift.TieMembers
