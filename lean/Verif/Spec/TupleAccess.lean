import Verif.Model.TupleAccess

/-! # What the standard says about tuples and structured bindings -/

namespace Makeshift.Spec.TupleAccess

open Makeshift.TupleAccess

/-- [tuple.elem] `std::get<I>` of a `std::tuple` for an element of type `T`: the return types are `T&`, `T const&`, `T&&` and
`T const&&`, depending on the tuple expression. -/
def StdGet (a : Access) : Ty → Ty
  | .obj c => if a.rvalue then .rref { c with const := c.const || a.const } else .lref { c with const := c.const || a.const }
  | .lref c => .lref c
  | .rref c => if a.rvalue then .rref c else .lref c

/-- [dcl.init.ref] A reference of type `r` can be bound to an expression whose type is the reference type `e` (same object types
only). -/
def Binds (r e : Ty) : Prop :=
  match r, e with
  | .lref c, .lref d => c.ty = d.ty ∧ (d.const → c.const)
  | .rref c, .rref d => c.ty = d.ty ∧ (d.const → c.const)
  | _, _ => False

/-- The declarations `auto [...]`, `auto const [...]`, `auto& [...]`, `auto const& [...]` of structured bindings; an initialiser of
type `E` gives a variable `e` of type `E`, `E const`, `E&`, `E const&`. -/
inductive Decl where
  | auto | autoConst | autoRef | autoConstRef

/-- [dcl.struct.bind] The variable `e` as an expression: an xvalue unless it has been declared as an lvalue reference. -/
def Decl.access : Decl → Access
  | .auto => ⟨false, true⟩
  | .autoConst => ⟨true, true⟩
  | .autoRef => ⟨false, false⟩
  | .autoConstRef => ⟨true, false⟩

/-- [dcl.struct.bind] A name is bound to element `get<i>(e)`, which is an lvalue, xvalue or prvalue of type `g`, by a reference to
`tuple_element<i, E>`: an lvalue reference if `get<i>(e)` is an lvalue, an rvalue reference otherwise. -/
def Bindable (element g : Ty) : Prop :=
  match g with
  | .lref _ => Binds element.addLRef g
  | .rref _ => Binds (match element with | .obj c => .rref c | t => t) g
  | .obj d => Binds (match element with | .obj c => .rref c | t => t) (.rref d)

/-- Argument `a` can initialise an element of type `t` with a reference: as an lvalue, without loss of const. -/
def BindsLvalue {V : Type} (c : CTy) : Arg V → Prop
  | .ref _ const rvalue => rvalue = false ∧ (const = true → c.const = true)
  | .prvalue _ => False

variable {V : Type}

/-- When an element of type `t` can be initialised from an argument: an object must be copyable - even if the argument is a
temporary - and movable too if the argument is moved; an lvalue reference needs an lvalue; an rvalue reference cannot be stored. -/
def CanInit (cls : Classes) (t : Ty) (a : Arg V) : Prop :=
  match t with
  | .obj c => cls.copyable c.ty = true ∧ ∀ loc, a = .ref loc false true → cls.movable c.ty = true
  | .lref c => BindsLvalue c a
  | .rref _ => False

/-- The object that an element of type `t` initialised by `a` takes the contents from by a move. -/
def MovedLoc : Ty → Arg V → Option Nat
  | .obj _, .ref loc false true => some loc
  | _, _ => none

/-- The object whose contents an element takes. -/
def SourceLoc : Ty → Arg V → Option Nat
  | .obj _, .ref loc _ _ => some loc
  | _, _ => none

/-- What the element holds, in terms of the memory before the call. -/
def Holds (m : Mem V) : Ty → Arg V → Stored V → Prop
  | .obj _, .prvalue v, s => s = .val v
  | .obj _, .ref loc _ _, s => s = .val (m loc)
  | .lref _, .ref loc _ _, s => s = .ref loc
  | .rref _, .ref loc _ _, s => s = .ref loc
  | _, _, _ => False

end Makeshift.Spec.TupleAccess
