import Mathlib.Data.List.Forall2
import Verif.Model.VariantForward
import Verif.Spec.TupleMove

/-! # Specification vocabulary for visiting variants with objects and functors -/

namespace Makeshift.Spec.VariantForward

open Makeshift.TupleAccess Makeshift.TupleMove Makeshift.VariantForward

variable {V F : Type}

/-- Alternative `c` of a variant denoted by an expression `a`, as an argument of a functor: an lvalue or an rvalue like the variant,
const if the alternative or the variant is const. -/
def Forwarded (a : Access) (c : CTy) : Ty :=
  if a.rvalue then .rref ⟨c.ty, c.const || a.const⟩ else .lref ⟨c.ty, c.const || a.const⟩

/-- `ts` are the argument types for some choice of alternatives. -/
def Combo (args : List VArg) (ts : List Ty) : Prop := List.Forall₂ (fun v t => ∃ c ∈ v.alts, t = Forwarded v.access c) args ts

/-- A variant has alternatives and is either valueless or holds one of them. -/
def IsVariant (v : VArg) : Prop := v.alts ≠ [] ∧ ∀ i, v.active = some i → i < v.alts.length

/-- The variant holds alternative `c`. -/
def HoldsAlt (v : VArg) (c : CTy) : Prop := ∃ i, v.active = some i ∧ v.alts[i]? = some c

/-- The reference to the object in variant `v`, which holds alternative `c`. -/
def refTo (v : VArg) (c : CTy) : Ref := ⟨v.loc, c.const || v.access.const, v.access.rvalue⟩

/-- The references to the objects in the variants, which hold alternatives `cs`, with the contents. -/
def argsOf (m : Mem V) (args : List VArg) (cs : List CTy) : List (Ref × V) :=
  List.zipWith (fun v c => (refTo v c, m v.loc)) args cs

/-- The argument types if the variants hold alternatives `cs`. -/
def typesOf (args : List VArg) (cs : List CTy) : List Ty := List.zipWith (fun v c => Forwarded v.access c) args cs

/-- Each variant is an object of its own, unless it is const. -/
def OwnVariants (args : List VArg) : Prop :=
  args.Pairwise fun v v' => v.loc = v'.loc → v.access.const = true ∧ v'.access.const = true

/-- Object contents after the functor was called for `args`: each variant object has the contents left there, if it may be written
to, and everything else is unchanged. -/
def AfterCall (m : Mem V) (args : List VArg) (cs : List CTy) (news : Nat → Option V) (m' : Mem V) : Prop :=
  ∀ l, Spec.TupleMove.Leaves m ((List.zipWith refTo args cs).map .elem) news l (m' l)

end Makeshift.Spec.VariantForward
