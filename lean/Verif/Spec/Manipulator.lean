import Mathlib.Data.List.Forall2
import Verif.Model.Manipulator

/-! Specification vocabulary for manipulators. -/

namespace Makeshift.Spec

open Manip

variable {V F St : Type}

/-- Unused addresses hold no objects. -/
def Fresh (w : World V F) : Prop := ∀ i, w.next ≤ i → w.vars i = none ∧ w.manips i = none

/-- Every lvalue argument denotes an existing object. -/
def LvaluesAlive (w : World V F) (args : List (Arg V)) : Prop := ∀ a c, Arg.lvalue a c ∈ args → (w.vars a).isSome = true

/-- An object at address `p` stands for an argument of a call: for an lvalue it is the very object, for an rvalue it is a new object
(which did not exist in `w`) with its value. -/
inductive StandsFor (w : World V F) (vars : Nat → Option V) : Arg V → Nat → Prop
  | lvalue (a : Nat) (c : Bool) : StandsFor w vars (.lvalue a c) a
  | rvalue (v : V) (c : Bool) (p : Nat) : w.next ≤ p → vars p = some v → StandsFor w vars (.rvalue v c) p

/-- The objects which stand for rvalues. -/
def temporaries : List (Arg V) → List Nat → List Nat
  | .rvalue _ _ :: as, p :: ps => p :: temporaries as ps
  | .lvalue _ _ :: as, _ :: ps => temporaries as ps
  | _, _ => []

/-- A well-behaved functor does not modify objects other than those passed to its parameters of type `T&`, does not create or destroy
objects. -/
def WellBehaved (f : FunctorTy V F St) : Prop :=
  ∀ s vars st locs vars' st', f.run s vars st locs = .ok (vars', st') →
    (∀ l, (vars' l).isSome = (vars l).isSome) ∧
    ∀ l, (∀ i : Nat, locs[i]? = some l → f.params[i]? ≠ some .ref) → vars' l = vars l

/-- The functor can be called with these arguments as lvalues. -/
def Callable (f : FunctorTy V F St) (args : List (Arg V)) : Prop :=
  f.isConst = true ∧ List.Forall₂ (fun p (a : Arg V) => match a with
    | .lvalue _ c | .rvalue _ c => p ≠ Param.rref ∧ (p = .ref → c = false)) f.params args

/-- What `stream << m(args...)` or `stream >> m(args...)` has to do: the function `f` with state `state` is called exactly once, with the
stream and with lvalues for all arguments; an lvalue argument is the very object the caller named, an rvalue argument is a distinct
temporary object with the same value, which is destroyed at the end.  The outcome is that of the call. -/
def StreamSpec (f : FunctorTy V F St) (state : F) (w : World V F) (args : List (Arg V)) (st : St)
    (result : Option (Outcome (World V F × St))) : Prop :=
  (¬Callable f args → result = none) ∧
  (Callable f args → ∃ vars ps, List.Forall₂ (StandsFor w vars) args ps ∧ (temporaries args ps).Nodup ∧
    (∀ i, i < w.next → vars i = w.vars i) ∧
    match f.run state vars st ps with
    | .ok (vars', st') => ∃ w', result = some (.ok (w', st')) ∧ w'.manips = w.manips ∧ (∀ i, i < w.next → w'.vars i = vars' i) ∧
        ∀ p ∈ temporaries args ps, w'.vars p = none
    | .throw m => result = some (.throw m)
    | .failFast => result = some .failFast
    | .ub => result = some .ub)

/-- The event leaves the manipulator, the lvalue arguments, and objects without a name alive. -/
def Event.Harmless (b : Bound) : Event V F → Prop
  | .destroyVar a => a ∉ b.args.map Prod.fst
  | .assign a _ => a ∉ b.owned
  | .destroyManip a => a ≠ b.manip
  | _ => True

end Makeshift.Spec
