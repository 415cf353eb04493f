import Verif.Outcome

/-!
# Stream manipulator objects

Model of `detail/iomanip.hpp` lines 20-103 and `iomanip.hpp` lines 25-36: functors, manipulators, and manipulators bound to arguments, with
the lifetimes of all objects involved.

Objects have addresses (`Nat`).  `vars` holds the argument objects, `manips` the manipulator objects; an address without entry holds no
object within its lifetime.  `V` are the values of arguments, `F` the states of the functors in a manipulator, `St` the states of a
stream.  A result `none` of the outer `Option` says that the program does not compile.

Simplifications: argument types are not arrays and can be moved and (for parameters by value) copied; one of the functor classes is not
a base of the other.
-/

namespace Makeshift.Manip

/-- How a functor declares a parameter after the stream. -/
inductive Param where
  /-- `T` -/
  | value
  /-- `T const&` -/
  | constRef
  /-- `T&` -/
  | ref
  /-- `T&&` -/
  | rref
  deriving DecidableEq, Repr

/-- A functor type: its identity, `std::is_class`, `std::is_final`, whether its call operator is const, its parameters, and what a call
does with the state of the functor, the argument objects (given by their addresses), and the stream. -/
structure FunctorTy (V F St : Type) where
  id : Nat
  isClass : Bool
  isFinal : Bool
  isConst : Bool
  params : List Param
  run : F → (Nat → Option V) → St → List Nat → Outcome ((Nat → Option V) × St)

/-- `detail::manipulator<ToStreamFuncT, FromStreamFuncT>` (detail/iomanip.hpp:20-21, 67-68); `none` is `void`. -/
structure ManipTy (V F St : Type) where
  toStream : FunctorTy V F St
  fromStream : Option (FunctorTy V F St)

/-- The objects which exist; addresses from `next` on have not been used. -/
structure World (V F : Type) where
  next : Nat
  vars : Nat → Option V
  manips : Nat → Option F

/-- Function update. -/
def update {α : Type} (f : Nat → Option α) (k : Nat) (v : Option α) : Nat → Option α := fun i => if i = k then v else f i

variable {V F St : Type}

/-- A type can be a base class. -/
def FunctorTy.canBeBase (t : FunctorTy V F St) : Bool := t.isClass && !t.isFinal

/-- Whether `manipulator<To, From>` is well-formed: it derives from both functors (detail/iomanip.hpp:21, 68), which must be classes,
not final, and different. -/
def ManipTy.wellFormed (t : ManipTy V F St) : Bool :=
  t.toStream.canBeBase && match t.fromStream with
    | none => true
    | some g => g.canBeBase && t.toStream.id != g.id

/-- iomanip.hpp:25-36 `make_manipulator`: the manipulator is constructed in new storage; returns its address. -/
def makeManipulator (t : ManipTy V F St) (state : F) (w : World V F) : Option (World V F × Nat) :=
  if t.wellFormed then some ({ w with next := w.next + 1, manips := update w.manips w.next (some state) }, w.next) else none

/-- An argument expression: an lvalue that denotes the object at an address, or an rvalue with a value. -/
inductive Arg (V : Type) where
  | lvalue (addr : Nat) (isConst : Bool)
  | rvalue (v : V) (isConst : Bool)

/-- `bound_manipulator<ArgsT...>` (detail/iomanip.hpp:23-27, 72-76): the address `manip_` refers to, and for each element of `args_` the
address of the object it is or refers to, and whether it is const.  `owned` are the addresses of the elements which are objects. -/
structure Bound where
  manip : Nat
  args : List (Nat × Bool)
  owned : List Nat

/-- detail/iomanip.hpp:60-65, 96-101: `args_{ std::forward<ArgsT>(args)... }`.  An lvalue of type `T` deduces `ArgsT = T&`, so the tuple
element is a reference; an rvalue deduces `ArgsT = T`, so the element is an object that is move-constructed. -/
def bindArgs : World V F → List (Arg V) → World V F × List (Nat × Bool) × List Nat
  | w, [] => (w, [], [])
  | w, .lvalue a c :: r =>
    let (w', as, os) := bindArgs w r
    (w', (a, c) :: as, os)
  | w, .rvalue v c :: r =>
    let (w', as, os) := bindArgs { w with next := w.next + 1, vars := update w.vars w.next (some v) } r
    (w', (w.next, c) :: as, w.next :: os)

/-- detail/iomanip.hpp:60-65, 96-101 `operator ()`.  A member function must not be called on an object outside its lifetime. -/
def call (w : World V F) (manip : Nat) (args : List (Arg V)) : Outcome (World V F × Bound) :=
  if (w.manips manip).isSome then
    let (w', as, os) := bindArgs w args
    .ok (w', ⟨manip, as, os⟩)
  else .ub

/-- Whether an lvalue can be passed for a parameter. -/
def Param.acceptsLvalue (isConst : Bool) : Param → Bool
  | .value => true
  | .constRef => true
  | .ref => !isConst
  | .rref => false

/-- Whether the parameters accept these lvalues. -/
def acceptsAll : List Param → List (Nat × Bool) → Bool
  | [], [] => true
  | p :: ps, a :: as => p.acceptsLvalue a.2 && acceptsAll ps as
  | _, _ => false

/-- detail/iomanip.hpp:32-37, 44-49, 81-86: `std::apply` of the lambda to the lvalue `m.args_` passes all elements as lvalues
(`std::forward<decltype(args)>` preserves that); the functor is called through `T const&`.  Calling the functor through a reference to a
destroyed manipulator is undefined, as is passing references to destroyed objects. -/
def apply (f : FunctorTy V F St) (w : World V F) (b : Bound) (st : St) : Option (Outcome (World V F × St)) :=
  if f.isConst && acceptsAll f.params b.args then
    some <| match w.manips b.manip with
      | none => .ub
      | some state =>
        if b.args.all fun a => (w.vars a.1).isSome then
          (f.run state w.vars st (b.args.map Prod.fst)).bind fun r => .ok ({ w with vars := r.1 }, r.2)
        else .ub
  else none

/-- Value category and constness of the expression of type `bound_manipulator`. -/
inductive Category where
  | lvalue | rvalue | constRvalue
  deriving DecidableEq, Repr

/-- detail/iomanip.hpp:28-39, 77-88 `operator <<`; its parameter is an rvalue reference. -/
def insert (t : ManipTy V F St) (w : World V F) (b : Bound) (cat : Category) (st : St) : Option (Outcome (World V F × St)) :=
  match cat with
  | .rvalue => apply t.toStream w b st
  | _ => none

/-- detail/iomanip.hpp:40-51 `operator >>`; only defined with a from-stream function. -/
def extract (t : ManipTy V F St) (w : World V F) (b : Bound) (cat : Category) (st : St) : Option (Outcome (World V F × St)) :=
  match cat, t.fromStream with
  | .rvalue, some g => apply g w b st
  | _, _ => none

/-- Destruction of a bound manipulator: its tuple elements which are objects are destroyed (implicit destructor). -/
def destroyBound (w : World V F) (b : Bound) : World V F :=
  { w with vars := fun i => if i ∈ b.owned then none else w.vars i }

/-- The full expression `stream << m(args...)` or `stream >> m(args...)` (client code): the bound manipulator is a temporary which is
destroyed at the end.  (If `m` is destroyed, the model gives undefined behaviour without asking whether the expression compiles.) -/
def streamExpr (op : World V F → Bound → Category → St → Option (Outcome (World V F × St))) (w : World V F) (manip : Nat)
    (args : List (Arg V)) (st : St) : Option (Outcome (World V F × St)) :=
  match call w manip args with
  | .ok (w', b) => (op w' b .rvalue st).map fun o => o.bind fun r => .ok (destroyBound r.1 b, r.2)
  | .throw m => some (.throw m)
  | .failFast => some .failFast
  | .ub => some .ub

/-- iomanip.hpp:39-62 `as_enum`, 65-89 `as_flags`: the manipulator is a temporary of the return statement; the bound manipulator is
returned. -/
def asManipulator (t : ManipTy V F St) (state : F) (w : World V F) (value : Arg V) : Option (Outcome (World V F × Bound)) :=
  (makeManipulator t state w).map fun (w1, m) =>
    (call w1 m [value]).bind fun (w2, b) => .ok ({ w2 with manips := update w2.manips m none }, b)

/-- The functor types in `as_enum` and `as_flags` (iomanip.hpp:44-60, 70-87) for an argument: two different non-generic or generic
lambdas.  `T const& value` is `E&` for a non-const lvalue because of reference collapsing, and a reference to const otherwise.  The
from-stream function assigns to its argument, so it does not compile for const objects. -/
def asManipulatorTy (arg : Arg V) (toRun fromRun : F → (Nat → Option V) → St → List Nat → Outcome ((Nat → Option V) × St)) :
    ManipTy V F St where
  toStream := ⟨0, true, false, true, [match arg with | .lvalue _ false => .ref | _ => .constRef], toRun⟩
  fromStream := some ⟨1, true, false, true, [.ref], fromRun⟩

/-- What other code may do between the creation and the use of a bound manipulator. -/
inductive Event (V F : Type) where
  | newVar (v : V)
  | assign (addr : Nat) (v : V)
  | destroyVar (addr : Nat)
  | newManip (f : F)
  | assignManip (addr : Nat) (f : F)
  | destroyManip (addr : Nat)

/-- The effect of an event (client code). -/
def Event.step : Event V F → World V F → World V F
  | .newVar v, w => { w with next := w.next + 1, vars := update w.vars w.next (some v) }
  | .assign a v, w => { w with vars := update w.vars a ((w.vars a).map fun _ => v) }
  | .destroyVar a, w => { w with vars := update w.vars a none }
  | .newManip f, w => { w with next := w.next + 1, manips := update w.manips w.next (some f) }
  | .assignManip a f, w => { w with manips := update w.manips a ((w.manips a).map fun _ => f) }
  | .destroyManip a, w => { w with manips := update w.manips a none }

end Makeshift.Manip
