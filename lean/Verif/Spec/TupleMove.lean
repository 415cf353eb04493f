import Mathlib.Data.List.Forall2
import Verif.Model.TupleMove
import Verif.Spec.TupleAccess

/-! # Specification vocabulary for tuple algorithms on objects -/

namespace Makeshift.Spec.TupleMove

open Makeshift.TupleAccess Makeshift.TupleMove

variable {V S : Type}

/-- The element is handed to the functor as an rvalue: only if the tuple is an rvalue and has its own overloads for rvalues
(`value_tuple` does not), and the element is not an lvalue reference. -/
def PassedAsRvalue (k : Kind) (a : Access) : Ty → Bool
  | .lref _ => false
  | _ => decide (k = .std) && a.rvalue

/-- The element is handed to the functor as const.  Elements of a const tuple are const, except what references refer to; elements of
a `value_tuple` are also const if it is an rvalue, and so are what its references refer to if it is const or an rvalue. -/
def PassedAsConst (k : Kind) (a : Access) (t : Ty) : Bool :=
  t.referred.const ||
    match k, t with
    | .std, .obj _ => a.const
    | .std, _ => false
    | .value, _ => a.const || a.rvalue

/-- What call number `i` of a functor receives for an argument. -/
inductive ReceivesAt (i : Nat) : TupArg → TVal Ref → Prop
  | tuple {k : Kind} {a : Access} {es : List Elem} {e : Elem} : es[i]? = some e →
      ReceivesAt i (.tuple k a es) (.elem ⟨e.loc, PassedAsConst k a e.ty, PassedAsRvalue k a e.ty⟩)
  | rangeIndex : ReceivesAt i .rangeIndex (.index i)
  | tupleIndex : ReceivesAt i .tupleIndex (.indexConstant i)

/-- `calls` lists the functor arguments for every index in ascending order. -/
def CallArgs (args : List TupArg) (calls : List (List (TVal Ref))) : Prop :=
  ∀ i vs, calls[i]? = some vs → List.Forall₂ (ReceivesAt i) args vs

/-- All tuple arguments have `n` elements. -/
def AllSize (n : Nat) (args : List TupArg) : Prop := ∀ k a es, TupArg.tuple k a es ∈ args → es.length = n

/-- There is a tuple argument. -/
def HasTuple (args : List TupArg) : Prop := ∃ k a es, TupArg.tuple k a es ∈ args

/-- No object is referred to twice in the calls unless both references are const. -/
def Separate (refs : List (TVal Ref)) : Prop :=
  refs.Pairwise fun x y => ∀ r r', x = .elem r → y = .elem r' → r.loc = r'.loc → r.const = true ∧ r'.const = true

/-- An argument and the contents of the object it refers to. -/
def seen (m : Mem V) : TVal Ref → TVal (Ref × V)
  | .elem r => .elem (r, m r.loc)
  | .index i => .index i
  | .indexConstant i => .indexConstant i

/-- If a functor returns a reference, then to one of its arguments, without casting away const. -/
def ReturnsOwn (f : Fn V S) (vs : List (TVal (Ref × V))) : Prop :=
  ∀ s r, (f vs s).1 = .ref r → ∃ r' v, .elem (r', v) ∈ vs ∧ r'.loc = r.loc ∧ (r'.const = true → r.const = true)

/-- The functor is called for one set of arguments after the other, *with the contents which the objects had before the first call*;
the results, the contents left, and the final program state. -/
def onOriginals (f : Fn V S) (m : Mem V) : List (List (TVal Ref)) → S → List (Res V × (Nat → Option V)) × S
  | [], s => ([], s)
  | c :: cs, s =>
    let r := f (c.map (seen m)) s
    let rs := onOriginals f m cs r.2.2
    ((r.1, r.2.1) :: rs.1, rs.2)

/-- `v` is what a call with arguments `c` leaves in the object at `l`: what it has written through one of its references, or what was
there before. -/
inductive Leaves (m : Mem V) (c : List (TVal Ref)) (news : Nat → Option V) (l : Nat) : V → Prop
  | written {j : Nat} {r : Ref} {v : V} : c[j]? = some (.elem r) → r.loc = l → r.const = false → news j = some v → Leaves m c news l v
  | kept : (∀ (j : Nat) r, c[j]? = some (.elem r) → r.loc = l → r.const = true ∨ news j = none) → Leaves m c news l (m l)

/-- `v` is the object made of what the call returns. -/
def Makes (m : Mem V) (c : List (TVal Ref)) (out : Res V × (Nat → Option V)) (v : V) : Prop :=
  match out.1 with
  | .val w => v = w
  | .ref r => Leaves m c out.2 r.loc v

/-- `v` is in the object at `l` when the call is over: an object which the functor returns as a non-const rvalue is moved from. -/
def Ends (moved : V → V) (m : Mem V) (c : List (TVal Ref)) (out : Res V × (Nat → Option V)) (l : Nat) (v : V) : Prop :=
  ∃ w, Leaves m c out.2 l w ∧
    v = match out.1 with
      | .ref r => if r.loc = l ∧ r.rvalue = true ∧ r.const = false then moved w else w
      | .val _ => w

/-- Contents of the objects after all calls: an object referred to in a call ends up as this call leaves it, and all others are
unchanged. -/
def FinalContents (moved : V → V) (m : Mem V) (calls : List (List (TVal Ref))) (outs : List (Res V × (Nat → Option V))) (m' : Mem V) : Prop :=
  (∀ (k : Nat) c out, calls[k]? = some c → outs[k]? = some out → ∀ r, .elem r ∈ c → Ends moved m c out r.loc (m' r.loc)) ∧
  (∀ l, (∀ c ∈ calls, ∀ r, .elem r ∈ c → r.loc ≠ l) → m' l = m l)

/-- Every element of every tuple has an object of its own. -/
def OwnObjects (args : List TupArg) : Prop :=
  ∀ (j j' i i' : Nat) k a es k' a' es' e e', args[j]? = some (.tuple k a es) → args[j']? = some (.tuple k' a' es') →
    es[i]? = some e → es'[i']? = some e' → e.loc = e'.loc → j = j' ∧ i = i'

/-- The elements, transformed by `f` with their original contents, are combined by `g` one after the other: `Folds ... a s outs b t` if
from the accumulated value `a` in program state `s` this leads to value `b` in state `t`; `outs` is what the calls of `f` yield. -/
inductive Folds (f : Fn V S) (g : V → V → S → V × V × S) (m : Mem V) :
    List (List (TVal Ref)) → V → S → List (Res V × (Nat → Option V)) → V → S → Prop
  | nil {a : V} {s : S} : Folds f g m [] a s [] a s
  | cons {c : List (TVal Ref)} {cs : List (List (TVal Ref))} {a x b : V} {s t : S} {outs : List (Res V × (Nat → Option V))} :
      Makes m c ((f (c.map (seen m)) s).1, (f (c.map (seen m)) s).2.1) x →
      Folds f g m cs (g a x (f (c.map (seen m)) s).2.2).1 (g a x (f (c.map (seen m)) s).2.2).2.2 outs b t →
      Folds f g m (c :: cs) a s (((f (c.map (seen m)) s).1, (f (c.map (seen m)) s).2.1) :: outs) b t

/-- The elements of several tuples one after the other, each with the kind and the access of its tuple. -/
def allElems (tuples : List (Kind × Access × List Elem)) : List (Kind × Access × Elem) :=
  tuples.flatMap fun t => t.2.2.map fun e => (t.1, t.2.1, e)

/-- A concatenation to elements of type `t` takes the contents of the element by a move: the tuple is not a `value_tuple` and is
passed as a non-const rvalue (or the element is an rvalue reference), and neither the element nor what it refers to is const. -/
def TakenFrom (t : Ty) (x : Kind × Access × Elem) : Bool :=
  match t with
  | .obj _ => PassedAsRvalue x.1 x.2.1 x.2.2.ty && !PassedAsConst x.1 x.2.1 x.2.2.ty
  | _ => false

/-- What an element of type `t` made of `x` holds: the contents of the object of `x`, or a reference to it. -/
def HoldsElem (m : Mem V) (t : Ty) (x : Kind × Access × Elem) (s : Stored V) : Prop :=
  match t with
  | .obj _ => s = .val (m x.2.2.loc)
  | _ => s = .ref x.2.2.loc

/-- An element of type `t` of a `std::tuple` can be initialised from `x`. -/
def CanTake (cls : Classes) (t : Ty) (x : Kind × Access × Elem) : Prop :=
  match t with
  | .obj c => if TakenFrom (.obj c) x then cls.movable c.ty = true else cls.copyable c.ty = true
  | .lref c => PassedAsRvalue x.1 x.2.1 x.2.2.ty = false ∧ (PassedAsConst x.1 x.2.1 x.2.2.ty = true → c.const = true)
  | .rref c => PassedAsRvalue x.1 x.2.1 x.2.2.ty = true ∧ (PassedAsConst x.1 x.2.1 x.2.2.ty = true → c.const = true)

end Makeshift.Spec.TupleMove
