import Verif.Model.AnySource

/-! # Specification for `any_source`: the objects and references of which an aggregate consists; conversions counted -/

namespace Makeshift.AnySource.Spec

/-- An object or reference which is not an array. -/
inductive Leaf where
  | object (dflt : Bool)
  | lvalueRef
  | otherRef
  deriving DecidableEq, Repr

/-- What a member consists of: an array consists of its elements. -/
def leavesOf : Elem → List Leaf
  | .object d => [.object d]
  | .lref => [.lvalueRef]
  | .cref => [.otherRef]
  | .rref => [.otherRef]
  | .array n e => (List.replicate n (leavesOf e)).flatten

/-- What the members consist of, in order. -/
def leaves (members : List Elem) : List Leaf := members.flatMap leavesOf

/-- An array has elements (arrays without elements do not exist in C++). -/
def Valid : Elem → Prop
  | .array n e => 0 < n ∧ Valid e
  | _ => True

/-- Not an array, or an array of only one element. -/
def Single : Elem → Prop
  | .array n e => n = 1 ∧ Single e
  | _ => True

/-- What an expression would evaluate to if conversions returned `v`, and how many conversions would be called. -/
def supply (v : Int) : Expr → Int × Nat
  | .num i => (i, 0)
  | .convert => (v, 1)
  | .unevaluated n _ => (n, 0)
  | .add a b => ((supply v a).1 + (supply v b).1, (supply v a).2 + (supply v b).2)
  | .cond c a b =>
    if (supply v c).1 ≠ 0 then ((supply v a).1, (supply v c).2 + (supply v a).2)
    else ((supply v b).1, (supply v c).2 + (supply v b).2)

end Makeshift.AnySource.Spec
