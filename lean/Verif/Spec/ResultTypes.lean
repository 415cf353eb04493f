import Verif.Model.ResultTypes

/-! Specification vocabulary for the argument types of functors. -/

namespace Makeshift.Spec

open ResultTypes

/-- Lvalue or rvalue reference, depending on how the argument is passed. -/
def refOf (lvalue : Bool) : Ref := if lvalue then .lvalue else .rvalue

/-- `Element i a t`: for the `i`-th element of the argument `a`, the functor gets an argument of type `t`.  Elements of arrays and tuples
are `const` if they are declared so or if the array or tuple is `const`; elements of reference type do not inherit `const`, and lvalue
references stay lvalues. -/
inductive Element : Nat → Arg → CTy → Prop
  | array {i n : Nat} {e : Base} {c k lv : Bool} : i < n → Element i ⟨.array e c n, k, lv⟩ ⟨e, c || k, refOf lv⟩
  | object {i : Nat} {es : List CTy} {e : Base} {c k lv : Bool} :
      es[i]? = some ⟨e, c, .none⟩ → Element i ⟨.tuple es, k, lv⟩ ⟨e, c || k, refOf lv⟩
  | lvalueRef {i : Nat} {es : List CTy} {e : Base} {c k lv : Bool} :
      es[i]? = some ⟨e, c, .lvalue⟩ → Element i ⟨.tuple es, k, lv⟩ ⟨e, c, .lvalue⟩
  | rvalueRef {i : Nat} {es : List CTy} {e : Base} {c k lv : Bool} :
      es[i]? = some ⟨e, c, .rvalue⟩ → Element i ⟨.tuple es, k, lv⟩ ⟨e, c, refOf lv⟩
  | rangeIndex {i : Nat} {k lv : Bool} : Element i ⟨.rangeIndex, k, lv⟩ ⟨.index, false, .none⟩
  | tupleIndex {i : Nat} {k lv : Bool} : Element i ⟨.tupleIndex, k, lv⟩ ⟨.indexConstant i, false, .none⟩

/-- `Count a n`: the array or tuple `a` has `n` elements. -/
inductive Count : Arg → Nat → Prop
  | array {n : Nat} {e : Base} {c k lv : Bool} : Count ⟨.array e c n, k, lv⟩ n
  | tuple {es : List CTy} {k lv : Bool} : Count ⟨.tuple es, k, lv⟩ es.length

/-- Some argument is a tuple or `tuple_index`. -/
def HasTupleArg (args : List Arg) : Prop := ∃ a ∈ args, (∃ es, a.kind = .tuple es) ∨ a.kind = .tupleIndex

end Makeshift.Spec
