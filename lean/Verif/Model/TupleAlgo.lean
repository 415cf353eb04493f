import Verif.Model.Fill

/-!
# Tuple and array algorithms

Model of `tuple.hpp`, `array.hpp`, `detail/tuple-transform.hpp`, `detail/tuple.hpp`, `detail/array.hpp`, `detail/indices-2d.hpp`.

A tuple is the list of its elements.  The element types of a C++ tuple may differ; the model uses one type `α` of values (which may
be a sum).  Result type computations (`homogeneous_result_`, `decay_t`) are not modelled.  Functors may have side effects: they
take and return the program state `S`.  `Option` is used where the call may fail to compile: `none` means ill-formed.
-/

namespace Makeshift

variable {α β V S : Type}

/-- An argument of a tuple algorithm: a tuple-like value, `range_index` or `tuple_index`
(detail/tuple-transform.hpp:32-42 `is_tuple_arg`). -/
inductive TArg (α : Type) where
  | tuple (elems : List α)
  | rangeIndex
  | tupleIndex

/-- What a functor receives for one argument: an element, `gsl::index` or `integral_constant<gsl::index, I>`. -/
inductive TVal (α : Type) where
  | elem (a : α)
  | index (i : Nat)
  | indexConstant (i : Nat)
  deriving DecidableEq, Repr

/-- detail/tuple-transform.hpp:44-46 `maybe_tuple_size_`. -/
def TArg.maybeSize : TArg α → Int
  | .tuple l => l.length
  | .rangeIndex => -1
  | .tupleIndex => -1

/-- detail/tuple-transform.hpp:48-58 `equal_sizes_0_`: the value of the trait and its `size` member. -/
def equalSizes0 : Bool → Int → List Int → Bool × Int
  | true, _, _ => (false, -1)
  | false, n, [] => (true, n)
  | false, n, s :: ss =>
    equalSizes0 (decide (n ≠ -1) && decide (s ≠ -1) && decide (n ≠ s)) (if n ≠ -1 then n else s) ss

/-- detail/tuple-transform.hpp:59 `equal_sizes_`. -/
def equalSizes (sizes : List Int) : Bool × Int := equalSizes0 false (-1) sizes

/-- detail/tuple-transform.hpp:94-103 `tuple_transform_size`; `n` is -1 if no size was given.  The three conditions are the three
`static_assert`s. -/
def tupleTransformSize (n : Int) (args : List (TArg α)) : Option Nat :=
  let eq := equalSizes (args.map TArg.maybeSize)
  if eq.1 = true ∧ (n ≠ -1 ∨ eq.2 ≠ -1 ∨ n = eq.2) ∧ (n ≠ -1 ∨ eq.2 ≠ -1) then
    some (if n ≠ -1 then n else eq.2).toNat
  else none

/-- detail/tuple-transform.hpp:62-67 `get_element<I>`, with `get<I>(range_index_t)` and `get<I>(tuple_index_t)` from
detail/zip.hpp:62-67 and 84-89.  An index past the end of a tuple is ill-formed. -/
def getElement (i : Nat) : TArg α → Option (TVal α)
  | .tuple l => (l[i]?).map .elem
  | .rangeIndex => some (.index i)
  | .tupleIndex => some (.indexConstant i)

/-- `get_element<I>(args)...`. -/
def getElements (i : Nat) : List (TArg α) → Option (List (TVal α))
  | [] => some []
  | a :: as => (getElement i a).bind fun v => (getElements i as).map (v :: ·)

/-- A functor call: arguments and program state to result and program state. -/
abbrev Func (α β S : Type) := List (TVal α) → S → β × S

/-- detail/tuple-transform.hpp:70-75 `transform_element<I>`. -/
def transformElement (i : Nat) (func : Func α β S) (args : List (TArg α)) (s : S) : Option (β × S) :=
  (getElements i args).map fun vs => func vs s

/-- detail/tuple-transform.hpp:77-92 `template_for_impl`.  The calls are the clauses of a braced initialiser list, which are
evaluated in order ([dcl.init.list]). -/
def templateForImpl (func : Func α β S) (args : List (TArg α)) : List Nat → S → Option S
  | [], s => some s
  | i :: is, s => (transformElement i func args s).bind fun r => templateForImpl func args is r.2

/-- tuple.hpp:116-142 `template_for` (`n` is -1 for the overload without a size). -/
def templateFor (n : Int) (func : Func α β S) (args : List (TArg α)) (s : S) : Option S :=
  (tupleTransformSize n args).bind fun size => templateForImpl func args (List.range size) s

/-- Evaluation of the calls `transform_element<Is>(func, args...)...` in the order given by `is`, remembering each result with
its index. -/
def evalCalls (func : Func α β S) (args : List (TArg α)) : List Nat → S → Option (List (Nat × β) × S)
  | [], s => some ([], s)
  | i :: is, s =>
    (transformElement i func args s).bind fun r => (evalCalls func args is r.2).map fun rs => ((i, r.1) :: rs.1, rs.2)

/-- The constructor arguments in positional order, whatever the order of their evaluation was. -/
def assemble (size : Nat) (results : List (Nat × β)) : Option (List β) :=
  (List.range size).mapM fun i => results.lookup i

/-- tuple.hpp:154-216 `tuple_transform` and detail/tuple.hpp:129-142 `tuple_transform_impl`.  The calls are the arguments of a
parenthesised constructor call, so the implementation may evaluate them in any order ([expr.call]); `order` is the one it
chooses, a permutation of the indices. -/
def tupleTransform (n : Int) (func : Func α β S) (args : List (TArg α)) (order : List Nat) (s : S) : Option (List β × S) :=
  (tupleTransformSize n args).bind fun size =>
    (evalCalls func args order s).bind fun r => (assemble size r.1).map fun l => (l, r.2)

/-- detail/array.hpp:82-116 `array_transform_impl`, `array_transform_to_impl`: a braced initialiser list, evaluated in order. -/
def arrayTransformImpl (func : Func α β S) (args : List (TArg α)) : List Nat → S → Option (List β × S)
  | [], s => some ([], s)
  | i :: is, s =>
    (transformElement i func args s).bind fun r => (arrayTransformImpl func args is r.2).map fun rs => (r.1 :: rs.1, rs.2)

/-- array.hpp:43-176 `array_transform` (all overloads; `n` is -1 for those without a size). -/
def arrayTransform (n : Int) (func : Func α β S) (args : List (TArg α)) (s : S) : Option (List β × S) :=
  (tupleTransformSize n args).bind fun size => arrayTransformImpl func args (List.range size) s

/-- detail/tuple.hpp:145-164 `transform_reduce_fn<LReduce, N, ...>::operator()`; `fuel` is the number `N - I` of steps left. -/
def transformReduceFn (lreduce : Bool) (size : Nat) (reduce : V → β → S → V × S) (transform : Func α β S) (args : List (TArg α)) :
    Nat → V → S → Option (V × S)
  | 0, value, s => some (value, s)                            -- lines 159-163: I = N
  | fuel + 1, value, s =>
    let i := size - (fuel + 1)
    (transformElement (if lreduce then i else size - 1 - i) transform args s).bind fun r =>
      let r' := reduce value r.1 r.2
      transformReduceFn lreduce size reduce transform args fuel r'.1 r'.2

/-- tuple.hpp:229-238 `template_transform_reduce`. -/
def templateTransformReduce (initial : V) (reduce : V → β → S → V × S) (transform : Func α β S) (args : List (TArg α)) (s : S) :
    Option (V × S) :=
  (tupleTransformSize (-1) args).bind fun size => transformReduceFn true size reduce transform args size initial s

/-- tuple.hpp:250-259 `template_reduce`: one tuple, transformed by the identity. -/
def templateReduce (t : List α) (initial : V) (reduce : V → TVal α → S → V × S) (s : S) : Option (V × S) :=
  (tupleTransformSize (-1) [TArg.tuple t]).bind fun size =>
    transformReduceFn true size reduce (fun vs s => (vs.headD (.index 0), s)) [TArg.tuple t] size initial s

/-- detail/tuple.hpp:165-181 `conjunction_fn<N, PredFuncT, TransformFuncT>::operator()`; `pred` is `PredFuncT`, `fuel` is
`N - I`. -/
def conjunctionFn (size : Nat) (pred : Bool → Bool) (transform : Func α Bool S) (args : List (TArg α)) :
    Nat → S → Option (Bool × S)
  | 0, s => some (true, s)
  | fuel + 1, s =>
    (transformElement (size - (fuel + 1)) transform args s).bind fun r =>
      if !pred r.1 then some (false, r.2) else conjunctionFn size pred transform args fuel r.2

/-- tuple.hpp:270-279 `template_all_of`. -/
def templateAllOf (p : Func α Bool S) (args : List (TArg α)) (s : S) : Option (Bool × S) :=
  (tupleTransformSize (-1) args).bind fun size => conjunctionFn size id p args size s

/-- tuple.hpp:290-299 `template_any_of`. -/
def templateAnyOf (p : Func α Bool S) (args : List (TArg α)) (s : S) : Option (Bool × S) :=
  (tupleTransformSize (-1) args).bind fun size => (conjunctionFn size not p args size s).map fun r => (!r.1, r.2)

/-- tuple.hpp:310-319 `template_none_of`. -/
def templateNoneOf (p : Func α Bool S) (args : List (TArg α)) (s : S) : Option (Bool × S) :=
  (tupleTransformSize (-1) args).bind fun size => conjunctionFn size not p args size s

/-- detail/indices-2d.hpp:14-18 `cadd` over the sizes (in `Nat`: the wrap-around of `size_t` is not modelled, as no tuple is that
large). -/
def cadd : List Nat → Nat
  | [] => 0
  | s :: ss => s + cadd ss

/-- detail/indices-2d.hpp:27-37 and 38-48 `indices_2d_::row`, `col`: both run the same loop over the sizes and return `r` resp.
`i`.  Running past the last size is not a constant expression, hence ill-formed. -/
def rowCol : List Nat → Nat → Nat → Option (Nat × Nat)
  | [], _, _ => none
  | size :: sizes, r, i => if i ≥ size then rowCol sizes (r + 1) (i - size) else some (r, i)

/-- `get<col(I)>(get<row(I)>(tuples))`. -/
def catElement (tuples : List (List α)) (i : Nat) : Option α :=
  (rowCol (tuples.map List.length) 0 i).bind fun rc => (tuples[rc.1]?).bind fun t => t[rc.2]?

/-- tuple.hpp:338-363 `tuple_cat` and detail/tuple.hpp:260-273 `tuple_cat_impl`; array.hpp:246-279 `array_cat` and
detail/array.hpp:119-133 `array_cat_impl` are the same computation. -/
def tupleCat (tuples : List (List α)) : Option (List α) :=
  (List.range (cadd (tuples.map List.length))).mapM (catElement tuples)

/-- detail/tuple.hpp:68-74 `operator ==` of `value_tuple`: fold over `&&`.  Both tuples have the same type, hence size. -/
def valueTupleEq (eq : α → α → Bool) : List α → List α → Bool
  | a :: as, b :: bs => eq a b && valueTupleEq eq as bs
  | _, _ => true

/-- detail/tuple.hpp:75-81 `operator !=` of `value_tuple`: fold over `&&` of the element-wise `!=`. -/
def valueTupleNe (ne : α → α → Bool) : List α → List α → Bool
  | a :: as, b :: bs => ne a b && valueTupleNe ne as bs
  | _, _ => true

/-- detail/tuple.hpp:88-104: the fold over `||` of `apply`, with the captured variable `result`. -/
def valueTupleLtLoop (lt : α → α → Bool) : Bool → List α → List α → Bool
  | result, a :: as, b :: bs =>
    if lt a b then true
    else if lt b a then false
    else valueTupleLtLoop lt result as bs
  | result, _, _ => result

/-- detail/tuple.hpp:82-106 `operator <` of `value_tuple`. -/
def valueTupleLt (lt : α → α → Bool) (lhs rhs : List α) : Bool := valueTupleLtLoop lt false lhs rhs

/-- detail/tuple.hpp:107-113 `operator >`. -/
def valueTupleGt (lt : α → α → Bool) (lhs rhs : List α) : Bool := valueTupleLt lt rhs lhs

/-- detail/tuple.hpp:114-120 `operator <=`. -/
def valueTupleLe (lt : α → α → Bool) (lhs rhs : List α) : Bool := !valueTupleLt lt rhs lhs

/-- detail/tuple.hpp:121-127 `operator >=`. -/
def valueTupleGe (lt : α → α → Bool) (lhs rhs : List α) : Bool := !valueTupleLt lt lhs rhs

/-- array.hpp:213-244 `array_iota`: `for i < N: result[i] = value; ++value`. -/
def arrayIota (inc : α → Outcome α) : Nat → α → Outcome (List α)
  | 0, _ => .ok []
  | n + 1, value => (inc value).bind fun next => (arrayIota inc n next).bind fun rest => .ok (value :: rest)

/-- array.hpp:187-204 `array_fill`: `array_transform_to_impl` with `fill_fn` (detail/zip.hpp:33-41) and no arguments. -/
def arrayFill (size : Nat) (value : α) : Option (List α) :=
  (arrayTransformImpl (α := Empty) (S := Unit) (fun _ s => (value, s)) [] (List.range size) ()).map (·.1)

end Makeshift
