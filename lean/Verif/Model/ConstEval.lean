import Verif.Model.RangeObjects
import Verif.Model.PermutationOver
import Verif.Model.Expand

/-!
# Evaluation at compile time

Most functions of the library are declared `constexpr`.  A call of such a function is a constant expression only if its evaluation calls
no function which is not `constexpr`, throws no exception, does not terminate the program and has no undefined behaviour
([expr.const]).  This is a model of how algorithm.hpp:34-53, 90-103, 164-179, 214-304, variant.hpp:43-50, 98-105, 153-160 and
experimental/algorithm.hpp:26-88 are evaluated in constant expressions.

The functors and the operations on elements are given by what they do when they are evaluated; a call of them which is not a constant
expression is one which does not return regularly.
-/

namespace Makeshift.ConstEval

variable {α σ M V B : Type}

/-- The language standard. -/
inductive Std where
  | cpp17 | cpp20
  deriving DecidableEq, Repr

/-- Evaluation of an expression in a constant expression; `none`: it is not a constant expression. -/
def constant : Outcome α → Option α
  | .ok a => some a
  | _ => none

/-- A call of a function which is or is not declared `constexpr`. -/
def callOf (isConstexpr : Bool) (x : Option α) : Option α := if isConstexpr then x else none

/-- Evaluation of an algorithm: rejected by the compiler, not ended after the given number of rounds, not a constant expression, or a
value. -/
inductive CRes (σ : Type) where
  | illFormed
  | unfinished
  | notConstant
  | value (s : σ)
  deriving DecidableEq, Repr

/-- detail/algorithm.hpp:24-71, 173-180 `it == sentinel`, `it != sentinel`.  The sentinel for an unknown size (line 69) calls
`zip_iterator_base::_is_end` (lines 104-107), which is not `constexpr`; everything else is. -/
def zipIsEnd (rs : List (Rng α)) (size : Size) (it : ZipIt) : Option Bool :=
  if size = .static unknownSize then callOf false (constant (Makeshift.zipIsEnd rs size it))
  else callOf true (constant (Makeshift.zipIsEnd rs size it))

/-- The loop of algorithm.hpp:99-102 and its siblings.  The body updates the state and says whether to go on; `none`: the functor call
is not a constant expression. -/
def zipLoop (rs : List (Rng α)) (size : Size) (body : σ → List (Arg α) → Option (σ × Bool)) : Nat → ZipIt → σ → CRes σ
  | 0, _, _ => .unfinished
  | fuel + 1, it, s =>
    match zipIsEnd rs size it with
    | none => .notConstant
    | some true => .value s
    | some false =>
      match constant (zipDeref rs it) with
      | none => .notConstant
      | some args =>
        match body s args with
        | none => .notConstant
        | some (s', false) => .value s'
        | some (s', true) =>
          match constant (zipInc rs it) with
          | none => .notConstant
          | some it' => zipLoop rs size body fuel it' s'

/-- algorithm.hpp:94-98, 168-173, 218-222, ...: `merge_sizes` fails fast if the sizes differ. -/
def zipAlgorithm (rs : List (Rng α)) (body : σ → List (Arg α) → Option (σ × Bool)) (fuel : Nat) (init : σ) : CRes σ :=
  if rs.all (fun r => r.mode = .rangeIndex) then .illFormed
  else match mergeSizes (rs.map Rng.size) with
    | .staticMismatch => .illFormed
    | .failFast => .notConstant
    | .ok size => if sentinelWellFormed rs size then zipLoop rs size body fuel (zipBegin rs) init else .illFormed

/-- One round of an algorithm of Model/RangeObjects.lean in a constant expression: the functor has to return regularly. -/
def round (body : M × Outcome B → List (Arg Nat) → (M × Outcome B) × Bool) (s : M × B) (args : List (Arg Nat)) :
    Option ((M × B) × Bool) :=
  let r := body (s.1, .ok s.2) args
  (constant r.1.2).map fun b => ((r.1.1, b), r.2)

/-- algorithm.hpp:90-103 `range_for`. -/
def rangeFor (func : RangeObjects.Fn M Unit) (rs : List (Rng Nat)) (fuel : Nat) (m : M) : CRes (M × Unit) :=
  zipAlgorithm rs (round (RangeObjects.forBody func)) fuel (m, ())

/-- algorithm.hpp:164-179 `range_transform_reduce`. -/
def rangeTransformReduce (selfMove : V → V) (initialValue : V) (reduce : V → B → M → Outcome (RangeObjects.Returned V) × M)
    (transform : RangeObjects.Fn M B) (rs : List (Rng Nat)) (fuel : Nat) (m : M) : CRes (M × V) :=
  zipAlgorithm rs (round (RangeObjects.reduceBody selfMove reduce transform)) fuel (m, initialValue)

/-- algorithm.hpp:214-229 `range_count_if`. -/
def rangeCountIf (predicate : RangeObjects.Fn M Bool) (rs : List (Rng Nat)) (fuel : Nat) (m : M) : CRes (M × Nat) :=
  zipAlgorithm rs (round (RangeObjects.countBody predicate)) fuel (m, 0)

/-- algorithm.hpp:240-254 `range_all_of`. -/
def rangeAllOf (predicate : RangeObjects.Fn M Bool) (rs : List (Rng Nat)) (fuel : Nat) (m : M) : CRes (M × Bool) :=
  zipAlgorithm rs (round (RangeObjects.searchBody false false predicate)) fuel (m, true)

/-- algorithm.hpp:265-279 `range_any_of`. -/
def rangeAnyOf (predicate : RangeObjects.Fn M Bool) (rs : List (Rng Nat)) (fuel : Nat) (m : M) : CRes (M × Bool) :=
  zipAlgorithm rs (round (RangeObjects.searchBody true true predicate)) fuel (m, false)

/-- algorithm.hpp:290-304 `range_none_of`. -/
def rangeNoneOf (predicate : RangeObjects.Fn M Bool) (rs : List (Rng Nat)) (fuel : Nat) (m : M) : CRes (M × Bool) :=
  zipAlgorithm rs (round (RangeObjects.searchBody true false predicate)) fuel (m, true)

/-- variant.hpp:43-50 `expand_failfast`, 98-105 `try_expand`, 153-160 `expand`: these are `constexpr`, but `search_value_index`
(detail/variant.hpp:177-181), which they call first, is not. -/
def expand (mode : ExpandMode) (search : Outcome Int) (values : List α) : Option (Option α) :=
  (callOf false (constant search)).bind fun index => constant (expandWith mode (.ok index) values)

/-- Which `swap` is called for the elements: `std::swap`, or a function of their own namespace, which is `constexpr` or not. -/
inductive Swap where
  | std
  | own (isConstexpr : Bool)
  deriving DecidableEq, Repr

/-- [utility.swap] `std::swap` is `constexpr` since C++20. -/
def Swap.isConstexpr (std : Std) : Swap → Bool
  | .std => decide (std = .cpp20)
  | .own c => c

/-- algorithm.hpp:49-50, experimental/algorithm.hpp:52, 84: `swap(first[a], first[b])`. -/
def swapElems (isConstexpr : Bool) (l : List α) (a b : Nat) : Option (List α) := callOf isConstexpr (swapAt l a b)

/-- algorithm.hpp:34-53 `shuffle`; for the drawn numbers see Model/Permutation.lean. -/
def shuffle (std : Std) (swap : Swap) (draw : Nat → Nat) (l : List α) : Option (List α) :=
  shuffleOver (swapElems (swap.isConstexpr std)) draw l.length l

/-- The end of one of the permutation algorithms in a constant expression. -/
def permResult : PermEnd × PermMem (List α) → Option (PermState α)
  | (.done, s) => some ⟨s.mem, s.idx⟩
  | _ => none

/-- experimental/algorithm.hpp:26-58 `apply_permutation`. -/
def applyPermutation (std : Std) (swap : Swap) (s : PermState α) : Option (PermState α) :=
  permResult (permOver (swapElems (swap.isConstexpr std)) s.elems.length ⟨s.elems, s.idx⟩)

/-- experimental/algorithm.hpp:63-88 `apply_reverse_permutation`, which swaps indices with `std::swap` (line 85) after each swap of
elements. -/
def applyReversePermutation (std : Std) (swap : Swap) (s : PermState α) : Option (PermState α) :=
  permResult (revOver (swapElems (swap.isConstexpr std && Swap.std.isConstexpr std)) s.elems.length ⟨s.elems, s.idx⟩)

end Makeshift.ConstEval
