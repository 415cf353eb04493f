import Verif.Model.Zip

/-!
# Range algorithms over user-defined iterators

Model of `detail/zip.hpp` lines 303-410 and 540-568, `detail/algorithm.hpp` lines 24-156 and 258-276 and `algorithm.hpp` lines 64-304, for ranges and iterators which are classes of
the user's: what the user's functions answer may depend on everything that has happened before, and every call of them is recorded.  Where the language does not say in which order
arguments are evaluated, the order is a parameter.

Simplifications: a `return` in the body of the loop is expressed by the value which the functor returns.  Access to an element by `data()[i]` is no call of a function of the user's; it is
denoted by `.cell i`.  Copying and destroying iterators is not recorded.
-/

namespace Makeshift.UserOps

variable {α β γ : Type}

/-- What a functor receives: the result of `*it`, the element `data()[i]`, or the index. -/
inductive Val (α : Type) where
  | elem (a : α)
  | cell (i : Int)
  | index (i : Int)
  deriving DecidableEq, Repr

/-- A call of a function of the user's, for range argument `r`: `size()`, `begin()`, `end()`, `data()`, `it == end`, `*it`, `++it`; the assignment `*it = value`; a call of the functor. -/
inductive Op (α : Type) where
  | size (r : Nat)
  | begin_ (r : Nat)
  | end_ (r : Nat)
  | data (r : Nat)
  | eq (r : Nat)
  | deref (r : Nat)
  | inc (r : Nat)
  | assign (r : Nat)
  | call (args : List (Val α))
  deriving DecidableEq, Repr

/-- What is returned: a number, an element, or whether iterators are equal resp. whether the loop is to go on. -/
def Op.Reply : Op α → Type
  | .size _ => Int
  | .eq _ => Bool
  | .deref _ => α
  | .call _ => Bool
  | _ => Unit

/-- A call which has returned, or one which has thrown an exception. -/
inductive Event (α : Type) where
  | did (op : Op α) (r : op.Reply)
  | threw (op : Op α)

/-- The user's code: the answer may depend on all earlier calls; `none` stands for an exception. -/
abbrev User (α : Type) := List (Event α) → (op : Op α) → Option op.Reply

/-- Why an algorithm ends before its time: an exception of the user's, `std::terminate()`, a violated precondition, rejection by the compiler; `running`: not finished in the number of steps
considered. -/
inductive Stop where
  | exception | terminated | failFast | illFormed | running
  deriving DecidableEq, Repr

/-- How a part of an algorithm ends. -/
inductive Ending (β : Type) where
  | ok (b : β)
  | stop (s : Stop)
  deriving DecidableEq, Repr

/-- A part of an algorithm: it adds calls to the record. -/
abbrev Act (α β : Type) := List (Event α) → List (Event α) × Ending β

/-- Nothing to do. -/
def pure' (b : β) : Act α β := fun h => (h, .ok b)

/-- An end. -/
def stop (s : Stop) : Act α β := fun h => (h, .stop s)

/-- One part after another. -/
def andThen (m : Act α β) (f : β → Act α γ) : Act α γ := fun h =>
  match m h with
  | (h', .ok b) => f b h'
  | (h', .stop s) => (h', .stop s)

/-- A call of a function of the user's. -/
def ask (u : User α) (op : Op α) : Act α op.Reply := fun h =>
  match u h op with
  | some r => (h ++ [.did op r], .ok r)
  | none => (h ++ [.threw op], .stop .exception)

/-- A pack expansion: for every number in the list, in this order; the results are paired with the numbers. -/
def each (f : Nat → Act α β) : List Nat → Act α (List (Nat × β))
  | [] => pure' []
  | r :: rs => andThen (f r) fun b => andThen (each f rs) fun bs => pure' ((r, b) :: bs)

/-- The results in the order of the pack, whatever the order of evaluation was. -/
def assemble (n : Nat) (results : List (Nat × β)) : List β := (List.range n).filterMap fun r => List.lookup r results

/-- A range argument: how it is iterated over, and its size if this is a constant. -/
structure Leaf where
  mode : LeafMode
  fixed : Option Nat
  deriving DecidableEq, Repr

/-- detail/zip.hpp:540-568 `range_size`: the functions are `noexcept`, so that an exception thrown by `size()` ends the program. -/
def leafSize (u : User α) (ls : List Leaf) (r : Nat) : Act α Size :=
  match ls[r]? with
  | some ⟨_, some n⟩ => pure' (.static n)
  | some ⟨.iterator, none⟩ | some ⟨.index, none⟩ => fun h =>
    match ask u (.size r) h with
    | (h', .ok n) => (h', .ok (.dyn n))
    | (h', .stop .exception) => (h', .stop .terminated)
    | (h', .stop s) => (h', .stop s)
  | _ => pure' (.static unknownSize)

/-- detail/zip.hpp:316-319, 362-365, 392-395, 411-413: a leaf constructed for the beginning. -/
def leafStart (u : User α) (ls : List Leaf) (r : Nat) : Act α Unit :=
  match (ls[r]?).map Leaf.mode with
  | some .iteratorPair => andThen (ask u (.begin_ r)) fun _ => ask u (.end_ r)
  | some .iterator => ask u (.begin_ r)
  | some .index => ask u (.data r)
  | _ => pure' ()

/-- detail/zip.hpp:320-323, 362-365, 392-395, 411-413: a leaf constructed with `end_tag`. -/
def leafStop (u : User α) (ls : List Leaf) (r : Nat) : Act α Unit :=
  match (ls[r]?).map Leaf.mode with
  | some .iteratorPair => ask u (.end_ r)
  | some .iterator => ask u (.begin_ r)
  | some .index => ask u (.data r)
  | _ => pure' ()

/-- detail/zip.hpp:344-347 (pair), 295-297 (others) `_check_end(isEnd)`. -/
def leafCheckEnd (u : User α) (isEnd : Bool) (ls : List Leaf) (r : Nat) : Act α Unit :=
  match (ls[r]?).map Leaf.mode with
  | some .iteratorPair => andThen (ask u (.eq r)) fun (b : Bool) => if b = isEnd then pure' () else stop .failFast
  | _ => pure' ()

/-- detail/zip.hpp:348-351 (pair), 298-301 (others) `_is_end()`. -/
def leafIsEnd (u : User α) (ls : List Leaf) (r : Nat) : Act α (Option Bool) :=
  match (ls[r]?).map Leaf.mode with
  | some .iteratorPair => andThen (ask u (.eq r)) fun (b : Bool) => pure' (some b)
  | _ => pure' none

/-- detail/zip.hpp:336-339, 378-381, 396-399, 414-417 `_deref(i)`. -/
def leafDeref (u : User α) (i : Int) (ls : List Leaf) (r : Nat) : Act α (Val α) :=
  match (ls[r]?).map Leaf.mode with
  | some .iteratorPair | some .iterator => andThen (ask u (.deref r)) fun (a : α) => pure' (.elem a)
  | some .index => pure' (.cell i)
  | _ => pure' (.index i)

/-- detail/zip.hpp:324-327, 366-369 (iterators), 286-288 (others) `_inc()`. -/
def leafInc (u : User α) (ls : List Leaf) (r : Nat) : Act α Unit :=
  match (ls[r]?).map Leaf.mode with
  | some .iteratorPair | some .iterator => ask u (.inc r)
  | _ => pure' ()

/-- detail/algorithm.hpp:24-71, 105-108, 139-143 `it == sentinel`: with a size, the leaves are checked from left to right (braced list), otherwise the leaves are evaluated as function arguments, in
the given order. -/
def isEnd (u : User α) (ls : List Leaf) (size : Size) (order : List Nat) (i : Int) : Act α Bool :=
  if size = .static unknownSize then
    andThen (each (leafIsEnd u ls) order) fun es =>
      match isEndVal (assemble ls.length es) with
      | .ok e => pure' (e.getD false)
      | _ => stop .failFast
  else
    andThen (each (leafCheckEnd u (decide (i = size.value)) ls) (List.range ls.length)) fun _ => pure' (decide (i = size.value))

/-- algorithm.hpp:99-102 and its siblings; detail/algorithm.hpp:258-262 `apply`: the elements are function arguments, evaluated in the given order; detail/algorithm.hpp:150-156 `++it`: from left
to right (braced list).  The result tells whether the loop has been finished (otherwise: `return` in the body). -/
def loop (u : User α) (ls : List Leaf) (size : Size) (checkOrder derefOrder : Nat → List Nat) : Nat → Nat → Act α Bool
  | 0, _ => stop .running
  | fuel + 1, i =>
    andThen (isEnd u ls size (checkOrder i) i) fun e =>
      if e then pure' true
      else
        andThen (each (leafDeref u i ls) (derefOrder i)) fun vs =>
          andThen (ask u (.call (assemble ls.length vs))) fun (go : Bool) =>
            if go then andThen (each (leafInc u ls) (List.range ls.length)) fun _ => loop u ls size checkOrder derefOrder fuel (i + 1)
            else pure' false

/-- The orders in which arguments of functions are evaluated: in the call of `merge_sizes()`, and in the `i`-th evaluation of `is_end()` and of `apply()`. -/
structure Orders where
  sizes : List Nat
  check : Nat → List Nat
  deref : Nat → List Nat

/-- Whether `it == sentinel` compiles: detail/algorithm.hpp:60-71, 105-108. -/
def sentinelCompiles (ls : List Leaf) (size : Size) : Bool :=
  if size = .static unknownSize then isEndTy (ls.map fun l => if l.mode = .iteratorPair then .bool else .nullopt) = some .bool else true

/-- algorithm.hpp:90-103 `range_for`, 164-183 `range_transform_reduce`, 214-304 `range_count_if`, `range_all_of`, `range_any_of`, `range_none_of`. -/
def algorithm (u : User α) (ls : List Leaf) (ord : Orders) (fuel : Nat) : Act α Bool :=
  andThen (each (leafSize u ls) ord.sizes) fun sizes =>
    match mergeSizes (assemble ls.length sizes) with
    | .staticMismatch => stop .illFormed
    | .failFast => stop .failFast
    | .ok size =>
      andThen (each (leafStart u ls) (List.range ls.length)) fun _ =>
        if sentinelCompiles ls size then loop u ls size ord.check ord.deref fuel 0 else stop .illFormed

/-- `for (auto&& tuple : z) body(tuple)` over `z = range_zip(rs...)`: detail/algorithm.hpp:146-149 `*it` (braced list), 159-166 `it != end`. -/
def zipLoop (u : User α) (ls : List Leaf) (size : Int) : Nat → Nat → Act α Bool
  | 0, _ => stop .running
  | fuel + 1, i =>
    if (i : Int) = size then pure' true
    else
      andThen (each (leafDeref u i ls) (List.range ls.length)) fun vs =>
        andThen (ask u (.call (assemble ls.length vs))) fun (go : Bool) =>
          if go then andThen (each (leafInc u ls) (List.range ls.length)) fun _ => zipLoop u ls size fuel (i + 1)
          else pure' false

/-- algorithm.hpp:64-80 `range_zip`, detail/algorithm.hpp:385-399 `begin()`, `common_end()`: the loop above. -/
def zipIterate (u : User α) (ls : List Leaf) (ord : Orders) (fuel : Nat) : Act α Bool :=
  andThen (each (leafSize u ls) ord.sizes) fun sizes =>
    match mergeSizes (assemble ls.length sizes) with
    | .staticMismatch => stop .illFormed
    | .failFast => stop .failFast
    | .ok size =>
      if size = .static unknownSize then stop .illFormed                -- static_assert, algorithm.hpp:72
      else
        andThen (each (leafStart u ls) (List.range ls.length)) fun _ =>
          andThen (each (leafStop u ls) (List.range ls.length)) fun _ => zipLoop u ls size.value fuel 0

/-- algorithm.hpp:141-151 `range_generate`, and 109-119, 126-136 `range_iota`, `range_fill`, where no functor is called (`calls` is false); in an assignment, the right side is evaluated first
([expr.ass]). -/
def fillLoop (u : User α) (calls : Bool) : Nat → Act α Unit
  | 0 => stop .running
  | fuel + 1 =>
    andThen (ask u (.eq 0)) fun (e : Bool) =>
      if e then pure' ()
      else
        andThen (if calls then ask u (.call []) else pure' true) fun _ =>
          andThen (ask u (.deref 0)) fun _ => andThen (ask u (.assign 0)) fun _ => andThen (ask u (.inc 0)) fun _ => fillLoop u calls fuel

/-- algorithm.hpp:109-151: `begin()`, `end()` and the loop. -/
def fill (u : User α) (calls : Bool) (fuel : Nat) : Act α Unit :=
  andThen (ask u (.begin_ 0)) fun _ => andThen (ask u (.end_ 0)) fun _ => fillLoop u calls fuel

/-- algorithm.hpp:198-201: the loop of `range_reduce`, a range-based `for`. -/
def reduceLoop (u : User α) : Nat → Act α Unit
  | 0 => stop .running
  | fuel + 1 =>
    andThen (ask u (.eq 0)) fun (e : Bool) =>
      if e then pure' ()
      else andThen (ask u (.deref 0)) fun (a : α) => andThen (ask u (.call [.elem a])) fun _ => andThen (ask u (.inc 0)) fun _ => reduceLoop u fuel

/-- algorithm.hpp:191-203 `range_reduce`. -/
def reduce (u : User α) (fuel : Nat) : Act α Unit :=
  andThen (ask u (.begin_ 0)) fun _ => andThen (ask u (.end_ 0)) fun _ => reduceLoop u fuel

end Makeshift.UserOps
