import Verif.Model.Zip

/-!
# Functors which change the containers an algorithm runs over

Model of the loops of `algorithm.hpp` lines 64-103 and 164-304 over the leaf iterators of `detail/zip.hpp` lines 303-426 with the sizes of
`detail/zip.hpp` lines 540-568, where the functor may change the containers: values, and also which elements there are.

Containers are linked lists, whose iterators stay valid until their element is erased, and vectors, whose pointers stay valid until the
elements are moved to another memory block.  Simplifications: elements are not moved from one list to another (`splice`); functors do not
throw; index arithmetic does not overflow.
-/

namespace Makeshift.ChangingRange

variable {α σ β : Type}

/-- The elements of a vector, and the memory block in which they are stored.  An operation which invalidates the pointer to the first element is one which
changes the block. -/
structure Vec (α : Type) where
  block : Nat
  elems : List α
  deriving DecidableEq, Repr

/-- The containers of a program by number.  The elements of a list come with the number of their node.
Numbers of erased nodes are not used again, so that an iterator is valid as long as there is a node with its number. -/
structure World (α : Type) where
  lists : Nat → List (Nat × α)
  vecs : Nat → Vec α

/-- A range argument: a list without `size()` such as `std::forward_list<>`; a list with `size()` such as `std::list<>`; a vector; or `range_index`. -/
inductive Leaf where
  | forwardList (c : Nat)
  | list (c : Nat)
  | vector (c : Nat)
  | index
  deriving DecidableEq, Repr

/-- What a leaf stores: an iterator (`none`: the end iterator, which always is valid); a pointer to the first element; or nothing. -/
inductive Pos where
  | node (id : Option Nat)
  | ptr (block : Nat)
  | nothing
  deriving DecidableEq, Repr

/-- What is passed to the functor: a reference to a list element or a vector element, with the value it has, or the index. -/
inductive Ref (α : Type) where
  | node (c id : Nat) (v : α)
  | cell (c i : Nat) (v : α)
  | idx (i : Int)
  deriving DecidableEq, Repr

/-- detail/zip.hpp:540-568 `range_size`. -/
def Leaf.size (w : World α) : Leaf → Size
  | .forwardList _ => .static unknownSize
  | .list c => .dyn (w.lists c).length
  | .vector c => .dyn (w.vecs c).elems.length
  | .index => .static unknownSize

/-- Whether a leaf has the mode `iterator_pair`: detail/zip.hpp:234-243. -/
def Leaf.endTy : Leaf → EndTy
  | .forwardList _ => .bool
  | _ => .nullopt

/-- A leaf constructed for the beginning: detail/zip.hpp:316-319, 362-365, 396-399, 415-417. -/
def Leaf.start (w : World α) : Leaf → Pos
  | .forwardList c => .node ((w.lists c).head?.map (·.1))
  | .list c => .node ((w.lists c).head?.map (·.1))
  | .vector c => .ptr (w.vecs c).block
  | .index => .nothing

/-- The node after a node; `none` if there is no such node any more. -/
def after (id : Nat) : List (Nat × α) → Option (Option Nat)
  | [] => none
  | (j, _) :: l => if j = id then some (l.head?.map (·.1)) else after id l

/-- The value stored in a node. -/
def valueOf (id : Nat) : List (Nat × α) → Option α
  | [] => none
  | (j, v) :: l => if j = id then some v else valueOf id l

/-- Incrementing an iterator of a list: undefined at the end, or if the element has been erased. -/
def nodeInc (l : List (Nat × α)) : Option Nat → Outcome Pos
  | some id =>
    match after id l with
    | some q => .ok (.node q)
    | none => .ub
  | none => .ub

/-- Dereferencing an iterator of a list. -/
def nodeDeref (c : Nat) (l : List (Nat × α)) : Option Nat → Outcome (Ref α)
  | some id =>
    match valueOf id l with
    | some v => .ok (.node c id v)
    | none => .ub
  | none => .ub

/-- Comparing an iterator of a list to the end iterator: undefined if the element has been erased. -/
def nodeIsEnd (l : List (Nat × α)) : Option Nat → Outcome Bool
  | some id => if (valueOf id l).isSome then .ok false else .ub
  | none => .ok true

/-- `_inc` of a leaf: detail/zip.hpp:324-327, 366-369, 286-288. -/
def Leaf.inc (w : World α) : Leaf → Pos → Outcome Pos
  | .forwardList c, .node p => nodeInc (w.lists c) p
  | .list c, .node p => nodeInc (w.lists c) p
  | .vector _, p => .ok p
  | .index, p => .ok p
  | _, _ => .ub

/-- `_deref(i)` of a leaf: detail/zip.hpp:336-339, 378-381, 400-403, 418-421. -/
def Leaf.deref (w : World α) (i : Int) : Leaf → Pos → Outcome (Ref α)
  | .forwardList c, .node p => nodeDeref c (w.lists c) p
  | .list c, .node p => nodeDeref c (w.lists c) p
  | .vector c, .ptr b =>
    if b ≠ (w.vecs c).block ∨ i < 0 then .ub
    else match (w.vecs c).elems[i.toNat]? with
      | some v => .ok (.cell c i.toNat v)
      | none => .ub
  | .index, _ => .ok (.idx i)
  | _, _ => .ub

/-- `_check_end(isEnd)` of a leaf: detail/zip.hpp:344-347 (pair), 295-297 (others). -/
def Leaf.checkEnd (w : World α) (isEnd : Bool) : Leaf → Pos → Outcome Unit
  | .forwardList c, .node p => (nodeIsEnd (w.lists c) p).bind fun e => Outcome.expects (e == isEnd)
  | .forwardList _, _ => .ub
  | _, _ => .ok ()

/-- `_is_end()` of a leaf: detail/zip.hpp:348-351 (pair), 298-301 (others). -/
def Leaf.isEnd (w : World α) : Leaf → Pos → Outcome (Option Bool)
  | .forwardList c, .node p => (nodeIsEnd (w.lists c) p).mapVal some
  | .forwardList _, _ => .ub
  | _, _ => .ok none

/-- A zip iterator, detail/algorithm.hpp:94-126. -/
structure It where
  i : Int
  pos : List Pos
  deriving DecidableEq, Repr

/-- A pack expansion over the leaves. -/
def forAll (f : Leaf → Pos → Outcome β) : List Leaf → List Pos → Outcome (List β)
  | l :: ls, p :: ps => (f l p).bind fun b => (forAll f ls ps).mapVal (b :: ·)
  | _, _ => .ok []

/-- detail/algorithm.hpp:129-132, 390-394 `begin()`. -/
def begin_ (w : World α) (ls : List Leaf) : It := ⟨0, ls.map (Leaf.start w)⟩

/-- detail/algorithm.hpp:146-149 `operator *`, 258-262 `apply`. -/
def It.deref (w : World α) (ls : List Leaf) (it : It) : Outcome (List (Ref α)) := forAll (Leaf.deref w it.i) ls it.pos

/-- detail/algorithm.hpp:150-156 `operator ++`. -/
def It.inc (w : World α) (ls : List Leaf) (it : It) : Outcome It := (forAll (Leaf.inc w) ls it.pos).mapVal fun ps => ⟨it.i + 1, ps⟩

/-- Whether `it == sentinel` compiles: detail/algorithm.hpp:60-71, 105-108. -/
def sentinelCompiles (ls : List Leaf) (size : Size) : Bool :=
  if size = .static unknownSize then isEndTy (ls.map Leaf.endTy) = some .bool else true

/-- detail/algorithm.hpp:24-71, 173-176 `it == sentinel`. -/
def It.isEnd (w : World α) (ls : List Leaf) (size : Size) (it : It) : Outcome Bool :=
  if size = .static unknownSize then (forAll (Leaf.isEnd w) ls it.pos).bind fun es => (isEndVal es).mapVal fun e => e.getD false
  else (forAll (Leaf.checkEnd w (decide (it.i = size.value))) ls it.pos).mapVal fun _ => decide (it.i = size.value)

/-- A loop body: it may change the containers and its own state, and says whether to go on (`false`: `return`). -/
abbrev Body (α σ : Type) := World α → σ → List (Ref α) → World α × σ × Bool

/-- An outcome as the end of an algorithm. -/
def finish (s : σ) : Outcome β → Result σ
  | .ok _ => .done s (.ok ())
  | .throw m => .done s (.throw m)
  | .failFast => .done s .failFast
  | .ub => .done s .ub

/-- The loop `for (; it != end; ++it) { body(it.apply(...)) }` of algorithm.hpp:99-102 and its siblings, with at most `fuel` tests of the condition. -/
def loop (ls : List Leaf) (size : Size) (body : Body α σ) : Nat → It → World α → σ → Result (World α × σ)
  | 0, _, _, _ => .unfinished
  | fuel + 1, it, w, s =>
    match it.isEnd w ls size with
    | .ok false =>
      match it.deref w ls with
      | .ok args =>
        match body w s args with
        | (w', s', true) =>
          match it.inc w' ls with
          | .ok it' => loop ls size body fuel it' w' s'
          | e => finish (w', s') e
        | (w', s', false) => .done (w', s') (.ok ())
      | e => finish (w, s) e
    | e => finish (w, s) e

/-- Everything `range_for` and its siblings share: algorithm.hpp:94-98, 168-173, 218-222, ... -/
def algorithm (ls : List Leaf) (body : Body α σ) (fuel : Nat) (w : World α) (s : σ) : Result (World α × σ) :=
  if ls.all (fun l => l = .index) then .illFormed
  else match mergeSizes (ls.map (Leaf.size w)) with
    | .staticMismatch => .illFormed
    | .failFast => .done (w, s) .failFast
    | .ok size => if sentinelCompiles ls size then loop ls size body fuel (begin_ w ls) w s else .illFormed

/-- A range-based for loop over `range_zip(...)`: it stops when the indices are equal (detail/algorithm.hpp:165-172). -/
def commonLoop (ls : List Leaf) (stop : Int) (body : Body α σ) : Nat → It → World α → σ → Result (World α × σ)
  | 0, _, _, _ => .unfinished
  | fuel + 1, it, w, s =>
    if it.i = stop then .done (w, s) (.ok ())
    else
      match it.deref w ls with
      | .ok args =>
        match body w s args with
        | (w', s', true) =>
          match it.inc w' ls with
          | .ok it' => commonLoop ls stop body fuel it' w' s'
          | e => finish (w', s') e
        | (w', s', false) => .done (w', s') (.ok ())
      | e => finish (w, s) e

/-- `for (auto&& tuple : range_zip(ranges...)) { ... }`, algorithm.hpp:64-75. -/
def zipEach (ls : List Leaf) (body : Body α σ) (fuel : Nat) (w : World α) (s : σ) : Result (World α × σ) :=
  match mergeSizes (ls.map (Leaf.size w)) with
  | .staticMismatch => .illFormed
  | .failFast => .done (w, s) .failFast
  | .ok size =>
    if size = .static unknownSize then .illFormed
    else commonLoop ls size.value body fuel (begin_ w ls) w s

/-- The loop of `range_reduce` over one list, algorithm.hpp:198-201: a range-based for loop over the list itself. -/
def listLoop (c : Nat) (body : Body α σ) : Nat → Option Nat → World α → σ → Result (World α × σ)
  | 0, _, _, _ => .unfinished
  | fuel + 1, p, w, s =>
    match nodeIsEnd (w.lists c) p with
    | .ok false =>
      match nodeDeref c (w.lists c) p with
      | .ok arg =>
        match body w s [arg] with
        | (w', s', true) =>
          match nodeInc (w'.lists c) p with
          | .ok (.node q) => listLoop c body fuel q w' s'
          | e => finish (w', s') (e.bind fun _ => (.ub : Outcome Unit))
        | (w', s', false) => .done (w', s') (.ok ())
      | e => finish (w, s) e
    | e => finish (w, s) e

/-- algorithm.hpp:191-203 `range_reduce` for a list, with or without `size()`; the functor has the accumulator as its state. -/
def reduceList (c : Nat) (reduce : World α → σ → Ref α → World α × σ) (fuel : Nat) (w : World α) (init : σ) : Result (World α × σ) :=
  listLoop c (fun w s args => match args with
    | [r] => ((reduce w s r).1, (reduce w s r).2, true)
    | _ => (w, s, true)) fuel ((w.lists c).head?.map (·.1)) w init

/-- The same for a vector, where `begin()` and `end()` are called once; here `i` is the distance from the beginning, `n` that of the end.  Inserting or
erasing elements invalidates the end iterator ([vector.modifiers]), even if the block stays the same; so the comparison is undefined if the number of elements
has changed.  (A change which has been undone in the meantime is not noticed here.) -/
def vectorLoop (c block : Nat) (n : Nat) (reduce : World α → σ → Ref α → World α × σ) : Nat → Nat → World α → σ → Result (World α × σ)
  | 0, _, _, _ => .unfinished
  | fuel + 1, i, w, s =>
    if block ≠ (w.vecs c).block ∨ n ≠ (w.vecs c).elems.length then .done (w, s) .ub
    else match (w.vecs c).elems[i]? with
      | some v => vectorLoop c block n reduce fuel (i + 1) (reduce w s (.cell c i v)).1 (reduce w s (.cell c i v)).2
      | none => .done (w, s) (.ok ())

/-- algorithm.hpp:191-203 `range_reduce` for a vector. -/
def reduceVector (c : Nat) (reduce : World α → σ → Ref α → World α × σ) (fuel : Nat) (w : World α) (init : σ) : Result (World α × σ) :=
  vectorLoop c (w.vecs c).block (w.vecs c).elems.length reduce fuel 0 w init

end Makeshift.ChangingRange
