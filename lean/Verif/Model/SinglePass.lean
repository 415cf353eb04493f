import Verif.Model.Zip

/-!
# Single-pass ranges as arguments of the range algorithms

Model of `detail/zip.hpp` lines 303-386, `detail/algorithm.hpp` lines 24-156 and 390-399 and `algorithm.hpp` lines 64-103 and 164-304, for ranges
which read their elements from a stream: `begin()` returns `std::istream_iterator<T>(stream)`, `end()` returns `std::istream_iterator<T>()`.
The iterator reads an element when it is constructed and whenever it is incremented ([istream.iterator]), so that every call of `begin()` and
every increment has an effect on the stream.  Other ranges, and `range_index`, may be passed along.

Simplifications: as in Model/Zip.lean, except that iterators are single-pass; elements are values; the streams are used by nobody else.
-/

namespace Makeshift.SinglePass

variable {α σ β : Type}

/-- The elements which are yet to be read from the streams, by number of the stream. -/
abbrev World (α : Type) := Nat → List α

/-- A range argument: the elements read from a stream up to its end; the same with a member function `size()`, which returns `n`; or a range
which can be traversed any number of times. -/
inductive Leaf (α : Type) where
  | stream (id : Nat)
  | counted (id n : Nat)
  | multi (r : Rng α)
  deriving DecidableEq, Repr

/-- An iterator of a leaf: an `istream_iterator` with its element (`none`: end of stream), or the offset from the beginning. -/
inductive Pos (α : Type) where
  | token (cur : Option α)
  | offset (p : Int)
  deriving DecidableEq, Repr

/-- detail/zip.hpp:540-568 `range_size`. -/
def Leaf.size : Leaf α → Size
  | .stream _ => .static unknownSize
  | .counted _ n => .dyn n
  | .multi r => r.size

/-- detail/zip.hpp:99-107, 234-243 `iterator_mode`: neither has `data()`. -/
def Leaf.mode : Leaf α → LeafMode
  | .stream _ => .iteratorPair
  | .counted _ _ => .iterator
  | .multi r => r.mode

/-- [istream.iterator]: an element is read from the stream. -/
def next (id : Nat) (w : World α) : Pos α × World α :=
  (.token (w id).head?, fun j => if j = id then (w id).tail else w j)

/-- A leaf constructed for the beginning: detail/zip.hpp:316-319, 362-365. -/
def Leaf.start : Leaf α → World α → Pos α × World α
  | .stream id, w => next id w
  | .counted id _, w => next id w
  | .multi r, w => (.offset (leafBegin r), w)

/-- A leaf constructed with `end_tag`: detail/zip.hpp:320-323 calls `end()` only; 362-365 calls `begin()`. -/
def Leaf.stop : Leaf α → World α → Pos α × World α
  | .stream _, w => (.token none, w)
  | .counted id _, w => next id w
  | .multi r, w => (.offset (leafEnd r), w)

/-- `_inc` of a leaf: detail/zip.hpp:324-327, 366-369.  Incrementing an iterator at the end of its stream is undefined. -/
def Leaf.inc : Leaf α → Pos α → World α → Outcome (Pos α × World α)
  | .stream id, .token (some _), w => .ok (next id w)
  | .counted id _, .token (some _), w => .ok (next id w)
  | .multi r, .offset p, w => (leafInc r p).mapVal fun q => (.offset q, w)
  | _, _, _ => .ub

/-- `_deref(i)` of a leaf: detail/zip.hpp:336-339, 378-381.  The iterator keeps the element it has read. -/
def Leaf.deref (i : Int) : Leaf α → Pos α → Outcome (Arg α)
  | .stream _, .token (some a) => .ok (.elem a)
  | .counted _ _, .token (some a) => .ok (.elem a)
  | .multi r, .offset p => leafDeref i r p
  | _, _ => .ub

/-- `_check_end(isEnd)` of a leaf: detail/zip.hpp:344-347 (pair), 295-297 (others). -/
def Leaf.checkEnd (isEnd : Bool) : Leaf α → Pos α → Outcome Unit
  | .stream _, .token cur => Outcome.expects (cur.isNone == isEnd)
  | .counted _ _, .token _ => .ok ()
  | .multi r, .offset p => leafCheckEnd isEnd r p
  | _, _ => .ub

/-- `_is_end()` of a leaf: detail/zip.hpp:348-351 (pair), 298-301 (others). -/
def Leaf.isEnd : Leaf α → Pos α → Option Bool
  | .stream _, .token cur => some cur.isNone
  | .multi r, .offset p => leafIsEnd r p
  | _, _ => none

/-- A zip iterator, detail/algorithm.hpp:94-126. -/
structure It (α : Type) where
  i : Int
  pos : List (Pos α)
  deriving DecidableEq, Repr

/-- A pack expansion in a list of base class initialisers: from left to right. -/
def initAll (f : Leaf α → World α → Pos α × World α) : List (Leaf α) → World α → List (Pos α) × World α
  | [], w => ([], w)
  | l :: ls, w => ((f l w).1 :: (initAll f ls (f l w).2).1, (initAll f ls (f l w).2).2)

/-- detail/algorithm.hpp:129-132, 390-394 `begin()`. -/
def begin_ (ls : List (Leaf α)) (w : World α) : It α × World α := (⟨0, (initAll Leaf.start ls w).1⟩, (initAll Leaf.start ls w).2)

/-- detail/algorithm.hpp:133-136, 395-399 `common_end()`. -/
def end_ (size : Size) (ls : List (Leaf α)) (w : World α) : It α × World α :=
  (⟨size.value, (initAll Leaf.stop ls w).1⟩, (initAll Leaf.stop ls w).2)

/-- The braced list of detail/algorithm.hpp:152-153: the leaves from left to right. -/
def incAll : List (Leaf α) → List (Pos α) → World α → Outcome (List (Pos α) × World α)
  | l :: ls, p :: ps, w => (l.inc p w).bind fun (q, w) => (incAll ls ps w).mapVal fun (qs, w) => (q :: qs, w)
  | _, _, w => .ok ([], w)

/-- detail/algorithm.hpp:150-156 `operator ++`. -/
def It.inc (ls : List (Leaf α)) (it : It α) (w : World α) : Outcome (It α × World α) :=
  (incAll ls it.pos w).mapVal fun (ps, w) => (⟨it.i + 1, ps⟩, w)

/-- A pack expansion of operations which do not read from the streams. -/
def forAll (f : Leaf α → Pos α → Outcome β) : List (Leaf α) → List (Pos α) → Outcome (List β)
  | l :: ls, p :: ps => (f l p).bind fun b => (forAll f ls ps).mapVal (b :: ·)
  | _, _ => .ok []

/-- detail/algorithm.hpp:146-149 `operator *`, 258-262 `apply`. -/
def It.deref (ls : List (Leaf α)) (it : It α) : Outcome (List (Arg α)) := forAll (Leaf.deref it.i) ls it.pos

/-- Whether `it == sentinel` compiles: detail/algorithm.hpp:60-71, 105-108. -/
def sentinelCompiles (ls : List (Leaf α)) (size : Size) : Bool :=
  if size = .static unknownSize then isEndTy (ls.map fun l => if l.mode = .iteratorPair then .bool else .nullopt) = some .bool else true

/-- `_is_end()` of all leaves, detail/algorithm.hpp:105-108. -/
def endFlags : List (Leaf α) → List (Pos α) → List (Option Bool)
  | l :: ls, p :: ps => l.isEnd p :: endFlags ls ps
  | _, _ => []

/-- detail/algorithm.hpp:24-71, 173-176 `it == sentinel`. -/
def It.isEnd (ls : List (Leaf α)) (size : Size) (it : It α) : Outcome Bool :=
  if size = .static unknownSize then (isEndVal (endFlags ls it.pos)).mapVal fun e => e.getD false
  else (forAll (Leaf.checkEnd (decide (it.i = size.value))) ls it.pos).mapVal fun _ => decide (it.i = size.value)

/-- An outcome as the end of an algorithm. -/
def finish (s : σ) : Outcome β → Result σ
  | .ok _ => .done s (.ok ())
  | .throw m => .done s (.throw m)
  | .failFast => .done s .failFast
  | .ub => .done s .ub

/-- The loop `for (; it != end; ++it) { body(it.apply(...)) }` of algorithm.hpp:99-102 and its siblings, with at most `fuel` tests of the
condition.  The body updates the state and says whether to go on (`false`: `return`). -/
def loop (ls : List (Leaf α)) (size : Size) (body : σ → List (Arg α) → σ × Bool) : Nat → It α → World α → σ → Result (σ × World α)
  | 0, _, _, _ => .unfinished
  | fuel + 1, it, w, s =>
    match it.isEnd ls size with
    | .ok false =>
      match it.deref ls with
      | .ok args =>
        let r := body s args
        if r.2 then
          match it.inc ls w with
          | .ok (it', w') => loop ls size body fuel it' w' r.1
          | e => finish (r.1, w) e
        else .done (r.1, w) (.ok ())
      | e => finish (s, w) e
    | e => finish (s, w) e

/-- Everything `range_for` and its siblings share: algorithm.hpp:94-98, 168-173, 218-222, ... -/
def algorithm (ls : List (Leaf α)) (body : σ → List (Arg α) → σ × Bool) (fuel : Nat) (w : World α) (init : σ) : Result (σ × World α) :=
  if ls.all (fun l => l.mode = .rangeIndex) then .illFormed
  else match mergeSizes (ls.map Leaf.size) with
    | .staticMismatch => .illFormed
    | .failFast => .done (init, w) .failFast
    | .ok size =>
      if sentinelCompiles ls size then loop ls size body fuel (begin_ ls w).1 (begin_ ls w).2 init else .illFormed

/-- algorithm.hpp:90-103 `range_for`; the state is the list of calls of the functor. -/
def forEach (ls : List (Leaf α)) (fuel : Nat) (w : World α) : Result (List (List (Arg α)) × World α) :=
  algorithm ls (fun calls args => (calls ++ [args], true)) fuel w []

/-- algorithm.hpp:265-279 `range_any_of`; the state is the result and the list of predicate calls. -/
def anyOf (pred : List (Arg α) → Bool) (ls : List (Leaf α)) (fuel : Nat) (w : World α) : Result ((Bool × List (List (Arg α))) × World α) :=
  algorithm ls (fun s args => if pred args then ((true, s.2 ++ [args]), false) else ((s.1, s.2 ++ [args]), true)) fuel w (false, [])

/-- A range-based for loop with iterators of the same type: it stops when the indices are equal (detail/algorithm.hpp:165-172). -/
def commonLoop (ls : List (Leaf α)) (stop : It α) : Nat → It α → World α → List (List (Arg α)) → Result (List (List (Arg α)) × World α)
  | 0, _, _, _ => .unfinished
  | fuel + 1, it, w, calls =>
    if it.i = stop.i then .done (calls, w) (.ok ())
    else
      match it.deref ls with
      | .ok args =>
        match it.inc ls w with
        | .ok (it', w') => commonLoop ls stop fuel it' w' (calls ++ [args])
        | e => finish (calls ++ [args], w) e
      | e => finish (calls, w) e

/-- `for (auto&& tuple : range_zip(ranges...))`, algorithm.hpp:64-75: `begin()` is called before `end()` ([stmt.ranged]). -/
def zipEach (ls : List (Leaf α)) (fuel : Nat) (w : World α) : Result (List (List (Arg α)) × World α) :=
  match mergeSizes (ls.map Leaf.size) with
  | .staticMismatch => .illFormed
  | .failFast => .done ([], w) .failFast
  | .ok size =>
    if size = .static unknownSize then .illFormed
    else
      let b := begin_ ls w
      let e := end_ size ls b.2
      commonLoop ls e.1 fuel b.1 e.2 []

/-- `for (auto&& tuple : range_zip_sentinel(ranges...))`, experimental/algorithm.hpp:99-107. -/
def zipSentinelEach (ls : List (Leaf α)) (fuel : Nat) (w : World α) : Result (List (List (Arg α)) × World α) :=
  match mergeSizes (ls.map Leaf.size) with
  | .staticMismatch => .illFormed
  | .failFast => .done ([], w) .failFast
  | .ok size =>
    if size = .static unknownSize then .illFormed
    else loop ls size (fun calls args => (calls ++ [args], true)) fuel (begin_ ls w).1 (begin_ ls w).2 []

/-- `for (auto&& x : stream range)`, algorithm.hpp:191-203 `range_reduce`: the elements read, and what is left. -/
def reduceStream (reduce : σ → α → σ) (id : Nat) (w : World α) (init : σ) : Nat → Option (σ × World α)
  | fuel => go fuel (next id w) init
where
  go : Nat → Pos α × World α → σ → Option (σ × World α)
  | 0, _, _ => none
  | fuel + 1, (.token (some a), w), s => go fuel (next id w) (reduce s a)
  | _ + 1, (_, w), s => some (s, w)

end Makeshift.SinglePass
