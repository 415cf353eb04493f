import Verif.Outcome
import Verif.Model.MergeSizes

/-!
# Zipped ranges and the algorithms on them

Model of `detail/zip.hpp` lines 234-426, `detail/algorithm.hpp` lines 24-468, `algorithm.hpp` lines 64-103, 164-304 and
`experimental/algorithm.hpp` lines 99-107.

A range is given by its elements, the way its leaf iterator works and the size `range_size` reports.  Iterator positions are
offsets from the beginning; moving an iterator out of `[begin, end]`, dereferencing it at the end and indexing out of bounds
are `ub`.  Simplifications: iterators are multi-pass; elements are passed by value; index arithmetic does not overflow;
functors do not throw.  Leaves of tuple type (lines 427-454) belong to the tuple algorithms.
-/

namespace Makeshift

variable {α σ β : Type}

/-- detail/zip.hpp:99-107, 234-243 `iterator_mode` of a leaf: no `data()` and no `size()` (also C arrays, whose decayed type
has neither; but these do not compile for another reason, cf. `RangeArgs.hasCategory`); `size()` only; both; `range_index`. -/
inductive LeafMode where
  | iteratorPair | iterator | index | rangeIndex
  deriving DecidableEq, Repr

/-- A range argument. -/
structure Rng (α : Type) where
  mode : LeafMode
  size : Size            -- detail/zip.hpp:540-568 `range_size`
  elems : List α
  deriving DecidableEq, Repr

/-- An argument passed to the functor: an element, or the index passed for `range_index`. -/
inductive Arg (α : Type) where
  | elem (a : α)
  | idx (i : Int)
  deriving DecidableEq, Repr

/-- `pos += d` on a leaf's own iterator. -/
def movePos (r : Rng α) (pos d : Int) : Outcome Int :=
  if 0 ≤ pos + d ∧ pos + d ≤ r.elems.length then .ok (pos + d) else .ub

/-- Reading the element at an offset. -/
def readAt (r : Rng α) (p : Int) : Outcome (Arg α) :=
  if p < 0 then .ub
  else match r.elems[p.toNat]? with
    | some a => .ok (.elem a)
    | none => .ub

/-- `_inc` of a leaf: detail/zip.hpp:324-327 (pair), 366-369 (iterator), 286-288 (others). -/
def leafInc (r : Rng α) (pos : Int) : Outcome Int :=
  match r.mode with
  | .iteratorPair => movePos r pos 1
  | .iterator => movePos r pos 1
  | .index => .ok pos
  | .rangeIndex => .ok pos

/-- `_dec` of a leaf: detail/zip.hpp:328-331, 370-373, 289-291. -/
def leafDec (r : Rng α) (pos : Int) : Outcome Int :=
  match r.mode with
  | .iteratorPair => movePos r pos (-1)
  | .iterator => movePos r pos (-1)
  | .index => .ok pos
  | .rangeIndex => .ok pos

/-- `_advance` of a leaf: detail/zip.hpp:332-335, 374-377, 292-294. -/
def leafAdvance (d : Int) (r : Rng α) (pos : Int) : Outcome Int :=
  match r.mode with
  | .iteratorPair => movePos r pos d
  | .iterator => movePos r pos d
  | .index => .ok pos
  | .rangeIndex => .ok pos

/-- `_deref(i)` of a leaf: detail/zip.hpp:336-339, 378-381, 400-403, 418-421. -/
def leafDeref (i : Int) (r : Rng α) (pos : Int) : Outcome (Arg α) :=
  match r.mode with
  | .iteratorPair => readAt r pos
  | .iterator => readAt r pos
  | .index => readAt r i
  | .rangeIndex => .ok (.idx i)

/-- `_deref(i, d)` of a leaf: detail/zip.hpp:340-343, 382-385, 404-407, 422-425. -/
def leafDerefAt (i d : Int) (r : Rng α) (pos : Int) : Outcome (Arg α) :=
  match r.mode with
  | .iteratorPair => readAt r (pos + d)
  | .iterator => readAt r (pos + d)
  | .index => readAt r (i + d)
  | .rangeIndex => .ok (.idx (i + d))

/-- `_check_end(isEnd)` of a leaf: detail/zip.hpp:344-347 (pair), 295-297 (others). -/
def leafCheckEnd (isEnd : Bool) (r : Rng α) (pos : Int) : Outcome Unit :=
  match r.mode with
  | .iteratorPair => Outcome.expects (decide (pos = r.elems.length) == isEnd)
  | _ => .ok ()

/-- `_is_end()` of a leaf: detail/zip.hpp:348-351 (pair), 298-301 (others: `nullopt_bool`, here `none`). -/
def leafIsEnd (r : Rng α) (pos : Int) : Option Bool :=
  match r.mode with
  | .iteratorPair => some (decide (pos = r.elems.length))
  | _ => none

/-- Position of a leaf constructed for the beginning: detail/zip.hpp:316-319, 362-365. -/
def leafBegin (_ : Rng α) : Int := 0

/-- Position of a leaf constructed with `end_tag`: detail/zip.hpp:320-323 (pair), 362-365 (iterator: `range_begin`!);
the others have no position. -/
def leafEnd (r : Rng α) : Int :=
  match r.mode with
  | .iteratorPair => r.elems.length
  | _ => 0

/-- A zip iterator, detail/algorithm.hpp:94-126: the index and the leaves' own positions. -/
structure ZipIt where
  i : Int
  pos : List Int
  deriving DecidableEq, Repr

/-- A pack expansion over the leaves. -/
def forLeaves (f : Rng α → Int → Outcome β) : List (Rng α) → List Int → Outcome (List β)
  | r :: rs, p :: ps => (f r p).bind fun b => (forLeaves f rs ps).bind fun bs => .ok (b :: bs)
  | _, _ => .ok []

/-- detail/algorithm.hpp:129-132, 390-394 `begin()`. -/
def zipBegin (rs : List (Rng α)) : ZipIt := ⟨0, rs.map leafBegin⟩

/-- The value of a size as the initial index of an end iterator. -/
def Size.value : Size → Int
  | .static n => n
  | .dyn n => n

/-- detail/algorithm.hpp:133-136, 395-399 `common_end()`. -/
def zipEnd (size : Size) (rs : List (Rng α)) : ZipIt := ⟨size.value, rs.map leafEnd⟩

/-- detail/algorithm.hpp:146-149 `operator *`, 258-262 `apply`. -/
def zipDeref (rs : List (Rng α)) (it : ZipIt) : Outcome (List (Arg α)) := forLeaves (leafDeref it.i) rs it.pos

/-- detail/algorithm.hpp:150-156 `operator ++`. -/
def zipInc (rs : List (Rng α)) (it : ZipIt) : Outcome ZipIt :=
  (forLeaves leafInc rs it.pos).bind fun ps => .ok ⟨it.i + 1, ps⟩

/-- detail/algorithm.hpp:191-197 `operator --`. -/
def zipDec (rs : List (Rng α)) (it : ZipIt) : Outcome ZipIt :=
  (forLeaves leafDec rs it.pos).bind fun ps => .ok ⟨it.i - 1, ps⟩

/-- detail/algorithm.hpp:210-216 `operator +=`. -/
def zipAdvance (rs : List (Rng α)) (it : ZipIt) (d : Int) : Outcome ZipIt :=
  (forLeaves (leafAdvance d) rs it.pos).bind fun ps => .ok ⟨it.i + d, ps⟩

/-- detail/algorithm.hpp:217-220 `operator -=`. -/
def zipRetreat (rs : List (Rng α)) (it : ZipIt) (d : Int) : Outcome ZipIt := zipAdvance rs it (-d)

/-- detail/algorithm.hpp:206-209 `operator []`. -/
def zipSubscript (rs : List (Rng α)) (it : ZipIt) (d : Int) : Outcome (List (Arg α)) :=
  forLeaves (leafDerefAt it.i d) rs it.pos

/-- detail/algorithm.hpp:236-239 difference. -/
def zipDiff (a b : ZipIt) : Int := a.i - b.i

/-- detail/algorithm.hpp:165-168 `operator ==`. -/
def zipEq (a b : ZipIt) : Bool := a.i == b.i

/-- detail/algorithm.hpp:240-243 `operator <`. -/
def zipLt (a b : ZipIt) : Bool := a.i < b.i

/-- detail/algorithm.hpp:244-247 `operator <=`. -/
def zipLe (a b : ZipIt) : Bool := !(zipLt b a)

/-- detail/algorithm.hpp:169-172 `operator !=`. -/
def zipNe (a b : ZipIt) : Bool := !(zipEq a b)

/-- detail/algorithm.hpp:248-251 `operator >`. -/
def zipGt (a b : ZipIt) : Bool := zipLt b a

/-- detail/algorithm.hpp:252-255 `operator >=`. -/
def zipGe (a b : ZipIt) : Bool := !(zipLt a b)

/-- detail/algorithm.hpp:157-162 `it++`: the iterator returned and the one left behind. -/
def zipPostInc (rs : List (Rng α)) (it : ZipIt) : Outcome (ZipIt × ZipIt) :=
  (zipInc rs it).bind fun it' => .ok (it, it')

/-- detail/algorithm.hpp:198-203 `it--`: the iterator returned and the one left behind. -/
def zipPostDec (rs : List (Rng α)) (it : ZipIt) : Outcome (ZipIt × ZipIt) :=
  (zipDec rs it).bind fun it' => .ok (it, it')

/-- detail/algorithm.hpp:221-225 `it + d`; the iterator is passed by value. -/
def zipPlus (rs : List (Rng α)) (it : ZipIt) (d : Int) : Outcome ZipIt := zipAdvance rs it d

/-- detail/algorithm.hpp:226-230 `d + it`. -/
def zipPlusLeft (rs : List (Rng α)) (d : Int) (it : ZipIt) : Outcome ZipIt := zipAdvance rs it d

/-- detail/algorithm.hpp:231-235 `it - d`. -/
def zipMinus (rs : List (Rng α)) (it : ZipIt) (d : Int) : Outcome ZipIt := zipRetreat rs it d

/-- The type of an `is_end` result: `bool` or `nullopt_bool`. -/
inductive EndTy where
  | bool | nullopt
  deriving DecidableEq, Repr

/-- Types of detail/zip.hpp:257-277 `is_end` with two arguments. -/
def isEndTy2 : EndTy → EndTy → EndTy
  | .nullopt, .nullopt => .nullopt
  | _, _ => .bool

/-- Types of detail/zip.hpp:249-282 `is_end`; the general overload (278-282) is declared to return `bool`, so it is ill-formed
(`none`) if its body yields a `nullopt_bool`. -/
def isEndTy : List EndTy → Option EndTy
  | [] => some .nullopt
  | [a] => some a
  | [a, b] => some (isEndTy2 a b)
  | a :: b :: c :: es =>
    match isEndTy (c :: es) with
    | some t => if isEndTy2 (isEndTy2 a b) t = .bool then some .bool else none
    | none => none

/-- Values of `is_end` with two arguments, detail/zip.hpp:261-277. -/
def isEnd2 : Option Bool → Option Bool → Outcome (Option Bool)
  | some a, some b => (Outcome.expects (a == b)).bind fun _ => .ok (some a)
  | some a, none => .ok (some a)
  | none, some b => .ok (some b)
  | none, none => .ok none

/-- Values of `is_end`, detail/zip.hpp:249-282. -/
def isEndVal : List (Option Bool) → Outcome (Option Bool)
  | [] => .ok none
  | [a] => .ok a
  | [a, b] => isEnd2 a b
  | a :: b :: c :: es => (isEnd2 a b).bind fun x => (isEndVal (c :: es)).bind fun y => isEnd2 x y

/-- `_is_end()` results of the leaves. -/
def leavesIsEnd : List (Rng α) → List Int → List (Option Bool)
  | r :: rs, p :: ps => leafIsEnd r p :: leavesIsEnd rs ps
  | _, _ => []

/-- Types of the `_is_end()` results of the leaves. -/
def leafEndTy (r : Rng α) : EndTy := if r.mode = .iteratorPair then .bool else .nullopt

/-- Whether `it == sentinel` compiles: detail/algorithm.hpp:60-71, 105-108. Only a sentinel without a size asks the leaves. -/
def sentinelWellFormed (rs : List (Rng α)) (size : Size) : Bool :=
  if size = .static unknownSize then isEndTy (rs.map leafEndTy) = some .bool else true

/-- detail/algorithm.hpp:24-71, 173-176 `it == sentinel`. -/
def zipIsEnd (rs : List (Rng α)) (size : Size) (it : ZipIt) : Outcome Bool :=
  if size = .static unknownSize then
    (isEndVal (leavesIsEnd rs it.pos)).bind fun e => .ok (e.getD false)
  else
    let isEnd := decide (it.i = size.value)
    (forLeaves (leafCheckEnd isEnd) rs it.pos).bind fun _ => .ok isEnd

/-- Result of an algorithm: rejected by the compiler, not finished within the given number of steps, or finished with a state
(effects so far) and an outcome. -/
inductive Result (σ : Type) where
  | illFormed
  | unfinished
  | done (state : σ) (out : Outcome Unit)
  deriving DecidableEq, Repr

/-- The loop `for (; it != end; ++it) { body(it.apply(...)) }` of algorithm.hpp:99-102 and its siblings, with at most `fuel`
tests of the condition.  The body updates the state and says whether to go on (`false`: `return`). -/
def zipLoop (rs : List (Rng α)) (size : Size) (body : σ → List (Arg α) → σ × Bool) : Nat → ZipIt → σ → Result σ
  | 0, _, _ => .unfinished
  | fuel + 1, it, s =>
    match zipIsEnd rs size it with
    | .ok true => .done s (.ok ())
    | .ok false =>
      match zipDeref rs it with
      | .ok args =>
        let r := body s args
        if r.2 then
          match zipInc rs it with
          | .ok it' => zipLoop rs size body fuel it' r.1
          | .throw m => .done r.1 (.throw m)
          | .failFast => .done r.1 .failFast
          | .ub => .done r.1 .ub
        else .done r.1 (.ok ())
      | .throw m => .done s (.throw m)
      | .failFast => .done s .failFast
      | .ub => .done s .ub
    | .throw m => .done s (.throw m)
    | .failFast => .done s .failFast
    | .ub => .done s .ub

/-- Everything `range_for` and its siblings share: algorithm.hpp:94-98, 168-173, 218-222, ... -/
def zipAlgorithm (rs : List (Rng α)) (body : σ → List (Arg α) → σ × Bool) (fuel : Nat) (init : σ) : Result σ :=
  if rs.all (fun r => r.mode = .rangeIndex) then .illFormed          -- static_assert "no range argument given"
  else match mergeSizes (rs.map Rng.size) with
    | .staticMismatch => .illFormed
    | .failFast => .done init .failFast
    | .ok size => if sentinelWellFormed rs size then zipLoop rs size body fuel (zipBegin rs) init else .illFormed

/-- algorithm.hpp:90-103 `range_for`; the state is the list of calls of the functor. -/
def rangeFor (rs : List (Rng α)) (fuel : Nat) : Result (List (List (Arg α))) :=
  zipAlgorithm rs (fun calls args => (calls ++ [args], true)) fuel []

/-- algorithm.hpp:164-179 `range_transform_reduce`. -/
def rangeTransformReduce {τ : Type} (init : σ) (reduce : σ → τ → σ) (transform : List (Arg α) → τ) (rs : List (Rng α))
    (fuel : Nat) : Result σ :=
  zipAlgorithm rs (fun acc args => (reduce acc (transform args), true)) fuel init

/-- algorithm.hpp:191-203 `range_reduce`: a range-based for loop over one range. -/
def rangeReduce (init : σ) (reduce : σ → α → σ) : List α → σ
  | [] => init
  | a :: l => rangeReduce (reduce init a) reduce l

/-- algorithm.hpp:214-229 `range_count_if`; the state is `result` and the list of predicate calls. -/
def rangeCountIf (pred : List (Arg α) → Bool) (rs : List (Rng α)) (fuel : Nat) : Result (Nat × List (List (Arg α))) :=
  zipAlgorithm rs (fun s args => ((if pred args then s.1 + 1 else s.1, s.2 ++ [args]), true)) fuel (0, [])

/-- algorithm.hpp:240-254 `range_all_of`; the state is the result and the list of predicate calls. -/
def rangeAllOf (pred : List (Arg α) → Bool) (rs : List (Rng α)) (fuel : Nat) : Result (Bool × List (List (Arg α))) :=
  zipAlgorithm rs (fun s args => if !pred args then ((false, s.2 ++ [args]), false) else ((s.1, s.2 ++ [args]), true)) fuel
    (true, [])

/-- algorithm.hpp:265-279 `range_any_of`. -/
def rangeAnyOf (pred : List (Arg α) → Bool) (rs : List (Rng α)) (fuel : Nat) : Result (Bool × List (List (Arg α))) :=
  zipAlgorithm rs (fun s args => if pred args then ((true, s.2 ++ [args]), false) else ((s.1, s.2 ++ [args]), true)) fuel
    (false, [])

/-- algorithm.hpp:290-304 `range_none_of`. -/
def rangeNoneOf (pred : List (Arg α) → Bool) (rs : List (Rng α)) (fuel : Nat) : Result (Bool × List (List (Arg α))) :=
  zipAlgorithm rs (fun s args => if pred args then ((false, s.2 ++ [args]), false) else ((s.1, s.2 ++ [args]), true)) fuel
    (true, [])

/-- A range-based for loop over `range_zip(...)` (algorithm.hpp:64-75): `it` runs until it compares equal to the end iterator,
which compares indices only (detail/algorithm.hpp:165-168). -/
def zipCommonLoop (rs : List (Rng α)) (stop : ZipIt) : Nat → ZipIt → List (List (Arg α)) → Result (List (List (Arg α)))
  | 0, _, _ => .unfinished
  | fuel + 1, it, s =>
    if zipEq it stop then .done s (.ok ())
    else
      match zipDeref rs it with
      | .ok args =>
        match zipInc rs it with
        | .ok it' => zipCommonLoop rs stop fuel it' (s ++ [args])
        | .throw m => .done (s ++ [args]) (.throw m)
        | .failFast => .done (s ++ [args]) .failFast
        | .ub => .done (s ++ [args]) .ub
      | .throw m => .done s (.throw m)
      | .failFast => .done s .failFast
      | .ub => .done s .ub

/-- `for (auto&& tuple : range_zip(rs...))`, recording the tuples. -/
def rangeZipIterate (rs : List (Rng α)) (fuel : Nat) : Result (List (List (Arg α))) :=
  match mergeSizes (rs.map Rng.size) with
  | .staticMismatch => .illFormed
  | .failFast => .done [] .failFast
  | .ok size =>
    if size = .static unknownSize then .illFormed                    -- static_assert, algorithm.hpp:72
    else zipCommonLoop rs (zipEnd size rs) fuel (zipBegin rs) []

/-- `for (auto&& tuple : range_zip_sentinel(rs...))`, experimental/algorithm.hpp:99-107, recording the tuples. -/
def rangeZipSentinelIterate (rs : List (Rng α)) (fuel : Nat) : Result (List (List (Arg α))) :=
  match mergeSizes (rs.map Rng.size) with
  | .staticMismatch => .illFormed
  | .failFast => .done [] .failFast
  | .ok size =>
    if size = .static unknownSize then .illFormed
    else zipLoop rs size (fun calls args => (calls ++ [args], true)) fuel (zipBegin rs) []

end Makeshift
