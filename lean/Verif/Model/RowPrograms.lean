import Verif.Model.SoaSpan

/-!
# Programs which work on the rows of a `soa_span`

Algorithms - such as those for sorting, partitioning or removing elements - use a range through few operations: they copy an element to a variable of type
`value_type`, assign such a variable or another element to an element, swap two elements, and call other algorithms for a part of the range.  A program
is a tree here: what it does next may depend on everything it has read.  Every program which terminates is of this form.
-/

namespace Makeshift.Soa

variable {α β : Type}

/-- A program which works on the rows of a range and returns a `β` (client code). -/
inductive RowProg (α β : Type) where
  /-- `return x;` -/
  | done (x : β)
  /-- `value_type t = s[i];` and `k` with `t` -/
  | load (i : Nat) (k : List α → RowProg α β)
  /-- `auto v = get<c>(s[i]);` -/
  | loadElem (i c : Nat) (k : α → RowProg α β)
  /-- `s[i] = t;` for a variable `t` of type `value_type` -/
  | store (i : Nat) (t : List α) (p : RowProg α β)
  /-- `get<c>(s[i]) = v;` -/
  | storeElem (i c : Nat) (v : α) (p : RowProg α β)
  /-- `s[i] = s[j];` -/
  | copy (i j : Nat) (p : RowProg α β)
  /-- `swap(s[i], s[j]);` -/
  | swap (i j : Nat) (p : RowProg α β)
  /-- `auto x = body(s.subspan(offset, count));` -/
  | part (offset count : Nat) (body : RowProg α β) (k : β → RowProg α β)

/-- How the program refers to row `i`: by `s[i]` (experimental/span.hpp:95-101) or by `s.begin()[i]` (experimental/detail/span.hpp:146-149), which is not checked. -/
inductive RowAccess where
  | index | iterator
  deriving DecidableEq, Repr

/-- The reference to row `i` of the span object `b`. -/
def rowRef (acc : RowAccess) (st : State α) (b i : Nat) : Outcome Ref :=
  match acc with
  | .index => at' st b i
  | .iterator => .ok ((begin' b).plus i)

/-- The program works on the span object `b`, none of whose columns is `const`.  Object numbers from `fresh` on are not in use; the parameter of a function
called with a subspan becomes object `fresh`, and is destroyed at the end of the call.  (`get<c>()` with an index which is too large does not compile;
the result is arbitrary here.) -/
def runSpan (acc : RowAccess) : (b fresh : Nat) → RowProg α β → State α → Outcome (β × State α)
  | _, _, .done x, st => .ok (x, st)
  | b, fresh, .load i k, st => (rowRef acc st b i).bind fun r => (toTuple st r).bind fun t => runSpan acc b fresh (k t) st
  | b, fresh, .loadElem i c k, st => (rowRef acc st b i).bind fun r => (getElem st r c).bind fun
    | some v => runSpan acc b fresh (k v) st
    | none => .ub
  | b, fresh, .store i t p, st => (rowRef acc st b i).bind fun r => (assignTuple st r t).bind fun st => runSpan acc b fresh p st
  | b, fresh, .storeElem i c v p, st => (rowRef acc st b i).bind fun r =>
    st.withSpan b fun s => match assignElemQ (s.data.map fun _ => false) st r c v with
      | some o => o.bind fun st => runSpan acc b fresh p st
      | none => .ub
  | b, fresh, .copy i j p, st => (rowRef acc st b i).bind fun r => (rowRef acc st b j).bind fun q =>
    (assignRef st r q).bind fun st => runSpan acc b fresh p st
  | b, fresh, .swap i j p, st => (rowRef acc st b i).bind fun r => (rowRef acc st b j).bind fun q =>
    (swapRefs st r q).bind fun st => runSpan acc b fresh p st
  | b, fresh, .part offset count body k, st => st.withSpan b fun s => (s.subspan offset count).bind fun t =>
    (runSpan acc fresh (fresh + 1) body (st.setSpan fresh (some t))).bind fun (x, st) =>
    runSpan acc b fresh (k x) (st.setSpan fresh none)

/-- `auto t = s[i]; s[i] = s[j]; s[j] = t;` (client code): the type of `t` is `reference`. -/
def exchangeByAuto (st : State α) (b i j : Nat) : Outcome (State α) :=
  (at' st b i).bind fun t => (at' st b i).bind fun r => (at' st b j).bind fun q => (assignRef st r q).bind fun st =>
  (at' st b j).bind fun q => assignRef st q t

/-- Client code: moves row `i` towards the front by swapping it with its predecessor, as long as it is less than that, then goes on with `p`. -/
def insertRow (lt : List α → List α → Bool) : Nat → RowProg α β → RowProg α β
  | 0, p => p
  | i + 1, p => .load i fun a => .load (i + 1) fun x => if lt x a then .swap i (i + 1) (insertRow lt i p) else p

/-- Client code: the same with copies only; `x` is a copy of the row to be inserted, and row `i` may be overwritten. -/
def shiftRows (lt : List α → List α → Bool) (x : List α) : Nat → RowProg α β → RowProg α β
  | 0, p => .store 0 x p
  | i + 1, p => .load i fun a => if lt x a then .copy (i + 1) i (shiftRows lt x i p) else .store (i + 1) x p

/-- Client code: insertion sort of `n` more rows, where the `i` rows before are sorted, without swapping. -/
def insertionSortCopying (lt : List α → List α → Bool) : (n i : Nat) → RowProg α Unit
  | 0, _ => .done ()
  | n + 1, i => .load i fun x => shiftRows lt x i (insertionSortCopying lt n (i + 1))

/-- Client code: insertion sort of `n` more rows, where the `i` rows before are sorted. -/
def insertionSort (lt : List α → List α → Bool) : (n i : Nat) → RowProg α Unit
  | 0, _ => .done ()
  | n + 1, i => insertRow lt i (insertionSort lt n (i + 1))

end Makeshift.Soa
