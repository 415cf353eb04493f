import Verif.Model.RowPrograms

/-!
# Programs which move the rows of a `soa_span` or the elements of zipped ranges

Algorithms of the standard library, e.g. for sorting or removing elements, do not copy elements but move them: `value_type t = std::move(*it);`,
`*it = std::move(*jt);`, `*it = std::move(t);`.  The programs of Model/RowPrograms.lean are extended by such statements here.

An object which has been moved from is in a valid, but unspecified state; it is `none` here, any other one is `some v`.  A program which reads an
unspecified value is stopped, with the result `none`.

Simplification: variables of the program which have been moved from are not tracked.
-/

namespace Makeshift.Soa

variable {α β : Type}

/-- A program which works on the rows of a range, may move them, and returns a `β` (client code). -/
inductive MoveProg (α β : Type) where
  /-- `return x;` -/
  | done (x : β)
  /-- the elements of a row are read where they are: `get<0>(s[i])`, `get<1>(s[i])`, ... -/
  | look (i : Nat) (k : List α → MoveProg α β)
  /-- `value_type t = s[i];` -/
  | load (i : Nat) (k : List α → MoveProg α β)
  /-- `value_type t = std::move(s[i]);` -/
  | take (i : Nat) (k : List α → MoveProg α β)
  /-- `auto v = std::move(get<c>(s[i]));` -/
  | takeElem (i c : Nat) (k : α → MoveProg α β)
  /-- `s[i] = std::move(t);` for a variable `t` of type `value_type` -/
  | store (i : Nat) (t : List α) (p : MoveProg α β)
  /-- `get<c>(s[i]) = std::move(v);` -/
  | storeElem (i c : Nat) (v : α) (p : MoveProg α β)
  /-- `s[i] = s[j];` -/
  | copy (i j : Nat) (p : MoveProg α β)
  /-- `s[i] = std::move(s[j]);` -/
  | transfer (i j : Nat) (p : MoveProg α β)
  /-- `swap(s[i], s[j]);` -/
  | swap (i j : Nat) (p : MoveProg α β)
  /-- `auto x = body(s.subspan(offset, count));` -/
  | part (offset count : Nat) (body : MoveProg α β) (k : β → MoveProg α β)

/-- The values of a row none of whose elements has been moved from. -/
def present : List (Option α) → Option (List α)
  | [] => some []
  | none :: _ => none
  | some v :: l => (present l).map (v :: ·)

/-- What refers to a row: a `soa_reference` (experimental/detail/span.hpp:34-92), or the `std::tuple` of references of a zip iterator (detail/algorithm.hpp:121-122). -/
inductive RowRefKind where
  | soaReference
  | tupleOfReferences
  deriving DecidableEq, Repr

/-- The program goes on with the values `t`, unless one of them is unspecified. -/
def withValues {γ : Type} (t : List (Option α)) (n : Nat) (k : List α → RowProg (Option α) (Option γ × Nat)) : RowProg (Option α) (Option γ × Nat) :=
  match present t with
  | some v => k v
  | none => .done (none, n)

/-- The number of times a row has been copied after `s[i] = std::move(t);`: experimental/detail/span.hpp:64-74 copies the elements of `t`; the assignment operator of
`std::tuple<T&...>` moves them ([tuple.assign]). -/
def afterStore (kind : RowRefKind) (n : Nat) : Nat :=
  match kind with
  | .soaReference => n + 1
  | .tupleOfReferences => n

/-- What the statements do if rows are given by proxies.  The second component of the result is the number of times a row has been copied, counted from `n` on.

* `value_type t = std::move(s[i]);`: `soa_reference` has only the conversion which copies the elements (experimental/detail/span.hpp:75-84).  The constructor of
  `std::tuple<T...>` from `std::tuple<T&...>&&` forwards the elements as `T&`, i.e. copies them ([tuple.cnstr]).
* `s[i] = std::move(s[j]);`: likewise, `soa_reference& operator =(soa_reference const&)` (53-63) resp. `std::tuple<T&...>& operator =(std::tuple<T&...>&&)`,
  which forwards the elements as `T&` ([tuple.assign]).
* `s[i] = std::move(t);`: see `afterStore`.
* `get<c>(s[i])` is a reference to the element (87-91), which can be moved.
* `swap` swaps the elements (94-107). -/
def onProxies (kind : RowRefKind) : MoveProg α β → (n : Nat) → RowProg (Option α) (Option β × Nat)
  | .done x, n => .done (some x, n)
  | .look i k, n => .load i fun t => withValues t n fun v => onProxies kind (k v) n
  | .load i k, n => .load i fun t => withValues t n fun v => onProxies kind (k v) (n + 1)
  | .take i k, n => .load i fun t => withValues t n fun v => onProxies kind (k v) (n + 1)
  | .takeElem i c k, n => .loadElem i c fun
    | some v => .storeElem i c none (onProxies kind (k v) n)
    | none => .done (none, n)
  | .store i t p, n => .store i (t.map some) (onProxies kind p (afterStore kind n))
  | .storeElem i c v p, n => .storeElem i c (some v) (onProxies kind p n)
  | .copy i j p, n => .copy i j (onProxies kind p (n + 1))
  | .transfer i j p, n => .copy i j (onProxies kind p (n + 1))
  | .swap i j p, n => .swap i j (onProxies kind p n)
  | .part offset count body k, n => .part offset count (onProxies kind body n) fun r =>
    match r.1 with
    | some x => onProxies kind (k x) r.2
    | none => .done (none, r.2)

/-- Whether the program compiles if the elements can be moved but not copied: none of the functions which copy elements - see `onProxies` - can be instantiated. -/
def compilesMoveOnly (kind : RowRefKind) : MoveProg α β → Prop
  | .done _ => True
  | .look _ k => ∀ t, compilesMoveOnly kind (k t)
  | .load _ _ => False
  | .take _ _ => False
  | .takeElem _ _ k => ∀ v, compilesMoveOnly kind (k v)
  | .store _ _ p => kind = .tupleOfReferences ∧ compilesMoveOnly kind p
  | .storeElem _ _ _ p => compilesMoveOnly kind p
  | .copy _ _ _ => False
  | .transfer _ _ _ => False
  | .swap _ _ p => compilesMoveOnly kind p
  | .part _ _ b k => compilesMoveOnly kind b ∧ ∀ x, compilesMoveOnly kind (k x)

/-- Client code: `x` has been moved out of row `i`; the rows in front are moved up as long as `x` is less, and `x` is moved to where it belongs.  (This is the inner
loop of `std::sort()` in common implementations.) -/
def shiftMoving (lt : List α → List α → Bool) (x : List α) : Nat → MoveProg α β → MoveProg α β
  | 0, p => .store 0 x p
  | i + 1, p => .look i fun a => if lt x a then .transfer (i + 1) i (shiftMoving lt x i p) else .store (i + 1) x p

/-- Client code: insertion sort of `n` more rows, where the `i` rows before are sorted, by moving rows. -/
def insertionSortMoving (lt : List α → List α → Bool) : (n i : Nat) → MoveProg α Unit
  | 0, _ => .done ()
  | n + 1, i => .take i fun x => shiftMoving lt x i (insertionSortMoving lt n (i + 1))

/-- Client code: moves row `i` towards the front by swapping it with its predecessor, as long as it is less than that, then goes on with `p`. -/
def insertSwapping (lt : List α → List α → Bool) : Nat → MoveProg α β → MoveProg α β
  | 0, p => p
  | i + 1, p => .look i fun a => .look (i + 1) fun x => if lt x a then .swap i (i + 1) (insertSwapping lt i p) else p

/-- Client code: insertion sort which swaps rows. -/
def insertionSortSwapping (lt : List α → List α → Bool) : (n i : Nat) → MoveProg α Unit
  | 0, _ => .done ()
  | n + 1, i => insertSwapping lt i (insertionSortSwapping lt n (i + 1))

end Makeshift.Soa
