import Verif.Model.RowCatching
import Verif.Spec.RowPrograms

/-! Specification vocabulary for programs on rows which catch violated contracts. -/

namespace Makeshift.Spec.Soa

open Makeshift.Soa (RowAct CatchProg)

variable {α β : Type}

/-- What a statement reads from and does to a `std::vector` of tuples; `none` if it refers to an element which does not exist. -/
def actRows (rows : List (List α)) : RowAct α → Option (List α × List (List α))
  | .load i => rows[i]?.map fun r => (r, rows)
  | .loadElem i c => rows[i]?.map fun r => (r[c]?.toList, rows)
  | .store i t => rows[i]?.map fun _ => ([], rows.set i t)
  | .storeElem i c v => rows[i]?.map fun r => ([], rows.set i (r.set c v))
  | .copy i j =>
    match rows[i]?, rows[j]? with
    | some _, some r => some ([], rows.set i r)
    | _, _ => none
  | .swap i j =>
    match rows[i]?, rows[j]? with
    | some r, some q => some ([], (rows.set i q).set j r)
    | _, _ => none

/-- What a program returns (`none` if it is left by an exception), and the vector of tuples which it leaves.  A function called with a part of the vector changes
this part in place. -/
def catchRows : CatchProg α β → List (List α) → Option β × List (List α)
  | .done x, rows => (some x, rows)
  | .raise, rows => (none, rows)
  | .act a k, rows =>
    match actRows rows a with
    | some (t, rows) => catchRows (k t) rows
    | none => (none, rows)
  | .part offset count body k, rows =>
    let n := if count = 18446744073709551615 then rows.length - offset else count
    if offset + n ≤ rows.length then
      let (x, part) := catchRows body ((rows.drop offset).take n)
      let rows := rows.take offset ++ part ++ rows.drop (offset + n)
      match x with
      | some x => catchRows (k x) rows
      | none => (none, rows)
    else (none, rows)
  | .attempt body k, rows =>
    let (x, rows) := catchRows body rows
    catchRows (k x) rows

/-- The statement fits rows of `n` columns. -/
def ActFits (n : Nat) : RowAct α → Prop
  | .loadElem _ c => c < n
  | .store _ t => t.length = n
  | .storeElem _ c _ => c < n
  | _ => True

/-- The rows to which a statement refers. -/
def rowsOf : RowAct α → List Nat
  | .load i | .loadElem i _ | .store i _ | .storeElem i _ _ => [i]
  | .copy i j | .swap i j => [i, j]

/-- The number of values a statement reads. -/
def reads (n : Nat) : RowAct α → Nat
  | .load _ => n
  | .loadElem _ _ => 1
  | _ => 0

/-- The program fits rows of `n` columns. -/
inductive CatchFits (n : Nat) : CatchProg α β → Prop
  | done {x} : CatchFits n (.done x)
  | raise : CatchFits n .raise
  | act {a k} (ha : ActFits n a) (h : ∀ t, t.length = reads n a → CatchFits n (k t)) : CatchFits n (.act a k)
  | part {o c b k} (hb : CatchFits n b) (h : ∀ x, CatchFits n (k x)) : CatchFits n (.part o c b k)
  | attempt {b k} (hb : CatchFits n b) (h : ∀ x, CatchFits n (k x)) : CatchFits n (.attempt b k)

end Makeshift.Spec.Soa
