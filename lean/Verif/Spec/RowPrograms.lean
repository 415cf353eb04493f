import Verif.Model.RowPrograms
import Verif.Spec.SoaSpan

/-! Specification vocabulary for programs which work on rows. -/

namespace Makeshift.Spec.Soa

open Makeshift.Soa (State Span RowProg)

variable {α β : Type}

/-- What the program does to a `std::vector` of tuples.  An element which does not exist, and a part which is not inside, are errors. -/
def runRows : RowProg α β → List (List α) → Outcome (β × List (List α))
  | .done x, rows => .ok (x, rows)
  | .load i k, rows =>
    match rows[i]? with
    | some r => runRows (k r) rows
    | none => .failFast
  | .loadElem i c k, rows =>
    match rows[i]? with
    | some r =>
      match r[c]? with
      | some v => runRows (k v) rows
      | none => .ub
    | none => .failFast
  | .store i t p, rows => if i < rows.length then runRows p (rows.set i t) else .failFast
  | .storeElem i c v p, rows =>
    match rows[i]? with
    | some r => runRows p (rows.set i (r.set c v))
    | none => .failFast
  | .copy i j p, rows =>
    match rows[i]?, rows[j]? with
    | some _, some r => runRows p (rows.set i r)
    | _, _ => .failFast
  | .swap i j p, rows =>
    match rows[i]?, rows[j]? with
    | some r, some q => runRows p ((rows.set i q).set j r)
    | _, _ => .failFast
  | .part offset count body k, rows =>
    let n := if count = 18446744073709551615 then rows.length - offset else count
    if offset + n ≤ rows.length then
      (runRows body ((rows.drop offset).take n)).bind fun (x, part) =>
      runRows (k x) (rows.take offset ++ part ++ rows.drop (offset + n))
    else .failFast

/-- The program fits rows of `n` columns: its tuples have `n` elements. -/
inductive Fits (n : Nat) : RowProg α β → Prop
  | done {x} : Fits n (.done x)
  | load {i k} (h : ∀ t, t.length = n → Fits n (k t)) : Fits n (.load i k)
  | loadElem {i c k} (hc : c < n) (h : ∀ v, Fits n (k v)) : Fits n (.loadElem i c k)
  | store {i t p} (ht : t.length = n) (h : Fits n p) : Fits n (.store i t p)
  | storeElem {i c v p} (hc : c < n) (h : Fits n p) : Fits n (.storeElem i c v p)
  | copy {i j p} (h : Fits n p) : Fits n (.copy i j p)
  | swap {i j p} (h : Fits n p) : Fits n (.swap i j p)
  | part {o c b k} (hb : Fits n b) (h : ∀ x, Fits n (k x)) : Fits n (.part o c b k)

/-- The rows of the span are these. -/
def RowsAre (st : State α) (s : Span) (rows : List (List α)) : Prop :=
  rows.length = s.size ∧ ∀ (i : Nat) (r : List α), rows[i]? = some r → Row st s i r

end Makeshift.Spec.Soa
