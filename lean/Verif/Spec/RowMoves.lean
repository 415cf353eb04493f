import Verif.Model.RowMoves
import Verif.Spec.RowPrograms

/-! Specification vocabulary for programs which move rows. -/

namespace Makeshift.Spec.Soa

open Makeshift.Soa (MoveProg)

variable {α β : Type}

/-- How many rows the program copied from a row, moved from a row, and moved from a variable. -/
structure RowCounts where
  copied : Nat
  taken : Nat
  stored : Nat
  deriving DecidableEq, Repr

/-- The values of a row, unless one of its elements is unspecified. -/
def valuesOf (r : List (Option α)) : Option (List α) := if r.all (·.isSome) then some (r.filterMap id) else none

/-- What the program does to a `std::vector` of tuples.  `none` is an element with an unspecified value, because it has been moved from; the result is `none` if the
program reads such an element. -/
def runVector : MoveProg α β → RowCounts → List (List (Option α)) → Outcome ((Option β × RowCounts) × List (List (Option α)))
  | .done x, c, rows => .ok ((some x, c), rows)
  | .look i k, c, rows =>
    match rows[i]? with
    | none => .failFast
    | some r =>
      match valuesOf r with
      | none => .ok ((none, c), rows)
      | some t => runVector (k t) c rows
  | .load i k, c, rows =>
    match rows[i]? with
    | none => .failFast
    | some r =>
      match valuesOf r with
      | none => .ok ((none, c), rows)
      | some t => runVector (k t) { c with copied := c.copied + 1 } rows
  | .take i k, c, rows =>
    match rows[i]? with
    | none => .failFast
    | some r =>
      match valuesOf r with
      | none => .ok ((none, c), rows)
      | some t => runVector (k t) { c with taken := c.taken + 1 } (rows.set i (r.map fun _ => none))
  | .takeElem i j k, c, rows =>
    match rows[i]? with
    | none => .failFast
    | some r =>
      match r[j]? with
      | none => .ub
      | some none => .ok ((none, c), rows)
      | some (some v) => runVector (k v) c (rows.set i (r.set j none))
  | .store i t p, c, rows =>
    if i < rows.length then runVector p { c with stored := c.stored + 1 } (rows.set i (t.map some)) else .failFast
  | .storeElem i j v p, c, rows =>
    match rows[i]? with
    | none => .failFast
    | some r => runVector p c (rows.set i (r.set j (some v)))
  | .copy i j p, c, rows =>
    match rows[i]?, rows[j]? with
    | some _, some r => runVector p { c with copied := c.copied + 1 } (rows.set i r)
    | _, _ => .failFast
  | .transfer i j p, c, rows =>
    match rows[i]?, rows[j]? with
    | some _, some r => runVector p { c with taken := c.taken + 1 } ((rows.set i r).set j (r.map fun _ => none))
    | _, _ => .failFast
  | .swap i j p, c, rows =>
    match rows[i]?, rows[j]? with
    | some r, some q => runVector p c ((rows.set i q).set j r)
    | _, _ => .failFast
  | .part offset count body k, c, rows =>
    let n := if count = 18446744073709551615 then rows.length - offset else count
    if offset + n ≤ rows.length then
      (runVector body c ((rows.drop offset).take n)).bind fun (x, part) =>
        match x.1 with
        | some y => runVector (k y) x.2 (rows.take offset ++ part ++ rows.drop (offset + n))
        | none => .ok ((none, x.2), rows.take offset ++ part ++ rows.drop (offset + n))
    else .failFast

/-- The program compiles for a `std::vector` of tuples of elements which can be moved, but not copied: it copies no tuple. -/
def vectorCompilesMoveOnly : MoveProg α β → Prop
  | .done _ => True
  | .look _ k => ∀ t, vectorCompilesMoveOnly (k t)
  | .load _ _ => False
  | .take _ k => ∀ t, vectorCompilesMoveOnly (k t)
  | .takeElem _ _ k => ∀ v, vectorCompilesMoveOnly (k v)
  | .store _ _ p => vectorCompilesMoveOnly p
  | .storeElem _ _ _ p => vectorCompilesMoveOnly p
  | .copy _ _ _ => False
  | .transfer _ _ p => vectorCompilesMoveOnly p
  | .swap _ _ p => vectorCompilesMoveOnly p
  | .part _ _ b k => vectorCompilesMoveOnly b ∧ ∀ x, vectorCompilesMoveOnly (k x)

/-- The program fits rows of `n` columns: its tuples have `n` elements. -/
inductive MoveFits (n : Nat) : MoveProg α β → Prop
  | done {x} : MoveFits n (.done x)
  | look {i k} (h : ∀ t, t.length = n → MoveFits n (k t)) : MoveFits n (.look i k)
  | load {i k} (h : ∀ t, t.length = n → MoveFits n (k t)) : MoveFits n (.load i k)
  | take {i k} (h : ∀ t, t.length = n → MoveFits n (k t)) : MoveFits n (.take i k)
  | takeElem {i c k} (hc : c < n) (h : ∀ v, MoveFits n (k v)) : MoveFits n (.takeElem i c k)
  | store {i t p} (ht : t.length = n) (h : MoveFits n p) : MoveFits n (.store i t p)
  | storeElem {i c v p} (hc : c < n) (h : MoveFits n p) : MoveFits n (.storeElem i c v p)
  | copy {i j p} (h : MoveFits n p) : MoveFits n (.copy i j p)
  | transfer {i j p} (h : MoveFits n p) : MoveFits n (.transfer i j p)
  | swap {i j p} (h : MoveFits n p) : MoveFits n (.swap i j p)
  | part {o c b k} (hb : MoveFits n b) (h : ∀ x, MoveFits n (k x)) : MoveFits n (.part o c b k)

/-- The program moves no single elements. -/
inductive NoElementTaken : MoveProg α β → Prop
  | done {x} : NoElementTaken (.done x)
  | look {i k} (h : ∀ t, NoElementTaken (k t)) : NoElementTaken (.look i k)
  | load {i k} (h : ∀ t, NoElementTaken (k t)) : NoElementTaken (.load i k)
  | take {i k} (h : ∀ t, NoElementTaken (k t)) : NoElementTaken (.take i k)
  | store {i t p} (h : NoElementTaken p) : NoElementTaken (.store i t p)
  | storeElem {i c v p} (h : NoElementTaken p) : NoElementTaken (.storeElem i c v p)
  | copy {i j p} (h : NoElementTaken p) : NoElementTaken (.copy i j p)
  | transfer {i j p} (h : NoElementTaken p) : NoElementTaken (.transfer i j p)
  | swap {i j p} (h : NoElementTaken p) : NoElementTaken (.swap i j p)
  | part {o c b k} (hb : NoElementTaken b) (h : ∀ x, NoElementTaken (k x)) : NoElementTaken (.part o c b k)

/-- The rows agree, except for elements which are unspecified on the left. -/
def SpecifiedAgree (rows rows' : List (List (Option α))) : Prop :=
  List.Forall₂ (List.Forall₂ fun a b => a = none ∨ b = a) rows rows'

end Makeshift.Spec.Soa
