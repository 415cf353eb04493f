import Verif.Model.HeteroRows
import Verif.Spec.RowCatching

/-! Specification vocabulary for programs on rows with columns of different types. -/

namespace Makeshift.Spec.Soa

open Makeshift.Soa

variable {τ : Type} {V : τ → Type} {n : Nat} {β : Type}

/-- The tuple with another element in place of element `c`. -/
def replaced {ty : Fin n → τ} (t : Tuple V ty) (c : Fin n) (v : V (ty c)) : Tuple V ty := fun d => if h : d = c then h ▸ v else t d

/-- What a program returns for a `std::vector<std::tuple<Ts...>>` (`none` if it is left by an exception), and the vector which it leaves. -/
def typedRows {ty : Fin n → τ} : TypedProg V ty β → List (Tuple V ty) → Option β × List (Tuple V ty)
  | .done x, rows => (some x, rows)
  | .raise, rows => (none, rows)
  | .load i k, rows =>
    match rows[i]? with
    | some t => typedRows (k t) rows
    | none => (none, rows)
  | .loadElem i c k, rows =>
    match rows[i]? with
    | some t => typedRows (k (t c)) rows
    | none => (none, rows)
  | .store i t p, rows =>
    match rows[i]? with
    | some _ => typedRows p (rows.set i t)
    | none => (none, rows)
  | .storeElem i c v p, rows =>
    match rows[i]? with
    | some t => typedRows p (rows.set i (replaced t c v))
    | none => (none, rows)
  | .copy i j p, rows =>
    match rows[i]?, rows[j]? with
    | some _, some t => typedRows p (rows.set i t)
    | _, _ => (none, rows)
  | .swap i j p, rows =>
    match rows[i]?, rows[j]? with
    | some t, some u => typedRows p ((rows.set i u).set j t)
    | _, _ => (none, rows)
  | .part offset count body k, rows =>
    let m := if count = 18446744073709551615 then rows.length - offset else count
    if offset + m ≤ rows.length then
      let (x, part) := typedRows body ((rows.drop offset).take m)
      let rows := rows.take offset ++ part ++ rows.drop (offset + m)
      match x with
      | some x => typedRows (k x) rows
      | none => (none, rows)
    else (none, rows)
  | .attempt body k, rows =>
    let (x, rows) := typedRows body rows
    typedRows (k x) rows

/-- The rows of the span are these tuples: column `c` of row `i` is an object of type `Ts[c]` with the value of element `c` of tuple `i`. -/
def TuplesInSpan {ty : Fin n → τ} (st : State (Cell V)) (s : Span) (rows : List (Tuple V ty)) : Prop :=
  rows.length = s.size ∧ ∀ (i : Nat) (t : Tuple V ty), rows[i]? = some t → ∀ (c : Fin n) (p : Ptr), s.data[c.1]? = some p →
    elem st p i = some ⟨ty c, t c⟩

end Makeshift.Spec.Soa
