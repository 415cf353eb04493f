import Verif.Model.RowCatching

/-!
# Programs on the rows of a `soa_span` with columns of different types

Programs as in `Model/RowCatching.lean` for `soa_span<Ts...>` where the types `Ts` may differ.  Memory cells hold values together with their types; a program
is typed, i.e. it assigns tuples of type `std::tuple<Ts...>` and gets such tuples, and is translated to a program on untyped memory.
-/

namespace Makeshift.Soa

variable {τ : Type} {V : τ → Type} {n : Nat} {β : Type}

/-- A memory cell holds an object of some type. -/
abbrev Cell (V : τ → Type) := Σ t, V t

/-- `std::tuple<Ts...>`; `ty c` is the type of column `c`. -/
abbrev Tuple (V : τ → Type) (ty : Fin n → τ) := (c : Fin n) → V (ty c)

/-- A program which works on the rows of a `soa_span<Ts...>` (client code), see `CatchProg`. -/
inductive TypedProg (V : τ → Type) (ty : Fin n → τ) (β : Type) where
  | done (x : β)
  | raise
  /-- `value_type t = s[i];` -/
  | load (i : Nat) (k : Tuple V ty → TypedProg V ty β)
  /-- `auto v = get<c>(s[i]);` -/
  | loadElem (i : Nat) (c : Fin n) (k : V (ty c) → TypedProg V ty β)
  /-- `s[i] = t;` -/
  | store (i : Nat) (t : Tuple V ty) (p : TypedProg V ty β)
  /-- `get<c>(s[i]) = v;` -/
  | storeElem (i : Nat) (c : Fin n) (v : V (ty c)) (p : TypedProg V ty β)
  /-- `s[i] = s[j];` -/
  | copy (i j : Nat) (p : TypedProg V ty β)
  /-- `swap(s[i], s[j]);` -/
  | swap (i j : Nat) (p : TypedProg V ty β)
  /-- `auto x = body(s.subspan(offset, count));` -/
  | part (offset count : Nat) (body : TypedProg V ty β) (k : β → TypedProg V ty β)
  /-- `try { x = body(s); } catch (gsl::fail_fast const&) { }`; then `k` with the value, if there is one -/
  | attempt (body : TypedProg V ty β) (k : Option β → TypedProg V ty β)

/-- The objects of a tuple. -/
def encode {ty : Fin n → τ} (t : Tuple V ty) : List (Cell V) := List.ofFn fun c => ⟨ty c, t c⟩

variable [DecidableEq τ]

/-- The value of an object, if its type is `t`. -/
def decodeCell (t : τ) (x : Option (Cell V)) : Option (V t) :=
  match x with
  | some ⟨t', v⟩ => if h : t' = t then some (h ▸ v) else none
  | none => none

/-- The tuple made of objects, if their types are those of the tuple. -/
def decode (ty : Fin n → τ) (l : List (Cell V)) : Option (Tuple V ty) :=
  if h : ∀ c : Fin n, (decodeCell (ty c) l[c.1]?).isSome then some fun c => (decodeCell (ty c) l[c.1]?).get (h c) else none

/-- The translation.  (Reading an object through a pointer to another type would be undefined; here it throws.  The theorems say that it does not occur.) -/
def TypedProg.untyped {ty : Fin n → τ} : TypedProg V ty β → CatchProg (Cell V) β
  | .done x => .done x
  | .raise => .raise
  | .load i k => .act (.load i) fun l => match decode ty l with
    | some t => (k t).untyped
    | none => .raise
  | .loadElem i c k => .act (.loadElem i c) fun l => match decodeCell (ty c) l[0]? with
    | some v => (k v).untyped
    | none => .raise
  | .store i t p => .act (.store i (encode t)) fun _ => p.untyped
  | .storeElem i c v p => .act (.storeElem i c ⟨ty c, v⟩) fun _ => p.untyped
  | .copy i j p => .act (.copy i j) fun _ => p.untyped
  | .swap i j p => .act (.swap i j) fun _ => p.untyped
  | .part offset count body k => .part offset count body.untyped fun x => (k x).untyped
  | .attempt body k => .attempt body.untyped fun x => (k x).untyped

end Makeshift.Soa
