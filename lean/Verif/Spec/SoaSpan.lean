import Verif.Model.SoaSpan
import Mathlib.Data.List.Forall2

/-!
# Vocabulary for `soa_span`
-/

namespace Makeshift.Spec.Soa

open Makeshift.Soa (State Span Ptr)

/-- The `i`-th element of a column. -/
def elem {α : Type} (st : State α) (p : Ptr) (i : Nat) : Option α := (st.cells p.arr)[p.off + i]?

/-- Row `i` of a span consists of these values. -/
def Row {α : Type} (st : State α) (s : Span) (i : Nat) (vals : List α) : Prop :=
  List.Forall₂ (fun p v => elem st p i = some v) s.data vals

/-- The columns exist. -/
def Valid {α : Type} (st : State α) (s : Span) : Prop := ∀ p ∈ s.data, p.off + s.size ≤ (st.cells p.arr).length

/-- The columns are in different arrays. -/
def Separate (s : Span) : Prop := (s.data.map (·.arr)).Nodup

/-- The columns are not in arrays defined `const`. -/
def Writable {α : Type} (st : State α) (s : Span) : Prop := ∀ p ∈ s.data, st.isConst p.arr = false

/-- The position belongs to the span. -/
def Inside (s : Span) (arr pos : Nat) : Prop := ∃ p ∈ s.data, p.arr = arr ∧ p.off ≤ pos ∧ pos < p.off + s.size

/-- Nothing else than elements of the span has changed. -/
def SameOutside {α : Type} (s : Span) (st st' : State α) : Prop :=
  st'.spans = st.spans ∧ ∀ arr pos, ¬ Inside s arr pos → (st'.cells arr)[pos]? = (st.cells arr)[pos]?

/-- What a part of a span is: `n` rows starting with row `offset`. -/
def IsPart (s t : Span) (offset n : Nat) : Prop :=
  t.size = n ∧ ∀ {α : Type} (st : State α) (i : Nat) (vals : List α), Row st t i vals ↔ Row st s (offset + i) vals

/-- Exactly row `i` of the span has been replaced by `vals`. -/
def OnlyRowSet {α : Type} (s : Span) (st st' : State α) (i : Nat) (vals : List α) : Prop :=
  Row st' s i vals ∧ (∀ k r, k ≠ i → (Row st s k r ↔ Row st' s k r)) ∧ SameOutside s st st'

/-- A column of the one span shares its array with at most the corresponding column of the other. -/
def Unmixed (s t : Span) : Prop :=
  ∀ (k l : Nat) (p q : Ptr), s.data[k]? = some p → t.data[l]? = some q → p.arr = q.arr → k = l

/-- No column of the one span shares its array with a column of the other. -/
def Disjoint (s t : Span) : Prop := ∀ p ∈ s.data, ∀ q ∈ t.data, p.arr ≠ q.arr

/-- What a rearrangement of the rows of a span is: row `i` is now what row `f i` was. -/
def RowsMoved {α : Type} (s : Span) (st st' : State α) (f : Nat → Nat) : Prop :=
  (∀ i < s.size, ∀ r, Row st s (f i) r → Row st' s i r) ∧ SameOutside s st st'

end Makeshift.Spec.Soa
