import Verif.Model.SoaColumns
import Verif.Spec.SoaSpan

/-!
# Vocabulary for the columns of `soa_span`
-/

namespace Makeshift.Spec.Soa

open Makeshift.Soa (State Span Ptr Col ColTy)

/-- A span which a program can have: one made from columns, or a part of one. -/
inductive Obtained : Span → Prop
  | make {cols : List Col} {s : Span} (h : Makeshift.Soa.makeSoaSpan cols = .ok s) : Obtained s
  | subspan {s t : Span} {o n : Nat} (h : Obtained s) (e : s.subspan o n = .ok t) : Obtained t
  | first {s t : Span} {n : Nat} (h : Obtained s) (e : s.first n = .ok t) : Obtained t
  | last {s t : Span} {n : Nat} (h : Obtained s) (e : s.last n = .ok t) : Obtained t

/-- The part of a column: `n` elements starting with element `offset`. -/
def partOf (c : Col) (offset n : Nat) : Col := (⟨c.1.arr, c.1.off + offset⟩, n)

/-- The column types which differ from these by `const` only, where none is less `const`. -/
def MoreConst (ts rs : List ColTy) : Prop := List.Forall₂ (fun r t => t.ty = r.ty ∧ (r.const = true → t.const = true)) rs ts

end Makeshift.Spec.Soa
