import Verif.Model.Borrowed

/-!
# Specification for C134: which statements are rejected

Said in terms of the objects which exist before the statement; nothing of this refers to how ranges are made.
-/

namespace Makeshift.Spec

open Makeshift.Borrowed

/-- The expression can be an argument of `range_zip()`; its size, if it has one. -/
inductive Argument {α : Type} (s : State α) : ZSrc α → Option Nat → Prop
  | vector {o b l} : s.objs o = some (.vector b) → s.mem b = some l → Argument s (.lvalue o) (some l.length)
  | list {o b l} : s.objs o = some (.list b) → s.mem b = some l → Argument s (.lvalue o) (some l.length)
  | lspan {o a len} : s.objs o = some (.span a len) → Argument s (.lvalue o) (some len)
  | index : Argument s .index none
  | span {o b l off len} : s.objs o = some (.vector b) → s.mem b = some l → off + len ≤ l.length → Argument s (.span o off len) (some len)
  | array {elems} : Argument s (.array elems) (some elems.length)

/-- The statements which terminate the program because a contract is violated: a span which does not fit into its vector - also as an argument of `range_zip()`,
if there is nothing wrong with the arguments before it -, an index range which ends before it begins, arguments of `range_zip()` with different sizes. -/
inductive Rejected {α : Type} (s : State α) : Cmd α → Prop
  | span {o v b off len l} : s.objs v = some (.vector b) → s.mem b = some l → l.length < off + len → Rejected s (.span o v off len)
  | indexRange {o first last} : last < first → Rejected s (.indexRange o first last)
  | zipSpan {z o b off len l pre post} : (∀ a ∈ pre, ∃ n, Argument s a n) → s.objs o = some (.vector b) → s.mem b = some l → l.length < off + len →
      Rejected s (.zip z (pre ++ .span o off len :: post))
  | zipSizes {z n m args a b} : (∀ a ∈ args, ∃ n, Argument s a n) → a ∈ args → b ∈ args → Argument s a (some n) → Argument s b (some m) → n ≠ m →
      Rejected s (.zip z args)

end Makeshift.Spec
