import Verif.Model.ExpFunctional

/-!
# Value-category wrappers and `forward_to`: C74
-/

namespace Makeshift.Props

open Makeshift.ExpFunctional

variable {S A B : Type}

/-- C74: an `rvalue_ref_fn` can be called on non-const rvalues only, and then does what the function object does as an rvalue. -/
theorem C74_rvalue_ref_fn (f : Functor S A B) (c : Cat) :
    (rvalueRefFn f).call c = if c = .rvalue then f.call .rvalue else none := by
  cases c <;> simp [rvalueRefFn, Overloads.resolve, Functor.call]

/-- C74: an `lvalue_ref_fn` can be called on non-const lvalues only, and then does what the function object does as an lvalue. -/
theorem C74_lvalue_ref_fn (f : Functor S A B) (c : Cat) :
    (lvalueRefFn f).call c = if c = .lvalue then f.call .lvalue else none := by
  cases c <;> simp [lvalueRefFn, Overloads.resolve, Functor.call]

/-- C74 (partial): on lvalues, an `lvalue_const_ref_fn` does what the function object does as a const lvalue.  Missing: it should not be
callable on rvalues, which is false (`C74_const_ref_accepts_rvalues`). -/
theorem C74_lvalue_const_ref_fn_partial (f : Functor S A B) (c : Cat) (h : c = .lvalue ∨ c = .constLvalue) :
    (lvalueConstRefFn f).call c = f.call .constLvalue := by
  rcases h with rfl | rfl <;> simp [lvalueConstRefFn, Overloads.resolve, Functor.call]

/-- C74: an `lvalue_const_ref_fn` can be called on rvalues as well, const or not. -/
theorem C74_const_ref_accepts_rvalues (f : Functor S A B) (g : S → A → B) (h : f.constLvalue = some g) (c : Cat) :
    (lvalueConstRefFn f).call c = some (pureCall g) := by
  cases c <;> simp [lvalueConstRefFn, Overloads.resolve, Functor.call, h]

/-- C74: `forward_to` compiles only for function objects which can be called without arguments; then, each call makes the inner
function from the function object with the value category of the wrapper, falling back to a const lvalue where that is not possible,
and for const rvalues. -/
theorem C74_forward_to (k : Made S A B) :
    (k.nullaryRvalue = false → forwardTo k = none) ∧
    (k.nullaryRvalue = true → ∃ w, forwardTo k = some w ∧
      (∀ g, k.lvalue = some g → w.call .lvalue = some g) ∧
      (∀ g, k.rvalue = some g → w.call .rvalue = some g) ∧
      (k.lvalue = none → w.call .lvalue = k.constLvalue.map pureCall) ∧
      (k.rvalue = none → w.call .rvalue = k.constLvalue.map pureCall) ∧
      w.call .constLvalue = k.constLvalue.map pureCall ∧
      w.call .constRvalue = k.constLvalue.map pureCall) := by
  refine ⟨fun h => by simp [forwardTo, h], fun h => ⟨_, by simp only [forwardTo, h, if_true]; rfl, ?_, ?_, ?_, ?_, rfl, rfl⟩⟩
  · intro g hg; simp [Functor.call, Overloads.resolve, hg]
  · intro g hg; simp [Functor.call, Overloads.resolve, hg]
  · intro hg; simp [Functor.call, Overloads.resolve, hg]
  · intro hg; simp [Functor.call, Overloads.resolve, hg]

/-- A function object which appends to its state unless it is const. -/
def appender : Functor (List Nat) Nat Nat where
  lvalue := some fun s a => (a :: s, s.length)
  constLvalue := some fun s _ => s.length
  rvalue := some fun s _ => ([], s.length)
  constRvalue := none

example : ((rvalueRefFn appender).call .rvalue).map (· [1, 2] 3) = some ([], 2) ∧ ((rvalueRefFn appender).call .lvalue).isNone := by
  decide
example : ((lvalueRefFn appender).call .lvalue).map (· [1, 2] 3) = some ([3, 1, 2], 2) ∧ ((lvalueRefFn appender).call .rvalue).isNone := by
  decide
example : ((lvalueConstRefFn appender).call .rvalue).map (· [1, 2] 3) = some ([1, 2], 2) := by decide
/-- The documented use of `forward_to` with a functor that takes the forwarder: ill-formed. -/
example : forwardTo (⟨none, none, none, false⟩ : Made Nat Nat Nat) = none := rfl
example : (forwardTo (⟨none, some fun s a => s + a, none, true⟩ : Made Nat Nat Nat)).bind
    (fun w => (w.call .lvalue).map (· 1 2)) = some (1, 3) := by decide

end Makeshift.Props
