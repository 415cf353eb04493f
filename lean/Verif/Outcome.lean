/-!
# Outcomes of a C++ call, characters and strings

Shared vocabulary of all model files.  `Outcome` makes the four ways a call can end distinct:

* `ok a`      - normal return,
* `throw m`   - a C++ exception with message `m`,
* `failFast`  - a violated `gsl_Expects` / `gsl_Assert` or a `gsl_FailFast` (gsl-lite's default: terminate),
* `ub`        - undefined behaviour.
-/

namespace Makeshift

/-- C++ `char`, seen as `unsigned char`. -/
abbrev CChar := UInt8

/-- `std::string` / `std::string_view`. -/
abbrev Str := List CChar

/-- String literals (ASCII only) as model strings. -/
def str (s : String) : Str := s.toList.map (fun c => UInt8.ofNat c.toNat)

/-- Outcome of a C++ call (no particular source lines; see the module comment). -/
inductive Outcome (α : Type u) where
  | ok (a : α)
  | throw (msg : Str)
  | failFast
  | ub
  deriving DecidableEq, Repr

namespace Outcome

/-- Sequential composition: the first abnormal outcome wins. -/
def bind {α : Type u} {β : Type v} (x : Outcome α) (f : α → Outcome β) : Outcome β :=
  match x with
  | ok a => f a
  | throw m => throw m
  | failFast => failFast
  | ub => ub

instance : Monad Outcome where
  pure := ok
  bind := bind

@[simp] theorem bind_ok {α : Type u} {β : Type v} (a : α) (f : α → Outcome β) : (ok a).bind f = f a := rfl
@[simp] theorem bind_failFast {α : Type u} {β : Type v} (f : α → Outcome β) :
    (failFast : Outcome α).bind f = failFast := rfl
@[simp] theorem bind_ub {α : Type u} {β : Type v} (f : α → Outcome β) : (ub : Outcome α).bind f = ub := rfl
@[simp] theorem bind_throw {α : Type u} {β : Type v} (m : Str) (f : α → Outcome β) :
    (throw m : Outcome α).bind f = throw m := rfl
@[simp] theorem bind_eq {α β : Type u} (x : Outcome α) (f : α → Outcome β) : (x >>= f) = x.bind f := rfl
@[simp] theorem pure_eq {α : Type u} (a : α) : (pure a : Outcome α) = ok a := rfl

/-- Post-composition with a total function. -/
def mapVal {α : Type u} {β : Type v} (f : α → β) (x : Outcome α) : Outcome β := x.bind (fun a => ok (f a))

@[simp] theorem mapVal_ok {α : Type u} {β : Type v} (f : α → β) (a : α) : (ok a).mapVal f = ok (f a) := rfl
@[simp] theorem mapVal_failFast {α : Type u} {β : Type v} (f : α → β) :
    (failFast : Outcome α).mapVal f = failFast := rfl
@[simp] theorem mapVal_ub {α : Type u} {β : Type v} (f : α → β) : (ub : Outcome α).mapVal f = ub := rfl
@[simp] theorem mapVal_throw {α : Type u} {β : Type v} (f : α → β) (m : Str) :
    (throw m : Outcome α).mapVal f = throw m := rfl

/-- `gsl_Expects(cond)` / `gsl_Assert(cond)`: fail fast unless the condition holds. -/
def expects (cond : Bool) : Outcome Unit := if cond then ok () else failFast

@[simp] theorem expects_true : expects true = ok () := rfl
@[simp] theorem expects_false : expects false = failFast := rfl

end Outcome

end Makeshift
