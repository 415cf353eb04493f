import Verif.Model.StreamFn

/-!
# C105: `to_stream` and `from_stream`
-/

namespace Makeshift.Props

open Makeshift.StreamFn

variable {σ : Type}

/-- The operand type has one operator, which takes its argument by value or by reference to const. -/
def OneOperator (x : Operand σ) : Prop := ∀ c, x.op c = x.op ⟨true, false⟩

/-- Full claim (false): `to_stream<>{ }(stream, arg)` can be called iff `stream << arg` is well-formed, and does the same.  Proved for objects of
types whose operator takes them by value or reference to const; see `C105_to_stream_negated` for what is missing.  In general it does what
`stream << arg` does for a const lvalue. -/
theorem C105_to_stream_partial (ty : Nat) (x : Operand σ) (c : Cat) :
    (OneOperator x → toStream (.object ty x c) = direct (.object ty x c)) ∧
    toStream (.object ty x c) = direct (.object ty x ⟨true, false⟩) := ⟨fun h => (h c).symm, rfl⟩

example : OneOperator (⟨fun _ => some fun n => .ok (n + 1)⟩ : Operand Nat) := fun _ => rfl

/-- What is false: `stream << as_enum(x)` and `stream << std::endl` are well-formed, but `to_stream<>` accepts neither; and for a type with
overloads for lvalues and const lvalues it calls the one for const lvalues. -/
theorem C105_to_stream_negated (effect e1 e2 : σ → Outcome σ) (ty : Nat) :
    (direct (.object ty (manipulatorOperand effect) ⟨false, true⟩) = some effect ∧
      toStream (.object ty (manipulatorOperand effect) ⟨false, true⟩) = none) ∧
    (∀ x : Operand σ, x.op ⟨false, false⟩ = some effect → direct (.overloadSet x) = some effect ∧ toStream (.overloadSet x) = none) ∧
    ∃ x : Operand σ, direct (.object ty x ⟨false, false⟩) = some e1 ∧ toStream (.object ty x ⟨false, false⟩) = some e2 :=
  ⟨⟨rfl, rfl⟩, fun _ h => ⟨h, rfl⟩, ⟨fun c => if c.const then some e2 else some e1⟩, rfl, rfl⟩

/-- Full claim (false): `from_stream<>{ }(stream, arg)` can be called iff `stream >> arg` is well-formed, and does the same.  Proved for lvalues,
const or not. -/
theorem C105_from_stream_partial (ty : Nat) (x : Operand σ) (c : Cat) (h : c.rvalue = false) :
    fromStream (.object ty x c) = direct (.object ty x c) := by
  rcases c with ⟨k, r⟩
  cases h
  simp [fromStream, direct]

example : (⟨false, false⟩ : Cat).rvalue = false := rfl

/-- What is false: rvalues are not accepted, so `from_stream<>{ }(stream, as_enum(x))` does not compile; and a named manipulator is not accepted by
`>>`.  So there is no way to pass one. -/
theorem C105_from_stream_negated (effect : σ → Outcome σ) (ty : Nat) :
    (∀ x : Operand σ, fromStream (.object ty x ⟨false, true⟩) = none) ∧
    direct (.object ty (manipulatorOperand effect) ⟨false, true⟩) = some effect ∧
    ∀ c, fromStream (.object ty (manipulatorOperand effect) c) = none ∧ toStream (.object ty (manipulatorOperand effect) c) = none := by
  refine ⟨fun _ => rfl, rfl, ?_⟩
  rintro ⟨k, r⟩
  cases k <;> cases r <;> exact ⟨rfl, rfl⟩

/-- The versions for a fixed type: `to_stream<T>` does what `to_stream<>` does for arguments of type `T`; `from_stream<T>` accepts the non-const
lvalues of type `T` which `from_stream<>` accepts, and treats them alike. -/
theorem C105_fixed_type (ty : Nat) (x : Operand σ) (c : Cat) :
    toStreamOf ty x c = toStream (.object ty x c) ∧
    fromStreamOf false x ⟨false, false⟩ = fromStream (.object ty x ⟨false, false⟩) ∧
    (fromStreamOf false x c ≠ none → c = ⟨false, false⟩) ∧
    fromStreamOf true x c = direct (.object ty x ⟨true, false⟩) := by
  refine ⟨?_, ?_, ?_, ?_⟩
  · simp only [toStreamOf, toStreamClass, toStream]
    rcases Option.eq_none_or_eq_some (x.op ⟨true, false⟩) with h | ⟨e, h⟩ <;> simp [h]
  · simp only [fromStreamOf, fromStreamClass, fromStream]
    rcases Option.eq_none_or_eq_some (x.op ⟨false, false⟩) with h | ⟨e, h⟩ <;> simp [h]
  · rcases c with ⟨k, r⟩
    intro h
    cases k <;> cases r <;> simp_all [fromStreamOf]
  · simp only [fromStreamOf, fromStreamClass, direct]
    rcases Option.eq_none_or_eq_some (x.op ⟨true, false⟩) with h | ⟨e, h⟩ <;> simp [h]

/-- Whether `to_stream<>` and `from_stream<>` can be called can be tested with `std::is_invocable`, since a missing operator is a substitution
failure; for the versions with a fixed type, naming the class for a type without the operator is an error already. -/
theorem C105_sfinae (ty : Nat) (x : Operand σ) (c : Cat) :
    (toStreamClass x = false ↔ toStream (.object ty x c) = none) ∧
    (fromStreamClass false x = false ↔ fromStream (.object ty x ⟨false, false⟩) = none) := by
  constructor
  · simp only [toStreamClass, toStream]
    cases h : x.op ⟨true, false⟩ <;> simp
  · simp only [fromStreamClass, fromStream]
    cases h : x.op ⟨false, false⟩ <;> simp

example : toStreamClass (⟨fun _ => none⟩ : Operand Nat) = false ∧ toStreamClass (⟨fun _ => some fun n => .ok n⟩ : Operand Nat) = true :=
  ⟨rfl, rfl⟩

end Makeshift.Props
