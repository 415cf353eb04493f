import Verif.Model.ConstvalTrait

/-!
# Traits and concepts for constvals and tuple-like types: C70
-/

namespace Makeshift.Props

open Makeshift.ConstvalTrait

/-- The class has everything the documentation asks of a constval of type `V`: the `value_type` `V`, a member
`static constexpr V value` (which makes its declared type `V const`), a call operator that returns a `V`, and a conversion to `V`. -/
def LooksLikeConstval (t : ClassDesc) (V : Nat) : Prop :=
  t.valueType = some ⟨V, false, .none⟩ ∧ t.value = some (.dataMember ⟨V, true, .none⟩) ∧ t.callResult = some ⟨V, false, .none⟩ ∧
  t.convertible ⟨V, false, .none⟩ = true

/-- C70 is false: a class with everything that makes up a constval is recognised by `is_constval` only if it is a specialisation of
`std::integral_constant` or derives from the library's own tag. -/
theorem C70_trait_iff (t : ClassDesc) (V : Nat) (h : LooksLikeConstval t V) :
    isConstval t = true ↔ t.isIntegralConstant = true ∨ t.tagged = true := by
  obtain ⟨h1, h2, h3, h4⟩ := h
  simp [isConstval, isConstval0, isConstval1, h1, h2, h3, Member.decltype]

/-- C70: the concept `constval` is satisfied by no such class at all, not even by `std::integral_constant` or the library's types; nor
is `constval_of`. -/
theorem C70_concept_never (t : ClassDesc) (V : Nat) (h : LooksLikeConstval t V) (conv : QTy → QTy → Bool) (r : QTy) :
    constvalConcept t = false ∧ constvalOfConcept conv t r = false := by
  obtain ⟨h1, h2, h3, h4⟩ := h
  have : constvalConcept t = false := by simp [constvalConcept, h1, h2, h3, Member.decltypeParen]
  exact ⟨this, by simp [constvalOfConcept, this]⟩

/-- C70: more generally, the concept is satisfied only by classes whose `value_type` is an lvalue reference, or whose `value` is an
enumerator. -/
theorem C70_concept_needs_reference (t : ClassDesc) (h : constvalConcept t = true) :
    (∃ vt, t.valueType = some vt ∧ vt.ref = .lvalue) ∨ ∃ b, t.value = some (.enumerator b) := by
  unfold constvalConcept at h
  split at h
  · rename_i vt v r h1 h2 h3
    simp only [Bool.and_eq_true, decide_eq_true_eq] at h
    cases v with
    | dataMember d => left; exact ⟨vt, h1, by rw [← h.1.2]; rfl⟩
    | enumerator b => right; exact ⟨b, h2⟩
  · cases h

/-- C70: exactly which classes satisfy the concept: the result type of the call and the `value_type` are the same type, the class is
convertible to it, and it is the type of an lvalue `value` or, for an enumerator, the enumeration. -/
theorem C70_concept_iff (t : ClassDesc) :
    constvalConcept t = true ↔ ∃ vt, t.valueType = some vt ∧ t.callResult = some vt ∧ t.convertible vt = true ∧
      ((∃ d, t.value = some (.dataMember d) ∧ vt = ⟨d.base, d.isConst, .lvalue⟩) ∨
       ∃ b, t.value = some (.enumerator b) ∧ vt = ⟨b, false, .none⟩) := by
  unfold constvalConcept
  constructor
  · intro h
    split at h
    · rename_i vt v r hv hm hr
      simp only [Bool.and_eq_true, decide_eq_true_eq] at h
      obtain ⟨⟨hc, hd⟩, rfl⟩ := h
      refine ⟨_, hv, hr, hc, ?_⟩
      cases v with
      | dataMember d => left; exact ⟨d, hm, hd.symm⟩
      | enumerator b => right; exact ⟨b, hm, hd.symm⟩
    · cases h
  · rintro ⟨vt, hv, hr, hc, ⟨d, hm, rfl⟩ | ⟨b, hm, rfl⟩⟩ <;> simp [hv, hr, hm, hc, Member.decltypeParen]

/-- C70: conversely a class whose member `value` is not even constant is recognised as a constval, provided that the types agree. -/
theorem C70_mutable_accepted (t : ClassDesc) (V : Nat) (h1 : t.valueType = some ⟨V, false, .none⟩)
    (h2 : t.value = some (.dataMember ⟨V, false, .none⟩)) (h3 : t.callResult = some ⟨V, false, .none⟩)
    (h4 : t.convertible ⟨V, false, .none⟩ = true) : isConstval t = true := by
  simp [isConstval, isConstval0, isConstval1, h1, h2, h3, h4, Member.decltype]

/-- C70: exactly which other classes are recognised: the type of `value` (`V` itself for a data member, the enumeration for an
enumerator), the result type of the call and the `value_type` must all be the same, and the class be convertible to it. -/
theorem C70_untagged_iff (t : ClassDesc) (h1 : t.isIntegralConstant = false) (h2 : t.tagged = false) :
    isConstval t = true ↔ ∃ vt, t.valueType = some vt ∧ t.callResult = some vt ∧ t.convertible vt = true ∧
      (t.value = some (.dataMember vt) ∨ ∃ b, t.value = some (.enumerator b) ∧ vt = ⟨b, false, .none⟩) := by
  simp only [isConstval, h1, h2, Bool.false_or, isConstval0]
  constructor
  · intro h
    split at h
    · rename_i vt v r hv hm hr
      simp only [isConstval1, Bool.and_eq_true, decide_eq_true_eq] at h
      obtain ⟨⟨hc, hd⟩, rfl⟩ := h
      refine ⟨_, hv, hr, hc, ?_⟩
      cases v with
      | dataMember d => left; rw [hm]; exact congrArg (fun d => some (Member.dataMember d)) hd
      | enumerator b => right; exact ⟨b, hm, hd.symm⟩
    · cases h
  · rintro ⟨vt, hv, hr, hc, hm | ⟨b, hm, rfl⟩⟩ <;> simp [hv, hr, hm, isConstval1, hc, Member.decltype]

/-- C70 (partial): a class that looks like a constval is one. Missing: classes which are neither specialisations of
`std::integral_constant` nor tagged; and the concept. -/
theorem C70_is_constval_partial (t : ClassDesc) (V : Nat) (h : LooksLikeConstval t V)
    (ht : t.isIntegralConstant = true ∨ t.tagged = true) (conv : QTy → QTy → Bool) (r : QTy) :
    isConstval t = true ∧ isConstvalOf conv t r = some (conv ⟨V, false, .none⟩ r) := by
  have hc := (C70_trait_iff t V h).2 ht
  refine ⟨hc, ?_⟩
  unfold isConstvalOf
  rw [if_pos hc, h.1]; rfl

/-- C70: `is_constval_of<T, R>` for any class: false for classes which are not constvals, otherwise it tells whether the `value_type`
converts to `R`; a tagged class without `value_type` makes it ill-formed. -/
theorem C70_constval_of (t : ClassDesc) (conv : QTy → QTy → Bool) (r : QTy) :
    (isConstval t = false → isConstvalOf conv t r = some false) ∧
    (∀ vt, isConstval t = true → t.valueType = some vt → isConstvalOf conv t r = some (conv vt r)) ∧
    (isConstval t = true → t.valueType = none → isConstvalOf conv t r = none) := by
  unfold isConstvalOf
  refine ⟨fun h => by simp [h], fun vt h hv => by simp [h, hv], fun h hv => by simp [h, hv]⟩

/-- C70: the concept `tuple_like` is satisfied by no type whatsoever for which `std::tuple_size` has a data member `value`, while the
trait `is_tuple_like` holds for all of these. -/
theorem C70_tuple_like (sizeT : Nat) (d : QTy) :
    tupleLikeConcept sizeT (some (.dataMember d)) = false ∧ isTupleLike (some (.dataMember d)) = true := by
  simp [tupleLikeConcept, isTupleLike, Member.decltypeParen]

/-- C70: the concept `tuple_like` is satisfied only where the `value` of `std::tuple_size` is an enumerator of type `std::size_t`. -/
theorem C70_tuple_like_iff (sizeT : Nat) (v : Option Member) :
    tupleLikeConcept sizeT v = true ↔ v = some (.enumerator sizeT) := by
  cases v with
  | none => simp [tupleLikeConcept]
  | some v => cases v <;> simp [tupleLikeConcept, Member.decltypeParen]

/-- C70: the functions constrained by `tuple_like` (`tie_members` with an explicit list of members, tuple.hpp:391-409) can therefore not
be called for any standard tuple; where `std::tuple_size` has no `value`, neither the trait nor the concept holds. -/
theorem C70_tuple_like_never (sizeT : Nat) (v : Option Member) (hv : ∀ b, v = some (.enumerator b) → b ≠ sizeT) :
    tupleLikeConcept sizeT v = false := by
  cases v with
  | none => rfl
  | some v =>
    cases v with
    | dataMember d => exact (C70_tuple_like sizeT d).1
    | enumerator b => simp [tupleLikeConcept, Member.decltypeParen, hv b rfl]

/-! `std::is_same<int, int>`, which derives from `std::integral_constant<bool, true>`, and the latter itself (`bool` is type 1). -/

/-- A class derived from `std::true_type`. -/
def isSameDesc : ClassDesc :=
  ⟨false, false, some ⟨1, false, .none⟩, some (.dataMember ⟨1, true, .none⟩), some ⟨1, false, .none⟩, fun _ => true⟩

example : LooksLikeConstval isSameDesc 1 ∧ isConstval isSameDesc = false := ⟨⟨rfl, rfl, rfl, rfl⟩, by decide⟩
example : LooksLikeConstval { isSameDesc with isIntegralConstant := true } 1 ∧
    isConstval { isSameDesc with isIntegralConstant := true } = true := ⟨⟨rfl, rfl, rfl, rfl⟩, by decide⟩
-- a class recognised although it is neither tagged nor a specialisation of `std::integral_constant`, and one which is not because its
-- call operator returns another type
example : isConstval ⟨false, false, some ⟨1, true, .none⟩, some (.dataMember ⟨1, true, .none⟩), some ⟨1, true, .none⟩, fun _ => true⟩ = true ∧
    isConstval ⟨false, false, some ⟨1, true, .none⟩, some (.dataMember ⟨1, true, .none⟩), some ⟨2, true, .none⟩, fun _ => true⟩ = false := by
  decide
-- a class to which `C70_concept_needs_reference` applies
example : constvalConcept ⟨false, false, some ⟨1, true, .lvalue⟩, some (.dataMember ⟨1, true, .none⟩), some ⟨1, true, .lvalue⟩,
    fun _ => true⟩ = true := by decide

end Makeshift.Props
