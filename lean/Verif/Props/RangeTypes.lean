import Verif.Model.RangeTypes
import Verif.Spec.TupleAccess
import Verif.Props.Ranges
import Verif.Lemmas.Expand

/-! # C87: making ranges, and using them with algorithms and as tuples -/

namespace Makeshift.Props

open Makeshift.TupleAccess (Ty CTy Access)
open Makeshift.RangeTypes Makeshift.Spec.TupleAccess

/-! ## Construction -/

/-- `range(first, last)` is a range of two iterator types and dynamic extent, `range(start, n)` a range of dynamic extent and
`range(start, std::integral_constant<T, n>{ })` one of static extent `n`; the latter two need a random access iterator.  If `last` converts to an integer, it is an extent unless it
has the type of `first`. -/
theorem C87_range (it : ItTy) :
    (∀ t, t.toSize = false → rangeExpr it (.iter t) = some ⟨it, t, -1⟩) ∧
    (∀ t, t.toSize = true → rangeExpr it (.iter t) =
      if t.constexprDefault = true ∧ (t = it ∨ it.randomAccess = true) then some ⟨it, it, -1⟩ else none) ∧
    rangeExpr it .int = (if it.randomAccess then some ⟨it, it, -1⟩ else none) ∧
    (∀ n : Nat, n < 2 ^ 63 → rangeExpr it (.const n) = if it.randomAccess then some ⟨it, it, n⟩ else none) := by
  refine ⟨fun t h => ?_, fun t h => ?_, ?_, fun n hn => ?_⟩
  · simp [rangeExpr, deduce, Second.toSize, h, constructible, rangeBase]
  · cases hc : t.constexprDefault
    · simp [rangeExpr, deduce, Second.toSize, Second.extent, h, hc]
    · simp [rangeExpr, deduce, Second.toSize, Second.extent, h, hc, constructible, rangeBase]
  · simp [rangeExpr, deduce, Second.toSize, Second.extent, constructible, rangeBase]
  · have hw : IntTy.ptrdiffT.wrap n = n := by
      apply wrap_id (Or.inr (Or.inr (Or.inr rfl)))
      simp [IntTy.ptrdiffT, IntTy.InRange, IntTy.minVal, IntTy.maxVal]; omega
    have h1 : (n : Int) ≠ -1 := by omega
    cases hr : it.randomAccess <;>
      simp [rangeExpr, deduce, Second.toSize, Second.extent, constructible, rangeBase, hr, hw, h1]

/-- A pointer to `int`. -/
def pointerTy : ItTy := ⟨0, true, .lref ⟨0, false⟩, true, false⟩

/-- An iterator of `std::list<int>` whose default constructor is not `constexpr`. -/
def listIterTy : ItTy := ⟨1, false, .lref ⟨0, false⟩, false, false⟩

example : rangeExpr pointerTy (.iter pointerTy) = some ⟨pointerTy, pointerTy, -1⟩ := (C87_range pointerTy).1 _ rfl
example : rangeExpr pointerTy (.const 3) = some ⟨pointerTy, pointerTy, 3⟩ := (C87_range pointerTy).2.2.2 3 (by omega)

/-- A range of given type (not deduced) can be constructed from an iterator and an extent exactly if the type exists, i.e. the
extent is dynamic or it is static and the iterator types are the same, the iterator is a random access iterator, and the extent is not known at
compile time or agrees with that of the type.  A sentinel of another type than that of the range is taken for an extent if it converts
to an integer.  (Whether an extent known at run time agrees is checked at run time, C37.) -/
theorem C87_construct (r : RangeTy) :
    (constructible r .int = true ↔ r.it.randomAccess = true ∧ (r.extent = -1 ∨ 0 ≤ r.extent ∧ r.it = r.endIt)) ∧
    (∀ n : Nat, n < 2 ^ 63 → (constructible r (.const n) = true ↔ r.it.randomAccess = true ∧ (r.extent = -1 ∨ r.extent = n ∧ r.it = r.endIt))) ∧
    (∀ t, constructible r (.iter t) = true ↔
      (t = r.endIt ∨ t.toSize = true ∧ t.constexprDefault = true ∧ r.it.randomAccess = true) ∧
      (r.extent = -1 ∨ 0 ≤ r.extent ∧ r.it = r.endIt ∧ r.it.randomAccess = true)) := by
  have hb : (rangeBase r).isSome = true ↔ r.extent = -1 ∨ 0 ≤ r.extent ∧ r.it = r.endIt ∧ r.it.randomAccess = true := by
    unfold rangeBase
    by_cases h1 : r.extent = -1
    · simp [h1]
    · by_cases h2 : r.it = r.endIt ∧ r.it.randomAccess = true
      · by_cases h3 : 0 ≤ r.extent <;> simp [h1, h2, h3]
      · rw [if_neg h1, if_neg h2]; simp only [Option.isSome_none, Bool.false_eq_true, false_iff]; tauto
  refine ⟨?_, fun n hn => ?_, fun t => ?_⟩
  · simp only [constructible, Bool.and_eq_true, hb]; clear hb; tauto
  · have hw : IntTy.ptrdiffT.wrap n = n := by
      apply wrap_id (Or.inr (Or.inr (Or.inr rfl)))
      simp [IntTy.ptrdiffT, IntTy.InRange, IntTy.minVal, IntTy.maxVal]; omega
    have h1 : (n : Int) ≠ -1 := by omega
    simp only [constructible, Bool.and_eq_true, Bool.or_eq_true, decide_eq_true_eq, hb, hw, h1, or_false]
    constructor
    · rintro ⟨h2, h3, h4⟩
      refine ⟨h3, ?_⟩
      rcases h4 with h4 | h4
      · exact Or.inl h4
      · rcases h2 with h2 | h2
        · exact Or.inl h2
        · exact Or.inr ⟨h4, h2.2.1⟩
    · rintro ⟨h2, h3⟩
      rcases h3 with h3 | ⟨h3, h4⟩
      · exact ⟨Or.inl h3, h2, Or.inl h3⟩
      · exact ⟨Or.inr ⟨by omega, h4, h2⟩, h2, Or.inr h3⟩
  · simp only [constructible, Bool.and_eq_true, Bool.or_eq_true, decide_eq_true_eq, hb]; clear hb; tauto

example : constructible ⟨pointerTy, pointerTy, 3⟩ (.const 3) = true ∧ constructible ⟨pointerTy, pointerTy, 3⟩ (.const 4) = false ∧
    constructible ⟨pointerTy, pointerTy, 3⟩ .int = true ∧ constructible ⟨pointerTy, listIterTy, 3⟩ .int = false := by decide

/-- `make_range` compiles exactly for a pair of iterators whose second type is not default-constructible in a constant expression;
then it does the same as `range(first, last)`. -/
theorem C87_make_range_partial (it : ItTy) (s : Second) (r : RangeTy) :
    makeRange it s = some r ↔ ∃ t, s = .iter t ∧ t.toSize = false ∧ t.constexprDefault = false ∧ rangeExpr it s = some r := by
  cases s with
  | int => simp [makeRange, makeRangePair, makeRangeExtent, Second.toSize]
  | const v => simp [makeRange, makeRangePair, makeRangeExtent, Second.toSize]
  | iter t =>
    cases h1 : t.toSize <;> cases h2 : t.constexprDefault <;>
      simp [makeRange, makeRangePair, makeRangeExtent, Second.toSize, Second.extent, rangeExpr, deduce, h1, h2]

example : makeRange listIterTy (.iter listIterTy) = some ⟨listIterTy, listIterTy, -1⟩ :=
  (C87_make_range_partial _ _ _).2 ⟨_, rfl, rfl, rfl, (C87_range _).1 _ rfl⟩

/-- `make_range(start, extent)` never compiles, although it is documented to construct a range from an iterator and an extent. -/
theorem C87_make_range_extent (it : ItTy) (s : Second) (h : s.toSize = true) : makeRange it s = none := by
  cases hm : makeRange it s with
  | none => rfl
  | some r =>
    obtain ⟨t, rfl, ht, -⟩ := (C87_make_range_partial it s r).1 hm
    simp [Second.toSize, ht] at h

/-- `make_range(p, q)` is ambiguous for pointers, whereas `range(p, q)` and `range(p, n)` compile. -/
theorem C87_make_range_pointers :
    makeRange pointerTy (.iter pointerTy) = none ∧ (rangeExpr pointerTy (.iter pointerTy)).isSome = true ∧
    makeRange pointerTy .int = none ∧ (rangeExpr pointerTy .int).isSome = true ∧
    makeRange pointerTy (.const 3) = none ∧ (rangeExpr pointerTy (.const 3)).isSome = true := by
  decide

/-! ## Size -/

private theorem rangeSize_def (subtractable : Bool) (r : RangeTy) :
    rangeSize subtractable r = (rangeBase r).bind fun _ => match tupleSize r with
      | .value n => some (.static n)
      | .ambiguous => none
      | .incomplete => (sizeMember subtractable r).map fun s => s.getD .unknown := by
  unfold rangeSize isTupleLike
  cases tupleSize r <;> simp [TupleSize.value?]

private theorem csize_def (subtractable : Bool) (r : RangeTy) :
    csize subtractable r = (rangeBase r).bind fun _ => match tupleSize r with
      | .value n => some (.static n)
      | .ambiguous => none
      | .incomplete => (sizeMember subtractable r).bind id := by
  unfold csize isTupleLike
  cases tupleSize r <;> simp [TupleSize.value?]

/-- The size of a range as the algorithms see it: static for a range of static extent; run-time if the iterator is a random access
iterator and the sentinel can be subtracted; unknown if the iterator is not a random access iterator (but see `C108_range`).  They reject ranges of dynamic
extent with equal iterator types, and those with a random access iterator and a sentinel that cannot be subtracted. -/
theorem C87_size_partial (it : ItTy) (s : Second) (r : RangeTy) (h : rangeExpr it s = some r) (subtractable : Bool) (z : RangeTypes.Size) :
    rangeSize subtractable r = some z ↔
      (r.extent ≠ -1 ∧ ∃ n : Nat, r.extent = n ∧ z = .static n) ∨
      (r.extent = -1 ∧ r.it ≠ r.endIt ∧ r.it.randomAccess = true ∧ subtractable = true ∧ z = .dynamic) ∨
      (r.extent = -1 ∧ r.it ≠ r.endIt ∧ r.it.randomAccess = false ∧ z = .unknown) := by
  have hb : (rangeBase r).isSome = true := by
    simp only [rangeExpr, Option.bind_eq_some_iff] at h
    obtain ⟨r', -, h⟩ := h
    split at h
    · rename_i hc
      cases h
      simp only [constructible, Bool.and_eq_true] at hc
      exact hc.1
    · exact absurd h (by simp)
  obtain ⟨i, e, x⟩ := r
  by_cases hx : x = -1
  · subst hx
    by_cases hie : i = e
    · subst hie; simp [rangeSize_def, rangeBase, tupleSize]
    · cases hr : i.randomAccess <;> cases subtractable <;>
        simp [rangeSize_def, rangeBase, tupleSize, sizeMember, hie, hr, eq_comm]
  · by_cases hie : i = e ∧ i.randomAccess = true
    · obtain ⟨rfl, hr⟩ := hie
      by_cases h0 : 0 ≤ x
      · obtain ⟨n, rfl⟩ := Int.eq_ofNat_of_zero_le h0
        simp only [rangeSize_def, rangeBase, tupleSize, hx, hr, if_false, if_true, and_self, h0, Option.bind_some, Int.toNat_natCast,
          Option.some.injEq, ne_eq, not_false_eq_true, true_and, false_and, or_false]
        constructor
        · rintro rfl; exact ⟨n, rfl, rfl⟩
        · rintro ⟨m, hm, rfl⟩; rw [Int.ofNat.inj hm]
      · simp [rangeBase, hx, hr, h0] at hb
    · simp [rangeBase, hx, hie] at hb

example : rangeSize true ⟨pointerTy, pointerTy, 3⟩ = some (.static 3) :=
  (C87_size_partial pointerTy (.const 3) _ (by decide) true _).2 (.inl ⟨by decide, 3, rfl, rfl⟩)

/-- `csize()` agrees with the algorithms, except that it cannot be called for a range of unknown size. -/
theorem C87_csize (subtractable : Bool) (r : RangeTy) (z : RangeTypes.Size) :
    csize subtractable r = some z ↔ rangeSize subtractable r = some z ∧ z ≠ .unknown := by
  rw [csize_def, rangeSize_def]
  cases hb : rangeBase r with
  | none => simp
  | some b =>
    cases ht : tupleSize r with
    | value n => simp only [Option.bind_some, Option.some.injEq]; constructor <;> rintro h
                 · subst h; simp
                 · exact h.1
    | ambiguous => simp
    | incomplete =>
      cases b <;> cases subtractable <;> cases z <;> simp [sizeMember, hb]

/-- In particular no algorithm accepts `range(p, q)` for iterators of the same type, or `range(p, n)`, and `csize()` does not
either. -/
theorem C87_dynamic_rejected (it : ItTy) (subtractable : Bool) :
    (it.toSize = false → ∃ r, rangeExpr it (.iter it) = some r ∧ rangeSize subtractable r = none ∧ csize subtractable r = none) ∧
    (it.randomAccess = true → ∃ r, rangeExpr it .int = some r ∧ rangeSize subtractable r = none ∧ csize subtractable r = none) := by
  have key : rangeSize subtractable ⟨it, it, -1⟩ = none ∧ csize subtractable ⟨it, it, -1⟩ = none := by
    simp [rangeSize_def, csize_def, rangeBase, tupleSize]
  exact ⟨fun h => ⟨_, (C87_range it).1 it h, key⟩, fun h => ⟨_, by rw [(C87_range it).2.2.1, if_pos h], key⟩⟩

example : ∃ r, rangeExpr pointerTy .int = some r ∧ rangeSize true r = none ∧ csize true r = none :=
  (C87_dynamic_rejected pointerTy true).2 rfl

/-! ## Tuple protocol -/

/-- `get<I>(r)` for a range of static extent refers to element `I` of the range; there is none beyond the extent. -/
theorem C87_get {α : Type} (array : List α) (first extent i : Nat) (hin : first + extent ≤ array.length) :
    (∀ h : i < extent, getValue array ⟨first, extent⟩ i = some (.ok (array[first + i]'(by omega)))) ∧
    (extent ≤ i → getValue array ⟨first, extent⟩ i = none) := by
  refine ⟨fun h => ?_, fun h => by simp [getValue]; omega⟩
  simp only [getValue, h, if_true, (C37_static_subscript array first extent hin i).1 h]

example : getValue [10, 11, 12, 13] ⟨1, 2⟩ 1 = some (.ok 12) := (C87_get [10, 11, 12, 13] 1 2 1 (by decide)).1 (by decide)

/-- The type of `get<I>(r)`: that of `*it` for a non-const lvalue, and a reference to const otherwise, if there is one; the tuple element type
is the type of the element, const if the range is. -/
theorem C87_get_type (a : Access) (t : Ty) :
    (a.const = false ∧ a.rvalue = false → RangeTypes.get a t = some t) ∧
    (a.const = true ∨ a.rvalue = true → ∀ g, RangeTypes.get a t = some g ↔
      g = .lref ⟨t.referred.ty, true⟩ ∧ ((∃ c, t = .lref c) ∨ t.referred.const = true)) ∧
    (∃ c, tupleElement a.const t = .obj c ∧ c.ty = t.referred.ty ∧ c.const = a.const) := by
  rcases a with ⟨k, r⟩
  refine ⟨fun ⟨h1, h2⟩ => by simp at h1 h2; simp [RangeTypes.get, h1, h2], fun h g => ?_, _, rfl, rfl, rfl⟩
  have h' : (!k && !r) = false := by cases k <;> cases r <;> simp_all
  rcases t with ⟨n, c⟩ | ⟨n, c⟩ | ⟨n, c⟩ <;> cases c <;> simp [RangeTypes.get, h', Ty.referred, eq_comm]

example : RangeTypes.get ⟨true, false⟩ (.lref ⟨5, false⟩) = some (.lref ⟨5, true⟩) ∧ RangeTypes.get ⟨false, true⟩ (.obj ⟨5, false⟩) = none := ⟨rfl, rfl⟩

/-- Structured bindings to the elements of a range of static extent compile exactly for `auto&`, if the elements are not const, and
for const declarations, if `*it` is an lvalue or const. -/
theorem C87_bindings_partial (d : Decl) (t : Ty) :
    (∃ g, RangeTypes.get d.access t = some g ∧ Bindable (tupleElement d.access.const t) g) ↔
      (d = .autoRef ∧ t.referred.const = false) ∨
      (d.access.const = true ∧ ((∃ c, t = .lref c) ∨ t.referred.const = true)) := by
  cases d <;> rcases t with ⟨n, c⟩ | ⟨n, c⟩ | ⟨n, c⟩ <;> cases c <;>
    simp [RangeTypes.get, Decl.access, Bindable, Binds, tupleElement, Ty.addLRef, Ty.referred]

/-- So `auto [a, b] = range(p, std::integral_constant<int, 2>{ });` does not compile, whatever `p` is. -/
theorem C87_no_auto_binding (t : Ty) :
    ¬ ∃ g, RangeTypes.get Decl.auto.access t = some g ∧ Bindable (tupleElement Decl.auto.access.const t) g := by
  rw [C87_bindings_partial]
  simp [Decl.access]

example : ∃ g, RangeTypes.get Decl.autoRef.access pointerTy.deref = some g ∧
    Bindable (tupleElement Decl.autoRef.access.const pointerTy.deref) g := (C87_bindings_partial _ _).2 (.inl ⟨rfl, rfl⟩)

end Makeshift.Props
