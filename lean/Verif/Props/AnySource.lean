import Verif.Lemmas.AnySource

/-! # C160: what can be initialised from `any_source`, and that it has no value -/

namespace Makeshift.Props

open Makeshift.AnySource Makeshift.AnySource.Spec

/-- `S{ any_source{ }, ... }` with `k` initialisers is well-formed if and only if `S` consists of at least `k` objects and references (array elements
counted one by one), the first `k` of which are not references to non-`const` lvalues, and the others can be initialised from `{ }`. -/
theorem C160_accepts (members : List Elem) (k : Nat) :
    accepts members k = true ↔
      k ≤ (leaves members).length ∧ (∀ l ∈ (leaves members).take k, l ≠ .lvalueRef) ∧
        ∀ l ∈ (leaves members).drop k, l = .object true := by
  rw [accepts, beq_iff_eq, takesAll_eq, leavesTake_iff]

example : (accepts [.object true, .cref, .array 2 (.object true)] 3, accepts [.object true, .cref, .array 2 (.object true)] 5) = (true, false) := by
  decide

/-- The largest number of initialisers is the number of objects and references, if there is no reference to a non-`const` lvalue. -/
theorem C160_count (members : List Elem) (h : Leaf.lvalueRef ∉ leaves members) :
    accepts members (leaves members).length = true ∧ ∀ k, accepts members k = true → k ≤ (leaves members).length := by
  refine ⟨(C160_accepts _ _).mpr ⟨Nat.le_refl _, ?_, ?_⟩, fun k hk => ((C160_accepts _ _).mp hk).1⟩
  · intro l hl e
    rw [List.take_length] at hl
    exact h (e ▸ hl)
  · intro l hl
    rw [List.drop_length] at hl
    cases hl

example : Leaf.lvalueRef ∉ leaves [.object false, .rref, .array 3 (.array 2 (.object true))] := by decide

/-- So the number of members can be found in this way if and only if every array among them has only one element. -/
theorem C160_members_iff (members : List Elem) (hv : ∀ m ∈ members, Valid m) (h : Leaf.lvalueRef ∉ leaves members) :
    (accepts members members.length = true ∧ ∀ k, accepts members k = true → k ≤ members.length) ↔ ∀ m ∈ members, Single m := by
  obtain ⟨h1, h2⟩ := C160_count members h
  rw [← leaves_length_eq_iff members hv]
  constructor
  · rintro ⟨-, hb⟩
    exact Nat.le_antisymm (hb _ h1) (leaves_length_ge members hv)
  · intro e
    rw [← e]
    exact ⟨h1, h2⟩

example : ∀ m ∈ [Elem.object true, .array 3 (.object true)], Valid m := by
  intro m hm
  simp only [List.mem_cons, List.not_mem_nil, or_false] at hm
  rcases hm with rfl | rfl
  · trivial
  · exact ⟨by decide, trivial⟩

/-- If there is a reference to a non-`const` lvalue, nothing is accepted. -/
theorem C160_lvalue (members : List Elem) (h : Leaf.lvalueRef ∈ leaves members) (k : Nat) : accepts members k = false := by
  rw [Bool.eq_false_iff]
  intro hk
  obtain ⟨-, h1, h2⟩ := (C160_accepts _ _).mp hk
  rw [← List.take_append_drop k (leaves members)] at h
  rcases List.mem_append.mp h with h | h
  · exact h1 _ h rfl
  · cases h2 _ h

example : Leaf.lvalueRef ∈ leaves [.object true, .array 1 .lref] := by decide

/-- If some number of initialisers is accepted, then so is every larger number up to the largest: the largest is found by searching from above. -/
theorem C160_upward (members : List Elem) (k j : Nat) (h : accepts members k = true) (hkj : k ≤ j)
    (hj : j ≤ (leaves members).length) : accepts members j = true := by
  obtain ⟨-, h1, h2⟩ := (C160_accepts _ _).mp h
  refine (C160_accepts _ _).mpr ⟨hj, fun l hl e => ?_, fun l hl => ?_⟩
  · have hm : l ∈ leaves members := List.mem_of_mem_take hl
    rw [C160_lvalue members (e ▸ hm) k] at h
    cases h
  · refine h2 l ?_
    obtain ⟨d, rfl⟩ := Nat.le.dest hkj
    rw [← List.drop_drop] at hl
    exact List.mem_of_mem_drop hl

/-- It is not found by searching from below until a number is rejected: here 0 and 1 are rejected, 2 is accepted. -/
theorem C160_not_from_below : ∃ members : List Elem,
    accepts members 0 = false ∧ accepts members 1 = false ∧ accepts members 2 = true :=
  ⟨[.object true, .cref], by decide⟩

example : accepts [.object true, .object true] 0 = true := by decide

/-- An expression has a value if and only if it would not call a conversion, whatever conversions might have returned; the value is then the
same. Otherwise the behaviour is undefined. -/
theorem C160_value (e : Expr) (v : Int) :
    (∀ x, eval e = .ok x ↔ supply v e = (x, 0)) ∧ (eval e = .ub ↔ (supply v e).2 ≠ 0) := by
  have key : eval e = if (supply v e).2 = 0 then .ok (supply v e).1 else .ub := by
    induction e with
    | num i => rfl
    | convert => rfl
    | unevaluated n e ih => rfl
    | add a b iha ihb =>
      rw [eval, iha, ihb]
      by_cases ha : (supply v a).2 = 0 <;> by_cases hb : (supply v b).2 = 0 <;> simp [supply, ha, hb, Outcome.bind]
    | cond c a b ihc iha ihb =>
      rw [eval, ihc, iha, ihb]
      by_cases hc : (supply v c).2 = 0 <;> by_cases hx : (supply v c).1 = 0 <;> simp [supply, hc, hx, Outcome.bind]
  rw [key]
  by_cases h : (supply v e).2 = 0
  · simp [h, Prod.ext_iff]
  · simp [h, Prod.ext_iff]

example : (eval (.add (.unevaluated 4 .convert) (.cond (.num 0) .convert (.num 3))), eval (.add (.num 1) .convert)) = (.ok 7, .ub) := by decide

/-- `any_source` is not a class from which any value can be constructed: no conversion has a value, and none is a constant expression. -/
theorem C160_no_value : ¬ ∃ x, eval .convert = .ok x := by
  rintro ⟨x, h⟩
  cases h

example : eval (.unevaluated 4 .convert) = .ok 4 := by decide

end Makeshift.Props
