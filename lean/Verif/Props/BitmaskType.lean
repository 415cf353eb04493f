import Verif.Model.BitmaskType

/-! # C98: which types are bitmask types -/

namespace Makeshift.Props

open BitmaskType

/-- The operations are available: what the documentation of `is_bitmask` asks for. -/
def OperatorsWellFormed (t : BTy) : Prop := ∀ op ∈ [Op.or, .xor, .compl, .and], ∃ r, opType t op = some r

/-- Operators as they are usually defined for a bitmask type: `T` by value, and `T&` for the assignments. -/
def UsualOperators (overload : Op → Option ResTy) : Prop :=
  (∀ op ∈ [Op.or, .xor, .compl, .and], overload op = some (.value false)) ∧
  ∀ op ∈ [Op.orAssign, .xorAssign, .andAssign], overload op = some (.lref false)

/-- As `gsl_DEFINE_ENUM_BITMASK_OPERATORS` defines them. -/
private def usual : Op → Option ResTy
  | .orAssign | .andAssign | .xorAssign => some (.lref false)
  | _ => some (.value false)

/-- Operators on enumerations and classes have to return `T` and `T&` exactly (on an enumeration, `T const` counts as `T`). -/
theorem C98_enum_iff (isScoped : Bool) (u : IntTy) (overload : Op → Option ResTy) :
    isBitmask (.enum isScoped u overload) = true ↔
      (∀ op ∈ [Op.or, .xor, .compl, .and], ∃ c, overload op = some (.value c)) ∧
      ∀ op ∈ [Op.orAssign, .xorAssign, .andAssign], overload op = some (.lref false) := by
  have hv : ∀ op : Op, op.assigns = false →
      ((opType (.enum isScoped u overload) op = some (.value false)) ↔ ∃ c, overload op = some (.value c)) := by
    intro op ha
    simp only [opType, builtin, ha]
    rcases h : overload op with _ | r
    · cases isScoped <;> simp
    · cases r <;> simp
  have hr : ∀ op : Op, op.assigns = true →
      ((opType (.enum isScoped u overload) op = some (.lref false)) ↔ overload op = some (.lref false)) := by
    intro op ha
    simp only [opType, builtin, ha]
    rcases h : overload op with _ | r
    · cases isScoped <;> simp
    · cases r <;> simp
  simp only [isBitmask, Op.all, List.all_cons, List.all_nil, Bool.and_true, Bool.and_eq_true, beq_iff_eq, Op.assigns, if_true,
    Bool.false_eq_true, if_false, hv .compl rfl, hv .or rfl, hv .and rfl, hv .xor rfl, hr .orAssign rfl, hr .andAssign rfl,
    hr .xorAssign rfl, List.forall_mem_cons, List.not_mem_nil, false_implies, implies_true, and_true]
  constructor
  · rintro ⟨-, h1, h2, h3, h4, h5, h6, h7⟩
    exact ⟨⟨h2, h4, h1, h3⟩, h5, h7, h6⟩
  · rintro ⟨⟨h2, h4, h1, h3⟩, h5, h7, h6⟩
    have s : ∀ (op : Op) (r : ResTy), overload op = some r → (opType (.enum isScoped u overload) op).isSome = true := by
      intro op r h
      simp only [opType, h]
      cases r <;> rfl
    refine ⟨⟨s _ _ h1.choose_spec, s _ _ h2.choose_spec, s _ _ h3.choose_spec, s _ _ h4.choose_spec, s _ _ h5, s _ _ h6, s _ _ h7⟩,
      h1, h2, h3, h4, h5, h6, h7⟩

example : isBitmask (.enum true ⟨32, true⟩ usual) = true := by decide

/-- On classes, `T const` does not count as `T`. -/
theorem C98_class_iff (overload : Op → Option ResTy) (c d : Bool) :
    isBitmask (.cls overload c d) = true ↔ UsualOperators overload := by
  simp only [isBitmask, Op.all, List.all_cons, List.all_nil, Bool.and_true, Bool.and_eq_true, beq_iff_eq, Op.assigns, if_true,
    Bool.false_eq_true, if_false, opType, UsualOperators, List.forall_mem_cons, List.not_mem_nil, false_implies, implies_true,
    and_true]
  constructor
  · rintro ⟨-, h1, h2, h3, h4, h5, h6, h7⟩
    exact ⟨⟨h2, h4, h1, h3⟩, h5, h7, h6⟩
  · rintro ⟨⟨h2, h4, h1, h3⟩, h5, h7, h6⟩
    simp [h1, h2, h3, h4, h5, h6, h7]

example : isBitmask (.cls usual true true) = true ∧
    isBitmask (.cls (fun op => if op = .or then some (.value true) else usual op) true true) = false ∧
    isBitmask (.enum true ⟨8, false⟩ (fun op => if op = .or then some (.value true) else usual op)) = true ∧
    isBitmask (.enum true ⟨8, false⟩ (fun op => if op = .orAssign then some (.lref true) else usual op)) = false := by decide

/-- Integers are bitmask types exactly from the width of `int` on, although the operations are well-formed for all; `bool` is none. -/
theorem C98_integer_iff (t : IntTy) : (isBitmask (.integer t) = true ↔ 32 ≤ t.bits) ∧ OperatorsWellFormed (.integer t) ∧
    isBitmask .boolean = false ∧ OperatorsWellFormed .boolean := by
  have hp : t.promote = t ↔ 32 ≤ t.bits := by
    simp only [IntTy.promote]
    split
    · rename_i h
      constructor
      · intro h'; rw [← h'] at h; simp at h
      · intro h'; omega
    · rename_i h; simp; omega
  refine ⟨?_, ?_, by decide, ?_⟩
  · by_cases h : t.promote = t
    · simp [isBitmask, Op.all, opType, builtin, Op.assigns, h, hp.mp h]
    · have : ¬ 32 ≤ t.bits := fun hc => h (hp.mpr hc)
      simp [isBitmask, Op.all, opType, builtin, Op.assigns, h, this]
  · intro op hop
    simp only [List.mem_cons, List.not_mem_nil, or_false] at hop
    by_cases h : t.promote = t <;> rcases hop with rfl | rfl | rfl | rfl <;> simp [opType, builtin, Op.assigns, h]
  · intro op hop
    simp only [List.mem_cons, List.not_mem_nil, or_false] at hop
    rcases hop with rfl | rfl | rfl | rfl <;> simp [opType, builtin, Op.assigns]

example : isBitmask (.integer ⟨64, false⟩) = true ∧ isBitmask (.integer ⟨16, false⟩) = false := by decide

/-- Hence the documentation is wrong: there are types for which all operations are well-formed and which are no bitmask types, namely
narrow integers and unscoped enumerations without operators. -/
theorem C98_operators_do_not_suffice :
    (¬ ∀ t, OperatorsWellFormed t → isBitmask t = true) ∧
    ∀ u, OperatorsWellFormed (.enum false u fun _ => none) ∧ isBitmask (.enum false u fun _ => none) = false := by
  constructor
  · intro h
    have := h (.integer ⟨8, false⟩) (C98_integer_iff _).2.1
    revert this
    decide
  · intro u
    constructor
    · intro op hop
      simp only [List.mem_cons, List.not_mem_nil, or_false] at hop
      rcases hop with rfl | rfl | rfl | rfl <;> simp [opType, builtin, Op.assigns]
    · simp [isBitmask, Op.all, opType, builtin, Op.assigns]

/-- What the operations yield where no operators have been overloaded: nothing for scoped enumerations, and integers after promotion,
but no assignment, for unscoped ones; `int` for `bool`. -/
theorem C98_promotion (u : IntTy) (op : Op) :
    opType (.enum true u fun _ => none) op = none ∧
    opType (.enum false u fun _ => none) op =
      (if op ∈ [Op.or, .xor, .compl, .and] then some (.integer (if u.bits < 32 then ⟨32, true⟩ else u)) else none) ∧
    opType .boolean op = (if op ∈ [Op.or, .xor, .compl, .and] then some (.integer ⟨32, true⟩) else some (.lref false)) := by
  cases op <;> simp [opType, builtin, Op.assigns, IntTy.promote]

/-- Bitmask types have the operations. -/
theorem C98_bitmask_has_operators (t : BTy) (h : isBitmask t = true) : OperatorsWellFormed t := by
  simp only [isBitmask, Op.all, List.all_cons, List.all_nil, Bool.and_true, Bool.and_eq_true, Option.isSome_iff_exists] at h
  obtain ⟨⟨h1, h2, h3, h4, -⟩, -⟩ := h
  intro op hop
  simp only [List.mem_cons, List.not_mem_nil, or_false] at hop
  rcases hop with rfl | rfl | rfl | rfl
  · exact h2
  · exact h4
  · exact h1
  · exact h3

/-- All eight predicates can be called for every enumeration which is a bitmask type.  For bitmask types which are not enumerations,
this fails: `has_flag` can be called for none of them.  (The property asks for all bitmask types.) -/
theorem C98_predicates_partial (isScoped : Bool) (u : IntTy) (overload : Op → Option ResTy)
    (h : isBitmask (.enum isScoped u overload) = true) :
    let t := BTy.enum isScoped u overload
    hasFlagCompiles t = true ∧ hasAnyFlagOfCompiles t = true ∧ hasAllFlagsOfCompiles t = true ∧
    hasFlagStaticCompiles t = true ∧ hasAnyFlagOfStaticCompiles t = true ∧ hasAllFlagsOfStaticCompiles t = true := by
  simp [hasFlagCompiles, hasAnyFlagOfCompiles, hasAllFlagsOfCompiles, hasFlagStaticCompiles, hasAnyFlagOfStaticCompiles,
    hasAllFlagsOfStaticCompiles, h, hasUnderlyingType, comparable, defaultConstructible, isTemplateParameterType]

/-- Nothing but bitmask types is accepted. -/
theorem C98_rejected (t : BTy) (h : isBitmask t = false) :
    hasFlagCompiles t = false ∧ hasAnyFlagOfCompiles t = false ∧ hasAllFlagsOfCompiles t = false ∧
    hasFlagStaticCompiles t = false ∧ hasAnyFlagOfStaticCompiles t = false ∧ hasAllFlagsOfStaticCompiles t = false := by
  simp [hasFlagCompiles, hasAnyFlagOfCompiles, hasAllFlagsOfCompiles, hasFlagStaticCompiles, hasAnyFlagOfStaticCompiles,
    hasAllFlagsOfStaticCompiles, h]

example : isBitmask (.enum false ⟨8, true⟩ fun op => if op = .compl then none else usual op) = false := by decide

/-- `int`, `unsigned`, ... are bitmask types and can be passed to all predicates except `has_flag`. -/
theorem C98_has_flag_integer (t : IntTy) (h : 32 ≤ t.bits) :
    isBitmask (.integer t) = true ∧ hasAnyFlagOfCompiles (.integer t) = true ∧ hasAllFlagsOfCompiles (.integer t) = true ∧
    hasFlagCompiles (.integer t) = false ∧ hasFlagStaticCompiles (.integer t) = false := by
  have hb := (C98_integer_iff t).1.mpr h
  simp [hasFlagCompiles, hasAnyFlagOfCompiles, hasAllFlagsOfCompiles, hasFlagStaticCompiles, hb, hasUnderlyingType, comparable,
    defaultConstructible]

/-- Classes which are bitmask types can be passed to the predicates which take the flags as arguments, except `has_flag`, as far as they can be compared and
default-constructed, but to none of those which take the flags as template arguments. -/
theorem C98_predicates_class (overload : Op → Option ResTy) (c d : Bool) (h : isBitmask (.cls overload c d) = true) :
    let t := BTy.cls overload c d
    hasFlagCompiles t = false ∧ (hasAnyFlagOfCompiles t = true ↔ c = true ∧ d = true) ∧ (hasAllFlagsOfCompiles t = true ↔ c = true) ∧
    hasFlagStaticCompiles t = false ∧ hasAnyFlagOfStaticCompiles t = false ∧ hasAllFlagsOfStaticCompiles t = false := by
  simp [hasFlagCompiles, hasAnyFlagOfCompiles, hasAllFlagsOfCompiles, hasFlagStaticCompiles, hasAnyFlagOfStaticCompiles,
    hasAllFlagsOfStaticCompiles, h, hasUnderlyingType, comparable, defaultConstructible, isTemplateParameterType]

example : isBitmask (.cls usual true false) = true := by decide

/-- The overloaded operators of a type, for const operands. -/
private def constOperators : BTy → Op → Option ResTy
  | .enum _ _ overload => overload
  | .cls overload _ _ => overload
  | _ => fun _ => none

/-- The concept `bitmask` and the trait `is_bitmask` agree for integers and `bool`, and for enumerations and classes whose operators do not distinguish
const lvalues and lvalues. -/
theorem C98_concept_partial (t : BTy) (lvalues : Op → Option ResTy) (h : ∀ op, lvalues op = constOperators t op) :
    bitmaskConcept t lvalues = isBitmask t := by
  have hl : lvalues = constOperators t := funext h
  subst hl
  have ho : ∀ op, opTypeLvalue t (constOperators t) op = opType t op := by
    intro op
    cases t <;> rfl
  unfold bitmaskConcept isBitmask
  simp only [ho]
  rw [Bool.eq_iff_iff]
  simp only [List.all_eq_true, Bool.and_eq_true, beq_iff_eq]
  constructor
  · intro hall
    refine ⟨fun op hop => ?_, fun op hop => ?_⟩ <;> have := hall op hop <;> cases hr : opType t op <;> rw [hr] at this <;> simp_all
  · rintro ⟨-, h2⟩ op hop
    rw [h2 op hop]
    simp

/-- In general the concept is what the trait would be if it looked at lvalues. -/
theorem C98_concept_iff (isScoped : Bool) (u : IntTy) (overload lvalues : Op → Option ResTy) (c d : Bool) :
    (bitmaskConcept (.cls overload c d) lvalues = true ↔ UsualOperators lvalues) ∧
    (bitmaskConcept (.enum isScoped u overload) lvalues = true ↔
      (∀ op ∈ [Op.or, .xor, .compl, .and], ∃ c, lvalues op = some (.value c)) ∧
      ∀ op ∈ [Op.orAssign, .xorAssign, .andAssign], lvalues op = some (.lref false)) := by
  constructor
  · rw [← C98_class_iff lvalues c d, ← C98_concept_partial (.cls lvalues c d) lvalues fun _ => rfl]
    rfl
  · rw [← C98_enum_iff isScoped u lvalues, ← C98_concept_partial (.enum isScoped u lvalues) lvalues fun _ => rfl]
    rfl

/-- Hence they disagree for classes whose operators are not const, and for classes which return something else for lvalues. -/
theorem C98_concept_differs :
    (∃ t lvalues, bitmaskConcept t lvalues = true ∧ isBitmask t = false) ∧ ∃ t lvalues, bitmaskConcept t lvalues = false ∧ isBitmask t = true :=
  ⟨⟨.cls (fun op => if op.assigns then some (.lref false) else none) true true, usual, by decide⟩,
    ⟨.cls usual true true, fun op => if op = .or then some (.lref false) else usual op, by decide⟩⟩

example : bitmaskConcept (.enum true ⟨32, true⟩ usual) usual = true ∧ bitmaskConcept (.integer ⟨16, false⟩) (fun _ => none) = false ∧
    bitmaskConcept (.integer ⟨32, false⟩) (fun _ => none) = true := by decide

end Makeshift.Props
