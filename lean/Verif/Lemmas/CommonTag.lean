import Verif.Lemmas.TagClasses

/-! Helper lemmas for the tag of zipped iterators as a class. -/

namespace Makeshift.SinkOverload

open Makeshift.SinkOverload.Spec

theorem mapM_some_map {α : Type} (bit : α → Option Nat) (f : α → Nat) (cs : List α) (bits : List Nat)
    (h : cs.mapM bit = some bits) (hf : ∀ c ∈ cs, ∀ n, bit c = some n → n = f c) : bits = cs.map f := by
  induction cs generalizing bits with
  | nil => simpa using h.symm
  | cons c cs ih =>
    simp only [List.mapM_cons, Option.bind_eq_bind, Option.bind_eq_some_iff, Option.pure_def, Option.some.injEq] at h
    obtain ⟨n, hn, l, hl, rfl⟩ := h
    rw [List.map_cons, ← hf c (by simp) n hn, ← ih l hl (fun c hc => hf c (by simp [hc]))]

theorem mapM_isSome {α : Type} (bit : α → Option Nat) (cs : List α) (h : ∀ c ∈ cs, (bit c).isSome = true) :
    ∃ bits, cs.mapM bit = some bits := by
  induction cs with
  | nil => exact ⟨[], rfl⟩
  | cons c cs ih =>
    obtain ⟨n, hn⟩ := Option.isSome_iff_exists.mp (h c (by simp))
    obtain ⟨l, hl⟩ := ih fun c hc => h c (by simp [hc])
    exact ⟨n :: l, by simp [List.mapM_cons, hn, hl]⟩

/-- The common bit is the minimum. -/
theorem commonBitOf_some {bit : Nat → Option Nat} {f : Nat → Nat} {cs : List Nat} (hne : cs ≠ []) {m : Nat}
    (hf : ∀ c ∈ cs, ∀ n, bit c = some n → n = f c) (hle : ∀ c ∈ cs, f c < 5) (h : commonBitOf bit cs = some m) :
    m < 5 ∧ ∀ k, k ≤ m ↔ ∀ c ∈ cs, k ≤ f c := by
  unfold commonBitOf at h
  obtain ⟨bits, hb, hm⟩ := Option.map_eq_some_iff.mp h
  have hbits := mapM_some_map bit f cs bits hb hf
  subst hbits
  obtain ⟨m', hm', hlt, hk⟩ := commonBit (cs.map f) (by simpa using hne) (by
    intro x hx
    obtain ⟨c, hc, rfl⟩ := List.mem_map.mp hx
    exact hle c hc)
  have : m = m' := by rw [← hm, hm']
  subst this
  exact ⟨hlt, fun k => by rw [hk]; simp⟩

theorem commonBitOf_exists {bit : Nat → Option Nat} {cs : List Nat} (h : ∀ c ∈ cs, (bit c).isSome = true) :
    ∃ m, commonBitOf bit cs = some m := by
  obtain ⟨bits, hb⟩ := mapM_isSome bit cs h
  exact ⟨_, by unfold commonBitOf; rw [hb]; rfl⟩

theorem tags_ne_output {T : Tags} {C : Classes} (hT : T.Declared C) :
    T.output ≠ T.input ∧ T.output ≠ T.forward ∧ T.output ≠ T.bidirectional ∧ T.output ≠ T.randomAccess := by
  refine ⟨fun e => hT.distinct e.symm, ?_, ?_, ?_⟩
  · intro e; have := hT.output; rw [e, hT.forward] at this; cases this
  · intro e; have := hT.output; rw [e, hT.bidirectional] at this; cases this
  · intro e; have := hT.output; rw [e, hT.randomAccess] at this; cases this

/-- The five tags. -/
def allTags (T : Tags) : List Nat := [T.input, T.forward, T.bidirectional, T.randomAccess, T.output]

/-- The class `input_iterator_tag_base<m>`. -/
theorem inputBase_isBaseOf {T : Tags} {C : Classes} (hT : T.Declared C) (m x : Nat) (hx : x ∉ allTags T)
    (h : inputBase T m = some (C.bases x)) :
    C.isBaseOf T.output x = false ∧
    (C.isBaseOf T.input x = true ↔ 1 ≤ m) ∧ (C.isBaseOf T.forward x = true ↔ 2 ≤ m) ∧
    (C.isBaseOf T.bidirectional x = true ↔ 3 ≤ m) ∧ (C.isBaseOf T.randomAccess x = true ↔ 4 ≤ m) := by
  obtain ⟨l1, l2, l3⟩ := tags_lt hT
  obtain ⟨o1, o2, o3, o4⟩ := tags_ne_output hT
  simp only [allTags, List.mem_cons, List.not_mem_nil, or_false, not_or] at hx
  obtain ⟨x1, x2, x3, x4, x5⟩ := hx
  rw [Bool.eq_false_iff, ne_eq, isBaseOf_iff, isBaseOf_iff, isBaseOf_iff, isBaseOf_iff, isBaseOf_iff]
  match m, h with
  | 0, h =>
    simp only [inputBase, Option.some.injEq] at h
    simp [← h, x1, x2, x3, x4, x5]
  | 1, h =>
    simp only [inputBase, Option.some.injEq] at h
    simp only [← h, List.mem_cons, List.not_mem_nil, or_false, exists_eq_left, x1, x2, x3, x4, x5, false_or, base_input hT]
    refine ⟨?_, ?_, ?_, ?_, ?_⟩ <;> first | omega | simp
  | 2, h =>
    simp only [inputBase, Option.some.injEq] at h
    simp only [← h, List.mem_cons, List.not_mem_nil, or_false, exists_eq_left, x1, x2, x3, x4, x5, false_or, base_forward hT]
    refine ⟨?_, ?_, ?_, ?_, ?_⟩ <;> first | omega | simp
  | 3, h =>
    simp only [inputBase, Option.some.injEq] at h
    simp only [← h, List.mem_cons, List.not_mem_nil, or_false, exists_eq_left, x1, x2, x3, x4, x5, false_or, base_bidirectional hT]
    refine ⟨?_, ?_, ?_, ?_, ?_⟩ <;> first | omega | simp
  | 4, h =>
    simp only [inputBase, Option.some.injEq] at h
    simp only [← h, List.mem_cons, List.not_mem_nil, or_false, exists_eq_left, x1, x2, x3, x4, x5, false_or, base_randomAccess hT]
    refine ⟨?_, ?_, ?_, ?_, ?_⟩ <;> first | omega | simp
  | n + 5, h => simp [inputBase] at h

/-- The class `output_iterator_tag_base<m>`. -/
theorem outputBase_isBaseOf {T : Tags} {C : Classes} (hT : T.Declared C) (m y : Nat) (hy : y ∉ allTags T)
    (h : outputBase T m = some (C.bases y)) :
    (C.isBaseOf T.output y = true ↔ 1 ≤ m) ∧ C.isBaseOf T.input y = false ∧ C.isBaseOf T.forward y = false ∧
    C.isBaseOf T.bidirectional y = false ∧ C.isBaseOf T.randomAccess y = false := by
  obtain ⟨o1, o2, o3, o4⟩ := tags_ne_output hT
  simp only [allTags, List.mem_cons, List.not_mem_nil, or_false, not_or] at hy
  obtain ⟨x1, x2, x3, x4, x5⟩ := hy
  rw [isBaseOf_iff, Bool.eq_false_iff, Bool.eq_false_iff, Bool.eq_false_iff, Bool.eq_false_iff, ne_eq, ne_eq, ne_eq, ne_eq,
    isBaseOf_iff, isBaseOf_iff, isBaseOf_iff, isBaseOf_iff]
  match m, h with
  | 0, h =>
    simp only [outputBase, Option.some.injEq] at h
    simp [← h, x1, x2, x3, x4, x5]
  | 1, h =>
    simp only [outputBase, Option.some.injEq] at h
    simp only [← h, List.mem_cons, List.not_mem_nil, or_false, exists_eq_left, x1, x2, x3, x4, x5, false_or, base_output hT]
    refine ⟨?_, ?_, ?_, ?_, ?_⟩ <;> first | omega | simp
  | n + 2, h => simp [outputBase] at h

/-- A class with at most one base has the subobjects of it. -/
theorem subobjects_le_one_of_single (C : Classes) (t x : Nat) (h : C.bases x = [] ∨ ∃ u, C.bases x = [u] ∧ C.subobjects t u ≤ 1) :
    C.subobjects t x ≤ 1 := by
  rw [subobjects_eq]
  split
  · exact Nat.le_refl _
  · rcases h with h | ⟨u, h, hu⟩
    · rw [h]; simp
    · rw [h]; simpa using hu

theorem tags_unique {T : Tags} {C : Classes} (hT : T.Declared C) (t : Nat) :
    C.subobjects t T.input ≤ 1 ∧ C.subobjects t T.forward ≤ 1 ∧ C.subobjects t T.bidirectional ≤ 1 ∧
    C.subobjects t T.randomAccess ≤ 1 ∧ C.subobjects t T.output ≤ 1 := by
  have h1 := subobjects_le_one_of_single C t T.input (Or.inl hT.input)
  have h2 := subobjects_le_one_of_single C t T.forward (Or.inr ⟨_, hT.forward, h1⟩)
  have h3 := subobjects_le_one_of_single C t T.bidirectional (Or.inr ⟨_, hT.bidirectional, h2⟩)
  have h4 := subobjects_le_one_of_single C t T.randomAccess (Or.inr ⟨_, hT.randomAccess, h3⟩)
  exact ⟨h1, h2, h3, h4, subobjects_le_one_of_single C t T.output (Or.inl hT.output)⟩

theorem inputBase_unique {T : Tags} {C : Classes} (hT : T.Declared C) (m x t : Nat) (h : inputBase T m = some (C.bases x)) :
    C.subobjects t x ≤ 1 := by
  obtain ⟨h1, h2, h3, h4, h5⟩ := tags_unique hT t
  apply subobjects_le_one_of_single
  match m, h with
  | 0, h => simp only [inputBase, Option.some.injEq] at h; exact Or.inl h.symm
  | 1, h => simp only [inputBase, Option.some.injEq] at h; exact Or.inr ⟨_, h.symm, h1⟩
  | 2, h => simp only [inputBase, Option.some.injEq] at h; exact Or.inr ⟨_, h.symm, h2⟩
  | 3, h => simp only [inputBase, Option.some.injEq] at h; exact Or.inr ⟨_, h.symm, h3⟩
  | 4, h => simp only [inputBase, Option.some.injEq] at h; exact Or.inr ⟨_, h.symm, h4⟩
  | n + 5, h => simp [inputBase] at h

theorem outputBase_unique {T : Tags} {C : Classes} (hT : T.Declared C) (m y t : Nat) (h : outputBase T m = some (C.bases y)) :
    C.subobjects t y ≤ 1 := by
  obtain ⟨h1, h2, h3, h4, h5⟩ := tags_unique hT t
  apply subobjects_le_one_of_single
  match m, h with
  | 0, h => simp only [outputBase, Option.some.injEq] at h; exact Or.inl h.symm
  | 1, h => simp only [outputBase, Option.some.injEq] at h; exact Or.inr ⟨_, h.symm, h5⟩
  | n + 2, h => simp [outputBase] at h

/-- The class is none of the tags. -/
theorem common_ne_tag {T : Tags} {C : Classes} (hT : T.Declared C) {x y z : Nat} (hz : C.bases z = [x, y]) : z ∉ allTags T := by
  simp only [allTags, List.mem_cons, List.not_mem_nil, or_false, not_or]
  refine ⟨?_, ?_, ?_, ?_, ?_⟩ <;> rintro rfl
  · rw [hT.input] at hz; cases hz
  · rw [hT.forward] at hz; cases hz
  · rw [hT.bidirectional] at hz; cases hz
  · rw [hT.randomAccess] at hz; cases hz
  · rw [hT.output] at hz; cases hz

theorem common_isBaseOf {T : Tags} {C : Classes} (hT : T.Declared C) {x y z : Nat} (hz : C.bases z = [x, y]) (t : Nat) (ht : t ∈ allTags T) :
    C.isBaseOf t z = true ↔ C.isBaseOf t x = true ∨ C.isBaseOf t y = true := by
  have hne : z ≠ t := fun e => common_ne_tag hT hz (e ▸ ht)
  rw [isBaseOf_iff, hz]
  simp [hne]

/-- The tag is derived from a standard tag iff all are. -/
theorem common_derives {T : Tags} {C : Classes} (hT : T.Declared C) (k : Nat) (cs : List Nat) (hne : cs ≠ []) (z : Nat)
    (hk : ∀ c ∈ cs, k ∉ C.convs c) (h : IsCommonTag C k T cs z) (t : Nat) (ht : t ∈ allTags T) :
    C.isBaseOf t z = true ↔ ∀ c ∈ cs, C.isBaseOf t c = true := by
  obtain ⟨x, y, hz, hx, hy, hi, ho⟩ := h.bases
  obtain ⟨mi, hmi, hib⟩ := Option.bind_eq_some_iff.mp hi
  obtain ⟨mo, hmo, hob⟩ := Option.bind_eq_some_iff.mp ho
  obtain ⟨-, hki⟩ := commonBitOf_some hne (fun c hc n hn => inputBit_some hT k c (hk c hc) n hn)
    (fun c _ => Nat.lt_succ_of_le (inputStrength_le C T c)) hmi
  obtain ⟨-, hko⟩ := commonBitOf_some (f := fun c => if C.isBaseOf T.output c then 1 else 0) hne
    (fun c hc n hn => outputBit_some k c (hk c hc) n hn) (fun c _ => by split <;> omega) hmo
  obtain ⟨a0, a1, a2, a3, a4⟩ := inputBase_isBaseOf hT mi x hx hib
  obtain ⟨b0, b1, b2, b3, b4⟩ := outputBase_isBaseOf hT mo y hy hob
  rw [common_isBaseOf hT hz t ht]
  have hs := fun c => isBaseOf_iff_strength hT c
  simp only [allTags, List.mem_cons, List.not_mem_nil, or_false] at ht
  rcases ht with rfl | rfl | rfl | rfl | rfl
  · rw [a1, b1, hki]; simp only [Bool.false_eq_true, or_false, (hs _).1]
  · rw [a2, b2, hki]; simp only [Bool.false_eq_true, or_false, (hs _).2.1]
  · rw [a3, b3, hki]; simp only [Bool.false_eq_true, or_false, (hs _).2.2.1]
  · rw [a4, b4, hki]; simp only [Bool.false_eq_true, or_false, (hs _).2.2.2]
  · rw [a0, b0, hko]
    simp only [Bool.false_eq_true, false_or]
    constructor
    · intro h c hc
      have := h c hc
      by_contra hn
      simp [hn] at this
    · intro h c hc
      simp [h c hc]

/-- Every standard tag is an unambiguous base of the tag. -/
theorem common_unique {T : Tags} {C : Classes} (hT : T.Declared C) (k : Nat) (cs : List Nat) (z : Nat)
    (h : IsCommonTag C k T cs z) (t : Nat) (ht : t ∈ allTags T) : C.subobjects t z ≤ 1 := by
  obtain ⟨x, y, hz, hx, hy, hi, ho⟩ := h.bases
  obtain ⟨mi, hmi, hib⟩ := Option.bind_eq_some_iff.mp hi
  obtain ⟨mo, hmo, hob⟩ := Option.bind_eq_some_iff.mp ho
  obtain ⟨a0, a1, a2, a3, a4⟩ := inputBase_isBaseOf hT mi x hx hib
  obtain ⟨b0, b1, b2, b3, b4⟩ := outputBase_isBaseOf hT mo y hy hob
  have hne : z ≠ t := fun e => common_ne_tag hT hz (e ▸ ht)
  have ux := inputBase_unique hT mi x t hib
  have uy := outputBase_unique hT mo y t hob
  rw [subobjects_eq, if_neg hne, hz]
  simp only [List.map_cons, List.map_nil, List.sum_cons, List.sum_nil]
  have zero : C.subobjects t x = 0 ∨ C.subobjects t y = 0 := by
    have conv : ∀ w, C.isBaseOf t w = false → C.subobjects t w = 0 := by
      intro w hw
      simp only [Classes.isBaseOf, decide_eq_false_iff_not] at hw
      omega
    simp only [allTags, List.mem_cons, List.not_mem_nil, or_false] at ht
    rcases ht with rfl | rfl | rfl | rfl | rfl
    · exact Or.inr (conv _ b1)
    · exact Or.inr (conv _ b2)
    · exact Or.inr (conv _ b3)
    · exact Or.inr (conv _ b4)
    · exact Or.inl (conv _ a0)
  omega

/-- If all bits are defined, the bases of the classes exist. -/
theorem common_exists {T : Tags} {C : Classes} (hT : T.Declared C) (k : Nat) (cs : List Nat) (hne : cs ≠ [])
    (hk : ∀ c ∈ cs, k ∉ C.convs c) (hi : ∀ c ∈ cs, (inputBit C k T c).isSome = true) (ho : ∀ c ∈ cs, (outputBit C k T c).isSome = true) :
    ((commonBitOf (inputBit C k T) cs).bind (inputBase T)).isSome = true ∧
    ((commonBitOf (outputBit C k T) cs).bind (outputBase T)).isSome = true := by
  obtain ⟨mi, hmi⟩ := commonBitOf_exists hi
  obtain ⟨mo, hmo⟩ := commonBitOf_exists ho
  obtain ⟨hlt, -⟩ := commonBitOf_some hne (fun c hc n hn => inputBit_some hT k c (hk c hc) n hn)
    (fun c _ => Nat.lt_succ_of_le (inputStrength_le C T c)) hmi
  obtain ⟨-, hko⟩ := commonBitOf_some (f := fun c => if C.isBaseOf T.output c then 1 else 0) hne
    (fun c hc n hn => outputBit_some k c (hk c hc) n hn) (fun c _ => by split <;> omega) hmo
  have hmo1 : mo < 2 := by
    obtain ⟨c, hc⟩ := List.exists_mem_of_ne_nil _ hne
    have := (hko mo).mp (Nat.le_refl _) c hc
    split at this <;> omega
  rw [hmi, hmo]
  refine ⟨?_, ?_⟩
  · match mi, hlt with
    | 0, _ => rfl
    | 1, _ => rfl
    | 2, _ => rfl
    | 3, _ => rfl
    | 4, _ => rfl
  · match mo, hmo1 with
    | 0, _ => rfl
    | 1, _ => rfl

end Makeshift.SinkOverload
