import Verif.Model.TypeEnum
import Verif.Props.TypeTraits
import Mathlib.Data.List.Nodup

/-!
# Type enumerations: C62

`Ts` are the types of the enumeration, pairwise distinct in most theorems.  The `k`-th type is `Ts[k]`.
-/

namespace Makeshift.Props

open Makeshift.TypeEnum

set_option linter.unusedSectionVars false

variable {Ty : Type} [DecidableEq Ty]

omit [DecidableEq Ty] in
theorem wrap32 {v : Int} (h0 : -2147483648 ≤ v) (h1 : v < 2147483648) : int32.wrap v = v := by
  have h2 : (2 : Nat) ^ 32 = 4294967296 := by decide
  simp only [int32, IntTy.wrap, if_true, h2]
  rw [Int.bmod_def]
  split <;> omega

theorem index_nodup {Ts : List Ty} (hn : Ts.Nodup) {k : Nat} {T : Ty} (hk : Ts[k]? = some T) : tryTypePackIndex T Ts = k := by
  refine ((C46_type_pack_index T Ts).1 k).2 ⟨hk, fun j hj => ?_⟩
  obtain ⟨h1, h2⟩ := List.getElem?_eq_some_iff.1 hk
  obtain ⟨h3, h4⟩ := List.getElem?_eq_some_iff.1 hj
  exact (List.Nodup.getElem_inj_iff hn).1 (h4.trans h2.symm)

theorem index_absent {Ts : List Ty} {T : Ty} (h : T ∉ Ts) : tryTypePackIndex T Ts = -1 :=
  (C46_type_pack_index T Ts).2.2 (by rw [List.count_eq_zero_of_not_mem h]; omega)

/-- C62: construction from a 32-bit integer yields that value if it is the position of one of the types, and fails fast otherwise. -/
theorem C62_from_int (Ts : List Ty) (hw : wellFormed Ts = true) (hne : Ts ≠ []) (v : Int) (h0 : -2147483648 ≤ v)
    (h1 : v < 2147483648) :
    (0 ≤ v ∧ v < Ts.length → ∃ e, fromInt Ts v = some (.ok e) ∧ toInt e = v) ∧
    (¬ (0 ≤ v ∧ v < Ts.length) → fromInt Ts v = some .failFast) := by
  have hlen : Ts.length < 24 := by
    unfold wellFormed at hw; simpa [hne] using hw
  unfold fromInt
  rw [if_neg hne, wrap32 h0 h1, wrap32 (by omega) (by omega)]
  constructor
  · rintro ⟨h2, h3⟩; exact ⟨v, by simp [h2, h3], rfl⟩
  · intro h
    by_cases h2 : 0 ≤ v
    · have : ¬ v < Ts.length := fun h3 => h ⟨h2, h3⟩
      simp [this]
    · simp [h2]

/-- C62: a wider argument is converted before the check, so that out-of-range integers such as 2^32 are accepted. -/
theorem C62_from_wide_int (Ts : List Ty) (hw : wellFormed Ts = true) (hne : Ts ≠ []) :
    fromInt Ts (2 ^ 32) = some (.ok 0) := by
  have hlen : Ts.length < 24 := by
    unfold wellFormed at hw; simpa [hne] using hw
  have hpos := List.length_pos_iff.2 hne
  have h2 : int32.wrap (2 ^ 32) = 0 := by decide
  unfold fromInt
  rw [if_neg hne, h2, wrap32 (by omega) (by omega)]
  simp [hpos]

/-- C62: the value made from the `k`-th type is `k`; and the conversions of `type_c<T>` exist exactly for the types of the enumeration. -/
theorem C62_from_type (Ts : List Ty) (hw : wellFormed Ts = true) (hn : Ts.Nodup) (T : Ty) :
    (∀ k : Nat, Ts[k]? = some T → ∃ e, fromType Ts T = some (.ok e) ∧ toInt e = k ∧ caseLabel Ts T = some e) ∧
    (T ∉ Ts → fromType Ts T = none ∧ caseLabel Ts T = none ∧ ∀ e, eqType Ts e T = none ∧ neType Ts e T = none) := by
  constructor
  · intro k hk
    obtain ⟨hlt, -⟩ := List.getElem?_eq_some_iff.1 hk
    have hne : Ts ≠ [] := by rintro rfl; simp at hlt
    have hlen : Ts.length < 24 := by
      unfold wellFormed at hw; simpa [hne] using hw
    have hidx := index_nodup hn hk
    obtain ⟨e, he, he2⟩ := (C62_from_int Ts hw hne (k : Int) (by omega) (by omega)).1 ⟨by omega, by exact_mod_cast hlt⟩
    refine ⟨e, ?_, he2, ?_⟩
    · unfold fromType; rw [hidx, if_pos (by omega)]; exact he
    · unfold caseLabel; rw [hidx, if_pos (by omega), wrap32 (by omega) (by omega), ← he2]; rfl
  · intro h
    have hidx := index_absent h
    simp [fromType, caseLabel, eqType, neType, hidx]

/-- C62: the value made from `T` compares equal to `type_c<U>` iff `T = U`, and to the value made from `U` iff `T = U`. -/
theorem C62_identifies (Ts : List Ty) (hw : wellFormed Ts = true) (hn : Ts.Nodup) (T U : Ty) (hT : T ∈ Ts) (hU : U ∈ Ts) :
    ∃ e f, fromType Ts T = some (.ok e) ∧ fromType Ts U = some (.ok f) ∧
      eqType Ts e U = some (decide (T = U)) ∧ neType Ts e U = some (decide (T ≠ U)) ∧
      eq e f = decide (T = U) ∧ ne e f = decide (T ≠ U) := by
  obtain ⟨k, hk⟩ := List.mem_iff_getElem?.1 hT
  obtain ⟨l, hl⟩ := List.mem_iff_getElem?.1 hU
  obtain ⟨e, he, hek, -⟩ := (C62_from_type Ts hw hn T).1 k hk
  obtain ⟨f, hf, hfl, hcl⟩ := (C62_from_type Ts hw hn U).1 l hl
  have hkl : k = l ↔ T = U := by
    constructor
    · rintro rfl; rw [hk] at hl; exact Option.some.inj hl
    · rintro rfl
      have h1 := index_nodup hn hk
      have h2 := index_nodup hn hl
      omega
  have hef : e = f ↔ T = U := by
    rw [← hkl]
    unfold toInt at hek hfl
    omega
  have heq : eqType Ts e U = some (decide (T = U)) := by
    unfold eqType
    unfold caseLabel at hcl
    have hidx := index_nodup hn hl
    have hni : tryTypePackIndex U Ts ≠ -1 := by omega
    rw [if_pos hni] at hcl ⊢
    rw [Option.some.inj hcl]
    unfold toInt
    simp only [Option.some.injEq, decide_eq_decide]
    rw [← hef]; exact eq_comm
  refine ⟨e, f, he, hf, heq, ?_, ?_, ?_⟩
  · unfold neType; rw [heq]; simp
  · unfold TypeEnum.eq; simp [hef]
  · unfold TypeEnum.ne TypeEnum.eq; simp [hef]

/-- C62: conversion to the integer and back is the identity, on every value that can be constructed. -/
theorem C62_round_trip (Ts : List Ty) (hw : wellFormed Ts = true) (v e : Int) (he : fromInt Ts v = some (.ok e)) :
    0 ≤ e ∧ e < Ts.length ∧ fromInt Ts (toInt e) = some (.ok e) := by
  have hne : Ts ≠ [] := by rintro rfl; simp [fromInt] at he
  have hlen : Ts.length < 24 := by
    unfold wellFormed at hw; simpa [hne] using hw
  have hb : 0 ≤ e ∧ e < Ts.length := by
    unfold fromInt at he
    rw [if_neg hne, wrap32 (v := (Ts.length : Int)) (by omega) (by omega)] at he
    simp only [Option.some.injEq] at he
    by_cases hc : (decide (int32.wrap v ≥ 0) && decide (int32.wrap v < Ts.length)) = true
    · rw [hc] at he
      simp only [Outcome.expects_true, Outcome.bind_ok, Outcome.ok.injEq] at he
      rw [← he]; simpa using hc
    · rw [Bool.not_eq_true] at hc
      rw [hc] at he; simp at he
  refine ⟨hb.1, hb.2, ?_⟩
  obtain ⟨e', h1, h2⟩ := (C62_from_int Ts hw hne e (by omega) (by omega)).1 hb
  unfold toInt at h2 ⊢
  rw [h1, h2]

theorem collect_ok (f : Ty → Option (Outcome Int)) (g : Ty → Int) :
    ∀ l : List Ty, (∀ T ∈ l, f T = some (.ok (g T))) → collect (l.map f) = some (.ok (l.map g))
  | [], _ => rfl
  | T :: l, h => by
    simp only [List.map_cons, h T (by simp), collect, collect_ok f g l (fun U hU => h U (by simp [hU]))]
    rfl

/-- C62: `default_values` lists the values 0, 1, ..., n-1 in the order of the types. -/
theorem C62_default_values (Ts : List Ty) (hw : wellFormed Ts = true) (hn : Ts.Nodup) :
    defaultValues Ts = some (.ok ((List.range Ts.length).map fun (k : Nat) => (k : Int))) := by
  unfold defaultValues
  have hg : ∀ T ∈ Ts, fromType Ts T = some (.ok (tryTypePackIndex T Ts)) := by
    intro T hT
    obtain ⟨k, hk⟩ := List.mem_iff_getElem?.1 hT
    obtain ⟨e, he, hek, -⟩ := (C62_from_type Ts hw hn T).1 k hk
    rw [he, index_nodup hn hk]
    unfold toInt at hek
    rw [hek]
  rw [collect_ok _ _ Ts hg]
  congr 2
  refine List.ext_getElem? fun k => ?_
  by_cases hk : k < Ts.length
  · rw [List.getElem?_map, List.getElem?_map, List.getElem?_range hk, List.getElem?_eq_getElem hk]
    simp only [Option.map_some, Option.some.injEq]
    exact index_nodup hn (List.getElem?_eq_getElem hk)
  · rw [List.getElem?_eq_none (by simpa using hk), List.getElem?_eq_none (by simpa using hk)]

/-- C62: a `switch` on the value made from `T` selects the label `T` if it is there, and no label otherwise; for any distinct types of
the enumeration as labels, in any order. -/
theorem C62_switch (Ts : List Ty) (hw : wellFormed Ts = true) (hn : Ts.Nodup) (T : Ty) (hT : T ∈ Ts) (labels : List Ty)
    (hl : ∀ U ∈ labels, U ∈ Ts) (hnl : labels.Nodup) :
    ∃ e, fromType Ts T = some (.ok e) ∧ switchOn Ts e labels = some (if T ∈ labels then some T else none) := by
  obtain ⟨k, hk⟩ := List.mem_iff_getElem?.1 hT
  obtain ⟨e, he, hek, hlab⟩ := (C62_from_type Ts hw hn T).1 k hk
  have hone : ∀ U ∈ Ts, (caseLabel Ts U = some e ↔ U = T) := by
    intro U hU
    obtain ⟨l, hlk⟩ := List.mem_iff_getElem?.1 hU
    obtain ⟨f, hf, hfl, hcl⟩ := (C62_from_type Ts hw hn U).1 l hlk
    rw [hcl]
    unfold toInt at hek hfl
    constructor
    · intro h
      have : l = k := by have := Option.some.inj h; omega
      subst this; rw [hlk] at hk; exact Option.some.inj hk
    · rintro rfl; rw [← hcl, hlab]
  refine ⟨e, he, ?_⟩
  unfold switchOn
  have hc : (∀ U ∈ labels, (caseLabel Ts U).isSome) ∧ (labels.map (caseLabel Ts)).Nodup := by
    constructor
    · intro U hU
      obtain ⟨l, hlk⟩ := List.mem_iff_getElem?.1 (hl U hU)
      obtain ⟨f, -, -, hcl⟩ := (C62_from_type Ts hw hn U).1 l hlk
      rw [hcl]; rfl
    · refine List.Nodup.map_on ?_ hnl
      intro U hU V hV h
      obtain ⟨l, hlk⟩ := List.mem_iff_getElem?.1 (hl U hU)
      obtain ⟨m, hmk⟩ := List.mem_iff_getElem?.1 (hl V hV)
      obtain ⟨f, -, hfl, hcl⟩ := (C62_from_type Ts hw hn U).1 l hlk
      obtain ⟨g, -, hgl, hcg⟩ := (C62_from_type Ts hw hn V).1 m hmk
      rw [hcl, hcg] at h
      unfold toInt at hfl hgl
      have : l = m := by have := Option.some.inj h; omega
      subst this; rw [hlk] at hmk; exact Option.some.inj hmk
  rw [if_pos hc]
  congr 1
  by_cases hm : T ∈ labels
  · rw [if_pos hm]
    cases hfd : labels.find? fun U => decide (caseLabel Ts U = some e) with
    | none =>
      have := List.find?_eq_none.1 hfd T hm
      simp [hlab] at this
    | some U =>
      have h1 := List.find?_some hfd
      have h2 := List.mem_of_find?_eq_some hfd
      rw [(hone U (hl U h2)).1 (by simpa using h1)]
  · rw [if_neg hm]
    refine List.find?_eq_none.2 fun U hU => ?_
    have := hone U (hl U hU)
    intro hc2
    exact hm ((this.1 (by simpa using hc2)) ▸ hU)

/-- C62: the enumerators of `value_t` are exactly the values 0, ..., n-1. -/
theorem C62_enumerators (Ts : List Ty) (hw : wellFormed Ts = true) (hne : Ts ≠ []) (v : Int) :
    v ∈ enumerators Ts ↔ 0 ≤ v ∧ v < Ts.length := by
  have hlen : Ts.length < 24 := by
    unfold wellFormed at hw; simpa [hne] using hw
  have hpos := List.length_pos_iff.2 hne
  unfold enumerators
  rw [List.mem_cons, List.mem_map]
  constructor
  · rintro (rfl | ⟨k, -, hk⟩)
    · exact ⟨Int.le_refl _, by exact_mod_cast hpos⟩
    · split at hk <;> omega
  · rintro ⟨h0, h1⟩
    by_cases hv : v = 0
    · exact Or.inl hv
    · right
      refine ⟨(v - 1).toNat, by rw [List.mem_range]; omega, ?_⟩
      rw [if_pos (by omega)]; omega

/-- C62: an enumeration with repeated types compiles, but the repeated type identifies no value, and the default values do not compile. -/
theorem C62_repeated (Ts : List Ty) (T : Ty) (h : 2 ≤ Ts.count T) :
    fromType Ts T = none ∧ caseLabel Ts T = none ∧ (∀ e, eqType Ts e T = none) ∧ defaultValues Ts = none := by
  have hidx : tryTypePackIndex T Ts = -1 := (C46_type_pack_index T Ts).2.2 (by omega)
  have hf : fromType Ts T = none := by simp [fromType, hidx]
  refine ⟨hf, by simp [caseLabel, hidx], by simp [eqType, hidx], ?_⟩
  have hmem : T ∈ Ts := List.count_pos_iff.1 (by omega)
  have : ∀ l : List Ty, T ∈ l → collect (l.map (fromType Ts)) = none := by
    intro l
    induction l with
    | nil => simp
    | cons U l ih =>
      intro hl
      rcases List.mem_cons.1 hl with rfl | hl
      · simp [hf, collect]
      · rw [List.map_cons]
        cases hu : fromType Ts U with
        | none => rfl
        | some x => simp [collect, ih hl]
  exact this Ts hmem

/-- C62: 24 types, which the message of the assertion allows, are rejected. -/
theorem C62_limit (Ts : List Ty) : wellFormed Ts = true ↔ Ts.length ≤ 23 := by
  unfold wellFormed
  simp only [decide_eq_true_eq]
  constructor
  · rintro (rfl | h)
    · simp
    · omega
  · intro h; right; omega

-- `type_enum<float, double>` with types named by numbers
example : wellFormed [10, 20] = true ∧ [10, 20].Nodup := by decide
example : fromType [10, 20] 20 = some (.ok 1) := by decide
example : eqType [10, 20] 1 20 = some true ∧ eqType [10, 20] 1 10 = some false ∧ eqType [10, 20] 1 30 = none := by decide
example : fromInt [10, 20] 2 = some .failFast ∧ fromInt [10, 20] (-1) = some .failFast := by decide
example : switchOn [10, 20, 30] 1 [30, 20] = some (some 20) ∧ switchOn [10, 20, 30] 0 [30, 20] = some none := by decide
example : 2 ≤ [10, 20, 10].count 10 := by decide

end Makeshift.Props
