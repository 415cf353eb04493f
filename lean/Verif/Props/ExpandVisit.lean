import Verif.Spec.ExpandVisit
import Verif.Props.Expand
import Verif.Props.VariantTransform
import Verif.Props.Metadata
import Mathlib.Data.List.Nodup
import Mathlib.Data.List.Forall2

/-!
# Dispatch from runtime values to constants: C77
-/

set_option linter.unusedSectionVars false

namespace Makeshift.Props

open Makeshift Spec ExpandVisit

variable {Ty V R : Type} [DecidableEq Ty]

private theorem mapM_some_map {α β : Type} {f : α → Option β} {g : α → β} {l : List α} (h : ∀ x ∈ l, f x = some (g x)) :
    l.mapM f = some (l.map g) := by
  induction l with
  | nil => rfl
  | cons a l ih =>
    rw [List.mapM_cons, h a (by simp), ih fun x hx => h x (by simp [hx])]
    rfl

private theorem mapM_none {α β : Type} {f : α → Option β} {l : List α} {x : α} (hx : x ∈ l) (h : f x = none) : l.mapM f = none := by
  induction l with
  | nil => cases hx
  | cons a l ih =>
    rw [List.mapM_cons]
    rcases List.mem_cons.mp hx with rfl | hx
    · rw [h]; rfl
    · rw [ih hx]; cases f a <;> rfl

private theorem expandWith_map {α β : Type} (g : α → β) (mode : ExpandMode) (s : Outcome Int) (values : List α) :
    expandWith mode s (values.map g) = (expandWith mode s values).mapVal (Option.map g) := by
  unfold expandWith
  cases s with
  | ok i =>
    simp only [Outcome.bind_ok]
    by_cases h : i < 0
    · cases mode <;> simp [h]
    · simp only [if_neg h, at?, List.getElem?_map]
      cases values[i.toNat]? <;> rfl
  | _ => rfl

private theorem variantMap_ok (const : Int → Ty) (unit : V) {values : List Int} (hne : values ≠ []) (hnd : (values.map const).Nodup) :
    variantMap const unit values =
      some (values.map fun v => ⟨values.map const, some ((values.map const).idxOf (const v), unit)⟩) := by
  unfold variantMap
  rw [if_neg hne]
  refine mapM_some_map fun v hv => ?_
  unfold convertToVariant
  rw [if_pos (List.count_eq_one_of_mem hnd (List.mem_map_of_mem hv))]

private theorem contiguous_ok {t : IntTy} {values : List Int} (h : Listable t values) : ∃ b, areValuesContiguous t values = .ok b := by
  cases values with
  | nil => exact ⟨_, rfl⟩
  | cons v vs => exact ⟨_, C16_contiguity_test_partial h.width v vs h.inRange h.max⟩

private theorem nodup_const {const : Int → Ty} (hi : ∀ v w, const v = const w → v = w) {values : List Int} (h : values.Nodup) :
    (values.map const).Nodup := h.map (fun _ _ h => hi _ _ h)

/-- C77: `expand` of a listed value returns a variant which has one alternative for each listed value, in order, and holds the constant
which is equal to the runtime value.  For a value that is not listed, `expand` throws, `expand_failfast` fails fast, and `try_expand`
returns `nullopt`. -/
theorem C77_expand (const : Int → Ty) (unit : V) (t : IntTy) (value : Int) (values : List Int) (hl : Listable t values)
    (hv : Lookup t value values) (hi : ∀ v w, const v = const w → v = w) :
    (value ∈ values → ∀ mode, ∃ v, expand const unit mode t value values = some (.ok (some v)) ∧ v.types = values.map const ∧
      Active v (const value, unit)) ∧
    (value ∉ values →
      expand const unit .throwing t value values = some (.throw (str "unsupported runtime value")) ∧
      expand const unit .failfast t value values = some .failFast ∧
      expand const unit .optional t value values = some (.ok none)) := by
  have hnd := nodup_const hi hl.nodup
  obtain ⟨b, hb⟩ := contiguous_ok hl
  have hs := C14_expand_integral_partial hl.width values value hl.inRange hv.inRange hl.size hl.max hv.diff
  simp only [expand, variantMap_ok const unit hl.nonempty hnd, Option.bind_some, hb, expandWith_map]
  constructor
  · intro hm mode
    have := hs.1 hm mode
    simp only at this
    rw [this]
    have hm' : const value ∈ values.map const := List.mem_map_of_mem hm
    refine ⟨_, rfl, rfl, _, rfl, ?_⟩
    rw [List.getElem?_eq_getElem (List.idxOf_lt_length_iff.mpr hm')]
    simp
  · intro hm
    obtain ⟨h1, h2, h3⟩ := hs.2 hm
    simp only at h1 h2 h3
    rw [h1, h2, h3]
    exact ⟨rfl, rfl, rfl⟩

example : Listable tInt [3, -7, 2147483647] ∧ Lookup tInt (-7) [3, -7, 2147483647] ∧ Lookup tInt 5 [3, -7, 2147483647] :=
  ⟨⟨by simp [StdWidth, tInt], by decide, by decide, by decide, by decide, by decide⟩, ⟨by decide, by decide⟩, ⟨by decide, by decide⟩⟩

/-- C77: the list of values is part of the type: `expand` compiles only if it is non-empty and no constant is listed twice. -/
theorem C77_compiles_only (const : Int → Ty) (unit : V) (mode : ExpandMode) (t : IntTy) (value : Int) (values : List Int)
    (h : values = [] ∨ ¬(values.map const).Nodup) : expand const unit mode t value values = none := by
  have : variantMap const unit values = none := by
    unfold variantMap
    by_cases hne : values = []
    · rw [if_pos hne]
    · rw [if_neg hne]
      rcases h with h | h
      · exact absurd h hne
      · obtain ⟨x, hx⟩ : ∃ x, 1 < (values.map const).count x := by
          by_contra hc
          exact h (List.nodup_iff_count_le_one.mpr fun a => by
            by_contra h'
            exact hc ⟨a, by omega⟩)
        have hmem : x ∈ values.map const := List.count_pos_iff.mp (by omega)
        obtain ⟨v, hv, rfl⟩ := List.mem_map.mp hmem
        refine mapM_none hv ?_
        unfold convertToVariant
        rw [if_neg (by omega)]
  unfold expand
  rw [this]
  rfl

private theorem expandAll_ok (unit : V) (args : List (Runtime Ty)) (hv : ∀ a ∈ args, Valid a) (hm : ∀ a ∈ args, a.value ∈ a.values) :
    ∃ vs, expandAll unit args = some (.ok vs) ∧ vs.map VariantVal.types = args.map (fun a => a.values.map a.const) ∧
      List.Forall₂ Active vs (args.map fun a => (a.const a.value, unit)) := by
  induction args with
  | nil => exact ⟨[], rfl, rfl, .nil⟩
  | cons a as ih =>
    obtain ⟨vs, h1, h2, h3⟩ := ih (fun x hx => hv x (by simp [hx])) (fun x hx => hm x (by simp [hx]))
    have ha := hv a (by simp)
    obtain ⟨v, h4, h5, h6⟩ := (C77_expand a.const unit a.rep a.value a.values ha.listable ha.lookup ha.injective).1
      (hm a (by simp)) .throwing
    refine ⟨v :: vs, ?_, by simp [h2, h5], .cons h6 h3⟩
    simp [expandAll, h1, h4]

private theorem expandAll_throw (unit : V) (args : List (Runtime Ty)) (hv : ∀ a ∈ args, Valid a) (hm : ∃ a ∈ args, a.value ∉ a.values) :
    expandAll (V := V) unit args = some (.throw (str "unsupported runtime value")) := by
  induction args with
  | nil => obtain ⟨a, ha, _⟩ := hm; cases ha
  | cons a as ih =>
    have ha := hv a (by simp)
    have hC := C77_expand a.const unit a.rep a.value a.values ha.listable ha.lookup ha.injective
    have hv' : ∀ x ∈ as, Valid x := fun x hx => hv x (by simp [hx])
    by_cases hx : ∃ b ∈ as, b.value ∉ b.values
    · by_cases hav : a.value ∈ a.values
      · obtain ⟨v, h4, _⟩ := hC.1 hav .throwing
        simp [expandAll, ih hv' hx, h4]
      · simp [expandAll, ih hv' hx, (hC.2 hav).1]
    · have hall : ∀ b ∈ as, b.value ∈ b.values := fun b hb => by
        by_contra h'; exact hx ⟨b, hb, h'⟩
      have hav : a.value ∉ a.values := by
        obtain ⟨b, hb, hb'⟩ := hm
        rcases List.mem_cons.mp hb with rfl | hb
        · exact hb'
        · exact absurd (hall b hb) hb'
      obtain ⟨vs, h1, _⟩ := expandAll_ok unit as hv' hall
      simp [expandAll, h1, (hC.2 hav).1]

/-- C77: `visit` applied to any number of expanded values calls the functor exactly once, with the constants which are equal to the
runtime values, and returns its result. -/
theorem C77_dispatch (unit : V) (f : List (Ty × V) → R) (args : List (Runtime Ty)) (hv : ∀ a ∈ args, Valid a)
    (hm : ∀ a ∈ args, a.value ∈ a.values) :
    dispatch unit f args = some ⟨[args.map fun a => (a.const a.value, unit)], .ok (f (args.map fun a => (a.const a.value, unit)))⟩ := by
  obtain ⟨vs, h1, _, h3⟩ := expandAll_ok unit args hv hm
  simp [dispatch, h1, visit, activeAlternatives_ok h3]

/-- C77: if a value is not listed, the functor is not called, and `unsupported_runtime_value` is thrown. -/
theorem C77_dispatch_unsupported (unit : V) (f : List (Ty × V) → R) (args : List (Runtime Ty)) (hv : ∀ a ∈ args, Valid a)
    (hm : ∃ a ∈ args, a.value ∉ a.values) : dispatch unit f args = some ⟨[], .throw (str "unsupported runtime value")⟩ := by
  simp [dispatch, expandAll_throw unit args hv hm]

/-- Two runtime arguments, an `int` and a `signed char`; the constants are pairs of type number and value. -/
private def dispatchArgs (y : Int) : List (Runtime (Nat × Int)) :=
  [⟨fun v => (0, v), tInt, 4, [1, 2, 4]⟩, ⟨fun v => (1, v), tSChar, y, [-1, 0, 1]⟩]

private theorem dispatchArgs_valid (y : Int) (h : tSChar.InRange y) : ∀ a ∈ dispatchArgs y, Valid a := by
  intro a ha
  simp [dispatchArgs] at ha
  rcases ha with rfl | rfl
  · exact ⟨⟨by simp [StdWidth, tInt], by decide, by decide, by decide, by decide, by decide⟩, ⟨by decide, by decide⟩, by simp⟩
  · have hl : Listable tSChar [-1, 0, 1] := ⟨by simp [StdWidth, tSChar], by decide, by decide, by decide, by decide, by decide⟩
    exact ⟨hl, ⟨h, by simp [tSChar]⟩, by simp⟩

example : (∀ a ∈ dispatchArgs (-1), Valid a) ∧ (∀ a ∈ dispatchArgs (-1), a.value ∈ a.values) :=
  ⟨dispatchArgs_valid _ (by decide), by simp [dispatchArgs]⟩

example : (∀ a ∈ dispatchArgs 100, Valid a) ∧ (∃ a ∈ dispatchArgs 100, a.value ∉ a.values) :=
  ⟨dispatchArgs_valid _ (by decide), by simp [dispatchArgs]⟩

example : dispatch () (fun cs : List ((Nat × Int) × Unit) => (cs.map fun c => c.1.2).sum) (dispatchArgs (-1)) =
    some ⟨[[((0, 4), ()), ((1, -1), ())]], .ok 3⟩ :=
  C77_dispatch () _ (dispatchArgs (-1)) (dispatchArgs_valid _ (by decide)) (by simp [dispatchArgs])

/-- C77: `variant_transform` applied to expanded values: the functor is called exactly once, with the constants; the alternatives of the
result are exactly the non-void results the functor has for some choice of listed values. -/
theorem C77_dispatch_transform (unit : V) (isVoid : Ty → Bool) (f : VFunctor Ty V) (args : List (Runtime Ty)) (hv : ∀ a ∈ args, Valid a)
    (hm : ∀ a ∈ args, a.value ∈ a.values) (hr : isVoid (f.resTy (args.map fun a => a.const a.value)) = false) :
    ∃ v, dispatchTransform unit isVoid f args = some ⟨[args.map fun a => (a.const a.value, unit)], .ok v⟩ ∧
      Active v (f.resTy (args.map fun a => a.const a.value), f.run (args.map fun a => (a.const a.value, unit))) ∧
      v.types.Nodup ∧
      ∀ T, T ∈ v.types ↔ isVoid T = false ∧
        ∃ cs, List.Forall₂ (fun (a : Runtime Ty) c => c ∈ a.values) args cs ∧ T = f.resTy (List.zipWith (fun a c => a.const c) args cs) := by
  obtain ⟨vs, h1, h2, h3⟩ := expandAll_ok unit args hv hm
  have hmap : (args.map fun a => (a.const a.value, unit)).map Prod.fst = args.map fun a => a.const a.value := by simp
  obtain ⟨t, h4, h5, _, h6⟩ := C17_transform isVoid f vs _ h3 ⟨_, active_types h3, by rw [hmap]; exact hr⟩
  rw [hmap] at h6
  obtain ⟨v, h7, h8, h9⟩ := h6 hr
  obtain ⟨Rs, hR, hnd, hmem⟩ := C17_result_type isVoid f.resTy (vs.map VariantVal.types)
  rw [hR] at h8
  cases h8
  refine ⟨v, ?_, h9, hnd, fun T => ?_⟩
  · simp only [dispatchTransform, h1, Option.bind_some, h4]
    rw [← h5, ← h7]
  · rw [hmem, h2]
    refine and_congr_right fun _ => ?_
    have key : ∀ (as : List (Runtime Ty)) (types : List Ty), Combination types (as.map fun a => a.values.map a.const) ↔
        ∃ cs, List.Forall₂ (fun (a : Runtime Ty) c => c ∈ a.values) as cs ∧ types = List.zipWith (fun a c => a.const c) as cs := by
      intro as
      induction as with
      | nil =>
        intro types
        constructor
        · intro h; cases h; exact ⟨[], .nil, rfl⟩
        · rintro ⟨_, h, rfl⟩; cases h; exact .nil
      | cons a as ih =>
        intro types
        constructor
        · intro h
          cases h with
          | cons h1 h2 =>
            obtain ⟨c, hc, rfl⟩ := List.mem_map.mp h1
            obtain ⟨cs, h3, rfl⟩ := (ih _).mp h2
            exact ⟨c :: cs, .cons hc h3, rfl⟩
        · rintro ⟨_, h, rfl⟩
          cases h with
          | cons h1 h2 => exact .cons (List.mem_map_of_mem h1) ((ih _).mpr ⟨_, h2, rfl⟩)
    constructor
    · rintro ⟨types, h, rfl⟩
      obtain ⟨cs, h1, rfl⟩ := (key args types).mp h
      exact ⟨cs, h1, rfl⟩
    · rintro ⟨cs, h1, rfl⟩
      exact ⟨_, (key args _).mpr ⟨cs, h1, rfl⟩, rfl⟩

private theorem mapM_valOf (T : Nat) (vs : List Int) : (vs.map (Md.val T)).mapM (Metadata.valOf T) = some vs := by
  induction vs with
  | nil => rfl
  | cons v vs ih => simp [ih, Metadata.valOf]

/-- C77: without a list of values, `expand` uses the values which the metadata of the type declares. -/
theorem C77_metadata (const : Int → Ty) (unit : V) (mode : ExpandMode) (t : IntTy) (env : Metadata.Env) (T : Nat) (value : Int)
    (hw : WT (env.reflect T)) {rs : List (Int × List Md)} (h : ValueTable T (env.reflect T) rs) :
    expandByMetadata const unit mode t env T value = expand const unit mode t value (rs.map Prod.fst) := by
  have e1 : (rs.map fun r => Md.val T r.1) = (rs.map Prod.fst).map (Md.val T) := by simp
  simp only [expandByMetadata, Metadata.available, C51_values env T hw h, e1, Md.isAvailable, Md.elems, Option.bind_some, if_true,
    mapM_valOf]

/-- Metadata of an enumeration with an alias: two records for value 1. -/
def aliasEnv : Metadata.Env where
  reflect _ := .tup [.cstr (str "colour"), .tup [.tup [.val 3 0, .cstr (str "red")], .tup [.val 3 1, .cstr (str "grey")],
    .tup [.val 3 1, .cstr (str "gray")]]]
  isBaseOf _ _ := false
  isClass _ := false
  base_le _ _ h := by cases h

private theorem aliasEnv_table : ValueTable 3 (aliasEnv.reflect 3)
    [(0, [.cstr (str "red")]), (1, [.cstr (str "grey")]), (1, [.cstr (str "gray")])] := by
  refine .inr ⟨?_, [.cstr (str "colour")], .tup [.tup [.val 3 0, .cstr (str "red")], .tup [.val 3 1, .cstr (str "grey")],
    .tup [.val 3 1, .cstr (str "gray")]], [], rfl, ?_, ⟨_, rfl, ?_⟩, ?_⟩
  · rintro rs' ⟨⟨es, he, hf⟩, _⟩
    cases he
    cases hf with
    | cons h1 _ => simp [IsValueRecord, Md.elems] at h1
  · intro x hx rs'
    simp at hx
    subst hx
    rintro ⟨⟨es, he, _⟩, _⟩
    simp [Md.elems] at he
  · exact .cons rfl (.cons rfl (.cons rfl .nil))
  · intro t ht
    cases ht

/-- C77, observation: an enumeration whose metadata lists an alias of an enumerator can be converted to and from text, but not
expanded. -/
theorem C77_alias : (∃ rs, ValueTable 3 (aliasEnv.reflect 3) rs ∧ rs.map Prod.fst = [0, 1, 1]) ∧
    ∀ (const : Int → Ty) (unit : V) (mode : ExpandMode) (t : IntTy) (value : Int),
      expandByMetadata const unit mode t aliasEnv 3 value = none := by
  refine ⟨⟨_, aliasEnv_table, rfl⟩, fun const unit mode t value => ?_⟩
  rw [C77_metadata const unit mode t aliasEnv 3 value (by simp [aliasEnv, WT, WTs]) aliasEnv_table]
  exact C77_compiles_only const unit mode t value _ (.inr (by simp))

/-- C77: it does not compile for a type without metadata. -/
theorem C77_no_metadata (const : Int → Ty) (unit : V) (mode : ExpandMode) (t : IntTy) (env : Metadata.Env) (T : Nat) (value : Int)
    (h : env.reflect T = .nullopt) : expandByMetadata const unit mode t env T value = none := by
  have : Metadata.values env T = some .nullopt := by
    simp [Metadata.values, h]
    rfl
  simp [expandByMetadata, Metadata.available, this, Md.isAvailable]

example : ∃ env : Metadata.Env, env.reflect 4 = .nullopt := ⟨⟨fun _ => .nullopt, fun _ _ => false, fun _ => false, by simp⟩, rfl⟩

/-- C77: a Boolean can always be expanded: `bool` has metadata, the array `{ false, true }` (detail/metadata.hpp:43-47), and the result is
`true_type` or `false_type`, whichever is equal.  The representation type of `bool` is `int` (detail/variant.hpp:175). -/
theorem C77_bool (const : Int → Ty) (unit : V) (mode : ExpandMode) (env : Metadata.Env) (T : Nat)
    (h : env.reflect T = .arr (.ty T) [.val T 0, .val T 1]) (b : Bool) (hi : ∀ v w, const v = const w → v = w) :
    ∃ v, expandByMetadata const unit mode ⟨32, true⟩ env T b.toInt = some (.ok (some v)) ∧ v.types = [const 0, const 1] ∧
      Active v (const b.toInt, unit) := by
  have h1 : Metadata.values env T = some (.arr (.ty T) ([0, 1].map (.val T))) := by
    simp [Metadata.values, h, Metadata.extractValues, Metadata.extractMetadata, Metadata.isValueArray, Metadata.isValueRecordTuple,
      Metadata.isRecord, Metadata.recordIndex, Metadata.recordIndexFrom, MTy.elems, Md.typeOf, Metadata.promote, Metadata.isValue, Md.isAvailable,
      Metadata.isTupleOf]
  have h2 : expandByMetadata const unit mode ⟨32, true⟩ env T b.toInt = expand const unit mode ⟨32, true⟩ b.toInt [0, 1] := by
    simp only [expandByMetadata, Metadata.available, h1, Md.isAvailable, Md.elems, Option.bind_some, if_true, mapM_valOf]
  rw [h2]
  exact (C77_expand const unit ⟨32, true⟩ b.toInt [0, 1]
    ⟨by simp [StdWidth], by decide, by decide, by decide, by decide, by decide⟩
    ⟨by cases b <;> decide, by cases b <;> simp [IntTy.maxVal]⟩ hi).1 (by cases b <;> decide) mode

example : ∃ env : Metadata.Env, env.reflect 1 = .arr (.ty 1) [.val 1 0, .val 1 1] :=
  ⟨⟨fun t => .arr (.ty t) [.val t 0, .val t 1], fun _ _ => false, fun _ => false, by simp⟩, rfl⟩

end Makeshift.Props
