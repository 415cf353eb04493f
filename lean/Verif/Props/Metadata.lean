import Verif.Lemmas.Metadata

/-! # C51-C54: metadata -/

namespace Makeshift.Props

open Metadata Spec

/-! ## C51: values and value metadata -/

/-- C51: if the metadata of `T` contains a table of values, `values` lists the values of the records in order. -/
theorem C51_values (env : Env) (T : Nat) (hw : WT (env.reflect T)) {rs : List (Int × List Md)} (h : ValueTable T (env.reflect T) rs) :
    values env T = some (.arr (.ty T) (rs.map fun r => .val T r.1)) :=
  extractValues_table hw h

/-- C51: value metadata is aligned with the values.  Whenever `extract_for_values` (any element type `V`, any predicate, any
occurrence) has a result, the metadata contains a table of values such that entry `i` of `values` is the value of record `i` and
entry `i` of the result is the requested matching element of record `i`. -/
theorem C51_aligned (env : Env) (T : Nat) (hw : WT (env.reflect T)) (V : MTy) (p : MTy → Bool) (occ : Nat) {m : Md}
    (h : extractValueMetadata T V p occ (env.reflect T) = some m) (ha : m.isAvailable = true) :
    ∃ rs cells, ValueTable T (env.reflect T) rs
      ∧ values env T = some (.arr (.ty T) (rs.map fun r => .val T r.1))
      ∧ m = .arr V (cells.map promote)
      ∧ List.Forall₂ (fun (r : Int × List Md) c => ((Md.val T r.1 :: r.2).filter fun e => p e.typeOf)[occ]? = some c) rs cells := by
  rcases extract_valueTable (T := T) hw with ⟨R, rs, h1, h2, h3, h4, h5⟩ | ⟨h1, _⟩
  · have ht := (h5 rs).mpr h4
    rcases extractValueMetadata_table hw ht V p occ with ⟨h6, _⟩ | ⟨cells, h6, h7⟩
    · rw [h] at h6; cases h6; simp [Md.isAvailable] at ha
    · rw [h] at h7
      obtain ⟨l, h8, h9⟩ := Option.map_eq_some_iff.mp h7.symm
      obtain ⟨_, rfl⟩ := mapM_convert_iff.mp h8
      exact ⟨rs, cells, ht, extractValues_table hw ht, h9.symm, h6⟩
  · unfold extractValueMetadata at h
    rw [h1] at h
    simp only [Option.bind_some, isAvailable_nullopt, Bool.false_eq_true, if_false] at h
    split at h
    · rename_i hav
      obtain ⟨vs, hvs⟩ := extractValues_available (T := T) hw hav
      rw [hvs] at h
      simp [Md.isAvailable] at h
      subst h; simp [Md.isAvailable] at ha
    · cases h; simp [Md.isAvailable] at ha

/-- C51: names (`k = 0`) and descriptions (`k = 1`): if every record of a non-empty table contains at least `k + 1` strings, string
`k` of record `i` is entry `i` of the result. -/
theorem C51_strings (env : Env) (T k : Nat) (hw : WT (env.reflect T)) {rs : List (Int × List Md)} {names : List Str}
    (h : ValueTable T (env.reflect T) rs) (hne : rs ≠ [])
    (hn : List.Forall₂ (fun (r : Int × List Md) n => (stringsOf r.2)[k]? = some n) rs names) :
    extractValueMetadata T .sv isStringLike k (env.reflect T) = some (.arr .sv (names.map .sv)) := by
  have hstr : ∀ r : Int × List Md, stringsOf (.val T r.1 :: r.2) = stringsOf r.2 := fun r => rfl
  rcases extractValueMetadata_table hw h .sv isStringLike k with ⟨_, ⟨x, hx, h7⟩ | h7⟩ | ⟨cells, h6, h7⟩
  · obtain ⟨n, _, hn'⟩ := exists_of_forall₂ hn x hx
    rw [← hstr x, strings_cell, h7] at hn'
    cases hn'
  · exact absurd h7 hne
  · have h6' : List.Forall₂ (fun full c => cellOf isStringLike k full = some c) (rs.map fun x => .val T x.1 :: x.2) cells := by
      simpa [List.forall₂_map_left_iff] using h6
    obtain ⟨h8, h9⟩ := mapM_convert_strings h6'
    rw [h7, h8]
    simp only [Option.map_some, Option.some.injEq, Md.arr.injEq, true_and]
    rw [List.forall₂_map_left_iff] at h9
    have : ∀ (l : List (Int × List Md)) (a : List Md) (b : List Str),
        List.Forall₂ (fun (x : Int × List Md) n => ∃ s, n = Md.sv s ∧ (stringsOf (.val T x.1 :: x.2))[k]? = some s) l a →
        List.Forall₂ (fun (r : Int × List Md) n => (stringsOf r.2)[k]? = some n) l b → a = b.map .sv := by
      intro l a b h1 h2
      induction h1 generalizing b with
      | nil => cases h2; rfl
      | cons hx _ ih =>
        cases h2 with
        | cons hy h2 =>
          obtain ⟨s, rfl, hs⟩ := hx
          rw [hstr, hy] at hs; cases hs
          rw [List.map_cons, ih _ h2]
    exact this rs _ _ h9 hn

/-- C51: `value_names` and `values` of a table whose records all contain a string. -/
theorem C51_names (env : Env) (T : Nat) (hw : WT (env.reflect T)) {rs : List (Int × List Md)} {names : List Str}
    (h : ValueTable T (env.reflect T) rs) (hne : rs ≠ [])
    (hn : List.Forall₂ (fun (r : Int × List Md) n => (stringsOf r.2).head? = some n) rs names) :
    valueNames env T = some (.arr .sv (names.map .sv))
      ∧ values env T = some (.arr (.ty T) (rs.map fun r => .val T r.1)) :=
  ⟨C51_strings env T 0 hw h hne (by simpa [List.head?_eq_getElem?] using hn), C51_values env T hw h⟩

/-- C51: `value_descriptions` is the second string of each record. -/
theorem C51_descriptions (env : Env) (T : Nat) (hw : WT (env.reflect T)) {rs : List (Int × List Md)} {names : List Str}
    (h : ValueTable T (env.reflect T) rs) (hne : rs ≠ [])
    (hn : List.Forall₂ (fun (r : Int × List Md) n => (stringsOf r.2)[1]? = some n) rs names) :
    valueDescriptions env T = some (.arr .sv (names.map .sv)) :=
  C51_strings env T 1 hw h hne hn

/-- C51: if some record lacks the string, no names are available (rather than misaligned ones). -/
theorem C51_missing_string (env : Env) (T k : Nat) (hw : WT (env.reflect T)) {rs : List (Int × List Md)}
    (h : ValueTable T (env.reflect T) rs) {r : Int × List Md} (hr : r ∈ rs) (hs : (stringsOf r.2).length ≤ k) :
    extractValueMetadata T .sv isStringLike k (env.reflect T) = some .nullopt := by
  rcases extractValueMetadata_table hw h .sv isStringLike k with ⟨h6, _⟩ | ⟨cells, h6, h7⟩
  · exact h6
  · obtain ⟨c, _, hc⟩ := exists_of_forall₂ h6 r hr
    obtain ⟨s, _, _, h3⟩ := strOf_of_cell hc
    rw [show stringsOf (.val T r.1 :: r.2) = stringsOf r.2 from rfl, List.getElem?_eq_none (by omega)] at h3
    cases h3

/-- C51: where metadata is given but contains no table, `values` is still available but no value metadata is, not even for types
without any values - contrary to the comment in `extract_value_metadata`, whose branch for that case is never taken. -/
theorem C51_no_table (env : Env) (T : Nat) (hw : WT (env.reflect T)) (ha : (env.reflect T).isAvailable = true)
    (h : ∀ rs, ¬ValueTable T (env.reflect T) rs) (V : MTy) (p : MTy → Bool) (occ : Nat) :
    (∃ vs, values env T = some (.arr (.ty T) vs)) ∧ extractValueMetadata T V p occ (env.reflect T) = some .nullopt := by
  obtain ⟨vs, hvs⟩ := extractValues_available (T := T) hw ha
  refine ⟨⟨vs, hvs⟩, ?_⟩
  rcases extract_valueTable (T := T) hw with ⟨R, rs, _, _, _, h4, h5⟩ | ⟨h1, _⟩
  · exact absurd ((h5 rs).mpr h4) (h rs)
  · simp [extractValueMetadata, h1, hvs, Md.isAvailable]

/-- C51: without metadata nothing is available. -/
theorem C51_no_metadata (env : Env) (T : Nat) (h : env.reflect T = .nullopt) :
    values env T = some .nullopt ∧ valueNames env T = some .nullopt := by
  simp [values, valueNames, h, extractValues, extractValueMetadata, extractMetadata, Md.isAvailable, isValue, Md.typeOf]

/-- C51: searching a value index by name finds the first record with that name, or nothing if there is none. -/
theorem C51_search_by_name (env : Env) (T : Nat) (hw : WT (env.reflect T)) {rs : List (Int × List Md)} {names : List Str}
    (h : ValueTable T (env.reflect T) rs) (hne : rs ≠ [])
    (hn : List.Forall₂ (fun (r : Int × List Md) n => (stringsOf r.2).head? = some n) rs names) (n : Str) :
    (searchValueIndexByName env T n = some (-1) ∧ n ∉ names) ∨
    ∃ k : Nat, searchValueIndexByName env T n = some (k : Int) ∧ names[k]? = some n ∧ ∀ j < k, names[j]? ≠ some n := by
  have hv := (C51_names env T hw h hne hn).1
  simp only [searchValueIndexByName, hv, available, Option.bind_some, Md.isAvailable, if_true, Md.elems, Option.map_some, Option.some.injEq]
  rcases searchIndexFrom_spec (isName n) (names.map .sv) 0 with ⟨h1, h2⟩ | ⟨k, e, h1, h2, h3, h4⟩
  · left; refine ⟨h1, fun hm => ?_⟩
    have := h2 (.sv n) (List.mem_map.mpr ⟨n, hm, rfl⟩)
    simp [isName] at this
  · right; refine ⟨k, by simpa using h1, ?_, ?_⟩
    · rw [List.getElem?_map] at h2
      obtain ⟨s, hs, rfl⟩ := Option.map_eq_some_iff.mp h2
      simp [isName] at h3; rw [hs, h3]
    · intro j hj hj'
      have := h4 j (.sv n) hj (by rw [List.getElem?_map, hj']; rfl)
      simp [isName] at this

/-- An environment in which type 0 is an enumeration with metadata `tuple{ "Color", "a color", tuple{ tuple{ red, "red" }, tuple{ green,
"green", "like grass" } } }` and type 1 has metadata without values. -/
private def colorEnv : Env where
  reflect := fun
    | 0 => .tup [.cstr (str "Color"), .cstr (str "a color"),
        .tup [.tup [.val 0 1, .cstr (str "red")], .tup [.val 0 2, .cstr (str "green"), .sv (str "like grass")]]]
    | 1 => .tup [.cstr (str "Empty")]
    | 2 => .arr (.ty 2) [.val 2 0, .val 2 1]
    | _ => .nullopt
  isBaseOf := fun _ _ => false
  isClass := fun _ => false
  base_le := by simp

private theorem colorTable : ValueTable 0 (colorEnv.reflect 0)
    [(1, [.cstr (str "red")]), (2, [.cstr (str "green"), .sv (str "like grass")])] := by
  right
  refine ⟨?_, [.cstr (str "Color"), .cstr (str "a color")], _, [], rfl, ?_, ?_⟩
  · rintro rs' ⟨⟨es, h, h'⟩, _⟩
    simp only [colorEnv, Md.elems, Option.some.injEq] at h
    subst h
    cases h' with
    | cons h _ => simp [IsValueRecord, Md.elems] at h
  · simp only [List.mem_cons, List.not_mem_nil, or_false]
    rintro x (rfl | rfl) rs' ⟨⟨es, h, h'⟩, _⟩ <;> simp [Md.elems] at h
  · exact ⟨⟨_, rfl, .cons rfl (.cons rfl .nil)⟩, by simp⟩

private theorem colorWT : WT (colorEnv.reflect 0) := by simp [colorEnv, WT, WTs]

/-- The hypotheses of `C51_names`, `C51_search_by_name` and `C51_missing_string` are met by `colorEnv`. -/
example : valueNames colorEnv 0 = some (.arr .sv [.sv (str "red"), .sv (str "green")])
    ∧ values colorEnv 0 = some (.arr (.ty 0) [.val 0 1, .val 0 2]) :=
  C51_names colorEnv 0 colorWT colorTable (by simp) (names := [str "red", str "green"]) (.cons rfl (.cons rfl .nil))
example : valueDescriptions colorEnv 0 = some .nullopt :=
  C51_missing_string colorEnv 0 1 colorWT colorTable (r := (1, [.cstr (str "red")])) (by simp) (by decide)
example := C51_aligned colorEnv 0 colorWT .sv isStringLike 0 (m := .arr .sv [.sv (str "red"), .sv (str "green")]) rfl rfl
/-- Metadata without values. -/
example : values colorEnv 1 = some (.arr (.ty 1) []) ∧ valueNames colorEnv 1 = some .nullopt := ⟨rfl, rfl⟩
/-- `bool`, for which a reflection is built in (detail/metadata.hpp:43-47). -/
example : values colorEnv 2 = some (.arr (.ty 2) [.val 2 0, .val 2 1]) := rfl
example := C51_no_metadata colorEnv 3 rfl

/-! ## C52: extraction by occurrence -/

/-- C52: extraction from a tuple (or array) which does not match as a whole yields the requested one of the matching elements, in
order of their position, and `nullopt` if there are fewer. -/
theorem C52_extract (md : Md) (hw : WT md) {es : List Md} (he : md.elems = some es) (p : MTy → Bool) (occ : Nat)
    (hself : occ ≠ 0 ∨ p md.typeOf = false) :
    extract md p occ = some (match (es.filter fun e => p e.typeOf)[occ]? with
      | some e => promote e
      | none => .nullopt) := by
  refine extractMetadata_elems hw he ?_
  rintro ⟨h1, h2⟩
  rcases hself with h | h
  · exact h h1
  · rw [h2] at h; cases h

/-- C52: metadata which matches as a whole is its own occurrence 0, and it has no other if it is not a tuple. -/
theorem C52_extract_self (md : Md) (ha : md.isAvailable = true) (p : MTy → Bool) (hp : p md.typeOf = true) :
    extract md p 0 = some (promote md) ∧ (md.elems = none → ∀ occ, occ ≠ 0 → extract md p occ = some .nullopt) :=
  ⟨extractMetadata_self ha hp, fun he occ ho => extractMetadata_leaf he (by simp [ho])⟩

/-- C52: nothing is extracted where there is no metadata. -/
theorem C52_extract_unavailable (p : MTy → Bool) (occ : Nat) : extract .nullopt p occ = some .nullopt := rfl

/-- C52: metadata which is neither tuple-like nor matches yields nothing. -/
theorem C52_extract_no_match (md : Md) (he : md.elems = none) (p : MTy → Bool) (hp : p md.typeOf = false) (occ : Nat) :
    extract md p occ = some .nullopt :=
  extractMetadata_leaf he (by simp [hp])

private theorem string_extract {md : Md} (hw : WT md) {es : List Md} (he : md.elems = some es) (k : Nat) :
    extract md isStringLike k = some (match (stringsOf es)[k]? with
      | some s => .sv s
      | none => .nullopt) := by
  rw [C52_extract md hw he isStringLike k (.inr (by cases md <;> simp_all [Md.elems, Md.typeOf, isStringLike]))]
  cases hc : (es.filter fun e => isStringLike e.typeOf)[k]? with
  | none =>
    have := strings_cell es k
    rw [show cellOf isStringLike k es = none from hc] at this
    rw [this]; rfl
  | some c =>
    obtain ⟨s, _, h2, h3⟩ := strOf_of_cell hc
    rw [h3]; exact congrArg some h2

/-- C52: `name` is the first string of the metadata tuple. -/
theorem C52_name (md : Md) (hw : WT md) {es : List Md} (he : md.elems = some es) :
    name md = some (match (stringsOf es)[0]? with
      | some s => .sv s
      | none => .nullopt) :=
  string_extract hw he 0

/-- C52: `description` is the second string of the metadata tuple. -/
theorem C52_description (md : Md) (hw : WT md) {es : List Md} (he : md.elems = some es) :
    description md = some (match (stringsOf es)[1]? with
      | some s => .sv s
      | none => .nullopt) :=
  string_extract hw he 1

/-- C52: metadata which is just a string is the name; there is no description then. -/
theorem C52_name_only (md : Md) {s : Str} (h : strOf md = some s) : name md = some (.sv s) ∧ description md = some .nullopt := by
  cases md <;> simp [strOf] at h
  · subst h; exact ⟨rfl, rfl⟩
  · subst h; exact ⟨rfl, rfl⟩

/-- C52: extraction of a given type `V` compiles iff there are enough elements of that type - except for `V = char const*`. -/
theorem C52_extract_typed (md : Md) (hw : WT md) {es : List Md} (he : md.elems = some es) (V : MTy) (hV : V ≠ .cstr) (hV' : V ≠ .nullopt)
    (occ : Nat) (hself : md.typeOf ≠ V) :
    extractTyped md V occ = (es.filter fun e => e.typeOf.same V)[occ]? := by
  have h := C52_extract md hw he (fun t => t.same V) occ (.inr (by
    rw [Bool.eq_false_iff]; exact fun h => hself (same_iff.mp h)))
  unfold extract at h
  unfold extractTyped
  rw [h, Option.bind_some]
  cases hc : (es.filter fun e => e.typeOf.same V)[occ]? with
  | none =>
    simp only [convertTo]
    rw [if_neg]
    intro h'; exact hV' (same_iff.mp h').symm
  | some e =>
    have hm : e ∈ es.filter fun e => e.typeOf.same V := List.mem_of_getElem? hc
    have ht := same_iff.mp (List.mem_filter.mp hm).2
    have : promote e = e := by
      cases e <;> try rfl
      exact absurd ht.symm hV
    simp only [this]
    exact convertTo_iff.mpr ⟨ht, rfl⟩

mutual
private theorem hasType_iff (m : Md) (t : MTy) : HasType m t ↔ m.typeOf = t := by
  cases m with
  | tup es =>
    simp only [HasType, Md.typeOf]
    constructor
    · rintro ⟨ts, rfl, h⟩
      rw [(haveTypes_iff es ts).1 h]
    · rintro rfl
      exact ⟨_, rfl, (haveTypes_iff es _).2 rfl⟩
  | _ => simp only [HasType, Md.typeOf]; exact eq_comm
private theorem haveTypes_iff (es : List Md) (ts : List MTy) : HaveTypes es ts ↔ Md.typesOf es = ts := by
  cases es with
  | nil => simp only [HaveTypes, Md.typesOf]; exact eq_comm
  | cons e es =>
    simp only [HaveTypes, Md.typesOf]
    constructor
    · rintro ⟨t, ts', rfl, h1, h2⟩
      rw [(hasType_iff e t).1 h1, (haveTypes_iff es ts').1 h2]
    · rintro rfl
      exact ⟨_, _, rfl, (hasType_iff e _).2 rfl, (haveTypes_iff es _).2 rfl⟩
end

/-- C52: what is extracted has the type asked for, and there are exactly so many elements of the type before it. -/
theorem C52_extract_typed_type (md : Md) (hw : WT md) {es : List Md} (he : md.elems = some es) (V : MTy) (hV : V ≠ .cstr) (hV' : V ≠ .nullopt)
    (occ : Nat) (hself : ¬ HasType md V) (e : Md) :
    extractTyped md V occ = some e ↔
      ∃ i, es[i]? = some e ∧ HasType e V ∧ ∃ before, List.Sublist before (es.take i) ∧ before.length = occ ∧ (∀ x ∈ before, HasType x V) ∧
        ∀ l, List.Sublist l (es.take i) → (∀ x ∈ l, HasType x V) → l.length ≤ occ := by
  rw [C52_extract_typed md hw he V hV hV' occ (fun h => hself ((hasType_iff md V).2 h))]
  have hp : ∀ x : Md, x.typeOf.same V = true ↔ HasType x V := fun x => by rw [hasType_iff]; exact same_iff
  clear he hw hself
  induction es generalizing occ with
  | nil => simp
  | cons x es ih =>
    by_cases hx : HasType x V
    · rw [List.filter_cons_of_pos (p := fun e : Md => e.typeOf.same V) ((hp x).2 hx)]
      cases occ with
      | zero =>
        simp only [List.getElem?_cons_zero, Option.some.injEq]
        constructor
        · rintro rfl
          exact ⟨0, rfl, hx, [], by simp, rfl, by simp, by simp⟩
        · rintro ⟨i, h1, h2, b, -, -, -, h3⟩
          cases i with
          | zero => simpa using h1
          | succ i =>
            have := h3 [x] (by simp) (by simpa using hx)
            simp at this
      | succ occ =>
        rw [List.getElem?_cons_succ]
        refine (ih occ).trans ?_
        constructor
        · rintro ⟨i, h1, h2, b, hb, hl, hbt, hmax⟩
          refine ⟨i + 1, by simpa using h1, h2, x :: b, by simpa using hb.cons_cons x, by simp [hl], by simpa using ⟨hx, hbt⟩, ?_⟩
          intro l hls hlt
          rw [List.take_succ_cons] at hls
          cases hls with
          | cons _ h => exact Nat.le_succ_of_le (hmax l h hlt)
          | cons_cons _ h =>
            have := hmax _ h (fun y hy => hlt y (List.mem_cons_of_mem _ hy))
            simp only [List.length_cons]; omega
        · rintro ⟨i, h1, h2, b, hb, hl, hbt, hmax⟩
          cases i with
          | zero => simp at hb; subst hb; simp at hl
          | succ i =>
            rw [List.take_succ_cons] at hb hmax
            have hm : ∀ l, List.Sublist l (es.take i) → (∀ y ∈ l, HasType y V) → l.length ≤ occ := by
              intro l hls hlt
              have := hmax (x :: l) (hls.cons_cons x) (by simpa using ⟨hx, hlt⟩)
              simpa using this
            refine ⟨i, by simpa using h1, h2, ?_⟩
            cases hb with
            | cons _ h => have := hm b h hbt; omega
            | cons_cons _ h =>
              exact ⟨_, h, by simpa using hl, fun y hy => hbt y (List.mem_cons_of_mem _ hy), hm⟩
    · rw [List.filter_cons_of_neg (p := fun e : Md => e.typeOf.same V) (fun h => hx ((hp x).1 h))]
      refine (ih occ).trans ?_
      constructor
      · rintro ⟨i, h1, h2, b, hb, hl, hbt, hmax⟩
        refine ⟨i + 1, by simpa using h1, h2, b, by simpa using hb.cons x, hl, hbt, ?_⟩
        intro l hls hlt
        rw [List.take_succ_cons] at hls
        cases hls with
        | cons _ h => exact hmax l h hlt
        | cons_cons _ h => exact absurd (hlt x (List.mem_cons_self ..)) hx
      · rintro ⟨i, h1, h2, b, hb, hl, hbt, hmax⟩
        cases i with
        | zero => simp at h1; subst h1; exact absurd h2 hx
        | succ i =>
          rw [List.take_succ_cons] at hb hmax
          refine ⟨i, by simpa using h1, h2, b, ?_, hl, hbt, fun l hls hlt => hmax l (hls.cons x) hlt⟩
          cases hb with
          | cons _ h => exact h
          | cons_cons _ h => exact absurd (hbt x (List.mem_cons_self ..)) hx

/-- The second of two pointers to members of type 5 of class 3, between which there is one to a member of type 6. -/
example : let md : Md := .tup [.memPtr 3 5 0, .memPtr 3 6 1, .memPtr 3 5 2]
    WT md ∧ ¬ HasType md (.memPtr 3 5) ∧ extractTyped md (.memPtr 3 5) 1 = some (.memPtr 3 5 2) := by
  refine ⟨by simp [WT, WTs], by simp [HasType], by rfl⟩

/-- C52: extracting a `char const*` never compiles, because strings are converted to `std::string_view` on extraction. -/
theorem C52_extract_cstr_ill_formed (md : Md) (occ : Nat) : extractTyped md .cstr occ = none := by
  unfold extractTyped
  cases h : extractMetadata (fun t => t.same .cstr) occ md with
  | none => rfl
  | some m =>
    rw [Option.bind_some]
    cases hc : convertTo .cstr m with
    | none => rfl
    | some m' =>
      exfalso
      obtain ⟨h1, _⟩ := convertTo_iff.mp hc
      have hp : ∀ x : Md, (promote x).typeOf ≠ .cstr := by intro x; cases x <;> simp [promote, Md.typeOf]
      unfold extractMetadata at h
      split at h
      · cases h; simp [Md.typeOf] at h1
      · split at h
        · cases h; exact hp _ h1
        · split at h
          · obtain ⟨x, _, rfl⟩ := Option.map_eq_some_iff.mp h; exact hp _ h1
          · cases h; simp [Md.typeOf] at h1

example : name (colorEnv.reflect 0) = some (.sv (str "Color")) := C52_name _ colorWT rfl
example : description (colorEnv.reflect 0) = some (.sv (str "a color")) := C52_description _ colorWT rfl
example : description (colorEnv.reflect 1) = some .nullopt :=
  C52_description (colorEnv.reflect 1) (by simp [colorEnv, WT, WTs]) rfl
example : extractTyped (.tup [.val 4 7, .cstr [], .val 4 8]) (.ty 4) 1 = some (.val 4 8) :=
  C52_extract_typed (.tup [.val 4 7, .cstr [], .val 4 8]) (by simp [WT, WTs]) rfl (.ty 4) (by simp) (by simp) 1 (by simp [Md.typeOf])
example : extractTyped (.tup [.val 4 7, .cstr [], .val 4 8]) (.ty 4) 2 = none :=
  C52_extract_typed (.tup [.val 4 7, .cstr [], .val 4 8]) (by simp [WT, WTs]) rfl (.ty 4) (by simp) (by simp) 2 (by simp [Md.typeOf])

/-! ## C53: members -/

private theorem exclusive_strings (env : Env) (T k : Nat) (hw : WT (env.reflect T)) {rs : List (Md × List Md)}
    (h : MemberTable T (env.reflect T) rs) (hc : exclusiveMembers env T ≠ none) {names : List Str}
    (hn : List.Forall₂ (fun (r : Md × List Md) n => (stringsOf r.2)[k]? = some n) rs names) :
    extractMemberMetadata env T .sv isStringLike k (env.reflect T) = some (.arr .sv (names.map .sv)) := by
  have hp := memberTable_ptr h
  rcases extractMemberMetadata_table (env := env) hw h .sv isStringLike k with ⟨_, ⟨x, hx, h7⟩ | ⟨_, h7⟩⟩ | ⟨cells, h6, h7⟩
  · obtain ⟨n, _, hn'⟩ := exists_of_forall₂ hn x hx
    rw [← strings_record (hp x hx), strings_cell, h7] at hn'
    cases hn'
  · exact absurd h7 hc
  · have h6' : List.Forall₂ (fun full c => cellOf isStringLike k full = some c) (rs.map fun x => x.1 :: x.2) cells := by
      simpa [List.forall₂_map_left_iff] using h6
    obtain ⟨h8, h9⟩ := mapM_convert_strings h6'
    rw [h7, h8]
    simp only [Option.map_some, Option.some.injEq, Md.arr.injEq, true_and]
    rw [List.forall₂_map_left_iff] at h9
    have : ∀ (l : List (Md × List Md)) (a : List Md) (b : List Str), (∀ x ∈ l, IsMemberPtr T x.1) →
        List.Forall₂ (fun (x : Md × List Md) n => ∃ s, n = Md.sv s ∧ (stringsOf (x.1 :: x.2))[k]? = some s) l a →
        List.Forall₂ (fun (r : Md × List Md) n => (stringsOf r.2)[k]? = some n) l b → a = b.map .sv := by
      intro l a b hl h1 h2
      induction h1 generalizing b with
      | nil => cases h2; rfl
      | cons hx _ ih =>
        cases h2 with
        | cons hy h2 =>
          obtain ⟨s, rfl, hs⟩ := hx
          rw [strings_record (hl _ (by simp)), hy] at hs; cases hs
          rw [List.map_cons, ih _ (fun x hx => hl x (by simp [hx])) h2]
    exact this rs _ _ hp h9 hn

/-- C53: the own members of a class with a member table are those of the records; if all records have a string, the names are
the first strings. -/
theorem C53_exclusive (env : Env) (T : Nat) (hw : WT (env.reflect T)) {rs : List (Md × List Md)}
    (h : MemberTable T (env.reflect T) rs) (hc : exclusiveMembers env T ≠ none) {names : List Str}
    (hn : List.Forall₂ (fun (r : Md × List Md) n => (stringsOf r.2).head? = some n) rs names) :
    exclusiveMembers env T = some (.tup (rs.map (·.1)))
      ∧ exclusiveMemberNames env T = some (.arr .sv (names.map .sv)) := by
  refine ⟨?_, exclusive_strings env T 0 hw h hc (by simpa [List.head?_eq_getElem?] using hn)⟩
  rcases extractMembers_table (env := env) hw h with h1 | h1
  · exact h1
  · exact absurd h1 hc

/-- C53: the descriptions of the own members are the second strings. -/
theorem C53_exclusive_descriptions (env : Env) (T : Nat) (hw : WT (env.reflect T)) {rs : List (Md × List Md)}
    (h : MemberTable T (env.reflect T) rs) (hc : exclusiveMembers env T ≠ none) {descs : List Str}
    (hn : List.Forall₂ (fun (r : Md × List Md) n => (stringsOf r.2)[1]? = some n) rs descs) :
    exclusiveMemberDescriptions env T = some (.arr .sv (descs.map .sv)) :=
  exclusive_strings env T 1 hw h hc hn

/-- C53: lookup among the own members of a class finds a member with that name; members and names correspond position by
position. -/
theorem C53_exclusive_aligned (env : Env) (T : Nat) (hw : WT (env.reflect T)) {dm : Md} {ms ns : List Md}
    (hm : exclusiveMembers env T = some dm) (hms : dm.elems = some ms)
    (hn : available (exclusiveMemberNames env T) = some ns) :
    List.Forall₂ (fun m n => ∃ s, n = .sv s ∧ NamedIn env.reflect T m s) ms ns := by
  obtain ⟨dn, h1, h2⟩ := Option.bind_eq_some_iff.mp hn
  split at h2
  · exact direct_aligned hw hm hms h1 h2
  · cases h2

private theorem lookup_aligned {P : Md → Str → Prop} {ms ns : List Md} {n : Str} {m : Md}
    (h : List.Forall₂ (fun m n => ∃ s, n = .sv s ∧ P m s) ms ns)
    (hf : (if searchIndexFrom (isName n) ns 0 ≥ 0 then ms[(searchIndexFrom (isName n) ns 0).toNat]? else some .nullopt) = some m)
    (ha : m.isAvailable = true) : P m n := by
  rcases searchIndexFrom_spec (isName n) ns 0 with ⟨h1, _⟩ | ⟨k, e, h1, h2, h3, _⟩
  · rw [h1] at hf; simp at hf; subst hf; simp [Md.isAvailable] at ha
  · rw [h1, if_pos (by omega)] at hf
    have hk : ((0 + k : Nat) : Int).toNat = k := by omega
    rw [hk] at hf
    obtain ⟨hl, hall⟩ := List.forall₂_iff_get.mp h
    obtain ⟨hk1, hk1'⟩ := List.getElem?_eq_some_iff.mp hf
    obtain ⟨hk2, hk2'⟩ := List.getElem?_eq_some_iff.mp h2
    obtain ⟨s, hs, hP⟩ := hall k hk1 hk2
    simp only [List.get_eq_getElem, hk1', hk2'] at hs hP
    subst hs
    simp [isName] at h3
    rw [← h3]; exact hP

/-- C53: `find_exclusive_member_by_name` yields a member which the metadata gives that name. -/
theorem C53_find_exclusive (env : Env) (T : Nat) (hw : WT (env.reflect T)) {n : Str} {m : Md}
    (h : findExclusiveMemberByName env T n = some m) : NamedIn env.reflect T m n := by
  obtain ⟨m', h1, h2⟩ := Option.bind_eq_some_iff.mp h
  split at h2
  · rename_i ha
    cases h2
    obtain ⟨ms, h3, h4⟩ := Option.bind_eq_some_iff.mp h1
    obtain ⟨i, h5, h6⟩ := Option.bind_eq_some_iff.mp h4
    obtain ⟨ns, h7, rfl⟩ := Option.map_eq_some_iff.mp h5
    obtain ⟨dm, h8, h9⟩ := Option.bind_eq_some_iff.mp h3
    split at h9
    · exact lookup_aligned (C53_exclusive_aligned env T hw h8 h9 h7) h6 ha
    · cases h9
  · cases h2

/-- C53: `members` lists the members of the base classes, in the order of the base classes, before the own members; this holds
for hierarchies of any depth. -/
theorem C53_members_order (env : Env) (T : Nat) {ms : List Md} (h : members env T = some (.tup ms)) :
    ∃ (bs ds : List Md) (us : List Nat) (mss : List (List Md)) (B D : Md),
      bases env T = some B ∧ B.elems = some bs ∧ bs = us.map .typeId
      ∧ exclusiveMembers env T = some D ∧ D.elems = some ds
      ∧ List.Forall₂ (fun u l => members env u = some (.tup l)) us mss
      ∧ ms = mss.flatten ++ ds := by
  unfold members at h
  rw [allMembers] at h
  obtain ⟨D, hD, h⟩ := Option.bind_eq_some_iff.mp h
  split at h
  · obtain ⟨B, hB, h⟩ := Option.bind_eq_some_iff.mp h
    obtain ⟨bs, hbs, h⟩ := Option.bind_eq_some_iff.mp h
    obtain ⟨mss, hmss, h⟩ := Option.bind_eq_some_iff.mp h
    obtain ⟨ds, hds, h⟩ := Option.map_eq_some_iff.mp h
    cases h
    rw [mapM_option_forall₂] at hmss
    have : ∀ (l : List Md) (l' : List (List Md)), List.Forall₂ (fun b l => ((baseClass b).bind fun u =>
        if _h : u < T then (allMembers env u).bind Md.elems else none) = some l) l l' →
        ∃ us, l = us.map .typeId ∧ List.Forall₂ (fun u l => members env u = some (.tup l)) us l' := by
      intro l l' hf
      induction hf with
      | nil => exact ⟨[], rfl, .nil⟩
      | @cons b x _ _ hb _ ih =>
        obtain ⟨us, rfl, hus⟩ := ih
        obtain ⟨u, hu, hb⟩ := Option.bind_eq_some_iff.mp hb
        split at hb
        · obtain ⟨t, ht, htl⟩ := Option.bind_eq_some_iff.mp hb
          have hbu : b = .typeId u := by cases b <;> simp [baseClass] at hu; rw [hu]
          refine ⟨u :: us, by rw [hbu]; rfl, .cons ?_ hus⟩
          have ht' := ht
          rw [allMembers] at ht
          obtain ⟨d, _, ht⟩ := Option.bind_eq_some_iff.mp ht
          split at ht
          · obtain ⟨_, _, ht⟩ := Option.bind_eq_some_iff.mp ht
            obtain ⟨_, _, ht⟩ := Option.bind_eq_some_iff.mp ht
            obtain ⟨_, _, ht⟩ := Option.bind_eq_some_iff.mp ht
            obtain ⟨_, _, ht⟩ := Option.map_eq_some_iff.mp ht
            subst ht
            simp [Md.elems] at htl; subst htl
            exact ht'
          · cases ht; simp [Md.elems] at htl
        · cases hb
    obtain ⟨us, hus, hf⟩ := this bs mss hmss
    exact ⟨bs, ds, us, mss, B, D, hB, hbs, hus, hD, hds, hf, rfl⟩
  · cases h

private theorem aligned_strings (env : Env) (T k : Nat) (hw : ∀ u, WT (env.reflect u)) {B : Md} {bs : List Md}
    (hB : bases env T = some B) (hbs : B.elems = some bs)
    (hflat : ∀ u, .typeId u ∈ bs → (members env u).bind Md.elems = (exclusiveMembers env u).bind Md.elems)
    {ms ns : List Md} (hm : members env T = some (.tup ms))
    (hn : extractAllMemberMetadata env T .sv isStringLike k = some (.arr .sv ns)) :
    List.Forall₂ (fun m n => ∃ s, n = .sv s ∧ ∃ u, (u = T ∨ .typeId u ∈ bs) ∧ StringIn env.reflect u k m s) ms ns := by
  obtain ⟨bs', ds, us, mss, B', D, h1, h2, h3, h4, h5, h6, rfl⟩ := C53_members_order env T hm
  rw [hB] at h1; cases h1
  rw [hbs] at h2; cases h2
  unfold extractAllMemberMetadata at hn
  obtain ⟨dn, hdn, hn⟩ := Option.bind_eq_some_iff.mp hn
  split at hn
  · obtain ⟨B'', hB'', hn⟩ := Option.bind_eq_some_iff.mp hn
    have : B'' = B := by rw [show extractBases env T (env.reflect T) = some B from hB] at hB''; cases hB''; rfl
    subst this
    obtain ⟨bs'', hbs'', hn⟩ := Option.bind_eq_some_iff.mp hn
    rw [hbs] at hbs''; cases hbs''
    obtain ⟨nss, hnss, hn⟩ := Option.bind_eq_some_iff.mp hn
    obtain ⟨dns, hdns, hn⟩ := Option.map_eq_some_iff.mp hn
    simp only [Md.arr.injEq, true_and] at hn
    subst hn
    rw [mapM_option_forall₂] at hnss
    have hown := direct_aligned' (hw T) h4 h5 hdn hdns
    have hbase : ∀ (us : List Nat) (mss nss : List (List Md)), (∀ u ∈ us, .typeId u ∈ bs) →
        List.Forall₂ (fun u l => members env u = some (.tup l)) us mss →
        List.Forall₂ (fun b l => ((baseClass b).bind fun u =>
          (extractMemberMetadata env u .sv isStringLike k (env.reflect u)).bind Md.elems) = some l) (us.map .typeId) nss →
        List.Forall₂ (List.Forall₂ (fun m n => ∃ s, n = .sv s ∧ ∃ u, (u = T ∨ .typeId u ∈ bs) ∧ StringIn env.reflect u k m s)) mss nss := by
      intro us
      induction us with
      | nil => intro mss nss _ h h'; cases h; cases h'; exact .nil
      | cons u us ih =>
        intro mss nss hmem h h'
        cases h with
        | @cons _ l _ lss hl hls =>
          cases h' with
          | @cons _ l' _ lss' hl' hls' =>
            refine .cons ?_ (ih lss lss' (fun x hx => hmem x (by simp [hx])) hls hls')
            simp only [baseClass, Option.bind_some] at hl'
            obtain ⟨dn', hdn', hl'⟩ := Option.bind_eq_some_iff.mp hl'
            have hx : (exclusiveMembers env u).bind Md.elems = some l := by
              rw [← hflat u (hmem u (by simp)), hl]; rfl
            obtain ⟨dm', hdm', hx⟩ := Option.bind_eq_some_iff.mp hx
            refine List.Forall₂.imp ?_ (direct_aligned' (hw u) hdm' hx hdn' hl')
            rintro m n ⟨s, hs, hN⟩
            exact ⟨s, hs, u, .inr (hmem u (by simp)), hN⟩
    refine List.rel_append (forall₂_flatten (hbase us mss nss ?_ h6 (h3 ▸ hnss))) (List.Forall₂.imp ?_ hown)
    · intro u hu; rw [h3]; exact List.mem_map.mpr ⟨u, hu, rfl⟩
    · rintro m n ⟨s, hs, hN⟩; exact ⟨s, hs, T, .inl rfl, hN⟩
  · cases hn

/-- C53 (partial): `members` and `member_names` correspond position by position if no base class inherits members itself.
Missing: hierarchies of depth two and more, for which the claim is false (`C53_deep_hierarchy`). -/
theorem C53_aligned_partial (env : Env) (T : Nat) (hw : ∀ u, WT (env.reflect u)) {B : Md} {bs : List Md}
    (hB : bases env T = some B) (hbs : B.elems = some bs)
    (hflat : ∀ u, .typeId u ∈ bs → (members env u).bind Md.elems = (exclusiveMembers env u).bind Md.elems)
    {ms ns : List Md} (hm : members env T = some (.tup ms)) (hn : memberNames env T = some (.arr .sv ns)) :
    List.Forall₂ (fun m n => ∃ s, n = .sv s ∧ ∃ u, (u = T ∨ .typeId u ∈ bs) ∧ NamedIn env.reflect u m s) ms ns := by
  simp only [namedIn_iff]
  exact aligned_strings env T 0 hw hB hbs hflat hm hn

/-- C53 (partial): the same for `members` and `member_descriptions`, the second strings.  Missing: as before. -/
theorem C53_descriptions_partial (env : Env) (T : Nat) (hw : ∀ u, WT (env.reflect u)) {B : Md} {bs : List Md}
    (hB : bases env T = some B) (hbs : B.elems = some bs)
    (hflat : ∀ u, .typeId u ∈ bs → (members env u).bind Md.elems = (exclusiveMembers env u).bind Md.elems)
    {ms ns : List Md} (hm : members env T = some (.tup ms)) (hn : memberDescriptions env T = some (.arr .sv ns)) :
    List.Forall₂ (fun m n => ∃ s, n = .sv s ∧ ∃ u, (u = T ∨ .typeId u ∈ bs) ∧ StringIn env.reflect u 1 m s) ms ns :=
  aligned_strings env T 1 hw hB hbs hflat hm hn

/-- C53 (partial): `find_member_by_name` yields a member which the metadata of the class or of one of its bases gives that name, if
no base class inherits members itself.  Missing: deeper hierarchies (`C53_deep_hierarchy`). -/
theorem C53_find_partial (env : Env) (T : Nat) (hw : ∀ u, WT (env.reflect u)) {B : Md} {bs : List Md}
    (hB : bases env T = some B) (hbs : B.elems = some bs)
    (hflat : ∀ u, .typeId u ∈ bs → (members env u).bind Md.elems = (exclusiveMembers env u).bind Md.elems)
    {n : Str} {m : Md} (h : findMemberByName env T n = some m) :
    ∃ u, (u = T ∨ .typeId u ∈ bs) ∧ NamedIn env.reflect u m n := by
  obtain ⟨m', h1, h2⟩ := Option.bind_eq_some_iff.mp h
  split at h2
  · rename_i ha
    cases h2
    obtain ⟨ms, h3, h4⟩ := Option.bind_eq_some_iff.mp h1
    obtain ⟨i, h5, h6⟩ := Option.bind_eq_some_iff.mp h4
    obtain ⟨ns, h7, rfl⟩ := Option.map_eq_some_iff.mp h5
    obtain ⟨dm, h8, h9⟩ := Option.bind_eq_some_iff.mp h3
    obtain ⟨dn, h10, h11⟩ := Option.bind_eq_some_iff.mp h7
    split at h9
    · split at h11
      · have hdm : dm = .tup ms := by
          have h8' := h8
          unfold members at h8'
          rw [allMembers] at h8'
          obtain ⟨_, _, h8'⟩ := Option.bind_eq_some_iff.mp h8'
          split at h8'
          · obtain ⟨_, _, h8'⟩ := Option.bind_eq_some_iff.mp h8'
            obtain ⟨_, _, h8'⟩ := Option.bind_eq_some_iff.mp h8'
            obtain ⟨_, _, h8'⟩ := Option.bind_eq_some_iff.mp h8'
            obtain ⟨_, _, h8'⟩ := Option.map_eq_some_iff.mp h8'
            subst h8'; simp [Md.elems] at h9; rw [h9]
          · cases h8'; simp [Md.elems] at h9
        have hdn : dn = .arr .sv ns := by
          have h10' := h10
          unfold memberNames extractAllMemberMetadata at h10'
          obtain ⟨_, _, h10'⟩ := Option.bind_eq_some_iff.mp h10'
          split at h10'
          · obtain ⟨_, _, h10'⟩ := Option.bind_eq_some_iff.mp h10'
            obtain ⟨_, _, h10'⟩ := Option.bind_eq_some_iff.mp h10'
            obtain ⟨_, _, h10'⟩ := Option.bind_eq_some_iff.mp h10'
            obtain ⟨_, _, h10'⟩ := Option.map_eq_some_iff.mp h10'
            subst h10'; simp [Md.elems] at h11; rw [h11]
          · cases h10'; simp [Md.elems] at h11
        subst hdm hdn
        exact lookup_aligned (P := fun m s => ∃ u, (u = T ∨ .typeId u ∈ bs) ∧ NamedIn env.reflect u m s)
          (C53_aligned_partial env T hw hB hbs hflat h8 h10) h6 ha
      · cases h11
    · cases h9
  · cases h2

/-- The class hierarchy `struct A { int a; }; struct B : A { int b; }; struct C : B { int c; };`, each with metadata for its own
member and its base. -/
def chainEnv : Env where
  reflect := fun
    | 0 => .tup [.cstr (str "A"), .tup [.tup [.memPtr 0 9 0, .cstr (str "a")]]]
    | 1 => .tup [.cstr (str "B"), .typeId 0, .tup [.tup [.memPtr 1 9 1, .cstr (str "b")]]]
    | 2 => .tup [.cstr (str "C"), .typeId 1, .tup [.tup [.memPtr 2 9 2, .cstr (str "c")]]]
    | 3 => .tup [.cstr (str "D"), .tup [], .tup [.tup [.memPtr 3 9 3, .cstr (str "d")]]]
    | _ => .nullopt
  isBaseOf := fun u t => decide (u ≤ t ∧ t ≤ 2)
  isClass := fun t => decide (t ≤ 3)
  base_le := by intro u t h; simp at h; exact h.1

theorem chainWT : ∀ u, WT (chainEnv.reflect u) := by
  intro u; simp only [chainEnv]
  split <;> simp [WT, WTs]

/-- C53 is false for hierarchies of depth two: `member_names` lacks the members of indirect bases, so that `find_member_by_name(
"b")` for `C` yields the pointer to `A::a`, and `find_member_by_name("a")` does not compile. -/
theorem C53_deep_hierarchy :
    members chainEnv 2 = some (.tup [.memPtr 0 9 0, .memPtr 1 9 1, .memPtr 2 9 2])
      ∧ memberNames chainEnv 2 = some (.arr .sv [.sv (str "b"), .sv (str "c")])
      ∧ findMemberByName chainEnv 2 (str "b") = some (.memPtr 0 9 0)
      ∧ findMemberByName chainEnv 2 (str "a") = none := by
  have h0 : allMembers chainEnv 0 = some (.tup [.memPtr 0 9 0]) := by rw [allMembers]; rfl
  have h1 : allMembers chainEnv 1 = some (.tup [.memPtr 0 9 0, .memPtr 1 9 1]) := by
    rw [allMembers]
    simp [show extractMembers chainEnv 1 (chainEnv.reflect 1) = some (.tup [.memPtr 1 9 1]) from rfl,
      show extractBases chainEnv 1 (chainEnv.reflect 1) = some (.tup [.typeId 0]) from rfl, Md.isAvailable, Md.elems, baseClass, h0]
  have h2 : allMembers chainEnv 2 = some (.tup [.memPtr 0 9 0, .memPtr 1 9 1, .memPtr 2 9 2]) := by
    rw [allMembers]
    simp [show extractMembers chainEnv 2 (chainEnv.reflect 2) = some (.tup [.memPtr 2 9 2]) from rfl,
      show extractBases chainEnv 2 (chainEnv.reflect 2) = some (.tup [.typeId 1]) from rfl, Md.isAvailable, Md.elems, baseClass, h1]
  have hn : memberNames chainEnv 2 = some (.arr .sv [.sv (str "b"), .sv (str "c")]) := rfl
  refine ⟨h2, hn, ?_, ?_⟩
  · simp only [findMemberByName, searchMemberByName, members, h2, searchMemberIndexByName, hn]; rfl
  · simp only [findMemberByName, searchMemberByName, members, h2, searchMemberIndexByName, hn]; rfl

/-- C53: an empty tuple in the metadata, for instance meant as the list of base classes, is taken for the (empty) table of members
and hides the real one. -/
theorem C53_empty_tuple_hides_members :
    exclusiveMembers chainEnv 3 = some (.tup []) ∧ exclusiveMemberNames chainEnv 3 = some (.arr .sv []) := ⟨rfl, rfl⟩

/-- The hypotheses of `C53_aligned_partial` and `C53_find_partial` are met by class `B`, which has one base. -/
example : ∃ u, (u = 1 ∨ .typeId u ∈ [Md.typeId 0]) ∧ NamedIn chainEnv.reflect u (.memPtr 0 9 0) (str "a") := by
  have h0 : allMembers chainEnv 0 = some (.tup [.memPtr 0 9 0]) := by rw [allMembers]; rfl
  have h1 : allMembers chainEnv 1 = some (.tup [.memPtr 0 9 0, .memPtr 1 9 1]) := by
    rw [allMembers]
    simp [show extractMembers chainEnv 1 (chainEnv.reflect 1) = some (.tup [.memPtr 1 9 1]) from rfl,
      show extractBases chainEnv 1 (chainEnv.reflect 1) = some (.tup [.typeId 0]) from rfl, Md.isAvailable, Md.elems, baseClass, h0]
  refine C53_find_partial chainEnv 1 chainWT (B := .tup [.typeId 0]) (bs := [.typeId 0]) rfl rfl ?_ ?_
  · intro u hu; simp at hu; subst hu
    simp [members, h0, show exclusiveMembers chainEnv 0 = some (.tup [.memPtr 0 9 0]) from rfl]
  · simp only [findMemberByName, searchMemberByName, members, h1, searchMemberIndexByName,
      show memberNames chainEnv 1 = some (.arr .sv [.sv (str "a"), .sv (str "b")]) from rfl]; rfl

example : NamedIn chainEnv.reflect 2 (.memPtr 2 9 2) (str "c") := C53_find_exclusive chainEnv 2 (chainWT 2) rfl

/-- A class with a base class, with descriptions of the members. -/
def descEnv : Env where
  reflect := fun
    | 0 => .tup [.cstr (str "A"), .tup [.tup [.memPtr 0 9 0, .cstr (str "a"), .cstr (str "first")]]]
    | 1 => .tup [.cstr (str "B"), .typeId 0, .tup [.tup [.memPtr 1 9 1, .cstr (str "b"), .cstr (str "second")]]]
    | _ => .nullopt
  isBaseOf := fun u t => decide (u ≤ t ∧ t ≤ 1)
  isClass := fun t => decide (t ≤ 1)
  base_le := by intro u t h; simp at h; exact h.1

/-- The hypotheses of `C53_descriptions_partial` are met. -/
example : members descEnv 1 = some (.tup [.memPtr 0 9 0, .memPtr 1 9 1]) ∧
    memberDescriptions descEnv 1 = some (.arr .sv [.sv (str "first"), .sv (str "second")]) ∧
    exclusiveMemberDescriptions descEnv 1 = some (.arr .sv [.sv (str "second")]) ∧ bases descEnv 1 = some (.tup [.typeId 0]) ∧
    (members descEnv 0).bind Md.elems = (exclusiveMembers descEnv 0).bind Md.elems ∧ ∀ u, WT (descEnv.reflect u) := by
  have h0 : allMembers descEnv 0 = some (.tup [.memPtr 0 9 0]) := by rw [allMembers]; rfl
  refine ⟨?_, rfl, rfl, rfl, ?_, ?_⟩
  · unfold members
    rw [allMembers]
    simp [show extractMembers descEnv 1 (descEnv.reflect 1) = some (.tup [.memPtr 1 9 1]) from rfl,
      show extractBases descEnv 1 (descEnv.reflect 1) = some (.tup [.typeId 0]) from rfl, Md.isAvailable, Md.elems, baseClass, h0]
  · unfold members; rw [h0]; rfl
  · intro u; simp only [descEnv]
    split <;> simp [WT, WTs]

/-! ## C54: index search -/

/-- C54: `search_value_index` yields the index of the first listed value equal to the argument, and -1 iff there is none. -/
theorem C54_search_value (env : Env) (T : Nat) {vs : List Int} (h : values env T = some (.arr (.ty T) (vs.map (.val T)))) (v : Int) :
    (searchValueIndex env T v = some (-1) ∧ v ∉ vs) ∨
    ∃ k : Nat, searchValueIndex env T v = some (k : Int) ∧ vs[k]? = some v ∧ ∀ j < k, vs[j]? ≠ some v := by
  simp only [searchValueIndex, h, available, Option.bind_some, Md.isAvailable, if_true, Md.elems, Option.map_some, Option.some.injEq]
  rcases searchIndexFrom_spec (isVal v) (vs.map (.val T)) 0 with ⟨h1, h2⟩ | ⟨k, e, h1, h2, h3, h4⟩
  · left; refine ⟨h1, fun hm => ?_⟩
    have := h2 (.val T v) (List.mem_map.mpr ⟨v, hm, rfl⟩)
    simp [isVal] at this
  · right; refine ⟨k, by simpa using h1, ?_, ?_⟩
    · rw [List.getElem?_map] at h2
      obtain ⟨s, hs, rfl⟩ := Option.map_eq_some_iff.mp h2
      simp [isVal] at h3; rw [hs, h3]
    · intro j hj hj'
      have := h4 j (.val T v) hj (by rw [List.getElem?_map, hj']; rfl)
      simp [isVal] at this

private theorem search_names {m : Option Md} {ns : List Str} (h : m = some (.arr .sv (ns.map .sv))) (n : Str) :
    ((available m).map (fun ns => searchIndexFrom (isName n) ns 0) = some (-1) ∧ n ∉ ns) ∨
    ∃ k : Nat, (available m).map (fun ns => searchIndexFrom (isName n) ns 0) = some (k : Int) ∧ ns[k]? = some n
      ∧ ∀ j < k, ns[j]? ≠ some n := by
  simp only [h, available, Option.bind_some, Md.isAvailable, if_true, Md.elems, Option.map_some, Option.some.injEq]
  rcases searchIndexFrom_spec (isName n) (ns.map .sv) 0 with ⟨h1, h2⟩ | ⟨k, e, h1, h2, h3, h4⟩
  · left; refine ⟨h1, fun hm => ?_⟩
    have := h2 (.sv n) (List.mem_map.mpr ⟨n, hm, rfl⟩)
    simp [isName] at this
  · right; refine ⟨k, by simpa using h1, ?_, ?_⟩
    · rw [List.getElem?_map] at h2
      obtain ⟨s, hs, rfl⟩ := Option.map_eq_some_iff.mp h2
      simp [isName] at h3; rw [hs, h3]
    · intro j hj hj'
      have := h4 j (.sv n) hj (by rw [List.getElem?_map, hj']; rfl)
      simp [isName] at this

/-- C54: the same by the name of a value. -/
theorem C54_search_value_by_name (env : Env) (T : Nat) {ns : List Str} (h : valueNames env T = some (.arr .sv (ns.map .sv))) (n : Str) :
    (searchValueIndexByName env T n = some (-1) ∧ n ∉ ns) ∨
    ∃ k : Nat, searchValueIndexByName env T n = some (k : Int) ∧ ns[k]? = some n ∧ ∀ j < k, ns[j]? ≠ some n :=
  search_names h n

/-- C54: the same by the name of an own member. -/
theorem C54_search_exclusive_member (env : Env) (T : Nat) {ns : List Str}
    (h : exclusiveMemberNames env T = some (.arr .sv (ns.map .sv))) (n : Str) :
    (searchExclusiveMemberIndexByName env T n = some (-1) ∧ n ∉ ns) ∨
    ∃ k : Nat, searchExclusiveMemberIndexByName env T n = some (k : Int) ∧ ns[k]? = some n ∧ ∀ j < k, ns[j]? ≠ some n :=
  search_names h n

/-- C54: the same by the name of a member. -/
theorem C54_search_member (env : Env) (T : Nat) {ns : List Str} (h : memberNames env T = some (.arr .sv (ns.map .sv))) (n : Str) :
    (searchMemberIndexByName env T n = some (-1) ∧ n ∉ ns) ∨
    ∃ k : Nat, searchMemberIndexByName env T n = some (k : Int) ∧ ns[k]? = some n ∧ ∀ j < k, ns[j]? ≠ some n :=
  search_names h n

private theorem search_first {m : Option Md} {ns : List Str} (h : m = some (.arr .sv (ns.map .sv))) (n : Str) :
    (n ∉ ns → (available m).map (fun ns => searchIndexFrom (isName n) ns 0) = some (-1)) ∧
    ∀ k : Nat, ns[k]? = some n → (∀ j < k, ns[j]? ≠ some n) →
      (available m).map (fun ns => searchIndexFrom (isName n) ns 0) = some (k : Int) := by
  rcases search_names h n with ⟨h1, h2⟩ | ⟨k, h1, h2, h3⟩
  · exact ⟨fun _ => h1, fun k hk _ => absurd (List.mem_of_getElem? hk) h2⟩
  · refine ⟨fun hn => absurd (List.mem_of_getElem? h2) hn, fun k' hk' hfirst => ?_⟩
    have : k = k' := by
      rcases Nat.lt_trichotomy k k' with hlt | rfl | hlt
      · exact absurd h2 (hfirst k hlt)
      · rfl
      · exact absurd hk' (h3 k' hlt)
    subst this
    exact h1

/-- C53: lookup of an own member by name, with respect to the table in the metadata: `find_exclusive_member_by_name` yields the member of
the first record with that name; if there is none it does not compile, and `search_exclusive_member_by_name` yields `nullopt`. -/
theorem C53_find_own (env : Env) (T : Nat) (hw : WT (env.reflect T)) {rs : List (Md × List Md)}
    (h : MemberTable T (env.reflect T) rs) (hc : exclusiveMembers env T ≠ none) {names : List Str}
    (hn : List.Forall₂ (fun (r : Md × List Md) n => (stringsOf r.2).head? = some n) rs names) (n : Str) :
    (n ∉ names → searchExclusiveMemberByName env T n = some .nullopt ∧ findExclusiveMemberByName env T n = none) ∧
    ∀ (k : Nat) r, rs[k]? = some r → names[k]? = some n → (∀ j < k, names[j]? ≠ some n) →
      searchExclusiveMemberByName env T n = some r.1 ∧ findExclusiveMemberByName env T n = some r.1 := by
  obtain ⟨h1, h2⟩ := C53_exclusive env T hw h hc hn
  obtain ⟨h3, h4⟩ := search_first h2 n
  have hM : available (exclusiveMembers env T) = some (rs.map (·.1)) := by simp [h1, available, Md.isAvailable, Md.elems]
  constructor
  · intro hno
    have hs : searchExclusiveMemberByName env T n = some .nullopt := by
      simp only [searchExclusiveMemberByName, searchExclusiveMemberIndexByName, h3 hno, hM, Option.bind_some]
      rfl
    exact ⟨hs, by simp [findExclusiveMemberByName, hs, Md.isAvailable]⟩
  · intro k r hr hk hfirst
    have hs : searchExclusiveMemberByName env T n = some r.1 := by
      simp only [searchExclusiveMemberByName, searchExclusiveMemberIndexByName, h4 k hk hfirst, hM, Option.bind_some]
      simp [hr]
    have hptr : ∃ dt id, r.1 = .memPtr T dt id := by
      have key : ∀ R, IsMemberTable T R rs → IsMemberPtr T r.1 := by
        rintro R ⟨es, _, hall⟩
        obtain ⟨hl, hall⟩ := List.forall₂_iff_get.mp hall
        obtain ⟨hk1, hk1'⟩ := List.getElem?_eq_some_iff.mp hr
        have := (hall k (by omega) hk1).2
        simpa [hk1'] using this
      rcases h with h | ⟨_, _, R, _, _, _, h⟩
      · exact key _ h
      · exact key _ h
    obtain ⟨dt, id, hptr⟩ := hptr
    exact ⟨hs, by simp [findExclusiveMemberByName, hs, hptr, Md.isAvailable]⟩

example : searchExclusiveMemberByName chainEnv 1 (str "b") = some (.memPtr 1 9 1) ∧
    searchExclusiveMemberByName chainEnv 1 (str "a") = some .nullopt := ⟨rfl, rfl⟩

/-- C53 (partial): lookup of a member by name among own and inherited members: `find_member_by_name` yields the member at the position
of the first equal name in `member_names`; if there is none it does not compile, and `search_member_by_name` yields `nullopt`.  With
`C53_aligned_partial`, this is the first member of that name if no base class inherits members itself.  Missing: deeper hierarchies,
where a name may have no member at its position (in which case `find_member_by_name` does not compile) or another one. -/
theorem C53_find_first_partial (env : Env) (T : Nat) (hw : ∀ u, WT (env.reflect u)) {B : Md} {bs : List Md}
    (hB : bases env T = some B) (hbs : B.elems = some bs)
    (hflat : ∀ u, .typeId u ∈ bs → (members env u).bind Md.elems = (exclusiveMembers env u).bind Md.elems)
    {ms : List Md} {ns : List Str} (hm : members env T = some (.tup ms)) (hn : memberNames env T = some (.arr .sv (ns.map .sv)))
    (n : Str) :
    (n ∉ ns → searchMemberByName env T n = some .nullopt ∧ findMemberByName env T n = none) ∧
    (n ∈ ns → ∃ (k : Nat) (m : Md), ns[k]? = some n ∧ (∀ j < k, ns[j]? ≠ some n) ∧ ms[k]? = some m ∧
      searchMemberByName env T n = some m ∧ findMemberByName env T n = some m ∧
      ∃ u, (u = T ∨ .typeId u ∈ bs) ∧ NamedIn env.reflect u m n) := by
  obtain ⟨h3, h4⟩ := search_first hn n
  have hM : available (members env T) = some ms := by simp [hm, available, Md.isAvailable, Md.elems]
  constructor
  · intro hno
    have hs : searchMemberByName env T n = some .nullopt := by
      simp only [searchMemberByName, searchMemberIndexByName, h3 hno, hM, Option.bind_some]
      rfl
    exact ⟨hs, by simp [findMemberByName, hs, Md.isAvailable]⟩
  · intro hmem
    rcases search_names hn n with ⟨_, h2⟩ | ⟨k, _, h2, hfirst⟩
    · exact absurd hmem h2
    have hal := C53_aligned_partial env T hw hB hbs hflat hm hn
    obtain ⟨hl, hall⟩ := List.forall₂_iff_get.mp hal
    obtain ⟨hk1, hk1'⟩ := List.getElem?_eq_some_iff.mp h2
    have hk2 : k < ms.length := by rw [hl]; simpa using hk1
    obtain ⟨t, ht, u, hu, hnm⟩ := hall k hk2 (by simpa using hk1)
    simp only [List.get_eq_getElem, List.getElem_map, hk1', Md.sv.injEq] at ht hnm
    subst ht
    have hs : searchMemberByName env T n = some ms[k] := by
      simp only [searchMemberByName, searchMemberIndexByName, h4 k h2 hfirst, hM, Option.bind_some]
      simp [hk2]
    have hav : ms[k].isAvailable = true := by
      obtain ⟨rs, r, htab, hr, hrm, _⟩ := hnm
      have key : ∀ R, IsMemberTable u R rs → IsMemberPtr u r.1 := by
        rintro R ⟨es, _, hall⟩
        obtain ⟨i, hi, rfl⟩ := List.getElem_of_mem hr
        obtain ⟨hl, hall⟩ := List.forall₂_iff_get.mp hall
        exact (hall i (by omega) hi).2
      have hp : IsMemberPtr u r.1 := by
        rcases htab with h | ⟨_, _, R, _, _, _, h⟩
        · exact key _ h
        · exact key _ h
      obtain ⟨dt, id, hp⟩ := hp
      rw [← hrm, hp]; rfl
    exact ⟨k, ms[k], h2, hfirst, by simp [hk2], hs, by simp [findMemberByName, hs, hav], u, hu, hnm⟩

/-- C54: the `find_` functions return the index where the `search_` functions do and fail fast exactly where those return -1. -/
theorem C54_find (env : Env) (T : Nat) (v : Int) (n : Str) :
    (∀ k : Nat, searchValueIndex env T v = some (k : Int) → findValueIndex env T v = some (.ok k))
      ∧ (searchValueIndex env T v = some (-1) → findValueIndex env T v = some .failFast)
      ∧ (∀ k : Nat, searchValueIndexByName env T n = some (k : Int) → findValueIndexByName env T n = some (.ok k))
      ∧ (searchValueIndexByName env T n = some (-1) → findValueIndexByName env T n = some .failFast)
      ∧ (∀ k : Nat, searchExclusiveMemberIndexByName env T n = some (k : Int) → findExclusiveMemberIndexByName env T n = some (.ok k))
      ∧ (searchExclusiveMemberIndexByName env T n = some (-1) → findExclusiveMemberIndexByName env T n = some .failFast)
      ∧ (∀ k : Nat, searchMemberIndexByName env T n = some (k : Int) → findMemberIndexByName env T n = some (.ok k))
      ∧ (searchMemberIndexByName env T n = some (-1) → findMemberIndexByName env T n = some .failFast) := by
  refine ⟨?_, ?_, ?_, ?_, ?_, ?_, ?_, ?_⟩ <;> intro h <;> try intro h'
  all_goals
    simp_all [findValueIndex, findValueIndexByName, findExclusiveMemberIndexByName, findMemberIndexByName, findFromSearch]

/-- C54: if the values or names are not available, the functions do not compile. -/
theorem C54_unavailable (env : Env) (T : Nat) (v : Int) (n : Str) :
    (values env T = some .nullopt → searchValueIndex env T v = none ∧ findValueIndex env T v = none)
      ∧ (valueNames env T = some .nullopt → searchValueIndexByName env T n = none ∧ findValueIndexByName env T n = none)
      ∧ (exclusiveMemberNames env T = some .nullopt →
          searchExclusiveMemberIndexByName env T n = none ∧ findExclusiveMemberIndexByName env T n = none
            ∧ searchExclusiveMemberByName env T n = none ∧ findExclusiveMemberByName env T n = none)
      ∧ (memberNames env T = some .nullopt →
          searchMemberIndexByName env T n = none ∧ findMemberIndexByName env T n = none
            ∧ searchMemberByName env T n = none ∧ findMemberByName env T n = none) := by
  have key : available (some .nullopt) = none := rfl
  refine ⟨fun h => ?_, fun h => ?_, fun h => ?_, fun h => ?_⟩
  · simp only [findValueIndex, searchValueIndex, h, key]; exact ⟨rfl, rfl⟩
  · simp only [findValueIndexByName, searchValueIndexByName, h, key]; exact ⟨rfl, rfl⟩
  · simp only [findExclusiveMemberIndexByName, findExclusiveMemberByName, searchExclusiveMemberByName, searchExclusiveMemberIndexByName,
      h, key]
    rcases available (exclusiveMembers env T) with _ | _ <;> exact ⟨rfl, rfl, rfl, rfl⟩
  · simp only [findMemberIndexByName, findMemberByName, searchMemberByName, searchMemberIndexByName, h, key]
    rcases available (members env T) with _ | _ <;> exact ⟨rfl, rfl, rfl, rfl⟩

example : searchValueIndex colorEnv 0 2 = some 1 ∧ findValueIndex colorEnv 0 7 = some .failFast
    ∧ searchValueIndexByName colorEnv 0 (str "green") = some 1 := by
  refine ⟨rfl, rfl, rfl⟩
example := C54_search_value colorEnv 0 (vs := [1, 2]) rfl 2
example := C54_search_value_by_name colorEnv 0 (ns := [str "red", str "green"]) rfl (str "green")

end Makeshift.Props
