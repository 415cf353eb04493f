import Verif.Lemmas.Serialize

/-!
# Properties C01 - C06 and C11 - C13: text conversion of enums and flags

Each theorem is followed by an `example` showing that its hypotheses are met by a concrete, non-trivial case.
-/

namespace Makeshift.Props

open Makeshift Spec

/-! ## A concrete enum and a concrete flags type used by the examples -/

/-- Example enum: values 0, 1, 2 and an alias for 1. -/
def colors : List (Nat × Str) := [(0, str "red"), (1, str "green"), (2, str "blue"), (1, str "verde")]

/-- Example flags, declared with a combination before its parts, an alias and a name for 0. -/
def perms : List (BitVec 8 × Str) :=
  [(0, str "none"), (3, str "rw"), (1, str "read"), (2, str "write"), (0x80, str "exec"), (1, str "r")]

def colorsMd : EnumMd Nat := { description := str "color", entries := colors }

theorem colorsMd_ok : makeEnumMetadata (str "color") colors = .ok colorsMd := by
  unfold makeEnumMetadata; rw [checkNames_eq, if_pos (by decide)]; rfl

def permsMd : FlagsMd 8 :=
  { description := str "perm"
    entries := [(1, str "read"), (2, str "write"), (0x80, str "exec"), (1, str "r"), (0, str "none"), (3, str "rw")]
    allDefinedFlags := 0x83, noneName := str "none", numIndividualNames := 4 }

theorem permsMd_ok : makeFlagsMetadata (str "perm") perms = .ok permsMd := by
  rw [makeFlagsMetadata_eq, if_pos (by decide)]; rfl

/-! ## C11 - whitespace trimming -/

/-- C11: `trim s` is `s` without its surrounding whitespace, and this determines it uniquely. -/
theorem C11_trim (s t : Str) : trim s = t ↔ IsStripOf t s := by
  rw [trim_eq_strip]
  constructor
  · rintro rfl; exact strip_spec s
  · intro h; exact isStripOf_unique (strip_spec s) h

/-- C11: trimming is idempotent. -/
theorem C11_trim_idempotent (s : Str) : trim (trim s) = trim s := by
  apply trim_of_stripped; rw [trim_eq_strip]; exact strip_stripped s

/-- C11: a string trims to the empty string iff it is all whitespace. -/
theorem C11_trim_empty_iff (s : Str) : trim s = [] ↔ AllWs s := by
  rw [C11_trim]
  constructor
  · rintro ⟨pre, post, rfl, h1, h2, _⟩; simpa using h1.append h2
  · intro h; exact ⟨s, [], by simp, h, by simp [AllWs], by simp [Stripped]⟩

example : IsStripOf (str "a b") (str " \t a b\r\n") :=
  ⟨str " \t ", str "\r\n", by decide, by unfold AllWs; decide, by unfold AllWs; decide,
    by unfold Stripped; decide⟩

/-! ## C12 - name validation -/

/-- C12: the enum table is accepted iff every name is non-empty and free of reserved characters; otherwise
construction fails fast. -/
theorem C12_enum_name_validation {V : Type} (desc : Str) (entries : List (V × Str)) :
    ((∀ n ∈ entries.map Prod.snd, n ≠ [] ∧ ∀ c ∈ n, c ∉ enumReserved) →
        makeEnumMetadata desc entries = .ok { description := desc, entries := entries }) ∧
    (¬ (∀ n ∈ entries.map Prod.snd, n ≠ [] ∧ ∀ c ∈ n, c ∉ enumReserved) →
        makeEnumMetadata desc entries = .failFast) := by
  have he : enumForbiddenChars = enumReserved := by decide
  unfold makeEnumMetadata
  rw [checkNames_eq, he]
  constructor <;> intro h
  · rw [if_pos h]; rfl
  · rw [if_neg h]; rfl

example : ∀ n ∈ colors.map Prod.snd, n ≠ [] ∧ ∀ c ∈ n, c ∉ enumReserved := by decide
example : ¬ ∀ n ∈ [((0 : Nat), str "dark red")].map Prod.snd, n ≠ [] ∧ ∀ c ∈ n, c ∉ enumReserved := by decide

/-- C12: a flags table with an empty name or a name containing a reserved character is rejected. -/
theorem C12_flags_name_validation {w : Nat} (desc : Str) (entries : List (BitVec w × Str))
    (h : ¬ ∀ n ∈ entries.map Prod.snd, n ≠ [] ∧ ∀ c ∈ n, c ∉ flagsReserved) :
    makeFlagsMetadata desc entries = .failFast := by
  have he : flagsForbiddenChars = flagsReserved := by decide
  rw [makeFlagsMetadata_eq, he, if_neg (fun h' => h h'.1)]

example : ¬ ∀ n ∈ [((1 : BitVec 8), str "a,b")].map Prod.snd, n ≠ [] ∧ ∀ c ∈ n, c ∉ flagsReserved := by decide

/-- C12: a character set built from any character list contains exactly the listed characters, for all 256
character values. -/
theorem C12_char_set (chars : Str) (c : CChar) : (CharBitset.ofChars chars).contains c = true ↔ c ∈ chars := by
  rw [ofChars_contains]; simp

/-- C12: the two character sets used when tokenising streams agree with the reserved characters. -/
theorem C12_forbidden_sets (c : CChar) :
    (enumForbiddenCharSet.contains c = true ↔ c ∈ enumReserved) ∧
    (flagsForbiddenCharSet.contains c = true ↔ c ∈ flagsReserved) := by
  have he : enumForbiddenChars = enumReserved := by decide
  have hf : flagsForbiddenChars = flagsReserved := by decide
  rw [enumForbiddenCharSet, flagsForbiddenCharSet, he, hf]
  exact ⟨C12_char_set _ _, C12_char_set _ _⟩

example : (200 : CChar) ∈ ([200, 3] : Str) := by decide

/-! ## C02 - what parse_enum accepts, what enum_to_string prints -/

/-- C02: `parse_enum` returns `v` iff the input without surrounding whitespace is a listed name whose first entry
has value `v`. -/
theorem C02_parse_enum_iff {V : Type} (zero : V) (s : Str) (md : EnumMd V) (v : V) :
    enumFromString zero s md = .ok v ↔ ∃ t, IsStripOf t s ∧ lookup md.entries t = some v := by
  unfold enumFromString tryEnumFromString
  rw [tryEnumFromStringLoop_eq, trim_eq_strip]
  constructor
  · intro h
    refine ⟨strip s, strip_spec s, ?_⟩
    cases hl : lookup md.entries (strip s) with
    | none => rw [hl] at h; simp at h
    | some x => rw [hl] at h; simpa using h
  · rintro ⟨t, ht, hl⟩
    rw [isStripOf_unique (strip_spec s) ht, hl]; simp

/-- C02: every other input makes `parse_enum` throw; it never fails fast and has no undefined behaviour. -/
theorem C02_parse_enum_total {V : Type} (zero : V) (s : Str) (md : EnumMd V) :
    (∃ v, enumFromString zero s md = .ok v) ∨
    ((∀ t, IsStripOf t s → t ∉ md.entries.map Prod.snd) ∧ ∃ m, enumFromString zero s md = .throw m) := by
  cases hl : lookup md.entries (strip s) with
  | some v => left; exact ⟨v, (C02_parse_enum_iff _ _ _ _).mpr ⟨_, strip_spec s, hl⟩⟩
  | none =>
    right
    constructor
    · intro t ht
      rw [isStripOf_unique ht (strip_spec s)]
      exact lookup_none_iff.mp hl
    · unfold enumFromString tryEnumFromString
      rw [tryEnumFromStringLoop_eq, trim_eq_strip, hl]; simp

/-- C02: `parse_enum` accepts exactly the listed names up to surrounding whitespace. -/
theorem C02_parse_enum_accepts_iff {V : Type} (zero : V) (s : Str) (md : EnumMd V) :
    (∃ v, enumFromString zero s md = .ok v) ↔ ∃ t ∈ md.entries.map Prod.snd, IsStripOf t s := by
  constructor
  · rintro ⟨v, h⟩
    obtain ⟨t, ht, hl⟩ := (C02_parse_enum_iff _ _ _ _).mp h
    exact ⟨t, List.mem_map_of_mem (f := Prod.snd) (lookup_some_mem hl), ht⟩
  · rintro ⟨t, hm, ht⟩
    rcases C02_parse_enum_total zero s md with h | ⟨h, _⟩
    · exact h
    · exact absurd hm (h t ht)

example : enumFromString 0 (str " verde\n") colorsMd = .ok 1 := by decide
example : ∃ t ∈ colorsMd.entries.map Prod.snd, IsStripOf t (str " verde\n") :=
  ⟨str "verde", by decide, str " ", str "\n", by decide, by unfold AllWs; decide, by unfold AllWs; decide,
    by unfold Stripped; decide⟩

/-- C02: `enum_to_string` returns the first listed name of a listed value and fails fast for any other value. -/
theorem C02_enum_to_string {V : Type} [DecidableEq V] (v : V) (md : EnumMd V) :
    (∀ n, enumToString v md = .ok n ↔ nameOf md.entries v = some n) ∧
    (enumToString v md = .failFast ↔ v ∉ md.entries.map Prod.fst) := by
  unfold enumToString
  rw [enumToStringLoop_eq]
  have hk := nameOf_isSome_iff (t := md.entries) (v := v)
  cases h : nameOf md.entries v with
  | none =>
    rw [h] at hk
    simp at hk ⊢
    intro x hx; exact absurd hx (hk x)
  | some n =>
    rw [h] at hk
    simp at hk ⊢
    exact hk

example : enumToString 1 colorsMd = .ok (str "green") ∧ enumToString 7 colorsMd = .failFast := by decide

/-! ## C01 - enum round trip -/

theorem stripped_of_no_ws {s : Str} (h : ∀ c ∈ s, isWs c = false) : Stripped s :=
  ⟨fun c hc => h c (List.mem_of_head? hc), fun c hc => h c (List.mem_of_getLast? hc)⟩

theorem ws_reserved {c : CChar} (h : isWs c = true) : c ∈ enumReserved := by
  unfold isWs at h
  simp only [Bool.or_eq_true, beq_iff_eq] at h
  rcases h with ((rfl | rfl) | rfl) | rfl <;> decide

/-- C01: printing any listed value and parsing the text, possibly padded with whitespace, gives the value back. -/
theorem C01_enum_round_trip {V : Type} [DecidableEq V] (zero : V) (desc : Str) (entries : List (V × Str)) (md : EnumMd V)
    (hmd : makeEnumMetadata desc entries = .ok md) (hnames : (entries.map Prod.snd).Nodup)
    (v : V) (hv : v ∈ entries.map Prod.fst) (pre post : Str) (hpre : AllWs pre) (hpost : AllWs post) :
    ∃ s, enumToString v md = .ok s ∧ enumFromString zero (pre ++ s ++ post) md = .ok v := by
  have hval : ∀ n ∈ entries.map Prod.snd, n ≠ [] ∧ ∀ c ∈ n, c ∉ enumReserved := by
    by_contra h
    rw [(C12_enum_name_validation desc entries).2 h] at hmd; simp at hmd
  rw [(C12_enum_name_validation desc entries).1 hval] at hmd
  simp only [Outcome.ok.injEq] at hmd; subst hmd
  obtain ⟨n, hn⟩ := nameOf_isSome_iff.mpr hv
  have hmem := nameOf_some_mem hn
  refine ⟨n, ((C02_enum_to_string v _).1 n).mpr hn, (C02_parse_enum_iff _ _ _ _).mpr ⟨n, ?_, ?_⟩⟩
  · refine ⟨pre, post, rfl, hpre, hpost, stripped_of_no_ws ?_⟩
    intro c hc
    cases hw : isWs c with
    | false => rfl
    | true => exact absurd (ws_reserved hw) ((hval n (List.mem_map_of_mem (f := Prod.snd) hmem)).2 c hc)
  · exact lookup_of_nodup hnames hmem

example : makeEnumMetadata (str "color") colors = .ok colorsMd ∧ (colors.map Prod.snd).Nodup ∧ 1 ∈ colors.map Prod.fst ∧
    AllWs (str " \t") ∧ AllWs (str "\r\n") :=
  ⟨colorsMd_ok, by decide, by decide, by unfold AllWs; decide, by unfold AllWs; decide⟩

/-- C01, why the names must be distinct: the library accepts a table with a repeated name, and then the round trip
returns another value. -/
theorem C01_enum_round_trip_needs_distinct_names :
    ∃ (entries : List (Nat × Str)) (md : EnumMd Nat) (v v' : Nat) (s : Str), makeEnumMetadata [] entries = .ok md ∧
      enumToString v md = .ok s ∧ enumFromString 0 s md = .ok v' ∧ v ≠ v' := by
  refine ⟨[(1, str "a"), (2, str "a")], ⟨[], [(1, str "a"), (2, str "a")]⟩, 2, 1, str "a", ?_, ?_, ?_, ?_⟩
  · exact (C12_enum_name_validation [] _).1 (by decide)
  · decide
  · decide
  · decide

/-! ## C03 - error messages -/

/-- C03: `parse_enum` throws exactly for the texts that are not a listed name up to surrounding whitespace, and the
exception carries the documented message, which quotes the text verbatim. -/
theorem C03_enum_error_message {V : Type} (zero : V) (s : Str) (md : EnumMd V) (m : Str) :
    enumFromString zero s md = .throw m ↔
      (∀ t, IsStripOf t s → t ∉ md.entries.map Prod.snd) ∧
      m = unknownValueMessage md.description s (md.entries.map Prod.snd) false := by
  unfold enumFromString tryEnumFromString
  rw [tryEnumFromStringLoop_eq, trim_eq_strip, enumFromStringError_eq]
  have hs : (∀ t, IsStripOf t s → t ∉ md.entries.map Prod.snd) ↔ strip s ∉ md.entries.map Prod.snd :=
    ⟨fun h => h _ (strip_spec s), fun h t ht => by rw [isStripOf_unique ht (strip_spec s)]; exact h⟩
  rw [hs, ← lookup_none_iff]
  cases hl : lookup md.entries (strip s) <;> simp [eq_comm]

theorem tokensValue_error_iff {w : Nat} (table : List (BitVec w × Str)) (toks : List Str) (t : Str) :
    tokensValue table toks = .error t ↔
      ∃ pre post, toks = pre ++ t :: post ∧ (∀ p ∈ pre, p ∈ table.map Prod.snd) ∧ t ∉ table.map Prod.snd := by
  induction toks with
  | nil => simp [tokensValue]
  | cons u us ih =>
    cases hl : lookup table u with
    | none =>
      have hu := lookup_none_iff.mp hl
      simp only [tokensValue, hl, Except.error.injEq]
      constructor
      · rintro rfl; exact ⟨[], us, rfl, by simp, hu⟩
      · rintro ⟨pre, post, he, hp, -⟩
        cases pre with
        | nil => simpa using (List.cons.inj he).1
        | cons x xs =>
          have hx := hp x (by simp)
          rw [← (List.cons.inj he).1] at hx
          exact absurd hx hu
    | some v =>
      have hu := List.mem_map_of_mem (f := Prod.snd) (lookup_some_mem hl)
      have : tokensValue table (u :: us) = .error t ↔ tokensValue table us = .error t := by
        simp only [tokensValue, hl]
        cases tokensValue table us <;> simp
      rw [this, ih]
      constructor
      · rintro ⟨pre, post, rfl, hp, ht⟩
        refine ⟨u :: pre, post, rfl, ?_, ht⟩
        intro p hpm
        rcases List.mem_cons.mp hpm with rfl | h
        · exact hu
        · exact hp p h
      · rintro ⟨pre, post, he, hp, ht⟩
        cases pre with
        | nil => rw [← (List.cons.inj he).1] at ht; exact absurd hu ht
        | cons x xs => exact ⟨xs, post, (List.cons.inj he).2, fun p h => hp p (by simp [h]), ht⟩

/-- C03: `parse_flags` throws exactly if some token is not a listed name, and the message names the first such token. -/
theorem C03_flags_error_message {w : Nat} (s : Str) (md : EnumMd (BitVec w)) (m : Str) :
    parseFlags s md = .throw m ↔
      ∃ pre t post, flagTokens s = pre ++ t :: post ∧ (∀ p ∈ pre, p ∈ md.entries.map Prod.snd) ∧
        t ∉ md.entries.map Prod.snd ∧
        m = unknownValueMessage md.description t (md.entries.map Prod.snd) true := by
  unfold parseFlags
  rw [flagsFromStringLoop_eq, accValue_zero]
  constructor
  · intro h
    split at h
    · simp at h
    · next t ht =>
      obtain ⟨pre, post, h1, h2, h3⟩ := (tokensValue_error_iff _ _ _).mp ht
      exact ⟨pre, t, post, h1, h2, h3, by rw [enumFromStringError_eq] at h; simpa using h.symm⟩
  · rintro ⟨pre, t, post, h1, h2, h3, rfl⟩
    rw [(tokensValue_error_iff _ _ _).mpr ⟨pre, post, h1, h2, h3⟩]
    simp [enumFromStringError_eq]

example : enumFromString 0 (str " pink") colorsMd =
    .throw (str "color: unknown value ' pink'; supported values: { 'red', 'green', 'blue', 'verde' }") := by decide
example : ∃ m, parseFlags (str "read+x") permsMd.toEnumMd = .throw m := by
  unfold parseFlags; rw [flagsFromStringLoop_eq, accValue_zero]
  exact ⟨_, rfl⟩

/-! ## C13 - flags table -/

/-- C13: acceptance. The table is accepted iff the names are valid and every bit of every entry is also defined by a
single-bit entry; otherwise construction fails fast. -/
theorem C13_flags_metadata_accepted_iff {w : Nat} (desc : Str) (entries : List (BitVec w × Str)) :
    ((∃ md, makeFlagsMetadata desc entries = .ok md) ↔
      (∀ n ∈ entries.map Prod.snd, n ≠ [] ∧ ∀ c ∈ n, c ∉ flagsReserved) ∧
      (∀ e ∈ entries, ∀ i, e.1.getLsbD i = true → ∃ e' ∈ entries, SingleBit e'.1 ∧ e'.1.getLsbD i = true)) ∧
    ((¬ ∃ md, makeFlagsMetadata desc entries = .ok md) → makeFlagsMetadata desc entries = .failFast) := by
  have he : flagsForbiddenChars = flagsReserved := by decide
  have hu : union (entries.map Prod.fst) = union ((entries.filter (fun e => isPowerOf2 e.1)).map Prod.fst) ↔
      (∀ e ∈ entries, ∀ i, e.1.getLsbD i = true → ∃ e' ∈ entries, SingleBit e'.1 ∧ e'.1.getLsbD i = true) := by
    constructor
    · intro h e hm i hi
      have h1 : (union (entries.map Prod.fst)).getLsbD i = true :=
        (union_getLsbD _ _).mpr ⟨e.1, List.mem_map_of_mem hm, hi⟩
      rw [h, union_getLsbD] at h1
      obtain ⟨v, hv, hvi⟩ := h1
      obtain ⟨e', he', rfl⟩ := List.mem_map.mp hv
      rw [List.mem_filter] at he'
      exact ⟨e', he'.1, (isPowerOf2_iff _).mp he'.2, hvi⟩
    · intro h
      apply eq_of_bits
      intro i
      rw [union_getLsbD, union_getLsbD]
      constructor
      · rintro ⟨v, hv, hvi⟩
        obtain ⟨e, hm, rfl⟩ := List.mem_map.mp hv
        obtain ⟨e', he', hs, hb⟩ := h e hm i hvi
        exact ⟨e'.1, List.mem_map_of_mem (List.mem_filter.mpr ⟨he', (isPowerOf2_iff _).mpr hs⟩), hb⟩
      · rintro ⟨v, hv, hvi⟩
        obtain ⟨e, hm, rfl⟩ := List.mem_map.mp hv
        exact ⟨e.1, List.mem_map_of_mem (List.mem_filter.mp hm).1, hvi⟩
  rw [← hu, makeFlagsMetadata_eq, he]
  split
  · next h => exact ⟨⟨fun _ => h, fun _ => ⟨_, rfl⟩⟩, fun h' => absurd ⟨_, rfl⟩ h'⟩
  · next h => exact ⟨⟨fun ⟨_, h'⟩ => by simp at h', fun h' => absurd h' h⟩, fun _ => rfl⟩

/-- C13: the accepted table is a rearrangement of the declared entries with the single-bit flags first, declaration
order kept within both groups. -/
theorem C13_flags_metadata_partition {w : Nat} (desc : Str) (entries : List (BitVec w × Str)) (md : FlagsMd w)
    (h : makeFlagsMetadata desc entries = .ok md) :
    md.entries.Perm entries ∧
    md.numIndividualNames ≤ md.entries.length ∧
    (∀ e ∈ md.entries.take md.numIndividualNames, SingleBit e.1) ∧
    (∀ e ∈ md.entries.drop md.numIndividualNames, ¬ SingleBit e.1) ∧
    (md.entries.take md.numIndividualNames).Sublist entries ∧
    (md.entries.drop md.numIndividualNames).Sublist entries ∧
    md.allDefinedFlags = union (entries.map Prod.fst) ∧
    md.noneName = (nameOf entries 0#w).getD [] := by
  rw [makeFlagsMetadata_eq] at h
  split at h
  case isFalse => simp at h
  simp only [Outcome.ok.injEq] at h
  subst h
  dsimp only
  rw [List.take_left, List.drop_left]
  refine ⟨List.filter_append_perm _ _, by simp, ?_, ?_, List.filter_sublist, List.filter_sublist, rfl, rfl⟩
  · intro e he; exact (isPowerOf2_iff _).mp (List.mem_filter.mp he).2
  · intro e he hs
    have := (List.mem_filter.mp he).2
    rw [(isPowerOf2_iff _).mpr hs] at this; simp at this

example : makeFlagsMetadata (str "perm") perms = .ok permsMd := permsMd_ok

/-! ## C05 - flags_to_string -/

/-- C05: `flags_to_string` fails fast iff an undefined bit is set. -/
theorem C05_flags_to_string_fails_iff {w : Nat} (desc : Str) (entries : List (BitVec w × Str)) (md : FlagsMd w)
    (hmd : makeFlagsMetadata desc entries = .ok md) (f : BitVec w) :
    (flagsToString f md = .failFast ↔ ¬ SubBits f (union (entries.map Prod.fst))) ∧
    ((∃ s, flagsToString f md = .ok s) ↔ SubBits f (union (entries.map Prod.fst))) := by
  have hall := (C13_flags_metadata_partition _ _ _ hmd).2.2.2.2.2.2.1
  unfold flagsToString
  rw [hall]
  by_cases h : SubBits f (union (entries.map Prod.fst))
  · have h0 := (and_not_eq_zero _ _).mpr h
    simp only [h0, h]
    by_cases hf : f = 0#w <;> simp [hf]
  · have h0 : ¬ (f &&& ~~~(union (entries.map Prod.fst))) = 0#w := fun h' => h ((and_not_eq_zero _ _).mp h')
    have hb : ((f &&& ~~~(union (entries.map Prod.fst))) == 0#w) = false := by simpa using h0
    simp [h, hb]

/-- C05: for 0 the result is the first name listed for 0, or empty if there is none. -/
theorem C05_flags_to_string_zero {w : Nat} (desc : Str) (entries : List (BitVec w × Str)) (md : FlagsMd w)
    (hmd : makeFlagsMetadata desc entries = .ok md) :
    flagsToString 0#w md = .ok ((nameOf entries 0#w).getD []) := by
  have := (C13_flags_metadata_partition _ _ _ hmd).2.2.2.2.2.2.2
  unfold flagsToString
  simp [this]

/-- C05: for a non-zero value composed of defined flags, the result is the `'+'`-joined list of names of single-bit
entries contained in the value: declaration order, each bit exactly once, under its first listed name. -/
theorem C05_flags_to_string_shape {w : Nat} (desc : Str) (entries : List (BitVec w × Str)) (md : FlagsMd w)
    (hmd : makeFlagsMetadata desc entries = .ok md) (f : BitVec w) (h0 : f ≠ 0#w)
    (hf : SubBits f (union (entries.map Prod.fst))) :
    ∃ printed : List (BitVec w × Str),
      flagsToString f md = .ok (join (str "+") (printed.map Prod.snd)) ∧
      printed.Sublist entries ∧
      (∀ e ∈ printed, SingleBit e.1 ∧ SubBits e.1 f ∧ nameOf entries e.1 = some e.2) ∧
      (printed.map Prod.fst).Nodup ∧
      union (printed.map Prod.fst) = f := by
  have hmd' := hmd
  rw [makeFlagsMetadata_eq] at hmd
  split at hmd
  case isFalse => simp at hmd
  next hc =>
  simp only [Outcome.ok.injEq] at hmd
  have hsingle : ∀ e ∈ entries.filter (fun e => isPowerOf2 e.1), SingleBit e.1 := fun e he =>
    (isPowerOf2_iff _).mp (List.mem_filter.mp he).2
  have hnz : ∀ e ∈ entries.filter (fun e => isPowerOf2 e.1), e.1 ≠ 0#w := fun e he => by
    obtain ⟨i, _, hb⟩ := hsingle e he
    rw [ne_zero_iff_bits]; exact ⟨i, by rw [hb]; simp⟩
  have hsub := picked_sublist f 0#w (entries.filter (fun e => isPowerOf2 e.1))
  refine ⟨picked f 0#w (entries.filter (fun e => isPowerOf2 e.1)), ?_, hsub.trans List.filter_sublist, ?_,
    picked_nodup _ _ _ hnz, ?_⟩
  · subst hmd
    unfold flagsToString
    simp only [(and_not_eq_zero _ _).mpr hf, List.take_left, h0, if_false]
    rw [flagsToStringLoop_eq]
    · simp
    · intro e he; exact (hc.1 e.2 (List.mem_map_of_mem (List.mem_filter.mp he).1)).1
  · intro e he
    have hs := hsingle e (hsub.subset he)
    refine ⟨hs, hs.and_ne_zero.mp (picked_mem he).1, ?_⟩
    rw [← picked_nameOf hnz he]
    unfold nameOf
    rw [List.find?_filter]
    congr 1
    apply find?_congr_of
    intro x _
    by_cases hx : x.1 = e.1
    · simp [hx, (isPowerOf2_iff _).mpr hs]
    · simp [hx]
  · apply eq_of_bits
    intro i
    rw [union_getLsbD]
    constructor
    · rintro ⟨v, hv, hvi⟩
      obtain ⟨e, he, rfl⟩ := List.mem_map.mp hv
      exact (hsingle e (hsub.subset he)).and_ne_zero.mp (picked_mem he).1 i hvi
    · intro hi
      have := hf i hi
      rw [hc.2, union_getLsbD] at this
      obtain ⟨v, hv, hvi⟩ := this
      obtain ⟨e, he, rfl⟩ := List.mem_map.mp hv
      have hand : (f &&& e.1) ≠ 0#w := by
        rw [ne_zero_iff_bits]; exact ⟨i, by rw [BitVec.getLsbD_and, hi, hvi]; rfl⟩
      rcases picked_cover (set := 0#w) hsingle he hand with h | h
      · simp at h
      · exact ⟨e.1, h, hvi⟩

example : makeFlagsMetadata (str "perm") perms = .ok permsMd ∧ (0x81#8 ≠ 0#8) ∧
    (0x81#8 &&& ~~~(union (perms.map Prod.fst))) = 0#8 := ⟨permsMd_ok, by decide, by decide⟩
example : flagsToString 0x83#8 permsMd = .ok (str "read+write+exec") := by decide
example : flagsToString 0x04#8 permsMd = .failFast := by decide

/-! ## C06 - parse_flags -/

/-- C06: denotation. `parse_flags` splits at `'+'` and `'|'`, trims, forgives an empty last token, and returns the
union of the named values; it throws iff some token is not a listed name. -/
theorem C06_parse_flags_denotation {w : Nat} (s : Str) (md : EnumMd (BitVec w)) :
    parseFlags s md =
      match tokensValue md.entries (flagTokens s) with
      | .ok v => .ok v
      | .error t => .throw (unknownValueMessage md.description t (md.entries.map Prod.snd) true) := by
  unfold parseFlags
  rw [flagsFromStringLoop_eq, accValue_zero]
  split <;> simp_all [enumFromStringError_eq]

theorem tokensValue_ok_iff {w : Nat} (table : List (BitVec w × Str)) (toks : List Str) (v : BitVec w) :
    tokensValue table toks = .ok v ↔
      (∀ t ∈ toks, t ∈ table.map Prod.snd) ∧ ∀ i, v.getLsbD i = true ↔ ∃ t ∈ toks, ∃ x, lookup table t = some x ∧ x.getLsbD i = true := by
  induction toks generalizing v with
  | nil =>
    constructor
    · intro h; simp [tokensValue] at h; subst h; simp
    · rintro ⟨-, h⟩
      have : v = 0#w := by rw [eq_zero_iff_bits]; intro i; have := h i; simpa using this
      simp [tokensValue, this]
  | cons t r ih =>
    unfold tokensValue
    cases hl : lookup table t with
    | none =>
      have := lookup_none_iff.mp hl
      constructor
      · intro h; simp at h
      · rintro ⟨h, -⟩; exact absurd (h t (by simp)) this
    | some x =>
      have hmem : t ∈ table.map Prod.snd := List.mem_map_of_mem (f := Prod.snd) (lookup_some_mem hl)
      cases hr : tokensValue table r with
      | error e =>
        constructor
        · intro h; simp at h
        · rintro ⟨h1, -⟩
          -- all tokens of `r` are names, so `r` has a value
          exfalso
          have : ∃ u, tokensValue table r = .ok u := by
            have h1' : ∀ t ∈ r, t ∈ table.map Prod.snd := fun t ht => h1 t (List.mem_cons_of_mem _ ht)
            clear ih hr h1
            induction r with
            | nil => exact ⟨0#w, rfl⟩
            | cons a r ih2 =>
              obtain ⟨u, hu⟩ := ih2 (fun t ht => h1' t (List.mem_cons_of_mem _ ht))
              unfold tokensValue
              cases ha : lookup table a with
              | none => exact absurd (h1' a (by simp)) (lookup_none_iff.mp ha)
              | some y => exact ⟨y ||| u, by rw [hu]⟩
          obtain ⟨u, hu⟩ := this
          rw [hr] at hu; simp at hu
      | ok u =>
        have hu := (ih u).mp hr
        constructor
        · intro h
          simp only [Except.ok.injEq] at h; subst h
          refine ⟨?_, ?_⟩
          · intro a ha
            rcases List.mem_cons.mp ha with rfl | ha
            exacts [hmem, hu.1 a ha]
          · intro i
            rw [BitVec.getLsbD_or, Bool.or_eq_true, hu.2 i]
            constructor
            · rintro (h | ⟨a, ha, y, hy, hyi⟩)
              · exact ⟨t, by simp, x, hl, h⟩
              · exact ⟨a, List.mem_cons_of_mem _ ha, y, hy, hyi⟩
            · rintro ⟨a, ha, y, hy, hyi⟩
              rcases List.mem_cons.mp ha with rfl | ha
              · rw [hl] at hy; simp at hy; subst hy; exact Or.inl hyi
              · exact Or.inr ⟨a, ha, y, hy, hyi⟩
        · rintro ⟨h1, h2⟩
          simp only [Except.ok.injEq]
          apply eq_of_bits
          intro i
          rw [h2 i, BitVec.getLsbD_or, Bool.or_eq_true, hu.2 i]
          constructor
          · rintro (h | ⟨a, ha, y, hy, hyi⟩)
            · exact ⟨t, by simp, x, hl, h⟩
            · exact ⟨a, List.mem_cons_of_mem _ ha, y, hy, hyi⟩
          · rintro ⟨a, ha, y, hy, hyi⟩
            rcases List.mem_cons.mp ha with rfl | ha
            · rw [hl] at hy; simp at hy; subst hy; exact Or.inl hyi
            · exact Or.inr ⟨a, ha, y, hy, hyi⟩

/-- C06: what success means, bit by bit. -/
theorem C06_parse_flags_ok_iff {w : Nat} (s : Str) (md : EnumMd (BitVec w)) (v : BitVec w) :
    parseFlags s md = .ok v ↔
      (∀ t ∈ flagTokens s, t ∈ md.entries.map Prod.snd) ∧
      ∀ i, v.getLsbD i = true ↔ ∃ t ∈ flagTokens s, ∃ x, lookup md.entries t = some x ∧ x.getLsbD i = true := by
  rw [C06_parse_flags_denotation, ← tokensValue_ok_iff]
  split <;> simp_all

/-- C06: the result only has bits of listed values. -/
theorem C06_parse_flags_within_defined {w : Nat} (s : Str) (md : EnumMd (BitVec w)) (v : BitVec w)
    (h : parseFlags s md = .ok v) : SubBits v (union (md.entries.map Prod.fst)) := by
  intro i hi
  obtain ⟨t, _, x, hx, hxi⟩ := (((C06_parse_flags_ok_iff _ _ _).mp h).2 i).mp hi
  exact (union_getLsbD _ _).mpr ⟨x, List.mem_map_of_mem (f := Prod.fst) (lookup_some_mem hx), hxi⟩

/-- C06: only the set of tokens matters - not their order, repetition, or which delimiter separates them. -/
theorem C06_parse_flags_order_independent {w : Nat} (s s' : Str) (md : EnumMd (BitVec w))
    (h : ∀ t, t ∈ flagTokens s ↔ t ∈ flagTokens s') (v : BitVec w) :
    parseFlags s md = .ok v ↔ parseFlags s' md = .ok v := by
  rw [C06_parse_flags_ok_iff, C06_parse_flags_ok_iff]
  simp only [h]

example : (∀ t, t ∈ flagTokens (str "read+write | read") ↔ t ∈ flagTokens (str " write|read+")) := by
  have h1 : flagTokens (str "read+write | read") = [str "read", str "write", str "read"] := by decide
  have h2 : flagTokens (str " write|read+") = [str "write", str "read"] := by decide
  rw [h1, h2]; intro t; simp; tauto

example : parseFlags (str "read+write | read") permsMd.toEnumMd = .ok 3#8 := by
  rw [C06_parse_flags_denotation]; decide

/-! ## C04 - flags round trip -/

/-- C04: printing any combination of defined flags and parsing the text gives the combination back, provided the
names are distinct and can be represented in a `'+'`-delimited format. -/
theorem C04_flags_round_trip {w : Nat} (desc : Str) (entries : List (BitVec w × Str)) (md : FlagsMd w)
    (hmd : makeFlagsMetadata desc entries = .ok md) (hnames : (entries.map Prod.snd).Nodup)
    (hclean : ∀ n ∈ entries.map Prod.snd, CleanFlagName n)
    (f : BitVec w) (hf : SubBits f (union (entries.map Prod.fst))) :
    ∃ s, flagsToString f md = .ok s ∧ parseFlags s md.toEnumMd = .ok f := by
  have hperm := (C13_flags_metadata_partition _ _ _ hmd).1
  have hlook : ∀ e ∈ entries, lookup md.entries e.2 = some e.1 := fun e he =>
    lookup_of_nodup ((hperm.map Prod.snd).nodup_iff.mpr hnames) (hperm.mem_iff.mpr he)
  by_cases h0 : f = 0#w
  · subst h0
    refine ⟨_, C05_flags_to_string_zero desc entries md hmd, ?_⟩
    rw [C06_parse_flags_denotation]
    cases hn : nameOf entries 0#w with
    | none =>
      have : flagTokens (Option.getD none []) = [] := by decide
      rw [this]; rfl
    | some n =>
      have hmem := nameOf_some_mem hn
      have ht := flagTokens_join (names := [n])
        (fun x hx => by rw [List.mem_singleton.mp hx]; exact hclean n (List.mem_map_of_mem (f := Prod.snd) hmem))
      rw [join_singleton] at ht
      rw [Option.getD_some, ht]
      simp [tokensValue, hlook _ hmem]
  · obtain ⟨L, hs, hsub, hL, _, hu⟩ := C05_flags_to_string_shape desc entries md hmd f h0 hf
    refine ⟨_, hs, ?_⟩
    have ht := flagTokens_join (names := L.map Prod.snd)
      (fun x hx => hclean x ((hsub.map Prod.snd).subset hx))
    rw [C06_parse_flags_denotation, ht]
    have : tokensValue md.entries (L.map Prod.snd) = .ok (union (L.map Prod.fst)) := by
      have hLl : ∀ e ∈ L, lookup md.entries e.2 = some e.1 := fun e he => hlook e (hsub.subset he)
      clear hu hs ht hL hsub
      rename_i hnd; clear hnd
      induction L with
      | nil => rfl
      | cons e r ih =>
        simp only [List.map_cons, tokensValue, union]
        rw [hLl e (by simp), ih (fun x hx => hLl x (List.mem_cons_of_mem _ hx))]
    rw [this, hu]

theorem perms_clean : ∀ n ∈ perms.map Prod.snd, CleanFlagName n := by
  unfold CleanFlagName Stripped; decide

example : makeFlagsMetadata (str "perm") perms = .ok permsMd ∧ (perms.map Prod.snd).Nodup ∧
    (∀ n ∈ perms.map Prod.snd, CleanFlagName n) ∧ SubBits 0x82#8 (union (perms.map Prod.fst)) :=
  ⟨permsMd_ok, by decide, perms_clean, (and_not_eq_zero _ _).mp (by decide)⟩

/-- C04, why names must be clean: the library accepts flag names containing `'+'`, and then the text printed for one
value silently parses as another. -/
theorem C04_flags_round_trip_fails_for_names_with_plus :
    ∃ (entries : List (BitVec 8 × Str)) (md : FlagsMd 8) (f f' : BitVec 8) (s : Str),
      makeFlagsMetadata [] entries = .ok md ∧ (entries.map Prod.snd).Nodup ∧
      flagsToString f md = .ok s ∧ parseFlags s md.toEnumMd = .ok f' ∧ f ≠ f' := by
  refine ⟨[(1, str "a"), (2, str "b"), (4, str "a+b")],
    ⟨⟨[], [(1, str "a"), (2, str "b"), (4, str "a+b")]⟩, 7, [], 3⟩, 4, 3, str "a+b", ?_, ?_, ?_, ?_, ?_⟩
  · rw [makeFlagsMetadata_eq, if_pos (by decide)]; rfl
  · decide
  · decide
  · rw [C06_parse_flags_denotation]; decide
  · decide

end Makeshift.Props
