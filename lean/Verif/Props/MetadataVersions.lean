import Verif.Props.Serialize
import Mathlib.Tactic.IntervalCases

/-!
# C135: texts written with one metadata and read with another

The text functions take a reflector (string.hpp:25-54), and a type's metadata changes from one version of a program to the
next; `A` is the table a text is written with, `B` the table it is read with.
-/

namespace Makeshift.Props

open Makeshift Makeshift.Spec

/-- A later version of the table `colors`: an entry in front, the old ones in another order, and a new one. -/
private def colorsNew : List (Nat × Str) := [(7, str "pink"), (2, str "blue"), (0, str "red"), (1, str "verde"), (1, str "green")]
private def colorsNewMd : EnumMd Nat := { description := str "colour", entries := colorsNew }
private theorem colorsNewMd_ok : makeEnumMetadata (str "colour") colorsNew = .ok colorsNewMd := by
  unfold makeEnumMetadata; rw [checkNames_eq, if_pos (by decide)]; rfl

/-- A later version of the table `perms`: reordered, with a new flag and another combination. -/
private def permsNew : List (BitVec 8 × Str) :=
  [(0x10, str "link"), (0x80, str "exec"), (3, str "rw"), (0x13, str "rwl"), (1, str "read"), (2, str "write"), (0, str "none"), (1, str "r")]
private def permsNewMd : FlagsMd 8 :=
  { description := []
    entries := [(0x10, str "link"), (0x80, str "exec"), (1, str "read"), (2, str "write"), (1, str "r"), (3, str "rw"), (0x13, str "rwl"),
      (0, str "none")]
    allDefinedFlags := 0x93, noneName := str "none", numIndividualNames := 5 }
private theorem permsNewMd_ok : makeFlagsMetadata [] permsNew = .ok permsNewMd := by
  rw [makeFlagsMetadata_eq, if_pos (by decide)]; rfl
private theorem permsNew_clean : ∀ n ∈ permsNew.map Prod.snd, CleanFlagName n := by
  unfold CleanFlagName Stripped; decide

private theorem enumMd_entries {V : Type} {desc : Str} {A : List (V × Str)} {md : EnumMd V}
    (h : makeEnumMetadata desc A = .ok md) :
    md.entries = A ∧ ∀ n ∈ A.map Prod.snd, n ≠ [] ∧ ∀ c ∈ n, c ∉ enumReserved := by
  have hval : ∀ n ∈ A.map Prod.snd, n ≠ [] ∧ ∀ c ∈ n, c ∉ enumReserved := by
    by_contra hc
    rw [(C12_enum_name_validation desc A).2 hc] at h; simp at h
  rw [(C12_enum_name_validation desc A).1 hval] at h
  simp only [Outcome.ok.injEq] at h; subst h
  exact ⟨rfl, hval⟩

private theorem name_stripped {V : Type} {A : List (V × Str)} (hval : ∀ n ∈ A.map Prod.snd, n ≠ [] ∧ ∀ c ∈ n, c ∉ enumReserved)
    {n : Str} (hn : n ∈ A.map Prod.snd) : Stripped n :=
  stripped_of_no_ws fun c hc => by
    cases hw : isWs c with
    | false => rfl
    | true => exact absurd (ws_reserved hw) ((hval n hn).2 c hc)

/-- C135: a value written with one table (under its first name there) and read with another, possibly surrounded by
whitespace, yields the value of the first entry with that name in the other table; reading throws iff the other table has no
such name. -/
theorem C135_enum {V : Type} [DecidableEq V] (zero : V) (desc desc' : Str) (A B : List (V × Str)) (mdA mdB : EnumMd V)
    (hA : makeEnumMetadata desc A = .ok mdA) (hB : makeEnumMetadata desc' B = .ok mdB)
    (v : V) (n : Str) (hn : nameOf A v = some n) (pre post : Str) (hpre : AllWs pre) (hpost : AllWs post) :
    enumToString v mdA = .ok n ∧
    (∀ v', enumFromString zero (pre ++ n ++ post) mdB = .ok v' ↔ lookup B n = some v') ∧
    ((∃ m, enumFromString zero (pre ++ n ++ post) mdB = .throw m) ↔ n ∉ B.map Prod.snd) := by
  obtain ⟨eA, vA⟩ := enumMd_entries hA
  obtain ⟨eB, -⟩ := enumMd_entries hB
  have hs : Stripped n := name_stripped vA (List.mem_map_of_mem (f := Prod.snd) (nameOf_some_mem hn))
  have hst : ∀ t, IsStripOf t (pre ++ n ++ post) ↔ t = n := by
    intro t
    constructor
    · intro h
      exact isStripOf_unique h ⟨pre, post, rfl, hpre, hpost, hs⟩
    · rintro rfl
      exact ⟨pre, post, rfl, hpre, hpost, hs⟩
  refine ⟨((C02_enum_to_string v _).1 n).mpr (by rw [eA]; exact hn), fun v' => ?_, ?_⟩
  · rw [C02_parse_enum_iff, eB]
    constructor
    · rintro ⟨t, ht, hl⟩
      rwa [(hst t).mp ht] at hl
    · intro hl
      exact ⟨n, (hst n).mpr rfl, hl⟩
  · constructor
    · rintro ⟨m, hm⟩ hmem
      obtain ⟨v', hv'⟩ := (C02_parse_enum_accepts_iff zero (pre ++ n ++ post) mdB).mpr ⟨n, by rw [eB]; exact hmem, (hst n).mpr rfl⟩
      rw [hm] at hv'; cases hv'
    · intro hno
      rcases C02_parse_enum_total zero (pre ++ n ++ post) mdB with hok | ⟨-, hm⟩
      · obtain ⟨t, ht, hts⟩ := (C02_parse_enum_accepts_iff zero (pre ++ n ++ post) mdB).mp hok
        rw [(hst t).mp hts, eB] at ht
        exact absurd ht hno
      · exact hm

example : makeEnumMetadata (str "color") colors = .ok colorsMd ∧ makeEnumMetadata (str "colour") colorsNew = .ok colorsNewMd ∧
    nameOf colors 1 = some (str "green") ∧ lookup colorsNew (str "green") = some 1 ∧
    nameOf colorsNew 7 = some (str "pink") ∧ str "pink" ∉ colors.map Prod.snd :=
  ⟨colorsMd_ok, colorsNewMd_ok, by decide, by decide, by decide, by decide⟩
example : AllWs (str " ") ∧ enumFromString 0 (str " " ++ str "green" ++ str " ") colorsNewMd = .ok 1 ∧
    ∃ m, enumFromString 0 (str " " ++ str "pink" ++ str " ") colorsMd = .throw m :=
  ⟨by unfold AllWs; decide, by decide, _, rfl⟩

/-- C135: every value which can be written with the one table is restored by reading with the other iff every name under which
a value is written belongs, in the other table, to that value. -/
theorem C135_enum_all_iff {V : Type} [DecidableEq V] (zero : V) (desc desc' : Str) (A B : List (V × Str)) (mdA mdB : EnumMd V)
    (hA : makeEnumMetadata desc A = .ok mdA) (hB : makeEnumMetadata desc' B = .ok mdB) :
    (∀ v s, enumToString v mdA = .ok s → enumFromString zero s mdB = .ok v) ↔
      ∀ v n, nameOf A v = some n → lookup B n = some v := by
  have key : ∀ v n, nameOf A v = some n →
      enumToString v mdA = .ok n ∧ ∀ v', enumFromString zero n mdB = .ok v' ↔ lookup B n = some v' := by
    intro v n hn
    obtain ⟨h1, h2, -⟩ := C135_enum zero desc desc' A B mdA mdB hA hB v n hn [] [] (by simp [AllWs]) (by simp [AllWs])
    exact ⟨h1, by simpa using h2⟩
  constructor
  · intro h v n hn
    exact ((key v n hn).2 v).mp (h v n (key v n hn).1)
  · intro h v s hs
    have hn : nameOf A v = some s := by
      rw [← (enumMd_entries hA).1]; exact ((C02_enum_to_string v _).1 s).mp hs
    exact ((key v s hn).2 v).mpr (h v s hn)

example : ∀ v n, nameOf colors v = some n → lookup colorsNew n = some v := by
  intro v n h
  have hm := nameOf_some_mem h
  simp only [colors, List.mem_cons, Prod.mk.injEq, List.not_mem_nil, or_false] at hm
  rcases hm with ⟨rfl, rfl⟩ | ⟨rfl, rfl⟩ | ⟨rfl, rfl⟩ | ⟨rfl, rfl⟩ <;> decide
/-- Two names exchanged: not every value is restored. -/
example : ¬∀ v n, nameOf [(0, str "on"), (1, str "off")] v = some n → lookup [(0, str "off"), (1, str "on")] n = some v :=
  fun h => absurd (h 0 (str "on") (by decide)) (by decide)

/-- C135: a table may grow. If the table used for reading has all entries of the one used for writing, wherever they are
listed, and its names are distinct, then every value written is restored. -/
theorem C135_enum_grown {V : Type} [DecidableEq V] (zero : V) (desc desc' : Str) (A B : List (V × Str)) (mdA mdB : EnumMd V)
    (hA : makeEnumMetadata desc A = .ok mdA) (hB : makeEnumMetadata desc' B = .ok mdB)
    (hsub : ∀ e ∈ A, e ∈ B) (hd : (B.map Prod.snd).Nodup) (v : V) (hv : v ∈ A.map Prod.fst) :
    ∃ s, enumToString v mdA = .ok s ∧ enumFromString zero s mdB = .ok v := by
  obtain ⟨n, hn⟩ := nameOf_isSome_iff.mpr hv
  obtain ⟨h1, h2, -⟩ := C135_enum zero desc desc' A B mdA mdB hA hB v n hn [] [] (by simp [AllWs]) (by simp [AllWs])
  refine ⟨n, h1, ?_⟩
  have := (h2 v).mpr (lookup_of_nodup hd (hsub _ (nameOf_some_mem hn)))
  simpa using this

example : (∀ e ∈ colors, e ∈ colorsNew) ∧ (colorsNew.map Prod.snd).Nodup ∧ 1 ∈ colors.map Prod.fst := by decide

/-- C135, why the names must be distinct: if an entry of the grown table repeats a name and comes first, the value written is read
as another one. -/
theorem C135_enum_grown_needs_distinct_names :
    ∃ (A B : List (Nat × Str)) (mdA mdB : EnumMd Nat), makeEnumMetadata [] A = .ok mdA ∧ makeEnumMetadata [] B = .ok mdB ∧
      (∀ e ∈ A, e ∈ B) ∧ ∃ s, enumToString 1 mdA = .ok s ∧ enumFromString 0 s mdB = .ok 2 := by
  refine ⟨[(1, str "a")], [(2, str "a"), (1, str "a")], ⟨[], [(1, str "a")]⟩, ⟨[], [(2, str "a"), (1, str "a")]⟩, ?_, ?_, by decide,
    str "a", by decide, by decide⟩
  · unfold makeEnumMetadata; rw [checkNames_eq, if_pos (by decide)]; rfl
  · unfold makeEnumMetadata; rw [checkNames_eq, if_pos (by decide)]; rfl

/-- C135: entries appended at the end change neither the text of any value listed before nor the value of any text accepted
before, even if they repeat names or values. -/
theorem C135_enum_appended {V : Type} [DecidableEq V] (zero : V) (desc desc' : Str) (A C : List (V × Str)) (mdA mdB : EnumMd V)
    (hA : makeEnumMetadata desc A = .ok mdA) (hB : makeEnumMetadata desc' (A ++ C) = .ok mdB) :
    (∀ v s, enumToString v mdA = .ok s → enumToString v mdB = .ok s) ∧
    (∀ s v, enumFromString zero s mdA = .ok v → enumFromString zero s mdB = .ok v) := by
  have eA := (enumMd_entries hA).1
  have eB := (enumMd_entries hB).1
  constructor
  · intro v s h
    have := ((C02_enum_to_string v _).1 s).mp h
    refine ((C02_enum_to_string v _).1 s).mpr ?_
    rw [eA] at this; rw [eB]
    unfold nameOf at this ⊢
    rw [List.find?_append]
    cases hf : A.find? (fun e => e.1 == v) with
    | none => rw [hf] at this; simp at this
    | some e => rw [hf] at this; simpa using this
  · intro s v h
    obtain ⟨t, ht, hl⟩ := (C02_parse_enum_iff zero s mdA v).mp h
    refine (C02_parse_enum_iff zero s mdB v).mpr ⟨t, ht, ?_⟩
    rw [eA] at hl; rw [eB]
    unfold lookup at hl ⊢
    rw [List.find?_append]
    cases hf : A.find? (fun e => e.2 == t) with
    | none => rw [hf] at hl; simp at hl
    | some e => rw [hf] at hl; simpa using hl

example : makeEnumMetadata (str "color") (colors ++ [(7, str "pink"), (1, str "grün"), (9, str "red")]) =
    .ok ⟨str "color", colors ++ [(7, str "pink"), (1, str "grün"), (9, str "red")]⟩ := by
  unfold makeEnumMetadata; rw [checkNames_eq, if_pos (by decide)]; rfl

/-- C135, why the place matters: a second name listed in front of the first one is the one written from then on, and programs
with the old table cannot read it. -/
theorem C135_enum_alias_in_front :
    ∃ (A : List (Nat × Str)) (e : Nat × Str) (mdA mdB : EnumMd Nat), makeEnumMetadata [] A = .ok mdA ∧
      makeEnumMetadata [] (e :: A) = .ok mdB ∧ e.1 ∈ A.map Prod.fst ∧ ((e :: A).map Prod.snd).Nodup ∧
      ∃ s m, enumToString e.1 mdB = .ok s ∧ enumFromString 0 s mdA = .throw m := by
  refine ⟨[(1, str "a")], (1, str "b"), ⟨[], [(1, str "a")]⟩, ⟨[], [(1, str "b"), (1, str "a")]⟩, ?_, ?_, by decide, by decide,
    str "b", _, by decide, rfl⟩
  · unfold makeEnumMetadata; rw [checkNames_eq, if_pos (by decide)]; rfl
  · unfold makeEnumMetadata; rw [checkNames_eq, if_pos (by decide)]; rfl

private theorem singleBit_eq {w : Nat} {v : BitVec w} (h : SingleBit v) :
    ∃ i, v = BitVec.twoPow w i ∧ ∀ j, v.getLsbD j = true ↔ j = i := by
  obtain ⟨i, hi, hb⟩ := h
  refine ⟨i, eq_of_bits fun j => ?_, fun j => by rw [hb]; simp⟩
  rw [hb, BitVec.getLsbD_twoPow]
  simp only [decide_eq_true_eq, Bool.and_eq_true]
  omega

/-- C135: a combination of flags written with one table, each flag under its first name there, and read with another yields the
union of the values which these names have in the other table; reading throws iff the other table lacks one of the names. -/
theorem C135_flags {w : Nat} (desc desc' : Str) (A B : List (BitVec w × Str)) (mdA mdB : FlagsMd w)
    (hA : makeFlagsMetadata desc A = .ok mdA) (hB : makeFlagsMetadata desc' B = .ok mdB)
    (hclean : ∀ n ∈ A.map Prod.snd, CleanFlagName n) (hd : (B.map Prod.snd).Nodup)
    (f : BitVec w) (h0 : f ≠ 0#w) (hf : SubBits f (union (A.map Prod.fst))) :
    ∃ s, flagsToString f mdA = .ok s ∧
      (∀ g, parseFlags s mdB.toEnumMd = .ok g ↔
        (∀ i, f.getLsbD i = true → ∃ n ∈ B.map Prod.snd, nameOf A (BitVec.twoPow w i) = some n) ∧
        ∀ j, g.getLsbD j = true ↔
          ∃ i n x, f.getLsbD i = true ∧ nameOf A (BitVec.twoPow w i) = some n ∧ lookup B n = some x ∧ x.getLsbD j = true) ∧
      ((∃ m, parseFlags s mdB.toEnumMd = .throw m) ↔
        ∃ i n, f.getLsbD i = true ∧ nameOf A (BitVec.twoPow w i) = some n ∧ n ∉ B.map Prod.snd) := by
  have hperm := (C13_flags_metadata_partition _ _ _ hB).1
  have hmem : ∀ n, n ∈ mdB.entries.map Prod.snd ↔ n ∈ B.map Prod.snd := fun n => (hperm.map Prod.snd).mem_iff
  have hlook : ∀ n, lookup mdB.entries n = lookup B n := by
    intro n
    have hd' := (hperm.map Prod.snd).nodup_iff.mpr hd
    cases hl : lookup B n with
    | none => exact lookup_none_iff.mpr fun h => lookup_none_iff.mp hl ((hmem n).mp h)
    | some v => exact lookup_of_nodup (e := (v, n)) hd' (hperm.mem_iff.mpr (lookup_some_mem hl))
  obtain ⟨L, hs, hsub, hL, -, hu⟩ := C05_flags_to_string_shape desc A mdA hA f h0 hf
  have ht := flagTokens_join (names := L.map Prod.snd) (fun x hx => hclean x ((hsub.map Prod.snd).subset hx))
  -- the printed names are the first names of the bits
  have hname : ∀ n, n ∈ L.map Prod.snd ↔ ∃ i, f.getLsbD i = true ∧ nameOf A (BitVec.twoPow w i) = some n := by
    intro n
    constructor
    · intro hn
      obtain ⟨e, he, rfl⟩ := List.mem_map.mp hn
      obtain ⟨h1, h2, h3⟩ := hL e he
      obtain ⟨i, hi, hb⟩ := singleBit_eq h1
      exact ⟨i, h2 i ((hb i).mpr rfl), by rw [← hi]; exact h3⟩
    · rintro ⟨i, hi, hn⟩
      rw [← hu, union_getLsbD] at hi
      obtain ⟨v, hv, hvi⟩ := hi
      obtain ⟨e, he, rfl⟩ := List.mem_map.mp hv
      obtain ⟨h1, -, h3⟩ := hL e he
      obtain ⟨k, hk, hb⟩ := singleBit_eq h1
      obtain rfl := (hb i).mp hvi
      rw [hk, hn] at h3
      simp only [Option.some.injEq] at h3
      exact h3 ▸ List.mem_map_of_mem he
  have hbit : ∀ i, f.getLsbD i = true → ∃ n, nameOf A (BitVec.twoPow w i) = some n := by
    intro i hi
    rw [← hu, union_getLsbD] at hi
    obtain ⟨v, hv, hvi⟩ := hi
    obtain ⟨e, he, rfl⟩ := List.mem_map.mp hv
    obtain ⟨h1, -, h3⟩ := hL e he
    obtain ⟨k, hk, hb⟩ := singleBit_eq h1
    obtain rfl := (hb i).mp hvi
    exact ⟨e.2, by rw [← hk]; exact h3⟩
  have hok : ∀ g, parseFlags (join (str "+") (L.map Prod.snd)) mdB.toEnumMd = .ok g ↔
        (∀ i, f.getLsbD i = true → ∃ n ∈ B.map Prod.snd, nameOf A (BitVec.twoPow w i) = some n) ∧
        ∀ j, g.getLsbD j = true ↔
          ∃ i n x, f.getLsbD i = true ∧ nameOf A (BitVec.twoPow w i) = some n ∧ lookup B n = some x ∧ x.getLsbD j = true := by
    intro g
    rw [C06_parse_flags_ok_iff, ht]
    refine and_congr ⟨fun h i hi => ?_, fun h n hn => ?_⟩ (forall_congr' fun j => iff_congr Iff.rfl ⟨?_, ?_⟩)
    · obtain ⟨n, hn⟩ := hbit i hi
      exact ⟨n, (hmem n).mp (h n ((hname n).mpr ⟨i, hi, hn⟩)), hn⟩
    · obtain ⟨i, hi, hn'⟩ := (hname n).mp hn
      obtain ⟨n', h1, h2⟩ := h i hi
      rw [hn'] at h2
      simp only [Option.some.injEq] at h2
      exact (hmem n).mpr (h2 ▸ h1)
    · rintro ⟨n, hn, x, hx, hj⟩
      obtain ⟨i, hi, hn'⟩ := (hname n).mp hn
      exact ⟨i, n, x, hi, hn', by rw [← hlook]; exact hx, hj⟩
    · rintro ⟨i, n, x, hi, hn, hx, hj⟩
      exact ⟨n, (hname n).mpr ⟨i, hi, hn⟩, x, by rw [hlook]; exact hx, hj⟩
  refine ⟨_, hs, hok, ?_, ?_⟩
  · rintro ⟨m, hm⟩
    by_contra hcon
    have hall : ∀ t ∈ flagTokens (join (str "+") (L.map Prod.snd)), t ∈ mdB.entries.map Prod.snd := by
      rw [ht]
      intro n hn
      obtain ⟨i, hi, hn'⟩ := (hname n).mp hn
      by_contra hno
      exact hcon ⟨i, n, hi, hn', fun h => hno ((hmem n).mpr h)⟩
    rw [C06_parse_flags_denotation] at hm
    cases htv : tokensValue mdB.entries (flagTokens (join (str "+") (L.map Prod.snd))) with
    | ok v => rw [htv] at hm; cases hm
    | error t =>
      have : ∀ (ts : List Str) t, tokensValue mdB.entries ts = .error t → t ∈ ts ∧ lookup mdB.entries t = none := by
        intro ts
        induction ts with
        | nil => intro t h; simp [tokensValue] at h
        | cons a r ih =>
          intro t h
          simp only [tokensValue] at h
          cases hl : lookup mdB.entries a with
          | none => rw [hl] at h; simp at h; subst h; exact ⟨by simp, hl⟩
          | some v =>
            rw [hl] at h
            cases hr : tokensValue mdB.entries r with
            | ok u => rw [hr] at h; simp at h
            | error t' =>
              rw [hr] at h; simp at h; subst h
              exact ⟨List.mem_cons_of_mem _ (ih _ hr).1, (ih _ hr).2⟩
      obtain ⟨h1, h2⟩ := this _ _ htv
      exact lookup_none_iff.mp h2 (hall t h1)
  · rintro ⟨i, n, hi, hn, hno⟩
    cases hp : parseFlags (join (str "+") (L.map Prod.snd)) mdB.toEnumMd with
    | ok g =>
      obtain ⟨n', h1, h2⟩ := ((hok g).mp hp).1 i hi
      rw [hn] at h2
      simp only [Option.some.injEq] at h2
      exact absurd (h2 ▸ h1) hno
    | throw m => exact ⟨m, rfl⟩
    | failFast =>
      rw [C06_parse_flags_denotation] at hp
      split at hp <;> cases hp
    | ub =>
      rw [C06_parse_flags_denotation] at hp
      split at hp <;> cases hp

example : makeFlagsMetadata (str "perm") perms = .ok permsMd ∧ makeFlagsMetadata [] permsNew = .ok permsNewMd ∧
    (∀ n ∈ perms.map Prod.snd, CleanFlagName n) ∧ (permsNew.map Prod.snd).Nodup ∧ (0x81#8) ≠ 0 ∧
    SubBits 0x81#8 (union (perms.map Prod.fst)) :=
  ⟨permsMd_ok, permsNewMd_ok, perms_clean, by decide, by decide, fun i h => by
    have : union (perms.map Prod.fst) = 0x83#8 := by decide
    rw [this]
    have hi : i < 8 := by
      by_contra hc
      rw [BitVec.getLsbD_of_ge _ _ (by omega)] at h; cases h
    interval_cases i <;> revert h <;> decide⟩

/-- C135: a table of flags may grow and be reordered. If the table used for reading has all entries of the one used for
writing, wherever they are listed, and its names are distinct, then every combination written is restored, also the empty one. -/
theorem C135_flags_grown {w : Nat} (desc desc' : Str) (A B : List (BitVec w × Str)) (mdA mdB : FlagsMd w)
    (hA : makeFlagsMetadata desc A = .ok mdA) (hB : makeFlagsMetadata desc' B = .ok mdB)
    (hclean : ∀ n ∈ A.map Prod.snd, CleanFlagName n) (hd : (B.map Prod.snd).Nodup) (hsub : ∀ e ∈ A, e ∈ B)
    (f : BitVec w) (hf : SubBits f (union (A.map Prod.fst))) :
    ∃ s, flagsToString f mdA = .ok s ∧ parseFlags s mdB.toEnumMd = .ok f := by
  by_cases h0 : f = 0#w
  · subst h0
    have hperm := (C13_flags_metadata_partition _ _ _ hB).1
    refine ⟨_, C05_flags_to_string_zero desc A mdA hA, ?_⟩
    rw [C06_parse_flags_denotation]
    cases hn : nameOf A 0#w with
    | none =>
      have : flagTokens (Option.getD none []) = [] := by decide
      rw [this]; rfl
    | some n =>
      have hmem := nameOf_some_mem hn
      have ht := flagTokens_join (names := [n])
        (fun x hx => by rw [List.mem_singleton.mp hx]; exact hclean n (List.mem_map_of_mem (f := Prod.snd) hmem))
      rw [join_singleton] at ht
      have hl : lookup mdB.entries n = some 0#w :=
        lookup_of_nodup (e := (0#w, n)) ((hperm.map Prod.snd).nodup_iff.mpr hd) (hperm.mem_iff.mpr (hsub _ hmem))
      rw [Option.getD_some, ht]
      simp [tokensValue, hl]
  · obtain ⟨s, hs, hok, -⟩ := C135_flags desc desc' A B mdA mdB hA hB hclean hd f h0 hf
    have hl : ∀ i n, nameOf A (BitVec.twoPow w i) = some n → lookup B n = some (BitVec.twoPow w i) := fun i n hn =>
      lookup_of_nodup hd (hsub _ (nameOf_some_mem hn))
    have hex : ∀ i, f.getLsbD i = true → ∃ n, nameOf A (BitVec.twoPow w i) = some n := by
      intro i hi
      by_contra hcon
      obtain ⟨L, -, -, hL, -, hu⟩ := C05_flags_to_string_shape desc A mdA hA f h0 hf
      rw [← hu, union_getLsbD] at hi
      obtain ⟨v, hv, hvi⟩ := hi
      obtain ⟨e, he, rfl⟩ := List.mem_map.mp hv
      obtain ⟨h1, -, h3⟩ := hL e he
      obtain ⟨k, hk, hb⟩ := singleBit_eq h1
      obtain rfl := (hb i).mp hvi
      exact hcon ⟨e.2, by rw [← hk]; exact h3⟩
    refine ⟨s, hs, (hok f).mpr ⟨fun i hi => ?_, fun j => ⟨fun hj => ?_, ?_⟩⟩⟩
    · obtain ⟨n, hn⟩ := hex i hi
      exact ⟨n, List.mem_map.mpr ⟨(BitVec.twoPow w i, n), hsub _ (nameOf_some_mem hn), rfl⟩, hn⟩
    · obtain ⟨n, hn⟩ := hex j hj
      refine ⟨j, n, _, hj, hn, hl j n hn, ?_⟩
      have hjw : j < w := by
        by_contra hge
        rw [BitVec.getLsbD_of_ge _ _ (by omega)] at hj
        cases hj
      simp [hjw]
    · rintro ⟨i, n, x, hi, hn, hx, hj⟩
      rw [hl i n hn] at hx
      simp only [Option.some.injEq] at hx
      subst hx
      simp only [BitVec.getLsbD_twoPow, Bool.and_eq_true, decide_eq_true_eq] at hj
      exact hj.2 ▸ hi

example : ∀ e ∈ perms, e ∈ permsNew := by decide

/-- C135, why the names must be distinct: if a name is given to another flag, the combination written is read as another one,
without any error. -/
theorem C135_flags_grown_needs_distinct_names :
    ∃ (A B : List (BitVec 8 × Str)) (mdA mdB : FlagsMd 8), makeFlagsMetadata [] A = .ok mdA ∧ makeFlagsMetadata [] B = .ok mdB ∧
      (∀ n ∈ B.map Prod.snd, CleanFlagName n) ∧ (∀ e ∈ A, e ∈ B) ∧
      ∃ s, flagsToString 1 mdA = .ok s ∧ parseFlags s mdB.toEnumMd = .ok 2 := by
  refine ⟨[(1, str "a")], [(2, str "a"), (1, str "a")], ⟨⟨[], [(1, str "a")]⟩, 1, [], 1⟩,
    ⟨⟨[], [(2, str "a"), (1, str "a")]⟩, 3, [], 2⟩, ?_, ?_, ?_, by decide, str "a", by decide, ?_⟩
  · rw [makeFlagsMetadata_eq, if_pos (by decide)]; rfl
  · rw [makeFlagsMetadata_eq, if_pos (by decide)]; rfl
  · unfold CleanFlagName Stripped; decide
  · rw [C06_parse_flags_denotation]; decide

/-- C135: what an older program makes of a text written by a newer one, whose table has more entries: a combination of which all
flags are written under names known to the older program is restored, any other makes it throw. It is never taken for another
combination. -/
theorem C135_flags_shrunk {w : Nat} (desc desc' : Str) (A B : List (BitVec w × Str)) (mdA mdB : FlagsMd w)
    (hA : makeFlagsMetadata desc A = .ok mdA) (hB : makeFlagsMetadata desc' B = .ok mdB)
    (hclean : ∀ n ∈ A.map Prod.snd, CleanFlagName n) (hd : (A.map Prod.snd).Nodup) (hdB : (B.map Prod.snd).Nodup)
    (hsub : ∀ e ∈ B, e ∈ A)
    (f : BitVec w) (h0 : f ≠ 0#w) (hf : SubBits f (union (A.map Prod.fst))) :
    ∃ s, flagsToString f mdA = .ok s ∧
      ((∀ i, f.getLsbD i = true → ∃ n ∈ B.map Prod.snd, nameOf A (BitVec.twoPow w i) = some n) ∧
          parseFlags s mdB.toEnumMd = .ok f ∨
        (∃ i n, f.getLsbD i = true ∧ nameOf A (BitVec.twoPow w i) = some n ∧ n ∉ B.map Prod.snd) ∧
          ∃ m, parseFlags s mdB.toEnumMd = .throw m) := by
  obtain ⟨s, hs, hok, hth⟩ := C135_flags desc desc' A B mdA mdB hA hB hclean hdB f h0 hf
  refine ⟨s, hs, ?_⟩
  by_cases hcon : ∃ i n, f.getLsbD i = true ∧ nameOf A (BitVec.twoPow w i) = some n ∧ n ∉ B.map Prod.snd
  · exact Or.inr ⟨hcon, hth.mpr hcon⟩
  · left
    obtain ⟨s', hs', hr⟩ := C135_flags_grown desc desc A A mdA mdA hA hA hclean hd (fun _ h => h) f hf
    obtain ⟨s'', hs'', hokA, -⟩ := C135_flags desc desc A A mdA mdA hA hA hclean hd f h0 hf
    rw [hs] at hs' hs''
    cases hs'; cases hs''
    obtain ⟨h1, h2⟩ := (hokA f).mp hr
    have hex : ∀ i, f.getLsbD i = true → ∃ n ∈ B.map Prod.snd, nameOf A (BitVec.twoPow w i) = some n := by
      intro i hi
      obtain ⟨n, -, hn⟩ := h1 i hi
      refine ⟨n, ?_, hn⟩
      by_contra hno
      exact hcon ⟨i, n, hi, hn, hno⟩
    refine ⟨hex, (hok f).mpr ⟨hex, fun j => (h2 j).trans ⟨?_, ?_⟩⟩⟩
    · rintro ⟨i, n, x, hi, hn, hx, hj⟩
      refine ⟨i, n, x, hi, hn, ?_, hj⟩
      obtain ⟨n', hn', hn2⟩ := hex i hi
      rw [hn] at hn2
      simp only [Option.some.injEq] at hn2
      subst hn2
      obtain ⟨e, he, hee⟩ := List.mem_map.mp hn'
      have h3 := lookup_of_nodup hdB he
      have h4 := lookup_of_nodup hd (hsub e he)
      rw [hee] at h3 h4
      rw [h4] at hx
      rw [h3, hx]
    · rintro ⟨i, n, x, hi, hn, hx, hj⟩
      exact ⟨i, n, x, hi, hn, lookup_of_nodup hd (hsub _ (lookup_some_mem hx)), hj⟩

example : (∀ n ∈ permsNew.map Prod.snd, CleanFlagName n) ∧ (permsNew.map Prod.snd).Nodup ∧ (perms.map Prod.snd).Nodup ∧
    ∀ e ∈ perms, e ∈ permsNew := ⟨permsNew_clean, by decide, by decide, by decide⟩
example : ∃ s m, flagsToString 0x11 permsNewMd = .ok s ∧ parseFlags s permsMd.toEnumMd = .throw m := by
  simp only [C06_parse_flags_denotation]
  exact ⟨str "link+read", _, by decide, rfl⟩

/-- C135: names of combinations of flags have no influence on what is written: listing one more of them, anywhere in the table,
does not change the text of any value. -/
theorem C135_flags_composite {w : Nat} (desc desc' : Str) (l r : List (BitVec w × Str)) (e : BitVec w × Str) (mdA mdB : FlagsMd w)
    (hA : makeFlagsMetadata desc (l ++ r) = .ok mdA) (hB : makeFlagsMetadata desc' (l ++ e :: r) = .ok mdB)
    (h0 : e.1 ≠ 0#w) (he : ¬SingleBit e.1) (f : BitVec w) : flagsToString f mdB = flagsToString f mdA := by
  have hp : isPowerOf2 e.1 = false := by
    cases h : isPowerOf2 e.1 with
    | false => rfl
    | true => exact absurd ((isPowerOf2_iff _).mp h) he
  rw [makeFlagsMetadata_eq] at hA hB
  split at hA
  · rename_i cA
    split at hB
    · rename_i cB
      simp only [Outcome.ok.injEq] at hA hB
      subst hA hB
      have hfil : (l ++ e :: r).filter (fun e => isPowerOf2 e.1) = (l ++ r).filter (fun e => isPowerOf2 e.1) := by
        simp [List.filter_append, hp]
      have hun : union ((l ++ e :: r).map Prod.fst) = union ((l ++ r).map Prod.fst) := by
        rw [cB.2, cA.2, hfil]
      have hnm : nameOf (l ++ e :: r) 0#w = nameOf (l ++ r) 0#w := by
        unfold nameOf
        rw [List.find?_append, List.find?_append, List.find?_cons]
        have : (e.1 == 0#w) = false := by simpa using h0
        rw [this]
      unfold flagsToString
      simp only [hun, hnm, hfil]
      have ht : ∀ (x y : List (BitVec w × Str)), (x ++ y).take x.length = x := fun x y => by simp
      rw [ht, ht]
    · cases hB
  · cases hA

example : makeFlagsMetadata [] ([(1, str "a")] ++ [(2#8, str "b")]) = .ok ⟨⟨[], [(1, str "a"), (2, str "b")]⟩, 3, [], 2⟩ ∧
    makeFlagsMetadata [] ([(1, str "a")] ++ (3#8, str "ab") :: [(2, str "b")]) =
      .ok ⟨⟨[], [(1, str "a"), (2, str "b"), (3, str "ab")]⟩, 3, [], 2⟩ ∧ (3#8) ≠ 0 ∧ ¬SingleBit (3#8) := by
  refine ⟨?_, ?_, by decide, fun h => ?_⟩
  · rw [makeFlagsMetadata_eq, if_pos (by decide)]; rfl
  · rw [makeFlagsMetadata_eq, if_pos (by decide)]; rfl
  · have := (isPowerOf2_iff _).mpr h
    revert this; decide

end Makeshift.Props
