import Verif.Props.Iomanip
import Verif.Spec.StreamFormat
import Mathlib.Data.List.Forall2

/-! # C88: formatting, stream state and exceptions -/

namespace Makeshift.Props

open Spec

theorem hits_iff (mask : IoMask) (e f b : Bool) : mask.hits e f b = true ↔ Throws mask e f b := by
  simp [IoMask.hits, Throws, or_assoc]

theorem padded_spec (st : OStream) (s : Str) : Padded s st.width st.fill st.left (st.padded s) := by
  unfold Padded OStream.padded
  refine ⟨?_, st.width - s.length, rfl⟩
  cases st.left <;> simp <;> omega

/-! ## Insertion -/

/-- What `as_enum` does with an output stream.  The name of the value is written, filled up to the width, and the width is reset; if the
stream is not good, nothing is written, and an exception is thrown if the mask says so.  Values without a name fail fast. -/
theorem C88_insert_enum {V : Type} [DecidableEq V] (md : EnumMd V) (mask : IoMask) (st : OStream) (v : V) :
    (∀ n, nameOf md.entries v = some n → ∃ r, asEnumInsertF md mask st v = .ok r ∧
      (st.good = true → r.2 = false ∧ ∃ t, Padded n st.width st.fill st.left t ∧ r.1 = { st with out := st.out ++ t, width := 0 }) ∧
      (st.good = false → r.1 = { st with failbit := true } ∧ (r.2 = true ↔ Throws mask st.eofbit true st.badbit))) ∧
    (nameOf md.entries v = none → asEnumInsertF md mask st v = .failFast) := by
  have h2 := C02_enum_to_string v md
  refine ⟨fun n hn => ?_, fun hn => ?_⟩
  · rw [asEnumInsertF, (h2.1 n).2 hn]
    refine ⟨_, rfl, fun hg => ?_, fun hg => ?_⟩
    · simp only [OStream.insert, hg, if_true]
      exact ⟨trivial, _, padded_spec st n, rfl⟩
    · simp [OStream.insert, hg, hits_iff]
  · have : enumToString v md = .failFast := h2.2.2 (fun hm => by
      obtain ⟨n, h⟩ := nameOf_isSome_iff.2 hm
      rw [hn] at h; exact absurd h (by simp))
    rw [asEnumInsertF, this]; rfl

/-- The same for `as_flags`. -/
theorem C88_insert_flags {w : Nat} (md : FlagsMd w) (mask : IoMask) (st : OStream) (v : BitVec w) (n : Str)
    (hn : flagsToString v md = .ok n) : ∃ r, asFlagsInsertF md mask st v = .ok r ∧
      (st.good = true → r.2 = false ∧ ∃ t, Padded n st.width st.fill st.left t ∧ r.1 = { st with out := st.out ++ t, width := 0 }) ∧
      (st.good = false → r.1 = { st with failbit := true } ∧ (r.2 = true ↔ Throws mask st.eofbit true st.badbit)) := by
  rw [asFlagsInsertF, hn]
  refine ⟨_, rfl, fun hg => ?_, fun hg => ?_⟩
  · simp only [OStream.insert, hg, if_true]
    exact ⟨trivial, _, padded_spec st n, rfl⟩
  · simp [OStream.insert, hg, hits_iff]

example : nameOf colors 0 = some (str "red") ∧
    asEnumInsertF ⟨[], colors⟩ {} { out := str "x", width := 5, fill := 42 } 0 = .ok ({ out := str "x**red", fill := 42 }, false) ∧
    asEnumInsertF ⟨[], colors⟩ { eof := true } { out := str "x", width := 5, eofbit := true } 0 =
      .ok ({ out := str "x", width := 5, eofbit := true, failbit := true }, true) :=
  ⟨by decide, by decide, by decide⟩

/-! ## Extraction with exceptions -/

theorem readLoopX_eq (mask : IoMask) (fb : CharBitset) (st : IStream) (acc : Str) :
    readLoopX mask fb st acc = ((readLoop fb st acc).1, (readLoop fb st acc).2,
      st.good && (readLoop fb st acc).1.eofbit && (readLoop fb st acc).1.throws mask) := by
  obtain ⟨rest, e, f, b⟩ := st
  cases hg : (⟨rest, e, f, b⟩ : IStream).good
  · rw [readLoopX, readLoop]
    simp [hg]
  · simp only [IStream.good, Bool.and_eq_true, Bool.not_eq_true'] at hg
    obtain ⟨⟨rfl, rfl⟩, rfl⟩ := hg
    simp only [Bool.true_and]
    induction rest generalizing acc with
    | nil =>
      rw [readLoopX, readLoop]
      simp [IStream.good]
    | cons c r ih =>
      rw [readLoopX, readLoop]
      simp only [IStream.good, Bool.not_false, Bool.and_self, if_true]
      split
      · simp
      · exact ih (acc ++ [c])

theorem readTokenX_eq (mask : IoMask) (fb : CharBitset) (st : IStream) :
    let t := readLoop fb st.ws []
    let x := readTokenX mask fb st
    x.2.2 = t.1.throws mask ∧ (x.2.2 = false → x.1 = t.1 ∧ x.2.1 = t.2) ∧ x.1.rest = t.1.rest := by
  cases hg : st.good
  · have hws : st.ws = { st with failbit := true } := by simp [IStream.ws, hg]
    have hng : ({ st with failbit := true } : IStream).good = false := by simp [IStream.good]
    simp only [readTokenX, IStream.wsX, hg, hws, readLoopX_eq, hng, readLoop_notGood _ _ _ hng]
    cases ({ st with failbit := true } : IStream).throws mask <;> simp
  · simp only [readTokenX, IStream.wsX, hg, readLoopX_eq, Bool.not_true, Bool.false_or]
    rw [good_eq hg]
    simp only [IStream.ws, IStream.good, Bool.not_false, Bool.and_self, if_true]
    cases h : st.rest.dropWhile isSpaceC with
    | nil =>
      rw [readLoop_notGood _ _ _ (by simp [IStream.good])]
      simp only [List.isEmpty_nil, Bool.true_and, Bool.not_true, Bool.false_and]
      split <;> rename_i ht <;> simp [ht]
    | cons c r =>
      rw [List.isEmpty_cons, readLoop_good]
      simp [IStream.throws, IoMask.hits]

theorem throws_iff (mask : IoMask) (st : IStream) : Throws mask st.eofbit st.failbit st.badbit ↔ st.throws mask = true :=
  (hits_iff _ _ _ _).symm

theorem throws_mono (mask : IoMask) (st : IStream) (h : st.throws mask = true) : ({ st with failbit := true } : IStream).throws mask = true := by
  simp only [IStream.throws, IoMask.hits, Bool.or_eq_true, Bool.and_eq_true] at h ⊢
  tauto

/-- What the manipulator for enums does under an exception mask, in terms of what it does without exceptions: it throws exactly if the
stream ends up in a state that the mask contains; then the target keeps its value, and otherwise nothing is different.
Missing for the full claim: at the end of the input, `eofbit` in the mask makes a valid name get lost. -/
theorem C88_extract_enum_partial {V : Type} (md : EnumMd V) (mask : IoMask) (st : IStream) (value : V) :
    let r := asEnumExtract md st value
    let x := asEnumExtractX md mask st value
    (x.2.2 = true ↔ Throws mask r.1.eofbit r.1.failbit r.1.badbit) ∧
    (x.2.2 = false → x.1 = r.1 ∧ x.2.1 = r.2) ∧
    (x.2.2 = true → x.1.rest = r.1.rest ∧ x.2.1 = value) := by
  obtain ⟨h1, h2, h3⟩ := readTokenX_eq mask enumForbiddenCharSet st
  simp only [asEnumExtract, asEnumExtractX]
  generalize readTokenX mask enumForbiddenCharSet st = x at *
  generalize readLoop enumForbiddenCharSet st.ws [] = t at *
  obtain ⟨xs, xt, xb⟩ := x
  obtain ⟨ts, tt⟩ := t
  simp only at h1 h2 h3
  simp only [throws_iff]
  have hm := throws_mono mask ts
  cases xb with
  | true =>
    by_cases he : tt.isEmpty = true
    · simp [he, h1.symm, h3, hm h1.symm]
    · by_cases hr : (tryEnumFromString value tt md).2 = 0 <;> simp [he, hr, h1.symm, h3, hm h1.symm]
  | false =>
    obtain ⟨rfl, rfl⟩ := h2 rfl
    have hv : (tryEnumFromString value xt md).2 ≠ 0 → (tryEnumFromString value xt md).1 = value := by
      simp only [tryEnumFromString, tryEnumFromStringLoop_eq]
      cases lookup md.entries xt <;> simp
    simp only [Bool.false_eq_true, if_false]
    by_cases he : xt.isEmpty = true
    · simp [he]
    · by_cases hr : (tryEnumFromString value xt md).2 = 0
      · simp [he, hr, h1.symm]
      · simp [he, hr, hv hr]

/-- The same for flags. -/
theorem C88_extract_flags_partial {w : Nat} (md : EnumMd (BitVec w)) (mask : IoMask) (st : IStream) (value : BitVec w) :
    let r := asFlagsExtract md st value
    let x := asFlagsExtractX md mask st value
    (x.2.2 = true ↔ Throws mask r.1.eofbit r.1.failbit r.1.badbit) ∧
    (x.2.2 = false → x.1 = r.1 ∧ x.2.1 = r.2) ∧
    (x.2.2 = true → x.1.rest = r.1.rest ∧ x.2.1 = value) := by
  obtain ⟨h1, h2, h3⟩ := readTokenX_eq mask flagsForbiddenCharSet st
  simp only [asFlagsExtract, asFlagsExtractX]
  generalize readTokenX mask flagsForbiddenCharSet st = x at *
  generalize readLoop flagsForbiddenCharSet st.ws [] = t at *
  obtain ⟨xs, xt, xb⟩ := x
  obtain ⟨ts, tt⟩ := t
  simp only at h1 h2 h3
  simp only [throws_iff]
  have hm := throws_mono mask ts
  cases xb with
  | true =>
    by_cases hr : (flagsFromStringNoRaise value tt md).2 = 0 <;> simp [hr, h1.symm, h3, hm h1.symm]
  | false =>
    obtain ⟨rfl, rfl⟩ := h2 rfl
    have hv : (flagsFromStringNoRaise value xt md).2 ≠ 0 → (flagsFromStringNoRaise value xt md).1 = value := by
      simp only [flagsFromStringNoRaise]
      cases flagsFromStringLoop md.entries 0#w xt <;> simp
    simp only [Bool.false_eq_true, if_false]
    by_cases hr : (flagsFromStringNoRaise value xt md).2 = 0
    · simp [hr, h1.symm]
    · simp [hr, hv hr]

/-- Where the full claim fails: with `eofbit` in the mask, a name at the very end of the input is read and lost. -/
theorem C88_eof_loses_value {V : Type} (md : EnumMd V) (skipped name : Str) (v value : V)
    (hsplit : TokenSplit enumReserved (skipped ++ name) skipped name []) (hname : name ≠ []) (hl : lookup md.entries name = some v)
    (mask : IoMask) (hmask : mask.eof = true) :
    asEnumExtract md { rest := skipped ++ name } value = ({ rest := [], eofbit := true }, v) ∧
    (asEnumExtractX md mask { rest := skipped ++ name } value).2 = (value, true) := by
  have h1 : asEnumExtract md { rest := skipped ++ name } value = ({ rest := [], eofbit := true }, v) := by
    obtain ⟨-, e2, e3⟩ := tokenSplit_det _ enumSet hsplit
    rw [asEnumExtract_good]
    simp [e2, e3, hname, hl]
  refine ⟨h1, ?_⟩
  obtain ⟨x1, -, x3⟩ := C88_extract_enum_partial md mask { rest := skipped ++ name } value
  rw [h1] at x1 x3
  have ht := x1.2 (.inl ⟨hmask, rfl⟩)
  exact Prod.ext (x3 ht).2 ht

example : TokenSplit enumReserved (str " " ++ str "red") (str " ") (str "red") [] ∧ lookup colors (str "red") = some 0 :=
  ⟨⟨by decide, by decide, by decide, by decide, by decide⟩, by decide⟩

/-! ## Round trip of tables -/

/-- The fill characters before the text of a field. -/
def fieldPre (fill : CChar) (f : Field) (s : Str) : Str := if f.left then [] else List.replicate (f.width - s.length) fill

/-- The fill characters after the text of a field. -/
def fieldPost (fill : CChar) (f : Field) (s : Str) : Str := if f.left then List.replicate (f.width - s.length) fill else []

theorem fieldPre_ws {fill : CChar} (h : isWs fill = true) (f : Field) (s : Str) : AllWs (fieldPre fill f s) := by
  intro c hc
  unfold fieldPre at hc
  split at hc
  · simp at hc
  · rw [List.eq_of_mem_replicate hc, h]

theorem fieldPost_ws {fill : CChar} (h : isWs fill = true) (f : Field) (s : Str) : AllWs (fieldPost fill f s) := by
  intro c hc
  unfold fieldPost at hc
  split at hc
  · rw [List.eq_of_mem_replicate hc, h]
  · simp at hc

theorem insert_sep (st : OStream) (hg : st.good = true) (hw : st.width = 0) (s : Str) :
    (st.insert {} s).1 = { st with out := st.out ++ s } := by
  obtain ⟨o, w, f, l, e, fb, b⟩ := st
  simp only at hw
  subst hw
  simp [OStream.insert, hg, OStream.padded]

theorem insert_field (st : OStream) (hg : st.good = true) (f : Field) (s : Str) :
    ((({ st with width := f.width, left := f.left } : OStream)).insert {} s).1 =
      { st with out := st.out ++ (fieldPre st.fill f s ++ s ++ fieldPost st.fill f s), width := 0, left := f.left } := by
  have hg' : ({ st with width := f.width, left := f.left } : OStream).good = true := hg
  simp only [OStream.insert, hg', if_true, OStream.padded, fieldPre, fieldPost]
  cases f.left <;> simp

theorem writeEnumTable_eq {V : Type} [DecidableEq V] (md : EnumMd V) (name : V → Str) (items : List (Field × V))
    (h : ∀ it ∈ items, enumToString it.2 md = .ok (name it.2)) (st : OStream) (hg : st.good = true) (hw : st.width = 0) :
    ∃ st', writeEnumTable md st items = .ok st' ∧ st'.out = st.out ++ (items.map fun it =>
      it.1.sep ++ (fieldPre st.fill it.1 (name it.2) ++ name it.2 ++ fieldPost st.fill it.1 (name it.2))).flatten := by
  induction items generalizing st with
  | nil => exact ⟨st, rfl, by simp⟩
  | cons it r ih =>
    obtain ⟨f, v⟩ := it
    have hi := insert_field { st with out := st.out ++ f.sep } hg f (name v)
    obtain ⟨st', h1, h2⟩ := ih (fun x hx => h x (by simp [hx]))
      { st with out := st.out ++ f.sep ++ (fieldPre st.fill f (name v) ++ name v ++ fieldPost st.fill f (name v)), width := 0, left := f.left }
      hg rfl
    refine ⟨st', ?_, ?_⟩
    · rw [writeEnumTable, insert_sep st hg hw, asEnumInsertF, h (f, v) (by simp)]
      simp only [Outcome.bind_ok]
      rw [hi]
      exact h1
    · rw [h2]; simp

/-- Move the text after each name to the separator before the next one. -/
def regroup {V : Type} (lead : Str) : List (Str × V × Str) → List (Str × V) × Str
  | [] => ([], lead)
  | (p, v, q) :: r => ((lead ++ p, v) :: (regroup q r).1, (regroup q r).2)

theorem regroup_text {V : Type} (name : V → Str) (lead : Str) (l : List (Str × V × Str)) :
    lead ++ (l.map fun x => x.1 ++ name x.2.1 ++ x.2.2).flatten =
      ((regroup lead l).1.map fun it => it.1 ++ name it.2).flatten ++ (regroup lead l).2 := by
  induction l generalizing lead with
  | nil => simp [regroup]
  | cons x r ih =>
    obtain ⟨p, v, q⟩ := x
    simp only [regroup, List.map_cons, List.flatten_cons, List.append_assoc]
    rw [← List.append_assoc] at *
    simp [← ih q]

theorem regroup_vals {V : Type} (lead : Str) (l : List (Str × V × Str)) :
    (regroup lead l).1.map Prod.snd = l.map (fun x => x.2.1) := by
  induction l generalizing lead with
  | nil => rfl
  | cons x r ih => obtain ⟨p, v, q⟩ := x; simp [regroup, ih]

theorem regroup_ws {V : Type} (lead : Str) (l : List (Str × V × Str)) (hl : AllWs lead) (h : ∀ x ∈ l, AllWs x.1 ∧ AllWs x.2.2) :
    (∀ it ∈ (regroup lead l).1, AllWs it.1) ∧ AllWs (regroup lead l).2 := by
  induction l generalizing lead with
  | nil => exact ⟨by simp [regroup], hl⟩
  | cons x r ih =>
    obtain ⟨p, v, q⟩ := x
    obtain ⟨hp, hq⟩ := h (p, v, q) (by simp)
    obtain ⟨h1, h2⟩ := ih q hq (fun y hy => h y (by simp [hy]))
    refine ⟨?_, h2⟩
    simp only [regroup, List.mem_cons, forall_eq_or_imp]
    exact ⟨fun c hc => (List.mem_append.1 hc).elim (hl c) (hp c), h1⟩

theorem regroup_sep {V : Type} (lead : Str) (l : List (Str × V × Str)) (h : ∀ x ∈ l, x.1 ≠ []) :
    ∀ it ∈ (regroup lead l).1, it.1 ≠ [] := by
  induction l generalizing lead with
  | nil => simp [regroup]
  | cons x r ih =>
    obtain ⟨p, v, q⟩ := x
    simp only [regroup, List.mem_cons, forall_eq_or_imp]
    exact ⟨by simp [h (p, v, q) (by simp)], ih q (fun y hy => h y (by simp [hy]))⟩

/-- A table of enum values with any field widths and adjustments, filled with whitespace, reads back as the same sequence.  Fields have to
be separated, by whitespace or by fill characters. -/
theorem C88_enum_table {V : Type} [DecidableEq V] (desc : Str) (entries : List (V × Str)) (md : EnumMd V)
    (hmd : makeEnumMetadata desc entries = .ok md) (hnames : (entries.map Prod.snd).Nodup)
    (hlead : ∀ n ∈ entries.map Prod.snd, NoLeadingSpace n) (init : V) (fill : CChar) (hfill : isWs fill = true)
    (items : List (Field × V)) (hv : ∀ it ∈ items, it.2 ∈ entries.map Prod.fst) (hsep : ∀ it ∈ items, AllWs it.1.sep)
    (hsep' : ∀ it ∈ items.tail, it.1.sep ≠ [] ∨
      (it.1.left = false ∧ ∀ n, nameOf entries it.2 = some n → n.length < it.1.width)) :
    ∃ st, writeEnumTable md { fill := fill } items = .ok st ∧
      (readEnums md init items.length { rest := st.out }).1.failbit = false ∧
      (readEnums md init items.length { rest := st.out }).2 = items.map Prod.snd := by
  have hval : ∀ n ∈ entries.map Prod.snd, n ≠ [] ∧ ∀ c ∈ n, c ∉ enumReserved := by
    by_contra h
    rw [(C12_enum_name_validation desc entries).2 h] at hmd; simp at hmd
  rw [(C12_enum_name_validation desc entries).1 hval] at hmd
  simp only [Outcome.ok.injEq] at hmd; subst hmd
  have hn : ∀ it ∈ items, nameOf entries it.2 = some ((nameOf entries it.2).getD []) := by
    intro it hit
    obtain ⟨n, h⟩ := nameOf_isSome_iff.mpr (hv it hit)
    simp [h]
  let name : V → Str := fun v => (nameOf entries v).getD []
  obtain ⟨st, h1, h2⟩ := writeEnumTable_eq ⟨desc, entries⟩ name items
    (fun it hit => ((C02_enum_to_string _ _).1 _).mpr (hn it hit)) { fill := fill } rfl rfl
  refine ⟨st, h1, ?_⟩
  let l : List (Str × V × Str) := items.map fun it =>
    (it.1.sep ++ fieldPre fill it.1 (name it.2), it.2, fieldPost fill it.1 (name it.2))
  have htext : st.out = ((regroup [] l).1.map fun it => it.1 ++ name it.2).flatten ++ (regroup [] l).2 := by
    rw [← regroup_text, h2]
    simp [l, Function.comp_def]
  have hvals : (regroup [] l).1.map Prod.snd = items.map Prod.snd := by
    rw [regroup_vals]; simp [l, Function.comp_def]
  have hlen : (regroup [] l).1.length = items.length := by simpa using congrArg List.length hvals
  obtain ⟨w1, w2⟩ := regroup_ws [] l (by simp [AllWs]) (by
    intro x hx
    obtain ⟨it, hit, rfl⟩ := List.mem_map.1 hx
    exact ⟨fun c hc => (List.mem_append.1 hc).elim (hsep it hit c) (fieldPre_ws hfill _ _ c), fieldPost_ws hfill _ _⟩)
  have := readEnums_eq ⟨desc, entries⟩ name init (regroup [] l).1 ?_ w1 ?_ _ w2 { rest := st.out } (fun _ => rfl) rfl htext
  · rw [hlen, hvals] at this
    exact this
  · intro it hit
    have hmi : it.2 ∈ items.map Prod.snd := by rw [← hvals]; exact List.mem_map_of_mem hit
    obtain ⟨it', hit', he⟩ := List.mem_map.1 hmi
    have hmem := nameOf_some_mem (hn it' hit')
    have hm2 := List.mem_map_of_mem (f := Prod.snd) hmem
    rw [← he]
    exact ⟨(hval _ hm2).1, (hval _ hm2).2, hlead _ hm2, lookup_of_nodup hnames hmem⟩
  · intro it hit
    cases items with
    | nil => simp [l, regroup] at hit
    | cons x r =>
      simp only [l, List.map_cons, regroup, List.tail_cons] at hit
      refine regroup_sep _ _ ?_ it hit
      intro y hy
      obtain ⟨z, hz, rfl⟩ := List.mem_map.1 hy
      rcases hsep' z (by simpa using hz) with h | ⟨hl, h⟩
      · simp [h]
      · have := h _ (hn z (by simp [hz]))
        simp only [ne_eq, List.append_eq_nil_iff, not_and, fieldPre, hl, Bool.false_eq_true, if_false]
        intro _ h0
        have := congrArg List.length h0
        simp [name] at this
        omega

example : makeEnumMetadata (str "color") colors = .ok colorsMd ∧ (colors.map Prod.snd).Nodup ∧
    (∀ n ∈ colors.map Prod.snd, NoLeadingSpace n) ∧ isWs 32 = true ∧
    (∀ it ∈ [((⟨[], 8, true⟩ : Field), 2), (⟨[], 8, false⟩, 0), (⟨str "\n", 0, true⟩, 1)], it.2 ∈ colors.map Prod.fst ∧ AllWs it.1.sep) :=
  ⟨colorsMd_ok, by decide, by unfold NoLeadingSpace; decide, by decide, by unfold AllWs; decide⟩

/-- Why the fill character matters: formatted input skips a vertical tab in front of a name, but not behind it. -/
theorem C88_vertical_tab_fill :
    ∃ (entries : List (Nat × Str)) (md : EnumMd Nat) (st : OStream), makeEnumMetadata [] entries = .ok md ∧
      (entries.map Prod.snd).Nodup ∧ 11 ∈ skippable ∧ writeEnumTable md { fill := 11 } [(⟨[], 2, true⟩, 1)] = .ok st ∧
      (readEnums md 0 1 { rest := st.out }).1.failbit = true := by
  refine ⟨[(1, [97])], ⟨[], [(1, [97])]⟩, { out := [97, 11], width := 0, fill := 11, left := true }, ?_, by decide, by decide, by decide, ?_⟩
  · exact (C12_enum_name_validation [] _).1 (by decide)
  · simp only [readEnums, asEnumExtract_good]; decide

theorem strip_append_ws {a q : Str} (hq : AllWs q) : strip (a ++ q) = strip a := by
  obtain ⟨pre, post, ha, h1, h2, h3⟩ := strip_spec a
  generalize strip a = t at *
  subst ha
  rw [List.append_assoc (pre ++ t)]
  exact strip_pad h1 (fun c hc => (List.mem_append.1 hc).elim (h2 c) (hq c)) h3

theorem ws_not_delim {c : CChar} (h : isWs c = true) : isFlagDelim c = false := by
  simp only [isWs, Bool.or_eq_true, beq_iff_eq] at h
  rcases h with ((rfl | rfl) | rfl) | rfl <;> decide

theorem split_append_ws {q : Str} (hq : AllWs q) (s : Str) :
    List.Forall₂ (fun a b => ∃ r, AllWs r ∧ b = a ++ r) (split isFlagDelim s) (split isFlagDelim (s ++ q)) := by
  induction s with
  | nil =>
    have : split isFlagDelim q = [q] := by
      induction q with
      | nil => rfl
      | cons c r ih =>
        rw [split, ws_not_delim (hq c (by simp)), ih (fun x hx => hq x (by simp [hx]))]; simp
    rw [List.nil_append, this]
    exact .cons ⟨q, hq, rfl⟩ .nil
  | cons c cs ih =>
    simp only [List.cons_append, split]
    split
    · exact .cons ⟨[], by simp [AllWs], rfl⟩ ih
    · generalize split isFlagDelim cs = x at *
      generalize split isFlagDelim (cs ++ q) = y at *
      cases ih with
      | nil => exact .cons ⟨[], by simp [AllWs], rfl⟩ .nil
      | cons h t =>
        obtain ⟨r, hr, rfl⟩ := h
        exact .cons ⟨r, hr, rfl⟩ t

theorem flagTokens_append_ws {q : Str} (hq : AllWs q) (s : Str) : flagTokens (s ++ q) = flagTokens s := by
  have h := split_append_ws hq s
  unfold flagTokens
  congr 1
  generalize split isFlagDelim s = x at *
  generalize split isFlagDelim (s ++ q) = y at *
  induction h with
  | nil => rfl
  | cons h _ ih =>
    obtain ⟨r, hr, rfl⟩ := h
    rw [List.map_cons, List.map_cons, ih, strip_append_ws hr]

theorem parseFlags_append_ws {w : Nat} (md : EnumMd (BitVec w)) {q : Str} (hq : AllWs q) (s : Str) (v : BitVec w)
    (h : parseFlags s md = .ok v) : parseFlags (s ++ q) md = .ok v := by
  rw [C06_parse_flags_denotation] at h ⊢
  rw [flagTokens_append_ws hq]
  exact h

theorem writeFlagsTable_eq {w : Nat} (md : FlagsMd w) (name : BitVec w → Str) (items : List (Field × BitVec w))
    (h : ∀ it ∈ items, flagsToString it.2 md = .ok (name it.2)) (st : OStream) (hg : st.good = true) (hw : st.width = 0) :
    ∃ st', writeFlagsTable md st items = .ok st' ∧ st'.out = st.out ++ (items.map fun it =>
      it.1.sep ++ (fieldPre st.fill it.1 (name it.2) ++ name it.2 ++ fieldPost st.fill it.1 (name it.2))).flatten := by
  induction items generalizing st with
  | nil => exact ⟨st, rfl, by simp⟩
  | cons it r ih =>
    obtain ⟨f, v⟩ := it
    have hi := insert_field { st with out := st.out ++ f.sep } hg f (name v)
    obtain ⟨st', h1, h2⟩ := ih (fun x hx => h x (by simp [hx]))
      { st with out := st.out ++ f.sep ++ (fieldPre st.fill f (name v) ++ name v ++ fieldPost st.fill f (name v)), width := 0, left := f.left }
      hg rfl
    refine ⟨st', ?_, ?_⟩
    · rw [writeFlagsTable, insert_sep st hg hw, asFlagsInsertF, h (f, v) (by simp)]
      simp only [Outcome.bind_ok]
      rw [hi]
      exact h1
    · rw [h2]; simp

/-- A flags text with whitespace around it, in front of a comma or the end. -/
theorem chunk_split {w : Nat} (md : EnumMd (BitVec w)) (lead s post rest : Str) (v : BitVec w) (hl : AllWs lead) (hp : AllWs post)
    (h1 : ∀ c ∈ s, c ∉ flagsReserved) (h2 : NoLeadingSpace s) (h3 : parseFlags s md = .ok v)
    (hr : ∀ c, rest.head? = some c → c = 44) :
    ∃ skipped token, TokenSplit flagsReserved (lead ++ s ++ post ++ rest) skipped token rest ∧ parseFlags token md = .ok v := by
  have hrs : ∀ c, rest.head? = some c → c ∉ skippable := fun c hc => by rw [hr c hc]; decide
  have hrr : ∀ c, rest.head? = some c → c ∈ flagsReserved := fun c hc => by rw [hr c hc]; decide
  by_cases hs : s = []
  · subst hs
    exact ⟨lead ++ post, [], ⟨by simp, fun c hc => ws_skippable ((List.mem_append.1 hc).elim (hl c) (hp c)), hrs, by simp, hrr⟩, h3⟩
  · refine ⟨lead, s ++ post, ⟨by simp, fun c hc => ws_skippable (hl c hc), ?_, ?_, hrr⟩, parseFlags_append_ws md hp s v h3⟩
    · intro c hc
      cases s with
      | nil => exact absurd rfl hs
      | cons x xs => exact h2 c (by simpa using hc)
    · intro c hc
      rcases List.mem_append.1 hc with hc | hc
      · exact h1 c hc
      · exact C09_not_delimiters c (.inl (hp c hc))

theorem readFlagsChunks_eq {w : Nat} (md : EnumMd (BitVec w)) (init : BitVec w) (items : List (Str × Str × Str × BitVec w))
    (h : ∀ x ∈ items, AllWs x.1 ∧ AllWs x.2.2.1 ∧ (∀ c ∈ x.2.1, c ∉ flagsReserved) ∧ NoLeadingSpace x.2.1 ∧
      parseFlags x.2.1 md = .ok x.2.2.2) (hne : items ≠ []) :
    let text := join (str ",") (items.map fun x => x.1 ++ x.2.1 ++ x.2.2.1)
    (readFlags md init items.length { rest := text }).1.failbit = false ∧
    (readFlags md init items.length { rest := text }).2 = items.map fun x => x.2.2.2 := by
  induction items with
  | nil => exact absurd rfl hne
  | cons x r ih =>
    obtain ⟨lead, s, post, v⟩ := x
    obtain ⟨hl, hp, h1, h2, h3⟩ := h (lead, s, post, v) (by simp)
    have h44 : str "," = [44] := by decide
    cases r with
    | nil =>
      obtain ⟨sk, tok, hsplit, hpar⟩ := chunk_split md lead s post [] v hl hp h1 h2 h3 (by simp)
      rw [List.append_nil] at hsplit
      obtain ⟨e1, e2, e3, e4, e5⟩ := C09_as_flags_token md _ _ _ _ init hsplit
      have hf := e4.mpr ⟨v, hpar⟩
      have := e5 hf
      rw [hpar, Outcome.ok.injEq] at this
      simp only [List.map_cons, List.map_nil, join_singleton, List.length_singleton, readFlags]
      exact ⟨hf, by rw [← this]⟩
    | cons y r' =>
      generalize ht : join (str ",") ((y :: r').map fun x => x.1 ++ x.2.1 ++ x.2.2.1) = t at *
      obtain ⟨sk, tok, hsplit, hpar⟩ := chunk_split md lead s post (44 :: t) v hl hp h1 h2 h3 (by simp)
      have htext : join (str ",") (((lead, s, post, v) :: y :: r').map fun x => x.1 ++ x.2.1 ++ x.2.2.1) =
          lead ++ s ++ post ++ 44 :: t := by
        rw [List.map_cons, List.map_cons, join_cons_cons, ← List.map_cons (f := fun x : Str × Str × Str × BitVec w => x.1 ++ x.2.1 ++ x.2.2.1), ht, h44]
        simp
      simp only [htext]
      obtain ⟨e1, e2, e3, e4, e5⟩ := C09_as_flags_token md _ _ _ _ init hsplit
      have hf := e4.mpr ⟨v, hpar⟩
      have hv := e5 hf
      rw [hpar, Outcome.ok.injEq] at hv
      have hskip : (asFlagsExtract md { rest := lead ++ s ++ post ++ 44 :: t } init).1.skip1 = { rest := t } := by
        generalize (asFlagsExtract md { rest := lead ++ s ++ post ++ 44 :: t } init).1 = st at *
        obtain ⟨r0, e0, f0, b0⟩ := st
        simp only at e1 e2 e3 hf
        have he : e0 = false := by
          cases e0 with
          | false => rfl
          | true => have := e2.mp rfl; simp at this
        subst he e1 e3 hf
        simp [IStream.skip1, IStream.good]
      have := ih (fun x hx => h x (by simp [hx])) (by simp)
      simp only [List.length_cons, readFlags] at this ⊢
      rw [hskip]
      exact ⟨this.1, by rw [this.2, ← hv]; rfl⟩

theorem join_flatten (sep a : Str) (l : List Str) : join sep (a :: l) = a ++ (l.map fun x => sep ++ x).flatten := by
  induction l generalizing a with
  | nil => simp
  | cons b r ih => rw [join_cons_cons, ih]; simp

/-- The same for flags, with commas between the fields. -/
theorem C88_flags_table {w : Nat} (desc : Str) (entries : List (BitVec w × Str)) (md : FlagsMd w)
    (hmd : makeFlagsMetadata desc entries = .ok md) (hnames : (entries.map Prod.snd).Nodup)
    (hclean : ∀ n ∈ entries.map Prod.snd, CleanFlagName n) (hlead : ∀ n ∈ entries.map Prod.snd, NoLeadingSpace n)
    (init : BitVec w) (fill : CChar) (hfill : isWs fill = true) (f0 : Field) (v0 : BitVec w) (items : List (Field × BitVec w))
    (hv : ∀ it ∈ (f0, v0) :: items, SubBits it.2 (union (entries.map Prod.fst))) (hsep : AllWs f0.sep)
    (hsep' : ∀ it ∈ items, ∃ ws, it.1.sep = str "," ++ ws ∧ AllWs ws) :
    ∃ st, writeFlagsTable md { fill := fill } ((f0, v0) :: items) = .ok st ∧
      (readFlags md.toEnumMd init (items.length + 1) { rest := st.out }).1.failbit = false ∧
      (readFlags md.toEnumMd init (items.length + 1) { rest := st.out }).2 = v0 :: items.map Prod.snd := by
  have key : ∀ v, ∃ s, v ∈ ((f0, v0) :: items).map Prod.snd → flagsToString v md = .ok s ∧ (∀ c ∈ s, c ∉ flagsReserved) ∧
      NoLeadingSpace s ∧ parseFlags s md.toEnumMd = .ok v := by
    intro v
    by_cases hm : v ∈ ((f0, v0) :: items).map Prod.snd
    · obtain ⟨it, hit, rfl⟩ := List.mem_map.1 hm
      obtain ⟨s, hs⟩ := flags_text desc entries md hmd hnames hclean hlead it.2 (hv it hit)
      exact ⟨s, fun _ => hs⟩
    · exact ⟨[], fun h => absurd h hm⟩
  obtain ⟨name, ht⟩ := Classical.skolem.mp key
  obtain ⟨st, h1, h2⟩ := writeFlagsTable_eq md name ((f0, v0) :: items)
    (fun it hit => (ht it.2 (List.mem_map_of_mem hit)).1) { fill := fill } rfl rfl
  refine ⟨st, h1, ?_⟩
  have key2 : ∀ it : Field × BitVec w, ∃ ws, it ∈ items → it.1.sep = str "," ++ ws ∧ AllWs ws := by
    intro it
    by_cases hm : it ∈ items
    · obtain ⟨ws, hws⟩ := hsep' it hm; exact ⟨ws, fun _ => hws⟩
    · exact ⟨[], fun h => absurd h hm⟩
  obtain ⟨wsOf, hws⟩ := Classical.skolem.mp key2
  let chunk : Str → Field × BitVec w → Str × Str × Str × BitVec w := fun sep it =>
    (sep ++ fieldPre fill it.1 (name it.2), name it.2, fieldPost fill it.1 (name it.2), it.2)
  let chunks := chunk f0.sep (f0, v0) :: items.map fun it => chunk (wsOf it) it
  have htext : st.out = join (str ",") (chunks.map fun x => x.1 ++ x.2.1 ++ x.2.2.1) := by
    rw [h2]
    simp only [List.nil_append, chunks, List.map_cons, List.flatten_cons, join_flatten, List.map_map]
    congr 1
    · simp [chunk]
    · congr 1
      refine List.map_congr_left fun it hit => ?_
      simp [chunk, (hws it hit).1]
  have := readFlagsChunks_eq md.toEnumMd init chunks ?_ (by simp [chunks])
  · rw [← htext] at this
    simpa [chunks, chunk, Function.comp_def] using this
  · intro x hx
    have hgen : ∀ (sep : Str) (it : Field × BitVec w), it ∈ (f0, v0) :: items → AllWs sep → _ := fun sep it hit hs =>
      show AllWs (chunk sep it).1 ∧ AllWs (chunk sep it).2.2.1 ∧ _ from
      ⟨fun c hc => (List.mem_append.1 hc).elim (hs c) (fieldPre_ws hfill _ _ c), fieldPost_ws hfill _ _,
        (ht it.2 (List.mem_map_of_mem hit)).2⟩
    rcases List.mem_cons.1 hx with rfl | hx
    · exact hgen _ _ (by simp) hsep
    · obtain ⟨it, hit, rfl⟩ := List.mem_map.1 hx
      exact hgen _ _ (by simp [hit]) (hws it hit).2

example : makeFlagsMetadata (str "perm") perms = .ok permsMd ∧ (perms.map Prod.snd).Nodup ∧
    (∀ n ∈ perms.map Prod.snd, CleanFlagName n) ∧ (∀ n ∈ perms.map Prod.snd, NoLeadingSpace n) ∧ isWs 32 = true ∧
    (∀ it ∈ [((⟨str "  ", 12, false⟩ : Field), 0x82#8), (⟨str ", ", 12, true⟩, 0#8), (⟨str ",", 0, true⟩, 0x01#8)],
      SubBits it.2 (union (perms.map Prod.fst))) ∧ AllWs (str "  ") ∧ (∃ ws, str ", " = str "," ++ ws ∧ AllWs ws) :=
  ⟨permsMd_ok, by decide, perms_clean, by unfold NoLeadingSpace; decide, by decide,
    fun it hit => (and_not_eq_zero _ _).mp (by
      have : ∀ v ∈ [0x82#8, 0#8, 0x01#8], v &&& ~~~union (perms.map Prod.fst) = 0#8 := by decide
      exact this it.2 (by simp at hit; rcases hit with rfl | rfl | rfl <;> simp)),
    by unfold AllWs; decide, [32], by decide, by unfold AllWs; decide⟩

end Makeshift.Props
