import Verif.Props.StreamFormat
import Verif.Model.StreamFault
import Verif.Spec.StreamFault

/-! # C111: extraction from streams with a failing buffer or another locale -/

namespace Makeshift.Props

open Spec

/-! ## Helper lemmas -/

theorem readLoopF_good (src : Source) (mask : IoMask) (fb : CharBitset) (rest acc : Str) :
    readLoopF src mask fb { rest := rest } acc =
      match rest.dropWhile (fun c => !fb.contains c) with
      | [] => ((({ rest := [] } : IStream).exhausted src mask).1, acc ++ rest, (({ rest := [] } : IStream).exhausted src mask).2)
      | c :: r => ({ rest := c :: r }, acc ++ rest.takeWhile (fun c => !fb.contains c), none) := by
  induction rest generalizing acc with
  | nil => rw [readLoopF]; simp [IStream.good]
  | cons c r ih =>
    rw [readLoopF]
    by_cases h : fb.contains c = true
    · simp [IStream.good, h]
    · simp only [IStream.good, Bool.not_false, Bool.and_self, if_true, h]
      simp only [Bool.false_eq_true, if_false, ih, List.dropWhile_cons, h, Bool.not_false, if_true, List.takeWhile_cons, List.append_assoc,
        List.cons_append, List.nil_append]

theorem splitIn_det (blank : CChar → Bool) (fb : CharBitset) {reserved content skipped token rest : Str}
    (hfb : ∀ c, fb.contains c = true ↔ c ∈ reserved) (h : SplitIn blank reserved content skipped token rest) :
    content.dropWhile blank = token ++ rest ∧
    (token ++ rest).takeWhile (fun c => !fb.contains c) = token ∧
    (token ++ rest).dropWhile (fun c => !fb.contains c) = rest := by
  have h1 := takeWhile_append_stop (p := blank) (a := skipped) (b := token ++ rest) h.skipped_ws h.first_not_ws
  have h2 := takeWhile_append_stop (p := fun c => !fb.contains c) (a := token) (b := rest)
    (fun c hc => by have := h.token_legal c hc; rw [← hfb] at this; simpa using this)
    (fun c hc => by have := h.rest_stop c hc; rw [← hfb] at this; simpa using this)
  rw [h.content_eq, List.append_assoc, h1.2]
  exact ⟨rfl, h2.1, h2.2⟩

theorem readTokenF_split (src : Source) (mask : IoMask) (fb : CharBitset) {reserved content skipped token rest : Str}
    (hfb : ∀ c, fb.contains c = true ↔ c ∈ reserved) (h : SplitIn src.blank reserved content skipped token rest) :
    readTokenF src mask fb { rest := content } =
      if rest = [] then
        if src.faulty then
          ({ rest := [], badbit := true }, token, if mask.bad then some .buffer else none)
        else ({ rest := [], eofbit := true }, token, if mask.eof then some .failure else none)
      else ({ rest := rest }, token, none) := by
  obtain ⟨h1, h2, h3⟩ := splitIn_det src.blank fb hfb h
  have hg : ∀ r : Str, (({ rest := r } : IStream)).good = true := fun _ => rfl
  simp only [readTokenF, IStream.wsF, hg, if_true, h1]
  cases hbody : token ++ rest with
  | nil =>
    obtain ⟨rfl, rfl⟩ := List.append_eq_nil_iff.1 hbody
    simp only [if_true, IStream.exhausted]
    cases src.faulty <;> cases hb : mask.bad <;> cases he : mask.eof <;>
      simp [IStream.raise, IStream.throws, IoMask.hits, hb, he] <;> rw [readLoopF] <;> simp [IStream.good]
  | cons c r =>
    simp only []
    rw [← hbody, readLoopF_good, h3, h2]
    cases rest with
    | nil =>
      simp only [List.append_nil, if_true, IStream.exhausted, List.nil_append]
      cases src.faulty <;> cases hb : mask.bad <;> cases he : mask.eof <;>
        simp [IStream.raise, IStream.throws, IoMask.hits, hb, he]
    | cons d s => simp

/-- A split of the content determines what `as_enum` does with a good stream. -/
theorem asEnumExtractSrc_split {V : Type} (src : Source) (md : EnumMd V) (mask : IoMask) {content skipped token rest : Str} (value : V)
    (h : SplitIn src.blank enumReserved content skipped token rest) :
    asEnumExtractSrc src md mask { rest := content } value =
      let st : IStream := ({ rest := rest, eofbit := decide (rest = []) && !src.faulty, badbit := decide (rest = []) && src.faulty })
      if rest = [] ∧ src.faulty = true ∧ mask.bad = true then (st, value, some .buffer)
      else if rest = [] ∧ src.faulty = false ∧ mask.eof = true then (st, value, some .failure)
      else match (if token = [] then none else lookup md.entries token) with
        | some v => (st, v, none)
        | none => ({ st with failbit := true }, value, if mask.fail then some .failure else none) := by
  rw [asEnumExtractSrc, readTokenF_split src mask enumForbiddenCharSet enumSet h]
  simp only [tryEnumFromString, tryEnumFromStringLoop_eq]
  cases hf : src.faulty <;> cases hb : mask.bad <;> cases he : mask.eof <;> by_cases hr : rest = [] <;> by_cases ht : token = [] <;>
    simp [hr, ht, IStream.raise, IStream.throws, IoMask.hits, hb, he] <;> cases lookup md.entries token <;> simp

/-- The same for `as_flags`. -/
theorem asFlagsExtractSrc_split {w : Nat} (src : Source) (md : EnumMd (BitVec w)) (mask : IoMask) {content skipped token rest : Str}
    (value : BitVec w) (h : SplitIn src.blank flagsReserved content skipped token rest) :
    asFlagsExtractSrc src md mask { rest := content } value =
      let st : IStream := ({ rest := rest, eofbit := decide (rest = []) && !src.faulty, badbit := decide (rest = []) && src.faulty })
      if rest = [] ∧ src.faulty = true ∧ mask.bad = true then (st, value, some .buffer)
      else if rest = [] ∧ src.faulty = false ∧ mask.eof = true then (st, value, some .failure)
      else match tokensValue md.entries (flagTokens token) with
        | .ok v => (st, v, none)
        | .error _ => ({ st with failbit := true }, value, if mask.fail then some .failure else none) := by
  rw [asFlagsExtractSrc, readTokenF_split src mask flagsForbiddenCharSet flagsSet h]
  simp only [flagsFromStringNoRaise, flagsFromStringLoop_eq, accValue_zero]
  cases hf : src.faulty <;> cases hb : mask.bad <;> cases he : mask.eof <;> by_cases hr : rest = [] <;>
    simp [hr, IStream.raise, IStream.throws, IoMask.hits, hb, he] <;> cases tokensValue md.entries (flagTokens token) <;> simp

/-- The split computed by the code satisfies the specification. -/
theorem splitIn_run (blank : CChar → Bool) (fb : CharBitset) (reserved content : Str) (hfb : ∀ c, fb.contains c = true ↔ c ∈ reserved) :
    SplitIn blank reserved content (content.takeWhile blank)
      ((content.dropWhile blank).takeWhile (fun c => !fb.contains c))
      ((content.dropWhile blank).dropWhile (fun c => !fb.contains c)) where
  content_eq := by rw [List.append_assoc, List.takeWhile_append_dropWhile, List.takeWhile_append_dropWhile]
  skipped_ws c hc := mem_of_takeWhile hc
  first_not_ws c hc := by
    rw [List.takeWhile_append_dropWhile] at hc
    exact head_dropWhile hc
  token_legal c hc := by
    have := mem_of_takeWhile hc
    rw [← hfb]; simpa using this
  rest_stop c hc := by
    have := head_dropWhile hc
    rw [← hfb]; simpa using this

/-! ## Agreement with the models without faults and in the classic locale -/

/-- Whether something was thrown, as the models without faults put it. -/
def thrown (b : Bool) : Option StreamExc := if b then some .failure else none

theorem readLoopF_classic (mask : IoMask) (fb : CharBitset) (st : IStream) (acc : Str) :
    readLoopF {} mask fb st acc = ((readLoopX mask fb st acc).1, (readLoopX mask fb st acc).2.1, thrown (readLoopX mask fb st acc).2.2) := by
  obtain ⟨rest, e, f, b⟩ := st
  induction rest generalizing acc with
  | nil =>
    rw [readLoopF, readLoopX]
    cases hg : (⟨[], e, f, b⟩ : IStream).good <;> simp [IStream.exhausted, IStream.raise, thrown]
  | cons c r ih =>
    rw [readLoopF, readLoopX]
    cases hg : (⟨c :: r, e, f, b⟩ : IStream).good
    · simp [thrown]
    · simp only [if_true]
      split
      · simp [thrown]
      · exact ih (acc ++ [c])

theorem readTokenF_classic (mask : IoMask) (fb : CharBitset) (st : IStream) :
    readTokenF {} mask fb st = ((readTokenX mask fb st).1, (readTokenX mask fb st).2.1, thrown (readTokenX mask fb st).2.2) := by
  have hw : st.wsF {} mask = ((st.wsX mask).1, thrown (st.wsX mask).2) := by
    simp only [IStream.wsF, IStream.wsX, IStream.ws]
    cases hg : st.good
    · simp [IStream.raise, thrown]
    · simp only [if_true]
      have he : st.eofbit = false := by simp [IStream.good] at hg; exact hg.1.1
      cases hd : st.rest.dropWhile isSpaceC with
      | nil => simp [IStream.exhausted, IStream.raise, thrown]
      | cons c r => simp [thrown, he]
  rw [readTokenF, hw, readTokenX]
  cases hx : (st.wsX mask).2
  · simp [thrown, readLoopF_classic, hx]
  · simp [thrown, hx]

/-- On a stream whose buffer does not fail, in the classic locale, nothing is different from C88. -/
theorem C111_no_fault {V : Type} {w : Nat} (mask : IoMask) (st : IStream) :
    (∀ (md : EnumMd V) (value : V), asEnumExtractSrc {} md mask st value =
      ((asEnumExtractX md mask st value).1, (asEnumExtractX md mask st value).2.1, thrown (asEnumExtractX md mask st value).2.2)) ∧
    (∀ (md : EnumMd (BitVec w)) (value : BitVec w), asFlagsExtractSrc {} md mask st value =
      ((asFlagsExtractX md mask st value).1, (asFlagsExtractX md mask st value).2.1, thrown (asFlagsExtractX md mask st value).2.2)) := by
  refine ⟨fun md value => ?_, fun md value => ?_⟩
  · rw [asEnumExtractSrc, readTokenF_classic, asEnumExtractX]
    obtain ⟨st', s, b⟩ := readTokenX mask enumForbiddenCharSet st
    cases b
    · simp only [thrown, Bool.false_eq_true, if_false]
      cases s.isEmpty
      · by_cases hr : (tryEnumFromString value s md).2 = 0 <;> simp [hr, IStream.raise]
      · simp [IStream.raise]
    · simp [thrown]
  · rw [asFlagsExtractSrc, readTokenF_classic, asFlagsExtractX]
    obtain ⟨st', s, b⟩ := readTokenX mask flagsForbiddenCharSet st
    cases b
    · simp only [thrown, Bool.false_eq_true, if_false]
      by_cases hr : (flagsFromStringNoRaise value s md).2 = 0 <;> simp [hr, IStream.raise]
    · simp [thrown]

/-- The splits of the input of C08 and C09 are those of the classic locale. -/
theorem C111_classic_split (reserved content skipped token rest : Str) :
    SplitIn isSpaceC reserved content skipped token rest ↔ TokenSplit reserved content skipped token rest := by
  constructor
  · intro h
    exact ⟨h.content_eq, fun c hc => (isSpaceC_iff c).1 (h.skipped_ws c hc),
      fun c hc => by rw [← isSpaceC_iff, h.first_not_ws c hc]; simp, h.token_legal, h.rest_stop⟩
  · intro h
    exact ⟨h.content_eq, fun c hc => (isSpaceC_iff c).2 (h.skipped_ws c hc),
      fun c hc => by have := h.first_not_ws c hc; rw [← isSpaceC_iff] at this; simpa using this, h.token_legal, h.rest_stop⟩

/-- In every locale, every content has such a split, so the theorems below cover every good stream. -/
theorem C111_split_exists (blank : CChar → Bool) (content : Str) :
    (∃ skipped token rest, SplitIn blank enumReserved content skipped token rest) ∧
    ∃ skipped token rest, SplitIn blank flagsReserved content skipped token rest :=
  ⟨⟨_, _, _, splitIn_run blank _ _ content enumSet⟩, ⟨_, _, _, splitIn_run blank _ _ content flagsSet⟩⟩

/-! ## Failing buffers -/

/-- If the token ends before the buffer fails, the failure is not noticed: the extraction does what it does on a buffer which does not
fail. -/
theorem C111_fault_after_token {V : Type} {w : Nat} (src : Source) (mask : IoMask) (content skipped token rest : Str) (hr : rest ≠ []) :
    (SplitIn src.blank enumReserved content skipped token rest → ∀ (md : EnumMd V) (value : V),
      asEnumExtractSrc src md mask { rest := content } value =
        asEnumExtractSrc { src with faulty := false } md mask { rest := content } value) ∧
    (SplitIn src.blank flagsReserved content skipped token rest → ∀ (md : EnumMd (BitVec w)) (value : BitVec w),
      asFlagsExtractSrc src md mask { rest := content } value =
        asFlagsExtractSrc { src with faulty := false } md mask { rest := content } value) := by
  refine ⟨fun h md value => ?_, fun h md value => ?_⟩
  · rw [asEnumExtractSrc_split src md mask value h, asEnumExtractSrc_split { src with faulty := false } md mask value h]
    simp [hr]
  · rw [asFlagsExtractSrc_split src md mask value h, asFlagsExtractSrc_split { src with faulty := false } md mask value h]
    simp [hr]

/-- If the buffer fails before the token has ended, `badbit` is set.  With `badbit` in the exception mask, the exception of the buffer is
passed on and the target keeps its value.
Missing for the full claim ("a failed extraction leaves the target unchanged"): without `badbit` in the mask, this holds only if the part
which was read is not a name, see `C111_enum_truncated`. -/
theorem C111_enum_fault_partial {V : Type} (src : Source) (hf : src.faulty = true) (md : EnumMd V) (mask : IoMask)
    (content skipped token : Str) (h : SplitIn src.blank enumReserved content skipped token []) (value : V) :
    let r := asEnumExtractSrc src md mask { rest := content } value
    r.1.rest = [] ∧ r.1.badbit = true ∧ r.1.eofbit = false ∧
    (mask.bad = true → r.2 = (value, some .buffer)) ∧
    (mask.bad = false → token ∉ md.entries.map Prod.snd →
      r.1.failbit = true ∧ r.2.1 = value ∧ (r.2.2 = if mask.fail then some .failure else none)) := by
  rw [asEnumExtractSrc_split src md mask value h]
  cases hb : mask.bad
  · by_cases ht : token = []
    · simp [hf, hb, ht]
    · cases hl : lookup md.entries token with
      | none => simp [hf, hb, ht, hl]
      | some v =>
        have : token ∈ md.entries.map Prod.snd := List.mem_map_of_mem (f := Prod.snd) (lookup_some_mem hl)
        simp only [hf, hb, ht, hl]
        simp [this]
  · simp [hf]

/-- Where the full claim fails: a name which is cut off by the failure is taken for the shorter name it begins with, if there is one.  The
extraction sets `badbit`, and the target is overwritten nevertheless; no exception is thrown, whatever else is in the mask. -/
theorem C111_enum_truncated {V : Type} (src : Source) (hf : src.faulty = true) (md : EnumMd V) (mask : IoMask) (hm : mask.bad = false)
    (content skipped token : Str) (h : SplitIn src.blank enumReserved content skipped token []) (ht : token ≠ []) (v value : V)
    (hl : lookup md.entries token = some v) :
    asEnumExtractSrc src md mask { rest := content } value = ({ rest := [], badbit := true }, v, none) := by
  rw [asEnumExtractSrc_split src md mask value h]
  simp [hf, hm, ht, hl]

/-- The same for flags: what was read before the failure is taken for the whole expression. -/
theorem C111_flags_fault_partial {w : Nat} (src : Source) (hf : src.faulty = true) (md : EnumMd (BitVec w)) (mask : IoMask)
    (content skipped token : Str) (h : SplitIn src.blank flagsReserved content skipped token []) (value : BitVec w) :
    let r := asFlagsExtractSrc src md mask { rest := content } value
    r.1.rest = [] ∧ r.1.badbit = true ∧ r.1.eofbit = false ∧
    (mask.bad = true → r.2 = (value, some .buffer)) ∧
    (mask.bad = false → (¬ ∃ v, parseFlags token md = .ok v) →
      r.1.failbit = true ∧ r.2.1 = value ∧ (r.2.2 = if mask.fail then some .failure else none)) := by
  rw [asFlagsExtractSrc_split src md mask value h]
  cases hb : mask.bad
  · simp only [C06_parse_flags_denotation]
    cases tokensValue md.entries (flagTokens token) <;> simp [hf, hb]
  · simp [hf]

/-- Where the full claim fails for flags. -/
theorem C111_flags_truncated {w : Nat} (src : Source) (hf : src.faulty = true) (md : EnumMd (BitVec w)) (mask : IoMask)
    (hm : mask.bad = false) (content skipped token : Str) (h : SplitIn src.blank flagsReserved content skipped token [])
    (v value : BitVec w) (hp : parseFlags token md = .ok v) :
    asFlagsExtractSrc src md mask { rest := content } value = ({ rest := [], badbit := true }, v, none) := by
  rw [asFlagsExtractSrc_split src md mask value h]
  rw [C06_parse_flags_denotation] at hp
  cases ht : tokensValue md.entries (flagTokens token) <;> simp_all

/-- In particular, if the buffer fails before there is anything but whitespace, the target of `as_flags` is set to no flags. -/
theorem C111_flags_cleared {w : Nat} (src : Source) (hf : src.faulty = true) (md : EnumMd (BitVec w)) (mask : IoMask)
    (hm : mask.bad = false) (content : Str) (hc : ∀ c ∈ content, src.blank c = true) (value : BitVec w) :
    asFlagsExtractSrc src md mask { rest := content } value = ({ rest := [], badbit := true }, 0, none) := by
  refine C111_flags_truncated src hf md mask hm content content [] ⟨by simp, hc, by simp, by simp, by simp⟩ 0 value ?_
  rw [C06_parse_flags_denotation]
  rfl

/-- A stream which is not good is not read from, so it does not matter what its buffer would do. -/
theorem C111_not_good {V : Type} {w : Nat} (src : Source) (mask : IoMask) (st : IStream) (hg : st.good = false) :
    (∀ (md : EnumMd V) (value : V), asEnumExtractSrc src md mask st value = asEnumExtractSrc {} md mask st value) ∧
    (∀ (md : EnumMd (BitVec w)) (value : BitVec w), asFlagsExtractSrc src md mask st value = asFlagsExtractSrc {} md mask st value) := by
  have h : ∀ fb, readTokenF src mask fb st = readTokenF {} mask fb st := by
    intro fb
    have hng : ({ st with failbit := true } : IStream).good = false := by simp [IStream.good]
    have hl : ∀ src', readLoopF src' mask fb { st with failbit := true } [] = ({ st with failbit := true }, [], none) := by
      intro src'; rw [readLoopF]; simp [hng]
    simp only [readTokenF, IStream.wsF, hg, Bool.false_eq_true, if_false]
    cases IStream.raise mask { st with failbit := true }
    · simp only [hl]
    · rfl
  exact ⟨fun md value => by rw [asEnumExtractSrc, h, ← asEnumExtractSrc], fun md value => by rw [asFlagsExtractSrc, h, ← asFlagsExtractSrc]⟩

/-- A table with a name that is the beginning of another. -/
def shapes : List (Nat × Str) := [(0, str "line"), (1, str "line-strip")]

example : SplitIn isSpaceC enumReserved (str " line") (str " ") (str "line") [] ∧ lookup shapes (str "line") = some 0 ∧
    asEnumExtractSrc { faulty := true } ⟨[], shapes⟩ {} { rest := str " line" } 7 = ({ rest := [], badbit := true }, 0, none) :=
  have h : SplitIn isSpaceC enumReserved (str " line") (str " ") (str "line") [] := ⟨by decide, by decide, by decide, by decide, by decide⟩
  ⟨h, by decide, C111_enum_truncated { faulty := true } rfl ⟨[], shapes⟩ {} rfl _ _ _ h (by decide) 0 7 (by decide)⟩

example : SplitIn isSpaceC enumReserved (str " line-s,") (str " ") (str "line-s") (str ",") ∧
    SplitIn isSpaceC enumReserved (str " lin") (str " ") (str "lin") [] ∧ str "lin" ∉ shapes.map Prod.snd ∧
    ({ rest := [], eofbit := true } : IStream).good = false :=
  ⟨⟨by decide, by decide, by decide, by decide, by decide⟩, ⟨by decide, by decide, by decide, by decide, by decide⟩, by decide, rfl⟩

/-! ## Other locales -/

/-- In any locale, on a good stream whose buffer does not fail, the token is what lies between the whitespace of the locale and the next
reserved character; it is read exactly as in the classic locale. -/
theorem C111_locale_enum {V : Type} (blank : CChar → Bool) (md : EnumMd V) (content skipped token rest : Str) (value : V)
    (h : SplitIn blank enumReserved content skipped token rest) :
    let r := asEnumExtractSrc { blank := blank } md {} { rest := content } value
    r.1.rest = rest ∧ (r.1.eofbit = true ↔ rest = []) ∧ r.1.badbit = false ∧ r.2.2 = none ∧
    (r.1.failbit = false ↔ token ≠ [] ∧ token ∈ md.entries.map Prod.snd) ∧
    (r.1.failbit = false → lookup md.entries token = some r.2.1) ∧ (r.1.failbit = true → r.2.1 = value) := by
  rw [asEnumExtractSrc_split { blank := blank } md {} value h]
  by_cases ht : token = []
  · simp [ht]
  · cases hl : lookup md.entries token with
    | none =>
      have := lookup_none_iff.1 hl
      simp [ht] at this ⊢
      simpa using this
    | some v =>
      have : token ∈ md.entries.map Prod.snd := List.mem_map_of_mem (f := Prod.snd) (lookup_some_mem hl)
      simp only [ht]
      simp [ht, this]

/-- The same for flags. -/
theorem C111_locale_flags {w : Nat} (blank : CChar → Bool) (md : EnumMd (BitVec w)) (content skipped token rest : Str) (value : BitVec w)
    (h : SplitIn blank flagsReserved content skipped token rest) :
    let r := asFlagsExtractSrc { blank := blank } md {} { rest := content } value
    r.1.rest = rest ∧ (r.1.eofbit = true ↔ rest = []) ∧ r.1.badbit = false ∧ r.2.2 = none ∧
    (r.1.failbit = false ↔ ∃ v, parseFlags token md = .ok v) ∧
    (r.1.failbit = false → parseFlags token md = .ok r.2.1) ∧ (r.1.failbit = true → r.2.1 = value) := by
  rw [asFlagsExtractSrc_split { blank := blank } md {} value h]
  simp only [C06_parse_flags_denotation]
  cases tokensValue md.entries (flagTokens token) <;> simp

/-- Client program: `for (auto& v : values) stream >> as_enum(v);`. -/
def readEnumsSrc {V : Type} (src : Source) (md : EnumMd V) (init : V) : Nat → IStream → IStream × List V
  | 0, st => (st, [])
  | n + 1, st =>
    let r := asEnumExtractSrc src md {} st init
    let rs := readEnumsSrc src md init n r.1
    (rs.1, r.2.1 :: rs.2)

/-- Round trip in any locale: the names of a sequence of values, separated by characters which are whitespace in the locale and the first
of which is reserved, read back as the same sequence, if no name begins with whitespace of the locale. -/
theorem C111_locale_round_trip {V : Type} [DecidableEq V] (blank : CChar → Bool) (desc : Str) (entries : List (V × Str)) (md : EnumMd V)
    (hmd : makeEnumMetadata desc entries = .ok md) (hnames : (entries.map Prod.snd).Nodup)
    (hlead : ∀ n ∈ entries.map Prod.snd, ∀ c, n.head? = some c → blank c = false) (init : V)
    (items : List (Str × V × Str)) (hv : ∀ it ∈ items, enumToString it.2.1 md = .ok it.2.2)
    (hblank : ∀ it ∈ items, ∀ c ∈ it.1, blank c = true)
    (hsep : ∀ it ∈ items.tail, ∃ c, it.1.head? = some c ∧ c ∈ enumReserved) :
    (readEnumsSrc { blank := blank } md init items.length { rest := (items.map fun it => it.1 ++ it.2.2).flatten }).1.failbit = false ∧
    (readEnumsSrc { blank := blank } md init items.length { rest := (items.map fun it => it.1 ++ it.2.2).flatten }).2 =
      items.map fun it => it.2.1 := by
  have hval : ∀ n ∈ entries.map Prod.snd, n ≠ [] ∧ ∀ c ∈ n, c ∉ enumReserved := by
    by_contra h
    rw [(C12_enum_name_validation desc entries).2 h] at hmd; simp at hmd
  rw [(C12_enum_name_validation desc entries).1 hval] at hmd
  simp only [Outcome.ok.injEq] at hmd; subst hmd
  induction items with
  | nil => simp [readEnumsSrc]
  | cons it r ih =>
    obtain ⟨sep, v, n⟩ := it
    have hn : nameOf entries v = some n := ((C02_enum_to_string v ⟨desc, entries⟩).1 n).1 (hv (sep, v, n) (by simp))
    have hmem : (v, n) ∈ entries := nameOf_some_mem hn
    have hnm : n ∈ entries.map Prod.snd := List.mem_map_of_mem (f := Prod.snd) hmem
    have hl : lookup entries n = some v := lookup_of_nodup hnames hmem
    have hsplit : SplitIn blank enumReserved ((((sep, v, n) :: r).map fun it : Str × V × Str => it.1 ++ it.2.2).flatten) sep n
        ((r.map fun it => it.1 ++ it.2.2).flatten) := by
      refine ⟨by simp, hblank (sep, v, n) (by simp), ?_, (hval n hnm).2, ?_⟩
      · intro c hc
        cases n with
        | nil => exact absurd rfl (hval _ hnm).1
        | cons d s => exact hlead _ hnm c (by simpa using hc)
      · intro c hc
        cases r with
        | nil => simp at hc
        | cons x r' =>
          obtain ⟨d, hd, hd'⟩ := hsep x (by simp)
          obtain ⟨xs, xv, xn⟩ := x
          cases xs with
          | nil => simp at hd
          | cons e t => simp at hc hd; subst hc; subst hd; exact hd'
    have hstep : asEnumExtractSrc { blank := blank } ⟨desc, entries⟩ {}
        { rest := (((sep, v, n) :: r).map fun it : Str × V × Str => it.1 ++ it.2.2).flatten } init =
        ({ rest := (r.map fun it => it.1 ++ it.2.2).flatten, eofbit := decide ((r.map fun it => it.1 ++ it.2.2).flatten = []) }, v, none) := by
      rw [asEnumExtractSrc_split { blank := blank } ⟨desc, entries⟩ {} init hsplit]
      simp only [(hval n hnm).1, hl]
      simp
    simp only [List.length_cons, readEnumsSrc, hstep]
    cases r with
    | nil => simp [readEnumsSrc]
    | cons x r' =>
      have hne : ((x :: r').map fun it : Str × V × Str => it.1 ++ it.2.2).flatten ≠ [] := by
        obtain ⟨d, hd, -⟩ := hsep x (by simp)
        intro h0
        simp only [List.map_cons, List.flatten_cons, List.append_eq_nil_iff] at h0
        rw [h0.1.1] at hd; simp at hd
      have := ih (fun it hit => hblank it (by simp [hit])) (fun it hit => hsep it (List.mem_of_mem_tail hit))
        (fun it hit => hv it (by simp [hit]))
      simp only [hne, decide_false]
      exact ⟨this.1, congrArg (v :: ·) this.2⟩

/-- A Latin-1 locale, where the no-break space (0xA0) is whitespace too. -/
def latin1 (c : CChar) : Bool := isSpaceC c || c == 0xA0

example : makeEnumMetadata [] shapes = .ok ⟨[], shapes⟩ ∧ (shapes.map Prod.snd).Nodup ∧
    (∀ n ∈ shapes.map Prod.snd, ∀ c, n.head? = some c → latin1 c = false) ∧
    enumToString 1 ⟨[], shapes⟩ = .ok (str "line-strip") ∧
    (∀ c ∈ (str "\n" ++ [0xA0, 0xA0]), latin1 c = true) ∧ ∃ c, (str "\n" ++ [0xA0, 0xA0]).head? = some c ∧ c ∈ enumReserved := by
  refine ⟨rfl, by decide, ?_, by decide, by decide, 10, by decide, by decide⟩
  intro n hn c hc
  simp only [shapes, List.map_cons, List.map_nil, List.mem_cons, List.not_mem_nil, or_false] at hn
  rcases hn with rfl | rfl <;> (cases hc; decide)

/-- Where the round trip fails: whitespace of the locale at the beginning of a name is lost, and the name is read as what follows it; unless
that is a name too, the extraction fails.  Name validation (C12) knows nothing of the locale. -/
theorem C111_locale_leading_blank {V : Type} (blank : CChar → Bool) (md : EnumMd V) (lead n : Str) (value : V)
    (hlead : ∀ c ∈ lead, blank c = true) (hn : ∀ c, n.head? = some c → blank c = false) (hlegal : ∀ c ∈ n, c ∉ enumReserved) :
    let r := asEnumExtractSrc { blank := blank } md {} { rest := lead ++ n } value
    (n ∉ md.entries.map Prod.snd → r.1.failbit = true ∧ r.2.1 = value) ∧
    (∀ v, n ≠ [] → lookup md.entries n = some v → r.1.failbit = false ∧ r.2.1 = v) := by
  have h : SplitIn blank enumReserved (lead ++ n) lead n [] := ⟨by simp, hlead, by simpa using hn, hlegal, by simp⟩
  rw [asEnumExtractSrc_split { blank := blank } md {} value h]
  refine ⟨fun hno => ?_, fun v hne hl => ?_⟩
  · rw [lookup_none_iff.2 hno]; simp
  · simp [hne, hl]

example : makeEnumMetadata [] [(0, 0xA0 :: str "x"), (1, str "x")] = .ok ⟨[], [(0, 0xA0 :: str "x"), (1, str "x")]⟩ ∧
    enumToString 0 ⟨[], [(0, 0xA0 :: str "x"), (1, str "x")]⟩ = .ok ([0xA0] ++ str "x") ∧
    (asEnumExtractSrc { blank := latin1 } ⟨[], [(0, 0xA0 :: str "x"), (1, str "x")]⟩ {} { rest := [0xA0] ++ str "x" } 7).2.1 = 1 :=
  ⟨rfl, by decide, ((C111_locale_leading_blank latin1 ⟨[], [(0, 0xA0 :: str "x"), (1, str "x")]⟩ [0xA0] (str "x") 7
    (by decide) (by intro c hc; cases hc; decide) (by decide)).2 1 (by decide) (by decide)).2⟩

/-- Whitespace of the locale that is not reserved does not end a token: names separated by it are read as one token, and the extraction
fails unless that is a name. -/
theorem C111_locale_no_separator {V : Type} (blank : CChar → Bool) (md : EnumMd V) (a b : Str) (c : CChar) (value : V)
    (ha : a ≠ []) (hfirst : ∀ d, a.head? = some d → blank d = false) (hla : ∀ d ∈ a, d ∉ enumReserved) (hlb : ∀ d ∈ b, d ∉ enumReserved)
    (hc : c ∉ enumReserved) (hno : a ++ c :: b ∉ md.entries.map Prod.snd) :
    asEnumExtractSrc { blank := blank } md {} { rest := a ++ c :: b } value = ({ rest := [], eofbit := true, failbit := true }, value, none) := by
  have h : SplitIn blank enumReserved (a ++ c :: b) [] (a ++ c :: b) [] := by
    refine ⟨by simp, by simp, ?_, ?_, by simp⟩
    · intro d hd
      cases a with
      | nil => exact absurd rfl ha
      | cons x t => exact hfirst d (by simpa using hd)
    · intro d hd
      rcases List.mem_append.1 hd with h | h
      · exact hla d h
      · rcases List.mem_cons.1 h with rfl | h
        · exact hc
        · exact hlb d h
  rw [asEnumExtractSrc_split { blank := blank } md {} value h, lookup_none_iff.2 hno]
  simp

example : latin1 0xA0 = true ∧ (0xA0 : CChar) ∉ enumReserved ∧ str "line" ++ 0xA0 :: str "line" ∉ shapes.map Prod.snd ∧
    ∀ d, (str "line").head? = some d → latin1 d = false :=
  ⟨by decide, by decide, by decide, by intro d hd; cases hd; decide⟩

end Makeshift.Props
