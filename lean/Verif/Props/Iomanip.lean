import Verif.Lemmas.Iomanip
import Verif.Spec.Stream
import Verif.Props.Serialize

/-!
# Stream extraction and insertion: C07 - C10
-/

namespace Makeshift.Props

open Spec

theorem isSpaceC_iff (c : CChar) : isSpaceC c = true ↔ c ∈ skippable := by
  simp [isSpaceC, skippable, UInt8.le_iff_toNat_le, ← UInt8.toNat_inj]
  omega

theorem mem_of_takeWhile {p : CChar → Bool} {l : Str} {c : CChar} (h : c ∈ l.takeWhile p) : p c = true := by
  induction l with
  | nil => simp at h
  | cons x xs ih =>
    by_cases hx : p x = true
    · simp only [List.takeWhile_cons, hx, if_true, List.mem_cons] at h
      rcases h with rfl | h
      · exact hx
      · exact ih h
    · simp [hx] at h

/-- The split computed by the code satisfies the specification. -/
theorem tokenSplit_run (fb : CharBitset) (reserved content : Str) (hfb : ∀ c, fb.contains c = true ↔ c ∈ reserved) :
    TokenSplit reserved content (content.takeWhile isSpaceC)
      ((content.dropWhile isSpaceC).takeWhile (fun c => !fb.contains c))
      ((content.dropWhile isSpaceC).dropWhile (fun c => !fb.contains c)) where
  content_eq := by rw [List.append_assoc, List.takeWhile_append_dropWhile, List.takeWhile_append_dropWhile]
  skipped_ws c hc := (isSpaceC_iff c).mp (mem_of_takeWhile hc)
  first_not_ws c hc := by
    rw [List.takeWhile_append_dropWhile] at hc
    rw [← isSpaceC_iff, head_dropWhile hc]; simp
  token_legal c hc := by
    have := mem_of_takeWhile hc
    rw [← hfb]; simpa using this
  rest_stop c hc := by
    have := head_dropWhile hc
    rw [← hfb]; simpa using this

/-- A split determines what the code computes. -/
theorem tokenSplit_det (fb : CharBitset) {reserved content skipped token rest : Str}
    (hfb : ∀ c, fb.contains c = true ↔ c ∈ reserved) (h : TokenSplit reserved content skipped token rest) :
    content.takeWhile isSpaceC = skipped ∧
    (content.dropWhile isSpaceC).takeWhile (fun c => !fb.contains c) = token ∧
    (content.dropWhile isSpaceC).dropWhile (fun c => !fb.contains c) = rest := by
  have h1 := takeWhile_append_stop (p := isSpaceC) (a := skipped) (b := token ++ rest)
    (fun c hc => (isSpaceC_iff c).mpr (h.skipped_ws c hc))
    (fun c hc => by have := h.first_not_ws c hc; rw [← isSpaceC_iff] at this; simpa using this)
  have h2 := takeWhile_append_stop (p := fun c => !fb.contains c) (a := token) (b := rest)
    (fun c hc => by have := h.token_legal c hc; rw [← hfb] at this; simpa using this)
    (fun c hc => by have := h.rest_stop c hc; rw [← hfb] at this; simpa using this)
  rw [h.content_eq, List.append_assoc, h1.1, h1.2]
  exact ⟨rfl, h2.1, h2.2⟩

theorem enumSet (c : CChar) : enumForbiddenCharSet.contains c = true ↔ c ∈ enumReserved := (C12_forbidden_sets c).1
theorem flagsSet (c : CChar) : flagsForbiddenCharSet.contains c = true ↔ c ∈ flagsReserved := (C12_forbidden_sets c).2

/-- The specification leaves no choice: a content has exactly one split. -/
theorem TokenSplit.unique {reserved content a b c a' b' c' : Str}
    (h : TokenSplit reserved content a b c) (h' : TokenSplit reserved content a' b' c') : a = a' ∧ b = b' ∧ c = c' := by
  have hfb := C12_char_set reserved
  obtain ⟨h1, h2, h3⟩ := tokenSplit_det _ hfb h
  obtain ⟨h1', h2', h3'⟩ := tokenSplit_det _ hfb h'
  exact ⟨h1.symm.trans h1', h2.symm.trans h2', h3.symm.trans h3'⟩

/-! ## C08 - `as_enum` reads one token -/

/-- C08: on a good stream, `as_enum` leaves exactly what follows the token; it sets eofbit iff nothing is left; and the
extraction succeeds with value `v` iff the token is the name of `v`. -/
theorem C08_as_enum_token {V : Type} (md : EnumMd V) (content skipped token rest : Str) (value : V)
    (hsplit : TokenSplit enumReserved content skipped token rest) :
    let r := asEnumExtract md { rest := content } value
    r.1.rest = rest ∧ (r.1.eofbit = true ↔ rest = []) ∧ r.1.badbit = false ∧
    (r.1.failbit = false ↔ token ≠ [] ∧ token ∈ md.entries.map Prod.snd) ∧
    (r.1.failbit = false → lookup md.entries token = some r.2) := by
  obtain ⟨-, h2, h3⟩ := tokenSplit_det _ enumSet hsplit
  simp only [asEnumExtract_good, h2, h3]
  by_cases ht : token = []
  · simp [ht]
  · simp only [ht, if_false]
    cases hl : lookup md.entries token with
    | none => simp [lookup_none_iff.mp hl]
    | some v =>
      have := lookup_some_mem hl
      have hm : token ∈ md.entries.map Prod.snd := List.mem_map_of_mem (f := Prod.snd) this
      simp [ht, hm]

/-- C08: every content has such a split, so the theorem above covers every good stream. -/
theorem C08_split_exists (content : Str) : ∃ skipped token rest, TokenSplit enumReserved content skipped token rest :=
  ⟨_, _, _, tokenSplit_run _ _ content enumSet⟩

example : TokenSplit enumReserved (str "  green , ") (str "  ") (str "green") (str " , ") :=
  ⟨by decide, by decide, by decide, by decide, by decide⟩

/-! ## C09 - `as_flags` reads one flags expression -/

/-- C09: on a good stream, `as_flags` leaves exactly what follows the flags expression, which may contain whitespace,
`'+'` and `'|'`; the result is what `parse_flags` gives for that expression. -/
theorem C09_as_flags_token {w : Nat} (md : EnumMd (BitVec w)) (content skipped token rest : Str) (value : BitVec w)
    (hsplit : TokenSplit flagsReserved content skipped token rest) :
    let r := asFlagsExtract md { rest := content } value
    r.1.rest = rest ∧ (r.1.eofbit = true ↔ rest = []) ∧ r.1.badbit = false ∧
    (r.1.failbit = false ↔ ∃ v, parseFlags token md = .ok v) ∧
    (r.1.failbit = false → parseFlags token md = .ok r.2) := by
  obtain ⟨-, h2, h3⟩ := tokenSplit_det _ flagsSet hsplit
  simp only [asFlagsExtract_good, h2, h3, C06_parse_flags_denotation]
  cases tokensValue md.entries (flagTokens token) <;> simp

/-- C09: whitespace, `'+'` and `'|'` do not end a flags expression. -/
theorem C09_not_delimiters (c : CChar) (h : isWs c = true ∨ isFlagDelim c = true) : c ∉ flagsReserved := by
  simp only [isWs, isFlagDelim, Bool.or_eq_true, beq_iff_eq] at h
  rcases h with (((rfl | rfl) | rfl) | rfl) | rfl | rfl <;> decide

/-- C09: every content has such a split. -/
theorem C09_split_exists (content : Str) : ∃ skipped token rest, TokenSplit flagsReserved content skipped token rest :=
  ⟨_, _, _, tokenSplit_run _ _ content flagsSet⟩

example : TokenSplit flagsReserved (str " read + write,exec") (str " ") (str "read + write") (str ",exec") :=
  ⟨by decide, by decide, by decide, by decide, by decide⟩

/-! ## C07 - failed extraction -/

/-- C07 for `as_enum`, in every stream state: failbit afterwards means that the target is unchanged; no failbit means
that the stream was good and the target is the value named by the token. -/
theorem C07_as_enum_failure {V : Type} (md : EnumMd V) (st : IStream) (value : V) :
    let r := asEnumExtract md st value
    (r.1.failbit = true → r.2 = value) ∧
    (r.1.failbit = false → st.good = true ∧ ∃ skipped token rest,
      TokenSplit enumReserved st.rest skipped token rest ∧ lookup md.entries token = some r.2) := by
  by_cases hg : st.good = true
  · have hs := tokenSplit_run _ _ st.rest enumSet
    have h8 := C08_as_enum_token md st.rest _ _ _ value hs
    rw [← good_eq hg] at h8
    refine ⟨?_, fun hf => ⟨hg, _, _, _, hs, h8.2.2.2.2 hf⟩⟩
    rw [good_eq hg, asEnumExtract_good]
    dsimp only
    split <;> simp
  · have hg : st.good = false := by simpa using hg
    unfold asEnumExtract
    rw [readToken_notGood _ _ hg]
    simp

/-- C07 for `as_flags` on a good stream.  Missing for the full claim: streams that are not good, where it is false. -/
theorem C07_as_flags_failure_partial {w : Nat} (md : EnumMd (BitVec w)) (content : Str) (value : BitVec w) :
    let r := asFlagsExtract md { rest := content } value
    (r.1.failbit = true → r.2 = value) ∧
    (r.1.failbit = false → ∃ skipped token rest,
      TokenSplit flagsReserved content skipped token rest ∧ parseFlags token md = .ok r.2) := by
  have hs := tokenSplit_run _ _ content flagsSet
  refine ⟨?_, fun hf => ⟨_, _, _, hs, (C09_as_flags_token md content _ _ _ value hs).2.2.2.2 hf⟩⟩
  rw [asFlagsExtract_good]
  dsimp only
  split <;> simp

/-- C07, where it fails: on every stream that is not good, `as_flags` reports failure and nevertheless overwrites the
target with the empty set. -/
theorem C07_as_flags_clobbers_on_bad_stream {w : Nat} (md : EnumMd (BitVec w)) (st : IStream) (value : BitVec w)
    (h : st.good = false) :
    (asFlagsExtract md st value).1.failbit = true ∧ (asFlagsExtract md st value).2 = 0#w := by
  unfold asFlagsExtract
  rw [readToken_notGood _ _ h]
  simp [flagsFromStringNoRaise, flagsFromStringLoop_nil]

/-- C07 for sequences: after a failure nothing more is read; enum targets keep their values, flags targets are overwritten. -/
theorem C07_sequence_after_failure {w : Nat} {V : Type} (md : EnumMd V) (md' : EnumMd (BitVec w)) (init : V) (init' : BitVec w) (n : Nat)
    (st : IStream) (h : st.good = false) :
    readEnums md init (n + 1) st = ({ st with failbit := true }, List.replicate (n + 1) init) ∧
    readFlags md' init' (n + 1) st = ({ st with failbit := true }, List.replicate (n + 1) 0#w) := by
  have he : ∀ st : IStream, st.good = false → asEnumExtract md st init = ({ st with failbit := true }, init) := by
    intro st h
    unfold asEnumExtract
    rw [readToken_notGood _ _ h]
    simp
  have hf : ∀ st : IStream, st.good = false → asFlagsExtract md' st init' = ({ st with failbit := true }, 0#w) := by
    intro st h
    unfold asFlagsExtract
    rw [readToken_notGood _ _ h]
    simp [flagsFromStringNoRaise, flagsFromStringLoop_nil]
  have hbad : ∀ st : IStream, ({ st with failbit := true } : IStream).good = false := fun st => by simp [IStream.good]
  induction n generalizing st with
  | zero => exact ⟨by simp [readEnums, he st h], by simp [readFlags, hf st h]⟩
  | succ n ih =>
    obtain ⟨h1, h2⟩ := ih { st with failbit := true } (hbad st)
    constructor
    · rw [readEnums, he st h]
      simp only [h1]
      simp [List.replicate_succ]
    · rw [readFlags, hf st h]
      have : ({ st with failbit := true } : IStream).skip1 = { st with failbit := true } := by simp [IStream.skip1, hbad]
      simp only [this, h2]
      simp [List.replicate_succ]

example : ({ rest := str "read,exec", eofbit := true } : IStream).good = false := rfl

/-- C07: with nothing but whitespace to read, `as_flags` succeeds with the empty set while `as_enum` fails. -/
theorem C07_nothing_to_read {w : Nat} {V : Type} (md : EnumMd (BitVec w)) (md' : EnumMd V) (content : Str)
    (hc : ∀ c ∈ content, c ∈ skippable) (value : BitVec w) (value' : V) :
    asFlagsExtract md { rest := content } value = ({ rest := [], eofbit := true }, 0#w) ∧
    asEnumExtract md' { rest := content } value' = ({ rest := [], eofbit := true, failbit := true }, value') := by
  have : content.dropWhile isSpaceC = [] := by
    have := dropWhile_append_all (p := isSpaceC) (a := content) (b := []) (fun c h => (isSpaceC_iff c).mpr (hc c h))
    simpa using this
  constructor
  · rw [asFlagsExtract_good, this]
    have ht : flagTokens [] = [] := by decide
    simp [ht, tokensValue]
  · rw [asEnumExtract_good, this]; simp

example : ({ rest := str "read", failbit := true } : IStream).good = false ∧
    (asFlagsExtract permsMd.toEnumMd { rest := str "read", failbit := true } 3#8).2 ≠ 3#8 :=
  ⟨rfl, by rw [(C07_as_flags_clobbers_on_bad_stream _ _ _ rfl).2]; decide⟩
example : ∀ c ∈ str " \n", c ∈ skippable := by decide

/-! ## C10 - sequences -/

theorem ws_skippable {c : CChar} (h : isWs c = true) : c ∈ skippable := (isSpaceC_iff c).mp (isSpaceC_of_isWs h)

/-- Names that survive `std::ws`: they do not begin with a character it skips. -/
def NoLeadingSpace (n : Str) : Prop := ∀ c, n.head? = some c → c ∉ skippable

theorem writeEnums_eq {V : Type} [DecidableEq V] (md : EnumMd V) (name : V → Str) (items : List (Str × V))
    (h : ∀ it ∈ items, enumToString it.2 md = .ok (name it.2)) (out : Str) :
    writeEnums md out items = .ok (out ++ (items.map (fun it => it.1 ++ name it.2)).flatten) := by
  induction items generalizing out with
  | nil => simp [writeEnums]
  | cons it r ih =>
    obtain ⟨sep, v⟩ := it
    simp only [writeEnums, asEnumInsert]
    rw [h (sep, v) (by simp)]
    simp only [Outcome.mapVal, Outcome.bind]
    rw [ih (fun x hx => h x (by simp [hx]))]
    simp

theorem readEnums_eq {V : Type} (md : EnumMd V) (name : V → Str) (init : V) (items : List (Str × V))
    (hname : ∀ it ∈ items, name it.2 ≠ [] ∧ (∀ c ∈ name it.2, c ∉ enumReserved) ∧ NoLeadingSpace (name it.2) ∧
      lookup md.entries (name it.2) = some it.2)
    (hsep : ∀ it ∈ items, AllWs it.1) (hsep' : ∀ it ∈ items.tail, it.1 ≠ [])
    (trail : Str) (htrail : AllWs trail) (st : IStream) (hst : items ≠ [] → st.good = true) (hf : st.failbit = false)
    (hrest : st.rest = (items.map (fun it => it.1 ++ name it.2)).flatten ++ trail) :
    (readEnums md init items.length st).1.failbit = false ∧ (readEnums md init items.length st).2 = items.map Prod.snd := by
  induction items generalizing st with
  | nil => simp [readEnums, hf]
  | cons it r ih =>
    obtain ⟨sep, v⟩ := it
    obtain ⟨hn0, hnr, hns, hl⟩ := hname (sep, v) (by simp)
    have hsplit : TokenSplit enumReserved st.rest sep (name v) ((r.map (fun it => it.1 ++ name it.2)).flatten ++ trail) := by
      refine ⟨by rw [hrest]; simp, fun c hc => ws_skippable (hsep (sep, v) (by simp) c hc), ?_, hnr, ?_⟩
      · intro c hc
        apply hns c
        cases hnv : name v with
        | nil => exact absurd hnv hn0
        | cons x xs => rw [hnv] at hc; simpa using hc
      · intro c hc
        cases r with
        | nil => exact ws_reserved (htrail c (List.mem_of_head? (by simpa using hc)))
        | cons it' r' =>
          have h1 := hsep' it' (by simp)
          have h2 := hsep it' (by simp)
          cases hs : it'.1 with
          | nil => exact absurd hs h1
          | cons x xs =>
            simp only [List.map_cons, List.flatten_cons, hs, List.cons_append, List.head?_cons, Option.some.injEq] at hc
            subst hc
            exact ws_reserved (h2 x (by simp [hs]))
    have h8 := C08_as_enum_token md st.rest _ _ _ init hsplit
    rw [← good_eq (hst (by simp))] at h8
    obtain ⟨e1, e2, e3, e4, e5⟩ := h8
    have hfb : (asEnumExtract md st init).1.failbit = false :=
      e4.mpr ⟨hn0, List.mem_map_of_mem (f := Prod.snd) (lookup_some_mem hl)⟩
    have hv := e5 hfb
    rw [hl, Option.some.injEq] at hv
    have := ih (fun x hx => hname x (by simp [hx])) (fun x hx => hsep x (by simp [hx]))
      (fun x hx => hsep' x (by simpa using List.mem_of_mem_tail hx)) (asEnumExtract md st init).1
      (by
        intro hr
        have hne : (r.map (fun it => it.1 ++ name it.2)).flatten ++ trail ≠ [] := by
          cases r with
          | nil => exact absurd rfl hr
          | cons it' r' =>
            intro h0
            simp only [List.map_cons, List.flatten_cons, List.append_eq_nil_iff] at h0
            exact hsep' it' (by simp) h0.1.1.1
        have : (asEnumExtract md st init).1.eofbit = false := by
          cases he : (asEnumExtract md st init).1.eofbit with
          | false => rfl
          | true => exact absurd (e2.mp he) hne
        simp [IStream.good, this, hfb, e3]) hfb e1
    simp only [List.length_cons, readEnums, List.map_cons]
    exact ⟨this.1, by rw [this.2, ← hv]⟩

/-- C10 for enums: writing a sequence of listed values with whitespace between them and reading the same number of
values back gives the sequence, without failbit. -/
theorem C10_enum_sequence_round_trip {V : Type} [DecidableEq V] (desc : Str) (entries : List (V × Str)) (md : EnumMd V)
    (hmd : makeEnumMetadata desc entries = .ok md) (hnames : (entries.map Prod.snd).Nodup)
    (hlead : ∀ n ∈ entries.map Prod.snd, NoLeadingSpace n) (init : V) (items : List (Str × V))
    (hv : ∀ it ∈ items, it.2 ∈ entries.map Prod.fst) (hsep : ∀ it ∈ items, AllWs it.1)
    (hsep' : ∀ it ∈ items.tail, it.1 ≠ []) :
    ∃ text, writeEnums md [] items = .ok text ∧
      (readEnums md init items.length { rest := text }).1.failbit = false ∧
      (readEnums md init items.length { rest := text }).2 = items.map Prod.snd := by
  have hval : ∀ n ∈ entries.map Prod.snd, n ≠ [] ∧ ∀ c ∈ n, c ∉ enumReserved := by
    by_contra h
    rw [(C12_enum_name_validation desc entries).2 h] at hmd; simp at hmd
  rw [(C12_enum_name_validation desc entries).1 hval] at hmd
  simp only [Outcome.ok.injEq] at hmd; subst hmd
  have hn : ∀ it ∈ items, nameOf entries it.2 = some ((nameOf entries it.2).getD []) := by
    intro it hit
    obtain ⟨n, h⟩ := nameOf_isSome_iff.mpr (hv it hit)
    simp [h]
  refine ⟨_, writeEnums_eq _ (fun v => (nameOf entries v).getD []) items
    (fun it hit => ((C02_enum_to_string _ _).1 _).mpr (hn it hit)) [], ?_⟩
  refine readEnums_eq _ (fun v => (nameOf entries v).getD []) init items ?_ hsep hsep' [] (by simp [AllWs]) _ (fun _ => rfl) rfl (by simp)
  intro it hit
  have hmem := nameOf_some_mem (hn it hit)
  have hm2 := List.mem_map_of_mem (f := Prod.snd) hmem
  exact ⟨(hval _ hm2).1, (hval _ hm2).2, hlead _ hm2, lookup_of_nodup hnames hmem⟩

example : makeEnumMetadata (str "color") colors = .ok colorsMd ∧ (colors.map Prod.snd).Nodup ∧
    (∀ n ∈ colors.map Prod.snd, NoLeadingSpace n) ∧
    (∀ it ∈ [(str "", 2), (str " \n", 0), (str "\t", 1)], it.2 ∈ colors.map Prod.fst ∧ AllWs it.1) :=
  ⟨colorsMd_ok, by decide, by unfold NoLeadingSpace; decide, by unfold AllWs; decide⟩

/-- C10, why the leading character matters: the library accepts a name beginning with a vertical tab, which cannot be
read back from a stream. -/
theorem C10_leading_vertical_tab_is_lost :
    ∃ (entries : List (Nat × Str)) (md : EnumMd Nat) (text : Str), makeEnumMetadata [] entries = .ok md ∧
      (entries.map Prod.snd).Nodup ∧ writeEnums md [] [([], 1)] = .ok text ∧
      (readEnums md 0 1 { rest := text }).1.failbit = true := by
  refine ⟨[(1, [11, 97])], ⟨[], [(1, [11, 97])]⟩, [11, 97], ?_, by decide, by decide, ?_⟩
  · exact (C12_enum_name_validation [] _).1 (by decide)
  · simp only [readEnums, asEnumExtract_good]; decide

theorem mem_join {sep : Str} {c : CChar} {L : List Str} (h : c ∈ join sep L) : c ∈ sep ∨ ∃ n ∈ L, c ∈ n := by
  induction L with
  | nil => simp at h
  | cons a r ih =>
    cases r with
    | nil => exact Or.inr ⟨a, by simp, by simpa using h⟩
    | cons b r' =>
      rw [join_cons_cons, List.mem_append, List.mem_append] at h
      rcases h with (h | h) | h
      · exact Or.inr ⟨a, by simp, h⟩
      · exact Or.inl h
      · rcases ih h with h | ⟨n, hn, hc⟩
        · exact Or.inl h
        · exact Or.inr ⟨n, by simp [hn], hc⟩

theorem head_join {sep : Str} {c : CChar} {L : List Str} (hne : ∀ n ∈ L, n ≠ []) (h : (join sep L).head? = some c) :
    ∃ n ∈ L, n.head? = some c := by
  cases L with
  | nil => simp at h
  | cons a r =>
    refine ⟨a, by simp, ?_⟩
    have ha := hne a (by simp)
    cases a with
    | nil => exact absurd rfl ha
    | cons x xs =>
      cases r with
      | nil => simpa using h
      | cons b r' => rw [join_cons_cons] at h; simpa using h

theorem writeFlags_eq {w : Nat} (md : FlagsMd w) (text : BitVec w → Str) (vs : List (BitVec w))
    (h : ∀ v ∈ vs, flagsToString v md = .ok (text v)) (out : Str) :
    writeFlags md out vs = .ok (out ++ join (str ",") (vs.map text)) := by
  induction vs generalizing out with
  | nil => simp [writeFlags]
  | cons v r ih =>
    have hv := h v (by simp)
    cases r with
    | nil => simp [writeFlags, asFlagsInsert, hv, Outcome.mapVal]
    | cons v' r' =>
      simp only [writeFlags, asFlagsInsert, hv, Outcome.mapVal, Outcome.bind]
      rw [ih (fun x hx => h x (by simp [hx]))]
      simp [join_cons_cons]

theorem readFlags_eq {w : Nat} (md : EnumMd (BitVec w)) (text : BitVec w → Str) (init : BitVec w) (vs : List (BitVec w))
    (ht : ∀ v ∈ vs, (∀ c ∈ text v, c ∉ flagsReserved) ∧ NoLeadingSpace (text v) ∧ parseFlags (text v) md = .ok v)
    (hne : vs ≠ []) :
    (readFlags md init vs.length { rest := join (str ",") (vs.map text) }).1.failbit = false ∧
    (readFlags md init vs.length { rest := join (str ",") (vs.map text) }).2 = vs := by
  induction vs with
  | nil => exact absurd rfl hne
  | cons v r ih =>
    obtain ⟨h1, h2, h3⟩ := ht v (by simp)
    cases r with
    | nil =>
      have hsplit : TokenSplit flagsReserved (text v) [] (text v) [] :=
        ⟨by simp, by simp, fun c hc => h2 c (by simpa using hc), h1, by simp⟩
      obtain ⟨e1, e2, e3, e4, e5⟩ := C09_as_flags_token md (text v) _ _ _ init hsplit
      have hf := e4.mpr ⟨v, h3⟩
      have := e5 hf
      rw [h3, Outcome.ok.injEq] at this
      simp only [List.map_cons, List.map_nil, join_singleton, List.length_singleton, readFlags]
      exact ⟨hf, by rw [← this]⟩
    | cons v' r' =>
      have hsplit : TokenSplit flagsReserved (join (str ",") ((v :: v' :: r').map text)) [] (text v)
          (str "," ++ join (str ",") ((v' :: r').map text)) := by
        refine ⟨by simp [join_cons_cons], by simp, ?_, h1, ?_⟩
        · intro c hc
          cases hx : text v with
          | nil =>
            rw [hx] at hc
            have : c = 44 := by
              have h44 : str "," = [44] := by decide
              rw [h44] at hc; simpa using hc.symm
            subst this; decide
          | cons x xs => rw [hx] at hc; exact h2 c (by rw [hx]; simpa using hc)
        · intro c hc
          have h44 : str "," = [44] := by decide
          rw [h44] at hc
          have : c = 44 := by simpa using hc.symm
          subst this; decide
      obtain ⟨e1, e2, e3, e4, e5⟩ := C09_as_flags_token md _ _ _ _ init hsplit
      have hf := e4.mpr ⟨v, h3⟩
      have hv := e5 hf
      rw [h3, Outcome.ok.injEq] at hv
      have h44 : str "," = [44] := by decide
      have hskip : (asFlagsExtract md { rest := join (str ",") ((v :: v' :: r').map text) } init).1.skip1 =
          { rest := join (str ",") ((v' :: r').map text) } := by
        generalize (asFlagsExtract md { rest := join (str ",") ((v :: v' :: r').map text) } init).1 = st at *
        obtain ⟨r0, e0, f0, b0⟩ := st
        simp only at e1 e2 e3 hf
        have he : e0 = false := by
          cases e0 with
          | false => rfl
          | true => have := e2.mp rfl; rw [h44] at this; simp at this
        subst he e1 e3 hf
        rw [h44]
        simp [IStream.skip1, IStream.good]
      have := ih (fun x hx => ht x (by simp [hx])) (by simp)
      simp only [List.length_cons, readFlags] at this ⊢
      rw [hskip]
      exact ⟨this.1, by rw [this.2, ← hv]⟩

/-- The text of a flags value can be read back. -/
theorem flags_text {w : Nat} (desc : Str) (entries : List (BitVec w × Str)) (md : FlagsMd w)
    (hmd : makeFlagsMetadata desc entries = .ok md) (hnames : (entries.map Prod.snd).Nodup)
    (hclean : ∀ n ∈ entries.map Prod.snd, CleanFlagName n) (hlead : ∀ n ∈ entries.map Prod.snd, NoLeadingSpace n)
    (v : BitVec w) (hv : SubBits v (union (entries.map Prod.fst))) :
    ∃ s, flagsToString v md = .ok s ∧ (∀ c ∈ s, c ∉ flagsReserved) ∧ NoLeadingSpace s ∧ parseFlags s md.toEnumMd = .ok v := by
  have hval : ∀ n ∈ entries.map Prod.snd, ∀ c ∈ n, c ∉ flagsReserved := by
    rw [makeFlagsMetadata_eq] at hmd
    split at hmd
    case isFalse => simp at hmd
    case isTrue h => first | exact fun n hn => (h n hn).2 | exact fun n hn => (h.1 n hn).2
  obtain ⟨s, hs, hp⟩ := C04_flags_round_trip desc entries md hmd hnames hclean v hv
  refine ⟨s, hs, ?_⟩
  by_cases h0 : v = 0#w
  · subst h0
    rw [C05_flags_to_string_zero desc entries md hmd, Outcome.ok.injEq] at hs
    cases hn : nameOf entries 0#w with
    | none => rw [hn] at hs; subst hs; exact ⟨by simp, fun c hc => by simp at hc, hp⟩
    | some n =>
      rw [hn] at hs; subst hs
      have := List.mem_map_of_mem (f := Prod.snd) (nameOf_some_mem hn)
      exact ⟨hval _ this, hlead _ this, hp⟩
  · obtain ⟨L, hs', hsub, -, -, -⟩ := C05_flags_to_string_shape desc entries md hmd v h0 hv
    rw [hs, Outcome.ok.injEq] at hs'
    subst hs'
    have hL : ∀ n ∈ L.map Prod.snd, n ∈ entries.map Prod.snd := fun n hn => (hsub.map Prod.snd).subset hn
    refine ⟨?_, ?_, hp⟩
    · intro c hc
      rcases mem_join hc with h | ⟨n, hn, hcn⟩
      · have : c = 43 := by
          have h43 : str "+" = [43] := by decide
          rw [h43] at h; simpa using h
        subst this; decide
      · exact hval n (hL n hn) c hcn
    · intro c hc
      obtain ⟨n, hn, hcn⟩ := head_join (fun n hn => (hclean n (hL n hn)).1) hc
      exact hlead n (hL n hn) c hcn

/-- C10 for flags: writing a non-empty sequence of flags values separated by commas and reading it back, skipping one
character between values, gives the sequence, without failbit. -/
theorem C10_flags_sequence_round_trip {w : Nat} (desc : Str) (entries : List (BitVec w × Str)) (md : FlagsMd w)
    (hmd : makeFlagsMetadata desc entries = .ok md) (hnames : (entries.map Prod.snd).Nodup)
    (hclean : ∀ n ∈ entries.map Prod.snd, CleanFlagName n) (hlead : ∀ n ∈ entries.map Prod.snd, NoLeadingSpace n)
    (init : BitVec w) (vs : List (BitVec w)) (hne : vs ≠ [])
    (hv : ∀ v ∈ vs, SubBits v (union (entries.map Prod.fst))) :
    ∃ text, writeFlags md [] vs = .ok text ∧
      (readFlags md.toEnumMd init vs.length { rest := text }).1.failbit = false ∧
      (readFlags md.toEnumMd init vs.length { rest := text }).2 = vs := by
  have key : ∀ v, ∃ s, v ∈ vs → flagsToString v md = .ok s ∧ (∀ c ∈ s, c ∉ flagsReserved) ∧ NoLeadingSpace s ∧
      parseFlags s md.toEnumMd = .ok v := by
    intro v
    by_cases hm : v ∈ vs
    · obtain ⟨s, hs⟩ := flags_text desc entries md hmd hnames hclean hlead v (hv v hm)
      exact ⟨s, fun _ => hs⟩
    · exact ⟨[], fun h => absurd h hm⟩
  obtain ⟨text, ht⟩ := Classical.skolem.mp key
  refine ⟨_, writeFlags_eq md text vs (fun v hm => (ht v hm).1) [], ?_⟩
  exact readFlags_eq md.toEnumMd text init vs (fun v hm => (ht v hm).2) hne

example : makeFlagsMetadata (str "perm") perms = .ok permsMd ∧ (perms.map Prod.snd).Nodup ∧
    (∀ n ∈ perms.map Prod.snd, CleanFlagName n) ∧ (∀ n ∈ perms.map Prod.snd, NoLeadingSpace n) ∧
    (∀ v ∈ [0x82#8, 0#8, 0x01#8], SubBits v (union (perms.map Prod.fst))) :=
  ⟨permsMd_ok, by decide, perms_clean, by unfold NoLeadingSpace; decide,
    fun v hv => (and_not_eq_zero _ _).mp (by revert v; decide)⟩

end Makeshift.Props
