import Verif.Lemmas.StreamLoops

/-!
# Reading lists of unknown length: C143
-/

namespace Makeshift.Props

open Makeshift.Spec Makeshift.StreamLoops Makeshift.StreamLoops.Spec

private def fruits : EnumMd Int := { description := str "fruit", entries := [(1, str "apple"), (-3, str "pear")] }

private theorem fruits_ok : makeEnumMetadata (str "fruit") fruits.entries = .ok fruits := (C12_enum_name_validation _ _).1 (by decide)

/-- A list of lists of pairs of a fruit and permissions. -/
private def baskets : Schema := .list (.pair (.enum fruits) (.flags 8 permsMd))

private theorem baskets_usable : Usable baskets :=
  ⟨⟨⟨_, fruits_ok⟩, by decide, by unfold NoLead; decide⟩, ⟨_, _, permsMd_ok, by decide, perms_clean, by unfold NoLead; decide⟩⟩

private def someBaskets : List (List (Int × BitVec 8)) := [[(1, 3#8), (-3, 0#8)], []]

private theorem perms_sub (b : BitVec 8) (hb : b &&& 0x83 = b) : SubBits b (union (permsMd.entries.map Prod.fst)) := by
  have hu : union (permsMd.entries.map Prod.fst) = 0x83 := by decide
  rw [hu]
  intro i hi
  rw [← hb, BitVec.getLsbD_and, Bool.and_eq_true] at hi
  exact hi.2

private theorem someBaskets_writable : Writable (.list baskets) someBaskets := by
  have h : ∀ v ∈ someBaskets, ∀ x ∈ v, x.1 ∈ fruits.entries.map Prod.fst ∧ x.2 &&& 0x83 = x.2 := by decide
  exact ⟨fun v hv => ⟨fun x hx => ⟨(h v hv x hx).1, perms_sub _ (h v hv x hx).2⟩, fun h => h⟩, fun h => h⟩

/-- C143: a list of documents is written, and read back from any stream which begins with that text; the reader stops just behind the closing bracket. -/
theorem C143_round_trip (s : Schema) (vs : Val (.list s)) (hu : Usable (.list s)) (hw : Writable (.list s) vs) :
    ∃ text, write (.list s) vs [] = .ok text ∧
      ∀ rest n, text.length ≤ n → read n (.list s) { rest := text ++ rest } = some ({ rest := rest }, some vs) := by
  obtain ⟨text, hwr, ht, -⟩ := write_text (.list s) vs hu hw
  have hlast : text.getLast? = some 93 := by
    obtain ⟨ts, hts, hwi⟩ := writeItems_texts (write s) (fun _ _ => True) vs fun x hx => by
      obtain ⟨t, ht⟩ := write_text s x hu (hw.1 x hx)
      exact ⟨t, ht.1, trivial⟩
    have h1 := hwr []
    simp only [write, hwi, Outcome.bind, Outcome.ok.injEq, List.nil_append] at h1
    rw [← h1, str_close]
    simp
  refine ⟨text, by simpa using hwr [], fun rest n hn => ?_⟩
  obtain ⟨b, -, hb, hr⟩ := read_list ht n hn (fun v u hu hl => read_text n s v u hu hl) rest
  rw [hb 93 hlast (by decide)] at hr
  simpa using hr

example : Usable (.list baskets) ∧ Writable (.list baskets) someBaskets ∧
    write (.list baskets) someBaskets [] = .ok (str "[[apple:read+write,pear:none],[]]") :=
  ⟨baskets_usable, someBaskets_writable, by decide⟩

/-- C143: the reader accepts every text of a list, with whitespace between the names and the punctuation, and other expressions for the same flags.  Only
whitespace which follows the closing bracket is left. -/
theorem C143_texts (s : Schema) (vs : Val (.list s)) (text : Str) (h : IsText (.list s) vs text) (rest : Str) (n : Nat) (hn : text.length ≤ n) :
    ∃ blank, AllWs blank ∧ read n (.list s) { rest := text ++ rest } = some ({ rest := blank ++ rest }, some vs) := by
  obtain ⟨b, h1, -, h2⟩ := read_list h n hn (fun v u hu hl => read_text n s v u hu hl) rest
  exact ⟨b, h1, h2⟩

example : IsText (.list (.enum fruits)) ([-3, 1] : List Int) (str " [ pear, apple ]") := by
  have h0 : AllWs (str " ") ∧ AllWs [] := by unfold AllWs; decide
  have h1 : NoLead (str "pear") ∧ NoLead (str "apple") := by unfold NoLead; decide
  have h2 : lookup fruits.entries (str "pear") = some (-3 : Int) ∧ lookup fruits.entries (str "apple") = some (1 : Int) := by decide
  exact ⟨str " ", str " pear, apple ", [], by decide, h0.1, h0.2, .inr ⟨List.cons_ne_nil _ _, ⟨112, by decide, by decide⟩, [str " pear", str " apple "],
    .cons ⟨str " ", str "pear", [], by decide, h0.1, h0.2, by decide, h1.1, by decide, h2.1⟩
      (.cons ⟨str " ", str "apple", str " ", by decide, h0.1, h0.1, by decide, h1.2, by decide, h2.2⟩ .nil), by decide⟩⟩

/-- C143: a text means at most one value. -/
theorem C143_texts_unique (s : Schema) (vs vs' : Val (.list s)) (text : Str) (h : IsText (.list s) vs text) (h' : IsText (.list s) vs' text) : vs = vs' := by
  obtain ⟨b, -, h1⟩ := C143_texts s vs text h [] text.length (Nat.le_refl _)
  obtain ⟨b', -, h2⟩ := C143_texts s vs' text h' [] text.length (Nat.le_refl _)
  rw [h1] at h2
  simp only [Option.some.injEq, Prod.mk.injEq] at h2
  exact h2.2

example : IsText (.list (.flags 8 permsMd)) ([3#8] : List (BitVec 8)) (str "[read + write]") := by
  have h0 : AllWs [] := by unfold AllWs; decide
  exact ⟨[], str "read + write", [], by decide, h0, h0, .inr ⟨List.cons_ne_nil _ _, ⟨114, by decide, by decide⟩, [str "read + write"],
    .cons ⟨[], str "read + write", by decide, h0, by unfold NoLead; decide, by decide, by rfl⟩ .nil, by decide⟩⟩

/-- C143: the reader ends, whatever the stream holds: it does at most one iteration per character. -/
theorem C143_reader_ends (s : Schema) (st : IStream) (n : Nat) (hn : st.rest.length < n) : ∃ st' o, read n s st = some (st', o) ∧
    st'.rest.length ≤ st.rest.length := by
  obtain ⟨⟨st', o⟩, h1, h2⟩ := read_ends n s st hn
  exact ⟨st', o, h1, h2⟩

example : ((read 20 (.list (.enum fruits)) { rest := str "[pear apple" }).map fun q => (q.1, (q.2 : Option (List Int)))) =
    some ({ rest := str "pple" }, none) := by decide +kernel

/-- C143: what has been read does not depend on what follows. -/
theorem C143_no_lookahead (s : Schema) (n : Nat) (text : Str) (st : IStream) (vs : Val (.list s)) (h : read n (.list s) { rest := text } = some (st, some vs))
    (more : Str) : read n (.list s) { rest := text ++ more } = some ({ rest := st.rest ++ more }, some vs) := by
  obtain ⟨e1, e2⟩ := list_extends (n := n) (read_extends n s)
  exact (e1 _ _ _ h (e2 _ _ _ h)).2 more

example : ((read 20 (.list (.enum fruits)) { rest := str "[pear] x" }).map fun q => (q.1, (q.2 : Option (List Int)))) =
    some ({ rest := str " x" }, some [-3]) := by decide +kernel

/-- C143: a text which is rejected before the end of the input has been reached is rejected whatever follows. -/
theorem C143_rejected (s : Schema) (n : Nat) (text : Str) (st : IStream) (h : read n s { rest := text } = some (st, none)) (he : st.eofbit = false) (more : Str) :
    ∃ st', read n s { rest := text ++ more } = some (st', none) :=
  (read_cut n s _ _ _ h).2.2 rfl he rfl more

example : ((read 20 (.list (.enum fruits)) { rest := str "[pear:apple]" }).map fun q => (q.1, (q.2 : Option (List Int)))) =
    some ({ rest := str "apple]" }, none) := by decide +kernel

/-- C143: a list which has been cut off, wherever, is rejected, and `eof()` tells that the input has ended too early. -/
theorem C143_truncated (s : Schema) (vs : Val (.list s)) (hu : Usable (.list s)) (hw : Writable (.list s) vs) (text front back : Str)
    (ht : write (.list s) vs [] = .ok text) (hcut : text = front ++ back) (hb : back ≠ []) (n : Nat) (hn : text.length ≤ n) :
    ∃ st, read n (.list s) { rest := front } = some (st, none) ∧ st.eofbit = true := by
  obtain ⟨text', h1, h2⟩ := C143_round_trip s vs hu hw
  rw [ht, Outcome.ok.injEq] at h1
  subst h1
  have hlen : front.length < n := by
    have : 0 < back.length := List.length_pos_iff.mpr hb
    rw [hcut, List.length_append] at hn; omega
  obtain ⟨st', o, hr, -⟩ := C143_reader_ends (.list s) { rest := front } n hlen
  cases o with
  | none =>
    refine ⟨st', hr, ?_⟩
    by_contra he
    obtain ⟨st'', h3⟩ := C143_rejected (.list s) n front st' hr (by simpa using he) back
    rw [← hcut] at h3
    have h4 := h2 [] n hn
    rw [List.append_nil, h3] at h4
    cases h4
  | some a =>
    have h3 := C143_no_lookahead s n front st' a hr back
    have h4 := h2 [] n hn
    rw [← hcut] at h3
    rw [List.append_nil, h3] at h4
    simp only [Option.some.injEq, Prod.mk.injEq, IStream.mk.injEq, and_true] at h4
    exact absurd (List.append_eq_nil_iff.mp h4.1).2 hb

example : str "[[apple:read+write,pear:none],[]]" = str "[[apple:read+write,pear" ++ str ":none],[]]" ∧ str ":none],[]]" ≠ [] := by decide

/-- C143, where it fails: a list of one empty set of flags without a name is written like the empty list, and read back as the empty list. -/
theorem C143_single_empty_set (w : Nat) (md : FlagsMd w) (hu : Usable (.flags w md)) (hn : nameOf md.entries 0#w = none) :
    write (.list (.flags w md)) [(0#w : BitVec w)] [] = .ok (str "[]") ∧
      write (.list (.flags w md)) ([] : List (BitVec w)) [] = .ok (str "[]") ∧
      ∀ n, 2 ≤ n → read n (.list (.flags w md)) { rest := str "[]" } = some ({ rest := [] }, some ([] : List (BitVec w))) := by
  obtain ⟨desc, entries, hmd, -⟩ := hu
  have hperm := (C13_flags_metadata_partition _ _ _ hmd).1
  have h0 := C05_flags_to_string_zero desc entries md hmd
  rw [nameOf_perm hperm.symm hn] at h0
  refine ⟨?_, ?_, fun n hn => ?_⟩
  · have h1 : write (.flags w md) (0#w : BitVec w) (str "[") = .ok (str "[") := by
      simp only [write, asFlagsInsert, h0]; rfl
    show (writeItems (write (.flags w md)) [(0#w : BitVec w)] ([] ++ str "[")).bind _ = _
    simp only [writeItems, List.nil_append]
    rw [h1]
    rfl
  · rfl
  · obtain ⟨b, -, h2, h3⟩ := read_list (s := .flags w md) (vs := ([] : List (BitVec w))) (t := str "[]")
      ⟨[], [], [], by decide, by simp [AllWs], by simp [AllWs], .inl ⟨rfl, by simp [AllWs]⟩⟩ n hn
      (fun v u hu hl => read_text n _ v u hu hl) []
    rw [h2 93 (by decide) (by decide)] at h3
    exact h3

example : ∃ md : FlagsMd 8, Usable (.flags 8 md) ∧ nameOf md.entries 0#8 = none := by
  have hok : makeFlagsMetadata (str "side") [(1#8, str "left"), (2#8, str "right")] =
      .ok { description := str "side", entries := [(1#8, str "left"), (2#8, str "right")], allDefinedFlags := 3#8, noneName := [], numIndividualNames := 2 } := by
    rw [makeFlagsMetadata_eq, if_pos (by decide)]; rfl
  exact ⟨_, ⟨_, _, hok, by decide, by unfold CleanFlagName Stripped; decide, by unfold NoLead; decide⟩, by decide⟩

/-- C143: every text begins with some names, possibly none. -/
theorem C143_leading_exists {V : Type} (entries : List (V × Str)) (content : Str) : ∃ vs rest, Leading entries content vs rest := by
  induction hn : content.length using Nat.strongRecOn generalizing content with
  | _ n ih =>
    obtain ⟨skipped, token, rest, hs⟩ := C08_split_exists content
    by_cases ht : token = []
    · exact ⟨[], rest, .stop hs (.inl ht)⟩
    · cases hl : lookup entries token with
      | none => exact ⟨[], rest, .stop hs (.inr hl)⟩
      | some v =>
        by_cases hr : rest = []
        · subst hr; exact ⟨[v], [], .last hs ht hl⟩
        · have : rest.length < n := by
            have := congrArg List.length hs.content_eq
            have : 0 < token.length := List.length_pos_iff.mpr ht
            simp only [List.length_append] at *; omega
          obtain ⟨vs, rest', h⟩ := ih _ this rest rfl
          exact ⟨v :: vs, rest', .more hs ht hl hr h⟩

/-- C143: `while (stream >> as_enum(v)) values.push_back(v);` ends and has read the leading names, in order; the variable holds the last one; the
failbit is set, and the eofbit iff everything has been read. -/
theorem C143_while_enum {V : Type} (md : EnumMd V) (content : Str) (vs : List V) (rest : Str) (h : Leading md.entries content vs rest) (v0 : V) (n : Nat)
    (hn : content.length < n) :
    whileExtract (asEnumExtract md) n { rest := content } v0 = some ({ rest := rest, eofbit := rest.isEmpty, failbit := true }, vs.getLast?.getD v0, vs) := by
  induction h generalizing n v0 with
  | @stop content skipped token rest hs hno =>
    obtain ⟨n, rfl⟩ : ∃ m, n = m + 1 := ⟨n - 1, by omega⟩
    have hc : (if token = [] then none else lookup md.entries token) = none := by
      rcases hno with h | h
      · simp [h]
      · simp [h]
    simp only [whileExtract, enum_step md hs, hc]
    simp [holds]
  | @last content skipped token v hs hne hl =>
    have hlen : 0 < content.length := by
      have := congrArg List.length hs.content_eq
      have : 0 < token.length := List.length_pos_iff.mpr hne
      simp only [List.length_append] at *; omega
    obtain ⟨n, rfl⟩ : ∃ m, n = m + 2 := ⟨n - 2, by omega⟩
    simp only [whileExtract, enum_step md hs, hne, if_false, hl]
    rw [enumExtract_notGood _ _ _ (by simp [IStream.good])]
    simp [holds]
  | @more content skipped token rest rest' v vs hs hne hl hr _ ih =>
    have hlen : rest.length < content.length := by
      have := congrArg List.length hs.content_eq
      have : 0 < token.length := List.length_pos_iff.mpr hne
      simp only [List.length_append] at *; omega
    obtain ⟨n, rfl⟩ : ∃ m, n = m + 1 := ⟨n - 1, by omega⟩
    have hre : rest.isEmpty = false := by cases rest with | nil => exact absurd rfl hr | cons => rfl
    simp only [whileExtract, enum_step md hs, hne, if_false, hl, hre]
    rw [ih v n (by omega)]
    simp only [holds, Bool.not_false, Bool.and_self, if_true, Option.map_some]
    cases vs with
    | nil => rfl
    | cons a r => simp [List.getLast?_eq_some_getLast]

example : whileExtract (asEnumExtract fruits) 20 { rest := str "pear apple,pear" } 0 = some ({ rest := str ",pear", failbit := true }, 1, [-3, 1]) := by
  decide +kernel

/-- C143, where it fails: after the loop, a list of names which ends and a list of names with a misspelt name at the end look the same: the same
values have been read, and the stream is in the same state. -/
theorem C143_while_enum_misspelt {V : Type} (md : EnumMd V) (ns : List (V × Str)) (hne : ns ≠ [])
    (hns : ∀ e ∈ ns, lookup md.entries e.2 = some e.1 ∧ e.2 ≠ [] ∧ NoLead e.2 ∧ ∀ c ∈ e.2, c ∉ enumReserved) (junk : Str)
    (hj1 : lookup md.entries junk = none) (hj2 : NoLead junk) (hj3 : ∀ c ∈ junk, c ∉ enumReserved) (v0 : V) (n : Nat)
    (hn : (join (str " ") (ns.map Prod.snd) ++ str " " ++ junk).length < n) :
    whileExtract (asEnumExtract md) n { rest := join (str " ") (ns.map Prod.snd) } v0 =
        some ({ rest := [], eofbit := true, failbit := true }, (ns.map Prod.fst).getLast?.getD v0, ns.map Prod.fst) ∧
      whileExtract (asEnumExtract md) n { rest := join (str " ") (ns.map Prod.snd) ++ str " " ++ junk } v0 =
        whileExtract (asEnumExtract md) n { rest := join (str " ") (ns.map Prod.snd) } v0 := by
  have h1 := leading_names md.entries ns hne [] hns [] [] (.inl ⟨rfl, rfl, rfl⟩)
  have h2 := leading_names md.entries ns hne (str " " ++ junk) hns [] [] (.inr ⟨by rfl, .stop (skipped := str " ") (token := junk) (rest := [])
    ⟨by simp, by decide, by rw [List.append_nil]; exact hj2, hj3, by simp⟩ (.inr hj1)⟩)
  rw [List.append_nil] at h1 h2
  rw [List.append_nil] at h1
  rw [← List.append_assoc] at h2
  have e1 := C143_while_enum md _ _ _ h1 v0 n (by simp only [List.length_append] at hn; omega)
  have e2 := C143_while_enum md _ _ _ h2 v0 n hn
  exact ⟨e1, by rw [e2, e1]⟩

example : (∀ e ∈ [((-3 : Int), str "pear"), (1, str "apple")], lookup fruits.entries e.2 = some e.1 ∧ e.2 ≠ [] ∧ NoLead e.2 ∧ ∀ c ∈ e.2, c ∉ enumReserved) ∧
    lookup fruits.entries (str "aple") = none ∧ NoLead (str "aple") ∧ ∀ c ∈ str "aple", c ∉ enumReserved := by
  unfold NoLead; decide

/-- C143: `while (stream >> as_flags(v)) values.push_back(v);` reads at most one value: none if the text up to the next reserved character is not a flags
expression; one if that is all there is, and then the variable is overwritten with the empty set; otherwise it never ends. -/
theorem C143_while_flags {w : Nat} (md : EnumMd (BitVec w)) (content skipped token rest : Str) (hs : TokenSplit flagsReserved content skipped token rest)
    (v0 : BitVec w) :
    ((∃ t, tokensValue md.entries (flagTokens token) = .error t) → ∀ n, 1 ≤ n →
      whileExtract (asFlagsExtract md) n { rest := content } v0 = some ({ rest := rest, eofbit := rest.isEmpty, failbit := true }, v0, [])) ∧
    (∀ v, tokensValue md.entries (flagTokens token) = .ok v → rest = [] → ∀ n, 2 ≤ n →
      whileExtract (asFlagsExtract md) n { rest := content } v0 = some ({ rest := [], eofbit := true, failbit := true }, 0#w, [v])) ∧
    (∀ v, tokensValue md.entries (flagTokens token) = .ok v → rest ≠ [] → ∀ n, whileExtract (asFlagsExtract md) n { rest := content } v0 = none) := by
  refine ⟨?_, ?_, ?_⟩
  · rintro ⟨t, ht⟩ n hn
    obtain ⟨n, rfl⟩ : ∃ m, n = m + 1 := ⟨n - 1, by omega⟩
    simp only [whileExtract, flags_step md hs, ht]
    simp [holds]
  · rintro v hv rfl n hn
    obtain ⟨n, rfl⟩ : ∃ m, n = m + 2 := ⟨n - 2, by omega⟩
    simp only [whileExtract, flags_step md hs, hv]
    rw [flagsExtract_notGood _ _ _ (by simp [IStream.good])]
    simp [holds]
  · intro v hv hr n
    cases n with
    | zero => rfl
    | succ n =>
      cases rest with
      | nil => exact absurd rfl hr
      | cons c r =>
        have hc := hs.rest_stop c rfl
        simp only [whileExtract, flags_step md hs, hv]
        simp [holds, while_stuck md c hc r]

example : TokenSplit flagsReserved (str " read+write,exec") (str " ") (str "read+write") (str ",exec") ∧
    tokensValue permsMd.entries (flagTokens (str "read+write")) = .ok 3#8 :=
  ⟨⟨by decide, by decide, by decide, by decide, by decide⟩, by decide⟩

/-- C143: on a stream without anything to read the loop with `as_flags` reads one empty set, and the loop with `as_enum` reads nothing. -/
theorem C143_while_empty {w : Nat} {V : Type} (md : EnumMd (BitVec w)) (md' : EnumMd V) (content : Str) (hc : ∀ c ∈ content, c ∈ skippable)
    (v0 : BitVec w) (v1 : V) (n : Nat) (hn : 2 ≤ n) :
    whileExtract (asFlagsExtract md) n { rest := content } v0 = some ({ rest := [], eofbit := true, failbit := true }, 0#w, [0#w]) ∧
      whileExtract (asEnumExtract md') n { rest := content } v1 = some ({ rest := [], eofbit := true, failbit := true }, v1, []) := by
  obtain ⟨h1, h2⟩ := C07_nothing_to_read md md' content hc v0 v1
  obtain ⟨n, rfl⟩ : ∃ m, n = m + 2 := ⟨n - 2, by omega⟩
  simp only [whileExtract, h1, h2]
  rw [flagsExtract_notGood _ _ _ (by simp [IStream.good])]
  simp [holds]

example : ∀ c ∈ str " \t\n", c ∈ skippable := by decide

end Makeshift.Props
