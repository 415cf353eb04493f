import Verif.Model.UncheckedText
import Verif.Props.Iomanip

/-!
# Text conversion of enums and flags when contract checks are switched off: C145
-/

namespace Makeshift.Props

open Makeshift Makeshift.Spec Makeshift.Unchecked

/-! ## the configurations describe the same code -/

private theorem expects_on (b : Bool) : Checks.expects .on b = Outcome.expects b := rfl
private theorem expects_off (b : Bool) : Checks.expects .off b = .ok () := rfl

private theorem checkNames_on (forbidden : Str) (names : List Str) :
    Unchecked.checkNames .on forbidden names = Makeshift.checkNames forbidden names := by
  induction names with
  | nil => rfl
  | cons n ns ih => simp only [Unchecked.checkNames, Makeshift.checkNames, expects_on, ih]

private theorem checkNames_off (forbidden : Str) (names : List Str) : Unchecked.checkNames .off forbidden names = .ok () := by
  induction names with
  | nil => rfl
  | cons n ns ih => simp only [Unchecked.checkNames, expects_off, ih]; rfl

/-- C145: with checks switched on, tables and texts are those of C01 - C13. -/
theorem C145_checked {V : Type} {w : Nat} (desc : Str) (entries : List (V × Str)) (fentries : List (BitVec w × Str)) (f : BitVec w) (md : FlagsMd w) :
    Unchecked.makeEnumMetadata .on desc entries = Makeshift.makeEnumMetadata desc entries ∧
    Unchecked.makeFlagsMetadata .on desc fentries = Makeshift.makeFlagsMetadata desc fentries ∧
    Unchecked.flagsToString .on f md = Makeshift.flagsToString f md := by
  refine ⟨?_, ?_, rfl⟩
  · simp only [Unchecked.makeEnumMetadata, Makeshift.makeEnumMetadata, checkNames_on]
  · simp only [Unchecked.makeFlagsMetadata, Makeshift.makeFlagsMetadata, checkNames_on, expects_on]

example : Unchecked.makeEnumMetadata .on [] [((1 : Nat), str "dark red")] = .failFast := by
  rw [(C145_checked (w := 8) [] _ [] 0 permsMd).1]; exact (C12_enum_name_validation [] _).2 (by decide)

/-- C145: whatever is accepted with checks gives the same table and the same texts without. -/
theorem C145_valid {V : Type} {w : Nat} (desc : Str) (entries : List (V × Str)) (fentries : List (BitVec w × Str)) (f : BitVec w) (md : FlagsMd w) :
    (∀ m, Makeshift.makeEnumMetadata desc entries = .ok m → Unchecked.makeEnumMetadata .off desc entries = .ok m) ∧
    (∀ m, Makeshift.makeFlagsMetadata desc fentries = .ok m → Unchecked.makeFlagsMetadata .off desc fentries = .ok m) ∧
    (∀ s, Makeshift.flagsToString f md = .ok s → Unchecked.flagsToString .off f md = .ok s) := by
  refine ⟨fun m h => ?_, fun m h => ?_, fun s h => ?_⟩
  · unfold Makeshift.makeEnumMetadata at h
    unfold Unchecked.makeEnumMetadata
    rw [checkNames_off]
    cases hc : Makeshift.checkNames enumForbiddenChars (entries.map Prod.snd) with
    | ok u => rw [hc] at h; exact h
    | _ => rw [hc] at h; cases h
  · unfold Makeshift.makeFlagsMetadata at h
    unfold Unchecked.makeFlagsMetadata
    rw [checkNames_off]
    cases hc : Makeshift.checkNames flagsForbiddenChars (fentries.map Prod.snd) with
    | ok u =>
      rw [hc] at h
      cases hb : ((fentries.foldl flagsScanStep {}).allDefined == (fentries.foldl flagsScanStep {}).allIndividual) with
      | true => simp only [hb] at h; exact h
      | false => simp only [hb] at h; cases h
    | _ => rw [hc] at h; cases h
  · unfold Makeshift.flagsToString at h
    unfold Unchecked.flagsToString
    cases hb : ((f &&& ~~~md.allDefinedFlags) == 0#w) with
    | true => rw [hb] at h; exact h
    | false => rw [hb] at h; cases h

example : Makeshift.makeFlagsMetadata (str "perm") perms = .ok permsMd ∧ Makeshift.flagsToString 0x83#8 permsMd = .ok (str "read+write+exec") :=
  ⟨permsMd_ok, by decide⟩

/-! ## enums -/

private theorem makeEnumMetadata_off {V : Type} (desc : Str) (entries : List (V × Str)) :
    Unchecked.makeEnumMetadata .off desc entries = .ok ⟨desc, entries⟩ := by
  unfold Unchecked.makeEnumMetadata; rw [checkNames_off]; rfl

/-- C145: without checks every enum table is accepted, and converting a listed value to text and back gives the value, whatever
characters the names contain, as long as they are distinct and do not begin or end with whitespace; a value whose name begins or
ends with whitespace is not read back from its text (unless it has another name). -/
theorem C145_enum_round_trip {V : Type} [DecidableEq V] (zero : V) (desc : Str) (entries : List (V × Str)) (hn : (entries.map Prod.snd).Nodup) :
    ∃ md, Unchecked.makeEnumMetadata .off desc entries = .ok md ∧ ∀ v ∈ entries.map Prod.fst, ∃ s, enumToString v md = .ok s ∧ (v, s) ∈ entries ∧
      (Stripped s → enumFromString zero s md = .ok v) ∧
      (¬ Stripped s → (∀ e ∈ entries, e.1 = v → e.2 = s) → enumFromString zero s md ≠ .ok v) := by
  refine ⟨_, makeEnumMetadata_off desc entries, fun v hv => ?_⟩
  obtain ⟨n, hno⟩ := nameOf_isSome_iff.mpr hv
  have hmem := nameOf_some_mem hno
  refine ⟨n, ((C02_enum_to_string v _).1 n).mpr hno, hmem, fun hs => ?_, fun hs hone h => ?_⟩
  · exact (C02_parse_enum_iff _ _ _ _).mpr ⟨n, ⟨[], [], by simp, by simp [AllWs], by simp [AllWs], hs⟩, lookup_of_nodup hn hmem⟩
  · obtain ⟨t, ht, hl⟩ := (C02_parse_enum_iff _ _ _ _).mp h
    have := hone _ (lookup_some_mem hl) rfl
    simp only at this
    subst this
    obtain ⟨-, -, -, -, -, hst⟩ := ht
    exact hs hst

example : ([((0 : Nat), str "dark red"), (1, str "a+b"), (2, str " x")].map Prod.snd).Nodup ∧ Stripped (str "dark red") ∧
    ¬ Stripped (str " x") := by unfold Stripped; decide

/-- C145: but a name with a reserved character is not read back from a stream: `as_enum` stops in front of the reserved character,
and whatever it reads is not the value that was written (unless the part before the reserved character is another name of it). -/
theorem C145_enum_stream {V : Type} [DecidableEq V] (desc : Str) (entries : List (V × Str)) (v init : V) (a b tail : Str) (c : CChar)
    (hno : nameOf entries v = some (a ++ c :: b)) (ha : ∀ x ∈ a, x ∉ enumReserved) (hc : c ∈ enumReserved)
    (hlead : ∀ x, (a ++ [c]).head? = some x → x ∉ skippable) :
    ∃ md, Unchecked.makeEnumMetadata .off desc entries = .ok md ∧ asEnumInsert md [] v = .ok (a ++ c :: b) ∧
      (asEnumExtract md { rest := a ++ c :: b ++ tail } init).1.rest = c :: b ++ tail ∧
      ((asEnumExtract md { rest := a ++ c :: b ++ tail } init).1.failbit = false →
        lookup entries a = some (asEnumExtract md { rest := a ++ c :: b ++ tail } init).2) ∧
      (a ∉ entries.map Prod.snd → (asEnumExtract md { rest := a ++ c :: b ++ tail } init).1.failbit = true) := by
  refine ⟨_, makeEnumMetadata_off desc entries, ?_, ?_⟩
  · unfold asEnumInsert
    rw [((C02_enum_to_string v ⟨desc, entries⟩).1 _).mpr hno]
    rfl
  · have hs : TokenSplit enumReserved (a ++ c :: b ++ tail) [] a (c :: b ++ tail) :=
      ⟨by simp, by simp, by
        intro x hx
        apply hlead x
        cases a with
        | nil => simpa using hx
        | cons y ys => simpa using hx, ha, by intro x hx; simp at hx; rw [← hx]; exact hc⟩
    obtain ⟨h1, -, -, h4, h5⟩ := C08_as_enum_token ⟨desc, entries⟩ _ _ _ _ init hs
    refine ⟨h1, h5, fun hna => ?_⟩
    by_contra hf
    rw [Bool.not_eq_true] at hf
    exact hna (h4.mp hf).2

example : nameOf [((0 : Nat), str "dark"), (1, str "dark red")] 1 = some (str "dark" ++ 32 :: str "red") ∧ (32 : CChar) ∈ enumReserved := by decide

/-- C145: so two different values can be written and read as one: with a blank in a name the second word is lost. -/
theorem C145_enum_stream_negated : ∃ (entries : List (Nat × Str)) (md : EnumMd Nat) (text : Str), (entries.map Prod.snd).Nodup ∧
    Unchecked.makeEnumMetadata .off [] entries = .ok md ∧ Unchecked.makeEnumMetadata .on [] entries = .failFast ∧
    asEnumInsert md [] 1 = .ok text ∧ asEnumExtract md { rest := text } 7 = ({ rest := str " red" }, 0) := by
  refine ⟨[(0, str "dark"), (1, str "dark red")], ⟨[], [(0, str "dark"), (1, str "dark red")]⟩, str "dark red", by decide, makeEnumMetadata_off _ _,
    ?_, by decide, ?_⟩
  · rw [(C145_checked (w := 8) [] _ [] 0 permsMd).1]; exact (C12_enum_name_validation [] _).2 (by decide)
  rw [asEnumExtract_good]; decide

/-! ## flags -/

private theorem makeFlagsMetadata_off {w : Nat} (desc : Str) (entries : List (BitVec w × Str)) (hn : ∀ e ∈ entries, e.2 ≠ []) :
    Unchecked.makeFlagsMetadata .off desc entries =
      .ok { description := desc
            entries := entries.filter (fun e => isPowerOf2 e.1) ++ entries.filter (fun e => !isPowerOf2 e.1)
            allDefinedFlags := union (entries.map Prod.fst)
            noneName := (nameOf entries 0#w).getD []
            numIndividualNames := (entries.filter (fun e => isPowerOf2 e.1)).length } := by
  unfold Unchecked.makeFlagsMetadata
  rw [checkNames_off]
  simp only [expects_off, flagsScan_eq entries hn, flagsRest_eq]
  simp

/-- C145: without checks, any value can be converted to text, and the text means the same as the value without the flags which are not
listed on their own: neither undefined bits nor bits which only occur in combinations appear in it, and nobody hears about it.
The text is the one of that smaller value, except that it is empty, not the name for no flags, if nothing is left. -/
theorem C145_flags_dropped {w : Nat} (desc : Str) (entries : List (BitVec w × Str)) (hnames : (entries.map Prod.snd).Nodup)
    (hclean : ∀ n ∈ entries.map Prod.snd, CleanFlagName n) (known : BitVec w)
    (hk : ∀ i, known.getLsbD i = true ↔ ∃ e ∈ entries, SingleBit e.1 ∧ e.1.getLsbD i = true) :
    ∃ md, Unchecked.makeFlagsMetadata .off desc entries = .ok md ∧ ∀ f, ∃ s, Unchecked.flagsToString .off f md = .ok s ∧
      parseFlags s md.toEnumMd = .ok (f &&& known) ∧
      (f &&& known ≠ 0#w → Unchecked.flagsToString .off (f &&& known) md = .ok s) ∧ (f ≠ 0#w → f &&& known = 0#w → s = []) := by
  have hne : ∀ e ∈ entries, e.2 ≠ [] := fun e he => (hclean e.2 (List.mem_map_of_mem he)).1
  refine ⟨_, makeFlagsMetadata_off desc entries hne, fun f => ?_⟩
  generalize hT : entries.filter (fun e => isPowerOf2 e.1) = T
  have hTs : T.Sublist entries := by rw [← hT]; exact List.filter_sublist
  have hsingle : ∀ e ∈ T, SingleBit e.1 := fun e he => by
    rw [← hT] at he; exact (isPowerOf2_iff _).mp (List.mem_filter.mp he).2
  have hperm : (T ++ entries.filter (fun e => !isPowerOf2 e.1)).Perm entries := by
    rw [← hT]; exact List.filter_append_perm _ _
  have hlook : ∀ e ∈ entries, lookup (T ++ entries.filter (fun e => !isPowerOf2 e.1)) e.2 = some e.1 := fun e he =>
    lookup_of_nodup ((hperm.map Prod.snd).nodup_iff.mpr hnames) (hperm.mem_iff.mpr he)
  have htext : ∀ f, f ≠ 0#w → flagsToStringLoop f [] 0#w T = join (str "+") ((picked f 0#w T).map Prod.snd) := by
    intro f _
    rw [flagsToStringLoop_eq f T (fun e he => hne e (hTs.subset he)), if_pos rfl]
  have hdrop : ∀ f set, picked (f &&& known) set T = picked f set T := by
    intro f
    have hand : ∀ e ∈ T, (f &&& known) &&& e.1 = f &&& e.1 := by
      intro e he
      apply eq_of_bits
      intro i
      simp only [BitVec.getLsbD_and, Bool.and_eq_true]
      exact ⟨fun ⟨⟨h1, _⟩, h2⟩ => ⟨h1, h2⟩, fun ⟨h1, h2⟩ => ⟨⟨h1, (hk i).mpr ⟨e, hTs.subset he, hsingle e he, h2⟩⟩, h2⟩⟩
    clear hT hTs hsingle hperm hlook htext
    induction T with
    | nil => intro set; rfl
    | cons e r ih =>
      intro set
      have hr := fun s => ih (fun x hx => hand x (List.mem_cons_of_mem _ hx)) s
      simp only [picked, hand e (by simp), hr]
  have hunion : ∀ f, union ((picked f 0#w T).map Prod.fst) = f &&& known := by
    intro f
    have hsub := picked_sublist f 0#w T
    apply eq_of_bits
    intro i
    rw [union_getLsbD, BitVec.getLsbD_and, Bool.and_eq_true, hk]
    constructor
    · rintro ⟨v, hv, hvi⟩
      obtain ⟨e, he, rfl⟩ := List.mem_map.mp hv
      have hs := hsingle e (hsub.subset he)
      exact ⟨hs.and_ne_zero.mp (picked_mem he).1 i hvi, e, hTs.subset (hsub.subset he), hs, hvi⟩
    · rintro ⟨hfi, e, he, hs, hvi⟩
      have heT : e ∈ T := by rw [← hT]; exact List.mem_filter.mpr ⟨he, (isPowerOf2_iff _).mpr hs⟩
      have hand : (f &&& e.1) ≠ 0#w := by
        rw [ne_zero_iff_bits]; exact ⟨i, by rw [BitVec.getLsbD_and, hfi, hvi]; rfl⟩
      rcases picked_cover (set := 0#w) hsingle heT hand with h | h
      · simp at h
      · exact ⟨e.1, h, hvi⟩
  by_cases h0 : f = 0#w
  · subst h0
    have hz : 0#w &&& known = 0#w := by simp
    refine ⟨(nameOf entries 0#w).getD [], by unfold Unchecked.flagsToString; rw [expects_off]; simp, ?_, fun h => absurd hz h, fun h => absurd rfl h⟩
    rw [hz, C06_parse_flags_denotation]
    cases hn : nameOf entries 0#w with
    | none =>
      have : flagTokens (Option.getD none []) = [] := by decide
      rw [this]; rfl
    | some n =>
      have hmem := nameOf_some_mem hn
      have ht := flagTokens_join (names := [n])
        (fun x hx => by rw [List.mem_singleton.mp hx]; exact hclean n (List.mem_map_of_mem (f := Prod.snd) hmem))
      rw [join_singleton] at ht
      rw [Option.getD_some, ht]
      simp [tokensValue, hlook _ hmem]
  · refine ⟨join (str "+") ((picked f 0#w T).map Prod.snd), ?_, ?_, fun h => ?_, fun _ h => ?_⟩
    · unfold Unchecked.flagsToString
      rw [expects_off]
      simp only [List.take_left, h0, if_false, htext f h0]
      rfl
    · have ht := flagTokens_join (names := (picked f 0#w T).map Prod.snd)
        (fun x hx => hclean x (((picked_sublist f 0#w T).trans hTs |>.map Prod.snd).subset hx))
      rw [C06_parse_flags_denotation, ht]
      have htv : ∀ L : List (BitVec w × Str), (∀ e ∈ L, e ∈ entries) →
          tokensValue (T ++ entries.filter (fun e => !isPowerOf2 e.1)) (L.map Prod.snd) = .ok (union (L.map Prod.fst)) := by
        intro L
        induction L with
        | nil => intro _; rfl
        | cons e r ih =>
          intro hL
          simp only [List.map_cons, tokensValue, union]
          rw [hlook e (hL e (by simp)), ih (fun x hx => hL x (List.mem_cons_of_mem _ hx))]
      rw [htv _ (fun e he => hTs.subset ((picked_sublist f 0#w T).subset he)), hunion]
    · unfold Unchecked.flagsToString
      rw [expects_off]
      simp only [List.take_left, h, if_false, htext _ h, hdrop]
      rfl
    · have : picked f 0#w T = [] := by
        cases hp : picked f 0#w T with
        | nil => rfl
        | cons e r =>
          exfalso
          have hu := hunion f
          rw [hp, h] at hu
          have hm : e ∈ picked f 0#w T := by rw [hp]; simp
          obtain ⟨i, _, hb⟩ := hsingle e ((picked_sublist f 0#w T).subset hm)
          have : (0#w).getLsbD i = true := by
            rw [← hu, union_getLsbD]; exact ⟨e.1, by simp, by rw [hb]; simp⟩
          simp at this
      rw [this]
      rfl

example : (perms.map Prod.snd).Nodup ∧ (∀ n ∈ perms.map Prod.snd, CleanFlagName n) := ⟨by decide, perms_clean⟩
example : Unchecked.flagsToString .off 0x85#8 permsMd = .ok (str "read+exec") ∧ Unchecked.flagsToString .off 0x04#8 permsMd = .ok [] ∧
    Unchecked.flagsToString .on 0x85#8 permsMd = .failFast := by decide

/-- C145: a combination whose bits are not all listed on their own is accepted without checks; its name is understood, but a value is
never written with it, and its text is lost on the way. -/
theorem C145_combination_lost_negated : ∃ (entries : List (BitVec 8 × Str)) (md : FlagsMd 8), (entries.map Prod.snd).Nodup ∧
    (∀ n ∈ entries.map Prod.snd, CleanFlagName n) ∧ Unchecked.makeFlagsMetadata .off [] entries = .ok md ∧
    Unchecked.makeFlagsMetadata .on [] entries = .failFast ∧ parseFlags (str "both") md.toEnumMd = .ok 3#8 ∧
    Unchecked.flagsToString .off 3#8 md = .ok (str "a") ∧ parseFlags (str "a") md.toEnumMd = .ok 1#8 := by
  refine ⟨[(1, str "a"), (3, str "both")], ⟨⟨[], [(1, str "a"), (3, str "both")]⟩, 3, [], 1⟩, by decide, ?_, ?_, ?_, ?_, by decide, ?_⟩
  · unfold CleanFlagName Stripped; decide
  · rw [makeFlagsMetadata_off [] _ (by decide)]; rfl
  · rw [(C145_checked [] [((0 : Nat), str "a")] _ 0#8 permsMd).2.1, makeFlagsMetadata_eq, if_neg (by decide)]
  · rw [C06_parse_flags_denotation]; decide
  · rw [C06_parse_flags_denotation]; decide

/-- C145: a flag with an empty name is accepted without checks and disappears from texts. -/
theorem C145_empty_name_negated : ∃ (entries : List (BitVec 8 × Str)) (md : FlagsMd 8), (entries.map Prod.snd).Nodup ∧
    Unchecked.makeFlagsMetadata .off [] entries = .ok md ∧ Unchecked.flagsToString .off 3#8 md = .ok (str "b") ∧
    parseFlags (str "b") md.toEnumMd = .ok 2#8 := by
  refine ⟨[(1, []), (2, str "b")], ⟨⟨[], [(1, []), (2, str "b")]⟩, 3, [], 2⟩, by decide, rfl, by decide, ?_⟩
  rw [C06_parse_flags_denotation]; decide

/-- C145: flag names with other reserved characters are converted to strings and back like any other (`C145_flags_dropped`), but not through
streams: `as_flags` stops in front of the reserved character and reads what comes before it. -/
theorem C145_flags_stream {w : Nat} (md : EnumMd (BitVec w)) (a b : Str) (c : CChar) (init : BitVec w)
    (ha : ∀ x ∈ a, x ∉ flagsReserved) (hc : c ∈ flagsReserved) (hlead : ∀ x, (a ++ [c]).head? = some x → x ∉ skippable) :
    (asFlagsExtract md { rest := a ++ c :: b } init).1.rest = c :: b ∧
    ((asFlagsExtract md { rest := a ++ c :: b } init).1.failbit = false →
      parseFlags a md = .ok (asFlagsExtract md { rest := a ++ c :: b } init).2) := by
  have hs : TokenSplit flagsReserved (a ++ c :: b) [] a (c :: b) :=
    ⟨by simp, by simp, by
      intro x hx
      apply hlead x
      cases a with
      | nil => simpa using hx
      | cons y ys => simpa using hx, ha, by intro x hx; simp at hx; rw [← hx]; exact hc⟩
  obtain ⟨h1, -, -, -, h5⟩ := C09_as_flags_token md _ _ _ _ init hs
  exact ⟨h1, h5⟩

example : (∀ x ∈ str "a", x ∉ flagsReserved) ∧ (58 : CChar) ∈ flagsReserved ∧ ∀ x, (str "a" ++ [58]).head? = some x → x ∉ skippable := by decide

end Makeshift.Props
