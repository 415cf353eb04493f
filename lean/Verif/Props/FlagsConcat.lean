import Verif.Props.Serialize

/-!
# C118: combining texts of flag sets
-/

namespace Makeshift.Props

open Makeshift Makeshift.Spec

/-- Apart from trailing whitespace, the text ends with a character other than `'+'` and `'|'`. -/
def EndsInToken (s : Str) : Prop :=
  ∃ pre c ws, s = pre ++ c :: ws ∧ AllWs ws ∧ isWs c = false ∧ c ∉ str "+|"

private theorem delim_iff (c : CChar) : isFlagDelim c = true ↔ c ∈ str "+|" := by
  have : str "+|" = [43, 124] := rfl
  rw [this]
  simp [isFlagDelim]

private theorem ws_no_delim {ws : Str} (h : AllWs ws) : ∀ c ∈ ws, isFlagDelim c = false := by
  intro c hc
  have := h c hc
  cases hd : isFlagDelim c with
  | false => rfl
  | true =>
    simp only [isFlagDelim, isWs, Bool.or_eq_true, beq_iff_eq] at hd this
    rcases hd with rfl | rfl <;> revert this <;> decide

private theorem split_append (s t : Str) {d : CChar} (hd : isFlagDelim d = true) :
    split isFlagDelim (s ++ d :: t) = split isFlagDelim s ++ split isFlagDelim t := by
  induction s with
  | nil => simp [split, hd]
  | cons c cs ih =>
    simp only [List.cons_append, split]
    by_cases hc : isFlagDelim c = true
    · simp [hc, ih]
    · simp only [hc, Bool.false_eq_true, if_false]
      rw [ih]
      cases hs : split isFlagDelim cs with
      | nil => exact absurd hs (split_ne_nil _ _)
      | cons x xs => simp

private theorem split_last (pre s : Str) (hs : ∀ c ∈ s, isFlagDelim c = false) :
    ∃ front p, split isFlagDelim (pre ++ s) = front ++ [p ++ s] := by
  induction pre with
  | nil => exact ⟨[], [], by simp [split_no_delim hs]⟩
  | cons c cs ih =>
    obtain ⟨front, p, h⟩ := ih
    simp only [List.cons_append, split]
    by_cases hc : isFlagDelim c = true
    · exact ⟨[] :: front, p, by simp [hc, h]⟩
    · simp only [hc, Bool.false_eq_true, if_false, h]
      cases front with
      | nil => exact ⟨[], c :: p, by simp⟩
      | cons x xs => exact ⟨(c :: x) :: xs, p, by simp⟩

private theorem strip_ne_nil {a : Str} {c : CChar} {b : Str} (hc : isWs c = false) : strip (a ++ c :: b) ≠ [] := by
  intro h
  obtain ⟨pre, post, he, h1, h2, -⟩ := strip_spec (a ++ c :: b)
  rw [h] at he
  have : AllWs (a ++ c :: b) := by rw [he]; simpa using h1.append h2
  have := this c (by simp)
  rw [hc] at this; simp at this

private theorem strip_ws {s : Str} (h : AllWs s) : strip s = [] := by
  have := strip_pad (pre := s) (t := []) (post := []) h (by simp [AllWs]) (by simp [Stripped])
  simpa using this

private theorem tokens_ends {s : Str} (h : EndsInToken s) : flagTokens s = (split isFlagDelim s).map strip := by
  obtain ⟨pre, c, ws, rfl, hws, hc, hd⟩ := h
  have hnd : ∀ x ∈ c :: ws, isFlagDelim x = false := by
    intro x hx
    rcases List.mem_cons.mp hx with rfl | hx
    · cases he : isFlagDelim x with
      | false => rfl
      | true => exact absurd ((delim_iff x).mp he) hd
    · exact ws_no_delim hws x hx
  obtain ⟨front, p, hsp⟩ := split_last pre (c :: ws) hnd
  unfold flagTokens dropEmptyLast
  rw [hsp, if_neg]
  simp only [List.map_append, List.map_cons, List.map_nil, List.getLast?_append, List.getLast?_singleton, Option.some_or, Option.some.injEq]
  exact strip_ne_nil hc

private theorem tokens_append (s t : Str) {d : CChar} (hd : isFlagDelim d = true) :
    flagTokens (s ++ d :: t) = (split isFlagDelim s).map strip ++ flagTokens t := by
  unfold flagTokens dropEmptyLast
  rw [split_append s t hd, List.map_append]
  have hne : (split isFlagDelim t).map strip ≠ [] := by simpa using split_ne_nil _ _
  rw [List.getLast?_append_of_ne_nil _ hne]
  by_cases h : ((split isFlagDelim t).map strip).getLast? = some []
  · rw [if_pos h, if_pos h, List.dropLast_append_of_ne_nil hne]
  · rw [if_neg h, if_neg h]

private theorem value_append {w : Nat} (table : List (BitVec w × Str)) (a b : List Str) :
    tokensValue table (a ++ b) =
      match tokensValue table a with
      | .ok v => (match tokensValue table b with
        | .ok u => .ok (v ||| u)
        | .error e => .error e)
      | .error e => .error e := by
  induction a with
  | nil =>
    simp only [List.nil_append, tokensValue]
    cases tokensValue table b <;> simp
  | cons x xs ih =>
    simp only [List.cons_append, tokensValue]
    cases lookup table x with
    | none => rfl
    | some v =>
      simp only [ih]
      cases tokensValue table xs with
      | error e => rfl
      | ok r =>
        cases tokensValue table b with
        | error e => rfl
        | ok u => simp [BitVec.or_assoc]

/-- C118: if `s` ends with a token, then parsing `s`, a delimiter, and `t` gives the union of what parsing `s` and parsing `t` give; if parsing
one of them fails, parsing the combination fails with the message for the first one that does. -/
theorem C118_concat {w : Nat} (md : EnumMd (BitVec w)) (s t : Str) (d : CChar) (hd : d ∈ str "+|") (hs : EndsInToken s) :
    (∀ v u, parseFlags s md = .ok v → parseFlags t md = .ok u → parseFlags (s ++ d :: t) md = .ok (v ||| u)) ∧
    (∀ v m, parseFlags s md = .ok v → parseFlags t md = .throw m → parseFlags (s ++ d :: t) md = .throw m) ∧
    (∀ m, parseFlags s md = .throw m → parseFlags (s ++ d :: t) md = .throw m) := by
  simp only [C06_parse_flags_denotation, tokens_append s t ((delim_iff d).mpr hd), tokens_ends hs, value_append]
  rcases h1 : tokensValue md.entries ((split isFlagDelim s).map strip) with e | v <;>
    rcases h2 : tokensValue md.entries (flagTokens t) with e' | u <;> simp

example : EndsInToken (str "read | write ") ∧ (124 : CChar) ∈ str "+|" :=
  ⟨⟨str "read | writ", 101, str " ", rfl, by unfold AllWs; decide, by decide, by decide⟩, by decide⟩

/-- C118: if `s` does not end with a token (in particular if it is empty), the combination is rejected whatever follows, unless a value is
listed under an empty name. -/
theorem C118_concat_blank {w : Nat} (md : EnumMd (BitVec w)) (s t : Str) (d : CChar) (hd : d ∈ str "+|") (hs : ¬ EndsInToken s)
    (he : [] ∉ md.entries.map Prod.snd) : ∃ m, parseFlags (s ++ d :: t) md = .throw m := by
  have hmem : [] ∈ (split isFlagDelim s).map strip := by
    rcases allWs_or_decomp_end s with h | ⟨r, c, b, rfl, hb, hc⟩
    · rw [split_no_delim (ws_no_delim h)]
      simp [strip_ws h]
    · have hcd : isFlagDelim c = true := by
        cases hx : isFlagDelim c with
        | true => rfl
        | false =>
          exact absurd ⟨r, c, b, rfl, hb, hc, fun hm => by rw [(delim_iff c).mpr hm] at hx; simp at hx⟩ hs
      rw [split_append r b hcd, split_no_delim (ws_no_delim hb)]
      simp [strip_ws hb]
  cases hp : parseFlags (s ++ d :: t) md with
  | throw m => exact ⟨m, rfl⟩
  | ok v =>
    have := ((C06_parse_flags_ok_iff _ _ _).mp hp).1 [] (by
      rw [tokens_append s t ((delim_iff d).mpr hd)]
      exact List.mem_append_left _ hmem)
    exact absurd this he
  | failFast => rw [C06_parse_flags_denotation] at hp; split at hp <;> simp at hp
  | ub => rw [C06_parse_flags_denotation] at hp; split at hp <;> simp at hp

example : ¬ EndsInToken (str "read+") := by
  rintro ⟨pre, c, ws, h, hws, hc, hd⟩
  have h2 : (str "read+").getLast? = some 43 := by decide
  have h3 := congrArg List.getLast? h
  rw [h2] at h3
  rcases List.eq_nil_or_concat ws with rfl | ⟨ws, x, rfl⟩
  · simp at h3
    subst h3
    revert hd; decide
  · rw [List.concat_eq_append, show pre ++ c :: (ws ++ [x]) = (pre ++ c :: ws) ++ [x] by simp, List.getLast?_concat, Option.some.injEq] at h3
    subst h3
    have := hws 43 (by simp)
    revert this; decide

private theorem text_ends {w : Nat} (desc : Str) (entries : List (BitVec w × Str)) (md : FlagsMd w)
    (hmd : makeFlagsMetadata desc entries = .ok md) (hclean : ∀ n ∈ entries.map Prod.snd, CleanFlagName n) (f : BitVec w) (h0 : f ≠ 0#w)
    (hf : SubBits f (union (entries.map Prod.fst))) (s : Str) (h : flagsToString f md = .ok s) : EndsInToken s := by
  obtain ⟨L, hs, hsub, -, -, hu⟩ := C05_flags_to_string_shape desc entries md hmd f h0 hf
  rw [h, Outcome.ok.injEq] at hs
  subst hs
  have hL : L ≠ [] := by
    rintro rfl
    exact h0 (by simpa [union] using hu.symm)
  have key : ∀ names : List Str, names ≠ [] → (∀ n ∈ names, CleanFlagName n) → EndsInToken (join (str "+") names) := by
    intro names
    induction names with
    | nil => intro h; exact absurd rfl h
    | cons n r ih =>
      intro _ hc
      cases r with
      | nil =>
        obtain ⟨h1, h2, h3⟩ := hc n (by simp)
        rcases List.eq_nil_or_concat n with rfl | ⟨m, c, rfl⟩
        · exact absurd rfl h1
        · refine ⟨m, c, [], by simp [join], by simp [AllWs], h3.2 c (by simp), fun hm => ?_⟩
          have := h2 c (by simp)
          rw [(delim_iff c).mpr hm] at this; simp at this
      | cons n' r =>
        obtain ⟨pre, c, ws, he, h1, h2, h3⟩ := ih (by simp) (fun x hx => hc x (by simp [hx]))
        exact ⟨n ++ str "+" ++ pre, c, ws, by simp [join, he], h1, h2, h3⟩
  exact key _ (by simpa using hL) (fun n hn => hclean n ((hsub.map Prod.snd).subset hn))

/-- C118: joining the texts printed for two combinations of defined flags by `'+'` or `'|'` gives a text for their union, if the first
combination is not empty. -/
theorem C118_texts {w : Nat} (desc : Str) (entries : List (BitVec w × Str)) (md : FlagsMd w)
    (hmd : makeFlagsMetadata desc entries = .ok md) (hnames : (entries.map Prod.snd).Nodup)
    (hclean : ∀ n ∈ entries.map Prod.snd, CleanFlagName n) (d : CChar) (hd : d ∈ str "+|")
    (f g : BitVec w) (h0 : f ≠ 0#w) (hf : SubBits f (union (entries.map Prod.fst))) (hg : SubBits g (union (entries.map Prod.fst))) :
    ∃ s t, flagsToString f md = .ok s ∧ flagsToString g md = .ok t ∧ parseFlags (s ++ d :: t) md.toEnumMd = .ok (f ||| g) := by
  obtain ⟨s, hs, hs'⟩ := C04_flags_round_trip desc entries md hmd hnames hclean f hf
  obtain ⟨t, ht, ht'⟩ := C04_flags_round_trip desc entries md hmd hnames hclean g hg
  exact ⟨s, t, hs, ht, (C118_concat _ s t d hd (text_ends desc entries md hmd hclean f h0 hf s hs)).1 f g hs' ht'⟩

example : makeFlagsMetadata (str "perm") perms = .ok permsMd ∧ (perms.map Prod.snd).Nodup ∧
    (∀ n ∈ perms.map Prod.snd, CleanFlagName n) ∧ SubBits 0x82#8 (union (perms.map Prod.fst)) ∧ (43 : CChar) ∈ str "+|" :=
  ⟨permsMd_ok, by decide, perms_clean, (and_not_eq_zero _ _).mp (by decide), by decide⟩

/-- C118, where the order matters: if no name is listed for 0, the text printed for the empty combination is empty; it can be put after another text
but not before it. -/
theorem C118_empty_first {w : Nat} (desc : Str) (entries : List (BitVec w × Str)) (md : FlagsMd w)
    (hmd : makeFlagsMetadata desc entries = .ok md) (hclean : ∀ n ∈ entries.map Prod.snd, CleanFlagName n)
    (hz : ∀ e ∈ entries, e.1 ≠ 0#w) (d : CChar) (hd : d ∈ str "+|") (g : BitVec w) (t : Str) (_ht : flagsToString g md = .ok t) :
    flagsToString 0#w md = .ok [] ∧ ∃ m, parseFlags ([] ++ d :: t) md.toEnumMd = .throw m := by
  have hn : nameOf entries 0#w = none := by
    cases h : nameOf entries 0#w with
    | none => rfl
    | some n => exact absurd rfl (hz _ (nameOf_some_mem h))
  refine ⟨by rw [C05_flags_to_string_zero desc entries md hmd, hn]; rfl, ?_⟩
  refine C118_concat_blank _ [] t d hd ?_ ?_
  · rintro ⟨pre, c, ws, h, -⟩
    simp at h
  · intro hmem
    have hperm := (C13_flags_metadata_partition _ _ _ hmd).1
    exact (hclean [] ((hperm.map Prod.snd).mem_iff.mp hmem)).1 rfl

example : ∃ md : FlagsMd 8, makeFlagsMetadata [] [(1#8, str "r"), (2#8, str "w")] = .ok md ∧ flagsToString 3#8 md = .ok (str "r+w") ∧
    (∀ e ∈ [(1#8, str "r"), (2#8, str "w")], e.1 ≠ 0#8) := by
  refine ⟨⟨⟨[], [(1, str "r"), (2, str "w")]⟩, 3, [], 2⟩, ?_, by decide, by decide⟩
  rw [makeFlagsMetadata_eq, if_pos (by decide)]; rfl

end Makeshift.Props
