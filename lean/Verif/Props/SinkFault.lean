import Mathlib.Data.List.Forall2
import Verif.Props.StreamFault
import Verif.Model.SinkFault
import Verif.Spec.SinkFault

/-! # C133: output which is cut off -/

namespace Makeshift.Props

open Spec

/-! ## Helper lemmas -/

theorem padded_unique {s t : Str} {st : OStream} (h : Padded s st.width st.fill st.left t) : t = st.padded s := by
  obtain ⟨hl, n, ht⟩ := h
  have hn : n = st.width - s.length := by
    cases hleft : st.left <;> simp [hleft] at ht <;> subst ht <;> simp at hl <;> omega
  subst hn
  rw [ht, OStream.padded]

private abbrev nameE {V : Type} [DecidableEq V] (md : EnumMd V) : V → Str → Prop := fun v s => enumToString v md = .ok s
private abbrev nameF {w : Nat} (md : FlagsMd w) : BitVec w → Str → Prop := fun f s => flagsToString f md = .ok s

private theorem insertS_bad (sink : Sink) (mask : IoMask) (st : OStream) (s : Str) (h : st.good = false) :
    (st.insertS sink mask s).1 = { st with failbit := true } ∧
      (mask = {} → (st.insertS sink mask s).2 = none) ∧ (st.insertS sink mask s).2 ≠ some .buffer := by
  rw [OStream.insertS, h]
  refine ⟨rfl, ?_, ?_⟩
  · rintro rfl; simp [OStream.raise, IoMask.hits]
  · simp only [Bool.false_eq_true, if_false, OStream.raise]; split <;> simp

private theorem bad_of_failbit (st : OStream) : ({ st with failbit := true } : OStream).good = false := by simp [OStream.good]

private theorem putItems_bad {V : Type} [DecidableEq V] {w : Nat} (sink : Sink) (emd : EnumMd V) (fmd : FlagsMd w) (mask : IoMask)
    {width fill left items text} (h : Writes (nameE emd) (nameF fmd) width fill left items text) (st : OStream) (hst : st.good = false) :
    ∃ st' e, putItems sink emd fmd mask st items = .ok (st', e) ∧ st'.out = st.out ∧ st'.good = false ∧ (mask = {} → e = none) ∧
      e ≠ some .buffer := by
  have key : ∀ (s : Str) (rest : List (OutItem V w)),
      (∀ st : OStream, st.good = false → ∃ st' e, putItems sink emd fmd mask st rest = .ok (st', e) ∧ st'.out = st.out ∧ st'.good = false ∧
        (mask = {} → e = none) ∧ e ≠ some .buffer) →
      ∀ st : OStream, st.good = false → ∃ st' e,
        (match (st.insertS sink mask s).2 with
          | some e => Outcome.ok ((st.insertS sink mask s).1, some e)
          | none => putItems sink emd fmd mask (st.insertS sink mask s).1 rest) = .ok (st', e) ∧ st'.out = st.out ∧ st'.good = false ∧
        (mask = {} → e = none) ∧ e ≠ some .buffer := by
    intro s rest ih st hst
    obtain ⟨h1, h2, h3⟩ := insertS_bad sink mask st s hst
    rw [h1]
    cases he : (st.insertS sink mask s).2 with
    | some e =>
      rw [he] at h2 h3
      exact ⟨_, _, rfl, rfl, bad_of_failbit st, h2, h3⟩
    | none =>
      obtain ⟨st', e, a, b, c⟩ := ih { st with failbit := true } (bad_of_failbit st)
      exact ⟨st', e, a, b, c⟩
  induction h generalizing st with
  | nil => exact ⟨st, none, rfl, rfl, hst, fun _ => rfl, by simp⟩
  | text ht h ih => exact key _ _ (fun st hst => ih st hst) st hst
  | enum hs ht h ih =>
    simp only [putItems, putItem, asEnumInsertS, hs, Outcome.bind]
    exact key _ _ (fun st hst => ih st hst) st hst
  | flags hs ht h ih =>
    simp only [putItems, putItem, asFlagsInsertS, hs, Outcome.bind]
    exact key _ _ (fun st hst => ih st hst) st hst
  | setw h ih => exact ih { st with width := _ } hst
  | setfill h ih => exact ih { st with fill := _ } hst
  | adjust h ih => exact ih { st with left := _ } hst

/-! ## What is written -/

/-- C133. Whatever a program inserts into a stream, and whatever the buffer does: what arrives is the beginning of the whole text, as much as there is room for.  The stream is good
afterwards if and only if the text is complete, so it suffices to look at the end.  With an exception mask of `failbit` and `badbit`, an exception is thrown if and only
if the text is incomplete; with an empty mask none is. -/
theorem C133_prefix {V : Type} [DecidableEq V] {w : Nat} (sink : Sink) (emd : EnumMd V) (fmd : FlagsMd w) (mask : IoMask) (items : List (OutItem V w))
    (st : OStream) (text : Str) (hst : st.good = true) (hroom : st.out.length ≤ sink.room)
    (h : Writes (fun v s => enumToString v emd = .ok s) (fun f s => flagsToString f fmd = .ok s) st.width st.fill st.left items text) :
    ∃ st' e, putItems sink emd fmd mask st items = .ok (st', e) ∧
      st'.out = (st.out ++ text).take sink.room ∧
      (st'.good = true ↔ (st.out ++ text).length ≤ sink.room) ∧
      (e ≠ none → sink.room < (st.out ++ text).length) ∧
      (mask.fail = true → mask.bad = true → sink.room < (st.out ++ text).length → e ≠ none) ∧
      (mask = {} → e = none) ∧
      (e = some .buffer → sink.throws = true ∧ mask.bad = true) := by
  have key : ∀ (s t u : Str) (rest : List (OutItem V w)) (st : OStream),
      st.good = true → st.out.length ≤ sink.room → Padded s st.width st.fill st.left t →
      Writes (nameE emd) (nameF fmd) 0 st.fill st.left rest u →
      (∀ st1 : OStream, st1.width = 0 → st1.fill = st.fill → st1.left = st.left → st1.good = true → st1.out.length ≤ sink.room →
        ∃ st' e, putItems sink emd fmd mask st1 rest = .ok (st', e) ∧ st'.out = (st1.out ++ u).take sink.room ∧
          (st'.good = true ↔ (st1.out ++ u).length ≤ sink.room) ∧ (e ≠ none → sink.room < (st1.out ++ u).length) ∧
          (mask.fail = true → mask.bad = true → sink.room < (st1.out ++ u).length → e ≠ none) ∧ (mask = {} → e = none) ∧
          (e = some .buffer → sink.throws = true ∧ mask.bad = true)) →
      ∃ st' e,
        (match (st.insertS sink mask s).2 with
          | some e => Outcome.ok ((st.insertS sink mask s).1, some e)
          | none => putItems sink emd fmd mask (st.insertS sink mask s).1 rest) = .ok (st', e) ∧
          st'.out = (st.out ++ (t ++ u)).take sink.room ∧
          (st'.good = true ↔ (st.out ++ (t ++ u)).length ≤ sink.room) ∧ (e ≠ none → sink.room < (st.out ++ (t ++ u)).length) ∧
          (mask.fail = true → mask.bad = true → sink.room < (st.out ++ (t ++ u)).length → e ≠ none) ∧ (mask = {} → e = none) ∧
          (e = some .buffer → sink.throws = true ∧ mask.bad = true) := by
    intro s t u rest st hst hroom ht hw ih
    have ht := padded_unique ht
    by_cases hfit : t.length ≤ sink.room - st.out.length
    · have hi : st.insertS sink mask s = ({ st with out := st.out ++ t, width := 0 }, none) := by
        simp only [OStream.insertS, hst, if_true, ← ht]
        rw [if_pos hfit, List.take_of_length_le hfit]
      rw [hi]
      have := ih { st with out := st.out ++ t, width := 0 } rfl rfl rfl hst (by simp; omega)
      simpa only [List.append_assoc] using this
    · have hout : st.out ++ t.take (sink.room - st.out.length) = (st.out ++ (t ++ u)).take sink.room := by
        rw [List.take_append, List.take_of_length_le hroom, List.take_append_of_le_length (by omega)]
      have hlong : sink.room < (st.out ++ (t ++ u)).length := by simp; omega
      have hbad : (st.insertS sink mask s).1.good = false ∧ (st.insertS sink mask s).1.out = (st.out ++ (t ++ u)).take sink.room ∧
          (mask.fail = true → mask.bad = true → (st.insertS sink mask s).2 ≠ none) ∧ (mask = {} → (st.insertS sink mask s).2 = none) ∧
          ((st.insertS sink mask s).2 = some .buffer → sink.throws = true ∧ mask.bad = true) := by
        simp only [OStream.insertS, hst, if_true, ← ht]
        rw [if_neg hfit, hout]
        cases hthrows : sink.throws <;> cases hb : sink.setsBad <;>
          simp [OStream.good, OStream.raise, IoMask.hits]
        all_goals first
          | (rintro rfl; rfl)
          | exact ⟨fun h1 h2 => by simp [h1, h2], by rintro rfl; simp⟩
      obtain ⟨b1, b2, b3, b4, b5⟩ := hbad
      cases he : (st.insertS sink mask s).2 with
      | some e =>
        rw [he] at b3 b4 b5
        exact ⟨_, _, rfl, b2, by rw [b1]; simp; omega, fun _ => hlong, fun h1 h2 _ => b3 h1 h2, b4, b5⟩
      | none =>
        rw [he] at b3
        obtain ⟨st', e, c1, c2, c3, c4, c5⟩ := putItems_bad sink emd fmd mask hw _ b1
        refine ⟨st', e, c1, by rw [c2, b2], by rw [c3]; simp; omega, fun _ => hlong, fun h1 h2 _ => absurd rfl (b3 h1 h2), c4, fun h => absurd h c5⟩
  revert hroom hst
  generalize hwd : st.width = width at h
  generalize hfl : st.fill = fill at h
  generalize hlf : st.left = left at h
  intro hst hroom
  induction h generalizing st with
  | nil =>
    exact ⟨st, none, rfl, by simp [List.take_of_length_le hroom], by simp [hst, hroom], by simp, by simp; omega, fun _ => rfl, by simp⟩
  | @text width fill left s t rest u ht h ih =>
    subst hwd hfl hlf
    exact key s t u rest st hst hroom ht h (fun st1 a b c d e => ih st1 a b c d e)
  | @enum width fill left v s t rest u hs ht h ih =>
    subst hwd hfl hlf
    simp only [putItems, putItem, asEnumInsertS, hs, Outcome.bind]
    exact key s t u rest st hst hroom ht h (fun st1 a b c d e => ih st1 a b c d e)
  | @flags width fill left f s t rest u hs ht h ih =>
    subst hwd hfl hlf
    simp only [putItems, putItem, asFlagsInsertS, hs, Outcome.bind]
    exact key s t u rest st hst hroom ht h (fun st1 a b c d e => ih st1 a b c d e)
  | setw h ih => exact ih { st with width := _ } rfl hfl hlf hst hroom
  | setfill h ih => exact ih { st with fill := _ } hwd rfl hlf hst hroom
  | adjust h ih => exact ih { st with left := _ } hwd hfl rfl hst hroom

example : Writes (w := 8) (fun v s => enumToString v colorsMd = .ok s) (fun f s => flagsToString f permsMd = .ok s) 0 32 false
    [.text (str "c: "), .setw 6, .enum 1, .flags 0x82#8] (str "c: " ++ (str " green" ++ (str "write+exec" ++ []))) :=
  .text ⟨by decide, 0, by decide⟩ (.setw (.enum (s := str "green") (by decide) ⟨by decide, 1, by decide⟩
    (.flags (s := str "write+exec") (by decide) ⟨by decide, 0, by decide⟩ (.nil _ _ _))))

/-- C133. With enough room, insertion is what it is on streams which do not fail (C88). -/
theorem C133_no_fault (sink : Sink) (mask : IoMask) (st : OStream) (s : Str) (h : st.out.length + max s.length st.width ≤ sink.room) :
    (st.insertS sink mask s).1 = (st.insert mask s).1 ∧ ((st.insertS sink mask s).2 = some .failure ↔ (st.insert mask s).2 = true) ∧
      (st.insertS sink mask s).2 ≠ some .buffer := by
  have hp := (padded_spec st s).1
  cases hg : st.good
  · simp [OStream.insertS, OStream.insert, hg, OStream.raise]
  · have : (st.padded s).length ≤ sink.room - st.out.length := by omega
    simp [OStream.insertS, OStream.insert, hg, this, List.take_of_length_le]

example : ({ out := str "abc", width := 6 } : OStream).out.length + max (str "red").length 6 ≤ ({ room := 9 } : Sink).room := by decide

/-- C133. Without exceptions, a value which is not listed ends the program wherever it occurs, even if the stream has failed long before and nothing of it would be written. -/
theorem C133_unlisted {V : Type} [DecidableEq V] {w : Nat} (sink : Sink) (emd : EnumMd V) (desc : Str) (entries : List (BitVec w × Str)) (fmd : FlagsMd w)
    (hmd : makeFlagsMetadata desc entries = .ok fmd) (items : List (OutItem V w)) (st : OStream)
    (h : (∃ v, .enum v ∈ items ∧ v ∉ emd.entries.map Prod.fst) ∨ (∃ f, .flags f ∈ items ∧ ¬ SubBits f (union (entries.map Prod.fst)))) :
    putItems sink emd fmd {} st items = .failFast := by
  have hquiet : ∀ (st : OStream) (s : Str), (st.insertS sink {} s).2 = none := by
    intro st s
    simp only [OStream.insertS, OStream.raise, IoMask.hits]
    split
    · split
      · rfl
      · split <;> simp
    · simp
  have hE : ∀ v : V, (v ∉ emd.entries.map Prod.fst ∧ enumToString v emd = .failFast) ∨ (v ∈ emd.entries.map Prod.fst ∧ ∃ s, enumToString v emd = .ok s) := by
    intro v
    by_cases hv : v ∈ emd.entries.map Prod.fst
    · obtain ⟨n, hn⟩ := nameOf_isSome_iff.mpr hv
      exact .inr ⟨hv, n, ((C02_enum_to_string v emd).1 n).mpr hn⟩
    · exact .inl ⟨hv, (C02_enum_to_string v emd).2.mpr hv⟩
  have hF : ∀ f : BitVec w, (¬ SubBits f (union (entries.map Prod.fst)) ∧ flagsToString f fmd = .failFast) ∨
      (SubBits f (union (entries.map Prod.fst)) ∧ ∃ s, flagsToString f fmd = .ok s) := by
    intro f
    have := C05_flags_to_string_fails_iff desc entries fmd hmd f
    by_cases hf : SubBits f (union (entries.map Prod.fst))
    · exact .inr ⟨hf, this.2.mpr hf⟩
    · exact .inl ⟨hf, this.1.mpr hf⟩
  induction items generalizing st with
  | nil => simp at h
  | cons it rest ih =>
    have hrest : ∀ st', ((∃ v, .enum v ∈ rest ∧ v ∉ emd.entries.map Prod.fst) ∨ (∃ f, .flags f ∈ rest ∧ ¬ SubBits f (union (entries.map Prod.fst)))) →
        putItems sink emd fmd {} st' rest = .failFast := fun st' h' => ih st' h'
    cases it with
    | text s =>
      simp only [putItems, putItem, Outcome.bind, hquiet]
      exact hrest _ (by simpa using h)
    | enum v =>
      rcases hE v with ⟨hv, hv'⟩ | ⟨hv, s, hv'⟩
      · simp [putItems, putItem, asEnumInsertS, hv', Outcome.bind]
      · simp only [putItems, putItem, asEnumInsertS, hv', Outcome.bind, hquiet]
        refine hrest _ ?_
        rcases h with ⟨u, hu, hu'⟩ | h
        · rcases List.mem_cons.1 hu with hu | hu
          · cases hu; exact absurd hv hu'
          · exact .inl ⟨u, hu, hu'⟩
        · exact .inr (by simpa using h)
    | flags f =>
      rcases hF f with ⟨hf, hf'⟩ | ⟨hf, s, hf'⟩
      · simp [putItems, putItem, asFlagsInsertS, hf', Outcome.bind]
      · simp only [putItems, putItem, asFlagsInsertS, hf', Outcome.bind, hquiet]
        refine hrest _ ?_
        rcases h with h | ⟨u, hu, hu'⟩
        · exact .inl (by simpa using h)
        · rcases List.mem_cons.1 hu with hu | hu
          · cases hu; exact absurd hf hu'
          · exact .inr ⟨u, hu, hu'⟩
    | setw n => exact hrest _ (by simpa using h)
    | setfill c => exact hrest _ (by simpa using h)
    | adjust l => exact hrest _ (by simpa using h)

example : (7 : Nat) ∉ colorsMd.entries.map Prod.fst ∧ ¬ SubBits 0x10#8 (union (perms.map Prod.fst)) :=
  ⟨by decide, fun h => absurd ((and_not_eq_zero _ _).mpr h) (by decide)⟩

/-! ## Reading back what has been cut off -/

private theorem readEnums_failed {V : Type} (md : EnumMd V) (init : V) (n : Nat) (st : IStream) (h : st.failbit = true) :
    readEnums md init n st = (st, List.replicate n init) := by
  cases n with
  | zero => simp [readEnums]
  | succ n =>
    have hg : st.good = false := by simp [IStream.good, h]
    rw [(C07_sequence_after_failure (w := 0) md ⟨[], []⟩ init 0#0 n st hg).1]
    obtain ⟨r, e, f, b⟩ := st
    simp only at h; subst h; rfl

private abbrev enumText {V : Type} (name : V → Str) (items : List (Str × V)) : Str := (items.map (fun it => it.1 ++ name it.2)).flatten

private theorem readEnums_cut {V : Type} (md : EnumMd V) (name : V → Str) (init : V) (items : List (Str × V))
    (hname : ∀ it ∈ items, name it.2 ≠ [] ∧ (∀ c ∈ name it.2, c ∉ enumReserved) ∧ NoLeadingSpace (name it.2) ∧
      lookup md.entries (name it.2) = some it.2)
    (hpf : ∀ it ∈ items, ∀ j, j < (name it.2).length → (name it.2).take j ∉ md.entries.map Prod.snd)
    (hsep : ∀ it ∈ items, AllWs it.1) (hsep' : ∀ it ∈ items.tail, it.1 ≠ []) (k : Nat) :
    ∃ m, m ≤ items.length ∧ (enumText name (items.take m)).length ≤ k ∧
      (m < items.length → k < (enumText name (items.take (m + 1))).length) ∧
      (readEnums md init items.length { rest := (enumText name items).take k }).2 =
        (items.take m).map Prod.snd ++ List.replicate (items.length - m) init ∧
      ((readEnums md init items.length { rest := (enumText name items).take k }).1.failbit = true ↔ m < items.length) := by
  induction items generalizing k with
  | nil => exact ⟨0, by simp, by simp, by simp, by simp [readEnums], by simp [readEnums]⟩
  | cons it r ih =>
    obtain ⟨sep, v⟩ := it
    obtain ⟨hn0, hnr, hns, hl⟩ := hname (sep, v) (by simp)
    have hws : ∀ c ∈ sep, c ∈ skippable := fun c hc => ws_skippable (hsep (sep, v) (by simp) c hc)
    have hlen : 0 < (name v).length := List.length_pos_of_ne_nil hn0
    have hR : r ≠ [] → enumText name r ≠ [] := by
      intro hr h0
      cases r with
      | nil => exact hr rfl
      | cons it' r' =>
        have := hsep' it' (by simp)
        simp [enumText] at h0
        exact this h0.1
    by_cases hk : sep.length + (name v).length ≤ k
    · obtain ⟨k', rfl⟩ := Nat.exists_eq_add_of_le hk
      have htext : (enumText name ((sep, v) :: r)).take (sep.length + (name v).length + k') = sep ++ name v ++ (enumText name r).take k' := by
        have : enumText name ((sep, v) :: r) = (sep ++ name v) ++ enumText name r := by simp [enumText]
        rw [this, List.take_append, List.take_of_length_le (by simp)]
        congr 2
        simp
      have hsplit : TokenSplit enumReserved (sep ++ name v ++ (enumText name r).take k') sep (name v) ((enumText name r).take k') := by
        refine ⟨rfl, hws, ?_, hnr, ?_⟩
        · intro c hc
          apply hns c
          cases hnv : name v with
          | nil => exact absurd hnv hn0
          | cons x xs => rw [hnv] at hc; simpa using hc
        · intro c hc
          cases r with
          | nil => simp [enumText] at hc
          | cons it' r' =>
            have h1 := hsep' it' (by simp)
            have h2 := hsep it' (by simp)
            cases hs : it'.1 with
            | nil => exact absurd hs h1
            | cons x xs =>
              cases k' with
              | zero => simp at hc
              | succ k' =>
                simp [enumText, hs] at hc
                subst hc
                exact ws_reserved (h2 x (by simp [hs]))
      obtain ⟨e1, e2, e3, e4, e5⟩ := C08_as_enum_token md _ _ _ _ init hsplit
      rw [htext]
      generalize hst : asEnumExtract md { rest := sep ++ name v ++ (enumText name r).take k' } init = res at e1 e2 e3 e4 e5
      obtain ⟨st1, v1⟩ := res
      simp only at e1 e2 e3 e4 e5
      have hfb : st1.failbit = false := e4.mpr ⟨hn0, List.mem_map_of_mem (f := Prod.snd) (lookup_some_mem hl)⟩
      have hv := e5 hfb
      rw [hl, Option.some.injEq] at hv
      subst hv
      have hstep : readEnums md init (r.length + 1) { rest := sep ++ name v ++ (enumText name r).take k' } =
          ((readEnums md init r.length st1).1, v :: (readEnums md init r.length st1).2) := by
        simp only [readEnums, hst]
      rw [List.length_cons, hstep]
      by_cases hrest : (enumText name r).take k' = []
      · by_cases hr : r = []
        · subst hr
          exact ⟨1, by simp, by simp [enumText], by simp, by simp [readEnums], by simp [readEnums, hfb]⟩
        · have hk' : k' = 0 := by
            rcases List.take_eq_nil_iff.1 hrest with h | h
            · exact h
            · exact absurd h (hR hr)
          subst hk'
          obtain ⟨n, hn⟩ := Nat.exists_eq_succ_of_ne_zero (fun h => hr (List.length_eq_zero_iff.1 h))
          have hg : st1.good = false := by simp [IStream.good, e2.mpr hrest]
          have := (C07_sequence_after_failure (w := 0) md ⟨[], []⟩ init 0#0 n st1 hg).1
          rw [hn, this]
          refine ⟨1, by simp, by simp [enumText], ?_, by simp, by simp⟩
          intro _
          cases r with
          | nil => exact absurd rfl hr
          | cons it' r' =>
            have := List.length_pos_of_ne_nil (hsep' it' (by simp))
            simp [enumText]; omega
      · have hg : st1 = { rest := (enumText name r).take k' } := by
          obtain ⟨a, b, c, d⟩ := st1
          simp only at e1 e2 e3 hfb
          subst e1 e3 hfb
          have : b = false := by
            cases b with
            | false => rfl
            | true => exact absurd (e2.mp rfl) hrest
          rw [this]
        obtain ⟨m, m1, m2, m3, m4, m5⟩ := ih (fun x hx => hname x (by simp [hx])) (fun x hx => hpf x (by simp [hx]))
          (fun x hx => hsep x (by simp [hx])) (fun x hx => hsep' x (by simpa using List.mem_of_mem_tail hx)) k'
        rw [hg]
        refine ⟨m + 1, by omega, ?_, ?_, ?_, ?_⟩
        · simp [enumText] at m2 ⊢; omega
        · intro hm
          have := m3 (by omega)
          simp [enumText] at this ⊢; omega
        · rw [m4]; simp
        · rw [m5]; simp
    · have htext : (enumText name ((sep, v) :: r)).take k = (sep ++ name v).take k := by
        have : enumText name ((sep, v) :: r) = (sep ++ name v) ++ enumText name r := by simp [enumText]
        rw [this, List.take_append_of_le_length (by simp; omega)]
      have hfail : (asEnumExtract md { rest := (sep ++ name v).take k } init).1.failbit = true ∧
          (asEnumExtract md { rest := (sep ++ name v).take k } init).2 = init := by
        by_cases hks : k ≤ sep.length
        · rw [List.take_append_of_le_length hks]
          have := (C07_nothing_to_read (w := 0) ⟨[], []⟩ md (sep.take k) (fun c hc => hws c (List.mem_of_mem_take hc)) 0#0 init).2
          rw [this]; exact ⟨rfl, rfl⟩
        · obtain ⟨j, rfl⟩ := Nat.exists_eq_add_of_le (Nat.le_of_not_le hks)
          have : (sep ++ name v).take (sep.length + j) = sep ++ (name v).take j := by simp [List.take_append, List.take_of_length_le]
          rw [this]
          have hsplit : TokenSplit enumReserved (sep ++ (name v).take j) sep ((name v).take j) [] := by
            refine ⟨by simp, hws, ?_, fun c hc => hnr c (List.mem_of_mem_take hc), by simp⟩
            intro c hc
            apply hns c
            rw [List.append_nil, List.head?_take, if_neg (by omega)] at hc
            exact hc
          obtain ⟨e1, e2, e3, e4, e5⟩ := C08_as_enum_token md _ _ _ _ init hsplit
          have hf : (asEnumExtract md { rest := sep ++ (name v).take j } init).1.failbit = true := by
            cases hf : (asEnumExtract md { rest := sep ++ (name v).take j } init).1.failbit with
            | true => rfl
            | false => exact absurd (e4.mp hf).2 (hpf (sep, v) (by simp) j (by simp; omega))
          exact ⟨hf, (C07_as_enum_failure md _ init).1 hf⟩
      rw [htext]
      generalize hst : asEnumExtract md { rest := (sep ++ name v).take k } init = res at hfail
      obtain ⟨st1, v1⟩ := res
      simp only at hfail
      obtain ⟨hf, rfl⟩ := hfail
      have hstep : readEnums md v1 (r.length + 1) { rest := (sep ++ name v).take k } =
          ((readEnums md v1 r.length st1).1, v1 :: (readEnums md v1 r.length st1).2) := by
        simp only [readEnums, hst]
      rw [List.length_cons, hstep, readEnums_failed md v1 _ st1 hf]
      exact ⟨0, by simp, by simp, by simp [enumText]; omega, by simp [List.replicate_succ], by simp [hf]⟩

private theorem padded_zero (s : Str) (fill : CChar) (left : Bool) : Padded s 0 fill left s := ⟨by simp, 0, by simp⟩

private theorem writes_enumItems {V : Type} {w : Nat} (ne : V → Str → Prop) (nf : BitVec w → Str → Prop) (name : V → Str) (fill : CChar) (left : Bool)
    (items : List (Str × V)) (h : ∀ it ∈ items, ne it.2 (name it.2)) :
    Writes ne nf 0 fill left (enumItems w items) (enumText name items) := by
  induction items with
  | nil => exact .nil _ _ _
  | cons it r ih =>
    have : enumText name (it :: r) = it.1 ++ (name it.2 ++ enumText name r) := by simp [enumText]
    rw [this]
    exact .text (padded_zero _ _ _) (.enum (h it (by simp)) (padded_zero _ _ _) (ih fun x hx => h x (by simp [hx])))

/-- C133. If no name is the beginning of another one, a sequence of enum values which has been cut off anywhere is read back up to the last value which is complete; then extraction fails, and the
remaining targets keep their values.  So no wrong value is read. -/
theorem C133_enum_sequence {V : Type} [DecidableEq V] {w : Nat} (desc : Str) (entries : List (V × Str)) (md : EnumMd V)
    (hmd : makeEnumMetadata desc entries = .ok md) (hnames : (entries.map Prod.snd).Nodup)
    (hlead : ∀ n ∈ entries.map Prod.snd, NoLeadingSpace n) (hpf : PrefixFree (entries.map Prod.snd)) (init : V) (items : List (Str × V))
    (hv : ∀ it ∈ items, it.2 ∈ entries.map Prod.fst) (hsep : ∀ it ∈ items, AllWs it.1) (hsep' : ∀ it ∈ items.tail, it.1 ≠ [])
    (sink : Sink) (mask : IoMask) (fmd : FlagsMd w) :
    ∃ st e m t, putItems sink md fmd mask {} (enumItems w items) = .ok (st, e) ∧
      m ≤ items.length ∧ writeEnums md [] (items.take m) = .ok t ∧ t.length ≤ sink.room ∧
      (m < items.length → ∃ t', writeEnums md [] (items.take (m + 1)) = .ok t' ∧ sink.room < t'.length) ∧
      (readEnums md init items.length { rest := st.out }).2 = (items.take m).map Prod.snd ++ List.replicate (items.length - m) init ∧
      ((readEnums md init items.length { rest := st.out }).1.failbit = true ↔ m < items.length) := by
  have hval : ∀ n ∈ entries.map Prod.snd, n ≠ [] ∧ ∀ c ∈ n, c ∉ enumReserved := by
    by_contra h
    rw [(C12_enum_name_validation desc entries).2 h] at hmd; simp at hmd
  rw [(C12_enum_name_validation desc entries).1 hval] at hmd
  simp only [Outcome.ok.injEq] at hmd; subst hmd
  have hn : ∀ it ∈ items, nameOf entries it.2 = some ((nameOf entries it.2).getD []) := by
    intro it hit
    obtain ⟨n, h⟩ := nameOf_isSome_iff.mpr (hv it hit)
    simp [h]
  have hmem : ∀ it ∈ items, (nameOf entries it.2).getD [] ∈ entries.map Prod.snd := fun it hit =>
    List.mem_map_of_mem (f := Prod.snd) (nameOf_some_mem (hn it hit))
  have hstr : ∀ it ∈ items, enumToString it.2 ⟨desc, entries⟩ = .ok ((nameOf entries it.2).getD []) := fun it hit =>
    ((C02_enum_to_string _ _).1 _).mpr (hn it hit)
  have hw := writes_enumItems (fun v s => enumToString v ⟨desc, entries⟩ = .ok s) (fun f s => flagsToString f fmd = .ok s)
    (fun v => (nameOf entries v).getD []) 32 false items hstr
  obtain ⟨st, e, h1, h2, -⟩ := C133_prefix sink ⟨desc, entries⟩ fmd mask (enumItems w items) {} _ rfl (by simp) hw
  obtain ⟨m, m1, m2, m3, m4, m5⟩ := readEnums_cut ⟨desc, entries⟩ (fun v => (nameOf entries v).getD []) init items
    (fun it hit => ⟨(hval _ (hmem it hit)).1, (hval _ (hmem it hit)).2, hlead _ (hmem it hit),
      lookup_of_nodup hnames (nameOf_some_mem (hn it hit))⟩)
    (fun it hit j hj hin => by
      have := congrArg List.length (hpf _ hin _ (hmem it hit) (List.take_prefix _ _))
      simp at this
      omega) hsep hsep' sink.room
  have hwrite : ∀ m, writeEnums ⟨desc, entries⟩ [] (items.take m) = .ok (enumText (fun v => (nameOf entries v).getD []) (items.take m)) := fun m =>
    writeEnums_eq ⟨desc, entries⟩ (fun v => (nameOf entries v).getD []) (items.take m) (fun it hit => hstr it (List.mem_of_mem_take hit)) []
  have h2' : st.out = (enumText (fun v => (nameOf entries v).getD []) items).take sink.room := by simpa using h2
  exact ⟨st, e, m, _, h1, m1, hwrite m, m2, fun h => ⟨_, hwrite (m + 1), m3 h⟩, by rw [h2']; exact m4, by rw [h2']; exact m5⟩

example : makeEnumMetadata (str "color") colors = .ok colorsMd ∧ (colors.map Prod.snd).Nodup ∧
    (∀ n ∈ colors.map Prod.snd, NoLeadingSpace n) ∧ PrefixFree (colors.map Prod.snd) ∧
    (∀ it ∈ [(str "", 2), (str " \n", 0), (str "\t", 1)], it.2 ∈ colors.map Prod.fst ∧ AllWs it.1) :=
  ⟨colorsMd_ok, by decide, by unfold NoLeadingSpace; decide, by unfold PrefixFree; decide, by unfold AllWs; decide⟩

/-- C133, where it fails: if the name of one value is the beginning of the name of another one, the latter, cut off after as many characters, is read as the former, and nothing
tells the reader. -/
theorem C133_enum_wrong_value {V : Type} [DecidableEq V] {w : Nat} (desc : Str) (entries : List (V × Str)) (md : EnumMd V)
    (hmd : makeEnumMetadata desc entries = .ok md) (hlead : ∀ n ∈ entries.map Prod.snd, NoLeadingSpace n)
    (v v' : V) (n n' : Str) (hn : nameOf entries v = some n) (hl : lookup entries n' = some v') (hpre : n' <+: n) (hne : n' ≠ n) (init : V) (fmd : FlagsMd w)
    (mask : IoMask) :
    ∃ st e, putItems { room := n'.length } md fmd mask {} (enumItems w [([], v)]) = .ok (st, e) ∧ st.good = false ∧
      readEnums md init 1 { rest := st.out } = ({ rest := [], eofbit := true }, [v']) := by
  have hval : ∀ n ∈ entries.map Prod.snd, n ≠ [] ∧ ∀ c ∈ n, c ∉ enumReserved := by
    by_contra h
    rw [(C12_enum_name_validation desc entries).2 h] at hmd; simp at hmd
  rw [(C12_enum_name_validation desc entries).1 hval] at hmd
  simp only [Outcome.ok.injEq] at hmd; subst hmd
  have hw := writes_enumItems (fun v s => enumToString v ⟨desc, entries⟩ = .ok s) (fun f s => flagsToString f fmd = .ok s)
    (fun v => (nameOf entries v).getD []) 32 false [([], v)] (by simpa [(C02_enum_to_string _ _).1] using by simp [hn])
  obtain ⟨st, e, h1, h2, h3, -⟩ := C133_prefix { room := n'.length } ⟨desc, entries⟩ fmd mask (enumItems w [([], v)]) {} _ rfl (by simp) hw
  obtain ⟨u, hu⟩ := hpre
  have hout : st.out = n' := by rw [h2]; simp [enumText, hn]; rw [← hu]; simp
  refine ⟨st, e, h1, ?_, ?_⟩
  · cases hg : st.good with
    | false => rfl
    | true =>
      have := h3.mp hg
      simp [enumText, hn] at this
      rw [← hu] at this
      have hu0 : u = [] := List.length_eq_zero_iff.1 (by simp at this; omega)
      exact absurd (by rw [← hu, hu0, List.append_nil]) hne
  · have hm : n' ∈ entries.map Prod.snd := List.mem_map_of_mem (f := Prod.snd) (lookup_some_mem hl)
    obtain ⟨e1, e2, e3, e4, e5⟩ := C08_as_enum_token ⟨desc, entries⟩ n' [] n' [] init
      ⟨by simp, by simp, fun c hc => hlead n' hm c (by simpa using hc), (hval n' hm).2, by simp⟩
    have hf := e4.mpr ⟨(hval n' hm).1, hm⟩
    have hv := e5 hf
    rw [hout]
    simp only [readEnums]
    generalize asEnumExtract ⟨desc, entries⟩ { rest := n' } init = res at *
    obtain ⟨⟨a, b, c, d⟩, x⟩ := res
    simp only at e1 e2 e3 hf hv
    rw [hl, Option.some.injEq] at hv
    subst e1 e3 hf hv
    simpa using e2

example : makeEnumMetadata [] [(0, str "error"), (1, str "errors")] = .ok ⟨[], [(0, str "error"), (1, str "errors")]⟩ ∧
    (∀ n ∈ [str "error", str "errors"], NoLeadingSpace n) ∧
    nameOf [(0, str "error"), (1, str "errors")] 1 = some (str "errors") ∧ lookup [(0, str "error"), (1, str "errors")] (str "error") = some 0 ∧
    str "error" <+: str "errors" ∧ str "error" ≠ str "errors" :=
  ⟨(C12_enum_name_validation [] _).1 (by decide), by unfold NoLeadingSpace; decide, by decide, by decide, by decide, by decide⟩

/-! ## Flags -/

/-- The pieces of a beginning of a list of names are beginnings of the names. -/
private theorem split_cut {L : List Str} (hL : ∀ n ∈ L, ∀ c ∈ n, isFlagDelim c = false) (k : Nat) :
    ∀ p ∈ split isFlagDelim ((join (str "+") L).take k), p = [] ∨ ∃ n ∈ L, p <+: n := by
  have h43 : str "+" = [43] := by decide
  induction L generalizing k with
  | nil => intro p hp; simp [split] at hp; exact .inl hp
  | cons n L ih =>
    have hn := hL n (by simp)
    by_cases hk : k ≤ n.length
    · have : (join (str "+") (n :: L)).take k = n.take k := by
        cases L with
        | nil => simp
        | cons => rw [join_cons_cons, List.append_assoc, List.take_append_of_le_length hk]
      rw [this, split_no_delim (fun c hc => hn c (List.mem_of_mem_take hc))]
      intro p hp
      rw [List.mem_singleton] at hp
      exact .inr ⟨n, by simp, hp ▸ List.take_prefix _ _⟩
    · cases L with
      | nil =>
        rw [join_singleton, List.take_of_length_le (by omega), split_no_delim hn]
        intro p hp
        rw [List.mem_singleton] at hp
        exact .inr ⟨n, by simp, hp ▸ List.prefix_rfl⟩
      | cons m L =>
        obtain ⟨j, rfl⟩ := Nat.exists_eq_add_of_lt (Nat.lt_of_not_le hk)
        have : (join (str "+") (n :: m :: L)).take (n.length + j + 1) = n ++ 43 :: (join (str "+") (m :: L)).take j := by
          rw [join_cons_cons, h43, List.append_assoc, List.take_append, List.take_of_length_le (by omega)]
          have : n.length + j + 1 - n.length = j + 1 := by omega
          rw [this]; rfl
        rw [this, split_append_delim hn (by decide)]
        intro p hp
        rcases List.mem_cons.1 hp with rfl | hp
        · exact .inr ⟨p, by simp, List.prefix_rfl⟩
        · rcases ih (fun x hx => hL x (by simp [hx])) j p hp with h | ⟨x, hx, h⟩
          · exact .inl h
          · exact .inr ⟨x, by simp [hx], h⟩

private theorem strip_prefix {p n : Str} (hn : Stripped n) (h : p <+: n) : strip p <+: n := by
  obtain ⟨pre, post, hp, h1, h2, h3⟩ := strip_spec p
  have hpre : pre = [] := by
    cases pre with
    | nil => rfl
    | cons c r =>
      obtain ⟨u, hu⟩ := h
      have := hn.1 c (by rw [← hu, hp]; rfl)
      have h1' := h1 c (by simp)
      rw [this] at h1'; simp at h1'
  rw [hpre, List.nil_append] at hp
  exact ⟨_, by rw [← List.append_assoc, ← hp]; exact h.choose_spec⟩

private theorem mem_dropEmptyLast {L : List Str} {t : Str} (h : t ∈ dropEmptyLast L) : t ∈ L := by
  unfold dropEmptyLast at h
  split at h
  · exact List.dropLast_subset _ h
  · exact h

private theorem tokens_cut {L names : List Str} (hL : ∀ n ∈ L, n ∈ names) (hclean : ∀ n ∈ names, CleanFlagName n) (hpf : PrefixFree names) (k : Nat)
    (t : Str) (ht : t ∈ flagTokens ((join (str "+") L).take k)) (hm : t ∈ names) : t ∈ L := by
  have ht := mem_dropEmptyLast ht
  obtain ⟨p, hp, rfl⟩ := List.mem_map.1 ht
  rcases split_cut (fun n hn => (hclean n (hL n hn)).2.1) k p hp with rfl | ⟨n, hn, hpn⟩
  · exact absurd (by decide) (hclean _ hm).1
  · have := hpf _ hm _ (hL n hn) (strip_prefix (hclean n (hL n hn)).2.2 hpn)
    rw [this]; exact hn

/-- What `flags_to_string` prints: names of parts of the value. -/
private theorem printed_names {w : Nat} (desc : Str) (entries : List (BitVec w × Str)) (md : FlagsMd w)
    (hmd : makeFlagsMetadata desc entries = .ok md) (hnames : (entries.map Prod.snd).Nodup) (v : BitVec w) (s : Str) (hs : flagsToString v md = .ok s) :
    ∃ L, s = join (str "+") L ∧ (∀ n ∈ L, n ∈ entries.map Prod.snd) ∧ ∀ n ∈ L, ∀ x, lookup md.entries n = some x → SubBits x v := by
  have hperm := (C13_flags_metadata_partition _ _ _ hmd).1
  have hlook : ∀ e ∈ entries, lookup md.entries e.2 = some e.1 := fun e he =>
    lookup_of_nodup ((hperm.map Prod.snd).nodup_iff.mpr hnames) (hperm.mem_iff.mpr he)
  have hv := (C05_flags_to_string_fails_iff desc entries md hmd v).2.mp ⟨s, hs⟩
  by_cases h0 : v = 0#w
  · subst h0
    rw [C05_flags_to_string_zero desc entries md hmd, Outcome.ok.injEq] at hs
    cases hn : nameOf entries 0#w with
    | none => rw [hn] at hs; subst hs; exact ⟨[], rfl, by simp, by simp⟩
    | some n =>
      rw [hn] at hs; subst hs
      have hm := nameOf_some_mem hn
      refine ⟨[n], rfl, by simpa using ⟨_, hm⟩, ?_⟩
      intro n' hn' x hx
      rw [List.mem_singleton] at hn'; subst hn'
      have := hlook _ hm
      simp only at this
      rw [this, Option.some.injEq] at hx
      subst hx; exact fun i hi => hi
  · obtain ⟨L, hs', hsub, hL, -, -⟩ := C05_flags_to_string_shape desc entries md hmd v h0 hv
    rw [hs, Outcome.ok.injEq] at hs'
    refine ⟨L.map Prod.snd, hs', fun n hn => (hsub.map Prod.snd).subset hn, ?_⟩
    intro n hn x hx
    obtain ⟨e, he, rfl⟩ := List.mem_map.1 hn
    rw [hlook e (hsub.subset he), Option.some.injEq] at hx
    subst hx
    exact (hL e he).2.1

/-- C133. If no name is the beginning of another one, the text of a flags value which has been cut off is either rejected or taken for a subset of the flags, never for flags which were
not set. -/
theorem C133_flags_subset {w : Nat} (desc : Str) (entries : List (BitVec w × Str)) (md : FlagsMd w)
    (hmd : makeFlagsMetadata desc entries = .ok md) (hnames : (entries.map Prod.snd).Nodup)
    (hclean : ∀ n ∈ entries.map Prod.snd, CleanFlagName n) (hpf : PrefixFree (entries.map Prod.snd))
    (v r : BitVec w) (s : Str) (hs : flagsToString v md = .ok s) (k : Nat) (hr : parseFlags (s.take k) md.toEnumMd = .ok r) : SubBits r v := by
  obtain ⟨L, rfl, hL, hsub⟩ := printed_names desc entries md hmd hnames v s hs
  have hperm := (C13_flags_metadata_partition _ _ _ hmd).1
  obtain ⟨h1, h2⟩ := (C06_parse_flags_ok_iff _ _ _).mp hr
  intro i hi
  obtain ⟨t, ht, x, hx, hxi⟩ := (h2 i).mp hi
  have htn : t ∈ entries.map Prod.snd := (hperm.map Prod.snd).mem_iff.mp (h1 t ht)
  exact hsub t (tokens_cut hL hclean hpf k t ht htn) x hx i hxi

/-- Example flags of which no name is the beginning of another one. -/
private def modes : List (BitVec 8 × Str) := [(0, str "none"), (1, str "read"), (2, str "write"), (4, str "create new")]
private def modesMd : FlagsMd 8 :=
  { description := [], entries := [(1, str "read"), (2, str "write"), (4, str "create new"), (0, str "none")], allDefinedFlags := 7, noneName := str "none", numIndividualNames := 3 }
private theorem modesMd_ok : makeFlagsMetadata [] modes = .ok modesMd := by
  rw [makeFlagsMetadata_eq, if_pos (by decide)]; rfl
private theorem modes_clean : ∀ n ∈ modes.map Prod.snd, CleanFlagName n := by unfold CleanFlagName Stripped; decide

example : makeFlagsMetadata [] modes = .ok modesMd ∧ (modes.map Prod.snd).Nodup ∧ (∀ n ∈ modes.map Prod.snd, CleanFlagName n) ∧
    PrefixFree (modes.map Prod.snd) ∧ flagsToString 7#8 modesMd = .ok (str "read+write+create new") ∧
    parseFlags ((str "read+write+create new").take 11) modesMd.toEnumMd = .ok 3#8 := by
  refine ⟨modesMd_ok, by decide, modes_clean, by unfold PrefixFree; decide, by decide, ?_⟩
  rw [C06_parse_flags_denotation, show flagTokens ((str "read+write+create new").take 11) = [str "read", str "write"] by decide]
  rfl

/-- C133, what goes unnoticed: the text of every value of more than one flag can be cut off such that it is a valid text of another value. -/
theorem C133_flags_undetected {w : Nat} (desc : Str) (entries : List (BitVec w × Str)) (md : FlagsMd w)
    (hmd : makeFlagsMetadata desc entries = .ok md) (hnames : (entries.map Prod.snd).Nodup)
    (hclean : ∀ n ∈ entries.map Prod.snd, CleanFlagName n)
    (v : BitVec w) (h0 : v ≠ 0#w) (h1 : ¬ SingleBit v) (hv : SubBits v (union (entries.map Prod.fst))) :
    ∃ s k r, flagsToString v md = .ok s ∧ k < s.length ∧ parseFlags (s.take k) md.toEnumMd = .ok r ∧ r ≠ v := by
  have hperm := (C13_flags_metadata_partition _ _ _ hmd).1
  obtain ⟨L, hs, hsub, hL, -, hu⟩ := C05_flags_to_string_shape desc entries md hmd v h0 hv
  match L, hs, hsub, hL, hu with
  | [], hs, hsub, hL, hu => exact absurd hu.symm h0
  | [e], hs, hsub, hL, hu =>
    have : v = e.1 := by rw [← hu]; simp [union]
    exact absurd (this ▸ (hL e (by simp)).1) h1
  | e :: e' :: L, hs, hsub, hL, hu =>
    have he : e ∈ entries := hsub.subset (by simp)
    refine ⟨_, e.2.length, e.1, hs, ?_, ?_, fun h => h1 (h ▸ (hL e (by simp)).1)⟩
    · have : (str "+").length = 1 := by decide
      simp only [List.map_cons, join_cons_cons, List.length_append, this]; omega
    · have htake : (join (str "+") ((e :: e' :: L).map Prod.snd)).take e.2.length = join (str "+") [e.2] := by
        simp only [List.map_cons, join_cons_cons, List.append_assoc, join_singleton]
        rw [List.take_append_of_le_length (Nat.le_refl _), List.take_length]
      rw [htake, C06_parse_flags_denotation, flagTokens_join (by
        intro n hn
        rw [List.mem_singleton.1 hn]
        exact hclean _ (List.mem_map_of_mem (f := Prod.snd) he))]
      have : lookup md.entries e.2 = some e.1 := lookup_of_nodup ((hperm.map Prod.snd).nodup_iff.mpr hnames) (hperm.mem_iff.mpr he)
      simp [tokensValue, this]

example : (7#8 ≠ 0#8) ∧ SubBits 7#8 (union (modes.map Prod.fst)) ∧ ¬ SingleBit 7#8 := by
  refine ⟨by decide, (and_not_eq_zero _ _).mp (by decide), ?_⟩
  rintro ⟨i, -, h⟩
  have h0 := h 0
  have h1 := h 1
  simp at h0 h1
  omega

/-- C133, where it fails: if the text of a value begins with the name of another one, the value, cut off after as many characters, is taken for the other one. -/
theorem C133_flags_wrong_value {w : Nat} (md : FlagsMd w) (v x : BitVec w) (s n : Str) (hs : flagsToString v md = .ok s) (hn : n <+: s)
    (hclean : CleanFlagName n) (hx : lookup md.entries n = some x) :
    ∃ k, parseFlags (s.take k) md.toEnumMd = .ok x := by
  refine ⟨n.length, ?_⟩
  obtain ⟨u, rfl⟩ := hn
  rw [List.take_append_of_le_length (Nat.le_refl _), List.take_length, ← join_singleton (str "+") n, C06_parse_flags_denotation,
    flagTokens_join (by simpa using hclean)]
  simp [tokensValue, hx]

example : ∃ (md : FlagsMd 8) (v x : BitVec 8) (s n : Str), makeFlagsMetadata [] [(1, str "exec"), (2, str "execute")] = .ok md ∧
    flagsToString v md = .ok s ∧ n <+: s ∧ CleanFlagName n ∧ lookup md.entries n = some x ∧ ¬ SubBits x v := by
  refine ⟨⟨⟨[], [(1, str "exec"), (2, str "execute")]⟩, 3, [], 2⟩, 2, 1, str "execute", str "exec", ?_, by decide, by decide, ?_, by decide, ?_⟩
  · rw [makeFlagsMetadata_eq, if_pos (by decide)]; rfl
  · unfold CleanFlagName Stripped; decide
  · exact fun h => absurd ((and_not_eq_zero _ _).mpr h) (by decide)

private theorem readFlags_failed {w : Nat} (md : EnumMd (BitVec w)) (init : BitVec w) (n : Nat) (st : IStream) (h : st.good = false) :
    readFlags md init (n + 1) st = ({ st with failbit := true }, List.replicate (n + 1) 0#w) :=
  (C07_sequence_after_failure (V := Nat) (w := w) ⟨[], []⟩ md 0 init n st h).2

private theorem zero_subBits {w : Nat} (v : BitVec w) : SubBits 0#w v := fun i hi => by simp at hi

private theorem readFlags_cut {w : Nat} (md : EnumMd (BitVec w)) (text : BitVec w → Str) (init : BitVec w) (vs : List (BitVec w))
    (ht : ∀ v ∈ vs, (∀ c ∈ text v, c ∉ flagsReserved) ∧ NoLeadingSpace (text v) ∧ parseFlags (text v) md = .ok v)
    (hsub : ∀ v ∈ vs, ∀ k r, parseFlags ((text v).take k) md = .ok r → SubBits r v) (hne : vs ≠ []) (k : Nat) :
    let res := readFlags md init vs.length { rest := (join (str ",") (vs.map text)).take k }
    List.Forall₂ (fun r v => SubBits r v ∨ r = init) res.2 vs ∧
      (res.1.failbit = false → List.Forall₂ SubBits res.2 vs ∧ res.2.dropLast = vs.dropLast) := by
  have h44 : str "," = [44] := by decide
  induction vs generalizing k with
  | nil => exact absurd rfl hne
  | cons v r ih =>
    obtain ⟨h1, h2, h3⟩ := ht v (by simp)
    have hcut : ∀ k, let res := asFlagsExtract md { rest := (text v).take k } init
        (SubBits res.2 v ∨ res.2 = init) ∧ (res.1.failbit = false → SubBits res.2 v) ∧ res.1.eofbit = true := by
      intro k
      have hsplit : TokenSplit flagsReserved ((text v).take k) [] ((text v).take k) [] := by
        refine ⟨by simp, by simp, ?_, fun c hc => h1 c (List.mem_of_mem_take hc), by simp⟩
        intro c hc
        rw [List.append_nil, List.head?_take] at hc
        split at hc
        · simp at hc
        · exact h2 c hc
      obtain ⟨e1, e2, e3, e4, e5⟩ := C09_as_flags_token md _ _ _ _ init hsplit
      refine ⟨?_, fun hf => hsub v (by simp) k _ (e5 hf), e2.mpr rfl⟩
      cases hf : (asFlagsExtract md { rest := (text v).take k } init).1.failbit with
      | false => exact .inl (hsub v (by simp) k _ (e5 hf))
      | true => exact .inr ((C07_as_flags_failure_partial md _ init).1 hf)
    cases r with
    | nil =>
      obtain ⟨c1, c2, -⟩ := hcut k
      simp only [List.map_cons, List.map_nil, join_singleton, List.length_singleton, readFlags]
      exact ⟨.cons c1 .nil, fun hf => ⟨.cons (c2 hf) .nil, rfl⟩⟩
    | cons v' r' =>
      by_cases hk : k ≤ (text v).length
      · have htake : (join (str ",") ((v :: v' :: r').map text)).take k = (text v).take k := by
          rw [List.map_cons, List.map_cons, join_cons_cons, List.append_assoc, List.take_append_of_le_length hk]
        obtain ⟨c1, c2, c3⟩ := hcut k
        simp only [htake, List.length_cons, readFlags]
        generalize asFlagsExtract md { rest := (text v).take k } init = res at *
        have hg : res.1.good = false := by simp [IStream.good, c3]
        have hg' : res.1.skip1.good = false := by
          have : res.1.skip1 = { res.1 with failbit := true } := by simp [IStream.skip1, hg]
          rw [this]; simp [IStream.good]
        rw [readFlags_failed md init _ _ hg']
        refine ⟨.cons c1 ?_, by simp⟩
        have : ∀ l : List (BitVec w), List.Forall₂ (fun r v => SubBits r v ∨ r = init) (List.replicate l.length 0#w) l := by
          intro l
          induction l with
          | nil => exact .nil
          | cons a l ih => exact .cons (.inl (zero_subBits a)) ih
        exact this (v' :: r')
      · obtain ⟨j, rfl⟩ := Nat.exists_eq_add_of_lt (Nat.lt_of_not_le hk)
        have htake : (join (str ",") ((v :: v' :: r').map text)).take ((text v).length + j + 1) =
            text v ++ 44 :: (join (str ",") ((v' :: r').map text)).take j := by
          rw [List.map_cons, List.map_cons, join_cons_cons, h44, List.append_assoc, List.take_append, List.take_of_length_le (by omega)]
          have : (text v).length + j + 1 - (text v).length = j + 1 := by omega
          rw [this]; rfl
        have hsplit : TokenSplit flagsReserved (text v ++ 44 :: (join (str ",") ((v' :: r').map text)).take j) [] (text v)
            (44 :: (join (str ",") ((v' :: r').map text)).take j) := by
          refine ⟨by simp, by simp, ?_, h1, ?_⟩
          · intro c hc
            cases hx : text v with
            | nil => rw [hx] at hc; simp at hc; subst hc; decide
            | cons x xs => rw [hx] at hc; exact h2 c (by rw [hx]; simpa using hc)
          · intro c hc
            simp at hc; subst hc; decide
        obtain ⟨e1, e2, e3, e4, e5⟩ := C09_as_flags_token md _ _ _ _ init hsplit
        have hf := e4.mpr ⟨v, h3⟩
        have hv := e5 hf
        rw [h3, Outcome.ok.injEq] at hv
        have := ih (fun x hx => ht x (by simp [hx])) (fun x hx => hsub x (by simp [hx])) (by simp) j
        simp only [htake, List.length_cons, readFlags] at this ⊢
        generalize asFlagsExtract md { rest := text v ++ 44 :: (join (str ",") ((v' :: r').map text)).take j } init = res at *
        obtain ⟨⟨a, b, c, d⟩, x⟩ := res
        simp only at e1 e2 e3 hf hv
        have hb : b = false := by
          cases b with
          | false => rfl
          | true => have := e2.mp rfl; simp at this
        subst e1 e3 hf hv hb
        have hskip : ({ rest := 44 :: (join (str ",") ((v' :: r').map text)).take j } : IStream).skip1 =
            { rest := (join (str ",") ((v' :: r').map text)).take j } := rfl
        rw [hskip]
        obtain ⟨t1, t2⟩ := this
        refine ⟨.cons (.inl fun i hi => hi) t1, fun hfb => ?_⟩
        obtain ⟨t3, t4⟩ := t2 hfb
        refine ⟨.cons (fun i hi => hi) t3, ?_⟩
        generalize hq : (readFlags md init (r'.length + 1) { rest := (join (str ",") ((v' :: r').map text)).take j }).2 = q at t3 t4 ⊢
        cases q with
        | nil => cases t3
        | cons y ys => simp only [List.dropLast_cons_cons]; rw [t4]

private theorem writes_flagsItems {V : Type} {w : Nat} (ne : V → Str → Prop) (nf : BitVec w → Str → Prop) (text : BitVec w → Str) (fill : CChar) (left : Bool)
    (vs : List (BitVec w)) (h : ∀ v ∈ vs, nf v (text v)) :
    Writes ne nf 0 fill left (flagsItems V vs) (join (str ",") (vs.map text)) := by
  induction vs with
  | nil => exact .nil _ _ _
  | cons v r ih =>
    cases r with
    | nil =>
      have := Writes.flags (nameE := ne) (nameF := nf) (h v (by simp)) (padded_zero _ fill left) (.nil 0 fill left)
      simpa [flagsItems] using this
    | cons v' r' =>
      simp only [flagsItems, List.map_cons, join_cons_cons, List.append_assoc]
      exact .flags (h v (by simp)) (padded_zero _ _ _) (.text (padded_zero _ _ _) (ih fun x hx => h x (by simp [hx])))

/-- C133. If no name is the beginning of another one, every value read from a sequence of flags values which has been cut off is a subset of the one written, or the target is unchanged.  If
no failure is reported, then all values but the last one are the ones written. -/
theorem C133_flags_sequence {V : Type} [DecidableEq V] {w : Nat} (desc : Str) (entries : List (BitVec w × Str)) (md : FlagsMd w)
    (hmd : makeFlagsMetadata desc entries = .ok md) (hnames : (entries.map Prod.snd).Nodup)
    (hclean : ∀ n ∈ entries.map Prod.snd, CleanFlagName n) (hlead : ∀ n ∈ entries.map Prod.snd, NoLeadingSpace n)
    (hpf : PrefixFree (entries.map Prod.snd)) (init : BitVec w) (vs : List (BitVec w)) (hne : vs ≠ [])
    (hv : ∀ v ∈ vs, SubBits v (union (entries.map Prod.fst))) (sink : Sink) (mask : IoMask) (emd : EnumMd V) :
    ∃ st e, putItems sink emd md mask {} (flagsItems V vs) = .ok (st, e) ∧
      let res := readFlags md.toEnumMd init vs.length { rest := st.out }
      List.Forall₂ (fun r v => SubBits r v ∨ r = init) res.2 vs ∧
      (res.1.failbit = false → List.Forall₂ SubBits res.2 vs ∧ res.2.dropLast = vs.dropLast) := by
  have key : ∀ v, ∃ s, v ∈ vs → flagsToString v md = .ok s ∧ (∀ c ∈ s, c ∉ flagsReserved) ∧ NoLeadingSpace s ∧
      parseFlags s md.toEnumMd = .ok v := by
    intro v
    by_cases hm : v ∈ vs
    · obtain ⟨s, hs⟩ := flags_text desc entries md hmd hnames hclean hlead v (hv v hm)
      exact ⟨s, fun _ => hs⟩
    · exact ⟨[], fun h => absurd h hm⟩
  obtain ⟨text, ht⟩ := Classical.skolem.mp key
  obtain ⟨st, e, h1, h2, -⟩ := C133_prefix sink emd md mask (flagsItems V vs) {} _ rfl (by simp)
    (writes_flagsItems _ (fun f s => flagsToString f md = .ok s) text 32 false vs fun v hm => (ht v hm).1)
  refine ⟨st, e, h1, ?_⟩
  have h2' : st.out = (join (str ",") (vs.map text)).take sink.room := by simpa using h2
  rw [h2']
  exact readFlags_cut md.toEnumMd text init vs (fun v hm => (ht v hm).2)
    (fun v hm k r hr => C133_flags_subset desc entries md hmd hnames hclean hpf v r (text v) (ht v hm).1 k hr) hne sink.room

example : (∀ n ∈ modes.map Prod.snd, NoLeadingSpace n) ∧ ∀ v ∈ [7#8, 0#8, 2#8], SubBits v (union (modes.map Prod.fst)) :=
  ⟨by unfold NoLeadingSpace; decide, fun v hv => (and_not_eq_zero _ _).mp (by revert v; decide)⟩

end Makeshift.Props
