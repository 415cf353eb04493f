import Verif.Model.SaveLoad
import Verif.Props.Iomanip
import Verif.Props.TieMembers
import Verif.Props.TupleAlgo

/-!
# C136: saving and loading objects by the names of their members
-/

namespace Makeshift.Props

open Makeshift Makeshift.Spec Makeshift.Metadata Makeshift.TieMembers Makeshift.SaveLoad

/-! ## Specification -/

/-- The tables are what the library makes of a table with distinct names which can be read back from a stream. -/
def CodecSound : Codec → Prop
  | .enum md => ∃ desc entries, makeEnumMetadata desc entries = .ok md ∧ (entries.map Prod.snd).Nodup ∧
      ∀ n ∈ entries.map Prod.snd, NoLeadingSpace n
  | .flags w md => ∃ desc, ∃ entries : List (BitVec w × Str), makeFlagsMetadata desc entries = .ok md ∧ (entries.map Prod.snd).Nodup ∧
      (∀ n ∈ entries.map Prod.snd, CleanFlagName n) ∧ ∀ n ∈ entries.map Prod.snd, NoLeadingSpace n

/-- A value which the tables know: a listed value, or a combination of listed flags. -/
def CodecKnows (v : Int) : Codec → Prop
  | .enum md => v ∈ md.entries.map Prod.fst
  | .flags w md => ∃ f : BitVec w, v = f.toNat ∧ SubBits f (union (md.entries.map Prod.fst))

/-- A value which a member can have at all. -/
def CodecRange (v : Int) : Codec → Prop
  | .enum _ => True
  | .flags w _ => ∃ f : BitVec w, v = f.toNat

/-- The text of a value. -/
def CodecText (v : Int) (s : Str) : Codec → Prop
  | .enum md => enumToString v md = .ok s
  | .flags w md => flagsToString (BitVec.ofInt w v) md = .ok s

/-- The characters which end the text of a value. -/
def CodecReserved : Codec → Str
  | .enum _ => enumReserved
  | .flags _ _ => flagsReserved

/-- A text without meaning: not the name of a value, or naming an unknown flag. -/
def CodecRejects (s : Str) : Codec → Prop
  | .enum md => s ∉ md.entries.map Prod.snd
  | .flags _ md => ∃ t ∈ flagTokens s, t ∉ md.entries.map Prod.snd

/-! ## Helper lemmas -/

private theorem ofInt_toNat {w : Nat} (f : BitVec w) : BitVec.ofInt w (f.toNat : Int) = f := by
  simp

private theorem text_exists {c : Codec} (hs : CodecSound c) {v : Int} (hv : CodecKnows v c) : ∃ s, CodecText v s c := by
  cases c with
  | enum md =>
    obtain ⟨desc, entries, hmd, hn, hl⟩ := hs
    have he : md.entries = entries := by
      have hval : ∀ n ∈ entries.map Prod.snd, n ≠ [] ∧ ∀ c ∈ n, c ∉ enumReserved := by
        by_contra h
        rw [(C12_enum_name_validation desc entries).2 h] at hmd; simp at hmd
      rw [(C12_enum_name_validation desc entries).1 hval] at hmd
      simp only [Outcome.ok.injEq] at hmd; subst hmd; rfl
    obtain ⟨n, hn⟩ := nameOf_isSome_iff.mpr hv
    exact ⟨n, ((C02_enum_to_string v md).1 n).mpr hn⟩
  | flags w md =>
    obtain ⟨desc, entries, hmd, hn, hc, hl⟩ := hs
    obtain ⟨f, rfl, hf⟩ := hv
    have hp := (C13_flags_metadata_partition _ _ _ hmd).1
    have hf' : SubBits f (union (entries.map Prod.fst)) := by
      intro i hi
      have := hf i hi
      rw [union_getLsbD] at this ⊢
      obtain ⟨x, hx, hxi⟩ := this
      exact ⟨x, (hp.map Prod.fst).mem_iff.mp hx, hxi⟩
    obtain ⟨s, hs, -⟩ := flags_text desc entries md hmd hn hc hl f hf'
    exact ⟨s, by simpa [CodecText] using hs⟩

private theorem put_text {c : Codec} {v : Int} {s : Str} (h : CodecText v s c) (out : Str) : c.put out v = .ok (out ++ s) := by
  cases c with
  | enum md => simp only [CodecText] at h; simp [Codec.put, asEnumInsert, h, Outcome.mapVal]
  | flags w md => simp only [CodecText] at h; simp [Codec.put, asFlagsInsert, h, Outcome.mapVal]

private theorem token {fb : CharBitset} {bad : Str} (hfb : ∀ c, fb.contains c = true ↔ c ∈ bad) {s : Str} (hs : ∀ c ∈ s, c ∉ bad)
    (hl : NoLeadingSpace s) (hcomma : (44 : CChar) ∈ bad) (r : Str) :
    ((s ++ 44 :: r).dropWhile isSpaceC).takeWhile (fun c => !fb.contains c) = s ∧
    ((s ++ 44 :: r).dropWhile isSpaceC).dropWhile (fun c => !fb.contains c) = 44 :: r := by
  have h1 : (s ++ 44 :: r).dropWhile isSpaceC = s ++ 44 :: r := by
    apply dropWhile_head_stop
    intro c hc
    cases hsp : isSpaceC c with
    | false => rfl
    | true =>
      cases s with
      | nil =>
        simp only [List.nil_append, List.head?_cons, Option.some.injEq] at hc
        subst hc; revert hsp; decide
      | cons a t =>
        simp only [List.cons_append, List.head?_cons, Option.some.injEq] at hc
        subst hc
        exact absurd ((isSpaceC_iff a).mp hsp) (hl a rfl)
  rw [h1]
  apply takeWhile_append_stop
  · intro c hc
    cases hb : fb.contains c with
    | false => rfl
    | true => exact absurd ((hfb c).mp hb) (hs c hc)
  · intro c hc
    simp only [List.head?_cons, Option.some.injEq] at hc
    subst hc
    rw [(hfb _).mpr hcomma]; rfl

private theorem get_text {c : Codec} (hs : CodecSound c) {v : Int} {s : Str} (hr : CodecRange v c) (h : CodecText v s c) (v0 : Int)
    (r : Str) : c.get { rest := s ++ 44 :: r } v0 = ({ rest := 44 :: r }, v) := by
  cases c with
  | enum md =>
    obtain ⟨desc, entries, hmd, hn, hl⟩ := hs
    have hval : ∀ n ∈ entries.map Prod.snd, n ≠ [] ∧ ∀ c ∈ n, c ∉ enumReserved := by
      by_contra h
      rw [(C12_enum_name_validation desc entries).2 h] at hmd; simp at hmd
    rw [(C12_enum_name_validation desc entries).1 hval] at hmd
    simp only [Outcome.ok.injEq] at hmd; subst hmd
    have hname := ((C02_enum_to_string v _).1 s).mp h
    have hmem := nameOf_some_mem hname
    have hm2 := List.mem_map_of_mem (f := Prod.snd) hmem
    obtain ⟨t1, t2⟩ := token enumSet (hval _ hm2).2 (hl _ hm2) (by decide) r
    simp only [Codec.get, asEnumExtract_good, t1, t2]
    rw [if_neg (hval _ hm2).1, lookup_of_nodup hn hmem]
    rfl
  | flags w md =>
    obtain ⟨desc, entries, hmd, hn, hc, hl⟩ := hs
    obtain ⟨f, rfl⟩ := hr
    simp only [CodecText, ofInt_toNat] at h
    have hf := ((C05_flags_to_string_fails_iff desc entries md hmd f).2).mp ⟨s, h⟩
    obtain ⟨s', h1, h2, h3, h4⟩ := flags_text desc entries md hmd hn hc hl f hf
    rw [h] at h1
    cases h1
    obtain ⟨t1, t2⟩ := token flagsSet h2 h3 (by decide) r
    rw [C06_parse_flags_denotation] at h4
    simp only [Codec.get, asFlagsExtract_good, t1, t2]
    cases htv : tokensValue md.entries (flagTokens s) with
    | ok g => rw [htv] at h4; simp only [Outcome.ok.injEq] at h4; subst h4; rfl
    | error t => rw [htv] at h4; simp at h4

private theorem calls_args (cells : List Cell) :
    CallArgs [TArg.tuple cells, TArg.tupleIndex] (cells.zipIdx.map fun e => [TVal.elem e.1, TVal.indexConstant e.2]) := by
  intro i vs h
  simp only [List.getElem?_map, List.getElem?_zipIdx, Option.map_map, Option.map_eq_some_iff] at h
  obtain ⟨c, hc, rfl⟩ := h
  simp only [Nat.zero_add, Function.comp]
  exact .cons (.tuple hc) (.cons .tupleIndex .nil)

private theorem foldl_select {S : Type} (g : Cell → S → S) (i : Nat) : ∀ (cells : List Cell) (k : Nat) (s : S),
    (cells.zipIdx k).foldl (fun s e => if e.2 = i then g e.1 s else s) s =
      if k ≤ i then (match cells[i - k]? with | some c => g c s | none => s) else s := by
  intro cells
  induction cells with
  | nil => intro k s; simp
  | cons c cs ih =>
    intro k s
    simp only [List.zipIdx_cons, List.foldl_cons, ih]
    by_cases h : k = i
    · subst h
      rw [if_pos rfl, if_neg (by omega), if_pos (Nat.le_refl k)]
      simp
    · rw [if_neg h]
      by_cases h2 : k ≤ i
      · have e : i - k = i - (k + 1) + 1 := by omega
        rw [if_pos h2, if_pos (by omega), e, List.getElem?_cons_succ]
      · rw [if_neg h2, if_neg (by omega)]

/-- `template_for` with a functor that only does something for index `i`. -/
private theorem templateFor_select {S : Type} (func : Func Cell Unit S) (g : Cell → S → S) (i : Nat) (cells : List Cell) (s : S)
    (hf : ∀ c j s, (func [.elem c, .indexConstant j] s).2 = if j = i then g c s else s) :
    templateFor (-1) func [.tuple cells, .tupleIndex] s = some (match cells[i]? with | some c => g c s | none => s) := by
  have hlen : (cells.zipIdx.map fun e => [TVal.elem e.1, TVal.indexConstant e.2]).length = cells.length := by simp
  rw [C38_template_for (-1) func _ (cells.zipIdx.map fun e => [TVal.elem e.1, TVal.indexConstant e.2]) s
    (by intro l hl; rw [hlen]; simp only [List.mem_cons, List.not_mem_nil, or_false] at hl
        rcases hl with h | h
        · cases h; rfl
        · cases h) (Or.inl ⟨rfl, cells, by simp⟩) (calls_args cells)]
  rw [List.foldl_map]
  have hfun : (fun (s : S) (e : Cell × Nat) => (func [TVal.elem e.1, TVal.indexConstant e.2] s).2) =
      fun s e => if e.2 = i then g e.1 s else s := by
    funext s e; exact hf _ _ _
  rw [hfun, foldl_select]
  simp

private theorem search_name {ns : List Str} (n : Str) :
    (n ∉ ns ∧ searchIndexFrom (isName n) (ns.map .sv) 0 = -1) ∨
    ∃ k : Nat, ns[k]? = some n ∧ (∀ j < k, ns[j]? ≠ some n) ∧ searchIndexFrom (isName n) (ns.map .sv) 0 = (k : Int) := by
  rcases searchIndexFrom_spec (isName n) (ns.map .sv) 0 with ⟨h1, h2⟩ | ⟨k, e, h1, h2, h3, h4⟩
  · left
    refine ⟨fun hn => ?_, h1⟩
    have := h2 _ (List.mem_map_of_mem hn)
    simp [isName] at this
  · right
    rw [List.getElem?_map, Option.map_eq_some_iff] at h2
    obtain ⟨x, hx, rfl⟩ := h2
    simp only [isName, beq_iff_eq] at h3
    subst h3
    refine ⟨k, hx, fun j hj hjn => ?_, by simpa using h1⟩
    have := h4 j (.sv x) hj (by rw [List.getElem?_map, hjn]; rfl)
    simp [isName] at this

private theorem names_available {env : Env} {T : Nat} {ns : List Str} (hn : memberNames env T = some (.arr .sv (ns.map .sv))) :
    available (memberNames env T) = some (ns.map .sv) := by
  rw [hn]; rfl

private theorem getline_key {n r : Str} (h : (58 : CChar) ∉ n) : getline 58 { rest := n ++ 58 :: r } = ({ rest := r }, n) := by
  have := takeWhile_append_stop (p := (· != (58 : CChar))) (a := n) (b := 58 :: r)
    (fun c hc => by simpa using fun he : c = 58 => h (he ▸ hc)) (fun c hc => by simp at hc; simp [← hc])
  simp only [getline, IStream.good, Bool.not_false, Bool.and_self, if_true, this.1, this.2]

/-- One iteration of `load` when the key is found. -/
private theorem loadEntry_found {env : Env} {T : Nat} {ns : List Str} (hn : memberNames env T = some (.arr .sv (ns.map .sv)))
    (codecs : Codecs) {y : Nat} {ty : List Cell} (hy : tieMembers env T y = some ty) (s : IStream × Mem) {k : Nat}
    (hk : searchIndexFrom (isName (getline 58 s.1).2) (ns.map .sv) 0 = (k : Int)) :
    loadEntry env codecs T y s = some (true,
      (match ty[k]? with
        | some c =>
          (((codecs c.cls c.member).get (getline 58 s.1).1 (s.2 c)).1.skip1,
            write s.2 c ((codecs c.cls c.member).get (getline 58 s.1).1 (s.2 c)).2)
        | none => ((getline 58 s.1).1.skip1, s.2))) := by
  unfold loadEntry searchMemberIndexByName
  rw [names_available hn]
  simp only [Option.map_some, Option.bind_some, hk]
  rw [if_neg (by omega), hy, Option.bind_some,
    templateFor_select (loadMember codecs (k : Int)) (fun c s => (((codecs c.cls c.member).get s.1 (s.2 c)).1,
      write s.2 c ((codecs c.cls c.member).get s.1 (s.2 c)).2)) k ty _ (by
        intro c j s
        simp only [loadMember, Int.ofNat_inj])]
  cases ty[k]? with
  | none => rfl
  | some c => rfl

private theorem loadEntry_unknown {env : Env} {T : Nat} {ns : List Str} (hn : memberNames env T = some (.arr .sv (ns.map .sv)))
    (codecs : Codecs) {y : Nat} (s : IStream × Mem)
    (hk : searchIndexFrom (isName (getline 58 s.1).2) (ns.map .sv) 0 = -1) :
    loadEntry env codecs T y s = some (false, { (getline 58 s.1).1 with failbit := true }, s.2) := by
  unfold loadEntry searchMemberIndexByName
  rw [names_available hn]
  simp only [Option.map_some, Option.bind_some, hk]
  rw [if_pos (by omega)]

private theorem saveEntry_eq {env : Env} {T : Nat} {ns : List Str} (hn : memberNames env T = some (.arr .sv (ns.map .sv)))
    (codecs : Codecs) {x : Nat} {tx : List Cell} (hx : tieMembers env T x = some tx) (m : Mem) {i : Nat} {n : Str} {c : Cell} {s : Str}
    (hi : ns[i]? = some n) (hc : tx[i]? = some c) (hs : CodecText (m c) s (codecs c.cls c.member)) (out : Str) :
    saveEntry env codecs T x m i out = some (.ok (out ++ (n ++ str ":" ++ s ++ str ","))) := by
  unfold saveEntry
  rw [names_available hn, Option.bind_some, hx, Option.bind_some,
    templateFor_select (saveMember codecs m i) (fun c out => out.bind fun o => (codecs c.cls c.member).put o (m c)) i tx _ (by
        intro c j s
        simp only [saveMember])]
  simp only [List.getElem?_map, hi, hc, Option.map_some, Outcome.bind, put_text hs, Outcome.mapVal]
  simp

private theorem get_safe (c : Codec) (st : IStream) {v : Int} (hr : CodecRange v c) :
    (c.get st v).2 = v ∨ CodecKnows (c.get st v).2 c := by
  cases c with
  | enum md =>
    simp only [Codec.get, asEnumExtract]
    generalize readLoop enumForbiddenCharSet st.ws [] = r
    obtain ⟨st', s⟩ := r
    simp only [tryEnumFromString, tryEnumFromStringLoop_eq]
    by_cases hs : s.isEmpty = true
    · left; simp [hs]
    · cases hl : lookup md.entries s with
      | none => left; simp [hs]
      | some u => right; simpa [hs, CodecKnows] using ⟨s, lookup_some_mem hl⟩
  | flags w md =>
    obtain ⟨f, rfl⟩ := hr
    simp only [Codec.get, asFlagsExtract, ofInt_toNat]
    generalize readLoop flagsForbiddenCharSet st.ws [] = r
    obtain ⟨st', s⟩ := r
    have hx : flagsFromStringNoRaise f s md.toEnumMd = (f, -1) ∨
        ∃ g, flagsFromStringNoRaise f s md.toEnumMd = (g, 0) ∧ parseFlags s md.toEnumMd = .ok g := by
      unfold flagsFromStringNoRaise parseFlags
      cases flagsFromStringLoop md.entries 0#w s with
      | error t => exact Or.inl rfl
      | ok g => exact Or.inr ⟨g, rfl, rfl⟩
    rcases hx with hx | ⟨g, hx, hp⟩
    · left; simp [hx]
    · right
      exact ⟨g, by simp [hx], C06_parse_flags_within_defined s _ g hp⟩

/-! ## C136 -/

/-- C136: what has been saved can be loaded. For a class whose members have distinct names without `':'`, saving any selection of
members of an object `x`, in any order, writes a text from which the same members of any object `y` of the class, possibly `x` itself,
receive the values they had in `x`; nothing else is changed, and reading stops right after the text. -/
theorem C136_save_load (env : Env) (T : Nat) (codecs : Codecs) {ns : List Str}
    (hn : memberNames env T = some (.arr .sv (ns.map .sv))) (hd : ns.Nodup) (hcolon : ∀ n ∈ ns, (58 : CChar) ∉ n)
    (x y : Nat) {tx : List Cell} (hx : tieMembers env T x = some tx)
    (hsound : ∀ c ∈ tx, CodecSound (codecs c.cls c.member)) (m : Mem) (hv : ∀ c ∈ tx, CodecKnows (m c) (codecs c.cls c.member))
    (which : List Nat) (hwh : ∀ i ∈ which, i < ns.length ∧ i < tx.length) :
    ∃ text, save env codecs T x m which [] = some (.ok text) ∧
      ∀ m' tail, ∃ m'', load env codecs T y which.length ({ rest := text ++ tail }, m') = some ({ rest := tail }, m'') ∧
        (∀ i ∈ which, ∀ c, tx[i]? = some c → m'' { c with obj := y } = m c) ∧
        (∀ d, (∀ i ∈ which, ∀ c, tx[i]? = some c → d ≠ { c with obj := y }) → m'' d = m' d) := by
  obtain ⟨hobj, hy⟩ := tieMembers_obj (p := y) hx
  have key : ∃ text, (∀ out, save env codecs T x m which out = some (.ok (out ++ text))) ∧
      ∀ m' tail, ∃ m'', load env codecs T y which.length ({ rest := text ++ tail }, m') = some ({ rest := tail }, m'') ∧
        (∀ i ∈ which, ∀ c, tx[i]? = some c → m'' { c with obj := y } = m c) ∧
        (∀ d, (∀ i ∈ which, ∀ c, tx[i]? = some c → d ≠ { c with obj := y }) → m'' d = m' d) := by
    induction which with
    | nil => exact ⟨[], by simp [save], fun m' tail => ⟨m', by simp [load], by simp, by simp⟩⟩
    | cons i is ih =>
      obtain ⟨text, h1, h2⟩ := ih (fun j hj => hwh j (List.mem_cons_of_mem _ hj))
      obtain ⟨hi1, hi2⟩ := hwh i (by simp)
      have hni : ns[i]? = some ns[i] := by simp [hi1]
      have hci : tx[i]? = some tx[i] := by simp [hi2]
      have hcm : tx[i] ∈ tx := List.getElem_mem hi2
      generalize ns[i] = n at hni
      generalize tx[i] = c at hci hcm
      obtain ⟨s, hs⟩ := text_exists (hsound c hcm) (hv c hcm)
      have hrange : CodecRange (m c) (codecs c.cls c.member) := by
        have := hv c hcm
        cases hcod : codecs c.cls c.member with
        | enum md => trivial
        | flags w md =>
          rw [hcod] at this
          obtain ⟨f, hf, -⟩ := this
          exact ⟨f, hf⟩
      refine ⟨n ++ str ":" ++ s ++ str "," ++ text, fun out => ?_, fun m' tail => ?_⟩
      · simp only [save, saveEntry_eq hn codecs hx m hni hci hs, Option.bind_some, h1]
        simp
      · have hg : getline 58 { rest := n ++ str ":" ++ s ++ str "," ++ text ++ tail } = ({ rest := s ++ 44 :: (text ++ tail) }, n) := by
          have := getline_key (r := s ++ 44 :: (text ++ tail)) (hcolon n (List.mem_of_getElem? hni))
          rw [← this]
          have e1 : str ":" = [58] := rfl
          have e2 : str "," = [44] := rfl
          simp [e1, e2]
        have hk : searchIndexFrom (isName n) (ns.map .sv) 0 = (i : Int) := by
          rcases search_name (ns := ns) n with ⟨h, -⟩ | ⟨k, hk1, -, hk2⟩
          · exact absurd (List.mem_of_getElem? hni) h
          · have : k = i := by
              have hk3 : k < ns.length := (List.getElem?_eq_some_iff.mp hk1).1
              rw [← hni] at hk1
              exact (List.getElem?_inj hk3 hd).mp hk1
            rw [hk2, this]
        obtain ⟨m'', h3, h4, h5⟩ := h2 (write m' { c with obj := y } (m c)) tail
        refine ⟨m'', ?_, ?_, ?_⟩
        · have hle := loadEntry_found hn codecs hy ({ rest := n ++ str ":" ++ s ++ str "," ++ text ++ tail }, m') (k := i)
            (by rw [hg]; exact hk)
          rw [hg] at hle
          simp only [List.getElem?_map, hci, Option.map_some, get_text (hsound c hcm) hrange hs] at hle
          simp only [List.length_cons, load, hle, Option.bind_some, if_true]
          have : IStream.skip1 { rest := 44 :: (text ++ tail) } = { rest := text ++ tail } := rfl
          rw [this]
          exact h3
        · intro j hj c' hc'
          by_cases hex : ∃ k ∈ is, ∃ c2, tx[k]? = some c2 ∧ ({ c' with obj := y } : Cell) = { c2 with obj := y }
          · obtain ⟨k, hk1, c2, hc2, he⟩ := hex
            have : c' = c2 := by
              have o1 := hobj c' (List.mem_of_getElem? hc')
              have o2 := hobj c2 (List.mem_of_getElem? hc2)
              obtain ⟨a1, a2, a3⟩ := c'
              obtain ⟨b1, b2, b3⟩ := c2
              simp only [Cell.mk.injEq] at he o1 o2 ⊢
              exact ⟨by rw [o1, o2], he.2⟩
            subst this
            exact h4 k hk1 c' hc2
          · rw [h5 _ (fun k hk1 c2 hc2 he => hex ⟨k, hk1, c2, hc2, he⟩)]
            rcases List.mem_cons.mp hj with rfl | hj
            · rw [hci] at hc'
              cases hc'
              simp [write]
            · exact absurd ⟨j, hj, c', hc', rfl⟩ hex
        · intro d hdd
          rw [h5 d (fun k hk1 c2 hc2 => hdd k (List.mem_cons_of_mem _ hk1) c2 hc2)]
          have := hdd i (by simp) c hci
          simp [write, this]
  obtain ⟨text, h1, h2⟩ := key
  exact ⟨text, by simpa using h1 [], h2⟩

/-- C136: an entry is stored in the member with its name. In a class no base of which inherits members itself, loading an entry `name:text,`,
where the text is that of a known value of the member's type, assigns the value to a member which the metadata of the class or of one
of its bases gives this name, and changes nothing else. -/
theorem C136_named_partial (env : Env) (hw : ∀ u, WT (env.reflect u)) (T : Nat) {B : Md} {bs : List Md}
    (hB : bases env T = some B) (hbs : B.elems = some bs)
    (hflat : ∀ u, .typeId u ∈ bs → (members env u).bind Md.elems = (exclusiveMembers env u).bind Md.elems)
    {ms : List Md} {ns : List Str} (hm : members env T = some (.tup ms)) (hn : memberNames env T = some (.arr .sv (ns.map .sv)))
    (codecs : Codecs) (hsound : ∀ u id, CodecSound (codecs u id)) (y : Nat) (n : Str) (hmem : n ∈ ns) (hcolon : (58 : CChar) ∉ n) :
    ∃ u dt id, (u = T ∨ .typeId u ∈ bs) ∧ NamedIn env.reflect u (.memPtr u dt id) n ∧
      ∀ v s, CodecKnows v (codecs u id) → CodecText v s (codecs u id) → ∀ m tail, ∃ m',
        load env codecs T y 1 ({ rest := n ++ str ":" ++ s ++ str "," ++ tail }, m) = some ({ rest := tail }, m') ∧
        m' ⟨y, u, id⟩ = v ∧ ∀ d, d ≠ ⟨y, u, id⟩ → m' d = m d := by
  obtain ⟨k, hk1, hk2⟩ : ∃ k : Nat, ns[k]? = some n ∧ searchIndexFrom (isName n) (ns.map .sv) 0 = (k : Int) := by
    rcases search_name (ns := ns) n with ⟨h, -⟩ | ⟨k, h1, -, h2⟩
    · exact absurd hmem h
    · exact ⟨k, h1, h2⟩
  have hal := C53_aligned_partial env T hw hB hbs hflat hm hn
  obtain ⟨t, ht, href⟩ := (C72_refers env hw T y).1 ms hm
  have hkl : k < ms.length := by
    have := (List.getElem?_eq_some_iff.mp hk1).1
    rw [hal.length_eq]
    simpa using this
  have hkt : k < t.length := by rw [← href.length_eq]; exact hkl
  have hkn : k < (ns.map Md.sv).length := by rw [← hal.length_eq]; exact hkl
  obtain ⟨s', hs', u', hu', hnamed⟩ := List.forall₂_iff_get.mp hal |>.2 k hkl hkn
  obtain ⟨u, dt, id, -, hmp, hcell⟩ := List.forall₂_iff_get.mp href |>.2 k hkl hkt
  have hs'' : s' = n := by
    have := (List.getElem?_eq_some_iff.mp hk1).2
    simp only [List.get_eq_getElem, List.getElem_map, Md.sv.injEq] at hs'
    rw [← hs', this]
  subst hs''
  rw [hmp] at hnamed
  have huu : u' = u := by
    obtain ⟨rs, r, hrs, hr, hr1, -⟩ := hnamed
    have : IsMemberPtr u' r.1 := by
      have aux : ∀ R rs', IsMemberTable u' R rs' → ∀ r ∈ rs', IsMemberPtr u' r.1 := by
        rintro R rs' ⟨es, -, hf⟩ r hr
        obtain ⟨e, -, -, h⟩ := exists_left_of_forall₂ hf r hr
        exact h
      rcases hrs with h | ⟨-, pre, R, post, -, -, h⟩
      · exact aux _ _ h r hr
      · exact aux _ _ h r hr
    obtain ⟨dt', id', h⟩ := this
    rw [hr1] at h
    cases h; rfl
  subst huu
  refine ⟨u', dt, id, hu', hnamed, fun v s hv hs m tail => ?_⟩
  have hrange : CodecRange v (codecs u' id) := by
    cases hcod : codecs u' id with
    | enum md => trivial
    | flags w md =>
      rw [hcod] at hv
      obtain ⟨f, hf, -⟩ := hv
      exact ⟨f, hf⟩
  have hg : getline 58 { rest := s' ++ str ":" ++ s ++ str "," ++ tail } = ({ rest := s ++ 44 :: tail }, s') := by
    rw [← getline_key (r := s ++ 44 :: tail) hcolon]
    have e1 : str ":" = [58] := rfl
    have e2 : str "," = [44] := rfl
    simp [e1, e2]
  have hle := loadEntry_found hn codecs ht ({ rest := s' ++ str ":" ++ s ++ str "," ++ tail }, m) (k := k) (by rw [hg]; exact hk2)
  have htk : t[k]? = some ⟨y, u', id⟩ := by
    rw [List.getElem?_eq_some_iff]
    exact ⟨hkt, hcell⟩
  rw [hg] at hle
  simp only [htk, get_text (hsound u' id) hrange hs] at hle
  refine ⟨write m ⟨y, u', id⟩ v, ?_, by simp [write], fun d hd => by simp [write, hd]⟩
  simp only [load, hle, Option.bind_some, if_true]
  rfl

/-- C136: whatever is in the text, loading changes no objects but `y`, and of this only the members listed in the metadata, and a
member which is changed receives a value which the metadata of its type list. -/
theorem C136_any_text (env : Env) (T : Nat) (codecs : Codecs) {ns : List Str} (hn : memberNames env T = some (.arr .sv (ns.map .sv)))
    (y : Nat) {ty : List Cell} (hy : tieMembers env T y = some ty) (n : Nat) (st st' : IStream) (m m' : Mem)
    (hr : ∀ c ∈ ty, CodecRange (m c) (codecs c.cls c.member)) (h : load env codecs T y n (st, m) = some (st', m')) :
    (∀ d, d ∉ ty → m' d = m d) ∧ ∀ d ∈ ty, m' d = m d ∨ CodecKnows (m' d) (codecs d.cls d.member) := by
  induction n generalizing st m with
  | zero =>
    simp only [load, Option.some.injEq, Prod.mk.injEq] at h
    obtain ⟨-, rfl⟩ := h
    exact ⟨fun _ _ => rfl, fun _ _ => Or.inl rfl⟩
  | succ n ih =>
    simp only [load] at h
    rcases search_name (ns := ns) (getline 58 st).2 with ⟨-, hs⟩ | ⟨k, -, -, hs⟩
    · rw [loadEntry_unknown hn codecs (st, m) hs] at h
      simp only [Option.bind_some, Bool.false_eq_true, if_false, Option.some.injEq, Prod.mk.injEq] at h
      obtain ⟨-, rfl⟩ := h
      exact ⟨fun _ _ => rfl, fun _ _ => Or.inl rfl⟩
    · rw [loadEntry_found hn codecs hy (st, m) hs] at h
      simp only [Option.bind_some, if_true] at h
      cases hk : ty[k]? with
      | none =>
        rw [hk] at h
        exact ih _ _ hr h
      | some c =>
        rw [hk] at h
        have hc : c ∈ ty := List.mem_of_getElem? hk
        have hsafe := get_safe (codecs c.cls c.member) (getline 58 st).1 (hr c hc)
        have hr' : ∀ d ∈ ty, CodecRange (write m c ((codecs c.cls c.member).get (getline 58 st).1 (m c)).2 d) (codecs d.cls d.member) := by
          intro d hd
          unfold TieMembers.write
          split
          · rename_i he
            subst he
            rcases hsafe with e | e
            · rw [e]; exact hr d hd
            · cases hcod : codecs d.cls d.member with
              | enum md => trivial
              | flags w md =>
                rw [hcod] at e
                obtain ⟨f, hf, -⟩ := e
                exact ⟨f, hf⟩
          · exact hr d hd
        obtain ⟨h1, h2⟩ := ih _ _ hr' h
        refine ⟨fun d hd => ?_, fun d hd => ?_⟩
        · rw [h1 d hd]
          unfold TieMembers.write
          exact if_neg (fun e : d = c => hd (e ▸ hc))
        · rcases h2 d hd with e | e
          · rw [e]
            unfold TieMembers.write
            split
            · rename_i he
              subst he
              exact hsafe
            · exact Or.inl rfl
          · exact Or.inr e

/-- C136: a key which is not the name of a member ends loading with an error, and so does a stream which is not good, in particular at
the end of the text; no member is changed by it. -/
theorem C136_unknown_key (env : Env) (T : Nat) (codecs : Codecs) {ns : List Str} (hn : memberNames env T = some (.arr .sv (ns.map .sv)))
    (y n : Nat) (m : Mem) :
    (∀ key r, (58 : CChar) ∉ key → key ∉ ns →
      ∃ st, load env codecs T y (n + 1) ({ rest := key ++ str ":" ++ r }, m) = some (st, m) ∧ st.failbit = true) ∧
    (∀ st, st.good = false → [] ∉ ns → ∃ st', load env codecs T y (n + 1) (st, m) = some (st', m) ∧ st'.failbit = true) := by
  constructor
  · intro key r hc hk
    have e1 : str ":" = [58] := rfl
    have hg : getline 58 { rest := key ++ str ":" ++ r } = ({ rest := r }, key) := by
      rw [← getline_key (r := r) hc]; simp [e1]
    have hs : searchIndexFrom (isName (getline 58 { rest := key ++ str ":" ++ r }).2) (ns.map .sv) 0 = -1 := by
      rw [hg]
      rcases search_name (ns := ns) key with ⟨-, h⟩ | ⟨k, h1, -, -⟩
      · exact h
      · exact absurd (List.mem_of_getElem? h1) hk
    simp only [load, loadEntry_unknown hn codecs ({ rest := key ++ str ":" ++ r }, m) hs, Option.bind_some, Bool.false_eq_true, if_false]
    exact ⟨_, rfl, rfl⟩
  · intro st hst hk
    have hg : getline 58 st = ({ st with failbit := true }, []) := by
      unfold getline; rw [if_neg (by simp [hst])]
    have hs : searchIndexFrom (isName (getline 58 st).2) (ns.map .sv) 0 = -1 := by
      rw [hg]
      rcases search_name (ns := ns) [] with ⟨-, h⟩ | ⟨k, h1, -, -⟩
      · exact h
      · exact absurd (List.mem_of_getElem? h1) hk
    simp only [load, loadEntry_unknown hn codecs (st, m) hs, Option.bind_some, Bool.false_eq_true, if_false]
    exact ⟨_, rfl, rfl⟩

/-- C136: an entry whose text has no meaning for its member sets failbit; neither this entry nor any later one changes a member. -/
theorem C136_bad_value (env : Env) (T : Nat) (codecs : Codecs) {ns : List Str} (hn : memberNames env T = some (.arr .sv (ns.map .sv)))
    (hne : [] ∉ ns) (y : Nat) {ty : List Cell} (hy : tieMembers env T y = some ty) (k : Nat) (key : Str) (c : Cell)
    (hkey : ns[k]? = some key) (hfirst : ∀ j < k, ns[j]? ≠ some key) (hcolon : (58 : CChar) ∉ key) (hc : ty[k]? = some c)
    (s r : Str) (hlead : NoLeadingSpace s) (hres : ∀ a ∈ s, a ∉ CodecReserved (codecs c.cls c.member))
    (hrej : CodecRejects s (codecs c.cls c.member)) (n : Nat) (m : Mem) (hr : CodecRange (m c) (codecs c.cls c.member)) :
    ∃ st, load env codecs T y (n + 1) ({ rest := key ++ str ":" ++ s ++ str "," ++ r }, m) = some (st, m) ∧ st.failbit = true := by
  have hg : getline 58 { rest := key ++ str ":" ++ s ++ str "," ++ r } = ({ rest := s ++ 44 :: r }, key) := by
    rw [← getline_key (r := s ++ 44 :: r) hcolon]
    have e1 : str ":" = [58] := rfl
    have e2 : str "," = [44] := rfl
    simp [e1, e2]
  have hs : searchIndexFrom (isName key) (ns.map .sv) 0 = (k : Int) := by
    rcases search_name (ns := ns) key with ⟨h, -⟩ | ⟨j, h1, h2, h3⟩
    · exact absurd (List.mem_of_getElem? hkey) h
    · have : j = k := by
        rcases Nat.lt_trichotomy j k with h | h | h
        · exact absurd h1 (hfirst j h)
        · exact h
        · exact absurd hkey (h2 k h)
      rw [h3, this]
  have hget : (((codecs c.cls c.member).get { rest := s ++ 44 :: r } (m c)).1.failbit = true) ∧
      ((codecs c.cls c.member).get { rest := s ++ 44 :: r } (m c)).2 = m c := by
    cases hcod : codecs c.cls c.member with
    | enum md =>
      rw [hcod] at hres hrej
      obtain ⟨t1, t2⟩ := token enumSet hres hlead (by decide) r
      simp only [Codec.get, asEnumExtract_good, t1, t2]
      have : lookup md.entries s = none := lookup_none_iff.mpr hrej
      rw [this]
      simp
    | flags w md =>
      rw [hcod] at hres hrej hr
      obtain ⟨f, hf⟩ := hr
      obtain ⟨t1, t2⟩ := token flagsSet hres hlead (by decide) r
      simp only [Codec.get, asFlagsExtract_good, t1, t2]
      cases htv : tokensValue md.entries (flagTokens s) with
      | ok g =>
        have hp : parseFlags s md.toEnumMd = .ok g := by rw [C06_parse_flags_denotation, htv]
        obtain ⟨t, ht1, ht2⟩ := hrej
        exact absurd (((C06_parse_flags_ok_iff _ _ _).mp hp).1 t ht1) ht2
      | error t => rw [hf]; simp
  have hle := loadEntry_found hn codecs hy ({ rest := key ++ str ":" ++ s ++ str "," ++ r }, m) (k := k) (by rw [hg]; exact hs)
  rw [hg] at hle
  simp only [hc, hget.2] at hle
  have hwr : write m c (m c) = m := by
    funext d; unfold TieMembers.write; split
    · rename_i h; rw [h]
    · rfl
  rw [hwr] at hle
  have hskip : ∀ st : IStream, st.failbit = true → st.skip1.good = false ∧ st.skip1.failbit = true := by
    intro st h
    have : st.good = false := by simp [IStream.good, h]
    have e : st.skip1 = { st with failbit := true } := by unfold IStream.skip1; rw [if_neg (by simp [this])]
    rw [e]
    simp [IStream.good]
  obtain ⟨g1, g2⟩ := hskip _ hget.1
  simp only [load, hle, Option.bind_some, if_true]
  cases n with
  | zero => exact ⟨_, rfl, g2⟩
  | succ n => exact (C136_unknown_key env T codecs hn y n m).2 _ g1 hne

/-- What becomes of a member whose text is missing: members of enum types keep their value, members of flags types are set to 0 (C07). -/
def CodecAtEnd (v : Int) : Codec → Int
  | .enum _ => v
  | .flags _ _ => 0

/-- C136: if the text ends within an entry, before its value, failbit is set.  If the name is unknown, nothing is changed; otherwise nothing but the member
named, and this only if its type is a flags type: then it loses its value. -/
theorem C136_cut_off_partial (env : Env) (T : Nat) (codecs : Codecs) {ns : List Str} (hn : memberNames env T = some (.arr .sv (ns.map .sv)))
    (hne : [] ∉ ns) (y : Nat) {ty : List Cell} (hy : tieMembers env T y = some ty) (key : Str) (hcolon : (58 : CChar) ∉ key) (n : Nat) (m : Mem) :
    (key ∉ ns → ∃ st, load env codecs T y (n + 1) ({ rest := key }, m) = some (st, m) ∧ st.failbit = true) ∧
    (∀ (k : Nat) c, ns[k]? = some key → (∀ j < k, ns[j]? ≠ some key) → ty[k]? = some c → ∀ tail, tail = [] ∨ tail = str ":" →
      ∃ st m', load env codecs T y (n + 1) ({ rest := key ++ tail }, m) = some (st, m') ∧ st.failbit = true ∧
        m' c = CodecAtEnd (m c) (codecs c.cls c.member) ∧ ∀ d, d ≠ c → m' d = m d) := by
  have hgk : getline 58 { rest := key } = ({ rest := [], eofbit := true, failbit := key.isEmpty }, key) := by
    have := takeWhile_append_stop (p := (· != (58 : CChar))) (a := key) (b := [])
      (fun c hc => by simpa using fun he : c = 58 => hcolon (he ▸ hc)) (fun c hc => by simp at hc)
    rw [List.append_nil] at this
    simp only [getline, IStream.good, Bool.not_false, Bool.and_self, if_true, this.1, this.2]
  constructor
  · intro hk
    have hs : searchIndexFrom (isName (getline 58 { rest := key }).2) (ns.map .sv) 0 = -1 := by
      rw [hgk]
      rcases search_name (ns := ns) key with ⟨-, h⟩ | ⟨k, h1, -, -⟩
      · exact h
      · exact absurd (List.mem_of_getElem? h1) hk
    simp only [load, loadEntry_unknown hn codecs ({ rest := key }, m) hs, Option.bind_some, Bool.false_eq_true, if_false]
    exact ⟨_, rfl, rfl⟩
  · intro k c hkey hfirst hc tail htail
    have hkn : key ≠ [] := fun h => hne (h ▸ List.mem_of_getElem? hkey)
    have hs : searchIndexFrom (isName key) (ns.map .sv) 0 = (k : Int) := by
      rcases search_name (ns := ns) key with ⟨h, -⟩ | ⟨j, h1, h2, h3⟩
      · exact absurd (List.mem_of_getElem? hkey) h
      · have : j = k := by
          rcases Nat.lt_trichotomy j k with h | h | h
          · exact absurd h1 (hfirst j h)
          · exact h
          · exact absurd hkey (h2 k h)
        rw [h3, this]
    obtain ⟨e, hg⟩ : ∃ e, getline 58 { rest := key ++ tail } = ({ rest := [], eofbit := e }, key) := by
      rcases htail with rfl | rfl
      · refine ⟨true, ?_⟩
        rw [List.append_nil, hgk]
        simp [hkn]
      · exact ⟨false, getline_key (r := []) hcolon⟩
    have hget : ((codecs c.cls c.member).get { rest := [], eofbit := e } (m c)).1.good = false ∧
        ((codecs c.cls c.member).get { rest := [], eofbit := e } (m c)).2 = CodecAtEnd (m c) (codecs c.cls c.member) := by
      cases hcod : codecs c.cls c.member with
      | enum md =>
        cases e with
        | false => simp [Codec.get, asEnumExtract_good, CodecAtEnd, IStream.good]
        | true => simp [Codec.get, asEnumExtract, readToken_notGood, CodecAtEnd, IStream.good]
      | flags w md =>
        cases e with
        | false =>
          simp only [Codec.get, asFlagsExtract_good, CodecAtEnd]
          rw [show tokensValue md.entries (flagTokens (List.takeWhile (fun c => !flagsForbiddenCharSet.contains c) (List.dropWhile isSpaceC []))) = .ok 0#w from rfl]
          simp [IStream.good]
        | true =>
          have := C07_as_flags_clobbers_on_bad_stream md.toEnumMd { rest := [], eofbit := true } (BitVec.ofInt w (m c)) rfl
          simp only [Codec.get, CodecAtEnd, IStream.good, this.1, this.2]
          simp
    have hle := loadEntry_found hn codecs hy ({ rest := key ++ tail }, m) (k := k) (by rw [hg]; exact hs)
    rw [hg] at hle
    simp only [hc, hget.2] at hle
    have hskip : ∀ st : IStream, st.good = false → st.skip1.good = false ∧ st.skip1.failbit = true := by
      intro st h
      have e : st.skip1 = { st with failbit := true } := by unfold IStream.skip1; rw [if_neg (by simp [h])]
      rw [e]
      simp [IStream.good]
    obtain ⟨g1, g2⟩ := hskip _ hget.1
    simp only [load, hle, Option.bind_some, if_true]
    have hm : TieMembers.write m c (CodecAtEnd (m c) (codecs c.cls c.member)) c = CodecAtEnd (m c) (codecs c.cls c.member) ∧
        ∀ d, d ≠ c → TieMembers.write m c (CodecAtEnd (m c) (codecs c.cls c.member)) d = m d :=
      ⟨by simp [TieMembers.write], fun d hd => by simp [TieMembers.write, hd]⟩
    cases n with
    | zero => exact ⟨_, _, rfl, g2, hm⟩
    | succ n =>
      obtain ⟨st', h1, h2⟩ := (C136_unknown_key env T codecs hn y n _).2 _ g1 hne
      exact ⟨st', _, h1, h2, hm⟩

/-- C136: saving ends the program with a failed assertion at the first selected member whose value has no name, and is undefined if an index is too large. -/
theorem C136_save_fails (env : Env) (T : Nat) (codecs : Codecs) {ns : List Str} (hn : memberNames env T = some (.arr .sv (ns.map .sv))) (x : Nat)
    {tx : List Cell} (hx : tieMembers env T x = some tx) (hsound : ∀ c ∈ tx, CodecSound (codecs c.cls c.member)) (m : Mem)
    (hr : ∀ c ∈ tx, CodecRange (m c) (codecs c.cls c.member)) (before after : List Nat)
    (hwh : ∀ i ∈ before, i < ns.length ∧ ∃ c, tx[i]? = some c ∧ CodecKnows (m c) (codecs c.cls c.member)) (i : Nat) (out : Str) :
    (∀ c, i < ns.length → tx[i]? = some c → ¬ CodecKnows (m c) (codecs c.cls c.member) →
      save env codecs T x m (before ++ i :: after) out = some .failFast) ∧
    (ns.length ≤ i → save env codecs T x m (before ++ i :: after) out = some .ub) := by
  induction before generalizing out with
  | nil =>
    constructor
    · intro c hi hc hk
      have hput : ∀ o, (codecs c.cls c.member).put o (m c) = .failFast := by
        intro o
        have hs := hsound c (List.mem_of_getElem? hc)
        have hrange := hr c (List.mem_of_getElem? hc)
        cases hcod : codecs c.cls c.member with
        | enum md =>
          rw [hcod] at hk
          simp only [Codec.put, asEnumInsert, ((C02_enum_to_string (m c) md).2).mpr hk]
          rfl
        | flags w md =>
          rw [hcod] at hk hs hrange
          obtain ⟨desc, entries, hmd, -⟩ := hs
          obtain ⟨f, hf⟩ := hrange
          have hp := (C13_flags_metadata_partition _ _ _ hmd).1
          have : flagsToString f md = .failFast := by
            refine (C05_flags_to_string_fails_iff desc entries md hmd f).1.mpr fun hsub => hk ⟨f, hf, ?_⟩
            intro b hb
            have := hsub b hb
            rw [union_getLsbD] at this ⊢
            obtain ⟨z, hz, hzb⟩ := this
            exact ⟨z, (hp.map Prod.fst).mem_iff.mpr hz, hzb⟩
          simp only [Codec.put, asFlagsInsert, hf, ofInt_toNat, this]
          rfl
      have hni : ns[i]? = some ns[i] := by simp [hi]
      have : saveEntry env codecs T x m i out = some .failFast := by
        unfold saveEntry
        rw [names_available hn, Option.bind_some, hx, Option.bind_some,
          templateFor_select (saveMember codecs m i) (fun c out => out.bind fun o => (codecs c.cls c.member).put o (m c)) i tx _ (by
              intro c j s
              simp only [saveMember])]
        simp only [List.getElem?_map, hni, hc, Option.map_some, Outcome.bind_ok, hput, Outcome.mapVal_failFast]
      simp only [List.nil_append, save, this, Option.bind_some]
    · intro hi
      have : saveEntry env codecs T x m i out = some .ub := by
        unfold saveEntry
        rw [names_available hn, Option.bind_some, hx, Option.bind_some,
          templateFor_select (saveMember codecs m i) (fun c out => out.bind fun o => (codecs c.cls c.member).put o (m c)) i tx _ (by
              intro c j s
              simp only [saveMember])]
        have : ns[i]? = none := by simp [hi]
        simp only [List.getElem?_map, this, Option.map_none, Option.map_some]
        cases tx[i]? <;> rfl
      simp only [List.nil_append, save, this, Option.bind_some]
  | cons j js ih =>
    obtain ⟨hj1, c, hc, hk⟩ := hwh j (by simp)
    have hnj : ns[j]? = some ns[j] := by simp [hj1]
    obtain ⟨s, hs⟩ := text_exists (hsound c (List.mem_of_getElem? hc)) hk
    simp only [List.cons_append, save, saveEntry_eq hn codecs hx m hnj hc hs, Option.bind_some]
    exact ih (fun i hi => hwh i (by simp [hi])) _

/-! ## Examples -/

private def hues : List (Int × Str) := [(0, str "red"), (1, str "green"), (-2, str "blue")]
private def huesMd : EnumMd Int := { description := [], entries := hues }
private theorem huesMd_ok : makeEnumMetadata [] hues = .ok huesMd := by
  unfold makeEnumMetadata; rw [checkNames_eq, if_pos (by decide)]; rfl

/-- `struct A { Hue a; }; struct B : A { Perms b; };` -/
private def hueCodecs : Codecs := fun u _ => if u = 0 then .enum huesMd else .flags 8 permsMd

private theorem hueCodecs_sound (u id : Nat) : CodecSound (hueCodecs u id) := by
  unfold hueCodecs
  split
  · exact ⟨[], hues, huesMd_ok, by decide, by unfold NoLeadingSpace; decide⟩
  · exact ⟨str "perm", perms, permsMd_ok, by decide, perms_clean, by unfold NoLeadingSpace; decide⟩

private theorem names_chain : memberNames chainEnv 1 = some (.arr .sv ([str "a", str "b"].map .sv)) := rfl

private theorem members_chain : members chainEnv 1 = some (.tup [.memPtr 0 9 0, .memPtr 1 9 1]) := by
  have h0 : allMembers chainEnv 0 = some (.tup [.memPtr 0 9 0]) := by rw [allMembers]; rfl
  unfold members
  rw [allMembers]
  simp [show extractMembers chainEnv 1 (chainEnv.reflect 1) = some (.tup [.memPtr 1 9 1]) from rfl,
    show extractBases chainEnv 1 (chainEnv.reflect 1) = some (.tup [.typeId 0]) from rfl, Md.isAvailable, Md.elems, baseClass, h0]

private theorem perms_sub (f : BitVec 8) (h : (f &&& ~~~0x83#8) = 0#8) : SubBits f (union (permsMd.entries.map Prod.fst)) :=
  (and_not_eq_zero _ _).mp (by rw [show union (permsMd.entries.map Prod.fst) = 0x83#8 by decide]; exact h)

private def hueMem : Mem := fun c => if c.obj = 5 then (if c.cls = 0 then -2 else 0x82) else 0

/-- The hypotheses of `C136_save_load` for an object with `a == blue` and `b == (write | exec)`; both members are saved, `b` first. -/
example : ∃ text, save chainEnv hueCodecs 1 5 hueMem [1, 0] [] = some (.ok text) ∧ ∀ m' tail, ∃ m'',
    load chainEnv hueCodecs 1 6 2 ({ rest := text ++ tail }, m') = some ({ rest := tail }, m'') ∧ m'' ⟨6, 0, 0⟩ = -2 ∧
      m'' ⟨6, 1, 1⟩ = 0x82 := by
  obtain ⟨text, h1, h2⟩ := C136_save_load chainEnv 1 hueCodecs names_chain (by decide) (by decide) 5 6 (tie_chain 5)
    (fun c _ => hueCodecs_sound _ _) hueMem
    (by
      intro c hc
      simp only [List.mem_cons, List.not_mem_nil, or_false] at hc
      rcases hc with rfl | rfl
      · show (-2 : Int) ∈ hues.map Prod.fst
        decide
      · exact ⟨0x82#8, by decide, perms_sub _ (by decide)⟩) [1, 0] (by decide)
  refine ⟨text, h1, fun m' tail => ?_⟩
  obtain ⟨m'', h3, h4, -⟩ := h2 m' tail
  exact ⟨m'', h3, h4 0 (by simp) ⟨5, 0, 0⟩ rfl, h4 1 (by simp) ⟨5, 1, 1⟩ rfl⟩

/-- The hypotheses of `C136_named_partial`. -/
example : ∃ u dt id, (u = 1 ∨ .typeId u ∈ [Md.typeId 0]) ∧ NamedIn chainEnv.reflect u (.memPtr u dt id) (str "b") := by
  have h0 : allMembers chainEnv 0 = some (.tup [.memPtr 0 9 0]) := by rw [allMembers]; rfl
  obtain ⟨u, dt, id, h1, h2, -⟩ := C136_named_partial chainEnv chainWT 1 (B := .tup [.typeId 0]) (bs := [.typeId 0]) rfl rfl
    (by
      intro u hu; simp at hu; subst hu
      simp [members, h0, show exclusiveMembers chainEnv 0 = some (.tup [.memPtr 0 9 0]) from rfl])
    members_chain names_chain hueCodecs hueCodecs_sound 7 (str "b") (by decide) (by decide)
  exact ⟨u, dt, id, h1, h2⟩
example : CodecKnows (-2) (hueCodecs 0 0) ∧ CodecText (-2) (str "blue") (hueCodecs 0 0) ∧ CodecKnows 0x82 (hueCodecs 1 1) ∧
    CodecText 0x82 (str "write+exec") (hueCodecs 1 1) :=
  ⟨show (-2 : Int) ∈ hues.map Prod.fst by decide, show enumToString (-2) huesMd = .ok (str "blue") by decide,
    ⟨0x82#8, by decide, perms_sub _ (by decide)⟩, show flagsToString (BitVec.ofInt 8 0x82) permsMd = .ok (str "write+exec") by decide⟩

/-- The hypotheses of `C136_any_text` and `C136_bad_value`: the text `purple` for a member of type `Hue`, `read+link` for one of type
`Perms`. -/
example : (∀ c ∈ [(⟨5, 0, 0⟩ : Cell), ⟨5, 1, 1⟩], CodecRange (hueMem c) (hueCodecs c.cls c.member)) ∧
    CodecRejects (str "purple") (hueCodecs 0 0) ∧ CodecRejects (str "read+link") (hueCodecs 1 1) ∧
    (∀ a ∈ str "read+link", a ∉ CodecReserved (hueCodecs 1 1)) ∧ NoLeadingSpace (str "read+link") := by
  refine ⟨?_, ?_, ?_, ?_, by unfold NoLeadingSpace; decide⟩
  · intro c hc
    simp only [List.mem_cons, List.not_mem_nil, or_false] at hc
    rcases hc with rfl | rfl
    · trivial
    · exact ⟨0x82#8, by decide⟩
  · show str "purple" ∉ hues.map Prod.snd
    decide
  · exact ⟨str "link", by decide, by decide⟩
  · show ∀ a ∈ str "read+link", a ∉ flagsReserved
    decide
example : str "c" ∉ [str "a", str "b"] ∧ ([] : Str) ∉ [str "a", str "b"] ∧ ({ rest := str "x", eofbit := true } : IStream).good = false := by
  decide

/-- The hypotheses of `C136_cut_off_partial` and `C136_save_fails`: an object whose member `b` has been saved but lacks the end of its text loses its flags, and saving
fails if the member `a` has a value without a name. -/
example (m : Mem) : ∃ st m', load chainEnv hueCodecs 1 6 1 ({ rest := str "b" }, m) = some (st, m') ∧ st.failbit = true ∧ m' ⟨6, 1, 1⟩ = 0 ∧
    ∀ d, d ≠ ⟨6, 1, 1⟩ → m' d = m d :=
  (C136_cut_off_partial chainEnv 1 hueCodecs names_chain (by decide) 6 (tie_chain 6) (str "b") (by decide) 0 m).2 1 ⟨6, 1, 1⟩ rfl (by decide) rfl []
    (.inl rfl)
example : save chainEnv hueCodecs 1 5 (fun c => if c.cls = 0 then 7 else 0x82) [1, 0, 1] [] = some .failFast := by
  refine (C136_save_fails chainEnv 1 hueCodecs names_chain 5 (tie_chain 5) (fun c _ => hueCodecs_sound _ _) _ ?_ [1] [1] ?_ 0 []).1 ⟨5, 0, 0⟩ (by decide) rfl ?_
  · intro c hc
    simp only [List.mem_cons, List.not_mem_nil, or_false] at hc
    rcases hc with rfl | rfl
    · trivial
    · exact ⟨0x82#8, by decide⟩
  · intro i hi
    simp only [List.mem_singleton] at hi
    subst hi
    exact ⟨by decide, ⟨5, 1, 1⟩, rfl, 0x82#8, by decide, perms_sub _ (by decide)⟩
  · show (7 : Int) ∉ hues.map Prod.fst
    decide

/-- C136 is false for classes with indirect bases: in `chainEnv`, where `C` derives from `B` and `B` from `A`, an entry for the member `b`
is stored in the member `a`, without any error. -/
theorem C136_deep (y : Nat) (m : Mem) :
    ∃ m', load chainEnv (fun _ _ => .enum huesMd) 2 y 1 ({ rest := str "b:green," }, m) = some ({ rest := [] }, m') ∧
      m' ⟨y, 0, 0⟩ = 1 ∧ m' ⟨y, 1, 1⟩ = m ⟨y, 1, 1⟩ := by
  have htie : tieMembers chainEnv 2 y = some [⟨y, 0, 0⟩, ⟨y, 1, 1⟩, ⟨y, 2, 2⟩] := by
    unfold tieMembers
    rw [C53_deep_hierarchy.1]
    rfl
  have hn : memberNames chainEnv 2 = some (.arr .sv ([str "b", str "c"].map .sv)) := rfl
  have hg : getline 58 { rest := str "b:green," } = ({ rest := str "green" ++ 44 :: [] }, str "b") := by decide
  have hle := loadEntry_found hn (fun _ _ => Codec.enum huesMd) htie ({ rest := str "b:green," }, m) (k := 0) (by rw [hg]; decide)
  rw [hg] at hle
  simp only [List.getElem?_cons_zero, get_text (c := .enum huesMd) (v := 1) (s := str "green") (hueCodecs_sound 0 0) trivial
    (by show enumToString 1 huesMd = .ok (str "green"); decide)] at hle
  refine ⟨write m ⟨y, 0, 0⟩ 1, ?_, by simp [write], by simp [write]⟩
  simp only [load, hle, Option.bind_some, if_true]
  rfl

/-- C136, why names must be distinct: if two members have the same name, both entries of a saved object are stored in the first of them. -/
theorem C136_same_name :
    ∃ (env : Env) (codecs : Codecs) (m : Mem) (text : Str), (∀ u, WT (env.reflect u)) ∧
      save env codecs 0 1 m [0, 1] [] = some (.ok text) ∧
      ∀ m', ∃ m'', load env codecs 0 2 2 ({ rest := text }, m') = some ({ rest := [] }, m'') ∧
        m'' ⟨2, 0, 0⟩ = m ⟨1, 0, 1⟩ ∧ m'' ⟨2, 0, 1⟩ = m' ⟨2, 0, 1⟩ ∧ m ⟨1, 0, 0⟩ ≠ m ⟨1, 0, 1⟩ := by
  let env : Env := { reflect := fun _ => .tup [.tup [.memPtr 0 9 0, .cstr (str "a")], .tup [.memPtr 0 9 1, .cstr (str "a")]]
                     isBaseOf := fun _ _ => false, isClass := fun _ => true, base_le := by simp }
  let m : Mem := fun c => if c.member = 0 then 0 else 1
  have htie : ∀ o, tieMembers env 0 o = some [⟨o, 0, 0⟩, ⟨o, 0, 1⟩] := by
    intro o
    have : members env 0 = some (.tup [.memPtr 0 9 0, .memPtr 0 9 1]) := by
      unfold members; rw [allMembers]; rfl
    unfold tieMembers
    rw [this]; rfl
  have hn : memberNames env 0 = some (.arr .sv ([str "a", str "a"].map .sv)) := rfl
  have t0 : CodecText 0 (str "red") (.enum huesMd) := by show enumToString 0 huesMd = .ok (str "red"); decide
  have t1 : CodecText 1 (str "green") (.enum huesMd) := by show enumToString 1 huesMd = .ok (str "green"); decide
  refine ⟨env, fun _ _ => .enum huesMd, m, str "a:red,a:green,", fun u => by simp [env, WT, WTs], ?_, fun m' => ?_⟩
  · have e0 := saveEntry_eq hn (fun _ _ => Codec.enum huesMd) (htie 1) m (i := 0) (n := str "a") (c := ⟨1, 0, 0⟩) (s := str "red") rfl rfl t0 []
    have e1 := saveEntry_eq hn (fun _ _ => Codec.enum huesMd) (htie 1) m (i := 1) (n := str "a") (c := ⟨1, 0, 1⟩) (s := str "green") rfl rfl t1
    simp only [save, e0, e1, Option.bind_some]
    rfl
  · refine ⟨write (write m' ⟨2, 0, 0⟩ 0) ⟨2, 0, 0⟩ 1, ?_, by simp [write, m], by simp [write], by simp [m]⟩
    have g0 : getline 58 { rest := str "a:red,a:green," } = ({ rest := str "red" ++ 44 :: str "a:green," }, str "a") := by decide
    have g1 : getline 58 { rest := str "a:green," } = ({ rest := str "green" ++ 44 :: [] }, str "a") := by decide
    have l0 := loadEntry_found hn (fun _ _ => Codec.enum huesMd) (htie 2) ({ rest := str "a:red,a:green," }, m') (k := 0) (by rw [g0]; decide)
    rw [g0] at l0
    simp only [List.getElem?_cons_zero, get_text (c := .enum huesMd) (hueCodecs_sound 0 0) trivial t0] at l0
    have l1 := loadEntry_found hn (fun _ _ => Codec.enum huesMd) (htie 2) ({ rest := str "a:green," }, write m' ⟨2, 0, 0⟩ 0) (k := 0)
      (by rw [g1]; decide)
    rw [g1] at l1
    simp only [List.getElem?_cons_zero, get_text (c := .enum huesMd) (hueCodecs_sound 0 0) trivial t1] at l1
    have k0 : IStream.skip1 { rest := 44 :: str "a:green," } = { rest := str "a:green," } := rfl
    simp only [load, l0, k0, l1, Option.bind_some, if_true]
    rfl

end Makeshift.Props
