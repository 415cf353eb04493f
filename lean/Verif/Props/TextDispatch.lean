import Verif.Model.TextDispatch
import Verif.Props.ExpandVisit
import Verif.Props.StaticMetadata

/-!
# C112: from text to constants
-/

namespace Makeshift.Props

open Makeshift Spec ExpandVisit TextDispatch Metadata

variable {Ty V R : Type} [DecidableEq Ty]

private theorem td_expand (const : Int → Ty) (unit : V) (rep : IntTy) (env : Env) (T : Nat) (f : List (Ty × V) → R) (hw : WT (env.reflect T))
    {rs : List (Int × List Md)} (h : ValueTable T (env.reflect T) rs) (hl : Listable rep (rs.map Prod.fst))
    (hi : ∀ v w, const v = const w → v = w) (value : Int) (hv : Lookup rep value (rs.map Prod.fst)) :
    (value ∈ rs.map Prod.fst → visitExpanded const unit rep env T f (.ok value) = some ⟨[[(const value, unit)]], .ok (f [(const value, unit)])⟩) ∧
    (value ∉ rs.map Prod.fst → visitExpanded const unit rep env T f (.ok value) = some ⟨[], .throw (str "unsupported runtime value")⟩) := by
  obtain ⟨h1, h2⟩ := C77_expand const unit rep value (rs.map Prod.fst) hl hv hi
  constructor
  · intro hm
    obtain ⟨v, h3, h4, i, h5, h6⟩ := h1 hm .throwing
    simp only [visitExpanded, C77_metadata const unit .throwing rep env T value hw h, h3, Option.map_some, Option.some.injEq]
    simp [visit, activeAlternatives, h5, h6]
  · intro hm
    simp only [visitExpanded, C77_metadata const unit .throwing rep env T value hw h, (h2 hm).1, Option.map_some]

private theorem td_compiles (const : Int → Ty) (unit : V) (rep : IntTy) (env : Env) (T : Nat) (hw : WT (env.reflect T))
    {rs : List (Int × List Md)} (h : ValueTable T (env.reflect T) rs) (hl : Listable rep (rs.map Prod.fst))
    (hi : ∀ v w, const v = const w → v = w) : ∃ o, expandByMetadata const unit .throwing rep env T 0 = some o := by
  have hne := hl.nonempty
  obtain ⟨v0, hv0⟩ : ∃ v0, (rs.map Prod.fst).head? = some v0 := by
    cases e : rs.map Prod.fst with
    | nil => exact absurd e hne
    | cons a l => exact ⟨a, rfl⟩
  have hm : v0 ∈ rs.map Prod.fst := List.mem_of_head? hv0
  have hlk : Lookup rep v0 (rs.map Prod.fst) := by
    refine ⟨hl.inRange v0 hm, fun hs hb v hv => ?_⟩
    rw [hv0] at hv
    cases hv
    have := hl.inRange v0 hm
    simp only [IntTy.InRange, IntTy.minVal, IntTy.maxVal, hs, if_true] at this ⊢
    omega
  obtain ⟨v, h3, -⟩ := (C77_expand const unit rep v0 (rs.map Prod.fst) hl hlk hi).1 hm .throwing
  rw [C77_metadata const unit .throwing rep env T 0 hw h]
  simp only [expand, Option.bind_eq_some_iff] at h3 ⊢
  obtain ⟨map, h4, h5⟩ := h3
  refine ⟨?_, map, h4, ?_⟩
  rotate_left
  · split at h5
    · rfl
    · cases h5

/-- C112: a program which dispatches on the name of an enumerator, using the metadata of the type, calls its functor exactly once, with the constant of the
record with this name (possibly padded with whitespace), and never meets an unsupported value; for any other text, it gets the exception
of `parse_enum`, and the functor is not called. -/
theorem C112_enum (const : Int → Ty) (unit : V) (rep : IntTy) (env : Env) (T : Nat) (f : List (Ty × V) → R) (hw : WT (env.reflect T))
    {rs : List (Int × List Md)} {names : List Str} {es0 : List Md} (he0 : (env.reflect T).elems = some es0)
    (h : ValueTable T (env.reflect T) rs) (hv : ValidNames enumReserved rs)
    (hn : List.Forall₂ (fun r n => recordName r = some n) rs names) (hl : Listable rep (rs.map Prod.fst))
    (hlk : ∀ r ∈ rs, Lookup rep r.1 (rs.map Prod.fst)) (hi : ∀ v w, const v = const w → v = w) (s : Str) :
    (∃ t r, IsStripOf t s ∧ FirstRecord rs (fun r => recordName r = some t) r ∧
      visitParsedEnum const unit rep env T f s = some ⟨[[(const r.1, unit)]], .ok (f [(const r.1, unit)])⟩) ∨
    ((∀ t, IsStripOf t s → ∀ r ∈ rs, recordName r ≠ some t) ∧
      visitParsedEnum const unit rep env T f s = some ⟨[], .throw (unknownValueMessage (heading (stringsOf es0)) s names false)⟩) := by
  have hne : rs ≠ [] := by rintro rfl; exact hl.nonempty rfl
  obtain ⟨p1, p2⟩ := C75_parse_enum env T hw he0 h hne hv hn s
  by_cases hex : ∃ t, IsStripOf t s ∧ ∃ r ∈ rs, recordName r = some t
  · left
    obtain ⟨t, ht, hr⟩ := hex
    obtain ⟨r, hf⟩ : ∃ r, FirstRecord rs (fun r => recordName r = some t) r := by
      clear p1 p2 hn hl hlk hv h hne
      induction rs with
      | nil => simp at hr
      | cons a rs ih =>
        by_cases ha : recordName a = some t
        · exact ⟨a, [], rs, rfl, ha, by simp⟩
        · obtain ⟨r, hr1, hr2⟩ := hr
          rcases List.mem_cons.mp hr1 with rfl | hr1
          · exact absurd hr2 ha
          · obtain ⟨r, pre, post, h1, h2, h3⟩ := ih ⟨r, hr1, hr2⟩
            exact ⟨r, a :: pre, post, by simp [h1], h2, by simpa [ha] using h3⟩
    have hp := (p1 r.1).mpr ⟨t, r, ht, hf, rfl⟩
    have hmem : r ∈ rs := by obtain ⟨pre, post, rfl, -⟩ := hf; simp
    refine ⟨t, r, ht, hf, ?_⟩
    simp only [visitParsedEnum, hp, Option.bind_some]
    exact (td_expand const unit rep env T f hw h hl hi r.1 (hlk r hmem)).1 (List.mem_map_of_mem hmem)
  · right
    have hno : ∀ t, IsStripOf t s → ∀ r ∈ rs, recordName r ≠ some t := fun t ht r hr hrn => hex ⟨t, ht, r, hr, hrn⟩
    have hp := (p2 _).mpr ⟨hno, rfl⟩
    obtain ⟨o, ho⟩ := td_compiles const unit rep env T hw h hl hi
    refine ⟨hno, ?_⟩
    simp only [visitParsedEnum, hp, Option.bind_some, visitExpanded, ho, Option.map_some]

/-- C112: the value of the constant which the functor gets is printed as the text it was read from (without the surrounding whitespace). -/
theorem C112_prints (env : Env) (T : Nat) (hw : WT (env.reflect T)) {rs : List (Int × List Md)} (h : ValueTable T (env.reflect T) rs)
    (hne : rs ≠ []) (hv : ValidNames enumReserved rs) (hd : (rs.map Prod.fst).Nodup) (s t : Str) (ht : IsStripOf t s) (v : Int)
    (hp : ∃ es0 names, (env.reflect T).elems = some es0 ∧ List.Forall₂ (fun r n => recordName r = some n) rs names)
    (hs : parseEnumOf env T s = some (.ok v)) : enumToStringOf env T v = some (.ok t) := by
  obtain ⟨es0, names, he0, hn⟩ := hp
  obtain ⟨t', r, ht', ⟨pre, post, rfl, h1, h2⟩, rfl⟩ := ((C75_parse_enum env T hw he0 h hne hv hn s).1 v).mp hs
  have : t' = t := by
    rw [← C11_trim] at ht ht'
    rw [← ht, ← ht']
  subst this
  refine ((C75_enum_to_string env T hw h hne hv r.1).1 t').mpr ⟨r, ⟨pre, post, rfl, rfl, fun x hx he => ?_⟩, h1⟩
  simp only [List.map_append, List.map_cons, List.nodup_append] at hd
  exact hd.2.2 x.1 (List.mem_map_of_mem hx) r.1 (by simp) he

/-- C112, full claim (false): whatever `parse_flags` returns can be dispatched on.  Proved: exactly the declared values are, with one call of the functor; for
all others - proper combinations, and no flags if this value is not declared - `unsupported_runtime_value` is thrown. -/
theorem C112_flags_partial (const : Int → Ty) (unit : V) (w : Nat) (env : Env) (T : Nat) (f : List (Ty × V) → R) (hw : WT (env.reflect T))
    {rs : List (Int × List Md)} (h : ValueTable T (env.reflect T) rs) (hl : Listable ⟨w, false⟩ (rs.map Prod.fst))
    (hi : ∀ v w, const v = const w → v = w) (s : Str) (b : BitVec w) (hs : parseFlagsOf w env T s = some (.ok b)) :
    ((b.toNat : Int) ∈ rs.map Prod.fst →
      visitParsedFlags const unit w env T f s = some ⟨[[(const b.toNat, unit)]], .ok (f [(const b.toNat, unit)])⟩) ∧
    ((b.toNat : Int) ∉ rs.map Prod.fst → visitParsedFlags const unit w env T f s = some ⟨[], .throw (str "unsupported runtime value")⟩) := by
  have hr : IntTy.InRange ⟨w, false⟩ (b.toNat : Int) := by
    have := b.isLt
    simp only [IntTy.InRange, IntTy.minVal, IntTy.maxVal, Bool.false_eq_true, if_false]
    have h2 : ((2 ^ w : Nat) : Int) = (2 : Int) ^ w := by push_cast; rfl
    omega
  have := td_expand const unit ⟨w, false⟩ env T f hw h hl hi (b.toNat : Int) ⟨hr, by simp⟩
  simpa only [visitParsedFlags, hs, Option.bind_some, Outcome.mapVal, Outcome.bind_ok] using this

/-- C112: every combination of declared flags which is not declared itself is printed by `flags_to_string` as a text which `parse_flags` accepts, but on which
the program cannot dispatch.  (The names are as in `C75_flags_round_trip`.) -/
theorem C112_flags_combination (const : Int → Ty) (unit : V) (w : Nat) (env : Env) (T : Nat) (f : List (Ty × V) → R) (hw : WT (env.reflect T))
    {rs : List (Int × List Md)} (h : ValueTable T (env.reflect T) rs) (hl : Listable ⟨w, false⟩ (rs.map Prod.fst))
    (hi : ∀ v w, const v = const w → v = w) (b : BitVec w) (hc : flagsToStringOf w env T b ≠ none)
    (hd : rs.Pairwise fun a b => recordName a ≠ recordName b) (hclean : ∀ r ∈ rs, ∀ n, recordName r = some n → CleanFlagName n)
    (hb : ∀ i, b.getLsbD i = true → ∃ r ∈ rs, (BitVec.ofInt w r.1).getLsbD i = true) (hnot : (b.toNat : Int) ∉ rs.map Prod.fst) :
    ∃ s, flagsToStringOf w env T b = some (.ok s) ∧ parseFlagsOf w env T s = some (.ok b) ∧
      visitParsedFlags const unit w env T f s = some ⟨[], .throw (str "unsupported runtime value")⟩ := by
  have hne : rs ≠ [] := by rintro rfl; exact hl.nonempty rfl
  obtain ⟨s, h1, h2⟩ := C75_flags_round_trip w env T hw h hne b hc hd hclean hb
  exact ⟨s, h1, h2, (C112_flags_partial const unit w env T f hw h hl hi s b h2).2 hnot⟩

/-- An enumeration with the values 1, 2 and 4. -/
def accessEnv : Env where
  reflect := fun
    | 0 => .tup [.cstr (str "Access"), .tup [.tup [.val 0 1, .cstr (str "read")], .tup [.val 0 2, .sv (str "write")], .tup [.val 0 4, .cstr (str "x")]]]
    | _ => .nullopt
  isBaseOf := fun _ _ => false
  isClass := fun _ => false
  base_le := by simp

/-- Its records. -/
def accessRecords : List (Int × List Md) := [(1, [.cstr (str "read")]), (2, [.sv (str "write")]), (4, [.cstr (str "x")])]

private theorem accessTable : ValueTable 0 (accessEnv.reflect 0) accessRecords := by
  refine .inr ⟨?_, [.cstr (str "Access")], _, [], rfl, ?_, ⟨_, rfl, ?_⟩, ?_⟩
  · rintro rs' ⟨⟨es, he, hf⟩, _⟩
    cases he
    cases hf with
    | cons h1 _ => simp [IsValueRecord, Md.elems] at h1
  · intro x hx rs'
    simp at hx
    subst hx
    rintro ⟨⟨es, he, _⟩, _⟩
    simp [Md.elems] at he
  · exact .cons rfl (.cons rfl (.cons rfl .nil))
  · intro t ht
    cases ht

private theorem accessWT : WT (accessEnv.reflect 0) := by simp [accessEnv, WT, WTs]

private theorem accessListable : Listable ⟨8, false⟩ (accessRecords.map Prod.fst) :=
  ⟨by simp [StdWidth], by decide, by decide, by decide, by decide, by decide⟩

private theorem accessValid (res : Str) (h : res = enumReserved ∨ res = flagsReserved) : ValidNames res accessRecords := by
  intro r hr
  simp only [accessRecords, List.mem_cons, List.not_mem_nil, or_false] at hr
  rcases h with rfl | rfl <;> rcases hr with rfl | rfl | rfl
  all_goals first
    | exact ⟨str "read", rfl, by decide, by decide⟩
    | exact ⟨str "write", rfl, by decide, by decide⟩
    | exact ⟨str "x", rfl, by decide, by decide⟩

/-- Dispatch on the text `" write"`. -/
example : visitParsedEnum (fun v => v) () ⟨8, false⟩ accessEnv 0 (fun cs : List (Int × Unit) => cs.map fun c => c.1 * 10) (str " write") =
    some ⟨[[(2, ())]], .ok [20]⟩ := by
  rcases C112_enum (fun v => v) () ⟨8, false⟩ accessEnv 0 (fun cs : List (Int × Unit) => cs.map fun c => c.1 * 10) accessWT rfl accessTable
    (accessValid _ (.inl rfl)) (names := [str "read", str "write", str "x"]) (.cons rfl (.cons rfl (.cons rfl .nil))) accessListable
    (fun r hr => ⟨accessListable.inRange _ (List.mem_map_of_mem hr), by simp⟩) (fun _ _ h => h) (str " write") with ⟨t, r, h1, h2, h3⟩ | ⟨h1, -⟩
  · have ht : t = str "write" := by rw [← C11_trim] at h1; rw [← h1, C11_trim]; exact ⟨str " ", [], rfl, by unfold AllWs; decide, by simp [AllWs], by unfold Stripped; decide⟩
    subst ht
    obtain ⟨pre, post, h4, h5, h6⟩ := h2
    have hr : r ∈ accessRecords := by rw [h4]; simp
    simp only [accessRecords, List.mem_cons, List.not_mem_nil, or_false] at hr
    rcases hr with rfl | rfl | rfl
    · exact absurd h5 (by decide)
    · exact h3
    · exact absurd h5 (by decide)
  · exact absurd rfl (h1 (str "write") ⟨str " ", [], rfl, by unfold AllWs; decide, by simp [AllWs], by unfold Stripped; decide⟩ (2, [.sv (str "write")])
      (by simp [accessRecords]))

/-- What is read from `" write"` is printed as `"write"`. -/
example (v : Int) (h : parseEnumOf accessEnv 0 (str " write") = some (.ok v)) : enumToStringOf accessEnv 0 v = some (.ok (str "write")) :=
  C112_prints accessEnv 0 accessWT accessTable (by decide) (accessValid _ (.inl rfl)) (by decide) (str " write") (str "write")
    ⟨str " ", [], rfl, by unfold AllWs; decide, by simp [AllWs], by unfold Stripped; decide⟩ v
    ⟨_, [str "read", str "write", str "x"], rfl, .cons rfl (.cons rfl (.cons rfl .nil))⟩ h

private theorem accessSingle (k : Nat) (hk : k < 3) : SingleBit (BitVec.ofInt 8 (2 ^ k)) := by
  refine ⟨k, by omega, fun j => ?_⟩
  by_cases hj : j < 8
  · have : ∀ (k : Fin 3) (j : Fin 8), (BitVec.ofInt 8 (2 ^ k.1)).getLsbD j = decide (j.1 = k.1) := by decide
    exact this ⟨k, hk⟩ ⟨j, hj⟩
  · rw [BitVec.getLsbD_of_ge _ _ (by omega)]; simp; omega

/-- C112, the part which is false: a combination of two declared flags can be printed and parsed, but not be dispatched on. -/
theorem C112_flags_negated : ¬∀ (env : Env) (rs : List (Int × List Md)) (s : Str) (b : BitVec 8), WT (env.reflect 0) → ValueTable 0 (env.reflect 0) rs →
    Listable ⟨8, false⟩ (rs.map Prod.fst) → flagsToStringOf 8 env 0 b = some (.ok s) → parseFlagsOf 8 env 0 s = some (.ok b) →
      ∃ r, visitParsedFlags (fun v => v) () 8 env 0 (fun cs : List (Int × Unit) => cs.length) s = some ⟨[[(r, ())]], .ok 1⟩ := by
  intro hall
  obtain ⟨s, h1, h2, h3⟩ := C112_flags_combination (fun v => v) () 8 accessEnv 0 (fun cs : List (Int × Unit) => cs.length) accessWT accessTable
    accessListable (fun _ _ h => h) 5#8 (by
      refine (C75_flags_compiles_iff 8 accessEnv 0 accessWT accessTable (by decide) 5#8 []).1.mpr ⟨accessValid _ (.inr rfl), ?_⟩
      intro r hr i hi
      refine ⟨r, hr, ?_, hi⟩
      simp only [accessRecords, List.mem_cons, List.not_mem_nil, or_false] at hr
      rcases hr with rfl | rfl | rfl
      · exact accessSingle 0 (by decide)
      · exact accessSingle 1 (by decide)
      · exact accessSingle 2 (by decide))
    (by simp [accessRecords, recordName, stringsOf, strOf]; decide)
    (by
      intro r hr n hn
      simp only [accessRecords, List.mem_cons, List.not_mem_nil, or_false] at hr
      rcases hr with rfl | rfl | rfl <;> cases hn <;> exact ⟨by decide, by decide, by unfold Stripped; decide⟩)
    (by
      intro i hi
      have hlt : i < 8 := by
        by_contra hge
        rw [BitVec.getLsbD_of_ge _ _ (by omega)] at hi; cases hi
      have : ∀ i : Fin 8, (5#8).getLsbD i = true → (BitVec.ofInt 8 1).getLsbD i = true ∨ (BitVec.ofInt 8 4).getLsbD i = true := by decide
      rcases this ⟨i, hlt⟩ hi with h | h
      · exact ⟨(1, [.cstr (str "read")]), by simp [accessRecords], h⟩
      · exact ⟨(4, [.cstr (str "x")]), by simp [accessRecords], h⟩)
    (by decide)
  obtain ⟨r, hr⟩ := hall accessEnv accessRecords s 5#8 accessWT accessTable accessListable h1 h2
  rw [h3] at hr
  cases hr

end Makeshift.Props
