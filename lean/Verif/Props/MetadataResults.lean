import Verif.Spec.MetadataResults
import Verif.Lemmas.MetadataLists

/-! # C92: results of metadata queries do not dangle, and tell whether the metadata is available -/

namespace Makeshift.Props

open Metadata MetadataResults Spec

private theorem tryColumn_not_ref (p : MTy → Bool) (n : Nat) (arg : Md) : tryExtractColumnRet p n arg ≠ .ref := by
  unfold tryExtractColumnRet
  split
  · split <;> simp
  · split
    · split <;> simp
    · simp

/-- Every query returns an object; no result refers to the metadata object, which is a temporary, although intermediate results do. -/
theorem C92_by_value (env : Env) (T : Nat) (q : Query) : ret env T q ≠ .ref := by
  cases q <;> simp only [ret, auto, storeRet, ne_eq, reduceCtorEq, not_false_eq_true]
  · unfold extractValueMetadataRet
    split
    · split
      · exact tryColumn_not_ref _ _ _
      · simp
    · simp
  · unfold extractMemberMetadataRet
    split
    · split
      · exact tryColumn_not_ref _ _ _
      · simp
    · simp
  · unfold extractAllMemberMetadataRet
    split
    · split <;> simp
    · simp

/-- Metadata for the examples: type 0 has values without names, the array of which is the metadata itself; type 1 has none. -/
private def arrayEnv : Env where
  reflect := fun T => if T = 0 then .arr (.ty 0) [.val 0 3, .val 0 4] else .nullopt
  isBaseOf := fun _ _ => false
  isClass := fun _ => false
  base_le := fun _ _ h => by cases h

/-- An intermediate result which is a reference to the metadata object. -/
example : extractValuesRet 0 (arrayEnv.reflect 0) = .ref ∧ ret arrayEnv 0 .values = .constVal ∧
    result arrayEnv 0 .values = some (.arr (.ty 0) [.val 0 3, .val 0 4]) := ⟨rfl, rfl, rfl⟩

/-- `is_available(query)` tells for all queries whether the metadata is available, that is, whether the query yields something else than
`std::nullopt`. -/
theorem C92_is_available (env : Env) (T : Nat) (q : Query) (m : Md) :
    isAvailable (ret env T q) m = true ↔ m ≠ .nullopt := by
  cases m <;> cases ret env T q <;> simp [isAvailable, isAvailableV, deduceConstRef]

private theorem tryColumn_available {V : MTy} {p : MTy → Bool} {n : Nat} {arg : Md} (h : tryExtractColumn V p n arg = some .nullopt) :
    tryExtractColumnRet p n arg = .constVal := by
  unfold tryExtractColumn at h
  unfold tryExtractColumnRet
  split at h
  · rename_i r es
    cases hr : recordIndex p r n with
    | some j => simp [hr, extractColumn, Option.bind_eq_some_iff] at h
    | none => simp [hr]
  · cases ht : arg.typeOf.elems with
    | none => simp [ht] at h
    | some ts =>
      simp only [ht, Option.bind_some] at h
      cases hr : recordIndices p n ts with
      | some js => simp [hr, extractColumnAt, Option.bind_eq_some_iff] at h
      | none =>
        split
        · rename_i r es hne
          exact absurd rfl (hne r es)
        · simp [ht, hr]

private theorem found_eq {p : MTy → Bool} {md m : Md} (h : extractMetadata p 0 md = some m) : found p md = m.isAvailable := by
  simp [found, h]

/-- Full claim (false): `is_available_v<decltype(query)>` tells the same.  Proved for the queries which return `auto`; see
`C92_type_does_not_tell` for the others. -/
theorem C92_is_available_v_partial (env : Env) (T : Nat) (q : Query) (hq : TypeTells q ∨ Demands q) (m : Md) :
    isAvailableV (ret env T q) m = true ↔ m ≠ .nullopt := by
  cases q <;> simp only [TypeTells, Demands, or_false, or_true] at hq <;> cases m <;> simp [isAvailableV, ret, auto]

example : TypeTells .bases ∧ result arrayEnv 1 .bases = some .nullopt ∧ isAvailableV (ret arrayEnv 1 .bases) .nullopt = false :=
  ⟨trivial, rfl, rfl⟩

/-- For all other queries `is_available_v<decltype(query)>` is true, even if the query yields `std::nullopt`: the type is
`std::nullopt_t const`. -/
theorem C92_type_does_not_tell (env : Env) (T : Nat) (q : Query) (hq : ¬TypeTells q) (hq' : ¬Demands q) (m : Md) (h : result env T q = some m) :
    isAvailableV (ret env T q) m = true ∧ (m = .nullopt → ret env T q = .constVal) := by
  have key : m = .nullopt → ret env T q = .constVal := by
    rintro rfl
    cases q <;> simp only [TypeTells, Demands, not_true_eq_false] at hq hq' <;> simp only [ret, storeRet]
    · rename_i V p n
      simp only [result, extractValueMetadata, Option.bind_eq_some_iff] at h
      obtain ⟨vrt, hv, h⟩ := h
      simp only [extractValueMetadataRet, found_eq hv, hv]
      cases ha : vrt.isAvailable with
      | false => simp
      | true =>
        simp only [ha, if_true] at h ⊢
        exact tryColumn_available h
    · rename_i V p n
      simp only [result, extractMemberMetadata, Option.bind_eq_some_iff] at h
      obtain ⟨vrt, hv, h⟩ := h
      simp only [extractMemberMetadataRet, found_eq hv, hv]
      cases ha : vrt.isAvailable with
      | false => simp
      | true =>
        simp only [ha, if_true] at h ⊢
        exact tryColumn_available h
    · rename_i V p n
      simp only [result, extractAllMemberMetadata, Option.bind_eq_some_iff] at h
      obtain ⟨d, hd, h⟩ := h
      simp only [extractAllMemberMetadataRet, hd]
      cases ha : d.isAvailable with
      | false => simp
      | true =>
        simp only [ha, if_true] at h
        simp only [Option.bind_eq_some_iff, Option.map_eq_some_iff] at h
        obtain ⟨_, _, _, _, _, _, _, _, h⟩ := h
        cases h
  refine ⟨?_, key⟩
  cases m with
  | nullopt => rw [key rfl]; rfl
  | _ => cases ret env T q <;> rfl

example : ¬TypeTells .valueNames ∧ ¬Demands .valueNames ∧ result arrayEnv 0 .valueNames = some .nullopt ∧
    isAvailableV (ret arrayEnv 0 .valueNames) .nullopt = true := ⟨id, id, rfl, rfl⟩

/-! ## intermediate results -/

/-- The common shape of the result types of `extract_bases`, `extract_values` and `extract_members`. -/
private def shapeRet (tab lst rec itm : MTy → Bool) (fallback : Bool) (md : Md) : Ret :=
  if found tab md then .val
  else if found lst md then extractMetadataRet lst 0 md
  else if found rec md then .val
  else if found itm md then .val
  else if itm md.typeOf then .val
  else if fallback then .val
  else .constVal

private theorem found_self {p : MTy → Bool} {md : Md} (ha : md.isAvailable = true) (h : p md.typeOf = true) : found p md = true := by
  simp [found, extractMetadata_self ha h, promote_isAvailable, ha]

private theorem extractMetadataRet_ref {p : MTy → Bool} {md : Md} (hc : p .cstr = false) (hn : p .nullopt = false) :
    extractMetadataRet p 0 md = .ref ↔ p md.typeOf = true := by
  cases md <;> simp [extractMetadataRet, promoteRet, Md.typeOf, hc, hn]

private theorem extractMetadataRet_const {p : MTy → Bool} {md : Md} (h : found p md = true) : extractMetadataRet p 0 md ≠ .constVal := by
  cases md <;> simp only [extractMetadataRet]
  case nullopt => simp [found, extractMetadata, Md.isAvailable] at h
  all_goals split <;> simp [promoteRet]

private theorem shapeRet_ref {tab lst rec itm : MTy → Bool} {fallback : Bool} {md : Md} (hc : lst .cstr = false) (hn : lst .nullopt = false) :
    shapeRet tab lst rec itm fallback md = .ref ↔ found tab md = false ∧ lst md.typeOf = true := by
  unfold shapeRet
  cases ht : found tab md with
  | true => simp
  | false =>
    cases hl : found lst md with
    | true => simpa using extractMetadataRet_ref hc hn
    | false =>
      have : lst md.typeOf = false := by
        cases h : lst md.typeOf with
        | false => rfl
        | true =>
          have ha : md.isAvailable = true := by cases md <;> first | rfl | (simp [Md.typeOf, hn] at h)
          rw [found_self ha h] at hl; cases hl
      simp only [Bool.false_eq_true, if_false, this, and_false, iff_false]
      repeat' split
      all_goals simp

private theorem shapeRet_const {tab lst rec itm : MTy → Bool} {col one : Md → Option Md} {fallback : Bool} {fb md m : Md}
    (hcol : ∀ {a b}, col a = some b → b.isAvailable = true) (hone : ∀ {a b}, one a = some b → b.isAvailable = true)
    (hfb : fb.isAvailable = true)
    (h : Metadata.shape tab lst rec itm col one (if fallback then some fb else some .nullopt) md = some m) :
    shapeRet tab lst rec itm fallback md = .constVal ↔ m.isAvailable = false := by
  unfold Metadata.shape at h
  unfold shapeRet
  simp only [Option.bind_eq_some_iff] at h
  obtain ⟨a, ha, h⟩ := h
  rw [found_eq ha]
  cases haa : a.isAvailable with
  | true => simp only [haa, if_true] at h ⊢; simp [hcol h]
  | false =>
    simp only [haa, Bool.false_eq_true, if_false, Option.bind_eq_some_iff] at h ⊢
    obtain ⟨b, hb, h⟩ := h
    rw [found_eq hb]
    cases hba : b.isAvailable with
    | true =>
      simp only [hba, if_true, Option.some.injEq] at h ⊢
      subst h
      have := extractMetadataRet_const (p := lst) (md := md) (by rw [found_eq hb, hba])
      simp [this, hba]
    | false =>
      simp only [hba, Bool.false_eq_true, if_false, Option.bind_eq_some_iff] at h ⊢
      obtain ⟨c, hc, h⟩ := h
      rw [found_eq hc]
      cases hca : c.isAvailable with
      | true =>
        simp only [hca, if_true, Option.bind_eq_some_iff] at h ⊢
        obtain ⟨x, -, h⟩ := h
        simp [hone h]
      | false =>
        simp only [hca, Bool.false_eq_true, if_false, Option.bind_eq_some_iff] at h ⊢
        obtain ⟨d, hd, h⟩ := h
        rw [found_eq hd]
        cases hda : d.isAvailable with
        | true => simp only [hda, if_true] at h ⊢; simp [hone h]
        | false =>
          simp only [hda, Bool.false_eq_true, if_false] at h ⊢
          cases hi : itm md.typeOf with
          | true => simp only [hi, if_true] at h ⊢; simp [hone h]
          | false =>
            simp only [hi, Bool.false_eq_true, if_false] at h ⊢
            cases fallback
            · simp only [Bool.false_eq_true, if_false, Option.some.injEq] at h ⊢; subst h; simp [Md.isAvailable]
            · simp only [if_true, Option.some.injEq] at h ⊢; subst h; simp [hfb]

private theorem recordIndexFrom_none {p : MTy → Bool} : ∀ {ts : List MTy} {i n : Nat}, (∀ t ∈ ts, p t = false) → recordIndexFrom p ts i n = none
  | [], _, _, _ => rfl
  | t :: ts, i, n, h => by
    simp only [recordIndexFrom, h t (by simp), Bool.false_eq_true, if_false]
    exact recordIndexFrom_none fun t ht => h t (by simp [ht])

private theorem not_found {p : MTy → Bool} {md : Md} {ts : List MTy} (he : md.typeOf.elems = some ts) (h0 : p md.typeOf = false)
    (h : ∀ t ∈ ts, p t = false) : found p md = false := by
  have : recordIndex p md.typeOf 0 = none := by simp only [recordIndex, he]; exact recordIndexFrom_none h
  cases md <;> simp [found, extractMetadata, h0, this, Md.isAvailable]

/-- A list of items without further information is not a list of records. -/
private theorem ref_iff_plain {p : MTy → Bool} {tab rec itm : MTy → Bool} {fallback : Bool} {md : Md} (htab : tab = isTupleOf (isRecord p))
    (hp : ∀ t, p t = true → t.elems = none) :
    shapeRet tab (isTupleOf p) rec itm fallback md = .ref ↔ ∃ ts, md.typeOf.elems = some ts ∧ ts ≠ [] ∧ ∀ t ∈ ts, p t = true := by
  rw [shapeRet_ref rfl rfl, htab]
  constructor
  · rintro ⟨h1, h2⟩
    cases he : md.typeOf.elems with
    | none => simp [isTupleOf, he] at h2
    | some ts =>
      simp only [isTupleOf, he, List.all_eq_true] at h2
      refine ⟨ts, rfl, ?_, h2⟩
      rintro rfl
      have ha : md.isAvailable = true := by cases md <;> first | rfl | (simp [Md.typeOf, MTy.elems] at he)
      rw [found_self ha (by simp [isTupleOf, he])] at h1; cases h1
  · rintro ⟨ts, he, hne, hall⟩
    refine ⟨not_found he ?_ ?_, by simpa [isTupleOf, he] using hall⟩
    · cases ts with
      | nil => exact absurd rfl hne
      | cons t ts => simp [isTupleOf, he, isRecord, hp t (hall t (by simp))]
    · intro t ht
      simp [isTupleOf, hp t (hall t ht)]

private theorem column_available {a b : Md} (h : extractHeterogeneousColumn0 a = some b) : b.isAvailable = true := by
  cases a <;> simp [extractHeterogeneousColumn0] at h
  obtain ⟨_, _, rfl⟩ := h; rfl

/-- Which intermediate results are references to the metadata object: those of metadata which is itself the list of values, bases or
members, without names.  (An empty list is copied.)  The result is const exactly if no metadata is available.  So `decltype(auto)`
would make the public queries return dangling references for such metadata. -/
theorem C92_intermediate (env : Env) (T : Nat) (md : Md) :
    ((extractValuesRet T md = .ref ↔ ∃ es, md = .arr (.ty T) es) ∧
     (extractBasesRet env T md = .ref ↔ ∃ ts, md.typeOf.elems = some ts ∧ ts ≠ [] ∧ ∀ t ∈ ts, ∃ u, t = .typeId u ∧ env.isBaseOf u T = true) ∧
     (extractMembersRet env T md = .ref ↔ ∃ ts, md.typeOf.elems = some ts ∧ ts ≠ [] ∧ ∀ t ∈ ts, ∃ d, t = .memPtr T d)) ∧
    (∀ m, extractValues T md = some m → (extractValuesRet T md = .constVal ↔ m = .nullopt)) ∧
    (∀ m, extractBases env T md = some m → (extractBasesRet env T md = .constVal ↔ m = .nullopt)) ∧
    (∀ m, extractMembers env T md = some m → (extractMembersRet env T md = .constVal ↔ m = .nullopt)) := by
  have hav : ∀ m : Md, m.isAvailable = false ↔ m = .nullopt := by intro m; cases m <;> simp [Md.isAvailable]
  refine ⟨⟨?_, ?_, ?_⟩, ?_, ?_, ?_⟩
  · rw [show extractValuesRet T md = shapeRet (isValueRecordTuple T) (isValueArray T) (isRecord (isValue T)) (isValue T) md.isAvailable md from rfl,
      shapeRet_ref rfl rfl, valueArray_iff]
    constructor
    · exact fun h => h.2
    · rintro ⟨es, rfl⟩
      refine ⟨not_found (ts := List.replicate es.length (.ty T)) rfl rfl ?_, es, rfl⟩
      intro t ht
      rw [(List.mem_replicate.mp ht).2]; rfl
  · rw [show extractBasesRet env T md = shapeRet (isTupleOf (isRecord (isBase env T))) (isTupleOf (isBase env T)) (isRecord (isBase env T))
      (isBase env T) (md.isAvailable && env.isClass T) md from rfl, ref_iff_plain rfl (by intro t; cases t <;> simp [isBase, MTy.elems])]
    refine exists_congr fun ts => and_congr_right fun _ => and_congr_right fun _ => forall_congr' fun t => forall_congr' fun _ => ?_
    cases t <;> simp [isBase]
  · rw [show extractMembersRet env T md = shapeRet (isTupleOf (isRecord (isMember T))) (isTupleOf (isMember T)) (isRecord (isMember T))
      (isMember T) (md.isAvailable && env.isClass T) md from rfl, ref_iff_plain rfl (by intro t; cases t <;> simp [isMember, MTy.elems])]
    refine exists_congr fun ts => and_congr_right fun _ => and_congr_right fun _ => forall_congr' fun t => forall_congr' fun _ => ?_
    cases t <;> simp [isMember]
  · intro m h
    rw [extractValues_shape] at h
    rw [← hav]
    refine shapeRet_const ?_ ?_ rfl h
    · intro a b h; simp only [extractColumn, Option.bind_eq_some_iff, Option.map_eq_some_iff] at h
      obtain ⟨_, _, _, _, rfl⟩ := h; rfl
    · intro a b h; simp only [Option.map_eq_some_iff] at h; obtain ⟨_, _, rfl⟩ := h; rfl
  · intro m h
    rw [extractBases_shape] at h
    rw [← hav]
    refine shapeRet_const column_available ?_ rfl h
    intro a b h; cases h; rfl
  · intro m h
    rw [extractMembers_shape] at h
    rw [← hav]
    refine shapeRet_const column_available ?_ rfl h
    intro a b h; cases h; rfl

example : extractValuesRet 0 (.arr (.ty 0) [.val 0 3, .val 0 4]) = .ref ∧ extractMembersRet arrayEnv 5 (.tup [.memPtr 5 1 0]) = .ref ∧
    extractMembersRet arrayEnv 5 (.tup []) = .val ∧ extractBasesRet arrayEnv 5 .nullopt = .constVal ∧
    extractBases arrayEnv 5 .nullopt = some .nullopt := ⟨rfl, rfl, rfl, rfl, rfl⟩

end Makeshift.Props
