import Verif.Model.StaticMetadata
import Verif.Spec.StaticMetadata
import Verif.Props.Metadata
import Verif.Props.Serialize

/-!
# From reflected metadata to text conversion: C75
-/

namespace Makeshift.Props

open Makeshift Spec Metadata

/-- The table the records declare. -/
private def declared (rs : List (Int × List Md)) : Option (List (Int × Str)) :=
  rs.mapM fun r => (recordName r).map fun n => (r.1, n)

private theorem declared_cons (r : Int × List Md) (rs : List (Int × List Md)) :
    declared (r :: rs) = (recordName r).bind fun n => (declared rs).map fun es => (r.1, n) :: es := by
  simp only [declared, List.mapM_cons]
  cases recordName r <;> simp
  cases List.mapM (fun r : Int × List Md => Option.map (fun n => (r.1, n)) (recordName r)) rs <;> simp

private theorem declared_names {rs : List (Int × List Md)} {es : List (Int × Str)} (h : declared rs = some es) :
    List.Forall₂ (fun r n => recordName r = some n) rs (es.map Prod.snd) ∧ es.map Prod.fst = rs.map Prod.fst := by
  induction rs generalizing es with
  | nil => simp [declared] at h; subst h; exact ⟨.nil, rfl⟩
  | cons r rs ih =>
    rw [declared_cons] at h
    obtain ⟨n, h1, h2⟩ := Option.bind_eq_some_iff.mp h
    obtain ⟨es', h3, rfl⟩ := Option.map_eq_some_iff.mp h2
    obtain ⟨i1, i2⟩ := ih h3
    exact ⟨.cons h1 i1, by simp [i2]⟩

private theorem declared_none {rs : List (Int × List Md)} (h : declared rs = none) : ∃ r ∈ rs, recordName r = none := by
  induction rs with
  | nil => simp [declared] at h
  | cons r rs ih =>
    rw [declared_cons] at h
    cases hr : recordName r with
    | none => exact ⟨r, by simp, hr⟩
    | some n =>
      rw [hr] at h
      simp at h
      obtain ⟨x, hx, hx'⟩ := ih h
      exact ⟨x, by simp [hx], hx'⟩

private theorem mapM_valOf (T : Nat) (vs : List Int) : (vs.map (Md.val T)).mapM (valOf T) = some vs := by
  induction vs with
  | nil => rfl
  | cons v vs ih => simp [ih, valOf]

private theorem mapM_svOf (ns : List Str) : (ns.map Md.sv).mapM svOf = some ns := by
  induction ns with
  | nil => rfl
  | cons v vs ih => simp [ih, svOf]

private theorem zip_fst_snd {α β : Type} (l : List (α × β)) : (l.map Prod.fst).zip (l.map Prod.snd) = l := by
  induction l with
  | nil => rfl
  | cons a l ih => simp [ih]

private theorem valueTable_eq (env : Env) (T : Nat) (hw : WT (env.reflect T)) {rs : List (Int × List Md)}
    (h : ValueTable T (env.reflect T) rs) (hne : rs ≠ []) : valueTable env T = declared rs := by
  have hv := C51_values env T hw h
  cases hd : declared rs with
  | none =>
    obtain ⟨r, hr, hn⟩ := declared_none hd
    have : valueNames env T = some .nullopt := C51_missing_string env T 0 hw h hr (by
      unfold recordName at hn
      simp at hn
      simp [hn])
    simp [valueTable, available, this, Md.isAvailable]
  | some es =>
    obtain ⟨h1, h2⟩ := declared_names hd
    have hn := (C51_names env T hw h hne h1).1
    have e1 : (rs.map fun r => Md.val T r.1) = (rs.map Prod.fst).map (Md.val T) := by simp
    have e3 : (rs.map Prod.fst).length = (es.map Prod.snd).length := by rw [← h2]; simp
    simp only [valueTable, available, hv, hn, Md.isAvailable, Md.elems, Option.bind_some, if_true, e1, mapM_valOf, mapM_svOf]
    rw [if_pos e3, ← h2, zip_fst_snd]

private theorem heading_eq {md : Md} (hw : WT md) {es : List Md} (he : md.elems = some es) :
    descriptionOrNameOrEmpty md = some (heading (stringsOf es)) := by
  unfold descriptionOrNameOrEmpty
  rw [C52_name md hw he, C52_description md hw he]
  rcases stringsOf es with _ | ⟨a, _ | ⟨b, l⟩⟩ <;> simp [heading, Md.isAvailable, svOf]

private theorem valueTable_elems {T : Nat} {md : Md} {rs : List (Int × List Md)} (h : ValueTable T md rs) : ∃ es, md.elems = some es := by
  rcases h with ⟨⟨es, he, _⟩, _⟩ | ⟨_, pre, R, post, he, _⟩
  · exact ⟨es, he⟩
  · exact ⟨_, he⟩

private theorem valid_iff {reserved : Str} {rs : List (Int × List Md)} :
    ValidNames reserved rs ↔ ∃ es, declared rs = some es ∧ ∀ n ∈ es.map Prod.snd, n ≠ [] ∧ ∀ c ∈ n, c ∉ reserved := by
  induction rs with
  | nil => simp [ValidNames, declared]
  | cons r rs ih =>
    rw [declared_cons]
    constructor
    · intro h
      obtain ⟨n, hn, h1, h2⟩ := h r (by simp)
      obtain ⟨es, he, hes⟩ := ih.mp fun x hx => h x (by simp [hx])
      refine ⟨(r.1, n) :: es, by simp [hn, he], ?_⟩
      intro m hm
      rcases List.mem_cons.mp hm with rfl | hm
      · exact ⟨h1, h2⟩
      · exact hes m hm
    · rintro ⟨es, he, hes⟩ x hx
      obtain ⟨n, h1, h2⟩ := Option.bind_eq_some_iff.mp he
      obtain ⟨es', h3, rfl⟩ := Option.map_eq_some_iff.mp h2
      rcases List.mem_cons.mp hx with rfl | hx
      · exact ⟨n, h1, hes n (by simp)⟩
      · exact ih.mpr ⟨es', h3, fun m hm => hes m (by simp at hm ⊢; tauto)⟩ x hx

private theorem find_declared {rs : List (Int × List Md)} {es : List (Int × Str)} (h : declared rs = some es) (q : Int × Str → Bool)
    (e : Int × Str) : es.find? q = some e ↔
      ∃ r, FirstRecord rs (fun r => ∃ n, recordName r = some n ∧ q (r.1, n) = true) r ∧ r.1 = e.1 ∧ recordName r = some e.2 := by
  induction rs generalizing es with
  | nil => simp [declared] at h; subst h; simp [FirstRecord]
  | cons r rs ih =>
    rw [declared_cons] at h
    obtain ⟨n, h1, h2⟩ := Option.bind_eq_some_iff.mp h
    obtain ⟨es', h3, rfl⟩ := Option.map_eq_some_iff.mp h2
    by_cases hq : q (r.1, n) = true
    · rw [List.find?_cons_of_pos hq]
      constructor
      · rintro ⟨⟩
        exact ⟨r, ⟨[], rs, rfl, ⟨n, h1, hq⟩, by simp⟩, rfl, h1⟩
      · rintro ⟨x, ⟨pre, post, h4, h5, h6⟩, h7, h8⟩
        cases pre with
        | nil =>
          cases h4
          rw [h1] at h8; cases h8; rw [h7]
        | cons y pre =>
          cases h4
          exact absurd ⟨n, h1, hq⟩ (h6 r (by simp))
    · rw [List.find?_cons_of_neg hq, ih h3]
      constructor
      · rintro ⟨x, ⟨pre, post, rfl, h5, h6⟩, h7⟩
        refine ⟨x, ⟨r :: pre, post, rfl, h5, ?_⟩, h7⟩
        intro y hy
        rcases List.mem_cons.mp hy with rfl | hy
        · rintro ⟨m, h8, h9⟩
          rw [h1] at h8; cases h8; exact hq h9
        · exact h6 y hy
      · rintro ⟨x, ⟨pre, post, h4, h5, h6⟩, h7⟩
        cases pre with
        | nil =>
          cases h4
          obtain ⟨m, h8, h9⟩ := h5
          rw [h1] at h8; cases h8; exact absurd h9 hq
        | cons y pre =>
          cases h4
          exact ⟨x, ⟨pre, post, rfl, h5, fun z hz => h6 z (by simp [hz])⟩, h7⟩

private theorem names_unique {rs : List (Int × List Md)} {ns ns' : List Str} (h : List.Forall₂ (fun r n => recordName r = some n) rs ns)
    (h' : List.Forall₂ (fun r n => recordName r = some n) rs ns') : ns = ns' := by
  induction h generalizing ns' with
  | nil => cases h'; rfl
  | cons h1 _ ih =>
    cases h' with
    | cons h3 h4 => rw [h1] at h3; cases h3; rw [ih h4]

private theorem mem_names {rs : List (Int × List Md)} {ns : List Str} (h : List.Forall₂ (fun r n => recordName r = some n) rs ns)
    (t : Str) : t ∈ ns ↔ ∃ r ∈ rs, recordName r = some t := by
  induction h with
  | nil => simp
  | cons h1 _ ih =>
    rw [List.mem_cons, ih]
    constructor
    · rintro (rfl | ⟨r, hr, hr'⟩)
      · exact ⟨_, List.mem_cons_self, h1⟩
      · exact ⟨r, List.mem_cons_of_mem _ hr, hr'⟩
    · rintro ⟨r, hr, hr'⟩
      rcases List.mem_cons.mp hr with rfl | hr
      · rw [h1] at hr'; cases hr'; exact .inl rfl
      · exact .inr ⟨r, hr, hr'⟩

private theorem names_nodup {rs : List (Int × List Md)} {ns : List Str} (h : List.Forall₂ (fun r n => recordName r = some n) rs ns)
    (hd : rs.Pairwise fun a b => recordName a ≠ recordName b) : ns.Nodup := by
  induction h with
  | nil => simp
  | cons h1 h2 ih =>
    rw [List.pairwise_cons] at hd
    refine List.nodup_cons.mpr ⟨fun hmem => ?_, ih hd.2⟩
    obtain ⟨x, hx, hx'⟩ := (mem_names h2 _).mp hmem
    exact hd.1 x hx (by rw [h1, hx'])

private theorem enum_md {env : Env} {T : Nat} (hw : WT (env.reflect T)) {rs : List (Int × List Md)}
    (h : ValueTable T (env.reflect T) rs) (hne : rs ≠ []) {es0 : List Md} (he0 : (env.reflect T).elems = some es0) :
    (ValidNames enumReserved rs ∧ ∃ es, declared rs = some es ∧ (∀ n ∈ es.map Prod.snd, n ≠ [] ∧ ∀ c ∈ n, c ∉ enumReserved) ∧
      staticEnumMetadata env T = some ⟨heading (stringsOf es0), es⟩) ∨
    (¬ValidNames enumReserved rs ∧ staticEnumMetadata env T = none) := by
  unfold staticEnumMetadata
  rw [valueTable_eq env T hw h hne, heading_eq hw he0]
  by_cases hv : ValidNames enumReserved rs
  · left; refine ⟨hv, ?_⟩
    obtain ⟨es, h1, h2⟩ := valid_iff.mp hv
    refine ⟨es, h1, h2, ?_⟩
    rw [h1]
    simp only [Option.bind_some]
    rw [(C12_enum_name_validation _ es).1 h2]; rfl
  · right; refine ⟨hv, ?_⟩
    cases hd : declared rs with
    | none => rfl
    | some es =>
      simp only [Option.bind_some]
      rw [(C12_enum_name_validation _ es).2 fun h2 => hv (valid_iff.mpr ⟨es, hd, h2⟩)]; rfl

/-- C75: text conversion of an enumeration compiles iff every record of its table of values has a name, and these names are not
empty and free of reserved characters.  (The functions compile for all arguments or for none.) -/
theorem C75_enum_compiles_iff (env : Env) (T : Nat) (hw : WT (env.reflect T)) {rs : List (Int × List Md)}
    (h : ValueTable T (env.reflect T) rs) (hne : rs ≠ []) (v : Int) (s : Str) :
    (enumToStringOf env T v ≠ none ↔ ValidNames enumReserved rs) ∧ (parseEnumOf env T s ≠ none ↔ ValidNames enumReserved rs) := by
  obtain ⟨es0, he0⟩ := valueTable_elems h
  unfold enumToStringOf parseEnumOf
  rcases enum_md hw h hne he0 with ⟨hv, es, _, _, hm⟩ | ⟨hv, hm⟩ <;> simp [hv, hm]

/-- C75: for a type whose metadata has no table of values (a bare list of values does not suffice) it does not compile. -/
theorem C75_no_table (env : Env) (T : Nat) (hw : WT (env.reflect T)) (h : ∀ rs, ¬ValueTable T (env.reflect T) rs) (w : Nat) (v : Int)
    (f : BitVec w) (s : Str) :
    enumToStringOf env T v = none ∧ parseEnumOf env T s = none ∧ flagsToStringOf w env T f = none ∧ parseFlagsOf w env T s = none := by
  have : valueTable env T = none := by
    have : valueNames env T = some .nullopt := by
      by_cases ha : (env.reflect T).isAvailable = true
      · exact (C51_no_table env T hw ha h .sv isStringLike 0).2
      · have : env.reflect T = .nullopt := by
          cases hm : env.reflect T <;> simp [hm, Md.isAvailable] at ha ⊢
        exact (C51_no_metadata env T this).2
    unfold valueTable
    rw [this]
    cases available (values env T) <;> simp [available, Md.isAvailable]
  simp [enumToStringOf, parseEnumOf, flagsToStringOf, parseFlagsOf, staticEnumMetadata, staticFlagsMetadata, this]

/-- C75: `enum_to_string` prints the name given by the first record of the value, and fails fast iff no record has the value. -/
theorem C75_enum_to_string (env : Env) (T : Nat) (hw : WT (env.reflect T)) {rs : List (Int × List Md)}
    (h : ValueTable T (env.reflect T) rs) (hne : rs ≠ []) (hv : ValidNames enumReserved rs) (v : Int) :
    (∀ n, enumToStringOf env T v = some (.ok n) ↔ ∃ r, FirstRecord rs (fun r => r.1 = v) r ∧ recordName r = some n) ∧
    (enumToStringOf env T v = some .failFast ↔ ∀ r ∈ rs, r.1 ≠ v) := by
  obtain ⟨es0, he0⟩ := valueTable_elems h
  rcases enum_md hw h hne he0 with ⟨_, es, hd, _, hm⟩ | ⟨hv', _⟩
  · have hs := C02_enum_to_string v ⟨heading (stringsOf es0), es⟩
    simp only [enumToStringOf, hm, Option.map_some, Option.some.injEq]
    constructor
    · intro n
      rw [hs.1 n]
      unfold nameOf
      rw [Option.map_eq_some_iff]
      have hp : ∀ r ∈ rs, (r.1 = v ↔ ∃ n, recordName r = some n ∧ ((r.1, n).1 == v) = true) := by
        intro r hr
        obtain ⟨n, hn, _⟩ := hv r hr
        simp [hn]
      constructor
      · rintro ⟨e, h1, rfl⟩
        obtain ⟨r, ⟨pre, post, rfl, h2, h3⟩, h4, h5⟩ := (find_declared hd _ e).mp h1
        exact ⟨r, ⟨pre, post, rfl, (hp r (by simp)).mpr h2, fun x hx => fun h6 => h3 x hx ((hp x (by simp [hx])).mp h6)⟩, h5⟩
      · rintro ⟨r, ⟨pre, post, rfl, h2, h3⟩, h5⟩
        exact ⟨(r.1, n), (find_declared hd _ _).mpr
          ⟨r, ⟨pre, post, rfl, (hp r (by simp)).mp h2, fun x hx => fun h6 => h3 x hx ((hp x (by simp [hx])).mpr h6)⟩, rfl, h5⟩, rfl⟩
    · rw [hs.2]
      rw [(declared_names hd).2]
      simp only [List.mem_map, not_exists, not_and]
  · exact absurd hv hv'

/-- C75: `parse_enum` returns the value of the first record whose name is the text without surrounding whitespace; if there is none, it
throws an exception whose message starts with the description, else the name of the type, and lists the names in order. -/
theorem C75_parse_enum (env : Env) (T : Nat) (hw : WT (env.reflect T)) {rs : List (Int × List Md)} {names : List Str}
    {es0 : List Md} (he0 : (env.reflect T).elems = some es0)
    (h : ValueTable T (env.reflect T) rs) (hne : rs ≠ []) (hv : ValidNames enumReserved rs)
    (hn : List.Forall₂ (fun r n => recordName r = some n) rs names) (s : Str) :
    (∀ v, parseEnumOf env T s = some (.ok v) ↔
      ∃ t r, IsStripOf t s ∧ FirstRecord rs (fun r => recordName r = some t) r ∧ r.1 = v) ∧
    (∀ m, parseEnumOf env T s = some (.throw m) ↔
      (∀ t, IsStripOf t s → ∀ r ∈ rs, recordName r ≠ some t) ∧ m = unknownValueMessage (heading (stringsOf es0)) s names false) := by
  rcases enum_md hw h hne he0 with ⟨_, es, hd, _, hm⟩ | ⟨hv', _⟩
  · simp only [parseEnumOf, hm, Option.map_some, Option.some.injEq]
    have hnames : es.map Prod.snd = names := names_unique (declared_names hd).1 hn
    constructor
    · intro v
      rw [C02_parse_enum_iff]
      constructor
      · rintro ⟨t, ht, hl⟩
        obtain ⟨e, h1, rfl⟩ := Option.map_eq_some_iff.mp hl
        obtain ⟨r, ⟨pre, post, rfl, ⟨n, h2, h2'⟩, h3⟩, h4, h5⟩ := (find_declared hd _ e).mp h1
        simp at h2'; subst h2'
        exact ⟨n, r, ht, ⟨pre, post, rfl, h2, fun x hx h6 => h3 x hx ⟨n, h6, by simp⟩⟩, h4⟩
      · rintro ⟨t, r, ht, ⟨pre, post, rfl, h2, h3⟩, rfl⟩
        refine ⟨t, ht, Option.map_eq_some_iff.mpr ⟨(r.1, t), (find_declared hd _ _).mpr
          ⟨r, ⟨pre, post, rfl, ⟨t, h2, by simp⟩, ?_⟩, rfl, h2⟩, rfl⟩⟩
        rintro x hx ⟨n, h6, h7⟩
        simp at h7; subst h7; exact h3 x hx h6
    · intro m
      rw [C03_enum_error_message, hnames]
      have : ∀ t, t ∉ names ↔ ∀ r ∈ rs, recordName r ≠ some t := by
        intro t
        rw [mem_names hn]
        exact ⟨fun h r hr hr' => h ⟨r, hr, hr'⟩, fun h ⟨r, hr, hr'⟩ => h r hr hr'⟩
      simp only [this]
  · exact absurd hv hv'

/-- C75: printing any declared value and parsing the text, possibly padded with whitespace, yields the value, if the names are
distinct. -/
theorem C75_enum_round_trip (env : Env) (T : Nat) (hw : WT (env.reflect T)) {rs : List (Int × List Md)}
    (h : ValueTable T (env.reflect T) rs) (hne : rs ≠ []) (hv : ValidNames enumReserved rs)
    (hd : rs.Pairwise fun a b => recordName a ≠ recordName b) {r : Int × List Md} (hr : r ∈ rs) (pre post : Str)
    (hpre : AllWs pre) (hpost : AllWs post) :
    ∃ s, enumToStringOf env T r.1 = some (.ok s) ∧ parseEnumOf env T (pre ++ s ++ post) = some (.ok r.1) := by
  obtain ⟨es0, he0⟩ := valueTable_elems h
  rcases enum_md hw h hne he0 with ⟨_, es, hde, hes, hm⟩ | ⟨hv', _⟩
  · have hnd : (es.map Prod.snd).Nodup := names_nodup (declared_names hde).1 hd
    obtain ⟨s, h1, h2⟩ := C01_enum_round_trip 0 (heading (stringsOf es0)) es ⟨heading (stringsOf es0), es⟩
      ((C12_enum_name_validation _ es).1 hes) hnd r.1 (by rw [(declared_names hde).2]; exact List.mem_map_of_mem hr) pre post hpre hpost
    exact ⟨s, by simp [enumToStringOf, hm, h1], by rw [parseEnumOf, hm, Option.map_some, h2]⟩
  · exact absurd hv hv'

/-- The flags table the records declare, with the bit patterns of the values. -/
private def flagsOf (w : Nat) (es : List (Int × Str)) : List (BitVec w × Str) := es.map fun e => (BitVec.ofInt w e.1, e.2)

private theorem flags_md (w : Nat) {env : Env} {T : Nat} (hw : WT (env.reflect T)) {rs : List (Int × List Md)}
    (h : ValueTable T (env.reflect T) rs) (hne : rs ≠ []) {es0 : List Md} (he0 : (env.reflect T).elems = some es0) :
    staticFlagsMetadata w env T = (declared rs).bind fun es => constant (makeFlagsMetadata (heading (stringsOf es0)) (flagsOf w es)) := by
  unfold staticFlagsMetadata
  rw [valueTable_eq env T hw h hne, heading_eq hw he0]
  rfl

private theorem constant_isSome {α : Type} (o : Outcome α) : constant o ≠ none ↔ ∃ a, o = .ok a := by
  cases o <;> simp [constant]

private theorem flagsOf_names (w : Nat) (es : List (Int × Str)) : (flagsOf w es).map Prod.snd = es.map Prod.snd := by
  simp [flagsOf]

private theorem flagsOf_values {w : Nat} {rs : List (Int × List Md)} {es : List (Int × Str)} (h : declared rs = some es) :
    (flagsOf w es).map Prod.fst = rs.map fun r => BitVec.ofInt w r.1 := by
  have : (flagsOf w es).map Prod.fst = (es.map Prod.fst).map (BitVec.ofInt w) := by simp [flagsOf]
  rw [this, (declared_names h).2]; simp

/-- C75: text conversion of flags compiles iff every record of the table has a name, which is not empty and free of reserved
characters, and every bit of every declared value is also declared on its own. -/
theorem C75_flags_compiles_iff (w : Nat) (env : Env) (T : Nat) (hw : WT (env.reflect T)) {rs : List (Int × List Md)}
    (h : ValueTable T (env.reflect T) rs) (hne : rs ≠ []) (f : BitVec w) (s : Str) :
    (flagsToStringOf w env T f ≠ none ↔ ValidNames flagsReserved rs ∧
      ∀ r ∈ rs, ∀ i, (BitVec.ofInt w r.1).getLsbD i = true →
        ∃ r' ∈ rs, SingleBit (BitVec.ofInt w r'.1) ∧ (BitVec.ofInt w r'.1).getLsbD i = true) ∧
    (parseFlagsOf w env T s ≠ none ↔ flagsToStringOf w env T f ≠ none) := by
  obtain ⟨es0, he0⟩ := valueTable_elems h
  unfold flagsToStringOf parseFlagsOf
  rw [flags_md w hw h hne he0]
  refine ⟨?_, by cases (declared rs).bind fun es => constant (makeFlagsMetadata (heading (stringsOf es0)) (flagsOf w es)) <;> simp⟩
  have hval : ValidNames flagsReserved rs ↔ _ := valid_iff
  cases hd : declared rs with
  | none => rw [hd] at hval; simp [hval]
  | some es =>
    rw [hd] at hval
    simp only [Option.bind_some, ne_eq, Option.map_eq_none_iff]
    rw [← ne_eq, constant_isSome, (C13_flags_metadata_accepted_iff _ _).1, flagsOf_names, hval]
    have hmem : ∀ P : BitVec w → Prop, (∀ e ∈ flagsOf w es, P e.1) ↔ ∀ r ∈ rs, P (BitVec.ofInt w r.1) := by
      intro P
      have := flagsOf_values (w := w) hd
      have h1 : (∀ x ∈ (flagsOf w es).map Prod.fst, P x) ↔ (∀ x ∈ (rs.map fun r => BitVec.ofInt w r.1), P x) := by rw [this]
      simpa only [List.forall_mem_map] using h1
    have hex : ∀ P : BitVec w → Prop, (∃ e ∈ flagsOf w es, P e.1) ↔ ∃ r ∈ rs, P (BitVec.ofInt w r.1) := by
      intro P
      have := hmem fun x => ¬P x
      constructor
      · rintro ⟨e, he, hp⟩
        by_contra hc
        exact this.mpr (fun r hr hp => hc ⟨r, hr, hp⟩) e he hp
      · rintro ⟨r, hr, hp⟩
        by_contra hc
        exact this.mp (fun e he hp => hc ⟨e, he, hp⟩) r hr hp
    rw [hmem fun x => ∀ i, x.getLsbD i = true → ∃ e' ∈ flagsOf w es, SingleBit e'.1 ∧ e'.1.getLsbD i = true]
    simp only [fun i => hex fun x => SingleBit x ∧ x.getLsbD i = true]
    simp

/-- C75: if the names are distinct and are printed unambiguously (without `'+'`, `'|'` and surrounding whitespace), then every
combination of declared flags survives printing and parsing. -/
theorem C75_flags_round_trip (w : Nat) (env : Env) (T : Nat) (hw : WT (env.reflect T)) {rs : List (Int × List Md)}
    (h : ValueTable T (env.reflect T) rs) (hne : rs ≠ []) (f : BitVec w) (hc : flagsToStringOf w env T f ≠ none)
    (hd : rs.Pairwise fun a b => recordName a ≠ recordName b) (hclean : ∀ r ∈ rs, ∀ n, recordName r = some n → CleanFlagName n)
    (hf : ∀ i, f.getLsbD i = true → ∃ r ∈ rs, (BitVec.ofInt w r.1).getLsbD i = true) :
    ∃ s, flagsToStringOf w env T f = some (.ok s) ∧ parseFlagsOf w env T s = some (.ok f) := by
  obtain ⟨es0, he0⟩ := valueTable_elems h
  unfold flagsToStringOf at hc ⊢
  unfold parseFlagsOf
  rw [flags_md w hw h hne he0] at hc ⊢
  cases hde : declared rs with
  | none => rw [hde] at hc; simp at hc
  | some es =>
    rw [hde] at hc
    simp only [Option.bind_some, ne_eq, Option.map_eq_none_iff] at hc ⊢
    obtain ⟨md, hmd⟩ := (constant_isSome _).mp hc
    have hn := (declared_names hde).1
    obtain ⟨s, h1, h2⟩ := C04_flags_round_trip _ _ md hmd (by rw [flagsOf_names]; exact names_nodup hn hd)
      (by
        rw [flagsOf_names]; intro n hmem
        obtain ⟨r, hr, hr'⟩ := (mem_names hn n).mp hmem
        exact hclean r hr n hr') f (by
        intro i hi
        rw [union_getLsbD, flagsOf_values hde]
        obtain ⟨r, hr, hr'⟩ := hf i hi
        exact ⟨_, List.mem_map_of_mem hr, hr'⟩)
    exact ⟨s, by rw [hmd]; simp [constant, h1], by rw [hmd]; simp [constant, h2]⟩

/-- The entry of the flags table for a record with a name. -/
private def entryOf (w : Nat) (r : Int × List Md) : BitVec w × Str := (BitVec.ofInt w r.1, (recordName r).getD [])

private theorem flagsOf_map (w : Nat) {rs : List (Int × List Md)} {es : List (Int × Str)} (h : declared rs = some es) :
    flagsOf w es = rs.map (entryOf w) ∧ ∀ r ∈ rs, ∃ n, recordName r = some n := by
  induction rs generalizing es with
  | nil => simp [declared] at h; subst h; simp [flagsOf]
  | cons r rs ih =>
    rw [declared_cons] at h
    obtain ⟨n, h1, h2⟩ := Option.bind_eq_some_iff.mp h
    obtain ⟨es', h3, rfl⟩ := Option.map_eq_some_iff.mp h2
    obtain ⟨i1, i2⟩ := ih h3
    refine ⟨?_, ?_⟩
    · simp only [flagsOf, List.map_cons] at i1 ⊢
      rw [i1]; simp [entryOf, h1]
    · intro x hx
      rcases List.mem_cons.mp hx with rfl | hx
      · exact ⟨n, h1⟩
      · exact i2 x hx

private theorem flagOrder_eq {w : Nat} {rs ord : List (Int × List Md)} (h : FlagOrder w rs ord) :
    ord = rs.filter (fun r => isPowerOf2 (BitVec.ofInt w r.1)) ++ rs.filter (fun r => !isPowerOf2 (BitVec.ofInt w r.1)) := by
  obtain ⟨a, b, rfl, ha, hb, hl, h1, h2⟩ := h
  have ha' := ha.filter fun r => isPowerOf2 (BitVec.ofInt w r.1)
  have hb' := hb.filter fun r => !isPowerOf2 (BitVec.ofInt w r.1)
  rw [List.filter_eq_self.mpr (by intro r hr; exact (isPowerOf2_iff _).mpr (h1 r hr))] at ha'
  rw [List.filter_eq_self.mpr (by
    intro r hr
    have := h2 r hr
    rw [← isPowerOf2_iff] at this
    simpa using this)] at hb'
  have hlen := List.length_eq_length_filter_add (l := rs) fun r => isPowerOf2 (BitVec.ofInt w r.1)
  have la := ha'.length_le
  have lb := hb'.length_le
  rw [List.length_append] at hl
  rw [ha'.eq_of_length (by omega), hb'.eq_of_length (by omega)]

private theorem firstRecord_find {rs : List (Int × List Md)} {p : Int × List Md → Prop} {q : Int × List Md → Bool}
    (hpq : ∀ r ∈ rs, q r = true ↔ p r) (r : Int × List Md) : rs.find? q = some r ↔ FirstRecord rs p r := by
  rw [List.find?_eq_some_iff_append]
  constructor
  · rintro ⟨h1, as, bs, rfl, h2⟩
    refine ⟨as, bs, rfl, (hpq r (by simp)).mp h1, fun x hx hp => ?_⟩
    have := (hpq x (by simp [hx])).mpr hp
    have := h2 x hx
    simp_all
  · rintro ⟨as, bs, rfl, h1, h2⟩
    refine ⟨(hpq r (by simp)).mpr h1, as, bs, rfl, fun x hx => ?_⟩
    cases hq : q x
    · rfl
    · exact absurd ((hpq x (by simp [hx])).mp hq) (h2 x hx)

private theorem flags_table (w : Nat) {env : Env} {T : Nat} (hw : WT (env.reflect T)) {rs : List (Int × List Md)}
    (h : ValueTable T (env.reflect T) rs) (hne : rs ≠ []) {es0 : List Md} (he0 : (env.reflect T).elems = some es0)
    (hc : staticFlagsMetadata w env T ≠ none) :
    ∃ md, staticFlagsMetadata w env T = some md ∧ makeFlagsMetadata (heading (stringsOf es0)) (rs.map (entryOf w)) = .ok md ∧
      (∀ r ∈ rs, ∃ n, recordName r = some n) ∧ md.description = heading (stringsOf es0) ∧
      ∀ ord, FlagOrder w rs ord → md.entries = ord.map (entryOf w) := by
  rw [flags_md w hw h hne he0] at hc ⊢
  cases hde : declared rs with
  | none => rw [hde] at hc; simp at hc
  | some es =>
    rw [hde] at hc
    simp only [Option.bind_some] at hc ⊢
    obtain ⟨h1, h2⟩ := flagsOf_map w hde
    rw [h1] at hc ⊢
    obtain ⟨md, hmd⟩ := (constant_isSome _).mp hc
    refine ⟨md, by rw [hmd]; rfl, hmd, h2, ?_⟩
    have hmd' := hmd
    rw [makeFlagsMetadata_eq] at hmd'
    split at hmd'
    · cases hmd'
      refine ⟨rfl, fun ord ho => ?_⟩
      rw [flagOrder_eq ho, List.map_append, List.filter_map, List.filter_map]
      rfl
    · cases hmd'

private theorem lookup_first {w : Nat} {ord : List (Int × List Md)} (hn : ∀ r ∈ ord, ∃ n, recordName r = some n) (t : Str)
    (x : BitVec w) : lookup (ord.map (entryOf w)) t = some x ↔
      ∃ r, FirstRecord ord (fun r => recordName r = some t) r ∧ BitVec.ofInt w r.1 = x := by
  unfold lookup
  rw [List.find?_map, Option.map_map, Option.map_eq_some_iff]
  have hpq : ∀ r ∈ ord, ((fun e : BitVec w × Str => e.2 == t) ∘ entryOf w) r = true ↔ recordName r = some t := by
    intro r hr
    obtain ⟨n, hn⟩ := hn r hr
    simp [entryOf, hn]
  constructor
  · rintro ⟨r, h1, h2⟩
    exact ⟨r, (firstRecord_find hpq r).mp h1, h2⟩
  · rintro ⟨r, h1, h2⟩
    exact ⟨r, (firstRecord_find hpq r).mpr h1, h2⟩

private theorem names_map {w : Nat} {ord : List (Int × List Md)} {names : List Str} (h : NamedBy ord names) :
    (ord.map (entryOf w)).map Prod.snd = names := by
  induction h with
  | nil => rfl
  | cons h1 _ ih => simp only [List.map_cons, ih]; simp [entryOf, h1]

/-- C75: `parse_flags` splits the text into tokens and returns the union of the values which the first records of these names have,
where records of a single bit come before all others; if a token is no name, it throws an exception whose message starts with the
description, else the name of the type, tells the first such token, and lists the names - those of single bits first. -/
theorem C75_parse_flags (w : Nat) (env : Env) (T : Nat) (hw : WT (env.reflect T)) {rs ord : List (Int × List Md)} {names : List Str}
    {es0 : List Md} (he0 : (env.reflect T).elems = some es0) (h : ValueTable T (env.reflect T) rs) (hne : rs ≠ [])
    (ho : FlagOrder w rs ord) (hn : NamedBy ord names) (s : Str) (hc : parseFlagsOf w env T s ≠ none) :
    (∀ v, parseFlagsOf w env T s = some (.ok v) ↔
      (∀ t ∈ flagTokens s, t ∈ names) ∧
      ∀ i, v.getLsbD i = true ↔ ∃ t ∈ flagTokens s, ∃ r, FirstRecord ord (fun r => recordName r = some t) r ∧
        (BitVec.ofInt w r.1).getLsbD i = true) ∧
    (∀ m, parseFlagsOf w env T s = some (.throw m) ↔
      ∃ pre t post, flagTokens s = pre ++ t :: post ∧ (∀ p ∈ pre, p ∈ names) ∧ t ∉ names ∧
        m = unknownValueMessage (heading (stringsOf es0)) t names true) := by
  have hc' : staticFlagsMetadata w env T ≠ none := by
    intro h0; exact hc (by simp [parseFlagsOf, h0])
  obtain ⟨md, h1, -, h3, h4, h5⟩ := flags_table w hw h hne he0 hc'
  have hord : ∀ r ∈ ord, ∃ n, recordName r = some n := by
    intro r hr
    rw [flagOrder_eq ho] at hr
    rcases List.mem_append.mp hr with hr | hr <;> exact h3 r (List.mem_filter.mp hr).1
  simp only [parseFlagsOf, h1, Option.map_some, Option.some.injEq]
  constructor
  · intro v
    rw [C06_parse_flags_ok_iff, h5 ord ho, names_map hn]
    simp only [lookup_first hord]
    refine and_congr_right fun _ => forall_congr' fun i => iff_congr Iff.rfl ?_
    constructor
    · rintro ⟨t, ht, x, ⟨r, h6, rfl⟩, h7⟩
      exact ⟨t, ht, r, h6, h7⟩
    · rintro ⟨t, ht, r, h6, h7⟩
      exact ⟨t, ht, _, ⟨r, h6, rfl⟩, h7⟩
  · intro m
    rw [C03_flags_error_message, h5 ord ho, names_map hn, h4]

/-- C75: `flags_to_string` fails fast iff a bit is set which no record has.  No flags at all are printed with the name of the first
record of the value zero, or as nothing; other values are printed as the names, joined with `'+'`, of records of a single bit, in
declaration order, each bit once, with the name of its first record. -/
theorem C75_flags_to_string (w : Nat) (env : Env) (T : Nat) (hw : WT (env.reflect T)) {rs : List (Int × List Md)}
    (h : ValueTable T (env.reflect T) rs) (hne : rs ≠ []) (f : BitVec w) (hc : flagsToStringOf w env T f ≠ none) :
    (flagsToStringOf w env T f = some .failFast ↔ ∃ i, f.getLsbD i = true ∧ ∀ r ∈ rs, (BitVec.ofInt w r.1).getLsbD i = false) ∧
    (f = 0#w → (∀ r n, FirstRecord rs (fun r => BitVec.ofInt w r.1 = 0#w) r → recordName r = some n →
        flagsToStringOf w env T f = some (.ok n)) ∧
      ((∀ r ∈ rs, BitVec.ofInt w r.1 ≠ 0#w) → flagsToStringOf w env T f = some (.ok []))) ∧
    (f ≠ 0#w → (∀ i, f.getLsbD i = true → ∃ r ∈ rs, (BitVec.ofInt w r.1).getLsbD i = true) →
      ∃ printed names, flagsToStringOf w env T f = some (.ok (join (str "+") names)) ∧ NamedBy printed names ∧ printed.Sublist rs ∧
        (∀ r ∈ printed, SingleBit (BitVec.ofInt w r.1) ∧
          ∃ r0, FirstRecord rs (fun r' => BitVec.ofInt w r'.1 = BitVec.ofInt w r.1) r0 ∧ recordName r0 = recordName r) ∧
        (printed.map fun r => BitVec.ofInt w r.1).Nodup ∧
        ∀ i, f.getLsbD i = true ↔ ∃ r ∈ printed, (BitVec.ofInt w r.1).getLsbD i = true) := by
  obtain ⟨es0, he0⟩ := valueTable_elems h
  have hc' : staticFlagsMetadata w env T ≠ none := by
    intro h0; exact hc (by simp [flagsToStringOf, h0])
  obtain ⟨md, h1, h2, h3, -, -⟩ := flags_table w hw h hne he0 hc'
  have hbits : ∀ i, (union ((rs.map (entryOf w)).map Prod.fst)).getLsbD i = true ↔ ∃ r ∈ rs, (BitVec.ofInt w r.1).getLsbD i = true := by
    intro i
    rw [union_getLsbD]
    simp [entryOf]
  have hname : ∀ v r, nameOf (rs.map (entryOf w)) v = (recordName r) → r ∈ rs →
      ∃ r0, FirstRecord rs (fun r' => BitVec.ofInt w r'.1 = v) r0 ∧ recordName r0 = recordName r := by
    intro v r hv hr
    obtain ⟨n, hn⟩ := h3 r hr
    unfold nameOf at hv
    rw [hn, List.find?_map, Option.map_map, Option.map_eq_some_iff] at hv
    obtain ⟨r0, h4, h5⟩ := hv
    have hf := (firstRecord_find (p := fun r' => BitVec.ofInt w r'.1 = v) (by intro x _; simp [entryOf]) r0).mp h4
    refine ⟨r0, hf, ?_⟩
    obtain ⟨n0, hn0⟩ := h3 r0 (by obtain ⟨pre, post, rfl, _⟩ := hf; simp)
    simp [entryOf, hn0] at h5
    rw [hn0, hn, h5]
  simp only [flagsToStringOf, h1, Option.map_some, Option.some.injEq]
  refine ⟨?_, ?_, ?_⟩
  · rw [(C05_flags_to_string_fails_iff _ _ md h2 f).1]
    unfold SubBits
    push Not
    refine exists_congr fun i => and_congr_right fun _ => ?_
    rw [ne_eq, hbits]
    simp
  · rintro rfl
    rw [C05_flags_to_string_zero _ _ md h2]
    unfold nameOf
    rw [List.find?_map, Option.map_map]
    have hp : ∀ r ∈ rs, ((fun e : BitVec w × Str => e.1 == 0#w) ∘ entryOf w) r = true ↔ BitVec.ofInt w r.1 = 0#w := by
      intro x _; simp [entryOf]
    constructor
    · intro r n hr hn
      rw [(firstRecord_find hp r).mpr hr]
      simp [entryOf, hn]
    · intro hno
      rw [List.find?_eq_none.mpr fun r hr => by rw [hp r hr]; exact hno r hr]
      rfl
  · intro hf0 hall
    obtain ⟨printed, h4, h5, h6, h7, h8⟩ := C05_flags_to_string_shape _ _ md h2 f hf0 fun i hi => (hbits i).mpr (hall i hi)
    obtain ⟨l, hl, rfl⟩ := List.sublist_map_iff.mp h5
    refine ⟨l, _, h4, ?_, hl, ?_, ?_, ?_⟩
    · have : ∀ r ∈ l, ∃ n, recordName r = some n := fun r hr => h3 r (hl.subset hr)
      clear h4 h5 h6 h7 h8 hl
      induction l with
      | nil => exact .nil
      | cons r l ih =>
        obtain ⟨n, hn⟩ := this r (by simp)
        exact .cons (by simp [entryOf, hn]) (ih fun x hx => this x (by simp [hx]))
    · intro r hr
      obtain ⟨h9, -, h10⟩ := h6 (entryOf w r) (List.mem_map_of_mem hr)
      obtain ⟨n, hn⟩ := h3 r (hl.subset hr)
      exact ⟨h9, hname _ r (by rw [hn]; simpa [entryOf, hn] using h10) (hl.subset hr)⟩
    · rw [List.map_map] at h7; exact h7
    · intro i
      rw [← h8, union_getLsbD]
      simp [entryOf]

/-! An enumeration with metadata `tuple{ "Color", "a color", tuple{ tuple{ red, "red" }, tuple{ green, "green", "like grass" },
tuple{ verde, "verde" } } }`, where `verde == green`. -/

/-- The enumeration is type 0; type 1 is `bool`, with its built-in metadata (detail/metadata.hpp:43-47). -/
def paintEnv : Env where
  reflect := fun
    | 0 => .tup [.cstr (str "Color"), .cstr (str "a color"),
        .tup [.tup [.val 0 1, .cstr (str "red")], .tup [.val 0 2, .cstr (str "green"), .sv (str "like grass")],
          .tup [.val 0 2, .cstr (str "verde")]]]
    | 1 => .arr (.ty 1) [.val 1 0, .val 1 1]
    | _ => .nullopt
  isBaseOf := fun _ _ => false
  isClass := fun _ => false
  base_le := by simp

/-- Its records. -/
def paintRecords : List (Int × List Md) :=
  [(1, [.cstr (str "red")]), (2, [.cstr (str "green"), .sv (str "like grass")]), (2, [.cstr (str "verde")])]

private theorem paintTable : ValueTable 0 (paintEnv.reflect 0) paintRecords := by
  right
  refine ⟨?_, [.cstr (str "Color"), .cstr (str "a color")], _, [], rfl, ?_, ?_⟩
  · rintro rs' ⟨⟨es, h, h'⟩, _⟩
    simp only [paintEnv, Md.elems, Option.some.injEq] at h
    subst h
    cases h' with
    | cons h _ => simp [IsValueRecord, Md.elems] at h
  · simp only [List.mem_cons, List.not_mem_nil, or_false]
    rintro x (rfl | rfl) rs' ⟨⟨es, h, h'⟩, _⟩ <;> simp [Md.elems] at h
  · exact ⟨⟨_, rfl, .cons rfl (.cons rfl (.cons rfl .nil))⟩, by simp⟩

private theorem paintWT : WT (paintEnv.reflect 0) := by simp [paintEnv, WT, WTs]

private theorem paintValid : ValidNames enumReserved paintRecords := by
  intro r hr
  simp only [paintRecords, List.mem_cons, List.not_mem_nil, or_false] at hr
  rcases hr with rfl | rfl | rfl
  · exact ⟨str "red", rfl, by decide, by decide⟩
  · exact ⟨str "green", rfl, by decide, by decide⟩
  · exact ⟨str "verde", rfl, by decide, by decide⟩

private theorem paintDistinct : paintRecords.Pairwise fun a b => recordName a ≠ recordName b := by
  simp [paintRecords, recordName, stringsOf, strOf]; decide

example := C75_enum_compiles_iff paintEnv 0 paintWT paintTable (by decide) 1 (str "red")
/-- Both values with two names are printed with the first, and both names are parsed. -/
example : enumToStringOf paintEnv 0 2 = some (.ok (str "green")) :=
  ((C75_enum_to_string paintEnv 0 paintWT paintTable (by decide) paintValid 2).1 (str "green")).mpr
    ⟨(2, [.cstr (str "green"), .sv (str "like grass")]), ⟨[(1, [.cstr (str "red")])], _, rfl, rfl, by simp⟩, rfl⟩
example := C75_parse_enum paintEnv 0 paintWT rfl paintTable (by decide) paintValid (names := [str "red", str "green", str "verde"])
  (.cons rfl (.cons rfl (.cons rfl .nil))) (str " verde")
example := C75_enum_round_trip paintEnv 0 paintWT paintTable (by decide) paintValid paintDistinct
  (r := (2, [.cstr (str "verde")])) (by simp [paintRecords]) (str " ") [] (by unfold AllWs; decide) (by simp [AllWs])
/-- The message for an unknown color. -/
example : parseEnumOf paintEnv 0 (str "blue") =
    some (.throw (str "a color: unknown value 'blue'; supported values: { 'red', 'green', 'verde' }")) := by
  decide
/-- `bool` has values but no table. -/
example : parseEnumOf paintEnv 1 (str "true") = none := rfl

private theorem paintSingle (r : Int × List Md) (hr : r ∈ paintRecords) : SingleBit (BitVec.ofInt 8 r.1) := by
  simp only [paintRecords, List.mem_cons, List.not_mem_nil, or_false] at hr
  rcases hr with rfl | rfl | rfl
  · refine ⟨0, by decide, fun j => ?_⟩
    by_cases hj : j < 8
    · have : ∀ j : Fin 8, (BitVec.ofInt 8 1).getLsbD j = decide (j.1 = 0) := by decide
      exact this ⟨j, hj⟩
    · rw [BitVec.getLsbD_of_ge _ _ (by omega)]; simp; omega
  all_goals
    refine ⟨1, by decide, fun j => ?_⟩
    by_cases hj : j < 8
    · have : ∀ j : Fin 8, (BitVec.ofInt 8 2).getLsbD j = decide (j.1 = 1) := by decide
      exact this ⟨j, hj⟩
    · rw [BitVec.getLsbD_of_ge _ _ (by omega)]; simp; omega

private theorem paintFlags : flagsToStringOf 8 paintEnv 0 3#8 ≠ none := by
  refine (C75_flags_compiles_iff 8 paintEnv 0 paintWT paintTable (by decide) 3#8 []).1.mpr ⟨?_, ?_⟩
  · intro r hr
    obtain ⟨n, h1, h2, h3⟩ := paintValid r hr
    refine ⟨n, h1, h2, fun c hc hc' => h3 c hc ?_⟩
    simp only [enumReserved, flagsReserved, List.mem_append] at hc' ⊢
    exact Or.inr hc'
  · intro r hr i hi
    exact ⟨r, hr, paintSingle r hr, hi⟩

/-- The same enumeration used as flags. -/
example : ∃ s, flagsToStringOf 8 paintEnv 0 3#8 = some (.ok s) ∧ parseFlagsOf 8 paintEnv 0 s = some (.ok 3#8) := by
  refine C75_flags_round_trip 8 paintEnv 0 paintWT paintTable (by decide) 3#8 paintFlags paintDistinct ?_ ?_
  · intro r hr n hn
    simp only [paintRecords, List.mem_cons, List.not_mem_nil, or_false] at hr
    rcases hr with rfl | rfl | rfl <;> cases hn <;> exact ⟨by decide, by decide, by unfold Stripped; decide⟩
  · intro i hi
    have hlt : i < 8 := by
      by_contra hge
      rw [BitVec.getLsbD_of_ge _ _ (by omega)] at hi; cases hi
    have : ∀ i : Fin 8, (3#8).getLsbD i = true → (BitVec.ofInt 8 1).getLsbD i = true ∨ (BitVec.ofInt 8 2).getLsbD i = true := by decide
    rcases this ⟨i, hlt⟩ hi with h | h
    · exact ⟨(1, [.cstr (str "red")]), by simp [paintRecords], h⟩
    · exact ⟨(2, [.cstr (str "verde")]), by simp [paintRecords], h⟩

/-- An enumeration in which a combination, `rw`, is declared before the single flags it consists of. -/
def modeEnv : Env where
  reflect := fun
    | 0 => .tup [.cstr (str "Access"),
        .tup [.tup [.val 0 3, .cstr (str "rw")], .tup [.val 0 1, .cstr (str "r")], .tup [.val 0 2, .cstr (str "w")]]]
    | _ => .nullopt
  isBaseOf := fun _ _ => false
  isClass := fun _ => false
  base_le := by simp

/-- Its records. -/
def modeRecords : List (Int × List Md) := [(3, [.cstr (str "rw")]), (1, [.cstr (str "r")]), (2, [.cstr (str "w")])]

private theorem modeTable : ValueTable 0 (modeEnv.reflect 0) modeRecords := by
  right
  refine ⟨?_, [.cstr (str "Access")], _, [], rfl, ?_, ?_⟩
  · rintro rs' ⟨⟨es, h, h'⟩, _⟩
    simp only [modeEnv, Md.elems, Option.some.injEq] at h
    subst h
    cases h' with
    | cons h _ => simp [IsValueRecord, Md.elems] at h
  · simp only [List.mem_cons, List.not_mem_nil, or_false]
    rintro x rfl rs' ⟨⟨es, h, h'⟩, _⟩; simp [Md.elems] at h
  · exact ⟨⟨_, rfl, .cons rfl (.cons rfl (.cons rfl .nil))⟩, by simp⟩

private theorem modeWT : WT (modeEnv.reflect 0) := by simp [modeEnv, WT, WTs]

private theorem modeOrder : FlagOrder 8 modeRecords [(1, [.cstr (str "r")]), (2, [.cstr (str "w")]), (3, [.cstr (str "rw")])] := by
  refine ⟨[(1, [.cstr (str "r")]), (2, [.cstr (str "w")])], [(3, [.cstr (str "rw")])], rfl, ?_, ?_, rfl, ?_, ?_⟩
  · exact .cons _ (List.Sublist.refl _)
  · exact .cons_cons _ (List.nil_sublist _)
  · intro r hr
    rw [← isPowerOf2_iff]
    simp only [List.mem_cons, List.not_mem_nil, or_false] at hr
    rcases hr with rfl | rfl <;> decide
  · intro r hr
    rw [← isPowerOf2_iff]
    simp only [List.mem_cons, List.not_mem_nil, or_false] at hr
    subst hr; decide

/-- The names are listed in the order of the table, not in the order of declaration. -/
example : parseFlagsOf 8 modeEnv 0 (str "w+x+y") =
    some (.throw (str "Access: unknown value 'x'; supported values: a '+'-delimited subset of { 'r', 'w', 'rw' }")) := by
  decide +kernel
example := C75_parse_flags 8 modeEnv 0 modeWT rfl modeTable (by decide) modeOrder (names := [str "r", str "w", str "rw"])
  (.cons rfl (.cons rfl (.cons rfl .nil))) (str "w|rw") (by decide +kernel)
example := C75_flags_to_string 8 modeEnv 0 modeWT modeTable (by decide) 3#8 (by decide +kernel)
example : flagsToStringOf 8 modeEnv 0 3#8 = some (.ok (str "r+w")) ∧ flagsToStringOf 8 modeEnv 0 4#8 = some .failFast := by
  decide +kernel

end Makeshift.Props
