import Mathlib.Data.List.Basic
import Verif.Spec.Metadata

/-! # Lemmas about metadata extraction -/

namespace Makeshift.Metadata

open Spec

theorem typesOf_eq_map : ∀ es : List Md, Md.typesOf es = es.map Md.typeOf
  | [] => rfl
  | e :: es => by simp [Md.typesOf, typesOf_eq_map es]

theorem WTs_iff : ∀ {es : List Md}, WTs es ↔ ∀ e ∈ es, WT e
  | [] => by simp [WTs]
  | e :: es => by simp [WTs, WTs_iff]

theorem elems_WT {md : Md} {es : List Md} (h : WT md) (he : md.elems = some es) : ∀ e ∈ es, WT e := by
  cases md <;> simp [Md.elems] at he
  · subst he; exact WTs_iff.mp h.2
  · subst he; exact WTs_iff.mp h

theorem typeOf_elems {md : Md} (h : WT md) : md.typeOf.elems = md.elems.map (fun es => es.map Md.typeOf) := by
  cases md <;> simp [Md.typeOf, MTy.elems, Md.elems]
  case arr t es => exact (List.eq_replicate_iff.mpr ⟨by simp, by
    intro b hb; simp only [List.mem_map] at hb; obtain ⟨e, he, rfl⟩ := hb; exact h.1 e he⟩).symm
  case tup es => exact typesOf_eq_map es

mutual
theorem same_iff : ∀ {a b : MTy}, a.same b = true ↔ a = b
  | .nullopt, b => by cases b <;> simp [MTy.same]
  | .cstr, b => by cases b <;> simp [MTy.same]
  | .sv, b => by cases b <;> simp [MTy.same]
  | .ty _, b => by cases b <;> simp [MTy.same]
  | .typeId _, b => by cases b <;> simp [MTy.same]
  | .memPtr _ _, b => by cases b <;> simp [MTy.same]
  | .arr a n, .arr b m => by simp [MTy.same, same_iff (a := a) (b := b)]
  | .arr _ _, .nullopt => by simp [MTy.same]
  | .arr _ _, .cstr => by simp [MTy.same]
  | .arr _ _, .sv => by simp [MTy.same]
  | .arr _ _, .ty _ => by simp [MTy.same]
  | .arr _ _, .typeId _ => by simp [MTy.same]
  | .arr _ _, .memPtr _ _ => by simp [MTy.same]
  | .arr _ _, .tup _ => by simp [MTy.same]
  | .tup as, .tup bs => by simp [MTy.same, sameList_iff (as := as) (bs := bs)]
  | .tup _, .nullopt => by simp [MTy.same]
  | .tup _, .cstr => by simp [MTy.same]
  | .tup _, .sv => by simp [MTy.same]
  | .tup _, .ty _ => by simp [MTy.same]
  | .tup _, .typeId _ => by simp [MTy.same]
  | .tup _, .memPtr _ _ => by simp [MTy.same]
  | .tup _, .arr _ _ => by simp [MTy.same]
theorem sameList_iff : ∀ {as bs : List MTy}, MTy.sameList as bs = true ↔ as = bs
  | [], [] => by simp [MTy.sameList]
  | [], _ :: _ => by simp [MTy.sameList]
  | _ :: _, [] => by simp [MTy.sameList]
  | a :: as, b :: bs => by simp [MTy.sameList, same_iff (a := a) (b := b), sameList_iff (as := as) (bs := bs)]
end

/-- `record_index` finds the position of the occurrence. -/
theorem recordIndexFrom_spec (p : MTy → Bool) :
    ∀ (es : List Md) (i occ : Nat),
      (recordIndexFrom p (es.map Md.typeOf) i occ = none ∧ (es.filter fun e => p e.typeOf)[occ]? = none) ∨
      ∃ k, recordIndexFrom p (es.map Md.typeOf) i occ = some (i + k) ∧ ∃ e, es[k]? = some e
        ∧ (es.filter fun e => p e.typeOf)[occ]? = some e
  | [], i, occ => by simp [recordIndexFrom]
  | e :: es, i, occ => by
    by_cases hp : p e.typeOf = true
    · cases occ with
      | zero => right; exact ⟨0, by simp [recordIndexFrom, hp], e, by simp, by simp [hp]⟩
      | succ o =>
        rcases recordIndexFrom_spec p es (i + 1) o with ⟨h1, h2⟩ | ⟨k, h1, x, h2, h3⟩
        · left; exact ⟨by simp [recordIndexFrom, hp, h1], by simp [hp, h2]⟩
        · right; refine ⟨k + 1, ?_, x, by simpa using h2, by simp [hp, h3]⟩
          simp [recordIndexFrom, hp, h1]; omega
    · rcases recordIndexFrom_spec p es (i + 1) occ with ⟨h1, h2⟩ | ⟨k, h1, x, h2, h3⟩
      · left; exact ⟨by simp [recordIndexFrom, hp, h1], by simp [hp, h2]⟩
      · right; refine ⟨k + 1, ?_, x, by simpa using h2, by simp [hp, h3]⟩
        simp [recordIndexFrom, hp, h1]; omega

/-- The cell of a record selected by `record_index`. -/
theorem recordIndex_spec (p : MTy → Bool) (occ : Nat) {r : Md} {es : List Md} (hw : WT r) (he : r.elems = some es) :
    (recordIndex p r.typeOf occ = none ∧ (es.filter fun e => p e.typeOf)[occ]? = none) ∨
      ∃ k e, recordIndex p r.typeOf occ = some k ∧ getElem k r = some e ∧ (es.filter fun e => p e.typeOf)[occ]? = some e := by
  have ht : r.typeOf.elems = some (es.map Md.typeOf) := by rw [typeOf_elems hw, he]; rfl
  rcases recordIndexFrom_spec p es 0 occ with ⟨h1, h2⟩ | ⟨k, h1, e, h2, h3⟩
  · left; exact ⟨by simp [recordIndex, ht, h1], h2⟩
  · right; refine ⟨k, e, by simp [recordIndex, ht, h1], by simp [getElem, he, h2], h3⟩

theorem isAvailable_nullopt : Md.nullopt.isAvailable = false := rfl

theorem promote_isAvailable (m : Md) : (promote m).isAvailable = m.isAvailable := by cases m <;> rfl

theorem extractMetadata_nullopt (p : MTy → Bool) (occ : Nat) : extractMetadata p occ .nullopt = some .nullopt := rfl

theorem extractMetadata_self {p : MTy → Bool} {md : Md} (ha : md.isAvailable = true) (h : p md.typeOf = true) :
    extractMetadata p 0 md = some (promote md) := by
  cases md <;> simp_all [extractMetadata, Md.isAvailable]

theorem extractMetadata_elems {p : MTy → Bool} {occ : Nat} {md : Md} {es : List Md} (hw : WT md) (he : md.elems = some es)
    (h : ¬(occ = 0 ∧ p md.typeOf = true)) :
    extractMetadata p occ md = some (match (es.filter fun e => p e.typeOf)[occ]? with
      | some e => promote e
      | none => .nullopt) := by
  have hun : extractMetadata p occ md = if occ = 0 ∧ p md.typeOf = true then some (promote md)
      else match recordIndex p md.typeOf occ with
        | some i => (getElem i md).map promote
        | none => some .nullopt := by
    cases md <;> simp [Md.elems] at he <;> rfl
  rw [hun, if_neg h]
  rcases recordIndex_spec p occ hw he with ⟨h1, h2⟩ | ⟨k, e, h1, h2, h3⟩
  · simp [h1, h2]
  · simp [h1, h2, h3]

theorem extractMetadata_leaf {p : MTy → Bool} {occ : Nat} {md : Md} (he : md.elems = none) (h : ¬(occ = 0 ∧ p md.typeOf = true)) :
    extractMetadata p occ md = some .nullopt := by
  cases md <;> simp [Md.elems] at he
  case nullopt => rfl
  all_goals
    simp only [extractMetadata]
    rw [if_neg h]
    simp [recordIndex, Md.typeOf, MTy.elems]

/-- Everything `extract_metadata` with occurrence 0 can yield: the first match, searched in the order object, components. -/
theorem extractMetadata_zero {p : MTy → Bool} {md : Md} (hw : WT md) (hn : p .nullopt = false) :
    (p md.typeOf = true ∧ md.isAvailable = true ∧ extractMetadata p 0 md = some (promote md)) ∨
    (p md.typeOf = false ∧ ∃ pre R post, md.elems = some (pre ++ R :: post) ∧ (∀ x ∈ pre, p x.typeOf = false) ∧ p R.typeOf = true
      ∧ R.isAvailable = true ∧ WT R ∧ extractMetadata p 0 md = some (promote R)) ∨
    (p md.typeOf = false ∧ (∀ es, md.elems = some es → ∀ x ∈ es, p x.typeOf = false)
      ∧ extractMetadata p 0 md = some .nullopt) := by
  have hav : ∀ m : Md, p m.typeOf = true → m.isAvailable = true := by
    intro m hm; cases m <;> simp_all [Md.isAvailable, Md.typeOf]
  by_cases hp : p md.typeOf = true
  · left; exact ⟨hp, hav _ hp, extractMetadata_self (hav _ hp) hp⟩
  · right
    have hp' : p md.typeOf = false := by simpa using hp
    cases he : md.elems with
    | none => right; exact ⟨hp', by simp, extractMetadata_leaf he (by simp [hp'])⟩
    | some es =>
      have hx := extractMetadata_elems (p := p) (occ := 0) hw he (by simp [hp'])
      have hh : (es.filter fun e => p e.typeOf)[0]? = es.find? fun e => p e.typeOf := by
        rw [← List.head?_eq_getElem?, List.head?_filter]
      rw [hh] at hx
      cases hf : es.find? fun e => p e.typeOf with
      | none =>
        right; rw [hf] at hx
        refine ⟨hp', ?_, hx⟩
        intro es' h'; cases h'
        simpa using hf
      | some R =>
        left; rw [hf] at hx
        obtain ⟨hR, pre, post, rfl, hpre⟩ := List.find?_eq_some_iff_append.mp hf
        exact ⟨hp', pre, R, post, rfl, by simpa using hpre, hR, hav _ hR, elems_WT hw he R (by simp), hx⟩

theorem isRecord_iff {p : MTy → Bool} {r : Md} (hw : WT r) :
    isRecord p r.typeOf = true ↔ ∃ v rest, r.elems = some (v :: rest) ∧ p v.typeOf = true := by
  unfold isRecord
  rw [typeOf_elems hw]
  cases r.elems with
  | none => simp
  | some es => cases es with
    | nil => simp
    | cons v rest => simp

theorem isValue_iff {T : Nat} {m : Md} : isValue T m.typeOf = true ↔ ∃ v, m = .val T v := by
  cases m <;> simp [isValue, Md.typeOf]

theorem isMember_iff {T : Nat} {m : Md} : isMember T m.typeOf = true ↔ IsMemberPtr T m := by
  cases m <;> simp [isMember, Md.typeOf, IsMemberPtr]

theorem isTupleOf_iff {p : MTy → Bool} {R : Md} (hw : WT R) :
    isTupleOf p R.typeOf = true ↔ ∃ es, R.elems = some es ∧ ∀ e ∈ es, p e.typeOf = true := by
  unfold isTupleOf
  rw [typeOf_elems hw]
  cases R.elems <;> simp

theorem isValueRecord_iff {T : Nat} {r : Md} (hw : WT r) :
    isRecord (isValue T) r.typeOf = true ↔ ∃ x, IsValueRecord T r x := by
  rw [isRecord_iff hw]
  constructor
  · rintro ⟨v, rest, h, hv⟩; obtain ⟨n, rfl⟩ := isValue_iff.mp hv; exact ⟨(n, rest), h⟩
  · rintro ⟨⟨n, rest⟩, h⟩; exact ⟨_, _, h, isValue_iff.mpr ⟨n, rfl⟩⟩

theorem forall₂_of_forall_exists {α β : Type} {P : α → β → Prop} :
    ∀ {l : List α}, (∀ a ∈ l, ∃ b, P a b) → ∃ l', List.Forall₂ P l l'
  | [], _ => ⟨[], .nil⟩
  | a :: l, h => by
    obtain ⟨b, hb⟩ := h a (by simp)
    obtain ⟨l', hl⟩ := forall₂_of_forall_exists (l := l) fun x hx => h x (by simp [hx])
    exact ⟨b :: l', .cons hb hl⟩

theorem exists_of_forall₂ {α β : Type} {P : α → β → Prop} {l : List α} {l' : List β} (h : List.Forall₂ P l l') :
    ∀ a ∈ l, ∃ b ∈ l', P a b := by
  induction h with
  | nil => simp
  | cons h _ ih =>
    intro a ha
    rcases List.mem_cons.mp ha with rfl | ha
    · exact ⟨_, by simp, h⟩
    · obtain ⟨b, hb, hp⟩ := ih a ha; exact ⟨b, by simp [hb], hp⟩

theorem isValueRecordTuple_iff {T : Nat} {R : Md} (hw : WT R) :
    isValueRecordTuple T R.typeOf = true ↔ ∃ rs, IsValueTable T R rs := by
  have htup : ∀ es, R.elems = some es → (∀ t, R ≠ .arr t []) →
      ((∀ e ∈ es, isRecord (isValue T) e.typeOf = true) ↔ ∃ rs, IsValueTable T R rs) := by
    intro es he hne
    have hwe := elems_WT hw he
    constructor
    · intro h
      obtain ⟨rs, hrs⟩ := forall₂_of_forall_exists fun e he' => (isValueRecord_iff (hwe e he')).mp (h e he')
      exact ⟨rs, ⟨es, he, hrs⟩, fun t ht => absurd ht (hne t)⟩
    · rintro ⟨rs, ⟨es', he', hrs⟩, _⟩ e hm
      rw [he] at he'; cases he'
      obtain ⟨x, _, hx⟩ := exists_of_forall₂ hrs e hm
      exact (isValueRecord_iff (hwe e hm)).mpr ⟨x, hx⟩
  have hleaf : R.elems = none → ¬∃ rs, IsValueTable T R rs := by
    rintro he ⟨rs, ⟨es, he', _⟩, _⟩; rw [he] at he'; cases he'
  cases R
  case arr t es =>
    cases es with
    | nil =>
      simp only [isValueRecordTuple, Md.typeOf]
      have : isRecord (isValue T) t = true ↔ ∃ ts, t.elems = some (.ty T :: ts) := by
        unfold isRecord
        split
        · rename_i t' ts heq
          rw [heq]
          cases t' <;> simp [isValue]
        · rename_i hx
          simp only [Bool.false_eq_true, false_iff]
          rintro ⟨ts, h⟩; exact hx _ _ h
      rw [this]
      constructor
      · rintro ⟨ts, h⟩; exact ⟨[], ⟨[], rfl, .nil⟩, fun t' ht' => by cases ht'; exact ⟨ts, h⟩⟩
      · rintro ⟨rs, _, h⟩; exact h t rfl
    | cons e es =>
      rw [← htup (e :: es) rfl (by simp)]
      simp only [isValueRecordTuple, Md.typeOf]
      have := hw.1
      constructor
      · intro h e' he'; rw [this e' he']; exact h
      · intro h; rw [← this e (by simp)]; exact h e (by simp)
  case tup es =>
    rw [← htup es rfl (by simp)]
    rw [show isValueRecordTuple T (Md.tup es).typeOf = isTupleOf (isRecord (isValue T)) (Md.tup es).typeOf from rfl,
      isTupleOf_iff hw]
    simp [Md.elems]
  all_goals
    refine iff_of_false ?_ (hleaf rfl)
    simp [isValueRecordTuple, Md.typeOf, isTupleOf, MTy.elems]

theorem isMemberTable_iff {T : Nat} {R : Md} (hw : WT R) :
    isTupleOf (isRecord (isMember T)) R.typeOf = true ↔ ∃ rs, IsMemberTable T R rs := by
  rw [isTupleOf_iff hw]
  constructor
  · rintro ⟨es, he, h⟩
    have hwe := elems_WT hw he
    obtain ⟨rs, hrs⟩ := forall₂_of_forall_exists
      (P := fun e (x : Md × List Md) => e.elems = some (x.1 :: x.2) ∧ IsMemberPtr T x.1) (l := es) fun e he' => by
        obtain ⟨v, rest, h1, h2⟩ := (isRecord_iff (hwe e he')).mp (h e he')
        exact ⟨(v, rest), h1, isMember_iff.mp h2⟩
    exact ⟨rs, es, he, hrs⟩
  · rintro ⟨rs, es, he, hrs⟩
    refine ⟨es, he, fun e hm => ?_⟩
    obtain ⟨x, _, h1, h2⟩ := exists_of_forall₂ hrs e hm
    exact (isRecord_iff (elems_WT hw he e hm)).mpr ⟨x.1, x.2, h1, isMember_iff.mpr h2⟩

theorem promote_of_elems {m : Md} {es : List Md} (h : m.elems = some es) : promote m = m := by
  cases m <;> simp_all [Md.elems, promote]

/-- `extract_metadata` with a predicate for tables yields the table, and nothing iff there is none. -/
theorem extract_valueTable {T : Nat} {md : Md} (hw : WT md) :
    (∃ R rs, extractMetadata (isValueRecordTuple T) 0 md = some R ∧ R.isAvailable = true ∧ WT R ∧ IsValueTable T R rs
      ∧ (∀ rs', ValueTable T md rs' ↔ IsValueTable T R rs')) ∨
    (extractMetadata (isValueRecordTuple T) 0 md = some .nullopt ∧ ∀ rs, ¬ValueTable T md rs) := by
  have hfalse : ∀ {m : Md}, WT m → isValueRecordTuple T m.typeOf = false → ∀ rs', ¬IsValueTable T m rs' := by
    intro m hm hf rs' ht
    rw [(isValueRecordTuple_iff hm).mpr ⟨rs', ht⟩] at hf; cases hf
  rcases extractMetadata_zero (p := isValueRecordTuple T) hw rfl with ⟨hp, ha, hx⟩ | ⟨hp, pre, R, post, he, hpre, hR, ha, hwR, hx⟩ | ⟨hp, hall, hx⟩
  · obtain ⟨rs, hrs⟩ := (isValueRecordTuple_iff hw).mp hp
    have hrs' := hrs
    obtain ⟨⟨es, he, _⟩, _⟩ := hrs'
    left; refine ⟨md, rs, by rw [hx, promote_of_elems he], ha, hw, hrs, fun rs' => ⟨?_, .inl⟩⟩
    rintro (h | ⟨h, _⟩)
    · exact h
    · exact absurd hrs (h rs)
  · obtain ⟨rs, hrs⟩ := (isValueRecordTuple_iff hwR).mp hR
    have hrs' := hrs
    obtain ⟨⟨es, hes, _⟩, _⟩ := hrs'
    left; refine ⟨R, rs, by rw [hx, promote_of_elems hes], ha, hwR, hrs, fun rs' => ⟨?_, fun h => .inr ⟨hfalse hw hp, pre, R, post, he,
      fun x hx' => hfalse (elems_WT hw he x (by simp [hx'])) (hpre x hx'), h⟩⟩⟩
    rintro (h | ⟨_, pre', R', post', he', hpre', h'⟩)
    · exact absurd h (hfalse hw hp rs')
    · rw [he] at he'
      simp only [Option.some.injEq] at he'
      have hR' : R' = R := by
        have hwR' : WT R' := elems_WT hw (by rw [he, he']) R' (by simp)
        rcases List.append_eq_append_iff.mp he' with ⟨a, h1, h2⟩ | ⟨a, h1, h2⟩
        · cases a with
          | nil => simp at h2; exact h2.1.symm
          | cons b a =>
            simp at h2; obtain ⟨rfl, _⟩ := h2
            exact absurd hrs (hpre' _ (by simp [h1]) rs)
        · cases a with
          | nil => simp at h2; exact h2.1
          | cons b a =>
            simp at h2; obtain ⟨rfl, _⟩ := h2
            exact absurd h' (hfalse hwR' (hpre _ (by simp [h1])) rs')
      subst hR'; exact h'
  · right; refine ⟨hx, ?_⟩
    rintro rs (h | ⟨_, pre, R, post, he, _, h⟩)
    · exact hfalse hw hp rs h
    · exact hfalse (elems_WT hw he R (by simp)) (hall _ he R (by simp)) rs h

theorem extract_memberTable {T : Nat} {md : Md} (hw : WT md) :
    (∃ R rs, extractMetadata (isTupleOf (isRecord (isMember T))) 0 md = some R ∧ R.isAvailable = true ∧ WT R ∧ IsMemberTable T R rs
      ∧ (∀ rs', MemberTable T md rs' ↔ IsMemberTable T R rs')) ∨
    (extractMetadata (isTupleOf (isRecord (isMember T))) 0 md = some .nullopt ∧ ∀ rs, ¬MemberTable T md rs) := by
  have hfalse : ∀ {m : Md}, WT m → isTupleOf (isRecord (isMember T)) m.typeOf = false → ∀ rs', ¬IsMemberTable T m rs' := by
    intro m hm hf rs' ht
    rw [(isMemberTable_iff hm).mpr ⟨rs', ht⟩] at hf; cases hf
  rcases extractMetadata_zero (p := isTupleOf (isRecord (isMember T))) hw rfl with ⟨hp, ha, hx⟩ | ⟨hp, pre, R, post, he, hpre, hR, ha, hwR, hx⟩ | ⟨hp, hall, hx⟩
  · obtain ⟨rs, hrs⟩ := (isMemberTable_iff hw).mp hp
    have hrs' := hrs
    obtain ⟨es, he, _⟩ := hrs'
    left; refine ⟨md, rs, by rw [hx, promote_of_elems he], ha, hw, hrs, fun rs' => ⟨?_, .inl⟩⟩
    rintro (h | ⟨h, _⟩)
    · exact h
    · exact absurd hrs (h rs)
  · obtain ⟨rs, hrs⟩ := (isMemberTable_iff hwR).mp hR
    have hrs' := hrs
    obtain ⟨es, hes, _⟩ := hrs'
    left; refine ⟨R, rs, by rw [hx, promote_of_elems hes], ha, hwR, hrs, fun rs' => ⟨?_, fun h => .inr ⟨hfalse hw hp, pre, R, post, he,
      fun x hx' => hfalse (elems_WT hw he x (by simp [hx'])) (hpre x hx'), h⟩⟩⟩
    rintro (h | ⟨_, pre', R', post', he', hpre', h'⟩)
    · exact absurd h (hfalse hw hp rs')
    · rw [he] at he'
      simp only [Option.some.injEq] at he'
      have hR' : R' = R := by
        have hwR' : WT R' := elems_WT hw (by rw [he, he']) R' (by simp)
        rcases List.append_eq_append_iff.mp he' with ⟨a, h1, h2⟩ | ⟨a, h1, h2⟩
        · cases a with
          | nil => simp at h2; exact h2.1.symm
          | cons b a =>
            simp at h2; obtain ⟨rfl, _⟩ := h2
            exact absurd hrs (hpre' _ (by simp [h1]) rs)
        · cases a with
          | nil => simp at h2; exact h2.1
          | cons b a =>
            simp at h2; obtain ⟨rfl, _⟩ := h2
            exact absurd h' (hfalse hwR' (hpre _ (by simp [h1])) rs')
      subst hR'; exact h'
  · right; refine ⟨hx, ?_⟩
    rintro rs (h | ⟨_, pre, R, post, he, _, h⟩)
    · exact hfalse hw hp rs h
    · exact hfalse (elems_WT hw he R (by simp)) (hall _ he R (by simp)) rs h

/-! ## Columns -/

theorem convertTo_iff {V : MTy} {m m' : Md} : convertTo V m = some m' ↔ m.typeOf = V ∧ m' = m := by
  unfold convertTo
  by_cases h : m.typeOf.same V = true
  · rw [if_pos h]; have h0 := same_iff.mp h
    exact ⟨fun h1 => ⟨h0, by cases h1; rfl⟩, fun h1 => by rw [h1.2]⟩
  · simp only [h]
    constructor
    · intro h'; simp at h'
    · rintro ⟨h1, _⟩; exact absurd (same_iff.mpr h1) h

theorem mapM_convert_iff {V : MTy} : ∀ {cells l : List Md},
    (cells.mapM fun c => convertTo V (promote c)) = some l ↔ (∀ c ∈ cells, (promote c).typeOf = V) ∧ l = cells.map promote
  | [], l => by simp [eq_comm]
  | c :: cells, l => by
    have ih : ∀ l', (cells.mapM fun c => convertTo V (promote c)) = some l' ↔
      (∀ c ∈ cells, (promote c).typeOf = V) ∧ l' = cells.map promote := fun l' => mapM_convert_iff
    have hun : ((c :: cells).mapM fun c => convertTo V (promote c)) =
        (convertTo V (promote c)).bind fun a => (cells.mapM fun c => convertTo V (promote c)).bind fun l' => some (a :: l') := by
      simp
    rw [hun]
    constructor
    · intro h
      obtain ⟨a, h1, h2⟩ := Option.bind_eq_some_iff.mp h
      obtain ⟨l', h3, h4⟩ := Option.bind_eq_some_iff.mp h2
      obtain ⟨h5, rfl⟩ := convertTo_iff.mp h1
      obtain ⟨h6, rfl⟩ := (ih _).mp h3
      refine ⟨?_, by simpa using h4.symm⟩
      intro x hx
      rcases List.mem_cons.mp hx with rfl | hx
      · exact h5
      · exact h6 x hx
    · rintro ⟨h1, rfl⟩
      rw [convertTo_iff.mpr ⟨h1 c (by simp), rfl⟩, (ih _).mpr ⟨fun x hx => h1 x (by simp [hx]), rfl⟩]
      rfl

/-- Cell `occ` of a record: the `occ`-th of its elements whose type satisfies the predicate. -/
abbrev cellOf (p : MTy → Bool) (occ : Nat) (full : List Md) : Option Md := (full.filter fun e => p e.typeOf)[occ]?

theorem recordIndices_spec {p : MTy → Bool} {occ : Nat} : ∀ {es : List Md} {fulls : List (List Md)},
    List.Forall₂ (fun e full => Md.elems e = some full) es fulls → (∀ e ∈ es, WT e) →
    (recordIndices p occ (es.map Md.typeOf) = none ∧ ∃ full ∈ fulls, cellOf p occ full = none) ∨
    ∃ js cells, recordIndices p occ (es.map Md.typeOf) = some js ∧ List.Forall₂ (fun full c => cellOf p occ full = some c) fulls cells
      ∧ ∀ V, ((es.zip js).mapM fun rj => (getElem rj.2 rj.1).bind fun m => convertTo V (promote m))
          = cells.mapM fun c => convertTo V (promote c)
  | _, _, .nil, _ => by
    right; exact ⟨[], [], rfl, .nil, fun V => by simp⟩
  | e :: es, full :: fulls, .cons he hes, hw => by
    rcases recordIndex_spec p occ (hw e (by simp)) he with ⟨h1, h2⟩ | ⟨k, c, h1, h2, h3⟩
    · left; exact ⟨by simp [recordIndices, h1], full, by simp, h2⟩
    · rcases recordIndices_spec (p := p) (occ := occ) hes (fun x hx => hw x (by simp [hx])) with ⟨h4, f, hf, h5⟩ | ⟨js, cells, h4, h5, h6⟩
      · left; exact ⟨by simp [recordIndices, h1, h4], f, by simp [hf], h5⟩
      · right
        refine ⟨k :: js, c :: cells, by simp [recordIndices, h1, h4], .cons h3 h5, fun V => ?_⟩
        simp only [List.zip_cons_cons, List.mapM_cons, h2, Option.bind_some, h6 V]

theorem arrayColumn_spec {p : MTy → Bool} {occ : Nat} {t : MTy} : ∀ {es : List Md} {fulls : List (List Md)},
    List.Forall₂ (fun e full => Md.elems e = some full) es fulls → (∀ e ∈ es, WT e) → (∀ e ∈ es, e.typeOf = t) →
    (recordIndex p t occ = none ∧ ∀ full ∈ fulls, cellOf p occ full = none) ∨
    ∃ j cells, recordIndex p t occ = some j ∧ List.Forall₂ (fun full c => cellOf p occ full = some c) fulls cells
      ∧ ∀ V, (es.mapM fun r => (getElem j r).bind fun m => convertTo V (promote m)) = cells.mapM fun c => convertTo V (promote c)
  | _, _, .nil, _, _ => by
    cases h : recordIndex p t occ with
    | none => left; simp
    | some j => right; exact ⟨j, [], rfl, .nil, fun V => by simp⟩
  | e :: es, full :: fulls, .cons he hes, hw, ht => by
    have hte := ht e (by simp)
    rcases recordIndex_spec p occ (hw e (by simp)) he with ⟨h1, h2⟩ | ⟨k, c, h1, h2, h3⟩
    · rw [hte] at h1
      rcases arrayColumn_spec (p := p) (occ := occ) hes (fun x hx => hw x (by simp [hx])) (fun x hx => ht x (by simp [hx])) with ⟨h4, h5⟩ | ⟨j, cells, h4, _⟩
      · left; refine ⟨h1, ?_⟩
        intro f hf; rcases List.mem_cons.mp hf with rfl | hf
        · exact h2
        · exact h5 f hf
      · rw [h1] at h4; cases h4
    · rw [hte] at h1
      rcases arrayColumn_spec (p := p) (occ := occ) hes (fun x hx => hw x (by simp [hx])) (fun x hx => ht x (by simp [hx])) with ⟨h4, _⟩ | ⟨j, cells, h4, h5, h6⟩
      · rw [h1] at h4; cases h4
      · rw [h1] at h4; cases h4
        right
        refine ⟨k, c :: cells, h1, .cons h3 h5, fun V => ?_⟩
        simp only [List.mapM_cons, h2, Option.bind_some, h6 V]

/-- `try_extract_column` on a table: either some record lacks the cell and nothing is extracted, or the cells are converted one by
one. -/
theorem tryExtractColumn_spec {V : MTy} {p : MTy → Bool} {occ : Nat} {R : Md} {es : List Md} {fulls : List (List Md)}
    (hw : WT R) (he : R.elems = some es) (hf : List.Forall₂ (fun e full => Md.elems e = some full) es fulls) :
    (tryExtractColumn V p occ R = some .nullopt ∧ ((∃ full ∈ fulls, cellOf p occ full = none) ∨ ∃ t, R = .arr t [])) ∨
    ∃ cells, List.Forall₂ (fun full c => cellOf p occ full = some c) fulls cells
      ∧ tryExtractColumn V p occ R = (cells.mapM fun c => convertTo V (promote c)).map (.arr V) := by
  have hwe := elems_WT hw he
  cases R <;> simp [Md.elems] at he
  case arr t es' =>
    subst he
    rcases arrayColumn_spec (p := p) (occ := occ) hf hwe hw.1 with ⟨h1, h2⟩ | ⟨j, cells, h1, h2, h3⟩
    · left; refine ⟨by simp [tryExtractColumn, h1], ?_⟩
      cases hf with
      | nil => right; exact ⟨t, rfl⟩
      | @cons _ b _ _ _ _ => left; exact ⟨b, by simp, h2 b (by simp)⟩
    · right; refine ⟨cells, h2, ?_⟩
      simp only [tryExtractColumn, h1, extractColumn, Md.elems, Option.bind_some, h3 V]
  case tup es' =>
    subst he
    have ht : (Md.tup es').typeOf.elems = some (es'.map Md.typeOf) := by rw [typeOf_elems hw]; rfl
    rcases recordIndices_spec (p := p) (occ := occ) hf hwe with ⟨h1, h2⟩ | ⟨js, cells, h1, h2, h3⟩
    · left; exact ⟨by simp [tryExtractColumn, ht, h1], .inl h2⟩
    · right; refine ⟨cells, h2, ?_⟩
      simp only [tryExtractColumn, ht, h1, extractColumnAt, Md.elems, Option.bind_some, h3 V]

theorem valueTable_fulls {T : Nat} {es : List Md} {rs : List (Int × List Md)} (h : List.Forall₂ (IsValueRecord T) es rs) :
    List.Forall₂ (fun e full => Md.elems e = some full) es (rs.map fun x => .val T x.1 :: x.2) := by
  induction h with
  | nil => exact .nil
  | cons h _ ih => exact .cons h ih

theorem extractColumn_values {T : Nat} {R : Md} {rs : List (Int × List Md)} (h : IsValueTable T R rs) :
    extractColumn (.ty T) 0 R = some (.arr (.ty T) (rs.map fun x => .val T x.1)) := by
  obtain ⟨⟨es, he, hrs⟩, _⟩ := h
  have : (es.mapM fun r => (getElem 0 r).bind fun m => convertTo (.ty T) (promote m)) = some (rs.map fun x => .val T x.1) := by
    clear he
    induction hrs with
    | nil => simp
    | cons h _ ih =>
      simp only [List.mapM_cons, ih]
      simp [getElem, show Md.elems _ = _ from h, convertTo, promote, Md.typeOf, MTy.same]
  simp [extractColumn, he, this]

theorem extractValues_table {T : Nat} {md : Md} (hw : WT md) {rs : List (Int × List Md)} (h : ValueTable T md rs) :
    extractValues T md = some (.arr (.ty T) (rs.map fun x => .val T x.1)) := by
  rcases extract_valueTable (T := T) hw with ⟨R, rs', h1, h2, _, _, h5⟩ | ⟨_, h2⟩
  · unfold extractValues
    rw [h1]
    simp only [Option.bind_some, h2, if_true]
    exact extractColumn_values ((h5 rs).mp h)
  · exact absurd h (h2 rs)

theorem extractValueMetadata_table {T : Nat} {md : Md} (hw : WT md) {rs : List (Int × List Md)} (h : ValueTable T md rs)
    (V : MTy) (p : MTy → Bool) (occ : Nat) :
    (extractValueMetadata T V p occ md = some .nullopt ∧ ((∃ x ∈ rs, cellOf p occ (.val T x.1 :: x.2) = none) ∨ rs = [])) ∨
    ∃ cells, List.Forall₂ (fun (x : Int × List Md) c => cellOf p occ (.val T x.1 :: x.2) = some c) rs cells
      ∧ extractValueMetadata T V p occ md = (cells.mapM fun c => convertTo V (promote c)).map (.arr V) := by
  rcases extract_valueTable (T := T) hw with ⟨R, rs', h1, h2, h3, _, h5⟩ | ⟨_, h2⟩
  · obtain ⟨⟨es, he, hes⟩, _⟩ := (h5 rs).mp h
    have hev : extractValueMetadata T V p occ md = tryExtractColumn V p occ R := by
      simp [extractValueMetadata, h1, h2]
    rw [hev]
    rcases tryExtractColumn_spec (V := V) (p := p) (occ := occ) h3 he (valueTable_fulls hes) with ⟨h6, h7⟩ | ⟨cells, h6, h7⟩
    · left; refine ⟨h6, ?_⟩
      rcases h7 with ⟨full, hf, h7⟩ | ⟨t, rfl⟩
      · left; obtain ⟨x, hx, rfl⟩ := List.mem_map.mp hf; exact ⟨x, hx, h7⟩
      · right; simp [Md.elems] at he; subst he; cases hes; rfl
    · right; exact ⟨cells, by simpa [List.forall₂_map_left_iff] using h6, h7⟩
  · exact absurd h (h2 rs)

/-- If nothing is extracted for the values from available metadata, the values are still available. -/
theorem extractValues_available {T : Nat} {md : Md} (hw : WT md) (ha : md.isAvailable = true) :
    ∃ vs, extractValues T md = some (.arr (.ty T) vs) := by
  rcases extract_valueTable (T := T) hw with ⟨R, rs, h1, h2, h3, h4, h5⟩ | ⟨h1, h2⟩
  · exact ⟨_, extractValues_table hw ((h5 rs).mpr h4)⟩
  · unfold extractValues
    rw [h1]
    simp only [Option.bind_some, isAvailable_nullopt, Bool.false_eq_true, if_false]
    have harr : ∀ m : Md, isValueArray T m.typeOf = true → ∃ vs, m = .arr (.ty T) vs := by
      intro m hm; cases m <;> simp [isValueArray, Md.typeOf] at hm
      rename_i t es
      cases t <;> simp at hm
      subst hm; exact ⟨_, rfl⟩
    rcases extractMetadata_zero (p := isValueArray T) hw rfl with ⟨hp, ha', hx⟩ | ⟨hp, pre, R, post, he, hpre, hR, ha', hwR, hx⟩ | ⟨hp, hall, hx⟩
    · rw [hx]; obtain ⟨vs, rfl⟩ := harr _ hp
      exact ⟨vs, by simp [promote, Md.isAvailable]⟩
    · rw [hx]; obtain ⟨vs, rfl⟩ := harr _ hR
      exact ⟨vs, by simp [promote, Md.isAvailable]⟩
    · rw [hx]
      simp only [Option.bind_some, isAvailable_nullopt, Bool.false_eq_true, if_false]
      rcases extractMetadata_zero (p := isRecord (isValue T)) hw rfl with ⟨hp, ha', hx⟩ | ⟨hp, pre, R, post, he, hpre, hR, ha', hwR, hx⟩ | ⟨hp, hall, hx⟩
      · obtain ⟨⟨n, rest⟩, h⟩ := (isValueRecord_iff hw).mp hp
        rw [hx, promote_of_elems h]
        exact ⟨[.val T n], by
          simp only [Option.bind_some]
          rw [if_pos ha']
          simp [getElem, show Md.elems md = _ from h, convertTo, Md.typeOf, MTy.same]⟩
      · obtain ⟨⟨n, rest⟩, h⟩ := (isValueRecord_iff hwR).mp hR
        rw [hx, promote_of_elems h]
        exact ⟨[.val T n], by
          simp only [Option.bind_some]
          rw [if_pos ha']
          simp [getElem, show Md.elems R = _ from h, convertTo, Md.typeOf, MTy.same]⟩
      · rw [hx]
        simp only [Option.bind_some, isAvailable_nullopt, Bool.false_eq_true, if_false]
        rcases extractMetadata_zero (p := isValue T) hw rfl with ⟨hp, ha', hx⟩ | ⟨hp, pre, R, post, he, hpre, hR, ha', hwR, hx⟩ | ⟨hp, hall, hx⟩
        · obtain ⟨n, rfl⟩ := isValue_iff.mp hp
          rw [hx]
          exact ⟨[.val T n], by simp [promote, convertTo, Md.typeOf, MTy.same, Md.isAvailable]⟩
        · obtain ⟨n, rfl⟩ := isValue_iff.mp hR
          rw [hx]
          exact ⟨[.val T n], by simp [promote, convertTo, Md.typeOf, MTy.same, Md.isAvailable]⟩
        · rw [hx]
          simp only [Option.bind_some, isAvailable_nullopt, Bool.false_eq_true, if_false, hp]
          exact ⟨[], by rw [if_pos ha]⟩

/-! ## Members -/

theorem strings_cell : ∀ (full : List Md) (occ : Nat), (stringsOf full)[occ]? = (cellOf isStringLike occ full).bind strOf
  | [], occ => by simp [stringsOf]
  | e :: es, occ => by
    have ih := fun o => strings_cell es o
    simp only [stringsOf, cellOf] at ih ⊢
    rw [List.filterMap_cons, List.filter_cons]
    cases e
    case cstr s => cases occ with
      | zero => rfl
      | succ o => exact ih o
    case sv s => cases occ with
      | zero => rfl
      | succ o => exact ih o
    all_goals exact ih occ

theorem strOf_of_cell {full : List Md} {occ : Nat} {c : Md} (h : cellOf isStringLike occ full = some c) :
    ∃ s, strOf c = some s ∧ promote c = .sv s ∧ (stringsOf full)[occ]? = some s := by
  have hm : c ∈ full.filter fun e => isStringLike e.typeOf := List.mem_of_getElem? h
  have hs := strings_cell full occ
  rw [h] at hs
  have hc := (List.mem_filter.mp hm).2
  cases c <;> simp [isStringLike, Md.typeOf] at hc
  · exact ⟨_, rfl, rfl, hs⟩
  · exact ⟨_, rfl, rfl, hs⟩

theorem cell_of_string {full : List Md} {occ : Nat} {s : Str} (h : (stringsOf full)[occ]? = some s) :
    ∃ c, cellOf isStringLike occ full = some c ∧ promote c = .sv s := by
  rw [strings_cell] at h
  obtain ⟨c, h1, h2⟩ := Option.bind_eq_some_iff.mp h
  obtain ⟨s', h3, h4, _⟩ := strOf_of_cell h1
  rw [h2] at h3; cases h3
  exact ⟨c, h1, h4⟩

theorem mapM_convert_strings {fulls : List (List Md)} {cells : List Md} {occ : Nat}
    (h : List.Forall₂ (fun full c => cellOf isStringLike occ full = some c) fulls cells) :
    (cells.mapM fun c => convertTo .sv (promote c)) = some (cells.map promote)
      ∧ List.Forall₂ (fun full n => ∃ s, n = .sv s ∧ (stringsOf full)[occ]? = some s) fulls (cells.map promote) := by
  constructor
  · refine mapM_convert_iff.mpr ⟨?_, rfl⟩
    induction h with
    | nil => simp
    | cons h _ ih =>
      intro c hc
      rcases List.mem_cons.mp hc with rfl | hc
      · obtain ⟨s, _, h2, _⟩ := strOf_of_cell h; rw [h2]; rfl
      · exact ih c hc
  · induction h with
    | nil => exact .nil
    | cons h _ ih =>
      obtain ⟨s, _, h2, h3⟩ := strOf_of_cell h
      exact .cons ⟨s, h2, h3⟩ ih

theorem memberTable_fulls {T : Nat} {es : List Md} {rs : List (Md × List Md)}
    (h : List.Forall₂ (fun e (x : Md × List Md) => Md.elems e = some (x.1 :: x.2) ∧ IsMemberPtr T x.1) es rs) :
    List.Forall₂ (fun e full => Md.elems e = some full) es (rs.map fun x => x.1 :: x.2) := by
  induction h with
  | nil => exact .nil
  | cons h _ ih => exact .cons h.1 ih

theorem column0_members {T : Nat} {es : List Md} {rs : List (Md × List Md)}
    (h : List.Forall₂ (fun e (x : Md × List Md) => Md.elems e = some (x.1 :: x.2) ∧ IsMemberPtr T x.1) es rs) :
    (es.mapM fun r => (getElem 0 r).map promote) = some (rs.map (·.1)) := by
  induction h with
  | nil => simp
  | cons h _ ih =>
    obtain ⟨h1, dt, id, h2⟩ := h
    rw [List.mapM_cons, ih]
    simp [getElem, h1, h2, promote]

theorem extractMembers_table {env : Env} {T : Nat} {md : Md} (hw : WT md) {rs : List (Md × List Md)} (h : MemberTable T md rs) :
    extractMembers env T md = some (.tup (rs.map (·.1))) ∨ extractMembers env T md = none := by
  rcases extract_memberTable (T := T) hw with ⟨R, rs', h1, h2, _, _, h5⟩ | ⟨_, h2⟩
  · have hx : extractMembers env T md = extractHeterogeneousColumn0 R := by simp [extractMembers, h1, h2]
    rw [hx]
    obtain ⟨es, he, hes⟩ := (h5 rs).mp h
    cases R <;> simp [Md.elems] at he
    case arr => right; rfl
    case tup es' =>
      subst he; left
      simp only [extractHeterogeneousColumn0]
      rw [column0_members hes]
      rfl
  · exact absurd h (h2 rs)

theorem extractMembers_available {env : Env} {T : Nat} {md ms : Md} (ha : md.isAvailable = true) (hc : env.isClass T = true)
    (h : extractMembers env T md = some ms) : ms.isAvailable = true := by
  unfold extractMembers at h
  obtain ⟨mrt, _, h⟩ := Option.bind_eq_some_iff.mp h
  split at h
  · rename_i hm
    cases mrt <;> simp [extractHeterogeneousColumn0] at h
    obtain ⟨l, _, rfl⟩ := h
    rfl
  obtain ⟨mt, _, h⟩ := Option.bind_eq_some_iff.mp h
  split at h
  · rename_i hm; cases h; exact hm
  obtain ⟨mr, _, h⟩ := Option.bind_eq_some_iff.mp h
  split at h
  · obtain ⟨l, _, rfl⟩ := Option.map_eq_some_iff.mp h; rfl
  obtain ⟨m, _, h⟩ := Option.bind_eq_some_iff.mp h
  split at h
  · cases h; rfl
  split at h
  · cases h; rfl
  split at h
  · cases h; rfl
  · rename_i h'; simp [ha, hc] at h'

theorem extractMemberMetadata_table {env : Env} {T : Nat} {md : Md} (hw : WT md) {rs : List (Md × List Md)} (h : MemberTable T md rs)
    (V : MTy) (p : MTy → Bool) (occ : Nat) :
    (extractMemberMetadata env T V p occ md = some .nullopt ∧ ((∃ x ∈ rs, cellOf p occ (x.1 :: x.2) = none)
      ∨ (rs = [] ∧ extractMembers env T md = none))) ∨
    ∃ cells, List.Forall₂ (fun (x : Md × List Md) c => cellOf p occ (x.1 :: x.2) = some c) rs cells
      ∧ extractMemberMetadata env T V p occ md = (cells.mapM fun c => convertTo V (promote c)).map (.arr V) := by
  rcases extract_memberTable (T := T) hw with ⟨R, rs', h1, h2, h3, _, h5⟩ | ⟨_, h2⟩
  · obtain ⟨es, he, hes⟩ := (h5 rs).mp h
    have hev : extractMemberMetadata env T V p occ md = tryExtractColumn V p occ R := by
      simp [extractMemberMetadata, h1, h2]
    rw [hev]
    rcases tryExtractColumn_spec (V := V) (p := p) (occ := occ) h3 he (memberTable_fulls hes) with ⟨h6, h7⟩ | ⟨cells, h6, h7⟩
    · left; refine ⟨h6, ?_⟩
      rcases h7 with ⟨full, hf, h7⟩ | ⟨t, rfl⟩
      · left; obtain ⟨x, hx, rfl⟩ := List.mem_map.mp hf; exact ⟨x, hx, h7⟩
      · right; simp [Md.elems] at he; subst he; cases hes
        exact ⟨rfl, by simp [extractMembers, h1, Md.isAvailable, extractHeterogeneousColumn0]⟩
    · right; exact ⟨cells, by simpa [List.forall₂_map_left_iff] using h6, h7⟩
  · exact absurd h (h2 rs)

/-- Member metadata is only ever available if there is a member table. -/
theorem memberTable_of_available {env : Env} {T : Nat} {md : Md} (hw : WT md) {V : MTy} {p : MTy → Bool} {occ : Nat} {m : Md}
    (h : extractMemberMetadata env T V p occ md = some m) (ha : m.isAvailable = true) : ∃ rs, MemberTable T md rs := by
  rcases extract_memberTable (T := T) hw with ⟨R, rs, _, _, _, h4, h5⟩ | ⟨h1, _⟩
  · exact ⟨rs, (h5 rs).mpr h4⟩
  · unfold extractMemberMetadata at h
    rw [h1] at h
    simp only [Option.bind_some, isAvailable_nullopt, Bool.false_eq_true, if_false] at h
    split at h
    · rename_i hc
      simp only [Bool.and_eq_true] at hc
      obtain ⟨ms, h2, h3⟩ := Option.bind_eq_some_iff.mp h
      rw [if_pos (extractMembers_available hc.1 hc.2 h2)] at h3
      cases h3; simp [Md.isAvailable] at ha
    · cases h; simp [Md.isAvailable] at ha

theorem strings_record {T : Nat} {m : Md} {rest : List Md} (h : IsMemberPtr T m) : stringsOf (m :: rest) = stringsOf rest := by
  obtain ⟨dt, id, rfl⟩ := h; rfl

theorem memberTable_ptr {T : Nat} {md : Md} {rs : List (Md × List Md)} (h : MemberTable T md rs) : ∀ x ∈ rs, IsMemberPtr T x.1 := by
  have h1 : ∀ {R : Md}, IsMemberTable T R rs → ∀ x ∈ rs, IsMemberPtr T x.1 := by
    clear h
    rintro R ⟨es, he, hes⟩
    clear he
    induction hes with
    | nil => simp
    | cons h _ ih =>
      intro x hx
      rcases List.mem_cons.mp hx with rfl | hx
      · exact h.2
      · exact ih x hx
  rcases h with h | ⟨_, _, R, _, _, _, h⟩
  · exact h1 h
  · exact h1 h

/-- The own members of a class and their strings number `k` correspond. -/
theorem direct_aligned' {env : Env} {T k : Nat} (hw : WT (env.reflect T)) {dm dn : Md} {ds ns : List Md}
    (h1 : extractMembers env T (env.reflect T) = some dm) (h2 : dm.elems = some ds)
    (h3 : extractMemberMetadata env T .sv isStringLike k (env.reflect T) = some dn) (h4 : dn.elems = some ns) :
    List.Forall₂ (fun m n => ∃ s, n = .sv s ∧ StringIn env.reflect T k m s) ds ns := by
  have ha : dn.isAvailable = true := by cases dn <;> simp_all [Md.elems, Md.isAvailable]
  obtain ⟨rs, hrs⟩ := memberTable_of_available hw h3 ha
  rcases extractMembers_table (env := env) hw hrs with h5 | h5
  · rw [h1] at h5; cases h5
    simp only [Md.elems, Option.some.injEq] at h2; subst h2
    rcases extractMemberMetadata_table (env := env) hw hrs .sv isStringLike k with ⟨h6, _⟩ | ⟨cells, h6, h7⟩
    · rw [h3] at h6; cases h6; simp [Md.elems] at h4
    · have h6' : List.Forall₂ (fun full c => cellOf isStringLike k full = some c) (rs.map fun x => x.1 :: x.2) cells := by
        simpa [List.forall₂_map_left_iff] using h6
      obtain ⟨h8, h9⟩ := mapM_convert_strings h6'
      rw [h8, h3] at h7
      simp only [Option.map_some, Option.some.injEq] at h7
      subst h7
      simp only [Md.elems, Option.some.injEq] at h4; subst h4
      rw [List.forall₂_map_left_iff] at h9 ⊢
      have hp := memberTable_ptr hrs
      have : ∀ (l : List (Md × List Md)) (l' : List Md), (∀ x ∈ l, x ∈ rs) →
          List.Forall₂ (fun (x : Md × List Md) n => ∃ s, n = .sv s ∧ (stringsOf (x.1 :: x.2))[k]? = some s) l l' →
          List.Forall₂ (fun (x : Md × List Md) n => ∃ s, n = .sv s ∧ StringIn env.reflect T k x.1 s) l l' := by
        intro l l' hl hf
        induction hf with
        | nil => exact .nil
        | @cons x n _ _ hx _ ih =>
          refine .cons ?_ (ih fun y hy => hl y (by simp [hy]))
          obtain ⟨s, hs, hs'⟩ := hx
          rw [strings_record (hp x (hl x (by simp)))] at hs'
          exact ⟨s, hs, rs, x, hrs, hl x (by simp), rfl, hs'⟩
      exact this rs _ (fun _ h => h) h9
  · rw [h1] at h5; cases h5

theorem namedIn_iff {reflect : Nat → Md} {T : Nat} {m : Md} {n : Str} : NamedIn reflect T m n ↔ StringIn reflect T 0 m n := by
  simp only [NamedIn, StringIn, List.head?_eq_getElem?]

/-- The own members of a class and their names correspond. -/
theorem direct_aligned {env : Env} {T : Nat} (hw : WT (env.reflect T)) {dm dn : Md} {ds ns : List Md}
    (h1 : extractMembers env T (env.reflect T) = some dm) (h2 : dm.elems = some ds)
    (h3 : extractMemberMetadata env T .sv isStringLike 0 (env.reflect T) = some dn) (h4 : dn.elems = some ns) :
    List.Forall₂ (fun m n => ∃ s, n = .sv s ∧ NamedIn env.reflect T m s) ds ns := by
  simp only [namedIn_iff]
  exact direct_aligned' hw h1 h2 h3 h4

theorem mapM_option_forall₂ {α β : Type} {f : α → Option β} : ∀ {l : List α} {l' : List β},
    l.mapM f = some l' ↔ List.Forall₂ (fun a b => f a = some b) l l'
  | [], l' => by cases l' <;> simp
  | a :: l, l' => by
    rw [List.mapM_cons]
    cases hfa : f a with
    | none => cases l' <;> simp [hfa]
    | some b =>
      cases hl : l.mapM f with
      | none =>
        have : ∀ l'', ¬List.Forall₂ (fun a b => f a = some b) l l'' := fun l'' h => by
          rw [mapM_option_forall₂.mpr h] at hl; cases hl
        cases l' <;> simp [hfa, this]
      | some bs =>
        have := mapM_option_forall₂.mp hl
        have huniq : ∀ l'', List.Forall₂ (fun a b => f a = some b) l l'' → bs = l'' := fun l'' h => by
          rw [mapM_option_forall₂.mpr h] at hl; cases hl; rfl
        cases l' with
        | nil => simp
        | cons b' l' =>
          simp only [Option.pure_def, Option.bind_eq_bind, Option.bind_some, Option.some.injEq, List.cons.injEq, List.forall₂_cons, hfa]
          constructor
          · rintro ⟨rfl, rfl⟩; exact ⟨rfl, this⟩
          · rintro ⟨rfl, h⟩; exact ⟨rfl, huniq _ h⟩

theorem forall₂_flatten {α β : Type} {P : α → β → Prop} {xs : List (List α)} {ys : List (List β)}
    (h : List.Forall₂ (List.Forall₂ P) xs ys) : List.Forall₂ P xs.flatten ys.flatten := by
  induction h with
  | nil => exact .nil
  | cons h _ ih => simp only [List.flatten_cons]; exact List.rel_append h ih

/-! ## Searching -/

theorem searchIndexFrom_spec (eq : Md → Bool) : ∀ (es : List Md) (i : Nat),
    (searchIndexFrom eq es i = -1 ∧ ∀ e ∈ es, eq e = false) ∨
    ∃ k e, searchIndexFrom eq es i = ((i + k : Nat) : Int) ∧ es[k]? = some e ∧ eq e = true ∧ ∀ (j : Nat) x, j < k → es[j]? = some x → eq x = false
  | [], i => by simp [searchIndexFrom]
  | e :: es, i => by
    by_cases h : eq e = true
    · right; exact ⟨0, e, by simp [searchIndexFrom, h], by simp, h, by simp⟩
    · have h' : eq e = false := by simpa using h
      rcases searchIndexFrom_spec eq es (i + 1) with ⟨h1, h2⟩ | ⟨k, x, h1, h2, h3, h4⟩
      · left; refine ⟨by simp [searchIndexFrom, h', h1], ?_⟩
        intro y hy; rcases List.mem_cons.mp hy with rfl | hy
        · exact h'
        · exact h2 y hy
      · right; refine ⟨k + 1, x, ?_, by simpa using h2, h3, ?_⟩
        · simp only [searchIndexFrom, h', Bool.false_eq_true, if_false, h1]; congr 1; omega
        · intro j y hj hy
          cases j with
          | zero => simp at hy; subst hy; exact h'
          | succ j => exact h4 j y (by omega) (by simpa using hy)

end Makeshift.Metadata
