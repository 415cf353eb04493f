import Verif.Lemmas.Metadata
import Verif.Spec.MetadataLists

/-! # Lemmas about the layouts of metadata -/

namespace Makeshift.Metadata

open Spec

theorem extract_firstOf {p : MTy → Bool} {Q : Md → Prop} (hpq : ∀ {m : Md}, WT m → (p m.typeOf = true ↔ Q m)) (hn : p .nullopt = false)
    {md : Md} (hw : WT md) :
    (∃ R, FirstOf Q md R ∧ R.isAvailable = true ∧ WT R ∧ extractMetadata p 0 md = some (promote R)) ∨
    ((∀ R, ¬FirstOf Q md R) ∧ p md.typeOf = false ∧ extractMetadata p 0 md = some .nullopt) := by
  have hneg : ∀ {m : Md}, WT m → p m.typeOf = false → ¬Q m := fun hm h hq => by rw [(hpq hm).mpr hq] at h; cases h
  rcases extractMetadata_zero hw hn with ⟨h1, h2, h3⟩ | ⟨h1, pre, R, post, he, hpre, hR, ha, hwR, h3⟩ | ⟨h1, h2, h3⟩
  · exact .inl ⟨md, .self ((hpq hw).mp h1), h2, hw, h3⟩
  · exact .inl ⟨R, .component (hneg hw h1) he (fun x hx => hneg (elems_WT hw he x (by simp [hx])) (hpre x hx)) ((hpq hwR).mp hR), ha, hwR, h3⟩
  · refine .inr ⟨fun R hR => ?_, h1, h3⟩
    cases hR with
    | self h => exact hneg hw h1 h
    | component _ he _ hq => exact hneg (elems_WT hw he R (by simp)) (h2 _ he R (by simp)) hq

theorem isBase_iff {env : Env} {T : Nat} {m : Md} : isBase env T m.typeOf = true ↔ IsBase env.isBaseOf T m := by
  cases m <;> simp [isBase, Md.typeOf, IsBase]

theorem recordOf_iff {p : MTy → Bool} {P : Md → Prop} (hp : ∀ m : Md, p m.typeOf = true ↔ P m) {r : Md} (hw : WT r) :
    isRecord p r.typeOf = true ↔ IsRecordOf P r := by
  rw [isRecord_iff hw]; simp only [IsRecordOf, hp]

theorem tableOf_iff {p : MTy → Bool} {P : Md → Prop} (hp : ∀ m : Md, p m.typeOf = true ↔ P m) {R : Md} (hw : WT R) :
    isTupleOf (isRecord p) R.typeOf = true ↔ IsTableOf P R := by
  rw [isTupleOf_iff hw]
  constructor
  · rintro ⟨es, he, h⟩; exact ⟨es, he, fun e hm => (recordOf_iff hp (elems_WT hw he e hm)).mp (h e hm)⟩
  · rintro ⟨es, he, h⟩; exact ⟨es, he, fun e hm => (recordOf_iff hp (elems_WT hw he e hm)).mpr (h e hm)⟩

theorem listOf_iff {p : MTy → Bool} {P : Md → Prop} (hp : ∀ m : Md, p m.typeOf = true ↔ P m) {R : Md} (hw : WT R) :
    isTupleOf p R.typeOf = true ↔ IsListOf P R := by
  rw [isTupleOf_iff hw]; simp only [IsListOf, hp]

theorem valueArray_iff {T : Nat} {m : Md} : isValueArray T m.typeOf = true ↔ ∃ es, m = .arr (.ty T) es := by
  cases m <;> simp [isValueArray, Md.typeOf]
  case arr t es => cases t <;> simp

/-- The common shape of `extract_bases`, `extract_values` and `extract_members`. -/
def shape (tab lst rec itm : MTy → Bool) (col one : Md → Option Md) (fallback : Option Md) (md : Md) : Option Md :=
  (extractMetadata tab 0 md).bind fun a =>
  if a.isAvailable then col a
  else (extractMetadata lst 0 md).bind fun b =>
  if b.isAvailable then some b
  else (extractMetadata rec 0 md).bind fun c =>
  if c.isAvailable then (getElem 0 c).bind one
  else (extractMetadata itm 0 md).bind fun d =>
  if d.isAvailable then one d
  else if itm md.typeOf then one md
  else fallback

theorem extractBases_shape (env : Env) (T : Nat) (md : Md) :
    extractBases env T md = shape (isTupleOf (isRecord (isBase env T))) (isTupleOf (isBase env T)) (isRecord (isBase env T))
      (isBase env T) extractHeterogeneousColumn0 (fun b => some (.tup [b]))
      (if md.isAvailable && env.isClass T then some (.tup []) else some .nullopt) md := by
  unfold extractBases shape
  simp only [Option.map_eq_bind, Function.comp_def]

theorem extractMembers_shape (env : Env) (T : Nat) (md : Md) :
    extractMembers env T md = shape (isTupleOf (isRecord (isMember T))) (isTupleOf (isMember T)) (isRecord (isMember T))
      (isMember T) extractHeterogeneousColumn0 (fun b => some (.tup [b]))
      (if md.isAvailable && env.isClass T then some (.tup []) else some .nullopt) md := by
  unfold extractMembers shape
  simp only [Option.map_eq_bind, Function.comp_def]

theorem extractValues_shape (T : Nat) (md : Md) :
    extractValues T md = shape (isValueRecordTuple T) (isValueArray T) (isRecord (isValue T)) (isValue T) (extractColumn (.ty T) 0)
      (fun v => (convertTo (.ty T) v).map fun v => .arr (.ty T) [v])
      (if md.isAvailable then some (.arr (.ty T) []) else some .nullopt) md := rfl

theorem promote_available {m : Md} : (promote m).isAvailable = m.isAvailable := by cases m <;> rfl

theorem unavailable : Md.nullopt.isAvailable = false := rfl

theorem shape_spec {tab lst rec itm : MTy → Bool} {Tab Lst Rec Itm : Md → Prop} {col one : Md → Option Md} {fallback : Option Md}
    (ht : ∀ {m : Md}, WT m → (tab m.typeOf = true ↔ Tab m)) (hl : ∀ {m : Md}, WT m → (lst m.typeOf = true ↔ Lst m))
    (hr : ∀ {m : Md}, WT m → (rec m.typeOf = true ↔ Rec m)) (hi : ∀ {m : Md}, WT m → (itm m.typeOf = true ↔ Itm m))
    (hn : tab .nullopt = false ∧ lst .nullopt = false ∧ rec .nullopt = false ∧ itm .nullopt = false) {md : Md} (hw : WT md) :
    (∃ R, FirstOf Tab md R ∧ WT R ∧ shape tab lst rec itm col one fallback md = col (promote R)) ∨
    ((∀ R, ¬FirstOf Tab md R) ∧ ∃ R, FirstOf Lst md R ∧ WT R ∧ shape tab lst rec itm col one fallback md = some (promote R)) ∨
    ((∀ R, ¬FirstOf Tab md R) ∧ (∀ R, ¬FirstOf Lst md R) ∧ ∃ R, FirstOf Rec md R ∧ WT R ∧
      shape tab lst rec itm col one fallback md = (getElem 0 (promote R)).bind one) ∨
    ((∀ R, ¬FirstOf Tab md R) ∧ (∀ R, ¬FirstOf Lst md R) ∧ (∀ R, ¬FirstOf Rec md R) ∧ ∃ R, FirstOf Itm md R ∧ WT R ∧
      shape tab lst rec itm col one fallback md = one (promote R)) ∨
    ((∀ R, ¬FirstOf Tab md R) ∧ (∀ R, ¬FirstOf Lst md R) ∧ (∀ R, ¬FirstOf Rec md R) ∧ (∀ R, ¬FirstOf Itm md R) ∧
      shape tab lst rec itm col one fallback md = fallback) := by
  unfold shape
  rcases extract_firstOf ht hn.1 hw with ⟨R, h1, h2, h3, h4⟩ | ⟨t1, t2, t3⟩
  · left; exact ⟨R, h1, h3, by simp [h4, promote_available, h2]⟩
  right
  rcases extract_firstOf hl hn.2.1 hw with ⟨R, h1, h2, h3, h4⟩ | ⟨l1, l2, l3⟩
  · left; exact ⟨t1, R, h1, h3, by simp [t3, h4, promote_available, h2, unavailable]⟩
  right
  rcases extract_firstOf hr hn.2.2.1 hw with ⟨R, h1, h2, h3, h4⟩ | ⟨r1, r2, r3⟩
  · left; exact ⟨t1, l1, R, h1, h3, by simp [t3, l3, h4, promote_available, h2, unavailable]⟩
  right
  rcases extract_firstOf hi hn.2.2.2 hw with ⟨R, h1, h2, h3, h4⟩ | ⟨i1, i2, i3⟩
  · left; exact ⟨t1, l1, r1, R, h1, h3, by simp [t3, l3, r3, h4, promote_available, h2, unavailable]⟩
  right
  exact ⟨t1, l1, r1, i1, by simp [t3, l3, r3, i3, i2, unavailable]⟩

theorem firstOf_prop {Q : Md → Prop} {md R : Md} (h : FirstOf Q md R) : Q R := by cases h <;> assumption

theorem column0_of_records {P : Md → Prop} (hp : ∀ m, P m → promote m = m) : ∀ {es : List Md}, (∀ e ∈ es, IsRecordOf P e) →
    ∃ xs, (es.mapM fun r => (getElem 0 r).map promote) = some xs ∧ (∀ x ∈ xs, P x) ∧
      List.Forall₂ (fun e x => ∃ rest, Md.elems e = some (x :: rest)) es xs
  | [], _ => ⟨[], by simp, by simp, .nil⟩
  | e :: es, h => by
    obtain ⟨xs, h1, h2, h3⟩ := column0_of_records hp (es := es) fun e he => h e (by simp [he])
    obtain ⟨x, rest, hx, hP⟩ := h e (by simp)
    refine ⟨x :: xs, ?_, ?_, .cons ⟨rest, hx⟩ h3⟩
    · have hg : getElem 0 e = some x := by simp [getElem, hx]
      simp [List.mapM_cons, h1, hg, hp x hP]
    · simpa using ⟨hP, h2⟩

theorem pivot_unique {Q : Md → Prop} : ∀ {pre pre' post post' : List Md} {R R' : Md}, pre ++ R :: post = pre' ++ R' :: post' →
    (∀ x ∈ pre, ¬Q x) → Q R → (∀ x ∈ pre', ¬Q x) → Q R' → R = R'
  | [], [], _, _, _, _, h, _, _, _, _ => by simp at h; exact h.1
  | [], a :: _, _, _, _, _, h, _, h2, h3, _ => by simp at h; exact absurd (h.1 ▸ h2) (h3 a (by simp))
  | a :: _, [], _, _, _, _, h, h1, _, _, h4 => by simp at h; exact absurd (h.1 ▸ h4) (h1 a (by simp))
  | a :: l, b :: l', _, _, _, _, h, h1, h2, h3, h4 => by
    simp at h
    exact pivot_unique h.2 (fun x hx => h1 x (by simp [hx])) h2 (fun x hx => h3 x (by simp [hx])) h4

theorem firstOf_unique {Q : Md → Prop} {md R R' : Md} (h : FirstOf Q md R) (h' : FirstOf Q md R') : R = R' := by
  cases h with
  | self h =>
    cases h' with
    | self => rfl
    | component hn => exact absurd h hn
  | component hn he hpre hq =>
    cases h' with
    | self h => exact absurd h hn
    | component _ he' hpre' hq' =>
      rw [he] at he'; exact pivot_unique (Option.some.inj he') hpre hq hpre' hq'

theorem heads_unique : ∀ {es xs ys : List Md}, List.Forall₂ (fun e x => ∃ rest, Md.elems e = some (x :: rest)) es xs →
    List.Forall₂ (fun e x => ∃ rest, Md.elems e = some (x :: rest)) es ys → xs = ys
  | [], _, _, .nil, .nil => rfl
  | _ :: _, _, _, .cons ⟨r, h⟩ t, .cons ⟨r', h'⟩ t' => by
    rw [h] at h'; have := Option.some.inj h'; injection this with h1 h2; rw [h1, heads_unique t t']

theorem listed_unique {Table Plain P : Md → Prop} {md : Md} {xs ys : List Md} (h : Listed Table Plain P md xs)
    (h' : Listed Table Plain P md ys) : xs = ys := by
  cases h <;> cases h'
  case table.table f1 e1 l1 _ _ f2 e2 l2 =>
    have := firstOf_unique f1 f2; subst this; rw [e1] at e2; cases e2; exact heads_unique l1 l2
  case plain.plain f1 e1 _ _ f2 e2 =>
    have := firstOf_unique f1 f2; subst this; rw [e1] at e2; cases e2; rfl
  case record.record f1 e1 _ _ _ _ _ f2 e2 =>
    have := firstOf_unique f1 f2; subst this; rw [e1] at e2; cases e2; rfl
  case item.item f1 _ _ _ _ f2 => rw [firstOf_unique f1 f2]
  case none.none => rfl
  all_goals first
    | (rename_i h1 _ _ _ h2; exact absurd h1 (h2 _))
    | simp_all

theorem mentions_of_firstOf {Q : Md → Prop} {md R x : Md} (h : FirstOf Q md R) (hx : Mentions x R) : Mentions x md := by
  cases h with
  | self => exact hx
  | component _ he _ _ => exact .inside he (by simp) hx

theorem mentions_leaf {x m : Md} (h : Mentions x m) (he : m.elems = none) : x = m := by
  cases h with
  | self => rfl
  | inside h _ _ => rw [he] at h; cases h

theorem listed_sound {Table Plain P : Md → Prop} (hT : ∀ R, Table R → IsTableOf P R) (hL : ∀ R, Plain R → IsListOf P R) {md : Md}
    {xs : List Md} (h : Listed Table Plain P md xs) : ∀ x ∈ xs, P x ∧ Mentions x md := by
  intro x hx
  cases h with
  | @table R es _ f he hf =>
    obtain ⟨es', he', hr⟩ := hT _ (firstOf_prop f)
    rw [he] at he'; cases he'
    have : ∃ e ∈ es, ∃ rest, Md.elems e = some (x :: rest) := by
      clear he f hr
      induction hf with
      | nil => cases hx
      | cons h _ ih =>
        rcases List.mem_cons.mp hx with rfl | hx
        · exact ⟨_, by simp, h⟩
        · obtain ⟨e, h1, h2⟩ := ih hx; exact ⟨e, by simp [h1], h2⟩
    obtain ⟨e, hem, rest, hrest⟩ := this
    obtain ⟨x', rest', h1, h2⟩ := hr e hem
    rw [hrest] at h1; cases h1
    exact ⟨h2, mentions_of_firstOf f (.inside he hem (.inside hrest (by simp) .self))⟩
  | plain _ f he =>
    obtain ⟨es', he', hr⟩ := hL _ (firstOf_prop f)
    rw [he] at he'; cases he'
    exact ⟨hr x hx, mentions_of_firstOf f (.inside he hx .self)⟩
  | record _ _ f he =>
    obtain ⟨x', rest', h1, h2⟩ := firstOf_prop f
    rw [he] at h1; cases h1
    simp at hx; subst hx
    exact ⟨h2, mentions_of_firstOf f (.inside he (by simp) .self)⟩
  | item _ _ _ f => simp at hx; subst hx; exact ⟨firstOf_prop f, mentions_of_firstOf f .self⟩
  | none => cases hx

theorem unrelated_not {P : Md → Prop} {m : Md} (h : Unrelated P m) : ¬P m ∧ ¬IsRecordOf P m ∧ ¬IsTableOf P m ∧ ¬IsListOf P m := by
  refine ⟨fun hp => h.2 m hp .self, ?_, ?_, ?_⟩
  · rintro ⟨x, rest, he, hx⟩; exact h.2 x hx (.inside he (by simp) .self)
  · rintro ⟨es, he, hr⟩
    cases es with
    | nil => exact h.1 he
    | cons e es =>
      obtain ⟨x, rest, h1, hx⟩ := hr e (by simp)
      exact h.2 x hx (.inside he (by simp) (.inside h1 (by simp) .self))
  · rintro ⟨es, he, hr⟩
    cases es with
    | nil => exact h.1 he
    | cons e es => exact h.2 e (hr e (by simp)) (.inside he (by simp) .self)

/-- What is needed about tables and plain lists of items. -/
structure LayoutFacts (Table Plain P : Md → Prop) : Prop where
  leaf : ∀ x, P x → x.elems = none
  table : ∀ R, Table R → IsTableOf P R
  plain : ∀ R, Plain R → IsListOf P R
  tuple : ∀ es, IsTableOf P (.tup es) → Table (.tup es)

theorem not_table_list {Table Plain P : Md → Prop} (F : LayoutFacts Table Plain P) {md R : Md} {pre post : List Md}
    (he : md.elems = some (pre ++ R :: post)) (hu : ∀ e ∈ pre ++ post, Unrelated P e) (hne : pre ++ post ≠ []) : ¬Table md ∧ ¬Plain md := by
  obtain ⟨e, hem⟩ := List.exists_mem_of_ne_nil _ hne
  have hm : e ∈ pre ++ R :: post := by simp at hem ⊢; tauto
  constructor
  · intro h
    obtain ⟨es, he', hr⟩ := F.table _ h
    rw [he] at he'; cases he'
    exact (unrelated_not (hu e hem)).2.1 (hr e hm)
  · intro h
    obtain ⟨es, he', hr⟩ := F.plain _ h
    rw [he] at he'; cases he'
    exact (unrelated_not (hu e hem)).1 (hr e hm)

theorem table_complete {Table Plain P : Md → Prop} (F : LayoutFacts Table Plain P) {md : Md} (h : TableLayout P md) {xs : List Md}
    (hx : Listed Table Plain P md xs) {x : Md} (hP : P x) (hm : Mentions x md) : x ∈ xs := by
  obtain ⟨pre, es, post, he, hu, hne, hes⟩ := h
  have hT : IsTableOf P (.tup es) := ⟨es, rfl, fun e hem => by obtain ⟨x, rest, h1, h2, _⟩ := hes e hem; exact ⟨x, rest, h1, h2⟩⟩
  have hf : FirstOf Table md (.tup es) :=
    .component (not_table_list F he hu hne).1 he (fun e hem ht => (unrelated_not (hu e (by simp [hem]))).2.2.1 (F.table _ ht)) (F.tuple _ hT)
  have hxs : List.Forall₂ (fun e x => ∃ rest, Md.elems e = some (x :: rest)) es xs := by
    cases hx with
    | table f e l => have := firstOf_unique f hf; subst this; cases e; exact l
    | plain n _ _ => exact absurd hf (n _)
    | record n _ _ _ => exact absurd hf (n _)
    | item n _ _ _ => exact absurd hf (n _)
    | none n _ _ _ => exact absurd hf (n _)
  cases hm with
  | self => rw [F.leaf _ hP] at he; cases he
  | inside he' hem hm =>
    rw [he] at he'; cases he'
    rename_i e
    have : e ∈ pre ++ post ∨ e = .tup es := by simp at hem ⊢; tauto
    rcases this with h1 | rfl
    · exact absurd hm ((hu e h1).2 x hP)
    · cases hm with
      | self => cases F.leaf _ hP
      | inside he2 hem2 hm2 =>
        cases he2
        rename_i r
        obtain ⟨y, hy, rest, hr⟩ := exists_of_forall₂ hxs r hem2
        obtain ⟨y', rest', h1, h2, h3⟩ := hes r hem2
        rw [hr] at h1; cases h1
        cases hm2 with
        | self => rw [F.leaf _ hP] at hr; cases hr
        | inside he3 hem3 hm3 =>
          rw [hr] at he3; cases he3
          rcases List.mem_cons.mp hem3 with rfl | h4
          · rw [mentions_leaf hm3 (F.leaf _ h2)]; exact hy
          · exact absurd hm3 (h3 _ h4 x hP)

theorem list_complete {Table Plain P : Md → Prop} (F : LayoutFacts Table Plain P) {md : Md} (h : ListLayout Plain P md) {xs : List Md}
    (hx : Listed Table Plain P md xs) {x : Md} (hP : P x) (hm : Mentions x md) : x ∈ xs := by
  obtain ⟨pre, R, post, he, hu, hne, hR⟩ := h
  obtain ⟨es, hes, hall⟩ := F.plain _ hR
  have hxe : x ∈ es := by
    cases hm with
    | self => rw [F.leaf _ hP] at he; cases he
    | inside he' hem hm =>
      rw [he] at he'; cases he'
      rename_i e
      have : e ∈ pre ++ post ∨ e = R := by simp at hem ⊢; tauto
      rcases this with h1 | rfl
      · exact absurd hm ((hu e h1).2 x hP)
      · cases hm with
        | self => rw [F.leaf _ hP] at hes; cases hes
        | inside he2 hem2 hm2 =>
          rw [hes] at he2; cases he2
          rw [mentions_leaf hm2 (F.leaf _ (hall _ hem2))]; exact hem2
  have hnt : ∀ R, ¬FirstOf Table md R := by
    intro R' f
    cases f with
    | self h => exact (not_table_list F he hu hne).1 h
    | component _ he' _ ht =>
      rw [he] at he'
      have hR' : R' ∈ pre ++ R :: post := by rw [Option.some.inj he']; simp
      have : R' ∈ pre ++ post ∨ R' = R := by simp at hR' ⊢; tauto
      rcases this with h1 | rfl
      · exact (unrelated_not (hu R' h1)).2.2.1 (F.table _ ht)
      · obtain ⟨es', hes', hr⟩ := F.table _ ht
        rw [hes] at hes'; cases hes'
        obtain ⟨y, rest, h1, _⟩ := hr x hxe
        rw [F.leaf _ (hall x hxe)] at h1; cases h1
  have hf : FirstOf Plain md R :=
    .component (not_table_list F he hu hne).2 he (fun e hem hp => (unrelated_not (hu e (by simp [hem]))).2.2.2 (F.plain _ hp)) hR
  cases hx with
  | table f => exact absurd f (hnt _)
  | plain _ f e => have := firstOf_unique f hf; subst this; rw [hes] at e; cases e; exact hxe
  | record _ n _ _ => exact absurd hf (n _)
  | item _ n _ _ => exact absurd hf (n _)
  | none _ n _ _ => exact absurd hf (n _)

/-- `extract_bases` and `extract_members`: what is listed, unless the table is a `std::array`. -/
theorem shape_listed {p : MTy → Bool} {P : Md → Prop} (hp : ∀ m : Md, p m.typeOf = true ↔ P m) (hprom : ∀ m, P m → promote m = m)
    (hn : p .nullopt = false) {md : Md} (hw : WT md) :
    ∃ xs, Listed (IsTableOf P) (IsListOf P) P md xs ∧
      (∀ B, shape (isTupleOf (isRecord p)) (isTupleOf p) (isRecord p) p extractHeterogeneousColumn0 (fun b => some (.tup [b]))
          (some (.tup [])) md = some B → B.elems = some xs) ∧
      (shape (isTupleOf (isRecord p)) (isTupleOf p) (isRecord p) p extractHeterogeneousColumn0 (fun b => some (.tup [b]))
          (some (.tup [])) md = none ↔ ∃ t es, FirstOf (IsTableOf P) md (.arr t es)) := by
  rcases shape_spec (col := extractHeterogeneousColumn0) (one := fun b => some (.tup [b])) (fallback := some (.tup []))
      (fun {m} => tableOf_iff hp (R := m)) (fun {m} => listOf_iff hp (R := m)) (fun {m} => recordOf_iff hp (r := m))
      (fun {m} _ => hp m) ⟨rfl, rfl, rfl, hn⟩ hw with
    ⟨R, f, hwR, h⟩ | ⟨t1, R, f, hwR, h⟩ | ⟨t1, l1, R, f, hwR, h⟩ | ⟨t1, l1, r1, R, f, hwR, h⟩ | ⟨t1, l1, r1, i1, h⟩
  · obtain ⟨es, he, hr⟩ := firstOf_prop f
    obtain ⟨xs, h1, h2, h3⟩ := column0_of_records hprom hr
    refine ⟨xs, .table f he h3, ?_⟩
    rw [h, promote_of_elems he]
    cases R with
    | arr t es' => exact ⟨fun B hB => (by cases hB), fun _ => ⟨t, es', f⟩, fun _ => rfl⟩
    | tup es' =>
      cases he
      have hx : extractHeterogeneousColumn0 (.tup es) = some (.tup xs) := by simp only [extractHeterogeneousColumn0]; rw [h1]; rfl
      rw [hx]
      exact ⟨fun B hB => by cases hB; rfl, fun hB => (by cases hB), fun ⟨t, es', f'⟩ => by cases firstOf_unique f f'⟩
    | _ => cases he
  · obtain ⟨es, he, hr⟩ := firstOf_prop f
    rw [h, promote_of_elems he]
    exact ⟨es, .plain t1 f he, fun B hB => (by cases hB; exact he), fun hB => (by cases hB), fun ⟨_, _, f'⟩ => absurd f' (t1 _)⟩
  · obtain ⟨x, rest, he, hr⟩ := firstOf_prop f
    have hx : (getElem 0 (promote R)).bind (fun b => some (Md.tup [b])) = some (Md.tup [x]) := by rw [promote_of_elems he]; simp [getElem, he]
    rw [h, hx]
    exact ⟨[x], .record t1 l1 f he, fun B hB => (by cases hB; rfl), fun hB => (by cases hB), fun ⟨_, _, f'⟩ => absurd f' (t1 _)⟩
  · rw [h, hprom _ (firstOf_prop f)]
    exact ⟨[R], .item t1 l1 r1 f, fun B hB => (by cases hB; rfl), fun hB => (by cases hB), fun ⟨_, _, f'⟩ => absurd f' (t1 _)⟩
  · rw [h]
    exact ⟨[], .none t1 l1 r1 i1, fun B hB => (by cases hB; rfl), fun hB => (by cases hB), fun ⟨_, _, f'⟩ => absurd f' (t1 _)⟩

theorem values_listed {T : Nat} {md : Md} (hw : WT md) (ha : md.isAvailable = true) :
    ∃ xs, ListedValues T md xs ∧ extractValues T md = some (.arr (.ty T) xs) := by
  rw [extractValues_shape, ha]
  rcases shape_spec (col := extractColumn (.ty T) 0) (one := fun v => (convertTo (.ty T) v).map fun v => .arr (.ty T) [v])
      (fallback := some (.arr (.ty T) [])) (fun {m} => isValueRecordTuple_iff (T := T) (R := m)) (fun {m} _ => valueArray_iff (T := T) (m := m))
      (fun {m} => recordOf_iff (P := IsValueOf T) (fun m => isValue_iff) (r := m))
      (fun {m} _ => isValue_iff (T := T) (m := m)) ⟨rfl, rfl, rfl, rfl⟩ hw with
    ⟨R, f, hwR, h⟩ | ⟨t1, R, f, hwR, h⟩ | ⟨t1, l1, R, f, hwR, h⟩ | ⟨t1, l1, r1, R, f, hwR, h⟩ | ⟨t1, l1, r1, i1, h⟩
  · obtain ⟨rs, hrs⟩ := firstOf_prop f
    have hrs' := hrs
    obtain ⟨⟨es, he, hf⟩, _⟩ := hrs
    refine ⟨rs.map fun x => .val T x.1, .table f he ?_, ?_⟩
    · clear he h hrs'
      induction hf with
      | nil => exact .nil
      | cons h _ ih => exact .cons ⟨_, h⟩ ih
    · rw [if_pos rfl, h, promote_of_elems he, extractColumn_values hrs']
  · obtain ⟨es, rfl⟩ := firstOf_prop f
    exact ⟨es, .plain t1 f rfl, by rw [if_pos rfl, h]; rfl⟩
  · obtain ⟨x, rest, he, v, rfl⟩ := firstOf_prop f
    exact ⟨[.val T v], .record t1 l1 f he, by
      rw [if_pos rfl, h, promote_of_elems he]; simp [getElem, he, convertTo, Md.typeOf, MTy.same]⟩
  · obtain ⟨v, rfl⟩ := firstOf_prop f
    exact ⟨[.val T v], .item t1 l1 r1 f, by rw [if_pos rfl, h]; simp [promote, convertTo, Md.typeOf, MTy.same]⟩
  · exact ⟨[], .none t1 l1 r1 i1, by rw [if_pos rfl]; exact h⟩

end Makeshift.Metadata
