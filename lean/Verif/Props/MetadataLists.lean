import Verif.Lemmas.MetadataLists

/-!
# Which values, base classes and members metadata lists: C80
-/

namespace Makeshift.Props

open Makeshift.Spec Makeshift.Metadata

/-- C80: for a class with metadata, `bases` gives the base classes which the metadata lists in one of the layouts; it fails to compile
exactly if these are given as a `std::array` of records. -/
theorem C80_bases (env : Env) (T : Nat) (hw : WT (env.reflect T)) (ha : (env.reflect T).isAvailable = true) (hc : env.isClass T = true) :
    ∃ xs, ListedBases env.isBaseOf T (env.reflect T) xs ∧
      (∀ B, bases env T = some B → B.elems = some xs) ∧
      (bases env T = none ↔ ∃ t es, FirstOf (IsTableOf (IsBase env.isBaseOf T)) (env.reflect T) (.arr t es)) := by
  obtain ⟨xs, h1, h2⟩ := shape_listed (p := isBase env T) (fun _ => isBase_iff) (by rintro m ⟨u, rfl, _⟩; rfl) rfl hw
  refine ⟨xs, h1, ?_⟩
  unfold bases
  rw [extractBases_shape, ha, hc]
  exact h2

/-- C80: the same for `exclusive_members`. -/
theorem C80_members (env : Env) (T : Nat) (hw : WT (env.reflect T)) (ha : (env.reflect T).isAvailable = true) (hc : env.isClass T = true) :
    ∃ xs, ListedMembers T (env.reflect T) xs ∧
      (∀ M, exclusiveMembers env T = some M → M.elems = some xs) ∧
      (exclusiveMembers env T = none ↔ ∃ t es, FirstOf (IsTableOf (IsMemberPtr T)) (env.reflect T) (.arr t es)) := by
  obtain ⟨xs, h1, h2⟩ := shape_listed (p := isMember T) (fun _ => isMember_iff) (by rintro m ⟨_, _, rfl⟩; rfl) rfl hw
  refine ⟨xs, h1, ?_⟩
  unfold exclusiveMembers
  rw [extractMembers_shape, ha, hc]
  exact h2

/-- C80: the same for `values`, which always compiles. -/
theorem C80_values (env : Env) (T : Nat) (hw : WT (env.reflect T)) (ha : (env.reflect T).isAvailable = true) :
    ∃ xs, ListedValues T (env.reflect T) xs ∧ values env T = some (.arr (.ty T) xs) := values_listed hw ha

/-- C80: a metadata object lists one thing only: the layouts exclude each other. -/
theorem C80_unambiguous {Table Plain P : Md → Prop} {md : Md} {xs ys : List Md} (h : Listed Table Plain P md xs)
    (h' : Listed Table Plain P md ys) : xs = ys := listed_unique h h'

/-- C80: nothing is listed for types without metadata. -/
theorem C80_unavailable (env : Env) (T : Nat) (h : env.reflect T = .nullopt) :
    bases env T = some .nullopt ∧ exclusiveMembers env T = some .nullopt ∧ values env T = some .nullopt := by
  refine ⟨?_, ?_, ?_⟩
  · unfold bases; rw [h]; rfl
  · unfold exclusiveMembers; rw [h]; rfl
  · unfold values; rw [h]; rfl

private theorem baseFacts (isBaseOf : Nat → Nat → Bool) (T : Nat) :
    LayoutFacts (IsTableOf (IsBase isBaseOf T)) (IsListOf (IsBase isBaseOf T)) (IsBase isBaseOf T) :=
  ⟨by rintro x ⟨u, rfl, _⟩; rfl, fun _ h => h, fun _ h => h, fun _ h => h⟩

private theorem memberFacts (T : Nat) : LayoutFacts (IsTableOf (IsMemberPtr T)) (IsListOf (IsMemberPtr T)) (IsMemberPtr T) :=
  ⟨by rintro x ⟨_, _, rfl⟩; rfl, fun _ h => h, fun _ h => h, fun _ h => h⟩

private theorem valueTable_isTable {T : Nat} {R : Md} {rs : List (Int × List Md)} (h : IsValueTable T R rs) : IsTableOf (IsValueOf T) R := by
  obtain ⟨⟨es, he, hf⟩, _⟩ := h
  refine ⟨es, he, fun e hem => ?_⟩
  obtain ⟨x, _, hx⟩ := exists_of_forall₂ hf e hem
  exact ⟨_, _, hx, _, rfl⟩

private theorem valueTable_of_tuple {T : Nat} {es : List Md} (h : IsTableOf (IsValueOf T) (.tup es)) : ∃ rs, IsValueTable T (.tup es) rs := by
  obtain ⟨es', he, hr⟩ := h
  cases he
  obtain ⟨rs, hrs⟩ := forall₂_of_forall_exists (P := IsValueRecord T) (l := es) fun e hem => by
    obtain ⟨x, rest, h1, v, rfl⟩ := hr e hem
    exact ⟨(v, rest), h1⟩
  exact ⟨rs, ⟨es, rfl, hrs⟩, fun t ht => by cases ht⟩

/-- C80: every base class given by `bases` is a base class and is mentioned in the metadata; likewise for members. -/
theorem C80_sound (env : Env) (T : Nat) (hw : WT (env.reflect T)) (ha : (env.reflect T).isAvailable = true) (hc : env.isClass T = true) :
    (∀ B xs, bases env T = some B → B.elems = some xs → ∀ x ∈ xs, IsBase env.isBaseOf T x ∧ Mentions x (env.reflect T)) ∧
    (∀ M xs, exclusiveMembers env T = some M → M.elems = some xs → ∀ x ∈ xs, IsMemberPtr T x ∧ Mentions x (env.reflect T)) := by
  constructor
  · intro B xs hB hxs
    obtain ⟨ys, h1, h2, _⟩ := C80_bases env T hw ha hc
    have h3 := h2 B hB
    rw [hxs] at h3; cases h3
    exact listed_sound (fun _ h => h) (fun _ h => h) h1
  · intro B xs hB hxs
    obtain ⟨ys, h1, h2, _⟩ := C80_members env T hw ha hc
    have h3 := h2 B hB
    rw [hxs] at h3; cases h3
    exact listed_sound (fun _ h => h) (fun _ h => h) h1

private theorem values_WT {T : Nat} : ∀ {md : Md}, WT md → ∀ {R : Md} {Q : Md → Prop}, FirstOf Q md R → WT R := by
  intro md hw R Q f
  cases f with
  | self => exact hw
  | component _ he _ _ => exact elems_WT hw he R (by simp)

/-- C80: every value given by `values` is mentioned in the metadata. -/
theorem C80_values_sound (env : Env) (T : Nat) (hw : WT (env.reflect T)) (ha : (env.reflect T).isAvailable = true) {xs : List Md}
    (h : values env T = some (.arr (.ty T) xs)) : ∀ x ∈ xs, IsValueOf T x ∧ Mentions x (env.reflect T) := by
  obtain ⟨ys, h1, h2⟩ := C80_values env T hw ha
  rw [h] at h2; cases h2
  intro x hx
  by_cases hl : ∃ es, FirstOf (fun R => ∃ es, R = .arr (.ty T) es) (env.reflect T) (.arr (.ty T) es) ∧ xs = es
  · obtain ⟨es, f, rfl⟩ := hl
    have hwR := values_WT (T := T) hw f
    refine ⟨?_, mentions_of_firstOf f (.inside rfl hx .self)⟩
    have := hwR.1 x hx
    cases x <;> simp [Md.typeOf] at this
    subst this; exact ⟨_, rfl⟩
  · cases h1 with
    | table f he hf =>
      exact listed_sound (Table := fun R => ∃ rs, IsValueTable T R rs) (Plain := fun _ => False) (P := IsValueOf T)
        (fun R ⟨rs, h⟩ => valueTable_isTable h) (fun _ h => h.elim) (.table f he hf) x hx
    | plain _ f he =>
      obtain ⟨es, rfl⟩ := firstOf_prop f
      cases he
      exact absurd ⟨_, f, rfl⟩ hl
    | record t1 _ f he =>
      exact listed_sound (Table := fun R => ∃ rs, IsValueTable T R rs) (Plain := fun _ => False) (P := IsValueOf T)
        (fun R ⟨rs, h⟩ => valueTable_isTable h) (fun _ h => h.elim) (.record t1 (fun R f => firstOf_prop f) f he) x hx
    | item t1 _ r1 f =>
      exact listed_sound (Table := fun R => ∃ rs, IsValueTable T R rs) (Plain := fun _ => False) (P := IsValueOf T)
        (fun R ⟨rs, h⟩ => valueTable_isTable h) (fun _ h => h.elim) (.item t1 (fun R f => firstOf_prop f) r1 f) x hx
    | none => cases hx

/-- C80 (partial): every base class mentioned in the metadata is given by `bases`. Missing: metadata in which the base classes are not
all part of one table or list, or in which nothing else stands beside it, for which the claim is false (`C80_bases_dropped`). -/
theorem C80_bases_complete_partial (env : Env) (T : Nat) (hw : WT (env.reflect T)) (hc : env.isClass T = true)
    (hl : TableLayout (IsBase env.isBaseOf T) (env.reflect T) ∨
      ListLayout (IsListOf (IsBase env.isBaseOf T)) (IsBase env.isBaseOf T) (env.reflect T))
    {B : Md} {xs : List Md} (hB : bases env T = some B) (hxs : B.elems = some xs) (x : Md) :
    x ∈ xs ↔ IsBase env.isBaseOf T x ∧ Mentions x (env.reflect T) := by
  have ha : (env.reflect T).isAvailable = true := by
    rcases hl with ⟨_, _, _, he, _⟩ | ⟨_, _, _, he, _⟩ <;> revert he <;> cases env.reflect T <;> simp [Md.elems, Md.isAvailable]
  refine ⟨(C80_sound env T hw ha hc).1 B xs hB hxs x, fun ⟨hP, hm⟩ => ?_⟩
  obtain ⟨ys, h1, h2, _⟩ := C80_bases env T hw ha hc
  have h3 := h2 _ hB
  rw [hxs] at h3; cases h3
  rcases hl with hl | hl
  · exact table_complete (baseFacts _ T) hl h1 hP hm
  · exact list_complete (baseFacts _ T) hl h1 hP hm

/-- C80 (partial): likewise for members. -/
theorem C80_members_complete_partial (env : Env) (T : Nat) (hw : WT (env.reflect T)) (hc : env.isClass T = true)
    (hl : TableLayout (IsMemberPtr T) (env.reflect T) ∨ ListLayout (IsListOf (IsMemberPtr T)) (IsMemberPtr T) (env.reflect T))
    {M : Md} {xs : List Md} (hM : exclusiveMembers env T = some M) (hxs : M.elems = some xs) (x : Md) :
    x ∈ xs ↔ IsMemberPtr T x ∧ Mentions x (env.reflect T) := by
  have ha : (env.reflect T).isAvailable = true := by
    rcases hl with ⟨_, _, _, he, _⟩ | ⟨_, _, _, he, _⟩ <;> revert he <;> cases env.reflect T <;> simp [Md.elems, Md.isAvailable]
  refine ⟨(C80_sound env T hw ha hc).2 M xs hM hxs x, fun ⟨hP, hm⟩ => ?_⟩
  obtain ⟨ys, h1, h2, _⟩ := C80_members env T hw ha hc
  have h3 := h2 _ hM
  rw [hxs] at h3; cases h3
  rcases hl with hl | hl
  · exact table_complete (memberFacts T) hl h1 hP hm
  · exact list_complete (memberFacts T) hl h1 hP hm

/-- C80 (partial): likewise for values in a table. -/
theorem C80_values_complete_partial (env : Env) (T : Nat) (hw : WT (env.reflect T)) (hl : TableLayout (IsValueOf T) (env.reflect T))
    {xs : List Md} (h : values env T = some (.arr (.ty T) xs)) (x : Md) :
    x ∈ xs ↔ IsValueOf T x ∧ Mentions x (env.reflect T) := by
  have ha : (env.reflect T).isAvailable = true := by
    obtain ⟨_, _, _, he, _⟩ := hl; revert he; cases env.reflect T <;> simp [Md.elems, Md.isAvailable]
  refine ⟨C80_values_sound env T hw ha h x, fun ⟨hP, hm⟩ => ?_⟩
  obtain ⟨ys, h1, h2⟩ := C80_values env T hw ha
  rw [h] at h2; cases h2
  have F : LayoutFacts (fun R => ∃ rs, IsValueTable T R rs) (fun _ => False) (IsValueOf T) :=
    ⟨by rintro x ⟨_, rfl⟩; rfl, fun _ ⟨_, h⟩ => valueTable_isTable h, fun _ h => h.elim, fun _ h => valueTable_of_tuple h⟩
  obtain ⟨pre, es, post, he, hu, hne, hes⟩ := hl
  have hf : FirstOf (fun R => ∃ rs, IsValueTable T R rs) (env.reflect T) (.tup es) :=
    .component (not_table_list F he hu hne).1 he (fun e hem ht => (unrelated_not (hu e (by simp [hem]))).2.2.1 (F.table _ ht))
      (F.tuple _ ⟨es, rfl, fun e hem => by obtain ⟨x, rest, h1, h2, _⟩ := hes e hem; exact ⟨x, rest, h1, h2⟩⟩)
  cases h1 with
  | table f e l => exact table_complete F ⟨pre, es, post, he, hu, hne, hes⟩ (.table f e l) hP hm
  | plain n _ _ => exact absurd hf (n _)
  | record n _ _ _ => exact absurd hf (n _)
  | item n _ _ _ => exact absurd hf (n _)
  | none n _ _ _ => exact absurd hf (n _)

/-! Class 2 has the base classes 0 and 1; its metadata is `md`. -/

/-- The reflected types. -/
def listEnv (md : Md) : Env where
  reflect u := if u = 2 then md else .nullopt
  isBaseOf u t := decide (t = 2 ∧ u < 2)
  isClass _ := true
  base_le u t h := by simp at h; omega

/-- C80 is false: metadata which consists of just the list of base classes loses all but the first of them, because such a list looks
like a table with one record; so does metadata which starts with several base classes and goes on with something else. -/
theorem C80_bases_dropped :
    bases (listEnv (.tup [.tup [.typeId 0, .typeId 1]])) 2 = some (.tup [.typeId 0]) ∧
    bases (listEnv (.tup [.typeId 0, .typeId 1, .cstr [110]])) 2 = some (.tup [.typeId 0]) ∧
    bases (listEnv (.tup [.cstr [110], .tup [], .tup [.typeId 0, .typeId 1]])) 2 = some (.tup []) := ⟨rfl, rfl, rfl⟩

/-- C80: likewise for members, and for values given as a tuple rather than an array. -/
theorem C80_others_dropped :
    exclusiveMembers (listEnv (.tup [.memPtr 2 5 0, .memPtr 2 5 1, .cstr [110]])) 2 = some (.tup [.memPtr 2 5 0]) ∧
    values (listEnv (.tup [.val 2 10, .val 2 11])) 2 = some (.arr (.ty 2) [.val 2 10]) ∧
    values (listEnv (.tup [.cstr [110], .val 2 10, .val 2 11])) 2 = some (.arr (.ty 2) [.val 2 10]) := ⟨rfl, rfl, rfl⟩

/-- The metadata with a name and a list of two base classes. -/
def listedMd : Md := .tup [.cstr [110], .tup [.typeId 0, .typeId 1]]

private theorem name_unrelated {P : Md → Prop} (h : ∀ s, ¬P (.cstr s)) (s : Str) : Unrelated P (.cstr s) :=
  ⟨by simp [Md.elems], fun x hx hm => by rw [mentions_leaf hm rfl] at hx; exact h s hx⟩

-- `C80_bases_complete_partial` applies to metadata with a name and a list of base classes, and both are listed
example : ListLayout (IsListOf (IsBase (listEnv listedMd).isBaseOf 2)) (IsBase (listEnv listedMd).isBaseOf 2) ((listEnv listedMd).reflect 2) ∧
    bases (listEnv listedMd) 2 = some (.tup [.typeId 0, .typeId 1]) := by
  refine ⟨⟨[.cstr [110]], .tup [.typeId 0, .typeId 1], [], rfl, ?_, by simp, _, rfl, ?_⟩, rfl⟩
  · simp only [List.append_nil, List.mem_singleton, forall_eq]
    exact name_unrelated (by rintro s ⟨u, h, _⟩; cases h) _
  · intro e he
    simp at he
    rcases he with rfl | rfl
    · exact ⟨0, rfl, by decide⟩
    · exact ⟨1, rfl, by decide⟩
-- the same with a table of members
example : TableLayout (IsMemberPtr 2) (.tup [.cstr [110], .tup [.tup [.memPtr 2 5 0, .cstr [120]], .tup [.memPtr 2 5 1, .cstr [121]]]]) ∧
    exclusiveMembers (listEnv (.tup [.cstr [110], .tup [.tup [.memPtr 2 5 0, .cstr [120]], .tup [.memPtr 2 5 1, .cstr [121]]]])) 2
      = some (.tup [.memPtr 2 5 0, .memPtr 2 5 1]) := by
  have hn : ∀ s y, y ∈ [Md.cstr s] → ∀ z, IsMemberPtr 2 z → ¬Mentions z y := by
    intro s y hy z hz
    simp at hy; subst hy
    exact (name_unrelated (by rintro s ⟨u, h, _⟩; simp_all) s).2 z hz
  refine ⟨⟨[.cstr [110]], [.tup [.memPtr 2 5 0, .cstr [120]], .tup [.memPtr 2 5 1, .cstr [121]]], [], rfl, ?_, by simp, ?_⟩, rfl⟩
  · simp only [List.append_nil, List.mem_singleton, forall_eq]
    exact name_unrelated (by rintro s ⟨u, h, _⟩; simp_all) _
  · intro e he
    simp at he
    rcases he with rfl | rfl
    · exact ⟨_, _, rfl, ⟨5, 0, rfl⟩, hn _⟩
    · exact ⟨_, _, rfl, ⟨5, 1, rfl⟩, hn _⟩

end Makeshift.Props
