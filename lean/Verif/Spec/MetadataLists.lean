import Verif.Spec.Metadata

/-!
# What metadata lists

Values, base classes and members can be listed in metadata in four layouts: a table of records which start with the item, a plain list
of items, a single record, a single item.  This is a specification of which items are listed, and of which items are mentioned at all.
None of the type predicates or extraction functions of the model is used here.
-/

namespace Makeshift.Spec

/-- `r` is a record which starts with an item. -/
def IsRecordOf (P : Md → Prop) (r : Md) : Prop := ∃ x rest, r.elems = some (x :: rest) ∧ P x

/-- `R` is a tuple-like object of such records. -/
def IsTableOf (P : Md → Prop) (R : Md) : Prop := ∃ es, R.elems = some es ∧ ∀ e ∈ es, IsRecordOf P e

/-- `R` is a tuple-like object of items. -/
def IsListOf (P : Md → Prop) (R : Md) : Prop := ∃ es, R.elems = some es ∧ ∀ e ∈ es, P e

/-- `R` is the metadata object itself if this satisfies `Q`, otherwise its first component which does. -/
inductive FirstOf (Q : Md → Prop) (md : Md) : Md → Prop
  | self : Q md → FirstOf Q md md
  | component {pre post : List Md} {R : Md} : ¬Q md → md.elems = some (pre ++ R :: post) → (∀ x ∈ pre, ¬Q x) → Q R → FirstOf Q md R

/-- The items listed by a metadata object, if `Table` tells which objects are tables and `Plain` which are plain lists: the layouts are
looked for one after the other. -/
inductive Listed (Table Plain P : Md → Prop) (md : Md) : List Md → Prop
  | table {R : Md} {es xs : List Md} : FirstOf Table md R → R.elems = some es →
      List.Forall₂ (fun e x => ∃ rest, Md.elems e = some (x :: rest)) es xs → Listed Table Plain P md xs
  | plain {R : Md} {xs : List Md} : (∀ R, ¬FirstOf Table md R) → FirstOf Plain md R → R.elems = some xs → Listed Table Plain P md xs
  | record {R x : Md} {rest : List Md} : (∀ R, ¬FirstOf Table md R) → (∀ R, ¬FirstOf Plain md R) → FirstOf (IsRecordOf P) md R →
      R.elems = some (x :: rest) → Listed Table Plain P md [x]
  | item {x : Md} : (∀ R, ¬FirstOf Table md R) → (∀ R, ¬FirstOf Plain md R) → (∀ R, ¬FirstOf (IsRecordOf P) md R) →
      FirstOf P md x → Listed Table Plain P md [x]
  | none : (∀ R, ¬FirstOf Table md R) → (∀ R, ¬FirstOf Plain md R) → (∀ R, ¬FirstOf (IsRecordOf P) md R) →
      (∀ R, ¬FirstOf P md R) → Listed Table Plain P md []

/-- A designator of a base class of `T`. -/
def IsBase (isBaseOf : Nat → Nat → Bool) (T : Nat) (m : Md) : Prop := ∃ u, m = .typeId u ∧ isBaseOf u T = true

/-- A value of type `T`. -/
def IsValueOf (T : Nat) (m : Md) : Prop := ∃ v, m = .val T v

/-- The base classes listed by the metadata of class `T`. -/
def ListedBases (isBaseOf : Nat → Nat → Bool) (T : Nat) : Md → List Md → Prop :=
  Listed (IsTableOf (IsBase isBaseOf T)) (IsListOf (IsBase isBaseOf T)) (IsBase isBaseOf T)

/-- The members listed by the metadata of class `T`. -/
def ListedMembers (T : Nat) : Md → List Md → Prop :=
  Listed (IsTableOf (IsMemberPtr T)) (IsListOf (IsMemberPtr T)) (IsMemberPtr T)

/-- The values listed by the metadata of type `T`; only a `std::array<T, N>` is a plain list of values. -/
def ListedValues (T : Nat) : Md → List Md → Prop :=
  Listed (fun R => ∃ rs, IsValueTable T R rs) (fun R => ∃ es, R = .arr (.ty T) es) (IsValueOf T)

/-- `x` is mentioned somewhere in the metadata object. -/
inductive Mentions (x : Md) : Md → Prop
  | self : Mentions x x
  | inside {m e : Md} {es : List Md} : m.elems = some es → e ∈ es → Mentions x e → Mentions x m

/-- No item is mentioned in `m`, and `m` is not an empty tuple or array (which could be a list of anything). -/
def Unrelated (P : Md → Prop) (m : Md) : Prop := m.elems ≠ some [] ∧ ∀ x, P x → ¬Mentions x m

/-- The metadata object consists of a table of items, the items being mentioned only at the head of the records, besides at least one
other component, which are unrelated. -/
def TableLayout (P : Md → Prop) (md : Md) : Prop :=
  ∃ pre es post, md.elems = some (pre ++ .tup es :: post) ∧ (∀ e ∈ pre ++ post, Unrelated P e) ∧ pre ++ post ≠ [] ∧
    ∀ e ∈ es, ∃ x rest, e.elems = some (x :: rest) ∧ P x ∧ ∀ y ∈ rest, ∀ z, P z → ¬Mentions z y

/-- The metadata object consists of a plain list of items besides at least one other component, which are unrelated. -/
def ListLayout (Plain P : Md → Prop) (md : Md) : Prop :=
  ∃ pre R post, md.elems = some (pre ++ R :: post) ∧ (∀ e ∈ pre ++ post, Unrelated P e) ∧ pre ++ post ≠ [] ∧ Plain R

end Makeshift.Spec
