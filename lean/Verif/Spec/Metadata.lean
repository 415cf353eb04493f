import Mathlib.Data.List.Forall2
import Verif.Model.Metadata

/-!
# What metadata means

Specification of metadata objects in terms of tables: a *record* is a tuple (or array) which starts with the thing described, a
*table* is a tuple (or array) of records.  None of the type predicates or extraction functions of the model is used here.
-/

namespace Makeshift.Spec

mutual
/-- Well-typed metadata: the elements of a `std::array<R, N>` have type `R`. -/
def WT : Md → Prop
  | .arr t es => (∀ e ∈ es, e.typeOf = t) ∧ WTs es
  | .tup es => WTs es
  | _ => True
/-- All objects in a list are well-typed. -/
def WTs : List Md → Prop
  | [] => True
  | e :: es => WT e ∧ WTs es
end

mutual
/-- The object has the type.  (What an array contains is a matter of `WT`.) -/
def HasType : Md → MTy → Prop
  | .nullopt, t => t = .nullopt
  | .cstr _, t => t = .cstr
  | .sv _, t => t = .sv
  | .val id _, t => t = .ty id
  | .typeId c, t => t = .typeId c
  | .memPtr c dt _, t => t = .memPtr c dt
  | .arr r es, t => t = .arr r es.length
  | .tup es, t => ∃ ts, t = .tup ts ∧ HaveTypes es ts
/-- The objects have the types. -/
def HaveTypes : List Md → List MTy → Prop
  | [], ts => ts = []
  | e :: es, ts => ∃ t ts', ts = t :: ts' ∧ HasType e t ∧ HaveTypes es ts'
end

/-- The string an object of a type convertible to `std::string_view` stands for. -/
def strOf : Md → Option Str
  | .cstr s => some s
  | .sv s => some s
  | _ => none

/-- The strings among a list of objects, in order. -/
def stringsOf (es : List Md) : List Str := es.filterMap strOf

/-- `r` is a record which describes value `x.1` of type `T` by the further entries `x.2`. -/
def IsValueRecord (T : Nat) (r : Md) (x : Int × List Md) : Prop := r.elems = some (.val T x.1 :: x.2)

/-- `R` is a table of values of `T`, with the given records.  An empty `std::array<R, 0>` is one only if `R` is a record type. -/
def IsValueTable (T : Nat) (R : Md) (rs : List (Int × List Md)) : Prop :=
  (∃ es, R.elems = some es ∧ List.Forall₂ (IsValueRecord T) es rs)
    ∧ ∀ t, R = .arr t [] → ∃ ts, t.elems = some (.ty T :: ts)

/-- The metadata object contains this table: it is one itself, or its first component which is one has these records. -/
def ValueTable (T : Nat) (md : Md) (rs : List (Int × List Md)) : Prop :=
  IsValueTable T md rs ∨
    ((∀ rs', ¬IsValueTable T md rs') ∧
      ∃ pre R post, md.elems = some (pre ++ R :: post) ∧ (∀ x ∈ pre, ∀ rs', ¬IsValueTable T x rs') ∧ IsValueTable T R rs)

/-- `m` is a pointer to a member of class `T`. -/
def IsMemberPtr (T : Nat) (m : Md) : Prop := ∃ dt id, m = .memPtr T dt id

/-- `R` is a tuple of records describing members of `T`: each record consists of the member pointer `x.1` and entries `x.2`. -/
def IsMemberTable (T : Nat) (R : Md) (rs : List (Md × List Md)) : Prop :=
  ∃ es, R.elems = some es ∧ List.Forall₂ (fun e (x : Md × List Md) => e.elems = some (x.1 :: x.2) ∧ IsMemberPtr T x.1) es rs

/-- The metadata object contains this table of members. -/
def MemberTable (T : Nat) (md : Md) (rs : List (Md × List Md)) : Prop :=
  IsMemberTable T md rs ∨
    ((∀ rs', ¬IsMemberTable T md rs') ∧
      ∃ pre R post, md.elems = some (pre ++ R :: post) ∧ (∀ x ∈ pre, ∀ rs', ¬IsMemberTable T x rs') ∧ IsMemberTable T R rs)

/-- In the metadata of class `T`, member `m` is described by a record whose string number `k` is `n`. -/
def StringIn (reflect : Nat → Md) (T k : Nat) (m : Md) (n : Str) : Prop :=
  ∃ rs r, MemberTable T (reflect T) rs ∧ r ∈ rs ∧ r.1 = m ∧ (stringsOf r.2)[k]? = some n

/-- In the metadata of class `T`, member `m` is described by a record whose first string is `n`. -/
def NamedIn (reflect : Nat → Md) (T : Nat) (m : Md) (n : Str) : Prop :=
  ∃ rs r, MemberTable T (reflect T) rs ∧ r ∈ rs ∧ r.1 = m ∧ (stringsOf r.2).head? = some n

end Makeshift.Spec
