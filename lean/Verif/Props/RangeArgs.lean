import Verif.Spec.RangeArgs
import Verif.Props.Zip
import Mathlib.Data.List.Forall2

/-! # C90: which types can be passed to the range algorithms -/

namespace Makeshift.Props

open Spec RangeArgs

/-! ## sample types -/

/-- `std::vector<T>`, `std::list<T>`, `std::forward_list<T>`, `std::array<T, 3>`, `std::initializer_list<T>`; a type with `data()` but
without `size()`; a view which can be iterated only if it is not const; a view with a sentinel. -/
def vectorTy : Ty := .class ⟨true, true, true, true, false, true, none, true, true, true⟩
def listTy : Ty := .class ⟨true, true, false, false, false, true, none, true, true, true⟩
def forwardListTy : Ty := .class ⟨true, true, false, false, false, false, none, true, true, true⟩
def array3Ty : Ty := .class ⟨true, true, true, true, false, true, some 3, true, true, true⟩
def initializerListTy : Ty := .class ⟨true, true, false, false, true, true, none, true, true, true⟩
def dataOnlyTy : Ty := .class ⟨true, true, true, true, false, false, none, true, true, true⟩
def filterViewTy : Ty := .class ⟨true, false, false, false, false, false, none, true, true, true⟩

def sentinelViewTy : Ty := .class ⟨true, true, false, false, false, false, none, true, true, false⟩

/-- Full claim (false): every argument which can be iterated with a range-based `for` loop can be passed to the range algorithms.  Proved
for classes which have `data()` only together with `size()`, as a member function, and whose iterators are as before C++20; see
`C90_c_array`, `C90_initializer_list`, `C90_data_without_size`, `C90_iterators` for what is missing. -/
theorem C90_compiles_partial (args : List Argument)
    (h : ∀ a ∈ args, a.ty = .rangeIndex ∨ (Iterable a ∧ ConstIsWeaker a.ty ∧ ∃ c, a.ty = .class c ∧ VectorLike c ∧ ClassicIterators c)) :
    algorithmCompiles args = true := by
  simp only [algorithmCompiles, List.all_eq_true]
  intro a ha
  rcases h a ha with h | ⟨hi, hc, c, hty, hv⟩
  · simp [h, leafCompiles, leafMode, hasCategory]
  · obtain ⟨⟨hv1, hv2⟩, hv3, hv4⟩ := hv
    rcases a with ⟨t, k, r⟩
    simp only at hty
    subst hty
    simp only [Iterable, ConstIsWeaker] at hi hc
    obtain ⟨b, cb, d, cd, fd, cs, ts, tr, de, ce⟩ := c
    simp only at hv1 hv2 hv3 hv4 hc hi
    subst hv1 hv3 hv4
    cases k <;> cases b <;> cases cb <;> cases d <;> cases cd <;> cases cs <;>
      simp_all [leafCompiles, leafMode, hasData, hasSize, hasCategory, canBegin, canData, iteratorUsable]

example : let args : List Argument := [⟨vectorTy, true, false⟩, ⟨listTy, false, true⟩, ⟨filterViewTy, false, false⟩, ⟨.rangeIndex, true, false⟩]
    (∀ a ∈ args, a.ty = .rangeIndex ∨ (Iterable a ∧ ConstIsWeaker a.ty ∧ ∃ c, a.ty = .class c ∧ VectorLike c ∧ ClassicIterators c)) ∧
    algorithmCompiles args = true := by
  refine ⟨?_, by decide⟩
  intro a ha
  simp only [List.mem_cons, List.not_mem_nil, or_false] at ha
  rcases ha with rfl | rfl | rfl | rfl
  · exact Or.inr ⟨rfl, ⟨by decide, by decide⟩, _, rfl, by simp [VectorLike], rfl, rfl⟩
  · exact Or.inr ⟨rfl, ⟨by decide, by decide⟩, _, rfl, by simp [VectorLike], rfl, rfl⟩
  · exact Or.inr ⟨rfl, ⟨by decide, by decide⟩, _, rfl, by simp [VectorLike], rfl, rfl⟩
  · exact Or.inl rfl

/-- Exactly which argument lists compile: `range_index`; classes which can be iterated as lvalues with iterators that have a category and
are returned by value, and either have no `data`, can be iterated in the constness in which they are passed, and have iterators which can
be dereferenced if const, or have `data` and `size`, and the member function `data()` in that constness. -/
theorem C90_compiles_iff (args : List Argument) :
    algorithmCompiles args = true ↔ ∀ a ∈ args, a.ty = .rangeIndex ∨ ∃ c, a.ty = .class c ∧ c.begin_ = true ∧ c.traits = true ∧
      ((c.constData = false ∧ c.freeData = false ∧ Iterable a ∧ c.constDeref = true) ∨
       ((c.constData = true ∨ c.freeData = true) ∧ c.constSize = true ∧ (if a.const then c.constData = true else c.data = true))) := by
  simp only [algorithmCompiles, List.all_eq_true]
  refine forall_congr' fun a => forall_congr' fun _ => ?_
  rcases a with ⟨t, k, r⟩
  cases t with
  | rangeIndex => simp [leafCompiles, leafMode, hasCategory]
  | cArray n => simp [leafCompiles, leafMode, hasCategory]
  | «class» c =>
    obtain ⟨b, cb, d, cd, fd, cs, ts, tr, de, ce⟩ := c
    cases k <;> cases b <;> cases cb <;> cases d <;> cases cd <;> cases cs <;> cases fd <;>
      cases tr <;> cases de <;> simp [leafCompiles, leafMode, hasData, hasSize, hasCategory, canBegin, canData, iteratorUsable, Iterable]

example : algorithmCompiles [⟨vectorTy, false, false⟩, ⟨filterViewTy, true, false⟩] = false ∧
    algorithmCompiles [⟨array3Ty, true, true⟩] = true := by decide

/-- A C array can be iterated with a range-based `for` loop, but it cannot be passed to the algorithms. -/
theorem C90_c_array (args : List Argument) (n : Nat) (k r : Bool) (h : ⟨.cArray n, k, r⟩ ∈ args) :
    Iterable ⟨.cArray n, k, r⟩ ∧ algorithmCompiles args = false := by
  refine ⟨trivial, ?_⟩
  simp only [algorithmCompiles, List.all_eq_false]
  exact ⟨_, h, by simp [hasCategory]⟩

example : (⟨.cArray 3, false, false⟩ : Argument) ∈ [(⟨vectorTy, false, false⟩ : Argument), ⟨.cArray 3, false, false⟩] := by decide

/-- Nor can a `std::initializer_list`, ... -/
theorem C90_initializer_list (k r : Bool) :
    Iterable ⟨initializerListTy, k, r⟩ ∧ algorithmCompiles [⟨initializerListTy, k, r⟩] = false := by
  cases k <;> cases r <;> exact ⟨rfl, rfl⟩

/-- ... or a class with `data()` but without `size()`. -/
theorem C90_data_without_size (k r : Bool) :
    Iterable ⟨dataOnlyTy, k, r⟩ ∧ algorithmCompiles [⟨dataOnlyTy, k, r⟩] = false := by
  cases k <;> cases r <;> exact ⟨rfl, rfl⟩

/-- No class whose `begin` returns a reference to an iterator or whose iterators have no category can be passed, whatever else it
supports; nor can a class without `data()` whose iterators cannot be dereferenced if they are const.  All of these can be iterated with a
range-based `for` loop. -/
theorem C90_iterators (args : List Argument) (c : Class) (k r : Bool) (h : ⟨.class c, k, r⟩ ∈ args)
    (hc : c.traits = false ∨ (c.constDeref = false ∧ c.constData = false ∧ c.freeData = false)) :
    (Iterable ⟨.class c, k, r⟩ ↔ (if k then c.constBegin else c.begin_) = true) ∧ algorithmCompiles args = false := by
  refine ⟨by cases k <;> simp [Iterable], ?_⟩
  simp only [algorithmCompiles, List.all_eq_false]
  refine ⟨_, h, ?_⟩
  rcases hc with hc | ⟨h1, h2, h3⟩
  · simp [hasCategory, hc]
  · cases hs : c.constSize <;> simp [leafCompiles, leafMode, hasData, hasSize, iteratorUsable, h1, h2, h3, hs]

/-- For example a type like `std::list<T>` whose iterators have a non-const `operator *`. -/
example : let c : Class := ⟨true, true, false, false, false, true, none, true, false, true⟩
    (⟨.class c, true, false⟩ : Argument) ∈ [(⟨vectorTy, false, false⟩ : Argument), ⟨.class c, true, false⟩] ∧
    Iterable ⟨.class c, true, false⟩ ∧ (c.constDeref = false ∧ c.constData = false ∧ c.freeData = false) := by
  refine ⟨by decide, rfl, by decide⟩

/-- Full claim (false): the result of `range_zip` can be iterated if its arguments can be passed to the algorithms.  Proved if no argument
is a non-const rvalue and all arguments without `size()` have an end of the type of their iterators, and only then. -/
theorem C90_zip_partial (args : List Argument) (h : algorithmCompiles args = true) :
    zipCompiles args = true ↔ ∀ a ∈ args, (a.rvalue = true → a.const = true) ∧
      ∀ c, a.ty = .class c → c.constSize = false → c.commonEnd = true := by
  simp only [zipCompiles, h, Bool.true_and, Bool.and_eq_true, List.all_eq_true, bindsToIterator]
  rw [← forall₂_and]
  refine forall_congr' fun a => forall_congr' fun ha => ?_
  have h2 := (C90_compiles_iff args).1 h a ha
  rcases a with ⟨t, k, r⟩
  refine and_congr (by cases k <;> cases r <;> simp) ?_
  cases t with
  | rangeIndex => simp [endCompiles]
  | cArray n => simp at h2
  | «class» c =>
    obtain ⟨b, cb, d, cd, fd, cs, ts, tr, de, ce⟩ := c
    cases cd <;> cases fd <;> cases cs <;> simp_all [endCompiles, leafMode, hasData, hasSize]

example : algorithmCompiles [⟨sentinelViewTy, false, false⟩, ⟨vectorTy, false, false⟩] = true ∧
    zipCompiles [⟨sentinelViewTy, false, false⟩, ⟨vectorTy, false, false⟩] = false ∧
    zipCompiles [⟨forwardListTy, false, false⟩, ⟨vectorTy, false, false⟩] = true := by decide

/-- The ends do not matter for `range_zip_sentinel`. -/
theorem C90_zip_sentinel (args : List Argument) (h : algorithmCompiles args = true) :
    zipSentinelCompiles args = true ↔ ∀ a ∈ args, a.rvalue = true → a.const = true := by
  simp only [zipSentinelCompiles, h, Bool.true_and, List.all_eq_true, bindsToIterator]
  refine forall_congr' fun a => forall_congr' fun _ => ?_
  rcases a with ⟨t, k, r⟩
  cases k <;> cases r <;> simp

/-- The documented use, `range_zip(range_index, std::array{ 1, 2, 3 })`, does not compile, while `range_for` accepts these arguments. -/
theorem C90_zip_temporary :
    zipCompiles [⟨.rangeIndex, true, false⟩, ⟨array3Ty, false, true⟩] = false ∧
    algorithmCompiles [⟨.rangeIndex, true, false⟩, ⟨array3Ty, false, true⟩] = true ∧
    zipCompiles [⟨.rangeIndex, true, false⟩, ⟨array3Ty, false, false⟩] = true ∧
    zipCompiles [⟨.rangeIndex, true, false⟩, ⟨array3Ty, true, true⟩] = true := by decide

/-- An argument of a type which reports its size rightly is a valid range argument with these elements, so that the properties of
zipped ranges (C26 - C33, C89) hold for it. -/
theorem C90_valid {α : Type} (a : Argument) (elems : List α) (hc : algorithmCompiles [a] = true) (hh : Honest elems.length a.ty) :
    ∃ r, toRng a elems = some r ∧ r.elems = elems ∧ ValidRange r ∧ (IsReal r ↔ a.ty ≠ .rangeIndex) := by
  rcases a with ⟨t, k, rv⟩
  cases t with
  | rangeIndex => exact ⟨_, rfl, rfl, rfl, by simp [IsReal]⟩
  | cArray n => simp [algorithmCompiles, hasCategory] at hc
  | «class» c =>
    obtain ⟨b, cb, d, cd, fd, cs, ts, tr, de, ce⟩ := c
    simp only [Honest] at hh
    cases cd <;> cases fd <;> cases cs <;> cases ts with
    | none => first
      | (simp [algorithmCompiles, leafCompiles, leafMode, hasData, hasSize] at hc; done)
      | exact ⟨_, rfl, rfl, by simp [ValidRange, sizeOfRange], by simp [IsReal]⟩
    | some n => first
      | (simp [algorithmCompiles, leafCompiles, leafMode, hasData, hasSize] at hc; done)
      | (have := hh n rfl
         subst this
         exact ⟨_, rfl, rfl, by simp [ValidRange, sizeOfRange], by simp [IsReal]⟩)

example : ∃ r, toRng ⟨array3Ty, true, true⟩ [7, 8, 9] = some r ∧ r.mode = .index ∧ r.size = .static 3 := ⟨_, rfl, rfl, rfl⟩
example : ∃ r, toRng ⟨forwardListTy, true, true⟩ [7, 8, 9] = some r ∧ r.mode = .iteratorPair ∧ r.size = .static (-1) := ⟨_, rfl, rfl, rfl⟩

/-- `range_for` over such arguments - one of them sized, or none of them `range_index` - calls the functor for each position. -/
theorem C90_range_for {α : Type} (args : List (Argument × List α)) (n : Nat)
    (hc : algorithmCompiles (args.map Prod.fst) = true) (hh : ∀ p ∈ args, Honest p.2.length p.1.ty)
    (hn : ∀ p ∈ args, p.1.ty ≠ .rangeIndex → p.2.length = n) (hreal : ∃ p ∈ args, p.1.ty ≠ .rangeIndex)
    (hsized : (∃ p ∈ args, ∃ c, p.1.ty = .class c ∧ (c.constSize = true ∨ c.tupleSize.isSome = true)) ∨
      ∀ p ∈ args, p.1.ty ≠ .rangeIndex) (fuel : Nat) (hf : n < fuel) :
    ∃ rs : List (Rng α), List.Forall₂ (fun p r => toRng p.1 p.2 = some r ∧ r.elems = p.2 ∧ (IsReal r ↔ p.1.ty ≠ .rangeIndex)) args rs ∧
      ∃ calls, Zipped rs n calls ∧ rangeFor rs fuel = .done calls (.ok ()) := by
  have hex : ∃ rs : List (Rng α), List.Forall₂ (fun p r => toRng p.1 p.2 = some r ∧ r.elems = p.2 ∧ ValidRange r ∧
      (IsReal r ↔ p.1.ty ≠ .rangeIndex)) args rs := by
    clear hn hreal hsized
    induction args with
    | nil => exact ⟨[], .nil⟩
    | cons p args ih =>
      have hc' : algorithmCompiles [p.1] = true ∧ algorithmCompiles (args.map Prod.fst) = true := by
        simpa [algorithmCompiles] using hc
      obtain ⟨rs, hrs⟩ := ih hc'.2 (fun q hq => hh q (List.mem_cons_of_mem _ hq))
      obtain ⟨r, h1, h2, h3, h4⟩ := C90_valid p.1 p.2 hc'.1 (hh p (List.mem_cons_self ..))
      exact ⟨r :: rs, .cons ⟨h1, h2, h3, h4⟩ hrs⟩
  obtain ⟨rs, hrs⟩ := hex
  have fwd : ∀ p ∈ args, ∃ r ∈ rs, toRng p.1 p.2 = some r ∧ (IsReal r ↔ p.1.ty ≠ .rangeIndex) := by
    intro p hp
    clear hc hh hn hreal hsized
    induction hrs with
    | nil => simp at hp
    | cons h _ ih =>
      rcases List.mem_cons.mp hp with rfl | hp
      · exact ⟨_, List.mem_cons_self .., h.1, h.2.2.2⟩
      · obtain ⟨r, hr, hr'⟩ := ih hp
        exact ⟨r, List.mem_cons_of_mem _ hr, hr'⟩
  have bwd : ∀ r ∈ rs, ∃ p ∈ args, toRng p.1 p.2 = some r ∧ r.elems = p.2 ∧ ValidRange r ∧ (IsReal r ↔ p.1.ty ≠ .rangeIndex) := by
    intro r hr
    clear hc hh hn hreal hsized fwd
    induction hrs with
    | nil => simp at hr
    | cons h _ ih =>
      rcases List.mem_cons.mp hr with rfl | hr
      · exact ⟨_, List.mem_cons_self .., h⟩
      · obtain ⟨p, hp, hp'⟩ := ih hr
        exact ⟨p, List.mem_cons_of_mem _ hp, hp'⟩
  have hv : ValidArgs rs := by
    refine ⟨fun r hr => by obtain ⟨p, _, _, _, h, _⟩ := bwd r hr; exact h, ?_, ?_⟩
    · obtain ⟨p, hp, hp'⟩ := hreal
      obtain ⟨r, hr, _, h⟩ := fwd p hp
      exact ⟨r, hr, h.mpr hp'⟩
    · rcases hsized with ⟨p, hp, c, hty, hcs⟩ | hall
      · left
        obtain ⟨r, hr, h, _⟩ := fwd p hp
        refine ⟨r, hr, ?_⟩
        simp only [toRng, Option.map_eq_some_iff] at h
        obtain ⟨m, _, rfl⟩ := h
        simp only [hty, sizeOfRange]
        cases hts : c.tupleSize with
        | none => simp [hts] at hcs; simp [hcs]
        | some k => simp
      · right
        intro k hk
        cases hd : rs.drop (2 * k) with
        | nil => simp [hd] at hk
        | cons r l =>
          refine ⟨r, List.mem_cons_self .., ?_⟩
          obtain ⟨p, hp, _, _, _, h⟩ := bwd r (List.mem_of_mem_drop (i := 2 * k) (by rw [hd]; exact List.mem_cons_self ..))
          exact h.mpr (hall p hp)
  have hlen : AllLength rs n := by
    intro r hr hR
    obtain ⟨p, hp, _, he, _, h⟩ := bwd r hr
    rw [he]
    exact hn p hp (h.mp hR)
  obtain ⟨calls, hz, h⟩ := C26_range_for rs hv n hlen fuel hf
  exact ⟨rs, List.Forall₂.imp (fun _ _ h => ⟨h.1, h.2.1, h.2.2.2⟩) hrs, calls, hz, h⟩

example : let args : List (Argument × List Nat) := [(⟨array3Ty, false, true⟩, [7, 8, 9]), (⟨forwardListTy, true, false⟩, [1, 2, 3]),
      (⟨.rangeIndex, true, false⟩, [])]
    algorithmCompiles (args.map Prod.fst) = true ∧ (∀ p ∈ args, Honest p.2.length p.1.ty) ∧
    (∀ p ∈ args, p.1.ty ≠ .rangeIndex → p.2.length = 3) := by
  refine ⟨by decide, ?_, by decide⟩
  intro p hp
  simp only [List.mem_cons, List.not_mem_nil, or_false] at hp
  rcases hp with rfl | rfl | rfl
  · intro k hk
    simpa using hk.symm
  · intro k hk
    simp at hk
  · trivial

end Makeshift.Props
