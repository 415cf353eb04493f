import Verif.Lemmas.ZipPrograms
import Verif.Lemmas.RowSorting
import Verif.Props.RowPrograms

/-!
# Programs which work on the elements of zipped ranges: C123
-/

namespace Makeshift.Props

open Makeshift Spec RangeObjects ZipRows
open Makeshift.Soa (RowProg RowAccess insertionSort insertionSortCopying)
open Makeshift.Spec.Soa (runRows Fits RowsAre)

variable {V β : Type}

/-- C123: a program which works on the elements of zipped ranges by iterators returns what it returns for a vector of tuples with the same contents; it leaves
the elements in the ranges which it leaves in that vector, and nothing else changes, if no two ranges have an element in common. -/
theorem C123_refines (rs : List (Rng Nat)) (hr : ∀ r ∈ rs, IsReal r) (hd : (objects rs).Nodup) (p : RowProg V β) (hp : Fits rs.length p) (m : Mem V)
    (rows : List (List V)) (hR : TuplesAre rs m rows) (x : β) (rows' : List (List V)) (h : runRows p rows = .ok (x, rows')) :
    ∃ m', runZip rs (zipBegin rs) rows.length p m = .ok (x, m') ∧ TuplesAre rs m' rows' ∧ ∀ l, l ∉ objects rs → m' l = m l := by
  obtain ⟨h1, m', h2, h3, h4⟩ := zip_refines hr hd hR.1 p (zipBegin rs) 0 m rows x rows' (positioned_begin _ _) (by omega)
    (fun i row hi => by simpa using hR.2 i row hi) hp h
  exact ⟨m', h2, ⟨by rw [h1]; exact hR.1, fun i row hi => by simpa using h4 i row hi⟩, h3.1⟩

/-- C123: sorting zipped ranges by an algorithm which keeps elements in variables of type `value_type` (or swaps them): the tuples afterwards are those from
before, in an order in which none is less than one in front of it. -/
theorem C123_sort (rs : List (Rng Nat)) (hr : ∀ r ∈ rs, IsReal r) (hd : (objects rs).Nodup) (lt : List V → List V → Bool)
    (hasym : ∀ a b, lt a b = true → lt b a = false) (htrans : ∀ a b c, lt b a = false → lt c b = false → lt c a = false) (m : Mem V)
    (rows : List (List V)) (hR : TuplesAre rs m rows) (sort : RowProg V Unit)
    (hsort : sort = insertionSort lt rows.length 0 ∨ sort = insertionSortCopying lt rows.length 0) :
    ∃ (m' : Mem V) (rows' : List (List V)), runZip rs (zipBegin rs) rows.length sort m = .ok ((), m') ∧ TuplesAre rs m' rows' ∧
      rows'.Perm rows ∧ rows'.Pairwise (fun a b => lt b a = false) ∧ ∀ l, l ∉ objects rs → m' l = m l := by
  have key : Fits rs.length sort ∧ ∃ rows' : List (List V), rows'.Perm rows ∧ rows'.Pairwise (fun a b => lt b a = false) ∧
      runRows sort rows = .ok ((), rows') := by
    rcases hsort with rfl | rfl
    · exact ⟨Soa.insertionSort_fits _ _ _ _, by have := Soa.insertionSort_spec hasym htrans rows [] .nil; rwa [List.nil_append] at this⟩
    · exact ⟨Soa.insertionSortCopying_fits _ _ _ _, by have := Soa.insertionSortCopying_spec hasym htrans rows [] .nil; rwa [List.nil_append] at this⟩
  obtain ⟨hfit, rows', h1, h2, h3⟩ := key
  obtain ⟨m', h4, h5, h6⟩ := C123_refines rs hr hd sort hfit m rows hR () rows' h3
  exact ⟨m', rows', h4, h5, h1, h2, h6⟩

/-- C123: zipped ranges and a `soa_span` over columns with the same contents are interchangeable: a program has the same result for both, and leaves the same
rows. -/
theorem C123_zip_or_soa (rs : List (Rng Nat)) (hr : ∀ r ∈ rs, IsReal r) (hd : (objects rs).Nodup) (m : Mem V) (rows : List (List V))
    (hR : TuplesAre rs m rows) (acc : RowAccess) (b fresh : Nat) (st : Soa.State V) (s : Soa.Span) (hb : st.spans b = some s) (hf : b < fresh)
    (hfr : ∀ j, fresh ≤ j → st.spans j = none) (hv : Spec.Soa.Valid st s) (hs : Spec.Soa.Separate s) (hw : Spec.Soa.Writable st s) (hS : RowsAre st s rows)
    (p : RowProg V β) (hn : s.data.length = rs.length) (hp : Fits rs.length p) (x : β) (rows' : List (List V)) (h : runRows p rows = .ok (x, rows')) :
    ∃ m' st', runZip rs (zipBegin rs) rows.length p m = .ok (x, m') ∧ Soa.runSpan acc b fresh p st = .ok (x, st') ∧
      TuplesAre rs m' rows' ∧ RowsAre st' s rows' := by
  obtain ⟨m', h1, h2, -⟩ := C123_refines rs hr hd p hp m rows hR x rows' h
  obtain ⟨st', h3, h4, -⟩ := C122_refines acc p b fresh st s rows hb hf hfr hv hs hw hS (hn ▸ hp) x rows' h
  exact ⟨m', st', h1, h3, h2, h4⟩

/-- The contents of the objects of `zrPair`. -/
def zrPairMem : Mem Nat := fun l => l + 1

example : (∀ r ∈ zrPair, IsReal r) ∧ (objects zrPair).Nodup ∧ TuplesAre zrPair zrPairMem [[11, 21], [12, 22], [13, 23]] := by
  refine ⟨by simp [zrPair, IsReal], by decide, by intro r hr _; simp [zrPair] at hr; rcases hr with rfl | rfl <;> rfl, ?_⟩
  intro i r h
  match i with
  | 0 => cases h; exact .cons ⟨_, rfl, rfl⟩ (.cons ⟨_, rfl, rfl⟩ .nil)
  | 1 => cases h; exact .cons ⟨_, rfl, rfl⟩ (.cons ⟨_, rfl, rfl⟩ .nil)
  | 2 => cases h; exact .cons ⟨_, rfl, rfl⟩ (.cons ⟨_, rfl, rfl⟩ .nil)

example : Fits zrPair.length rowProgExample :=
  .part (.load fun t ht => .copy (.store ht .done)) fun x => .swap (.storeElem (by decide) (.loadElem (by decide) fun v => .done))

end Makeshift.Props
