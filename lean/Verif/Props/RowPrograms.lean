import Verif.Lemmas.RowPrograms
import Verif.Lemmas.RowSorting

/-!
# Programs which work on the rows of a `soa_span`: C122
-/

namespace Makeshift.Props

open Makeshift.Soa
open Makeshift.Spec.Soa

variable {α β : Type}

/-- C122: a program which works on the rows of a span - by index or by iterator - returns what it returns for a vector of tuples with the same contents; it
leaves the rows in the span which it leaves in that vector, and nothing else changes. -/
theorem C122_refines (acc : RowAccess) (p : RowProg α β) (b fresh : Nat) (st : State α) (s : Span) (rows : List (List α)) (hb : st.spans b = some s)
    (hf : b < fresh) (hfr : ∀ j, fresh ≤ j → st.spans j = none) (hv : Valid st s) (hs : Separate s) (hw : Writable st s) (hR : RowsAre st s rows)
    (hp : Fits s.data.length p) (x : β) (rows' : List (List α)) (h : runRows p rows = .ok (x, rows')) :
    ∃ st', runSpan acc b fresh p st = .ok (x, st') ∧ RowsAre st' s rows' ∧ SameOutside s st st' := by
  have := run_agrees acc p b fresh st s rows hb hf hfr hv hs hw hR hp
  rw [h] at this
  obtain ⟨st', h1, h2, h3⟩ := this
  exact ⟨st', h1, h3, h2.outside⟩

/-- C122: a program which uses indices never has undefined behaviour: if it refers to a row or a part which does not exist, it fails fast. -/
theorem C122_checked (p : RowProg α β) (b fresh : Nat) (st : State α) (s : Span) (rows : List (List α)) (hb : st.spans b = some s)
    (hf : b < fresh) (hfr : ∀ j, fresh ≤ j → st.spans j = none) (hv : Valid st s) (hs : Separate s) (hw : Writable st s) (hR : RowsAre st s rows)
    (hp : Fits s.data.length p) :
    (∃ x rows', runRows p rows = .ok (x, rows')) ∨ runRows p rows = .failFast ∧ runSpan .index b fresh p st = .failFast := by
  have := run_agrees .index p b fresh st s rows hb hf hfr hv hs hw hR hp
  generalize he : runRows p rows = l at this ⊢
  cases l with
  | ok y => exact .inl ⟨y.1, y.2, rfl⟩
  | failFast => exact .inr ⟨rfl, this rfl⟩
  | throw m => exact this.elim
  | ub => exact this.elim

/-- C122: the rows of a span are what the program depends on: for two spans with the same rows - however their columns are laid out - it has the same result
and leaves the same rows. -/
theorem C122_layout (acc : RowAccess) (p : RowProg α β) (b b' fresh fresh' : Nat) (st st' : State α) (s s' : Span) (rows : List (List α))
    (hb : st.spans b = some s) (hb' : st'.spans b' = some s') (hf : b < fresh) (hf' : b' < fresh') (hfr : ∀ j, fresh ≤ j → st.spans j = none)
    (hfr' : ∀ j, fresh' ≤ j → st'.spans j = none) (hv : Valid st s) (hv' : Valid st' s') (hs : Separate s) (hs' : Separate s') (hw : Writable st s)
    (hw' : Writable st' s') (hR : RowsAre st s rows) (hR' : RowsAre st' s' rows) (hp : Fits s.data.length p) (hn : s'.data.length = s.data.length)
    (x : β) (rows' : List (List α)) (h : runRows p rows = .ok (x, rows')) :
    ∃ t t', runSpan acc b fresh p st = .ok (x, t) ∧ runSpan acc b' fresh' p st' = .ok (x, t') ∧
      ∀ i r, i < s.size → (Row t s i r ↔ Row t' s' i r) := by
  obtain ⟨t, h1, h2, -⟩ := C122_refines acc p b fresh st s rows hb hf hfr hv hs hw hR hp x rows' h
  obtain ⟨t', h3, h4, -⟩ := C122_refines acc p b' fresh' st' s' rows hb' hf' hfr' hv' hs' hw' hR' (hn ▸ hp) x rows' h
  refine ⟨t, t', h1, h3, fun i r hi => ?_⟩
  have hi' : i < s'.size := by rw [← hR'.1, hR.1]; exact hi
  obtain ⟨r1, e1, e2⟩ := rowsAre_row h2 hi
  obtain ⟨r2, e3, e4⟩ := rowsAre_row h4 hi'
  rw [e1] at e3
  cases e3
  exact ⟨fun h => row_unique e2 h ▸ e4, fun h => row_unique e4 h ▸ e2⟩

/-- C122: an algorithm for sorting which swaps rows and compares copies of them - or which keeps a row in a variable and moves others - sorts the span: the
rows afterwards are those from before, in an order in which no row is less than one in front of it. -/
theorem C122_sort (acc : RowAccess) (lt : List α → List α → Bool) (hasym : ∀ a b, lt a b = true → lt b a = false)
    (htrans : ∀ a b c, lt b a = false → lt c b = false → lt c a = false) (b fresh : Nat) (st : State α) (s : Span) (hb : st.spans b = some s)
    (hf : b < fresh) (hfr : ∀ j, fresh ≤ j → st.spans j = none) (hv : Valid st s) (hs : Separate s) (hw : Writable st s)
    (sort : RowProg α Unit) (hsort : sort = insertionSort lt s.size 0 ∨ sort = insertionSortCopying lt s.size 0) :
    ∃ (st' : State α) (rows rows' : List (List α)), runSpan acc b fresh sort st = .ok ((), st') ∧ RowsAre st s rows ∧
      RowsAre st' s rows' ∧ rows'.Perm rows ∧ rows'.Pairwise (fun a b => lt b a = false) ∧ SameOutside s st st' := by
  obtain ⟨rows, hR⟩ := rowsRel_init hv
  have hR' : RowsAre st s rows := ⟨hR.n, hR.row⟩
  have key : Fits s.data.length sort ∧ ∃ rows' : List (List α), rows'.Perm rows ∧ rows'.Pairwise (fun a b => lt b a = false) ∧
      runRows sort rows = .ok ((), rows') := by
    rcases hsort with rfl | rfl
    · refine ⟨insertionSort_fits _ _ _ _, ?_⟩
      have := insertionSort_spec hasym htrans rows [] .nil
      rwa [List.nil_append, hR'.1] at this
    · refine ⟨insertionSortCopying_fits _ _ _ _, ?_⟩
      have := insertionSortCopying_spec hasym htrans rows [] .nil
      rwa [List.nil_append, hR'.1] at this
  obtain ⟨hfit, rows', h1, h2, h3⟩ := key
  obtain ⟨st', h4, h5, h6⟩ := C122_refines acc sort b fresh st s rows hb hf hfr hv hs hw hR' hfit () rows' h3
  exact ⟨st', rows, rows', h4, hR', h5, h1, h2, h6⟩

/-- C122: a copy of a row made with `auto` is no copy: exchanging two rows with its help duplicates one of them. -/
theorem C122_auto_negated (b : Nat) (st : State α) (s : Span) (hb : st.spans b = some s) (hv : Valid st s) (hs : Separate s) (hw : Writable st s)
    (i j : Nat) (hi : i < s.size) (hj : j < s.size) (r : List α) (hr : Row st s j r) :
    ∃ st', exchangeByAuto st b i j = .ok st' ∧ Row st' s i r ∧ Row st' s j r := by
  obtain ⟨rows, hR⟩ := rowsRel_init hv
  have hR' : RowsAre st s rows := ⟨hR.n, hR.row⟩
  obtain ⟨a, a', st1, h1, h2, h3, h4⟩ := C60_assign_row st b s hb hv hs hw i j hi hj r hr
  rw [at_eq hb hi] at h1
  rw [at_eq hb hj] at h2
  cases h1; cases h2
  have hc : st1.isConst = st.isConst := by
    have := h3
    rw [assignRef, withSpan_some hb, withSpan_some hb] at this
    exact copyRow_const _ _ _ _ _ _ this
  obtain ⟨k1, k2⟩ := set_step hv hR' hi h4 hc
  have hb1 : st1.spans b = some s := by rw [k1.outside.1]; exact hb
  obtain ⟨a, a', st2, h5, h6, h7, h8⟩ := C60_assign_row st1 b s hb1 (k1.valid hv) hs (k1.writable hw) j i hj hi r h4.1
  rw [at_eq hb1 hj] at h5
  rw [at_eq hb1 hi] at h6
  cases h5; cases h6
  refine ⟨st2, ?_, ?_, h8.1⟩
  · simp only [exchangeByAuto, at_eq hb hi, at_eq hb hj, Outcome.bind_ok, h3, at_eq hb1 hj, h7]
  · by_cases e : i = j
    · subst e; exact h8.1
    · exact (h8.2.1 i r e).1 h4.1

/-- A program which reverses the first two rows of every part of two rows, and returns an element. -/
def rowProgExample : RowProg Nat Nat :=
  .part 1 2 (.load 0 fun t => .copy 0 1 (.store 1 t (.done 5))) fun x => .swap 0 2 (.storeElem 1 0 x (.loadElem 2 1 fun v => .done v))

example : Fits soaExampleSpan.data.length rowProgExample :=
  .part (.load fun t ht => .copy (.store ht .done)) fun x => .swap (.storeElem (by decide) (.loadElem (by decide) fun v => .done))

example : RowsAre soaExample soaExampleSpan [[11, 21], [12, 22], [13, 23]] ∧
    runRows rowProgExample [[11, 21], [12, 22], [13, 23]] = .ok (21, [[12, 22], [5, 23], [11, 21]]) ∧
    runRows (.load 3 fun _ => .done ()) [[11, 21], [12, 22], [13, 23]] = .failFast := by
  refine ⟨⟨rfl, ?_⟩, rfl, rfl⟩
  intro i r h
  match i with
  | 0 => cases h; exact .cons rfl (.cons rfl .nil)
  | 1 => cases h; exact .cons rfl (.cons rfl .nil)
  | 2 => cases h; exact .cons rfl (.cons rfl .nil)

example : soaExample.spans 0 = some soaExampleSpan ∧ (∀ j, 1 ≤ j → soaExample.spans j = none) ∧ Valid soaExample soaExampleSpan ∧ Separate soaExampleSpan ∧
    Writable soaExample soaExampleSpan :=
  ⟨rfl, fun j hj => by simp [soaExample]; omega, soaExample_valid, soaExample_separate, soaExample_writable⟩

/-- Rows are compared by their first elements, downwards. -/
def rowLessExample (a b : List Nat) : Bool := decide (b.headD 0 < a.headD 0)

example : (∀ a b, rowLessExample a b = true → rowLessExample b a = false) ∧
    ∀ a b c, rowLessExample b a = false → rowLessExample c b = false → rowLessExample c a = false := by
  simp only [rowLessExample, decide_eq_true_eq, decide_eq_false_iff_not]
  exact ⟨fun a b h => by omega, fun a b c h h' => by omega⟩

end Makeshift.Props
