import Verif.Lemmas.RowMoves
import Verif.Props.RowPrograms
import Verif.Props.ZipPrograms

/-!
# Programs which move rows: C140
-/

namespace Makeshift.Props

open Makeshift Spec RangeObjects ZipRows Makeshift.Soa
open Makeshift.Spec.Soa

variable {α β : Type}

/-- C140: a program which moves rows of a span returns what it returns for a vector of tuples, if that does not depend on elements which have been moved from; and
it leaves the same rows, except that the span may have a value where the vector has an element which has been moved from.  Every row which is moved in the vector - be it
from a row or from a variable - is copied in the span. -/
theorem C140_soa (acc : RowAccess) (p : MoveProg α β) (b fresh : Nat) (st : State (Option α)) (s : Span) (rows : List (List (Option α)))
    (hb : st.spans b = some s) (hf : b < fresh) (hfr : ∀ j, fresh ≤ j → st.spans j = none) (hv : Valid st s) (hs : Separate s) (hw : Writable st s)
    (hR : RowsAre st s rows) (hp : MoveFits s.data.length p) (x : β) (c : RowCounts) (rows' : List (List (Option α)))
    (h : runVector p ⟨0, 0, 0⟩ rows = .ok ((some x, c), rows')) :
    ∃ st' rows2, runSpan acc b fresh (onProxies .soaReference p 0) st = .ok ((some x, c.copied + c.taken + c.stored), st') ∧
      RowsAre st' s rows2 ∧ SpecifiedAgree rows' rows2 ∧ SameOutside s st st' := by
  obtain ⟨n, rows2, h1, h2, h3⟩ := proxies_simulate .soaReference p ⟨0, 0, 0⟩ 0 rows rows x c rows' (agree_refl _) h
  have hn : n = c.copied + c.taken + c.stored := by simp only [copiesOf] at h3; omega
  subst hn
  obtain ⟨st', h4, h5, h6⟩ := C122_refines acc _ b fresh st s rows hb hf hfr hv hs hw hR (onProxies_fits _ hp 0) _ rows2 h1
  exact ⟨st', rows2, h4, h5, h2, h6⟩

/-- C140: the same for zipped ranges, except that variables are moved to the elements. -/
theorem C140_zip (rs : List (Rng Nat)) (hr : ∀ r ∈ rs, IsReal r) (hd : (objects rs).Nodup) (p : MoveProg α β) (hp : MoveFits rs.length p)
    (m : Mem (Option α)) (rows : List (List (Option α))) (hR : TuplesAre rs m rows) (x : β) (c : RowCounts) (rows' : List (List (Option α)))
    (h : runVector p ⟨0, 0, 0⟩ rows = .ok ((some x, c), rows')) :
    ∃ m' rows2, runZip rs (zipBegin rs) rows.length (onProxies .tupleOfReferences p 0) m = .ok ((some x, c.copied + c.taken), m') ∧
      TuplesAre rs m' rows2 ∧ SpecifiedAgree rows' rows2 ∧ ∀ l, l ∉ objects rs → m' l = m l := by
  obtain ⟨n, rows2, h1, h2, h3⟩ := proxies_simulate .tupleOfReferences p ⟨0, 0, 0⟩ 0 rows rows x c rows' (agree_refl _) h
  have hn : n = c.copied + c.taken := by simp only [copiesOf] at h3; omega
  subst hn
  obtain ⟨m', h4, h5, h6⟩ := C123_refines rs hr hd _ (onProxies_fits _ hp 0) m rows hR _ rows2 h1
  exact ⟨m', rows2, h4, h5, h2, h6⟩

/-- A program which removes the first of three rows by moving the other ones, and moves an element out of the last one. -/
def moveProgExample : MoveProg Nat Nat :=
  .transfer 0 1 (.transfer 1 2 (.take 1 fun t => .store 1 t (.storeElem 2 0 7 (.takeElem 0 1 fun v => .done v))))

/-- Non-vacuity of `C140_soa` and `C140_zip`. -/
example : MoveFits 2 moveProgExample ∧
    runVector moveProgExample ⟨0, 0, 0⟩ [[some 1, some 10], [some 2, some 20], [some 3, some 30]] =
      .ok ((some 20, ⟨0, 3, 1⟩), [[some 2, none], [some 3, some 30], [some 7, none]]) ∧
    runRows (onProxies .soaReference moveProgExample 0) [[some 1, some 10], [some 2, some 20], [some 3, some 30]] =
      .ok ((some 20, 4), [[some 2, none], [some 3, some 30], [some 7, some 30]]) ∧
    runRows (onProxies .tupleOfReferences moveProgExample 0) [[some 1, some 10], [some 2, some 20], [some 3, some 30]] =
      .ok ((some 20, 3), [[some 2, none], [some 3, some 30], [some 7, some 30]]) := by
  refine ⟨.transfer (.transfer (.take fun t ht => .store ht (.storeElem (by decide) (.takeElem (by decide) fun v => .done)))), by decide, by decide +kernel, by decide +kernel⟩

private theorem rows_present {rows : List (List (Option α))} (h : AllPresent rows) : ∃ l : List (List α), rows = l.map (·.map some) := by
  induction rows with
  | nil => exact ⟨[], rfl⟩
  | cons r rows ih =>
    obtain ⟨l, rfl⟩ := ih fun q hq => h q (List.mem_cons_of_mem _ hq)
    have hr : ∃ t : List α, r = t.map some := by
      have := h r List.mem_cons_self
      clear h
      induction r with
      | nil => exact ⟨[], rfl⟩
      | cons a r ih =>
        cases a with
        | none => simp at this
        | some v =>
          obtain ⟨t, rfl⟩ := ih (by simpa using this)
          exact ⟨v :: t, rfl⟩
    obtain ⟨t, rfl⟩ := hr
    exact ⟨t :: l, rfl⟩

private theorem present_rows (l : List (List α)) : AllPresent (l.map (·.map some)) := by
  intro r hr
  obtain ⟨t, -, rfl⟩ := List.mem_map.1 hr
  simp

/-- C140: moving rows leaves nothing behind in the state of having been moved from: if all elements of a span or of zipped ranges have values, and the program
moves no single elements, they all have values afterwards. -/
theorem C140_keeps (p : MoveProg α β) (hk : NoElementTaken p) (rows : List (List α)) (x : β) (c : RowCounts)
    (rows' : List (List (Option α))) (h : runVector p ⟨0, 0, 0⟩ (rows.map (·.map some)) = .ok ((some x, c), rows')) :
    (∀ (acc : RowAccess) (b fresh : Nat) (st : State (Option α)) (s : Span), st.spans b = some s → b < fresh → (∀ j, fresh ≤ j → st.spans j = none) →
      Valid st s → Separate s → Writable st s → RowsAre st s (rows.map (·.map some)) → MoveFits s.data.length p →
      ∃ (st' : State (Option α)) (n : Nat) (rows2 : List (List α)), runSpan acc b fresh (onProxies .soaReference p 0) st = .ok ((some x, n), st') ∧
        RowsAre st' s (rows2.map (·.map some))) ∧
    (∀ (rs : List (Rng Nat)) (m : Mem (Option α)), (∀ r ∈ rs, IsReal r) → (objects rs).Nodup → MoveFits rs.length p → TuplesAre rs m (rows.map (·.map some)) →
      ∃ (m' : Mem (Option α)) (n : Nat) (rows2 : List (List α)), runZip rs (zipBegin rs) rows.length (onProxies .tupleOfReferences p 0) m = .ok ((some x, n), m') ∧
        TuplesAre rs m' (rows2.map (·.map some))) := by
  constructor
  · intro acc b fresh st s hb hf hfr hv hs hw hR hp
    obtain ⟨n, rows2, h1, h2, -⟩ := proxies_simulate .soaReference p ⟨0, 0, 0⟩ 0 _ _ x c rows' (agree_refl _) h
    obtain ⟨l, rfl⟩ := rows_present (proxies_keep .soaReference hk _ _ _ _ _ (present_rows rows) h1)
    obtain ⟨st', h4, h5, -⟩ := C122_refines acc _ b fresh st s _ hb hf hfr hv hs hw hR (onProxies_fits _ hp 0) _ _ h1
    exact ⟨st', n, l, h4, h5⟩
  · intro rs m hr hd hp hR
    obtain ⟨n, rows2, h1, h2, -⟩ := proxies_simulate .tupleOfReferences p ⟨0, 0, 0⟩ 0 _ _ x c rows' (agree_refl _) h
    obtain ⟨l, rfl⟩ := rows_present (proxies_keep .tupleOfReferences hk _ _ _ _ _ (present_rows rows) h1)
    obtain ⟨m', h4, h5, -⟩ := C123_refines rs hr hd _ (onProxies_fits _ hp 0) m _ hR _ _ h1
    exact ⟨m', n, l, by simpa using h4, h5⟩

/-- `value_type t = std::move(s[i]); return std::pair(t, value_type(s[i]));` -/
def takeAndLook (i : Nat) : MoveProg α (List α × List α) := .take i fun t => .look i fun u => .done (t, u)

/-- C140: in particular, a row has its values still after it has been moved to a variable - unlike the element of a vector of tuples, which is in an unspecified state.
Whoever moves rows in order to hand over what they own, keeps it. -/
theorem C140_take_keeps (i : Nat) (rows : List (List α)) (t : List α) (ht : rows[i]? = some t) :
    (∀ (acc : RowAccess) (b fresh : Nat) (st : State (Option α)) (s : Span), st.spans b = some s → b < fresh → (∀ j, fresh ≤ j → st.spans j = none) →
      Valid st s → Separate s → Writable st s → RowsAre st s (rows.map (·.map some)) →
      ∃ st', runSpan acc b fresh (onProxies .soaReference (takeAndLook i) 0) st = .ok ((some (t, t), 1), st') ∧ RowsAre st' s (rows.map (·.map some))) ∧
    (∀ (rs : List (Rng Nat)) (m : Mem (Option α)), (∀ r ∈ rs, IsReal r) → (objects rs).Nodup → TuplesAre rs m (rows.map (·.map some)) →
      ∃ m', runZip rs (zipBegin rs) rows.length (onProxies .tupleOfReferences (takeAndLook i) 0) m = .ok ((some (t, t), 1), m') ∧
        TuplesAre rs m' (rows.map (·.map some))) ∧
    (t ≠ [] → ∃ rows', runVector (takeAndLook i) ⟨0, 0, 0⟩ (rows.map (·.map some)) = .ok ((none, ⟨0, 1, 0⟩), rows')) := by
  have hi : (rows.map (·.map some))[i]? = some (t.map some) := by simp [ht]
  have hrun : ∀ kind, runRows (onProxies kind (takeAndLook i) 0) (rows.map (·.map some)) = .ok ((some (t, t), 1), rows.map (·.map some)) := by
    intro kind
    rw [takeAndLook, onProxies, runRows, hi]
    simp only [withValues, present_map]
    rw [onProxies, runRows, hi]
    simp only [withValues, present_map]
    rfl
  have hfit : ∀ w, MoveFits (α := α) w (takeAndLook i) := fun w => .take fun _ _ => .look fun _ _ => .done
  refine ⟨fun acc b fresh st s hb hf hfr hv hs hw hR => ?_, fun rs m hr hd hR => ?_, fun hne => ?_⟩
  · obtain ⟨st', h4, h5, -⟩ := C122_refines acc _ b fresh st s _ hb hf hfr hv hs hw hR (onProxies_fits _ (hfit _) 0) _ _ (hrun .soaReference)
    exact ⟨st', h4, h5⟩
  · obtain ⟨m', h4, h5, -⟩ := C123_refines rs hr hd _ (onProxies_fits _ (hfit _) 0) m _ hR _ _ (hrun .tupleOfReferences)
    exact ⟨m', by simpa using h4, h5⟩
  · refine ⟨(rows.map (·.map some)).set i ((t.map some).map fun _ => none), ?_⟩
    rw [takeAndLook, runVector, hi]
    simp only [valuesOf_map]
    rw [runVector, List.getElem?_set_self (List.getElem?_eq_some_iff.1 hi).1]
    cases t with
    | nil => exact absurd rfl hne
    | cons a t => simp [valuesOf]

/-- `auto v = std::move(get<c>(s[i])); return v;` -/
def takeElement (i c : Nat) : MoveProg α α := .takeElem i c fun v => .done v

/-- C140: but single elements are moved, as those of a tuple in a vector. -/
theorem C140_element (i c : Nat) (rows : List (List α)) (t : List α) (v : α) (ht : rows[i]? = some t) (hv : t[c]? = some v) :
    (∀ (acc : RowAccess) (b fresh : Nat) (st : State (Option α)) (s : Span), st.spans b = some s → b < fresh → (∀ j, fresh ≤ j → st.spans j = none) →
      Valid st s → Separate s → Writable st s → RowsAre st s (rows.map (·.map some)) → c < s.data.length →
      ∃ st', runSpan acc b fresh (onProxies .soaReference (takeElement i c) 0) st = .ok ((some v, 0), st') ∧
        RowsAre st' s ((rows.map (·.map some)).set i ((t.map some).set c none))) ∧
    (∀ (rs : List (Rng Nat)) (m : Mem (Option α)), (∀ r ∈ rs, IsReal r) → (objects rs).Nodup → TuplesAre rs m (rows.map (·.map some)) → c < rs.length →
      ∃ m', runZip rs (zipBegin rs) rows.length (onProxies .tupleOfReferences (takeElement i c) 0) m = .ok ((some v, 0), m') ∧
        TuplesAre rs m' ((rows.map (·.map some)).set i ((t.map some).set c none))) ∧
    runVector (takeElement i c) ⟨0, 0, 0⟩ (rows.map (·.map some)) =
      .ok ((some v, ⟨0, 0, 0⟩), (rows.map (·.map some)).set i ((t.map some).set c none)) := by
  have hi : (rows.map (·.map some))[i]? = some (t.map some) := by simp [ht]
  have hc : (t.map some)[c]? = some (some v) := by simp [hv]
  have hrun : ∀ kind, runRows (onProxies kind (takeElement i c) 0) (rows.map (·.map some)) =
      .ok ((some v, 0), (rows.map (·.map some)).set i ((t.map some).set c none)) := by
    intro kind
    rw [takeElement, onProxies, runRows, hi]
    simp only [hc]
    rw [runRows, hi]
    rfl
  have hfit : ∀ w, c < w → MoveFits (α := α) w (takeElement i c) := fun w hw => .takeElem hw fun _ => .done
  refine ⟨fun acc b fresh st s hb hf hfr hv hs hw hR hcw => ?_, fun rs m hr hd hR hcw => ?_, ?_⟩
  · obtain ⟨st', h4, h5, -⟩ := C122_refines acc _ b fresh st s _ hb hf hfr hv hs hw hR (onProxies_fits _ (hfit _ hcw) 0) _ _ (hrun .soaReference)
    exact ⟨st', h4, h5⟩
  · obtain ⟨m', h4, h5, -⟩ := C123_refines rs hr hd _ (onProxies_fits _ (hfit _ hcw) 0) m _ hR _ _ (hrun .tupleOfReferences)
    exact ⟨m', by simpa using h4, h5⟩
  · rw [takeElement, runVector, hi]
    simp only [hc]
    rfl

/-- C140: an algorithm for sorting which moves rows sorts a span and zipped ranges; it copies every row at least twice resp. once, where it copies no tuple of a
vector. -/
theorem C140_sort (lt : List α → List α → Bool) (hasym : ∀ a b, lt a b = true → lt b a = false)
    (htrans : ∀ a b c, lt b a = false → lt c b = false → lt c a = false) (rows : List (List α)) :
    ∃ (rows' : List (List α)) (taken : Nat), rows'.Perm rows ∧ rows'.Pairwise (fun a b => lt b a = false) ∧ rows.length ≤ taken ∧
      runVector (insertionSortMoving lt rows.length 0) ⟨0, 0, 0⟩ (rows.map (·.map some)) =
        .ok ((some (), ⟨0, taken, rows.length⟩), rows'.map (·.map some)) ∧
      (∀ (acc : RowAccess) (b fresh : Nat) (st : State (Option α)) (s : Span), st.spans b = some s → b < fresh → (∀ j, fresh ≤ j → st.spans j = none) →
        Valid st s → Separate s → Writable st s → RowsAre st s (rows.map (·.map some)) →
        ∃ st', runSpan acc b fresh (onProxies .soaReference (insertionSortMoving lt rows.length 0) 0) st = .ok ((some (), taken + rows.length), st') ∧
          RowsAre st' s (rows'.map (·.map some)) ∧ SameOutside s st st') ∧
      (∀ (rs : List (Rng Nat)) (m : Mem (Option α)), (∀ r ∈ rs, IsReal r) → (objects rs).Nodup → TuplesAre rs m (rows.map (·.map some)) →
        ∃ m', runZip rs (zipBegin rs) rows.length (onProxies .tupleOfReferences (insertionSortMoving lt rows.length 0) 0) m = .ok ((some (), taken), m') ∧
          TuplesAre rs m' (rows'.map (·.map some)) ∧ ∀ l, l ∉ objects rs → m' l = m l) := by
  obtain ⟨rows', k, h1, h2, h3⟩ := insertionSortMoving_spec hasym htrans rows [] ⟨0, 0, 0⟩ .nil
  simp only [List.nil_append, List.length_nil, Nat.zero_add] at h1 h3
  refine ⟨rows', rows.length + k, h1, h2, by omega, h3, fun acc b fresh st s hb hf hfr hv hs hw hR => ?_, fun rs m hr hd hR => ?_⟩
  · obtain ⟨st', rows2, h4, h5, h6, h7⟩ := C140_soa acc _ b fresh st s _ hb hf hfr hv hs hw hR (insertionSortMoving_fits _ lt _ _) _ _ _ h3
    rw [agree_present h6] at h5
    exact ⟨st', by simpa using h4, h5, h7⟩
  · obtain ⟨m', rows2, h4, h5, h6, h7⟩ := C140_zip rs hr hd _ (insertionSortMoving_fits _ lt _ _) m _ hR _ _ _ h3
    rw [agree_present h6] at h5
    exact ⟨m', by simpa using h4, h5, h7⟩

/-- Non-vacuity of `C140_sort`. -/
example : runVector (insertionSortMoving rowLessExample 3 0) ⟨0, 0, 0⟩ [[some 1, some 10], [some 3, some 20], [some 2, some 30]] =
    .ok ((some (), ⟨0, 5, 3⟩), [[some 3, some 20], [some 2, some 30], [some 1, some 10]]) := by decide

/-- C140: if the elements can be moved but not copied, every program which compiles gets by without copies. -/
theorem C140_move_only (p : MoveProg α β) (rows : List (List (Option α))) (x : β) (c : RowCounts) (rows' : List (List (Option α)))
    (h : runVector p ⟨0, 0, 0⟩ rows = .ok ((some x, c), rows')) :
    (compilesMoveOnly .soaReference p → ∀ (acc : RowAccess) (b fresh : Nat) (st : State (Option α)) (s : Span), st.spans b = some s → b < fresh →
      (∀ j, fresh ≤ j → st.spans j = none) → Valid st s → Separate s → Writable st s → RowsAre st s rows → MoveFits s.data.length p →
      ∃ st', runSpan acc b fresh (onProxies .soaReference p 0) st = .ok ((some x, 0), st')) ∧
    (compilesMoveOnly .tupleOfReferences p → ∀ (rs : List (Rng Nat)) (m : Mem (Option α)), (∀ r ∈ rs, IsReal r) → (objects rs).Nodup →
      MoveFits rs.length p → TuplesAre rs m rows →
      ∃ m', runZip rs (zipBegin rs) rows.length (onProxies .tupleOfReferences p 0) m = .ok ((some x, 0), m')) := by
  constructor
  · intro hc acc b fresh st s hb hf hfr hv hs hw hR hp
    obtain ⟨n, rows2, h1, -, h3⟩ := proxies_simulate .soaReference p ⟨0, 0, 0⟩ 0 rows rows x c rows' (agree_refl _) h
    have := proxies_no_copies .soaReference p 0 rows _ n rows2 hc h1
    subst this
    obtain ⟨st', h4, -⟩ := C122_refines acc _ b fresh st s _ hb hf hfr hv hs hw hR (onProxies_fits _ hp 0) _ _ h1
    exact ⟨st', h4⟩
  · intro hc rs m hr hd hp hR
    obtain ⟨n, rows2, h1, -, h3⟩ := proxies_simulate .tupleOfReferences p ⟨0, 0, 0⟩ 0 rows rows x c rows' (agree_refl _) h
    have := proxies_no_copies .tupleOfReferences p 0 rows _ n rows2 hc h1
    subst this
    obtain ⟨m', h4, -⟩ := C123_refines rs hr hd _ (onProxies_fits _ hp 0) m _ hR _ _ h1
    exact ⟨m', h4⟩

/-- Non-vacuity of `C140_move_only`: moving a variable to a row compiles for zipped ranges only; moving an element compiles for both. -/
example : compilesMoveOnly (α := Nat) .tupleOfReferences (.store 1 [5, 6] (.done ())) ∧ ¬ compilesMoveOnly (α := Nat) .soaReference (.store 1 [5, 6] (.done ())) ∧
    compilesMoveOnly (α := Nat) .soaReference (takeElement 0 1) ∧
    runVector (α := Nat) (takeElement 0 1) ⟨0, 0, 0⟩ [[some 1, some 2]] = .ok ((some 2, ⟨0, 0, 0⟩), [[some 1, none]]) :=
  ⟨⟨rfl, trivial⟩, fun h => RowRefKind.noConfusion h.1, fun _ => trivial, by decide⟩

/-- C140: an algorithm for sorting which swaps rows and compares them where they are compiles for such elements, and sorts. -/
theorem C140_move_only_sort (lt : List α → List α → Bool) (hasym : ∀ a b, lt a b = true → lt b a = false)
    (htrans : ∀ a b c, lt b a = false → lt c b = false → lt c a = false) (rows : List (List α)) :
    (∀ kind, compilesMoveOnly kind (insertionSortSwapping lt rows.length 0)) ∧
    ∃ rows' : List (List α), rows'.Perm rows ∧ rows'.Pairwise (fun a b => lt b a = false) ∧
      (∀ (acc : RowAccess) (b fresh : Nat) (st : State (Option α)) (s : Span), st.spans b = some s → b < fresh → (∀ j, fresh ≤ j → st.spans j = none) →
        Valid st s → Separate s → Writable st s → RowsAre st s (rows.map (·.map some)) →
        ∃ st', runSpan acc b fresh (onProxies .soaReference (insertionSortSwapping lt rows.length 0) 0) st = .ok ((some (), 0), st') ∧
          RowsAre st' s (rows'.map (·.map some)) ∧ SameOutside s st st') ∧
      (∀ (rs : List (Rng Nat)) (m : Mem (Option α)), (∀ r ∈ rs, IsReal r) → (objects rs).Nodup → TuplesAre rs m (rows.map (·.map some)) →
        ∃ m', runZip rs (zipBegin rs) rows.length (onProxies .tupleOfReferences (insertionSortSwapping lt rows.length 0) 0) m = .ok ((some (), 0), m') ∧
          TuplesAre rs m' (rows'.map (·.map some)) ∧ ∀ l, l ∉ objects rs → m' l = m l) := by
  refine ⟨fun kind => insertionSortSwapping_compiles kind lt _ _, ?_⟩
  obtain ⟨rows', h1, h2, h3⟩ := insertionSortSwapping_spec hasym htrans rows [] ⟨0, 0, 0⟩ .nil
  simp only [List.nil_append, List.length_nil] at h1 h3
  refine ⟨rows', h1, h2, fun acc b fresh st s hb hf hfr hv hs hw hR => ?_, fun rs m hr hd hR => ?_⟩
  · obtain ⟨st', rows2, h4, h5, h6, h7⟩ := C140_soa acc _ b fresh st s _ hb hf hfr hv hs hw hR (insertionSortSwapping_fits _ lt _ _) _ _ _ h3
    rw [agree_present h6] at h5
    exact ⟨st', h4, h5, h7⟩
  · obtain ⟨m', rows2, h4, h5, h6, h7⟩ := C140_zip rs hr hd _ (insertionSortSwapping_fits _ lt _ _) m _ hR _ _ _ h3
    rw [agree_present h6] at h5
    exact ⟨m', by simpa using h4, h5, h7⟩

/-- C140: but the one which moves rows compiles only for a vector of tuples. -/
theorem C140_move_only_negated (kind : RowRefKind) (lt : List α → List α → Bool) (n i : Nat) :
    vectorCompilesMoveOnly (insertionSortMoving lt (n + 1) i) ∧ ¬ compilesMoveOnly kind (insertionSortMoving lt (n + 1) i) :=
  ⟨insertionSortMoving_vector lt _ _, fun h => h.elim⟩

end Makeshift.Props
