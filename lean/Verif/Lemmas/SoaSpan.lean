import Mathlib.Data.List.Basic
import Verif.Spec.SoaSpan
import Verif.Lemmas.Permutation
import Verif.Lemmas.PermutationOver

/-!
# Lemmas about the `soa_span` model
-/

namespace Makeshift.Soa

open Makeshift.Spec.Soa

variable {α : Type}

theorem readCell_eq (st : State α) (p : Ptr) (i : Nat) :
    readCell st p i = match elem st p i with | some v => .ok v | none => .ub := by
  have h1 : ¬ ((p.off : Int) + (i : Int) < 0) := by omega
  have h2 : ((p.off : Int) + (i : Int)).toNat = p.off + i := by omega
  simp only [readCell, h1, if_false, h2, elem]
  rcases (st.cells p.arr)[p.off + i]? <;> rfl

theorem readCell_ok {st : State α} {p : Ptr} {i : Nat} {v : α} (h : elem st p i = some v) : readCell st p i = .ok v := by
  rw [readCell_eq, h]

theorem writeCell_ok (st : State α) (p : Ptr) (i : Nat) (v : α) (hl : p.off + i < (st.cells p.arr).length)
    (hc : st.isConst p.arr = false) :
    writeCell st p i v =
      .ok { st with cells := fun a => if a = p.arr then (st.cells a).set (p.off + i) v else st.cells a } := by
  have h2 : ((p.off : Int) + (i : Int)).toNat = p.off + i := by omega
  have h1 : ¬ ((p.off : Int) + (i : Int) < 0 ∨ (st.cells p.arr).length ≤ ((p.off : Int) + (i : Int)).toNat ∨
      st.isConst p.arr = true) := by
    rw [h2, hc]; simp; omega
  rw [writeCell, if_neg h1, h2]

theorem readRow_ok {st : State α} {ps : List Ptr} {i : Nat} {vals : List α}
    (h : List.Forall₂ (fun p v => elem st p i = some v) ps vals) : readRow st i ps = .ok vals := by
  induction h with
  | nil => rfl
  | cons h1 _ ih => rw [readRow, readCell_ok h1]; simp [ih]

theorem elem_of_lt {st : State α} {p : Ptr} {i : Nat} (h : p.off + i < (st.cells p.arr).length) : ∃ v, elem st p i = some v :=
  ⟨_, List.getElem?_eq_getElem h⟩

theorem row_exists {st : State α} {s : Span} (hv : Valid st s) {i : Nat} (hi : i < s.size) : ∃ vals, Row st s i vals := by
  unfold Row Valid at *
  generalize s.data = ps at hv
  induction ps with
  | nil => exact ⟨[], .nil⟩
  | cons p ps ih =>
    obtain ⟨vals, h⟩ := ih (fun q hq => hv q (by simp [hq]))
    obtain ⟨v, hv'⟩ := elem_of_lt (st := st) (p := p) (i := i) (by have := hv p (by simp); omega)
    exact ⟨v :: vals, .cons hv' h⟩

theorem row_unique {st : State α} {s : Span} {i : Nat} {v w : List α} (h1 : Row st s i v) (h2 : Row st s i w) : v = w := by
  unfold Row at *
  generalize s.data = ps at h1 h2
  induction h1 generalizing w with
  | nil => cases h2; rfl
  | cons a _ ih =>
    cases h2 with
    | cons b h2 =>
      rw [a] at b; cases b
      rw [ih h2]

theorem withSpan_some {β : Type} {st : State α} {b : Nat} {s : Span} (h : st.spans b = some s) (f : Span → Outcome β) :
    st.withSpan b f = f s := by
  simp [State.withSpan, h]

/-- Writing a row: each column gets its value, everything else stays. -/
theorem writeRow_spec (ps : List Ptr) (i : Nat) :
    ∀ (st : State α) (vals : List α), vals.length = ps.length → (ps.map (·.arr)).Nodup →
      (∀ p ∈ ps, p.off + i < (st.cells p.arr).length) → (∀ p ∈ ps, st.isConst p.arr = false) →
      ∃ st', writeRow st i ps vals = .ok st' ∧ st'.spans = st.spans ∧ st'.isConst = st.isConst ∧
        List.Forall₂ (fun p v => st'.cells p.arr = (st.cells p.arr).set (p.off + i) v) ps vals ∧
        ∀ arr, (∀ p ∈ ps, p.arr ≠ arr) → st'.cells arr = st.cells arr := by
  induction ps with
  | nil =>
    intro st vals hl _ _ _
    obtain rfl : vals = [] := by simpa using hl
    exact ⟨st, rfl, rfl, rfl, .nil, fun _ _ => rfl⟩
  | cons p ps ih =>
    intro st vals hl hn hlen hc
    rcases vals with _ | ⟨v, vals⟩
    · simp at hl
    simp only [List.map_cons, List.nodup_cons, List.mem_map, not_exists, not_and] at hn
    rw [writeRow, writeCell_ok st p i v (hlen p (by simp)) (hc p (by simp)), Outcome.bind_ok]
    obtain ⟨st', h1, h2, h3, h4, h5⟩ := ih
      { st with cells := fun a => if a = p.arr then (st.cells a).set (p.off + i) v else st.cells a } vals (by simpa using hl)
      hn.2 (by intro q hq; simp only [hn.1 q hq, if_false]; exact hlen q (by simp [hq])) (fun q hq => hc q (by simp [hq]))
    refine ⟨st', h1, h2, h3, .cons ?_ ?_, ?_⟩
    · rw [h5 p.arr (fun q hq => hn.1 q hq)]; simp
    · apply List.Forall₂.imp _ (List.forall₂_and_left (p := fun q => q ∈ ps) _ _ |>.2 ⟨fun q hq => hq, h4⟩)
      rintro q w ⟨hq, hw⟩
      rw [hw]; simp [hn.1 q hq]
    · intro arr harr
      have : arr ≠ p.arr := fun h => harr p (by simp) h.symm
      rw [h5 arr (fun q hq => harr q (by simp [hq]))]; simp [this]

/-- Swapping rows: each column is swapped, everything else stays. -/
theorem swapRow_spec (ps : List Ptr) (i j : Nat) :
    ∀ (st : State α), (ps.map (·.arr)).Nodup →
      (∀ p ∈ ps, p.off + i < (st.cells p.arr).length) → (∀ p ∈ ps, p.off + j < (st.cells p.arr).length) →
      (∀ p ∈ ps, st.isConst p.arr = false) →
      ∃ st', swapRow st i j ps ps = .ok st' ∧ st'.spans = st.spans ∧ st'.isConst = st.isConst ∧
        (∀ p ∈ ps, swapAt (st.cells p.arr) (p.off + i) (p.off + j) = some (st'.cells p.arr)) ∧
        ∀ arr, (∀ p ∈ ps, p.arr ≠ arr) → st'.cells arr = st.cells arr := by
  induction ps with
  | nil => intro st _ _ _ _; exact ⟨st, rfl, rfl, rfl, by simp, fun _ _ => rfl⟩
  | cons p ps ih =>
    intro st hn hi hj hc
    simp only [List.map_cons, List.nodup_cons, List.mem_map, not_exists, not_and] at hn
    obtain ⟨a, ha⟩ := elem_of_lt (hi p (by simp))
    obtain ⟨b, hb⟩ := elem_of_lt (hj p (by simp))
    rw [swapRow, readCell_ok ha, Outcome.bind_ok, readCell_ok hb, Outcome.bind_ok,
      writeCell_ok st p i b (hi p (by simp)) (hc p (by simp)), Outcome.bind_ok,
      writeCell_ok { st with cells := fun a => if a = p.arr then (st.cells a).set (p.off + i) b else st.cells a } p j a
        (by simpa using hj p (by simp)) (hc p (by simp)), Outcome.bind_ok]
    obtain ⟨st', h1, h2, h3, h4, h5⟩ := ih
      { st with cells := fun c => if c = p.arr then
          (if c = p.arr then (st.cells c).set (p.off + i) b else st.cells c).set (p.off + j) a
        else if c = p.arr then (st.cells c).set (p.off + i) b else st.cells c }
      hn.2 (by intro q hq; simp only [hn.1 q hq, if_false]; exact hi q (by simp [hq]))
      (by intro q hq; simp only [hn.1 q hq, if_false]; exact hj q (by simp [hq])) (fun q hq => hc q (by simp [hq]))
    refine ⟨st', h1, h2, h3, ?_, ?_⟩
    · intro q hq
      rcases List.mem_cons.1 hq with rfl | hq
      · rw [h5 q.arr (fun q' hq' => hn.1 q' hq')]
        simp only [elem] at ha hb
        simp [swapAt, ha, hb]
      · have := h4 q hq
        simpa only [hn.1 q hq, if_false] using this
    · intro arr harr
      have : arr ≠ p.arr := fun h => harr p (by simp) h.symm
      rw [h5 arr (fun q hq => harr q (by simp [hq]))]; simp [this]

/-- Copying a row within a span. -/
theorem copyRow_spec (ps : List Ptr) (i j : Nat) :
    ∀ (st : State α), (ps.map (·.arr)).Nodup →
      (∀ p ∈ ps, p.off + i < (st.cells p.arr).length) → (∀ p ∈ ps, p.off + j < (st.cells p.arr).length) →
      (∀ p ∈ ps, st.isConst p.arr = false) →
      ∃ st', copyRow st i j ps ps = .ok st' ∧ st'.spans = st.spans ∧ st'.isConst = st.isConst ∧
        (∀ p ∈ ps, ∃ v, elem st p j = some v ∧ st'.cells p.arr = (st.cells p.arr).set (p.off + i) v) ∧
        ∀ arr, (∀ p ∈ ps, p.arr ≠ arr) → st'.cells arr = st.cells arr := by
  induction ps with
  | nil => intro st _ _ _ _; exact ⟨st, rfl, rfl, rfl, by simp, fun _ _ => rfl⟩
  | cons p ps ih =>
    intro st hn hi hj hc
    simp only [List.map_cons, List.nodup_cons, List.mem_map, not_exists, not_and] at hn
    obtain ⟨b, hb⟩ := elem_of_lt (hj p (by simp))
    rw [copyRow, readCell_ok hb, Outcome.bind_ok, writeCell_ok st p i b (hi p (by simp)) (hc p (by simp)), Outcome.bind_ok]
    obtain ⟨st', h1, h2, h3, h4, h5⟩ := ih
      { st with cells := fun a => if a = p.arr then (st.cells a).set (p.off + i) b else st.cells a }
      hn.2 (by intro q hq; simp only [hn.1 q hq, if_false]; exact hi q (by simp [hq]))
      (by intro q hq; simp only [hn.1 q hq, if_false]; exact hj q (by simp [hq])) (fun q hq => hc q (by simp [hq]))
    refine ⟨st', h1, h2, h3, ?_, ?_⟩
    · intro q hq
      rcases List.mem_cons.1 hq with rfl | hq
      · exact ⟨b, hb, by rw [h5 q.arr (fun q' hq' => hn.1 q' hq')]; simp⟩
      · obtain ⟨v, hv1, hv2⟩ := h4 q hq
        simp only [elem, hn.1 q hq, if_false] at hv1 hv2
        exact ⟨v, hv1, hv2⟩
    · intro arr harr
      have : arr ≠ p.arr := fun h => harr p (by simp) h.symm
      rw [h5 arr (fun q hq => harr q (by simp [hq]))]; simp [this]

/-- Copying a row from one list of columns to another one. -/
theorem copyRow_across (ps : List Ptr) (i j : Nat) :
    ∀ (qs : List Ptr) (vals : List α) (st : State α), ps.length = qs.length → (ps.map (·.arr)).Nodup →
      (∀ (k l : Nat) (p q : Ptr), ps[k]? = some p → qs[l]? = some q → p.arr = q.arr → k = l) →
      (∀ p ∈ ps, p.off + i < (st.cells p.arr).length) → (∀ p ∈ ps, st.isConst p.arr = false) →
      List.Forall₂ (fun q v => elem st q j = some v) qs vals →
      ∃ st', copyRow st i j ps qs = .ok st' ∧ st'.spans = st.spans ∧ st'.isConst = st.isConst ∧
        List.Forall₂ (fun p v => st'.cells p.arr = (st.cells p.arr).set (p.off + i) v) ps vals ∧
        ∀ arr, (∀ p ∈ ps, p.arr ≠ arr) → st'.cells arr = st.cells arr := by
  induction ps with
  | nil =>
    intro qs vals st hl _ _ _ _ hr
    obtain rfl : qs = [] := by simpa using hl.symm
    cases hr
    exact ⟨st, rfl, rfl, rfl, .nil, fun _ _ => rfl⟩
  | cons p ps ih =>
    intro qs vals st hl hn hm hi hc hr
    cases hr with
    | nil => simp at hl
    | @cons q v qs vals hb hr =>
    simp only [List.map_cons, List.nodup_cons, List.mem_map, not_exists, not_and] at hn
    rw [copyRow, readCell_ok hb, Outcome.bind_ok, writeCell_ok st p i v (hi p (by simp)) (hc p (by simp)), Outcome.bind_ok]
    have hpq : ∀ q' ∈ qs, q'.arr ≠ p.arr := by
      intro q' hq' he
      obtain ⟨l, hl'⟩ := List.mem_iff_getElem?.1 hq'
      have := hm 0 (l + 1) p q' (by simp) (by simpa using hl') he.symm
      omega
    obtain ⟨st', h1, h2, h3, h4, h5⟩ := ih qs vals
      { st with cells := fun a => if a = p.arr then (st.cells a).set (p.off + i) v else st.cells a } (by simpa using hl)
      hn.2 (fun k l p' q' hp' hq' he => by
        have := hm (k + 1) (l + 1) p' q' (by simpa using hp') (by simpa using hq') he
        omega)
      (by intro q' hq'; simp only [hn.1 q' hq', if_false]; exact hi q' (by simp [hq'])) (fun q' hq' => hc q' (by simp [hq']))
      (by
        apply List.Forall₂.imp _ (List.forall₂_and_left (p := fun q => q ∈ qs) _ _ |>.2 ⟨fun q hq => hq, hr⟩)
        rintro q' w ⟨hq', hw⟩
        simp only [elem, hpq q' hq', if_false]
        exact hw)
    refine ⟨st', h1, h2, h3, .cons ?_ ?_, ?_⟩
    · rw [h5 p.arr (fun q hq => hn.1 q hq)]; simp
    · apply List.Forall₂.imp _ (List.forall₂_and_left (p := fun q => q ∈ ps) _ _ |>.2 ⟨fun q hq => hq, h4⟩)
      rintro q' w ⟨hq', hw⟩
      rw [hw]; simp [hn.1 q' hq']
    · intro arr harr
      have : arr ≠ p.arr := fun h => harr p (by simp) h.symm
      rw [h5 arr (fun q hq => harr q (by simp [hq]))]; simp [this]

/-- Swapping the rows of two lists of columns without common arrays. -/
theorem swapRow_across (ps : List Ptr) (i j : Nat) :
    ∀ (qs : List Ptr) (v w : List α) (st : State α), (ps.map (·.arr)).Nodup → (qs.map (·.arr)).Nodup →
      (∀ p ∈ ps, ∀ q ∈ qs, p.arr ≠ q.arr) → (∀ p ∈ ps, st.isConst p.arr = false) → (∀ q ∈ qs, st.isConst q.arr = false) →
      ps.length = qs.length →
      List.Forall₂ (fun p x => elem st p i = some x) ps v → List.Forall₂ (fun q x => elem st q j = some x) qs w →
      ∃ st', swapRow st i j ps qs = .ok st' ∧ st'.spans = st.spans ∧
        List.Forall₂ (fun p x => st'.cells p.arr = (st.cells p.arr).set (p.off + i) x) ps w ∧
        List.Forall₂ (fun q x => st'.cells q.arr = (st.cells q.arr).set (q.off + j) x) qs v ∧
        ∀ arr, (∀ p ∈ ps, p.arr ≠ arr) → (∀ q ∈ qs, q.arr ≠ arr) → st'.cells arr = st.cells arr := by
  induction ps with
  | nil =>
    intro qs v w st _ _ _ _ _ hl hr hr'
    obtain rfl : qs = [] := by simpa using hl.symm
    cases hr; cases hr'
    exact ⟨st, rfl, rfl, .nil, .nil, fun _ _ _ => rfl⟩
  | cons p ps ih =>
    intro qs v w st hn hn' hd hc hc' hl hr hr'
    cases hr' with
    | nil => simp at hl
    | @cons q b qs w hb hr' =>
    cases hr with
    | @cons _ a _ v ha hr =>
    simp only [List.map_cons, List.nodup_cons, List.mem_map, not_exists, not_and] at hn hn'
    have hpq : p.arr ≠ q.arr := hd p (by simp) q (by simp)
    have lp : p.off + i < (st.cells p.arr).length := (List.getElem?_eq_some_iff.1 ha).1
    have lq : q.off + j < (st.cells q.arr).length := (List.getElem?_eq_some_iff.1 hb).1
    rw [swapRow, readCell_ok ha, Outcome.bind_ok, readCell_ok hb, Outcome.bind_ok,
      writeCell_ok st p i b lp (hc p (by simp)), Outcome.bind_ok,
      writeCell_ok { st with cells := fun a => if a = p.arr then (st.cells a).set (p.off + i) b else st.cells a } q j a
        (by simpa [hpq.symm] using lq) (hc' q (by simp)), Outcome.bind_ok]
    obtain ⟨st', h1, h2, h3, h4, h5⟩ := ih qs v w
      { st with cells := fun c => if c = q.arr then
          (if c = p.arr then (st.cells c).set (p.off + i) b else st.cells c).set (q.off + j) a
        else if c = p.arr then (st.cells c).set (p.off + i) b else st.cells c }
      hn.2 hn'.2 (fun p' hp' q' hq' => hd p' (by simp [hp']) q' (by simp [hq'])) (fun p' hp' => hc p' (by simp [hp']))
      (fun q' hq' => hc' q' (by simp [hq'])) (by simpa using hl)
      (by
        apply List.Forall₂.imp _ (List.forall₂_and_left (p := fun q => q ∈ ps) _ _ |>.2 ⟨fun q hq => hq, hr⟩)
        rintro p' x ⟨hp', hx⟩
        simp only [elem, hn.1 p' hp', hd p' (by simp [hp']) q (by simp), if_false]
        exact hx)
      (by
        apply List.Forall₂.imp _ (List.forall₂_and_left (p := fun q => q ∈ qs) _ _ |>.2 ⟨fun q hq => hq, hr'⟩)
        rintro q' x ⟨hq', hx⟩
        simp only [elem, hn'.1 q' hq', (hd p (by simp) q' (by simp [hq'])).symm, if_false]
        exact hx)
    refine ⟨st', h1, h2, .cons ?_ ?_, .cons ?_ ?_, ?_⟩
    · rw [h5 p.arr (fun q hq => hn.1 q hq) (fun q' hq' => (hd p (by simp) q' (by simp [hq'])).symm)]; simp [hpq]
    · apply List.Forall₂.imp _ (List.forall₂_and_left (p := fun q => q ∈ ps) _ _ |>.2 ⟨fun q hq => hq, h3⟩)
      rintro p' x ⟨hp', hx⟩
      rw [hx]; simp [hn.1 p' hp', hd p' (by simp [hp']) q (by simp)]
    · rw [h5 q.arr (fun p' hp' => hd p' (by simp [hp']) q (by simp)) (fun q' hq' => hn'.1 q' hq')]; simp [hpq.symm]
    · apply List.Forall₂.imp _ (List.forall₂_and_left (p := fun q => q ∈ qs) _ _ |>.2 ⟨fun q hq => hq, h4⟩)
      rintro q' x ⟨hq', hx⟩
      rw [hx]; simp [hn'.1 q' hq', (hd p (by simp) q' (by simp [hq'])).symm]
    · intro arr harr harr'
      have e1 : arr ≠ p.arr := fun h => harr p (by simp) h.symm
      have e2 : arr ≠ q.arr := fun h => harr' q (by simp) h.symm
      rw [h5 arr (fun q hq => harr q (by simp [hq])) (fun q hq => harr' q (by simp [hq]))]; simp [e1, e2]

/-- In a span with separate columns, an array belongs to at most one column. -/
theorem separate_unique {s : Span} (hs : Separate s) {p q : Ptr} (hp : p ∈ s.data) (hq : q ∈ s.data) (h : p.arr = q.arr) : p = q :=
  List.inj_on_of_nodup_map hs hp hq h

/-- If the arrays of a span change at positions of the span only, and other arrays do not, then nothing outside changes. -/
theorem sameOutside_of {s : Span} (hs : Separate s) {st st' : State α} (hsp : st'.spans = st.spans)
    (hin : ∀ p ∈ s.data, ∀ pos, ¬ (p.off ≤ pos ∧ pos < p.off + s.size) → (st'.cells p.arr)[pos]? = (st.cells p.arr)[pos]?)
    (hout : ∀ arr, (∀ p ∈ s.data, p.arr ≠ arr) → st'.cells arr = st.cells arr) : SameOutside s st st' := by
  refine ⟨hsp, ?_⟩
  intro arr pos hni
  by_cases h : ∃ p ∈ s.data, p.arr = arr
  · obtain ⟨p, hp, rfl⟩ := h
    exact hin p hp pos (fun hc => hni ⟨p, hp, rfl, hc.1, hc.2⟩)
  · rw [hout arr (fun p hp hpa => h ⟨p, hp, hpa⟩)]

/-- The rows of a span as a list, relative to the state `st0` at the beginning. -/
structure RowsRel (s : Span) (st0 st : State α) (rows : List (List α)) : Prop where
  const : st.isConst = st0.isConst
  len : ∀ arr, (st.cells arr).length = (st0.cells arr).length
  outside : SameOutside s st0 st
  n : rows.length = s.size
  row : ∀ (i : Nat) (r : List α), rows[i]? = some r → Row st s i r

theorem rows_exist {st : State α} {s : Span} (hv : Valid st s) (n : Nat) (hn : n ≤ s.size) :
    ∃ rows : List (List α), rows.length = n ∧ ∀ (i : Nat) (r : List α), rows[i]? = some r → Row st s i r := by
  induction n with
  | zero => exact ⟨[], rfl, by simp⟩
  | succ n ih =>
    obtain ⟨rows, h1, h2⟩ := ih (by omega)
    obtain ⟨r, hr⟩ := row_exists hv (i := n) (by omega)
    refine ⟨rows ++ [r], by simp [h1], ?_⟩
    intro i r' hi
    rw [List.getElem?_append] at hi
    split at hi
    · exact h2 i r' hi
    · have : i = n := by
        by_contra hne
        rw [List.getElem?_eq_none (by simp; omega)] at hi
        cases hi
      subst this
      simp [h1] at hi
      exact hi ▸ hr

theorem rowsRel_init {st : State α} {s : Span} (hv : Valid st s) : ∃ rows, RowsRel s st st rows := by
  obtain ⟨rows, h1, h2⟩ := rows_exist hv s.size (Nat.le_refl _)
  exact ⟨rows, rfl, fun _ => rfl, ⟨rfl, fun _ _ _ => rfl⟩, h1, h2⟩

theorem swapRows_sim {st0 : State α} {b : Nat} {s : Span} (hb : st0.spans b = some s) (hv : Valid st0 s) (hs : Separate s)
    (hw : Writable st0 s) : SwapSim (swapRows (begin' b)) (RowsRel s st0) := by
  intro st rows i j rows' hR hsw
  have hij : i < s.size ∧ j < s.size := by
    obtain ⟨x, y, hx, hy, -⟩ := swapAt_some hsw
    obtain ⟨hx, -⟩ := List.getElem?_eq_some_iff.1 hx
    obtain ⟨hy, -⟩ := List.getElem?_eq_some_iff.1 hy
    rw [hR.n] at hx hy
    exact ⟨hx, hy⟩
  have hspan : st.spans b = some s := by rw [hR.outside.1, hb]
  have hvi : ∀ k < s.size, ∀ p ∈ s.data, p.off + k < (st.cells p.arr).length := by
    intro k hk p hp
    have := hv p hp
    rw [hR.len]; omega
  obtain ⟨st', h1, h2, h3, h4, h5⟩ := swapRow_spec s.data i j st hs (hvi i hij.1) (hvi j hij.2)
    (by intro p hp; rw [hR.const]; exact hw p hp)
  refine ⟨st', ?_, ?_⟩
  · simp only [swapRows, begin', Ref.plus, swapRefs, withSpan_some hspan, Int.zero_add, h1]
  · refine ⟨by rw [h3, hR.const], ?_, ?_, ?_, ?_⟩
    · intro arr
      rw [← hR.len]
      by_cases h : ∃ p ∈ s.data, p.arr = arr
      · obtain ⟨p, hp, rfl⟩ := h
        exact swapAt_length (h4 p hp)
      · rw [h5 arr (fun p hp hpa => h ⟨p, hp, hpa⟩)]
    · have : SameOutside s st st' := by
        apply sameOutside_of hs h2 _ h5
        intro p hp pos hpos
        rw [swapAt_get (h4 p hp)]
        have e1 : pos ≠ p.off + i := by omega
        have e2 : pos ≠ p.off + j := by omega
        simp [e1, e2]
      refine ⟨by rw [h2, hR.outside.1], ?_⟩
      intro arr pos hni
      rw [this.2 arr pos hni, hR.outside.2 arr pos hni]
    · rw [swapAt_length hsw, hR.n]
    · intro k r hk
      rw [swapAt_get hsw] at hk
      have key : ∀ k', rows[k']? = some r → (∀ p ∈ s.data, elem st' p k = elem st p k') → Row st' s k r := by
        intro k' hr heq
        have := hR.row k' r hr
        unfold Row at this ⊢
        apply List.Forall₂.imp _ (List.forall₂_and_left (p := fun q => q ∈ s.data) _ _ |>.2 ⟨fun q hq => hq, this⟩)
        rintro p v ⟨hp, hv⟩
        rw [heq p hp, hv]
      have helem : ∀ p ∈ s.data, elem st' p k = if k = i then elem st p j else if k = j then elem st p i else elem st p k := by
        intro p hp
        unfold elem
        rw [swapAt_get (h4 p hp)]
        simp only [Nat.add_left_cancel_iff]
        by_cases e1 : k = i
        · simp [e1]
        · by_cases e2 : k = j
          · subst e2; simp [e1]
          · simp only [e1, e2, if_false]
      by_cases e1 : k = i
      · simp only [e1, if_true] at hk
        exact key j hk (by intro p hp; rw [helem p hp]; simp [e1])
      · by_cases e2 : k = j
        · simp only [e2] at hk
          rw [if_neg (by rw [← e2]; exact e1)] at hk
          simp at hk
          exact key i hk (by intro p hp; rw [helem p hp]; simp [e2]; intro h; rw [h])
        · simp only [e1, e2, if_false] at hk
          exact key k hk (by intro p hp; rw [helem p hp]; simp [e1, e2])

end Makeshift.Soa
