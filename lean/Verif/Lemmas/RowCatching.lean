import Verif.Lemmas.RowPrograms
import Verif.Spec.RowCatching

/-! Lemmas about programs on rows which catch violated contracts. -/

namespace Makeshift.Soa

open Makeshift.Spec.Soa Makeshift.Props

variable {α β : Type}

/-- A statement as a program. -/
def RowAct.prog : RowAct α → RowProg α (List α)
  | .load i => .load i fun t => .done t
  | .loadElem i c => .loadElem i c fun v => .done [v]
  | .store i t => .store i t (.done [])
  | .storeElem i c v => .storeElem i c v (.done [])
  | .copy i j => .copy i j (.done [])
  | .swap i j => .swap i j (.done [])

theorem runAct_eq (st : State α) (b fresh : Nat) (a : RowAct α) : runAct st b a = runSpan .index b fresh a.prog st := by
  cases a with
  | loadElem i c =>
    simp only [RowAct.prog, runAct, runSpan]
    congr 1
  | _ => rfl

theorem prog_fits {n : Nat} {a : RowAct α} (h : ActFits n a) : Fits n a.prog := by
  cases a with
  | load i => exact .load fun _ _ => .done
  | loadElem i c => exact .loadElem h fun _ => .done
  | store i t => exact .store h .done
  | storeElem i c v => exact .storeElem h .done
  | copy i j => exact .copy .done
  | swap i j => exact .swap .done

theorem actRows_prog {n : Nat} {rows : List (List α)} (hr : ∀ r ∈ rows, r.length = n) {a : RowAct α} (h : ActFits n a) :
    runRows a.prog rows = (match actRows rows a with | some y => .ok y | none => .failFast) ∧
    ∀ t rows', actRows rows a = some (t, rows') → t.length = reads n a := by
  cases a with
  | load i =>
    simp only [RowAct.prog, runRows, actRows]
    rcases hi : rows[i]? with _ | r
    · exact ⟨rfl, by simp⟩
    · refine ⟨rfl, fun t rows' e => ?_⟩
      cases e
      exact hr _ (List.mem_of_getElem? hi)
  | loadElem i c =>
    simp only [RowAct.prog, runRows, actRows]
    rcases hi : rows[i]? with _ | r
    · exact ⟨rfl, by simp⟩
    · have hc : c < r.length := by rw [hr r (List.mem_of_getElem? hi)]; exact h
      simp only [List.getElem?_eq_getElem hc, Option.map_some, Option.toList_some]
      exact ⟨trivial, fun t rows' e => by cases e; rfl⟩
  | store i t =>
    simp only [RowAct.prog, runRows, actRows]
    rcases hi : rows[i]? with _ | r
    · rw [if_neg (by have := List.getElem?_eq_none_iff.1 hi; omega)]
      exact ⟨rfl, by simp⟩
    · rw [if_pos (List.getElem?_eq_some_iff.1 hi).1]
      exact ⟨rfl, fun t rows' e => by cases e; rfl⟩
  | storeElem i c v =>
    simp only [RowAct.prog, runRows, actRows]
    rcases hi : rows[i]? with _ | r
    · exact ⟨rfl, by simp⟩
    · exact ⟨rfl, fun t rows' e => by cases e; rfl⟩
  | copy i j =>
    simp only [RowAct.prog, runRows, actRows]
    rcases hi : rows[i]? with _ | r <;> rcases hj : rows[j]? with _ | q
    · exact ⟨rfl, by simp⟩
    · exact ⟨rfl, by simp⟩
    · exact ⟨rfl, by simp⟩
    · exact ⟨rfl, fun t rows' e => by cases e; rfl⟩
  | swap i j =>
    simp only [RowAct.prog, runRows, actRows]
    rcases hi : rows[i]? with _ | r <;> rcases hj : rows[j]? with _ | q
    · exact ⟨rfl, by simp⟩
    · exact ⟨rfl, by simp⟩
    · exact ⟨rfl, by simp⟩
    · exact ⟨rfl, fun t rows' e => by cases e; rfl⟩

theorem rowsAre_length {st : State α} {s : Span} {rows : List (List α)} (h : RowsAre st s rows) : ∀ r ∈ rows, r.length = s.data.length := by
  intro r hr
  obtain ⟨i, hi, rfl⟩ := List.getElem_of_mem hr
  exact (h.2 i _ (List.getElem?_eq_getElem hi)).length_eq.symm

theorem actRows_none {rows : List (List α)} {a : RowAct α} : actRows rows a = none ↔ ∃ i ∈ rowsOf a, rows.length ≤ i := by
  cases a with
  | copy i j =>
    simp only [actRows, rowsOf, List.mem_cons, List.not_mem_nil, or_false, exists_eq_or_imp, exists_eq_left]
    by_cases hi : i < rows.length <;> by_cases hj : j < rows.length <;> simp [hi, hj] <;> omega
  | swap i j =>
    simp only [actRows, rowsOf, List.mem_cons, List.not_mem_nil, or_false, exists_eq_or_imp, exists_eq_left]
    by_cases hi : i < rows.length <;> by_cases hj : j < rows.length <;> simp [hi, hj] <;> omega
  | _ => simp [actRows, rowsOf]

/-- What a statement does to a span, and to the list of its rows. -/
theorem act_agrees {a : RowAct α} {b fresh : Nat} {st : State α} {s : Span} {rows : List (List α)} (hb : st.spans b = some s) (hf : b < fresh)
    (hfr : ∀ j, fresh ≤ j → st.spans j = none) (hv : Valid st s) (hs : Separate s) (hw : Writable st s) (hR : RowsAre st s rows)
    (ha : ActFits s.data.length a) :
    (∀ t rows', actRows rows a = some (t, rows') → ∃ st', runAct st b a = .ok (t, st') ∧ Kept s st st' ∧ RowsAre st' s rows') ∧
    (actRows rows a = none → runAct st b a = .failFast) := by
  have h := run_agrees .index a.prog b fresh st s rows hb hf hfr hv hs hw hR (prog_fits ha)
  obtain ⟨h1, -⟩ := actRows_prog (rowsAre_length hR) ha
  rw [h1, ← runAct_eq] at h
  constructor
  · intro t rows' e
    rw [e] at h
    exact h
  · intro e
    rw [e] at h
    exact h rfl

/-- What running a program has to do with running it on the list of rows. -/
structure CatchAgrees (s : Span) (st : State α) (o : CatchRes α β) (l : Option β × List (List α)) : Prop where
  ends : ∃ st', (o = match l.1 with | some x => .returned x st' | none => .violated st') ∧ Kept s st st' ∧ RowsAre st' s l.2

theorem CatchAgrees.step {s : Span} {st st1 : State α} {o : CatchRes α β} {l : Option β × List (List α)} (hk : Kept s st st1)
    (h : CatchAgrees s st1 o l) : CatchAgrees s st o l := by
  obtain ⟨st', h1, h2, h3⟩ := h
  exact ⟨st', h1, hk.trans h2, h3⟩

theorem subspan_iff {s : Span} {o c n : Nat} (hn : (if c = 18446744073709551615 then s.size - o else c) = n) :
    (o + n ≤ s.size → s.subspan o c = .ok ⟨s.data.map fun p => { p with off := p.off + o }, n⟩) ∧ (¬ o + n ≤ s.size → s.subspan o c = .failFast) := by
  have hnp : npos = 18446744073709551615 := rfl
  constructor
  · intro hle
    have hcond : (decide (o ≤ s.size) && (decide (c = npos) || decide (c ≤ s.size - o))) = true := by
      simp only [Bool.and_eq_true, Bool.or_eq_true, decide_eq_true_eq, hnp]
      by_cases e : c = 18446744073709551615
      · exact ⟨by omega, .inl e⟩
      · rw [if_neg e] at hn
        exact ⟨by omega, .inr (by omega)⟩
    unfold Span.subspan Outcome.expects
    rw [hcond]
    simp only [if_true, Outcome.bind_ok, hnp, Outcome.ok.injEq, Span.mk.injEq, true_and]
    rw [← hn]
    by_cases e : c = 18446744073709551615 <;> simp [e]
  · intro hle
    have hcond : (decide (o ≤ s.size) && (decide (c = npos) || decide (c ≤ s.size - o))) = false := by
      rw [Bool.eq_false_iff]
      intro h
      simp only [Bool.and_eq_true, Bool.or_eq_true, decide_eq_true_eq, hnp] at h
      by_cases e : c = 18446744073709551615
      · rw [if_pos e] at hn; omega
      · rw [if_neg e] at hn; omega
    simp [Span.subspan, Outcome.expects, hcond, Outcome.bind]

/-- A function is called with a part of a span ... -/
theorem part_enter {st : State α} {s t : Span} {rows : List (List α)} {o c fresh : Nat} (hsub : s.subspan o c = .ok t)
    (hv : Valid st s) (hs : Separate s) (hw : Writable st s) (hR : RowsAre st s rows) :
    Valid (st.setSpan fresh (some t)) t ∧ Separate t ∧ Writable (st.setSpan fresh (some t)) t ∧
      RowsAre (st.setSpan fresh (some t)) t ((rows.drop o).take t.size) := by
  obtain ⟨ht, hle⟩ := sub_eq hsub
  have htd : t.data = s.data.map fun p => { p with off := p.off + o } := by rw [ht]
  refine ⟨?_, ?_, ?_, ?_⟩
  · intro p hp
    rw [htd] at hp
    obtain ⟨q, hq, rfl⟩ := List.mem_map.1 hp
    have := hv q hq
    show q.off + o + t.size ≤ (st.cells q.arr).length
    omega
  · unfold Separate
    rw [htd, List.map_map]
    exact hs
  · intro p hp
    rw [htd] at hp
    obtain ⟨q, hq, rfl⟩ := List.mem_map.1 hp
    exact hw q hq
  · have hl := hR.1
    refine ⟨by rw [List.length_take, List.length_drop, hl]; omega, fun i r hi => ?_⟩
    rw [row_setSpan, row_part hsub]
    refine hR.2 _ _ ?_
    rw [List.getElem?_take] at hi
    split at hi
    · rw [List.getElem?_drop] at hi; exact hi
    · cases hi

/-- ... and is left. -/
theorem part_leave {st st1 : State α} {s t : Span} {rows part : List (List α)} {o c fresh : Nat} (hsub : s.subspan o c = .ok t)
    (hs : Separate s) (hR : RowsAre st s rows) (hfr : ∀ j, fresh ≤ j → st.spans j = none) (hk : Kept t (st.setSpan fresh (some t)) st1)
    (hRp : RowsAre st1 t part) :
    Kept s st (st1.setSpan fresh none) ∧ RowsAre (st1.setSpan fresh none) s (rows.take o ++ part ++ rows.drop (o + t.size)) := by
  obtain ⟨ht, hle⟩ := sub_eq hsub
  have htd : t.data = s.data.map fun p => { p with off := p.off + o } := by rw [ht]
  have hk' : Kept s st (st1.setSpan fresh none) := by
    refine ⟨hk.const, hk.len, ?_, fun arr pos hni => ?_⟩
    · funext j
      have h1 : st1.spans j = (st.setSpan fresh (some t)).spans j := by rw [hk.outside.1]
      simp only [State.setSpan] at h1 ⊢
      split
      · rename_i e; rw [e, hfr fresh (Nat.le_refl _)]
      · rename_i e; rw [h1, if_neg e]
    · exact hk.outside.2 arr pos fun h => hni (part_inside hsub h)
  refine ⟨hk', ?_⟩
  have hl := hR.1
  have hlp := hRp.1
  generalize hn : t.size = n at *
  refine ⟨by simp only [List.length_append, List.length_take, List.length_drop]; omega, fun i r hi => ?_⟩
  rw [row_setSpan]
  have hkeep : ∀ r, (i < o ∨ o + n ≤ i) → Row st s i r → Row st1 s i r := by
    intro r hio hr
    refine List.Forall₂.imp ?_ (List.forall₂_and_left (p := fun q => q ∈ s.data) _ _ |>.2 ⟨fun q hq => hq, hr⟩)
    rintro q w ⟨hq, e⟩
    unfold elem at e ⊢
    rw [hk.outside.2 q.arr (q.off + i) ?_]
    · exact e
    · rintro ⟨p, hp, e1, e2, e3⟩
      rw [htd] at hp
      obtain ⟨q', hq', rfl⟩ := List.mem_map.1 hp
      dsimp only at e1 e2 e3
      obtain rfl := separate_unique hs hq' hq e1
      omega
  by_cases h1 : i < o
  · rw [List.append_assoc, List.getElem?_append_left (by rw [List.length_take]; omega), List.getElem?_take_of_lt h1] at hi
    exact hkeep r (.inl h1) (hR.2 i r hi)
  · by_cases h2 : i < o + n
    · rw [List.append_assoc, List.getElem?_append_right (by rw [List.length_take]; omega), List.length_take,
        List.getElem?_append_left (by omega)] at hi
      have := (row_part hsub st1 _ _).1 (hRp.2 _ _ hi)
      rw [show o + (i - min o rows.length) = i by omega] at this
      exact this
    · rw [List.getElem?_append_right (by rw [List.length_append, List.length_take]; omega), List.length_append, List.length_take,
        List.getElem?_drop] at hi
      rw [show o + n + (i - (min o rows.length + part.length)) = i by omega] at hi
      exact hkeep r (.inr (by omega)) (hR.2 i r hi)

theorem catch_agrees (p : CatchProg α β) : ∀ (b fresh : Nat) (st : State α) (s : Span) (rows : List (List α)),
    st.spans b = some s → b < fresh → (∀ j, fresh ≤ j → st.spans j = none) → Valid st s → Separate s → Writable st s → RowsAre st s rows →
    CatchFits s.data.length p → CatchAgrees s st (runCatch b fresh p st) (catchRows p rows) := by
  induction p with
  | done x => intro b fresh st s rows hb hf hfr hv hs hw hR hp; exact ⟨st, rfl, Kept.refl _ _, hR⟩
  | raise => intro b fresh st s rows hb hf hfr hv hs hw hR hp; exact ⟨st, rfl, Kept.refl _ _, hR⟩
  | act a k ih =>
    intro b fresh st s rows hb hf hfr hv hs hw hR hp
    cases hp with | act ha hp => ?_
    have h := run_agrees .index a.prog b fresh st s rows hb hf hfr hv hs hw hR (prog_fits ha)
    obtain ⟨h1, h2⟩ := actRows_prog (rowsAre_length hR) ha
    rw [h1, ← runAct_eq] at h
    simp only [runCatch, catchRows]
    rcases he : actRows rows a with _ | ⟨t, rows'⟩
    · rw [he] at h
      rw [h rfl]
      exact ⟨st, rfl, Kept.refl _ _, hR⟩
    · rw [he] at h
      obtain ⟨st', e, hk, hR'⟩ := h
      rw [e]
      exact CatchAgrees.step hk (ih t b fresh st' s rows' (by rw [hk.outside.1]; exact hb) hf (by rw [hk.outside.1]; exact hfr) (hk.valid hv) hs
        (hk.writable hw) hR' (hp t (h2 t rows' he)))
  | part o c body k ihb ihk =>
    intro b fresh st s rows hb hf hfr hv hs hw hR hp
    cases hp with | part hpb hpk => ?_
    simp only [runCatch, catchRows, hb, hR.1]
    generalize hn : (if c = 18446744073709551615 then s.size - o else c) = n
    obtain ⟨hsub, hfail⟩ := subspan_iff hn
    by_cases hle : o + n ≤ s.size
    · have hsub := hsub hle
      rw [if_pos hle]
      generalize ht : (⟨s.data.map fun p => { p with off := p.off + o }, n⟩ : Span) = t at hsub
      have htn : t.size = n := by rw [← ht]
      have htl : t.data.length = s.data.length := by rw [← ht]; simp
      rw [hsub]
      obtain ⟨hvt, hst, hwt, hRt⟩ := part_enter (fresh := fresh) hsub hv hs hw hR
      rw [htn] at hRt
      obtain ⟨st1, h1, hk, hRp⟩ := ihb fresh (fresh + 1) (st.setSpan fresh (some t)) t _ (by simp [State.setSpan]) (by omega)
        (by intro j hj; simp [State.setSpan, show j ≠ fresh by omega]; exact hfr j (by omega)) hvt hst hwt hRt (by rw [htl]; exact hpb)
      generalize catchRows body ((rows.drop o).take n) = y at h1 hRp ⊢
      obtain ⟨x, part⟩ := y
      obtain ⟨hk', hR'⟩ := part_leave hsub hs hR hfr hk hRp
      rw [htn] at hR'
      dsimp only at h1 hR' ⊢
      rw [h1]
      cases x with
      | none => exact ⟨_, rfl, hk', hR'⟩
      | some x =>
        exact CatchAgrees.step hk' (ihk x b fresh _ s _ (by rw [hk'.outside.1]; exact hb) hf (by rw [hk'.outside.1]; exact hfr) (hk'.valid hv) hs
          (hk'.writable hw) hR' (hpk x))
    · rw [if_neg hle, hfail hle]
      exact ⟨st, rfl, Kept.refl _ _, hR⟩
  | attempt body k ihb ihk =>
    intro b fresh st s rows hb hf hfr hv hs hw hR hp
    cases hp with | attempt hpb hpk => ?_
    simp only [runCatch, catchRows]
    obtain ⟨st1, h1, hk, hR'⟩ := ihb b fresh st s rows hb hf hfr hv hs hw hR hpb
    generalize catchRows body rows = y at h1 hR' ⊢
    obtain ⟨x, rows'⟩ := y
    dsimp only at h1 hR' ⊢
    rw [h1]
    have := fun x => ihk x b fresh st1 s rows' (by rw [hk.outside.1]; exact hb) hf (by rw [hk.outside.1]; exact hfr) (hk.valid hv) hs
      (hk.writable hw) hR' (hpk x)
    cases x with
    | none => exact CatchAgrees.step hk (this none)
    | some x => exact CatchAgrees.step hk (this (some x))

end Makeshift.Soa
