import Verif.Props.SoaColumns
import Verif.Spec.RowPrograms

/-! Lemmas about programs which work on rows. -/

namespace Makeshift.Soa

open Makeshift.Spec.Soa Makeshift.Props

variable {α β : Type}

theorem bind_eq_ok {β γ : Type} {o : Outcome β} {f : β → Outcome γ} {y : γ} (h : o.bind f = .ok y) : ∃ x, o = .ok x ∧ f x = .ok y := by
  cases o with
  | ok x => exact ⟨x, rfl, h⟩
  | _ => cases h

theorem writeCell_const {st st' : State α} {p : Ptr} {i : Int} {v : α} (h : writeCell st p i v = .ok st') : st'.isConst = st.isConst := by
  unfold writeCell at h
  dsimp only at h
  split at h
  · cases h
  · cases h; rfl

theorem writeRow_const (i : Int) : ∀ (ps : List Ptr) (vs : List α) (st st' : State α), writeRow st i ps vs = .ok st' → st'.isConst = st.isConst := by
  intro ps
  induction ps with
  | nil => intro vs st st' h; simp [writeRow] at h; rw [h]
  | cons p ps ih =>
    intro vs st st' h
    rcases vs with _ | ⟨v, vs⟩
    · simp [writeRow] at h; rw [h]
    · obtain ⟨st1, h1, h2⟩ := bind_eq_ok h
      rw [ih vs st1 st' h2, writeCell_const h1]

theorem copyRow_const (i j : Int) : ∀ (ps qs : List Ptr) (st st' : State α), copyRow st i j ps qs = .ok st' → st'.isConst = st.isConst := by
  intro ps
  induction ps with
  | nil => intro vs st st' h; simp [copyRow] at h; rw [h]
  | cons p ps ih =>
    intro qs st st' h
    rcases qs with _ | ⟨q, qs⟩
    · simp [copyRow] at h; rw [h]
    · obtain ⟨v, -, h⟩ := bind_eq_ok h
      obtain ⟨st1, h1, h2⟩ := bind_eq_ok h
      rw [ih qs st1 st' h2, writeCell_const h1]

theorem swapRow_const (i j : Int) : ∀ (ps qs : List Ptr) (st st' : State α), swapRow st i j ps qs = .ok st' → st'.isConst = st.isConst := by
  intro ps
  induction ps with
  | nil => intro vs st st' h; simp [swapRow] at h; rw [h]
  | cons p ps ih =>
    intro qs st st' h
    rcases qs with _ | ⟨q, qs⟩
    · simp [swapRow] at h; rw [h]
    · obtain ⟨v, -, h⟩ := bind_eq_ok h
      obtain ⟨w, -, h⟩ := bind_eq_ok h
      obtain ⟨st1, h1, h⟩ := bind_eq_ok h
      obtain ⟨st2, h2, h3⟩ := bind_eq_ok h
      rw [ih qs st2 st' h3, writeCell_const h2, writeCell_const h1]

/-- What a program may do: change elements of the span. -/
structure Kept (s : Span) (st st' : State α) : Prop where
  const : st'.isConst = st.isConst
  len : ∀ arr, (st'.cells arr).length = (st.cells arr).length
  outside : SameOutside s st st'

theorem Kept.refl (s : Span) (st : State α) : Kept s st st := ⟨rfl, fun _ => rfl, rfl, fun _ _ _ => rfl⟩

theorem Kept.trans {s : Span} {st st1 st2 : State α} (h : Kept s st st1) (h' : Kept s st1 st2) : Kept s st st2 :=
  ⟨h'.const.trans h.const, fun a => (h'.len a).trans (h.len a), h'.outside.1.trans h.outside.1,
    fun a p hp => (h'.outside.2 a p hp).trans (h.outside.2 a p hp)⟩

theorem Kept.valid {s : Span} {st st' : State α} (h : Kept s st st') (hv : Valid st s) : Valid st' s := by
  intro p hp; rw [h.len]; exact hv p hp

theorem Kept.writable {s : Span} {st st' : State α} (h : Kept s st st') (hw : Writable st s) : Writable st' s := by
  intro p hp; rw [h.const]; exact hw p hp

theorem row_get {st : State α} {s : Span} {i : Nat} {r : List α} (h : Row st s i r) {p : Ptr} (hp : p ∈ s.data) : ∃ v, elem st p i = some v := by
  obtain ⟨k, hk, rfl⟩ := List.getElem_of_mem hp
  exact ⟨_, (List.forall₂_iff_get.1 h).2 k hk (by have := h.length_eq; omega)⟩

theorem len_of_rows {s : Span} {st st' : State α} (hv : Valid st s) (ho : SameOutside s st st')
    (hr : ∀ i < s.size, ∃ r, Row st' s i r) (arr : Nat) : (st'.cells arr).length = (st.cells arr).length := by
  have key : ∀ pos, pos < (st'.cells arr).length ↔ pos < (st.cells arr).length := by
    intro pos
    by_cases hin : Inside s arr pos
    · obtain ⟨p, hp, rfl, h1, h2⟩ := hin
      have := hv p hp
      obtain ⟨r, hr⟩ := hr (pos - p.off) (by omega)
      obtain ⟨v, hv'⟩ := row_get hr hp
      obtain ⟨h3, -⟩ := List.getElem?_eq_some_iff.1 hv'
      constructor <;> intro _ <;> omega
    · have := ho.2 arr pos hin
      constructor
      · intro h
        rw [List.getElem?_eq_getElem h] at this
        exact (List.getElem?_eq_some_iff.1 this.symm).1
      · intro h
        rw [List.getElem?_eq_getElem h] at this
        exact (List.getElem?_eq_some_iff.1 this).1
  have h1 := key (st'.cells arr).length
  have h2 := key (st.cells arr).length
  omega

theorem rowsAre_row {st : State α} {s : Span} {rows : List (List α)} (h : RowsAre st s rows) {i : Nat} (hi : i < s.size) :
    ∃ r, rows[i]? = some r ∧ Row st s i r := by
  have : i < rows.length := by rw [h.1]; exact hi
  exact ⟨rows[i], List.getElem?_eq_getElem this, h.2 i _ (List.getElem?_eq_getElem this)⟩

theorem rowsAre_ge {st : State α} {s : Span} {rows : List (List α)} (h : RowsAre st s rows) {i : Nat} (hi : ¬ i < s.size) : rows[i]? = none :=
  List.getElem?_eq_none (by rw [h.1]; omega)

theorem set_step {s : Span} {st st' : State α} {rows : List (List α)} (hv : Valid st s) (hR : RowsAre st s rows) {i : Nat} {vals : List α}
    (hi : i < s.size) (h : OnlyRowSet s st st' i vals) (hc : st'.isConst = st.isConst) : Kept s st st' ∧ RowsAre st' s (rows.set i vals) := by
  have hR' : RowsAre st' s (rows.set i vals) := by
    refine ⟨by rw [List.length_set, hR.1], fun k r hk => ?_⟩
    by_cases e : i = k
    · subst e
      rw [List.getElem?_set_self (by rw [hR.1]; exact hi)] at hk
      cases hk
      exact h.1
    · rw [List.getElem?_set_ne e] at hk
      exact (h.2.1 k r (Ne.symm e)).1 (hR.2 k r hk)
  refine ⟨⟨hc, len_of_rows hv h.2.2 fun i hi => ?_, h.2.2⟩, hR'⟩
  obtain ⟨r, -, hr⟩ := rowsAre_row hR' hi
  exact ⟨r, hr⟩

theorem swap_step {s : Span} {st st' : State α} {rows : List (List α)} (hv : Valid st s) (hR : RowsAre st s rows) {i j : Nat} {r q : List α}
    (hi : rows[i]? = some r) (hj : rows[j]? = some q) (h : RowsMoved s st st' (fun k => if k = i then j else if k = j then i else k))
    (hc : st'.isConst = st.isConst) : Kept s st st' ∧ RowsAre st' s ((rows.set i q).set j r) := by
  have hil := (List.getElem?_eq_some_iff.1 hi).1
  have hjl := (List.getElem?_eq_some_iff.1 hj).1
  have hR' : RowsAre st' s ((rows.set i q).set j r) := by
    refine ⟨by simp [hR.1], fun k t hk => ?_⟩
    have hkl : k < rows.length := by simpa using (List.getElem?_eq_some_iff.1 hk).1
    have hks : k < s.size := by rw [← hR.1]; exact hkl
    refine h.1 k hks t (hR.2 _ _ ?_)
    rw [List.getElem?_set, List.getElem?_set] at hk
    simp only [List.length_set, hjl, hil, if_true] at hk
    dsimp only
    by_cases e2 : j = k
    · subst e2
      rw [if_pos rfl] at hk
      by_cases e1 : j = i
      · subst e1; rw [if_pos rfl, hj, ← hk, ← hi, hj]
      · rw [if_neg e1, if_pos rfl, hi, hk]
    · rw [if_neg e2] at hk
      by_cases e1 : i = k
      · subst e1; rw [if_pos rfl] at hk; rw [if_pos rfl, hj, hk]
      · rw [if_neg e1] at hk; rw [if_neg (Ne.symm e1), if_neg (Ne.symm e2), hk]
  refine ⟨⟨hc, len_of_rows hv h.2 fun i hi => ?_, h.2⟩, hR'⟩
  obtain ⟨r, -, hr⟩ := rowsAre_row hR' hi
  exact ⟨r, hr⟩

theorem at_eq {st : State α} {b : Nat} {s : Span} (hb : st.spans b = some s) {i : Nat} (hi : i < s.size) : at' st b i = .ok ⟨b, i⟩ := by
  simp [at', withSpan_some hb, Outcome.expects, hi]

theorem rowRef_eq (acc : RowAccess) {st : State α} {b : Nat} {s : Span} (hb : st.spans b = some s) {i : Nat} (hi : i < s.size) :
    rowRef acc st b i = .ok ⟨b, i⟩ := by
  cases acc
  · exact at_eq hb hi
  · simp [rowRef, begin', Ref.plus]

theorem rowRef_fail {st : State α} {b : Nat} {s : Span} (hb : st.spans b = some s) {i : Nat} (hi : ¬ i < s.size) :
    rowRef .index st b i = .failFast := by
  simp [rowRef, at', withSpan_some hb, Outcome.expects, hi, Outcome.bind]

/-- What running a program on a span has to do with running it on the list of its rows. -/
def Agrees (acc : RowAccess) (s : Span) (st : State α) (o : Outcome (β × State α)) : Outcome (β × List (List α)) → Prop
  | .ok (x, rows') => ∃ st', o = .ok (x, st') ∧ Kept s st st' ∧ RowsAre st' s rows'
  | .failFast => acc = .index → o = .failFast
  | _ => False

theorem Agrees.step {acc : RowAccess} {s : Span} {st st1 : State α} {o : Outcome (β × State α)} {l : Outcome (β × List (List α))}
    (hk : Kept s st st1) (h : Agrees acc s st1 o l) : Agrees acc s st o l := by
  unfold Agrees at h ⊢
  cases l with
  | ok y =>
    obtain ⟨st', h1, h2, h3⟩ := h
    exact ⟨st', h1, hk.trans h2, h3⟩
  | failFast => exact h
  | throw m => exact h
  | ub => exact h

theorem agrees_fail {acc : RowAccess} {s : Span} {st : State α} {o : Outcome (β × State α)} (h : acc = .index → o = .failFast) :
    Agrees acc s st o .failFast := h

theorem sub_eq {s t : Span} {o n : Nat} (h : s.subspan o n = .ok t) :
    t = ⟨s.data.map fun p => { p with off := p.off + o }, if n ≠ npos then n else s.size - o⟩ ∧ o + t.size ≤ s.size := by
  unfold Span.subspan Outcome.expects at h
  by_cases hc : (decide (o ≤ s.size) && (decide (n = npos) || decide (n ≤ s.size - o))) = true
  · rw [hc] at h
    simp only [if_true, Outcome.bind_ok, Outcome.ok.injEq] at h
    simp only [Bool.and_eq_true, Bool.or_eq_true, decide_eq_true_eq] at hc
    refine ⟨h.symm, ?_⟩
    rw [← h]
    dsimp only
    split <;> omega
  · simp [hc, Outcome.bind] at h

theorem row_setSpan {st : State α} {s : Span} {i b : Nat} {x : Option Span} {r : List α} : Row (st.setSpan b x) s i r ↔ Row st s i r := Iff.rfl

theorem row_part {s t : Span} {o n : Nat} (h : s.subspan o n = .ok t) (st : State α) (i : Nat) (r : List α) : Row st t i r ↔ Row st s (o + i) r := by
  obtain ⟨rfl, -⟩ := sub_eq h
  unfold Row elem
  rw [List.forall₂_map_left_iff]
  simp only [Nat.add_assoc]

theorem part_inside {s t : Span} {o n : Nat} (h : s.subspan o n = .ok t) {arr pos : Nat} (hi : Inside t arr pos) : Inside s arr pos := by
  obtain ⟨e, h2⟩ := sub_eq h
  obtain ⟨p, hp, rfl, h3, h4⟩ := hi
  have hd : t.data = s.data.map fun p => { p with off := p.off + o } := by rw [e]
  rw [hd] at hp
  obtain ⟨q, hq, rfl⟩ := List.mem_map.1 hp
  dsimp only at h3 h4 ⊢
  exact ⟨q, hq, rfl, by omega, by omega⟩

theorem run_agrees (acc : RowAccess) (p : RowProg α β) : ∀ (b fresh : Nat) (st : State α) (s : Span) (rows : List (List α)),
    st.spans b = some s → b < fresh → (∀ j, fresh ≤ j → st.spans j = none) → Valid st s → Separate s → Writable st s → RowsAre st s rows →
    Fits s.data.length p → Agrees acc s st (runSpan acc b fresh p st) (runRows p rows) := by
  induction p with
  | done x => intro b fresh st s rows hb hf hfr hv hs hw hR hp; exact ⟨st, rfl, Kept.refl _ _, hR⟩
  | load i k ih =>
    intro b fresh st s rows hb hf hfr hv hs hw hR hp
    cases hp with | load hp => ?_
    rw [runSpan, runRows]
    by_cases hi : i < s.size
    · obtain ⟨r, h1, h2⟩ := rowsAre_row hR hi
      rw [rowRef_eq acc hb hi, Outcome.bind_ok, h1]
      have : toTuple st ⟨b, i⟩ = .ok r := by simp only [toTuple, withSpan_some hb]; exact readRow_ok h2
      rw [this, Outcome.bind_ok]
      exact ih r b fresh st s rows hb hf hfr hv hs hw hR (hp r h2.length_eq.symm)
    · rw [rowsAre_ge hR hi]
      refine agrees_fail fun e => ?_
      subst e
      rw [rowRef_fail hb hi]; rfl
  | loadElem i c k ih =>
    intro b fresh st s rows hb hf hfr hv hs hw hR hp
    cases hp with | loadElem hc hp => ?_
    rw [runSpan, runRows]
    by_cases hi : i < s.size
    · obtain ⟨r, h1, h2⟩ := rowsAre_row hR hi
      have hcl : c < r.length := by rw [← h2.length_eq]; exact hc
      rw [rowRef_eq acc hb hi, Outcome.bind_ok, h1]
      have e1 : r[c]? = some r[c] := List.getElem?_eq_getElem hcl
      obtain ⟨r', vals, a1, a2, -, a4⟩ := (C58_index st b s hb hv i).1 hi
      rw [at_eq hb hi] at a1
      cases a1
      obtain rfl := row_unique a2 h2
      have := a4 c _ e1
      rw [this, Outcome.bind_ok]
      dsimp only
      rw [e1]
      exact ih _ b fresh st s rows hb hf hfr hv hs hw hR (hp _)
    · rw [rowsAre_ge hR hi]
      refine agrees_fail fun e => ?_
      subst e
      rw [rowRef_fail hb hi]; rfl
  | store i t p ih =>
    intro b fresh st s rows hb hf hfr hv hs hw hR hp
    cases hp with | store ht hp => ?_
    rw [runSpan, runRows]
    by_cases hi : i < s.size
    · obtain ⟨r, st', a1, a2, a3⟩ := C60_assign_values st b s hb hv hs hw i hi t ht
      rw [at_eq hb hi] at a1
      cases a1
      have hc : st'.isConst = st.isConst := by
        rw [assignTuple, withSpan_some hb] at a2
        exact writeRow_const _ _ _ _ _ a2
      obtain ⟨k1, k2⟩ := set_step hv hR hi a3 hc
      rw [rowRef_eq acc hb hi, Outcome.bind_ok, a2, Outcome.bind_ok, if_pos (by rw [hR.1]; exact hi)]
      exact Agrees.step k1 (ih b fresh st' s _ (by rw [k1.outside.1]; exact hb) hf (by rw [k1.outside.1]; exact hfr) (k1.valid hv) hs (k1.writable hw) k2 hp)
    · rw [if_neg (by rw [hR.1]; exact hi)]
      refine agrees_fail fun e => ?_
      subst e
      rw [rowRef_fail hb hi]; rfl
  | storeElem i c v p ih =>
    intro b fresh st s rows hb hf hfr hv hs hw hR hp
    cases hp with | storeElem hcl hp => ?_
    rw [runSpan, runRows]
    by_cases hi : i < s.size
    · obtain ⟨r, h1, h2⟩ := rowsAre_row hR hi
      have hg : s.get c = some (s.data[c], s.size) := by simp [Span.get, List.getElem?_eq_getElem hcl]
      obtain ⟨st', a2, a3⟩ := C103_write st s hv hs hw c _ hg i hi v r h2
      simp only [Col.set, Outcome.expects, hi, decide_true, if_true, Outcome.bind_ok] at a2
      obtain ⟨k1, k2⟩ := set_step hv hR hi a3 (writeCell_const a2)
      rw [rowRef_eq acc hb hi, Outcome.bind_ok, withSpan_some hb, h1]
      have hq : assignElemQ (s.data.map fun _ => false) st ⟨b, i⟩ c v = some (.ok st') := by
        simp only [assignElemQ, List.getElem?_map, List.getElem?_eq_getElem hcl, Option.map_some, withSpan_some hb]
        rw [a2]
      rw [hq]
      dsimp only
      rw [Outcome.bind_ok]
      exact Agrees.step k1 (ih b fresh st' s _ (by rw [k1.outside.1]; exact hb) hf (by rw [k1.outside.1]; exact hfr) (k1.valid hv) hs (k1.writable hw) k2 hp)
    · rw [rowsAre_ge hR hi]
      refine agrees_fail fun e => ?_
      subst e
      rw [rowRef_fail hb hi]; rfl
  | copy i j p ih =>
    intro b fresh st s rows hb hf hfr hv hs hw hR hp
    cases hp with | copy hp => ?_
    rw [runSpan, runRows]
    by_cases hi : i < s.size
    · obtain ⟨r, h1, h2⟩ := rowsAre_row hR hi
      rw [rowRef_eq acc hb hi, Outcome.bind_ok, h1]
      by_cases hj : j < s.size
      · obtain ⟨q, h3, h4⟩ := rowsAre_row hR hj
        obtain ⟨r', q', st', a1, a2, a3, a4⟩ := C60_assign_row st b s hb hv hs hw i j hi hj q h4
        rw [at_eq hb hi] at a1
        rw [at_eq hb hj] at a2
        cases a1; cases a2
        have hc : st'.isConst = st.isConst := by
          rw [assignRef, withSpan_some hb, withSpan_some hb] at a3
          exact copyRow_const _ _ _ _ _ _ a3
        obtain ⟨k1, k2⟩ := set_step hv hR hi a4 hc
        rw [rowRef_eq acc hb hj, Outcome.bind_ok, a3, Outcome.bind_ok, h3]
        exact Agrees.step k1 (ih b fresh st' s _ (by rw [k1.outside.1]; exact hb) hf (by rw [k1.outside.1]; exact hfr) (k1.valid hv) hs (k1.writable hw) k2 hp)
      · rw [rowsAre_ge hR hj]
        refine agrees_fail fun e => ?_
        subst e
        rw [rowRef_fail hb hj]; rfl
    · rw [rowsAre_ge hR hi]
      refine agrees_fail fun e => ?_
      subst e
      rw [rowRef_fail hb hi]; rfl
  | swap i j p ih =>
    intro b fresh st s rows hb hf hfr hv hs hw hR hp
    cases hp with | swap hp => ?_
    rw [runSpan, runRows]
    by_cases hi : i < s.size
    · obtain ⟨r, h1, h2⟩ := rowsAre_row hR hi
      rw [rowRef_eq acc hb hi, Outcome.bind_ok, h1]
      by_cases hj : j < s.size
      · obtain ⟨q, h3, h4⟩ := rowsAre_row hR hj
        obtain ⟨r', q', st', a1, a2, a3, a4⟩ := C60_swap st b s hb hv hs hw i j hi hj
        rw [at_eq hb hi] at a1
        rw [at_eq hb hj] at a2
        cases a1; cases a2
        have hc : st'.isConst = st.isConst := by
          rw [swapRefs, withSpan_some hb, withSpan_some hb] at a3
          exact swapRow_const _ _ _ _ _ _ a3
        obtain ⟨k1, k2⟩ := swap_step hv hR h1 h3 a4 hc
        rw [rowRef_eq acc hb hj, Outcome.bind_ok, a3, Outcome.bind_ok, h3]
        exact Agrees.step k1 (ih b fresh st' s _ (by rw [k1.outside.1]; exact hb) hf (by rw [k1.outside.1]; exact hfr) (k1.valid hv) hs (k1.writable hw) k2 hp)
      · rw [rowsAre_ge hR hj]
        refine agrees_fail fun e => ?_
        subst e
        rw [rowRef_fail hb hj]; rfl
    · rw [rowsAre_ge hR hi]
      refine agrees_fail fun e => ?_
      subst e
      rw [rowRef_fail hb hi]; rfl
  | part o c body k ihb ihk =>
    intro b fresh st s rows hb hf hfr hv hs hw hR hp
    cases hp with | part hpb hpk => ?_
    rw [runSpan, runRows, withSpan_some hb, hR.1]
    dsimp only
    have hnp : npos = 18446744073709551615 := rfl
    generalize hn : (if c = 18446744073709551615 then s.size - o else c) = n
    by_cases hle : o + n ≤ s.size
    · rw [if_pos hle]
      have hsub : s.subspan o c = .ok ⟨s.data.map fun p => { p with off := p.off + o }, n⟩ := by
        have hcond : (decide (o ≤ s.size) && (decide (c = npos) || decide (c ≤ s.size - o))) = true := by
          simp only [Bool.and_eq_true, Bool.or_eq_true, decide_eq_true_eq, hnp]
          by_cases e : c = 18446744073709551615
          · exact ⟨by omega, .inl e⟩
          · rw [if_neg e] at hn
            exact ⟨by omega, .inr (by omega)⟩
        unfold Span.subspan Outcome.expects
        rw [hcond]
        simp only [if_true, Outcome.bind_ok, hnp, Outcome.ok.injEq, Span.mk.injEq, true_and]
        rw [← hn]
        by_cases e : c = 18446744073709551615 <;> simp [e]
      rw [hsub, Outcome.bind_ok]
      generalize ht : (⟨s.data.map fun p => { p with off := p.off + o }, n⟩ : Span) = t
      rw [ht] at hsub
      have htd : t.data = s.data.map fun p => { p with off := p.off + o } := by rw [← ht]
      have htn : t.size = n := by rw [← ht]
      have hvt : Valid (st.setSpan fresh (some t)) t := by
        intro p hp
        rw [htd] at hp
        obtain ⟨q, hq, rfl⟩ := List.mem_map.1 hp
        have := hv q hq
        show q.off + o + t.size ≤ (st.cells q.arr).length
        omega
      have hst : Separate t := by
        unfold Separate
        rw [htd, List.map_map]
        exact hs
      have hwt : Writable (st.setSpan fresh (some t)) t := by
        intro p hp
        rw [htd] at hp
        obtain ⟨q, hq, rfl⟩ := List.mem_map.1 hp
        exact hw q hq
      have hRt : RowsAre (st.setSpan fresh (some t)) t ((rows.drop o).take n) := by
        have hl := hR.1
        refine ⟨by rw [List.length_take, List.length_drop, hl, htn]; omega, fun i r hi => ?_⟩
        rw [row_setSpan, row_part hsub]
        refine hR.2 _ _ ?_
        rw [List.getElem?_take] at hi
        split at hi
        · rw [List.getElem?_drop] at hi; exact hi
        · cases hi
      have hbd := ihb fresh (fresh + 1) (st.setSpan fresh (some t)) t _ (by simp [State.setSpan]) (by omega)
        (by intro j hj; simp [State.setSpan, show j ≠ fresh by omega]; exact hfr j (by omega)) hvt hst hwt hRt
        (by rw [htd, List.length_map]; exact hpb)
      generalize hrun : runSpan acc fresh (fresh + 1) body (st.setSpan fresh (some t)) = o1 at hbd ⊢
      generalize hrr : runRows body ((rows.drop o).take n) = o2 at hbd ⊢
      cases o2 with
      | throw m => exact hbd.elim
      | ub => exact hbd.elim
      | failFast =>
        refine agrees_fail fun e => ?_
        rw [hbd e]; rfl
      | ok y =>
        obtain ⟨x, part⟩ := y
        obtain ⟨st1, rfl, hk, hRp⟩ := hbd
        rw [Outcome.bind_ok, Outcome.bind_ok]
        dsimp only
        have hk' : Kept s st (st1.setSpan fresh none) := by
          refine ⟨hk.const, hk.len, ?_, fun arr pos hni => ?_⟩
          · funext j
            have h1 : st1.spans j = (st.setSpan fresh (some t)).spans j := by rw [hk.outside.1]
            simp only [State.setSpan] at h1 ⊢
            split
            · rename_i e; rw [e, hfr fresh (Nat.le_refl _)]
            · rename_i e; rw [h1, if_neg e]
          · exact hk.outside.2 arr pos fun h => hni (part_inside hsub h)
        refine Agrees.step hk' (ihk x b fresh _ s _ (by rw [hk'.outside.1]; exact hb) hf (by rw [hk'.outside.1]; exact hfr) (hk'.valid hv) hs (hk'.writable hw) ?_ (hpk x))
        have hl := hR.1
        have hlp := hRp.1
        refine ⟨by simp only [List.length_append, List.length_take, List.length_drop]; omega, fun i r hi => ?_⟩
        rw [row_setSpan]
        have hkeep : ∀ r, (i < o ∨ o + n ≤ i) → Row st s i r → Row st1 s i r := by
          intro r hio hr
          refine List.Forall₂.imp ?_ (List.forall₂_and_left (p := fun q => q ∈ s.data) _ _ |>.2 ⟨fun q hq => hq, hr⟩)
          rintro q w ⟨hq, e⟩
          unfold elem at e ⊢
          rw [hk.outside.2 q.arr (q.off + i) ?_]
          · exact e
          · rintro ⟨p, hp, e1, e2, e3⟩
            rw [htd] at hp
            obtain ⟨q', hq', rfl⟩ := List.mem_map.1 hp
            dsimp only at e1 e2 e3
            obtain rfl := separate_unique hs hq' hq e1
            omega
        by_cases h1 : i < o
        · rw [List.append_assoc, List.getElem?_append_left (by rw [List.length_take]; omega), List.getElem?_take_of_lt h1] at hi
          exact hkeep r (.inl h1) (hR.2 i r hi)
        · by_cases h2 : i < o + n
          · rw [List.append_assoc, List.getElem?_append_right (by rw [List.length_take]; omega), List.length_take,
              List.getElem?_append_left (by omega)] at hi
            have := (row_part hsub st1 _ _).1 (hRp.2 _ _ hi)
            rw [show o + (i - min o rows.length) = i by omega] at this
            exact this
          · rw [List.getElem?_append_right (by rw [List.length_append, List.length_take]; omega), List.length_append, List.length_take,
              List.getElem?_drop] at hi
            rw [show o + n + (i - (min o rows.length + part.length)) = i by omega] at hi
            exact hkeep r (.inr (by omega)) (hR.2 i r hi)
    · rw [if_neg hle]
      refine agrees_fail fun e => ?_
      have hcond : (decide (o ≤ s.size) && (decide (c = npos) || decide (c ≤ s.size - o))) = false := by
        rw [Bool.eq_false_iff]
        intro h
        simp only [Bool.and_eq_true, Bool.or_eq_true, decide_eq_true_eq, hnp] at h
        by_cases e : c = 18446744073709551615
        · rw [if_pos e] at hn; omega
        · rw [if_neg e] at hn; omega
      simp [Span.subspan, Outcome.expects, hcond, Outcome.bind]

end Makeshift.Soa
