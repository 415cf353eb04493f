import Verif.Lemmas.RowCatching
import Verif.Props.RowPrograms

/-!
# Programs on the rows of a `soa_span` which catch violated contracts: C151
-/

namespace Makeshift.Props

open Makeshift.Soa
open Makeshift.Spec.Soa

variable {α β : Type}

/-- C151: a program which works on the rows of a span, and catches violated contracts wherever it likes, never has undefined behaviour.  It returns what it
returns for a vector of tuples with the same contents, or is left by an exception if it is there; either way, it leaves the rows in the span which it leaves in
that vector, and nothing else changes. -/
theorem C151_refines (p : CatchProg α β) (b fresh : Nat) (st : State α) (s : Span) (rows : List (List α)) (hb : st.spans b = some s)
    (hf : b < fresh) (hfr : ∀ j, fresh ≤ j → st.spans j = none) (hv : Valid st s) (hs : Separate s) (hw : Writable st s) (hR : RowsAre st s rows)
    (hp : CatchFits s.data.length p) :
    ∃ st', (runCatch b fresh p st = match (catchRows p rows).1 with | some x => .returned x st' | none => .violated st') ∧
      RowsAre st' s (catchRows p rows).2 ∧ SameOutside s st st' := by
  obtain ⟨st', h1, h2, h3⟩ := catch_agrees p b fresh st s rows hb hf hfr hv hs hw hR hp
  exact ⟨st', h1, h3, h2.outside⟩

/-- C151: a statement which refers to a row that does not exist - and only such a statement - reports a violated contract, and then nothing has changed, whatever
else it does. -/
theorem C151_statement (a : RowAct α) (b fresh : Nat) (st : State α) (s : Span) (hb : st.spans b = some s) (hf : b < fresh)
    (hfr : ∀ j, fresh ≤ j → st.spans j = none) (hv : Valid st s) (hs : Separate s) (hw : Writable st s) (ha : ActFits s.data.length a)
    (k : List α → CatchProg α β) :
    ((∃ i ∈ rowsOf a, s.size ≤ i) → runAct st b a = .failFast ∧ runCatch b fresh (.act a k) st = .violated st) ∧
    ((∀ i ∈ rowsOf a, i < s.size) → ∃ t st', runAct st b a = .ok (t, st') ∧ runCatch b fresh (.act a k) st = runCatch b fresh (k t) st') := by
  obtain ⟨rows, hR⟩ := rowsRel_init hv
  have hR' : RowsAre st s rows := ⟨hR.n, hR.row⟩
  obtain ⟨h1, h2⟩ := act_agrees (a := a) hb hf hfr hv hs hw hR' ha
  have hl := hR'.1
  constructor
  · intro he
    have h := h2 (actRows_none.2 (by rw [hl]; exact he))
    exact ⟨h, by simp only [runCatch, h]⟩
  · intro he
    rcases hx : actRows rows a with _ | ⟨t, rows'⟩
    · obtain ⟨i, hi, hle⟩ := actRows_none.1 hx
      rw [hl] at hle
      exact absurd (he i hi) (by omega)
    · obtain ⟨st', e, -, -⟩ := h1 t rows' hx
      exact ⟨t, st', e, by simp only [runCatch, e]⟩

/-- C151: the rows of a span are what the program depends on: for two spans with the same rows - however their columns are laid out - it ends in the same way
and leaves the same rows, also if it is left by an exception. -/
theorem C151_layout (p : CatchProg α β) (b b' fresh fresh' : Nat) (st st' : State α) (s s' : Span) (rows : List (List α))
    (hb : st.spans b = some s) (hb' : st'.spans b' = some s') (hf : b < fresh) (hf' : b' < fresh') (hfr : ∀ j, fresh ≤ j → st.spans j = none)
    (hfr' : ∀ j, fresh' ≤ j → st'.spans j = none) (hv : Valid st s) (hv' : Valid st' s') (hs : Separate s) (hs' : Separate s') (hw : Writable st s)
    (hw' : Writable st' s') (hR : RowsAre st s rows) (hR' : RowsAre st' s' rows) (hp : CatchFits s.data.length p) (hn : s'.data.length = s.data.length) :
    ∃ t t', (∀ i r, i < s.size → (Row t s i r ↔ Row t' s' i r)) ∧
      ((∃ x, runCatch b fresh p st = .returned x t ∧ runCatch b' fresh' p st' = .returned x t') ∨
        runCatch b fresh p st = .violated t ∧ runCatch b' fresh' p st' = .violated t') := by
  obtain ⟨t, h1, h2, -⟩ := C151_refines p b fresh st s rows hb hf hfr hv hs hw hR hp
  obtain ⟨t', h3, h4, -⟩ := C151_refines p b' fresh' st' s' rows hb' hf' hfr' hv' hs' hw' hR' (hn ▸ hp)
  refine ⟨t, t', fun i r hi => ?_, ?_⟩
  · have hi' : i < s'.size := by rw [← hR'.1, hR.1]; exact hi
    obtain ⟨r1, e1, e2⟩ := rowsAre_row h2 hi
    obtain ⟨r2, e3, e4⟩ := rowsAre_row h4 hi'
    rw [e1] at e3
    cases e3
    exact ⟨fun h => row_unique e2 h ▸ e4, fun h => row_unique e4 h ▸ e2⟩
  · rcases hx : (catchRows p rows).1 with _ | x
    · rw [hx] at h1 h3
      exact .inr ⟨h1, h3⟩
    · rw [hx] at h1 h3
      exact .inl ⟨x, h1, h3⟩

/-- A program which changes rows of a part until an index is out of range there, notes this, changes another row, and asks for a part which does not exist. -/
def catchProgExample : CatchProg Nat Nat :=
  .attempt (.part 1 2 (.act (.store 0 [5, 6]) fun _ => .act (.swap 0 1) fun _ => .act (.load 2) fun t => .done (t.headD 0)) fun x => .done x) fun
    | some x => .done x
    | none => .act (.storeElem 0 1 7) fun _ => .part 2 2 (.done 1) fun x => .done x

example : CatchFits soaExampleSpan.data.length catchProgExample := by
  refine .attempt (.part (.act rfl fun _ _ => .act trivial fun _ _ => .act trivial fun _ _ => .done) fun _ => .done) fun x => ?_
  cases x with
  | some x => exact .done
  | none => exact .act (show 1 < 2 by decide) fun _ _ => .part .done fun _ => .done

example : RowsAre soaExample soaExampleSpan [[11, 21], [12, 22], [13, 23]] ∧
    catchRows catchProgExample [[11, 21], [12, 22], [13, 23]] = (none, [[11, 7], [13, 23], [5, 6]]) ∧
    catchRows (.attempt catchProgExample fun _ => .done 3) [[11, 21], [12, 22], [13, 23]] = (some 3, [[11, 7], [13, 23], [5, 6]]) := by
  refine ⟨⟨rfl, ?_⟩, by decide +kernel, by decide +kernel⟩
  intro i r h
  match i with
  | 0 => cases h; exact .cons rfl (.cons rfl .nil)
  | 1 => cases h; exact .cons rfl (.cons rfl .nil)
  | 2 => cases h; exact .cons rfl (.cons rfl .nil)

example : soaExample.spans 0 = some soaExampleSpan ∧ (∀ j, 1 ≤ j → soaExample.spans j = none) ∧ Valid soaExample soaExampleSpan ∧ Separate soaExampleSpan ∧
    Writable soaExample soaExampleSpan :=
  ⟨rfl, fun j hj => by simp [soaExample]; omega, soaExample_valid, soaExample_separate, soaExample_writable⟩

example : (∃ i ∈ rowsOf (.copy 1 3 : RowAct Nat), soaExampleSpan.size ≤ i) ∧ (∀ i ∈ rowsOf (.copy 1 2 : RowAct Nat), i < soaExampleSpan.size) ∧
    ActFits soaExampleSpan.data.length (.store 2 [8, 9] : RowAct Nat) := by
  exact ⟨by decide, by decide, rfl⟩

end Makeshift.Props
