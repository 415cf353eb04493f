import Verif.Lemmas.BufferExceptionsSim
import Mathlib.Data.List.Induction

/-!
# C83: buffers whose elements may throw

A program creates, copies, alters and destroys buffers of a class type, and goes on when an operation throws.  It sees sequences of
elements only.  Whichever element operations throw and whichever allocations fail, no element is constructed twice, used when it is not
alive, or destroyed twice, and none is left behind.
-/

namespace Makeshift.Props

open Makeshift.BufferEx
open Makeshift.Buffer (Ty Op Resp Ptr)
open Makeshift.Spec.BufEx (InContract Allowed Safe WellFormed Ends Stops needs creates)

/-- The elements which buffers hold: those of their `size()` elements which are alive. -/
def bufferContents (w : World) : Spec.BufEx.Store := fun b =>
  (w.objs b).map fun o => (List.range o.size).filterMap (w.mem (place b o.data))

/-- States which a program that keeps to the contract can reach. -/
def BufferReach (tyOf : Nat → Ty) (s : St) : Prop :=
  ∃ env p seen, WellFormed tyOf p ∧ Safe p Spec.BufEx.none ∧ run env p St.init = .ok seen s

private theorem range_filterMap (l : List Int) (f : Nat → Option Int) (h : ∀ j v, l[j]? = some v → f j = some v) :
    (List.range l.length).filterMap f = l := by
  induction l using List.reverseRecOn with
  | nil => rfl
  | append_singleton l x ih =>
    simp only [List.length_append, List.length_singleton, List.range_succ, List.filterMap_append]
    rw [ih fun j v hj => h j v (by rw [List.getElem?_append_left (List.getElem?_eq_some_iff.1 hj).1]; exact hj)]
    simp [h l.length x (by simp)]

theorem rel_contents {w : World} {a : Spec.BufEx.Store} (h : Rel w a) : bufferContents w = a := by
  funext b
  cases hb : a b with
  | none => simp [bufferContents, (h.none_iff b).1 hb]
  | some l =>
    obtain ⟨o, ho, hl, hv⟩ := h.holds b l hb
    simp only [bufferContents, ho, Option.map_some, ← hl]
    rw [range_filterMap l _ hv]

private theorem run_sim {tyOf : Nat → Ty} (env : Env) (p : Prog) (w : World) (t : Nat) (a : Spec.BufEx.Store) (hI : Inv tyOf w)
    (hR : Rel w a) (hw : WellFormed tyOf p) (hs : Safe p a) :
    (∃ seen w' t' a', run env p ⟨w, t⟩ = .ok seen ⟨w', t'⟩ ∧ Ends a p seen a' ∧ Inv tyOf w' ∧ Rel w' a') ∨
    (run env p ⟨w, t⟩ = .failFast ∧ Stops a p) := by
  induction p generalizing w t a with
  | done => exact .inl ⟨[], w, t, a, rfl, .done a, hI, hR⟩
  | op o k ih =>
    obtain ⟨hw1, hw2⟩ := hw
    obtain ⟨hs1, hs2, hs3⟩ := hs
    have h := step_sim env t hI hR hw1 hs1
    simp only [run]
    cases hr : step env ⟨w, t⟩ o with
    | ok r s =>
      rw [hr] at h
      obtain ⟨a', hA, hI', hR'⟩ := h
      rcases ih _ s.w s.ticks a' hI' hR' (hw2 _) (hs2 a' r hA) with ⟨seen, w', t', a'', h1, h2, h3, h4⟩ | ⟨h1, h2⟩
      · exact .inl ⟨_, w', t', a'', by simp only [h1]; rfl, .returned hA h2, h3, h4⟩
      · exact .inr ⟨by simp only [h1]; rfl, .returned hA h2⟩
    | threw s =>
      rw [hr] at h
      obtain ⟨_, ⟨a', hA, hI', hR'⟩, _⟩ := h
      rcases ih _ s.w s.ticks a' hI' hR' (hw2 _) (hs3 a' hA) with ⟨seen, w', t', a'', h1, h2, h3, h4⟩ | ⟨h1, h2⟩
      · exact .inl ⟨_, w', t', a'', by simp only [h1]; rfl, .threw hA h2, h3, h4⟩
      · exact .inr ⟨by simp only [h1]; rfl, .threw hA h2⟩
    | failFast => rw [hr] at h; exact .inr ⟨rfl, .here h⟩
    | ub => rw [hr] at h; exact h.elim

private theorem reach_inv {tyOf : Nat → Ty} {s : St} (h : BufferReach tyOf s) : Inv tyOf s.w ∧ Rel s.w (bufferContents s.w) := by
  obtain ⟨env, p, seen, hw, hs, hr⟩ := h
  rcases run_sim env p St.init.w St.init.ticks _ (inv_init tyOf) rel_init hw hs with ⟨seen', w', t', a', h1, _, h3, h4⟩ | ⟨h1, _⟩
  · have := hr.symm.trans h1
    cases this
    rw [rel_contents h4]
    exact ⟨h3, h4⟩
  · have := hr.symm.trans h1
    cases this

/-- **C83** (programs).  A program which keeps to the contract, whichever way its operations end, has no undefined behaviour and does
not throw.  It observes what it may observe of sequences of elements and leaves such buffers, or it is terminated because an
expectation is violated. -/
theorem C83_runs {tyOf : Nat → Ty} (env : Env) (p : Prog) (hw : WellFormed tyOf p) (hs : Safe p Spec.BufEx.none) :
    (∃ seen s, run env p St.init = .ok seen s ∧ Ends Spec.BufEx.none p seen (bufferContents s.w)) ∨
    (run env p St.init = .failFast ∧ Stops Spec.BufEx.none p) := by
  rcases run_sim env p St.init.w St.init.ticks _ (inv_init tyOf) rel_init hw hs with ⟨seen, w', t', a', h1, h2, _, h4⟩ | ⟨h1, h2⟩
  · exact .inl ⟨seen, ⟨w', t'⟩, h1, by rw [rel_contents h4]; exact h2⟩
  · exact .inr ⟨h1, h2⟩

/-- **C83** (single operations).  Whatever has gone before, an operation within the contract ends in an allowed way. -/
theorem C83_step {tyOf : Nat → Ty} (env : Env) {s : St} (h : BufferReach tyOf s) {op : Op} (hw : op.wellFormed tyOf)
    (hc : InContract (bufferContents s.w) op) :
    (∃ r s', step env s op = .ok r s' ∧ Allowed (bufferContents s.w) op (.returned (bufferContents s'.w) r)) ∨
    (∃ s', step env s op = .threw s' ∧ Allowed (bufferContents s.w) op (.threw (bufferContents s'.w))) ∨
    (step env s op = .failFast ∧ Allowed (bufferContents s.w) op .failFast) := by
  obtain ⟨hI, hR⟩ := reach_inv h
  have h := step_sim env s.ticks hI hR hw hc
  cases hr : step env ⟨s.w, s.ticks⟩ op with
  | ok r s' =>
    rw [hr] at h
    obtain ⟨a', hA, _, hR'⟩ := h
    exact .inl ⟨r, s', rfl, by rw [rel_contents hR']; exact hA⟩
  | threw s' =>
    rw [hr] at h
    obtain ⟨_, ⟨a', hA, _, hR'⟩, _⟩ := h
    exact .inr (.inl ⟨s', rfl, by rw [rel_contents hR']; exact hA⟩)
  | failFast => rw [hr] at h; exact .inr (.inr ⟨rfl, h⟩)
  | ub => rw [hr] at h; exact h.elim

/-- **C83** (a constructor which throws).  It leaves no trace: the elements which are alive, their values, the allocated blocks and the
buffers are those of before. -/
theorem C83_strong {tyOf : Nat → Ty} (env : Env) {s s' : St} (h : BufferReach tyOf s) {op : Op} (hw : op.wellFormed tyOf)
    (hc : InContract (bufferContents s.w) op) (hn : creates op = true) (ht : step env s op = .threw s') :
    s'.w.mem = s.w.mem ∧ s'.w.alloc = s.w.alloc ∧ s'.w.objs = s.w.objs := by
  obtain ⟨hI, hR⟩ := reach_inv h
  have h := step_sim env s.ticks hI hR hw hc
  have ht' : step env ⟨s.w, s.ticks⟩ op = .threw s' := ht
  rw [ht'] at h
  have := h.2.2 hn
  exact ⟨this.mem, this.alloc, this.objs⟩

/-- **C83** (reasons to throw).  If no element operation throws and there is memory for as many elements as are asked for, the operation
does not throw. -/
theorem C83_throws_only_if {tyOf : Nat → Ty} (env : Env) {s s' : St} (h : BufferReach tyOf s) {op : Op} (hw : op.wellFormed tyOf)
    (hc : InContract (bufferContents s.w) op) (ht : step env s op = .threw s') :
    env.limit < needs (bufferContents s.w) op ∨ ∃ u, (env.fails u).isSome := by
  obtain ⟨hI, hR⟩ := reach_inv h
  have h := step_sim env s.ticks hI hR hw hc
  have ht' : step env ⟨s.w, s.ticks⟩ op = .threw s' := ht
  rw [ht'] at h
  exact h.1

/-- **C83** (balance).  The blocks which are allocated are those of existing buffers, no two buffers share one, and the elements which
are alive are those inside existing buffers and those in their blocks. -/
theorem C83_balance {tyOf : Nat → Ty} {s : St} (h : BufferReach tyOf s) :
    (∀ id n, s.w.alloc id = some n ↔ ∃ b o, s.w.objs b = some o ∧ o.data = .block id ∧ o.size = n) ∧
    (∀ b b' o o' id, s.w.objs b = some o → s.w.objs b' = some o' → o.data = .block id → o'.data = .block id → b = b') ∧
    (∀ b j, (s.w.mem (.own b) j).isSome ↔ ∃ o, s.w.objs b = some o ∧ j < inPlaceCount o.ty.kind) ∧
    (∀ id j, (s.w.mem (.block id) j).isSome ↔ ∃ b o, s.w.objs b = some o ∧ o.data = .block id ∧ j < o.size) := by
  obtain ⟨hI, _⟩ := reach_inv h
  refine ⟨hI.alloc_iff, hI.uniq, hI.own_mem, fun id j => ?_⟩
  rw [hI.block_mem]
  constructor
  · rintro ⟨n, hn, hj⟩
    obtain ⟨b, o, ho, hd, rfl⟩ := (hI.alloc_iff id n).1 hn
    exact ⟨b, o, ho, hd, hj⟩
  · rintro ⟨b, o, ho, hd, hj⟩
    exact ⟨o.size, (hI.alloc_iff id _).2 ⟨b, o, ho, hd, rfl⟩, hj⟩

/-- **C83** (no leaks).  When the program has no buffers left, no element is alive and no block is allocated. -/
theorem C83_no_leak {tyOf : Nat → Ty} {s : St} (h : BufferReach tyOf s) (hnone : bufferContents s.w = Spec.BufEx.none) :
    (∀ p j, s.w.mem p j = none) ∧ ∀ id, s.w.alloc id = none := by
  obtain ⟨hI, hR⟩ := reach_inv h
  have hobj : ∀ b, s.w.objs b = none := fun b => (hR.none_iff b).1 (by rw [hnone]; rfl)
  have halloc : ∀ id, s.w.alloc id = none := by
    intro id
    cases hn : s.w.alloc id with
    | none => rfl
    | some n =>
      obtain ⟨b, o, ho, _⟩ := (hI.alloc_iff id n).1 hn
      rw [hobj b] at ho
      cases ho
  refine ⟨fun p j => ?_, halloc⟩
  rw [← Option.not_isSome_iff_eq_none]
  cases p with
  | null => rw [hI.null_mem j]; simp
  | own b => rw [hI.own_mem]; rintro ⟨o, ho, _⟩; rw [hobj b] at ho; cases ho
  | block id => rw [hI.block_mem]; rintro ⟨n, hn, _⟩; rw [halloc id] at hn; cases hn

/-! ## A program in which a copy throws -/

/-- The program, in which nothing depends on what it observes: a buffer with room for two elements in place, with three elements; one is
written; it is copied; both buffers are destroyed.  If the copy throws, the program tries again. -/
private def copyProg : Prog :=
  .op (.constructArray 0 (.buffer none 2) [5, 6, 7]) fun seen => match seen with
    | .threw => .done
    | _ => .op (.copy 1 0) fun seen => match seen with
      | .threw => .op (.copy 1 0) fun seen => match seen with
        | .threw => .op (.destroy 0) fun _ => .done
        | _ => .op (.destroy 1) fun _ => .op (.destroy 0) fun _ => .done
      | _ => .op (.destroy 1) fun _ => .op (.destroy 0) fun _ => .done

private def copyProgTy : Nat → Ty := fun _ => .buffer none 2

/-- The second assignment in the first copy throws: element operation 14 (5 constructions, 3 assignments; 5 constructions, 1 assignment). -/
private def copyProgEnv : Env := ⟨10, fun t => if t = 14 then some 99 else none⟩

example : (match run copyProgEnv copyProg St.init with
    | .ok seen s => (seen, s.ticks, s.w.next, s.w.alloc 0, s.w.alloc 1, s.w.alloc 2)
    | _ => ([], 0, 0, none, none, none)) =
    ([.returned .unit, .threw, .returned .unit, .returned .unit, .returned .unit], 23, 3, none, none, none) := by decide

private theorem copyProg_wellFormed : WellFormed copyProgTy copyProg := by
  refine ⟨⟨rfl, by decide, rfl, by decide⟩, fun seen => ?_⟩
  cases seen with
  | threw => trivial
  | returned r =>
    refine ⟨rfl, fun seen => ?_⟩
    cases seen with
    | returned r => exact ⟨trivial, fun _ => ⟨trivial, fun _ => trivial⟩⟩
    | threw =>
      refine ⟨rfl, fun seen => ?_⟩
      cases seen with
      | threw => exact ⟨trivial, fun _ => trivial⟩
      | returned r => exact ⟨trivial, fun _ => ⟨trivial, fun _ => trivial⟩⟩

private theorem copyProg_safe : Safe copyProg Spec.BufEx.none := by
  refine ⟨⟨rfl, trivial⟩, fun a r h => ?_, fun _ _ => trivial⟩
  cases h
  have h0 : Spec.BufEx.set Spec.BufEx.none 0 (some [5, 6, 7]) 0 = some [5, 6, 7] := rfl
  have h1 : Spec.BufEx.set Spec.BufEx.none 0 (some [5, 6, 7]) 1 = none := rfl
  have hd : ∀ l, Safe (.op (.destroy 1) fun _ => .op (.destroy 0) fun _ => .done)
      (Spec.BufEx.set (Spec.BufEx.set Spec.BufEx.none 0 (some [5, 6, 7])) 1 (some l)) := by
    intro l
    refine ⟨by simp [InContract, Spec.BufEx.set], fun a r h => ?_, fun a h => by cases h⟩
    cases h
    exact ⟨by simp [InContract, Spec.BufEx.set], fun _ _ _ => trivial, fun _ _ => trivial⟩
  refine ⟨⟨h1, by rw [h0]; simp⟩, fun a r h => ?_, fun a h => ?_⟩
  · cases h
    exact hd _
  · cases h
    refine ⟨⟨h1, by rw [h0]; simp⟩, fun a r h => ?_, fun a h => ?_⟩
    · cases h
      exact hd _
    · cases h
      exact ⟨by simp [InContract, Spec.BufEx.set], fun _ _ _ => trivial, fun _ _ => trivial⟩

example : ∃ seen s, run copyProgEnv copyProg St.init = .ok seen s ∧ Ends Spec.BufEx.none copyProg seen (bufferContents s.w) ∧
    BufferReach copyProgTy s := by
  rcases C83_runs copyProgEnv copyProg copyProg_wellFormed copyProg_safe with ⟨seen, s, h1, h2⟩ | ⟨h1, _⟩
  · exact ⟨seen, s, h1, h2, copyProgEnv, copyProg, seen, copyProg_wellFormed, copyProg_safe, h1⟩
  · exfalso
    have : (match run copyProgEnv copyProg St.init with | .failFast => true | _ => false) = false := by decide
    rw [h1] at this
    cases this

/-! ## Assignments -/

private def assignProg : Prog := .op (.constructArray 0 (.buffer none 2) [5, 6]) fun _ => .done

private theorem assignProg_reach : ∃ s, run ⟨10, fun _ => none⟩ assignProg St.init = .ok [.returned .unit] s ∧ BufferReach copyProgTy s ∧
    bufferContents s.w 0 = some [5, 6] ∧
    ∃ s', step ⟨10, fun t => if t = 5 then some 99 else none⟩ s (.assignArray 0 [1, 2]) = .threw s' ∧
      bufferContents s'.w 0 = some [1, 99] := by
  refine ⟨_, rfl, ⟨⟨10, fun _ => none⟩, assignProg, [.returned .unit], ?_, ?_, rfl⟩, rfl, _, rfl, rfl⟩
  · exact ⟨⟨rfl, by decide, rfl, by decide⟩, fun _ => trivial⟩
  · exact ⟨⟨rfl, trivial⟩, fun _ _ _ => trivial, fun _ _ => trivial⟩

/-- **C83** (assignments which throw).  Unlike constructors, an assignment which throws may have replaced elements. -/
theorem C83_assign_not_strong : ∃ (tyOf : Nat → Ty) (env : Env) (s s' : St) (op : Op), BufferReach tyOf s ∧ op.wellFormed tyOf ∧
    InContract (bufferContents s.w) op ∧ step env s op = .threw s' ∧ bufferContents s'.w ≠ bufferContents s.w := by
  obtain ⟨s, _, hreach, hc, s', hs, hc'⟩ := assignProg_reach
  refine ⟨copyProgTy, _, s, s', .assignArray 0 [1, 2], hreach, rfl, by simp [InContract, hc], hs, fun h => ?_⟩
  rw [h, hc] at hc'
  simp at hc'

/-- A constructor which throws, for `C83_strong` and `C83_throws_only_if`: the copy of the buffer above throws if the construction of the
second element does. -/
example : ∃ (s s' : St), BufferReach copyProgTy s ∧ (Op.copy 1 0).wellFormed copyProgTy ∧ InContract (bufferContents s.w) (.copy 1 0) ∧
    creates (.copy 1 0) = true ∧ step ⟨10, fun t => if t = 5 then some 99 else none⟩ s (.copy 1 0) = .threw s' := by
  refine ⟨_, _, ⟨⟨10, fun _ => none⟩, assignProg, [.returned .unit], ?_, ?_, rfl⟩, rfl, ⟨rfl, ?_⟩, rfl, rfl⟩
  · exact ⟨⟨rfl, by decide, rfl, by decide⟩, fun _ => trivial⟩
  · exact ⟨⟨rfl, trivial⟩, fun _ _ _ => trivial, fun _ _ => trivial⟩
  · show some [5, 6] ≠ none
    simp

end Makeshift.Props
