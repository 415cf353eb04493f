import Verif.Props.BufferExceptions
import Verif.Lemmas.BufferExCaught

/-!
# Buffers of a class type, and violated contracts reported by exceptions: C150
-/

namespace Makeshift.Props

open Makeshift.BufferEx (St World Env Inv Rel place inPlaceCount)
open Makeshift.BufferExCaught
open Makeshift.Buffer (Ty Op Resp)
open Makeshift.Spec.BufEx (InContract Allowed creates needs)
open Makeshift.Spec.BufExCaught (Safe WellFormed Ends May)

/-- States which a program that keeps to the contract, as far as it is not checked, can reach. -/
def BufferCaughtReach (tyOf : Nat → Ty) (s : St) : Prop :=
  ∃ env p seen, WellFormed tyOf p ∧ Safe p Spec.BufEx.none ∧ run env p St.init = some (seen, s)

private theorem caughtReach_inv {tyOf : Nat → Ty} {s : St} (h : BufferCaughtReach tyOf s) :
    Inv tyOf s.w ∧ Rel s.w (bufferContents s.w) := by
  obtain ⟨env, p, seen, hw, hs, hr⟩ := h
  obtain ⟨seen', s', a', h1, _, h3, h4⟩ :=
    run_sim env p St.init.w St.init.ticks _ (BufferEx.inv_init tyOf) BufferEx.rel_init hw hs
  have := hr.symm.trans h1
  cases this
  rw [rel_contents h4]
  exact ⟨h3, h4⟩

/-- **C150** (programs).  A program which keeps to the contract as far as it is not checked, whichever way its operations end, runs to its
end: there is no undefined behaviour, and nothing terminates it.  It observes what it may observe of sequences of elements which only
change when an operation does not report a violated contract. -/
theorem C150_runs {tyOf : Nat → Ty} (env : Env) (p : Prog) (hw : WellFormed tyOf p) (hs : Safe p Spec.BufEx.none) :
    ∃ seen s, run env p St.init = some (seen, s) ∧ Ends Spec.BufEx.none p seen (bufferContents s.w) := by
  obtain ⟨seen, s, a', h1, h2, _, h4⟩ :=
    run_sim env p St.init.w St.init.ticks _ (BufferEx.inv_init tyOf) BufferEx.rel_init hw hs
  exact ⟨seen, s, h1, by rw [rel_contents h4]; exact h2⟩

/-- **C150** (single operations).  Whatever has gone before, an operation ends in an allowed way. -/
theorem C150_step {tyOf : Nat → Ty} (env : Env) {s : St} (h : BufferCaughtReach tyOf s) {op : Op} (hw : op.wellFormed tyOf)
    (hc : InContract (bufferContents s.w) op) :
    ∃ seen s', step env s op = some (seen, s') ∧ May (bufferContents s.w) op seen (bufferContents s'.w) := by
  obtain ⟨hI, hR⟩ := caughtReach_inv h
  obtain ⟨seen, s', h1, ⟨a', hM, _, hR'⟩, _, _, _⟩ := step_sim env s.ticks hI hR hw hc
  exact ⟨seen, s', h1, by rw [rel_contents hR']; exact hM⟩

/-- **C150** (operations without an effect).  An operation which reports a violated contract, and a constructor which throws for another
reason, leave no trace: the elements which are alive, their values, the allocated blocks and the buffers are those of before. -/
theorem C150_no_effect {tyOf : Nat → Ty} (env : Env) {s s' : St} (h : BufferCaughtReach tyOf s) {op : Op} (hw : op.wellFormed tyOf)
    (hc : InContract (bufferContents s.w) op) {seen : Seen} (hs : step env s op = some (seen, s'))
    (hv : seen = .violated ∨ seen = .threw ∧ creates op = true) :
    s'.w.mem = s.w.mem ∧ s'.w.alloc = s.w.alloc ∧ s'.w.objs = s.w.objs := by
  obtain ⟨hI, hR⟩ := caughtReach_inv h
  obtain ⟨seen', s1, h1, _, hvio, hthr, _⟩ := step_sim env s.ticks hI hR hw hc
  have : some (seen, s') = some (seen', s1) := hs.symm.trans h1
  cases this
  have hu : BufferEx.Upto s.w s'.w := by
    rcases hv with hv | ⟨hv, hcr⟩
    · exact hvio hv
    · exact hthr hv hcr
  exact ⟨hu.mem, hu.alloc, hu.objs⟩

/-- **C150** (reasons to throw).  If no element operation throws and there is memory for as many elements as are asked for, the only exceptions
are those which report violated contracts. -/
theorem C150_throws_only_if {tyOf : Nat → Ty} (env : Env) {s s' : St} (h : BufferCaughtReach tyOf s) {op : Op} (hw : op.wellFormed tyOf)
    (hc : InContract (bufferContents s.w) op) (hs : step env s op = some (.threw, s')) :
    env.limit < needs (bufferContents s.w) op ∨ ∃ u, (env.fails u).isSome := by
  obtain ⟨hI, hR⟩ := caughtReach_inv h
  obtain ⟨seen', s1, h1, _, _, _, hcause⟩ := step_sim env s.ticks hI hR hw hc
  have : some (Seen.threw, s') = some (seen', s1) := hs.symm.trans h1
  cases this
  exact hcause rfl

example : BufferCaughtReach (fun _ => .buffer none 2) St.init ∧ InContract (bufferContents St.init.w) (.construct 0 (.buffer none 2) 7) ∧
    (step ⟨6, fun _ => none⟩ St.init (.construct 0 (.buffer none 2) 7)).map (·.1) = some .threw :=
  ⟨⟨⟨6, fun _ => none⟩, .done, [], trivial, trivial, rfl⟩, rfl, by decide +kernel⟩

/-- **C150** (balance).  The blocks which are allocated are those of existing buffers, no two buffers share one, and the elements which
are alive are those inside existing buffers and those in their blocks. -/
theorem C150_balance {tyOf : Nat → Ty} {s : St} (h : BufferCaughtReach tyOf s) :
    (∀ id n, s.w.alloc id = some n ↔ ∃ b o, s.w.objs b = some o ∧ o.data = .block id ∧ o.size = n) ∧
    (∀ b b' o o' id, s.w.objs b = some o → s.w.objs b' = some o' → o.data = .block id → o'.data = .block id → b = b') ∧
    (∀ b j, (s.w.mem (.own b) j).isSome ↔ ∃ o, s.w.objs b = some o ∧ j < inPlaceCount o.ty.kind) ∧
    (∀ id j, (s.w.mem (.block id) j).isSome ↔ ∃ b o, s.w.objs b = some o ∧ o.data = .block id ∧ j < o.size) := by
  obtain ⟨hI, _⟩ := caughtReach_inv h
  refine ⟨hI.alloc_iff, hI.uniq, hI.own_mem, fun id j => ?_⟩
  rw [hI.block_mem]
  constructor
  · rintro ⟨n, hn, hj⟩
    obtain ⟨b, o, ho, hd, rfl⟩ := (hI.alloc_iff id n).1 hn
    exact ⟨b, o, ho, hd, hj⟩
  · rintro ⟨b, o, ho, hd, hj⟩
    exact ⟨o.size, (hI.alloc_iff id _).2 ⟨b, o, ho, hd, rfl⟩, hj⟩

/-- **C150** (no leaks).  When the program has no buffers left, no element is alive and no block is allocated. -/
theorem C150_no_leak {tyOf : Nat → Ty} {s : St} (h : BufferCaughtReach tyOf s) (hnone : bufferContents s.w = Spec.BufEx.none) :
    (∀ p j, s.w.mem p j = none) ∧ ∀ id, s.w.alloc id = none := by
  obtain ⟨_, hR⟩ := caughtReach_inv h
  obtain ⟨h1, _, h3, h4⟩ := C150_balance h
  have hobj : ∀ b, s.w.objs b = none := fun b => (hR.none_iff b).1 (by rw [hnone]; rfl)
  refine ⟨fun p j => ?_, fun id => ?_⟩
  · rw [← Option.not_isSome_iff_eq_none]
    cases p with
    | null => rw [(caughtReach_inv h).1.null_mem j]; simp
    | own b => rw [h3]; rintro ⟨o, ho, _⟩; rw [hobj b] at ho; cases ho
    | block id => rw [h4]; rintro ⟨b, o, ho, _⟩; rw [hobj b] at ho; cases ho
  · cases hn : s.w.alloc id with
    | none => rfl
    | some n =>
      obtain ⟨b, o, ho, _⟩ := (h1 id n).1 hn
      rw [hobj b] at ho; cases ho

/-! ## A program which has exceptions of all kinds thrown at it -/

/-- It asks for seven elements of a buffer with a static extent of five (which are constructed on the heap),
and for seven elements of a buffer with room for four; it creates a buffer of three elements, assigns an array of a wrong length and one
during whose assignment an element throws, and destroys the buffer. -/
private def classProg : Prog :=
  .op (.construct 0 (.buffer (some 5) 2) 7) fun
    | .returned _ => .done
    | _ => .op (.construct 1 (.fixed none 4) 7) fun
      | .returned _ => .done
      | _ => .op (.construct 2 (.buffer none 2) 3) fun
        | .returned _ => .op (.assignArray 2 [1, 2]) fun _ => .op (.assignArray 2 [1, 2, 3]) fun _ => .op (.destroy 2) fun _ => .done
        | _ => .done

private def classProgTy : Nat → Ty
  | 0 => .buffer (some 5) 2
  | 1 => .fixed none 4
  | _ => .buffer none 2

/-- The second assignment throws (after 7 + 4 + 5 constructions and one assignment). -/
private def classProgEnv : Env := ⟨10, fun t => if t = 17 then some 99 else none⟩

example : (run classProgEnv classProg St.init).map (·.1) =
    some [.violated, .violated, .returned .unit, .violated, .threw, .returned .unit] := by
  decide +kernel

private theorem classProg_wellFormed : WellFormed classProgTy classProg := by
  refine ⟨by simp [Op.wellFormed, classProgTy, Ty.wellFormed], fun seen => ?_⟩
  have h : ∀ seen : Seen, WellFormed classProgTy (match seen with
      | .returned _ => .op (.assignArray 2 [1, 2]) fun _ => .op (.assignArray 2 [1, 2, 3]) fun _ => .op (.destroy 2) fun _ => .done
      | _ => .done) := by
    intro seen
    cases seen with
    | returned r => exact ⟨by simp [Op.wellFormed, classProgTy, Ty.arrayOk, Ty.extent], fun _ =>
        ⟨by simp [Op.wellFormed, classProgTy, Ty.arrayOk, Ty.extent], fun _ => ⟨trivial, fun _ => trivial⟩⟩⟩
    | _ => trivial
  have h' : ∀ seen : Seen, WellFormed classProgTy (match seen with
      | .returned _ => .done
      | _ => .op (.construct 2 (.buffer none 2) 3) fun seen => match seen with
        | .returned _ => .op (.assignArray 2 [1, 2]) fun _ => .op (.assignArray 2 [1, 2, 3]) fun _ => .op (.destroy 2) fun _ => .done
        | _ => .done) := by
    intro seen
    cases seen with
    | returned r => trivial
    | _ => exact ⟨by simp [Op.wellFormed, classProgTy, Ty.wellFormed], h⟩
  cases seen with
  | returned r => trivial
  | _ => exact ⟨by simp [Op.wellFormed, classProgTy, Ty.wellFormed], h'⟩

private theorem classProg_safe : Safe classProg Spec.BufEx.none := by
  have hend : ∀ l : List Int, Safe (.op (.destroy 2) fun _ => .done) (Spec.BufEx.set Spec.BufEx.none 2 (some l)) := fun l =>
    ⟨by simp [InContract, Spec.BufEx.set], fun _ _ _ => trivial⟩
  have hset : ∀ (a : Spec.BufEx.Store) (x y : Option (List Int)), Spec.BufEx.set (Spec.BufEx.set a 2 x) 2 y = Spec.BufEx.set a 2 y := by
    intro a x y
    funext j
    simp only [Spec.BufEx.set]; split <;> rfl
  have hassign : ∀ l : List Int, Safe (.op (.assignArray 2 [1, 2, 3]) fun _ => .op (.destroy 2) fun _ => .done)
      (Spec.BufEx.set Spec.BufEx.none 2 (some l)) := by
    intro l
    refine ⟨by simp [InContract, Spec.BufEx.set], fun seen a' h => ?_⟩
    cases h with
    | returned h => cases h; rw [hset]; exact hend _
    | threw h => cases h; rw [hset]; exact hend _
    | violated h => exact hend _
  refine ⟨rfl, fun seen a' h => ?_⟩
  cases h with
  | returned h => trivial
  | threw h | violated h =>
    cases h
    refine ⟨rfl, fun seen a' h => ?_⟩
    cases h with
    | returned h => trivial
    | threw h | violated h =>
      cases h
      refine ⟨rfl, fun seen a' h => ?_⟩
      cases h with
      | returned h =>
        cases h
        refine ⟨by simp [InContract, Spec.BufEx.set], fun seen a' h => ?_⟩
        cases h with
        | returned h => cases h; rw [hset]; exact hassign _
        | threw h => cases h; rw [hset]; exact hassign _
        | violated h => exact hassign _
      | threw h => trivial
      | violated h => trivial

/-- The state this program ends in is one which the theorems are about. -/
example : ∃ s, BufferCaughtReach classProgTy s ∧
    run classProgEnv classProg St.init = some ([.violated, .violated, .returned .unit, .violated, .threw, .returned .unit], s) := by
  have h : (run classProgEnv classProg St.init).map (·.1) =
    some [.violated, .violated, .returned .unit, .violated, .threw, .returned .unit] := by decide +kernel
  rcases hr : run classProgEnv classProg St.init with _ | ⟨seen, s⟩
  · rw [hr] at h; cases h
  · rw [hr] at h
    simp only [Option.map_some, Option.some.injEq] at h
    subst h
    exact ⟨s, ⟨_, _, _, classProg_wellFormed, classProg_safe, hr⟩, rfl⟩

/-- Its first operation, for `C150_no_effect`: the seven elements constructed are destroyed, and the block is released. -/
example : BufferCaughtReach classProgTy St.init ∧ (Op.construct 0 (.buffer (some 5) 2) 7).wellFormed classProgTy ∧
    InContract (bufferContents St.init.w) (.construct 0 (.buffer (some 5) 2) 7) ∧
    (step classProgEnv St.init (.construct 0 (.buffer (some 5) 2) 7)).map (fun x => (x.1, x.2.ticks)) = some (.violated, 7) :=
  ⟨⟨classProgEnv, .done, [], trivial, trivial, rfl⟩, by simp [Op.wellFormed, classProgTy, Ty.wellFormed], rfl, by decide +kernel⟩

end Makeshift.Props
