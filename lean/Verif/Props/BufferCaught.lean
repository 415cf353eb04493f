import Verif.Lemmas.BufferCaught

/-!
# Programs on buffers which catch exceptions: C149
-/

namespace Makeshift.Props

open Makeshift.Buffer (Ty State Op Resp Ptr)
open Makeshift.BufferCaught

/-- C149: a program on buffers which catches all exceptions, those which report violated contracts among them, observes what it would
observe if operations which do not succeed had no effect. -/
theorem C149_refinement (tyOf : Nat → Ty) (limit : Nat) (p : Prog) (hwf : Spec.BufCaught.WellFormed tyOf p)
    (hok : Spec.BufCaught.run limit p Spec.Buf.none ≠ none) :
    (run limit p State.init).map (·.1) = (Spec.BufCaught.run limit p Spec.Buf.none).map (·.1) := by
  rcases h : Spec.BufCaught.run limit p Spec.Buf.none with _ | ⟨seen, a⟩
  · exact absurd h hok
  · obtain ⟨s, h1, _⟩ := caught_run limit p (Buffer.rel_init tyOf) hwf h
    rw [h1]; rfl

/-- A program which asks for a wrong extent, finds a valid one, and has more exceptions thrown at it: the array of seven elements which
was allocated for a static extent of five, a lack of memory, and an array of a wrong length. -/
private def stubborn : Prog :=
  .op (.construct 0 (.fixed none 4) 7) fun
    | .violated => .op (.construct 0 (.fixed none 4) 2) fun _ => .op (.construct 1 (.buffer (some 5) 2) 7) fun
      | .violated => .op (.construct 2 (.buffer none 2) (-1)) fun
        | .threw _ => .op (.write 0 1 8) fun _ => .op (.assignArray 0 [1, 2, 3]) fun _ => .op (.read 0 1) fun _ =>
          .op (.construct 1 (.buffer (some 5) 2) 5) fun _ => .op (.destroy 0) fun _ => .op (.destroy 1) fun _ => .done
        | _ => .done
      | _ => .done
    | _ => .done

private def stubbornTy : Nat → Ty
  | 0 => .fixed none 4
  | 1 => .buffer (some 5) 2
  | _ => .buffer none 2

example : Spec.BufCaught.WellFormed stubbornTy stubborn := by
  refine ⟨by simp [Op.wellFormed, stubbornTy, Ty.wellFormed, Ty.arrayOk, Ty.extent], fun seen => ?_⟩
  rcases seen with _ | _ | _
  · trivial
  · trivial
  refine ⟨by simp [Op.wellFormed, stubbornTy, Ty.wellFormed, Ty.arrayOk, Ty.extent], fun _ => ⟨by simp [Op.wellFormed, stubbornTy, Ty.wellFormed, Ty.arrayOk, Ty.extent], fun seen => ?_⟩⟩
  rcases seen with _ | _ | _
  · trivial
  · trivial
  refine ⟨by simp [Op.wellFormed, stubbornTy, Ty.wellFormed, Ty.arrayOk, Ty.extent], fun seen => ?_⟩
  rcases seen with _ | _ | _
  · trivial
  · exact ⟨trivial, fun _ => ⟨by simp [Op.wellFormed, stubbornTy, Ty.wellFormed, Ty.arrayOk, Ty.extent], fun _ => ⟨trivial, fun _ => ⟨by simp [Op.wellFormed, stubbornTy, Ty.wellFormed, Ty.arrayOk, Ty.extent], fun _ => ⟨trivial, fun _ => ⟨trivial, fun _ => trivial⟩⟩⟩⟩⟩⟩
  · trivial

example : (Spec.BufCaught.run 100 stubborn Spec.Buf.none).map (·.1) =
    some [.violated, .returned .unit, .violated, .threw (str "bad_alloc"), .returned .unit, .violated, .returned (.num 8), .returned .unit,
      .returned .unit, .returned .unit] := by
  decide +kernel

/-- C149: when such a program ends, every block of memory belongs to exactly one buffer, and to none twice; if all buffers have been destroyed,
all memory has been released. -/
theorem C149_no_leak (tyOf : Nat → Ty) (limit : Nat) (p : Prog) (hwf : Spec.BufCaught.WellFormed tyOf p)
    (hok : Spec.BufCaught.run limit p Spec.Buf.none ≠ none) (seen : List Seen) (s : State)
    (hrun : run limit p State.init = some (seen, s)) :
    (∀ id, (s.heap.blocks id).isSome → ∃! b, ∃ o, s.objs b = some o ∧ o.data = .block id) ∧
    (∀ b o id, s.objs b = some o → o.data = .block id → (s.heap.blocks id).isSome) ∧
    ((∀ b, s.objs b = none) → ∀ id, s.heap.blocks id = none) := by
  rcases h : Spec.BufCaught.run limit p Spec.Buf.none with _ | ⟨seen', a⟩
  · exact absurd h hok
  · obtain ⟨s', h1, hR⟩ := caught_run limit p (Buffer.rel_init tyOf) hwf h
    rw [h1] at hrun
    obtain ⟨rfl, rfl⟩ : seen' = seen ∧ s' = s := by simpa using hrun
    refine ⟨fun id hid => ?_, fun b o id ho hd => ?_, fun hall id => ?_⟩
    · obtain ⟨b, o, ho, hd⟩ := hR.owned id hid
      exact ⟨b, ⟨o, ho, hd⟩, fun b' ⟨o', ho', hd'⟩ => hR.inj _ _ _ _ _ ho' ho hd' hd⟩
    · have hv := hR.vars b
      rw [ho] at hv
      rcases ha : a b with _ | ⟨ty, elems⟩ <;> rw [ha] at hv
      · exact hv.elim
      · exact Buffer.shape_valid hv.2.2.1 id hd
    · by_contra hc
      obtain ⟨b, o, ho, _⟩ := hR.owned id (Option.isSome_iff_ne_none.mpr hc)
      rw [hall b] at ho
      cases ho

example : Spec.BufCaught.run 100 stubborn Spec.Buf.none ≠ none ∧ (run 100 stubborn State.init).isSome ∧
    ∀ x, run 100 stubborn State.init = some x → x.2.objs 0 = none ∧ x.2.objs 1 = none ∧ x.2.heap.next = 2 := by
  refine ⟨?_, by decide +kernel, ?_⟩
  · intro h
    have : (Spec.BufCaught.run 100 stubborn Spec.Buf.none).isSome = true := by decide +kernel
    rw [h] at this; cases this
  · intro x hx
    have : (run 100 stubborn State.init).map (fun x => (x.2.objs 0, x.2.objs 1, x.2.heap.next)) = some (none, none, 2) := by decide +kernel
    rw [hx] at this
    simpa using this

/-- C149: an operation which throws, for lack of memory or because a contract is violated, leaves all buffers and all memory as they are. -/
theorem C149_no_effect (tyOf : Nat → Ty) (limit : Nat) (p : Prog) (hwf : Spec.BufCaught.WellFormed tyOf p)
    (hok : Spec.BufCaught.run limit p Spec.Buf.none ≠ none) (seen : List Seen) (s s' : State)
    (hrun : run limit p State.init = some (seen, s)) (op : Op) (hop : op.wellFormed tyOf)
    (hin : ∀ a, Spec.BufCaught.run limit p Spec.Buf.none = some (seen, a) → Spec.Buf.step limit a op ≠ .ub)
    (h : (∃ m, step limit s op = .threw m s') ∨ step limit s op = .violated s') :
    s'.objs = s.objs ∧ s'.heap.blocks = s.heap.blocks := by
  rcases hs : Spec.BufCaught.run limit p Spec.Buf.none with _ | ⟨seen', a⟩
  · exact absurd hs hok
  · obtain ⟨s1, h1, hR⟩ := caught_run limit p (Buffer.rel_init tyOf) hwf hs
    rw [h1] at hrun
    obtain ⟨rfl, rfl⟩ : seen' = seen ∧ s1 = s := by simpa using hrun
    have heq := step_eq limit s1 op (hR.fresh _ (Nat.le_refl _))
    have hsim := Buffer.sim_step hR limit op hop
    have hnub : Buffer.step limit s1 op ≠ .ub := by
      intro hub
      rw [hub] at hsim
      rcases hb : Spec.Buf.step limit a op with ⟨a', r⟩ | _ | _ | _ <;> rw [hb] at hsim <;> simp only [Buffer.StepSim] at hsim
      · obtain ⟨_, hsim, _⟩ := hsim; cases hsim
      · cases hsim
      · cases hsim
      · exact hin a hs hb
    rcases hb : Buffer.step limit s1 op with ⟨s2, r⟩ | m | _ | _ <;> rw [hb] at heq <;> simp only at heq
    · rw [heq] at h; rcases h with ⟨_, h⟩ | h <;> cases h
    · rw [heq] at h
      rcases h with ⟨_, h⟩ | h
      · cases h; exact ⟨rfl, rfl⟩
      · cases h
    · obtain ⟨h', heq, hsame⟩ := heq
      rw [heq] at h
      rcases h with ⟨_, h⟩ | h
      · cases h
      · cases h; exact ⟨rfl, hsame.blocks⟩
    · exact absurd hb hnub

example : (∃ m, step 100 State.init (.construct 2 (.buffer none 2) (-1)) = .threw m State.init) ∧
    ∃ s, step 100 State.init (.construct 1 (.buffer (some 5) 2) 7) = .violated s := ⟨⟨_, rfl⟩, _, rfl⟩

end Makeshift.Props
