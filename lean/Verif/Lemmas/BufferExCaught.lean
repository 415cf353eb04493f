import Verif.Lemmas.BufferExceptionsSim
import Verif.Spec.BufferExCaught

/-!
# Buffers of a class type, and violated contracts reported by exceptions: lemmas
-/

namespace Makeshift.BufferExCaught

open Makeshift.Buffer (Ty Op Resp update)
open Makeshift.BufferEx (Env Obj St World Inv Rel Sim Upto Built Vacant)
open Makeshift.Spec.BufEx (Store Allowed InContract)
open Makeshift.Spec.BufExCaught

/-- What is left when an object is destroyed right after its construction. -/
theorem construct_destroy (env : Env) (b : Nat) (ty : Ty) (size : Nat) (w : World) (t : Nat) (hv : Vacant w b) {o : Obj} {s : St}
    (h : BufferEx.construct env b ty size ⟨w, t⟩ = .ok o s) : ∃ s', BufferEx.destroy b o s = .ok () s' ∧ Upto w s'.w := by
  by_cases hfit : ∀ cap, ty.kind = .inPlaceMax cap → size ≤ cap
  · rcases BufferEx.construct_spec env b ty size w t hv with ⟨o', w', t', h', _, _, hB⟩ | ⟨_, w', t', h', _⟩
    · rw [h] at h'
      cases h'
      have hB := hB hfit
      have halloc : ∀ id, o.data = .block id → w'.alloc id = some o.size := by
        intro id hid
        have := hB.alloc
        rw [hid] at this
        simp [this, update]
      refine ⟨_, BufferEx.destroy_spec b o w' t' hB.shape hB.alive halloc, ?_⟩
      exact BufferEx.release_upto hv hB rfl rfl rfl fun _ _ _ => rfl
    · rw [h] at h'; cases h'
  · push Not at hfit
    obtain ⟨cap, hk, hlt⟩ := hfit
    have hc := BufferEx.constructArrayFrom_spec env (.own b) .default (fun _ => 0) w cap (fun j _ => hv.own j) (fun _ _ _ _ => rfl) cap 0 t
      (by omega)
    rw [BufferEx.fill_zero] at hc
    simp only [BufferEx.construct, hk] at h
    rcases hc with ⟨t', hc⟩ | ⟨_, t', hc⟩
    · rw [hc] at h
      cases h
      refine ⟨_, by
        simp only [BufferEx.destroy, hk]
        exact BufferEx.destroyArray_spec _ _ _ _ fun j hj => by simp [World.fill, hj], ?_⟩
      refine ⟨?_, rfl, rfl, Nat.le_refl _⟩
      funext q j
      simp only [World.clear, World.fill]
      split
      · rename_i hq; rw [hq.1, hv.own j]
      · rfl
    · rw [hc] at h; cases h

/-- What is known after an operation. -/
structure After (tyOf : Nat → Ty) (env : Env) (w : World) (a : Store) (op : Op) (seen : Seen) (s : St) : Prop where
  next : ∃ a', May a op seen a' ∧ Inv tyOf s.w ∧ Rel s.w a'
  violated : seen = .violated → Upto w s.w
  threw : seen = .threw → Spec.BufEx.creates op = true → Upto w s.w
  cause : seen = .threw → env.limit < Spec.BufEx.needs a op ∨ ∃ u, (env.fails u).isSome

theorem plain_sim {tyOf : Nat → Ty} {env : Env} {w : World} {a : Store} {op : Op} {r : BufferEx.Res Resp} (h : Sim tyOf env w a op r)
    (hf : ¬ Allowed a op .failFast) : ∃ seen s, plain r = some (seen, s) ∧ After tyOf env w a op seen s := by
  cases r with
  | ok r s =>
    obtain ⟨a', hA, hI, hR⟩ := h
    exact ⟨_, _, rfl, ⟨a', .returned hA, hI, hR⟩, nofun, nofun, nofun⟩
  | threw s =>
    obtain ⟨hcause, ⟨a', hA, hI, hR⟩, hu⟩ := h
    exact ⟨_, _, rfl, ⟨a', .threw hA, hI, hR⟩, nofun, fun _ => hu, fun _ => hcause⟩
  | failFast => exact (hf h).elim
  | ub => exact h.elim

theorem step_sim {tyOf : Nat → Ty} (env : Env) {w : World} {a : Store} (t : Nat) {op : Op} (hI : Inv tyOf w) (hR : Rel w a)
    (hw : op.wellFormed tyOf) (hc : InContract a op) : ∃ seen s, step env ⟨w, t⟩ op = some (seen, s) ∧ After tyOf env w a op seen s := by
  have h := BufferEx.step_sim env t hI hR hw hc
  cases op with
  | construct b ty e =>
    have hb : w.objs b = none := (hR.none_iff b).1 hc
    simp only [step, hb, constructExtent]
    simp only [BufferEx.step, BufferEx.create, hb, BufferEx.constructExtent] at h
    cases hr : BufferEx.construct env b ty (IntTy.sizeT.wrap e).toNat ⟨w, t⟩ with
    | ok o s =>
      simp only [hr, BufferEx.Res.bind] at h ⊢
      by_cases hx : Buffer.checkExtent ty e = true
      · simp only [hx, if_true] at h ⊢
        obtain ⟨a', hA, hI, hR⟩ := h
        exact ⟨_, _, rfl, ⟨a', .returned hA, hI, hR⟩, nofun, nofun, nofun⟩
      · simp only [hx] at h ⊢
        obtain ⟨s', hs, hu⟩ := construct_destroy env b ty _ w t (hI.vacant hb) hr
        simp only [hs]
        exact ⟨_, _, rfl, ⟨a, .violated h, hI.upto hu, hR.upto hu⟩, fun _ => hu, nofun, nofun⟩
    | threw s =>
      simp only [hr, BufferEx.Res.bind] at h ⊢
      obtain ⟨hcause, ⟨a', hA, hI, hR⟩, hu⟩ := h
      exact ⟨_, _, rfl, ⟨a', .threw hA, hI, hR⟩, nofun, fun _ => hu, fun _ => hcause⟩
    | failFast =>
      exfalso
      rcases BufferEx.construct_spec env b ty (IntTy.sizeT.wrap e).toNat w t (hI.vacant hb) with ⟨o', w', t', h', _⟩ | ⟨_, w', t', h', _⟩ <;>
        · rw [hr] at h'; cases h'
    | ub => simp only [hr, BufferEx.Res.bind] at h; exact h.elim
  | assignArray b vals =>
    obtain ⟨l, hl⟩ := Option.ne_none_iff_exists'.1 hc
    obtain ⟨o, hb, hlen, hval⟩ := hR.holds b l hl
    simp only [step, hb]
    by_cases hs : vals.length = o.size
    · rw [if_pos hs]
      refine plain_sim h fun hA => ?_
      cases hA with
      | assignArrayRejected hl' hne => rw [hl] at hl'; cases hl'; omega
    · rw [if_neg hs]
      exact ⟨_, _, rfl, ⟨a, .violated (.assignArrayRejected hl (by omega)), hI, hR⟩, fun _ => .refl w, nofun, nofun⟩
  | front b =>
    obtain ⟨l, hl⟩ := Option.ne_none_iff_exists'.1 hc
    obtain ⟨o, hb, hlen, hval⟩ := hR.holds b l hl
    simp only [step, hb]
    by_cases hs : o.size ≠ 0
    · rw [if_pos hs]
      have hn : ¬ Allowed a (.front b) .failFast := by
        intro hA; cases hA with
        | frontRejected hl' => rw [hl] at hl'; cases hl'; exact hs hlen.symm
      have := plain_sim h hn
      simpa only [BufferEx.step, BufferEx.withObj, hb, if_pos hs] using this
    · rw [if_neg hs]
      have : l = [] := List.length_eq_zero_iff.1 (by omega)
      subst this
      exact ⟨_, _, rfl, ⟨a, .violated (.frontRejected hl), hI, hR⟩, fun _ => .refl w, nofun, nofun⟩
  | back b =>
    obtain ⟨l, hl⟩ := Option.ne_none_iff_exists'.1 hc
    obtain ⟨o, hb, hlen, hval⟩ := hR.holds b l hl
    simp only [step, hb]
    by_cases hs : o.size ≠ 0
    · rw [if_pos hs]
      have hn : ¬ Allowed a (.back b) .failFast := by
        intro hA; cases hA with
        | backRejected hl' => rw [hl] at hl'; cases hl'; exact hs hlen.symm
      have := plain_sim h hn
      simpa only [BufferEx.step, BufferEx.withObj, hb, if_pos hs] using this
    · rw [if_neg hs]
      have : l = [] := List.length_eq_zero_iff.1 (by omega)
      subst this
      exact ⟨_, _, rfl, ⟨a, .violated (.backRejected hl), hI, hR⟩, fun _ => .refl w, nofun, nofun⟩
  | _ => exact plain_sim h (by rintro ⟨⟩)

theorem run_sim {tyOf : Nat → Ty} (env : Env) (p : Prog) (w : World) (t : Nat) (a : Store) (hI : Inv tyOf w) (hR : Rel w a)
    (hw : WellFormed tyOf p) (hs : Safe p a) :
    ∃ seen s a', run env p ⟨w, t⟩ = some (seen, s) ∧ Ends a p seen a' ∧ Inv tyOf s.w ∧ Rel s.w a' := by
  induction p generalizing w t a with
  | done => exact ⟨[], _, a, rfl, .done a, hI, hR⟩
  | op o k ih =>
    obtain ⟨seen, s, h, ⟨a', hM, hI', hR'⟩, _, _, _⟩ := step_sim env t hI hR hw.1 hs.1
    obtain ⟨rest, s', a'', h1, h2, h3, h4⟩ := ih seen s.w s.ticks a' hI' hR' (hw.2 seen) (hs.2 seen a' hM)
    exact ⟨seen :: rest, s', a'', by simp only [run, h, h1]; rfl, .op hM h2, h3, h4⟩

end Makeshift.BufferExCaught
