import Verif.Lemmas.BufferSim
import Verif.Spec.BufferCaught

/-!
# Programs on buffers which catch exceptions: the model and the specification do the same
-/

namespace Makeshift.BufferCaught

open Makeshift Makeshift.Buffer
open Makeshift.BufferCaught (Res)

/-- The state in which an operation ends which ends in the same way in `Model/Buffer.lean`. -/
def ofOutcome {σ α : Type} (s : σ) : Outcome (σ × α) → Res σ α
  | .ok (s, a) => .ok a s
  | .throw m => .threw m s
  | .failFast => .violated s
  | .ub => .ub

theorem newArray_eq (limit n : Nat) (h : Heap) : newArray limit n h = ofOutcome h (h.new limit n) := by
  unfold newArray Heap.new
  split <;> rfl

theorem construct_eq (limit : Nat) (ty : Ty) (n : Nat) (h : Heap) :
    construct limit ty n h = ofOutcome h (Buffer.construct limit h ty n) := by
  unfold construct Buffer.construct
  rcases ty.kind with k | k | k | _ <;> simp only
  · rfl
  · rfl
  · split
    · rfl
    · rw [newArray_eq]; rcases h.new limit n with ⟨_, _⟩ | _ | _ | _ <;> rfl
  · split
    · rw [newArray_eq]; rcases h.new limit n with ⟨_, _⟩ | _ | _ | _ <;> rfl
    · rfl

/-- Outcomes of element accesses. -/
def Plain {α : Type} : Outcome α → Prop
  | .ok _ => True
  | .ub => True
  | _ => False

theorem load_plain (h : Heap) (o : Obj) (i : Nat) : Plain (load h o i) := by
  unfold load
  simp only
  split <;> trivial

theorem store_plain (h : Heap) (o : Obj) (i : Nat) (v : Int) : Plain (store h o i v) := by
  unfold store
  split
  · trivial
  · split <;> trivial
  · split
    · split <;> trivial
    · trivial

theorem storeAll_plain (vs : List Int) : ∀ (h : Heap) (o : Obj) (i : Nat), Plain (storeAll h o i vs) := by
  induction vs with
  | nil => intro h o i; trivial
  | cons v vs ih =>
    intro h o i
    have := store_plain h o i v
    unfold storeAll
    rcases hx : store h o i v with r | _ | _ | _
    · exact ih _ _ _
    · rw [hx] at this; exact this.elim
    · rw [hx] at this; exact this.elim
    · trivial

theorem copyElems_plain (rhs : Obj) (n : Nat) : ∀ (h : Heap) (o : Obj) (i : Nat), Plain (copyElems h rhs o i n) := by
  induction n with
  | zero => intro h o i; trivial
  | succ n ih =>
    intro h o i
    have h1 := load_plain h rhs i
    unfold copyElems
    rcases hx : load h rhs i with v | _ | _ | _
    · have h2 := store_plain h o i v
      simp only [Outcome.bind_ok]
      rcases hx : store h o i v with r | _ | _ | _
      · exact ih _ _ _
      · rw [hx] at h2; exact h2.elim
      · rw [hx] at h2; exact h2.elim
      · trivial
    · rw [hx] at h1; exact h1.elim
    · rw [hx] at h1; exact h1.elim
    · trivial

theorem plain_eq {σ α : Type} (s : σ) {r : Outcome (σ × α)} (h : Plain r) : plain r = ofOutcome s r := by
  rcases r with ⟨_, _⟩ | _ | _ | _
  · rfl
  · exact h.elim
  · exact h.elim
  · rfl

theorem constructArray_eq (limit : Nat) (ty : Ty) (vals : List Int) (h : Heap) :
    constructArray limit ty vals h = ofOutcome h (Buffer.constructArray limit h ty vals) := by
  unfold constructArray Buffer.constructArray
  rw [construct_eq]
  rcases Buffer.construct limit h ty vals.length with ⟨h', o⟩ | _ | _ | _
  · simp only [ofOutcome, Res.bind, Outcome.bind_ok]
    exact plain_eq h (storeAll_plain vals h' o 0)
  · rfl
  · rfl
  · rfl

theorem copyConstruct_eq (limit : Nat) (rhs : Obj) (h : Heap) :
    copyConstruct limit rhs h = ofOutcome h (Buffer.copyConstruct limit h rhs) := by
  have key : ((construct limit rhs.ty rhs.size h).bind fun o h => plain (Buffer.copyElems h rhs o 0 rhs.size)) =
      ofOutcome h ((Buffer.construct limit h rhs.ty rhs.size).bind fun r => copyElems r.1 rhs r.2 0 rhs.size) := by
    rw [construct_eq]
    rcases Buffer.construct limit h rhs.ty rhs.size with ⟨h', o⟩ | _ | _ | _
    · simp only [ofOutcome, Res.bind, Outcome.bind_ok]
      exact plain_eq h (copyElems_plain rhs rhs.size h' o 0)
    · rfl
    · rfl
    · rfl
  unfold copyConstruct Buffer.copyConstruct
  rcases rhs.ty.kind with k | k | k | _ <;> simp only
  · rfl
  · rfl
  · exact key
  · exact key

theorem destroy_plain (h : Heap) (o : Obj) : Plain (Buffer.destroy h o) := by
  have hd : ∀ id, Plain (h.delete id) := by
    intro id; unfold Heap.delete; split <;> trivial
  unfold Buffer.destroy
  split
  · trivial
  · trivial
  · split
    · trivial
    · trivial
    · exact hd _
  · split
    · trivial
    · trivial
    · exact hd _

/-- A heap with the same blocks. -/
structure Same (h h' : Heap) : Prop where
  blocks : h'.blocks = h.blocks
  next : h.next ≤ h'.next

/-- What has been constructed just now can be destroyed, and the heap then is as before. -/
theorem construct_destroy {limit : Nat} {h h' : Heap} {ty : Ty} {n : Nat} {o : Obj} (hfresh : h.blocks h.next = none)
    (hc : Buffer.construct limit h ty n = .ok (h', o)) : ∃ h'', Buffer.destroy h' o = .ok h'' ∧ Same h h'' := by
  have hblock : ∀ c : List Cell, ∃ h'', Heap.delete ⟨update h.blocks h.next (some c), h.next + 1⟩ h.next = .ok h'' ∧ Same h h'' := by
    intro c
    refine ⟨_, by simp only [Heap.delete, update_same]; rfl, ?_, Nat.le_succ _⟩
    simp only [update_update]
    funext id
    unfold update
    split
    · rename_i hid; rw [hid, hfresh]
    · rfl
  unfold Buffer.construct at hc
  rcases hk : ty.kind with k | k | k | _ <;> rw [hk] at hc <;> simp only at hc
  · cases hc; exact ⟨h, by simp [Buffer.destroy, hk], rfl, Nat.le_refl _⟩
  · cases hc; exact ⟨h, by simp [Buffer.destroy, hk], rfl, Nat.le_refl _⟩
  · split at hc
    · cases hc; exact ⟨h, by simp [Buffer.destroy, hk], rfl, Nat.le_refl _⟩
    · unfold Heap.new at hc
      split at hc
      · cases hc
      · simp only [Outcome.bind_ok] at hc
        cases hc
        obtain ⟨h'', h1, h2⟩ := hblock (List.replicate n (.val 0))
        exact ⟨h'', by simp only [Buffer.destroy, hk]; exact h1, h2⟩
  · split at hc
    · unfold Heap.new at hc
      split at hc
      · cases hc
      · simp only [Outcome.bind_ok] at hc
        cases hc
        obtain ⟨h'', h1, h2⟩ := hblock (List.replicate n (.val 0))
        exact ⟨h'', by simp only [Buffer.destroy, hk]; exact h1, h2⟩
    · cases hc; exact ⟨h, by simp [Buffer.destroy, hk], rfl, Nat.le_refl _⟩

/-- The constructors from an extent end as in `Model/Buffer.lean`; if the extent is rejected, the heap is as before. -/
theorem constructExtent_eq (limit : Nat) (ty : Ty) (e : Int) (h : Heap) (hfresh : h.blocks h.next = none) :
    match Buffer.constructExtent limit h ty e with
    | .failFast => ∃ h', constructExtent limit ty e h = .violated h' ∧ Same h h'
    | r => constructExtent limit ty e h = ofOutcome h r := by
  unfold constructExtent Buffer.constructExtent
  rw [construct_eq]
  rcases hc : Buffer.construct limit h ty (IntTy.sizeT.wrap e).toNat with ⟨h', o⟩ | m | _ | _
  · simp only [ofOutcome, Res.bind, Outcome.bind_ok]
    rcases hk : checkExtent ty e with _ | _
    · obtain ⟨h'', h1, h2⟩ := construct_destroy hfresh hc
      simp only [Outcome.expects, expects, Bool.false_eq_true, if_false, Outcome.bind, unwind, destroy, h1, Outcome.mapVal, plain, Res.bind]
      exact ⟨h'', rfl, h2⟩
    · rfl
  · rfl
  · exfalso
    unfold Buffer.construct at hc
    split at hc
    · cases hc
    · cases hc
    · split at hc
      · cases hc
      · unfold Heap.new at hc; split at hc <;> cases hc
    · split at hc
      · unfold Heap.new at hc; split at hc <;> cases hc
      · cases hc
  · rfl

theorem rel_same {tyOf : Nat → Ty} {s : State} {a : Spec.Buf.Store} (hR : Rel tyOf s a) {h : Heap} (hs : Same s.heap h) :
    Rel tyOf ⟨h, s.objs⟩ a where
  vars := by
    intro b
    have hv := hR.vars b
    simp only
    rcases ho : s.objs b with _ | o <;> rcases ha : a b with _ | ⟨ty, elems⟩ <;> rw [ho, ha] at hv
    · trivial
    · exact hv
    · exact hv
    · obtain ⟨h1, h2, h3, h4, h5⟩ := hv
      have hfr : ∀ id, o.data = .block id → h.blocks id = s.heap.blocks id := fun id _ => by rw [hs.blocks]
      exact ⟨h1, h2, shape_frame h3 hfr, by rw [view_frame hfr]; exact h4, h5⟩
  owned := by intro id hid; rw [hs.blocks] at hid; exact hR.owned id hid
  inj := hR.inj
  fresh := by intro id hid; rw [hs.blocks]; exact hR.fresh id (Nat.le_trans hs.next hid)

/-- How an operation ends, compared to `Model/Buffer.lean`. -/
theorem step_eq (limit : Nat) (s : State) (op : Op) (hfresh : s.heap.blocks s.heap.next = none) :
    match Buffer.step limit s op with
    | .ok (s', r) => step limit s op = .ok r s'
    | .throw m => step limit s op = .threw m s
    | .failFast => ∃ h, step limit s op = .violated ⟨h, s.objs⟩ ∧ Same s.heap h
    | .ub => True := by
  have hsame : ∃ h, (Res.violated s : Res State Resp) = .violated ⟨h, s.objs⟩ ∧ Same s.heap h := ⟨s.heap, rfl, rfl, Nat.le_refl _⟩
  cases op with
  | construct b ty e =>
    simp only [step, Buffer.step, create]
    rcases s.objs b with _ | _
    · have hc := constructExtent_eq limit ty e s.heap hfresh
      simp only
      rcases hr : Buffer.constructExtent limit s.heap ty e with ⟨h', o⟩ | m | _ | _ <;> rw [hr] at hc <;> simp only [ofOutcome] at hc
      · simp only [hc, Outcome.bind_ok]
      · simp only [hc, Outcome.bind]
      · obtain ⟨h', h1, h2⟩ := hc
        simp only [h1, Outcome.bind]
        exact ⟨h', rfl, h2⟩
      · trivial
    · trivial
  | constructArray b ty vals =>
    simp only [step, Buffer.step, create]
    rcases s.objs b with _ | _
    · simp only [constructArray_eq]
      rcases Buffer.constructArray limit s.heap ty vals with ⟨h', o⟩ | m | _ | _
      · rfl
      · rfl
      · exact ⟨s.heap, rfl, rfl, Nat.le_refl _⟩
      · trivial
    · trivial
  | copy b src =>
    simp only [step, Buffer.step, create, State.withObj, withObj]
    rcases s.objs b with _ | _
    · rcases s.objs src with _ | o
      · trivial
      · simp only [copyConstruct_eq]
        rcases Buffer.copyConstruct limit s.heap o with ⟨h', o'⟩ | m | _ | _
        · rfl
        · rfl
        · exact ⟨s.heap, rfl, rfl, Nat.le_refl _⟩
        · trivial
    · trivial
  | assignArray b vals =>
    simp only [step, Buffer.step, State.withObj, withObj]
    rcases s.objs b with _ | o
    · trivial
    · by_cases hl : vals.length = o.size
      · simp only [hl, decide_true, Outcome.expects_true, Outcome.bind_ok, expects, if_true, Res.bind, access]
        have hp := storeAll_plain vals s.heap o 0
        rcases hx : storeAll s.heap o 0 vals with ⟨h', o'⟩ | _ | _ | _
        · rfl
        · rw [hx] at hp; exact hp.elim
        · rw [hx] at hp; exact hp.elim
        · trivial
      · simp only [hl, decide_false, Outcome.expects, expects, Bool.false_eq_true, if_false, Outcome.bind, Res.bind]
        exact hsame
  | copyAssign b src =>
    simp only [step, Buffer.step, State.withObj, withObj]
    rcases s.objs b with _ | _
    · trivial
    · rcases s.objs src with _ | o
      · trivial
      · rfl
  | size b =>
    simp only [step, Buffer.step, State.withObj, withObj]
    rcases s.objs b with _ | _
    · trivial
    · rfl
  | empty b =>
    simp only [step, Buffer.step, State.withObj, withObj]
    rcases s.objs b with _ | _
    · trivial
    · rfl
  | read b i =>
    simp only [step, Buffer.step, State.withObj, withObj, read]
    rcases s.objs b with _ | o
    · trivial
    · simp only
      have hp := load_plain s.heap o i
      rcases hx : load s.heap o i with v | _ | _ | _
      · rfl
      · rw [hx] at hp; exact hp.elim
      · rw [hx] at hp; exact hp.elim
      · trivial
  | write b i v =>
    simp only [step, Buffer.step, State.withObj, withObj, access]
    rcases s.objs b with _ | o
    · trivial
    · simp only
      have hp := store_plain s.heap o i v
      rcases hx : store s.heap o i v with ⟨h', o'⟩ | _ | _ | _
      · rfl
      · rw [hx] at hp; exact hp.elim
      · rw [hx] at hp; exact hp.elim
      · trivial
  | front b =>
    simp only [step, Buffer.step, State.withObj, withObj, read]
    rcases s.objs b with _ | o
    · trivial
    · by_cases h0 : o.size = 0
      · simp only [h0, ne_eq, not_true, decide_false, Outcome.expects, expects, Bool.false_eq_true, if_false, Outcome.bind, Res.bind]
        exact hsame
      · simp only [h0, ne_eq, not_false_eq_true, decide_true, Outcome.expects_true, Outcome.bind_ok, expects, if_true, Res.bind]
        have hp := load_plain s.heap o 0
        rcases hx : load s.heap o 0 with v | _ | _ | _
        · rfl
        · rw [hx] at hp; exact hp.elim
        · rw [hx] at hp; exact hp.elim
        · trivial
  | back b =>
    simp only [step, Buffer.step, State.withObj, withObj, read]
    rcases s.objs b with _ | o
    · trivial
    · by_cases h0 : o.size = 0
      · simp only [h0, ne_eq, not_true, decide_false, Outcome.expects, expects, Bool.false_eq_true, if_false, Outcome.bind, Res.bind]
        exact hsame
      · simp only [h0, ne_eq, not_false_eq_true, decide_true, Outcome.expects_true, Outcome.bind_ok, expects, if_true, Res.bind]
        have hp := load_plain s.heap o (o.size - 1)
        rcases hx : load s.heap o (o.size - 1) with v | _ | _ | _
        · rfl
        · rw [hx] at hp; exact hp.elim
        · rw [hx] at hp; exact hp.elim
        · trivial
  | destroy b =>
    simp only [step, Buffer.step, State.withObj, withObj, destroy]
    rcases s.objs b with _ | o
    · trivial
    · simp only
      have hp := destroy_plain s.heap o
      rcases hx : Buffer.destroy s.heap o with h' | _ | _ | _
      · rfl
      · rw [hx] at hp; exact hp.elim
      · rw [hx] at hp; exact hp.elim
      · trivial

/-- Runs correspond. -/
theorem caught_run {tyOf : Nat → Ty} (limit : Nat) (p : Prog) {s : State} {a : Spec.Buf.Store} (hR : Rel tyOf s a)
    (hwf : Spec.BufCaught.WellFormed tyOf p) {seen : List Seen} {a' : Spec.Buf.Store}
    (h : Spec.BufCaught.run limit p a = some (seen, a')) : ∃ s', run limit p s = some (seen, s') ∧ Rel tyOf s' a' := by
  induction p generalizing s a seen a' with
  | done =>
    simp only [Spec.BufCaught.run, Option.some.injEq, Prod.mk.injEq] at h
    obtain ⟨rfl, rfl⟩ := h
    exact ⟨s, rfl, hR⟩
  | op o k ih =>
    obtain ⟨hw, hk⟩ := hwf
    have hsim := sim_step hR limit o hw
    have heq := step_eq limit s o (hR.fresh _ (Nat.le_refl _))
    simp only [Spec.BufCaught.run] at h
    rcases hs : Spec.Buf.step limit a o with ⟨a1, r⟩ | m | _ | _ <;> rw [hs] at hsim h <;> simp only [StepSim] at hsim h
    · obtain ⟨s1, h1, hR1⟩ := hsim
      rw [h1] at heq
      simp only at heq
      obtain ⟨⟨seen1, a2⟩, hrun, heq2⟩ := Option.map_eq_some_iff.mp h
      simp only [Prod.mk.injEq] at heq2
      obtain ⟨rfl, rfl⟩ := heq2
      obtain ⟨s2, h2, hR2⟩ := ih _ hR1 (hk _) hrun
      exact ⟨s2, by simp [run, heq, h2], hR2⟩
    · rw [hsim] at heq
      simp only at heq
      obtain ⟨⟨seen1, a2⟩, hrun, heq2⟩ := Option.map_eq_some_iff.mp h
      simp only [Prod.mk.injEq] at heq2
      obtain ⟨rfl, rfl⟩ := heq2
      obtain ⟨s2, h2, hR2⟩ := ih _ hR (hk _) hrun
      exact ⟨s2, by simp [run, heq, h2], hR2⟩
    · rw [hsim] at heq
      simp only at heq
      obtain ⟨h', heq, hsame⟩ := heq
      obtain ⟨⟨seen1, a2⟩, hrun, heq2⟩ := Option.map_eq_some_iff.mp h
      simp only [Prod.mk.injEq] at heq2
      obtain ⟨rfl, rfl⟩ := heq2
      obtain ⟨s2, h2, hR2⟩ := ih _ (rel_same hR hsame) (hk _) hrun
      exact ⟨s2, by simp [run, heq, h2], hR2⟩
    · cases h

end Makeshift.BufferCaught
