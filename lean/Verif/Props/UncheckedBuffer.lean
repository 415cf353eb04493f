import Verif.Lemmas.UncheckedBuffer

/-!
# Properties of buffers when contract checks are switched off
-/

namespace Makeshift.Props

open Makeshift Makeshift.Buffer
open Makeshift.Spec.RawBuf (inObject)

/-! ## C147: programs on buffers without contract checks -/

private theorem step_checked (limit : Nat) (s : State) (op : Op) : Unchecked.Buf.step .on limit s op = Buffer.step limit s op := by
  cases op with
  | back b =>
    simp only [Unchecked.Buf.step, Buffer.step, State.withObj]
    rcases s.objs b with _ | o
    · rfl
    · by_cases h : o.size = 0
      · simp [Unchecked.Checks.expects, Outcome.expects, h]
      · simp [Unchecked.Checks.expects, Outcome.expects, h, Unchecked.Buf.lastIndex]
  | _ => rfl

/-- With checks a program does what C55 - C57 and C66 say. -/
theorem C147_checked (limit : Nat) (s : State) (ops : List Op) : Unchecked.Buf.run .on limit s ops = Buffer.run limit s ops := by
  induction ops generalizing s with
  | nil => rfl
  | cons op ops ih => simp only [Unchecked.Buf.run, Buffer.run, step_checked, ih]

private theorem step_valid (limit : Nat) (s : State) (op : Op) (h : Buffer.step limit s op ≠ .failFast) :
    Unchecked.Buf.step .off limit s op = Buffer.step limit s op := by
  cases op with
  | construct b ty e =>
    simp only [Unchecked.Buf.step, Buffer.step, Unchecked.Buf.constructExtent, Buffer.constructExtent] at h ⊢
    rcases ho : s.objs b with _ | o <;> simp only [ho] at h ⊢
    · rcases hc : construct limit s.heap ty (IntTy.sizeT.wrap e).toNat with r | m | _ | _ <;> rw [hc] at h
      · by_cases hk : checkExtent ty e = true
        · simp [hk, Unchecked.Checks.expects, Outcome.expects]
        · simp [hk, Outcome.expects] at h
      · rfl
      · rfl
      · rfl
  | assignArray b vals =>
    simp only [Unchecked.Buf.step, Buffer.step, State.withObj] at h ⊢
    rcases ho : s.objs b with _ | o <;> simp only [ho] at h ⊢
    · by_cases hk : vals.length = o.size
      · simp [hk, Unchecked.Checks.expects, Outcome.expects]
      · simp [hk, Outcome.expects] at h
  | front b =>
    simp only [Unchecked.Buf.step, Buffer.step, State.withObj] at h ⊢
    rcases ho : s.objs b with _ | o <;> simp only [ho] at h ⊢
    · by_cases hk : o.size = 0
      · simp [hk, Outcome.expects] at h
      · simp [hk, Unchecked.Checks.expects, Outcome.expects]
  | back b =>
    simp only [Unchecked.Buf.step, Buffer.step, State.withObj] at h ⊢
    rcases ho : s.objs b with _ | o <;> simp only [ho] at h ⊢
    · by_cases hk : o.size = 0
      · simp [hk, Outcome.expects] at h
      · simp [hk, Unchecked.Checks.expects, Outcome.expects, Unchecked.Buf.lastIndex]
  | _ => rfl

/-- A program which violates no check does the same without checks: same responses, same state, same exceptions. -/
theorem C147_valid (limit : Nat) (s : State) (ops : List Op) (h : Buffer.run limit s ops ≠ .failFast) :
    Unchecked.Buf.run .off limit s ops = Buffer.run limit s ops := by
  induction ops generalizing s with
  | nil => rfl
  | cons op ops ih =>
    simp only [Unchecked.Buf.run, Buffer.run] at h ⊢
    have h1 : Buffer.step limit s op ≠ .failFast := by intro hc; rw [hc] at h; exact h rfl
    rw [step_valid limit s op h1]
    rcases hs : Buffer.step limit s op with r | m | _ | _ <;> rw [hs] at h
    · simp only [Outcome.bind_ok] at h ⊢
      rw [ih]
      intro hc; rw [hc] at h; exact h rfl
    · rfl
    · rfl
    · rfl

example : (Buffer.run 100 State.init [.constructArray 0 (.buffer none 2) [5, 6, 7], .assignArray 0 [1, 2, 3], .back 0]).mapVal (·.2) =
    .ok [.unit, .unit, .num 3] ∧
    (Buffer.run 100 State.init [.construct 0 (.buffer none 2) 0, .front 0]) = .failFast := ⟨rfl, rfl⟩

/-- What any program does without checks, violations and undefined behaviour included: `Spec/UncheckedBuffer.lean` says it without
pointers and heap. -/
theorem C147_refinement (tyOf : Nat → Ty) (limit : Nat) (ops : List Op) (hwf : ∀ op ∈ ops, op.wellFormed tyOf) :
    (Unchecked.Buf.run .off limit State.init ops).mapVal (·.2) = (Spec.RawBuf.run limit Spec.RawBuf.none ops).mapVal (·.2) := by
  have h := Unchecked.Buf.same_run limit ops (Unchecked.Buf.rrel_init tyOf) hwf
  rcases hr : Spec.RawBuf.run limit Spec.RawBuf.none ops with ⟨a', rs⟩ | m | _ | _ <;> rw [hr] at h <;> simp only at h
  · obtain ⟨s', h, _⟩ := h; rw [h]; rfl
  · rw [h]; rfl
  · rw [h]; rfl
  · rw [h]; rfl

private def rawTypes (_ : Nat) : Ty := .buffer none 4
/-- Assigning an array of another length, then copying. -/
private def rawOps : List Op :=
  [.constructArray 0 (.buffer none 4) [5, 6], .assignArray 0 [7, 8, 9], .size 0, .read 0 2, .copy 1 0, .back 1, .destroy 0, .read 1 0,
    .destroy 1]
example : (∀ op ∈ rawOps, op.wellFormed rawTypes) ∧ (Spec.RawBuf.run 100 Spec.RawBuf.none rawOps).mapVal (·.2) =
    .ok [.unit, .unit, .num 2, .num 9, .unit, .num 8, .unit, .num 7, .unit] := by
  constructor
  · intro op hop
    simp only [rawOps, List.mem_cons, List.not_mem_nil, or_false] at hop
    rcases hop with rfl | rfl | rfl | rfl | rfl | rfl | rfl | rfl | rfl <;>
      simp [Op.wellFormed, rawTypes, Ty.wellFormed, Ty.arrayOk, Ty.extent]
  · rfl

/-- Whatever checks are violated, storage is managed correctly as long as the program runs: every allocated block belongs to exactly one
existing buffer, buffers refer only to allocated blocks, and nothing is left when all buffers have been destroyed. -/
theorem C147_no_leak (tyOf : Nat → Ty) (limit : Nat) (ops : List Op) (hwf : ∀ op ∈ ops, op.wellFormed tyOf) (s : State) (rs : List Resp)
    (hrun : Unchecked.Buf.run .off limit State.init ops = .ok (s, rs)) :
    (∀ id, (s.heap.blocks id).isSome → ∃! b, ∃ o, s.objs b = some o ∧ o.data = .block id) ∧
    (∀ b o id, s.objs b = some o → o.data = .block id → (s.heap.blocks id).isSome) ∧
    ((∀ b, s.objs b = none) → ∀ id, s.heap.blocks id = none) := by
  have h := Unchecked.Buf.same_run limit ops (Unchecked.Buf.rrel_init tyOf) hwf
  rcases hr : Spec.RawBuf.run limit Spec.RawBuf.none ops with ⟨a', rs'⟩ | m | _ | _ <;> rw [hr] at h <;> simp only at h
  · obtain ⟨s', h, hR⟩ := h
    rw [h] at hrun
    obtain ⟨rfl, rfl⟩ : s' = s ∧ rs' = rs := by simpa using hrun
    refine ⟨?_, ?_, ?_⟩
    · intro id hid
      obtain ⟨b, o, ho, hd⟩ := hR.owned id hid
      refine ⟨b, ⟨o, ho, hd⟩, ?_⟩
      rintro b' ⟨o', ho', hd'⟩
      exact hR.inj b' b o' o id ho' ho hd' hd
    · intro b o id ho hd
      exact Unchecked.Buf.layout_valid (hR.good b o ho).2.2 id hd
    · intro hnone id
      rcases hb : s'.heap.blocks id with _ | cells
      · rfl
      · obtain ⟨b, o, ho, _⟩ := hR.owned id (by simp [hb])
        rw [hnone b] at ho; cases ho
  · rw [h] at hrun; cases hrun
  · rw [h] at hrun; cases hrun
  · rw [h] at hrun; cases hrun

example : ∃ s rs, Unchecked.Buf.run .off 100 State.init (rawOps.take 5) = .ok (s, rs) ∧ (s.objs 1).isSome := ⟨_, _, rfl, rfl⟩

/-! ### what becomes of the violations one by one -/

private theorem get_replicate (n i : Nat) : Spec.Buf.get (List.replicate n (.val 0)) i = if i < n then .ok 0 else .ub := by
  unfold Spec.Buf.get
  by_cases h : i < n
  · rw [List.getElem?_replicate, if_pos h, if_pos h]
  · rw [List.getElem?_replicate, if_neg h, if_neg h]

private theorem two_ops {ty : Ty} (hw : ty.wellFormed = true) {limit : Nat} {e : Int} (he1 : -2 ^ 63 ≤ e) (he2 : e < 2 ^ 64) (op : Op)
    (hop : op.wellFormed fun _ => ty) :
    (Unchecked.Buf.run .off limit State.init [.construct 0 ty e, op]).mapVal (·.2) =
      (Spec.RawBuf.run limit Spec.RawBuf.none [.construct 0 ty e, op]).mapVal (·.2) := by
  refine C147_refinement (fun _ => ty) limit _ ?_
  intro o ho
  simp only [List.mem_cons, List.not_mem_nil, or_false] at ho
  rcases ho with rfl | rfl
  · exact ⟨rfl, hw, he1, he2⟩
  · exact hop

/-- A buffer with static extent whose elements are in the object has that extent whatever extent is passed to the constructor, and its
elements are zero. -/
theorem C147_static_in_object (ty : Ty) (k : Nat) (hty : (∃ m, ty = .fixed (some k) m) ∨ ∃ m, ty = .buffer (some k) m ∧ (m < 0 ∨ (0 < m ∧ k ≤ m)))
    (hw : ty.wellFormed = true) (limit : Nat) (e : Int) (he1 : -2 ^ 63 ≤ e) (he2 : e < 2 ^ 64) (i : Nat) :
    (Unchecked.Buf.run .off limit State.init [.construct 0 ty e, .size 0]).mapVal (·.2) = .ok [.unit, .num k] ∧
    (Unchecked.Buf.run .off limit State.init [.construct 0 ty e, .read 0 i]).mapVal (·.2) =
      if i < k then .ok [.unit, .num 0] else .ub := by
  have hm : Spec.RawBuf.make limit ty (Spec.Buf.request e) = .ok ⟨ty, k, List.replicate k (.val 0)⟩ := by
    rcases hty with ⟨m, rfl⟩ | ⟨m, rfl, hm⟩
    · rfl
    · have hi : inObject (.buffer (some k) m) = true := by
        simp only [inObject, Bool.or_eq_true, decide_eq_true_eq, Bool.and_eq_true]; omega
      simp only [Spec.RawBuf.make, if_pos hi]
  rw [two_ops hw he1 he2 (.size 0) trivial, two_ops hw he1 he2 (.read 0 i) trivial]
  constructor
  · simp [Spec.RawBuf.run, Spec.RawBuf.step, Spec.RawBuf.create, Spec.RawBuf.none, Spec.RawBuf.use, Spec.RawBuf.set, hm]
  · simp only [Spec.RawBuf.run, Spec.RawBuf.step, Spec.RawBuf.create, Spec.RawBuf.none, Spec.RawBuf.use, Spec.RawBuf.set, hm, Outcome.bind_ok,
      if_true, get_replicate]
    by_cases hi : i < k
    · simp [hi]
    · simp [hi]

example : (Unchecked.Buf.run .off 100 State.init [.construct 0 (.buffer (some 3) (-1)) 7, .size 0]).mapVal (·.2) = .ok [.unit, .num 3] ∧
    Buffer.run 100 State.init [.construct 0 (.buffer (some 3) (-1)) 7, .size 0] = .failFast := ⟨rfl, rfl⟩

/-- A buffer with static extent `k` whose elements are on the heap gets as many elements as the constructor was asked for, so that `size()`
need not be the static extent. -/
theorem C147_static_on_heap (k : Nat) (m : Int) (hm : 0 ≤ m ∧ (m = 0 ∨ m < k)) (hw : (Ty.buffer (some k) m).wellFormed = true) (limit e : Nat) (he : e ≤ limit)
    (he2 : e < 2 ^ 64) (i : Nat) :
    (Unchecked.Buf.run .off limit State.init [.construct 0 (.buffer (some k) m) e, .size 0]).mapVal (·.2) = .ok [.unit, .num e] ∧
    (Unchecked.Buf.run .off limit State.init [.construct 0 (.buffer (some k) m) e, .read 0 i]).mapVal (·.2) =
      if i < e then .ok [.unit, .num 0] else .ub := by
  have hr : Spec.Buf.request e = e := by unfold Spec.Buf.request; split <;> omega
  have hk : Spec.RawBuf.make limit (.buffer (some k) m) e = .ok ⟨.buffer (some k) m, e, List.replicate e (.val 0)⟩ := by
    have hi : ¬ inObject (.buffer (some k) m) = true := by
      simp only [inObject, Bool.or_eq_true, decide_eq_true_eq, Bool.and_eq_true]; omega
    simp only [Spec.RawBuf.make, if_neg hi, Spec.RawBuf.allocated, if_neg (show ¬ limit < e by omega)]
  rw [two_ops hw (by omega) (by omega) (.size 0) trivial, two_ops hw (by omega) (by omega) (.read 0 i) trivial]
  constructor
  · simp [Spec.RawBuf.run, Spec.RawBuf.step, Spec.RawBuf.create, Spec.RawBuf.none, Spec.RawBuf.use, Spec.RawBuf.set, hr, hk]
  · simp only [Spec.RawBuf.run, Spec.RawBuf.step, Spec.RawBuf.create, Spec.RawBuf.none, Spec.RawBuf.use, Spec.RawBuf.set, hr, hk,
      Outcome.bind_ok, if_true, get_replicate]
    by_cases hi : i < e
    · simp [hi]
    · simp [hi]

example : (Unchecked.Buf.run .off 100 State.init [.construct 0 (.buffer (some 5) 3) 2, .size 0]).mapVal (·.2) = .ok [.unit, .num 2] ∧
    Unchecked.Buf.run .off 100 State.init [.construct 0 (.buffer (some 5) 3) 2, .read 0 4] = .ub := ⟨rfl, rfl⟩

/-- A `fixed_buffer` with room for `m` elements takes any extent: `size()` is what was asked for (negative extents modulo 2^64), elements
up to `m` can be read, whatever the size, and beyond that the behaviour is undefined. -/
theorem C147_fixed_dynamic (m : Nat) (hw : (Ty.fixed none m).wellFormed = true) (limit : Nat) (e : Int) (he1 : -2 ^ 63 ≤ e) (he2 : e < 2 ^ 64)
    (i : Nat) :
    (Unchecked.Buf.run .off limit State.init [.construct 0 (.fixed none m) e, .size 0]).mapVal (·.2) =
      .ok [.unit, .num (if 0 ≤ e then e else 2 ^ 64 + e)] ∧
    (Unchecked.Buf.run .off limit State.init [.construct 0 (.fixed none m) e, .read 0 i]).mapVal (·.2) =
      if i < m then .ok [.unit, .num 0] else .ub := by
  have hr : ((Spec.Buf.request e : Nat) : Int) = if 0 ≤ e then e else 2 ^ 64 + e := by unfold Spec.Buf.request; split <;> split <;> omega
  rw [two_ops hw he1 he2 (.size 0) trivial, two_ops hw he1 he2 (.read 0 i) trivial]
  constructor
  · simp only [Spec.RawBuf.run, Spec.RawBuf.step, Spec.RawBuf.create, Spec.RawBuf.none, Spec.RawBuf.use, Spec.RawBuf.set, Spec.RawBuf.make,
      Outcome.bind_ok, if_true, hr]
    rfl
  · simp only [Spec.RawBuf.run, Spec.RawBuf.step, Spec.RawBuf.create, Spec.RawBuf.none, Spec.RawBuf.use, Spec.RawBuf.set, Spec.RawBuf.make,
      Outcome.bind_ok, if_true, get_replicate]
    by_cases hi : i < m
    · simp [hi]
    · simp [hi]

example : (Unchecked.Buf.run .off 100 State.init [.construct 0 (.fixed none 4) 9, .size 0, .read 0 3]).mapVal (·.2) =
      .ok [.unit, .num 9, .num 0] ∧
    Unchecked.Buf.run .off 100 State.init [.construct 0 (.fixed none 4) 9, .back 0] = .ub ∧
    Buffer.run 100 State.init [.construct 0 (.fixed none 4) 9, .size 0] = .failFast := ⟨rfl, rfl, rfl⟩

/-- A `buffer` with dynamic extent throws `std::bad_alloc` for negative extents, because as numbers of elements these are huge; so this
violation is reported whether or not there are checks. -/
theorem C147_negative_extent (c : Unchecked.Checks) (m : Int) (hw : (Ty.buffer none m).wellFormed = true) (limit : Nat) (hl : limit < 2 ^ 63) (e : Int)
    (he1 : -2 ^ 63 ≤ e) (he2 : e < 0) (ops : List Op) :
    Unchecked.Buf.run c limit State.init (.construct 0 (.buffer none m) e :: ops) = .throw (str "bad_alloc") := by
  have hm := Unchecked.Buf.made limit State.init.heap (.buffer none m) (Spec.Buf.request e)
  have hr : Spec.Buf.request e = (2 ^ 64 + e).toNat := by unfold Spec.Buf.request; split <;> omega
  have hmk : Spec.RawBuf.make limit (.buffer none m) (Spec.Buf.request e) = .throw (str "bad_alloc") := by
    simp only [Ty.wellFormed, decide_eq_true_eq] at hw
    rw [hr]
    simp only [Spec.RawBuf.make]
    rw [if_neg (by omega), Spec.RawBuf.allocated, if_pos (by omega)]
  rw [hmk] at hm
  have hm : construct limit State.init.heap (.buffer none m) _ = .throw _ := hm
  have h1 : Unchecked.Buf.constructExtent c limit State.init.heap (.buffer none m) e = .throw (str "bad_alloc") := by
    unfold Unchecked.Buf.constructExtent
    rw [wrap_request e he1 (by omega), hm]
    rfl
  have h2 : State.init.objs 0 = none := rfl
  simp only [Unchecked.Buf.run, Unchecked.Buf.step, h2, h1]
  rfl

example : (Unchecked.Buf.run .off 100 State.init [.construct 0 (.buffer none 8) (-1), .size 0]) = .throw (str "bad_alloc") := by
  exact C147_negative_extent .off 8 rfl 100 (by decide) (-1) (by decide) (by decide) _

/-- Assigning an array of another length to a buffer with `cells` accessible elements: the size stays, the values go to the first
elements, and too many of them for the storage are undefined. -/
theorem C147_array_assignment (m : Int) (hw : (Ty.buffer none m).wellFormed = true) (limit : Nat) (us vs : List Int) (hu : us.length ≤ limit)
    (hl1 : us.length < 2 ^ 63) (i : Nat) (hi : i < vs.length) :
    (Unchecked.Buf.run .off limit State.init [.constructArray 0 (.buffer none m) us, .assignArray 0 vs, .size 0, .read 0 i]).mapVal (·.2) =
      if vs.length ≤ us.length ∨ (vs.length ≤ m ∧ us.length ≤ m) then .ok [.unit, .unit, .num us.length, .num vs[i]] else .ub := by
  rw [C147_refinement (fun _ => .buffer none m)]
  swap
  · intro op hop
    simp only [List.mem_cons, List.not_mem_nil, or_false] at hop
    rcases hop with rfl | rfl | rfl | rfl
    · exact ⟨rfl, hw, by simp [Ty.arrayOk, Ty.extent], hl1⟩
    · simp [Op.wellFormed, Ty.arrayOk, Ty.extent]
    · trivial
    · trivial
  obtain ⟨cells, hmk, hlen⟩ : ∃ cells : List Cell, Spec.RawBuf.make limit (.buffer none m) us.length = .ok ⟨.buffer none m, us.length, cells⟩ ∧
      cells.length = if us.length ≤ m.toNat then m.toNat else us.length := by
    simp only [Spec.RawBuf.make, Spec.RawBuf.allocated, if_neg (show ¬ limit < us.length by omega)]
    split
    · exact ⟨_, rfl, by simp⟩
    · exact ⟨_, rfl, by simp⟩
  have hle : us.length ≤ cells.length := by rw [hlen]; split <;> omega
  have hcells : (us.map Cell.val ++ cells.drop us.length).length = cells.length := by simp; omega
  simp only [Spec.RawBuf.run, Spec.RawBuf.step, Spec.RawBuf.create, Spec.RawBuf.none, Spec.RawBuf.use, Spec.RawBuf.set, hmk, Spec.RawBuf.fill,
    if_pos hle, Outcome.bind_ok, if_true, hcells]
  by_cases hv : vs.length ≤ cells.length
  · have hc : vs.length ≤ us.length ∨ (vs.length ≤ m ∧ us.length ≤ m) := by rw [hlen] at hv; split at hv <;> omega
    rw [if_pos hv, if_pos hc]
    have hg : Spec.Buf.get (vs.map Cell.val ++ (us.map Cell.val ++ cells.drop us.length).drop vs.length) i = .ok vs[i] := by
      unfold Spec.Buf.get
      rw [List.getElem?_append_left (by simpa using hi), List.getElem?_map, List.getElem?_eq_getElem hi]
      rfl
    simp only [Outcome.bind_ok, Spec.RawBuf.set, if_true, hg]
    rfl
  · have hc : ¬ (vs.length ≤ us.length ∨ (vs.length ≤ m ∧ us.length ≤ m)) := by rw [hlen] at hv; split at hv <;> omega
    rw [if_neg hv, if_neg hc]
    rfl

example : (Unchecked.Buf.run .off 100 State.init [.constructArray 0 (.buffer none 4) [5, 6], .assignArray 0 [7, 8, 9], .size 0, .read 0 2]).mapVal
      (·.2) = .ok [.unit, .unit, .num 2, .num 9] ∧
    Unchecked.Buf.run .off 100 State.init [.constructArray 0 (.buffer none 1) [5, 6], .assignArray 0 [7, 8, 9]] = .ub := ⟨rfl, rfl⟩

/-- The ends of an empty buffer: `back()` is undefined for every kind of buffer; `front()` is undefined except that a `fixed_buffer` with
room for elements returns the first of them. -/
theorem C147_ends_of_empty (ty : Ty) (hw : ty.wellFormed = true) (hx : ty.extent = none ∨ ty.extent = some 0) (limit : Nat) :
    (Unchecked.Buf.run .off limit State.init [.construct 0 ty 0, .back 0]).mapVal (·.2) = .ub ∧
    (Unchecked.Buf.run .off limit State.init [.construct 0 ty 0, .front 0]).mapVal (·.2) =
      match ty with
      | .fixed none (_ + 1) => .ok [.unit, .num 0]
      | _ => .ub := by
  rw [two_ops hw (by decide) (by decide) (.back 0) trivial, two_ops hw (by decide) (by decide) (.front 0) trivial]
  have hr : Spec.Buf.request 0 = 0 := rfl
  simp only [Spec.RawBuf.run, Spec.RawBuf.step, Spec.RawBuf.create, Spec.RawBuf.none, Spec.RawBuf.use, hr]
  rcases ty with ⟨_ | k, m⟩ | ⟨_ | k, m⟩
  · simp only [Spec.RawBuf.make, Nat.zero_le, if_true, Outcome.bind_ok]
    refine ⟨rfl, ?_⟩
    rcases m.toNat with _ | j <;> rfl
  · have hk : k = 0 := by rcases hx with h | h <;> simp [Ty.extent] at h; exact h
    subst hk
    simp only [Spec.RawBuf.make, Spec.RawBuf.allocated, Nat.not_lt_zero, if_false]
    split <;> exact ⟨rfl, rfl⟩
  · cases m <;> exact ⟨rfl, rfl⟩
  · have hk : k = 0 := by rcases hx with h | h <;> simp [Ty.extent] at h; exact h
    subst hk
    exact ⟨rfl, rfl⟩

example : (Unchecked.Buf.run .off 100 State.init [.construct 0 (.fixed none 4) 0, .front 0]).mapVal (·.2) = .ok [.unit, .num 0] ∧
    (Ty.fixed none 4).wellFormed = true ∧ (Ty.fixed none 4).extent = none := ⟨rfl, rfl, rfl⟩

end Makeshift.Props
