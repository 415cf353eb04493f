import Verif.Lemmas.BufferSim

/-!
# Properties of `buffer` and `fixed_buffer`
-/

namespace Makeshift.Props

open Makeshift.Buffer

/-! ## C55: storage discipline -/

/-- Whatever a program does with any number of buffers - as long as it compiles and, according to the specification without storage,
does not use buffers which do not exist, indices out of range or elements without value, nor constructs a `fixed_buffer` from too long
an array - the operations have exactly the specified outcomes.  In particular no operation accesses storage which is not
allocated, nor releases storage twice, because that would be undefined in the model. -/
theorem C55_refinement (tyOf : Nat → Ty) (limit : Nat) (ops : List Op) (hwf : ∀ op ∈ ops, op.wellFormed tyOf)
    (hok : Spec.Buf.run limit Spec.Buf.none ops ≠ .ub) :
    (run limit State.init ops).mapVal (·.2) = (Spec.Buf.run limit Spec.Buf.none ops).mapVal (·.2) := by
  have h := sim_run limit ops (rel_init tyOf) hwf
  rcases hr : Spec.Buf.run limit Spec.Buf.none ops with ⟨a', rs⟩ | m | _ | _ <;> rw [hr] at h hok <;> simp only at h
  · obtain ⟨s', h, _⟩ := h; rw [h]; rfl
  · rw [h]; rfl
  · rw [h]; rfl
  · exact absurd rfl hok

/-- The variables of the sample program: buffers with dynamic extent and room for two elements. -/
def sampleTypes (_ : Nat) : Ty := .buffer none 2

/-- A program which makes a buffer, copies it, writes to the copy, and destroys both. -/
def sampleOps : List Op :=
  [.constructArray 0 (.buffer none 2) [5, 6, 7], .copy 1 0, .write 1 0 9, .read 0 0, .read 1 0, .back 1, .destroy 0,
    .read 1 2, .size 1, .destroy 1]

example : (∀ op ∈ sampleOps, op.wellFormed sampleTypes) ∧
    (Spec.Buf.run 100 Spec.Buf.none sampleOps).mapVal (·.2) =
      .ok [.unit, .unit, .unit, .num 5, .num 9, .num 7, .unit, .num 7, .num 3, .unit] := by
  constructor
  · intro op hop
    simp only [sampleOps, List.mem_cons, List.not_mem_nil, or_false] at hop
    rcases hop with rfl | rfl | rfl | rfl | rfl | rfl | rfl | rfl | rfl | rfl <;>
      simp [Op.wellFormed, sampleTypes, Ty.wellFormed, Ty.arrayOk, Ty.extent]
  · rfl

/-- Every allocated block belongs to exactly one existing buffer; when all buffers have been destroyed, no block is left. -/
theorem C55_no_leak (tyOf : Nat → Ty) (limit : Nat) (ops : List Op) (hwf : ∀ op ∈ ops, op.wellFormed tyOf)
    (hok : Spec.Buf.run limit Spec.Buf.none ops ≠ .ub) (s : State) (rs : List Resp)
    (hrun : run limit State.init ops = .ok (s, rs)) :
    (∀ id, (s.heap.blocks id).isSome → ∃! b, ∃ o, s.objs b = some o ∧ o.data = .block id) ∧
    (∀ b o id, s.objs b = some o → o.data = .block id → (s.heap.blocks id).isSome) ∧
    ((∀ b, s.objs b = none) → ∀ id, s.heap.blocks id = none) := by
  have h := sim_run limit ops (rel_init tyOf) hwf
  rcases hr : Spec.Buf.run limit Spec.Buf.none ops with ⟨a', rs'⟩ | m | _ | _ <;> rw [hr] at h hok <;> simp only at h
  · obtain ⟨s', h, hR⟩ := h
    rw [h] at hrun
    obtain ⟨rfl, rfl⟩ : s' = s ∧ rs' = rs := by simpa using hrun
    refine ⟨?_, ?_, ?_⟩
    · intro id hid
      obtain ⟨b, o, ho, hd⟩ := hR.owned id hid
      refine ⟨b, ⟨o, ho, hd⟩, ?_⟩
      rintro b' ⟨o', ho', hd'⟩
      exact hR.inj b' b o' o id ho' ho hd' hd
    · intro b o id ho hd
      have hv := hR.vars b
      rw [ho] at hv
      rcases ha : a' b with _ | ⟨ty, elems⟩ <;> rw [ha] at hv
      · exact hv.elim
      · exact shape_valid hv.2.2.1 id hd
    · intro hnone id
      rcases hb : s'.heap.blocks id with _ | cells
      · rfl
      · obtain ⟨b, o, ho, _⟩ := hR.owned id (by simp [hb])
        rw [hnone b] at ho; cases ho
  · rw [h] at hrun; cases hrun
  · rw [h] at hrun; cases hrun
  · exact absurd rfl hok

/-- Storage of different buffers is disjoint: a write to a buffer does not change what is read from another one. -/
theorem C55_independent (tyOf : Nat → Ty) (limit : Nat) (ops : List Op) (hwf : ∀ op ∈ ops, op.wellFormed tyOf)
    (hok : Spec.Buf.run limit Spec.Buf.none ops ≠ .ub) (s : State) (rs : List Resp)
    (hrun : run limit State.init ops = .ok (s, rs)) (b b' i j : Nat) (v : Int) (hne : b' ≠ b) (s' : State) (r : Resp)
    (hw : step limit s (.write b i v) = .ok (s', r)) :
    (step limit s' (.read b' j)).mapVal (·.2) = (step limit s (.read b' j)).mapVal (·.2) := by
  have h := sim_run limit ops (rel_init tyOf) hwf
  rcases hr : Spec.Buf.run limit Spec.Buf.none ops with ⟨a', rs'⟩ | m | _ | _ <;> rw [hr] at h hok <;> simp only at h
  · obtain ⟨s2, h, hR⟩ := h
    rw [h] at hrun
    obtain ⟨rfl, rfl⟩ : s2 = s ∧ rs' = rs := by simpa using hrun
    rcases ho : s2.objs b with _ | o
    · simp [step, State.withObj, ho] at hw
    have hst : ∃ h' o', store s2.heap o i v = .ok (h', o') ∧ s' = ⟨h', update s2.objs b (some o')⟩ := by
      simp only [step, withObj_some ho] at hw
      rcases hst : store s2.heap o i v with ⟨h', o'⟩ | m | _ | _ <;> rw [hst] at hw <;> simp at hw
      exact ⟨h', o', rfl, hw.1.symm⟩
    obtain ⟨h', o', hst, rfl⟩ := hst
    have hblk : ∀ id, o.data ≠ .block id → h'.blocks id = s2.heap.blocks id := by
      intro id hid
      unfold store at hst
      rcases hd : o.data with _ | _ | k <;> rw [hd] at hst <;> simp only at hst
      · cases hst
      · split at hst
        · cases hst; rfl
        · cases hst
      · rcases hc : s2.heap.blocks k with _ | cells <;> rw [hc] at hst <;> simp only at hst
        · cases hst
        · split at hst
          · cases hst
            have : id ≠ k := by rintro rfl; exact hid hd
            simp [update, this]
          · cases hst
    rcases ho' : s2.objs b' with _ | o2
    · simp [step, State.withObj, update, hne, ho']
    · have hl : load h' o2 j = load s2.heap o2 j := by
        rw [load_eq, load_eq, view_frame]
        intro id hid
        apply hblk
        intro hd
        exact hne (hR.inj b' b o2 o id ho' ho hid hd)
      simp only [step, State.withObj, update, hne, if_false, ho', hl]
      rcases load s2.heap o2 j <;> rfl
  · rw [h] at hrun; cases hrun
  · rw [h] at hrun; cases hrun
  · exact absurd rfl hok

example : ∃ s rs s' r, run 100 State.init (sampleOps.take 2) = .ok (s, rs) ∧
    step 100 s (.write 1 0 9) = .ok (s', r) ∧ (step 100 s' (.read 0 0)).mapVal (·.2) = .ok (.num 5) :=
  ⟨_, _, _, _, rfl, rfl, rfl⟩

/-- A buffer construction uses the heap exactly when the documentation says so: with a dynamic extent, when there are more elements
than `MaxStaticBufferExtent` (counting a negative maximum as zero); with a static extent, when the maximum is not negative and
less than the extent (and there are any elements). -/
theorem C55_allocates_iff (limit : Nat) (h h' : Heap) (ty : Ty) (e : Int) (o : Obj) (he1 : -2 ^ 63 ≤ e) (he2 : e < 2 ^ 64)
    (hc : constructExtent limit h ty e = .ok (h', o)) :
    (∃ id, o.data = .block id) ↔
      match ty with
      | .buffer none m => e > 0 ∧ e > m
      | .buffer (some k) m => 0 ≤ m ∧ m < k
      | .fixed _ _ => False := by
  unfold constructExtent at hc
  rw [wrap_request e he1 he2] at hc
  have hok : Spec.Buf.extentOk ty e := by
    rw [← checkExtent_iff]
    rcases hcc : checkExtent ty e with _ | _
    · rw [hcc] at hc
      rcases hcon : construct limit h ty (Spec.Buf.request e) with r | m | _ | _ <;> rw [hcon] at hc <;> simp at hc
    · rfl
  have h0 := extentOk_nonneg hok
  have hreq : Spec.Buf.request e = e.toNat := by simp [Spec.Buf.request, show ¬ e < 0 by omega]
  rw [hreq] at hc
  by_cases hal : Spec.Buf.allocates ty e.toNat ∧ limit < e.toNat
  · rw [construct_throw limit h ty _ hal.1 hal.2] at hc; cases hc
  obtain ⟨h'', o', hcon, hty, _, hsh⟩ := construct_ok limit h ty e.toNat hal
  obtain ⟨hsh, hsz, _⟩ := hsh (extentOk_good hok)
  rw [hcon, (checkExtent_iff ty e).2 hok] at hc
  obtain ⟨rfl, rfl⟩ : h'' = h' ∧ o' = o := by simpa using hc
  unfold Shape at hsh
  rw [hty] at hsh
  rcases ty with ⟨_ | k, m⟩ | ⟨_ | k, m⟩
  · rw [kind_buffer_none] at hsh
    by_cases hm : m ≤ 0
    · simp only [hm, if_true] at hsh
      rcases hsh with ⟨h1, h2⟩ | ⟨id, cells, h1, h2, h3, h4⟩
      · simp only [h1]; constructor
        · rintro ⟨_, ⟨⟩⟩
        · intro; omega
      · simp only [h1]; constructor
        · intro; omega
        · intro; exact ⟨_, rfl⟩
    · simp only [hm, if_false] at hsh
      rcases hsh with ⟨h1, h2, h3⟩ | ⟨id, cells, h1, h2, h3, h4⟩
      · simp only [h1]; constructor
        · rintro ⟨_, ⟨⟩⟩
        · intro; omega
      · simp only [h1]; constructor
        · intro; omega
        · intro; exact ⟨_, rfl⟩
  · simp only [Spec.Buf.extentOk] at hok
    rw [kind_buffer_some] at hsh
    by_cases h1 : m < 0
    · simp only [h1, if_true] at hsh
      simp only [hsh.1]; constructor
      · rintro ⟨_, ⟨⟩⟩
      · intro; omega
    · by_cases h2 : m = 0
      · simp only [h2] at hsh
        rcases hsh with ⟨h1, h2⟩ | ⟨id, cells, h1, h2, h3, h4⟩
        · simp only [h1]; constructor
          · rintro ⟨_, ⟨⟩⟩
          · intro; omega
        · simp only [h1]; constructor
          · intro; omega
          · intro; exact ⟨_, rfl⟩
      · by_cases h3 : (k : Int) ≤ m
        · simp only [h1, h2, h3, if_true, if_false] at hsh
          simp only [hsh.1]; constructor
          · rintro ⟨_, ⟨⟩⟩
          · intro; omega
        · simp only [h1, h2, h3, if_false] at hsh
          rcases hsh with ⟨h1, h2⟩ | ⟨id, cells, h1, h2, h3, h4⟩
          · simp only [h1]; constructor
            · rintro ⟨_, ⟨⟩⟩
            · intro; omega
          · simp only [h1]; constructor
            · intro; omega
            · intro; exact ⟨_, rfl⟩
  · have : o'.data = .own := hsh.1
    simp [this]
  · have : o'.data = .own := hsh.1
    simp [this]

example : ∃ h' o, constructExtent 100 State.init.heap (.buffer none 16) 17 = .ok (h', o) ∧ ∃ id, o.data = .block id :=
  ⟨_, _, rfl, _, rfl⟩
example : ∃ h' o, constructExtent 100 State.init.heap (.buffer none 16) 16 = .ok (h', o) ∧ o.data = .own := ⟨_, _, rfl, rfl⟩

/-- Copy assignment compiles exactly for buffers which never use the heap and whose size does not decide on the storage. -/
theorem C55_copy_assignable_iff (ty : Ty) :
    ty.copyAssignable = true ↔
      match ty with
      | .buffer none _ => False
      | .buffer (some k) m => m < 0 ∨ (0 < m ∧ (k : Int) ≤ m)
      | .fixed _ _ => True := by
  rcases ty with ⟨_ | k, m⟩ | ⟨_ | k, m⟩ <;> unfold Ty.copyAssignable
  · rw [kind_buffer_none]; by_cases hm : m ≤ 0 <;> simp [hm]
  · rw [kind_buffer_some]
    by_cases h1 : m < 0
    · simp [h1]
    · by_cases h2 : m = 0
      · simp [h2]
      · by_cases h3 : (k : Int) ≤ m
        · simp [h1, h2, h3]; omega
        · simp [h1, h2, h3]
  · simp [Ty.kind]
  · simp [Ty.kind]

/-! ## C56: initialisation -/

/-- The elements of a buffer which has been constructed from an extent can be read and are zero - unless the extent is dynamic and
the elements are stored in place. -/
theorem C56_value_initialised_partial (limit : Nat) (s s' : State) (b : Nat) (ty : Ty) (e : Int) (r : Resp)
    (he1 : -2 ^ 63 ≤ e) (he2 : e < 2 ^ 64) (hc : step limit s (.construct b ty e) = .ok (s', r))
    (hheap : ∀ m, ty = .buffer none m → e > m) (i : Nat) (hi : (i : Int) < e) :
    step limit s' (.read b i) = .ok (s', .num 0) := by
  rcases hb : s.objs b with _ | o0
  swap
  · simp [step, hb] at hc
  simp only [step, hb] at hc
  unfold constructExtent at hc
  rw [wrap_request e he1 he2] at hc
  have hok : Spec.Buf.extentOk ty e := by
    rw [← checkExtent_iff]
    rcases hcc : checkExtent ty e with _ | _
    · rw [hcc] at hc
      rcases hcon : construct limit s.heap ty (Spec.Buf.request e) with r | m | _ | _ <;> rw [hcon] at hc <;> simp at hc
    · rfl
  have h0 := extentOk_nonneg hok
  have hreq : Spec.Buf.request e = e.toNat := by simp [Spec.Buf.request, show ¬ e < 0 by omega]
  rw [hreq] at hc
  by_cases hal : Spec.Buf.allocates ty e.toNat ∧ limit < e.toNat
  · rw [construct_throw limit _ ty _ hal.1 hal.2] at hc; cases hc
  obtain ⟨h', o, hcon, hty, _, hsh⟩ := construct_ok limit s.heap ty e.toNat hal
  obtain ⟨hsh, hsz, hview⟩ := hsh (extentOk_good hok)
  rw [hcon, (checkExtent_iff ty e).2 hok] at hc
  obtain ⟨rfl, rfl⟩ : (⟨h', update s.objs b (some o)⟩ : State) = s' ∧ Resp.unit = r := by simpa using hc
  have hun : ¬ Spec.Buf.leftUninit ty e.toNat := by
    rcases ty with ⟨_ | k, m⟩ | ⟨_ | k, m⟩ <;> simp only [Spec.Buf.leftUninit, not_false_iff]
    have := hheap m rfl; omega
  rw [if_neg hun] at hview
  have hl : load h' o i = .ok 0 := by
    rw [load_eq]
    apply get_ok_of_map (List.replicate e.toNat 0) _ e.toNat (by simp [hview])
    rw [List.getElem?_replicate, if_pos (by omega)]
  simp only [step, State.withObj, update, if_true, hl, Outcome.bind_ok]

example : ∃ s r, step 100 State.init (.construct 0 (.buffer none 16) 17) = .ok (s, r) ∧
    step 100 s (.read 0 3) = .ok (s, .num 0) := ⟨_, _, rfl, rfl⟩
example : ∃ s r, step 100 State.init (.construct 0 (.fixed none 16) 7) = .ok (s, r) ∧
    step 100 s (.read 0 3) = .ok (s, .num 0) := ⟨_, _, rfl, rfl⟩

/-- With a dynamic extent and in-place storage no element has a value: reading any of them is undefined, and so is copying
the buffer. -/
theorem C56_uninitialised (limit : Nat) (s : State) (b : Nat) (m e : Int) (hb : s.objs b = none) (he : 0 ≤ e) (hem : e ≤ m)
    (hm : m < 2 ^ 63) :
    ∃ s', step limit s (.construct b (.buffer none m) e) = .ok (s', .unit) ∧
      (∀ i, step limit s' (.read b i) = .ub) ∧
      (0 < e → ∀ b', s'.objs b' = none → step limit s' (.copy b' b) = .ub) := by
  have hw := wrap_request e (by omega) (by omega)
  have hreq : Spec.Buf.request e = e.toNat := by simp [Spec.Buf.request, show ¬ e < 0 by omega]
  have hchk : checkExtent (.buffer none m) e = true := by simp [checkExtent, he]
  have hk := kind_buffer_none m
  by_cases hm0 : m ≤ 0
  · have hme : m = 0 := by omega
    have hee : e = 0 := by omega
    subst hme hee
    rw [if_pos (by omega)] at hk
    refine ⟨_, by simp only [step, hb, constructExtent, hw, hreq, construct, hk, hchk]; rfl, ?_, by omega⟩
    intro i
    simp [step, State.withObj, update, load]
  · rw [if_neg hm0] at hk
    have hle : e.toNat ≤ m.toNat := by omega
    refine ⟨_, by simp only [step, hb, constructExtent, hw, hreq, construct, hk, hchk, hle]; rfl, ?_, ?_⟩
    · intro i
      simp only [step, State.withObj, update, if_true, load, List.getElem?_replicate]
      by_cases hi : i < m.toNat <;> simp [hi]
    · intro hpos b' hb'
      have hn : e.toNat = (e.toNat - 1) + 1 := by omega
      simp only [step]
      simp only [State.withObj, update, if_true, copyConstruct, hk, construct, hle, Outcome.bind_ok]
      rw [hn]
      simp only [copyElems, load, List.getElem?_replicate]
      by_cases hi : 0 < m.toNat <;> simp [hi] <;> split <;> rfl

example : ∃ s, step 100 State.init (.construct 0 (.buffer none 16) 16) = .ok (s, .unit) ∧ step 100 s (.read 0 3) = .ub :=
  ⟨_, rfl, rfl⟩

/-! ## C57: capacity of `fixed_buffer` -/

/-- Construction of a `fixed_buffer` from an extent: exactly the acceptable extents are accepted, all others fail fast. -/
theorem C57_extent (limit : Nat) (h : Heap) (ext : Option Nat) (max : Nat) (e : Int) (hwf : (Ty.fixed ext max).wellFormed = true)
    (he1 : -2 ^ 63 ≤ e) (he2 : e < 2 ^ 64) :
    (if 0 ≤ e ∧ e ≤ max ∧ (∀ n : Nat, ext = some n → e = n) then
      ∃ o, constructExtent limit h (.fixed ext max) e = .ok (h, o) ∧ (o.size : Int) = e
    else constructExtent limit h (.fixed ext max) e = .failFast) := by
  have hw := wrap_request e he1 he2
  rcases ext with _ | n
  · simp only [reduceCtorEq, false_implies, implies_true, and_true]
    by_cases hc : 0 ≤ e ∧ e ≤ max
    · rw [if_pos hc]
      refine ⟨_, by simp only [constructExtent, construct, Ty.kind, checkExtent, hc]; rfl, ?_⟩
      simp only [hw, Spec.Buf.request, show ¬ e < 0 by omega, if_false]
      omega
    · rw [if_neg hc]
      simp only [constructExtent, construct, Ty.kind, checkExtent, Outcome.bind_ok]
      have : (decide (e ≥ 0) && decide (e ≤ (max : Int))) = false := by simpa using hc
      rw [this]; rfl
  · simp only [Ty.wellFormed, Bool.and_eq_true, decide_eq_true_eq] at hwf
    by_cases hc : e = n
    · rw [if_pos ⟨by omega, by omega, by rintro _ ⟨⟩; exact hc⟩]
      exact ⟨_, by simp only [constructExtent, construct, Ty.kind, checkExtent, hc]; simp; rfl, hc.symm⟩
    · rw [if_neg (fun h => hc (h.2.2 n rfl))]
      simp [constructExtent, construct, Ty.kind, checkExtent, hc]

example : (Ty.fixed none 16).wellFormed = true ∧ constructExtent 0 State.init.heap (.fixed none 16) 17 = .failFast ∧
    constructExtent 0 State.init.heap (.fixed none 16) (-1) = .failFast ∧
    constructExtent 0 State.init.heap (.fixed (some 3) 16) 4 = .failFast ∧ (Ty.fixed (some 3) 3).wellFormed = true ∧
    (Ty.fixed (some 4) 3).wellFormed = false := ⟨rfl, rfl, rfl, rfl, rfl, rfl⟩

/-- In every history a `fixed_buffer` holds at most `MaxBufferExtent` elements, and exactly `Extent` if that is static.  (Missing:
histories which construct a `fixed_buffer` from too long an array, see `C57_array_overflow`.) -/
theorem C57_capacity_partial (tyOf : Nat → Ty) (limit : Nat) (ops : List Op) (hwf : ∀ op ∈ ops, op.wellFormed tyOf)
    (hok : Spec.Buf.run limit Spec.Buf.none ops ≠ .ub) (s : State) (rs : List Resp)
    (hrun : run limit State.init ops = .ok (s, rs)) (b : Nat) (ext : Option Nat) (max : Nat) (hty : tyOf b = .fixed ext max)
    (hw : (tyOf b).wellFormed = true) (s' : State) (n : Int) (hn : step limit s (.size b) = .ok (s', .num n)) :
    n ≤ max ∧ ∀ k : Nat, ext = some k → n = k := by
  have h := sim_run limit ops (rel_init tyOf) hwf
  rcases hr : Spec.Buf.run limit Spec.Buf.none ops with ⟨a', rs'⟩ | m | _ | _ <;> rw [hr] at h hok <;> simp only at h
  · obtain ⟨s2, h, hR⟩ := h
    rw [h] at hrun
    obtain ⟨rfl, rfl⟩ : s2 = s ∧ rs' = rs := by simpa using hrun
    rcases ha : a' b with _ | ⟨ty, elems⟩
    · simp [step, State.withObj, rel_none hR ha] at hn
    · obtain ⟨o, ho, hoty, _, hsh, _, hg⟩ := rel_some hR ha
      simp only [step, withObj_some ho] at hn
      have hn : (o.size : Int) = n := by simpa using congrArg (fun x => match x with | .ok (_, .num k) => k | _ => 0) hn
      rw [hty] at hg hw
      rcases ext with _ | k <;> simp only [GoodSize] at hg
      · exact ⟨by omega, by simp⟩
      · simp only [Ty.wellFormed, Bool.and_eq_true, decide_eq_true_eq] at hw
        exact ⟨by omega, by rintro _ ⟨⟩; omega⟩
  · rw [h] at hrun; cases hrun
  · rw [h] at hrun; cases hrun
  · exact absurd rfl hok

/-- A `fixed_buffer` with dynamic extent does not check the length of the array it is constructed from: too long an array is written
beyond the storage. -/
theorem C57_array_overflow (limit : Nat) (h : Heap) (max : Nat) (vals : List Int) (hlong : max < vals.length) :
    constructArray limit h (.fixed none max) vals = .ub := by
  simp only [constructArray, construct, Ty.kind, Outcome.bind_ok]
  have key : ∀ (vs : List Int) (i : Nat) (cells : List Cell), cells.length = max → i ≤ max → max < i + vs.length →
      storeAll h ⟨.fixed none max, vals.length, .own, cells⟩ i vs = .ub := by
    intro vs
    induction vs with
    | nil => intro i cells _ h1 h2; simp at h2; omega
    | cons v vs ih =>
      intro i cells hl h1 h2
      by_cases hi : i < cells.length
      · simp only [storeAll, store, hi, if_true, Outcome.bind_ok]
        exact ih (i + 1) _ (by simpa using hl) (by omega) (by simp at h2; omega)
      · simp [storeAll, store, hi]
  exact key vals 0 _ (by simp) (by omega) (by omega)

example : (2 : Nat) < [1, 2, 3].length ∧ constructArray 0 State.init.heap (.fixed none 2) [1, 2, 3] = .ub := ⟨by decide, rfl⟩

/-! ## C66: extents passed to `buffer` -/

/-- Outcome of the construction of a `buffer` (or `fixed_buffer`) from an extent, in full: the allocation comes first. -/
theorem C66_outcome (limit : Nat) (h : Heap) (ty : Ty) (e : Int) (he1 : -2 ^ 63 ≤ e) (he2 : e < 2 ^ 64) :
    (constructExtent limit h ty e).mapVal (fun _ => ()) =
      if Spec.Buf.allocates ty (Spec.Buf.request e) ∧ limit < Spec.Buf.request e then .throw (str "bad_alloc")
      else if Spec.Buf.extentOk ty e then .ok () else .failFast := by
  unfold constructExtent
  rw [wrap_request e he1 he2]
  by_cases hal : Spec.Buf.allocates ty (Spec.Buf.request e) ∧ limit < Spec.Buf.request e
  · rw [if_pos hal, construct_throw limit h ty _ hal.1 hal.2]; rfl
  · obtain ⟨h', o, hcon, _⟩ := construct_ok limit h ty _ hal
    rw [if_neg hal, hcon]
    by_cases hok : Spec.Buf.extentOk ty e
    · rw [if_pos hok, (checkExtent_iff ty e).2 hok]; rfl
    · rw [if_neg hok]
      have : checkExtent ty e = false := by
        rcases hcc : checkExtent ty e with _ | _
        · rfl
        · exact absurd ((checkExtent_iff ty e).1 hcc) hok
      rw [this]; rfl

/-- The precondition of a `buffer` with static extent and in-place storage is checked: the construction succeeds iff the extents
agree and fails fast otherwise.  (Missing: buffers which may use the heap, where the check comes after the allocation.) -/
theorem C66_checked_partial (limit : Nat) (h : Heap) (k : Nat) (m e : Int) (hin : m < 0 ∨ (0 < m ∧ (k : Int) ≤ m))
    (he1 : -2 ^ 63 ≤ e) (he2 : e < 2 ^ 64) :
    (constructExtent limit h (.buffer (some k) m) e).mapVal (fun _ => ()) = if e = k then .ok () else .failFast := by
  rw [C66_outcome limit h _ e he1 he2, if_neg]
  · by_cases h : e = k <;> simp [Spec.Buf.extentOk, h]
  · simp only [Spec.Buf.allocates]; omega

example : constructExtent 0 State.init.heap (.buffer (some 3) (-1)) 4 = .failFast := rfl

/-- A negative extent passed to a `buffer` with dynamic extent is not reported as a violated precondition: the attempt to allocate
about `2^64` elements throws first (no implementation can allocate `2^63` elements). -/
theorem C66_negative_throws (limit : Nat) (hlim : limit < 2 ^ 63) (h : Heap) (m e : Int) (hm : m < 2 ^ 63)
    (he1 : -2 ^ 63 ≤ e) (he2 : e < 0) :
    constructExtent limit h (.buffer none m) e = .throw (str "bad_alloc") := by
  unfold constructExtent
  rw [wrap_request e he1 (by omega)]
  have hreq : Spec.Buf.request e = (2 ^ 64 + e).toNat := by simp [Spec.Buf.request, he2]
  rw [construct_throw limit h]
  · rfl
  · simp only [Spec.Buf.allocates, hreq]; omega
  · rw [hreq]; omega

example : constructExtent 1000 State.init.heap (.buffer none 16) (-1) = .throw (str "bad_alloc") :=
  C66_negative_throws 1000 (by decide) _ 16 (-1) (by decide) (by decide) (by decide)

end Makeshift.Props
