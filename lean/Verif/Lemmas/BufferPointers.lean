import Verif.Lemmas.BufferSim
import Verif.Spec.BufferPointers

/-!
# Lemmas about pointers into buffers
-/

namespace Makeshift.BufPtr

open Makeshift.Buffer

/-! ## What operations on buffers do to arrays -/

/-- Blocks which were released stay so. -/
def Grow (h h' : Heap) : Prop := h.next ≤ h'.next ∧ ∀ id, id < h.next → h.blocks id = none → h'.blocks id = none

theorem Grow.refl (h : Heap) : Grow h h := ⟨Nat.le_refl _, fun _ _ hb => hb⟩

theorem Grow.trans {h h' h'' : Heap} (h1 : Grow h h') (h2 : Grow h' h'') : Grow h h'' :=
  ⟨Nat.le_trans h1.1 h2.1, fun id hid hb => h2.2 id (Nat.lt_of_lt_of_le hid h1.1) (h1.2 id hid hb)⟩

theorem grow_new {limit : Nat} {h h' : Heap} {n id : Nat} (hn : h.new limit n = .ok (h', id)) : Grow h h' := by
  unfold Heap.new at hn
  split at hn
  · cases hn
  · cases hn
    refine ⟨Nat.le_succ _, fun j hj hb => ?_⟩
    simp only [update, show j ≠ h.next by omega, if_false]
    exact hb

theorem grow_delete {h h' : Heap} {id : Nat} (hd : h.delete id = .ok h') : Grow h h' ∧ h'.blocks id = none := by
  unfold Heap.delete at hd
  split at hd
  · cases hd
    refine ⟨⟨Nat.le_refl _, fun j _ hb => ?_⟩, by simp [update]⟩
    by_cases hj : j = id
    · simp [update, hj]
    · simpa [update, hj] using hb
  · cases hd

theorem grow_store {h h' : Heap} {o o' : Obj} {i : Nat} {v : Int} (hs : store h o i v = .ok (h', o')) :
    Grow h h' ∧ o'.data = o.data := by
  unfold store at hs
  rcases hd : o.data with _ | _ | id <;> rw [hd] at hs <;> simp only at hs
  · cases hs
  · split at hs
    · cases hs; exact ⟨Grow.refl _, rfl⟩
    · cases hs
  · rcases hb : h.blocks id with _ | cells <;> rw [hb] at hs <;> simp only at hs
    · cases hs
    · split at hs
      · cases hs
        refine ⟨⟨Nat.le_refl _, fun j _ hj => ?_⟩, hd⟩
        by_cases hji : j = id
        · rw [hji, hb] at hj; cases hj
        · simpa [update, hji] using hj
      · cases hs

theorem grow_storeAll {h h' : Heap} {o o' : Obj} {i : Nat} {vs : List Int} (hs : storeAll h o i vs = .ok (h', o')) :
    Grow h h' ∧ o'.data = o.data := by
  induction vs generalizing h o i with
  | nil => cases hs; exact ⟨Grow.refl _, rfl⟩
  | cons v vs ih =>
    rw [storeAll] at hs
    rcases h1 : store h o i v with ⟨h1', o1⟩ | _ | _ | _ <;> rw [h1] at hs <;> simp at hs
    obtain ⟨g1, d1⟩ := grow_store h1
    obtain ⟨g2, d2⟩ := ih hs
    exact ⟨g1.trans g2, d2.trans d1⟩

theorem grow_copyElems {h h' : Heap} {rhs o o' : Obj} {i n : Nat} (hs : copyElems h rhs o i n = .ok (h', o')) :
    Grow h h' := by
  induction n generalizing h o i with
  | zero => cases hs; exact Grow.refl _
  | succ n ih =>
    rw [copyElems] at hs
    rcases hl : load h rhs i with v | _ | _ | _ <;> rw [hl] at hs <;> simp at hs
    rcases h1 : store h o i v with ⟨h1', o1⟩ | _ | _ | _ <;> rw [h1] at hs <;> simp at hs
    exact (grow_store h1).1.trans (ih hs)

theorem grow_construct {limit : Nat} {h h' : Heap} {ty : Ty} {n : Nat} {o : Obj} (hc : construct limit h ty n = .ok (h', o)) :
    Grow h h' := by
  unfold construct at hc
  split at hc
  · cases hc; exact Grow.refl _
  · cases hc; exact Grow.refl _
  · split at hc
    · cases hc; exact Grow.refl _
    · rcases hn : h.new limit n with ⟨h1, id⟩ | _ | _ | _ <;> rw [hn] at hc <;> simp at hc
      rw [← hc.1]; exact grow_new hn
  · split at hc
    · rcases hn : h.new limit n with ⟨h1, id⟩ | _ | _ | _ <;> rw [hn] at hc <;> simp at hc
      rw [← hc.1]; exact grow_new hn
    · cases hc; exact Grow.refl _

/-- What one operation on buffers leaves alone. -/
structure Frame (op : Op) (s s' : Buffer.State) : Prop where
  grow : Grow s.heap s'.heap
  data : ∀ b o, s.objs b = some o → op ≠ .destroy b → ∃ o', s'.objs b = some o' ∧ o'.data = o.data
  absent : ∀ b, s.objs b = none → created op ≠ some b → s'.objs b = none
  fresh : ∀ b, created op = some b → s.objs b = none
  destroyed : ∀ b, op = .destroy b → s'.objs b = none ∧ ∀ o id, s.objs b = some o → o.data = .block id → s'.heap.blocks id = none

theorem frame_create {op : Op} {s : Buffer.State} {b : Nat} {h' : Heap} {o : Obj} (hb : s.objs b = none) (hg : Grow s.heap h')
    (hop : created op = some b) : Frame op s ⟨h', update s.objs b (some o)⟩ where
  grow := hg
  data := by
    intro c o' ho _
    have : c ≠ b := by rintro rfl; rw [hb] at ho; cases ho
    exact ⟨o', by simpa [update, this] using ho, rfl⟩
  absent := by
    intro c hc hne
    have : c ≠ b := by rintro rfl; exact hne hop
    simpa [update, this] using hc
  fresh := by intro c hc; rw [hop] at hc; cases hc; exact hb
  destroyed := by rintro c rfl; cases hop

theorem frame_modify {op : Op} {s : Buffer.State} {b : Nat} {h' : Heap} {o o' : Obj} (ho : s.objs b = some o) (hg : Grow s.heap h')
    (hd : o'.data = o.data) (hop : created op = none) (hnd : ∀ c, op ≠ .destroy c) :
    Frame op s ⟨h', update s.objs b (some o')⟩ where
  grow := hg
  data := by
    intro c o2 ho2 _
    by_cases hc : c = b
    · subst hc; rw [ho] at ho2; cases ho2; exact ⟨o', by simp [update], hd⟩
    · exact ⟨o2, by simpa [update, hc] using ho2, rfl⟩
  absent := by
    intro c hc _
    have : c ≠ b := by rintro rfl; rw [ho] at hc; cases hc
    simpa [update, this] using hc
  fresh := by intro c hc; rw [hop] at hc; cases hc
  destroyed := fun c hc => absurd hc (hnd c)

theorem frame_same {op : Op} {s : Buffer.State} (hop : created op = none) (hnd : ∀ c, op ≠ .destroy c) : Frame op s s where
  grow := Grow.refl _
  data := fun _ o ho _ => ⟨o, ho, rfl⟩
  absent := fun _ hb _ => hb
  fresh := by intro c hc; rw [hop] at hc; cases hc
  destroyed := fun c hc => absurd hc (hnd c)

theorem own_of_copyAssignable {h : Heap} {o : Obj} (hca : o.ty.copyAssignable = true) (hsh : Shape h o) : o.data = .own := by
  unfold Shape at hsh
  unfold Ty.copyAssignable at hca
  rcases hk : o.ty.kind with n | cap | cap | _ <;> rw [hk] at hsh hca <;> simp only at hsh hca
  · exact hsh.1
  · exact hsh.1
  · simp at hca
  · simp at hca

theorem rel_shape {tyOf : Nat → Ty} {s : Buffer.State} {a : Spec.Buf.Store} (hR : Rel tyOf s a) {b : Nat} {o : Obj}
    (ho : s.objs b = some o) : ∃ elems, a b = some (tyOf b, elems) ∧ o.ty = tyOf b ∧ Shape s.heap o ∧
      elems = (view s.heap o).take o.size := by
  have hv := hR.vars b
  rw [ho] at hv
  rcases ha : a b with _ | ⟨ty, elems⟩ <;> rw [ha] at hv
  · exact hv.elim
  · exact ⟨elems, by rw [hv.2.1], hv.1, hv.2.2.1, hv.2.2.2.1⟩

theorem frame_step {tyOf : Nat → Ty} {s s' : Buffer.State} {a : Spec.Buf.Store} (hR : Rel tyOf s a) {limit : Nat} {op : Op}
    (hwf : op.wellFormed tyOf) {r : Resp} (hs : Buffer.step limit s op = .ok (s', r)) : Frame op s s' := by
  cases op with
  | construct b ty e =>
    simp only [Buffer.step] at hs
    rcases hb : s.objs b with _ | o <;> rw [hb] at hs <;> simp only at hs
    · rcases hc : constructExtent limit s.heap ty e with ⟨h1, o1⟩ | _ | _ | _ <;> rw [hc] at hs <;> simp at hs
      obtain ⟨rfl, -⟩ := hs
      unfold constructExtent at hc
      rcases hc1 : construct limit s.heap ty (IntTy.sizeT.wrap e).toNat with ⟨h2, o2⟩ | _ | _ | _ <;> rw [hc1] at hc <;> simp at hc
      rcases he : Outcome.expects (checkExtent ty e) with _ | _ | _ | _ <;> rw [he] at hc <;> simp at hc
      obtain ⟨rfl, rfl⟩ := hc
      exact frame_create hb (grow_construct hc1) rfl
    · cases hs
  | constructArray b ty vals =>
    simp only [Buffer.step] at hs
    rcases hb : s.objs b with _ | o <;> rw [hb] at hs <;> simp only at hs
    · rcases hc : constructArray limit s.heap ty vals with ⟨h1, o1⟩ | _ | _ | _ <;> rw [hc] at hs <;> simp at hs
      obtain ⟨rfl, -⟩ := hs
      unfold constructArray at hc
      rcases hc1 : construct limit s.heap ty vals.length with ⟨h2, o2⟩ | _ | _ | _ <;> rw [hc1] at hc <;> simp at hc
      exact frame_create hb ((grow_construct hc1).trans (grow_storeAll hc).1) rfl
    · cases hs
  | copy b src =>
    simp only [Buffer.step] at hs
    rcases hb : s.objs b with _ | o <;> rw [hb] at hs <;> simp only at hs
    · rcases hsrc : s.objs src with _ | o <;> simp only [State.withObj, hsrc] at hs
      · cases hs
      · rcases hc : copyConstruct limit s.heap o with ⟨h1, o1⟩ | _ | _ | _ <;> rw [hc] at hs <;> simp at hs
        obtain ⟨rfl, -⟩ := hs
        have hg : Grow s.heap h1 := by
          unfold copyConstruct at hc
          split at hc
          · cases hc; exact Grow.refl _
          · cases hc; exact Grow.refl _
          all_goals
            rcases hc1 : construct limit s.heap o.ty o.size with ⟨h2, o2⟩ | _ | _ | _ <;> rw [hc1] at hc <;> simp at hc
            exact (grow_construct hc1).trans (grow_copyElems hc)
        exact frame_create hb hg rfl
    · cases hs
  | assignArray b vals =>
    simp only [Buffer.step] at hs
    rcases hb : s.objs b with _ | o <;> simp only [State.withObj, hb] at hs
    · cases hs
    · rcases he : Outcome.expects (decide (vals.length = o.size)) with _ | _ | _ | _ <;> rw [he] at hs <;> simp at hs
      rcases hc : storeAll s.heap o 0 vals with ⟨h1, o1⟩ | _ | _ | _ <;> rw [hc] at hs <;> simp at hs
      obtain ⟨rfl, -⟩ := hs
      exact frame_modify hb (grow_storeAll hc).1 (grow_storeAll hc).2 rfl (by intro c h; cases h)
  | copyAssign b src =>
    obtain ⟨hca, hts⟩ := hwf
    simp only [Buffer.step] at hs
    rcases hb : s.objs b with _ | o <;> simp only [State.withObj, hb] at hs
    · cases hs
    · rcases hsrc : s.objs src with _ | o2 <;> simp only [hsrc] at hs
      · cases hs
      · simp at hs
        obtain ⟨rfl, -⟩ := hs
        obtain ⟨_, _, t1, s1, _⟩ := rel_shape hR hb
        obtain ⟨_, _, t2, s2, _⟩ := rel_shape hR hsrc
        refine frame_modify hb (Grow.refl _) ?_ rfl (by intro c h; cases h)
        rw [own_of_copyAssignable (by rw [t1]; exact hca) s1, own_of_copyAssignable (by rw [t2, ← hts]; exact hca) s2]
  | size b =>
    simp only [Buffer.step] at hs
    rcases hb : s.objs b with _ | o <;> simp only [State.withObj, hb] at hs
    · cases hs
    · cases hs; exact frame_same rfl (by intro c h; cases h)
  | empty b =>
    simp only [Buffer.step] at hs
    rcases hb : s.objs b with _ | o <;> simp only [State.withObj, hb] at hs
    · cases hs
    · cases hs; exact frame_same rfl (by intro c h; cases h)
  | read b i =>
    simp only [Buffer.step] at hs
    rcases hb : s.objs b with _ | o <;> simp only [State.withObj, hb] at hs
    · cases hs
    · rcases hl : load s.heap o i with v | _ | _ | _ <;> rw [hl] at hs <;> simp at hs
      obtain ⟨rfl, -⟩ := hs
      exact frame_same rfl (by intro c h; cases h)
  | write b i v =>
    simp only [Buffer.step] at hs
    rcases hb : s.objs b with _ | o <;> simp only [State.withObj, hb] at hs
    · cases hs
    · rcases hc : store s.heap o i v with ⟨h1, o1⟩ | _ | _ | _ <;> rw [hc] at hs <;> simp at hs
      obtain ⟨rfl, -⟩ := hs
      exact frame_modify hb (grow_store hc).1 (grow_store hc).2 rfl (by intro c h; cases h)
  | front b =>
    simp only [Buffer.step] at hs
    rcases hb : s.objs b with _ | o <;> simp only [State.withObj, hb] at hs
    · cases hs
    · rcases he : Outcome.expects (decide (o.size ≠ 0)) with _ | _ | _ | _ <;> rw [he] at hs <;> simp at hs
      rcases hl : load s.heap o 0 with v | _ | _ | _ <;> rw [hl] at hs <;> simp at hs
      obtain ⟨rfl, -⟩ := hs
      exact frame_same rfl (by intro c h; cases h)
  | back b =>
    simp only [Buffer.step] at hs
    rcases hb : s.objs b with _ | o <;> simp only [State.withObj, hb] at hs
    · cases hs
    · rcases he : Outcome.expects (decide (o.size ≠ 0)) with _ | _ | _ | _ <;> rw [he] at hs <;> simp at hs
      rcases hl : load s.heap o (o.size - 1) with v | _ | _ | _ <;> rw [hl] at hs <;> simp at hs
      obtain ⟨rfl, -⟩ := hs
      exact frame_same rfl (by intro c h; cases h)
  | destroy b =>
    simp only [Buffer.step] at hs
    rcases hb : s.objs b with _ | o <;> simp only [State.withObj, hb] at hs
    · cases hs
    · rcases hc : destroy s.heap o with h1 | _ | _ | _ <;> rw [hc] at hs <;> simp at hs
      obtain ⟨rfl, -⟩ := hs
      obtain ⟨_, _, _, hsh, _⟩ := rel_shape hR hb
      have key : Grow s.heap h1 ∧ ∀ id, o.data = .block id → h1.blocks id = none := by
        unfold Shape at hsh
        unfold destroy at hc
        rcases hk : o.ty.kind with n | cap | cap | _ <;> rw [hk] at hc hsh <;> simp only at hc hsh
        · cases hc; exact ⟨Grow.refl _, by simp [hsh.1]⟩
        · cases hc; exact ⟨Grow.refl _, by simp [hsh.1]⟩
        all_goals
          rcases hd : o.data with _ | _ | id <;> rw [hd] at hc <;> simp only at hc
          all_goals first | (cases hc; done) | (cases hc; exact ⟨Grow.refl _, by simp⟩) |
            exact ⟨(grow_delete hc).1, by rintro j hj; cases hj; exact (grow_delete hc).2⟩
      exact {
        grow := key.1
        data := by
          intro c o2 ho2 hne
          have : c ≠ b := by rintro rfl; exact hne rfl
          exact ⟨o2, by simpa [update, this] using ho2, rfl⟩
        absent := by
          intro c hcn _
          by_cases hcb : c = b
          · simp [update, hcb]
          · simpa [update, hcb] using hcn
        fresh := by intro c hcr; cases hcr
        destroyed := by
          intro c hcd
          cases hcd
          refine ⟨by simp [update], fun o2 id ho2 hd => ?_⟩
          rw [hb] at ho2; cases ho2
          exact key.2 id hd }

/-! ## The simulation -/

/-- A pointer in the model and in the specification. -/
structure PtrRel (s : State) (m : Addr) (x : Spec.BufPtr.Pos) : Prop where
  off : m.off = x.off
  gen : x.gen ≤ s.gen x.b
  live : ∀ o, s.st.objs x.b = some o → s.gen x.b = x.gen → m.base = baseOf x.b x.gen o.data
  shape : m.base = .null ∨ m.base = .own x.b x.gen ∨ ∃ id, id < s.st.heap.next ∧ m.base = .block id
  dead : ∀ id, m.base = .block id → ¬ (s.gen x.b = x.gen ∧ (s.st.objs x.b).isSome) → s.st.heap.blocks id = none

/-- Pointer variables in the model and in the specification. -/
def OptRel (s : State) : Option Addr → Option Spec.BufPtr.Pos → Prop
  | none, none => True
  | some m, some x => PtrRel s m x
  | _, _ => False

structure PRel (tyOf : Nat → Ty) (s : State) (a : Spec.BufPtr.State) : Prop where
  rel : Rel tyOf s.st a.bufs
  gen : s.gen = a.gen
  ptrs : ∀ p, OptRel s (s.ptrs p) (a.ptrs p)

theorem prel_init (tyOf : Nat → Ty) : PRel tyOf State.init Spec.BufPtr.State.init where
  rel := rel_init tyOf
  gen := rfl
  ptrs := fun _ => trivial

theorem constructs_iff (op : Op) (b : Nat) : Spec.BufPtr.constructs op b = true ↔ created op = some b := by
  cases op <;> simp [Spec.BufPtr.constructs, created]

theorem bump_eq (gen : Nat → Nat) (op : Op) :
    bump gen op = fun j => gen j + (if Spec.BufPtr.constructs op j then 1 else 0) := by
  funext j
  unfold bump
  by_cases h : created op = some j
  · simp [h, (constructs_iff op j).2 h]
  · have : Spec.BufPtr.constructs op j = false := by
      rcases hc : Spec.BufPtr.constructs op j with _ | _
      · rfl
      · exact absurd ((constructs_iff op j).1 hc) h
    simp [h, this]

theorem ptrRel_frame {s : State} {st' : Buffer.State} {op : Op} (hf : Frame op s.st st') {m : Addr} {x : Spec.BufPtr.Pos}
    (h : PtrRel s m x) : PtrRel ⟨st', bump s.gen op, s.ptrs⟩ m x := by
  have hgen : ∀ b, s.gen b ≤ bump s.gen op b := by intro b; unfold bump; split <;> omega
  have back : ∀ o', st'.objs x.b = some o' → bump s.gen op x.b = x.gen →
      s.gen x.b = x.gen ∧ ∃ o, s.st.objs x.b = some o ∧ o'.data = o.data := by
    intro o' ho' hg
    have h1 := h.gen
    have h2 := hgen x.b
    have hne : created op ≠ some x.b := by
      intro hc
      simp only [bump, hc, if_true] at hg
      omega
    have hg' : s.gen x.b = x.gen := by omega
    rcases ho : s.st.objs x.b with _ | o
    · rw [hf.absent x.b ho hne] at ho'; cases ho'
    · by_cases hd : op = .destroy x.b
      · rw [(hf.destroyed x.b hd).1] at ho'; cases ho'
      · obtain ⟨o2, h3, h4⟩ := hf.data x.b o ho hd
        rw [h3] at ho'; cases ho'
        exact ⟨hg', o, rfl, h4⟩
  constructor
  · exact h.off
  · exact Nat.le_trans h.gen (hgen x.b)
  · intro o' ho' hg
    obtain ⟨h1, o, h2, h3⟩ := back o' ho' hg
    rw [h.live o h2 h1, h3]
  · rcases h.shape with hs | hs | ⟨id, h1, h2⟩
    · exact .inl hs
    · exact .inr (.inl hs)
    · exact .inr (.inr ⟨id, Nat.lt_of_lt_of_le h1 hf.grow.1, h2⟩)
  · intro id hid hnot
    have hlt : id < s.st.heap.next := by
      rcases h.shape with hs | hs | ⟨id', h1, h2⟩
      · rw [hs] at hid; cases hid
      · rw [hs] at hid; cases hid
      · rw [h2] at hid; cases hid; exact h1
    by_cases hl : s.gen x.b = x.gen ∧ (s.st.objs x.b).isSome
    · obtain ⟨hg, ho⟩ := hl
      obtain ⟨o, ho⟩ := Option.isSome_iff_exists.1 ho
      have hbase := h.live o ho hg
      have hdata : o.data = .block id := by
        rw [hid] at hbase
        rcases hd : o.data with _ | _ | j <;> rw [hd] at hbase <;> simp [baseOf] at hbase
        rw [hbase]
      by_cases hd : op = .destroy x.b
      · exact (hf.destroyed x.b hd).2 o id ho hdata
      · obtain ⟨o', h1, h2⟩ := hf.data x.b o ho hd
        exfalso
        apply hnot
        refine ⟨?_, by simp [h1]⟩
        have : created op ≠ some x.b := by intro hc; rw [hf.fresh _ hc] at ho; cases ho
        simp only [bump, this, if_false]
        exact hg
    · exact hf.grow.2 id hlt (h.dead id hid hl)

theorem prel_buf {tyOf : Nat → Ty} {s : State} {a : Spec.BufPtr.State} (hR : PRel tyOf s a) {limit : Nat} {op : Op}
    (hwf : op.wellFormed tyOf) {st' : Buffer.State} {r : Resp} (hs : Buffer.step limit s.st op = .ok (st', r))
    {bufs' : Spec.Buf.Store} (hR' : Rel tyOf st' bufs') :
    PRel tyOf ⟨st', bump s.gen op, s.ptrs⟩ ⟨bufs', fun j => a.gen j + (if Spec.BufPtr.constructs op j then 1 else 0), a.ptrs⟩ where
  rel := hR'
  gen := by rw [← hR.gen]; exact bump_eq s.gen op
  ptrs := by
    intro p
    have h := hR.ptrs p
    rcases h1 : s.ptrs p with _ | m <;> rcases h2 : a.ptrs p with _ | x <;> rw [h1, h2] at h
    · trivial
    · exact h.elim
    · exact h.elim
    · exact ptrRel_frame (frame_step hR.rel hwf hs) h

theorem bump_none {gen : Nat → Nat} {op : Op} (h : created op = none) : bump gen op = gen := by
  funext j; simp [bump, h]

theorem prel_setPtr {tyOf : Nat → Ty} {s : State} {a : Spec.BufPtr.State} (hR : PRel tyOf s a) (p : Nat) {m : Addr}
    {x : Spec.BufPtr.Pos} (h : PtrRel s m x) : PRel tyOf (s.setPtr p m) (a.point p x) where
  rel := hR.rel
  gen := hR.gen
  ptrs := by
    intro q
    by_cases hq : q = p
    · simp only [State.setPtr, Spec.BufPtr.State.point, update, hq, if_true]
      exact ⟨h.off, h.gen, h.live, h.shape, h.dead⟩
    · simp only [State.setPtr, Spec.BufPtr.State.point, update, hq, if_false]
      have h' := hR.ptrs q
      rcases h1 : s.ptrs q with _ | m' <;> rcases h2 : a.ptrs q with _ | x' <;> rw [h1, h2] at h'
      · trivial
      · exact h'.elim
      · exact h'.elim
      · exact ⟨h'.off, h'.gen, h'.live, h'.shape, h'.dead⟩

theorem ptrRel_fresh {tyOf : Nat → Ty} {s : State} {a : Spec.BufPtr.State} (hR : PRel tyOf s a) {b : Nat} {o : Obj}
    (ho : s.st.objs b = some o) (n : Nat) : PtrRel s ⟨baseOf b (s.gen b) o.data, n⟩ ⟨b, s.gen b, n⟩ where
  off := rfl
  gen := Nat.le_refl _
  live := by intro o' ho' _; simp only at ho'; rw [ho] at ho'; cases ho'; rfl
  shape := by
    rcases hd : o.data with _ | _ | id
    · exact .inl rfl
    · exact .inr (.inl rfl)
    · exact .inr (.inr ⟨id, rel_block_lt hR.rel ho hd, rfl⟩)
  dead := by intro id _ hn; exact absurd ⟨rfl, by simp [ho]⟩ hn

theorem ptrRel_move {s : State} {m : Addr} {x : Spec.BufPtr.Pos} (h : PtrRel s m x) (n : Nat) :
    PtrRel s ⟨m.base, n⟩ ⟨x.b, x.gen, n⟩ := ⟨rfl, h.gen, h.live, h.shape, h.dead⟩

theorem cells_baseOf {s : State} {b : Nat} {o : Obj} (ho : s.st.objs b = some o) (hsh : Shape s.st.heap o) :
    s.cells (baseOf b (s.gen b) o.data) = some (view s.st.heap o) := by
  rcases hd : o.data with _ | _ | id
  · simp [baseOf, State.cells, view, hd]
  · simp [baseOf, State.cells, view, hd, ho]
  · obtain ⟨cells, hc⟩ := Option.isSome_iff_exists.1 (shape_valid hsh id hd)
    simp [baseOf, State.cells, view, hd, hc]

/-- A pointer which may be used according to the specification. -/
theorem at_ok {tyOf : Nat → Ty} {s : State} {a : Spec.BufPtr.State} (hR : PRel tyOf s a) (p : Nat) :
    (∀ {α : Type} (f : Spec.BufPtr.Pos → List Cell → Outcome α), a.at_ p f = .ub) ∨
    ∃ m x o elems, s.ptrs p = some m ∧ a.ptrs p = some x ∧ PtrRel s m x ∧ s.gen x.b = x.gen ∧ s.st.objs x.b = some o ∧
      a.bufs x.b = some (tyOf x.b, elems) ∧ Shape s.st.heap o ∧ o.ty = tyOf x.b ∧ elems = (view s.st.heap o).take o.size ∧
      m.base = baseOf x.b (s.gen x.b) o.data ∧ elems.length = o.size ∧ o.size ≤ (view s.st.heap o).length ∧
      (∀ {α : Type} (f : Spec.BufPtr.Pos → List Cell → Outcome α), a.at_ p f = f x elems) ∧
      (∀ {α : Type} (f : Addr → List Cell → Outcome α), s.withPtr p f = f m (view s.st.heap o)) := by
  have h := hR.ptrs p
  rcases h1 : s.ptrs p with _ | m <;> rcases h2 : a.ptrs p with _ | x <;> rw [h1, h2] at h
  · exact .inl fun f => by simp [Spec.BufPtr.State.at_, h2]
  · exact h.elim
  · exact h.elim
  · by_cases hg : a.gen x.b = x.gen
    · rcases ha : a.bufs x.b with _ | ⟨ty, elems⟩
      · exact .inl fun f => by simp [Spec.BufPtr.State.at_, h2, Spec.Buf.use, ha]
      · obtain ⟨o, ho, hoty, hty, hsh, hel, -⟩ := rel_some hR.rel ha
        have hg' : s.gen x.b = x.gen := by rw [hR.gen]; exact hg
        have hb := h.live o ho hg'
        rw [← hg'] at hb
        have hsz := shape_size hsh
        refine .inr ⟨m, x, o, elems, rfl, rfl, h, hg', ho, by rw [hty] at ha; exact ha, hsh, hoty, hel, hb, ?_, hsz, ?_, ?_⟩
        · rw [hel]; simp [hsz]
        · intro α f; simp [Spec.BufPtr.State.at_, h2, hg, Spec.Buf.use, ha]
        · intro α f; simp [State.withPtr, h1, hb, cells_baseOf ho hsh]
    · exact .inl fun f => by simp [Spec.BufPtr.State.at_, h2, hg]

/-- Two pointers into the same array point into the same buffer, and conversely. -/
theorem base_eq {s : State} {b : Nat} {o : Obj}
    (ho : s.st.objs b = some o) {c : Nat} {o' : Obj} (ho' : s.st.objs c = some o') (h : b = c) :
    baseOf b (s.gen b) o.data = baseOf c (s.gen c) o'.data := by
  subst h; rw [ho] at ho'; cases ho'; rfl

theorem setCells_baseOf {s : State} {b : Nat} {o : Obj} (ho : s.st.objs b = some o) (cs : List Cell) :
    s.setCells cs (baseOf b (s.gen b) o.data) =
      ⟨⟨(setView s.st.heap o cs).1, update s.st.objs b (some (setView s.st.heap o cs).2)⟩, s.gen, s.ptrs⟩ := by
  have hup : update s.st.objs b (some o) = s.st.objs := by
    funext j; by_cases hj : j = b <;> simp [update, hj, ho]
  rcases hd : o.data with _ | _ | id
  · simp [baseOf, State.setCells, setView, hd, hup]
  · simp [baseOf, State.setCells, setView, hd, ho]
  · simp [baseOf, State.setCells, setView, hd, hup]

/-- The outcome of a step corresponds to the one of the specification. -/
def StepSim (tyOf : Nat → Ty) (x : Outcome (State × Resp)) : Outcome (Spec.BufPtr.State × Resp) → Prop
  | .ok (a', r) => ∃ s', x = .ok (s', r) ∧ PRel tyOf s' a'
  | .throw e => x = .throw e
  | .failFast => x = .failFast
  | .ub => True

theorem ptr_sim_step {tyOf : Nat → Ty} {s : State} {a : Spec.BufPtr.State} (hR : PRel tyOf s a) (limit : Nat) (op : PtrOp)
    (hwf : op.wellFormed tyOf) : StepSim tyOf (step limit s op) (Spec.BufPtr.step limit a op) := by
  cases op with
  | buf op =>
    have h := sim_step hR.rel limit op hwf
    simp only [step, Spec.BufPtr.step]
    rcases hs : Spec.Buf.step limit a.bufs op with ⟨a', r⟩ | m | _ | _ <;> rw [hs] at h
    · obtain ⟨st', h1, hR'⟩ := h
      rw [h1]
      exact ⟨_, rfl, prel_buf hR hwf h1 hR'⟩
    · have h : Buffer.step limit s.st op = .throw m := h
      rw [h]; rfl
    · have h : Buffer.step limit s.st op = .failFast := h
      rw [h]; rfl
    · trivial
  | begin_ p b =>
    simp only [step, Spec.BufPtr.step]
    rcases ha : a.bufs b with _ | ⟨ty, elems⟩
    · rw [use_none ha]; trivial
    · rw [use_some ha]
      obtain ⟨o, ho, -⟩ := rel_some hR.rel ha
      rw [withObj_some ho, ← hR.gen]
      exact ⟨_, rfl, prel_setPtr hR p (ptrRel_fresh hR ho 0)⟩
  | end_ p b =>
    simp only [step, Spec.BufPtr.step]
    rcases ha : a.bufs b with _ | ⟨ty, elems⟩
    · rw [use_none ha]; trivial
    · rw [use_some ha]
      obtain ⟨o, ho, hoty, hty, hsh, hel, -⟩ := rel_some hR.rel ha
      have hsz := shape_size hsh
      have hlen : elems.length = o.size := by rw [hel]; simp [hsz]
      rw [withObj_some ho, ← hR.gen, hlen]
      exact ⟨_, rfl, prel_setPtr hR p (ptrRel_fresh hR ho _)⟩
  | advance p q n =>
    simp only [step, Spec.BufPtr.step]
    rcases at_ok hR q with h | ⟨m, x, o, elems, h1, h2, hP, hg, ho, ha, hsh, hoty, hel, hb, hlen, hsz, hat, hwith⟩
    · rw [h]; trivial
    · rw [hat, hwith]
      by_cases hc : 0 ≤ (x.off : Int) + n ∧ (x.off : Int) + n ≤ elems.length
      · rw [if_pos hc, if_pos (by rw [hP.off]; omega), hP.off]
        exact ⟨_, rfl, prel_setPtr hR p (ptrRel_move hP _)⟩
      · rw [if_neg hc]; trivial
  | load p =>
    simp only [step, Spec.BufPtr.step]
    rcases at_ok hR p with h | ⟨m, x, o, elems, h1, h2, hP, hg, ho, ha, hsh, hoty, hel, hb, hlen, hsz, hat, hwith⟩
    · rw [h]; trivial
    · rw [hat, hwith, hel, hP.off]
      unfold Spec.Buf.get
      rw [List.getElem?_take]
      by_cases hi : x.off < o.size
      · rw [if_pos hi]
        rcases (view s.st.heap o)[x.off]? with _ | _ | v
        · trivial
        · trivial
        · exact ⟨_, rfl, hR⟩
      · rw [if_neg hi]; trivial
  | store p v =>
    simp only [step, Spec.BufPtr.step]
    rcases at_ok hR p with h | ⟨m, x, o, elems, h1, h2, hP, hg, ho, ha, hsh, hoty, hel, hb, hlen, hsz, hat, hwith⟩
    · rw [h]; trivial
    · rw [hat, hwith, hP.off]
      by_cases hi : x.off < elems.length
      · rw [if_pos hi, if_pos (by omega), hb, setCells_baseOf ho]
        have h := sim_step hR.rel limit (.write x.b x.off v) trivial
        simp only [Spec.Buf.step, use_some ha, if_pos hi] at h ⊢
        obtain ⟨st', h3, hR'⟩ := h
        have h4 := h3
        simp only [Buffer.step, withObj_some ho, store_eq _ _ (shape_valid hsh) x.off (by omega) v] at h4
        simp at h4
        subst h4
        refine ⟨_, rfl, ?_⟩
        have := prel_buf (op := .write x.b x.off v) hR trivial h3 hR'
        rw [bump_none rfl] at this
        simpa [Spec.BufPtr.constructs] using this
      · rw [if_neg hi]; trivial
  | equal p q =>
    simp only [step, Spec.BufPtr.step]
    rcases at_ok hR p with h | ⟨m, x, o, elems, h1, h2, hP, hg, ho, ha, hsh, hoty, hel, hb, hlen, hsz, hat, hwith⟩
    · rw [h]; trivial
    · rw [hat, hwith]
      rcases at_ok hR q with h | ⟨m', x', o', elems', h1', h2', hP', hg', ho', ha', hsh', hoty', hel', hb', hlen', hsz', hat', hwith'⟩
      · rw [h]; trivial
      · rw [hat', hwith']
        by_cases hxx : x.b = x'.b
        · rw [if_pos hxx, hb, hb', if_pos (base_eq ho ho' hxx), hP.off, hP'.off]
          exact ⟨_, rfl, hR⟩
        · rw [if_neg hxx]; trivial
  | distance p q =>
    simp only [step, Spec.BufPtr.step]
    rcases at_ok hR p with h | ⟨m, x, o, elems, h1, h2, hP, hg, ho, ha, hsh, hoty, hel, hb, hlen, hsz, hat, hwith⟩
    · rw [h]; trivial
    · rw [hat, hwith]
      rcases at_ok hR q with h | ⟨m', x', o', elems', h1', h2', hP', hg', ho', ha', hsh', hoty', hel', hb', hlen', hsz', hat', hwith'⟩
      · rw [h]; trivial
      · rw [hat', hwith']
        by_cases hxx : x.b = x'.b
        · rw [if_pos hxx, hb, hb', if_pos (base_eq ho ho' hxx), hP.off, hP'.off]
          exact ⟨_, rfl, hR⟩
        · rw [if_neg hxx]; trivial

/-- The outcome of a program corresponds to the one of the specification. -/
def RunSim {β : Type} (tyOf : Nat → Ty) (x : Outcome (State × β)) : Outcome (Spec.BufPtr.State × β) → Prop
  | .ok (a', y) => ∃ s', x = .ok (s', y) ∧ PRel tyOf s' a'
  | .throw e => x = .throw e
  | .failFast => x = .failFast
  | .ub => True

theorem ptr_sim_run {β : Type} {tyOf : Nat → Ty} (limit : Nat) (prog : Prog β) {s : State} {a : Spec.BufPtr.State}
    (hR : PRel tyOf s a) (hwf : prog.wellFormed tyOf) : RunSim tyOf (run limit s prog) (Spec.BufPtr.run limit a prog) := by
  induction prog generalizing s a with
  | ret x => exact ⟨s, rfl, hR⟩
  | op o k ih =>
    have h := ptr_sim_step hR limit o hwf.1
    simp only [run, Spec.BufPtr.run]
    rcases hs : Spec.BufPtr.step limit a o with ⟨a', r⟩ | m | _ | _ <;> rw [hs] at h
    · obtain ⟨s', h1, hR'⟩ := h
      rw [h1]
      exact ih r hR' (hwf.2 r)
    · have h : step limit s o = .throw m := h
      rw [h]; rfl
    · have h : step limit s o = .failFast := h
      rw [h]; rfl
    · trivial

theorem spec_run_bind {β γ : Type} (limit : Nat) (a : Spec.BufPtr.State) (prog : Prog β) (f : β → Prog γ) :
    Spec.BufPtr.run limit a (prog.bind f) = (Spec.BufPtr.run limit a prog).bind fun r => Spec.BufPtr.run limit r.1 (f r.2) := by
  induction prog generalizing a with
  | ret x => rfl
  | op o k ih =>
    simp only [Prog.bind, Spec.BufPtr.run]
    rcases Spec.BufPtr.step limit a o with ⟨a', r⟩ | m | _ | _
    · exact ih r a'
    · rfl
    · rfl
    · rfl

theorem run_bind {β γ : Type} (limit : Nat) (s : State) (prog : Prog β) (f : β → Prog γ) :
    run limit s (prog.bind f) = (run limit s prog).bind fun r => run limit r.1 (f r.2) := by
  induction prog generalizing s with
  | ret x => rfl
  | op o k ih =>
    simp only [Prog.bind, run]
    rcases step limit s o with ⟨a', r⟩ | m | _ | _
    · exact ih r a'
    · rfl
    · rfl
    · rfl

theorem wellFormed_bind {β γ : Type} {tyOf : Nat → Ty} {prog : Prog β} {f : β → Prog γ} (h : prog.wellFormed tyOf)
    (hf : ∀ x, (f x).wellFormed tyOf) : (prog.bind f).wellFormed tyOf := by
  induction prog with
  | ret x => exact hf x
  | op o k ih => exact ⟨h.1, fun r => ih r (h.2 r)⟩

end Makeshift.BufPtr
