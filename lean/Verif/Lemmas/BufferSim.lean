import Verif.Lemmas.Buffer

/-!
# The buffer model simulates the specification
-/

namespace Makeshift.Buffer

open Makeshift.Spec (Buf.allocates Buf.extentOk Buf.leftUninit Buf.request)

/-- A variable in the model and in the specification. -/
def VarRel (ty : Ty) (h : Heap) : Option Obj → Option (Ty × List Cell) → Prop
  | none, none => True
  | some o, some (ty', elems) => o.ty = ty ∧ ty' = ty ∧ Shape h o ∧ elems = (view h o).take o.size ∧ GoodSize ty o.size
  | _, _ => False

/-- Model state and specification state correspond, blocks have exactly one owner. -/
structure Rel (tyOf : Nat → Ty) (s : State) (a : Spec.Buf.Store) : Prop where
  vars : ∀ b, VarRel (tyOf b) s.heap (s.objs b) (a b)
  owned : ∀ id, (s.heap.blocks id).isSome → ∃ b o, s.objs b = some o ∧ o.data = .block id
  inj : ∀ b b' o o' id, s.objs b = some o → s.objs b' = some o' → o.data = .block id → o'.data = .block id → b = b'
  fresh : ∀ id, s.heap.next ≤ id → s.heap.blocks id = none

theorem rel_init (tyOf : Nat → Ty) : Rel tyOf State.init Spec.Buf.none where
  vars := fun _ => trivial
  owned := by simp [State.init]
  inj := by simp [State.init]
  fresh := by simp [State.init]

theorem rel_some {tyOf : Nat → Ty} {s : State} {a : Spec.Buf.Store} (hR : Rel tyOf s a) {b : Nat} {ty : Ty} {elems : List Cell}
    (h : a b = some (ty, elems)) :
    ∃ o, s.objs b = some o ∧ o.ty = tyOf b ∧ ty = tyOf b ∧ Shape s.heap o ∧
      elems = (view s.heap o).take o.size ∧ GoodSize (tyOf b) o.size := by
  have hv := hR.vars b
  rw [h] at hv
  rcases ho : s.objs b with _ | o
  · rw [ho] at hv; exact hv.elim
  · rw [ho] at hv; exact ⟨o, rfl, hv.1, hv.2.1, hv.2.2.1, hv.2.2.2⟩

theorem rel_none {tyOf : Nat → Ty} {s : State} {a : Spec.Buf.Store} (hR : Rel tyOf s a) {b : Nat} (h : a b = none) :
    s.objs b = none := by
  have hv := hR.vars b
  rw [h] at hv
  rcases ho : s.objs b with _ | o
  · rfl
  · rw [ho] at hv; exact hv.elim

theorem rel_block_lt {tyOf : Nat → Ty} {s : State} {a : Spec.Buf.Store} (hR : Rel tyOf s a) {b : Nat} {o : Obj} {id : Nat}
    (ho : s.objs b = some o) (hd : o.data = .block id) : id < s.heap.next := by
  by_contra hc
  have hv := hR.vars b
  rw [ho] at hv
  rcases ha : a b with _ | ⟨ty, elems⟩
  · rw [ha] at hv; exact hv.elim
  · rw [ha] at hv
    have := shape_valid hv.2.2.1 id hd
    rw [hR.fresh id (by omega)] at this
    simp at this

/-- Changing one variable and its own block. -/
theorem rel_update {tyOf : Nat → Ty} {s : State} {a : Spec.Buf.Store} (hR : Rel tyOf s a) (b : Nat) (h' : Heap)
    (x : Option Obj) (y : Option (Ty × List Cell))
    (hframe : ∀ id, id < s.heap.next → (∀ o, s.objs b = some o → o.data ≠ .block id) → h'.blocks id = s.heap.blocks id)
    (hlive : ∀ id, (h'.blocks id).isSome →
      ((s.heap.blocks id).isSome ∧ ∀ o, s.objs b = some o → o.data ≠ .block id) ∨ ∃ o, x = some o ∧ o.data = .block id)
    (hown : ∀ o id, x = some o → o.data = .block id → (∃ o', s.objs b = some o' ∧ o'.data = .block id) ∨ s.heap.next ≤ id)
    (hnext : ∀ id, h'.next ≤ id → h'.blocks id = none)
    (hx : VarRel (tyOf b) h' x y) : Rel tyOf ⟨h', update s.objs b x⟩ (Spec.Buf.set a b y) where
  vars := by
    intro b'
    by_cases hb : b' = b
    · subst hb; simpa [update, Spec.Buf.set] using hx
    · simp only [update, Spec.Buf.set, hb, if_false]
      have hv := hR.vars b'
      rcases ho : s.objs b' with _ | o <;> rcases ha : a b' with _ | ⟨ty, elems⟩ <;> rw [ho, ha] at hv
      · trivial
      · exact hv
      · exact hv
      · have hfr : ∀ id, o.data = .block id → h'.blocks id = s.heap.blocks id := by
          intro id hid
          refine hframe id (rel_block_lt hR ho hid) ?_
          intro o' ho' hd'
          exact hb (hR.inj b' b o o' id ho ho' hid hd')
        refine ⟨hv.1, hv.2.1, shape_frame hv.2.2.1 hfr, ?_, hv.2.2.2.2⟩
        rw [view_frame hfr]; exact hv.2.2.2.1
  owned := by
    intro id hid
    rcases hlive id hid with ⟨h1, h2⟩ | ⟨o, h1, h2⟩
    · obtain ⟨b', o, ho, hd⟩ := hR.owned id h1
      refine ⟨b', o, ?_, hd⟩
      have : b' ≠ b := by rintro rfl; exact h2 o ho hd
      simp [update, this, ho]
    · exact ⟨b, o, by simp [update, h1], h2⟩
  inj := by
    have key : ∀ b' o o' id, b' ≠ b → x = some o → s.objs b' = some o' → o.data = .block id → o'.data ≠ .block id := by
      intro b' o o' id hb hxo ho' hd hd'
      rcases hown o id hxo hd with ⟨o2, h1, h2⟩ | h1
      · exact hb (hR.inj b' b o' o2 id ho' h1 hd' h2)
      · have := rel_block_lt hR ho' hd'; omega
    intro b1 b2 o1 o2 id h1 h2 d1 d2
    by_cases e1 : b1 = b <;> by_cases e2 : b2 = b <;> simp only [update, e1, e2, if_true, if_false] at h1 h2
    · rw [e1, e2]
    · exact absurd d2 (key b2 o1 o2 id e2 h1 h2 d1)
    · exact absurd d1 (key b1 o2 o1 id e1 h2 h1 d2)
    · exact hR.inj b1 b2 o1 o2 id h1 h2 d1 d2
  fresh := hnext

theorem rel_create {tyOf : Nat → Ty} {s : State} {a : Spec.Buf.Store} (hR : Rel tyOf s a) {b : Nat} (hb : s.objs b = none)
    {h' : Heap} {o : Obj} {elems : List Cell} (he : Ext s.heap h' o) (hs : Shape h' o) (hty : o.ty = tyOf b)
    (hel : elems = (view h' o).take o.size) (hg : GoodSize o.ty o.size) :
    Rel tyOf ⟨h', update s.objs b (some o)⟩ (Spec.Buf.set a b (some (o.ty, elems))) := by
  apply rel_update hR b h' (some o) (some (o.ty, elems))
  · intro id hid _
    rcases he with ⟨rfl, _⟩ | ⟨_, cells, rfl⟩
    · rfl
    · simp [update, show id ≠ s.heap.next by omega]
  · intro id hid
    rcases he with ⟨rfl, _⟩ | ⟨hd, cells, rfl⟩
    · exact .inl ⟨hid, by simp [hb]⟩
    · by_cases hi : id = s.heap.next
      · subst hi; exact .inr ⟨o, rfl, hd⟩
      · simp [update, hi] at hid; exact .inl ⟨hid, by simp [hb]⟩
  · intro o' id ho' hd
    cases ho'
    rcases he with ⟨rfl, hn⟩ | ⟨hd', cells, rfl⟩
    · exact absurd hd (hn id)
    · rw [hd'] at hd; cases hd; exact .inr (Nat.le_refl _)
  · intro id hid
    rcases he with ⟨rfl, _⟩ | ⟨hd, cells, rfl⟩
    · exact hR.fresh id hid
    · simp only at hid
      simp only [update, show id ≠ s.heap.next by omega, if_false]
      exact hR.fresh id (by omega)
  · exact ⟨hty, hty, hs, hel, hty ▸ hg⟩

theorem rel_modify {tyOf : Nat → Ty} {s : State} {a : Spec.Buf.Store} (hR : Rel tyOf s a) {b : Nat} {o : Obj} {ty : Ty}
    (ho : s.objs b = some o) (hs : Shape s.heap o) (hty : o.ty = tyOf b) (hty' : ty = tyOf b) (c : List Cell)
    (hc : c.length = (view s.heap o).length) (hg : GoodSize (tyOf b) o.size) :
    Rel tyOf ⟨(setView s.heap o c).1, update s.objs b (some (setView s.heap o c).2)⟩
      (Spec.Buf.set a b (some (ty, c.take o.size))) := by
  apply rel_update hR
  · intro id _ hid
    exact setView_blocks _ _ _ _ (hid o ho)
  · intro id hid
    by_cases hd : o.data = .block id
    · exact .inr ⟨_, rfl, by rw [setView_data]; exact hd⟩
    · rw [setView_blocks _ _ _ _ hd] at hid
      refine .inl ⟨hid, ?_⟩
      intro o' ho' hd'
      rw [ho] at ho'; cases ho'; exact hd hd'
  · intro o' id ho' hd
    cases ho'
    rw [setView_data] at hd
    exact .inl ⟨o, ho, hd⟩
  · intro id hid
    rw [setView_next] at hid
    have hd : o.data ≠ .block id := by
      intro hd; have := rel_block_lt hR ho hd; omega
    rw [setView_blocks _ _ _ _ hd]
    exact hR.fresh id hid
  · refine ⟨by rw [setView_ty]; exact hty, hty', shape_setView hs c hc, ?_, by rw [setView_size]; exact hg⟩
    rw [setView_size, view_setView]
    intro hd
    simp [view, hd] at hc
    exact hc

theorem rel_destroy {tyOf : Nat → Ty} {s : State} {a : Spec.Buf.Store} (hR : Rel tyOf s a) {b : Nat} {o : Obj}
    (ho : s.objs b = some o) (hs : Shape s.heap o) :
    ∃ h', destroy s.heap o = .ok h' ∧ Rel tyOf ⟨h', update s.objs b none⟩ (Spec.Buf.set a b none) := by
  have hplain : (∀ id, o.data ≠ .block id) → Rel tyOf ⟨s.heap, update s.objs b none⟩ (Spec.Buf.set a b none) := by
    intro hd
    apply rel_update hR
    · intro _ _ _; rfl
    · intro id hid
      refine .inl ⟨hid, ?_⟩
      intro o' ho'; rw [ho] at ho'; cases ho'; exact hd id
    · simp
    · exact hR.fresh
    · trivial
  have hdel : ∀ id cells, o.data = .block id → s.heap.blocks id = some cells →
      ∃ h', s.heap.delete id = .ok h' ∧ Rel tyOf ⟨h', update s.objs b none⟩ (Spec.Buf.set a b none) := by
    intro id cells hd hc
    refine ⟨{ s.heap with blocks := update s.heap.blocks id none }, by simp [Heap.delete, hc], ?_⟩
    apply rel_update hR
    · intro j _ hj
      have : j ≠ id := by rintro rfl; exact hj o ho hd
      simp [update, this]
    · intro j hj
      by_cases h : j = id
      · simp [update, h] at hj
      · simp [update, h] at hj
        refine .inl ⟨hj, ?_⟩
        intro o' ho' hd'; rw [ho] at ho'; cases ho'
        rw [hd] at hd'; cases hd'; exact h rfl
    · simp
    · intro j hj
      by_cases h : j = id
      · simp [update, h]
      · simp only [update, h, if_false]; exact hR.fresh j hj
    · trivial
  have hs' := hs
  unfold Shape at hs'
  unfold destroy
  rcases hk : o.ty.kind with n | cap | cap | _ <;> rw [hk] at hs' <;> simp only at hs' ⊢
  · exact ⟨_, rfl, hplain (by simp [hs'.1])⟩
  · exact ⟨_, rfl, hplain (by simp [hs'.1])⟩
  · rcases hs' with hs' | ⟨id, cells, h1, h2, _⟩
    · rw [hs'.1]; exact ⟨_, rfl, hplain (by simp [hs'.1])⟩
    · rw [h1]; exact hdel id cells h1 h2
  · rcases hs' with hs' | ⟨id, cells, h1, h2, _⟩
    · rw [hs'.1]; exact ⟨_, rfl, hplain (by simp [hs'.1])⟩
    · rw [h1]; exact hdel id cells h1 h2

theorem extentOk_nonneg {ty : Ty} {e : Int} (h : Buf.extentOk ty e) : 0 ≤ e := by
  rcases ty with ⟨_ | k, m⟩ | ⟨_ | k, m⟩ <;> simp only [Buf.extentOk] at h <;> omega

theorem extentOk_good {ty : Ty} {e : Int} (h : Buf.extentOk ty e) : GoodSize ty e.toNat := by
  rcases ty with ⟨_ | k, m⟩ | ⟨_ | k, m⟩ <;> simp only [Buf.extentOk] at h <;> simp only [GoodSize] <;> omega

/-- What it means that the model does the same as the specification in one step. -/
def StepSim (tyOf : Nat → Ty) (m : Outcome (State × Resp)) : Outcome (Spec.Buf.Store × Resp) → Prop
  | .ok (a', r) => ∃ s', m = .ok (s', r) ∧ Rel tyOf s' a'
  | .throw e => m = .throw e
  | .failFast => m = .failFast
  | .ub => True

theorem create_none {a : Spec.Buf.Store} {b : Nat} (h : a b = none) (ty : Ty) (x : Outcome (List Cell)) :
    Spec.Buf.create a b ty x = x.bind fun elems => .ok (Spec.Buf.set a b (some (ty, elems)), .unit) := by
  simp [Spec.Buf.create, h]

theorem create_some {a : Spec.Buf.Store} {b : Nat} {y : Ty × List Cell} (h : a b = some y) (ty : Ty) (x : Outcome (List Cell)) :
    Spec.Buf.create a b ty x = .ub := by
  simp [Spec.Buf.create, h]

theorem use_none {α : Type} {a : Spec.Buf.Store} {b : Nat} (h : a b = none) (f : Ty → List Cell → Outcome α) :
    Spec.Buf.use a b f = .ub := by
  simp [Spec.Buf.use, h]

theorem use_some {α : Type} {a : Spec.Buf.Store} {b : Nat} {ty : Ty} {elems : List Cell} (h : a b = some (ty, elems))
    (f : Ty → List Cell → Outcome α) : Spec.Buf.use a b f = f ty elems := by
  simp [Spec.Buf.use, h]

theorem withObj_some {α : Type} {s : State} {b : Nat} {o : Obj} (h : s.objs b = some o) (f : Obj → Outcome α) :
    s.withObj b f = f o := by
  simp [State.withObj, h]

theorem sim_construct {tyOf : Nat → Ty} {s : State} {a : Spec.Buf.Store} (hR : Rel tyOf s a) (limit b : Nat) (ty : Ty) (e : Int)
    (hwf : (Op.construct b ty e).wellFormed tyOf) :
    StepSim tyOf (step limit s (.construct b ty e)) (Spec.Buf.step limit a (.construct b ty e)) := by
  obtain ⟨hty, hw, he1, he2⟩ := hwf
  simp only [Spec.Buf.step]
  rcases ha : a b with _ | x
  · have hb := rel_none hR ha
    rw [create_none ha]
    simp only [step, hb, constructExtent, wrap_request e he1 he2, Spec.Buf.fresh]
    by_cases hal : Buf.allocates ty (Buf.request e) ∧ limit < Buf.request e
    · rw [if_pos hal, construct_throw limit s.heap ty _ hal.1 hal.2]
      simp [StepSim]
    · rw [if_neg hal]
      obtain ⟨h', o, hc, hoty, hext, hgood⟩ := construct_ok limit s.heap ty _ hal
      rw [hc]
      by_cases hok : Buf.extentOk ty e
      · have hchk : checkExtent ty e = true := (checkExtent_iff ty e).2 hok
        have hreq : Buf.request e = e.toNat := by
          have := extentOk_nonneg hok
          simp [Buf.request, show ¬ e < 0 by omega]
        rw [hreq] at hgood
        obtain ⟨h1, h2, h3⟩ := hgood (extentOk_good hok)
        simp only [hok, not_true, if_false, Outcome.bind_ok, hchk, Outcome.expects_true, StepSim]
        refine ⟨_, rfl, ?_⟩
        subst hoty
        exact rel_create hR hb hext h1 hty (by rw [h2, h3]) (by rw [h2]; exact extentOk_good hok)
      · have hchk : checkExtent ty e = false := by
          rcases hcc : checkExtent ty e with _ | _
          · rfl
          · exact absurd ((checkExtent_iff ty e).1 hcc) hok
        simp [hok, hchk, StepSim]
  · rw [create_some ha]; trivial

theorem arrayOk_good {ty : Ty} {n : Nat} (h : ty.arrayOk n = true) (h' : ∀ m, ty = .fixed none m → n ≤ m) : GoodSize ty n := by
  rcases ty with ⟨_ | k, m⟩ | ⟨_ | k, m⟩ <;> simp only [GoodSize, Ty.arrayOk, Ty.extent, decide_eq_true_eq] at h ⊢ <;>
    first | exact h | exact h' m rfl

/-- Filling a newly made buffer. -/
theorem made_fill {h h' : Heap} {o : Obj} {n : Nat} (he : Ext h h' o) (hs : Shape h' o) (hn : o.size = n) (vs : List Int)
    (hvs : vs.length = n) :
    ∃ r, storeAll h' o 0 vs = .ok r ∧ Ext h r.1 r.2 ∧ Shape r.1 r.2 ∧ r.2.ty = o.ty ∧
      vs.map Cell.val = (view r.1 r.2).take r.2.size ∧ r.2.size = n := by
  have hsz := shape_size hs
  have hlen : 0 + vs.length ≤ (view h' o).length := by omega
  refine ⟨_, storeAll_eq h' o (shape_valid hs) 0 vs hlen, ext_setView he _, ?_, setView_ty _ _ _, ?_, by rw [setView_size, hn]⟩
  · exact shape_setView hs _ (overwrite_length _ _ _)
  · rw [view_setView, setView_size, hn, overwrite_eq _ _ _ hlen, ← hvs]
    · simp
    · intro hd
      have : (overwrite (view h' o) 0 vs).length = 0 := by rw [overwrite_length]; simp [view, hd]
      simpa using this

theorem sim_constructArray {tyOf : Nat → Ty} {s : State} {a : Spec.Buf.Store} (hR : Rel tyOf s a) (limit b : Nat) (ty : Ty)
    (vals : List Int) (hwf : (Op.constructArray b ty vals).wellFormed tyOf) :
    StepSim tyOf (step limit s (.constructArray b ty vals)) (Spec.Buf.step limit a (.constructArray b ty vals)) := by
  obtain ⟨hty, hw, harr, _⟩ := hwf
  simp only [Spec.Buf.step]
  rcases ha : a b with _ | x
  · have hb := rel_none hR ha
    rw [create_none ha]
    simp only [step, hb, constructArray, Spec.Buf.fromArray]
    by_cases hal : Buf.allocates ty vals.length ∧ limit < vals.length
    · rw [if_pos hal, construct_throw limit s.heap ty _ hal.1 hal.2]
      simp [StepSim]
    · rw [if_neg hal]
      obtain ⟨h', o, hc, hoty, hext, hgood⟩ := construct_ok limit s.heap ty _ hal
      rw [hc]
      have main : GoodSize ty vals.length → StepSim tyOf
          (((storeAll h' o 0 vals)).bind fun r => .ok (⟨r.1, update s.objs b (some r.2)⟩, Resp.unit))
          ((Outcome.ok (vals.map Cell.val)).bind fun elems => .ok (Spec.Buf.set a b (some (ty, elems)), Resp.unit)) := by
        intro hg
        obtain ⟨h1, h2, -⟩ := hgood hg
        obtain ⟨r, hr, e1, e2, e3, e4, e5⟩ := made_fill hext h1 h2 vals rfl
        rw [hr]
        simp only [Outcome.bind_ok, StepSim]
        refine ⟨_, rfl, ?_⟩
        have hrty : r.2.ty = ty := by rw [e3, hoty]
        rw [← hrty]
        exact rel_create hR hb e1 e2 (by rw [hrty]; exact hty) e4 (by rw [hrty, e5]; exact hg)
      simp only [Outcome.bind_ok]
      split
      · rename_i m
        by_cases hm : vals.length ≤ m
        · rw [if_pos hm]; exact main hm
        · rw [if_neg hm]; trivial
      · rename_i hne
        apply main
        apply arrayOk_good harr
        intro m hm; exact absurd hm (hne m)
  · rw [create_some ha]; trivial

theorem map_val_of_no_uninit (l : List Cell) (h : Cell.uninit ∉ l) : ∃ vs : List Int, l = vs.map Cell.val := by
  induction l with
  | nil => exact ⟨[], rfl⟩
  | cons c l ih =>
    simp only [List.mem_cons, not_or] at h
    obtain ⟨vs, rfl⟩ := ih h.2
    rcases c with _ | v
    · exact absurd rfl h.1
    · exact ⟨v :: vs, rfl⟩

theorem get_ok_of_map (vs : List Int) (l : List Cell) (n : Nat) (h : vs.map Cell.val = l.take n) (j : Nat) (v : Int)
    (hj : vs[j]? = some v) : Spec.Buf.get l j = .ok v := by
  have h1 : (l.take n)[j]? = some (.val v) := by rw [← h]; simp [hj]
  have h2 : l[j]? = some (.val v) := by
    rw [List.getElem?_take] at h1
    by_cases hjn : j < n
    · simpa [hjn] using h1
    · simp [hjn] at h1
  simp [Spec.Buf.get, h2]

theorem sim_copy {tyOf : Nat → Ty} {s : State} {a : Spec.Buf.Store} (hR : Rel tyOf s a) (limit b src : Nat)
    (hwf : (Op.copy b src).wellFormed tyOf) :
    StepSim tyOf (step limit s (.copy b src)) (Spec.Buf.step limit a (.copy b src)) := by
  have hwf : tyOf b = tyOf src := hwf
  simp only [Spec.Buf.step]
  rcases has : a src with _ | ⟨ty, elems⟩
  · rw [use_none has]; trivial
  rw [use_some has]
  rcases ha : a b with _ | x
  swap
  · rw [create_some ha]; trivial
  have hb := rel_none hR ha
  rw [create_none ha]
  obtain ⟨o, ho, hoty, hty, hsh, hel, hg⟩ := rel_some hR has
  have hsz := shape_size hsh
  have hlen : elems.length = o.size := by rw [hel]; simp [hsz]
  simp only [step, hb, withObj_some ho, Spec.Buf.copied, hlen]
  subst hty
  have hdyn : (∃ h' o', (construct limit s.heap o.ty o.size) = .ok (h', o') ∧ o'.ty = o.ty ∧ Ext s.heap h' o' ∧
      Shape h' o' ∧ o'.size = o.size) → Cell.uninit ∉ elems →
      StepSim tyOf (((construct limit s.heap o.ty o.size).bind fun r => copyElems r.1 o r.2 0 o.size).bind
        fun r => .ok (⟨r.1, update s.objs b (some r.2)⟩, Resp.unit))
      ((Outcome.ok elems).bind fun elems => .ok (Spec.Buf.set a b (some (tyOf src, elems)), Resp.unit)) := by
    rintro ⟨h', o', hc, hoty', hext, hsh', hsz'⟩ hun
    obtain ⟨vs, hvs⟩ := map_val_of_no_uninit elems hun
    have hvl : vs.length = o.size := by rw [← hlen, hvs]; simp
    rw [hc, Outcome.bind_ok]
    have hblk : ∀ id, o.data = .block id → h'.blocks id = s.heap.blocks id ∧ o'.data ≠ .block id := by
      intro id hid
      have hlt := rel_block_lt hR ho hid
      rcases hext with ⟨rfl, hn⟩ | ⟨hd, cells, rfl⟩
      · exact ⟨rfl, hn id⟩
      · refine ⟨by simp [update, show id ≠ s.heap.next by omega], ?_⟩
        rw [hd]; simp; omega
    have hcopy : copyElems h' o o' 0 o.size = storeAll h' o' 0 vs := by
      rw [← hvl]
      apply copyElems_eq
      · exact shape_valid hsh'
      · have := shape_size hsh'; omega
      · intro id hid; exact (hblk id hid).2
      · intro j v hj
        rw [load_eq, view_frame (fun id hid => (hblk id hid).1), Nat.zero_add]
        exact get_ok_of_map vs _ _ (by rw [← hvs, hel]) j v hj
    rw [hcopy]
    obtain ⟨r, hr, e1, e2, e3, e4, e5⟩ := made_fill hext hsh' hsz' vs hvl
    rw [hr]
    simp only [Outcome.bind_ok, StepSim]
    refine ⟨_, rfl, ?_⟩
    have hrty : r.2.ty = tyOf src := by rw [e3, hoty', hoty]
    rw [← hrty]
    exact rel_create hR hb e1 e2 (by rw [hrty, hwf]) (by rw [← e4, hvs]) (by rw [hrty, e5]; exact hg)
  have hstat : (∀ id, o.data ≠ .block id) →
      StepSim tyOf ((Outcome.ok (s.heap, o)).bind fun r => .ok (⟨r.1, update s.objs b (some r.2)⟩, Resp.unit))
      ((Outcome.ok elems).bind fun elems => .ok (Spec.Buf.set a b (some (tyOf src, elems)), Resp.unit)) := by
    intro hd
    simp only [Outcome.bind_ok, StepSim]
    refine ⟨_, rfl, ?_⟩
    rw [← hoty]
    exact rel_create hR hb (.inl ⟨rfl, hd⟩) hsh (by rw [hoty, hwf]) hel (by rw [hoty]; exact hg)
  by_cases hal : Buf.allocates (tyOf src) o.size ∧ limit < o.size
  · rw [if_pos hal]
    have hthrow := construct_throw limit s.heap (tyOf src) o.size hal.1 hal.2
    have : (copyConstruct limit s.heap o) = .throw (str "bad_alloc") := by
      unfold copyConstruct
      rw [hoty, hthrow]
      rcases hk : (tyOf src).kind with n | cap | cap | _
      · have := hthrow; simp [construct, hk] at this
      · have := hthrow; simp [construct, hk] at this
      · rfl
      · rfl
    rw [this]
    simp [StepSim]
  · rw [if_neg hal]
    by_cases hun : Cell.uninit ∈ elems
    · rw [if_pos hun]; trivial
    rw [if_neg hun]
    have hmk : ∃ h' o', (construct limit s.heap o.ty o.size) = .ok (h', o') ∧ o'.ty = o.ty ∧ Ext s.heap h' o' ∧
      Shape h' o' ∧ o'.size = o.size := by
      rw [hoty]
      obtain ⟨h', o', hc, h1, h2, h3⟩ := construct_ok limit s.heap (tyOf src) o.size hal
      obtain ⟨h3, h4, -⟩ := h3 hg
      exact ⟨h', o', hc, h1, h2, h3, h4⟩
    have hsh' := hsh
    unfold Shape at hsh'
    unfold copyConstruct
    rcases hk : o.ty.kind with n | cap | cap | _ <;> rw [hk] at hsh' <;> simp only at hsh' ⊢
    · exact hstat (by simp [hsh'.1])
    · exact hstat (by simp [hsh'.1])
    · exact hdyn hmk hun
    · exact hdyn hmk hun

theorem sim_step {tyOf : Nat → Ty} {s : State} {a : Spec.Buf.Store} (hR : Rel tyOf s a) (limit : Nat) (op : Op)
    (hwf : op.wellFormed tyOf) : StepSim tyOf (step limit s op) (Spec.Buf.step limit a op) := by
  have hread : ∀ {o : Obj} {elems : List Cell} (i : Nat) (v : Int), elems = (view s.heap o).take o.size →
      Spec.Buf.get elems i = .ok v → load s.heap o i = .ok v := by
    intro o elems i v hel hg
    rw [load_eq]
    unfold Spec.Buf.get at hg ⊢
    rw [hel, List.getElem?_take] at hg
    by_cases hi : i < o.size
    · simpa [hi] using hg
    · simp [hi] at hg
  have hgetcase : ∀ (elems : List Cell) (i : Nat), (∃ v, Spec.Buf.get elems i = .ok v) ∨ Spec.Buf.get elems i = .ub := by
    intro elems i
    unfold Spec.Buf.get
    rcases elems[i]? with _ | _ | v
    · exact .inr rfl
    · exact .inr rfl
    · exact .inl ⟨v, rfl⟩
  cases op with
  | construct b ty e => exact sim_construct hR limit b ty e hwf
  | constructArray b ty vals => exact sim_constructArray hR limit b ty vals hwf
  | copy b src => exact sim_copy hR limit b src hwf
  | assignArray b vals =>
    simp only [Spec.Buf.step]
    rcases ha : a b with _ | ⟨ty, elems⟩
    · rw [use_none ha]; trivial
    rw [use_some ha]
    obtain ⟨o, ho, hoty, hty, hsh, hel, hg⟩ := rel_some hR ha
    have hsz := shape_size hsh
    have hlen : elems.length = o.size := by rw [hel]; simp [hsz]
    simp only [step, withObj_some ho, hlen]
    by_cases hv : vals.length = o.size
    · have hl : 0 + vals.length ≤ (view s.heap o).length := by omega
      rw [if_pos hv, decide_eq_true hv, Outcome.expects_true, Outcome.bind_ok,
        storeAll_eq _ _ (shape_valid hsh) 0 vals hl, Outcome.bind_ok]
      refine ⟨_, rfl, ?_⟩
      have := rel_modify hR ho hsh hoty hty (overwrite (view s.heap o) 0 vals) (overwrite_length _ _ _) hg
      rw [overwrite_eq _ _ _ hl, ← hv] at this
      simp only [List.take_zero, List.nil_append, Nat.zero_add] at this
      rw [List.take_left' (by simp)] at this
      rw [overwrite_eq _ _ _ hl]
      simpa using this
    · rw [if_neg hv, decide_eq_false hv]; rfl
  | copyAssign b src =>
    obtain ⟨hca, hts⟩ := hwf
    simp only [Spec.Buf.step]
    rcases ha : a b with _ | ⟨ty, elems⟩
    · rw [use_none ha]; trivial
    rw [use_some ha]
    rcases has : a src with _ | ⟨ty', elems'⟩
    · rw [use_none has]; trivial
    rw [use_some has]
    obtain ⟨o, ho, hoty, hty, hsh, hel, hg⟩ := rel_some hR ha
    obtain ⟨o', ho', hoty', hty', hsh', hel', hg'⟩ := rel_some hR has
    simp only [step, withObj_some ho, withObj_some ho']
    refine ⟨_, rfl, ?_⟩
    have hown : ∀ {o : Obj}, Shape s.heap o → o.ty = tyOf b → o.data = .own := by
      intro o hsh hoty
      unfold Shape at hsh
      rw [hoty] at hsh
      unfold Ty.copyAssignable at hca
      rcases hk : (tyOf b).kind with n | cap | cap | _ <;> rw [hk] at hsh hca <;> simp only at hsh hca
      · exact hsh.1
      · exact hsh.1
      · simp at hca
      · simp at hca
    have d1 := hown hsh hoty
    have d2 := hown hsh' (by rw [hoty', hts])
    apply rel_update hR
    · intro _ _ _; rfl
    · intro id hid
      refine .inl ⟨hid, ?_⟩
      intro o2 ho2; rw [ho] at ho2; cases ho2; simp [d1]
    · intro o2 id ho2 hd2; cases ho2; rw [d2] at hd2; cases hd2
    · exact hR.fresh
    · exact ⟨by rw [hoty', hts], by rw [hty', hts], hsh', hel', by rw [hts]; exact hg'⟩
  | size b =>
    simp only [Spec.Buf.step]
    rcases ha : a b with _ | ⟨ty, elems⟩
    · rw [use_none ha]; trivial
    rw [use_some ha]
    obtain ⟨o, ho, hoty, hty, hsh, hel, hg⟩ := rel_some hR ha
    have hsz := shape_size hsh
    have hlen : elems.length = o.size := by rw [hel]; simp [hsz]
    simp only [step, withObj_some ho, hlen]
    exact ⟨_, rfl, hR⟩
  | empty b =>
    simp only [Spec.Buf.step]
    rcases ha : a b with _ | ⟨ty, elems⟩
    · rw [use_none ha]; trivial
    rw [use_some ha]
    obtain ⟨o, ho, hoty, hty, hsh, hel, hg⟩ := rel_some hR ha
    have hsz := shape_size hsh
    have hlen : elems.length = o.size := by rw [hel]; simp [hsz]
    have : elems = [] ↔ o.size = 0 := by rw [← hlen, List.length_eq_zero_iff]
    simp only [step, withObj_some ho, this]
    exact ⟨_, rfl, hR⟩
  | read b i =>
    simp only [Spec.Buf.step]
    rcases ha : a b with _ | ⟨ty, elems⟩
    · rw [use_none ha]; trivial
    rw [use_some ha]
    obtain ⟨o, ho, hoty, hty, hsh, hel, hg⟩ := rel_some hR ha
    simp only [step, withObj_some ho]
    rcases hgetcase elems i with ⟨v, hv⟩ | hv
    · rw [hv, hread i v hel hv]
      exact ⟨_, rfl, hR⟩
    · rw [hv]; trivial
  | write b i v =>
    simp only [Spec.Buf.step]
    rcases ha : a b with _ | ⟨ty, elems⟩
    · rw [use_none ha]; trivial
    rw [use_some ha]
    obtain ⟨o, ho, hoty, hty, hsh, hel, hg⟩ := rel_some hR ha
    have hsz := shape_size hsh
    have hlen : elems.length = o.size := by rw [hel]; simp [hsz]
    simp only [step, withObj_some ho]
    by_cases hi : i < elems.length
    · rw [if_pos hi, store_eq _ _ (shape_valid hsh) i (by omega) v]
      refine ⟨_, rfl, ?_⟩
      have := rel_modify hR ho hsh hoty hty ((view s.heap o).set i (.val v)) (by simp) hg
      rw [List.take_set, ← hel] at this
      exact this
    · rw [if_neg hi]; trivial
  | front b =>
    simp only [Spec.Buf.step]
    rcases ha : a b with _ | ⟨ty, elems⟩
    · rw [use_none ha]; trivial
    rw [use_some ha]
    obtain ⟨o, ho, hoty, hty, hsh, hel, hg⟩ := rel_some hR ha
    have hsz := shape_size hsh
    have hlen : elems.length = o.size := by rw [hel]; simp [hsz]
    have hem : elems = [] ↔ o.size = 0 := by rw [← hlen, List.length_eq_zero_iff]
    simp only [step, withObj_some ho]
    by_cases he : elems = []
    · rw [if_pos he, decide_eq_false (by simpa using hem.1 he)]; rfl
    · rw [if_neg he, decide_eq_true (show o.size ≠ 0 from fun h => he (hem.2 h))]
      rcases hgetcase elems 0 with ⟨v, hv⟩ | hv
      · rw [hv, hread 0 v hel hv]
        exact ⟨_, rfl, hR⟩
      · rw [hv]; trivial
  | back b =>
    simp only [Spec.Buf.step]
    rcases ha : a b with _ | ⟨ty, elems⟩
    · rw [use_none ha]; trivial
    rw [use_some ha]
    obtain ⟨o, ho, hoty, hty, hsh, hel, hg⟩ := rel_some hR ha
    have hsz := shape_size hsh
    have hlen : elems.length = o.size := by rw [hel]; simp [hsz]
    have hem : elems = [] ↔ o.size = 0 := by rw [← hlen, List.length_eq_zero_iff]
    simp only [step, withObj_some ho]
    by_cases he : elems = []
    · rw [if_pos he, decide_eq_false (by simpa using hem.1 he)]; rfl
    · rw [if_neg he, decide_eq_true (show o.size ≠ 0 from fun h => he (hem.2 h))]
      rcases hgetcase elems (elems.length - 1) with ⟨v, hv⟩ | hv
      · have := hread _ v hel hv
        rw [hlen] at this
        rw [hv, this]
        exact ⟨_, rfl, hR⟩
      · rw [hv]; trivial
  | destroy b =>
    simp only [Spec.Buf.step]
    rcases ha : a b with _ | ⟨ty, elems⟩
    · rw [use_none ha]; trivial
    rw [use_some ha]
    obtain ⟨o, ho, hoty, hty, hsh, hel, hg⟩ := rel_some hR ha
    obtain ⟨h', hd, hR'⟩ := rel_destroy hR ho hsh
    simp only [step, withObj_some ho, hd]
    exact ⟨_, rfl, hR'⟩

theorem sim_run {tyOf : Nat → Ty} (limit : Nat) (ops : List Op) {s : State} {a : Spec.Buf.Store} (hR : Rel tyOf s a)
    (hwf : ∀ op ∈ ops, op.wellFormed tyOf) :
    match Spec.Buf.run limit a ops with
    | .ok (a', rs) => ∃ s', run limit s ops = .ok (s', rs) ∧ Rel tyOf s' a'
    | .throw e => run limit s ops = .throw e
    | .failFast => run limit s ops = .failFast
    | .ub => True := by
  induction ops generalizing s a with
  | nil => exact ⟨s, rfl, hR⟩
  | cons op ops ih =>
    have h1 := sim_step hR limit op (hwf op (by simp))
    simp only [Spec.Buf.run, run]
    rcases hs : Spec.Buf.step limit a op with ⟨a', r⟩ | m | _ | _ <;> rw [hs] at h1
    · obtain ⟨s', h1, hR'⟩ := h1
      have h2 := ih hR' (fun op' h => hwf op' (by simp [h]))
      simp only [h1, Outcome.bind_ok]
      rcases hr : Spec.Buf.run limit a' ops with ⟨a'', rs⟩ | m | _ | _ <;> rw [hr] at h2 <;> simp only at h2
      · obtain ⟨s'', h2, hR''⟩ := h2
        exact ⟨s'', by rw [h2]; rfl, hR''⟩
      · simp [h2]
      · simp [h2]
      · simp
    · have h1 : step limit s op = .throw m := h1
      simp [h1]
    · have h1 : step limit s op = .failFast := h1
      simp [h1]
    · simp

end Makeshift.Buffer
