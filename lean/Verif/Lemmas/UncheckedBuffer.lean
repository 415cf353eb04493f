import Verif.Lemmas.BufferSim
import Verif.Model.UncheckedBuffer
import Verif.Spec.UncheckedBuffer

/-!
# Buffers without checks: the model and the specification do the same
-/

namespace Makeshift.Unchecked.Buf

open Makeshift Makeshift.Buffer
open Makeshift.Spec.RawBuf (Raw make fill firstValues copied allocated inObject)

/-- What a variable of the specification holds. -/
def raw (h : Heap) (o : Obj) : Raw := ⟨o.ty, o.size, view h o⟩

/-- The layout of an object of a given kind; unlike `Shape` this leaves the size of `fixed_buffer` objects open. -/
def Layout (h : Heap) (o : Obj) : Prop :=
  match o.ty.kind with
  | .inPlace n => o.data = .own ∧ o.inPlace.length = n ∧ o.size = n
  | .inPlaceMax cap => o.data = .own ∧ o.inPlace.length = cap
  | .small cap => (o.data = .own ∧ o.inPlace.length = cap ∧ o.size ≤ cap) ∨
      ∃ id cells, o.data = .block id ∧ h.blocks id = some cells ∧ cells.length = o.size ∧ cap < o.size
  | .heap => (o.data = .null ∧ o.size = 0) ∨
      ∃ id cells, o.data = .block id ∧ h.blocks id = some cells ∧ cells.length = o.size ∧ 0 < o.size

theorem layout_cases {h : Heap} {o : Obj} (hs : Layout h o) :
    o.data = .own ∨ o.data = .null ∨ ∃ id cells, o.data = .block id ∧ h.blocks id = some cells := by
  unfold Layout at hs
  rcases hk : o.ty.kind with n | cap | cap | _ <;> rw [hk] at hs <;> simp only at hs
  · exact .inl hs.1
  · exact .inl hs.1
  · rcases hs with hs | ⟨id, cells, h1, h2, _⟩
    · exact .inl hs.1
    · exact .inr (.inr ⟨id, cells, h1, h2⟩)
  · rcases hs with hs | ⟨id, cells, h1, h2, _⟩
    · exact .inr (.inl hs.1)
    · exact .inr (.inr ⟨id, cells, h1, h2⟩)

theorem layout_valid {h : Heap} {o : Obj} (hs : Layout h o) : Valid h o := by
  intro id hid
  rcases layout_cases hs with h1 | h1 | ⟨id', cells, h1, h2⟩
  · simp [h1] at hid
  · simp [h1] at hid
  · rw [h1] at hid; cases hid; simp [h2]

theorem layout_frame {h h' : Heap} {o : Obj} (hs : Layout h o)
    (hb : ∀ id, o.data = .block id → h'.blocks id = h.blocks id) : Layout h' o := by
  unfold Layout at hs ⊢
  rcases hk : o.ty.kind with n | cap | cap | _ <;> rw [hk] at hs <;> simp only at hs ⊢
  · exact hs
  · exact hs
  · rcases hs with hs | ⟨id, cells, h1, h2, h3⟩
    · exact .inl hs
    · exact .inr ⟨id, cells, h1, by rw [hb id h1]; exact h2, h3⟩
  · rcases hs with hs | ⟨id, cells, h1, h2, h3⟩
    · exact .inl hs
    · exact .inr ⟨id, cells, h1, by rw [hb id h1]; exact h2, h3⟩

theorem layout_setView {h : Heap} {o : Obj} (hs : Layout h o) (c : List Cell) (hc : c.length = (view h o).length) :
    Layout (setView h o c).1 (setView h o c).2 := by
  have hs' := hs
  unfold Layout at hs' ⊢
  rw [setView_ty]
  unfold view at hc
  rcases hk : o.ty.kind with n | cap | cap | _ <;> rw [hk] at hs' <;> simp only at hs' ⊢
  · rw [hs'.1] at hc; simp only at hc; simp [setView, hs'.1]; omega
  · rw [hs'.1] at hc; simp only at hc; simp [setView, hs'.1]; omega
  · rcases hs' with hs' | ⟨id, cells, h1, h2, h3, h4⟩
    · rw [hs'.1] at hc; simp only at hc; left; simp [setView, hs'.1]; omega
    · rw [h1] at hc; simp [h2] at hc
      right; exact ⟨id, c, by simp [setView, h1], by simp [setView, h1, update], by rw [setView_size]; omega, by
        rw [setView_size]; exact h4⟩
  · rcases hs' with hs' | ⟨id, cells, h1, h2, h3, h4⟩
    · left; simp [setView, hs'.1, hs'.2]
    · rw [h1] at hc; simp [h2] at hc
      right; exact ⟨id, c, by simp [setView, h1], by simp [setView, h1, update], by rw [setView_size]; omega, by
        rw [setView_size]; exact h4⟩

theorem raw_setView {h : Heap} {o : Obj} (c : List Cell) (hc : c.length = (view h o).length) :
    raw (setView h o c).1 (setView h o c).2 = ⟨o.ty, o.size, c⟩ := by
  unfold raw
  rw [setView_ty, setView_size, view_setView]
  intro hd
  simp [view, hd] at hc
  exact hc

/-! ## construction -/

/-- The new block of a heap. -/
private theorem new_ok {limit : Nat} {h : Heap} {n : Nat} (hl : ¬ limit < n) : h.new limit n =
    .ok ({ blocks := update h.blocks h.next (some (List.replicate n (.val 0))), next := h.next + 1 }, h.next) := by
  simp [Heap.new, hl]

/-- The storage class of a type. -/
theorem kind_of (ty : Ty) : ty.kind = match ty with
    | .buffer none m => if m ≤ 0 then .heap else .small m.toNat
    | .buffer (some k) _ => if inObject ty then .inPlace k else .heap
    | .fixed none m => .inPlaceMax m
    | .fixed (some k) _ => .inPlace k := by
  rcases ty with ⟨_ | k, m⟩ | ⟨_ | k, m⟩
  · exact kind_buffer_none m
  · rw [kind_buffer_some]
    simp only [inObject]
    by_cases h1 : m < 0
    · simp [h1]
    · by_cases h2 : m = 0
      · simp [h2]
      · by_cases h3 : (k : Int) ≤ m
        · simp [h1, h2, h3, show 0 < m by omega]
        · simp [h1, h2, h3]
  · rfl
  · rfl

/-- What `construct` does for `make`. -/
def Made (limit : Nat) (h : Heap) (ty : Ty) (n : Nat) : Outcome Raw → Prop
  | .ok r => ∃ h' o, construct limit h ty n = .ok (h', o) ∧ Ext h h' o ∧ Layout h' o ∧ raw h' o = r
  | .throw m => construct limit h ty n = .throw m
  | .failFast => False
  | .ub => False

private theorem made_heap (limit : Nat) (h : Heap) (ty : Ty) (n : Nat) (hk : ty.kind = .heap) :
    Made limit h ty n (allocated limit ty n) := by
  unfold allocated
  by_cases hl : limit < n
  · rw [if_pos hl]
    simp only [Made, construct, hk, if_pos (show n > 0 by omega), Heap.new, if_pos hl]
    rfl
  · rw [if_neg hl]
    by_cases hn : 0 < n
    · simp only [Made, construct, hk, if_pos (show n > 0 from hn), new_ok hl, Outcome.bind_ok]
      refine ⟨_, _, rfl, .inr ⟨rfl, _, rfl⟩, ?_, ?_⟩
      · simp only [Layout, hk]; right; exact ⟨_, _, rfl, update_same .., by simp, hn⟩
      · simp [raw, view, update]
    · simp only [Made, construct, hk, if_neg (show ¬ n > 0 from hn)]
      refine ⟨_, _, rfl, .inl ⟨rfl, by simp⟩, ?_, ?_⟩
      · simp [Layout, hk]
      · simp [raw, view, show n = 0 by omega]

theorem made (limit : Nat) (h : Heap) (ty : Ty) (n : Nat) : Made limit h ty n (make limit ty n) := by
  have hk := kind_of ty
  rcases ty with ⟨_ | k, m⟩ | ⟨_ | k, m⟩ <;> simp only at hk
  · simp only [make]
    by_cases hm : m ≤ 0
    · rw [if_pos hm] at hk
      have h0 : m.toNat = 0 := by omega
      by_cases hn : n ≤ m.toNat
      · rw [if_pos hn]
        have hn0 : n = 0 := by omega
        subst hn0
        simp only [Made, construct, hk]
        refine ⟨_, _, rfl, .inl ⟨rfl, by simp⟩, ?_, ?_⟩
        · simp [Layout, hk]
        · simp [raw, view, h0]
      · rw [if_neg hn]; exact made_heap limit h _ n hk
    · rw [if_neg hm] at hk
      by_cases hn : n ≤ m.toNat
      · rw [if_pos hn]
        simp only [Made, construct, hk, if_pos hn]
        refine ⟨_, _, rfl, .inl ⟨rfl, by simp⟩, ?_, ?_⟩
        · simp [Layout, hk, hn]
        · simp [raw, view]
      · rw [if_neg hn]
        unfold allocated
        by_cases hl : limit < n
        · rw [if_pos hl]
          simp only [Made, construct, hk, if_neg hn, Heap.new, if_pos (show n > limit from hl)]
          rfl
        · rw [if_neg hl]
          simp only [Made, construct, hk, if_neg hn, new_ok hl, Outcome.bind_ok]
          refine ⟨_, _, rfl, .inr ⟨rfl, _, rfl⟩, ?_, ?_⟩
          · simp only [Layout, hk]; right; exact ⟨_, _, rfl, update_same .., by simp, by omega⟩
          · simp [raw, view, update]
  · simp only [make]
    by_cases hi : inObject (.buffer (some k) m) = true
    · rw [if_pos hi] at hk ⊢
      simp only [Made, construct, hk]
      refine ⟨_, _, rfl, .inl ⟨rfl, by simp⟩, ?_, ?_⟩
      · simp [Layout, hk]
      · simp [raw, view]
    · rw [if_neg hi] at hk ⊢
      exact made_heap limit h _ n hk
  · simp only [make, Made, construct, hk]
    refine ⟨_, _, rfl, .inl ⟨rfl, by simp⟩, ?_, ?_⟩
    · simp [Layout, hk]
    · simp [raw, view]
  · simp only [make, Made, construct, hk]
    refine ⟨_, _, rfl, .inl ⟨rfl, by simp⟩, ?_, ?_⟩
    · simp [Layout, hk]
    · simp [raw, view]

/-! ## writing and reading -/

theorem store_ub {h : Heap} {o : Obj} (hv : Valid h o) {i : Nat} (hi : (view h o).length ≤ i) (v : Int) : store h o i v = .ub := by
  unfold store
  rcases hd : o.data with _ | _ | id
  · rfl
  · simp only [view, hd] at hi
    simp only [if_neg (show ¬ i < o.inPlace.length by omega)]
  · have := hv id hd
    rcases hb : h.blocks id with _ | cells
    · simp only [hb]
    · simp only [view, hd, hb, Option.getD_some] at hi
      simp only [hb, if_neg (show ¬ i < cells.length by omega)]

theorem storeAll_ub : ∀ (vs : List Int) (h : Heap) (o : Obj) (i : Nat), Valid h o → i ≤ (view h o).length →
    (view h o).length < i + vs.length → storeAll h o i vs = .ub
  | [], h, o, i, _, h1, h2 => by simp at h2; omega
  | v :: vs, h, o, i, hv, h1, h2 => by
    unfold storeAll
    by_cases hi : i < (view h o).length
    · rw [store_eq h o hv i hi v, Outcome.bind_ok]
      have hw : view (setView h o ((view h o).set i (.val v))).1 (setView h o ((view h o).set i (.val v))).2 = (view h o).set i (.val v) := by
        apply view_setView
        intro hd
        simp [view, hd] at hi
      refine storeAll_ub vs _ _ _ (valid_setView _ _ _) ?_ ?_
      · rw [hw, List.length_set]; omega
      · rw [hw]; simp only [List.length_set, List.length_cons] at h2 ⊢; omega
    · rw [store_ub hv (by omega) v]; rfl

/-- Filling the first cells. -/
theorem storeAll_fill {h : Heap} {o : Obj} (hs : Layout h o) (vs : List Int) :
    match fill vs (raw h o) with
    | .ok r => ∃ c, c.length = (view h o).length ∧ storeAll h o 0 vs = .ok (setView h o c) ∧ r = ⟨o.ty, o.size, c⟩
    | _ => storeAll h o 0 vs = .ub := by
  unfold fill
  by_cases hl : vs.length ≤ (raw h o).cells.length
  · rw [if_pos hl]
    have hl' : 0 + vs.length ≤ (view h o).length := by simpa [raw] using hl
    refine ⟨_, overwrite_length (view h o) 0 vs, storeAll_eq h o (layout_valid hs) 0 vs hl', ?_⟩
    rw [overwrite_eq _ _ _ hl']
    simp [raw]
  · rw [if_neg hl]
    exact storeAll_ub vs h o 0 (layout_valid hs) (by omega) (by simpa [raw] using hl)

theorem firstValues_some : ∀ (n : Nat) (cells : List Cell) (vs : List Int), firstValues n cells = some vs →
    vs.length = n ∧ ∀ (j : Nat) (v : Int), vs[j]? = some v → Spec.Buf.get cells j = .ok v
  | 0, cells, vs, h => by simp [firstValues] at h; subst h; simp
  | n + 1, [], vs, h => by simp [firstValues] at h
  | n + 1, .uninit :: cells, vs, h => by simp [firstValues] at h
  | n + 1, .val w :: cells, vs, h => by
    simp only [firstValues, Option.map_eq_some_iff] at h
    obtain ⟨us, hu, rfl⟩ := h
    obtain ⟨h1, h2⟩ := firstValues_some n cells us hu
    refine ⟨by simp [h1], fun j v hj => ?_⟩
    cases j with
    | zero => simp at hj; subst hj; rfl
    | succ j => simpa [Spec.Buf.get] using h2 j v (by simpa using hj)

theorem firstValues_none : ∀ (n : Nat) (cells : List Cell), firstValues n cells = none → ∃ j < n, Spec.Buf.get cells j = .ub
  | 0, cells, h => by simp [firstValues] at h
  | n + 1, [], _ => ⟨0, by omega, rfl⟩
  | n + 1, .uninit :: cells, _ => ⟨0, by omega, rfl⟩
  | n + 1, .val w :: cells, h => by
    simp only [firstValues, Option.map_eq_none_iff] at h
    obtain ⟨j, hj, hg⟩ := firstValues_none n cells h
    exact ⟨j + 1, by omega, by simpa [Spec.Buf.get] using hg⟩

theorem load_cases (h : Heap) (o : Obj) (i : Nat) : (∃ v, load h o i = .ok v) ∨ load h o i = .ub := by
  rw [load_eq]
  unfold Spec.Buf.get
  rcases (view h o)[i]? with _ | _ | v
  · exact .inr rfl
  · exact .inr rfl
  · exact .inl ⟨v, rfl⟩

/-- Copying elements of which one has no value. -/
theorem copyElems_ub : ∀ (n : Nat) (h : Heap) (rhs o : Obj) (i : Nat), Valid h o →
    (∀ id, rhs.data = .block id → o.data ≠ .block id) → (∃ j < n, load h rhs (i + j) = .ub) → copyElems h rhs o i n = .ub
  | 0, _, _, _, _, _, _, h => by obtain ⟨j, hj, _⟩ := h; omega
  | n + 1, h, rhs, o, i, hv, hsep, hub => by
    unfold copyElems
    rcases load_cases h rhs i with ⟨v, hl⟩ | hl
    · rw [hl, Outcome.bind_ok]
      by_cases hi : i < (view h o).length
      · rw [store_eq h o hv i hi v, Outcome.bind_ok]
        refine copyElems_ub n _ _ _ _ (valid_setView _ _ _) ?_ ?_
        · intro id hid; rw [setView_data]; exact hsep id hid
        · obtain ⟨j, hj, hb⟩ := hub
          cases j with
          | zero => rw [Nat.add_zero, hl] at hb; cases hb
          | succ j =>
            refine ⟨j, by omega, ?_⟩
            rw [load_eq, view_frame (h := h), ← load_eq, show i + 1 + j = i + (j + 1) by omega]
            · exact hb
            · intro id hid
              exact setView_blocks _ _ _ _ (hsep id hid)
      · rw [store_ub hv (by omega) v]; rfl
    · rw [hl]; rfl

theorem load_back_empty {h : Heap} {o : Obj} (hs : Layout h o) (hw : o.ty.wellFormed = true) (h0 : o.size = 0) :
    load h o (2 ^ 64 - 1) = .ub := by
  rw [load_eq]
  have hlen : (view h o).length < 2 ^ 63 := by
    have hk := kind_of o.ty
    unfold Layout at hs
    rcases hty : o.ty with ⟨_ | k, m⟩ | ⟨_ | k, m⟩ <;> rw [hty] at hk hs hw <;> simp only at hk <;>
      simp only [Ty.wellFormed, Bool.and_eq_true, decide_eq_true_eq] at hw
    · by_cases hm : m ≤ 0
      · rw [hk, if_pos hm] at hs
        rcases hs with hs | ⟨id, cells, h1, h2, h3, h4⟩
        · simp [view, hs.1]
        · omega
      · rw [hk, if_neg hm] at hs
        rcases hs with hs | ⟨id, cells, h1, h2, h3, h4⟩
        · simp only [view, hs.1, hs.2.1]; omega
        · omega
    · by_cases hi : inObject (.buffer (some k) m) = true
      · rw [hk, if_pos hi] at hs
        simp only at hs
        simp only [view, hs.1, hs.2.1]; omega
      · rw [hk, if_neg hi] at hs
        rcases hs with hs | ⟨id, cells, h1, h2, h3, h4⟩
        · simp [view, hs.1]
        · omega
    · rw [hk] at hs
      simp only at hs
      simp only [view, hs.1, hs.2]; omega
    · rw [hk] at hs
      simp only at hs
      simp only [view, hs.1, hs.2.1]; omega
  unfold Spec.Buf.get
  rw [List.getElem?_eq_none (by omega)]

/-! ## the relation -/

/-- Model state and specification state correspond, blocks have exactly one owner. -/
structure RRel (tyOf : Nat → Ty) (s : State) (a : Spec.RawBuf.Store) : Prop where
  vars : ∀ b, a b = (s.objs b).map (raw s.heap)
  good : ∀ b o, s.objs b = some o → o.ty = tyOf b ∧ o.ty.wellFormed = true ∧ Layout s.heap o
  owned : ∀ id, (s.heap.blocks id).isSome → ∃ b o, s.objs b = some o ∧ o.data = .block id
  inj : ∀ b b' o o' id, s.objs b = some o → s.objs b' = some o' → o.data = .block id → o'.data = .block id → b = b'
  fresh : ∀ id, s.heap.next ≤ id → s.heap.blocks id = none

theorem rrel_init (tyOf : Nat → Ty) : RRel tyOf State.init Spec.RawBuf.none where
  vars := fun _ => rfl
  good := by simp [State.init]
  owned := by simp [State.init]
  inj := by simp [State.init]
  fresh := by simp [State.init]

variable {tyOf : Nat → Ty} {s : State} {a : Spec.RawBuf.Store}

theorem rrel_block_lt (hR : RRel tyOf s a) {b : Nat} {o : Obj} {id : Nat}
    (ho : s.objs b = some o) (hd : o.data = .block id) : id < s.heap.next := by
  by_contra hc
  have := layout_valid (hR.good b o ho).2.2 id hd
  rw [hR.fresh id (by omega)] at this
  simp at this

/-- Changing one variable and its own block. -/
theorem rrel_update (hR : RRel tyOf s a) (b : Nat) (h' : Heap) (x : Option Obj)
    (hframe : ∀ id, id < s.heap.next → (∀ o, s.objs b = some o → o.data ≠ .block id) → h'.blocks id = s.heap.blocks id)
    (hlive : ∀ id, (h'.blocks id).isSome →
      ((s.heap.blocks id).isSome ∧ ∀ o, s.objs b = some o → o.data ≠ .block id) ∨ ∃ o, x = some o ∧ o.data = .block id)
    (hown : ∀ o id, x = some o → o.data = .block id → (∃ o', s.objs b = some o' ∧ o'.data = .block id) ∨ s.heap.next ≤ id)
    (hnext : ∀ id, h'.next ≤ id → h'.blocks id = none)
    (hx : ∀ o, x = some o → o.ty = tyOf b ∧ o.ty.wellFormed = true ∧ Layout h' o) :
    RRel tyOf ⟨h', update s.objs b x⟩ (Spec.RawBuf.set a b (x.map (raw h'))) := by
  have hfr : ∀ b' o, b' ≠ b → s.objs b' = some o → ∀ id, o.data = .block id → h'.blocks id = s.heap.blocks id := by
    intro b' o hb ho id hid
    refine hframe id (rrel_block_lt hR ho hid) ?_
    intro o' ho' hd'
    exact hb (hR.inj b' b o o' id ho ho' hid hd')
  refine ⟨?_, ?_, ?_, ?_, hnext⟩
  · intro b'
    by_cases hb : b' = b
    · simp [update, Spec.RawBuf.set, hb]
    · simp only [update, Spec.RawBuf.set, hb, if_false, hR.vars b']
      rcases ho : s.objs b' with _ | o
      · rfl
      · simp only [Option.map_some, raw, view_frame (hfr b' o hb ho)]
  · intro b' o ho
    by_cases hb : b' = b
    · subst hb
      simp only [update, if_true] at ho
      exact hx o ho
    · simp only [update, hb, if_false] at ho
      obtain ⟨h1, h2, h3⟩ := hR.good b' o ho
      exact ⟨h1, h2, layout_frame h3 (hfr b' o hb ho)⟩
  · intro id hid
    rcases hlive id hid with ⟨h1, h2⟩ | ⟨o, h1, h2⟩
    · obtain ⟨b', o, ho, hd⟩ := hR.owned id h1
      refine ⟨b', o, ?_, hd⟩
      have : b' ≠ b := by rintro rfl; exact h2 o ho hd
      simp [update, this, ho]
    · exact ⟨b, o, by simp [update, h1], h2⟩
  · have key : ∀ b' o o' id, b' ≠ b → x = some o → s.objs b' = some o' → o.data = .block id → o'.data ≠ .block id := by
      intro b' o o' id hb hxo ho' hd hd'
      rcases hown o id hxo hd with ⟨o2, h1, h2⟩ | h1
      · exact hb (hR.inj b' b o' o2 id ho' h1 hd' h2)
      · have := rrel_block_lt hR ho' hd'; omega
    intro b1 b2 o1 o2 id h1 h2 d1 d2
    by_cases e1 : b1 = b <;> by_cases e2 : b2 = b <;> simp only [update, e1, e2, if_true, if_false] at h1 h2
    · rw [e1, e2]
    · exact absurd d2 (key b2 o1 o2 id e2 h1 h2 d1)
    · exact absurd d1 (key b1 o2 o1 id e1 h2 h1 d2)
    · exact hR.inj b1 b2 o1 o2 id h1 h2 d1 d2

theorem rrel_create (hR : RRel tyOf s a) {b : Nat} (hb : s.objs b = none) {h' : Heap} {o : Obj} (he : Ext s.heap h' o)
    (hs : Layout h' o) (hty : o.ty = tyOf b) (hw : o.ty.wellFormed = true) {r : Raw} (hr : raw h' o = r) :
    RRel tyOf ⟨h', update s.objs b (some o)⟩ (Spec.RawBuf.set a b (some r)) := by
  subst hr
  apply rrel_update hR b h' (some o)
  · intro id hid _
    rcases he with ⟨rfl, _⟩ | ⟨_, cells, rfl⟩
    · rfl
    · simp [update, show id ≠ s.heap.next by omega]
  · intro id hid
    rcases he with ⟨rfl, _⟩ | ⟨hd, cells, rfl⟩
    · exact .inl ⟨hid, by simp [hb]⟩
    · by_cases hi : id = s.heap.next
      · subst hi; exact .inr ⟨o, rfl, hd⟩
      · simp [update, hi] at hid; exact .inl ⟨hid, by simp [hb]⟩
  · intro o' id ho' hd
    cases ho'
    rcases he with ⟨rfl, hn⟩ | ⟨hd', cells, rfl⟩
    · exact absurd hd (hn id)
    · rw [hd'] at hd; cases hd; exact .inr (Nat.le_refl _)
  · intro id hid
    rcases he with ⟨rfl, _⟩ | ⟨hd, cells, rfl⟩
    · exact hR.fresh id hid
    · simp only at hid
      simp only [update, show id ≠ s.heap.next by omega, if_false]
      exact hR.fresh id (by omega)
  · rintro o' ⟨rfl⟩; exact ⟨hty, hw, hs⟩

theorem rrel_modify (hR : RRel tyOf s a) {b : Nat} {o : Obj} (ho : s.objs b = some o) (c : List Cell)
    (hc : c.length = (view s.heap o).length) :
    RRel tyOf ⟨(setView s.heap o c).1, update s.objs b (some (setView s.heap o c).2)⟩
      (Spec.RawBuf.set a b (some ⟨o.ty, o.size, c⟩)) := by
  obtain ⟨hty, hw, hs⟩ := hR.good b o ho
  rw [← raw_setView c hc]
  apply rrel_update hR b _ (some (setView s.heap o c).2)
  · intro id _ hid
    exact setView_blocks _ _ _ _ (hid o ho)
  · intro id hid
    by_cases hd : o.data = .block id
    · exact .inr ⟨_, rfl, by rw [setView_data]; exact hd⟩
    · rw [setView_blocks _ _ _ _ hd] at hid
      refine .inl ⟨hid, ?_⟩
      intro o' ho' hd'
      rw [ho] at ho'; cases ho'; exact hd hd'
  · intro o' id ho' hd
    cases ho'
    rw [setView_data] at hd
    exact .inl ⟨o, ho, hd⟩
  · intro id hid
    rw [setView_next] at hid
    have hd : o.data ≠ .block id := by
      intro hd; have := rrel_block_lt hR ho hd; omega
    rw [setView_blocks _ _ _ _ hd]
    exact hR.fresh id hid
  · rintro o' ⟨rfl⟩
    rw [setView_ty]
    exact ⟨hty, hw, layout_setView hs c hc⟩

theorem rrel_destroy (hR : RRel tyOf s a) {b : Nat} {o : Obj} (ho : s.objs b = some o) :
    ∃ h', destroy s.heap o = .ok h' ∧ RRel tyOf ⟨h', update s.objs b none⟩ (Spec.RawBuf.set a b none) := by
  have hplain : (∀ id, o.data ≠ .block id) → RRel tyOf ⟨s.heap, update s.objs b none⟩ (Spec.RawBuf.set a b none) := by
    intro hd
    apply rrel_update hR b s.heap none
    · intro _ _ _; rfl
    · intro id hid
      refine .inl ⟨hid, ?_⟩
      intro o' ho'; rw [ho] at ho'; cases ho'; exact hd id
    · simp
    · exact hR.fresh
    · simp
  have hdel : ∀ id cells, o.data = .block id → s.heap.blocks id = some cells →
      ∃ h', s.heap.delete id = .ok h' ∧ RRel tyOf ⟨h', update s.objs b none⟩ (Spec.RawBuf.set a b none) := by
    intro id cells hd hc
    refine ⟨{ s.heap with blocks := update s.heap.blocks id none }, by simp [Heap.delete, hc], ?_⟩
    apply rrel_update hR b { s.heap with blocks := update s.heap.blocks id none } none
    · intro j _ hj
      have : j ≠ id := by rintro rfl; exact hj o ho hd
      simp [update, this]
    · intro j hj
      by_cases h : j = id
      · simp [update, h] at hj
      · simp [update, h] at hj
        refine .inl ⟨hj, ?_⟩
        intro o' ho' hd'; rw [ho] at ho'; cases ho'
        rw [hd] at hd'; cases hd'; exact h rfl
    · simp
    · intro j hj
      by_cases h : j = id
      · simp [update, h]
      · simp only [update, h, if_false]; exact hR.fresh j hj
    · simp
  have hs' := (hR.good b o ho).2.2
  unfold Layout at hs'
  unfold destroy
  rcases hk : o.ty.kind with n | cap | cap | _ <;> rw [hk] at hs' <;> simp only at hs' ⊢
  · exact ⟨_, rfl, hplain (by simp [hs'.1])⟩
  · exact ⟨_, rfl, hplain (by simp [hs'.1])⟩
  · rcases hs' with hs' | ⟨id, cells, h1, h2, _⟩
    · rw [hs'.1]; exact ⟨_, rfl, hplain (by simp [hs'.1])⟩
    · rw [h1]; exact hdel id cells h1 h2
  · rcases hs' with hs' | ⟨id, cells, h1, h2, _⟩
    · rw [hs'.1]; exact ⟨_, rfl, hplain (by simp [hs'.1])⟩
    · rw [h1]; exact hdel id cells h1 h2

/-- The model does the same as the specification in one step. -/
def StepSame (tyOf : Nat → Ty) (m : Outcome (State × Resp)) : Outcome (Spec.RawBuf.Store × Resp) → Prop
  | .ok (a', r) => ∃ s', m = .ok (s', r) ∧ RRel tyOf s' a'
  | .throw e => m = .throw e
  | .failFast => m = .failFast
  | .ub => m = .ub

theorem use_none (hR : RRel tyOf s a) {b : Nat} (h : s.objs b = none) {α : Type} (f : Raw → Outcome α) : Spec.RawBuf.use a b f = .ub := by
  simp [Spec.RawBuf.use, hR.vars b, h]

theorem use_some (hR : RRel tyOf s a) {b : Nat} {o : Obj} (h : s.objs b = some o) {α : Type} (f : Raw → Outcome α) :
    Spec.RawBuf.use a b f = f (raw s.heap o) := by
  simp [Spec.RawBuf.use, hR.vars b, h]

theorem create_none (hR : RRel tyOf s a) {b : Nat} (h : s.objs b = none) (x : Outcome Raw) :
    Spec.RawBuf.create a b x = x.bind fun r => .ok (Spec.RawBuf.set a b (some r), .unit) := by
  simp [Spec.RawBuf.create, hR.vars b, h]

theorem create_some (hR : RRel tyOf s a) {b : Nat} {o : Obj} (h : s.objs b = some o) (x : Outcome Raw) :
    Spec.RawBuf.create a b x = .ub := by
  simp [Spec.RawBuf.create, hR.vars b, h]

theorem withObj_none {α : Type} {b : Nat} (h : s.objs b = none) (f : Obj → Outcome α) : s.withObj b f = .ub := by
  simp [State.withObj, h]

theorem raw_ty {h : Heap} {o : Obj} {ty : Ty} {n limit : Nat} {r : Raw} (hm : make limit ty n = .ok r) (hr : raw h o = r) : o.ty = ty := by
  have : r.ty = ty := by
    rcases ty with ⟨_ | k, m⟩ | ⟨_ | k, m⟩ <;> simp only [make, allocated] at hm
    · split at hm
      · cases hm; rfl
      · split at hm
        · cases hm
        · cases hm; rfl
    · split at hm
      · cases hm; rfl
      · split at hm
        · cases hm
        · cases hm; rfl
    · cases hm; rfl
    · cases hm; rfl
  rw [← hr] at this
  exact this

theorem make_cases (limit : Nat) (ty : Ty) (n : Nat) : (∃ r, make limit ty n = .ok r) ∨ ∃ m, make limit ty n = .throw m := by
  have h := made limit ⟨fun _ => none, 0⟩ ty n
  rcases hm : make limit ty n with r | m | _ | _ <;> rw [hm] at h
  · exact .inl ⟨r, rfl⟩
  · exact .inr ⟨m, rfl⟩
  · exact h.elim
  · exact h.elim

theorem same_construct (hR : RRel tyOf s a) (limit b : Nat) (ty : Ty) (e : Int) (hwf : (Op.construct b ty e).wellFormed tyOf) :
    StepSame tyOf (step .off limit s (.construct b ty e)) (Spec.RawBuf.step limit a (.construct b ty e)) := by
  obtain ⟨hty, hw, he1, he2⟩ := hwf
  simp only [Spec.RawBuf.step, step]
  rcases ho : s.objs b with _ | o
  swap
  · rw [create_some hR ho]; rfl
  rw [create_none hR ho]
  simp only [constructExtent, wrap_request e he1 he2, Checks.expects, Outcome.bind_ok]
  have hm := made limit s.heap ty (Spec.Buf.request e)
  rcases hk : make limit ty (Spec.Buf.request e) with r | m | _ | _ <;> rw [hk] at hm
  · obtain ⟨h', o, hc, hext, hlay, hraw⟩ := hm
    have hoty := raw_ty hk hraw
    rw [hc]
    simp only [Outcome.bind_ok]
    exact ⟨_, rfl, rrel_create hR ho hext hlay (by rw [hoty, hty]) (by rw [hoty]; exact hw) hraw⟩
  · have hm : construct limit s.heap ty _ = .throw m := hm
    rw [hm]; rfl
  · exact hm.elim
  · exact hm.elim

/-- Filling a newly made buffer. -/
theorem made_filled {h h' : Heap} {o : Obj} (hext : Ext h h' o) (hlay : Layout h' o) (vals : List Int) :
    match fill vals (raw h' o) with
    | .ok r => ∃ q, storeAll h' o 0 vals = .ok q ∧ Ext h q.1 q.2 ∧ Layout q.1 q.2 ∧ raw q.1 q.2 = r ∧ q.2.ty = o.ty
    | _ => storeAll h' o 0 vals = .ub := by
  have hf := storeAll_fill hlay vals
  rcases hk : fill vals (raw h' o) with r | m | _ | _ <;> rw [hk] at hf <;> simp only at hf ⊢
  · obtain ⟨c, hc, hs, hr⟩ := hf
    exact ⟨_, hs, ext_setView hext _, layout_setView hlay c hc, by rw [raw_setView c hc, hr], setView_ty _ _ _⟩
  · exact hf
  · exact hf
  · exact hf

theorem fill_cases (vals : List Int) (r : Raw) : (∃ q, fill vals r = .ok q) ∨ fill vals r = .ub := by
  unfold fill
  split
  · exact .inl ⟨_, rfl⟩
  · exact .inr rfl

theorem same_constructArray (hR : RRel tyOf s a) (limit b : Nat) (ty : Ty) (vals : List Int)
    (hwf : (Op.constructArray b ty vals).wellFormed tyOf) :
    StepSame tyOf (step .off limit s (.constructArray b ty vals)) (Spec.RawBuf.step limit a (.constructArray b ty vals)) := by
  obtain ⟨hty, hw, -, -⟩ := hwf
  simp only [Spec.RawBuf.step, step]
  rcases ho : s.objs b with _ | o
  swap
  · rw [create_some hR ho]; rfl
  rw [create_none hR ho]
  simp only [constructArray]
  have hm := made limit s.heap ty vals.length
  rcases hk : make limit ty vals.length with r | m | _ | _ <;> rw [hk] at hm
  · obtain ⟨h', o, hc, hext, hlay, hraw⟩ := hm
    have hoty := raw_ty hk hraw
    have hf := made_filled hext hlay vals
    rw [hc]
    simp only [Outcome.bind_ok]
    rw [hraw] at hf
    rcases fill_cases vals r with ⟨q, hq⟩ | hq <;> rw [hq] at hf ⊢ <;> simp only at hf
    · obtain ⟨p, hp, hpe, hpl, hpr, hpt⟩ := hf
      rw [hp]
      exact ⟨_, rfl, rrel_create hR ho hpe hpl (by rw [hpt, hoty, hty]) (by rw [hpt, hoty]; exact hw) hpr⟩
    · rw [hf]; rfl
  · have hm : construct limit s.heap ty _ = .throw m := hm
    rw [hm]; rfl
  · exact hm.elim
  · exact hm.elim

theorem same_copy (hR : RRel tyOf s a) (limit b src : Nat) (hwf : (Op.copy b src).wellFormed tyOf) :
    StepSame tyOf (step .off limit s (.copy b src)) (Spec.RawBuf.step limit a (.copy b src)) := by
  have hwf : tyOf b = tyOf src := hwf
  simp only [Spec.RawBuf.step, step]
  rcases hos : s.objs src with _ | o
  · rw [use_none hR hos, withObj_none hos]
    cases s.objs b <;> rfl
  rw [use_some hR hos, withObj_some hos]
  rcases ho : s.objs b with _ | o'
  swap
  · rw [create_some hR ho]; rfl
  rw [create_none hR ho]
  simp only
  obtain ⟨hoty, how, hlay⟩ := hR.good src o hos
  have hstat : (∀ id, o.data ≠ .block id) →
      StepSame tyOf ((Outcome.ok (s.heap, o)).bind fun r => .ok (⟨r.1, update s.objs b (some r.2)⟩, Resp.unit))
      ((Outcome.ok (raw s.heap o)).bind fun r => .ok (Spec.RawBuf.set a b (some r), Resp.unit)) := fun hd =>
    ⟨_, rfl, rrel_create hR ho (.inl ⟨rfl, hd⟩) hlay (by rw [hoty, hwf]) how rfl⟩
  have hdyn : StepSame tyOf (((construct limit s.heap o.ty o.size).bind fun r => copyElems r.1 o r.2 0 o.size).bind
        fun r => .ok (⟨r.1, update s.objs b (some r.2)⟩, Resp.unit))
      (((make limit o.ty o.size).bind fun t =>
        match firstValues o.size (view s.heap o) with
        | some vals => fill vals t
        | none => .ub).bind fun r => .ok (Spec.RawBuf.set a b (some r), Resp.unit)) := by
    have hm := made limit s.heap o.ty o.size
    rcases hk : make limit o.ty o.size with r | m | _ | _ <;> rw [hk] at hm
    · obtain ⟨h', t, hc, hext, htl, hraw⟩ := hm
      have htty := raw_ty hk hraw
      rw [hc]
      simp only [Outcome.bind_ok]
      have hblk : ∀ id, o.data = .block id → h'.blocks id = s.heap.blocks id ∧ t.data ≠ .block id := by
        intro id hid
        have hlt := rrel_block_lt hR hos hid
        rcases hext with ⟨rfl, hn⟩ | ⟨hd, cells, rfl⟩
        · exact ⟨rfl, hn id⟩
        · refine ⟨by simp [update, show id ≠ s.heap.next by omega], ?_⟩
          rw [hd]; simp; omega
      have hview : view h' o = view s.heap o := view_frame fun id hid => (hblk id hid).1
      rcases hfv : firstValues o.size (view s.heap o) with _ | vals
      · obtain ⟨j, hj, hg⟩ := firstValues_none _ _ hfv
        rw [copyElems_ub o.size h' o t 0 (layout_valid htl) (fun id hid => (hblk id hid).2)
          ⟨j, hj, by rw [load_eq, hview, Nat.zero_add]; exact hg⟩]
        rfl
      · obtain ⟨hvl, hvg⟩ := firstValues_some _ _ _ hfv
        simp only
        have hf := made_filled hext htl vals
        rw [hraw] at hf
        rcases fill_cases vals r with ⟨q, hq⟩ | hq <;> rw [hq] at hf ⊢ <;> simp only at hf
        · have hlen : 0 + vals.length ≤ (view h' t).length := by
            unfold fill at hq
            by_cases hc' : vals.length ≤ r.cells.length
            · rw [← hraw] at hc'; simpa [raw] using hc'
            · rw [if_neg hc'] at hq; cases hq
          have hcopy : copyElems h' o t 0 o.size = storeAll h' t 0 vals := by
            rw [← hvl]
            apply copyElems_eq
            · exact layout_valid htl
            · exact hlen
            · intro id hid; exact (hblk id hid).2
            · intro j v hj
              rw [load_eq, hview, Nat.zero_add]
              exact hvg j v hj
          obtain ⟨p, hp, hpe, hpl, hpr, hpt⟩ := hf
          rw [hcopy, hp]
          exact ⟨_, rfl, rrel_create hR ho hpe hpl (by rw [hpt, htty, hoty, hwf]) (by rw [hpt, htty]; exact how) hpr⟩
        · -- a new buffer has room for the elements it was made for, unless its elements are in the object
          have hc' : ¬ vals.length ≤ r.cells.length := by
            intro hc'; unfold fill at hq; rw [if_pos hc'] at hq; cases hq
          have key : ∀ (n : Nat) (g : Heap) (u : Obj) (i : Nat), Valid g u → (∀ id, o.data = .block id → u.data ≠ .block id) →
              i ≤ (view g u).length → (view g u).length < i + n → copyElems g o u i n = .ub := by
            intro n
            induction n with
            | zero => intro g u i _ _ h1 h2; omega
            | succ n ih =>
              intro g u i hv hsep h1 h2
              unfold copyElems
              rcases load_cases g o i with ⟨v, hl⟩ | hl
              · rw [hl, Outcome.bind_ok]
                by_cases hi : i < (view g u).length
                · rw [store_eq g u hv i hi v, Outcome.bind_ok]
                  have hw : view (setView g u ((view g u).set i (.val v))).1 (setView g u ((view g u).set i (.val v))).2 =
                      (view g u).set i (.val v) := by
                    apply view_setView
                    intro hd
                    simp [view, hd] at hi
                  refine ih _ _ _ (valid_setView _ _ _) ?_ ?_ ?_
                  · intro id hid; rw [setView_data]; exact hsep id hid
                  · rw [hw, List.length_set]; omega
                  · rw [hw]; simp only [List.length_set]; omega
                · rw [store_ub hv (by omega) v]; rfl
              · rw [hl]; rfl
          rw [key o.size h' t 0 (layout_valid htl) (fun id hid => (hblk id hid).2) (by omega)
            (by rw [← hraw] at hc'; simp only [raw] at hc'; omega)]
          rfl
    · have hm : construct limit s.heap o.ty _ = .throw m := hm
      rw [hm]; rfl
    · exact hm.elim
    · exact hm.elim
  have hk := kind_of o.ty
  have hlay' := hlay
  unfold Layout at hlay'
  unfold copyConstruct
  rcases hty : o.ty with ⟨_ | k, m⟩ | ⟨_ | k, m⟩ <;> rw [hty] at hk hlay' hdyn <;> simp only at hk
  · have hin : inObject (raw s.heap o).ty = false := by simp [raw, hty, inObject]
    have hc : copied limit (raw s.heap o) = (make limit (.buffer none m) o.size).bind fun t =>
        match firstValues o.size (view s.heap o) with
        | some vals => fill vals t
        | none => .ub := by
      simp only [copied, hin]
      simp only [raw, hty]
      rfl
    rw [hc, hk]
    by_cases hm : m ≤ 0
    · rw [if_pos hm]; exact hdyn
    · rw [if_neg hm]; exact hdyn
  · by_cases hi : inObject (.buffer (some k) m) = true
    · have hc : copied limit (raw s.heap o) = .ok (raw s.heap o) := by simp [copied, raw, hty, hi]
      rw [if_pos hi] at hk
      rw [hk] at hlay'
      rw [hc, hk]
      exact hstat (by simp [hlay'.1])
    · have hin : inObject (raw s.heap o).ty = false := by simp only [raw, hty]; simpa using hi
      have hc : copied limit (raw s.heap o) = (make limit (.buffer (some k) m) o.size).bind fun t =>
          match firstValues o.size (view s.heap o) with
          | some vals => fill vals t
          | none => .ub := by
        simp only [copied, hin]
        simp only [raw, hty]
        rfl
      rw [if_neg hi] at hk
      rw [hc, hk]
      exact hdyn
  · have hc : copied limit (raw s.heap o) = .ok (raw s.heap o) := by simp [copied, raw, hty, inObject]
    rw [hk] at hlay'
    rw [hc, hk]
    exact hstat (by simp [hlay'.1])
  · have hc : copied limit (raw s.heap o) = .ok (raw s.heap o) := by simp [copied, raw, hty, inObject]
    rw [hk] at hlay'
    rw [hc, hk]
    exact hstat (by simp [hlay'.1])

theorem same_step (hR : RRel tyOf s a) (limit : Nat) (op : Op) (hwf : op.wellFormed tyOf) :
    StepSame tyOf (step .off limit s op) (Spec.RawBuf.step limit a op) := by
  have hget : ∀ (o : Obj) (i : Nat), StepSame tyOf ((load s.heap o i).bind fun v => .ok (s, .num v))
      ((Spec.Buf.get (raw s.heap o).cells i).bind fun v => .ok (a, .num v)) := by
    intro o i
    rw [show Spec.Buf.get (raw s.heap o).cells i = load s.heap o i from (load_eq _ _ _).symm]
    rcases load_cases s.heap o i with ⟨v, hv⟩ | hv <;> rw [hv]
    · exact ⟨_, rfl, hR⟩
    · rfl
  cases op with
  | construct b ty e => exact same_construct hR limit b ty e hwf
  | constructArray b ty vals => exact same_constructArray hR limit b ty vals hwf
  | copy b src => exact same_copy hR limit b src hwf
  | assignArray b vals =>
    simp only [Spec.RawBuf.step, step]
    rcases ho : s.objs b with _ | o
    · rw [use_none hR ho, withObj_none ho]; rfl
    rw [use_some hR ho, withObj_some ho]
    simp only [Checks.expects, Outcome.bind_ok]
    have hf := storeAll_fill (hR.good b o ho).2.2 vals
    rcases fill_cases vals (raw s.heap o) with ⟨q, hq⟩ | hq <;> rw [hq] at hf ⊢ <;> simp only at hf
    · obtain ⟨c, hc, hs, rfl⟩ := hf
      rw [hs]
      exact ⟨_, rfl, rrel_modify hR ho c hc⟩
    · rw [hf]; rfl
  | copyAssign b src =>
    obtain ⟨hca, hts⟩ := hwf
    simp only [Spec.RawBuf.step, step]
    rcases ho : s.objs b with _ | o
    · rw [use_none hR ho, withObj_none ho]; rfl
    rw [use_some hR ho, withObj_some ho]
    rcases ho' : s.objs src with _ | o'
    · rw [use_none hR ho', withObj_none ho']; rfl
    rw [use_some hR ho', withObj_some ho']
    obtain ⟨hty, hw, hlay⟩ := hR.good b o ho
    obtain ⟨hty', hw', hlay'⟩ := hR.good src o' ho'
    have hown : ∀ {o : Obj}, Layout s.heap o → o.ty = tyOf b → o.data = .own := by
      intro o hsh hoty
      unfold Layout at hsh
      rw [hoty] at hsh
      unfold Ty.copyAssignable at hca
      rcases hk : (tyOf b).kind with n | cap | cap | _ <;> rw [hk] at hsh hca <;> simp only at hsh hca
      · exact hsh.1
      · exact hsh.1
      · simp at hca
      · simp at hca
    have d1 := hown hlay hty
    have d2 := hown hlay' (by rw [hty', hts])
    refine ⟨_, rfl, ?_⟩
    apply rrel_update hR b s.heap (some o')
    · intro _ _ _; rfl
    · intro id hid
      refine .inl ⟨hid, ?_⟩
      intro o2 ho2; rw [ho] at ho2; cases ho2; simp [d1]
    · intro o2 id ho2 hd2; cases ho2; rw [d2] at hd2; cases hd2
    · exact hR.fresh
    · rintro o2 ⟨rfl⟩; exact ⟨by rw [hty', hts], hw', hlay'⟩
  | size b =>
    simp only [Spec.RawBuf.step, step]
    rcases ho : s.objs b with _ | o
    · rw [use_none hR ho, withObj_none ho]; rfl
    rw [use_some hR ho, withObj_some ho]
    exact ⟨_, rfl, hR⟩
  | empty b =>
    simp only [Spec.RawBuf.step, step]
    rcases ho : s.objs b with _ | o
    · rw [use_none hR ho, withObj_none ho]; rfl
    rw [use_some hR ho, withObj_some ho]
    exact ⟨_, rfl, hR⟩
  | read b i =>
    simp only [Spec.RawBuf.step, step]
    rcases ho : s.objs b with _ | o
    · rw [use_none hR ho, withObj_none ho]; rfl
    rw [use_some hR ho, withObj_some ho]
    exact hget o i
  | write b i v =>
    simp only [Spec.RawBuf.step, step]
    rcases ho : s.objs b with _ | o
    · rw [use_none hR ho, withObj_none ho]; rfl
    rw [use_some hR ho, withObj_some ho]
    have hlay := (hR.good b o ho).2.2
    by_cases hi : i < (view s.heap o).length
    · rw [if_pos (show i < (raw s.heap o).cells.length from hi), store_eq _ _ (layout_valid hlay) i hi v]
      exact ⟨_, rfl, rrel_modify hR ho _ (by simp)⟩
    · rw [if_neg (show ¬ i < (raw s.heap o).cells.length from hi), store_ub (layout_valid hlay) (by omega)]
      rfl
  | front b =>
    simp only [Spec.RawBuf.step, step]
    rcases ho : s.objs b with _ | o
    · rw [use_none hR ho, withObj_none ho]; rfl
    rw [use_some hR ho, withObj_some ho]
    exact hget o 0
  | back b =>
    simp only [Spec.RawBuf.step, step]
    rcases ho : s.objs b with _ | o
    · rw [use_none hR ho, withObj_none ho]; rfl
    rw [use_some hR ho, withObj_some ho]
    simp only [Checks.expects, Outcome.bind_ok, lastIndex]
    by_cases h0 : o.size = 0
    · rw [if_pos h0, if_pos (show (raw s.heap o).size = 0 from h0), load_back_empty (hR.good b o ho).2.2 (hR.good b o ho).2.1 h0]
      rfl
    · rw [if_neg h0, if_neg (show ¬ (raw s.heap o).size = 0 from h0)]
      exact hget o (o.size - 1)
  | destroy b =>
    simp only [Spec.RawBuf.step, step]
    rcases ho : s.objs b with _ | o
    · rw [use_none hR ho, withObj_none ho]; rfl
    rw [use_some hR ho, withObj_some ho]
    obtain ⟨h', hd, hR'⟩ := rrel_destroy hR ho
    rw [hd]
    exact ⟨_, rfl, hR'⟩

theorem same_run (limit : Nat) (ops : List Op) (hR : RRel tyOf s a) (hwf : ∀ op ∈ ops, op.wellFormed tyOf) :
    match Spec.RawBuf.run limit a ops with
    | .ok (a', rs) => ∃ s', run .off limit s ops = .ok (s', rs) ∧ RRel tyOf s' a'
    | .throw e => run .off limit s ops = .throw e
    | .failFast => run .off limit s ops = .failFast
    | .ub => run .off limit s ops = .ub := by
  induction ops generalizing s a with
  | nil => exact ⟨s, rfl, hR⟩
  | cons op ops ih =>
    have h1 := same_step hR limit op (hwf op (by simp))
    simp only [Spec.RawBuf.run, run]
    rcases hs : Spec.RawBuf.step limit a op with ⟨a', r⟩ | m | _ | _ <;> rw [hs] at h1
    · obtain ⟨s', h1, hR'⟩ := h1
      have h2 := ih hR' (fun op' h => hwf op' (by simp [h]))
      simp only [h1, Outcome.bind_ok]
      rcases hr : Spec.RawBuf.run limit a' ops with ⟨a'', rs⟩ | m | _ | _ <;> rw [hr] at h2 <;> simp only at h2
      · obtain ⟨s'', h2, hR''⟩ := h2
        exact ⟨s'', by rw [h2]; rfl, hR''⟩
      · simp [h2]
      · simp [h2]
      · simp [h2]
    · have h1 : step .off limit s op = .throw m := h1
      simp [h1]
    · have h1 : step .off limit s op = .failFast := h1
      simp [h1]
    · have h1 : step .off limit s op = .ub := h1
      simp [h1]

end Makeshift.Unchecked.Buf
