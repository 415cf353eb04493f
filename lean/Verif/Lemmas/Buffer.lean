import Mathlib.Data.List.Basic
import Verif.Spec.Buffer

/-!
# Lemmas about the buffer model
-/

namespace Makeshift.Buffer

open Makeshift.Spec (Buf.allocates Buf.extentOk Buf.leftUninit Buf.request)

theorem update_same {α : Type} (f : Nat → Option α) (k : Nat) (x : Option α) : update f k x k = x := by simp [update]

theorem update_of_ne {α : Type} (f : Nat → Option α) {j k : Nat} (x : Option α) (h : j ≠ k) : update f k x j = f j := by
  simp [update, h]

theorem update_update {α : Type} (f : Nat → Option α) (k : Nat) (x y : Option α) :
    update (update f k x) k y = update f k y := by
  funext j; by_cases h : j = k <;> simp [update, h]

/-! ## Storage as a list -/

/-- The cells behind `data_`. -/
def view (h : Heap) (o : Obj) : List Cell :=
  match o.data with
  | .null => []
  | .own => o.inPlace
  | .block id => (h.blocks id).getD []

/-- Replace the cells behind `data_`. -/
def setView (h : Heap) (o : Obj) (cells : List Cell) : Heap × Obj :=
  match o.data with
  | .null => (h, o)
  | .own => (h, { o with inPlace := cells })
  | .block id => ({ h with blocks := update h.blocks id (some cells) }, o)

/-- `data_` points to storage. -/
def Valid (h : Heap) (o : Obj) : Prop := ∀ id, o.data = .block id → (h.blocks id).isSome

theorem setView_data (h : Heap) (o : Obj) (cells : List Cell) : (setView h o cells).2.data = o.data := by
  unfold setView; split <;> simp_all

theorem setView_ty (h : Heap) (o : Obj) (cells : List Cell) : (setView h o cells).2.ty = o.ty := by
  unfold setView; split <;> rfl

theorem setView_size (h : Heap) (o : Obj) (cells : List Cell) : (setView h o cells).2.size = o.size := by
  unfold setView; split <;> rfl

theorem setView_next (h : Heap) (o : Obj) (cells : List Cell) : (setView h o cells).1.next = h.next := by
  unfold setView; split <;> rfl

theorem setView_blocks (h : Heap) (o : Obj) (cells : List Cell) (id : Nat) (hid : o.data ≠ .block id) :
    (setView h o cells).1.blocks id = h.blocks id := by
  unfold setView
  split
  · rfl
  · rfl
  · rename_i k hk
    have : id ≠ k := by rintro rfl; exact hid hk
    simp [update, this]

theorem view_setView (h : Heap) (o : Obj) (cells : List Cell) (hn : o.data = .null → cells = []) :
    view (setView h o cells).1 (setView h o cells).2 = cells := by
  unfold setView
  split
  · rename_i hd; simp [view, hd, hn hd]
  · rename_i hd; simp [view, hd]
  · rename_i hd; simp [view, hd, update]

theorem setView_view (h : Heap) (o : Obj) (hv : Valid h o) : setView h o (view h o) = (h, o) := by
  unfold setView view
  split
  · rfl
  · rfl
  · rename_i id hd
    obtain ⟨cells, hc⟩ := Option.isSome_iff_exists.1 (hv id hd)
    have : update h.blocks id (some cells) = h.blocks := by
      funext j; by_cases hj : j = id <;> simp [update, hj, hc]
    simp [hc, this]

theorem setView_setView (h : Heap) (o : Obj) (c c' : List Cell) :
    setView (setView h o c).1 (setView h o c).2 c' = setView h o c' := by
  unfold setView
  rcases hd : o.data with _ | _ | id
  · simp [hd]
  · simp
  · simp [hd, update_update]

theorem valid_setView (h : Heap) (o : Obj) (c : List Cell) : Valid (setView h o c).1 (setView h o c).2 := by
  intro id hid
  rw [setView_data] at hid
  simp [setView, hid, update]

theorem load_eq (h : Heap) (o : Obj) (i : Nat) : load h o i = Spec.Buf.get (view h o) i := by
  unfold load view Spec.Buf.get
  rcases o.data with _ | _ | id
  · rfl
  · simp only []; rcases o.inPlace[i]? with _ | _ | _ <;> rfl
  · simp only []
    rcases h.blocks id with _ | cells
    · rfl
    · simp only [Option.bind_some, Option.getD_some]
      rcases cells[i]? with _ | _ | _ <;> rfl

theorem store_eq (h : Heap) (o : Obj) (hv : Valid h o) (i : Nat) (hi : i < (view h o).length) (v : Int) :
    store h o i v = .ok (setView h o ((view h o).set i (.val v))) := by
  rcases hd : o.data with _ | _ | id
  · simp [view, hd] at hi
  · simp [view, hd] at hi; simp [store, setView, view, hd, hi]
  · obtain ⟨cells, hc⟩ := Option.isSome_iff_exists.1 (hv id hd)
    simp [view, hd, hc] at hi
    simp [store, setView, view, hd, hi, hc]

/-- Overwrite cells from a position on. -/
def overwrite (l : List Cell) (i : Nat) : List Int → List Cell
  | [] => l
  | v :: vs => overwrite (l.set i (.val v)) (i + 1) vs

theorem overwrite_length (l : List Cell) (i : Nat) (vs : List Int) : (overwrite l i vs).length = l.length := by
  induction vs generalizing l i with
  | nil => rfl
  | cons v vs ih => simp [overwrite, ih]

theorem overwrite_eq (l : List Cell) (i : Nat) (vs : List Int) (h : i + vs.length ≤ l.length) :
    overwrite l i vs = l.take i ++ vs.map .val ++ l.drop (i + vs.length) := by
  induction vs generalizing l i with
  | nil => simp [overwrite]
  | cons v vs ih =>
    simp only [List.length_cons] at h
    rw [overwrite, ih _ _ (by simp; omega), List.take_set, List.drop_set, if_pos (by omega)]
    have hi : i < l.length := by omega
    have h1 : (l.take (i + 1)).set i (.val v) = l.take i ++ [Cell.val v] := by
      rw [List.take_succ_eq_append_getElem hi, List.set_append]
      simp [Nat.min_eq_left (Nat.le_of_lt hi)]
    rw [h1]
    simp [Nat.add_assoc, Nat.add_comm 1]

theorem storeAll_eq (h : Heap) (o : Obj) (hv : Valid h o) (i : Nat) (vs : List Int) (hi : i + vs.length ≤ (view h o).length) :
    storeAll h o i vs = .ok (setView h o (overwrite (view h o) i vs)) := by
  induction vs generalizing h o i with
  | nil => simp [storeAll, overwrite, setView_view h o hv]
  | cons v vs ih =>
    simp only [List.length_cons] at hi
    have hn : o.data = .null → (view h o).set i (.val v) = [] := by
      intro hd; simp [view, hd] at hi
    rw [storeAll, store_eq h o hv i (by omega) v, Outcome.bind_ok, ih _ _ (valid_setView h o _),
      view_setView _ _ _ hn, setView_setView, overwrite]
    rw [view_setView _ _ _ hn]; simp; omega

theorem copyElems_eq (h : Heap) (rhs o : Obj) (i : Nat) (vs : List Int)
    (hv : Valid h o) (hi : i + vs.length ≤ (view h o).length)
    (hsep : ∀ id, rhs.data = .block id → o.data ≠ .block id)
    (hvs : ∀ (j : Nat) (v : Int), vs[j]? = some v → load h rhs (i + j) = .ok v) :
    copyElems h rhs o i vs.length = storeAll h o i vs := by
  induction vs generalizing h o i with
  | nil => rfl
  | cons v vs ih =>
    simp only [List.length_cons] at hi
    have hn : o.data = .null → (view h o).set i (.val v) = [] := by
      intro hd; simp [view, hd] at hi
    have h0 : load h rhs i = .ok v := by simpa using hvs 0 v rfl
    rw [List.length_cons, copyElems, h0, Outcome.bind_ok, storeAll, store_eq h o hv i (by omega) v, Outcome.bind_ok,
      Outcome.bind_ok]
    apply ih
    · exact valid_setView h o _
    · rw [view_setView _ _ _ hn]; simp; omega
    · intro id hid; rw [setView_data]; exact hsep id hid
    · intro j w hj
      have := hvs (j + 1) w (by simpa using hj)
      rw [show i + 1 + j = i + (j + 1) by omega, ← this]
      rw [load_eq, load_eq]
      congr 1
      unfold view
      rcases hd : rhs.data with _ | _ | id
      · rfl
      · rfl
      · simp only []
        rw [setView_blocks _ _ _ _ (hsep id hd)]

/-! ## Kinds of storage -/

theorem kind_buffer_none (m : Int) : (Ty.buffer none m).kind = if m ≤ 0 then .heap else .small m.toNat := by
  unfold Ty.kind determineMemoryLocation extentNum
  by_cases h1 : m < 0
  · simp [h1, show m ≤ 0 by omega]
  · by_cases h2 : m = 0
    · simp [h2]
    · have : ¬ m ≤ 0 := by omega
      simp [h1, h2, this]

theorem kind_buffer_some (k : Nat) (m : Int) :
    (Ty.buffer (some k) m).kind = if m < 0 then .inPlace k else if m = 0 then .heap else if (k : Int) ≤ m then .inPlace k else .heap := by
  unfold Ty.kind determineMemoryLocation extentNum
  have h0 : ¬ (k : Int) < 0 := by omega
  by_cases h1 : m < 0
  · simp [h1, h0]
  · by_cases h2 : m = 0
    · simp [h2]
    · by_cases h3 : (k : Int) ≤ m <;> simp [h1, h2, h3, h0]

/-- The layout of an object of a given kind. -/
def Shape (h : Heap) (o : Obj) : Prop :=
  match o.ty.kind with
  | .inPlace n => o.data = .own ∧ o.inPlace.length = n ∧ o.size = n
  | .inPlaceMax cap => o.data = .own ∧ o.inPlace.length = cap ∧ o.size ≤ cap
  | .small cap => (o.data = .own ∧ o.inPlace.length = cap ∧ o.size ≤ cap) ∨
      ∃ id cells, o.data = .block id ∧ h.blocks id = some cells ∧ cells.length = o.size ∧ cap < o.size
  | .heap => (o.data = .null ∧ o.size = 0) ∨
      ∃ id cells, o.data = .block id ∧ h.blocks id = some cells ∧ cells.length = o.size ∧ 0 < o.size

theorem shape_cases {h : Heap} {o : Obj} (hs : Shape h o) :
    (o.data = .own ∧ o.size ≤ o.inPlace.length) ∨ (o.data = .null ∧ o.size = 0) ∨
      ∃ id cells, o.data = .block id ∧ h.blocks id = some cells ∧ cells.length = o.size := by
  unfold Shape at hs
  rcases hk : o.ty.kind with n | cap | cap | _ <;> rw [hk] at hs <;> simp only at hs
  · exact .inl ⟨hs.1, by omega⟩
  · exact .inl ⟨hs.1, by omega⟩
  · rcases hs with hs | ⟨id, cells, h1, h2, h3, _⟩
    · exact .inl ⟨hs.1, by omega⟩
    · exact .inr (.inr ⟨id, cells, h1, h2, h3⟩)
  · rcases hs with hs | ⟨id, cells, h1, h2, h3, _⟩
    · exact .inr (.inl hs)
    · exact .inr (.inr ⟨id, cells, h1, h2, h3⟩)

theorem shape_size {h : Heap} {o : Obj} (hs : Shape h o) : o.size ≤ (view h o).length := by
  rcases shape_cases hs with ⟨h1, h2⟩ | ⟨h1, h2⟩ | ⟨id, cells, h1, h2, h3⟩
  · simpa [view, h1]
  · simp [h2]
  · simp [view, h1, h2, h3]

theorem shape_valid {h : Heap} {o : Obj} (hs : Shape h o) : Valid h o := by
  intro id hid
  rcases shape_cases hs with ⟨h1, h2⟩ | ⟨h1, h2⟩ | ⟨id', cells, h1, h2, h3⟩
  · simp [h1] at hid
  · simp [h1] at hid
  · rw [h1] at hid; cases hid; simp [h2]

/-- The layout depends on the object's own block only. -/
theorem shape_frame {h h' : Heap} {o : Obj} (hs : Shape h o)
    (hb : ∀ id, o.data = .block id → h'.blocks id = h.blocks id) : Shape h' o := by
  unfold Shape at hs ⊢
  rcases hk : o.ty.kind with n | cap | cap | _ <;> rw [hk] at hs <;> simp only at hs ⊢
  · exact hs
  · exact hs
  · rcases hs with hs | ⟨id, cells, h1, h2, h3⟩
    · exact .inl hs
    · exact .inr ⟨id, cells, h1, by rw [hb id h1, h2], h3⟩
  · rcases hs with hs | ⟨id, cells, h1, h2, h3⟩
    · exact .inl hs
    · exact .inr ⟨id, cells, h1, by rw [hb id h1, h2], h3⟩

theorem view_frame {h h' : Heap} {o : Obj} (hb : ∀ id, o.data = .block id → h'.blocks id = h.blocks id) :
    view h' o = view h o := by
  unfold view
  rcases hd : o.data with _ | _ | id
  · rfl
  · rfl
  · simp only []; rw [hb id hd]

theorem shape_setView {h : Heap} {o : Obj} (hs : Shape h o) (c : List Cell) (hc : c.length = (view h o).length) :
    Shape (setView h o c).1 (setView h o c).2 := by
  have hs' := hs
  unfold Shape at hs' ⊢
  rw [setView_ty]
  unfold view at hc
  rcases hk : o.ty.kind with n | cap | cap | _ <;> rw [hk] at hs' <;> simp only at hs' ⊢
  · rw [hs'.1] at hc; simp only at hc; simp [setView, hs'.1]; omega
  · rw [hs'.1] at hc; simp only at hc; simp [setView, hs'.1]; omega
  · rcases hs' with hs' | ⟨id, cells, h1, h2, h3, h4⟩
    · rw [hs'.1] at hc; simp only at hc; left; simp [setView, hs'.1]; omega
    · rw [h1] at hc; simp [h2] at hc
      right; exact ⟨id, c, by simp [setView, h1], by simp [setView, h1, update], by rw [setView_size]; omega, by
        rw [setView_size]; exact h4⟩
  · rcases hs' with hs' | ⟨id, cells, h1, h2, h3, h4⟩
    · left; simp [setView, hs'.1, hs'.2]
    · rw [h1] at hc; simp [h2] at hc
      right; exact ⟨id, c, by simp [setView, h1], by simp [setView, h1, update], by rw [setView_size]; omega, by
        rw [setView_size]; exact h4⟩

/-- The heap after a construction: unchanged, or with the object's own new block. -/
def Ext (h h' : Heap) (o : Obj) : Prop :=
  (h' = h ∧ ∀ id, o.data ≠ .block id) ∨
    (o.data = .block h.next ∧ ∃ cells, h' = ⟨update h.blocks h.next (some cells), h.next + 1⟩)

theorem ext_setView {h h' : Heap} {o : Obj} (he : Ext h h' o) (c : List Cell) :
    Ext h (setView h' o c).1 (setView h' o c).2 := by
  rcases he with ⟨rfl, hd⟩ | ⟨hd, cells, rfl⟩
  · left
    refine ⟨?_, by intro id; rw [setView_data]; exact hd id⟩
    unfold setView
    split
    · rfl
    · rfl
    · rename_i id hid; exact absurd hid (hd id)
  · right
    refine ⟨by rw [setView_data]; exact hd, c, ?_⟩
    simp [setView, hd, update_update]

/-- The size fits the type. -/
def GoodSize (ty : Ty) (n : Nat) : Prop :=
  match ty with
  | .buffer none _ => True
  | .buffer (some k) _ => n = k
  | .fixed none m => n ≤ m
  | .fixed (some k) _ => n = k

theorem construct_throw (limit : Nat) (h : Heap) (ty : Ty) (n : Nat) (ha : Buf.allocates ty n) (hl : limit < n) :
    construct limit h ty n = .throw (str "bad_alloc") := by
  unfold construct
  rcases ty with ⟨_ | k, m⟩ | ⟨ext, m⟩
  · simp only [Buf.allocates] at ha
    rw [kind_buffer_none]
    by_cases hm : m ≤ 0
    · simp [hm, Heap.new, hl, show 0 < n by omega]
    · simp [hm, Heap.new, hl, show ¬ n ≤ m.toNat by omega]
  · simp only [Buf.allocates] at ha
    rw [kind_buffer_some]
    by_cases hm : m = 0
    · simp [hm, Heap.new, hl, ha.1]
    · have h1 : ¬ m < 0 := by omega
      have h2 : ¬ (k : Int) ≤ m := by omega
      simp [hm, h1, h2, Heap.new, hl, ha.1]
  · exact absurd ha (by simp [Buf.allocates])

theorem construct_ok (limit : Nat) (h : Heap) (ty : Ty) (n : Nat) (ha : ¬ (Buf.allocates ty n ∧ limit < n)) :
    ∃ h' o, construct limit h ty n = .ok (h', o) ∧ o.ty = ty ∧ Ext h h' o ∧
      (GoodSize ty n → Shape h' o ∧ o.size = n ∧
        (view h' o).take n = List.replicate n (if Buf.leftUninit ty n then .uninit else .val 0)) := by
  unfold construct
  have hnew : ¬ limit < n → h.new limit n =
      .ok ({ blocks := update h.blocks h.next (some (List.replicate n (.val 0))), next := h.next + 1 }, h.next) := by
    intro hl; simp [Heap.new, hl]
  rcases ty with ⟨_ | k, m⟩ | ⟨_ | k, m⟩
  · simp only [Buf.allocates] at ha
    simp only [GoodSize, true_implies, Buf.leftUninit]
    have hk := kind_buffer_none m
    by_cases hm : m ≤ 0
    · rw [if_pos hm] at hk
      simp only [hk]
      by_cases hn : 0 < n
      · rw [hnew (by omega)]
        simp only [hn, if_true, Outcome.bind_ok]
        refine ⟨_, _, rfl, rfl, .inr ⟨rfl, _, rfl⟩, ?_, rfl, ?_⟩
        · simp only [Shape, hk]; right; exact ⟨_, _, rfl, update_same .., by simp, hn⟩
        · simp [view, update, show ¬ n ≤ m.toNat by omega]
      · simp only [hn, if_false]
        refine ⟨_, _, rfl, rfl, .inl ⟨rfl, by simp⟩, ?_, by simp only; omega, ?_⟩
        · simp [Shape, hk]
        · simp [show n = 0 by omega]
    · rw [if_neg hm] at hk
      simp only [hk]
      by_cases hn : n ≤ m.toNat
      · simp only [hn, if_true]
        refine ⟨_, _, rfl, rfl, .inl ⟨rfl, by simp⟩, ?_, rfl, ?_⟩
        · simp [Shape, hk, hn]
        · simp [view, Nat.min_eq_left hn]
      · rw [hnew (by omega)]
        simp only [hn, if_false, Outcome.bind_ok]
        refine ⟨_, _, rfl, rfl, .inr ⟨rfl, _, rfl⟩, ?_, rfl, ?_⟩
        · simp only [Shape, hk]; right; exact ⟨_, _, rfl, update_same .., by simp, by omega⟩
        · simp [view, update]
  · simp only [Buf.allocates] at ha
    simp only [GoodSize, Buf.leftUninit]
    have hk := kind_buffer_some k m
    have hin : (Ty.buffer (some k) m).kind = .inPlace k → ∃ h' o, (match (Ty.buffer (some k) m).kind with
        | .inPlace n => Outcome.ok (h, (⟨Ty.buffer (some k) m, n, .own, List.replicate n (.val 0)⟩ : Obj))
        | .inPlaceMax cap => .ok (h, ⟨Ty.buffer (some k) m, n, .own, List.replicate cap (.val 0)⟩)
        | .small cap =>
          if n ≤ cap then .ok (h, ⟨Ty.buffer (some k) m, n, .own, List.replicate cap .uninit⟩)
          else (h.new limit n).bind fun r =>
            .ok (r.1, ⟨Ty.buffer (some k) m, n, .block r.2, List.replicate cap .uninit⟩)
        | .heap =>
          if n > 0 then (h.new limit n).bind fun r => .ok (r.1, ⟨Ty.buffer (some k) m, n, .block r.2, []⟩)
          else .ok (h, ⟨Ty.buffer (some k) m, 0, .null, []⟩)) = .ok (h', o) ∧ o.ty = Ty.buffer (some k) m ∧ Ext h h' o ∧
        (n = k → Shape h' o ∧ o.size = n ∧ (view h' o).take n = List.replicate n (.val 0)) := by
      intro hk
      simp only [hk]
      refine ⟨_, _, rfl, rfl, .inl ⟨rfl, by simp⟩, ?_⟩
      rintro rfl
      exact ⟨by simp [Shape, hk], rfl, by simp [view]⟩
    have hheap : (Ty.buffer (some k) m).kind = .heap → (0 ≤ m ∧ (m = 0 ∨ m < k)) → ∃ h' o,
        (match (Ty.buffer (some k) m).kind with
        | .inPlace n => Outcome.ok (h, (⟨Ty.buffer (some k) m, n, .own, List.replicate n (.val 0)⟩ : Obj))
        | .inPlaceMax cap => .ok (h, ⟨Ty.buffer (some k) m, n, .own, List.replicate cap (.val 0)⟩)
        | .small cap =>
          if n ≤ cap then .ok (h, ⟨Ty.buffer (some k) m, n, .own, List.replicate cap .uninit⟩)
          else (h.new limit n).bind fun r =>
            .ok (r.1, ⟨Ty.buffer (some k) m, n, .block r.2, List.replicate cap .uninit⟩)
        | .heap =>
          if n > 0 then (h.new limit n).bind fun r => .ok (r.1, ⟨Ty.buffer (some k) m, n, .block r.2, []⟩)
          else .ok (h, ⟨Ty.buffer (some k) m, 0, .null, []⟩)) = .ok (h', o) ∧ o.ty = Ty.buffer (some k) m ∧ Ext h h' o ∧
        (n = k → Shape h' o ∧ o.size = n ∧ (view h' o).take n = List.replicate n (.val 0)) := by
      intro hk hc
      simp only [hk]
      by_cases hn : 0 < n
      · rw [hnew (by intro hl; exact ha ⟨⟨hn, hc⟩, hl⟩)]
        simp only [hn, if_true, Outcome.bind_ok]
        refine ⟨_, _, rfl, rfl, .inr ⟨rfl, _, rfl⟩, ?_⟩
        intro _
        refine ⟨?_, rfl, ?_⟩
        · simp only [Shape, hk]; right; exact ⟨_, _, rfl, update_same .., by simp, hn⟩
        · simp [view, update]
      · simp only [hn, if_false]
        refine ⟨_, _, rfl, rfl, .inl ⟨rfl, by simp⟩, ?_⟩
        intro _
        exact ⟨by simp [Shape, hk], by simp; omega, by simp [show n = 0 by omega]⟩
    by_cases h1 : m < 0
    · exact hin (by rw [hk]; simp [h1])
    · by_cases h2 : m = 0
      · exact hheap (by rw [hk]; simp [h2]) ⟨by omega, .inl h2⟩
      · by_cases h3 : (k : Int) ≤ m
        · exact hin (by rw [hk]; simp [h1, h2, h3])
        · exact hheap (by rw [hk]; simp [h1, h2, h3]) ⟨by omega, .inr (by omega)⟩
  · simp only [GoodSize, Buf.leftUninit, Ty.kind]
    refine ⟨_, _, rfl, rfl, .inl ⟨rfl, by simp⟩, ?_⟩
    intro hn
    exact ⟨by simp [Shape, Ty.kind, hn], rfl, by simp [view, Nat.min_eq_left hn]⟩
  · simp only [GoodSize, Buf.leftUninit, Ty.kind]
    refine ⟨_, _, rfl, rfl, .inl ⟨rfl, by simp⟩, ?_⟩
    rintro rfl
    exact ⟨by simp [Shape, Ty.kind], rfl, by simp [view]⟩

theorem wrap_request (e : Int) (h1 : -2 ^ 63 ≤ e) (h2 : e < 2 ^ 64) : (IntTy.sizeT.wrap e).toNat = Buf.request e := by
  simp only [IntTy.wrap, IntTy.sizeT, Buf.request]
  by_cases h : e < 0
  · simp only [h, if_true]
    simp only [Bool.false_eq_true, if_false]
    have : e % ((2 ^ 64 : Nat) : Int) = 2 ^ 64 + e := by omega
    rw [this]
  · simp only [h, if_false, Bool.false_eq_true]
    have : e % ((2 ^ 64 : Nat) : Int) = e := by omega
    rw [this]

theorem checkExtent_iff (ty : Ty) (e : Int) : checkExtent ty e = true ↔ Buf.extentOk ty e := by
  rcases ty with ⟨_ | k, m⟩ | ⟨_ | k, m⟩ <;> simp [checkExtent, Buf.extentOk]

end Makeshift.Buffer
