import Verif.Spec.BufferMembers

/-! # C158: which buffers can be copied, moved and assigned -/

namespace Makeshift.Props

open Makeshift.Buffer Makeshift.BufferMembers Makeshift.Spec.BufferMembers

private def pref (r l : Verdict) : Verdict := if r = .rejected then l else r

private theorem pref_prefers (r l : Verdict) : Prefers r l (pref r l) := by
  unfold pref
  split
  · exact .second ‹_›
  · exact .first ‹_›

private theorem prefers_eq {r l v : Verdict} : Prefers r l v ↔ v = pref r l := by
  constructor
  · rintro (h | h) <;> simp [pref, h]
  · rintro rfl
    exact pref_prefers r l

private theorem one_copy (v : Verdict) : (implicitCopy [v]).call = v := by
  cases v <;> simp [implicitCopy, joined, Fn.call]

private theorem two_copy (v : Verdict) : (implicitCopy [.does [], v]).call = v := by
  cases v <;> simp [implicitCopy, joined, Fn.call]

private theorem three_copy (v : Verdict) : (implicitCopy [.does [], v, .does []]).call = v := by
  cases v <;> simp [implicitCopy, joined, Fn.call]

private theorem one_move (l r : Verdict) : Pair.rvalue ⟨implicitCopy [l], implicitMove [r]⟩ = pref r l := by
  cases r <;> cases l <;> simp [implicitCopy, implicitMove, joined, Fn.call, Pair.rvalue, pref]

private theorem two_move (l r : Verdict) : Pair.rvalue ⟨implicitCopy [.does [], l], implicitMove [.does [], r]⟩ = pref r l := by
  cases r <;> cases l <;> simp [implicitCopy, implicitMove, joined, Fn.call, Pair.rvalue, pref]

private theorem three_move (l r : Verdict) : Pair.rvalue ⟨implicitCopy [.does [], l, .does []], implicitMove [.does [], r, .does []]⟩ = pref r l := by
  cases r <;> cases l <;> simp [implicitCopy, implicitMove, joined, Fn.call, Pair.rvalue, pref]

private theorem pref_idem (r l : Verdict) : pref (pref r l) l = pref r l := by
  cases r <;> cases l <;> simp [pref]

/-- A class whose operations are those of its only important subobject. -/
private def Like (B C : Class) : Prop :=
  B.ctor.lvalue = C.ctor.lvalue ∧ B.assign.lvalue = C.assign.lvalue ∧ B.ctor.rvalue = pref C.ctor.rvalue C.ctor.lvalue ∧
    B.assign.rvalue = pref C.assign.rvalue C.assign.lvalue

private theorem like_trans {A B C : Class} (h1 : Like A B) (h2 : Like B C) : Like A C := by
  obtain ⟨a1, a2, a3, a4⟩ := h1
  obtain ⟨b1, b2, b3, b4⟩ := h2
  exact ⟨a1.trans b1, a2.trans b2, by rw [a3, b3, b1, pref_idem], by rw [a4, b4, b2, pref_idem]⟩

private theorem like_one (i : Bool) (C : Class) : Like (implicitClass i [C]) C :=
  ⟨one_copy _, one_copy _, one_move _ _, one_move _ _⟩

private theorem like_two (i : Bool) (C : Class) : Like (implicitClass i [trivial, C]) C :=
  ⟨two_copy _, two_copy _, two_move _ _, two_move _ _⟩

private theorem like_three (i : Bool) (C : Class) : Like (implicitClass i [trivial, C, trivial]) C :=
  ⟨three_copy _, three_copy _, three_move _ _, three_move _ _⟩

private theorem kind_inPlace {ty : Ty} (h : InPlace ty) : ty.kind = .inPlace (room ty) ∨ ty.kind = .inPlaceMax (room ty) := by
  match ty with
  | .buffer none m => exact h.elim
  | .buffer (some n) m =>
    left
    have hn : ¬ ((n : Int) < 0) := by omega
    rcases h with h | ⟨h1, h2⟩
    · simp [Ty.kind, determineMemoryLocation, extentNum, room, h, hn]
    · have e1 : ¬ m < 0 := by omega
      have e2 : ¬ m = 0 := by omega
      simp [Ty.kind, determineMemoryLocation, extentNum, room, e1, e2, hn, h2]
  | .fixed none m => exact .inr rfl
  | .fixed (some n) m => exact .inl rfl

private theorem kind_dynamic {ty : Ty} (h : ¬ InPlace ty) : (∃ n, ty.kind = .small n) ∨ ty.kind = .heap := by
  match ty with
  | .buffer none m =>
    by_cases h1 : m < 0
    · simp [Ty.kind, determineMemoryLocation, extentNum, h1]
    · by_cases h2 : m = 0
      · simp [Ty.kind, determineMemoryLocation, h2]
      · simp [Ty.kind, determineMemoryLocation, extentNum, h1, h2]
  | .buffer (some n) m =>
    right
    have hn : ¬ ((n : Int) < 0) := by omega
    have h' : ¬ (m < 0 ∨ (0 < m ∧ (n : Int) ≤ m)) := h
    have h1 : ¬ m < 0 := fun hm => h' (.inl hm)
    by_cases h2 : m = 0
    · simp [Ty.kind, determineMemoryLocation, h2]
    · have h3 : ¬ (n : Int) ≤ m := fun hm => h' (.inr ⟨by omega, hm⟩)
      simp [Ty.kind, determineMemoryLocation, extentNum, h1, h2, h3, hn]
  | .fixed _ m => exact (h True.intro).elim

private theorem static_like (T : Class) {ty : Ty} (h : InPlace ty) (hr : room ty ≠ 0) : Like (bufferClass T ty) T := by
  have harr : ∃ i, stdArray T (room ty) = implicitClass i [T] := by
    obtain ⟨k, hk⟩ := Nat.exists_eq_succ_of_ne_zero hr
    exact ⟨T.init, by rw [hk]; rfl⟩
  obtain ⟨i, harr⟩ := harr
  have hst : Like (storage T ty.kind) T := by
    rcases kind_inPlace h with hk | hk
    · rw [hk]
      simp only [storage, staticBase, harr]
      exact like_trans (like_two _ _) (like_one _ _)
    · rw [hk]
      simp only [storage, staticBase, harr]
      exact like_trans (like_three _ _) (like_one _ _)
  match ty with
  | .buffer ext m => exact like_trans (like_one _ _) (like_trans (like_one _ _) hst)
  | .fixed ext m => exact like_trans (like_one _ _) hst

/-- Buffers with elements in place are copied, moved and assigned as their elements are; if an rvalue of the element type is rejected, rvalues of the buffer
are copied. -/
theorem C158_in_place (T : Class) {ty : Ty} (h : InPlace ty) (hr : room ty ≠ 0) :
    (bufferClass T ty).ctor.lvalue = T.ctor.lvalue ∧ (bufferClass T ty).assign.lvalue = T.assign.lvalue ∧
    Prefers T.ctor.rvalue T.ctor.lvalue (bufferClass T ty).ctor.rvalue ∧ Prefers T.assign.rvalue T.assign.lvalue (bufferClass T ty).assign.rvalue := by
  obtain ⟨h1, h2, h3, h4⟩ := static_like T h hr
  exact ⟨h1, h2, prefers_eq.2 h3, prefers_eq.2 h4⟩

/-- Buffers in place without elements can be copied, moved and assigned whatever the element type, with no effect on elements. -/
theorem C158_in_place_empty (T : Class) {ty : Ty} (h : InPlace ty) (hr : room ty = 0) :
    (bufferClass T ty).ctor.lvalue = .does [] ∧ (bufferClass T ty).assign.lvalue = .does [] ∧
    (bufferClass T ty).ctor.rvalue = .does [] ∧ (bufferClass T ty).assign.rvalue = .does [] := by
  have hst : Like (storage T ty.kind) trivial := by
    rcases kind_inPlace h with hk | hk
    · rw [hk, hr]; exact like_two _ _
    · rw [hk, hr]; exact like_three _ _
  have : Like (bufferClass T ty) trivial := by
    match ty with
    | .buffer ext m => exact like_trans (like_one _ _) (like_trans (like_one _ _) hst)
    | .fixed ext m => exact like_trans (like_one _ _) hst
  exact this

private theorem dynamic_like (T : Class) {ty : Ty} (h : ¬ InPlace ty) : Like (bufferClass T ty) (dynamicBase T) := by
  match ty with
  | .buffer ext m =>
    have hst : storage T (Ty.kind (.buffer ext m)) = dynamicBase T := by
      rcases kind_dynamic h with ⟨n, hk⟩ | hk <;> rw [hk] <;> rfl
    simp only [bufferClass, hst]
    exact like_trans (like_one _ _) (like_one _ _)
  | .fixed _ m => exact (h True.intro).elim

private theorem pref_rejected (l : Verdict) : pref .rejected l = l := by simp [pref]

/-- Other buffers are copied by both copy and move construction, if elements can be initialised from `{ }` and be assigned copies: the elements of the
buffer moved from are left alone.  If not, the copy or move does not compile. -/
theorem C158_dynamic_construct (T : Class) {ty : Ty} (h : ¬ InPlace ty) :
    (bufferClass T ty).ctor.rvalue = (bufferClass T ty).ctor.lvalue ∧
    (∀ acts, (bufferClass T ty).ctor.lvalue = .does acts ↔ acts = [.initThenCopy] ∧ T.init = true ∧ Compiles T.assign.lvalue) ∧
    ((bufferClass T ty).ctor.lvalue = .broken ↔ ¬ (T.init = true ∧ Compiles T.assign.lvalue)) := by
  obtain ⟨h1, -, h3, -⟩ := dynamic_like T h
  have hr : (dynamicBase T).ctor.rvalue = .rejected := rfl
  have hl : (T.init = true ∧ Compiles T.assign.lvalue) ∧ (dynamicBase T).ctor.lvalue = .does [.initThenCopy] ∨
      (¬ (T.init = true ∧ Compiles T.assign.lvalue)) ∧ (dynamicBase T).ctor.lvalue = .broken := by
    simp only [Pair.lvalue, dynamicBase, dynamicCopyCtor, Compiles]
    cases T.init <;> cases T.assign.copy.call <;> simp [Fn.call]
  refine ⟨by rw [h3, h1, hr, pref_rejected], fun acts => ?_, ?_⟩ <;> rw [h1] <;> rcases hl with ⟨hp, e⟩ | ⟨hp, e⟩ <;> rw [e] <;> simp [hp]
  exact ⟨fun h => h.symm, fun h => h.symm⟩

/-- They can never be assigned, though type traits say that they can. -/
theorem C158_dynamic_assign (T : Class) {ty : Ty} (h : ¬ InPlace ty) :
    (bufferClass T ty).assign.lvalue = .broken ∧ (bufferClass T ty).assign.rvalue = .broken := by
  obtain ⟨-, h2, -, h4⟩ := dynamic_like T h
  exact ⟨h2, by rw [h4]; rfl⟩

/-- All type traits hold for them, whatever the element type. -/
theorem C158_dynamic_traits (T : Class) {ty : Ty} (h : ¬ InPlace ty) :
    TraitHolds (bufferClass T ty).ctor.lvalue ∧ TraitHolds (bufferClass T ty).ctor.rvalue ∧ TraitHolds (bufferClass T ty).assign.lvalue ∧
    TraitHolds (bufferClass T ty).assign.rvalue := by
  obtain ⟨h1, h2⟩ := C158_dynamic_assign T h
  obtain ⟨c1, -, c3⟩ := C158_dynamic_construct T h
  have hl : (bufferClass T ty).ctor.lvalue ≠ .rejected := by
    obtain ⟨e, -⟩ := dynamic_like T h
    rw [e]
    simp only [Pair.lvalue, dynamicBase, dynamicCopyCtor]
    cases T.init <;> cases T.assign.copy.call <;> simp [Fn.call]
  refine ⟨hl, by rw [c1]; exact hl, ?_, ?_⟩ <;> simp [TraitHolds, h1, h2]

/-- The operations of the elements on which a trait of a buffer rests can be relied on only for buffers in place: there, a trait tells the truth if it does for
the elements. -/
theorem C158_in_place_traits (T : Class) {ty : Ty} (h : InPlace ty) (hr : room ty ≠ 0)
    (hT : ∀ v ∈ [T.ctor.lvalue, T.ctor.rvalue, T.assign.lvalue, T.assign.rvalue], TraitHolds v → Compiles v) :
    ∀ v ∈ [(bufferClass T ty).ctor.lvalue, (bufferClass T ty).ctor.rvalue, (bufferClass T ty).assign.lvalue, (bufferClass T ty).assign.rvalue],
      TraitHolds v → Compiles v := by
  obtain ⟨h1, h2, h3, h4⟩ := static_like T h hr
  have key : ∀ r l : Verdict, (TraitHolds r → Compiles r) → (TraitHolds l → Compiles l) → TraitHolds (pref r l) → Compiles (pref r l) := by
    intro r l hr hl
    unfold pref
    split
    · exact hl
    · exact hr
  simp only [List.mem_cons, List.not_mem_nil, or_false] at hT ⊢
  rintro v (rfl | rfl | rfl | rfl)
  · rw [h1]; exact hT _ (by simp)
  · rw [h3]; exact key _ _ (hT _ (by simp)) (hT _ (by simp))
  · rw [h2]; exact hT _ (by simp)
  · rw [h4]; exact key _ _ (hT _ (by simp)) (hT _ (by simp))

private theorem joined_mem {vs : List Verdict} {acts : List Act} (h : joined vs = some acts) {v : Verdict} (hv : v ∈ vs) :
    ∃ as, v = .does as ∧ ∀ a ∈ as, a ∈ acts := by
  induction vs generalizing acts with
  | nil => cases hv
  | cons w vs ih =>
    cases w with
    | rejected | broken => cases h
    | does as =>
      simp only [joined, Option.map_eq_some_iff] at h
      obtain ⟨rest, h1, rfl⟩ := h
      rcases List.mem_cons.1 hv with rfl | hv
      · exact ⟨as, rfl, fun a ha => List.mem_append_left _ ha⟩
      · obtain ⟨as', e, h'⟩ := ih h1 hv
        exact ⟨as', e, fun a ha => List.mem_append_right _ (h' a ha)⟩

private theorem copy_does {vs : List Verdict} {acts : List Act} (h : (implicitCopy vs).call = .does acts) : joined vs = some acts := by
  unfold implicitCopy at h
  split at h
  · cases h
  · cases hj : joined vs with
    | none => rw [hj] at h; cases h
    | some as => rw [hj] at h; simpa [Fn.call] using h

private theorem rvalue_does {ls rs : List Verdict} {acts : List Act} (h : Pair.rvalue ⟨implicitCopy ls, implicitMove rs⟩ = .does acts) :
    joined rs = some acts ∨ joined ls = some acts := by
  by_cases hr : Verdict.rejected ∈ rs
  · right
    simp only [implicitMove, if_pos hr, Pair.rvalue] at h
    exact copy_does h
  · left
    simp only [implicitMove, if_neg hr, Pair.rvalue] at h
    cases hj : joined rs with
    | none => rw [hj] at h; cases h
    | some as => rw [hj] at h; simpa [Fn.call] using h

/-- A class with such a buffer among its members, and without own special member functions, can never be assigned, and objects of it are never moved without
copying the elements of the buffer. -/
theorem C158_member (T : Class) {ty : Ty} (h : ¬ InPlace ty) (init : Bool) {members : List Class} (hm : bufferClass T ty ∈ members) :
    ¬ Compiles (implicitClass init members).assign.lvalue ∧ ¬ Compiles (implicitClass init members).assign.rvalue ∧
    ∀ acts, (implicitClass init members).ctor.rvalue = .does acts → .initThenCopy ∈ acts := by
  obtain ⟨a1, a2⟩ := C158_dynamic_assign T h
  obtain ⟨c1, c2, -⟩ := C158_dynamic_construct T h
  refine ⟨?_, ?_, ?_⟩
  · rintro ⟨acts, hc⟩
    obtain ⟨as, e, -⟩ := joined_mem (copy_does hc) (List.mem_map_of_mem (f := (·.assign.lvalue)) hm)
    rw [a1] at e; cases e
  · rintro ⟨acts, hc⟩
    rcases rvalue_does hc with hj | hj
    · obtain ⟨as, e, -⟩ := joined_mem hj (List.mem_map_of_mem (f := (·.assign.rvalue)) hm)
      rw [a2] at e; cases e
    · obtain ⟨as, e, -⟩ := joined_mem hj (List.mem_map_of_mem (f := (·.assign.lvalue)) hm)
      rw [a1] at e; cases e
  · intro acts hc
    rcases rvalue_does hc with hj | hj
    · obtain ⟨as, e, h'⟩ := joined_mem hj (List.mem_map_of_mem (f := (·.ctor.rvalue)) hm)
      rw [c1] at e
      exact h' _ (by rw [((c2 as).1 e).1]; simp)
    · obtain ⟨as, e, h'⟩ := joined_mem hj (List.mem_map_of_mem (f := (·.ctor.lvalue)) hm)
      exact h' _ (by rw [((c2 as).1 e).1]; simp)

/-- Buffers can be constructed from an extent exactly if elements can be initialised from `{ }` (or there are none), and from an array if, in addition, elements can be
assigned rvalues, so elements need not be copyable; assignment from an array needs the latter only. -/
theorem C158_from_array (T : Class) (ty : Ty) :
    (Compiles (fromExtent T ty) ↔ T.init = true ∨ (InPlace ty ∧ room ty = 0)) ∧
    (∀ acts, assignArray T = .does acts ↔ TraitHolds T.ctor.rvalue ∧ T.assign.rvalue = .does acts) ∧
    (∀ acts, fromArray T ty = .does acts ↔ Compiles (fromExtent T ty) ∧ assignArray T = .does acts) ∧
    TraitHolds (fromExtent T ty) ∧ TraitHolds (fromArray T ty) ∧ TraitHolds (assignArray T) := by
  have hinit : initOk T ty.kind = true ↔ T.init = true ∨ (InPlace ty ∧ room ty = 0) := by
    by_cases h : InPlace ty
    · rcases kind_inPlace h with hk | hk <;> rw [hk] <;> cases hr : room ty <;> simp [initOk, h]
    · rcases kind_dynamic h with ⟨n, hk⟩ | hk <;> rw [hk] <;> simp [initOk, h]
  have hext : Compiles (fromExtent T ty) ↔ initOk T ty.kind = true := by
    unfold fromExtent Compiles
    split <;> simp_all
  have harr : ∀ acts, assignArray T = .does acts ↔ TraitHolds T.ctor.rvalue ∧ T.assign.rvalue = .does acts := by
    intro acts
    unfold assignArray TraitHolds
    cases T.ctor.rvalue <;> cases T.assign.rvalue <;> simp
  have htr : TraitHolds (assignArray T) := by
    unfold assignArray TraitHolds
    cases T.ctor.rvalue <;> cases T.assign.rvalue <;> simp
  refine ⟨hext.trans hinit, harr, ?_, ?_, ?_, htr⟩
  · intro acts
    rw [hext]
    unfold fromArray
    split <;> simp_all
  · unfold fromExtent TraitHolds; split <;> simp
  · unfold fromArray
    split
    · exact htr
    · simp [TraitHolds]

/-- For elements which can be assigned copies of, assignment compiles exactly for the buffers for which Model/Buffer.lean says so. -/
theorem C158_assignable (T : Class) (ty : Ty) (hT : Compiles T.assign.lvalue) : Compiles (bufferClass T ty).assign.lvalue ↔ ty.copyAssignable = true := by
  by_cases h : InPlace ty
  · have hk : ty.copyAssignable = true := by
      unfold Ty.copyAssignable
      rcases kind_inPlace h with hk | hk <;> rw [hk]
    by_cases hr : room ty = 0
    · exact ⟨fun _ => hk, fun _ => ⟨_, (C158_in_place_empty T h hr).2.1⟩⟩
    · rw [(C158_in_place T h hr).2.1]
      exact ⟨fun _ => hk, fun _ => hT⟩
  · have hk : ty.copyAssignable = false := by
      unfold Ty.copyAssignable
      rcases kind_dynamic h with ⟨n, hk⟩ | hk <;> rw [hk]
    rw [(C158_dynamic_assign T h).1, hk]
    simp [Compiles]

/-- Buffers cannot be initialised from `{ }`.  So a buffer of buffers cannot be constructed, neither from an extent nor from an array, unless it is stored in place and has no
room for elements; in particular a heap-allocated one cannot, whatever its number of elements. -/
theorem C158_nested (T : Class) (inner outer : Ty) :
    (Compiles (fromExtent (bufferClass T inner) outer) ↔ InPlace outer ∧ room outer = 0) ∧
    (¬ (InPlace outer ∧ room outer = 0) → ¬ Compiles (fromArray (bufferClass T inner) outer)) ∧
    (¬ InPlace outer → (bufferClass (bufferClass T inner) outer).ctor.lvalue = .broken) := by
  have hi : (bufferClass T inner).init = false := by cases inner <;> rfl
  obtain ⟨h1, -, h3, -⟩ := C158_from_array (bufferClass T inner) outer
  have h1' : Compiles (fromExtent (bufferClass T inner) outer) ↔ InPlace outer ∧ room outer = 0 := by rw [h1, hi]; simp
  refine ⟨h1', ?_, fun h => ?_⟩
  · rintro hn ⟨acts, ha⟩
    exact hn (h1'.1 ((h3 acts).1 ha).1)
  · refine ((C158_dynamic_construct (bufferClass T inner) h).2.2).2 ?_
    rw [hi]
    rintro ⟨h, -⟩
    cases h

example : ¬ (InPlace (.buffer (some 3) (-1)) ∧ room (.buffer (some 3) (-1)) = 0) := fun h => absurd h.2 (by decide)

/-! ## Examples: element types like `int`, `std::unique_ptr<>`, and a class with a deleted move constructor -/

private def bmCopyable : Class :=
  ⟨true, ⟨.defined (some [.copy]), .defined (some [.move])⟩, ⟨.defined (some [.copy]), .defined (some [.move])⟩⟩

private def bmMoveOnly : Class := ⟨true, ⟨.deleted, .defined (some [.move])⟩, ⟨.deleted, .defined (some [.move])⟩⟩

private def bmNoMove : Class := ⟨true, ⟨.defined (some [.copy]), .deleted⟩, ⟨.defined (some [.copy]), .undeclared⟩⟩

example : InPlace (.buffer (some 3) (-1)) ∧ room (.buffer (some 3) (-1)) ≠ 0 ∧ (bufferClass bmMoveOnly (.buffer (some 3) (-1))).ctor.rvalue = .does [.move] ∧
    (bufferClass bmMoveOnly (.buffer (some 3) (-1))).ctor.lvalue = .rejected := ⟨.inl (by decide), by decide, by decide, by decide⟩

example : (bufferClass bmNoMove (.fixed none 3)).ctor.rvalue = .does [.copy] ∧ bmNoMove.ctor.rvalue = .rejected := by decide

example : ¬ InPlace (.buffer none 16) ∧ (bufferClass bmCopyable (.buffer none 16)).ctor.rvalue = .does [.initThenCopy] ∧
    (bufferClass bmMoveOnly (.buffer none 16)).ctor.rvalue = .broken ∧ fromArray bmMoveOnly (.buffer none 16) = .does [.move] :=
  ⟨fun h => h, by decide, by decide, by decide⟩

example : InPlace (.buffer (some 0) 4) ∧ room (.buffer (some 0) 4) = 0 := ⟨.inr ⟨by decide, by decide⟩, rfl⟩

example : ∀ v ∈ [bmMoveOnly.ctor.lvalue, bmMoveOnly.ctor.rvalue, bmMoveOnly.assign.lvalue, bmMoveOnly.assign.rvalue], TraitHolds v → Compiles v := by
  intro v hv ht
  simp only [List.mem_cons, List.not_mem_nil, or_false] at hv
  rcases hv with rfl | rfl | rfl | rfl
  · exact absurd rfl ht
  · exact ⟨[.move], rfl⟩
  · exact absurd rfl ht
  · exact ⟨[.move], rfl⟩

example : (implicitClass true [bmMoveOnly, bufferClass bmCopyable (.buffer none (-1))]).ctor.rvalue = .does [.move, .initThenCopy] ∧
    (implicitClass true [bmMoveOnly, bufferClass bmCopyable (.buffer none (-1))]).assign.rvalue = .broken := by decide

end Makeshift.Props
