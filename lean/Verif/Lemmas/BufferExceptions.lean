import Verif.Model.BufferExceptions
import Verif.Spec.BufferExceptions
import Verif.Lemmas.Buffer

namespace Makeshift.BufferEx

open Makeshift.Buffer (Ty Kind Ptr Op Resp update)

/-! ## Arrays -/

/-- The world with the first `n` elements at a place replaced. -/
def World.fill (w : World) (p : Place) (f : Nat → Int) (n : Nat) : World :=
  { w with mem := fun q j => if q = p ∧ j < n then some (f j) else w.mem q j }

/-- The world without the first `n` elements at a place. -/
def World.clear (w : World) (p : Place) (n : Nat) : World :=
  { w with mem := fun q j => if q = p ∧ j < n then none else w.mem q j }

theorem World.ext_mem {w w' : World} (h : ∀ q j, w'.mem q j = w.mem q j) (ha : w'.alloc = w.alloc) (hn : w'.next = w.next)
    (ho : w'.objs = w.objs) : w' = w := by
  cases w; cases w'
  simp only [World.mk.injEq] at *
  exact ⟨funext fun q => funext fun j => h q j, ha, hn, ho⟩

theorem fill_zero (w : World) (p : Place) (f : Nat → Int) : w.fill p f 0 = w :=
  World.ext_mem (by simp [World.fill]) rfl rfl rfl

theorem fill_put (w : World) (p : Place) (f : Nat → Int) (i : Nat) : (w.fill p f i).put p i (some (f i)) = w.fill p f (i + 1) := by
  refine World.ext_mem (fun q j => ?_) rfl rfl rfl
  simp only [World.fill, World.put]
  by_cases hq : q = p
  · subst hq
    rcases Nat.lt_trichotomy j i with h | h | h
    · simp [h, Nat.ne_of_lt h, Nat.lt_succ_of_lt h]
    · subst h; simp
    · simp [Nat.ne_of_gt h, Nat.not_lt_of_gt h, show ¬ j < i + 1 by omega]
  · simp [hq]

theorem clear_fill {w : World} {p : Place} {f : Nat → Int} {n : Nat} (h : ∀ j < n, w.mem p j = none) :
    (w.fill p f n).clear p n = w := by
  refine World.ext_mem (fun q j => ?_) rfl rfl rfl
  simp only [World.fill, World.clear]
  by_cases hq : q = p ∧ j < n
  · obtain ⟨rfl, hj⟩ := hq; simp [hj, h j hj]
  · simp [hq]

theorem clear_zero (w : World) (p : Place) : w.clear p 0 = w :=
  World.ext_mem (by simp [World.clear]) rfl rfl rfl

theorem destroyArray_spec (p : Place) (n : Nat) (w : World) (t : Nat) (h : ∀ j < n, (w.mem p j).isSome) :
    destroyArray p n ⟨w, t⟩ = .ok () ⟨w.clear p n, t⟩ := by
  induction n generalizing w with
  | zero => simp only [destroyArray, clear_zero]
  | succ n ih =>
    obtain ⟨v, hv⟩ := Option.isSome_iff_exists.1 (h n (by omega))
    simp only [destroyArray, destroyElem, hv, Res.bind]
    rw [ih]
    · congr 2
      refine World.ext_mem (fun q j => ?_) rfl rfl rfl
      simp only [World.clear, World.put]
      by_cases hq : q = p
      · subst hq
        rcases Nat.lt_trichotomy j n with hj | hj | hj
        · simp [hj, Nat.lt_succ_of_lt hj]
        · subst hj; simp
        · simp [Nat.ne_of_gt hj, Nat.not_lt_of_gt hj, show ¬ j < n + 1 by omega]
      · simp [hq]
    · intro j hj
      have := h j (by omega)
      simpa [World.put, Nat.ne_of_lt hj] using this

/-- Constructing an array either succeeds or leaves the world as it was. -/
theorem constructArrayFrom_spec (env : Env) (p : Place) (src : Source) (f : Nat → Int) (w : World) (n : Nat)
    (hdead : ∀ j < n, w.mem p j = none)
    (hsrc : ∀ i j t, j < n → src.read j ⟨w.fill p f i, t⟩ = .ok (f j) ⟨w.fill p f i, t⟩) (k i t : Nat) (hn : i + k = n) :
    (∃ t', constructArrayFrom env p src i k ⟨w.fill p f i, t⟩ = .ok () ⟨w.fill p f n, t'⟩) ∨
    ((∃ u, (env.fails u).isSome) ∧ ∃ t', constructArrayFrom env p src i k ⟨w.fill p f i, t⟩ = .threw ⟨w, t'⟩) := by
  induction k generalizing i t with
  | zero => obtain rfl : i = n := (by omega); exact .inl ⟨t, rfl⟩
  | succ k ih =>
    have hmem : (w.fill p f i).mem p i = none := by simp [World.fill, hdead i (by omega)]
    simp only [constructArrayFrom, hsrc i i t (by omega), Res.bind, constructElem, hmem]
    cases hf : env.fails t with
    | some x =>
      right
      refine ⟨⟨t, by simp [hf]⟩, t + 1, ?_⟩
      simp only [Res.onThrow]
      rw [destroyArray_spec p i _ _ (fun j hj => by simp [World.fill, hj])]
      simp only
      rw [clear_fill (fun j hj => hdead j (by omega))]
    | none =>
      simp only [Res.onThrow, fill_put]
      exact ih (i + 1) (t + 1) (by omega)

/-- Assigning to an array either succeeds, or the elements before the one which threw are replaced. -/
theorem assignFrom_spec (env : Env) (p : Place) (src : Source) (f : Nat → Int) (w : World) (n : Nat)
    (halive : ∀ j < n, (w.mem p j).isSome)
    (hsrc : ∀ i j t, i ≤ j → j < n → src.read j ⟨w.fill p f i, t⟩ = .ok (f j) ⟨w.fill p f i, t⟩) (k i t : Nat) (hn : i + k = n) :
    (∃ t', assignFrom env p src i k ⟨w.fill p f i, t⟩ = .ok () ⟨w.fill p f n, t'⟩) ∨
    ((∃ u, (env.fails u).isSome) ∧ ∃ j x t', j < n ∧
      assignFrom env p src i k ⟨w.fill p f i, t⟩ = .threw ⟨(w.fill p f j).put p j (some x), t'⟩) := by
  induction k generalizing i t with
  | zero => obtain rfl : i = n := (by omega); exact .inl ⟨t, rfl⟩
  | succ k ih =>
    obtain ⟨v, hv⟩ := Option.isSome_iff_exists.1 (halive i (by omega))
    have hmem : (w.fill p f i).mem p i = some v := by simp [World.fill, hv]
    simp only [assignFrom, hsrc i i t (by omega) (by omega), Res.bind, assignElem, hmem]
    cases hf : env.fails t with
    | some x => exact .inr ⟨⟨t, by simp [hf]⟩, i, x, t + 1, by omega, rfl⟩
    | none =>
      simp only [fill_put]
      exact ih (i + 1) (t + 1) (by omega)

/-! ## Objects -/

/-- What a constructor which throws may have changed: only the number of the next heap block. -/
structure Upto (w w' : World) : Prop where
  mem : w'.mem = w.mem
  alloc : w'.alloc = w.alloc
  objs : w'.objs = w.objs
  next : w.next ≤ w'.next

theorem Upto.refl (w : World) : Upto w w := ⟨rfl, rfl, rfl, Nat.le_refl _⟩

/-- The addresses of the element objects of a buffer. -/
def Owns (b : Nat) (o : Obj) : Place → Nat → Prop
  | .null, _ => False
  | .own b', j => b' = b ∧ j < inPlaceCount o.ty.kind
  | .block id, j => o.data = .block id ∧ j < o.size

instance (b : Nat) (o : Obj) (q : Place) (j : Nat) : Decidable (Owns b o q j) := by
  unfold Owns; split <;> infer_instance

/-- How size, pointer and type of a buffer fit together. -/
def Shape (o : Obj) : Prop :=
  match o.ty.kind with
  | .inPlace n => o.data = .own ∧ o.size = n
  | .inPlaceMax cap => o.data = .own ∧ o.size ≤ cap
  | .small cap => (o.data = .own ∧ o.size ≤ cap) ∨ (∃ id, o.data = .block id) ∧ cap < o.size
  | .heap => (o.data = .null ∧ o.size = 0) ∨ (∃ id, o.data = .block id) ∧ 0 < o.size

theorem Shape.owns {b : Nat} {o : Obj} (h : Shape o) {j : Nat} (hj : j < o.size) : Owns b o (place b o.data) j := by
  unfold Shape at h
  split at h <;> rename_i hk
  · rw [h.1]; exact ⟨rfl, by simp only [hk, inPlaceCount]; omega⟩
  · rw [h.1]; exact ⟨rfl, by simp only [hk, inPlaceCount]; omega⟩
  · rcases h with h | ⟨⟨id, h⟩, _⟩
    · rw [h.1]; exact ⟨rfl, by simp only [hk, inPlaceCount]; omega⟩
    · rw [h]; exact ⟨h, hj⟩
  · rcases h with h | ⟨⟨id, h⟩, _⟩
    · omega
    · rw [h]; exact ⟨h, hj⟩

/-- The world `w'` results from `w` by the construction of the element objects of `o`, with the given values. -/
structure Built (w : World) (b : Nat) (o : Obj) (vals : Nat → Int) (w' : World) : Prop where
  shape : Shape o
  objs : w'.objs = w.objs
  alloc : w'.alloc = match o.data with
    | .block id => update w.alloc id (some o.size)
    | _ => w.alloc
  next : w.next ≤ w'.next
  fresh : ∀ id, o.data = .block id → w.next ≤ id ∧ id < w'.next
  other : ∀ q j, ¬ Owns b o q j → w'.mem q j = w.mem q j
  alive : ∀ q j, Owns b o q j → (w'.mem q j).isSome
  vals : ∀ j < o.size, w'.mem (place b o.data) j = some (vals j)

/-- Where a buffer can be constructed: there are no elements in place, nor beyond the blocks allocated so far. -/
structure Vacant (w : World) (b : Nat) : Prop where
  own : ∀ j, w.mem (.own b) j = none
  block : ∀ id, w.next ≤ id → ∀ j, w.mem (.block id) j = none
  alloc : ∀ id, w.next ≤ id → w.alloc id = none

theorem newArray_spec (env : Env) (n : Nat) (w : World) (t : Nat) (hm : ∀ j, w.mem (.block w.next) j = none)
    (ha : w.alloc w.next = none) :
    (∃ t', newArray env n ⟨w, t⟩ = .ok w.next
        ⟨World.fill { w with alloc := update w.alloc w.next (some n), next := w.next + 1 } (.block w.next) (fun _ => 0) n, t'⟩) ∨
    ((env.limit < n ∨ ∃ u, (env.fails u).isSome) ∧ ∃ w' t', newArray env n ⟨w, t⟩ = .threw ⟨w', t'⟩ ∧ Upto w w') := by
  unfold newArray
  by_cases hl : n > env.limit
  · rw [if_pos hl]
    exact .inr ⟨.inl hl, w, t, rfl, .refl w⟩
  · rw [if_neg hl]
    have := constructArrayFrom_spec env (.block w.next) .default (fun _ => 0)
      { w with alloc := update w.alloc w.next (some n), next := w.next + 1 } n (fun j _ => hm j) (fun _ _ _ _ => rfl) n 0 t (by omega)
    rw [fill_zero] at this
    rcases this with ⟨t', h⟩ | ⟨hf, t', h⟩
    · exact .inl ⟨t', by simp only [h]; rfl⟩
    · refine .inr ⟨.inr hf, { w with next := w.next + 1 }, t', ?_, ⟨rfl, rfl, rfl, Nat.le_succ _⟩⟩
      simp only [h, Res.onThrow, Res.bind]
      congr 2
      refine World.ext_mem (fun _ _ => rfl) ?_ rfl rfl
      funext id
      simp only [update]
      by_cases hid : id = w.next
      · simp [hid, ha]
      · simp [hid]

/-- The constructors from a size. -/
theorem construct_spec (env : Env) (b : Nat) (ty : Ty) (size : Nat) (w : World) (t : Nat) (hv : Vacant w b) :
    (∃ o w' t', construct env b ty size ⟨w, t⟩ = .ok o ⟨w', t'⟩ ∧ o.ty = ty ∧
      (o.size = match ty.kind with | .inPlace n => n | _ => size) ∧
      ((∀ cap, ty.kind = .inPlaceMax cap → size ≤ cap) → Built w b o (fun _ => 0) w')) ∨
    ((env.limit < size ∨ ∃ u, (env.fails u).isSome) ∧ ∃ w' t', construct env b ty size ⟨w, t⟩ = .threw ⟨w', t'⟩ ∧ Upto w w') := by
  have hown : ∀ (n t : Nat), (∃ t', constructArrayFrom env (.own b) .default 0 n ⟨w, t⟩ = .ok () ⟨w.fill (.own b) (fun _ => 0) n, t'⟩) ∨
      ((∃ u, (env.fails u).isSome) ∧ ∃ t', constructArrayFrom env (.own b) .default 0 n ⟨w, t⟩ = .threw ⟨w, t'⟩) := by
    intro n t
    have := constructArrayFrom_spec env (.own b) .default (fun _ => 0) w n (fun j _ => hv.own j) (fun _ _ _ _ => rfl) n 0 t (by omega)
    rwa [fill_zero] at this
  -- all elements in place
  have hbuilt : ∀ (n size : Nat), inPlaceCount ty.kind = n → size ≤ n → Shape ⟨ty, size, .own⟩ →
      Built w b ⟨ty, size, .own⟩ (fun _ => 0) (w.fill (.own b) (fun _ => 0) n) := by
    intro n size hn hs hsh
    refine ⟨hsh, rfl, rfl, Nat.le_refl _, by simp, ?_, ?_, ?_⟩
    · intro q j hq
      cases q with
      | own b' =>
        simp only [Owns, hn] at hq
        simp [World.fill, hq]
      | _ => simp [World.fill]
    · intro q j hq
      cases q with
      | own b' =>
        simp only [Owns, hn] at hq
        simp [World.fill, hq]
      | null => exact hq.elim
      | block id => simp [Owns] at hq
    · intro j hj
      have : j < size := hj
      simp [World.fill, place, show j < n by omega]
  unfold construct
  split <;> rename_i hk
  · rename_i n
    rcases hown n t with ⟨t', h⟩ | ⟨hf, t', h⟩
    · left
      refine ⟨⟨ty, n, .own⟩, _, t', by rw [h]; rfl, rfl, by simp [hk], fun _ => ?_⟩
      exact hbuilt n n (by rw [hk]; rfl) (Nat.le_refl _) (by simp [Shape, hk])
    · exact .inr ⟨.inr hf, w, t', by simp only [h, Res.bind], .refl w⟩
  · rename_i cap
    rcases hown cap t with ⟨t', h⟩ | ⟨hf, t', h⟩
    · left
      refine ⟨⟨ty, size, .own⟩, _, t', by rw [h]; rfl, rfl, by simp [hk], fun hfit => ?_⟩
      exact hbuilt cap size (by rw [hk]; rfl) (hfit cap hk) (by simp [Shape, hk, hfit cap hk])
    · exact .inr ⟨.inr hf, w, t', by simp only [h, Res.bind], .refl w⟩
  · rename_i cap
    rcases hown cap t with ⟨t', h⟩ | ⟨hf, t', h⟩
    · simp only [h, Res.bind]
      by_cases hs : size ≤ cap
      · left
        refine ⟨⟨ty, size, .own⟩, _, t', by rw [if_pos hs], rfl, by simp [hk], fun _ => ?_⟩
        exact hbuilt cap size (by rw [hk]; rfl) hs (by simp [Shape, hk, hs])
      · rw [if_neg hs]
        rcases newArray_spec env size (w.fill (.own b) (fun _ => 0) cap) t'
          (fun j => by simpa [World.fill] using hv.block w.next (Nat.le_refl _) j) (hv.alloc w.next (Nat.le_refl _)) with
          ⟨t'', h2⟩ | ⟨hf, w', t'', h2, hu⟩
        · left
          refine ⟨⟨ty, size, .block w.next⟩, _, t'', by rw [h2]; rfl, rfl, by simp [hk], fun _ => ?_⟩
          refine ⟨by simp only [Shape, hk]; exact .inr ⟨⟨_, rfl⟩, by simpa using hs⟩, rfl, rfl, Nat.le_succ _, ?_, ?_, ?_, ?_⟩
          · intro id hid
            have : w.next = id := by simpa using hid
            subst this
            exact ⟨Nat.le_refl _, Nat.lt_succ_self _⟩
          · intro q j hq
            cases q with
            | null => simp [World.fill]
            | own b' =>
              simp only [Owns, hk, inPlaceCount] at hq
              simp [World.fill, hq]
            | block id =>
              simp only [Owns, Ptr.block.injEq] at hq
              have : ¬ (id = w.next ∧ j < size) := fun h => hq ⟨h.1.symm, h.2⟩
              simp [World.fill, this]
          · intro q j hq
            cases q with
            | null => exact hq.elim
            | own b' =>
              simp only [Owns, hk, inPlaceCount] at hq
              simp [World.fill, hq]
            | block id =>
              simp only [Owns, Ptr.block.injEq] at hq
              simp [World.fill, hq]
          · intro j hj
            have : j < size := hj
            simp [World.fill, place, this]
        · right
          refine ⟨hf, { w with next := w'.next }, t'', ?_, ⟨rfl, rfl, rfl, hu.next⟩⟩
          rw [h2]
          simp only [Res.onThrow]
          rw [destroyArray_spec]
          · simp only
            congr 2
            refine World.ext_mem (fun q j => ?_) hu.alloc rfl hu.objs
            simp only [World.clear, hu.mem, World.fill]
            by_cases hq : q = .own b ∧ j < cap
            · simp [hq, hv.own j]
            · simp [hq]
          · intro j hj
            rw [hu.mem]
            simp [World.fill, hj]
    · exact .inr ⟨.inr hf, w, t', by simp only [h, Res.bind], .refl w⟩
  · by_cases hs : size > 0
    · rw [if_pos hs]
      rcases newArray_spec env size w t (fun j => hv.block w.next (Nat.le_refl _) j) (hv.alloc w.next (Nat.le_refl _)) with
        ⟨t'', h2⟩ | ⟨hf, w', t'', h2, hu⟩
      · left
        refine ⟨⟨ty, size, .block w.next⟩, _, t'', by rw [h2]; rfl, rfl, by simp [hk], fun _ => ?_⟩
        refine ⟨by simp only [Shape, hk]; exact .inr ⟨⟨_, rfl⟩, hs⟩, rfl, rfl, Nat.le_succ _, ?_, ?_, ?_, ?_⟩
        · intro id hid
          have : w.next = id := by simpa using hid
          subst this
          exact ⟨Nat.le_refl _, Nat.lt_succ_self _⟩
        · intro q j hq
          cases q with
          | null => simp [World.fill]
          | own b' => simp [World.fill]
          | block id =>
            simp only [Owns, Ptr.block.injEq] at hq
            have : ¬ (id = w.next ∧ j < size) := fun h => hq ⟨h.1.symm, h.2⟩
            simp [World.fill, this]
        · intro q j hq
          cases q with
          | null => exact hq.elim
          | own b' => simp [Owns, hk, inPlaceCount] at hq
          | block id =>
            simp only [Owns, Ptr.block.injEq] at hq
            simp [World.fill, hq]
        · intro j hj
          have : j < size := hj
          simp [World.fill, place, this]
      · exact .inr ⟨hf, w', t'', by rw [h2]; rfl, hu⟩
    · rw [if_neg hs]
      have hs0 : size = 0 := by omega
      left
      refine ⟨⟨ty, 0, .null⟩, w, t, rfl, rfl, by simp [hk, hs0], fun _ => ?_⟩
      refine ⟨by simp [Shape, hk], rfl, rfl, Nat.le_refl _, by simp, fun _ _ _ => rfl, ?_, by simp⟩
      intro q j hq
      cases q with
      | null => exact hq.elim
      | own b' => simp [Owns, hk, inPlaceCount] at hq
      | block id => simp [Owns] at hq

/-- The world without the element objects of a buffer. -/
def release (w : World) (b : Nat) (o : Obj) : World :=
  { w with
    mem := fun q j => if Owns b o q j then none else w.mem q j
    alloc := match o.data with
      | .block id => update w.alloc id none
      | _ => w.alloc }

/-- The destructors. -/
theorem destroy_spec (b : Nat) (o : Obj) (w : World) (t : Nat) (hs : Shape o) (halive : ∀ q j, Owns b o q j → (w.mem q j).isSome)
    (halloc : ∀ id, o.data = .block id → w.alloc id = some o.size) : destroy b o ⟨w, t⟩ = .ok () ⟨release w b o, t⟩ := by
  have hown : ∀ j < inPlaceCount o.ty.kind, (w.mem (.own b) j).isSome := fun j hj => halive (.own b) j ⟨rfl, hj⟩
  have hdel : ∀ id, o.data = .block id → deleteArray id ⟨w, t⟩ =
      .ok () ⟨{ w.clear (.block id) o.size with alloc := update w.alloc id none }, t⟩ := by
    intro id hid
    simp only [deleteArray, halloc id hid]
    rw [destroyArray_spec _ _ _ _ fun j hj => halive (.block id) j ⟨hid, hj⟩]
    rfl
  have hinplace : ∀ n, inPlaceCount o.ty.kind = n → (∀ id, o.data ≠ .block id) → release w b o = w.clear (.own b) n := by
    intro n hn hd
    refine World.ext_mem (fun q j => ?_) ?_ rfl rfl
    · cases q with
      | null => simp [release, World.clear, Owns]
      | own b' => simp only [release, World.clear, Owns, hn, Place.own.injEq]
      | block id => simp [release, World.clear, Owns, hd id]
    · cases hd' : o.data with
      | block id => exact absurd hd' (hd id)
      | _ => simp [release, World.clear, hd']
  unfold Shape at hs
  unfold destroy
  cases hk : o.ty.kind with
  | inPlace n =>
    simp only [hk, inPlaceCount] at hs hown ⊢
    rw [destroyArray_spec _ _ _ _ hown, hinplace n (by rw [hk]; rfl) (by simp [hs.1])]
  | inPlaceMax cap =>
    simp only [hk, inPlaceCount] at hs hown ⊢
    rw [destroyArray_spec _ _ _ _ hown, hinplace cap (by rw [hk]; rfl) (by simp [hs.1])]
  | small cap =>
    simp only [hk, inPlaceCount] at hs hown ⊢
    rcases hs with ⟨hd, _⟩ | ⟨⟨id, hd⟩, _⟩
    · simp only [hd, Res.bind]
      rw [destroyArray_spec _ _ _ _ hown, hinplace cap (by rw [hk]; rfl) (by simp [hd])]
    · simp only [hd]
      rw [hdel id hd]
      simp only [Res.bind]
      rw [destroyArray_spec]
      · congr 2
        refine World.ext_mem (fun q j => ?_) (by simp [release, World.clear, hd]) rfl rfl
        cases q with
        | null => simp [release, World.clear, Owns]
        | own b' => simp only [release, World.clear, Owns, hk, inPlaceCount, Place.own.injEq, reduceCtorEq, false_and, if_false]
        | block id' =>
          simp only [release, World.clear, Owns, hd, Ptr.block.injEq, Place.block.injEq, reduceCtorEq, false_and, if_false,
            eq_comm (a := id)]
      · intro j hj
        simpa [World.clear] using hown j hj
  | heap =>
    simp only [hk] at hs ⊢
    rcases hs with ⟨hd, hz⟩ | ⟨⟨id, hd⟩, _⟩
    · simp only [hd]
      congr 2
      rw [hinplace 0 (by rw [hk]; rfl) (by simp [hd])]
      exact (clear_zero w _).symm
    · simp only [hd]
      rw [hdel id hd]
      congr 2
      refine World.ext_mem (fun q j => ?_) (by simp [release, hd]) rfl rfl
      cases q with
      | null => simp [release, World.clear, Owns]
      | own b' => simp [release, World.clear, Owns, hk, inPlaceCount]
      | block id' => simp only [release, World.clear, Owns, hd, Ptr.block.injEq, Place.block.injEq, eq_comm (a := id)]

end Makeshift.BufferEx
