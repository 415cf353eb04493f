import Verif.Lemmas.BufferExceptions
import Verif.Lemmas.BufferSim

namespace Makeshift.BufferEx

open Makeshift.Buffer (Ty Kind Ptr Op Resp update update_same update_of_ne)
open Spec.BufEx (Store set InContract Allowed Result)

/-! ## Invariant -/

/-- Exactly the elements of existing buffers are alive, and exactly their blocks are allocated. -/
structure Inv (tyOf : Nat → Ty) (w : World) : Prop where
  own_mem : ∀ b j, (w.mem (.own b) j).isSome ↔ ∃ o, w.objs b = some o ∧ j < inPlaceCount o.ty.kind
  block_mem : ∀ id j, (w.mem (.block id) j).isSome ↔ ∃ n, w.alloc id = some n ∧ j < n
  null_mem : ∀ j, w.mem .null j = none
  alloc_iff : ∀ id n, w.alloc id = some n ↔ ∃ b o, w.objs b = some o ∧ o.data = .block id ∧ o.size = n
  fresh : ∀ id, w.next ≤ id → w.alloc id = none
  shape : ∀ b o, w.objs b = some o → Shape o
  ty : ∀ b o, w.objs b = some o → o.ty = tyOf b
  uniq : ∀ b b' o o' id, w.objs b = some o → w.objs b' = some o' → o.data = .block id → o'.data = .block id → b = b'

theorem inv_init (tyOf : Nat → Ty) : Inv tyOf St.init.w := by
  constructor <;> simp [St.init]

/-- The elements of a buffer. -/
def Holds (w : World) (b : Nat) (l : List Int) : Prop :=
  ∃ o, w.objs b = some o ∧ l.length = o.size ∧ ∀ j v, l[j]? = some v → w.mem (place b o.data) j = some v

/-- The buffers of the world are those of the store. -/
structure Rel (w : World) (a : Store) : Prop where
  none_iff : ∀ b, a b = none ↔ w.objs b = none
  holds : ∀ b l, a b = some l → Holds w b l

theorem rel_init : Rel St.init.w Spec.BufEx.none := by
  constructor <;> simp [St.init, Spec.BufEx.none]

theorem Inv.owns {tyOf : Nat → Ty} {w : World} (h : Inv tyOf w) {b : Nat} {o : Obj} (ho : w.objs b = some o) (q : Place) (j : Nat)
    (hq : Owns b o q j) : (w.mem q j).isSome := by
  cases q with
  | null => exact hq.elim
  | own b' => obtain ⟨rfl, hj⟩ := hq; exact (h.own_mem _ j).2 ⟨o, ho, hj⟩
  | block id => exact (h.block_mem id j).2 ⟨o.size, (h.alloc_iff id _).2 ⟨b, o, ho, hq.1, rfl⟩, hq.2⟩

theorem Inv.vacant {tyOf : Nat → Ty} {w : World} (h : Inv tyOf w) {b : Nat} (hb : w.objs b = none) : Vacant w b := by
  refine ⟨fun j => ?_, fun id hid j => ?_, h.fresh⟩
  · rw [← Option.not_isSome_iff_eq_none, h.own_mem b j]
    rintro ⟨o, ho, _⟩
    rw [hb] at ho; cases ho
  · rw [← Option.not_isSome_iff_eq_none, h.block_mem id j]
    rintro ⟨n, hn, _⟩
    rw [h.fresh id hid] at hn; cases hn

theorem Inv.upto {tyOf : Nat → Ty} {w w' : World} (h : Inv tyOf w) (hu : Upto w w') : Inv tyOf w' := by
  obtain ⟨h1, h2, h3, h4⟩ := hu
  constructor
  · rw [h1, h3]; exact h.own_mem
  · rw [h1, h2]; exact h.block_mem
  · rw [h1]; exact h.null_mem
  · rw [h2, h3]; exact h.alloc_iff
  · intro id hid; rw [h2]; exact h.fresh id (Nat.le_trans h4 hid)
  · rw [h3]; exact h.shape
  · rw [h3]; exact h.ty
  · rw [h3]; exact h.uniq

theorem Rel.upto {w w' : World} {a : Store} (h : Rel w a) (hu : Upto w w') : Rel w' a := by
  obtain ⟨h1, _, h3, _⟩ := hu
  constructor
  · rw [h3]; exact h.none_iff
  · intro b l hb
    obtain ⟨o, ho, hl, hv⟩ := h.holds b l hb
    exact ⟨o, by rw [h3]; exact ho, hl, by rw [h1]; exact hv⟩

/-- The elements of another buffer are elsewhere. -/
theorem Inv.disjoint {tyOf : Nat → Ty} {w : World} (h : Inv tyOf w) {b b' : Nat} {o o' : Obj} (hb : w.objs b = some o)
    (hb' : w.objs b' = some o') (hne : b' ≠ b) {j i : Nat} (hj : j < o'.size) : ¬ Owns b o (place b' o'.data) i := by
  intro hq
  have ho' := (h.shape b' o' hb').owns (b := b') hj
  cases hd : o'.data with
  | null => rw [hd] at hq; exact hq
  | own => rw [hd] at hq; exact hne hq.1
  | block id => rw [hd] at hq; exact hne (h.uniq b' b o' o id hb' hb hd hq.1)

/-- A step which changes one buffer. -/
theorem Rel.set_of {w w' : World} {a : Store} (h : Rel w a) {b : Nat} (hobj : ∀ b', b' ≠ b → w'.objs b' = w.objs b')
    (hmem : ∀ b' o', b' ≠ b → w.objs b' = some o' → ∀ j < o'.size, w'.mem (place b' o'.data) j = w.mem (place b' o'.data) j)
    (x : Option (List Int)) (hx : x = none ↔ w'.objs b = none) (hl : ∀ l, x = some l → Holds w' b l) : Rel w' (set a b x) := by
  constructor
  · intro b'
    by_cases hb : b' = b
    · subst hb; simp [Spec.BufEx.set, hx]
    · simp only [Spec.BufEx.set, hb, if_false, hobj b' hb]; exact h.none_iff b'
  · intro b' l hbl
    by_cases hb : b' = b
    · subst hb; exact hl l (by simpa [Spec.BufEx.set] using hbl)
    · simp only [Spec.BufEx.set, hb, if_false] at hbl
      obtain ⟨o, ho, hlen, hv⟩ := h.holds b' l hbl
      refine ⟨o, by rw [hobj b' hb]; exact ho, hlen, ?_⟩
      intro j v hjv
      have hj : j < o.size := by rw [← hlen]; exact (List.getElem?_eq_some_iff.1 hjv).1
      rw [hmem b' o hb ho j hj]
      exact hv j v hjv

/-- A buffer comes into existence. -/
theorem add_buffer {tyOf : Nat → Ty} {w w' : World} {a : Store} {b : Nat} {o : Obj} {vals : Nat → Int} (hI : Inv tyOf w) (hR : Rel w a)
    (hb : w.objs b = none) (hB : Built w b o vals w') (hty : o.ty = tyOf b) (l : List Int) (hl : l.length = o.size)
    (hv : ∀ j v, l[j]? = some v → v = vals j) :
    Inv tyOf { w' with objs := update w'.objs b (some o) } ∧ Rel { w' with objs := update w'.objs b (some o) } (set a b (some l)) := by
  have hobj : ∀ b', b' ≠ b → update w'.objs b (some o) b' = w.objs b' := fun b' hne => by
    rw [update_of_ne _ _ hne, hB.objs]
  have hold : ∀ id n, w.alloc id = some n → id < w.next := fun id n hn => by
    by_contra hc
    rw [hI.fresh id (by omega)] at hn; cases hn
  have halloc : ∀ id, (∀ id', o.data = .block id' → id ≠ id') → w'.alloc id = w.alloc id := by
    intro id hid
    rw [hB.alloc]
    cases hd : o.data with
    | block id' => exact update_of_ne _ _ (hid id' hd)
    | _ => rfl
  have halloc' : ∀ id, o.data = .block id → w'.alloc id = some o.size := by
    intro id hd; rw [hB.alloc, hd]; exact update_same _ _ _
  constructor
  · refine ⟨?_, ?_, ?_, ?_, ?_, ?_, ?_, ?_⟩
    · intro b' j
      by_cases hne : b' = b
      · subst hne
        simp only [update_same, Option.some.injEq, exists_eq_left']
        by_cases hj : j < inPlaceCount o.ty.kind
        · exact ⟨fun _ => hj, fun _ => hB.alive (.own b') j ⟨rfl, hj⟩⟩
        · refine ⟨fun h => ?_, fun h => absurd h hj⟩
          rw [hB.other (.own b') j (fun hq => hj hq.2), (hI.vacant hb).own j] at h
          cases h
      · simp only [hobj b' hne, hB.other (.own b') j (fun hq => hne hq.1)]
        exact hI.own_mem b' j
    · intro id j
      by_cases hd : o.data = .block id
      · simp only [halloc' id hd, Option.some.injEq, exists_eq_left']
        by_cases hj : j < o.size
        · exact ⟨fun _ => hj, fun _ => hB.alive (.block id) j ⟨hd, hj⟩⟩
        · refine ⟨fun h => ?_, fun h => absurd h hj⟩
          rw [hB.other (.block id) j (fun hq => hj hq.2), (hI.vacant hb).block id (hB.fresh id hd).1 j] at h
          cases h
      · simp only [hB.other (.block id) j (fun hq => hd hq.1), halloc id (fun id' h' he => hd (he ▸ h'))]
        exact hI.block_mem id j
    · intro j
      simp only [hB.other .null j (fun hq => hq)]
      exact hI.null_mem j
    · intro id n
      simp only
      by_cases hd : o.data = .block id
      · rw [halloc' id hd]
        constructor
        · intro h
          exact ⟨b, o, update_same _ _ _, hd, by simpa using h⟩
        · rintro ⟨b', o', ho', hd', hn⟩
          by_cases hne : b' = b
          · subst hne
            rw [update_same] at ho'
            cases ho'
            rw [hn]
          · rw [hobj b' hne] at ho'
            have h1 := hold id _ ((hI.alloc_iff id _).2 ⟨b', o', ho', hd', rfl⟩)
            have h2 := (hB.fresh id hd).1
            omega
      · rw [halloc id (fun id' h' he => hd (he ▸ h')), hI.alloc_iff]
        constructor
        · rintro ⟨b', o', ho', hd', hn⟩
          have hne : b' ≠ b := by rintro rfl; rw [hb] at ho'; cases ho'
          exact ⟨b', o', by rw [hobj b' hne]; exact ho', hd', hn⟩
        · rintro ⟨b', o', ho', hd', hn⟩
          by_cases hne : b' = b
          · subst hne
            rw [update_same] at ho'
            cases ho'
            exact absurd hd' hd
          · exact ⟨b', o', by rw [← hobj b' hne]; exact ho', hd', hn⟩
    · intro id hid
      simp only at hid ⊢
      rw [halloc id (fun id' h' he => by have := (hB.fresh id' h').2; omega)]
      exact hI.fresh id (Nat.le_trans hB.next hid)
    · intro b' o' ho'
      simp only at ho'
      by_cases hne : b' = b
      · subst hne; rw [update_same] at ho'; cases ho'; exact hB.shape
      · rw [hobj b' hne] at ho'; exact hI.shape b' o' ho'
    · intro b' o' ho'
      simp only at ho'
      by_cases hne : b' = b
      · subst hne; rw [update_same] at ho'; cases ho'; exact hty
      · rw [hobj b' hne] at ho'; exact hI.ty b' o' ho'
    · intro b1 b2 o1 o2 id h1 h2 hd1 hd2
      simp only at h1 h2
      by_cases hn1 : b1 = b <;> by_cases hn2 : b2 = b
      · rw [hn1, hn2]
      · subst hn1
        rw [update_same] at h1
        cases h1
        rw [hobj b2 hn2] at h2
        have h3 := hold id _ ((hI.alloc_iff id _).2 ⟨b2, o2, h2, hd2, rfl⟩)
        have h4 := (hB.fresh id hd1).1
        omega
      · subst hn2
        rw [update_same] at h2
        cases h2
        rw [hobj b1 hn1] at h1
        have h3 := hold id _ ((hI.alloc_iff id _).2 ⟨b1, o1, h1, hd1, rfl⟩)
        have h4 := (hB.fresh id hd2).1
        omega
      · rw [hobj b1 hn1] at h1
        rw [hobj b2 hn2] at h2
        exact hI.uniq b1 b2 o1 o2 id h1 h2 hd1 hd2
  · refine hR.set_of hobj ?_ _ (by simp [update_same]) ?_
    · intro b' o' hne ho' j hj
      simp only
      refine hB.other _ _ ?_
      intro hq
      have hsome := hI.owns ho' _ _ ((hI.shape b' o' ho').owns (b := b') hj)
      cases hd : o'.data with
      | null => rw [hd] at hq; exact hq
      | own => rw [hd] at hq; exact hne hq.1
      | block id =>
        rw [hd] at hq
        have h3 := hold id _ ((hI.alloc_iff id _).2 ⟨b', o', ho', hd, rfl⟩)
        have h4 := (hB.fresh id hq.1).1
        omega
    · intro l' hl'
      cases hl'
      refine ⟨o, update_same _ _ _, hl, ?_⟩
      intro j v hjv
      have hj : j < o.size := by rw [← hl]; exact (List.getElem?_eq_some_iff.1 hjv).1
      rw [hv j v hjv]
      exact hB.vals j hj

/-- A buffer goes out of existence. -/
theorem remove_buffer {tyOf : Nat → Ty} {w : World} {a : Store} {b : Nat} {o : Obj} (hI : Inv tyOf w) (hR : Rel w a)
    (hb : w.objs b = some o) :
    Inv tyOf { release w b o with objs := update w.objs b none } ∧
    Rel { release w b o with objs := update w.objs b none } (set a b none) := by
  have hobj : ∀ b', b' ≠ b → update w.objs b none b' = w.objs b' := fun b' hne => update_of_ne _ _ hne
  have halloc : ∀ id, o.data ≠ .block id → (release w b o).alloc id = w.alloc id := by
    intro id hid
    simp only [release]
    cases hd : o.data with
    | block id' =>
      have : id ≠ id' := fun he => hid (by rw [hd, he])
      exact update_of_ne _ _ this
    | _ => rfl
  have halloc' : ∀ id, o.data = .block id → (release w b o).alloc id = none := by
    intro id hd; simp only [release, hd]; exact update_same _ _ _
  have hsome : ∀ b' o', update w.objs b none b' = some o' → b' ≠ b ∧ w.objs b' = some o' := by
    intro b' o' ho'
    by_cases hne : b' = b
    · subst hne; rw [update_same] at ho'; cases ho'
    · rw [hobj b' hne] at ho'; exact ⟨hne, ho'⟩
  constructor
  · refine ⟨?_, ?_, ?_, ?_, ?_, ?_, ?_, ?_⟩
    · intro b' j
      simp only [release]
      by_cases hq : Owns b o (.own b') j
      · simp only [hq, if_true, Option.isSome_none, Bool.false_eq_true, false_iff]
        rintro ⟨o', ho', _⟩
        exact (hsome b' o' ho').1 hq.1
      · rw [if_neg hq, hI.own_mem]
        constructor
        · rintro ⟨o', ho', hj⟩
          have hne : b' ≠ b := by
            rintro rfl
            rw [hb] at ho'
            cases ho'
            exact hq ⟨rfl, hj⟩
          exact ⟨o', by rw [hobj b' hne]; exact ho', hj⟩
        · rintro ⟨o', ho', hj⟩
          exact ⟨o', (hsome b' o' ho').2, hj⟩
    · intro id j
      by_cases hd : o.data = .block id
      · simp only [halloc' id hd, reduceCtorEq, false_and, exists_false, iff_false]
        simp only [release]
        by_cases hq : Owns b o (.block id) j
        · simp [hq]
        · rw [if_neg hq, hI.block_mem]
          rintro ⟨n, hn, hj⟩
          rw [(hI.alloc_iff id o.size).2 ⟨b, o, hb, hd, rfl⟩] at hn
          cases hn
          exact hq ⟨hd, hj⟩
      · simp only [halloc id hd]
        simp only [release, if_neg (show ¬ Owns b o (.block id) j from fun hq => hd hq.1)]
        exact hI.block_mem id j
    · intro j
      simp only [release, if_neg (show ¬ Owns b o .null j from fun hq => hq)]
      exact hI.null_mem j
    · intro id n
      by_cases hd : o.data = .block id
      · simp only [halloc' id hd, reduceCtorEq, false_iff]
        rintro ⟨b', o', ho', hd', _⟩
        obtain ⟨hne, ho'⟩ := hsome b' o' ho'
        exact hne (hI.uniq b' b o' o id ho' hb hd' hd)
      · simp only [halloc id hd, hI.alloc_iff]
        constructor
        · rintro ⟨b', o', ho', hd', hn⟩
          have hne : b' ≠ b := by
            rintro rfl
            rw [hb] at ho'
            cases ho'
            exact hd hd'
          exact ⟨b', o', by rw [hobj b' hne]; exact ho', hd', hn⟩
        · rintro ⟨b', o', ho', hd', hn⟩
          exact ⟨b', o', (hsome b' o' ho').2, hd', hn⟩
    · intro id hid
      by_cases hd : o.data = .block id
      · exact halloc' id hd
      · rw [show ({ release w b o with objs := update w.objs b none } : World).alloc id = w.alloc id from halloc id hd]
        exact hI.fresh id hid
    · intro b' o' ho'
      exact hI.shape b' o' (hsome b' o' ho').2
    · intro b' o' ho'
      exact hI.ty b' o' (hsome b' o' ho').2
    · intro b1 b2 o1 o2 id h1 h2
      exact hI.uniq b1 b2 o1 o2 id (hsome b1 o1 h1).2 (hsome b2 o2 h2).2
  · refine hR.set_of hobj ?_ _ (by simp [update_same]) (by simp)
    intro b' o' hne ho' j hj
    simp only [release]
    rw [if_neg (hI.disjoint hb ho' hne hj)]

/-- Elements change their values. -/
theorem Inv.mem_of {tyOf : Nat → Ty} {w w' : World} (hI : Inv tyOf w) (ha : w'.alloc = w.alloc) (hn : w'.next = w.next)
    (ho : w'.objs = w.objs) (hm : ∀ q j, (w'.mem q j).isSome = (w.mem q j).isSome) : Inv tyOf w' := by
  constructor
  · intro b j; rw [hm, ho]; exact hI.own_mem b j
  · intro id j; rw [hm, ha]; exact hI.block_mem id j
  · intro j
    rw [← Option.not_isSome_iff_eq_none, hm, hI.null_mem j]
    simp
  · rw [ha, ho]; exact hI.alloc_iff
  · rw [ha, hn]; exact hI.fresh
  · rw [ho]; exact hI.shape
  · rw [ho]; exact hI.ty
  · rw [ho]; exact hI.uniq

/-- A buffer whose construction has failed after its elements were constructed is destroyed without a trace. -/
theorem release_upto {w w1 w2 : World} {b : Nat} {o : Obj} {vals : Nat → Int} (hv : Vacant w b) (hB : Built w b o vals w1)
    (ha : w2.alloc = w1.alloc) (hn : w2.next = w1.next) (ho : w2.objs = w1.objs)
    (hm : ∀ q j, ¬ Owns b o q j → w2.mem q j = w1.mem q j) : Upto w (release w2 b o) := by
  refine ⟨?_, ?_, by simp only [release]; rw [ho, hB.objs], by simp only [release]; rw [hn]; exact hB.next⟩
  · funext q j
    simp only [release]
    by_cases hq : Owns b o q j
    · rw [if_pos hq]
      cases q with
      | null => exact hq.elim
      | own b' => obtain ⟨rfl, _⟩ := hq; exact (hv.own j).symm
      | block id => exact (hv.block id (hB.fresh id hq.1).1 j).symm
    · rw [if_neg hq, hm q j hq, hB.other q j hq]
  · simp only [release]
    cases hd : o.data with
    | block id =>
      funext id'
      have := hB.alloc
      rw [hd] at this
      simp only [ha, this]
      by_cases he : id' = id
      · subst he; rw [update_same, hv.alloc id' (hB.fresh id' hd).1]
      · rw [update_of_ne _ _ he, update_of_ne _ _ he]
    | _ =>
      have := hB.alloc
      rw [hd] at this
      simp only [ha, this]

/-- Fill a buffer which has just been constructed. -/
theorem fill_built (env : Env) (src : Source) (f : Nat → Int) {w w1 : World} {b : Nat} {o : Obj} (t : Nat) (hv : Vacant w b)
    (hB : Built w b o (fun _ => 0) w1)
    (hsrc : ∀ i j t, j < o.size →
      src.read j ⟨w1.fill (place b o.data) f i, t⟩ = .ok (f j) ⟨w1.fill (place b o.data) f i, t⟩) :
    (∃ w2 t', (assignFrom env (place b o.data) src 0 o.size ⟨w1, t⟩).onThrow (destroy b o) = .ok () ⟨w2, t'⟩ ∧ Built w b o f w2) ∨
    ((∃ u, (env.fails u).isSome) ∧ ∃ w2 t', (assignFrom env (place b o.data) src 0 o.size ⟨w1, t⟩).onThrow (destroy b o) =
      .threw ⟨w2, t'⟩ ∧ Upto w w2) := by
  have hown : ∀ j < o.size, Owns b o (place b o.data) j := fun j hj => hB.shape.owns hj
  have h := assignFrom_spec env (place b o.data) src f w1 o.size (fun j hj => hB.alive _ _ (hown j hj))
    (fun i j t _ hj => hsrc i j t hj) o.size 0 t (by omega)
  rw [fill_zero] at h
  rcases h with ⟨t', h⟩ | ⟨hf, j, x, t', hj, h⟩
  · left
    refine ⟨_, t', by rw [h]; rfl, ?_⟩
    refine ⟨hB.shape, hB.objs, hB.alloc, hB.next, hB.fresh, ?_, ?_, ?_⟩
    · intro q j hq
      have : ¬ (q = place b o.data ∧ j < o.size) := by rintro ⟨rfl, hj⟩; exact hq (hown j hj)
      simp only [World.fill, if_neg this]
      exact hB.other q j hq
    · intro q j hq
      simp only [World.fill]
      split
      · rfl
      · exact hB.alive q j hq
    · intro j hj
      simp [World.fill, hj]
  · right
    refine ⟨hf, release ((w1.fill (place b o.data) f j).put (place b o.data) j (some x)) b o, t', ?_, ?_⟩
    · rw [h]
      simp only [Res.onThrow]
      rw [destroy_spec b o _ _ hB.shape]
      · intro q i hq
        simp only [World.put, World.fill]
        split
        · rfl
        · split
          · rfl
          · exact hB.alive q i hq
      · intro id hd
        have := hB.alloc
        rw [hd] at this
        simp only [World.put, World.fill, this]
        exact update_same _ _ _
    · refine release_upto hv hB rfl rfl rfl ?_
      intro q i hq
      have h1 : ¬ (q = place b o.data ∧ i = j) := by rintro ⟨rfl, rfl⟩; exact hq (hown i hj)
      have h2 : ¬ (q = place b o.data ∧ i < j) := by rintro ⟨rfl, hi⟩; exact hq (hown i (by omega))
      simp only [World.put, World.fill, if_neg h1, if_neg h2]

/-! ## Operations -/

/-- What is to be shown of an operation. -/
def Sim (tyOf : Nat → Ty) (env : Env) (w : World) (a : Store) (op : Op) : Res Resp → Prop
  | .ok r s => ∃ a', Allowed a op (.returned a' r) ∧ Inv tyOf s.w ∧ Rel s.w a'
  | .threw s => (env.limit < Spec.BufEx.needs a op ∨ ∃ u, (env.fails u).isSome) ∧
      (∃ a', Allowed a op (.threw a') ∧ Inv tyOf s.w ∧ Rel s.w a') ∧ (Spec.BufEx.creates op = true → Upto w s.w)
  | .failFast => Allowed a op .failFast
  | .ub => False

theorem size_good {ty : Ty} {n : Nat} (h : Buffer.GoodSize ty n) :
    (match ty.kind with | .inPlace m => m | _ => n) = n ∧ ∀ cap, ty.kind = .inPlaceMax cap → n ≤ cap := by
  rcases ty with ⟨_ | k, m⟩ | ⟨_ | k, m⟩ <;> simp only [Buffer.GoodSize] at h
  · rw [Buffer.kind_buffer_none]
    by_cases hm : m ≤ 0 <;> simp [hm]
  · subst h
    rw [Buffer.kind_buffer_some]
    by_cases h1 : m < 0
    · simp [h1]
    · by_cases h2 : m = 0
      · simp [h2]
      · by_cases h3 : (n : Int) ≤ m <;> simp [h1, h2, h3]
  · simp only [Ty.kind, true_and]
    intro cap hc
    cases hc
    exact h
  · subst h
    simp [Ty.kind]

/-- The size of a buffer in place changes. -/
theorem Inv.resize {tyOf : Nat → Ty} {w : World} {b n : Nat} {o : Obj} (hI : Inv tyOf w) (hb : w.objs b = some o) (hd : o.data = .own)
    (hs : Shape { o with size := n }) : Inv tyOf { w with objs := update w.objs b (some { o with size := n }) } := by
  have hobj : ∀ b' o', update w.objs b (some { o with size := n }) b' = some o' →
      ∃ o'', w.objs b' = some o'' ∧ o''.ty = o'.ty ∧ o''.data = o'.data ∧ ((∃ id, o'.data = .block id) → o'' = o') ∧ Shape o' := by
    intro b' o' ho'
    by_cases hne : b' = b
    · subst hne
      rw [update_same] at ho'
      cases ho'
      exact ⟨o, hb, rfl, rfl, fun ⟨id, h⟩ => absurd (hd.symm.trans h) (by simp), hs⟩
    · rw [update_of_ne _ _ hne] at ho'
      exact ⟨o', ho', rfl, rfl, fun _ => rfl, hI.shape b' o' ho'⟩
  have hobj' : ∀ b' o', w.objs b' = some o' → ∃ o'', update w.objs b (some { o with size := n }) b' = some o'' ∧ o''.ty = o'.ty ∧
      ((∃ id, o'.data = .block id) → o'' = o') := by
    intro b' o' ho'
    by_cases hne : b' = b
    · subst hne
      rw [hb] at ho'
      cases ho'
      exact ⟨_, update_same _ _ _, rfl, by rintro ⟨id, h⟩; rw [hd] at h; cases h⟩
    · exact ⟨o', by rw [update_of_ne _ _ hne]; exact ho', rfl, fun _ => rfl⟩
  refine ⟨?_, hI.block_mem, hI.null_mem, ?_, hI.fresh, ?_, ?_, ?_⟩
  · intro b' j
    simp only [hI.own_mem b' j]
    constructor
    · rintro ⟨o', ho', hj⟩
      obtain ⟨o'', h1, h2, _⟩ := hobj' b' o' ho'
      exact ⟨o'', h1, by rw [h2]; exact hj⟩
    · rintro ⟨o', ho', hj⟩
      obtain ⟨o'', h1, h2, _⟩ := hobj b' o' ho'
      exact ⟨o'', h1, by rw [h2]; exact hj⟩
  · intro id n'
    simp only [hI.alloc_iff id n']
    constructor
    · rintro ⟨b', o', ho', hd', hn⟩
      obtain ⟨o'', h1, _, h2⟩ := hobj' b' o' ho'
      rw [h2 ⟨id, hd'⟩] at h1
      exact ⟨b', o', h1, hd', hn⟩
    · rintro ⟨b', o', ho', hd', hn⟩
      obtain ⟨o'', h1, _, _, h2, _⟩ := hobj b' o' ho'
      rw [h2 ⟨id, hd'⟩] at h1
      exact ⟨b', o', h1, hd', hn⟩
  · intro b' o' ho'
    obtain ⟨_, _, _, _, _, h⟩ := hobj b' o' ho'
    exact h
  · intro b' o' ho'
    obtain ⟨o'', h1, h2, _⟩ := hobj b' o' ho'
    rw [← h2]
    exact hI.ty b' o'' h1
  · intro b1 b2 o1 o2 id h1 h2 hd1 hd2
    obtain ⟨o1', h1', _, h1'', _⟩ := hobj b1 o1 h1
    obtain ⟨o2', h2', _, h2'', _⟩ := hobj b2 o2 h2
    exact hI.uniq b1 b2 o1' o2' id h1' h2' (h1''.trans hd1) (h2''.trans hd2)

theorem create_ok {tyOf : Nat → Ty} {env : Env} {w w' : World} {a : Store} {op : Op} {b : Nat} {o : Obj} {vals : Nat → Int} {t t' : Nat}
    {r : Res Obj} (hI : Inv tyOf w) (hR : Rel w a) (hb : w.objs b = none) (hr : r = .ok o ⟨w', t'⟩) (hB : Built w b o vals w')
    (hty : o.ty = tyOf b) (l : List Int) (hl : l.length = o.size) (hv : ∀ j v, l[j]? = some v → v = vals j)
    (hA : Allowed a op (.returned (set a b (some l)) .unit)) : Sim tyOf env w a op (create ⟨w, t⟩ b r) := by
  have := add_buffer hI hR hb hB hty l hl hv
  simp only [create, hb, hr, Res.bind, Sim]
  exact ⟨_, hA, this.1, this.2⟩

theorem create_threw {tyOf : Nat → Ty} {env : Env} {w w' : World} {a : Store} {op : Op} {b : Nat} {t t' : Nat} {r : Res Obj}
    (hI : Inv tyOf w) (hR : Rel w a) (hb : w.objs b = none) (hr : r = .threw ⟨w', t'⟩) (hu : Upto w w')
    (hc : env.limit < Spec.BufEx.needs a op ∨ ∃ u, (env.fails u).isSome) (hA : Allowed a op (.threw a)) :
    Sim tyOf env w a op (create ⟨w, t⟩ b r) := by
  simp only [create, hb, hr, Res.bind, Sim]
  exact ⟨hc, ⟨a, hA, hI.upto hu, hR.upto hu⟩, fun _ => hu⟩

theorem construct_sim {tyOf : Nat → Ty} (env : Env) {w : World} {a : Store} (t : Nat) {b : Nat} {ty : Ty} {e : Int} (hI : Inv tyOf w)
    (hR : Rel w a) (hw : (Op.construct b ty e).wellFormed tyOf) (hc : InContract a (.construct b ty e)) :
    Sim tyOf env w a (.construct b ty e) (step env ⟨w, t⟩ (.construct b ty e)) := by
  obtain ⟨hty, _, he1, he2⟩ := hw
  have hb : w.objs b = none := (hR.none_iff b).1 hc
  simp only [step]
  have hreq := Buffer.wrap_request e he1 he2
  rcases construct_spec env b ty (Spec.Buf.request e) w t (hI.vacant hb) with ⟨o, w', t', h, hoty, hsz, hB⟩ | ⟨hcause, w', t', h, hu⟩
  · by_cases hok : Spec.Buf.extentOk ty e
    · have hn : Spec.Buf.request e = e.toNat := by
        have := Buffer.extentOk_nonneg hok
        exact if_neg (by omega)
      have hg := size_good (Buffer.extentOk_good hok)
      rw [hn] at hsz hB
      have hsz : o.size = e.toNat := hsz.trans hg.1
      refine create_ok hI hR hb (o := o) (w' := w') (t' := t') ?_ (hB hg.2) (hoty.trans hty) (List.replicate e.toNat 0)
        (by simp [hsz]) ?_ (.construct hok)
      · simp only [constructExtent, hreq, h, Res.bind, (Buffer.checkExtent_iff ty e).2 hok, if_true]
      · intro j v hjv
        simp only [List.getElem?_replicate] at hjv
        split at hjv
        · exact (Option.some.inj hjv).symm
        · cases hjv
    · have : Buffer.checkExtent ty e = false := by
        cases hcc : Buffer.checkExtent ty e with
        | false => rfl
        | true => exact absurd ((Buffer.checkExtent_iff ty e).1 hcc) hok
      simp only [create, hb, constructExtent, hreq, h, Res.bind, this, Bool.false_eq_true, if_false, Sim]
      exact .constructRejected hok
  · refine create_threw hI hR hb (w' := w') (t' := t') ?_ hu hcause .constructThrew
    simp only [constructExtent, hreq, h, Res.bind]

theorem constructArray_sim {tyOf : Nat → Ty} (env : Env) {w : World} {a : Store} (t : Nat) {b : Nat} {ty : Ty} {vals : List Int}
    (hI : Inv tyOf w) (hR : Rel w a) (hw : (Op.constructArray b ty vals).wellFormed tyOf)
    (hc : InContract a (.constructArray b ty vals)) :
    Sim tyOf env w a (.constructArray b ty vals) (step env ⟨w, t⟩ (.constructArray b ty vals)) := by
  obtain ⟨hty, _, hao, _⟩ := hw
  obtain ⟨hab, hfit⟩ := hc
  have hb : w.objs b = none := (hR.none_iff b).1 hab
  have hg := size_good (Buffer.arrayOk_good hao (by rintro m rfl; exact hfit))
  simp only [step]
  rcases construct_spec env b ty vals.length w t (hI.vacant hb) with ⟨o, w', t', h, hoty, hsz, hB⟩ | ⟨hcause, w', t', h, hu⟩
  · have hB := hB hg.2
    have hsz : o.size = vals.length := hsz.trans hg.1
    have hfill := fill_built env (.array vals) (fun j => vals[j]?.getD 0) t' (hI.vacant hb) hB (by
      intro i j t hj
      have : vals[j]? = some vals[j] := List.getElem?_eq_getElem (by omega)
      simp [Source.read, this])
    rw [hsz] at hfill
    rcases hfill with ⟨w2, t2, h2, hB2⟩ | ⟨hf, w2, t2, h2, hu⟩
    · refine create_ok hI hR hb (o := o) (w' := w2) (t' := t2) ?_ hB2 (hoty.trans hty) vals hsz.symm ?_ .constructArray
      · simp only [constructArray, h, Res.bind, h2]
      · intro j v hjv; simp [hjv]
    · refine create_threw hI hR hb (w' := w2) (t' := t2) ?_ hu (.inr hf) .constructArrayThrew
      simp only [constructArray, h, Res.bind, h2]
  · refine create_threw hI hR hb (w' := w') (t' := t') ?_ hu hcause .constructArrayThrew
    simp only [constructArray, h, Res.bind]

/-- Copying the elements in place. -/
theorem copy_inPlace {tyOf : Nat → Ty} (env : Env) {w : World} (t : Nat) {b src : Nat} {rhs : Obj} (hI : Inv tyOf w)
    (hb : w.objs b = none) (hs : w.objs src = some rhs) (hd : rhs.data = .own) :
    (∃ w' t', (constructArrayFrom env (.own b) (.elems (.own src)) 0 (inPlaceCount rhs.ty.kind) ⟨w, t⟩).bind (fun _ s => .ok rhs s) =
        .ok rhs ⟨w', t'⟩ ∧ Built w b rhs (fun j => (w.mem (.own src) j).getD 0) w') ∨
    ((∃ u, (env.fails u).isSome) ∧ ∃ w' t', (constructArrayFrom env (.own b) (.elems (.own src)) 0 (inPlaceCount rhs.ty.kind)
        ⟨w, t⟩).bind (fun _ s => .ok rhs s) = .threw ⟨w', t'⟩ ∧ Upto w w') := by
  have hne : src ≠ b := by rintro rfl; rw [hb] at hs; cases hs
  have h := constructArrayFrom_spec env (.own b) (.elems (.own src)) (fun j => (w.mem (.own src) j).getD 0) w (inPlaceCount rhs.ty.kind)
    (fun j _ => (hI.vacant hb).own j) (by
      intro i j t hj
      obtain ⟨v, hv⟩ := Option.isSome_iff_exists.1 ((hI.own_mem src j).2 ⟨rhs, hs, hj⟩)
      simp [Source.read, readElem, World.fill, hne, hv]) (inPlaceCount rhs.ty.kind) 0 t (by omega)
  rw [fill_zero] at h
  rcases h with ⟨t', h⟩ | ⟨hf, t', h⟩
  · left
    refine ⟨_, t', by rw [h]; rfl, ?_⟩
    have hown := fun j hj => (hI.shape src rhs hs).owns (b := b) (j := j) hj
    rw [hd] at hown
    refine ⟨hI.shape src rhs hs, rfl, by rw [hd]; rfl, Nat.le_refl _, by rw [hd]; simp, ?_, ?_, ?_⟩
    · intro q j hq
      have : ¬ (q = .own b ∧ j < inPlaceCount rhs.ty.kind) := by rintro ⟨rfl, hj⟩; exact hq ⟨rfl, hj⟩
      simp only [World.fill, if_neg this]
    · intro q j hq
      cases q with
      | null => exact hq.elim
      | own b' => obtain ⟨rfl, hj⟩ := hq; simp [World.fill, hj]
      | block id => have := hq.1; rw [hd] at this; cases this
    · intro j hj
      have := (hown j hj).2
      simp [hd, place, World.fill, this]
  · right
    exact ⟨hf, w, t', by rw [h]; rfl, .refl w⟩

theorem copy_sim {tyOf : Nat → Ty} (env : Env) {w : World} {a : Store} (t : Nat) {b src : Nat} (hI : Inv tyOf w) (hR : Rel w a)
    (hw : (Op.copy b src).wellFormed tyOf) (hc : InContract a (.copy b src)) :
    Sim tyOf env w a (.copy b src) (step env ⟨w, t⟩ (.copy b src)) := by
  obtain ⟨hab, has⟩ := hc
  have hb : w.objs b = none := (hR.none_iff b).1 hab
  obtain ⟨l, hl⟩ := Option.ne_none_iff_exists'.1 has
  obtain ⟨rhs, hs, hlen, hval⟩ := hR.holds src l hl
  have hty : rhs.ty = tyOf b := (hI.ty src rhs hs).trans (Eq.symm hw)
  have hne : src ≠ b := by rintro rfl; rw [hb] at hs; cases hs
  have hshape := hI.shape src rhs hs
  have hget : ∀ j < rhs.size, w.mem (place src rhs.data) j = some (l[j]?.getD 0) := by
    intro j hj
    have : l[j]? = some l[j] := List.getElem?_eq_getElem (by omega)
    rw [hval j _ this, this]; rfl
  have hinPlace : rhs.data = .own → copyConstruct env b src rhs ⟨w, t⟩ =
      (constructArrayFrom env (.own b) (.elems (.own src)) 0 (inPlaceCount rhs.ty.kind) ⟨w, t⟩).bind (fun _ s => .ok rhs s) →
      Sim tyOf env w a (.copy b src) (step env ⟨w, t⟩ (.copy b src)) := by
    intro hd heq
    simp only [step, withObj, hs]
    rcases copy_inPlace env t hI hb hs hd with ⟨w', t', h, hB⟩ | ⟨hf, w', t', h, hu⟩
    · refine create_ok hI hR hb (heq.trans h) hB hty l hlen ?_ (.copy hl)
      intro j v hjv
      have := hval j v hjv
      rw [hd] at this
      simp only [place] at this
      simp [this]
    · exact create_threw hI hR hb (heq.trans h) hu (.inr hf) .copyThrew
  have hdyn : copyConstruct env b src rhs ⟨w, t⟩ = ((construct env b rhs.ty rhs.size ⟨w, t⟩).bind fun o s =>
      ((assignFrom env (place b o.data) (.elems (place src rhs.data)) 0 rhs.size s).onThrow (destroy b o)).bind fun _ s => .ok o s) →
      (match rhs.ty.kind with | .inPlace n => n | _ => rhs.size) = rhs.size → (∀ cap, rhs.ty.kind ≠ .inPlaceMax cap) →
      Sim tyOf env w a (.copy b src) (step env ⟨w, t⟩ (.copy b src)) := by
    intro heq hsize hkind
    simp only [step, withObj, hs]
    rcases construct_spec env b rhs.ty rhs.size w t (hI.vacant hb) with ⟨o, w', t', h, hoty, hsz, hB⟩ | ⟨hcause, w', t', h, hu⟩
    · have hB := hB fun cap hk => absurd hk (hkind cap)
      have hsz : o.size = rhs.size := hsz.trans hsize
      have hout : ∀ j < rhs.size, ∀ i, ¬ Owns b o (place src rhs.data) i := by
        intro j hj i hq
        have hso := hI.owns hs _ _ (hshape.owns (b := src) hj)
        cases hd : rhs.data with
        | null => rw [hd] at hq; exact hq
        | own => rw [hd] at hq; exact hne hq.1
        | block id =>
          rw [hd] at hq
          have := (hI.alloc_iff id _).2 ⟨src, rhs, hs, hd, rfl⟩
          rw [hI.fresh id (hB.fresh id hq.1).1] at this
          cases this
      have hfill := fill_built env (.elems (place src rhs.data)) (fun j => l[j]?.getD 0) t' (hI.vacant hb) hB (by
        intro i j t hj
        have h1 : ¬ (place src rhs.data = place b o.data ∧ j < i) := by
          rintro ⟨he, _⟩
          refine hout j (by omega) j ?_
          rw [he]
          exact hB.shape.owns hj
        simp only [Source.read, readElem, World.fill, if_neg h1, hB.other _ j (hout j (by omega) j), hget j (by omega)])
      rw [hsz] at hfill
      rcases hfill with ⟨w2, t2, h2, hB2⟩ | ⟨hf, w2, t2, h2, hu⟩
      · refine create_ok hI hR hb (o := o) (w' := w2) (t' := t2) ?_ hB2 (hoty.trans hty) l (hlen.trans hsz.symm) ?_ (.copy hl)
        · rw [heq]; simp only [h, Res.bind, h2]
        · intro j v hjv; simp [hjv]
      · refine create_threw hI hR hb (w' := w2) (t' := t2) ?_ hu (.inr hf) .copyThrew
        rw [heq]; simp only [h, Res.bind, h2]
    · refine create_threw hI hR hb (w' := w') (t' := t') ?_ hu ?_ .copyThrew
      · rw [heq]; simp only [h, Res.bind]
      · simp only [Spec.BufEx.needs, hl, Option.map_some, Option.getD_some, hlen]
        exact hcause
  unfold Shape at hshape
  cases hk : rhs.ty.kind with
  | inPlace n =>
    rw [hk] at hshape
    exact hinPlace hshape.1 (by simp only [copyConstruct, hk, inPlaceCount])
  | inPlaceMax cap =>
    rw [hk] at hshape
    exact hinPlace hshape.1 (by simp only [copyConstruct, hk, inPlaceCount])
  | small cap => exact hdyn (by simp only [copyConstruct, hk]) (by simp [hk]) (by simp [hk])
  | heap => exact hdyn (by simp only [copyConstruct, hk]) (by simp [hk]) (by simp [hk])

/-- Assigning to elements of a buffer. -/
theorem assign_sim {tyOf : Nat → Ty} {w : World} (w' : World) {a : Store} {b : Nat} {o : Obj} (hI : Inv tyOf w) (hR : Rel w a)
    (hb : w.objs b = some o) (ha : w'.alloc = w.alloc) (hn : w'.next = w.next) (ho : w'.objs = w.objs)
    (hm : ∀ q j, (w'.mem q j).isSome = (w.mem q j).isSome) (hm' : ∀ q j, ¬ Owns b o q j → w'.mem q j = w.mem q j) (l : List Int)
    (hl : l.length = o.size) (hv : ∀ j v, l[j]? = some v → w'.mem (place b o.data) j = some v) :
    Inv tyOf w' ∧ Rel w' (set a b (some l)) := by
  refine ⟨hI.mem_of ha hn ho hm, hR.set_of (fun _ _ => by rw [ho]) ?_ _ (by rw [ho, hb]; simp) ?_⟩
  · intro b' o' hne ho' j hj
    exact hm' _ _ (hI.disjoint hb ho' hne hj)
  · intro l' hl'
    cases hl'
    exact ⟨o, by rw [ho]; exact hb, hl, hv⟩

theorem assignArray_sim {tyOf : Nat → Ty} (env : Env) {w : World} {a : Store} (t : Nat) {b : Nat} {vals : List Int} (hI : Inv tyOf w)
    (hR : Rel w a) (hc : InContract a (.assignArray b vals)) :
    Sim tyOf env w a (.assignArray b vals) (step env ⟨w, t⟩ (.assignArray b vals)) := by
  obtain ⟨l, hl⟩ := Option.ne_none_iff_exists'.1 hc
  obtain ⟨o, hb, hlen, hval⟩ := hR.holds b l hl
  have hown := fun j hj => (hI.shape b o hb).owns (b := b) (j := j) hj
  simp only [step, withObj, hb]
  by_cases hsz : vals.length = o.size
  · rw [if_pos hsz]
    have halive : ∀ j < vals.length, (w.mem (place b o.data) j).isSome := fun j hj => hI.owns hb _ _ (hown j (by omega))
    have h := assignFrom_spec env (place b o.data) (.array vals) (fun j => vals[j]?.getD 0) w vals.length halive (by
        intro i j t _ hj
        have : vals[j]? = some vals[j] := List.getElem?_eq_getElem (by omega)
        simp [Source.read, this]) vals.length 0 t (by omega)
    rw [fill_zero] at h
    rcases h with ⟨t', h⟩ | ⟨hf, k, x, t', hk, h⟩
    · rw [h]
      simp only [Res.bind, Sim]
      refine ⟨_, .assignArray hl (hsz.trans hlen.symm), assign_sim _ hI hR hb (by rfl) (by rfl) (by rfl) ?_ ?_ vals hsz ?_⟩
      · intro q j
        simp only [World.fill]
        split
        · rename_i hq; rw [hq.1, halive j hq.2]; rfl
        · rfl
      · intro q j hq
        have : ¬ (q = place b o.data ∧ j < vals.length) := by rintro ⟨rfl, hj⟩; exact hq (hown j (by omega))
        simp only [World.fill, if_neg this]
      · intro j v hjv
        have : j < vals.length := (List.getElem?_eq_some_iff.1 hjv).1
        simp only [World.fill, this, and_self, if_true, hjv, Option.getD_some]
    · rw [h]
      simp only [Res.bind, Sim]
      refine ⟨.inr hf, ⟨_, .assignArrayThrew k x hl (hsz.trans hlen.symm) (by omega), assign_sim _ hI hR hb (by rfl) (by rfl) (by rfl) ?_ ?_ _ ?_ ?_⟩,
        by simp [Spec.BufEx.creates]⟩
      · intro q j
        simp only [World.fill, World.put]
        split
        · rename_i hq; rw [hq.1, hq.2, halive k hk]; rfl
        · split
          · rename_i hq; rw [hq.1, halive j (by omega)]; rfl
          · rfl
      · intro q j hq
        have h1 : ¬ (q = place b o.data ∧ j = k) := by rintro ⟨rfl, rfl⟩; exact hq (hown j (by omega))
        have h2 : ¬ (q = place b o.data ∧ j < k) := by rintro ⟨rfl, hj⟩; exact hq (hown j (by omega))
        simp only [World.fill, World.put, if_neg h1, if_neg h2]
      · simp; omega
      · intro j v hjv
        have htl : (vals.take k).length = k := by simp; omega
        rcases Nat.lt_trichotomy j k with hj | rfl | hj
        · rw [List.getElem?_append_left (by omega), List.getElem?_take_of_lt hj] at hjv
          simp [World.put, World.fill, Nat.ne_of_lt hj, hj, hjv]
        · rw [List.getElem?_append_right (by omega), htl] at hjv
          simp at hjv
          simp [World.put, hjv]
        · rw [List.getElem?_append_right (by omega), htl, show j - k = (j - (k + 1)) + 1 by omega, List.getElem?_cons_succ,
            List.getElem?_drop, show k + 1 + (j - (k + 1)) = j by omega] at hjv
          simp [World.put, World.fill, Nat.ne_of_gt hj, Nat.not_lt_of_gt hj, hval j v hjv]
  · rw [if_neg hsz]
    exact .assignArrayRejected hl (by omega)

theorem write_sim {tyOf : Nat → Ty} (env : Env) {w : World} {a : Store} (t : Nat) {b i : Nat} {v : Int} (hI : Inv tyOf w)
    (hR : Rel w a) (hc : InContract a (.write b i v)) :
    Sim tyOf env w a (.write b i v) (step env ⟨w, t⟩ (.write b i v)) := by
  obtain ⟨l, hl, hi⟩ := hc
  obtain ⟨o, hb, hlen, hval⟩ := hR.holds b l hl
  have hown := (hI.shape b o hb).owns (b := b) (j := i) (by omega)
  have hm := hval i l[i] (List.getElem?_eq_getElem hi)
  have key : ∀ x, Inv tyOf (w.put (place b o.data) i (some x)) ∧ Rel (w.put (place b o.data) i (some x)) (set a b (some (l.set i x))) := by
    intro x
    refine assign_sim _ hI hR hb (by rfl) (by rfl) (by rfl) ?_ ?_ _ (by simpa using hlen) ?_
    · intro q j
      simp only [World.put]
      split
      · rename_i hq; rw [hq.1, hq.2, hm]; rfl
      · rfl
    · intro q j hq
      have : ¬ (q = place b o.data ∧ j = i) := by rintro ⟨rfl, rfl⟩; exact hq hown
      simp only [World.put, if_neg this]
    · intro j y hjy
      rw [List.getElem?_set] at hjy
      by_cases hj : j = i
      · subst hj
        simp [hi] at hjy
        simp [World.put, hjy]
      · rw [if_neg (fun h => hj h.symm)] at hjy
        simp [World.put, hj, hval j y hjy]
  simp only [step, withObj, hb, assignElem, hm]
  cases hf : env.fails t with
  | some x =>
    simp only [Res.bind, Sim]
    exact ⟨.inr ⟨t, by simp [hf]⟩, ⟨_, .writeThrew x hl, key x⟩, by simp [Spec.BufEx.creates]⟩
  | none =>
    simp only [Res.bind, Sim]
    exact ⟨_, .write hl, key v⟩

theorem destroy_sim {tyOf : Nat → Ty} (env : Env) {w : World} {a : Store} (t : Nat) {b : Nat} (hI : Inv tyOf w) (hR : Rel w a)
    (hc : InContract a (.destroy b)) : Sim tyOf env w a (.destroy b) (step env ⟨w, t⟩ (.destroy b)) := by
  obtain ⟨l, hl⟩ := Option.ne_none_iff_exists'.1 hc
  obtain ⟨o, hb, _, _⟩ := hR.holds b l hl
  have h := remove_buffer hI hR hb
  simp only [step, withObj, hb]
  rw [destroy_spec b o w t (hI.shape b o hb) (fun q j hq => hI.owns hb q j hq)
    (fun id hd => (hI.alloc_iff id _).2 ⟨b, o, hb, hd, rfl⟩)]
  exact ⟨_, .destroy, h.1, h.2⟩

theorem copyAssign_sim {tyOf : Nat → Ty} (env : Env) {w : World} {a : Store} (t : Nat) {b src : Nat} (hI : Inv tyOf w) (hR : Rel w a)
    (hw : (Op.copyAssign b src).wellFormed tyOf) (hc : InContract a (.copyAssign b src)) :
    Sim tyOf env w a (.copyAssign b src) (step env ⟨w, t⟩ (.copyAssign b src)) := by
  obtain ⟨l, hl⟩ := Option.ne_none_iff_exists'.1 hc.1
  obtain ⟨m, hm⟩ := Option.ne_none_iff_exists'.1 hc.2
  obtain ⟨o, hb, hlen, hval⟩ := hR.holds b l hl
  obtain ⟨rhs, hs, hmlen, hmval⟩ := hR.holds src m hm
  have hty : rhs.ty = o.ty := by rw [hI.ty src rhs hs, hI.ty b o hb, hw.2]
  have hd : o.data = .own ∧ rhs.data = .own ∧ o.size ≤ inPlaceCount o.ty.kind ∧ rhs.size ≤ inPlaceCount o.ty.kind ∧
      Shape { o with size := rhs.size } := by
    have h1 := hI.shape b o hb
    have h2 := hI.shape src rhs hs
    have h3 := hw.1
    rw [← hI.ty b o hb, Ty.copyAssignable] at h3
    unfold Shape at h1 h2
    rw [hty] at h2
    cases hk : o.ty.kind with
    | inPlace n => rw [hk] at h1 h2; simp only [Shape, hk, inPlaceCount]; exact ⟨h1.1, h2.1, by omega, by omega, h1.1, h2.2⟩
    | inPlaceMax n => rw [hk] at h1 h2; simp only [Shape, hk, inPlaceCount]; exact ⟨h1.1, h2.1, by omega, by omega, h1.1, h2.2⟩
    | small n => rw [hk] at h3; cases h3
    | heap => rw [hk] at h3; cases h3
  obtain ⟨hdo, hdr, hso, hsr, hshape⟩ := hd
  rw [hdo] at hval
  rw [hdr] at hmval
  simp only [place] at hval hmval
  generalize hcap : inPlaceCount o.ty.kind = cap at *
  have halive : ∀ j < cap, (w.mem (.own b) j).isSome := fun j hj => (hI.own_mem b j).2 ⟨o, hb, by omega⟩
  have hsalive : ∀ j < cap, (w.mem (.own src) j).isSome := fun j hj => (hI.own_mem src j).2 ⟨rhs, hs, by rw [hty]; omega⟩
  have h := assignFrom_spec env (.own b) (.elems (.own src)) (fun j => (w.mem (.own src) j).getD 0) w cap halive (by
      intro i j t hij hj
      obtain ⟨v, hv⟩ := Option.isSome_iff_exists.1 (hsalive j hj)
      simp [Source.read, readElem, World.fill, hv, Nat.not_lt_of_le hij]) cap 0 t (by omega)
  rw [fill_zero] at h
  simp only [step, withObj, hb, hs, hcap]
  rcases h with ⟨t', h⟩ | ⟨hf, k, x, t', hk, h⟩
  · rw [h]
    simp only [Res.bind, Sim]
    refine ⟨_, .copyAssign hm, ?_, ?_⟩
    · have hI1 : Inv tyOf (w.fill (.own b) (fun j => (w.mem (.own src) j).getD 0) cap) := by
        refine hI.mem_of rfl rfl rfl ?_
        intro q j
        simp only [World.fill]
        split
        · rename_i hq; rw [hq.1, halive j hq.2]; rfl
        · rfl
      exact hI1.resize (o := o) hb hdo hshape
    · refine hR.set_of (fun b' hne => update_of_ne _ _ hne) ?_ _ (by simp [update_same]) ?_
      · intro b' o' hne ho' j hj
        have hno := hI.disjoint hb ho' hne hj (i := j)
        have : ¬ (place b' o'.data = .own b ∧ j < cap) := by
          rintro ⟨he, hj⟩
          rw [he] at hno
          exact hno ⟨rfl, by omega⟩
        simp only [World.fill, if_neg this]
      · intro l' hl'
        cases hl'
        refine ⟨_, update_same _ _ _, hmlen, ?_⟩
        intro j v hjv
        have : j < cap := by have := (List.getElem?_eq_some_iff.1 hjv).1; omega
        simp [hdo, place, World.fill, this, hmval j v hjv]
  · rw [h]
    simp only [Res.bind, Sim]
    have hval' : ∀ j, j < l.length → w.mem (.own b) j = l[j]? := fun j hj => by
      rw [hval j _ (List.getElem?_eq_getElem hj), List.getElem?_eq_getElem hj]
    have hmval' : ∀ j, j < m.length → w.mem (.own src) j = m[j]? := fun j hj => by
      rw [hmval j _ (List.getElem?_eq_getElem hj), List.getElem?_eq_getElem hj]
    refine ⟨.inr hf, ⟨_, .copyAssignThrew
      (l' := (List.range o.size).map fun j => (((w.fill (.own b) (fun j => (w.mem (.own src) j).getD 0) k).put (.own b) k (some x)).mem
        (.own b) j).getD 0) k hl hm (by simp [hlen]) ?_ ?_, assign_sim _ hI hR hb (by rfl) (by rfl) (by rfl) ?_ ?_ _ (by simp) ?_⟩,
        by simp [Spec.BufEx.creates]⟩
    · intro i hi h1 h2
      have : i < o.size := by omega
      simp [this, World.put, World.fill, Nat.ne_of_lt hi, hi, hmval' i h2, h2]
    · intro i hi
      by_cases h1 : i < o.size
      · simp [h1, World.put, World.fill, Nat.ne_of_gt hi, Nat.not_lt_of_gt hi, hval' i (by omega), hlen]
      · rw [List.getElem?_eq_none (by simp; omega), List.getElem?_eq_none (by omega)]
    · intro q j
      simp only [World.fill, World.put]
      split
      · rename_i hq; rw [hq.1, hq.2, halive k hk]; rfl
      · split
        · rename_i hq; rw [hq.1, halive j (by omega)]; rfl
        · rfl
    · intro q j hq
      have h1 : ¬ (q = .own b ∧ j = k) := by rintro ⟨rfl, rfl⟩; exact hq ⟨rfl, by omega⟩
      have h2 : ¬ (q = .own b ∧ j < k) := by rintro ⟨rfl, hj⟩; exact hq ⟨rfl, by omega⟩
      simp only [World.fill, World.put, if_neg h1, if_neg h2]
    · intro j v hjv
      have hj : j < o.size := by
        have := (List.getElem?_eq_some_iff.1 hjv).1
        simpa using this
      obtain ⟨y, hy⟩ := Option.isSome_iff_exists.1 (halive j (by omega))
      simp only [List.getElem?_map, List.getElem?_range hj, Option.map_some, Option.some.injEq] at hjv
      rw [hdo, ← hjv]
      simp only [place, World.put, World.fill]
      split
      · simp
      · split
        · simp
        · rw [hy]; simp

theorem step_sim {tyOf : Nat → Ty} (env : Env) {w : World} {a : Store} (t : Nat) {op : Op} (hI : Inv tyOf w) (hR : Rel w a)
    (hw : op.wellFormed tyOf) (hc : InContract a op) : Sim tyOf env w a op (step env ⟨w, t⟩ op) := by
  cases op with
  | construct b ty e => exact construct_sim env t hI hR hw hc
  | constructArray b ty vals => exact constructArray_sim env t hI hR hw hc
  | copy b src => exact copy_sim env t hI hR hw hc
  | assignArray b vals => exact assignArray_sim env t hI hR hc
  | copyAssign b src => exact copyAssign_sim env t hI hR hw hc
  | size b =>
    obtain ⟨l, hl⟩ := Option.ne_none_iff_exists'.1 hc
    obtain ⟨o, hb, hlen, hval⟩ := hR.holds b l hl
    simp only [step, withObj, hb, Sim, ← hlen]
    exact ⟨a, .size hl, hI, hR⟩
  | empty b =>
    obtain ⟨l, hl⟩ := Option.ne_none_iff_exists'.1 hc
    obtain ⟨o, hb, hlen, hval⟩ := hR.holds b l hl
    simp only [step, withObj, hb, Sim, ← hlen, List.length_eq_zero_iff]
    exact ⟨a, .empty hl, hI, hR⟩
  | read b i =>
    obtain ⟨l, hl, hi⟩ := hc
    obtain ⟨o, hb, hlen, hval⟩ := hR.holds b l hl
    simp only [step, withObj, hb, readElem, hval i _ (List.getElem?_eq_getElem hi), Res.bind, Sim]
    exact ⟨a, .read hl (List.getElem?_eq_getElem hi), hI, hR⟩
  | write b i v => exact write_sim env t hI hR hc
  | front b =>
    obtain ⟨l, hl⟩ := Option.ne_none_iff_exists'.1 hc
    obtain ⟨o, hb, hlen, hval⟩ := hR.holds b l hl
    simp only [step, withObj, hb]
    cases l with
    | nil =>
      rw [if_neg (by simp at hlen; omega)]
      exact .frontRejected hl
    | cons v l =>
      rw [if_pos (by simp at hlen; omega)]
      simp only [readElem, hval 0 v rfl, Res.bind, Sim]
      exact ⟨a, .front hl, hI, hR⟩
  | back b =>
    obtain ⟨l, hl⟩ := Option.ne_none_iff_exists'.1 hc
    obtain ⟨o, hb, hlen, hval⟩ := hR.holds b l hl
    simp only [step, withObj, hb]
    rcases List.eq_nil_or_concat l with rfl | ⟨l, v, rfl⟩
    · rw [if_neg (by simp at hlen; omega)]
      exact .backRejected hl
    · rw [if_pos (by simp at hlen; omega)]
      simp only [List.concat_eq_append] at hl hval hlen
      have : o.size - 1 = l.length := by simp at hlen; omega
      simp only [readElem, this, hval l.length v (by simp), Res.bind, Sim]
      exact ⟨a, .back hl, hI, hR⟩
  | destroy b => exact destroy_sim env t hI hR hc

end Makeshift.BufferEx
