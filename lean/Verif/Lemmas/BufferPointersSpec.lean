import Verif.Lemmas.BufferPointers

/-!
# Lemmas about the specification of pointers into buffers
-/

namespace Makeshift.BufPtr

open Makeshift.Buffer

theorem spec_use_ok {α : Type} {a : Spec.Buf.Store} {b : Nat} {f : Ty → List Cell → Outcome α} {y : α}
    (h : Spec.Buf.use a b f = .ok y) : ∃ ty elems, a b = some (ty, elems) ∧ f ty elems = .ok y := by
  rcases ha : a b with _ | ⟨ty, elems⟩
  · simp [Spec.Buf.use, ha] at h
  · exact ⟨ty, elems, rfl, by simpa [Spec.Buf.use, ha] using h⟩

theorem spec_create_ok {a a' : Spec.Buf.Store} {b : Nat} {ty : Ty} {x : Outcome (List Cell)} {r : Resp}
    (h : Spec.Buf.create a b ty x = .ok (a', r)) : a b = none ∧ ∃ y, a' = Spec.Buf.set a b y := by
  rcases ha : a b with _ | y
  · rcases x with elems | _ | _ | _ <;> simp [Spec.Buf.create, ha] at h
    exact ⟨rfl, _, h.1.symm⟩
  · simp [Spec.Buf.create, ha] at h

/-- What an operation on buffers does to the existence of buffers. -/
theorem spec_buf_step {limit : Nat} {a a' : Spec.Buf.Store} {op : Op} {r : Resp} (h : Spec.Buf.step limit a op = .ok (a', r)) (b : Nat) :
    ((a b).isSome → op ≠ .destroy b → (a' b).isSome) ∧
    (a b = none → Spec.BufPtr.constructs op b = false → a' b = none) ∧
    (Spec.BufPtr.constructs op b = true → a b = none) ∧
    (op = .destroy b → a' b = none) := by
  have hcreate : ∀ {c : Nat} {ty : Ty} {x : Outcome (List Cell)}, Spec.Buf.create a c ty x = .ok (a', r) →
      ((a b).isSome → (a' b).isSome) ∧ (a b = none → c ≠ b → a' b = none) ∧ (c = b → a b = none) := by
    intro c ty x hc
    obtain ⟨h1, y, rfl⟩ := spec_create_ok hc
    refine ⟨?_, ?_, ?_⟩
    · intro hs
      have : b ≠ c := by rintro rfl; rw [h1] at hs; simp at hs
      simpa [Spec.Buf.set, this] using hs
    · intro hn hne
      simpa [Spec.Buf.set, Ne.symm hne] using hn
    · rintro rfl; exact h1
  have hset : ∀ {c : Nat} {x y : Ty × List Cell}, a c = some x → a' = Spec.Buf.set a c (some y) →
      ((a b).isSome → (a' b).isSome) ∧ (a b = none → a' b = none) := by
    intro c x y hc he
    subst he
    by_cases hb : b = c
    · subst hb; simp [Spec.Buf.set, hc]
    · simp [Spec.Buf.set, hb]
  have hsame : a' = a → ((a b).isSome → (a' b).isSome) ∧ (a b = none → a' b = none) := by
    rintro rfl; exact ⟨id, id⟩
  have wrap : ((a b).isSome → (a' b).isSome) ∧ (a b = none → a' b = none) → Spec.BufPtr.constructs op b = false → (∀ c, op ≠ .destroy c) →
      ((a b).isSome → op ≠ .destroy b → (a' b).isSome) ∧
      (a b = none → Spec.BufPtr.constructs op b = false → a' b = none) ∧
      (Spec.BufPtr.constructs op b = true → a b = none) ∧
      (op = .destroy b → a' b = none) := by
    intro h1 h2 h3
    exact ⟨fun h _ => h1.1 h, fun h _ => h1.2 h, fun h => absurd (h.symm.trans h2) (by simp), fun h => absurd h (h3 b)⟩
  cases op with
  | construct c ty e =>
    obtain ⟨h1, h2, h3⟩ := hcreate h
    exact ⟨fun h _ => h1 h, fun h hc => h2 h (by simpa [Spec.BufPtr.constructs] using hc),
      fun hc => h3 (by simpa [Spec.BufPtr.constructs] using hc), by intro h; cases h⟩
  | constructArray c ty e =>
    obtain ⟨h1, h2, h3⟩ := hcreate h
    exact ⟨fun h _ => h1 h, fun h hc => h2 h (by simpa [Spec.BufPtr.constructs] using hc),
      fun hc => h3 (by simpa [Spec.BufPtr.constructs] using hc), by intro h; cases h⟩
  | copy c src =>
    obtain ⟨_, _, _, h⟩ := spec_use_ok h
    obtain ⟨h1, h2, h3⟩ := hcreate h
    exact ⟨fun h _ => h1 h, fun h hc => h2 h (by simpa [Spec.BufPtr.constructs] using hc),
      fun hc => h3 (by simpa [Spec.BufPtr.constructs] using hc), by intro h; cases h⟩
  | assignArray c vals =>
    obtain ⟨ty, elems, hc, h⟩ := spec_use_ok h
    split at h
    · simp at h; exact wrap (hset hc h.1.symm) rfl (by intro c h; cases h)
    · cases h
  | copyAssign c src =>
    obtain ⟨ty, elems, hc, h⟩ := spec_use_ok h
    obtain ⟨_, _, _, h⟩ := spec_use_ok h
    simp at h; exact wrap (hset hc h.1.symm) rfl (by intro c h; cases h)
  | size c =>
    obtain ⟨ty, elems, hc, h⟩ := spec_use_ok h
    simp at h; exact wrap (hsame h.1.symm) rfl (by intro c h; cases h)
  | empty c =>
    obtain ⟨ty, elems, hc, h⟩ := spec_use_ok h
    simp at h; exact wrap (hsame h.1.symm) rfl (by intro c h; cases h)
  | read c i =>
    obtain ⟨ty, elems, hc, h⟩ := spec_use_ok h
    rcases hg : Spec.Buf.get elems i with v | _ | _ | _ <;> rw [hg] at h <;> simp at h
    exact wrap (hsame h.1.symm) rfl (by intro c h; cases h)
  | write c i v =>
    obtain ⟨ty, elems, hc, h⟩ := spec_use_ok h
    split at h
    · simp at h; exact wrap (hset hc h.1.symm) rfl (by intro c h; cases h)
    · cases h
  | front c =>
    obtain ⟨ty, elems, hc, h⟩ := spec_use_ok h
    split at h
    · cases h
    · rcases hg : Spec.Buf.get elems 0 with v | _ | _ | _ <;> rw [hg] at h <;> simp at h
      exact wrap (hsame h.1.symm) rfl (by intro c h; cases h)
  | back c =>
    obtain ⟨ty, elems, hc, h⟩ := spec_use_ok h
    split at h
    · cases h
    · rcases hg : Spec.Buf.get elems (elems.length - 1) with v | _ | _ | _ <;> rw [hg] at h <;> simp at h
      exact wrap (hsame h.1.symm) rfl (by intro c h; cases h)
  | destroy c =>
    obtain ⟨ty, elems, hc, h⟩ := spec_use_ok h
    simp at h
    obtain ⟨rfl, -⟩ := h
    refine ⟨?_, ?_, (by intro h; cases h), ?_⟩
    · intro hs hne
      have : b ≠ c := by rintro rfl; exact hne rfl
      simpa [Spec.Buf.set, this] using hs
    · intro hn _
      by_cases hb : b = c
      · simp [Spec.Buf.set, hb]
      · simpa [Spec.Buf.set, hb] using hn
    · rintro h; cases h; simp [Spec.Buf.set]

theorem spec_at_ok {α : Type} {a : Spec.BufPtr.State} {p : Nat} {f : Spec.BufPtr.Pos → List Cell → Outcome α} {y : α}
    (h : a.at_ p f = .ok y) : ∃ x ty elems, a.ptrs p = some x ∧ a.gen x.b = x.gen ∧ a.bufs x.b = some (ty, elems) ∧ f x elems = .ok y := by
  unfold Spec.BufPtr.State.at_ at h
  rcases hp : a.ptrs p with _ | x <;> rw [hp] at h <;> simp only at h
  · cases h
  · split at h
    · rename_i hg
      obtain ⟨ty, elems, h1, h2⟩ := spec_use_ok h
      exact ⟨x, ty, elems, rfl, hg, h1, h2⟩
    · cases h

/-- What an operation does to the existence of buffers and to pointer variables. -/
theorem spec_step_frame {limit : Nat} {a a' : Spec.BufPtr.State} {op : PtrOp} {r : Resp} (h : Spec.BufPtr.step limit a op = .ok (a', r))
    (b : Nat) :
    ((a.bufs b).isSome → op ≠ .buf (.destroy b) → (a'.bufs b).isSome ∧ a'.gen b = a.gen b) ∧
    a.gen b ≤ a'.gen b ∧
    (a.bufs b = none → a'.gen b = a.gen b → a'.bufs b = none) ∧
    (∀ p, ¬ Spec.BufPtr.assigns op p → a'.ptrs p = a.ptrs p) := by
  have hmk : ∀ {p : Nat} {x : Spec.BufPtr.Pos}, a' = a.point p x → (∀ p', ¬ Spec.BufPtr.assigns op p' → p' ≠ p) →
      ((a.bufs b).isSome → op ≠ .buf (.destroy b) → (a'.bufs b).isSome ∧ a'.gen b = a.gen b) ∧
      a.gen b ≤ a'.gen b ∧
      (a.bufs b = none → a'.gen b = a.gen b → a'.bufs b = none) ∧
      (∀ p, ¬ Spec.BufPtr.assigns op p → a'.ptrs p = a.ptrs p) := by
    rintro p x rfl hp
    refine ⟨fun h _ => ⟨h, rfl⟩, Nat.le_refl _, fun h _ => h, fun p' h' => ?_⟩
    simp [Spec.BufPtr.State.point, hp p' h']
  have hsame : a' = a →
      ((a.bufs b).isSome → op ≠ .buf (.destroy b) → (a'.bufs b).isSome ∧ a'.gen b = a.gen b) ∧
      a.gen b ≤ a'.gen b ∧
      (a.bufs b = none → a'.gen b = a.gen b → a'.bufs b = none) ∧
      (∀ p, ¬ Spec.BufPtr.assigns op p → a'.ptrs p = a.ptrs p) := by
    rintro rfl
    exact ⟨fun h _ => ⟨h, rfl⟩, Nat.le_refl _, fun h _ => h, fun _ _ => rfl⟩
  cases op with
  | buf op =>
    simp only [Spec.BufPtr.step] at h
    rcases hs : Spec.Buf.step limit a.bufs op with ⟨a1, r1⟩ | m | _ | _ <;> rw [hs] at h <;> simp at h
    obtain ⟨rfl, -⟩ := h
    obtain ⟨h1, h2, h3, h4⟩ := spec_buf_step hs b
    refine ⟨fun hb hne => ⟨h1 hb (fun he => hne (by rw [he])), ?_⟩, Nat.le_add_right _ _, fun hb hg => h2 hb ?_, fun _ _ => rfl⟩
    · have : Spec.BufPtr.constructs op b = false := by
        rcases hc : Spec.BufPtr.constructs op b with _ | _
        · rfl
        · rw [h3 hc] at hb; simp at hb
      simp [this]
    · rcases hc : Spec.BufPtr.constructs op b with _ | _
      · rfl
      · simp [hc] at hg
  | begin_ p c =>
    obtain ⟨_, _, _, h⟩ := spec_use_ok h
    simp at h
    exact hmk h.1.symm (fun p' hp' he => hp' he.symm)
  | end_ p c =>
    obtain ⟨_, _, _, h⟩ := spec_use_ok h
    simp at h
    exact hmk h.1.symm (fun p' hp' he => hp' he.symm)
  | advance p q n =>
    obtain ⟨_, _, _, _, _, _, h⟩ := spec_at_ok h
    split at h
    · simp at h
      exact hmk h.1.symm (fun p' hp' he => hp' he.symm)
    · cases h
  | load p =>
    obtain ⟨x, _, elems, _, _, _, h⟩ := spec_at_ok h
    rcases hg : Spec.Buf.get elems x.off with v | _ | _ | _ <;> rw [hg] at h <;> simp at h
    exact hsame h.1.symm
  | store p v =>
    obtain ⟨x, _, elems, _, _, _, h⟩ := spec_at_ok h
    split at h
    · rcases hs : Spec.Buf.step limit a.bufs (.write x.b x.off v) with ⟨a1, r1⟩ | m | _ | _ <;> rw [hs] at h <;> simp at h
      obtain ⟨rfl, -⟩ := h
      obtain ⟨h1, h2, h3, h4⟩ := spec_buf_step hs b
      exact ⟨fun hb _ => ⟨h1 hb (by intro h; cases h), rfl⟩, Nat.le_refl _, fun hb _ => h2 hb rfl, fun _ _ => rfl⟩
    · cases h
  | equal p q =>
    obtain ⟨_, _, _, _, _, _, h⟩ := spec_at_ok h
    obtain ⟨_, _, _, _, _, _, h⟩ := spec_at_ok h
    split at h
    · simp at h; exact hsame h.1.symm
    · cases h
  | distance p q =>
    obtain ⟨_, _, _, _, _, _, h⟩ := spec_at_ok h
    obtain ⟨_, _, _, _, _, _, h⟩ := spec_at_ok h
    split at h
    · simp at h; exact hsame h.1.symm
    · cases h

theorem spec_run_keeps {β : Type} {limit p b : Nat} (prog : Prog β) (hp : Spec.BufPtr.KeepsPointer p prog)
    (hb : Spec.BufPtr.KeepsBuffer b prog) {a a' : Spec.BufPtr.State} {y : β} (h : Spec.BufPtr.run limit a prog = .ok (a', y))
    (ha : (a.bufs b).isSome) : (a'.bufs b).isSome ∧ a'.gen b = a.gen b ∧ a'.ptrs p = a.ptrs p := by
  induction prog generalizing a with
  | ret x => cases h; exact ⟨ha, rfl, rfl⟩
  | op o k ih =>
    simp only [Spec.BufPtr.run] at h
    rcases hs : Spec.BufPtr.step limit a o with ⟨a1, r⟩ | m | _ | _ <;> rw [hs] at h <;> simp at h
    obtain ⟨h1, -, -, h4⟩ := spec_step_frame hs b
    obtain ⟨h1, h2⟩ := h1 ha hb.1
    obtain ⟨h5, h6, h7⟩ := ih r (hp.2 r) (hb.2 r) h h1
    exact ⟨h5, h6.trans h2, h7.trans (h4 p hp.1)⟩

theorem spec_run_dead {β : Type} {limit p b g : Nat} (prog : Prog β) (hp : Spec.BufPtr.KeepsPointer p prog)
    {a a' : Spec.BufPtr.State} {y : β} (h : Spec.BufPtr.run limit a prog = .ok (a', y)) (hg : g ≤ a.gen b)
    (ha : a.gen b = g → a.bufs b = none) : g ≤ a'.gen b ∧ (a'.gen b = g → a'.bufs b = none) ∧ a'.ptrs p = a.ptrs p := by
  induction prog generalizing a with
  | ret x => cases h; exact ⟨hg, ha, rfl⟩
  | op o k ih =>
    simp only [Spec.BufPtr.run] at h
    rcases hs : Spec.BufPtr.step limit a o with ⟨a1, r⟩ | m | _ | _ <;> rw [hs] at h <;> simp at h
    obtain ⟨-, h2, h3, h4⟩ := spec_step_frame hs b
    obtain ⟨h5, h6, h7⟩ := ih r (hp.2 r) h (by omega) (fun he => h3 (ha (by omega)) (by omega))
    exact ⟨h5, h6, h7.trans (h4 p hp.1)⟩

theorem spec_run_keepsPointer {β : Type} {limit p b : Nat} (prog : Prog β) (hp : Spec.BufPtr.KeepsPointer p prog)
    {a a' : Spec.BufPtr.State} {y : β} (h : Spec.BufPtr.run limit a prog = .ok (a', y)) :
    a'.ptrs p = a.ptrs p ∧ a.gen b ≤ a'.gen b := by
  induction prog generalizing a with
  | ret x => cases h; exact ⟨rfl, Nat.le_refl _⟩
  | op o k ih =>
    simp only [Spec.BufPtr.run] at h
    rcases hs : Spec.BufPtr.step limit a o with ⟨a1, r⟩ | m | _ | _ <;> rw [hs] at h <;> simp at h
    obtain ⟨-, h2, h3, h4⟩ := spec_step_frame hs b
    obtain ⟨h5, h6⟩ := ih r (hp.2 r) h
    exact ⟨h5.trans (h4 p hp.1), by omega⟩

/-- Using a pointer to a buffer which does not exist any more. -/
theorem dangling_ub {tyOf : Nat → Ty} {s : State} {a : Spec.BufPtr.State} (hR : PRel tyOf s a) {p : Nat} {x : Spec.BufPtr.Pos}
    (hx : a.ptrs p = some x) (hd : a.gen x.b = x.gen → a.bufs x.b = none) (limit : Nat) (v : Int) :
    step limit s (.load p) = .ub ∧ step limit s (.store p v) = .ub := by
  have h := hR.ptrs p
  rcases h1 : s.ptrs p with _ | m <;> rw [h1, hx] at h
  · exact h.elim
  · have h : PtrRel s m x := h
    have hdead : ¬ (s.gen x.b = x.gen ∧ (s.st.objs x.b).isSome) := by
      rintro ⟨h2, h3⟩
      rw [rel_none hR.rel (hd (by rw [← hR.gen]; exact h2))] at h3
      simp at h3
    have hcells : m.base = .null ∨ s.cells m.base = none := by
      rcases h.shape with hs | hs | ⟨id, h3, h4⟩
      · exact .inl hs
      · right
        rw [hs]
        simp only [State.cells]
        split
        · rename_i hg
          rcases ho : s.st.objs x.b with _ | o
          · rfl
          · exact absurd ⟨hg, by simp [ho]⟩ hdead
        · rfl
      · right
        rw [h4]
        exact h.dead id h4 hdead
    rcases hcells with hc | hc
    · simp [step, State.withPtr, h1, hc, State.cells]
    · simp [step, State.withPtr, h1, hc]

end Makeshift.BufPtr
