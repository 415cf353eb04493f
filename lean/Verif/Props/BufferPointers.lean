import Verif.Lemmas.BufferPointersSpec

/-!
# C155: pointers and iterators into buffers
-/

namespace Makeshift.Props

open Makeshift.Buffer (Ty Cell Op Resp)
open Makeshift.BufPtr (PtrOp Prog)

/-- Whatever a program does with buffers and pointers (or iterators) into them, letting its operations depend on what it has seen: as
long as, according to a specification in which a pointer is a position in a buffer and there is no storage, it does not use pointers
to buffers which have been destroyed, leave the elements of a buffer, or compare pointers into different buffers (nor misuses the
buffers themselves), it has exactly the specified outcome. -/
theorem C155_refinement {β : Type} (tyOf : Nat → Ty) (limit : Nat) (prog : Prog β) (hwf : prog.wellFormed tyOf)
    (hok : Spec.BufPtr.run limit .init prog ≠ .ub) :
    (BufPtr.run limit .init prog).mapVal (·.2) = (Spec.BufPtr.run limit .init prog).mapVal (·.2) := by
  have h := BufPtr.ptr_sim_run limit prog (BufPtr.prel_init tyOf) hwf
  rcases hr : Spec.BufPtr.run limit .init prog with ⟨a', rs⟩ | m | _ | _ <;> rw [hr] at h hok
  · obtain ⟨s', h, _⟩ := h; rw [h]; rfl
  · have h : BufPtr.run limit .init prog = .throw m := h
    rw [h]; rfl
  · have h : BufPtr.run limit .init prog = .failFast := h
    rw [h]; rfl
  · exact absurd rfl hok

/-- The operations one after the other, with the responses. -/
private def script : List PtrOp → List Resp → Prog (List Resp)
  | [], seen => .ret seen.reverse
  | o :: os, seen => .op o fun r => script os (r :: seen)

/-- Buffers with dynamic extent and room for two elements in place: a buffer on the heap, a copy of it, a small one. -/
private def ptrTypes (_ : Nat) : Ty := .buffer none 2

private def ptrScript : Prog (List Resp) :=
  script [.buf (.constructArray 0 (.buffer none 2) [5, 6, 7]), .begin_ 0 0, .advance 1 0 2, .buf (.copy 1 0), .begin_ 2 1,
    .buf (.constructArray 2 (.buffer none 2) [8, 9]), .begin_ 3 2, .end_ 4 2, .load 1, .store 1 70, .buf (.read 0 2), .buf (.read 1 2),
    .buf (.write 2 0 80), .load 3, .distance 4 3, .equal 3 4, .buf (.destroy 1), .load 0, .load 3] []

private theorem ptrScript_wf : ptrScript.wellFormed ptrTypes := by
  simp [ptrScript, script, Prog.wellFormed, PtrOp.wellFormed, Op.wellFormed, ptrTypes, Ty.wellFormed, Ty.arrayOk, Ty.extent]

example : ptrScript.wellFormed ptrTypes ∧
    (Spec.BufPtr.run 100 .init ptrScript).mapVal (·.2) = .ok [.unit, .unit, .unit, .unit, .unit, .unit, .unit, .unit, .num 7, .unit,
      .num 70, .num 7, .unit, .num 80, .num 2, .num 0, .unit, .num 5, .num 80] :=
  ⟨ptrScript_wf, by decide +kernel⟩

/-! ## Pointers stay valid -/

/-- A program which points `p` to position `i` of buffer `b`, does something else, and then accesses memory. -/
def pointing {β γ δ : Type} (before : Prog β) (p b : Nat) (i : Nat) (between : β → Prog γ) (access : PtrOp) (k : γ → Resp → Prog δ) : Prog δ :=
  before.bind fun x => .op (.begin_ p b) fun _ => .op (.advance p p i) fun _ => (between x).bind fun y => .op access (k y)

private theorem pointing_wf {β γ δ : Type} {tyOf : Nat → Ty} {before : Prog β} {p b i : Nat} {between : β → Prog γ} {access : PtrOp}
    {k : γ → Resp → Prog δ} (h1 : before.wellFormed tyOf) (h2 : ∀ x, (between x).wellFormed tyOf) (h3 : access.wellFormed tyOf)
    (h4 : ∀ y r, (k y r).wellFormed tyOf) : (pointing before p b i between access k).wellFormed tyOf :=
  BufPtr.wellFormed_bind h1 fun x => ⟨trivial, fun _ => ⟨trivial, fun _ => BufPtr.wellFormed_bind (h2 x) fun y => ⟨h3, fun r => h4 y r⟩⟩⟩

/-- The state of the specification in which the access takes place. -/
private theorem pointing_spec {β γ δ : Type} (limit : Nat) (before : Prog β) (p b i : Nat) (between : β → Prog γ) (k : γ → Resp → Prog δ)
    (hp : ∀ x, Spec.BufPtr.KeepsPointer p (between x)) (hb : ∀ x, Spec.BufPtr.KeepsBuffer b (between x)) (access access' : PtrOp)
    (hacc : ∀ a : Spec.BufPtr.State, (a.bufs b).isSome → a.ptrs p = some ⟨b, a.gen b, i⟩ →
      Spec.BufPtr.step limit a access = Spec.BufPtr.step limit a access') :
    Spec.BufPtr.run limit .init (pointing before p b i between access k) =
      Spec.BufPtr.run limit .init (pointing before p b i between access' k) := by
  unfold pointing
  rw [BufPtr.spec_run_bind, BufPtr.spec_run_bind]
  rcases Spec.BufPtr.run limit .init before with ⟨a, x⟩ | m | _ | _ <;> try rfl
  simp only [Outcome.bind_ok, Spec.BufPtr.run]
  rcases ha : a.bufs b with _ | ⟨ty, elems⟩
  · simp [Spec.BufPtr.step, Spec.Buf.use, ha]
  have h1 : Spec.BufPtr.step limit a (.begin_ p b) = .ok (a.point p ⟨b, a.gen b, 0⟩, .unit) := by
    simp [Spec.BufPtr.step, Spec.Buf.use, ha]
  rw [h1]
  simp only [Outcome.bind_ok]
  rcases h2 : Spec.BufPtr.step limit (a.point p ⟨b, a.gen b, 0⟩) (.advance p p i) with ⟨a2, r⟩ | m | _ | _ <;> try rfl
  simp only [Outcome.bind_ok]
  have h3 : a2.bufs = a.bufs ∧ a2.gen = a.gen ∧ a2.ptrs p = some ⟨b, a.gen b, i⟩ := by
    obtain ⟨y, ty', elems', hy, hg, hbuf, h⟩ := BufPtr.spec_at_ok h2
    have hy' : y = ⟨b, a.gen b, 0⟩ := by
      simp [Spec.BufPtr.State.point] at hy; exact hy.symm
    subst hy'
    split at h
    · simp at h
      obtain ⟨rfl, -⟩ := h
      exact ⟨rfl, rfl, by simp [Spec.BufPtr.State.point]⟩
    · cases h
  rw [BufPtr.spec_run_bind, BufPtr.spec_run_bind]
  rcases h4 : Spec.BufPtr.run limit a2 (between x) with ⟨a3, y⟩ | m | _ | _ <;> try rfl
  obtain ⟨k1, k2, k3⟩ := BufPtr.spec_run_keeps (between x) (hp x) (hb x) h4 (by rw [h3.1, ha]; rfl)
  simp only [Outcome.bind_ok, Spec.BufPtr.run]
  rw [hacc a3 k1 (by rw [k3, h3.2.2, k2, h3.2.1])]

private theorem pointing_eq {δ : Type} {tyOf : Nat → Ty} {limit : Nat} {prog prog' : Prog δ} (hwf : prog.wellFormed tyOf)
    (hwf' : prog'.wellFormed tyOf) (h : Spec.BufPtr.run limit .init prog = Spec.BufPtr.run limit .init prog')
    (hok : Spec.BufPtr.run limit .init prog ≠ .ub) :
    (BufPtr.run limit .init prog).mapVal (·.2) = (BufPtr.run limit .init prog').mapVal (·.2) := by
  rw [C155_refinement tyOf limit prog hwf hok, C155_refinement tyOf limit prog' hwf' (h ▸ hok), h]

/-- A pointer to an element stays valid, and keeps pointing to that element, through whatever happens to this buffer and to others,
until the buffer is destroyed: reading through the pointer is reading the element by its index, in every program. -/
theorem C155_stable_read {β γ δ : Type} (tyOf : Nat → Ty) (limit : Nat) (before : Prog β) (p b i : Nat) (between : β → Prog γ)
    (k : γ → Resp → Prog δ) (h1 : before.wellFormed tyOf) (h2 : ∀ x, (between x).wellFormed tyOf)
    (h3 : ∀ y r, (k y r).wellFormed tyOf) (hp : ∀ x, Spec.BufPtr.KeepsPointer p (between x))
    (hb : ∀ x, Spec.BufPtr.KeepsBuffer b (between x))
    (hok : Spec.BufPtr.run limit .init (pointing before p b i between (.load p) k) ≠ .ub) :
    (BufPtr.run limit .init (pointing before p b i between (.load p) k)).mapVal (·.2) =
      (BufPtr.run limit .init (pointing before p b i between (.buf (.read b i)) k)).mapVal (·.2) := by
  refine pointing_eq (pointing_wf h1 h2 trivial h3) (pointing_wf h1 h2 trivial h3)
    (pointing_spec limit before p b i between k hp hb _ _ ?_) hok
  intro a ha hx
  obtain ⟨⟨ty, elems⟩, ha⟩ := Option.isSome_iff_exists.1 ha
  simp only [Spec.BufPtr.step, Spec.BufPtr.State.at_, hx, if_true, Spec.Buf.use, ha, Spec.Buf.step]
  rcases Spec.Buf.get elems i with v | _ | _ | _ <;> simp [Spec.BufPtr.constructs]

/-- Writing through the pointer is writing the element by its index. -/
theorem C155_stable_write {β γ δ : Type} (tyOf : Nat → Ty) (limit : Nat) (before : Prog β) (p b i : Nat) (between : β → Prog γ)
    (k : γ → Resp → Prog δ) (v : Int) (h1 : before.wellFormed tyOf) (h2 : ∀ x, (between x).wellFormed tyOf)
    (h3 : ∀ y r, (k y r).wellFormed tyOf) (hp : ∀ x, Spec.BufPtr.KeepsPointer p (between x))
    (hb : ∀ x, Spec.BufPtr.KeepsBuffer b (between x))
    (hok : Spec.BufPtr.run limit .init (pointing before p b i between (.store p v) k) ≠ .ub) :
    (BufPtr.run limit .init (pointing before p b i between (.store p v) k)).mapVal (·.2) =
      (BufPtr.run limit .init (pointing before p b i between (.buf (.write b i v)) k)).mapVal (·.2) := by
  refine pointing_eq (pointing_wf h1 h2 trivial h3) (pointing_wf h1 h2 trivial h3)
    (pointing_spec limit before p b i between k hp hb _ _ ?_) hok
  intro a ha hx
  obtain ⟨⟨ty, elems⟩, ha⟩ := Option.isSome_iff_exists.1 ha
  simp only [Spec.BufPtr.step, Spec.BufPtr.State.at_, hx, if_true, Spec.Buf.use, ha, Spec.Buf.step]
  by_cases hi : i < elems.length <;> simp [hi, Spec.BufPtr.constructs]

/-- A pointer to the last element of a buffer; then the buffer is assigned to and copied. -/
private def ptrBefore : Prog Unit := .op (.buf (.constructArray 0 (.buffer none 2) [5, 6, 7])) fun _ => .ret ()

private def ptrBetween (_ : Unit) : Prog Unit :=
  .op (.buf (.assignArray 0 [1, 2, 3])) fun _ => .op (.buf (.copy 1 0)) fun _ => .op (.buf (.write 1 2 9)) fun _ => .ret ()

private theorem ptrBefore_wf : ptrBefore.wellFormed ptrTypes := by
  simp [ptrBefore, Prog.wellFormed, PtrOp.wellFormed, Op.wellFormed, ptrTypes, Ty.wellFormed, Ty.arrayOk, Ty.extent]

private theorem ptrBetween_wf (x : Unit) : (ptrBetween x).wellFormed ptrTypes := by
  simp [ptrBetween, Prog.wellFormed, PtrOp.wellFormed, Op.wellFormed, ptrTypes, Ty.arrayOk, Ty.extent]

private theorem ptrBetween_keeps (x : Unit) :
    Spec.BufPtr.KeepsPointer 0 (ptrBetween x) ∧ Spec.BufPtr.KeepsBuffer 0 (ptrBetween x) := by
  simp [ptrBetween, Spec.BufPtr.KeepsPointer, Spec.BufPtr.KeepsBuffer, Spec.BufPtr.assigns]

example : ptrBefore.wellFormed ptrTypes ∧ (∀ x, (ptrBetween x).wellFormed ptrTypes) ∧
    (∀ x, Spec.BufPtr.KeepsPointer 0 (ptrBetween x) ∧ Spec.BufPtr.KeepsBuffer 0 (ptrBetween x)) ∧
    (Spec.BufPtr.run 100 .init (pointing ptrBefore 0 0 2 ptrBetween (.load 0) fun _ r => .ret r)).mapVal (·.2) = .ok (.num 3) ∧
    (Spec.BufPtr.run 100 .init (pointing ptrBefore 0 0 2 ptrBetween (.store 0 70)
      fun _ _ => .op (.buf (.back 0)) fun r => .ret r)).mapVal (·.2) = .ok (.num 70) :=
  ⟨ptrBefore_wf, ptrBetween_wf, ptrBetween_keeps, by decide +kernel, by decide +kernel⟩

/-! ## Dangling pointers -/

/-- Once the buffer has been destroyed, reading or writing through the pointer is undefined forever, whatever happens in the meantime -
also if another buffer is constructed in the same variable. -/
theorem C155_dangling {β γ δ : Type} (tyOf : Nat → Ty) (limit : Nat) (before : Prog β) (p b i : Nat) (between : β → Prog γ)
    (after : γ → Prog δ) (h1 : before.wellFormed tyOf) (h2 : ∀ x, (between x).wellFormed tyOf) (h3 : ∀ y, (after y).wellFormed tyOf)
    (hp : ∀ x, Spec.BufPtr.KeepsPointer p (between x)) (hp' : ∀ y, Spec.BufPtr.KeepsPointer p (after y))
    (hok : Spec.BufPtr.run limit .init (pointing before p b i between (.buf (.destroy b)) fun y _ => after y) ≠ .ub)
    (s : BufPtr.State) (z : δ)
    (hrun : BufPtr.run limit .init (pointing before p b i between (.buf (.destroy b)) fun y _ => after y) = .ok (s, z)) (v : Int) :
    BufPtr.step limit s (.load p) = .ub ∧ BufPtr.step limit s (.store p v) = .ub := by
  have h := BufPtr.ptr_sim_run limit _ (BufPtr.prel_init tyOf)
    (pointing_wf (p := p) (b := b) (i := i) (access := .buf (.destroy b)) (k := fun y _ => after y) h1 h2 trivial fun y _ => h3 y)
  rcases hr : Spec.BufPtr.run limit .init (pointing before p b i between (.buf (.destroy b)) fun y _ => after y)
    with ⟨a', z'⟩ | m | _ | _ <;> rw [hr] at h hok
  · obtain ⟨s', h, hR⟩ := h
    rw [hrun] at h
    cases h
    unfold pointing at hr
    rw [BufPtr.spec_run_bind] at hr
    rcases hr1 : Spec.BufPtr.run limit .init before with ⟨a, x⟩ | m | _ | _ <;> rw [hr1] at hr <;> simp [Spec.BufPtr.run] at hr
    rcases hr2 : Spec.BufPtr.step limit a (.begin_ p b) with ⟨a1, r1⟩ | m | _ | _ <;> rw [hr2] at hr <;> simp at hr
    have e1 : a1 = a.point p ⟨b, a.gen b, 0⟩ := by
      obtain ⟨_, _, _, h⟩ := BufPtr.spec_use_ok hr2
      simp at h; exact h.1.symm
    subst e1
    rcases hr3 : Spec.BufPtr.step limit (a.point p ⟨b, a.gen b, 0⟩) (.advance p p i) with ⟨a2, r2⟩ | m | _ | _ <;> rw [hr3] at hr <;> simp at hr
    have e2 : a2.gen = a.gen ∧ a2.ptrs p = some ⟨b, a.gen b, i⟩ := by
      obtain ⟨y, ty', elems', hy, hg, hbuf, h⟩ := BufPtr.spec_at_ok hr3
      have hy' : y = ⟨b, a.gen b, 0⟩ := by
        simp [Spec.BufPtr.State.point] at hy; exact hy.symm
      subst hy'
      split at h
      · simp at h
        obtain ⟨rfl, -⟩ := h
        exact ⟨rfl, by simp [Spec.BufPtr.State.point]⟩
      · cases h
    rw [BufPtr.spec_run_bind] at hr
    rcases hr4 : Spec.BufPtr.run limit a2 (between x) with ⟨a3, y⟩ | m | _ | _ <;> rw [hr4] at hr <;> simp [Spec.BufPtr.run] at hr
    obtain ⟨k1, k2⟩ := BufPtr.spec_run_keepsPointer (b := b) (between x) (hp x) hr4
    rcases hr5 : Spec.BufPtr.step limit a3 (.buf (.destroy b)) with ⟨a4, r4⟩ | m | _ | _ <;> rw [hr5] at hr <;> simp at hr
    have e4 : a4.bufs b = none ∧ a4.gen = a3.gen ∧ a4.ptrs = a3.ptrs := by
      simp only [Spec.BufPtr.step] at hr5
      rcases hs : Spec.Buf.step limit a3.bufs (.destroy b) with ⟨a5, r5⟩ | m | _ | _ <;> rw [hs] at hr5 <;> simp at hr5
      obtain ⟨rfl, -⟩ := hr5
      exact ⟨(BufPtr.spec_buf_step hs b).2.2.2 rfl, by simp [Spec.BufPtr.constructs], rfl⟩
    obtain ⟨-, d2, d3⟩ := BufPtr.spec_run_dead (p := p) (b := b) (g := a.gen b) (after y) (hp' y) hr
      (by rw [e4.2.1]; rw [e2.1] at k2; exact k2) (fun _ => e4.1)
    refine BufPtr.dangling_ub hR (x := ⟨b, a.gen b, i⟩) ?_ d2 limit v
    rw [d3, e4.2.2, k1, e2.2]
  · have h : BufPtr.run limit .init _ = .throw m := h
    rw [hrun] at h; cases h
  · have h : BufPtr.run limit .init _ = .failFast := h
    rw [hrun] at h; cases h
  · exact absurd rfl hok

/-- Another buffer in the same variable. -/
private def ptrAfter (_ : Unit) : Prog Unit := .op (.buf (.constructArray 0 (.buffer none 2) [5, 6, 7])) fun _ => .ret ()

private theorem ptrAfter_ok (y : Unit) : (ptrAfter y).wellFormed ptrTypes ∧ Spec.BufPtr.KeepsPointer 0 (ptrAfter y) := by
  simp [ptrAfter, Prog.wellFormed, PtrOp.wellFormed, Op.wellFormed, ptrTypes, Ty.wellFormed, Ty.arrayOk, Ty.extent,
    Spec.BufPtr.KeepsPointer, Spec.BufPtr.assigns]

example : ptrBefore.wellFormed ptrTypes ∧ (∀ x, (ptrBetween x).wellFormed ptrTypes) ∧ (∀ y, (ptrAfter y).wellFormed ptrTypes) ∧
    (∀ x, Spec.BufPtr.KeepsPointer 0 (ptrBetween x)) ∧ (∀ y, Spec.BufPtr.KeepsPointer 0 (ptrAfter y)) ∧
    (Spec.BufPtr.run 100 .init (pointing ptrBefore 0 0 2 ptrBetween (.buf (.destroy 0)) fun y _ => ptrAfter y)).mapVal (·.2) = .ok () ∧
    (BufPtr.run 100 .init (pointing ptrBefore 0 0 2 ptrBetween (.buf (.destroy 0)) fun y _ => ptrAfter y)).mapVal (·.2) = .ok () :=
  ⟨ptrBefore_wf, ptrBetween_wf, fun y => (ptrAfter_ok y).1, fun x => (ptrBetween_keeps x).1, fun y => (ptrAfter_ok y).2,
    by decide +kernel, by decide +kernel⟩

/-! ## Loops -/

/-- `for (; p != q; ++p) seen.push_back(*p);` with at most `fuel` passes. -/
def readLoop (p q : Nat) : Nat → List Int → Prog (List Int)
  | 0, seen => .ret seen.reverse
  | fuel + 1, seen => .op (.equal p q) fun r =>
    if r = .num 0 then
      .op (.load p) fun r => match r with
        | .num v => .op (.advance p p 1) fun _ => readLoop p q fuel (v :: seen)
        | .unit => .ret []
    else .ret seen.reverse

private theorem readLoop_spec (limit p q b g : Nat) (hpq : p ≠ q) (ty : Ty) (vs : List Int) (fuel : Nat) (seen rest : List Int)
    (hvs : seen.reverse ++ rest = vs) (hf : rest.length ≤ fuel) (a : Spec.BufPtr.State) (hg : a.gen b = g)
    (ha : a.bufs b = some (ty, vs.map .val)) (hp : a.ptrs p = some ⟨b, g, seen.length⟩) (hq : a.ptrs q = some ⟨b, g, vs.length⟩) :
    (Spec.BufPtr.run limit a (readLoop p q fuel seen)).mapVal (·.2) = .ok vs := by
  subst hvs
  induction fuel generalizing seen rest a with
  | zero =>
    have : rest = [] := List.length_eq_zero_iff.1 (Nat.le_zero.1 hf)
    subst this
    simp [readLoop, Spec.BufPtr.run, Outcome.mapVal]
  | succ fuel ih =>
    simp only [readLoop, Spec.BufPtr.run, Spec.BufPtr.step, Spec.BufPtr.State.at_, hp, hq, hg, if_true, Spec.Buf.use, ha, Outcome.bind_ok]
    rcases rest with _ | ⟨v, rest⟩
    · simp [Spec.BufPtr.run, Outcome.mapVal]
    · have hne : ¬ (seen.length = (seen.reverse ++ v :: rest).length) := by simp
      have hget : Spec.Buf.get (List.map Cell.val (seen.reverse ++ v :: rest)) seen.length = .ok v := by
        have hi : (List.map Cell.val (seen.reverse ++ v :: rest))[seen.length]? = some (.val v) := by
          rw [List.getElem?_map, List.getElem?_append_right (by simp)]
          simp
        unfold Spec.Buf.get; rw [hi]
      rw [if_neg hne]
      simp only [if_true, Spec.BufPtr.run, Spec.BufPtr.step, Spec.BufPtr.State.at_, hp, hg, Spec.Buf.use, ha, Outcome.bind_ok, hget]
      rw [if_pos (by simp; omega)]
      simp only [Outcome.bind_ok]
      have := ih (v :: seen) rest (by simpa using hf) (a.point p ⟨b, g, seen.length + 1⟩) hg
        (by simp [Spec.BufPtr.State.point]) (by simpa [Spec.BufPtr.State.point] using ha)
        (by simpa [Spec.BufPtr.State.point, Ne.symm hpq] using hq)
      have e : ((seen.length : Int) + 1).toNat = seen.length + 1 := by omega
      rw [e]
      simpa using this

/-- Iterating from `begin()` to `end()` yields the elements in order, after any program. -/
theorem C155_loop {β : Type} (tyOf : Nat → Ty) (limit : Nat) (before : Prog β) (p q b fuel : Nat) (hpq : p ≠ q)
    (h1 : before.wellFormed tyOf) (a : Spec.BufPtr.State) (x : β) (hrun : Spec.BufPtr.run limit .init before = .ok (a, x))
    (vs : List Int) (hvs : a.bufs b = some (tyOf b, vs.map .val)) (hf : vs.length ≤ fuel) :
    (BufPtr.run limit .init (before.bind fun _ => .op (.begin_ p b) fun _ => .op (.end_ q b) fun _ => readLoop p q fuel [])).mapVal (·.2) =
      .ok vs := by
  have hloop : ∀ (fuel : Nat) (seen : List Int), (readLoop p q fuel seen).wellFormed tyOf := by
    intro fuel
    induction fuel with
    | zero => intro seen; trivial
    | succ fuel ih =>
      intro seen
      refine ⟨trivial, fun r => ?_⟩
      beta_reduce
      by_cases hr : r = .num 0
      · rw [if_pos hr]
        refine ⟨trivial, fun r => ?_⟩
        cases r with
        | unit => trivial
        | num v => exact ⟨trivial, fun _ => ih _⟩
      · rw [if_neg hr]; trivial
  have hspec : (Spec.BufPtr.run limit .init
      (before.bind fun _ => .op (.begin_ p b) fun _ => .op (.end_ q b) fun _ => readLoop p q fuel [])).mapVal (·.2) = .ok vs := by
    rw [BufPtr.spec_run_bind, hrun]
    simp only [Outcome.bind_ok, Spec.BufPtr.run, Spec.BufPtr.step, Spec.Buf.use, hvs]
    simp only [Spec.BufPtr.State.point, hvs, Outcome.bind_ok]
    exact readLoop_spec limit p q b (a.gen b) hpq (tyOf b) vs fuel [] vs rfl hf _ rfl hvs (by simp [hpq]) (by simp)
  have hwf : (before.bind fun _ => .op (.begin_ p b) fun _ => .op (.end_ q b) fun _ => readLoop p q fuel []).wellFormed tyOf :=
    BufPtr.wellFormed_bind h1 fun _ => ⟨trivial, fun _ => ⟨trivial, fun _ => hloop _ _⟩⟩
  rw [C155_refinement tyOf limit _ hwf, hspec]
  intro hub
  rw [hub] at hspec
  cases hspec

example : (0 : Nat) ≠ 1 ∧ ptrBefore.wellFormed ptrTypes ∧
    ∃ a, Spec.BufPtr.run 100 .init ptrBefore = .ok (a, ()) ∧ a.bufs 0 = some (ptrTypes 0, [5, 6, 7].map .val) :=
  ⟨by decide, ptrBefore_wf, _, rfl, rfl⟩

end Makeshift.Props
