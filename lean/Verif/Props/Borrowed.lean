import Verif.Lemmas.Borrowed

/-! # C134: lifetimes of ranges and of their iterators -/

namespace Makeshift.Props

open Makeshift.Borrowed Makeshift.Spec

private def demo (cs : List (Cmd Nat)) : Outcome (List (List (Val Nat))) := (run start cs).mapVal Prod.snd

/-- An iterator that was obtained from a range refers to the row it was advanced to, at the place where the row was at the time of the call of `begin()`, for ever:
whatever objects the program creates, changes or destroys in between - the range object, the spans that were zipped - it reads what is there now, and
dereferencing it is undefined just if there are no elements any more. -/
theorem C134_iterator {α : Type} {s s1 s2 : State α} {o it : Nat} {cs : List (Cmd α)} {out outs : List (List (Val α))}
    (hb : exec s (.begin_ it o) = .ok (s1, out)) (hr : run s1 cs = .ok (s2, outs)) (hs : ∀ c ∈ cs, ¬ Sets it c) :
    ∃ cells, RowOf s o (moved it cs) cells ∧ (∀ vals, exec s2 (.deref it) = .ok (s2, [vals]) ↔ Reads s2.mem cells vals) ∧
      ((¬ ∃ vals, Reads s2.mem cells vals) → exec s2 (.deref it) = .ub) := by
  simp only [exec] at hb
  obtain ⟨i, hi, hb⟩ := bind_ok hb
  injection hb with hb; injection hb with hb
  obtain ⟨cells, h1, h2⟩ := beginOf_at hi
  obtain ⟨i', h3, h4⟩ := run_its hr hs (i := i) (by rw [← hb]; simp [upd]) h2
  have h5 := rowOf_shift (d := moved it cs) h1
  rw [Int.zero_add] at h5
  refine ⟨_, h5, fun vals => ?_, fun hn => ?_⟩
  · rw [← deref_iff h4 vals]
    simp only [exec, h3]
    constructor
    · intro h
      obtain ⟨row, hrow, h⟩ := bind_ok h
      injection h with h; injection h with _ h; injection h with h
      rw [hrow, h]
    · intro h; rw [h]; rfl
  · simp only [exec, h3]
    rcases deref_or s2 i' with ⟨v, hv⟩ | hv
    · exact absurd ⟨v, (deref_iff h4 v).1 hv⟩ hn
    · rw [hv]; rfl

/-- The range, the zipped span and the zip range are gone; the iterators read the elements of the vector, also after these have changed. -/
example : demo [.vector 0 [10, 11, 12], .span 1 0 1 2, .indexRange 2 3 5, .range 3 0 1 3, .list 5 [7, 8], .zip 4 [.lvalue 1, .index, .lvalue 5],
    .begin_ 0 2, .begin_ 1 3, .begin_ 2 4, .destroy 1, .destroy 2, .destroy 3, .destroy 4, .set 0 2 99,
    .advance 0 1, .deref 0, .advance 1 1, .deref 1, .advance 2 1, .deref 2] =
    .ok [[.index 4], [.elem 99], [.elem 99, .index 1, .elem 8]] := by decide

/-- A program cannot tell whether ranges and other views were destroyed after it obtained an iterator, as required of borrowed ranges. -/
theorem C134_outlives {α : Type} {s s1 s2 : State α} {o it : Nat} {os : List Nat} {out outs : List (List (Val α))}
    (hb : exec s (.begin_ it o) = .ok (s1, out)) (hr : run s1 (os.map .destroy) = .ok (s2, outs))
    (hv : ∀ o' ∈ os, ∃ x, s.objs o' = some x ∧ IsView x) (rows : List (List (Val α))) :
    exec s2 (.deref it) = .ok (s2, rows) ↔ exec s1 (.deref it) = .ok (s1, rows) := by
  have hmem : ∀ (os : List Nat) (t t' : State α) (outs : List (List (Val α))), run t (os.map .destroy) = .ok (t', outs) →
      (∀ o' ∈ os, ∀ x, t.objs o' = some x → IsView x ∨ x = .destroyed) → t'.mem = t.mem := by
    intro os
    induction os with
    | nil => intro t t' outs h _; simp only [List.map_nil, run] at h; injection h with h; injection h with h; rw [h]
    | cons p os ih =>
      intro t t' outs h hview
      simp only [List.map_cons, run] at h
      obtain ⟨r, hr, h⟩ := bind_ok h
      obtain ⟨r', hr', h⟩ := bind_ok h
      injection h with h; injection h with h; subst h
      have hstep := exec_step hr
      cases hstep with
      | none _ _ _ hne => exact absurd rfl (hne p)
      | new _ _ _ _ _ _ _ _ hne => exact absurd rfl (hne p)
      | store _ _ _ _ _ _ _ hne => exact absurd rfl (hne p)
      | realloc _ _ _ _ _ _ hne => exact absurd rfl (hne p)
      | destroy p' x h1 h2 h3 h4 h5 =>
        injection h5 with h5
        subst h5
        have hown : owned x = [] := by
          rcases hview p (List.mem_cons_self ..) x h1 with hx | rfl
          · cases x <;> simp [IsView] at hx <;> simp only [owned]
            rw [List.filterMap_eq_nil_iff]
            intro a ha
            cases a with
            | array b => exact absurd ha (hx b)
            | _ => rfl
          · rfl
        rw [ih r.1 r'.1 r'.2 hr' ?_, h4, hown]
        · simp
        · intro q hq y hy
          rw [h2] at hy
          by_cases he : q = p
          · simp [upd, he] at hy; exact .inr hy.symm
          · simp [upd, he] at hy
            exact hview q (List.mem_cons_of_mem _ hq) y hy
  have hobjs : s1.objs = s.objs ∧ s1.mem = s.mem := by
    simp only [exec] at hb
    obtain ⟨i, _, hb⟩ := bind_ok hb
    injection hb with hb; injection hb with hb
    rw [← hb]; exact ⟨rfl, rfl⟩
  have hm : s2.mem = s1.mem := hmem os s1 s2 outs hr (by
    intro o' ho' x hx
    rw [hobjs.1] at hx
    obtain ⟨y, hy, hview⟩ := hv o' ho'
    rw [hx] at hy
    injection hy with hy
    exact .inl (hy ▸ hview))
  have hns : ∀ c ∈ (os.map .destroy : List (Cmd α)), ¬ Sets it c := by
    intro c hc
    obtain ⟨p, _, rfl⟩ := List.mem_map.1 hc
    simp [Sets]
  have hmv : moved it (os.map .destroy : List (Cmd α)) = 0 := by
    clear hr hv hns
    induction os with
    | nil => rfl
    | cons p os ih => simpa [moved] using ih
  obtain ⟨c1, a1, a2, a3⟩ := C134_iterator hb hr hns
  obtain ⟨c2, b1, b2, b3⟩ := C134_iterator hb (cs := []) (s2 := s1) (outs := []) rfl (by simp)
  rw [hmv] at a1
  rw [moved] at b1
  have hc := rowOf_unique a1 b1
  subst hc
  have sh : ∀ {t : State α} {c : List Cell} (_ : ∀ vals, exec t (.deref it) = .ok (t, [vals]) ↔ Reads t.mem c vals)
      (_ : (¬ ∃ vals, Reads t.mem c vals) → exec t (.deref it) = .ub), exec t (.deref it) = .ok (t, rows) ↔ ∃ vals, rows = [vals] ∧ Reads t.mem c vals := by
    intro t c h1 h2
    by_cases hex : ∃ vals, Reads t.mem c vals
    · obtain ⟨vals, hvals⟩ := hex
      have := (h1 vals).2 hvals
      constructor
      · intro h
        rw [this] at h
        injection h with h; injection h with _ h
        exact ⟨vals, h.symm, hvals⟩
      · rintro ⟨vals', rfl, h⟩
        exact (h1 vals').2 h
    · rw [h2 hex]
      simp only [reduceCtorEq, false_iff]
      rintro ⟨vals, _, h⟩
      exact hex ⟨vals, h⟩
  rw [sh a2 a3, sh b2 b3, hm]

example : demo [.vector 0 [10, 11], .span 1 0 0 2, .zip 2 [.lvalue 1, .span 0 0 2], .begin_ 0 2, .destroy 2, .destroy 1, .deref 0] =
    .ok [[.elem 10, .elem 10]] := by decide

/-- A loop over a range yields its rows as they are at that time: as many as the range was made with, read at the places where its arguments have their elements
now; the loop is undefined if there are fewer. -/
theorem C134_each {α : Type} {s : State α} {o n : Nat} (hn : Extent s o n) (hrow : ∃ cells, RowOf s o 0 cells) :
    (∀ rows, exec s (.each o) = .ok (s, rows) ↔
      rows.length = n ∧ ∀ k (hk : k < rows.length), ∃ cells, RowOf s o (Int.ofNat k) cells ∧ Reads s.mem cells rows[k]) ∧
    ((¬ ∃ rows, exec s (.each o) = .ok (s, rows)) → exec s (.each o) = .ub) := by
  have hbe : ∃ b e, beginOf s o = .ok b ∧ endOf s o = .ok e ∧ Away n b e := by
    cases hn with
    | range h h1 h2 =>
      rename_i f l
      obtain ⟨fb, fp⟩ := f
      obtain ⟨lb, lp⟩ := l
      dsimp only at h1 h2
      subst h1 h2
      exact ⟨.ptr ⟨lb, fp⟩, .ptr ⟨lb, fp + Int.ofNat n⟩, by simp only [beginOf, h], by simp only [endOf, h], .ptr⟩
    | indexRange h h1 =>
      rename_i f l
      subst h1
      exact ⟨.idx f, .idx (f + Int.ofNat n), by simp only [beginOf, h], by simp only [endOf, h], .idx⟩
    | zip h =>
      obtain ⟨cells, hrow⟩ := hrow
      cases hrow with
      | range h' => simp [h] at h'
      | indexRange h' => simp [h] at h'
      | zip h' hf =>
        rw [h] at h'
        injection h' with h'
        injection h' with h1 h2
        subst h1 h2
        obtain ⟨ls, hls⟩ := leavesOf_of_cells hf
        refine ⟨.zip 0 ls, .zip n ls, by simp only [beginOf, h, hls, Outcome.bind], by simp only [endOf, h, hls, Outcome.bind], ?_⟩
        have := @Away.zip n 0 ls ls
        simpa using this
  obtain ⟨b, e, hb, he, haway⟩ := hbe
  obtain ⟨cells, h1, h2⟩ := beginOf_at hb
  have hexec : exec s (.each o) = (loop s e (n + 1) b).bind fun rows => .ok (s, rows) := by
    simp only [exec, hb, he, Outcome.bind, away_steps haway]
  constructor
  · intro rows
    have hl := loop_iff (s := s) n haway h2 rows
    have e1 : exec s (.each o) = .ok (s, rows) ↔ loop s e (n + 1) b = .ok rows := by
      rw [hexec]
      constructor
      · intro h
        obtain ⟨r, hr, h⟩ := bind_ok h
        injection h with h; injection h with _ h
        rw [hr, h]
      · intro h; rw [h]; rfl
    rw [e1, hl]
    refine and_congr_right fun _ => forall_congr' fun k => forall_congr' fun hk => ?_
    have hsh := rowOf_shift (d := Int.ofNat k) h1
    rw [Int.zero_add] at hsh
    constructor
    · intro h; exact ⟨_, hsh, h⟩
    · rintro ⟨c, hc, h⟩
      rw [rowOf_unique hsh hc]; exact h
  · intro hno
    rw [hexec] at hno ⊢
    rcases loop_or s e (n + 1) b with ⟨rows, h⟩ | h
    · exact absurd ⟨rows, by rw [h]; rfl⟩ hno
    · rw [h]; rfl

/-- The vector has grown and was reallocated meanwhile; then it shrinks. -/
example : demo [.vector 0 [10, 11], .zip 1 [.lvalue 0, .index], .assign 0 [20, 21, 22], .realloc 0, .each 1] =
      .ok [[.elem 20, .index 0], [.elem 21, .index 1]] ∧
    demo [.vector 0 [10, 11], .zip 1 [.lvalue 0, .index], .assign 0 [20], .each 1] = .ub ∧
    demo [.vector 0 [10, 11, 12], .range 1 0 1 3, .indexRange 2 5 7, .each 1, .each 2] =
      .ok [[.elem 11], [.elem 12], [.index 5], [.index 6]] := by decide

private theorem forall₂_get {A B : Type} {R : A → B → Prop} {l : List A} {l' : List B} (h : List.Forall₂ R l l') {i : Nat} {a : A}
    (ha : l[i]? = some a) : ∃ b, l'[i]? = some b ∧ R a b := by
  induction h generalizing i with
  | nil => simp at ha
  | cons h _ ih =>
    cases i with
    | zero => simp at ha; subst ha; exact ⟨_, rfl, h⟩
    | succ i => simpa using ih (by simpa using ha)

private theorem makeArgs_sizes {α : Type} {as : List (ZSrc α)} {s s' : State α} {args : List ZArg} {ns : List Nat}
    (hi : Inv s) (h : makeArgs s as = .ok (s', args, ns)) :
    (∀ a ∈ as, (∃ n ∈ ns, SizeIs s a n) ∨ a = .index) ∧ (∀ a ∈ as, ∀ n, SizeIs s a n → n ∈ ns) ∧
    List.Forall₂ (fun a z => ∀ l, a = .array l → ∃ b, z = .array b ∧ s'.mem b = some l) as args := by
  have main : ∀ (as : List (ZSrc α)) (t : State α) (args : List ZArg) (ns : List Nat), makeArgs t as = .ok (s', args, ns) →
      t.objs = s.objs → (∀ b, b < s.next → t.mem b = s.mem b) → s.next ≤ t.next →
      (∀ a ∈ as, (∃ n ∈ ns, SizeIs s a n) ∨ a = .index) ∧ (∀ a ∈ as, ∀ n, SizeIs s a n → n ∈ ns) ∧
      List.Forall₂ (fun a z => ∀ l, a = .array l → ∃ b, z = .array b ∧ s'.mem b = some l) as args := by
    intro as
    induction as with
    | nil =>
      intro t args ns h _ _ _
      simp only [makeArgs] at h
      injection h with h; injection h with h h2; injection h2 with h2 h3
      subst h2
      simp
    | cons a as ih =>
      intro t args ns h ho hm hn
      simp only [makeArgs] at h
      obtain ⟨⟨u, za, n⟩, h1, h⟩ := bind_ok h
      obtain ⟨⟨t', zas, ns'⟩, h2, h⟩ := bind_ok h
      injection h with h; injection h with h h3; injection h3 with h3 h4
      dsimp only at h2 h h3 h4
      subst h h3 h4
      have live : ∀ o b, s.objs o = some (.vector b) ∨ s.objs o = some (.list b) → b < s.next := by
        rintro o b (h | h) <;> exact hi.live o _ h b (by simp [owned])
      have done : ∀ m, u = t → n = some m → SizeIs s a m → (∀ m', SizeIs s a m' → m' = m) → (∀ l, a ≠ .array l) →
          (∀ a' ∈ a :: as, (∃ n' ∈ n.toList ++ ns', SizeIs s a' n') ∨ a' = .index) ∧
          (∀ a' ∈ a :: as, ∀ n', SizeIs s a' n' → n' ∈ n.toList ++ ns') ∧
          List.Forall₂ (fun a z => ∀ l, a = ZSrc.array l → ∃ b, z = .array b ∧ t'.mem b = some l) (a :: as) (za :: zas) :=
          fun m hu hn' hs huq hna => by
        subst hu hn'
        obtain ⟨r1, r2, r3⟩ := ih u zas ns' h2 ho hm hn
        exact ⟨by
          intro a' ha'
          rcases List.mem_cons.1 ha' with rfl | ha'
          · exact .inl ⟨m, by simp, hs⟩
          · rcases r1 a' ha' with ⟨m', h1, h2⟩ | h
            · exact .inl ⟨m', by simp [h1], h2⟩
            · exact .inr h, by
          intro a' ha' m' hm'
          rcases List.mem_cons.1 ha' with rfl | ha'
          · simp [huq m' hm']
          · simp [r2 a' ha' m' hm'], .cons (fun l hl => absurd hl (hna l)) r3⟩
      cases a with
      | lvalue o =>
        simp only [makeArg] at h1
        split at h1
        · rename_i b hb
          rw [ho] at hb
          split at h1
          · rename_i l hl
            simp only [Outcome.ok.injEq, Prod.mk.injEq] at h1
            obtain ⟨h1, h5, h6⟩ := h1
            subst h6
            rw [hm b (live o b (.inl hb))] at hl
            refine done l.length h1.symm rfl (.vector hb hl) ?_ (by simp)
            intro m' hm'
            cases hm' <;> simp_all
          · simp at h1
        · rename_i b hb
          rw [ho] at hb
          split at h1
          · rename_i l hl
            simp only [Outcome.ok.injEq, Prod.mk.injEq] at h1
            obtain ⟨h1, h5, h6⟩ := h1
            subst h6
            rw [hm b (live o b (.inr hb))] at hl
            refine done l.length h1.symm rfl (.list hb hl) ?_ (by simp)
            intro m' hm'
            cases hm' <;> simp_all
          · simp at h1
        · rename_i a len hb
          rw [ho] at hb
          simp only [Outcome.ok.injEq, Prod.mk.injEq] at h1
          obtain ⟨h1, h5, h6⟩ := h1
          subst h6
          refine done len h1.symm rfl (.lspan hb) ?_ (by simp)
          intro m' hm'
          cases hm' <;> simp_all
        · simp at h1
      | index =>
        simp only [makeArg] at h1
        simp only [Outcome.ok.injEq, Prod.mk.injEq] at h1
        obtain ⟨h1, h5, h6⟩ := h1
        subst h1 h6
        obtain ⟨r1, r2, r3⟩ := ih t zas ns' h2 ho hm hn
        refine ⟨?_, ?_, .cons (by simp) r3⟩
        · intro a' ha'
          rcases List.mem_cons.1 ha' with rfl | ha'
          · exact .inr rfl
          · simpa using r1 a' ha'
        · intro a' ha' m' hm'
          rcases List.mem_cons.1 ha' with rfl | ha'
          · cases hm'
          · simpa using r2 a' ha' m' hm'
      | span o off len =>
        simp only [makeArg] at h1
        split at h1
        · split at h1
          · obtain ⟨_, _, h1'⟩ := bind_ok h1
            clear h1
            rename' h1' => h1
            simp only [Outcome.ok.injEq, Prod.mk.injEq] at h1
            obtain ⟨h1, h5, h6⟩ := h1
            subst h6
            refine done len h1.symm rfl .span ?_ (by simp)
            intro m' hm'
            cases hm'; rfl
          · simp at h1
        · simp at h1
      | array l =>
        simp only [makeArg] at h1
        simp only [Outcome.ok.injEq, Prod.mk.injEq] at h1
        obtain ⟨h1, h5, h6⟩ := h1
        subst h1 h5 h6
        obtain ⟨r1, r2, r3⟩ := ih _ zas ns' h2 ho (fun b hb => by
          have : b ≠ t.next := by omega
          simp only [upd, this, if_false]; exact hm b hb) (by dsimp only; omega)
        obtain ⟨_, _, m3, _, _⟩ := makeArgs_spec h2
        refine ⟨?_, ?_, .cons ?_ r3⟩
        · intro a' ha'
          rcases List.mem_cons.1 ha' with rfl | ha'
          · exact .inl ⟨l.length, by simp, .array⟩
          · rcases r1 a' ha' with ⟨m', h1, h2⟩ | h
            · exact .inl ⟨m', by simp [h1], h2⟩
            · exact .inr h
        · intro a' ha' m' hm'
          rcases List.mem_cons.1 ha' with rfl | ha'
          · cases hm'; simp
          · simp [r2 a' ha' m' hm']
        · intro l' hl'
          injection hl' with hl'
          subst hl'
          refine ⟨t.next, rfl, ?_⟩
          rw [m3 t.next (by dsimp only; omega)]
          simp [upd]
  exact main as s args ns h rfl (fun _ _ => rfl) (Nat.le_refl _)

/-- The number of rows of a zip range is the number of elements which all its arguments had when it was made, as long as it exists. -/
theorem C134_size {α : Type} {s1 s2 s3 : State α} {o : Nat} {cs0 cs : List (Cmd α)} {args : List (ZSrc α)} {outs0 out outs : List (List (Val α))}
    (h0 : run start cs0 = .ok (s1, outs0)) (hz : exec s1 (.zip o args) = .ok (s2, out)) (hr : run s2 cs = .ok (s3, outs))
    (hd : .destroy o ∉ cs) : ∃ n, Extent s3 o n ∧ ∀ a ∈ args, SizeIs s1 a n ∨ a = .index := by
  have hi := run_inv h0 inv_start
  have hi2 := step_inv (exec_step hz) hi
  simp only [exec] at hz
  obtain ⟨⟨t, zas, ns⟩, hm, hz⟩ := bind_ok hz
  obtain ⟨n, hn, hz⟩ := bind_ok hz
  obtain ⟨t', h1, hz⟩ := bind_ok hz
  injection hz with hz; injection hz with hz; subst hz
  obtain ⟨c1, c2, c3, c4⟩ := create_ok h1
  dsimp only at hn c2
  have ho : t'.objs o = some (.zip n zas) := by rw [c2]; simp [upd]
  obtain ⟨k1, _⟩ := run_keeps hr hi2 ho (by simp) hd
  refine ⟨n, .zip k1, fun a ha => ?_⟩
  obtain ⟨r1, _, _⟩ := makeArgs_sizes hi hm
  rcases r1 a ha with ⟨m, hm1, hm2⟩ | h
  · left
    have : m = n := by
      cases ns with
      | nil => simp at hm1
      | cons n' ns =>
        simp only [commonSize] at hn
        obtain ⟨_, he, hn⟩ := bind_ok hn
        injection hn with hn
        subst hn
        simp only [Outcome.expects] at he
        split at he
        · rename_i hall
          rcases List.mem_cons.1 hm1 with h | h
          · exact h
          · simpa using List.all_eq_true.1 hall m h
        · simp at he
    exact this ▸ hm2
  · exact .inr h

/-- Arguments of different sizes are rejected. -/
theorem C134_mismatch {α : Type} {s : State α} {o n m : Nat} {cs0 : List (Cmd α)} {args : List (ZSrc α)} {a b : ZSrc α} {outs0 : List (List (Val α))}
    (h0 : run start cs0 = .ok (s, outs0)) (ha : a ∈ args) (hb : b ∈ args) (hn : SizeIs s a n) (hm : SizeIs s b m) (hne : n ≠ m)
    (hall : ∀ a ∈ args, a = .index ∨ (∃ n, SizeIs s a n) ∧ ∀ o off len, a ≠ .span o off len) : exec s (.zip o args) = .failFast := by
  have hi := run_inv h0 inv_start
  have hmk : ∀ (as : List (ZSrc α)) (t : State α), (∀ a ∈ as, a = .index ∨ (∃ n, SizeIs s a n) ∧ ∀ o off len, a ≠ .span o off len) →
      t.objs = s.objs → (∀ b, b < s.next → t.mem b = s.mem b) → s.next ≤ t.next → ∃ r, makeArgs t as = .ok r := by
    intro as
    induction as with
    | nil => intro t _ _ _ _; exact ⟨_, rfl⟩
    | cons a as ih =>
      intro t h ho hm hn
      have : ∃ t' za n, makeArg t a = .ok (t', za, n) ∧ t'.objs = s.objs ∧ (∀ b, b < s.next → t'.mem b = s.mem b) ∧ s.next ≤ t'.next := by
        rcases h a (List.mem_cons_self ..) with rfl | ⟨⟨k, hk⟩, hspan⟩
        · exact ⟨_, _, _, rfl, ho, hm, hn⟩
        · cases hk with
          | vector h1 h2 =>
            have := hi.live _ _ h1 _ (List.mem_singleton.2 rfl)
            exact ⟨t, _, _, by simp only [makeArg, ho, h1, hm _ this, h2]; rfl, ho, hm, hn⟩
          | list h1 h2 =>
            have := hi.live _ _ h1 _ (List.mem_singleton.2 rfl)
            exact ⟨t, _, _, by simp only [makeArg, ho, h1, hm _ this, h2]; rfl, ho, hm, hn⟩
          | lspan h1 => exact ⟨t, _, _, by simp only [makeArg, ho, h1]; rfl, ho, hm, hn⟩
          | span => exact absurd rfl (hspan _ _ _)
          | array =>
            refine ⟨_, _, _, rfl, ho, fun b hb => ?_, by dsimp only; omega⟩
            have : b ≠ t.next := by omega
            simp only [upd, this, if_false]; exact hm b hb
      obtain ⟨t', za, n, h1, h2, h3, h4⟩ := this
      obtain ⟨r, hr⟩ := ih t' (fun a ha => h a (List.mem_cons_of_mem _ ha)) h2 h3 h4
      exact ⟨_, by simp only [makeArgs, h1, hr, Outcome.bind]; rfl⟩
  obtain ⟨⟨t, zas, ns⟩, hmk⟩ := hmk args s hall rfl (fun _ _ => rfl) (Nat.le_refl _)
  obtain ⟨_, r2, _⟩ := makeArgs_sizes hi hmk
  have h1 := r2 a ha n hn
  have h2 := r2 b hb m hm
  have hf : commonSize ns = .failFast := by
    cases ns with
    | nil => simp at h1
    | cons n' ns =>
      simp only [commonSize, Outcome.expects]
      split
      · rename_i hall
        have key : ∀ x ∈ n' :: ns, x = n' := by
          intro x hx
          rcases List.mem_cons.1 hx with h | h
          · exact h
          · simpa using List.all_eq_true.1 hall x h
        exact absurd ((key n h1).trans (key m h2).symm) hne
      · rfl
  simp only [exec, hmk, Outcome.bind, hf]

example : demo [.vector 0 [10, 11], .list 1 [12], .zip 2 [.lvalue 0, .lvalue 1]] = .failFast ∧
    demo [.vector 0 [10, 11], .zip 2 [.lvalue 0, .array [1, 2]], .assign 0 [5, 6, 7, 8], .each 2] =
      .ok [[.elem 5, .elem 1], [.elem 6, .elem 2]] := by decide

/-- An array which was passed as a constant rvalue is kept in the zip range: its elements are those it was made with, as long as the zip range exists. -/
theorem C134_array {α : Type} {s1 s2 s3 : State α} {o i k : Nat} {cs0 cs : List (Cmd α)} {args : List (ZSrc α)}
    {outs0 out outs : List (List (Val α))} {l : List α} {cells : List Cell} {vals : List (Val α)}
    (h0 : run start cs0 = .ok (s1, outs0)) (hz : exec s1 (.zip o args) = .ok (s2, out)) (hr : run s2 cs = .ok (s3, outs))
    (hd : .destroy o ∉ cs) (ha : args[i]? = some (.array l)) (hc : RowOf s3 o (Int.ofNat k) cells) (hv : Reads s3.mem cells vals) :
    vals[i]? = (l[k]?).map Val.elem := by
  have hi := run_inv h0 inv_start
  have hi2 := step_inv (exec_step hz) hi
  simp only [exec] at hz
  obtain ⟨⟨t, zas, ns⟩, hm, hz⟩ := bind_ok hz
  obtain ⟨n, hn, hz⟩ := bind_ok hz
  obtain ⟨t', h1, hz⟩ := bind_ok hz
  injection hz with hz; injection hz with hz; subst hz
  obtain ⟨c1, c2, c3, c4⟩ := create_ok h1
  dsimp only at hn c2 c3
  have ho : t'.objs o = some (.zip n zas) := by rw [c2]; simp [upd]
  obtain ⟨k1, k2⟩ := run_keeps hr hi2 ho (by simp) hd
  obtain ⟨_, _, r3⟩ := makeArgs_sizes hi hm
  obtain ⟨z, hz, hza⟩ := forall₂_get r3 ha
  replace hza := hza l rfl
  obtain ⟨b, rfl, hb⟩ := hza
  cases hc with
  | range h => simp [k1] at h
  | indexRange h => simp [k1] at h
  | zip h hf =>
    rw [k1] at h
    injection h with h; injection h with h2 h3
    subst h3
    have hmem : s3.mem b = some l := by
      rw [k2 b ?_, c3, hb]
      simp only [owned, List.mem_filterMap]
      exact ⟨.array b, List.mem_of_getElem? hz, rfl⟩
    obtain ⟨cell, hcell, hcell2⟩ := forall₂_get hf hz
    cases hcell2
    obtain ⟨v, hv1, hv2⟩ := forall₂_get hv hcell
    cases hv2 with
    | place hm' hp hx =>
      rw [hmem] at hm'
      injection hm' with hm'
      subst hm'
      have : k = _ := Int.ofNat.inj hp
      subst this
      rw [hv1, hx]
      rfl

example : demo [.zip 0 [.array [1, 2], .index], .vector 1 [7], .set 1 0 9, .assign 1 [], .each 0] =
    .ok [[.elem 1, .index 0], [.elem 2, .index 1]] := by decide

private theorem copyArgs_rel {α : Type} {as : List ZArg} {s s' : State α} {args : List ZArg} (h : copyArgs s as = .ok (s', args))
    (hold : ∀ b ∈ arrays as, b < s.next) :
    List.Forall₂ (fun a a' => (a' = a ∧ ∀ b, a ≠ .array b) ∨ ∃ b b', a = .array b ∧ a' = .array b' ∧ s'.mem b' = s.mem b) as args := by
  induction as generalizing s args with
  | nil =>
    simp only [copyArgs] at h
    injection h with h; injection h with h h2
    subst h2
    exact .nil
  | cons a as ih =>
    cases a with
    | array b =>
      simp only [copyArgs] at h
      split at h
      · rename_i l hl
        obtain ⟨⟨t', zas⟩, h2, h⟩ := bind_ok h
        injection h with h; injection h with h h3
        dsimp only at h h3
        subst h h3
        have hold' : ∀ b' ∈ arrays as, b' < s.next := fun b' hb' => hold b' (by simp [arrays] at hb' ⊢; exact .inr hb')
        obtain ⟨_, _, m3, _, _⟩ := copyArgs_spec h2
        have hih := ih h2 (fun b' hb' => Nat.lt_succ_of_lt (hold' b' hb'))
        refine .cons (.inr ⟨b, s.next, rfl, rfl, ?_⟩) ?_
        · rw [m3 s.next (by dsimp only; omega), hl]; simp [upd]
        · have : ∀ {as zas : List ZArg}, (∀ b' ∈ arrays as, b' < s.next) → List.Forall₂ (fun a a' => (a' = a ∧ ∀ b, a ≠ .array b) ∨
              ∃ b b', a = .array b ∧ a' = .array b' ∧ t'.mem b' = upd s.mem s.next (some l) b) as zas →
              List.Forall₂ (fun a a' => (a' = a ∧ ∀ b, a ≠ .array b) ∨ ∃ b b', a = .array b ∧ a' = .array b' ∧ t'.mem b' = s.mem b) as zas := by
            intro as zas ho hf
            induction hf with
            | nil => exact .nil
            | cons h1 _ ih =>
              rename_i a _ as _ _
              refine .cons ?_ (ih fun b' hb' => ho b' ?_)
              · rcases h1 with h1 | ⟨b, b', rfl, rfl, h1⟩
                · exact .inl h1
                · refine .inr ⟨b, b', rfl, rfl, ?_⟩
                  have := ho b (by simp [arrays])
                  have hne : b ≠ s.next := by omega
                  rw [h1]; simp [upd, hne]
              · cases a <;> simp [arrays] at hb' ⊢ <;> first | exact hb' | exact .inr hb'
          exact this hold' hih
      · simp at h
    | ref o | index | span a n =>
      simp only [copyArgs] at h
      obtain ⟨⟨t', zas⟩, h2, h⟩ := bind_ok h
      injection h with h; injection h with h h3
      dsimp only at h h3
      subst h h3
      exact .cons (.inl ⟨rfl, by simp⟩) (ih h2 (fun b' hb' => hold b' (by simpa [arrays] using hb')))

/-- A copy of a zip range has the same rows; it has its own copies of arrays and refers to the same lvalues. -/
theorem C134_copy {α : Type} {s s1 : State α} {o z : Nat} {cs0 : List (Cmd α)} {outs0 out rows : List (List (Val α))}
    (h0 : run start cs0 = .ok (s, outs0)) (hc : exec s (.copyZip o z) = .ok (s1, out)) (he : exec s (.each z) = .ok (s, rows)) :
    exec s1 (.each o) = .ok (s1, rows) ∧ exec s1 (.each z) = .ok (s1, rows) := by
  have hi := run_inv h0 inv_start
  simp only [exec] at hc
  split at hc
  · rename_i n args hz
    obtain ⟨⟨t, zas⟩, hr, hc⟩ := bind_ok hc
    obtain ⟨t', h1, hc⟩ := bind_ok hc
    injection hc with hc; injection hc with hc; subst hc
    obtain ⟨c1, c2, c3, c4⟩ := create_ok h1
    obtain ⟨i1, i2, i3, i4, i5⟩ := copyArgs_spec hr
    dsimp only at c1 c2 c3 c4
    rw [i1] at c1 c2
    have hoz : z ≠ o := by rintro rfl; simp [hz] at c1
    have hrel := copyArgs_rel hr (fun b hb => hi.live z _ hz b hb)
    have ho' : t'.objs o = some (.zip n zas) := by rw [c2]; simp [upd]
    have hz' : t'.objs z = some (.zip n args) := by rw [c2]; simp [upd, hoz, hz]
    have hmem : ∀ b l, s.mem b = some l → t'.mem b = some l := by
      intro b l hl
      rw [c3, i3 b ?_, hl]
      intro hb
      have := hi.fresh b hb.1
      simp [this] at hl
    have hobj : ∀ p x, s.objs p = some x → t'.objs p = some x := by
      intro p x hp
      have : p ≠ o := by rintro rfl; simp [c1] at hp
      rw [c2]; simp [upd, this, hp]
    have harg : ∀ {k a c}, ArgCell s k a c → ArgCell t' k a c := by
      intro k a c h
      cases h with
      | vector h => exact .vector (hobj _ _ h)
      | list h => exact .list (hobj _ _ h)
      | span h => exact .span (hobj _ _ h)
      | index => exact .index
      | heldSpan => exact .heldSpan
      | heldArray => exact .heldArray
    have hcell : ∀ {c v}, CellIs s.mem c v → CellIs t'.mem c v := by
      intro c v h
      cases h with
      | place h1 h2 h3 => exact .place (hmem _ _ h1) h2 h3
      | num => exact .num
    have hargs : ∀ {k : Int} {args zas : List ZArg} {cells : List Cell} {vals : List (Val α)},
        List.Forall₂ (fun a a' => (a' = a ∧ ∀ b, a ≠ .array b) ∨ ∃ b b', a = .array b ∧ a' = .array b' ∧ t.mem b' = s.mem b) args zas →
        List.Forall₂ (ArgCell s k) args cells → Reads s.mem cells vals →
        ∃ cells', List.Forall₂ (ArgCell t' k) zas cells' ∧ Reads t'.mem cells' vals := by
      intro k args zas cells vals h
      induction h generalizing cells vals with
      | nil => intro h1 h2; cases h1; cases h2; exact ⟨[], .nil, .nil⟩
      | cons h _ ih =>
        intro h1 h2
        cases h1 with
        | cons h1 h1' =>
          cases h2 with
          | cons h2 h2' =>
            obtain ⟨cells', g1, g2⟩ := ih h1' h2'
            rcases h with ⟨rfl, _⟩ | ⟨b, b', rfl, rfl, hb⟩
            · exact ⟨_ :: cells', .cons (harg h1) g1, .cons (hcell h2) g2⟩
            · cases h1
              cases h2 with
              | place q1 q2 q3 =>
                exact ⟨_ :: cells', .cons .heldArray g1, .cons (.place (by rw [c3, hb, q1]) q2 q3) g2⟩
    have hself : ∀ {k : Int} {args : List ZArg} {cells : List Cell}, List.Forall₂ (ArgCell s k) args cells → List.Forall₂ (ArgCell t' k) args cells := by
      intro k args cells h
      induction h with
      | nil => exact .nil
      | cons h _ ih => exact .cons (harg h) ih
    have hreads : ∀ {cells : List Cell} {vals : List (Val α)}, Reads s.mem cells vals → Reads t'.mem cells vals := by
      intro cells vals h
      unfold Reads at h ⊢
      induction h with
      | nil => exact .nil
      | cons h _ ih => exact .cons (hcell h) ih
    have hrow0 : ∃ cells, List.Forall₂ (ArgCell s 0) args cells := by
      have he' := he
      simp only [exec] at he'
      obtain ⟨b, hb, _⟩ := bind_ok he'
      obtain ⟨cells, hc, _⟩ := beginOf_at hb
      cases hc with
      | range h => simp [hz] at h
      | indexRange h => simp [hz] at h
      | zip h hf => rw [hz] at h; injection h with h; injection h with _ h; subst h; exact ⟨_, hf⟩
    obtain ⟨cells0, hrow0⟩ := hrow0
    have key : ∀ {args zas : List ZArg} {cells0 : List Cell},
        List.Forall₂ (fun a a' => (a' = a ∧ ∀ b, a ≠ .array b) ∨ ∃ b b', a = .array b ∧ a' = .array b' ∧ t.mem b' = s.mem b) args zas →
        List.Forall₂ (ArgCell s 0) args cells0 → ∃ cells, List.Forall₂ (ArgCell t' 0) zas cells := by
      intro args zas cells0 h
      induction h generalizing cells0 with
      | nil => intro _; exact ⟨[], .nil⟩
      | cons h _ ih =>
        intro h0
        cases h0 with
        | cons h1 h2 =>
          obtain ⟨cs, hcs⟩ := ih h2
          rcases h with ⟨rfl, _⟩ | ⟨b, b', rfl, rfl, _⟩
          · exact ⟨_ :: cs, .cons (harg h1) hcs⟩
          · exact ⟨_ :: cs, .cons .heldArray hcs⟩
    have hrow0' := key hrel hrow0
    obtain ⟨cells0', hrow0'⟩ := hrow0'
    obtain ⟨hlen, hrows⟩ := ((C134_each (Extent.zip hz) ⟨_, .zip hz hrow0⟩).1 rows).1 he
    have split : ∀ k (hk : k < rows.length), ∃ cells, List.Forall₂ (ArgCell s (Int.ofNat k)) args cells ∧ Reads s.mem cells rows[k] := by
      intro k hk
      obtain ⟨cells, h1, h2⟩ := hrows k hk
      cases h1 with
      | range h => simp [hz] at h
      | indexRange h => simp [hz] at h
      | zip h hf => rw [hz] at h; injection h with h; injection h with _ h; subst h; exact ⟨_, hf, h2⟩
    constructor
    · refine ((C134_each (Extent.zip ho') ⟨_, .zip ho' hrow0'⟩).1 rows).2 ⟨hlen, fun k hk => ?_⟩
      obtain ⟨cells, h1, h2⟩ := split k hk
      obtain ⟨cells', g1, g2⟩ := hargs hrel h1 h2
      exact ⟨cells', .zip ho' g1, g2⟩
    · refine ((C134_each (Extent.zip hz') ⟨_, .zip hz' (hself hrow0)⟩).1 rows).2 ⟨hlen, fun k hk => ?_⟩
      obtain ⟨cells, h1, h2⟩ := split k hk
      exact ⟨cells, .zip hz' (hself h1), hreads h2⟩
  · simp at hc

/-- The copy of a temporary can be used when the temporary is gone. -/
example : demo [.vector 5 [8, 9], .zip 0 [.array [1, 2], .lvalue 5], .copyZip 1 0, .each 0, .each 1, .destroy 0, .each 1] =
    .ok [[.elem 1, .elem 8], [.elem 2, .elem 9], [.elem 1, .elem 8], [.elem 2, .elem 9], [.elem 1, .elem 8], [.elem 2, .elem 9]] := by decide

/-! What goes wrong. -/

/-- A reference to the result of `begin()` of a `range` - not a copy - cannot be used when the range is gone. -/
theorem C134_reference {α : Type} {s s1 s2 : State α} {it o : Nat} {first last : Addr} {out out' : List (List (Val α))}
    (ho : s.objs o = some (.range first last)) (hb : exec s (.bind it o) = .ok (s1, out)) (hd : exec s1 (.destroy o) = .ok (s2, out')) :
    exec s2 (.deref it) = .ub := by
  simp only [exec, bindOf, ho, Outcome.bind] at hb
  injection hb with hb; injection hb with hb
  subst hb
  simp only [exec, ho] at hd
  injection hd with hd; injection hd with hd
  subst hd
  simp [exec, deref, upd, Outcome.bind]

example : demo [.vector 0 [1, 2], .range 1 0 0 2, .bind 0 1, .destroy 1, .deref 0] = .ub ∧
    demo [.vector 0 [1, 2], .range 1 0 0 2, .bind 0 1, .copy 1 0, .destroy 1, .deref 1] = .ok [[.elem 1]] ∧
    demo [.indexRange 1 0 2, .bind 0 1, .destroy 1, .deref 0] = .ok [[.index 0]] ∧
    demo [.vector 0 [1, 2], .zip 1 [.lvalue 0], .bind 0 1, .destroy 1, .deref 0] = .ok [[.elem 1]] := by decide

/-- A zip range refers to lvalue arguments; if one of them is gone - be it only a span - its rows cannot be reached through the zip range any more. -/
theorem C134_argument {α : Type} {s s1 : State α} {z o n it : Nat} {args : List ZArg} {out : List (List (Val α))}
    (hz : s.objs z = some (.zip n args)) (ha : .ref o ∈ args) (hne : o ≠ z) (hd : exec s (.destroy o) = .ok (s1, out)) :
    exec s1 (.begin_ it z) = .ub ∧ exec s1 (.end_ it z) = .ub ∧ exec s1 (.each z) = .ub := by
  have hs : s1.objs o = some .destroyed ∧ s1.objs z = some (.zip n args) := by
    cases exec_step hd with
    | none _ _ _ h => exact absurd rfl (h o)
    | new _ _ _ _ _ _ _ _ h => exact absurd rfl (h o)
    | store _ _ _ _ _ _ _ h => exact absurd rfl (h o)
    | realloc _ _ _ _ _ _ h => exact absurd rfl (h o)
    | destroy o' x h1 h2 h3 h4 h5 =>
      injection h5 with h5; subst h5
      rw [h2]; simp [upd, Ne.symm hne, hz]
  have hl : leavesOf s1 args = .ub := by
    rcases leavesOf_or s1 args with ⟨ls, h⟩ | h
    · exfalso
      obtain ⟨cs, h1, h2⟩ := leavesOf_at h
      replace hs := hs.1
      clear h h2 hz hd
      induction h1 with
      | nil => simp at ha
      | cons h _ ih =>
        rcases List.mem_cons.1 ha with rfl | ha
        · cases h <;> simp_all
        · exact ih ha
    · exact h
  simp [exec, beginOf, endOf, hs.2, hl, Outcome.bind]

example : demo [.vector 0 [1, 2], .span 1 0 0 2, .zip 2 [.lvalue 1], .destroy 1, .each 2] = .ub ∧
    demo [.vector 0 [1, 2], .span 1 0 0 2, .zip 2 [.span 0 0 2], .destroy 1, .each 2] = .ok [[.elem 1], [.elem 2]] := by decide

/-- The iterators of a zip range which keeps an array do not survive it. -/
theorem C134_array_dangling {α : Type} {s s1 s2 : State α} {z n b it : Nat} {args : List ZArg} {out out' : List (List (Val α))}
    (hz : s.objs z = some (.zip n args)) (ha : .array b ∈ args) (hb : exec s (.begin_ it z) = .ok (s1, out))
    (hd : exec s1 (.destroy z) = .ok (s2, out')) : exec s2 (.deref it) = .ub := by
  obtain ⟨cells, h1, h2, h3⟩ := C134_iterator hb (cs := [.destroy z]) (s2 := s2) (outs := out' ++ []) (by simp [run, hd, Outcome.bind]) (by simp [Sets])
  refine h3 ?_
  rintro ⟨vals, hv⟩
  have hz1 : s1.objs z = some (.zip n args) := by
    cases exec_step hb with
    | none _ h _ _ => rw [h, hz]
    | new _ _ h _ => simp only [exec] at hb; obtain ⟨i, _, hb⟩ := bind_ok hb; injection hb with hb; injection hb with hb; rw [← hb]; exact hz
    | store _ _ _ _ h => rw [h, hz]
    | realloc => simp only [exec] at hb; obtain ⟨i, _, hb⟩ := bind_ok hb; injection hb with hb; injection hb with hb; rw [← hb]; exact hz
    | destroy _ _ _ _ _ _ h => simp at h
  have hmem : s2.mem b = none := by
    simp only [exec, hz1] at hd
    injection hd with hd; injection hd with hd
    subst hd
    have : b ∈ owned (.zip n args) := by
      simp only [owned, List.mem_filterMap]; exact ⟨_, ha, rfl⟩
    simp [this]
  cases h1 with
  | range h => simp [hz] at h
  | indexRange h => simp [hz] at h
  | zip h hf =>
    rw [hz] at h
    injection h with h; injection h with _ h
    subst h
    clear hz hz1 hb hd h2 h3
    unfold Reads at hv
    induction hf generalizing vals with
    | nil => simp at ha
    | cons h _ ih =>
      cases hv with
      | cons hv hvs =>
        rcases List.mem_cons.1 ha with rfl | ha
        · cases h
          cases hv
          simp_all
        · exact ih ha _ hvs

example : demo [.zip 0 [.array [1, 2]], .begin_ 0 0, .deref 0] = .ok [[.elem 1]] ∧
    demo [.zip 0 [.array [1, 2]], .begin_ 0 0, .destroy 0, .deref 0] = .ub ∧
    demo [.zip 0 [.array [1, 2]], .copyZip 1 0, .begin_ 0 1, .destroy 0, .deref 0, .each 1] = .ok [[.elem 1], [.elem 1], [.elem 2]] := by decide

private theorem makeArgs_kinds {α : Type} {as : List (ZSrc α)} {s s' : State α} {args : List ZArg} {ns : List Nat} (h : makeArgs s as = .ok (s', args, ns)) :
    (∀ o, .lvalue o ∈ as → .ref o ∈ args ∧ s.objs o ≠ none) ∧ ∀ l, .array l ∈ as → ∃ b, .array b ∈ args := by
  induction as generalizing s args ns with
  | nil => simp
  | cons a as ih =>
    simp only [makeArgs] at h
    obtain ⟨⟨t, za, n⟩, h1, h⟩ := bind_ok h
    obtain ⟨⟨t', zas, ns'⟩, h2, h⟩ := bind_ok h
    have hobj : t.objs = s.objs := (makeArgs_spec (as := [a]) (s := s) (s' := t) (args := [za]) (ns := n.toList ++ []) (by
      simp [makeArgs, h1, Outcome.bind])).1
    simp only [Outcome.ok.injEq, Prod.mk.injEq] at h
    obtain ⟨h5, h6, h7⟩ := h
    dsimp only at h2 h5 h6
    subst h5
    obtain ⟨i1, i2⟩ := ih h2
    subst h6
    constructor
    · intro o ho
      rcases List.mem_cons.1 ho with rfl | ho
      · simp only [makeArg] at h1
        split at h1
        · rename_i hb
          split at h1
          · simp only [Outcome.ok.injEq, Prod.mk.injEq] at h1
            simp [← h1.2.1, hb]
          · simp at h1
        · rename_i hb
          split at h1
          · simp only [Outcome.ok.injEq, Prod.mk.injEq] at h1
            simp [← h1.2.1, hb]
          · simp at h1
        · rename_i hb
          simp only [Outcome.ok.injEq, Prod.mk.injEq] at h1
          simp [← h1.2.1, hb]
        · simp at h1
      · obtain ⟨j1, j2⟩ := i1 o ho
        exact ⟨List.mem_cons_of_mem _ j1, hobj ▸ j2⟩
    · intro l hl
      rcases List.mem_cons.1 hl with rfl | hl
      · simp only [makeArg, Outcome.ok.injEq, Prod.mk.injEq] at h1
        exact ⟨s.next, by simp [← h1.2.1]⟩
      · obtain ⟨b, hb⟩ := i2 l hl
        exact ⟨b, List.mem_cons_of_mem _ hb⟩

private theorem zip_made {α : Type} {s1 s2 s3 : State α} {z : Nat} {cs0 cs : List (Cmd α)} {args : List (ZSrc α)} {outs0 out outs : List (List (Val α))}
    (h0 : run start cs0 = .ok (s1, outs0)) (hz : exec s1 (.zip z args) = .ok (s2, out)) (hr : run s2 cs = .ok (s3, outs)) (hd : .destroy z ∉ cs) :
    Inv s3 ∧ s1.objs z = none ∧ ∃ n zas, s3.objs z = some (.zip n zas) ∧ (∀ o, .lvalue o ∈ args → .ref o ∈ zas ∧ s1.objs o ≠ none) ∧
      ∀ l, .array l ∈ args → ∃ b, .array b ∈ zas := by
  have hi := run_inv h0 inv_start
  have hi2 := step_inv (exec_step hz) hi
  simp only [exec] at hz
  obtain ⟨⟨t, zas, ns⟩, hm, hz⟩ := bind_ok hz
  obtain ⟨n, hn, hz⟩ := bind_ok hz
  obtain ⟨t', h1, hz⟩ := bind_ok hz
  injection hz with hz; injection hz with hz; subst hz
  obtain ⟨c1, c2, c3, c4⟩ := create_ok h1
  dsimp only at c1 c2
  have ho : t'.objs z = some (.zip n zas) := by rw [c2]; simp [upd]
  obtain ⟨k1, _⟩ := run_keeps hr hi2 ho (by simp) hd
  have hobj := (makeArgs_spec hm).1
  obtain ⟨m1, m2⟩ := makeArgs_kinds hm
  exact ⟨run_inv hr hi2, by rw [← hobj]; exact c1, n, zas, k1, m1, m2⟩

/-- So in a program: if any argument which was passed as an lvalue - a vector, a list, or only a span - has been destroyed since, a zip range which has not been
destroyed cannot be used any more, whether or not the elements still exist. -/
theorem C134_argument_gone {α : Type} {s1 s2 s3 : State α} {z o it : Nat} {cs0 cs : List (Cmd α)} {args : List (ZSrc α)}
    {outs0 out outs : List (List (Val α))} (h0 : run start cs0 = .ok (s1, outs0)) (hz : exec s1 (.zip z args) = .ok (s2, out))
    (ha : .lvalue o ∈ args) (hr : run s2 cs = .ok (s3, outs)) (hd : .destroy z ∉ cs) (hg : .destroy o ∈ cs) :
    exec s3 (.begin_ it z) = .ub ∧ exec s3 (.end_ it z) = .ub ∧ exec s3 (.each z) = .ub := by
  obtain ⟨-, -, n, zas, hzo, hk, -⟩ := zip_made h0 hz hr hd
  have hod := run_destroyed hr (.inr hg)
  have hl : leavesOf s3 zas = .ub := by
    rcases leavesOf_or s3 zas with ⟨ls, h⟩ | h
    · exfalso
      obtain ⟨cs', h1, -⟩ := leavesOf_at h
      have hm := (hk o ha).1
      clear h hzo hk
      induction h1 with
      | nil => simp at hm
      | cons h _ ih =>
        rcases List.mem_cons.1 hm with rfl | hm
        · cases h <;> simp_all
        · exact ih hm
    · exact h
  simp [exec, beginOf, endOf, hzo, hl, Outcome.bind]

/-- The span is gone, the vector is not. -/
example : ∃ s1 s2 s3 : State Nat, (∃ outs0, run start [.vector 0 [1, 2], .span 1 0 0 2] = .ok (s1, outs0)) ∧
    (∃ out, exec s1 (.zip 2 [.lvalue 1]) = .ok (s2, out)) ∧ ∃ outs, run s2 [.each 2, .destroy 1] = .ok (s3, outs) := by
  refine ⟨_, _, _, ⟨_, rfl⟩, ⟨_, rfl⟩, ⟨_, rfl⟩⟩

private theorem row_ub {α : Type} {s : State α} {args : List ZArg} {k : Int} {cells : List Cell} (h : List.Forall₂ (ArgCell s k) args cells)
    {mem : Nat → Option (List α)} {a : ZArg} (ha : a ∈ args) (hc : ∀ c, ArgCell s k a c → ¬ ∃ v, CellIs mem c v) : ¬ ∃ vals, Reads mem cells vals := by
  rintro ⟨vals, hv⟩
  unfold Reads at hv
  induction h generalizing vals with
  | nil => simp at ha
  | cons h _ ih =>
    cases hv with
    | cons hv hvs =>
      rcases List.mem_cons.1 ha with rfl | ha
      · exact hc _ h ⟨_, hv⟩
      · exact ih ha _ hvs

/-- An iterator of a zip range cannot be dereferenced any more once the elements of an argument are gone: because the vector or list was destroyed, or the
vector was reallocated, or - if an array was passed as a constant rvalue - the zip range itself was destroyed. -/
theorem C134_dangling {α : Type} {s1 s2 s3 s4 s5 : State α} {z it : Nat} {cs0 cs cs' : List (Cmd α)} {args : List (ZSrc α)}
    {outs0 out outs out' outs' : List (List (Val α))} (h0 : run start cs0 = .ok (s1, outs0)) (hz : exec s1 (.zip z args) = .ok (s2, out))
    (hr : run s2 cs = .ok (s3, outs)) (hd : .destroy z ∉ cs) (hb : exec s3 (.begin_ it z) = .ok (s4, out')) (hr' : run s4 cs' = .ok (s5, outs'))
    (hs : ∀ c ∈ cs', ¬ Sets it c)
    (hg : (∃ o, .lvalue o ∈ args ∧ (∃ b, s3.objs o = some (.vector b) ∨ s3.objs o = some (.list b)) ∧ (.destroy o ∈ cs' ∨ .realloc o ∈ cs')) ∨
      ∃ l, .array l ∈ args ∧ .destroy z ∈ cs') : exec s5 (.deref it) = .ub := by
  obtain ⟨hi, hzn, n, zas, hzo, hk, hk2⟩ := zip_made h0 hz hr hd
  obtain ⟨cells, h1, h2, h3⟩ := C134_iterator hb hr' hs
  have hi4 : Inv s4 := step_inv (exec_step hb) hi
  have hobj : s4.objs = s3.objs := by
    simp only [exec] at hb
    obtain ⟨i, _, hb⟩ := bind_ok hb
    simp only [Outcome.ok.injEq, Prod.mk.injEq] at hb
    rw [← hb.1]
  refine h3 ?_
  cases h1 with
  | range h => simp [hzo] at h
  | indexRange h => simp [hzo] at h
  | zip h hf =>
    rw [hzo] at h
    injection h with h; injection h with _ h
    subst h
    rcases hg with ⟨o, ho, ⟨b, hv⟩, hc⟩ | ⟨l, hl, hc⟩
    · refine row_ub hf (hk o ho).1 ?_
      have hdead : Dead b s5 := by
        rcases hv with hv | hv
        · exact run_owner hr' hi4 (hobj ▸ hv) (by simp [owned]) hc
        · exact run_owner hr' hi4 (hobj ▸ hv) (by simp [owned]) hc
      rintro c hc ⟨v, hv'⟩
      have := hdead.gone
      cases hc with
      | vector h => rcases hv with hv | hv <;> rw [hv] at h <;> simp at h; subst h; cases hv'; simp_all
      | list h => rcases hv with hv | hv <;> rw [hv] at h <;> simp at h; subst h; cases hv'; simp_all
      | span h => rcases hv with hv | hv <;> rw [hv] at h <;> simp at h
    · obtain ⟨b, hb'⟩ := hk2 l hl
      refine row_ub hf hb' ?_
      have hdead : Dead b s5 := run_owner hr' hi4 (o := z) (x := .zip n zas) (hobj ▸ hzo) (by
        simp only [owned, List.mem_filterMap]; exact ⟨_, hb', rfl⟩) (.inl hc)
      rintro c hc ⟨v, hv'⟩
      have := hdead.gone
      cases hc
      cases hv'
      simp_all

example : demo [.vector 0 [1, 2], .zip 1 [.lvalue 0], .each 1, .begin_ 0 1, .deref 0, .realloc 0, .vector 2 [3, 4], .deref 0] = .ub ∧
    demo [.vector 0 [1, 2], .zip 1 [.lvalue 0], .each 1, .realloc 0, .vector 2 [3, 4], .begin_ 0 1, .deref 0] =
      .ok [[.elem 1], [.elem 2], [.elem 1]] ∧
    demo [.list 0 [1, 2], .zip 1 [.lvalue 0, .array [7, 8]], .begin_ 0 1, .advance 0 1, .destroy 0, .zip 2 [.array [7, 8]], .deref 0] = .ub ∧
    demo [.list 0 [1, 2], .zip 1 [.lvalue 0, .array [7, 8]], .begin_ 0 1, .advance 0 1, .destroy 1, .zip 2 [.array [7, 8]], .deref 0] = .ub := by decide

/-- Making a view of a vector: a span is checked, so that one which does not fit is rejected; a pair of iterators is not, so that one which does not
fit is undefined.  The view refers to the elements of the vector from the given position on. -/
theorem C134_views {α : Type} {s : State α} {o v b : Nat} {l : List α} (ho : s.objs o = none) (hv : s.objs v = some (.vector b))
    (hl : s.mem b = some l) (i j : Nat) :
    (i + j ≤ l.length → ∃ s', exec s (.span o v i j) = .ok (s', []) ∧ s'.mem = s.mem ∧ s'.objs o = some (.span ⟨b, i⟩ j)) ∧
    (l.length < i + j → exec s (.span o v i j) = .failFast) ∧
    (i ≤ l.length → j ≤ l.length →
      ∃ s', exec s (.range o v i j) = .ok (s', []) ∧ s'.mem = s.mem ∧ s'.objs o = some (.range ⟨b, i⟩ ⟨b, j⟩)) ∧
    (l.length < i ∨ l.length < j → exec s (.range o v i j) = .ub) := by
  refine ⟨fun h => ?_, fun h => ?_, fun h1 h2 => ?_, fun h => ?_⟩
  · exact ⟨{ s with objs := upd s.objs o (some (.span ⟨b, i⟩ j)) }, by simp [exec, hv, hl, Outcome.expects, h, create, ho, Outcome.bind], rfl,
      by simp [upd]⟩
  · have : ¬ i + j ≤ l.length := by omega
    simp [exec, hv, hl, Outcome.expects, this, Outcome.bind]
  · have e1 : (0 : Int) ≤ 0 + (i : Int) ∧ 0 + (i : Int) ≤ (l.length : Int) := by omega
    have e2 : (0 : Int) ≤ 0 + (j : Int) ∧ 0 + (j : Int) ≤ (l.length : Int) := by omega
    exact ⟨{ s with objs := upd s.objs o (some (.range ⟨b, i⟩ ⟨b, j⟩)) },
      by simp only [exec, hv, hl, move, e1, e2, and_self, if_true, create, ho, Outcome.bind]; simp, rfl, by simp [upd]⟩
  · by_cases h1 : l.length < i
    · have e1 : ¬ ((0 : Int) ≤ 0 + (i : Int) ∧ 0 + (i : Int) ≤ (l.length : Int)) := by omega
      simp only [exec, hv, hl, move, e1, if_false, Outcome.bind]
    · have e1 : (0 : Int) ≤ 0 + (i : Int) ∧ 0 + (i : Int) ≤ (l.length : Int) := by omega
      have e2 : ¬ ((0 : Int) ≤ 0 + (j : Int) ∧ 0 + (j : Int) ≤ (l.length : Int)) := by omega
      simp only [exec, hv, hl, move, e1, e2, and_self, if_true, if_false, Outcome.bind]

example : demo [.vector 0 [1, 2, 3], .range 1 0 1 3, .each 1] = .ok [[.elem 2], [.elem 3]] ∧
    demo [.vector 0 [1, 2, 3], .range 1 0 0 0, .each 1] = .ok [] ∧ demo [.vector 0 [1, 2, 3], .range 1 0 0 4] = .ub ∧
    demo [.vector 0 [1, 2, 3], .span 1 0 2 2] = .failFast ∧ demo [.vector 0 [1, 2, 3], .span 1 0 3 0, .zip 2 [.lvalue 1], .each 2] = .ok [] := by
  decide

private theorem or_ub {β : Type} {x : Outcome β} (h : (∃ v, x = .ok v) ∨ x = .ub) {γ : Type} {f : β → Outcome γ}
    (hf : ∀ v, (∃ w, f v = .ok w) ∨ f v = .ub) : (∃ w, x.bind f = .ok w) ∨ x.bind f = .ub := by
  rcases h with ⟨v, rfl⟩ | rfl
  · exact hf v
  · exact .inr rfl

/-- Only making a span, an index range or a zip range is checked: every other statement is executed or undefined. -/
theorem C134_checks {α : Type} (s : State α) (c : Cmd α)
    (hc : (∀ o v i j, c ≠ .span o v i j) ∧ (∀ o i j, c ≠ .indexRange o i j) ∧ ∀ o args, c ≠ .zip o args) :
    (∃ r, exec s c = .ok r) ∨ exec s c = .ub := by
  have hcr : ∀ (t : State α) (o : Nat) (x : Obj), (∃ r, create t o x = .ok r) ∨ create t o x = .ub := by
    intro t o x
    simp only [create]
    split
    · exact .inl ⟨_, rfl⟩
    · exact .inr rfl
  have hmv : ∀ (mem : Nat → Option (List α)) (a : Addr) (d : Int), (∃ r, move mem a d = .ok r) ∨ move mem a d = .ub := by
    intro mem a d
    simp only [move]
    split
    · exact .inr rfl
    · split
      · exact .inl ⟨_, rfl⟩
      · exact .inr rfl
  have hb : ∀ o, (∃ r, beginOf s o = .ok r) ∨ beginOf s o = .ub := by
    intro o
    simp only [beginOf]
    split
    · exact .inl ⟨_, rfl⟩
    · exact .inl ⟨_, rfl⟩
    · exact or_ub (leavesOf_or s _) fun _ => .inl ⟨_, rfl⟩
    · exact .inr rfl
  have he : ∀ o, (∃ r, endOf s o = .ok r) ∨ endOf s o = .ub := by
    intro o
    simp only [endOf]
    split
    · exact .inl ⟨_, rfl⟩
    · exact .inl ⟨_, rfl⟩
    · exact or_ub (leavesOf_or s _) fun _ => .inl ⟨_, rfl⟩
    · exact .inr rfl
  have had : ∀ (d : Int) (ls : List Leaf), (∃ r, advanceLeaves s.mem d ls = .ok r) ∨ advanceLeaves s.mem d ls = .ub := by
    intro d ls
    induction ls with
    | nil => exact .inl ⟨_, rfl⟩
    | cons l ls ih =>
      simp only [advanceLeaves]
      refine or_ub ?_ fun _ => or_ub ih fun _ => .inl ⟨_, rfl⟩
      cases l with
      | data a => exact .inl ⟨_, rfl⟩
      | pos a => exact or_ub (hmv _ _ _) fun _ => .inl ⟨_, rfl⟩
      | index => exact .inl ⟨_, rfl⟩
  have hcp : ∀ (as : List ZArg) (t : State α), (∃ r, copyArgs t as = .ok r) ∨ copyArgs t as = .ub := by
    intro as
    induction as with
    | nil => exact fun t => .inl ⟨_, rfl⟩
    | cons a as ih =>
      intro t
      cases a with
      | array b =>
        simp only [copyArgs]
        split
        · exact or_ub (ih _) fun _ => .inl ⟨_, rfl⟩
        · exact .inr rfl
      | ref o => exact or_ub (ih _) fun _ => .inl ⟨_, rfl⟩
      | index => exact or_ub (ih _) fun _ => .inl ⟨_, rfl⟩
      | span a n => exact or_ub (ih _) fun _ => .inl ⟨_, rfl⟩
  cases c with
  | vector o elems => exact or_ub (hcr _ _ _) fun _ => .inl ⟨_, rfl⟩
  | list o elems => exact or_ub (hcr _ _ _) fun _ => .inl ⟨_, rfl⟩
  | set o i x =>
    simp only [exec]
    split
    · split
      · split
        · exact .inl ⟨_, rfl⟩
        · exact .inr rfl
      · exact .inr rfl
    · split
      · split
        · exact .inl ⟨_, rfl⟩
        · exact .inr rfl
      · exact .inr rfl
    · exact .inr rfl
  | assign o elems =>
    simp only [exec]
    split
    · exact .inl ⟨_, rfl⟩
    · exact .inr rfl
  | realloc o =>
    simp only [exec]
    split
    · exact .inl ⟨_, rfl⟩
    · exact .inr rfl
  | span o v i j => exact absurd rfl (hc.1 o v i j)
  | range o v i j =>
    simp only [exec]
    split
    · exact or_ub (hmv _ _ _) fun _ => or_ub (hmv _ _ _) fun _ => or_ub (hcr _ _ _) fun _ => .inl ⟨_, rfl⟩
    · exact .inr rfl
  | indexRange o i j => exact absurd rfl (hc.2.1 o i j)
  | zip o args => exact absurd rfl (hc.2.2 o args)
  | copyZip o z =>
    simp only [exec]
    split
    · exact or_ub (hcp _ _) fun _ => or_ub (hcr _ _ _) fun _ => .inl ⟨_, rfl⟩
    · exact .inr rfl
  | destroy o =>
    simp only [exec]
    split
    · exact .inr rfl
    · exact .inr rfl
    · exact .inl ⟨_, rfl⟩
  | begin_ it o => exact or_ub (hb o) fun _ => .inl ⟨_, rfl⟩
  | end_ it o => exact or_ub (he o) fun _ => .inl ⟨_, rfl⟩
  | bind it o =>
    refine or_ub ?_ fun _ => .inl ⟨_, rfl⟩
    simp only [bindOf]
    split
    · exact .inl ⟨_, rfl⟩
    · exact hb o
  | copy it it' =>
    simp only [exec]
    split
    · exact or_ub (hb _) fun _ => .inl ⟨_, rfl⟩
    · exact .inl ⟨_, rfl⟩
    · exact .inr rfl
  | advance it d =>
    simp only [exec]
    split
    · rename_i i hi
      refine or_ub ?_ fun _ => .inl ⟨_, rfl⟩
      cases i with
      | ptr a => exact or_ub (hmv _ _ _) fun _ => .inl ⟨_, rfl⟩
      | idx i => exact .inl ⟨_, rfl⟩
      | zip i ls => exact or_ub (had _ _) fun _ => .inl ⟨_, rfl⟩
      | bound o => exact .inr rfl
    · exact .inr rfl
  | deref it =>
    simp only [exec]
    split
    · exact or_ub (deref_or s _) fun _ => .inl ⟨_, rfl⟩
    · exact .inr rfl
  | each o => exact or_ub (hb o) fun _ => or_ub (he o) fun _ => or_ub (loop_or s _ _ _) fun _ => .inl ⟨_, rfl⟩

/-- Using an iterator variable which has no value yet is undefined. -/
theorem C134_unset {α : Type} (s : State α) (it it' : Nat) (d : Int) (h : s.its it = none) :
    exec s (.deref it) = .ub ∧ exec s (.advance it d) = .ub ∧ exec s (.copy it' it) = .ub := by
  simp [exec, h]

example : (start : State Int).its 3 = none ∧ demo [.deref 0] = .ub := by decide

private theorem makeArgs_append {α : Type} {pre : List (ZSrc α)} {s : State α} {r : State α × List ZArg × List Nat} (h : makeArgs s pre = .ok r)
    (as : List (ZSrc α)) :
    makeArgs s (pre ++ as) = (makeArgs r.1 as).bind fun q => .ok (q.1, r.2.1 ++ q.2.1, r.2.2 ++ q.2.2) := by
  induction pre generalizing s r with
  | nil =>
    simp only [makeArgs] at h
    injection h with h; subst h
    simp only [List.nil_append]
    cases makeArgs s as <;> rfl
  | cons a pre ih =>
    simp only [makeArgs] at h
    obtain ⟨r1, h1, h⟩ := bind_ok h
    obtain ⟨r2, h2, h⟩ := bind_ok h
    injection h with h; subst h
    simp only [List.cons_append, makeArgs, h1, Outcome.bind, ih h2]
    cases makeArgs r2.1 as <;> simp [Outcome.bind]

/-- The arguments of a zip range are evaluated from left to right.  If those before an argument are fine (they can be zipped without the others), then an object
which has never been made or has been destroyed makes the statement undefined, and a span which does not fit into its vector is rejected. -/
theorem C134_zip_argument {α : Type} {s s1 : State α} {z o b off len : Nat} {l : List α} {cs0 : List (Cmd α)} {pre post : List (ZSrc α)}
    {outs0 out : List (List (Val α))} (h0 : run start cs0 = .ok (s, outs0)) (hp : pre = [] ∨ exec s (.zip z pre) = .ok (s1, out)) :
    (s.objs o = none ∨ s.objs o = some .destroyed →
      exec s (.zip z (pre ++ .lvalue o :: post)) = .ub ∧ exec s (.zip z (pre ++ .span o off len :: post)) = .ub) ∧
    (s.objs o = some (.vector b) → s.mem b = some l → l.length < off + len → exec s (.zip z (pre ++ .span o off len :: post)) = .failFast) := by
  have hi := run_inv h0 inv_start
  obtain ⟨r, hr⟩ : ∃ r, makeArgs s pre = .ok r := by
    rcases hp with rfl | hp
    · exact ⟨_, rfl⟩
    · simp only [exec] at hp
      obtain ⟨r, hr, -⟩ := bind_ok hp
      exact ⟨r, hr⟩
  obtain ⟨t, zas, ns⟩ := r
  obtain ⟨e1, -, e3, -, -⟩ := makeArgs_spec hr
  refine ⟨fun h => ?_, fun hv hm hlt => ?_⟩
  · constructor
    · have : makeArg t (.lvalue o) = .ub := by simp only [makeArg, e1]; rcases h with h | h <;> rw [h]
      simp only [exec, makeArgs_append hr, makeArgs, this, Outcome.bind]
    · have : makeArg t (.span o off len) = .ub := by simp only [makeArg, e1]; rcases h with h | h <;> rw [h]
      simp only [exec, makeArgs_append hr, makeArgs, this, Outcome.bind]
  · have hb := hi.live _ _ hv b (List.mem_singleton.2 rfl)
    have hm' : t.mem b = some l := by rw [e3 b (by omega), hm]
    have hno : ¬ off + len ≤ l.length := by omega
    have : makeArg t (.span o off len) = .failFast := by simp [makeArg, e1, hv, hm', Outcome.expects, hno, Outcome.bind]
    simp only [exec, makeArgs_append hr, makeArgs, this, Outcome.bind]

example : demo [.vector 0 [1, 2], .vector 1 [3, 4], .destroy 1, .zip 2 [.lvalue 0, .lvalue 1]] = .ub ∧
    demo [.vector 0 [1, 2], .zip 2 [.lvalue 0, .lvalue 1]] = .ub ∧ demo [.vector 0 [1, 2], .zip 2 [.lvalue 0, .span 0 1 2]] = .failFast := by decide

end Makeshift.Props
