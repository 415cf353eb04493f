import Verif.Spec.TupleMove
import Verif.Spec.TupleAlgo

/-! Helper lemmas for C85. -/

namespace Makeshift.TupleMove

open Makeshift.TupleAccess Makeshift.Spec.TupleMove

variable {V S : Type}

theorem view_eq_seen (m : Mem V) : view m = seen m := by funext x; cases x <;> rfl

theorem elemRef_eq (k : Kind) (a : Access) (e : Elem) :
    elemRef k a e = ⟨e.loc, PassedAsConst k a e.ty, PassedAsRvalue k a e.ty⟩ := by
  obtain ⟨c, r⟩ := a
  obtain ⟨t, l⟩ := e
  cases k <;> cases c <;> cases r <;> cases t <;>
    simp [elemRef, refOfType, getOf, stdGet, TupleAccess.get, leafGet, leafGetConst, Ty.addLRef, addRRef, Ty.addConst, Ty.referred,
      PassedAsConst, PassedAsRvalue]

theorem receivesAt_refs {i : Nat} {a : TupArg} {v : TVal Ref} (h : ReceivesAt i a v) : Spec.ReceivesAt i a.refs v := by
  cases h with
  | tuple he =>
    rw [← elemRef_eq]
    exact .tuple (by simp [he])
  | rangeIndex => exact .rangeIndex
  | tupleIndex => exact .tupleIndex

theorem callArgs_refs {args : List TupArg} {calls : List (List (TVal Ref))} (h : CallArgs args calls) :
    Spec.CallArgs (args.map TupArg.refs) calls := by
  intro i vs hi
  have := h i vs hi
  clear hi h
  induction this with
  | nil => exact .nil
  | cons h1 _ ih => exact .cons (receivesAt_refs h1) ih

theorem allSize_refs {n : Nat} {args : List TupArg} (h : AllSize n args) : Spec.AllSize n (args.map TupArg.refs) := by
  intro l hl
  obtain ⟨a, ha, hal⟩ := List.mem_map.1 hl
  cases a with
  | tuple k a es =>
    simp only [TupArg.refs, TArg.tuple.injEq] at hal
    rw [← hal, List.length_map]
    exact h k a es ha
  | rangeIndex => cases hal
  | tupleIndex => cases hal

theorem hasTuple_refs {args : List TupArg} (h : HasTuple args) : Spec.HasTuple (args.map TupArg.refs) := by
  obtain ⟨k, a, es, h⟩ := h
  exact ⟨_, List.mem_map.2 ⟨_, h, rfl⟩⟩

/-- Objects without a non-const reference are not changed by the functor. -/
theorem writeBack_kept (c : List (TVal Ref)) (news : Nat → Option V) (k : Nat) (m : Mem V) (l : Nat)
    (h : ∀ (j : Nat) r, c[j]? = some (.elem r) → r.loc = l → r.const = true ∨ news (k + j) = none) : writeBack c news k m l = m l := by
  induction c generalizing k m with
  | nil => rfl
  | cons x xs ih =>
    have hx : ∀ (j : Nat) r, xs[j]? = some (.elem r) → r.loc = l → r.const = true ∨ news (k + 1 + j) = none := by
      intro j r hj hl
      have := h (j + 1) r (by simpa using hj) hl
      rwa [show k + (j + 1) = k + 1 + j by omega] at this
    cases x with
    | index i => exact ih _ _ hx
    | indexConstant i => exact ih _ _ hx
    | elem r =>
      simp only [writeBack]
      rw [ih _ _ hx]
      have h0 := h 0 r rfl
      cases hc : r.const with
      | true => rfl
      | false =>
        cases hn : news k with
        | none => rfl
        | some v =>
          by_cases hl : l = r.loc
          · rcases h0 hl.symm with h0 | h0
            · rw [hc] at h0; cases h0
            · rw [Nat.add_zero, hn] at h0; cases h0
          · simp [hl]

/-- An object referred to once gets what the functor leaves. -/
theorem writeBack_written (c : List (TVal Ref)) (news : Nat → Option V) (k : Nat) (m : Mem V) (j : Nat) (r : Ref) (v : V)
    (hs : Separate c) (hj : c[j]? = some (.elem r)) (hc : r.const = false) (hn : news (k + j) = some v) :
    writeBack c news k m r.loc = v := by
  induction c generalizing k m j with
  | nil => simp at hj
  | cons x xs ih =>
    have hs' := List.pairwise_cons.1 hs
    cases j with
    | zero =>
      simp only [List.getElem?_cons_zero, Option.some.injEq] at hj
      subst hj
      simp only [writeBack]
      rw [writeBack_kept]
      · rw [Nat.add_zero] at hn
        simp [hc, hn]
      · intro i r' hi hl
        have := hs'.1 (.elem r') (List.mem_of_getElem? hi) r r' rfl rfl hl.symm
        rw [hc] at this
        exact absurd this.1 (by simp)
    | succ j =>
      have hj' : xs[j]? = some (.elem r) := by simpa using hj
      have hn' : news (k + 1 + j) = some v := by rwa [show k + 1 + j = k + (j + 1) by omega]
      cases x <;> exact ih _ _ j hs'.2 hj' hn'

/-- The memory after the functor's writes, in terms of the specification. -/
theorem writeBack_leaves (c : List (TVal Ref)) (news : Nat → Option V) (m0 m : Mem V) (l : Nat) (hs : Separate c) (hm : m l = m0 l) :
    Leaves m0 c news l (writeBack c news 0 m l) := by
  by_cases h : ∃ (j : Nat) (r : Ref) (v : V), c[j]? = some (.elem r) ∧ r.loc = l ∧ r.const = false ∧ news j = some v
  · obtain ⟨j, r, v, h1, h2, h3, h4⟩ := h
    have := writeBack_written c news 0 m j r v hs h1 h3 (by simpa using h4)
    rw [h2] at this
    rw [this]
    exact .written h1 h2 h3 h4
  · have hk : ∀ (j : Nat) r, c[j]? = some (.elem r) → r.loc = l → r.const = true ∨ news j = none := by
      intro j r hj hl
      by_contra hn
      rw [not_or] at hn
      obtain ⟨v, hv⟩ := Option.ne_none_iff_exists'.1 hn.2
      exact h ⟨j, r, v, hj, hl, by simpa using hn.1, hv⟩
    rw [writeBack_kept c news 0 m l (by simpa using hk), hm]
    exact .kept hk

/-- One call: the functor sees `m0`, the result and the memory are as specified. -/
theorem call_spec (moved : V → V) (f : Fn V S) (c : List (TVal Ref)) (m0 m : Mem V) (s : S) (hs : Separate c)
    (hm : ∀ r, .elem r ∈ c → m r.loc = m0 r.loc) (hf : ReturnsOwn f (c.map (seen m0))) :
    let o := f (c.map (seen m0)) s
    let r := call moved f c (m, s)
    r.2.2 = o.2.2 ∧ Makes m0 c (o.1, o.2.1) r.1 ∧ (∀ x, .elem x ∈ c → Ends moved m0 c (o.1, o.2.1) x.loc (r.2.1 x.loc)) ∧
    (∀ l, (∀ x, .elem x ∈ c → x.loc = l → x.const = true) → r.2.1 l = m l) := by
  intro o r
  have hv : c.map (view m) = c.map (seen m0) := by
    rw [view_eq_seen]
    apply List.map_congr_left
    intro x hx
    cases x with
    | elem r => simp [seen, hm r hx]
    | index i => rfl
    | indexConstant i => rfl
  have hr : r = ((take moved (writeBack c o.2.1 0 m) o.1).1, (take moved (writeBack c o.2.1 0 m) o.1).2, o.2.2) := by
    simp only [r, call, hv]
    rfl
  have hkept : ∀ l, (∀ x, .elem x ∈ c → x.loc = l → x.const = true) → writeBack c o.2.1 0 m l = m l := by
    intro l hl
    apply writeBack_kept
    intro j x hj hx
    exact .inl (hl x (List.mem_of_getElem? hj) hx)
  rw [hr]
  refine ⟨rfl, ?_, ?_, ?_⟩
  · unfold Makes
    cases ho : o.1 with
    | val v => rfl
    | ref rf =>
      obtain ⟨r', v', h1, h2, _⟩ := hf s rf ho
      obtain ⟨x, hx, hxe⟩ := List.mem_map.1 h1
      cases x with
      | elem x =>
        simp only [seen, TVal.elem.injEq, Prod.mk.injEq] at hxe
        exact writeBack_leaves c _ m0 m rf.loc hs (by rw [← h2, ← hxe.1]; exact hm x hx)
      | index i => simp [seen] at hxe
      | indexConstant i => simp [seen] at hxe
  · intro x hx
    refine ⟨_, writeBack_leaves c _ m0 m x.loc hs (hm x hx), ?_⟩
    cases ho : o.1 with
    | val v => rfl
    | ref rf =>
      simp only [take]
      by_cases h1 : rf.rvalue = true ∧ rf.const = false
      · simp only [h1.1, h1.2, Bool.not_false, Bool.and_self, if_true, Mem.moveFrom, and_self, and_true]
        by_cases hl : x.loc = rf.loc
        · simp [hl]
        · simp [hl, Ne.symm hl]
      · rw [if_neg (by simpa using h1), if_neg (by intro h; exact h1 h.2)]
  · intro l hl
    cases ho : o.1 with
    | val v => exact hkept l hl
    | ref rf =>
      simp only [take]
      split
      · rename_i h1
        simp only [Bool.and_eq_true, Bool.not_eq_true'] at h1
        obtain ⟨r', v', h2, h3, h4⟩ := hf s rf ho
        obtain ⟨x, hx, hxe⟩ := List.mem_map.1 h2
        have hne : l ≠ rf.loc := by
          intro he
          cases x with
          | elem x =>
            simp only [seen, TVal.elem.injEq, Prod.mk.injEq] at hxe
            have := h4 (by rw [← hxe.1]; exact hl x hx (by rw [hxe.1, h3, he]))
            rw [h1.2] at this
            cases this
          | index i => simp [seen] at hxe
          | indexConstant i => simp [seen] at hxe
        simp only [Mem.moveFrom, hne, if_false]
        exact hkept l hl
      · exact hkept l hl

theorem separate_append {as bs : List (TVal Ref)} (h : Separate (as ++ bs)) :
    Separate as ∧ Separate bs ∧ ∀ r r', .elem r ∈ as → .elem r' ∈ bs → r.loc = r'.loc → r.const = true ∧ r'.const = true := by
  have := List.pairwise_append.1 h
  exact ⟨this.1, this.2.1, fun r r' hr hr' hl => this.2.2 _ hr _ hr' r r' rfl rfl hl⟩

/-- The calls one after the other, from a memory which agrees with `m0` on all objects referred to. -/
theorem calls_spec (moved : V → V) (f : Fn V S) (calls : List (List (TVal Ref))) (m0 m : Mem V) (s : S) (hs : Separate calls.flatten)
    (hm : ∀ c ∈ calls, ∀ r, .elem r ∈ c → m r.loc = m0 r.loc) (hf : ∀ c ∈ calls, ReturnsOwn f (c.map (seen m0))) :
    ∃ vs m', Spec.mapCalls (call moved f) calls (m, s) = (vs, m', (onOriginals f m0 calls s).2) ∧
      (onOriginals f m0 calls s).1.length = calls.length ∧ vs.length = calls.length ∧
      (∀ (k : Nat) c out v, calls[k]? = some c → (onOriginals f m0 calls s).1[k]? = some out → vs[k]? = some v → Makes m0 c out v) ∧
      (∀ (k : Nat) c out, calls[k]? = some c → (onOriginals f m0 calls s).1[k]? = some out → ∀ r, .elem r ∈ c → Ends moved m0 c out r.loc (m' r.loc)) ∧
      (∀ l, (∀ c ∈ calls, ∀ r, .elem r ∈ c → r.loc = l → r.const = true) → m' l = m l) := by
  induction calls generalizing m s with
  | nil => exact ⟨[], m, rfl, rfl, rfl, by simp, by simp, by simp⟩
  | cons c cs ih =>
    obtain ⟨hs1, hs2, hs3⟩ := separate_append (as := c) (bs := cs.flatten) (by simpa using hs)
    obtain ⟨h1, h2, h3, h4⟩ := call_spec moved f c m0 m s hs1 (hm c (by simp)) (hf c (by simp))
    have hm' : ∀ d ∈ cs, ∀ r, .elem r ∈ d → (call moved f c (m, s)).2.1 r.loc = m0 r.loc := by
      intro d hd r hr
      rw [← hm d (by simp [hd]) r hr]
      apply h4
      intro x hx hl
      exact (hs3 x r hx (List.mem_flatten.2 ⟨d, hd, hr⟩) hl).1
    obtain ⟨vs, m', g1, g2, g3, g4, g5, g6⟩ := ih (call moved f c (m, s)).2.1 (call moved f c (m, s)).2.2 hs2 hm' (fun d hd => hf d (by simp [hd]))
    rw [h1] at g1 g2 g4 g5
    refine ⟨(call moved f c (m, s)).1 :: vs, m', ?_, ?_, by simp [g3], ?_, ?_, ?_⟩
    · simp only [Spec.mapCalls, onOriginals]
      have : (call moved f c (m, s)).2 = ((call moved f c (m, s)).2.1, (f (c.map (seen m0)) s).2.2) := by rw [← h1]
      rw [this, g1]
    · simp [onOriginals, g2]
    · intro k d out v hk ho hv
      cases k with
      | zero =>
        simp only [onOriginals, List.getElem?_cons_zero, Option.some.injEq] at hk ho hv
        subst hk ho hv
        exact h2
      | succ k =>
        simp only [onOriginals, List.getElem?_cons_succ] at hk ho hv
        exact g4 k d out v hk ho hv
    · intro k d out hk ho r hr
      cases k with
      | zero =>
        simp only [onOriginals, List.getElem?_cons_zero, Option.some.injEq] at hk ho
        subst hk ho
        have := h3 r hr
        by_cases hw : ∀ d ∈ cs, ∀ r', .elem r' ∈ d → r'.loc = r.loc → r'.const = true
        · rw [g6 r.loc hw]
          exact this
        · exfalso
          apply hw
          intro d hd r' hr' hl
          exact (hs3 r r' hr (List.mem_flatten.2 ⟨d, hd, hr'⟩) hl.symm).2
      | succ k =>
        simp only [onOriginals, List.getElem?_cons_succ] at hk ho
        exact g5 k d out hk ho r hr
    · intro l hl
      rw [g6 l (fun d hd => hl d (by simp [hd])), h4 l (hl c (by simp))]

/-- The combination of elements into a temporary accumulated value. -/
theorem fold_temp (moved : V → V) (f : Fn V S) (g : V → V → S → V × V × S) (calls : List (List (TVal Ref))) (m0 m : Mem V) (a : V) (s : S)
    (hs : Separate calls.flatten) (hm : ∀ c ∈ calls, ∀ r, .elem r ∈ c → m r.loc = m0 r.loc)
    (hf : ∀ c ∈ calls, ReturnsOwn f (c.map (seen m0))) :
    ∃ outs b t m', calls.foldl (fun r vs => reduceCall g r.1 (call moved f vs r.2).1 (call moved f vs r.2).2) (Acc.temp a, (m, s)) =
        (Acc.temp b, (m', t)) ∧ Folds f g m0 calls a s outs b t ∧
      (∀ (k : Nat) c out, calls[k]? = some c → outs[k]? = some out → ∀ r, .elem r ∈ c → Ends moved m0 c out r.loc (m' r.loc)) ∧
      (∀ l, (∀ c ∈ calls, ∀ r, .elem r ∈ c → r.loc = l → r.const = true) → m' l = m l) := by
  induction calls generalizing m a s with
  | nil => exact ⟨[], a, s, m, rfl, .nil, by simp, by simp⟩
  | cons c cs ih =>
    obtain ⟨hs1, hs2, hs3⟩ := separate_append (as := c) (bs := cs.flatten) (by simpa using hs)
    obtain ⟨h1, h2, h3, h4⟩ := call_spec moved f c m0 m s hs1 (hm c (by simp)) (hf c (by simp))
    have hm' : ∀ d ∈ cs, ∀ r, .elem r ∈ d → (call moved f c (m, s)).2.1 r.loc = m0 r.loc := by
      intro d hd r hr
      rw [← hm d (by simp [hd]) r hr]
      apply h4
      intro x hx hl
      exact (hs3 x r hx (List.mem_flatten.2 ⟨d, hd, hr⟩) hl).1
    let y := g a (call moved f c (m, s)).1 (call moved f c (m, s)).2.2
    obtain ⟨outs, b, t, m', g1, g2, g5, g6⟩ := ih (call moved f c (m, s)).2.1 y.1 y.2.2 hs2 hm' (fun d hd => hf d (by simp [hd]))
    refine ⟨_, b, t, m', ?_, .cons h2 (by rw [← h1]; exact g2), ?_, ?_⟩
    · simp only [List.foldl_cons, reduceCall]
      exact g1
    · intro k d out hk ho r hr
      cases k with
      | zero =>
        simp only [List.getElem?_cons_zero, Option.some.injEq] at hk ho
        subst hk ho
        rw [g6 r.loc (fun d hd r' hr' hl => (hs3 r r' hr (List.mem_flatten.2 ⟨d, hd, hr'⟩) hl.symm).2)]
        exact h3 r hr
      | succ k =>
        simp only [List.getElem?_cons_succ] at hk ho
        exact g5 k d out hk ho r hr
    · intro l hl
      rw [g6 l (fun d hd => hl d (by simp [hd])), h4 l (hl c (by simp))]

/-- The first step combines the initial value, passed by reference. -/
theorem fold_ref (moved : V → V) (f : Fn V S) (g : V → V → S → V × V × S) (calls : List (List (TVal Ref))) (m : Mem V) (initial : Ref) (s : S)
    (hs : Separate (.elem initial :: calls.flatten)) (hf : ∀ c ∈ calls, ReturnsOwn f (c.map (seen m))) :
    ∃ outs b t m', (let r := calls.foldl (fun r vs => reduceCall g r.1 (call moved f vs r.2).1 (call moved f vs r.2).2) (Acc.ref initial, (m, s))
        ((finish moved r.2.1 r.1).1, (finish moved r.2.1 r.1).2, r.2.2)) = (b, m', t) ∧
      Folds f g m calls (m initial.loc) s outs b t ∧
      (∀ (k : Nat) c out, calls[k]? = some c → outs[k]? = some out → ∀ r, .elem r ∈ c → Ends moved m c out r.loc (m' r.loc)) ∧
      (∀ l, l ≠ initial.loc → (∀ c ∈ calls, ∀ r, .elem r ∈ c → r.loc = l → r.const = true) → m' l = m l) ∧
      (initial.const = true → m' initial.loc = m initial.loc) ∧
      (initial.rvalue = false → (∀ a x s, (g a x s).2.1 = a) → m' initial.loc = m initial.loc) := by
  have hs' := List.pairwise_cons.1 hs
  cases calls with
  | nil =>
    refine ⟨[], m initial.loc, s, (finish moved m (.ref initial)).2, rfl, .nil, by simp, ?_, ?_, ?_⟩
    · intro l hl _
      simp only [finish, take]
      split
      · simp [Mem.moveFrom, hl]
      · rfl
    · intro h; simp [finish, take, h]
    · intro h _; simp [finish, take, h]
  | cons c cs =>
    obtain ⟨hs1, hs2, hs3⟩ := separate_append (as := c) (bs := cs.flatten) (by simpa [Separate] using hs'.2)
    obtain ⟨h1, h2, h3, h4⟩ := call_spec moved f c m m s hs1 (fun _ _ => rfl) (hf c (by simp))
    have hi : ∀ d ∈ c :: cs, ∀ r, .elem r ∈ d → initial.loc = r.loc → initial.const = true ∧ r.const = true := by
      intro d hd r hr hl
      exact hs'.1 (.elem r) (List.mem_flatten.2 ⟨d, hd, hr⟩) initial r rfl rfl hl
    have hinit : (call moved f c (m, s)).2.1 initial.loc = m initial.loc :=
      h4 _ (fun x hx hl => (hi c (by simp) x hx hl.symm).2)
    let y := g (m initial.loc) (call moved f c (m, s)).1 (call moved f c (m, s)).2.2
    let m2 : Mem V := if initial.const then (call moved f c (m, s)).2.1 else fun l => if l = initial.loc then y.2.1 else (call moved f c (m, s)).2.1 l
    have hm2 : ∀ d ∈ c :: cs, ∀ r, .elem r ∈ d → m2 r.loc = (call moved f c (m, s)).2.1 r.loc := by
      intro d hd r hr
      simp only [m2]
      cases hk : initial.const
      · by_cases hl : r.loc = initial.loc
        · have := (hi d hd r hr hl.symm).1
          rw [hk] at this; cases this
        · simp [hl]
      · simp
    have hm' : ∀ d ∈ cs, ∀ r, .elem r ∈ d → m2 r.loc = m r.loc := by
      intro d hd r hr
      rw [hm2 d (by simp [hd]) r hr]
      apply h4
      intro x hx hl
      exact (hs3 x r hx (List.mem_flatten.2 ⟨d, hd, hr⟩) hl).1
    obtain ⟨outs, b, t, m', g1, g2, g5, g6⟩ := fold_temp moved f g cs m m2 y.1 y.2.2 hs2 hm' (fun d hd => hf d (by simp [hd]))
    have hstep : reduceCall g (Acc.ref initial) (call moved f c (m, s)).1 (call moved f c (m, s)).2 = (Acc.temp y.1, (m2, y.2.2)) := by
      simp only [reduceCall, hinit, y, m2]
    have hends : ∀ l, (∀ d ∈ cs, ∀ r, .elem r ∈ d → r.loc = l → r.const = true) → m' l = m2 l := g6
    have hm2i : m' initial.loc = m2 initial.loc := hends _ (fun d hd r hr hl => (hi d (by simp [hd]) r hr hl.symm).2)
    refine ⟨_, b, t, m', ?_, .cons h2 (by rw [← h1]; exact g2), ?_, ?_, ?_, ?_⟩
    · simp only [List.foldl_cons, hstep, g1, finish]
    · intro k d out hk ho r hr
      cases k with
      | zero =>
        simp only [List.getElem?_cons_zero, Option.some.injEq] at hk ho
        subst hk ho
        rw [hends r.loc (fun d hd r' hr' hl => (hs3 r r' hr (List.mem_flatten.2 ⟨d, hd, hr'⟩) hl.symm).2), hm2 c (by simp) r hr]
        exact h3 r hr
      | succ k =>
        simp only [List.getElem?_cons_succ] at hk ho
        exact g5 k d out hk ho r hr
    · intro l hl hw
      rw [hends l (fun d hd => hw d (by simp [hd])), ← h4 l (hw c (by simp))]
      simp only [m2]
      split <;> simp [hl]
    · intro hk
      rw [hm2i]
      simp only [m2, hk, if_true, hinit]
    · intro _ hg
      rw [hm2i]
      simp only [m2]
      split
      · exact hinit
      · simp [y, hg]

/-- The loop of the quantifiers over the calls. -/
def conj {T : Type} (pred : Bool → Bool) (func : Func Ref Bool T) : List (List (TVal Ref)) → T → Bool × T
  | [], s => (true, s)
  | c :: cs, s => if !pred (func c s).1 then (false, (func c s).2) else conj pred func cs (func c s).2

theorem conjunctionFn_conj {T : Type} (size : Nat) (pred : Bool → Bool) (func : Func Ref Bool T) (args : List (TArg Ref))
    (calls : List (List (TVal Ref))) (k : Nat) (hk : k + calls.length = size) (s : T)
    (h : ∀ (i : Nat) vs, calls[i]? = some vs → getElements (k + i) args = some vs) :
    conjunctionFn size pred func args calls.length s = some (conj pred func calls s) := by
  induction calls generalizing k s with
  | nil => rfl
  | cons c cs ih =>
    have h0 := h 0 c rfl
    simp only [List.length_cons] at hk ⊢
    simp only [conjunctionFn, transformElement, show size - (cs.length + 1) = k + 0 by omega, h0, Option.map_some, Option.bind_some, conj]
    split
    · rfl
    · exact ih (k + 1) (by omega) _ (fun i vs hi => by
        rw [show k + 1 + i = k + (i + 1) by omega]
        exact h (i + 1) vs (by simpa using hi))

/-- The loop makes the calls up to the first one whose result does not satisfy `pred`. -/
theorem conj_take (toBool : V → Bool) (pred : Bool → Bool) (moved : V → V) (f : Fn V S) (calls : List (List (TVal Ref))) (ms : Mem V × S) :
    ∃ k b, k ≤ calls.length ∧ conj pred (callBool toBool moved f) calls ms = (b, (Spec.mapCalls (call moved f) (calls.take k) ms).2) ∧
      (b = true → k = calls.length ∧ ∀ v ∈ (Spec.mapCalls (call moved f) (calls.take k) ms).1, pred (toBool v) = true) ∧
      (b = false → ∃ v, (Spec.mapCalls (call moved f) (calls.take k) ms).1.getLast? = some v ∧ pred (toBool v) = false ∧
        ∀ v ∈ (Spec.mapCalls (call moved f) (calls.take k) ms).1.dropLast, pred (toBool v) = true) := by
  induction calls generalizing ms with
  | nil => exact ⟨0, true, by simp, rfl, by simp [Spec.mapCalls], by simp⟩
  | cons c cs ih =>
    by_cases hp : pred (toBool (call moved f c ms).1) = true
    · obtain ⟨k, b, h1, h2, h3, h4⟩ := ih (call moved f c ms).2
      refine ⟨k + 1, b, by simp [h1], ?_, ?_, ?_⟩
      · simp only [conj, callBool, hp, List.take_succ_cons, Spec.mapCalls]
        simpa [callBool] using h2
      · intro hb
        simp only [List.take_succ_cons, Spec.mapCalls, List.length_cons, List.mem_cons, forall_eq_or_imp]
        exact ⟨by rw [(h3 hb).1], hp, (h3 hb).2⟩
      · intro hb
        obtain ⟨v, g1, g2, g3⟩ := h4 hb
        simp only [List.take_succ_cons, Spec.mapCalls]
        have hne : (Spec.mapCalls (call moved f) (cs.take k) (call moved f c ms).2).1 ≠ [] := by
          intro he; rw [he] at g1; simp at g1
        refine ⟨v, ?_, g2, ?_⟩
        · rw [List.getLast?_cons, g1]; rfl
        · rw [List.dropLast_cons_of_ne_nil hne]
          intro w hw
          rcases List.mem_cons.1 hw with rfl | hw
          · exact hp
          · exact g3 w hw
    · refine ⟨1, false, by simp, ?_, by simp, ?_⟩
      · simp [conj, callBool, hp, Spec.mapCalls]
      · intro _
        exact ⟨(call moved f c ms).1, by simp [Spec.mapCalls], by simpa using hp, by simp [Spec.mapCalls]⟩

theorem catElems_eq (tuples : List (Kind × Access × List Elem)) (h : ∀ {α : Type} (ts : List (List α)), tupleCat ts = some ts.flatten) :
    catElems tuples = some ((allElems tuples).map fun x => (x.2.2.ty, ⟨x.2.2.loc, PassedAsConst x.1 x.2.1 x.2.2.ty, PassedAsRvalue x.1 x.2.1 x.2.2.ty⟩)) := by
  unfold catElems allElems
  rw [h, List.flatMap_def, List.map_flatten, List.map_map]
  simp only [elemRef_eq]
  congr 3
  funext t
  simp [List.map_map, Function.comp_def]

/-- Initialisation of elements of types `ty x` from the elements `x`. -/
theorem initParams_iff (cls : Classes) (moved : V → V) (ty : Kind × Access × Elem → Ty) (xs : List (Kind × Access × Elem)) (m : Mem V) :
    (∃ r, initParams cls moved (xs.map ty)
      (xs.map fun x => Arg.ref x.2.2.loc (PassedAsConst x.1 x.2.1 x.2.2.ty) (PassedAsRvalue x.1 x.2.1 x.2.2.ty)) m = some r) ↔
    ∀ x ∈ xs, CanTake cls (ty x) x := by
  induction xs generalizing m with
  | nil => simp [initParams]
  | cons x xs ih =>
    simp only [List.map_cons, initParams, List.mem_cons, forall_eq_or_imp]
    have key : (∃ p, initParam cls moved (ty x) (.ref x.2.2.loc (PassedAsConst x.1 x.2.1 x.2.2.ty) (PassedAsRvalue x.1 x.2.1 x.2.2.ty)) m = some p) ↔
        CanTake cls (ty x) x := by
      cases ht : ty x <;> rcases Bool.eq_false_or_eq_true (PassedAsRvalue x.1 x.2.1 x.2.2.ty) with hr | hr <;>
        rcases Bool.eq_false_or_eq_true (PassedAsConst x.1 x.2.1 x.2.2.ty) with hc | hc <;> simp [initParam, CanTake, TakenFrom, hr, hc]
    constructor
    · rintro ⟨r, hr⟩
      simp only [Option.bind_eq_some_iff, Option.map_eq_some_iff] at hr
      obtain ⟨p, hp, ps, hps, rfl⟩ := hr
      exact ⟨key.1 ⟨p, hp⟩, (ih p.2).1 ⟨ps, hps⟩⟩
    · rintro ⟨h1, h2⟩
      obtain ⟨p, hp⟩ := key.2 h1
      obtain ⟨ps, hps⟩ := (ih p.2).2 h2
      exact ⟨(p.1 :: ps.1, ps.2), by simp [hp, hps]⟩

theorem initParams_values (cls : Classes) (moved : V → V) (ty : Kind × Access × Elem → Ty) (xs : List (Kind × Access × Elem))
    (m m' : Mem V) (out : List (Stored V))
    (h : initParams cls moved (xs.map ty)
      (xs.map fun x => Arg.ref x.2.2.loc (PassedAsConst x.1 x.2.1 x.2.2.ty) (PassedAsRvalue x.1 x.2.1 x.2.2.ty)) m = some (out, m'))
    (hd : xs.Pairwise fun x y => TakenFrom (ty x) x = true → x.2.2.loc ≠ y.2.2.loc) :
    List.Forall₂ (fun x s => HoldsElem m (ty x) x s) xs out ∧
    (∀ x ∈ xs, TakenFrom (ty x) x = true → m' x.2.2.loc = moved (m x.2.2.loc)) ∧
    (∀ l, (∀ x ∈ xs, TakenFrom (ty x) x = true → x.2.2.loc ≠ l) → m' l = m l) := by
  induction xs generalizing m out with
  | nil => simp [initParams] at h; simp [← h.1, ← h.2]
  | cons x xs ih =>
    simp only [List.map_cons, initParams, Option.bind_eq_some_iff, Option.map_eq_some_iff] at h
    obtain ⟨⟨p, m1⟩, hp, ⟨ps, mps⟩, hps, h3⟩ := h
    cases h3
    have hd' := List.pairwise_cons.1 hd
    obtain ⟨r1, r2, r3⟩ := ih m1 ps hps hd'.2
    have first : HoldsElem m (ty x) x p ∧ m1 = if TakenFrom (ty x) x then m.moveFrom moved x.2.2.loc else m := by
      revert hp
      cases ht : ty x <;> rcases Bool.eq_false_or_eq_true (PassedAsRvalue x.1 x.2.1 x.2.2.ty) with hr | hr <;>
        rcases Bool.eq_false_or_eq_true (PassedAsConst x.1 x.2.1 x.2.2.ty) with hc | hc <;>
        simp [initParam, HoldsElem, TakenFrom, hr, hc] <;> (intros; subst_vars; simp)
    have hm1 : ∀ l, (TakenFrom (ty x) x = true → x.2.2.loc ≠ l) → m1 l = m l := by
      intro l hl
      rw [first.2]
      split
      · rename_i ht
        simp [Mem.moveFrom, Ne.symm (hl ht)]
      · rfl
    refine ⟨.cons first.1 ?_, ?_, ?_⟩
    · have : ∀ (zs : List (Kind × Access × Elem)) ss, (∀ y ∈ zs, m1 y.2.2.loc = m y.2.2.loc) →
          List.Forall₂ (fun x s => HoldsElem m1 (ty x) x s) zs ss → List.Forall₂ (fun x s => HoldsElem m (ty x) x s) zs ss := by
        intro zs ss hz h
        induction h with
        | nil => exact .nil
        | cons h1 _ ih =>
          refine .cons ?_ (ih fun q hq => hz q (by simp [hq]))
          unfold HoldsElem at h1 ⊢
          rw [← hz _ (by simp)]
          exact h1
      exact this _ _ (fun y hy => hm1 _ (fun ht => hd'.1 y hy ht)) r1
    · intro y hy ht
      rcases List.mem_cons.1 hy with rfl | hy'
      · rw [r3 _ (fun z hz htz he => hd'.1 z hz ht he.symm), first.2, if_pos ht]
        simp [Mem.moveFrom]
      · rw [r2 y hy' ht, hm1 _ (fun htx => hd'.1 y hy' htx)]
    · intro l hl
      rw [r3 l (fun y hy => hl y (by simp [hy])), hm1 l (hl x (by simp))]

end Makeshift.TupleMove
