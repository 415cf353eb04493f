import Verif.Lemmas.TupleMove
import Verif.Props.TupleAlgo
import Verif.Props.TupleAccess

/-! # C85: tuple algorithms hand every element to the functor once, intact -/

namespace Makeshift.Props

open Makeshift.TupleAccess Makeshift.TupleMove Makeshift.Spec.TupleMove

variable {V S : Type}

private theorem foldl_eq_mapCalls {α β T : Type} (func : Func α β T) (calls : List (List (TVal α))) (s : T) :
    calls.foldl (fun s vs => (func vs s).2) s = (Spec.mapCalls func calls s).2 := by
  induction calls generalizing s with
  | nil => rfl
  | cons c cs ih => simp [Spec.mapCalls, ih]

/-- The arguments of the calls refer to objects that no other call refers to, if every element has its own object. -/
theorem C85_own_objects (args : List TupArg) (calls : List (List (TVal Ref))) (ho : OwnObjects args) (hc : CallArgs args calls) :
    Separate calls.flatten := by
  have key : ∀ (i i' : Nat) c c' (j j' : Nat) r r', calls[i]? = some c → calls[i']? = some c' → c[j]? = some (.elem r) →
      c'[j']? = some (.elem r') → r.loc = r'.loc → j = j' ∧ i = i' := by
    intro i i' c c' j j' r r' hi hi' hj hj' hl
    have get : ∀ (i : Nat) c (j : Nat) r, calls[i]? = some c → c[j]? = some (.elem r) →
        ∃ k a es e, args[j]? = some (.tuple k a es) ∧ es[i]? = some e ∧ e.loc = r.loc := by
      intro i c j r hi hj
      have h := hc i c hi
      have hjl : j < c.length := (List.getElem?_eq_some_iff.1 hj).1
      have hja : j < args.length := h.length_eq ▸ hjl
      have h2 := (List.forall₂_iff_get.1 h).2 j hja hjl
      simp only [List.get_eq_getElem] at h2
      rw [(List.getElem?_eq_some_iff.1 hj).2] at h2
      generalize hx : args[j] = x at h2
      cases h2 with
      | tuple he => exact ⟨_, _, _, _, by rw [List.getElem?_eq_getElem hja, hx], he, rfl⟩
    obtain ⟨k, a, es, e, h1, h2, h3⟩ := get i c j r hi hj
    obtain ⟨k', a', es', e', h1', h2', h3'⟩ := get i' c' j' r' hi' hj'
    exact ho j j' i i' k a es k' a' es' e e' h1 h1' h2 h2' (by rw [h3, h3', hl])
  unfold Separate
  rw [List.pairwise_flatten]
  constructor
  · intro c hcm
    obtain ⟨i, hi⟩ := List.mem_iff_getElem?.1 hcm
    rw [List.pairwise_iff_getElem]
    intro j j' hj hj' hlt r r' hr hr' hl
    have := key i i c c j j' r r' hi hi (by rw [List.getElem?_eq_getElem hj, hr]) (by rw [List.getElem?_eq_getElem hj', hr']) hl
    omega
  · rw [List.pairwise_iff_getElem]
    intro i i' hi hi' hlt x hx y hy r r' hr hr' hl
    subst hr hr'
    obtain ⟨j, hj⟩ := List.mem_iff_getElem?.1 hx
    obtain ⟨j', hj'⟩ := List.mem_iff_getElem?.1 hy
    have := key i i' _ _ j j' r r' (List.getElem?_eq_getElem hi) (List.getElem?_eq_getElem hi') hj hj' hl
    omega

/-- Arguments for the examples: an rvalue `std::tuple` with two elements, a const lvalue `value_tuple` and an index. -/
private def mvArgs : List TupArg :=
  [.tuple .std ⟨false, true⟩ [⟨.obj ⟨0, false⟩, 0⟩, ⟨.obj ⟨0, false⟩, 1⟩],
   .tuple .value ⟨true, false⟩ [⟨.obj ⟨0, false⟩, 2⟩, ⟨.obj ⟨0, false⟩, 3⟩], .rangeIndex]

/-- The calls for `mvArgs`. -/
private def mvCalls : List (List (TVal Ref)) :=
  [[.elem ⟨0, false, true⟩, .elem ⟨2, true, false⟩, .index 0], [.elem ⟨1, false, true⟩, .elem ⟨3, true, false⟩, .index 1]]

/-- A functor that moves from its first argument, leaving 0, and returns the sum of the first two. -/
private def mvFn : Fn Int Nat := fun vs s =>
  match vs with
  | .elem (_, a) :: .elem (_, b) :: _ => (.val (a + b), fun j => if j = 0 then some 0 else none, s + 1)
  | _ => (.val 0, fun _ => none, s)

private theorem mvCallArgs : CallArgs mvArgs mvCalls := by
  intro i vs hv
  match i, hv with
  | 0, hv =>
    cases hv
    exact .cons (.tuple (e := ⟨.obj ⟨0, false⟩, 0⟩) rfl) (.cons (.tuple (e := ⟨.obj ⟨0, false⟩, 2⟩) rfl) (.cons .rangeIndex .nil))
  | 1, hv =>
    cases hv
    exact .cons (.tuple (e := ⟨.obj ⟨0, false⟩, 1⟩) rfl) (.cons (.tuple (e := ⟨.obj ⟨0, false⟩, 3⟩) rfl) (.cons .rangeIndex .nil))
  | i + 2, hv => cases hv

private theorem mvSize : AllSize mvCalls.length mvArgs := by
  intro k a es he
  simp only [mvArgs, List.mem_cons, TupArg.tuple.injEq, List.not_mem_nil, or_false] at he
  rcases he with ⟨_, _, rfl⟩ | ⟨_, _, rfl⟩ | h
  · rfl
  · rfl
  · cases h

private theorem mvHas : HasTuple mvArgs := ⟨_, _, _, List.mem_cons_self⟩

private theorem mvSep : Separate mvCalls.flatten := by
  simp [Separate, mvCalls]

private theorem mvOwn (m : Mem Int) : ∀ c ∈ mvCalls, ReturnsOwn mvFn (c.map (seen m)) := by
  intro c hc s r hr
  simp only [mvCalls, List.mem_cons, List.not_mem_nil, or_false] at hc
  rcases hc with rfl | rfl <;> simp [mvFn, seen] at hr

/-- The hypotheses can be met: every element has its own object, and the arguments of the calls are as listed. -/
example : ∃ (args : List TupArg) (calls : List (List (TVal Ref))), 0 < calls.length ∧ OwnObjects args ∧ CallArgs args calls := by
  refine ⟨mvArgs, mvCalls, by decide, ?_, mvCallArgs⟩
  intro j j' i i' k a es k' a' es' e e' h1 h2 h3 h4 hl
  match j, h1 with
  | 0, h1 =>
    cases h1
    match j', h2 with
    | 0, h2 =>
      cases h2
      match i, h3, i', h4 with
      | 0, h3, 0, h4 => exact ⟨rfl, rfl⟩
      | 0, h3, 1, h4 => cases h3; cases h4; cases hl
      | 1, h3, 0, h4 => cases h3; cases h4; cases hl
      | 1, h3, 1, h4 => exact ⟨rfl, rfl⟩
      | i + 2, h3, _, _ => cases h3
      | _, _, i' + 2, h4 => cases h4
    | 1, h2 =>
      cases h2
      match i, h3, i', h4 with
      | 0, h3, 0, h4 => cases h3; cases h4; cases hl
      | 0, h3, 1, h4 => cases h3; cases h4; cases hl
      | 1, h3, 0, h4 => cases h3; cases h4; cases hl
      | 1, h3, 1, h4 => cases h3; cases h4; cases hl
      | i + 2, h3, _, _ => cases h3
      | _, _, i' + 2, h4 => cases h4
    | 2, h2 => cases h2
    | j' + 3, h2 => cases h2
  | 1, h1 =>
    cases h1
    match j', h2 with
    | 0, h2 =>
      cases h2
      match i, h3, i', h4 with
      | 0, h3, 0, h4 => cases h3; cases h4; cases hl
      | 0, h3, 1, h4 => cases h3; cases h4; cases hl
      | 1, h3, 0, h4 => cases h3; cases h4; cases hl
      | 1, h3, 1, h4 => cases h3; cases h4; cases hl
      | i + 2, h3, _, _ => cases h3
      | _, _, i' + 2, h4 => cases h4
    | 1, h2 =>
      cases h2
      match i, h3, i', h4 with
      | 0, h3, 0, h4 => exact ⟨rfl, rfl⟩
      | 0, h3, 1, h4 => cases h3; cases h4; cases hl
      | 1, h3, 0, h4 => cases h3; cases h4; cases hl
      | 1, h3, 1, h4 => exact ⟨rfl, rfl⟩
      | i + 2, h3, _, _ => cases h3
      | _, _, i' + 2, h4 => cases h4
    | 2, h2 => cases h2
    | j' + 3, h2 => cases h2
  | 2, h1 => cases h1
  | j + 3, h1 => cases h1

/-- `template_for` with objects: the functor is called in order, each call sees the contents which its objects had before the first
call although the tuples are forwarded again and again; afterwards the objects are as the call they were passed to left them, and all
others are unchanged. -/
theorem C85_template_for (n : Int) (moved : V → V) (f : Fn V S) (args : List TupArg) (calls : List (List (TVal Ref))) (m : Mem V) (s : S)
    (h : AllSize calls.length args) (hn : (n = -1 ∧ HasTuple args) ∨ n = calls.length) (hc : CallArgs args calls)
    (hs : Separate calls.flatten) (hf : ∀ c ∈ calls, ReturnsOwn f (c.map (seen m))) :
    ∃ m', templateForM n moved f args m s = some (m', (onOriginals f m calls s).2) ∧
      FinalContents moved m calls (onOriginals f m calls s).1 m' := by
  obtain ⟨vs, m', h1, _, _, _, h5, h6⟩ := calls_spec moved f calls m m s hs (fun _ _ _ _ => rfl) hf
  refine ⟨m', ?_, h5, ?_⟩
  · unfold templateForM
    rw [C38_template_for n (call moved f) _ calls (m, s) (allSize_refs h) (hn.imp (fun h => ⟨h.1, hasTuple_refs h.2⟩) id) (callArgs_refs hc),
      foldl_eq_mapCalls, h1]
  · intro l hl
    exact h6 l (fun c hc r hr hrl => absurd hrl (hl c hc r hr))

/-- The rvalue tuple's elements are moved from once each, the others are unchanged. -/
example : ∃ m', templateForM (-1) (fun _ => 0) mvFn mvArgs (fun l => 10 * (l : Int) + 7) 0 = some (m', 2) ∧ m' 0 = 0 ∧ m' 1 = 0 ∧ m' 2 = 27 := by
  obtain ⟨m', h, _⟩ := C85_template_for (-1) (fun _ => 0) mvFn mvArgs mvCalls (fun l => 10 * (l : Int) + 7) 0 mvSize (.inl ⟨rfl, mvHas⟩)
    mvCallArgs mvSep (mvOwn _)
  refine ⟨_, rfl, ?_⟩
  decide

/-- `array_transform` with objects: the same, and the elements of the array are made of the results of the calls, in order. -/
theorem C85_array_transform (n : Int) (moved : V → V) (f : Fn V S) (args : List TupArg) (calls : List (List (TVal Ref))) (m : Mem V) (s : S)
    (h : AllSize calls.length args) (hn : (n = -1 ∧ HasTuple args) ∨ n = calls.length) (hc : CallArgs args calls)
    (hs : Separate calls.flatten) (hf : ∀ c ∈ calls, ReturnsOwn f (c.map (seen m))) :
    ∃ out m', arrayTransformM n moved f args m s = some (out, m', (onOriginals f m calls s).2) ∧ out.length = calls.length ∧
      (∀ (k : Nat) c o v, calls[k]? = some c → (onOriginals f m calls s).1[k]? = some o → out[k]? = some v → Makes m c o v) ∧
      FinalContents moved m calls (onOriginals f m calls s).1 m' := by
  obtain ⟨vs, m', h1, _, h3, h4, h5, h6⟩ := calls_spec moved f calls m m s hs (fun _ _ _ _ => rfl) hf
  refine ⟨vs, m', ?_, h3, h4, h5, ?_⟩
  · unfold arrayTransformM
    rw [C38_array_transform n (call moved f) _ calls (m, s) (allSize_refs h) (hn.imp (fun h => ⟨h.1, hasTuple_refs h.2⟩) id) (callArgs_refs hc),
      h1]
  · intro l hl
    exact h6 l (fun c hc r hr hrl => absurd hrl (hl c hc r hr))

example : ∃ m', arrayTransformM (-1) (fun _ => 0) mvFn mvArgs (fun l => 10 * (l : Int) + 7) 0 = some ([34, 54], m', 2) := by
  obtain ⟨out, m', h, _⟩ := C85_array_transform (-1) (fun _ => 0) mvFn mvArgs mvCalls (fun l => 10 * (l : Int) + 7) 0 mvSize
    (.inl ⟨rfl, mvHas⟩) mvCallArgs mvSep (mvOwn _)
  exact ⟨_, rfl⟩

/-- `tuple_transform` with objects: whatever order of evaluation the compiler chooses, each call sees the original contents, and each
result ends up at its own position. -/
theorem C85_tuple_transform (n : Int) (moved : V → V) (f : Fn V S) (args : List TupArg) (calls : List (List (TVal Ref))) (order : List Nat)
    (m : Mem V) (s : S) (h : AllSize calls.length args) (hn : (n = -1 ∧ HasTuple args) ∨ n = calls.length) (hc : CallArgs args calls)
    (hs : Separate calls.flatten) (hf : ∀ c ∈ calls, ReturnsOwn f (c.map (seen m))) (ho : order.Perm (List.range calls.length)) :
    ∃ out m' cs, List.Forall₂ (fun i c => calls[i]? = some c) order cs ∧
      tupleTransformM n moved f args order m s = some (out, m', (onOriginals f m cs s).2) ∧ out.length = calls.length ∧
      (∀ (j i : Nat) c o v, order[j]? = some i → calls[i]? = some c → (onOriginals f m cs s).1[j]? = some o → out[i]? = some v → Makes m c o v) ∧
      FinalContents moved m cs (onOriginals f m cs s).1 m' := by
  obtain ⟨out, cs, h1, h2, h3, h4⟩ := C38_tuple_transform n (call moved f) _ calls order (m, s) (allSize_refs h)
    (hn.imp (fun h => ⟨h.1, hasTuple_refs h.2⟩) id) (callArgs_refs hc) ho
  have hcs : cs.Perm calls := by
    have e1 : order.map (fun i => calls[i]?) = cs.map some := by
      clear h1 h4 ho
      induction h3 with
      | nil => rfl
      | cons h _ ih => simp [h, ih]
    have e2 : (List.range calls.length).map (fun i => calls[i]?) = calls.map some := by
      apply List.ext_getElem?
      intro i
      by_cases hi : i < calls.length
      · simp [List.getElem?_range hi, List.getElem?_eq_getElem hi]
      · rw [List.getElem?_eq_none (by simpa using hi), List.getElem?_eq_none (by simpa using hi)]
    have e3 := ho.map (fun i => calls[i]?)
    rw [e1, e2] at e3
    have := e3.filterMap id
    simpa [List.filterMap_map] using this
  have hs' : Separate cs.flatten := by
    unfold Separate at hs ⊢
    exact (hcs.flatten.pairwise_iff (fun {x y} hxy r r' hr hr' hl => (hxy r' r hr' hr hl.symm).symm)).2 hs
  obtain ⟨vs, m', g1, _, g3, g4, g5, g6⟩ := calls_spec moved f cs m m s hs' (fun _ _ _ _ => rfl) (fun c hc => hf c (hcs.mem_iff.1 hc))
  rw [g1] at h1 h4
  refine ⟨out, m', cs, h3, h1, h2, ?_, g5, ?_⟩
  · intro j i c o v hj hi ho hv
    have hjl : j < order.length := (List.getElem?_eq_some_iff.1 hj).1
    have hjc : j < cs.length := h3.length_eq ▸ hjl
    have := (List.forall₂_iff_get.1 h3).2 j hjl hjc
    simp only [List.get_eq_getElem] at this
    rw [(List.getElem?_eq_some_iff.1 hj).2, hi, Option.some.injEq] at this
    have h4' := h4 j i hj
    rw [hv] at h4'
    exact g4 j c o v (by rw [List.getElem?_eq_getElem hjc, ← this]) ho h4'.symm
  · intro l hl
    exact g6 l (fun c hc r hr hrl => absurd hrl (hl c hc r hr))

example : ∃ m', tupleTransformM (-1) (fun _ => 0) mvFn mvArgs [1, 0] (fun l => 10 * (l : Int) + 7) 0 = some ([34, 54], m', 2) := by
  obtain ⟨out, m', cs, h, _⟩ := C85_tuple_transform (-1) (fun _ => 0) mvFn mvArgs mvCalls [1, 0] (fun l => 10 * (l : Int) + 7) 0 mvSize
    (.inl ⟨rfl, mvHas⟩) mvCallArgs mvSep (mvOwn _) (by decide)
  exact ⟨_, rfl⟩

/-! ## Reduction -/

/-- `template_transform_reduce` with objects: the elements are combined from left to right, with their original contents; the initial
value is combined as it is passed in; objects end up as the calls leave them.  A const initial value is unchanged, and so is an lvalue
which the reducer does not change: it is never moved from. -/
theorem C85_transform_reduce (moved : V → V) (initial : Ref) (g : V → V → S → V × V × S) (f : Fn V S) (args : List TupArg)
    (calls : List (List (TVal Ref))) (m : Mem V) (s : S) (h : AllSize calls.length args) (ht : HasTuple args) (hc : CallArgs args calls)
    (hs : Separate (.elem initial :: calls.flatten)) (hf : ∀ c ∈ calls, ReturnsOwn f (c.map (seen m))) :
    ∃ outs b t m', templateTransformReduceM moved initial g f args m s = some (b, m', t) ∧
      Folds f g m calls (m initial.loc) s outs b t ∧
      (∀ (k : Nat) c out, calls[k]? = some c → outs[k]? = some out → ∀ r, .elem r ∈ c → Ends moved m c out r.loc (m' r.loc)) ∧
      (∀ l, l ≠ initial.loc → (∀ c ∈ calls, ∀ r, .elem r ∈ c → r.loc ≠ l) → m' l = m l) ∧
      (initial.const = true → m' initial.loc = m initial.loc) ∧
      (initial.rvalue = false → (∀ a x s, (g a x s).2.1 = a) → m' initial.loc = m initial.loc) := by
  obtain ⟨outs, b, t, m', h1, h2, h3, h4, h5, h6⟩ := fold_ref moved f g calls m initial s hs hf
  refine ⟨outs, b, t, m', ?_, h2, h3, fun l hl hw => h4 l hl (fun c hc r hr hrl => absurd hrl (hw c hc r hr)), h5, h6⟩
  unfold templateTransformReduceM
  rw [C40_transform_reduce (Acc.ref initial) (reduceCall g) (call moved f) _ calls (m, s) (allSize_refs h) (hasTuple_refs ht) (callArgs_refs hc),
    Option.map_some]
  exact congrArg some h1

/-- Sum of products with an lvalue as initial value, in object 9; the reducer does not change it. -/
example : ∃ m', templateTransformReduceM (fun _ => 0) ⟨9, false, false⟩ (fun a x s => (a * x, a, s)) mvFn mvArgs (fun l => (l : Int) + 1) 0 =
    some (10 * 4 * 6, m', 2) ∧ m' 9 = 10 := by
  obtain ⟨outs, b, t, m', h, _⟩ := C85_transform_reduce (fun _ => 0) ⟨9, false, false⟩ (fun a x s => (a * x, a, s)) mvFn mvArgs mvCalls
    (fun l => (l : Int) + 1) 0 mvSize mvHas mvCallArgs
    (by
      unfold Separate
      rw [List.pairwise_cons]
      refine ⟨?_, mvSep⟩
      intro y hy r r' h h'
      subst h'
      cases h
      simp only [mvCalls, List.flatten_cons, List.flatten_nil, List.cons_append, List.nil_append, List.mem_cons, TVal.elem.injEq,
        reduceCtorEq, List.not_mem_nil, or_false, false_or] at hy
      rcases hy with rfl | rfl | rfl | rfl <;> decide)
    (mvOwn _)
  exact ⟨_, rfl, by decide⟩

/-- `template_reduce` with objects: the result is the left fold of the original contents; the elements are copied, except for those
passed as non-const rvalues, which are moved from. -/
theorem C85_reduce (moved : V → V) (initial : Ref) (g : V → V → S → V × V × S) (k : Kind) (a : Access) (es : List Elem) (m : Mem V) (s : S)
    (hd : es.Pairwise fun e e' => e.loc ≠ e'.loc) (hi : ∀ e ∈ es, e.loc ≠ initial.loc) :
    ∃ m', templateReduceM moved initial g k a es m s =
        some ((es.foldl (fun r e => ((g r.1 (m e.loc) r.2).1, (g r.1 (m e.loc) r.2).2.2)) (m initial.loc, s)).1, m',
          (es.foldl (fun r e => ((g r.1 (m e.loc) r.2).1, (g r.1 (m e.loc) r.2).2.2)) (m initial.loc, s)).2) ∧
      (∀ e ∈ es, m' e.loc = if PassedAsRvalue k a e.ty = true ∧ PassedAsConst k a e.ty = false then moved (m e.loc) else m e.loc) ∧
      (∀ l, l ≠ initial.loc → (∀ e ∈ es, e.loc ≠ l) → m' l = m l) := by
  let rf : Elem → Ref := fun e => ⟨e.loc, PassedAsConst k a e.ty, PassedAsRvalue k a e.ty⟩
  let calls : List (List (TVal Ref)) := es.map fun e => [.elem (rf e)]
  have hflat : calls.flatten = es.map fun e => .elem (rf e) := by
    simp only [calls]
    clear hd hi
    induction es with
    | nil => rfl
    | cons e es ih => simpa using ih
  have hsep : Separate (.elem initial :: calls.flatten) := by
    rw [hflat]
    unfold Separate
    rw [List.pairwise_cons]
    constructor
    · intro y hy r r' hr hr' hl
      obtain ⟨e, he, hey⟩ := List.mem_map.1 hy
      rw [hr'] at hey
      simp only [TVal.elem.injEq] at hey hr
      exact absurd (show e.loc = initial.loc by rw [hr, hl, ← hey]) (hi e he)
    · rw [List.pairwise_map]
      refine hd.imp ?_
      intro e e' hne r r' hr hr' hl
      simp only [TVal.elem.injEq] at hr hr'
      exact absurd (by rw [← hr, ← hr'] at hl; exact hl) hne
  have hcall : CallArgs [.tuple k a es] calls := by
    intro i vs hv
    simp only [calls, List.getElem?_map, Option.map_eq_some_iff] at hv
    obtain ⟨e, he, rfl⟩ := hv
    exact .cons (.tuple he) .nil
  have hown : ∀ c ∈ calls, ReturnsOwn (identityFn (V := V) (S := S)) (c.map (seen m)) := by
    intro c hc
    obtain ⟨e, _, rfl⟩ := List.mem_map.1 hc
    intro s r hr
    simp only [List.map_cons, List.map_nil, seen, identityFn, Res.ref.injEq] at hr
    exact ⟨rf e, m e.loc, by simp [seen, rf], by rw [← hr], by rw [← hr]; exact id⟩
  obtain ⟨outs, b, t, m', h1, h2, h3, h4, _, _⟩ := C85_transform_reduce moved initial g identityFn [.tuple k a es] calls m s
    (by intro k' a' es' he; simp only [List.mem_singleton, TupArg.tuple.injEq] at he; simp [calls, he])
    ⟨k, a, es, by simp⟩ hcall hsep hown
  have leaf : ∀ (r : Ref) v, Leaves m [.elem r] (fun _ => none) r.loc v → v = m r.loc := by
    intro r v hv
    cases hv with
    | written h1 h2 h3 h4 => simp at h4
    | kept _ => rfl
  have hfold : ∀ (es : List Elem) (x : V) (s : S) outs b t, Folds identityFn g m (es.map fun e => [.elem (rf e)]) x s outs b t →
      (b, t) = es.foldl (fun r e => ((g r.1 (m e.loc) r.2).1, (g r.1 (m e.loc) r.2).2.2)) (x, s) ∧
      outs = es.map fun e => (.ref (rf e), fun _ => none) := by
    intro es
    induction es with
    | nil => intro x s outs b t h; cases h; exact ⟨rfl, rfl⟩
    | cons e es ih =>
      intro x s outs b t h
      cases h with
      | cons hm hrest =>
        have hx := leaf (rf e) _ hm
        subst hx
        obtain ⟨q1, q2⟩ := ih _ _ _ _ _ hrest
        exact ⟨q1, by rw [q2]; rfl⟩
  obtain ⟨q1, q2⟩ := hfold es _ s outs b t h2
  refine ⟨m', ?_, ?_, ?_⟩
  · unfold templateReduceM
    rw [h1, ← q1]
  · intro e he
    obtain ⟨j, hj⟩ := List.mem_iff_getElem?.1 he
    obtain ⟨w, hw1, hw2⟩ := h3 j [.elem (rf e)] (.ref (rf e), fun _ => none) (by simp [calls, hj]) (by simp [q2, hj]) (rf e) (by simp)
    rw [leaf _ _ hw1] at hw2
    simpa [rf] using hw2
  · intro l hl he
    apply h4 l hl
    intro c hc r hr
    obtain ⟨e, he', rfl⟩ := List.mem_map.1 hc
    simp only [List.mem_singleton, TVal.elem.injEq] at hr
    rw [hr]
    exact he e he'

example : ∃ m', templateReduceM (fun _ => 0) ⟨9, true, false⟩ (fun a x s => (a - x, a, s + 1)) .std ⟨false, true⟩
    [⟨.obj ⟨0, false⟩, 0⟩, ⟨.obj ⟨0, true⟩, 1⟩, ⟨.lref ⟨0, false⟩, 2⟩] (fun l => (l : Int) + 1) 0 = some (10 - 1 - 2 - 3, m', 3) ∧
    m' 0 = 0 ∧ m' 1 = 2 ∧ m' 2 = 3 := by
  obtain ⟨m', h1, h2, _⟩ := C85_reduce (fun _ => 0) ⟨9, true, false⟩ (fun a x s => (a - x, a, s + 1)) .std ⟨false, true⟩
    [⟨.obj ⟨0, false⟩, 0⟩, ⟨.obj ⟨0, true⟩, 1⟩, ⟨.lref ⟨0, false⟩, 2⟩] (fun l => (l : Int) + 1) (0 : Nat) (by decide) (by decide)
  exact ⟨m', h1, h2 ⟨.obj ⟨0, false⟩, 0⟩ (by decide), h2 ⟨.obj ⟨0, true⟩, 1⟩ (by decide), h2 ⟨.lref ⟨0, false⟩, 2⟩ (by decide)⟩

/-! ## Quantifiers -/

private theorem conj_objects (toBool : V → Bool) (pred : Bool → Bool) (moved : V → V) (f : Fn V S) (calls : List (List (TVal Ref)))
    (m : Mem V) (s : S) (hs : Separate calls.flatten) (hf : ∀ c ∈ calls, ReturnsOwn f (c.map (seen m))) :
    ∃ (k : Nat) (b : Bool) (vs : List V) (m' : Mem V), conj pred (callBool toBool moved f) calls (m, s) = (b, m', (onOriginals f m (calls.take k) s).2) ∧
      k ≤ calls.length ∧ vs.length = k ∧
      (∀ (i : Nat) c o v, (calls.take k)[i]? = some c → (onOriginals f m (calls.take k) s).1[i]? = some o → vs[i]? = some v → Makes m c o v) ∧
      FinalContents moved m (calls.take k) (onOriginals f m (calls.take k) s).1 m' ∧
      (b = true → k = calls.length ∧ ∀ v ∈ vs, pred (toBool v) = true) ∧
      (b = false → ∃ v, vs.getLast? = some v ∧ pred (toBool v) = false ∧ ∀ v ∈ vs.dropLast, pred (toBool v) = true) := by
  obtain ⟨k, b, h1, h2, h3, h4⟩ := conj_take toBool pred moved f calls (m, s)
  have hs' : Separate (calls.take k).flatten := by
    have hs2 : Separate ((calls.take k).flatten ++ (calls.drop k).flatten) := by
      rw [← List.flatten_append, List.take_append_drop]
      exact hs
    exact (separate_append hs2).1
  obtain ⟨vs, m', g1, _, g3, g4, g5, g6⟩ := calls_spec moved f (calls.take k) m m s hs' (fun _ _ _ _ => rfl)
    (fun c hc => hf c (List.mem_of_mem_take hc))
  rw [g1] at h2 h3 h4
  refine ⟨k, b, vs, m', h2, h1, by rw [g3, List.length_take]; omega, g4, ⟨g5, ?_⟩, h3, h4⟩
  intro l hl
  exact g6 l (fun c hc r hr hrl => absurd hrl (hl c hc r hr))

/-- `template_all_of` with objects: the predicate is called in order, with the original contents, up to the first failure; the result
tells whether there was none. -/
theorem C85_all_of (toBool : V → Bool) (moved : V → V) (f : Fn V S) (args : List TupArg) (calls : List (List (TVal Ref))) (m : Mem V) (s : S)
    (h : AllSize calls.length args) (ht : HasTuple args) (hc : CallArgs args calls)
    (hs : Separate calls.flatten) (hf : ∀ c ∈ calls, ReturnsOwn f (c.map (seen m))) :
    ∃ (k : Nat) (b : Bool) (vs : List V) (m' : Mem V), templateAllOfM toBool moved f args m s = some (b, m', (onOriginals f m (calls.take k) s).2) ∧
      k ≤ calls.length ∧ vs.length = k ∧
      (∀ (i : Nat) c o v, (calls.take k)[i]? = some c → (onOriginals f m (calls.take k) s).1[i]? = some o → vs[i]? = some v → Makes m c o v) ∧
      FinalContents moved m (calls.take k) (onOriginals f m (calls.take k) s).1 m' ∧
      (b = true → k = calls.length ∧ ∀ v ∈ vs, toBool v = true) ∧
      (b = false → ∃ v, vs.getLast? = some v ∧ toBool v = false ∧ ∀ v ∈ vs.dropLast, toBool v = true) := by
  obtain ⟨k, b, vs, m', h1, h2⟩ := conj_objects toBool id moved f calls m s hs hf
  refine ⟨k, b, vs, m', ?_, h2⟩
  unfold templateAllOfM templateAllOf
  rw [tupleTransformSize_of_agree (-1) _ calls.length (allSize_refs h) (.inl ⟨rfl, hasTuple_refs ht⟩), Option.bind_some,
    conjunctionFn_conj _ _ _ _ calls 0 (by omega) _ (fun i vs hi => by rw [Nat.zero_add]; exact getElements_of_callArgs (callArgs_refs hc) i vs hi), h1]

/-- The first call fails, so the second element is not touched. -/
example : ∃ m', templateAllOfM (fun v => decide (v > 50)) (fun _ => 0) mvFn mvArgs (fun l => 10 * (l : Int) + 7) 0 = some (false, m', 1) ∧
    m' 0 = 0 ∧ m' 1 = 17 := by
  obtain ⟨k, b, vs, m', h, _⟩ := C85_all_of (fun v => decide (v > 50)) (fun _ => 0) mvFn mvArgs mvCalls (fun l => 10 * (l : Int) + 7) 0
    mvSize mvHas mvCallArgs mvSep (mvOwn _)
  exact ⟨_, rfl, by decide⟩

/-- `template_any_of` with objects: the predicate is called in order, with the original contents, up to the first success; the result
tells whether there was one.  `template_none_of` makes the same calls and yields the opposite. -/
theorem C85_any_of_none_of (toBool : V → Bool) (moved : V → V) (f : Fn V S) (args : List TupArg) (calls : List (List (TVal Ref)))
    (m : Mem V) (s : S) (h : AllSize calls.length args) (ht : HasTuple args) (hc : CallArgs args calls)
    (hs : Separate calls.flatten) (hf : ∀ c ∈ calls, ReturnsOwn f (c.map (seen m))) :
    ∃ (k : Nat) (b : Bool) (vs : List V) (m' : Mem V), templateAnyOfM toBool moved f args m s = some (b, m', (onOriginals f m (calls.take k) s).2) ∧
      templateNoneOfM toBool moved f args m s = some (!b, m', (onOriginals f m (calls.take k) s).2) ∧
      k ≤ calls.length ∧ vs.length = k ∧
      (∀ (i : Nat) c o v, (calls.take k)[i]? = some c → (onOriginals f m (calls.take k) s).1[i]? = some o → vs[i]? = some v → Makes m c o v) ∧
      FinalContents moved m (calls.take k) (onOriginals f m (calls.take k) s).1 m' ∧
      (b = false → k = calls.length ∧ ∀ v ∈ vs, toBool v = false) ∧
      (b = true → ∃ v, vs.getLast? = some v ∧ toBool v = true ∧ ∀ v ∈ vs.dropLast, toBool v = false) := by
  obtain ⟨k, b, vs, m', h1, h2, h3, h4, h5, h6, h7⟩ := conj_objects toBool not moved f calls m s hs hf
  have hcf : ∀ pred, (tupleTransformSize (-1) (args.map TupArg.refs)).bind
      (fun size => conjunctionFn size pred (callBool toBool moved f) (args.map TupArg.refs) size (m, s)) =
      some (conj pred (callBool toBool moved f) calls (m, s)) := by
    intro pred
    rw [tupleTransformSize_of_agree (-1) _ calls.length (allSize_refs h) (.inl ⟨rfl, hasTuple_refs ht⟩), Option.bind_some,
      conjunctionFn_conj _ _ _ _ calls 0 (by omega) _ (fun i vs hi => by rw [Nat.zero_add]; exact getElements_of_callArgs (callArgs_refs hc) i vs hi)]
  refine ⟨k, !b, vs, m', ?_, ?_, h2, h3, h4, h5, ?_, ?_⟩
  · have hn := hcf not
    rw [h1] at hn
    unfold templateAnyOfM templateAnyOf
    rw [tupleTransformSize_of_agree (-1) _ calls.length (allSize_refs h) (.inl ⟨rfl, hasTuple_refs ht⟩), Option.bind_some] at hn ⊢
    rw [hn, Option.map_some]
  · have hn := hcf not
    rw [h1] at hn
    unfold templateNoneOfM templateNoneOf
    rw [hn, Bool.not_not]
  · intro hb
    simpa using h6 (by simpa using hb)
  · intro hb
    simpa using h7 (by simpa using hb)

example : ∃ m', templateAnyOfM (fun v => decide (v > 50)) (fun _ => 0) mvFn mvArgs (fun l => 10 * (l : Int) + 7) 0 = some (true, m', 2) ∧
    m' 0 = 0 ∧ m' 1 = 0 := by
  obtain ⟨k, b, vs, m', h, _⟩ := C85_any_of_none_of (fun v => decide (v > 50)) (fun _ => 0) mvFn mvArgs mvCalls (fun l => 10 * (l : Int) + 7) 0
    mvSize mvHas mvCallArgs mvSep (mvOwn _)
  exact ⟨_, rfl, by decide⟩

/-! ## Concatenation -/

/-- Tuples for the examples: an rvalue `std::tuple` with a move-only element (class 1) and a reference, and a const lvalue tuple. -/
private def mvTuples : List (Kind × Access × List Elem) :=
  [(.std, ⟨false, true⟩, [⟨.obj ⟨1, false⟩, 0⟩, ⟨.lref ⟨0, false⟩, 1⟩]), (.std, ⟨true, false⟩, [⟨.obj ⟨0, false⟩, 2⟩])]

/-- Class 1 is move-only. -/
private def mvClasses : Classes := ⟨fun c => c != 1, fun _ => true⟩

/-- `tuple_cat` compiles exactly if each element of the result, which has the type that the element has in its tuple, can be
initialised from it. -/
theorem C85_cat_iff (cls : Classes) (moved : V → V) (tuples : List (Kind × Access × List Elem)) (m : Mem V) :
    (∃ r, tupleCatM cls moved tuples m = some r) ↔ ∀ x ∈ allElems tuples, CanTake cls x.2.2.ty x := by
  unfold tupleCatM
  rw [catElems_eq tuples C41_cat, Option.bind_some, List.map_map, List.map_map]
  exact initParams_iff cls moved (fun x => x.2.2.ty) (allElems tuples) m

/-- A move-only element can be taken from an rvalue, but not from an lvalue. -/
example : (∃ r, tupleCatM mvClasses (fun _ => (0 : Int)) mvTuples (fun l => (l : Int) + 1) = some r) ∧
    ¬ ∃ r, tupleCatM mvClasses (fun _ => (0 : Int)) [(.std, ⟨false, false⟩, [⟨.obj ⟨1, false⟩, 0⟩])] (fun l => (l : Int) + 1) = some r := by
  constructor
  · rw [C85_cat_iff]
    intro x hx
    simp only [allElems, mvTuples, List.flatMap_cons, List.map_cons, List.map_nil, List.flatMap_nil, List.cons_append, List.nil_append,
      List.mem_cons, List.not_mem_nil, or_false] at hx
    rcases hx with rfl | rfl | rfl <;> simp [CanTake, TakenFrom, PassedAsRvalue, PassedAsConst, Ty.referred, mvClasses]
  · rw [C85_cat_iff]
    intro h
    have := h (.std, ⟨false, false⟩, ⟨.obj ⟨1, false⟩, 0⟩) (by simp [allElems])
    simp [CanTake, TakenFrom, PassedAsRvalue, mvClasses] at this

/-- The elements of the concatenated tuple hold the original contents, in order; those of rvalue tuples are moved from, and all other
objects are unchanged. -/
theorem C85_cat (cls : Classes) (moved : V → V) (tuples : List (Kind × Access × List Elem)) (m m' : Mem V) (out : List (Stored V))
    (h : tupleCatM cls moved tuples m = some (out, m'))
    (hd : (allElems tuples).Pairwise fun x y => TakenFrom x.2.2.ty x = true → x.2.2.loc ≠ y.2.2.loc) :
    List.Forall₂ (fun x s => HoldsElem m x.2.2.ty x s) (allElems tuples) out ∧
    (∀ x ∈ allElems tuples, TakenFrom x.2.2.ty x = true → m' x.2.2.loc = moved (m x.2.2.loc)) ∧
    (∀ l, (∀ x ∈ allElems tuples, TakenFrom x.2.2.ty x = true → x.2.2.loc ≠ l) → m' l = m l) := by
  unfold tupleCatM at h
  rw [catElems_eq tuples C41_cat, Option.bind_some, List.map_map, List.map_map] at h
  exact initParams_values cls moved (fun x => x.2.2.ty) (allElems tuples) m m' out h hd

example : ∃ m', tupleCatM mvClasses (fun _ => (0 : Int)) mvTuples (fun l => (l : Int) + 1) = some ([.val 1, .ref 1, .val 3], m') ∧
    m' 0 = 0 ∧ m' 1 = 2 ∧ m' 2 = 3 := by
  refine ⟨_, rfl, ?_⟩
  obtain ⟨_, h2, h3⟩ := C85_cat mvClasses (fun _ => (0 : Int)) mvTuples (fun l => (l : Int) + 1) _ _ rfl (by decide)
  exact ⟨h2 (.std, ⟨false, true⟩, ⟨.obj ⟨1, false⟩, 0⟩) (by decide) (by decide), h3 1 (by decide), h3 2 (by decide)⟩

/-- `array_cat` likewise; all elements of the result are objects of type `c`. -/
theorem C85_array_cat (cls : Classes) (moved : V → V) (c : CTy) (tuples : List (Kind × Access × List Elem)) (m : Mem V) :
    ((∃ r, arrayCatM cls moved c tuples m = some r) ↔ ∀ x ∈ allElems tuples, CanTake cls (.obj c) x) ∧
    ∀ out m', arrayCatM cls moved c tuples m = some (out, m') →
      ((allElems tuples).Pairwise fun x y => TakenFrom (.obj c) x = true → x.2.2.loc ≠ y.2.2.loc) →
      List.Forall₂ (fun x s => HoldsElem m (.obj c) x s) (allElems tuples) out ∧
      (∀ x ∈ allElems tuples, TakenFrom (.obj c) x = true → m' x.2.2.loc = moved (m x.2.2.loc)) ∧
      (∀ l, (∀ x ∈ allElems tuples, TakenFrom (.obj c) x = true → x.2.2.loc ≠ l) → m' l = m l) := by
  unfold arrayCatM
  rw [catElems_eq tuples C41_cat, Option.bind_some, List.map_map, List.map_map]
  exact ⟨initParams_iff cls moved (fun _ => .obj c) (allElems tuples) m,
    fun out m' h hd => initParams_values cls moved (fun _ => .obj c) (allElems tuples) m m' out h hd⟩

example : ∃ m', arrayCatM mvClasses (fun _ => (0 : Int)) ⟨0, false⟩ mvTuples (fun l => (l : Int) + 1) = some ([.val 1, .val 2, .val 3], m') ∧
    m' 0 = 0 ∧ m' 1 = 2 := by
  refine ⟨_, rfl, ?_⟩
  obtain ⟨_, h2, h3⟩ := (C85_array_cat mvClasses (fun _ => (0 : Int)) ⟨0, false⟩ mvTuples (fun l => (l : Int) + 1)).2 _ _ rfl (by decide)
  exact ⟨h2 (.std, ⟨false, true⟩, ⟨.obj ⟨1, false⟩, 0⟩) (by decide) (by decide), h3 1 (by decide)⟩

/-- `tuple_cat<value_tuple>` needs copyable elements: move-only elements, which `tuple_cat` moves, cannot be concatenated. -/
theorem C85_cat_value_tuple (cls : Classes) (moved : V → V) (tuples : List (Kind × Access × List Elem)) (m : Mem V) :
    (∃ r, tupleCatValueM cls moved tuples m = some r) ↔
      ∀ x ∈ allElems tuples, CanTake cls x.2.2.ty x ∧
        (∀ c, x.2.2.ty = .obj c → cls.copyable c.ty = true) ∧ ∀ c, x.2.2.ty ≠ .rref c := by
  unfold tupleCatValueM
  rw [catElems_eq tuples C41_cat, Option.bind_some, List.map_map, List.map_map, C84_construct_iff]
  induction allElems tuples with
  | nil => simp
  | cons x xs ih =>
    simp only [List.map_cons, List.forall₂_cons, List.mem_cons, forall_eq_or_imp, ih]
    refine and_congr_left (fun _ => ?_)
    obtain ⟨k, a, t, l⟩ := x
    cases t with
    | obj c =>
      rcases Bool.eq_false_or_eq_true (PassedAsRvalue k a (.obj c)) with hr | hr <;>
        rcases Bool.eq_false_or_eq_true (PassedAsConst k a (.obj c)) with hc | hc <;>
        simp [Spec.TupleAccess.CanInit, CanTake, TakenFrom, hr, hc, and_comm]
    | lref c => simp [Spec.TupleAccess.CanInit, Spec.TupleAccess.BindsLvalue, CanTake]
    | rref c => simp [Spec.TupleAccess.CanInit]

/-- The tuples which `tuple_cat` concatenates cannot be concatenated to a `value_tuple`, because of the move-only element. -/
example : ¬ ∃ r, tupleCatValueM mvClasses (fun _ => (0 : Int)) mvTuples (fun l => (l : Int) + 1) = some r := by
  rw [C85_cat_value_tuple]
  intro h
  have := (h (.std, ⟨false, true⟩, ⟨.obj ⟨1, false⟩, 0⟩) (by simp [allElems, mvTuples])).2.1 ⟨1, false⟩ rfl
  simp [mvClasses] at this

end Makeshift.Props
