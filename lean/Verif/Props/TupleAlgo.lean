import Verif.Lemmas.TupleAlgo
import Verif.Props.Fill

/-! # C38-C44: tuple and array algorithms -/

namespace Makeshift.Props

open Spec

variable {α β V S : Type}

/-! ## C38 -/

/-- If the sizes agree, there is exactly one list of functor arguments for the indices in order. -/
theorem C38_calls_exist (args : List (TArg α)) (n : Nat) (h : AllSize n args) :
    ∃ calls : List (List (TVal α)), calls.length = n ∧ CallArgs args calls ∧
      ∀ calls', calls'.length = n → CallArgs args calls' → calls' = calls := by
  have hex : ∀ i < n, ∃ vs, getElements i args = some vs := by
    intro i hi
    induction args with
    | nil => exact ⟨[], rfl⟩
    | cons a as ih =>
      obtain ⟨vs, hvs⟩ := ih (fun l hl => h l (by simp [hl]))
      cases a with
      | tuple l =>
        have hl : l.length = n := h l (by simp)
        exact ⟨.elem (l[i]'(by omega)) :: vs, by simp [getElements, getElement, hvs, List.getElem?_eq_getElem (show i < l.length by omega)]⟩
      | rangeIndex => exact ⟨.index i :: vs, by simp [getElements, getElement, hvs]⟩
      | tupleIndex => exact ⟨.indexConstant i :: vs, by simp [getElements, getElement, hvs]⟩
  obtain ⟨calls, _, hlen, hget⟩ := mapM_some_of_forall (fun i => getElements i args) (List.range n)
    (fun i hi => hex i (List.mem_range.1 hi))
  simp only [List.length_range] at hlen
  have hcalls : ∀ i < n, calls[i]? = getElements i args := fun i hi => hget i i (List.getElem?_range hi)
  refine ⟨calls, hlen, ?_, ?_⟩
  · intro i vs hi
    have hlt : i < n := hlen ▸ (List.getElem?_eq_some_iff.1 hi).1
    exact (getElements_iff i args vs).1 (by rw [← hcalls i hlt]; exact hi)
  · intro calls' hlen' hc
    apply List.ext_getElem? ; intro i
    by_cases hi : i < n
    · rw [hcalls i hi, List.getElem?_eq_getElem (show i < calls'.length by omega)]
      exact (getElements_of_callArgs hc i _ (List.getElem?_eq_getElem (show i < calls'.length by omega))).symm
    · rw [List.getElem?_eq_none (by omega), List.getElem?_eq_none (by omega)]

/-- `template_for` calls the functor once per index, in ascending order, and does nothing else. -/
theorem C38_template_for (n : Int) (func : Func α β S) (args : List (TArg α)) (calls : List (List (TVal α))) (s : S)
    (h : AllSize calls.length args) (hn : (n = -1 ∧ HasTuple args) ∨ n = calls.length) (hc : CallArgs args calls) :
    templateFor n func args s = some (calls.foldl (fun s vs => (func vs s).2) s) := by
  unfold templateFor
  rw [tupleTransformSize_of_agree n args calls.length h hn, Option.bind_some, List.range_eq_range']
  exact templateForImpl_calls func args calls 0 s (fun i vs hi => by rw [Nat.zero_add]; exact getElements_of_callArgs hc i vs hi)

/-- `array_transform` returns the results of the calls, made in ascending order. -/
theorem C38_array_transform (n : Int) (func : Func α β S) (args : List (TArg α)) (calls : List (List (TVal α))) (s : S)
    (h : AllSize calls.length args) (hn : (n = -1 ∧ HasTuple args) ∨ n = calls.length) (hc : CallArgs args calls) :
    arrayTransform n func args s = some (mapCalls func calls s) := by
  unfold arrayTransform
  rw [tupleTransformSize_of_agree n args calls.length h hn, Option.bind_some, List.range_eq_range']
  exact arrayTransformImpl_calls func args calls 0 s (fun i vs hi => by rw [Nat.zero_add]; exact getElements_of_callArgs hc i vs hi)

/-- For a functor without side effects, element `i` is the functor applied to the elements at `i`. -/
theorem C38_array_transform_pointwise (n : Int) (f : List (TVal α) → β) (args : List (TArg α)) (calls : List (List (TVal α)))
    (s : S) (h : AllSize calls.length args) (hn : (n = -1 ∧ HasTuple args) ∨ n = calls.length) (hc : CallArgs args calls) :
    arrayTransform n (fun vs s => (f vs, s)) args s = some (calls.map f, s) := by
  rw [C38_array_transform n _ args calls s h hn hc]
  congr 1
  clear h hn hc
  induction calls with
  | nil => rfl
  | cons c cs ih => simp [mapCalls, ih]

/-- `tuple_transform`: whatever evaluation order the compiler chooses, the functor is called once per index in that order, and
each result ends up at its own position. -/
theorem C38_tuple_transform (n : Int) (func : Func α β S) (args : List (TArg α)) (calls : List (List (TVal α))) (order : List Nat)
    (s : S) (h : AllSize calls.length args) (hn : (n = -1 ∧ HasTuple args) ∨ n = calls.length) (hc : CallArgs args calls)
    (ho : order.Perm (List.range calls.length)) :
    ∃ out cs, tupleTransform n func args order s = some (out, (mapCalls func cs s).2) ∧ out.length = calls.length ∧
      List.Forall₂ (fun i c => calls[i]? = some c) order cs ∧
      ∀ (j i : Nat), order[j]? = some i → out[i]? = (mapCalls func cs s).1[j]? := by
  have hmem : ∀ i ∈ order, i < calls.length := fun i hi => List.mem_range.1 (ho.mem_iff.1 hi)
  have hnd : order.Nodup := ho.nodup_iff.2 List.nodup_range
  obtain ⟨cs, hcs⟩ : ∃ cs, List.Forall₂ (fun i c => calls[i]? = some c) order cs := by
    clear ho hnd
    induction order with
    | nil => exact ⟨[], .nil⟩
    | cons i is ih =>
      obtain ⟨cs, hcs⟩ := ih (fun j hj => hmem j (by simp [hj]))
      exact ⟨calls[i]'(hmem i (by simp)) :: cs, .cons (List.getElem?_eq_getElem (hmem i (by simp))) hcs⟩
  have hev := evalCalls_calls func args order cs s (hcs.imp (fun i c hi => getElements_of_callArgs hc i c hi))
  have hlen : (mapCalls func cs s).1.length = order.length := by rw [mapCalls_length]; exact hcs.length_eq.symm
  obtain ⟨out, ha, hol, hoi⟩ := mapM_some_of_forall (fun i => (order.zip (mapCalls func cs s).1).lookup i)
    (List.range calls.length) (by
      intro i hi
      have hio : i ∈ order := ho.mem_iff.2 hi
      obtain ⟨j, hj⟩ := List.mem_iff_getElem?.1 hio
      have hjl : j < order.length := (List.getElem?_eq_some_iff.1 hj).1
      exact ⟨(mapCalls func cs s).1[j]'(by omega), by
        simp only [lookup_zip order _ hnd hlen j i hj]
        exact List.getElem?_eq_getElem (by omega)⟩)
  refine ⟨out, cs, ?_, by simpa using hol, hcs, ?_⟩
  · unfold tupleTransform
    rw [tupleTransformSize_of_agree n args calls.length h hn, Option.bind_some, hev, Option.bind_some]
    simp only [assemble, ha, Option.map_some]
  · intro j i hj
    have hi : i < calls.length := hmem i (List.mem_of_getElem? hj)
    have := hoi i i (List.getElem?_range hi)
    rw [this]
    exact lookup_zip order _ hnd hlen j i hj

/-- For a functor without side effects the evaluation order does not matter. -/
theorem C38_tuple_transform_pointwise (n : Int) (f : List (TVal α) → β) (args : List (TArg α)) (calls : List (List (TVal α)))
    (order : List Nat) (s : S) (h : AllSize calls.length args) (hn : (n = -1 ∧ HasTuple args) ∨ n = calls.length)
    (hc : CallArgs args calls) (ho : order.Perm (List.range calls.length)) :
    tupleTransform n (fun vs s => (f vs, s)) args order s = some (calls.map f, s) := by
  obtain ⟨out, cs, h1, h2, h3, h4⟩ := C38_tuple_transform n (fun vs s => (f vs, s)) args calls order s h hn hc ho
  have hm : ∀ cs, mapCalls (fun vs s => (f vs, s)) cs s = (cs.map f, s) := by
    intro cs
    induction cs with
    | nil => rfl
    | cons c cs ih => simp [mapCalls, ih]
  rw [h1]
  simp only [hm] at h4 ⊢
  congr 2
  apply List.ext_getElem?
  intro i
  by_cases hi : i < calls.length
  · obtain ⟨j, hj⟩ := List.mem_iff_getElem?.1 (ho.mem_iff.2 (List.mem_range.2 hi))
    rw [h4 j i hj]
    have hjl : j < order.length := (List.getElem?_eq_some_iff.1 hj).1
    have hjc : j < cs.length := h3.length_eq ▸ hjl
    have := (List.forall₂_iff_get.1 h3).2 j hjl hjc
    simp only [List.get_eq_getElem] at this
    rw [(List.getElem?_eq_some_iff.1 hj).2] at this
    simp only [List.getElem?_map, this, List.getElem?_eq_getElem hjc, Option.map_some]
  · rw [List.getElem?_eq_none (by omega), List.getElem?_eq_none (by simpa using hi)]

/-- With side effects the result of `tuple_transform` may depend on the order chosen by the compiler - unlike that of
`array_transform`. -/
theorem C38_tuple_transform_order_unspecified :
    let counter : Func Nat Nat Nat := fun _ s => (s, s + 1)
    tupleTransform (-1) counter [.tuple [7, 8]] [0, 1] 0 = some ([0, 1], 2) ∧
    tupleTransform (-1) counter [.tuple [7, 8]] [1, 0] 0 = some ([1, 0], 2) ∧
    arrayTransform (-1) counter [.tuple [7, 8]] 0 = some ([0, 1], 2) := by
  decide

example : let args := [TArg.tuple [5, 6], TArg.rangeIndex]
    let calls := [[TVal.elem 5, .index 0], [.elem 6, .index 1]]
    AllSize 2 args ∧ HasTuple args ∧ calls.length = 2 ∧
      (getElements 0 args = calls[0]? ∧ getElements 1 args = calls[1]?) := by
  refine ⟨?_, ⟨[5, 6], by simp⟩, rfl, rfl, rfl⟩
  intro l hl
  simp at hl
  simp [hl]

/-! ## C39 -/

/-- Without a size argument: well-formed iff there is a tuple argument and all tuple arguments have the same size. -/
theorem C39_no_size (func : Func α β S) (args : List (TArg α)) (s : S) :
    (∃ r, templateFor (-1) func args s = some r) ↔ HasTuple args ∧ ∃ n, AllSize n args := by
  constructor
  · rintro ⟨r, hr⟩
    unfold templateFor at hr
    simp only [Option.bind_eq_some_iff] at hr
    obtain ⟨size, hs, _⟩ := hr
    unfold tupleTransformSize at hs
    simp only [ne_eq, not_true_eq_false, false_or] at hs
    split at hs
    · rename_i hcond
      refine ⟨?_, (equalSizes_fst args).1 hcond.1⟩
      by_contra hno
      rw [equalSizes_none args hno] at hcond
      exact hcond.2.2 rfl
    · cases hs
  · rintro ⟨ht, n, h⟩
    obtain ⟨calls, hl, hc, _⟩ := C38_calls_exist args n h
    exact ⟨_, C38_template_for (-1) func args calls s (hl ▸ h) (.inl ⟨rfl, ht⟩) hc⟩

/-- The same condition decides whether the other algorithms are well-formed. -/
theorem C39_no_size_transform (func : Func α β S) (args : List (TArg α)) (order : List Nat) (s : S)
    (hno : ¬ (HasTuple args ∧ ∃ n, AllSize n args)) :
    tupleTransform (-1) func args order s = none ∧ arrayTransform (-1) func args s = none := by
  have : tupleTransformSize (-1) args = none := by
    unfold tupleTransformSize
    simp only [ne_eq, not_true_eq_false, false_or]
    split
    · rename_i hcond
      exfalso
      refine hno ⟨?_, (equalSizes_fst args).1 hcond.1⟩
      by_contra hh
      rw [equalSizes_none args hh] at hcond
      exact hcond.2.2 rfl
    · rfl
  simp [tupleTransform, arrayTransform, this]

/-- With an explicit size `n`: well-formed iff all tuple arguments have the same size, and none is smaller than `n`. -/
theorem C39_explicit_size (n : Nat) (func : Func α β S) (args : List (TArg α)) (s : S) :
    (∃ r, templateFor n func args s = some r) ↔ ∃ m, AllSize m args ∧ (HasTuple args → n ≤ m) := by
  have hget : ∀ m, AllSize m args → HasTuple args → m < n → getElements m args = none := by
    intro m hm ⟨l, hl⟩ _
    induction args with
    | nil => simp at hl
    | cons a as ih =>
      simp only [List.mem_cons] at hl
      rcases hl with rfl | hl
      · have : l.length = m := hm l (by simp)
        simp [getElements, getElement, List.getElem?_eq_none (show l.length ≤ m by omega)]
      · have := ih (fun l hl => hm l (by simp [hl])) hl
        simp [getElements, this]
  have himpl : ∀ (is : List Nat) (s : S) (i : Nat), i ∈ is → getElements i args = none → templateForImpl func args is s = none := by
    intro is
    induction is with
    | nil => simp
    | cons j js ih =>
      intro s i hi hnone
      simp only [List.mem_cons] at hi
      simp only [templateForImpl, transformElement]
      rcases hi with rfl | hi
      · simp [hnone]
      · cases hj : getElements j args with
        | none => rfl
        | some vs => simp only [Option.map_some, Option.bind_some]; exact ih _ i hi hnone
  constructor
  · rintro ⟨r, hr⟩
    unfold templateFor at hr
    simp only [Option.bind_eq_some_iff] at hr
    obtain ⟨size, hs, hr⟩ := hr
    unfold tupleTransformSize at hs
    simp only at hs
    split at hs
    · rename_i hcond
      obtain ⟨m, hm⟩ := (equalSizes_fst args).1 hcond.1
      refine ⟨m, hm, fun ht => ?_⟩
      by_contra hlt
      have hne : (n : Int) ≠ -1 := by omega
      simp only [ne_eq, hne, not_false_eq_true, if_true, Int.toNat_natCast, Option.some.injEq] at hs
      subst hs
      rw [himpl (List.range n) s m (List.mem_range.2 (by omega)) (hget m hm ht (by omega))] at hr
      cases hr
    · cases hs
  · rintro ⟨m, hm, hle⟩
    have hsz : tupleTransformSize (n : Int) args = some n := by
      unfold tupleTransformSize
      have h1 := (equalSizes_fst args).2 ⟨m, hm⟩
      have hne : (n : Int) ≠ -1 := by omega
      simp only [h1]
      rw [if_pos ⟨trivial, .inl hne, .inl hne⟩]
      simp [hne]
    have hall : ∀ (is : List Nat) (s : S), (∀ i ∈ is, i < n) → ∃ r, templateForImpl func args is s = some r := by
      intro is
      induction is with
      | nil => intro s _; exact ⟨s, rfl⟩
      | cons i is ih =>
        intro s hi
        have hvs : ∃ vs, getElements i args = some vs := by
          have hin := hi i (by simp)
          have hm' : ∀ l, TArg.tuple l ∈ args → i < l.length := by
            intro l hl
            have := hm l hl
            have := hle ⟨l, hl⟩
            omega
          clear hle hm hget himpl ih hsz
          induction args with
          | nil => exact ⟨[], rfl⟩
          | cons a as iha =>
            obtain ⟨vs, hvs⟩ := iha (fun l hl => hm' l (by simp [hl]))
            cases a with
            | tuple l => exact ⟨.elem (l[i]'(hm' l (by simp))) :: vs, by
                simp [getElements, getElement, hvs, List.getElem?_eq_getElem (hm' l (by simp))]⟩
            | rangeIndex => exact ⟨.index i :: vs, by simp [getElements, getElement, hvs]⟩
            | tupleIndex => exact ⟨.indexConstant i :: vs, by simp [getElements, getElement, hvs]⟩
        obtain ⟨vs, hvs⟩ := hvs
        simp only [templateForImpl, transformElement, hvs, Option.map_some, Option.bind_some]
        exact ih _ (fun j hj => hi j (by simp [hj]))
    unfold templateFor
    rw [hsz, Option.bind_some]
    exact hall _ s (fun i hi => List.mem_range.1 hi)

/-- Hence the claim that an explicit size must equal the tuple size is false: a smaller one is accepted and the remaining elements
are ignored. -/
theorem C39_smaller_size_accepted :
    templateFor 1 (fun vs s => ((), s ++ vs)) [.tuple [(7 : Nat), 8]] [] = some [TVal.elem 7] ∧
    templateFor 2 (fun vs s => ((), s ++ vs)) [.tuple [(7 : Nat), 8]] [] = some [TVal.elem 7, .elem 8] := by
  decide

/-- The claim about explicit sizes holds for sizes which are not smaller than the smallest tuple argument. -/
theorem C39_size_agreement_partial (n : Nat) (func : Func α β S) (args : List (TArg α)) (s : S) (ht : HasTuple args)
    (hmin : ∃ l, TArg.tuple l ∈ args ∧ l.length ≤ n) :
    (∃ r, templateFor n func args s = some r) ↔ AllSize n args := by
  rw [C39_explicit_size]
  constructor
  · rintro ⟨m, hm, hle⟩
    obtain ⟨l, hl, hln⟩ := hmin
    have h1 := hm l hl
    have h2 := hle ht
    have : m = n := by omega
    exact this ▸ hm
  · intro h
    exact ⟨n, h, fun _ => Nat.le_refl n⟩

example : HasTuple [TArg.tuple [1, 2], .rangeIndex] ∧ ∃ l, TArg.tuple l ∈ [TArg.tuple [1, 2], .rangeIndex] ∧ l.length ≤ 2 :=
  ⟨⟨[1, 2], by simp⟩, ⟨[1, 2], by simp, by simp⟩⟩

/-! ## C40 -/

/-- `template_transform_reduce` combines from left to right: `reduce(... reduce(initial, transform(calls[0])) ...)`, transforming
each set of elements just before it is combined. -/
theorem C40_transform_reduce (initial : V) (reduce : V → β → S → V × S) (transform : Func α β S) (args : List (TArg α))
    (calls : List (List (TVal α))) (s : S) (h : AllSize calls.length args) (ht : HasTuple args) (hc : CallArgs args calls) :
    templateTransformReduce initial reduce transform args s =
      some (calls.foldl (fun r vs => reduce r.1 (transform vs r.2).1 (transform vs r.2).2) (initial, s)) := by
  unfold templateTransformReduce
  rw [tupleTransformSize_of_agree (-1) args calls.length h (.inl ⟨rfl, ht⟩), Option.bind_some]
  exact transformReduceFn_left _ reduce transform args calls 0 (by omega) initial s
    (fun i vs hi => by rw [Nat.zero_add]; exact getElements_of_callArgs hc i vs hi)

/-- `template_reduce` folds the elements from the left. -/
theorem C40_reduce (t : List α) (initial : V) (reduce : V → TVal α → S → V × S) (s : S) :
    templateReduce t initial reduce s = some (t.foldl (fun r a => reduce r.1 (.elem a) r.2) (initial, s)) := by
  unfold templateReduce
  have hall : AllSize (t.map fun a => [TVal.elem a]).length [TArg.tuple t] := by
    intro l hl
    simp only [List.mem_singleton, TArg.tuple.injEq] at hl
    simp [hl]
  rw [tupleTransformSize_of_agree (-1) _ _ hall (.inl ⟨rfl, t, by simp⟩), Option.bind_some]
  rw [transformReduceFn_left _ reduce _ [TArg.tuple t] (t.map fun a => [TVal.elem a]) 0 (by omega) initial s]
  · rw [List.foldl_map]
    rfl
  · intro i vs hi
    simp only [List.getElem?_map, Option.map_eq_some_iff] at hi
    obtain ⟨a, ha, rfl⟩ := hi
    simp [getElements, getElement, ha]

/-- The (internal) variant for right folds visits the elements from last to first. -/
theorem C40_right_reduce (initial : V) (reduce : V → β → S → V × S) (transform : Func α β S) (args : List (TArg α))
    (calls : List (List (TVal α))) (s : S) (hc : CallArgs args calls) :
    transformReduceFn false calls.length reduce transform args calls.length initial s =
      some (calls.reverse.foldl (fun r vs => reduce r.1 (transform vs r.2).1 (transform vs r.2).2) (initial, s)) :=
  transformReduceFn_right _ reduce transform args calls (Nat.le_refl _) initial s (fun i vs hi => getElements_of_callArgs hc i vs hi)

/-- `template_all_of` is universal quantification; the predicate is called in order up to the first failure. -/
theorem C40_all_of (p : List (TVal α) → Bool) (upd : List (TVal α) → S → S) (args : List (TArg α))
    (calls : List (List (TVal α))) (s : S) (h : AllSize calls.length args) (ht : HasTuple args) (hc : CallArgs args calls) :
    templateAllOf (fun vs s => (p vs, upd vs s)) args s =
      some (decide (∀ vs ∈ calls, p vs = true), (throughFirst (fun vs => !p vs) calls).foldl (fun s vs => upd vs s) s) := by
  unfold templateAllOf
  rw [tupleTransformSize_of_agree (-1) args calls.length h (.inl ⟨rfl, ht⟩), Option.bind_some]
  rw [conjunctionFn_calls _ id p upd args calls 0 (by omega) s (fun i vs hi => by rw [Nat.zero_add]; exact getElements_of_callArgs hc i vs hi)]
  congr 2
  rw [Bool.eq_iff_iff]
  simp

/-- `template_any_of` is existential quantification; the predicate is called in order up to the first success. -/
theorem C40_any_of (p : List (TVal α) → Bool) (upd : List (TVal α) → S → S) (args : List (TArg α))
    (calls : List (List (TVal α))) (s : S) (h : AllSize calls.length args) (ht : HasTuple args) (hc : CallArgs args calls) :
    templateAnyOf (fun vs s => (p vs, upd vs s)) args s =
      some (decide (∃ vs ∈ calls, p vs = true), (throughFirst p calls).foldl (fun s vs => upd vs s) s) := by
  unfold templateAnyOf
  rw [tupleTransformSize_of_agree (-1) args calls.length h (.inl ⟨rfl, ht⟩), Option.bind_some]
  rw [conjunctionFn_calls _ not p upd args calls 0 (by omega) s (fun i vs hi => by rw [Nat.zero_add]; exact getElements_of_callArgs hc i vs hi)]
  simp only [Option.map_some, Bool.not_not]
  congr 2
  rw [Bool.eq_iff_iff]
  simp

/-- `template_none_of`: no set of elements satisfies the predicate; called in order up to the first success. -/
theorem C40_none_of (p : List (TVal α) → Bool) (upd : List (TVal α) → S → S) (args : List (TArg α))
    (calls : List (List (TVal α))) (s : S) (h : AllSize calls.length args) (ht : HasTuple args) (hc : CallArgs args calls) :
    templateNoneOf (fun vs s => (p vs, upd vs s)) args s =
      some (decide (∀ vs ∈ calls, p vs = false), (throughFirst p calls).foldl (fun s vs => upd vs s) s) := by
  unfold templateNoneOf
  rw [tupleTransformSize_of_agree (-1) args calls.length h (.inl ⟨rfl, ht⟩), Option.bind_some]
  rw [conjunctionFn_calls _ not p upd args calls 0 (by omega) s (fun i vs hi => by rw [Nat.zero_add]; exact getElements_of_callArgs hc i vs hi)]
  simp only [Bool.not_not]
  congr 2
  rw [Bool.eq_iff_iff]
  simp

/-- De Morgan: `none_of(p)` is `!any_of(p)` (also for predicates with side effects, and also ill-formed for the same arguments). -/
theorem C40_none_not_any (p : Func α Bool S) (args : List (TArg α)) (s : S) :
    templateNoneOf p args s = (templateAnyOf p args s).map fun r => (!r.1, r.2) := by
  unfold templateNoneOf templateAnyOf
  cases tupleTransformSize (-1) args with
  | none => rfl
  | some size =>
    simp only [Option.bind_some]
    cases conjunctionFn size not p args size s with
    | none => rfl
    | some r => simp

/-- De Morgan: `any_of(p)` is `!all_of(!p)`. -/
theorem C40_any_not_all_not (p : Func α Bool S) (args : List (TArg α)) (s : S) :
    templateAnyOf p args s = (templateAllOf (fun vs s => (!(p vs s).1, (p vs s).2)) args s).map fun r => (!r.1, r.2) := by
  have : ∀ size fuel s, conjunctionFn size not p args fuel s =
      conjunctionFn size id (fun vs s => (!(p vs s).1, (p vs s).2)) args fuel s := by
    intro size fuel
    induction fuel with
    | zero => intro s; rfl
    | succ fuel ih =>
      intro s
      simp only [conjunctionFn, transformElement]
      cases getElements (size - (fuel + 1)) args with
      | none => rfl
      | some vs => simp only [Option.map_some, Option.bind_some, ih, id]
  unfold templateAllOf templateAnyOf
  cases tupleTransformSize (-1) args with
  | none => rfl
  | some size => simp only [Option.bind_some, this]

example : templateReduce [1, 2, 3] ([] : List Nat) (fun acc v s => (acc ++ (match v with | .elem a => [a] | _ => []), s + 1)) 0 =
    some ([1, 2, 3], 3) := by decide

example : templateAnyOf (fun vs s => (vs == [TVal.elem 2], s ++ vs)) [.tuple [1, 2, 3]] [] = some (true, [.elem 1, .elem 2]) := by
  decide

/-! ## C41 -/

/-- The result is the concatenation of all arguments, empty ones included. -/
theorem C41_cat (tuples : List (List α)) : tupleCat tuples = some tuples.flatten := by
  unfold tupleCat
  have hlen : cadd (tuples.map List.length) = tuples.flatten.length := by rw [cadd_eq, List.length_flatten]
  rw [hlen]
  obtain ⟨out, h1, h2, h3⟩ := mapM_some_of_forall (catElement tuples) (List.range tuples.flatten.length) (by
    intro i hi
    have hi := List.mem_range.1 hi
    exact ⟨_, (catElement_eq tuples i hi).trans (List.getElem?_eq_getElem hi)⟩)
  rw [h1]
  congr 1
  apply List.ext_getElem?
  intro i
  by_cases hi : i < tuples.flatten.length
  · rw [h3 i i (List.getElem?_range hi), catElement_eq tuples i hi]
  · rw [List.getElem?_eq_none (by simpa [h2] using hi), List.getElem?_eq_none (by omega)]

/-- Element `c` of argument `r` is at the position after all elements of the arguments before `r`; the size is the sum. -/
theorem C41_positions (tuples : List (List α)) (r c : Nat) (t : List α) (a : α) (hr : tuples[r]? = some t) (hc : t[c]? = some a) :
    ∃ out, tupleCat tuples = some out ∧ out[((tuples.take r).map List.length).sum + c]? = some a ∧
      out.length = (tuples.map List.length).sum := by
  refine ⟨_, C41_cat tuples, ?_, by rw [List.length_flatten]⟩
  induction tuples generalizing r with
  | nil => simp at hr
  | cons t' ts ih =>
    cases r with
    | zero =>
      simp only [List.getElem?_cons_zero, Option.some.injEq] at hr
      subst hr
      simp only [List.take_zero, List.map_nil, List.sum_nil, Nat.zero_add, List.flatten_cons]
      rw [List.getElem?_append_left (List.getElem?_eq_some_iff.1 hc).1]
      exact hc
    | succ r =>
      simp only [List.getElem?_cons_succ] at hr
      simp only [List.take_succ_cons, List.map_cons, List.sum_cons, List.flatten_cons]
      rw [List.getElem?_append_right (by omega)]
      have := ih r hr
      rw [show t'.length + ((ts.take r).map List.length).sum + c - t'.length = ((ts.take r).map List.length).sum + c by omega]
      exact this

example : tupleCat [[1, 2], [], [3]] = some [1, 2, 3] := by decide

/-! ## C42 -/

/-- `operator ==` holds iff the elements at all positions are equal. -/
theorem C42_eq (eq : α → α → Bool) (lhs rhs : List α) :
    valueTupleEq eq lhs rhs = true ↔ ∀ (i : Nat) (a b : α), lhs[i]? = some a → rhs[i]? = some b → eq a b = true := by
  induction lhs generalizing rhs with
  | nil => simp [valueTupleEq]
  | cons a as ih =>
    cases rhs with
    | nil => simp [valueTupleEq]
    | cons b bs =>
      simp only [valueTupleEq, Bool.and_eq_true, ih]
      constructor
      · rintro ⟨h1, h2⟩ i x y hx hy
        cases i with
        | zero => simp only [List.getElem?_cons_zero, Option.some.injEq] at hx hy; subst hx hy; exact h1
        | succ i => exact h2 i x y (by simpa using hx) (by simpa using hy)
      · intro h
        exact ⟨h 0 a b rfl rfl, fun i x y hx hy => h (i + 1) x y (by simpa using hx) (by simpa using hy)⟩

/-- If `==` of the elements is equality, `==` of tuples of the same size is equality. -/
theorem C42_eq_iff_eq [DecidableEq α] (lhs rhs : List α) (hlen : lhs.length = rhs.length) :
    valueTupleEq (fun a b => decide (a = b)) lhs rhs = true ↔ lhs = rhs := by
  rw [C42_eq]
  constructor
  · intro h
    apply List.ext_getElem hlen
    intro i h1 h2
    simpa using h i _ _ (List.getElem?_eq_getElem h1) (List.getElem?_eq_getElem h2)
  · rintro rfl i a b ha hb
    rw [ha] at hb
    simpa using hb

/-- `operator <` and `operator >` are the lexicographic order and its converse. -/
theorem C42_lt (lt : α → α → Bool) (lhs rhs : List α) :
    (valueTupleLt lt lhs rhs = true ↔ LexLt lt lhs rhs) ∧ (valueTupleGt lt lhs rhs = true ↔ LexLt lt rhs lhs) :=
  ⟨valueTupleLtLoop_iff lt lhs rhs, valueTupleLtLoop_iff lt rhs lhs⟩

/-- `operator <=` and `operator >=` are the negations of `>` and `<`. -/
theorem C42_le (lt : α → α → Bool) (lhs rhs : List α) :
    (valueTupleLe lt lhs rhs = true ↔ ¬ LexLt lt rhs lhs) ∧ (valueTupleGe lt lhs rhs = true ↔ ¬ LexLt lt lhs rhs) := by
  unfold valueTupleLe valueTupleGe
  rw [← valueTupleLtLoop_iff lt rhs lhs, ← valueTupleLtLoop_iff lt lhs rhs]
  simp [valueTupleLt]

/-- If the elements are strictly totally ordered, so are the tuples of a size: `<` is irreflexive and transitive, and two tuples
are either equal or ordered. -/
theorem C42_strict_total_order (lt : α → α → Bool) (hirr : ∀ a, lt a a = false)
    (htrans : ∀ a b c, lt a b = true → lt b c = true → lt a c = true)
    (htri : ∀ a b, lt a b = false → lt b a = false → a = b) :
    (∀ x, valueTupleLt lt x x = false) ∧
    (∀ x y z, x.length = y.length → y.length = z.length → valueTupleLt lt x y = true → valueTupleLt lt y z = true →
      valueTupleLt lt x z = true) ∧
    (∀ x y, x.length = y.length → valueTupleLt lt x y = false → valueTupleLt lt y x = false → x = y) := by
  refine ⟨?_, ?_, ?_⟩
  · intro x
    unfold valueTupleLt
    induction x with
    | nil => rfl
    | cons a as ih => simp [valueTupleLtLoop, hirr, ih]
  · intro x
    unfold valueTupleLt
    induction x with
    | nil => intro y z _ _ h _; simp [valueTupleLtLoop] at h
    | cons a as ih =>
      intro y z hxy hyz h1 h2
      cases y with
      | nil => simp at hxy
      | cons b bs =>
        cases z with
        | nil => simp at hyz
        | cons c cs =>
          simp only [valueTupleLtLoop] at h1 h2 ⊢
          have hasym : ∀ a b, lt a b = true → lt b a = false := by
            intro a b h
            cases h' : lt b a with
            | false => rfl
            | true => have := htrans a b a h h'; rw [hirr] at this; cases this
          by_cases hab : lt a b = true
          · by_cases hbc : lt b c = true
            · rw [if_pos (htrans a b c hab hbc)]
            · rw [if_neg hbc] at h2
              by_cases hcb : lt c b = true
              · rw [if_pos hcb] at h2; cases h2
              · simp only [Bool.not_eq_true] at hbc hcb
                have := htri b c hbc hcb
                subst this
                rw [if_pos hab]
          · rw [if_neg hab] at h1
            by_cases hba : lt b a = true
            · rw [if_pos hba] at h1; cases h1
            · rw [if_neg hba] at h1
              simp only [Bool.not_eq_true] at hab hba
              have := htri a b hab hba
              subst this
              by_cases hbc : lt a c = true
              · rw [if_pos hbc]
              · rw [if_neg hbc] at h2 ⊢
                by_cases hcb : lt c a = true
                · rw [if_pos hcb] at h2; cases h2
                · rw [if_neg hcb] at h2 ⊢
                  exact ih bs cs (by simpa using hxy) (by simpa using hyz) h1 h2
  · intro x
    unfold valueTupleLt
    induction x with
    | nil => intro y h _ _; exact (List.length_eq_zero_iff.1 h.symm).symm
    | cons a as ih =>
      intro y hlen h1 h2
      cases y with
      | nil => simp at hlen
      | cons b bs =>
        simp only [valueTupleLtLoop] at h1 h2
        by_cases hab : lt a b = true
        · rw [if_pos hab] at h1; cases h1
        · rw [if_neg hab] at h1 h2
          by_cases hba : lt b a = true
          · rw [if_pos hba] at h2; cases h2
          · rw [if_neg hba] at h1 h2
            simp only [Bool.not_eq_true] at hab hba
            rw [htri a b hab hba, ih bs (by simpa using hlen) h1 h2]

/-- Then `<=` means "less or equal" and `>=` "greater or equal". -/
theorem C42_le_iff (lt : α → α → Bool) (hirr : ∀ a, lt a a = false)
    (htrans : ∀ a b c, lt a b = true → lt b c = true → lt a c = true)
    (htri : ∀ a b, lt a b = false → lt b a = false → a = b) (x y : List α) (hlen : x.length = y.length) :
    (valueTupleLe lt x y = true ↔ valueTupleLt lt x y = true ∨ x = y) ∧
    (valueTupleGe lt x y = true ↔ valueTupleGt lt x y = true ∨ x = y) := by
  obtain ⟨h1, h2, h3⟩ := C42_strict_total_order lt hirr htrans htri
  have key : ∀ x y : List α, x.length = y.length → (valueTupleLt lt y x = false ↔ valueTupleLt lt x y = true ∨ x = y) := by
    intro x y hlen
    constructor
    · intro h
      cases hxy : valueTupleLt lt x y with
      | true => exact .inl rfl
      | false => exact .inr (h3 x y hlen hxy h)
    · rintro (h | rfl)
      · cases hyx : valueTupleLt lt y x with
        | false => rfl
        | true => have := h2 x y x hlen hlen.symm h hyx; rw [h1] at this; cases this
      · exact h1 x
  constructor
  · simp only [valueTupleLe, Bool.not_eq_true', key x y hlen]
  · simp only [valueTupleGe, valueTupleGt, Bool.not_eq_true', key y x hlen.symm, eq_comm (a := x)]

/-- A tuple with elements of different types as a list of elements tagged with their positions. -/
def tagged {n : Nat} {T : Fin n → Type} (x : (i : Fin n) → T i) : List (Σ i, T i) := List.ofFn fun i => ⟨i, x i⟩

/-- An operator of the element types as an operator of tagged elements (which are only compared at equal positions). -/
def taggedOp {n : Nat} {T : Fin n → Type} (op : (i : Fin n) → T i → T i → Bool) (a b : Σ i, T i) : Bool :=
  if h : a.1 = b.1 then op b.1 (h ▸ a.2) b.2 else false

/-- Elements of different types, each with its own operators: `==` compares all positions, `!=` likewise (see C43), and `<` is the
lexicographic order. -/
theorem C42_element_types {n : Nat} {T : Fin n → Type} (eq ne lt : (i : Fin n) → T i → T i → Bool) (x y : (i : Fin n) → T i) :
    (valueTupleEq (taggedOp eq) (tagged x) (tagged y) = true ↔ ∀ i, eq i (x i) (y i) = true) ∧
    (valueTupleNe (taggedOp ne) (tagged x) (tagged y) = true ↔ ∀ i, ne i (x i) (y i) = true) ∧
    (valueTupleLt (taggedOp lt) (tagged x) (tagged y) = true ↔
      ∃ k, lt k (x k) (y k) = true ∧ ∀ j < k, lt j (x j) (y j) = false ∧ lt j (y j) (x j) = false) := by
  have get : ∀ (z : (i : Fin n) → T i) (k : Nat) (a : Σ i, T i), (tagged z)[k]? = some a ↔ ∃ h : k < n, a = ⟨⟨k, h⟩, z ⟨k, h⟩⟩ := by
    intro z k a
    unfold tagged
    rw [List.getElem?_ofFn]
    split
    · rename_i h
      simp [h, eq_comm]
    · rename_i h
      simp [h]
  have self : ∀ (op : (i : Fin n) → T i → T i → Bool) (i : Fin n) (a b : T i), taggedOp op ⟨i, a⟩ ⟨i, b⟩ = op i a b := by
    intro op i a b
    simp [taggedOp]
  have all : ∀ op : (i : Fin n) → T i → T i → Bool,
      valueTupleEq (taggedOp op) (tagged x) (tagged y) = true ↔ ∀ i, op i (x i) (y i) = true := by
    intro op
    rw [C42_eq]
    constructor
    · intro h i
      have := h i.1 _ _ ((get x i.1 _).2 ⟨i.2, rfl⟩) ((get y i.1 _).2 ⟨i.2, rfl⟩)
      rwa [self] at this
    · intro h k a b ha hb
      obtain ⟨hk, rfl⟩ := (get x k a).1 ha
      obtain ⟨_, rfl⟩ := (get y k b).1 hb
      rw [self]
      exact h ⟨k, hk⟩
  have ne_eq : ∀ (op : (Σ i, T i) → (Σ i, T i) → Bool) (l r : List (Σ i, T i)), valueTupleNe op l r = valueTupleEq op l r := by
    intro op l
    induction l with
    | nil => intro r; simp [valueTupleNe, valueTupleEq]
    | cons a l ih => intro r; cases r <;> simp [valueTupleNe, valueTupleEq, ih]
  refine ⟨all eq, by rw [ne_eq]; exact all ne, ?_⟩
  · rw [(C42_lt _ _ _).1]
    constructor
    · rintro ⟨k, a, b, ha, hb, hlt, hj⟩
      obtain ⟨hk, rfl⟩ := (get x k a).1 ha
      obtain ⟨_, rfl⟩ := (get y k b).1 hb
      rw [self] at hlt
      refine ⟨⟨k, hk⟩, hlt, ?_⟩
      intro j hjk
      have := hj j.1 hjk _ _ ((get x j.1 _).2 ⟨j.2, rfl⟩) ((get y j.1 _).2 ⟨j.2, rfl⟩)
      rwa [self, self] at this
    · rintro ⟨k, hlt, hj⟩
      refine ⟨k.1, _, _, (get x k.1 _).2 ⟨k.2, rfl⟩, (get y k.1 _).2 ⟨k.2, rfl⟩, by rw [self]; exact hlt, ?_⟩
      intro j hjk a b ha hb
      obtain ⟨hj', rfl⟩ := (get x j a).1 ha
      obtain ⟨_, rfl⟩ := (get y j b).1 hb
      rw [self, self]
      exact hj ⟨j, hj'⟩ hjk

example : valueTupleLt (taggedOp (n := 2) (T := fun i => if i = 0 then Nat else Bool)
    (fun i => match i with | 0 => fun (a b : Nat) => decide (a < b) | 1 => fun (a b : Bool) => !a && b))
    (tagged fun i => match i with | 0 => (3 : Nat) | 1 => false) (tagged fun i => match i with | 0 => (3 : Nat) | 1 => true) = true := by
  decide

/-- Without a total order of the elements `<=` is not "less or equal": for elements none of which is less than another (such as
a floating-point NaN and a number), `<=` and `>=` both hold although neither `<`, `>` nor `==` does. -/
theorem C42_le_unordered : valueTupleLe (fun _ _ : Nat => false) [1] [2] = true ∧ valueTupleGe (fun _ _ : Nat => false) [1] [2] = true ∧
    valueTupleLt (fun _ _ : Nat => false) [1] [2] = false ∧ valueTupleGt (fun _ _ : Nat => false) [1] [2] = false ∧
    valueTupleEq (fun _ _ : Nat => false) [1] [2] = false := by
  decide

example : (∀ a : Nat, decide (a < a) = false) ∧ (∀ a b c : Nat, decide (a < b) = true → decide (b < c) = true → decide (a < c) = true) ∧
    (∀ a b : Nat, decide (a < b) = false → decide (b < a) = false → a = b) := by
  refine ⟨by simp, ?_, ?_⟩ <;> intros <;> simp_all <;> omega

example : valueTupleLt (fun a b : Nat => decide (a < b)) [1, 2, 3] [1, 3, 0] = true := by decide

/-! ## C43 -/

/-- `!=` holds iff the elements differ at every position. -/
theorem C43_ne_all_differ (ne : α → α → Bool) (lhs rhs : List α) :
    valueTupleNe ne lhs rhs = true ↔ ∀ (i : Nat) (a b : α), lhs[i]? = some a → rhs[i]? = some b → ne a b = true := by
  have : valueTupleNe ne lhs rhs = valueTupleEq ne lhs rhs := by
    induction lhs generalizing rhs with
    | nil => cases rhs <;> rfl
    | cons a as ih => cases rhs with
      | nil => rfl
      | cons b bs => simp only [valueTupleNe, valueTupleEq, ih]
  rw [this, C42_eq]

/-- Hence the claim is false: `(1, 2)` and `(1, 3)` are neither equal nor unequal, and empty tuples are both. -/
theorem C43_not_negation :
    valueTupleEq (fun a b : Nat => a == b) [1, 2] [1, 3] = false ∧ valueTupleNe (fun a b : Nat => a != b) [1, 2] [1, 3] = false ∧
    valueTupleEq (fun a b : Nat => a == b) [] [] = true ∧ valueTupleNe (fun a b : Nat => a != b) [] [] = true := by
  decide

/-- The claim holds exactly for pairs of non-empty tuples which are equal everywhere or nowhere. -/
theorem C43_negation_iff (eq : α → α → Bool) (lhs rhs : List α) (hlen : lhs.length = rhs.length) :
    valueTupleNe (fun a b => !eq a b) lhs rhs = !valueTupleEq eq lhs rhs ↔
      lhs ≠ [] ∧ ((∀ p ∈ lhs.zip rhs, eq p.1 p.2 = true) ∨ (∀ p ∈ lhs.zip rhs, eq p.1 p.2 = false)) := by
  have h1 : ∀ (e : α → α → Bool) (l r : List α), valueTupleEq e l r = (l.zip r).all fun p => e p.1 p.2 := by
    intro e l
    induction l with
    | nil => intro r; rfl
    | cons a as ih => intro r; cases r with
      | nil => rfl
      | cons b bs => simp [valueTupleEq, ih]
  have h2 : ∀ (e : α → α → Bool) (l r : List α), valueTupleNe e l r = (l.zip r).all fun p => e p.1 p.2 := by
    intro e l
    induction l with
    | nil => intro r; rfl
    | cons a as ih => intro r; cases r with
      | nil => rfl
      | cons b bs => simp [valueTupleNe, ih]
  rw [h1, h2]
  cases lhs with
  | nil => simp
  | cons a as =>
    cases rhs with
    | nil => simp at hlen
    | cons b bs =>
      constructor
      · intro h
        refine ⟨by simp, ?_⟩
        cases hE : ((a :: as).zip (b :: bs)).all fun p => eq p.1 p.2 with
        | true => exact .inl (List.all_eq_true.1 hE)
        | false =>
          rw [hE] at h
          refine .inr (fun p hp => ?_)
          have := List.all_eq_true.1 h p hp
          simpa using this
      · rintro ⟨_, h | h⟩
        · have hE : (((a :: as).zip (b :: bs)).all fun p => eq p.1 p.2) = true := List.all_eq_true.2 h
          rw [hE]
          have := h (a, b) (by simp)
          simp only at this
          simp [this]
        · have hN : (((a :: as).zip (b :: bs)).all fun p => !eq p.1 p.2) = true :=
            List.all_eq_true.2 (fun p hp => by simp [h p hp])
          rw [hN]
          have := h (a, b) (by simp)
          simp only at this
          simp [this]

/-- In particular `!=` is the negation of `==` for tuples with one element. -/
theorem C43_negation_partial (eq : α → α → Bool) (a b : α) :
    valueTupleNe (fun a b => !eq a b) [a] [b] = !valueTupleEq eq [a] [b] := by
  simp [valueTupleNe, valueTupleEq]

/-! ## C44 -/

/-- For any type and increment: if `array_iota<n>(v)` returns, it has `n` elements and element `i` is `v` incremented `i`
times. -/
theorem C44_iota_elements (inc : α → Outcome α) (n : Nat) (out : List α) (v : α) (h : arrayIota inc n v = .ok out) :
    out.length = n ∧ ∀ i < n, ∃ w, incremented inc i v = .ok w ∧ out[i]? = some w := by
  have := C34_iota_elements inc id (List.replicate n v) out v (by rw [← arrayIota_eq_rangeIota]; simpa using h)
  simpa using this

/-- It returns iff the value can be incremented `n` times, once more than needed. -/
theorem C44_iota_returns_iff (inc : α → Outcome α) (n : Nat) (v : α) :
    (∃ out, arrayIota inc n v = .ok out) ↔ ∃ w, incremented inc n v = .ok w := by
  have := C34_iota_returns_iff inc id (List.replicate n v) v
  rw [← arrayIota_eq_rangeIota] at this
  simpa using this

/-- Integers: `v, v + 1, ..., v + n - 1` if the value after the last element is still representable. -/
theorem C44_iota_integers {t : IntTy} (ht : StdWidth t) (n : Nat) (v : Int) (hv : t.minVal ≤ v) (hmax : v + n ≤ t.maxVal) :
    arrayIota t.inc n v = .ok ((List.range n).map fun (i : Nat) => v + i) := by
  have := C34_iota_integers ht id (List.replicate n v) v hv (by simpa using hmax)
  rw [← arrayIota_eq_rangeIota] at this
  simpa using this

/-- Signed types as wide as `int`: undefined if the value after the last element is not representable. -/
theorem C44_iota_undefined {t : IntTy} (ht : StdWidth t) (hs : t.signed = true) (hw : 32 ≤ t.bits) (n : Nat) (v : Int)
    (hv : t.InRange v) (hmax : t.maxVal < v + n) : arrayIota t.inc n v = .ub := by
  have := C34_iota_undefined ht hs hw id (List.replicate n v) v hv (by simpa using hmax)
  rw [← arrayIota_eq_rangeIota] at this
  simpa using this

/-- Unsigned and narrow types wrap around. -/
theorem C44_iota_wraps {t : IntTy} (ht : StdWidth t) (hs : t.signed = false ∨ t.bits < 32) (n : Nat) (v : Int)
    (hv : t.InRange v) : arrayIota t.inc n v = .ok ((List.range n).map fun (i : Nat) => t.wrap (v + i)) := by
  have := C34_iota_wraps ht hs id (List.replicate n v) v hv
  rw [← arrayIota_eq_rangeIota] at this
  simpa using this

/-- `array_iota<1>(INT_MAX)` is undefined although its only element is representable. -/
theorem C44_iota_past_last : arrayIota (IntTy.inc ⟨32, true⟩) 1 2147483647 = .ub ∧ (⟨32, true⟩ : IntTy).InRange 2147483647 := by
  constructor <;> decide

/-- `array_fill<n>(v)` is `n` copies of `v`. -/
theorem C44_fill (n : Nat) (v : α) : arrayFill n v = some (List.replicate n v) := by
  have h : arrayTransformImpl (α := Empty) (S := Unit) (fun _ s => (v, s)) [] (List.range' 0 (List.replicate n []).length) () =
      some (mapCalls (fun _ s => (v, s)) (List.replicate n []) ()) :=
    arrayTransformImpl_calls _ [] (List.replicate n []) 0 () (by
      intro i vs hi
      have := List.mem_of_getElem? hi
      rw [(List.mem_replicate.1 this).2]
      rfl)
  have hm : (mapCalls (α := Empty) (fun _ (s : Unit) => (v, s)) (List.replicate n []) ()).1 = List.replicate n v := by
    clear h
    induction n with
    | zero => rfl
    | succ n ih => simp [List.replicate_succ, mapCalls, ih]
  unfold arrayFill
  rw [List.range_eq_range']
  rw [List.length_replicate] at h
  rw [h, Option.map_some, hm]

example : StdWidth ⟨64, true⟩ ∧ arrayIota (IntTy.inc ⟨64, true⟩) 3 1 = .ok [1, 2, 3] := ⟨by simp [StdWidth], by decide⟩

example : StdWidth ⟨8, false⟩ ∧ arrayIota (IntTy.inc ⟨8, false⟩) 3 254 = .ok [254, 255, 0] := ⟨by simp [StdWidth], by decide⟩

end Makeshift.Props
