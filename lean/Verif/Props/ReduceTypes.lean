import Verif.Lemmas.ReduceTypes
import Verif.Props.Zip
import Verif.Props.TupleAlgo

/-! # C137: the type in which reductions are computed -/

namespace Makeshift.Props

open Makeshift.Spec

/-! ## ranges -/

/-- `range_reduce` returns the mathematical result if it and all intermediate results are values of the type of the initial value, whatever the type of
the elements is; no operation is undefined then. -/
theorem C137_range_exact (op : ArithOp) (t u : IntTy) (ht : StdWidth t) (hu : StdWidth u) (init : Int) (elems : List Int)
    (he : ∀ e ∈ elems, u.InRange e) (hp : ∀ k ≤ elems.length, t.InRange (mathResult op init (elems.take k))) :
    rangeReduceInt op t u init elems = .ok (mathResult op init elems) := by
  induction elems generalizing init with
  | nil => rfl
  | cons e l ih =>
    have h0 : t.InRange init := hp 0 (Nat.zero_le _)
    have h1 : t.InRange (mathOp op init e) := hp 1 (by simp)
    have hstep : reduceAssign op t u (.ok init) e = .ok (mathOp op init e) := by
      cases hs : (t.common u).signed
      · rw [reduceAssign_unsigned op ht hu hs, wrap_id ht h1]
      · rw [reduceAssign_signed op ht hu hs h0 (he e (by simp)), if_pos (common_inRange_left ht hu hs h1), wrap_id ht h1]
    rw [rangeReduceInt_cons, hstep]
    exact ih (mathOp op init e) (fun e' h => he e' (by simp [h])) fun k hk => hp (k + 1) (by simpa using hk)

example : rangeReduceInt .plus .ptrdiffT .sizeT 0 [7, 6] = .ok 13 :=
  C137_range_exact .plus _ _ (by simp [StdWidth, IntTy.ptrdiffT]) (by simp [StdWidth, IntTy.sizeT]) 0 [7, 6] (by decide) (by decide)

-- a negative initial value and unsigned elements
example : rangeReduceInt .plus ⟨32, true⟩ ⟨32, false⟩ (-5) [3] = .ok (-2) :=
  C137_range_exact .plus _ _ (by simp [StdWidth]) (by simp [StdWidth]) (-5) [3] (by decide) (by decide)

/-- If elements and initial value have an unsigned common type, the reduction is always defined: it is the mathematical result, converted to the type of the
initial value. -/
theorem C137_range_unsigned (op : ArithOp) (t u : IntTy) (ht : StdWidth t) (hu : StdWidth u) (hs : (t.common u).signed = false) (init : Int)
    (hi : t.InRange init) (elems : List Int) : rangeReduceInt op t u init elems = .ok (t.wrap (mathResult op init elems)) := by
  induction elems generalizing init with
  | nil =>
    show Outcome.ok init = _
    rw [show mathResult op init [] = init from rfl, wrap_id ht hi]
  | cons e l ih =>
    rw [rangeReduceInt_cons, reduceAssign_unsigned op ht hu hs]
    have := ih (t.wrap (mathOp op init e)) (wrap_inRange ht _)
    rw [show rangeReduce (.ok (t.wrap (mathOp op init e))) (reduceAssign op t u) l = rangeReduceInt op t u (t.wrap (mathOp op init e)) l from rfl, this]
    congr 1
    exact wrap_congr (mathResult_modEq op (wrap_modEq _ _) l)

example : rangeReduceInt .plus ⟨32, true⟩ ⟨32, false⟩ 2147483647 [1] = .ok (-2147483648) := by decide

/-- Otherwise the reduction is undefined exactly if a call of the function object overflows the common type: the operands of the call for element `k` are
the result so far, converted to the type of the initial value, and the element. -/
theorem C137_range_signed (op : ArithOp) (t u : IntTy) (ht : StdWidth t) (hu : StdWidth u) (hs : (t.common u).signed = true) (init : Int)
    (hi : t.InRange init) (elems : List Int) (he : ∀ e ∈ elems, u.InRange e) :
    rangeReduceInt op t u init elems =
      if ∀ k, (h : k < elems.length) → (t.common u).InRange (mathOp op (t.wrap (mathResult op init (elems.take k))) elems[k]) then
        .ok (t.wrap (mathResult op init elems))
      else .ub := by
  induction elems generalizing init with
  | nil =>
    rw [if_pos (by simp)]
    show Outcome.ok init = _
    rw [show mathResult op init [] = init from rfl, wrap_id ht hi]
  | cons e l ih =>
    rw [rangeReduceInt_cons, reduceAssign_signed op ht hu hs hi (he e (by simp))]
    have hcongr : ∀ l', t.wrap (mathResult op (t.wrap (mathOp op init e)) l') = t.wrap (mathResult op init (e :: l')) := fun l' =>
      wrap_congr (mathResult_modEq op (wrap_modEq _ _) l')
    by_cases h : (t.common u).InRange (mathOp op init e)
    · rw [if_pos h]
      have := ih (t.wrap (mathOp op init e)) (wrap_inRange ht _) (fun e' h => he e' (by simp [h]))
      rw [show rangeReduce (.ok (t.wrap (mathOp op init e))) (reduceAssign op t u) l = rangeReduceInt op t u (t.wrap (mathOp op init e)) l from rfl, this,
        hcongr]
      congr 1
      apply propext
      constructor
      · intro h' k hk
        cases k with
        | zero => simpa [mathResult, wrap_id ht hi] using h
        | succ k =>
          have := h' k (by simpa using hk)
          rwa [hcongr] at this
      · intro h' k hk
        have := h' (k + 1) (by simpa using hk)
        rw [hcongr]
        exact this
    · rw [if_neg h, rangeReduce_ub, if_neg]
      intro h'
      apply h
      have := h' 0 (by simp)
      simpa [mathResult, wrap_id ht hi] using this

example : rangeReduceInt .plus ⟨32, true⟩ ⟨32, true⟩ 2147483647 [1, -1] = .ub := by decide
example : rangeReduceInt .plus ⟨32, true⟩ ⟨64, true⟩ 2147483647 [1, -1] = .ok 2147483647 := by decide

/-- Sums and differences in types narrower than `int` are always defined. -/
theorem C137_narrow_sum (op : ArithOp) (hop : op ≠ .multiplies) (t u : IntTy) (ht : StdWidth t) (hu : StdWidth u) (ht' : t.bits < 32) (hu' : u.bits < 32)
    (init : Int) (hi : t.InRange init) (elems : List Int) (he : ∀ e ∈ elems, u.InRange e) :
    rangeReduceInt op t u init elems = .ok (t.wrap (mathResult op init elems)) := by
  have hc : t.common u = ⟨32, true⟩ := by simp [IntTy.common, IntTy.promote, ht', hu']
  rw [C137_range_signed op t u ht hu (by rw [hc]) init hi elems he, if_pos]
  intro k hk
  have h1 := wrap_inRange ht (mathResult op init (elems.take k))
  have h2 := he _ (List.getElem_mem hk)
  rw [hc]
  generalize t.wrap (mathResult op init (elems.take k)) = x at h1
  generalize elems[k] = y at h2
  obtain ⟨b, s⟩ := t
  obtain ⟨b', s'⟩ := u
  cases op <;> simp only [ne_eq, not_true_eq_false] at hop <;> clear hc <;>
    cases s <;> cases s' <;> rcases ht with h | h | h | h <;> simp only at h <;> subst h <;> (try omega) <;> rcases hu with h | h | h | h <;>
    simp only at h <;> subst h <;> (try omega) <;> simp [IntTy.InRange, IntTy.minVal, IntTy.maxVal, mathOp] at * <;> omega

example : rangeReduceInt .plus ⟨8, false⟩ ⟨8, false⟩ 200 [100] = .ok 44 := by decide

/-- Products in types narrower than `int` need not be: they are computed in `int`, even if the types are unsigned. -/
theorem C137_narrow_product : ¬ ∀ (t u : IntTy), StdWidth t → StdWidth u → t.bits < 32 → u.bits < 32 → t.signed = false → u.signed = false →
    ∀ (init : Int) (elems : List Int), t.InRange init → (∀ e ∈ elems, u.InRange e) → rangeReduceInt .multiplies t u init elems ≠ .ub := by
  intro h
  exact h ⟨16, false⟩ ⟨16, false⟩ (by simp [StdWidth]) (by simp [StdWidth]) (by decide) (by decide) rfl rfl 65535 [65535] (by decide) (by decide) (by decide)

/-- `range_transform_reduce` computes with the results of the transformation, one for every tuple of elements, in the same way. -/
theorem C137_range_transform {α : Type} (op : ArithOp) (t u : IntTy) (init : Int) (transform : List (Arg α) → Int) (rs : List (Rng α)) (hv : ValidArgs rs)
    (n : Nat) (hn : AllLength rs n) (fuel : Nat) (hf : n < fuel) :
    ∃ ts, Zipped rs n ts ∧
      rangeTransformReduceInt op t u init transform rs fuel = .done (rangeReduceInt op t u init (ts.map transform)) (.ok ()) := by
  obtain ⟨ts, hz, h⟩ := C32_transform_reduce rs hv n hn fuel hf (.ok init) (reduceAssign op t u) transform
  refine ⟨ts, hz, ?_⟩
  unfold rangeTransformReduceInt rangeReduceInt
  rw [h, C32_reduce]

example : ∃ ts, Zipped sampleRanges 3 ts ∧
    rangeTransformReduceInt .plus .ptrdiffT .sizeT 0 (fun a => a.length) sampleRanges 4 =
      .done (rangeReduceInt .plus .ptrdiffT .sizeT 0 (ts.map fun a => (a.length : Int))) (.ok ()) :=
  C137_range_transform .plus .ptrdiffT .sizeT 0 _ sampleRanges sampleRanges_valid 3 sampleRanges_length 4 (by decide)

/-! ## tuples -/

private theorem template_fold (op : ArithOp) (init : IntTy × Int) (elems : List (IntTy × Int)) :
    templateReduceInt op init elems = some (elems.foldl (reducePass op) (.ok init)) := by
  unfold templateReduceInt
  rw [C40_reduce, Option.map_some]
  congr 1
  generalize Outcome.ok init = v
  induction elems generalizing v with
  | nil => rfl
  | cons e l ih => exact ih _

/-- The type of the result of `template_reduce` is the common type of everything seen; without elements it is the type of the initial value. -/
theorem C137_template_type (op : ArithOp) (init : IntTy × Int) (elems : List (IntTy × Int)) (r : IntTy × Int)
    (h : templateReduceInt op init elems = some (.ok r)) : r.1 = resultType init.1 (elems.map Prod.fst) := by
  rw [template_fold, Option.some.injEq] at h
  induction elems generalizing init with
  | nil =>
    simp only [List.foldl_nil, Outcome.ok.injEq] at h
    rw [← h]; rfl
  | cons e l ih =>
    rw [List.foldl_cons] at h
    cases hc : op.call init.1 e.1 init.2 e.2 with
    | ok v =>
      have hr : reducePass op (.ok init) e = .ok (init.1.common e.1, v) := by unfold reducePass; rw [Outcome.bind_ok, hc]; rfl
      rw [hr] at h
      exact ih _ h
    | ub =>
      have hr : reducePass op (.ok init) e = .ub := by unfold reducePass; rw [Outcome.bind_ok, hc]; rfl
      rw [hr, reducePass_fold_ub] at h
      exact absurd h (by simp)
    | failFast => unfold ArithOp.call IntTy.arith at hc; split at hc <;> (try split at hc) <;> simp at hc
    | throw m => unfold ArithOp.call IntTy.arith at hc; split at hc <;> (try split at hc) <;> simp at hc

example : templateReduceInt .plus (⟨8, true⟩, 1) [(⟨16, true⟩, 2), (⟨64, false⟩, 3), (⟨32, true⟩, 4)] = some (.ok (⟨64, false⟩, 10)) := by decide

/-- `template_reduce` returns the mathematical result if every intermediate result is a value of the common type of what has been seen so far. -/
theorem C137_template_exact (op : ArithOp) (init : IntTy × Int) (elems : List (IntTy × Int)) (ht : StdWidth init.1) (hu : ∀ e ∈ elems, StdWidth e.1)
    (he : ∀ e ∈ elems, e.1.InRange e.2)
    (hp : ∀ k ≤ elems.length, (resultType init.1 ((elems.take k).map Prod.fst)).InRange (mathResult op init.2 ((elems.take k).map Prod.snd))) :
    templateReduceInt op init elems =
      some (.ok (resultType init.1 (elems.map Prod.fst), mathResult op init.2 (elems.map Prod.snd))) := by
  rw [template_fold]
  congr 1
  induction elems generalizing init with
  | nil => rfl
  | cons e l ih =>
    have h0 : init.1.InRange init.2 := hp 0 (Nat.zero_le _)
    have h1 : (init.1.common e.1).InRange (mathOp op init.2 e.2) := hp 1 (by simp)
    have hstep : reducePass op (.ok init) e = .ok (init.1.common e.1, mathOp op init.2 e.2) := by
      unfold reducePass
      rw [Outcome.bind_ok]
      cases hs : (init.1.common e.1).signed
      · rw [call_unsigned op hs, wrap_id (common_std ht (hu e (by simp))) h1]; rfl
      · rw [call_signed op ht (hu e (by simp)) hs h0 (he e (by simp)), if_pos h1]; rfl
    rw [List.foldl_cons, hstep]
    exact ih (init.1.common e.1, mathOp op init.2 e.2) (common_std ht (hu e (by simp))) (fun e' h => hu e' (by simp [h])) (fun e' h => he e' (by simp [h]))
      fun k hk => hp (k + 1) (by simpa using hk)

example : templateReduceInt .plus (.sizeT, 0) [(.sizeT, 7), (.sizeT, 6)] = some (.ok (.sizeT, 13)) :=
  C137_template_exact .plus (.sizeT, 0) _ (by simp [StdWidth, IntTy.sizeT]) (by simp [StdWidth, IntTy.sizeT]) (by decide) (by decide)

/-- Whenever it is defined, the result is right modulo two to the width of the type of the first result. -/
theorem C137_template_modular (op : ArithOp) (init e : IntTy × Int) (elems : List (IntTy × Int)) (ht : StdWidth init.1) (he : StdWidth e.1)
    (hu : ∀ e ∈ elems, StdWidth e.1) (r : IntTy × Int) (h : templateReduceInt op init (e :: elems) = some (.ok r)) :
    r.2 ≡ mathResult op init.2 ((e :: elems).map Prod.snd) [ZMOD (2 ^ (init.1.common e.1).bits : Nat)] := by
  have hcall : ∀ t u a b v, op.call t u a b = .ok v → v ≡ mathOp op a b [ZMOD (2 ^ (t.common u).bits : Nat)] := by
    intro t u a b v hv
    unfold ArithOp.call IntTy.arith at hv
    rw [apply_eq_mathOp] at hv
    have hm := mathOp_modEq op (wrap_modEq (t.common u) a) (wrap_modEq (t.common u) b)
    split at hv
    · split at hv
      · simp only [Outcome.ok.injEq] at hv; rw [← hv]; exact hm
      · exact absurd hv (by simp)
    · simp only [Outcome.ok.injEq] at hv
      rw [← hv]
      exact (wrap_modEq _ _).trans hm
  have hother : ∀ t u a b, (∃ v, op.call t u a b = .ok v) ∨ op.call t u a b = .ub := by
    intro t u a b
    unfold ArithOp.call IntTy.arith
    split
    · split
      · exact .inl ⟨_, rfl⟩
      · exact .inr rfl
    · exact .inl ⟨_, rfl⟩
  have key : ∀ (l : List (IntTy × Int)) (n : Nat) (x y : IntTy × Int), (∀ e ∈ l, StdWidth e.1) → StdWidth x.1 → n ≤ x.1.bits →
      x.2 ≡ y.2 [ZMOD (2 ^ n : Nat)] → l.foldl (reducePass op) (.ok x) = .ok r →
      r.2 ≡ mathResult op y.2 (l.map Prod.snd) [ZMOD (2 ^ n : Nat)] := by
    intro l
    induction l with
    | nil =>
      intro n x y _ _ _ hxy hr
      simp only [List.foldl_nil, Outcome.ok.injEq] at hr
      rw [← hr]; exact hxy
    | cons e l ih =>
      intro n x y hl hx hn hxy hr
      rw [List.foldl_cons] at hr
      have hb := common_bits_left hx (hl e (by simp))
      rcases hother x.1 e.1 x.2 e.2 with ⟨v, hv⟩ | hv
      · have hs : reducePass op (.ok x) e = .ok (x.1.common e.1, v) := by unfold reducePass; rw [Outcome.bind_ok, hv]; rfl
        rw [hs] at hr
        exact ih n (x.1.common e.1, v) (y.1, mathOp op y.2 e.2) (fun e' h => hl e' (by simp [h])) (common_std hx (hl e (by simp))) (Nat.le_trans hn hb)
          ((modEq_mono (Nat.le_trans hn hb) (hcall _ _ _ _ _ hv)).trans (mathOp_modEq op hxy rfl)) hr
      · have hs : reducePass op (.ok x) e = .ub := by unfold reducePass; rw [Outcome.bind_ok, hv]; rfl
        rw [hs, reducePass_fold_ub] at hr
        exact absurd hr (by simp)
  rw [template_fold, Option.some.injEq, List.foldl_cons] at h
  rcases hother init.1 e.1 init.2 e.2 with ⟨v, hv⟩ | hv
  · have hs : reducePass op (.ok init) e = .ok (init.1.common e.1, v) := by unfold reducePass; rw [Outcome.bind_ok, hv]; rfl
    rw [hs] at h
    exact key elems _ (init.1.common e.1, v) (init.1, mathOp op init.2 e.2) hu (common_std ht he) (Nat.le_refl _) (hcall _ _ _ _ _ hv) h
  · have hs : reducePass op (.ok init) e = .ub := by unfold reducePass; rw [Outcome.bind_ok, hv]; rfl
    rw [hs, reducePass_fold_ub] at h
    exact absurd h (by simp)

-- the first sum wraps around, and the wider type of the second element comes too late
example : templateReduceInt .plus (⟨32, false⟩, 4294967295) [(⟨32, false⟩, 1), (⟨64, false⟩, 5)] = some (.ok (⟨64, false⟩, 5)) := by decide

/-- For any types of elements, `template_reduce` gives what the rules of integer arithmetic, applied to one call after the other, say, and is undefined exactly if they
say so. -/
theorem C137_template_steps (op : ArithOp) (init : IntTy × Int) (elems : List (IntTy × Int)) (ht : StdWidth init.1) (hi : init.1.InRange init.2)
    (hu : ∀ e ∈ elems, StdWidth e.1 ∧ e.1.InRange e.2) :
    (∀ r, templateReduceInt op init elems = some (.ok r) ↔ Reduces op init elems (some r)) ∧
    (templateReduceInt op init elems = some .ub ↔ Reduces op init elems none) ∧ ∃ r, Reduces op init elems r := by
  have fwd : ∀ (elems : List (IntTy × Int)) (init : IntTy × Int), StdWidth init.1 → init.1.InRange init.2 → (∀ e ∈ elems, StdWidth e.1 ∧ e.1.InRange e.2) →
      ∀ r, Reduces op init elems r → elems.foldl (reducePass op) (.ok init) = r.elim .ub .ok := by
    intro elems
    induction elems with
    | nil => intro init _ _ _ r h; cases h; rfl
    | cons e l ih =>
      rintro ⟨t, a⟩ ht hi hu r h
      obtain ⟨hw, he⟩ := hu e (by simp)
      rw [List.foldl_cons]
      cases h with
      | exact hs hr h =>
        rw [show reducePass op (.ok (t, a)) _ = .ok (_, _) from by
          unfold reducePass; rw [Outcome.bind_ok, call_signed op ht hw hs hi he, if_pos hr]; rfl]
        exact ih _ (common_std ht hw) hr (fun e' h => hu e' (by simp [h])) _ h
      | overflow hs hr =>
        rw [show reducePass op (.ok (t, a)) _ = .ub from by
          unfold reducePass; rw [Outcome.bind_ok, call_signed op ht hw hs hi he, if_neg hr]; rfl]
        exact reducePass_fold_ub op l
      | modular hs hr hx h =>
        rw [show reducePass op (.ok (t, a)) _ = .ok (_, _) from by
          unfold reducePass; rw [Outcome.bind_ok, call_unsigned op hs, ← wrap_congr hx, wrap_id (common_std ht hw) hr]; rfl]
        exact ih _ (common_std ht hw) hr (fun e' h => hu e' (by simp [h])) _ h
  have total : ∀ (elems : List (IntTy × Int)) (init : IntTy × Int), StdWidth init.1 → init.1.InRange init.2 → (∀ e ∈ elems, StdWidth e.1 ∧ e.1.InRange e.2) →
      ∃ r, Reduces op init elems r := by
    intro elems
    induction elems with
    | nil => intro init _ _ _; exact ⟨_, .done⟩
    | cons e l ih =>
      rintro ⟨t, a⟩ ht hi hu
      obtain ⟨u, b⟩ := e
      obtain ⟨hw, he⟩ := hu (u, b) (by simp)
      cases hs : (t.common u).signed
      · obtain ⟨r, hr⟩ := ih (t.common u, (t.common u).wrap (mathOp op a b)) (common_std ht hw) (wrap_inRange (common_std ht hw) _) (fun e' h => hu e' (by simp [h]))
        exact ⟨r, .modular hs (wrap_inRange (common_std ht hw) _) (wrap_modEq _ _) hr⟩
      · by_cases hr : (t.common u).InRange (mathOp op a b)
        · obtain ⟨r, hr'⟩ := ih (t.common u, mathOp op a b) (common_std ht hw) hr (fun e' h => hu e' (by simp [h]))
          exact ⟨r, .exact hs hr hr'⟩
        · exact ⟨none, .overflow hs hr⟩
  obtain ⟨r, hr⟩ := total elems init ht hi hu
  have hv := fwd elems init ht hi hu r hr
  rw [template_fold]
  refine ⟨fun r' => ⟨fun h => ?_, fun h => by rw [fwd elems init ht hi hu _ h]; rfl⟩, ⟨fun h => ?_, fun h => by rw [fwd elems init ht hi hu _ h]; rfl⟩, r, hr⟩
  · rw [hv] at h
    cases r with
    | none => cases h
    | some r => simp only [Option.elim_some, Option.some.injEq, Outcome.ok.injEq] at h; rw [← h]; exact hr
  · rw [hv] at h
    cases r with
    | none => exact hr
    | some r => cases h

-- `short` and `unsigned` are added modulo 2^32, and the sum then to a `long` without loss
example : Reduces .plus (⟨16, true⟩, -1) [(⟨32, false⟩, 3), (⟨64, true⟩, -5)] (some (⟨64, true⟩, -3)) :=
  ((C137_template_steps .plus (⟨16, true⟩, -1) [(⟨32, false⟩, 3), (⟨64, true⟩, -5)] (by simp [StdWidth]) (by decide) (by simp [StdWidth]; decide)).1 _).1 (by decide)

/-- `template_transform_reduce` computes with the results of the transformation, one for every set of arguments, in the same way. -/
theorem C137_template_transform {α : Type} (op : ArithOp) (init : IntTy × Int) (transform : List (TVal α) → IntTy × Int) (args : List (TArg α))
    (calls : List (List (TVal α))) (h : AllSize calls.length args) (ht : HasTuple args) (hc : CallArgs args calls) :
    templateTransformReduceInt op init transform args = templateReduceInt op init (calls.map transform) := by
  unfold templateTransformReduceInt
  rw [template_fold, C40_transform_reduce _ _ _ args calls () h ht hc, Option.map_some]
  congr 1
  generalize Outcome.ok init = v
  clear h ht hc
  induction calls generalizing v with
  | nil => rfl
  | cons e l ih => exact ih _

example : templateTransformReduceInt .plus (.sizeT, 0) (fun vs => (⟨32, true⟩, match vs with | [.elem s] => (String.length s : Int) | _ => 0))
    [.tuple ["Hello, ", "World!"]] = templateReduceInt .plus (.sizeT, 0) [(⟨32, true⟩, 7), (⟨32, true⟩, 6)] := by decide +kernel

/-! ## ranges and tuples compared -/

/-- For elements of one type, `template_reduce` is `range_reduce` with the initial value converted to the common type, unless there are no elements. -/
theorem C137_template_is_range (op : ArithOp) (t u : IntTy) (ht : StdWidth t) (hu : StdWidth u) (init e : Int) (elems : List Int) :
    templateReduceInt op (t, init) ((e :: elems).map fun x => (u, x)) =
      some ((rangeReduceInt op (t.common u) u ((t.common u).wrap init) (e :: elems)).mapVal fun r => (t.common u, r)) := by
  rw [template_fold]
  congr 1
  have hstd := common_std ht hu
  have hcc := common_common ht hu
  have hfirst : ∀ x y, op.call t u x y = op.call (t.common u) u ((t.common u).wrap x) y := by
    intro x y
    unfold ArithOp.call
    rw [hcc, wrap_id hstd (wrap_inRange hstd x)]
  have hwrap : ∀ x y, (op.call (t.common u) u x y).mapVal (t.common u).wrap = op.call (t.common u) u x y := by
    intro x y
    unfold ArithOp.call IntTy.arith
    rw [hcc]
    split
    · split
      · next h => rw [Outcome.mapVal_ok, wrap_id hstd h]
      · rfl
    · rw [Outcome.mapVal_ok, wrap_id hstd (wrap_inRange hstd _)]
  have key : ∀ (l : List Int) (o : Outcome Int),
      (l.map fun x => (u, x)).foldl (reducePass op) (o.mapVal fun r => (t.common u, r)) =
        (rangeReduce o (reduceAssign op (t.common u) u) l).mapVal fun r => (t.common u, r) := by
    intro l
    induction l with
    | nil => intro o; rfl
    | cons x l ih =>
      intro o
      rw [List.map_cons, List.foldl_cons]
      have : reducePass op (o.mapVal fun r => (t.common u, r)) (u, x) = (reduceAssign op (t.common u) u o x).mapVal fun r => (t.common u, r) := by
        cases o with
        | ok a =>
          unfold reducePass reduceAssign
          rw [Outcome.mapVal_ok, Outcome.bind_ok, Outcome.bind_ok, hwrap]
          simp only [hcc]
        | _ => rfl
      rw [this, ih]
      rfl
  rw [List.map_cons, List.foldl_cons, rangeReduceInt_cons]
  have : reducePass op (.ok (t, init)) (u, e) =
      (reduceAssign op (t.common u) u (.ok ((t.common u).wrap init)) e).mapVal fun r => (t.common u, r) := by
    unfold reducePass reduceAssign
    rw [Outcome.bind_ok, Outcome.bind_ok, hwrap, hfirst]
  rw [this, key]

example : templateReduceInt .plus (⟨32, true⟩, -1) [(.sizeT, 3), (.sizeT, 4)] = some (.ok (.sizeT, 6)) := by decide

/-- The two agree if the initial value has the common type: then both return the same value or both are undefined. -/
theorem C137_agree (op : ArithOp) (t u : IntTy) (ht : StdWidth t) (hu : StdWidth u) (hc : t.common u = t) (init : Int) (hi : t.InRange init)
    (elems : List Int) :
    templateReduceInt op (t, init) (elems.map fun x => (u, x)) = some ((rangeReduceInt op t u init elems).mapVal fun r => (t, r)) := by
  cases elems with
  | nil => rw [template_fold]; rfl
  | cons e l => rw [C137_template_is_range op t u ht hu, hc, wrap_id ht hi]

example : templateReduceInt .plus (.sizeT, 0) ([7, 6].map fun x => (⟨32, true⟩, x)) = some ((rangeReduceInt .plus .sizeT ⟨32, true⟩ 0 [7, 6]).mapVal fun r => (.sizeT, r)) :=
  C137_agree .plus .sizeT ⟨32, true⟩ (by simp [StdWidth, IntTy.sizeT]) (by simp [StdWidth]) (by decide) 0 (by decide) [7, 6]

/-- In general, whenever both are defined, the result for the range is that for the tuple, converted to the type of the initial value. -/
theorem C137_converted_partial (op : ArithOp) (t u : IntTy) (ht : StdWidth t) (hu : StdWidth u) (init : Int) (hi : t.InRange init) (elems : List Int)
    (he : ∀ e ∈ elems, u.InRange e) (v : Int) (r : IntTy × Int) (hr : rangeReduceInt op t u init elems = .ok v)
    (hm : templateReduceInt op (t, init) (elems.map fun x => (u, x)) = some (.ok r)) : v = t.wrap r.2 := by
  have hv : v = t.wrap (mathResult op init elems) := by
    cases hs : (t.common u).signed
    · rw [C137_range_unsigned op t u ht hu hs init hi elems] at hr
      simpa using hr.symm
    · rw [C137_range_signed op t u ht hu hs init hi elems he] at hr
      split at hr
      · simpa using hr.symm
      · exact absurd hr (by simp)
  cases elems with
  | nil =>
    rw [template_fold] at hm
    simp only [List.map_nil, List.foldl_nil, Option.some.injEq, Outcome.ok.injEq] at hm
    rw [hv, ← hm]; rfl
  | cons e l =>
    have := C137_template_modular op (t, init) (u, e) (l.map fun x => (u, x)) ht hu (by simpa using fun _ _ => hu) r hm
    rw [hv]
    symm
    refine wrap_congr ((modEq_mono (common_bits_left ht hu) this).trans ?_)
    simp [List.map_map, Function.comp_def, Int.ModEq]

example : rangeReduceInt .plus ⟨8, false⟩ ⟨8, false⟩ 200 [100] = .ok 44 ∧
    templateReduceInt .plus (⟨8, false⟩, 200) [(⟨8, false⟩, 100)] = some (.ok (⟨32, true⟩, 300)) := by decide

/-- But they do not agree: the values may differ, and either of the two may be undefined while the other is defined. -/
theorem C137_differ :
    (∃ (t u : IntTy) (init : Int) (elems : List Int) (v : Int) (r : IntTy × Int), StdWidth t ∧ StdWidth u ∧ t.InRange init ∧ (∀ e ∈ elems, u.InRange e) ∧
      rangeReduceInt .plus t u init elems = .ok v ∧ templateReduceInt .plus (t, init) (elems.map fun x => (u, x)) = some (.ok r) ∧ v ≠ r.2) ∧
    (∃ (t u : IntTy) (init : Int) (elems : List Int) (v : Int), StdWidth t ∧ StdWidth u ∧ t.InRange init ∧ (∀ e ∈ elems, u.InRange e) ∧
      rangeReduceInt .plus t u init elems = .ok v ∧ templateReduceInt .plus (t, init) (elems.map fun x => (u, x)) = some .ub) ∧
    ∃ (t u : IntTy) (init : Int) (elems : List Int) (r : IntTy × Int), StdWidth t ∧ StdWidth u ∧ t.InRange init ∧ (∀ e ∈ elems, u.InRange e) ∧
      rangeReduceInt .minus t u init elems = .ub ∧ templateReduceInt .minus (t, init) (elems.map fun x => (u, x)) = some (.ok r) := by
  refine ⟨⟨⟨8, false⟩, ⟨8, false⟩, 200, [100], 44, (⟨32, true⟩, 300), by simp [StdWidth], by simp [StdWidth], by decide, by decide, by decide, by decide, by decide⟩,
    ⟨⟨32, true⟩, ⟨64, true⟩, 0, [9223372036854775807, 1], 0, by simp [StdWidth], by simp [StdWidth], by decide, by decide, by decide, by decide⟩,
    ⟨⟨32, true⟩, ⟨64, true⟩, 0, [2147483649, -9223372036854775808], (⟨64, true⟩, 9223372034707292159), by simp [StdWidth], by simp [StdWidth], by decide, by decide, by decide, by decide⟩⟩

end Makeshift.Props
