import Verif.Lemmas.Noexcept

/-! Property C99: exceptions thrown by functions of the user reach the caller. -/

namespace Makeshift.Props

open Makeshift.Spec

open Makeshift.Noexcept

variable {M A B : Type}

/-- A call which succeeds and writes a number down. -/
private def notes (k : Nat) : List Nat → Outcome Unit × List Nat := fun m => (.ok (), m ++ [k])

/-- A call which throws. -/
private def throws (B : Type) : List Nat → Outcome B × List Nat := fun m => (.throw (str "no"), m)

/-- C99 (partial): assigning to and swapping elements of an SoA span, and converting an element to a tuple, assigns, swaps and copies the
members one after the other.  Partial: only if the assignments, swaps and copies do not throw. -/
theorem C99_soa_partial (acts : List (M → Outcome Unit × M)) (copies : List (M → Outcome B × M)) (m m₁ m₂ : M) (o : Outcome (List Unit))
    (v : Outcome (List B)) (hn : ∀ a ∈ acts, NeverThrows a) (hc : ∀ a ∈ copies, NeverThrows a) (ho : Evaluates acts m o m₁)
    (hv : Evaluates copies m v m₂) :
    soaAssign acts m = (o.mapVal fun _ => (), m₁) ∧ soaSwap acts m = (o.mapVal fun _ => (), m₁) ∧ soaToTuple copies m = (v, m₂) := by
  have h1 : noexceptFn (discard (inOrder acts)) m = (o.mapVal fun _ => (), m₁) := by
    have hd := discard_of (inOrder_of_evaluates ho)
    rw [noexceptFn_of_not_throw, hd]
    intro e he
    rw [hd] at he
    cases o with
    | throw e' => exact evaluates_never hn ho e' rfl
    | ok _ => cases he
    | failFast => cases he
    | ub => cases he
  refine ⟨h1, h1, ?_⟩
  have hi := inOrder_of_evaluates hv
  simp only [soaToTuple]
  rw [noexceptFn_of_not_throw, hi]
  rw [hi]
  exact evaluates_never hc hv

/-- Non-vacuity of `C99_soa_partial`: two members. -/
example : soaAssign [notes 1, notes 2] [] = (.ok (), [1, 2]) :=
  (C99_soa_partial [notes 1, notes 2] ([] : List (List Nat → Outcome Nat × List Nat)) [] [1, 2] [] (.ok [(), ()]) (.ok [])
    (by intro a ha m e h; simp at ha; rcases ha with rfl | rfl <;> cases h) (by intro a ha; cases ha)
    (.step rfl (.step rfl (.nil _))) (.nil _)).1

/-- C99: if an assignment, a swap or a copy throws, the program is terminated; the members before have been assigned or swapped. -/
theorem C99_soa_terminates (acts : List (M → Outcome Unit × M)) (copies : List (M → Outcome B × M)) (m m₁ m₂ : M) (e e' : Str)
    (ho : Evaluates acts m (.throw e) m₁) (hv : Evaluates copies m (.throw e') m₂) :
    soaAssign acts m = (.failFast, m₁) ∧ soaSwap acts m = (.failFast, m₁) ∧ soaToTuple copies m = (.failFast, m₂) :=
  ⟨noexceptFn_of_throw (discard_of (inOrder_of_evaluates ho)), noexceptFn_of_throw (discard_of (inOrder_of_evaluates ho)),
    noexceptFn_of_throw (inOrder_of_evaluates hv)⟩

/-- C99: assignment to an element whose second member throws does not pass on the exception, although that is what the assignment of
this member does. -/
theorem C99_soa_negated :
    Evaluates [notes 1, throws Unit, notes 3] [] (.throw (str "no")) [1] ∧
      soaAssign [notes 1, throws Unit, notes 3] [] = (.failFast, [1]) := by
  have h : Evaluates [notes 1, throws Unit, notes 3] [] (.throw (str "no")) [1] :=
    .later rfl (.stop rfl (.throw _)) (.throw _)
  exact ⟨h, (C99_soa_terminates (B := Unit) _ [throws Unit] [] [1] [] _ _ h (.stop rfl (.throw _))).1⟩

/-- C99 (partial): `size()` and `operator []` of a `range<>` of random-access iterators pass on what the operators of the iterators do.
Partial: only if they do not throw; if they do, the program is terminated. -/
theorem C99_range_partial (difference : M → Outcome Int × M) (subscript : Int → M → Outcome B × M) (i d : Int) (m m₁ : M)
    (hd : difference m = (.ok d, m₁)) (h0 : 0 ≤ i) (hi : i < d) (hlt : d < 2 ^ 63) :
    rangeSize difference m = (.ok d, m₁) ∧
    ((∀ e, (subscript i m₁).1 ≠ .throw e) → rangeSubscript difference subscript i m = subscript i m₁) ∧
    (∀ e m₂, subscript i m₁ = (.throw e, m₂) → rangeSubscript difference subscript i m = (.failFast, m₂)) := by
  have hw : IntTy.sizeT.wrap d = d := by
    simp only [IntTy.wrap, IntTy.sizeT, Bool.false_eq_true, if_false]
    exact Int.emod_eq_of_lt (by omega) (by omega)
  have hs : rangeSize difference m = (.ok d, m₁) := by
    simp only [rangeSize, noexceptFn, andThen, hd, hw]
  have hb : (andThen difference fun d => andThen (fun m => (Outcome.expects (decide (i < IntTy.sizeT.wrap d)), m)) fun _ => subscript i) m
      = subscript i m₁ := by
    simp only [andThen, hd, hw, decide_eq_true hi, Outcome.expects, if_true]
  refine ⟨hs, fun hn => ?_, fun e m₂ ht => ?_⟩
  · simp only [rangeSubscript]
    rw [noexceptFn_of_not_throw, hb]
    rw [hb]; exact hn
  · simp only [rangeSubscript]
    exact noexceptFn_of_throw (by rw [hb, ht])

/-- Non-vacuity of `C99_range_partial`. -/
example : rangeSubscript (fun m : List Nat => (.ok 3, m)) (fun i m => (.ok (i + 10), m)) 2 [] = (.ok 12, []) :=
  (C99_range_partial (fun m : List Nat => (.ok 3, m)) (fun i m => (.ok (i + 10), m)) 2 3 [] [] rfl (by decide) (by decide)
    (by decide)).2.1 (by intro e h; cases h)

/-- C99: if the difference of the iterators throws, `size()` and `operator []` terminate the program. -/
theorem C99_range_terminates (difference : M → Outcome Int × M) (subscript : Int → M → Outcome B × M) (i : Int) (m m₁ : M) (e : Str)
    (hd : difference m = (.throw e, m₁)) :
    rangeSize difference m = (.failFast, m₁) ∧ rangeSubscript difference subscript i m = (.failFast, m₁) :=
  ⟨noexceptFn_of_throw (andThen_irregular hd (.throw e)), noexceptFn_of_throw (andThen_irregular hd (.throw e))⟩

/-- Non-vacuity of `C99_range_terminates`. -/
example : rangeSize (throws Int) [] = (.failFast, []) :=
  (C99_range_terminates (throws Int) (fun _ m => (.ok (), m)) 0 [] [] _ rfl).1

/-- C99 (partial): `end()` and `operator []` of a `range<>` of static extent.  Partial: as in `C99_range_partial`. -/
theorem C99_static_range_partial (plus subscript : Int → M → Outcome B × M) (extent i : Int) (m : M) (hi : i < extent) :
    ((∀ e, (plus extent m).1 ≠ .throw e) → staticRangeEnd plus extent m = plus extent m) ∧
    ((∀ e, (subscript i m).1 ≠ .throw e) → staticRangeSubscript extent subscript i m = subscript i m) ∧
    (∀ e m₁, plus extent m = (.throw e, m₁) → staticRangeEnd plus extent m = (.failFast, m₁)) ∧
    (∀ e m₁, subscript i m = (.throw e, m₁) → staticRangeSubscript extent subscript i m = (.failFast, m₁)) := by
  have hb : (andThen (fun m => (Outcome.expects (decide (i < extent)), m)) fun _ => subscript i) m = subscript i m := by
    simp only [andThen, decide_eq_true hi, Outcome.expects, if_true]
  refine ⟨fun hn => noexceptFn_of_not_throw hn, fun hn => ?_, fun e m₁ h => noexceptFn_of_throw h, fun e m₁ h => ?_⟩
  · simp only [staticRangeSubscript]
    rw [noexceptFn_of_not_throw, hb]
    rw [hb]; exact hn
  · simp only [staticRangeSubscript]
    exact noexceptFn_of_throw (by rw [hb, h])

/-- Non-vacuity of `C99_static_range_partial`. -/
example : staticRangeSubscript 3 (fun i (m : List Nat) => (.ok (i + 10), m)) 2 [] = (.ok 12, []) :=
  (C99_static_range_partial (fun i m => (.ok i, m)) (fun i (m : List Nat) => (.ok (i + 10), m)) 3 2 [] (by decide)).2.1
    (by intro e h; cases h)

/-- The size of a range as an expression: a constant, or a call. -/
private def sizeExpr : SizeExpr M → M → Outcome Size × M
  | .constant s => fun m => (.ok s, m)
  | .call size => fun m => ((size m).1.mapVal .dyn, (size m).2)

private theorem rangeSizeOf_eq (s : SizeExpr M) : rangeSizeOf s = noexceptFn (sizeExpr s) := by
  funext m
  cases s with
  | constant n => rfl
  | call size =>
    simp only [rangeSizeOf, noexceptFn, sizeExpr, andThen]
    cases h : size m with
    | mk o m' => cases o <;> rfl

/-- C99 (partial): `range_for` passes on the exceptions of its functor, after the sizes of all ranges have been determined.  Partial: only
if the functions `size()` of the ranges do not throw. -/
theorem C99_range_for_partial (func : List (Arg Nat) → M → Outcome Unit × M) (sizes : List (SizeExpr M)) (rs : List Size → List (Rng Nat))
    (fuel : Nat) (m m₁ m₂ : M) (ns : List Size) (o : Outcome Unit) (hs : Evaluates (sizes.map sizeExpr) m (.ok ns) m₁)
    (hl : RangeObjects.rangeFor func (rs ns) fuel m₁ = .done m₂ o) : rangeForCalls func sizes rs fuel m = (o, m₂) := by
  have hi : inOrder (sizes.map rangeSizeOf) m = (.ok ns, m₁) := by
    have := inOrder_noexcept_ok hs
    rw [List.map_map] at this
    rw [← this]
    congr 2
    exact funext fun s => rangeSizeOf_eq s
  simp only [rangeForCalls, withSizes]
  rw [andThen_ok hi, hl]
  rfl

/-- Non-vacuity of `C99_range_for_partial`: the functor throws for the first element of a range of two elements. -/
example : rangeForCalls (fun _ => throws Unit) [.call fun m => (.ok 2, m ++ [7])] (fun ns => [⟨.iterator, ns.headD (.dyn 0), [100, 200]⟩]) 5 [] =
    (.throw (str "no"), [7]) :=
  C99_range_for_partial _ [.call fun m => (.ok 2, m ++ [7])] _ 5 [] [7] [7] [.dyn 2] _ (.step rfl (.nil _)) (by decide +kernel)

/-- C99: if `size()` of a range throws, `range_for` terminates the program. -/
theorem C99_size_terminates (func : List (Arg Nat) → M → Outcome Unit × M) (sizes : List (SizeExpr M)) (rs : List Size → List (Rng Nat))
    (fuel : Nat) (m m₁ : M) (e : Str) (hs : Evaluates (sizes.map sizeExpr) m (.throw e) m₁) :
    rangeForCalls func sizes rs fuel m = (.failFast, m₁) := by
  have hi : inOrder (sizes.map rangeSizeOf) m = (.failFast, m₁) := by
    have := inOrder_noexcept_throw hs
    rw [List.map_map] at this
    rw [← this]
    congr 2
    exact funext fun s => rangeSizeOf_eq s
  exact andThen_irregular hi .failFast

/-- Non-vacuity of `C99_size_terminates`. -/
example : rangeForCalls (fun _ => throws Unit) [.constant (.static 3), .call (throws Int)] (fun _ => []) 5 [] = (.failFast, []) :=
  C99_size_terminates _ [.constant (.static 3), .call (throws Int)] _ 5 [] [] _ (.later rfl (.stop rfl (.throw _)) (.throw _))

/-- C99 (partial): `template_for` and `tuple_transform` get the elements, call the functor for each index, and pass on its exceptions.
`steps` are the calls for each index, with the evaluation of their arguments.  Partial: only if getting the elements does not throw. -/
theorem C99_tuple_partial (func : List A → M → Outcome B × M) (gets : List (List (M → Outcome A × M)))
    (steps : List (M → Outcome B × M)) (m m₁ : M) (o : Outcome (List B)) (hn : ∀ gs ∈ gets, ∀ g ∈ gs, NeverThrows g)
    (hlen : steps.length = gets.length)
    (hsteps : ∀ (k : Nat) s gs, steps[k]? = some s → gets[k]? = some gs → ∀ m, EvaluatesCall func gs m (s m).1 (s m).2)
    (ho : Evaluates steps m o m₁) : templateFor func gets m = (o, m₁) := by
  have heq : gets.map (transformElement func) = steps := by
    apply List.ext_getElem?
    intro k
    rw [List.getElem?_map]
    by_cases hk : k < gets.length
    · have hg : gets[k]? = some gets[k] := List.getElem?_eq_getElem hk
      have hs : steps[k]? = some (steps[k]'(hlen ▸ hk)) := List.getElem?_eq_getElem (hlen ▸ hk)
      rw [hg, hs, Option.map_some]
      congr 1
      funext m
      simp only [transformElement]
      rw [mapGet_never (hn _ (List.getElem_mem hk))]
      exact andThen_of_evaluatesCall (hsteps k _ _ hs hg m)
    · rw [List.getElem?_eq_none (by omega), List.getElem?_eq_none (by omega)]
      rfl
  simp only [templateFor]
  rw [heq]
  exact inOrder_of_evaluates ho

/-- Non-vacuity of `C99_tuple_partial`: two indices, one tuple; the functor throws for the second element. -/
example : templateFor (fun xs m => if xs = [1] then (.ok (), m ++ [1]) else (.throw (str "no"), m))
    [[fun m : List Nat => (.ok 1, m)], [fun m => (.ok 2, m)]] [] = (.throw (str "no"), [1]) :=
  C99_tuple_partial _ _ [fun m => (.ok (), m ++ [1]), throws Unit] [] [1] _
    (by intro gs hg g h m e he; simp at hg; rcases hg with rfl | rfl <;> (simp at h; subst h; cases he)) rfl
    (by
      intro k s gs hs hg m
      match k with
      | 0 => cases hs; cases hg; exact .call (.step rfl (.nil _))
      | 1 => cases hs; cases hg; exact .call (m := m) (m' := m) (.step rfl (.nil _))
      | k + 2 => simp at hs)
    (.later rfl (.stop rfl (.throw _)) (.throw _))

/-- C99: if getting an element throws, `template_for` and `tuple_transform` terminate the program; the functor has been called for the
indices before. -/
theorem C99_get_terminates (func : List A → M → Outcome B × M) (before after : List (List (M → Outcome A × M)))
    (gs : List (M → Outcome A × M)) (steps : List (M → Outcome B × M)) (bs : List B) (m m₁ m₂ : M) (e : Str)
    (hn : ∀ gs ∈ before, ∀ g ∈ gs, NeverThrows g) (hlen : steps.length = before.length)
    (hsteps : ∀ (k : Nat) s gs, steps[k]? = some s → before[k]? = some gs → ∀ m, EvaluatesCall func gs m (s m).1 (s m).2)
    (hb : Evaluates steps m (.ok bs) m₁) (ht : Evaluates gs m₁ (.throw e) m₂) :
    templateFor func (before ++ gs :: after) m = (.failFast, m₂) := by
  have h1 : inOrder (before.map (transformElement func)) m = (.ok bs, m₁) :=
    C99_tuple_partial func before steps m m₁ (.ok bs) hn hlen hsteps hb
  clear hsteps hlen hb hn
  simp only [templateFor, List.map_append, List.map_cons]
  generalize before.map (transformElement func) = pre at h1
  induction pre generalizing m bs with
  | nil =>
    simp only [inOrder, Prod.mk.injEq] at h1
    obtain ⟨_, rfl⟩ := h1
    simp only [List.nil_append, inOrder]
    refine andThen_irregular (o := .failFast) ?_ .failFast
    exact andThen_irregular (inOrder_noexcept_throw ht) .failFast
  | cons p ps ih =>
    simp only [inOrder, andThen] at h1
    cases hp : p m with
    | mk o m' =>
      rw [hp] at h1
      cases o with
      | throw _ => cases h1
      | failFast => cases h1
      | ub => cases h1
      | ok b =>
        simp only at h1
        cases hq : inOrder ps m' with
        | mk o2 m'' =>
          rw [hq] at h1
          cases o2 with
          | throw _ => cases h1
          | failFast => cases h1
          | ub => cases h1
          | ok bs' =>
            simp only [Prod.mk.injEq, Outcome.ok.injEq] at h1
            obtain ⟨rfl, rfl⟩ := h1
            simp only [List.cons_append, inOrder]
            rw [andThen_ok hp]
            exact andThen_irregular (ih bs' m' hq) .failFast

/-- Non-vacuity of `C99_get_terminates`. -/
example : templateFor (fun (xs : List Nat) m => (.ok (), m ++ xs)) [[fun m => (.ok 5, m)], [throws Nat], [fun m => (.ok 6, m)]] [] =
    (.failFast, [5]) :=
  C99_get_terminates (fun (xs : List Nat) m => (.ok (), m ++ xs)) [[fun m => (.ok 5, m)]] _ [throws Nat] [notes 5] [()] [] [5] [5] _
    (by intro gs hg g h m e he; simp at hg; subst hg; simp at h; subst h; cases he) rfl
    (by
      intro k s gs hs hg m
      match k with
      | 0 => cases hs; cases hg; exact .call (func := fun (xs : List Nat) m => (.ok (), m ++ xs)) (.step (b := 5) rfl (.nil m))
      | k + 1 => simp at hs)
    (.step rfl (.nil _)) (.stop rfl (.throw _))

/-- C99 (partial): `with<I>()` gets the elements and constructs the elements of the result, and passes on the exceptions of the
constructors.  Partial: only if getting the elements does not throw. -/
theorem C99_with_partial (elems : List ((M → Outcome A × M) × (A → M → Outcome B × M))) (steps : List (M → Outcome B × M)) (m m₁ : M)
    (o : Outcome (List B)) (hn : ∀ e ∈ elems, NeverThrows e.1) (hlen : steps.length = elems.length)
    (hsteps : ∀ (k : Nat) s (e : (M → Outcome A × M) × (A → M → Outcome B × M)), steps[k]? = some s → elems[k]? = some e → ∀ m,
      (∃ x m', e.1 m = (.ok x, m') ∧ s m = e.2 x m') ∨ (∃ o' m', e.1 m = (o', m') ∧ Irregular o' (s m).1 ∧ (s m).2 = m'))
    (ho : Evaluates steps m o m₁) : withElement elems m = (o, m₁) := by
  have heq : elems.map (fun e => andThen (getOrReplace e.1) e.2) = steps := by
    apply List.ext_getElem?
    intro k
    rw [List.getElem?_map]
    by_cases hk : k < elems.length
    · have hg : elems[k]? = some elems[k] := List.getElem?_eq_getElem hk
      have hs : steps[k]? = some (steps[k]'(hlen ▸ hk)) := List.getElem?_eq_getElem (hlen ▸ hk)
      rw [hg, hs, Option.map_some]
      congr 1
      funext m
      rw [getOrReplace, noexceptFn_never (hn _ (List.getElem_mem hk))]
      rcases hsteps k _ _ hs hg m with ⟨x, m', h1, h2⟩ | ⟨o', m', h1, h2, h3⟩
      · rw [andThen_ok h1, h2]
      · rw [andThen_irregular h1 h2, ← h3]
    · rw [List.getElem?_eq_none (by omega), List.getElem?_eq_none (by omega)]
      rfl
  simp only [withElement]
  rw [heq]
  exact inOrder_of_evaluates ho

/-- Non-vacuity of `C99_with_partial`: the copy constructor of the second element throws. -/
example : withElement [(fun m : List Nat => (.ok 1, m), fun x m => (.ok x, m ++ [x])), (fun m => (.ok 2, m), fun _ => throws Nat)] [] =
    (.throw (str "no"), [1]) :=
  C99_with_partial _ [fun m => (.ok 1, m ++ [1]), throws Nat] [] [1] _
    (by intro a ha m e h; simp at ha; rcases ha with rfl | rfl <;> cases h) rfl
    (by
      intro k s gs hs hg m
      match k with
      | 0 => cases hs; cases hg; exact .inl ⟨1, m, rfl, rfl⟩
      | 1 => cases hs; cases hg; exact .inl ⟨2, m, rfl, rfl⟩
      | k + 2 => simp at hs)
    (.later rfl (.stop rfl (.throw _)) (.throw _))

end Makeshift.Props
