import Verif.Model.ExpTuple
import Verif.Props.TypeTraits

/-!
# Element replacement and selection in tuples: C64, C69
-/

namespace Makeshift.Props

open Makeshift.ExpTuple

set_option linter.unusedSectionVars false

variable {Ty Val : Type} [DecidableEq Ty]

theorem mapM_some {α β : Type} (f : α → Option β) (g : α → β) : ∀ l : List α, (∀ a ∈ l, f a = some (g a)) → l.mapM f = some (l.map g)
  | [], _ => rfl
  | a :: l, h => by
    rw [List.mapM_cons, h a (by simp), mapM_some f g l (fun b hb => h b (by simp [hb]))]; rfl

theorem mapM_none {α β : Type} (f : α → Option β) : ∀ (l : List α) (a : α), a ∈ l → f a = none → l.mapM f = none
  | b :: l, a, ha, h => by
    rw [List.mapM_cons]
    rcases List.mem_cons.1 ha with rfl | ha
    · rw [h]; rfl
    · rw [mapM_none f l a ha h]; cases f b <;> rfl

theorem set_eq_map_range {α : Type} (l : List α) (i : Nat) (x d : α) :
    l.set i x = (List.range l.length).map fun j => if j = i then x else l[j]?.getD d := by
  refine List.ext_getElem? fun j => ?_
  rw [List.getElem?_map]
  by_cases hj : j < l.length
  · rw [List.getElem?_range hj, List.getElem?_set]
    by_cases hji : j = i
    · subst hji; simp [hj]
    · have : ¬ i = j := fun h => hji h.symm
      simp [this, hji, hj]
  · rw [List.getElem?_eq_none (by simpa using hj), List.getElem?_eq_none (by simpa using hj)]; rfl

omit [DecidableEq Ty] in
theorem countP_two (pred : Ty → Bool) : ∀ Ts : List Ty, 2 ≤ Ts.countP pred →
    ∃ (j1 j2 : Nat) (U1 U2 : Ty), j1 ≠ j2 ∧ Ts[j1]? = some U1 ∧ Ts[j2]? = some U2 ∧ pred U1 = true ∧ pred U2 = true
  | T :: Ts, h => by
    by_cases hT : pred T = true
    · rw [List.countP_cons_of_pos hT] at h
      obtain ⟨U, hU, hpU⟩ := List.countP_pos_iff.1 (show 0 < Ts.countP pred by omega)
      obtain ⟨j, hj⟩ := List.mem_iff_getElem?.1 hU
      exact ⟨0, j + 1, T, U, by omega, rfl, by simpa using hj, hT, hpU⟩
    · rw [List.countP_cons_of_neg hT] at h
      obtain ⟨j1, j2, U1, U2, hj, u1, u2, p1, p2⟩ := countP_two pred Ts h
      exact ⟨j1 + 1, j2 + 1, U1, U2, by omega, by simpa using u1, by simpa using u2, p1, p2⟩

/-! ## C64 -/

/-- The result types of `with<I>`, whatever the tuple: the new element's type at `I`, and the *replaced* element's type everywhere
else. -/
theorem C64_types (I : Nat) (newT T : Ty) (Ts : List Ty) (hT : Ts[I]? = some T) :
    withElement I newT Ts = some ((List.range Ts.length).map fun J => if J = I then newT else T) := by
  unfold withElement
  refine mapM_some _ _ _ fun J _ => ?_
  unfold replaceElement
  by_cases h : J = I
  · simp [h]
  · simp [h, hT]

/-- C64 (partial): `with<I>(t, x)` has `x` at position `I` and the elements of `t`, with their types, elsewhere.  Missing: tuples whose
elements other than the `I`-th do not all have the type of the `I`-th. -/
theorem C64_with_partial (conv : Convert Ty Val) (I : Nat) (Ts : List Ty) (vals : List Val) (newT : Ty) (newElement : Val)
    (hI : I < Ts.length) (hlen : vals.length = Ts.length) (hsame : ∀ j, j < Ts.length → Ts[j]? = Ts[I]?) :
    withIndex conv false I Ts vals newT newElement = some (Ts.set I newT, vals.set I newElement) := by
  obtain ⟨T, hT⟩ : ∃ T, Ts[I]? = some T := ⟨_, List.getElem?_eq_getElem hI⟩
  unfold withIndex accepts
  have htypes : withElement I newT Ts = some (Ts.set I newT) := by
    rw [C64_types I newT T Ts hT, set_eq_map_range Ts I newT T]
    congr 1
    refine List.map_congr_left fun J hJ => ?_
    rw [List.mem_range] at hJ
    simp [hsame J hJ, hT]
  have hvals : ((List.range Ts.length).mapM fun J =>
      (getOrReplace I Ts vals newT newElement J).bind fun a =>
        ((Ts.set I newT)[J]?).bind fun R => (construct conv a.1 R).map fun f => f a.2) = some (vals.set I newElement) := by
    rw [set_eq_map_range vals I newElement newElement, hlen]
    refine mapM_some _ _ _ fun J hJ => ?_
    rw [List.mem_range] at hJ
    by_cases h : J = I
    · subst h; simp [getOrReplace, hJ, construct]
    · have hIJ : ¬ I = J := fun hc => h hc.symm
      have hv : vals[J]? = some vals[J] := List.getElem?_eq_getElem (by omega)
      have hTJ : Ts[J]? = some T := by rw [hsame J hJ, hT]
      simp only [getOrReplace, h, if_false, hTJ, hv, Option.bind_some, Option.map_some, List.getElem?_set, hIJ, construct, if_true]
      simp
  rw [htypes, Option.bind_some, hvals]; rfl

/-- C64 is false: the types of the result are right only if all other elements have the type of the `I`-th element. -/
theorem C64_types_right_iff (I : Nat) (newT : Ty) (Ts : List Ty) (hI : I < Ts.length) :
    withElement I newT Ts = some (Ts.set I newT) ↔ ∀ j, j < Ts.length → Ts[j]? = Ts[I]? := by
  obtain ⟨T, hT⟩ : ∃ T, Ts[I]? = some T := ⟨_, List.getElem?_eq_getElem hI⟩
  rw [C64_types I newT T Ts hT]
  constructor
  · intro h j hj
    by_cases hji : j = I
    · rw [hji]
    · have h1 := congrArg (fun l => l[j]?) (Option.some.inj h)
      have hne : ¬ I = j := fun hc => hji hc.symm
      simp only [List.getElem?_map, List.getElem?_range hj, Option.map_some, hji, if_false, List.getElem?_set, hne] at h1
      rw [← h1, hT]
  · intro h
    rw [set_eq_map_range Ts I newT T]
    congr 1
    refine List.map_congr_left fun J hJ => ?_
    rw [List.mem_range] at hJ
    simp [h J hJ, hT]

/-- C64: an element that cannot be converted to the type of the replaced element makes the call ill-formed. -/
theorem C64_ill_formed (conv : Convert Ty Val) (I : Nat) (Ts : List Ty) (vals : List Val) (newT T U : Ty) (newElement : Val) (j : Nat)
    (hT : Ts[I]? = some T) (hU : Ts[j]? = some U) (hne : U ≠ T) (hc : conv U T = none) (hlen : vals.length = Ts.length) :
    withIndex conv false I Ts vals newT newElement = none := by
  have hji : j ≠ I := by rintro rfl; rw [hT] at hU; exact hne (Option.some.inj hU).symm
  obtain ⟨hj, -⟩ := List.getElem?_eq_some_iff.1 hU
  unfold withIndex accepts
  rw [C64_types I newT T Ts hT, Option.bind_some,
    mapM_none _ _ j (List.mem_range.2 hj) ?_]
  · rfl
  · have hv : vals[j]? = some vals[j] := List.getElem?_eq_getElem (by omega)
    have hr : ((List.range Ts.length).map fun J => if J = I then newT else T)[j]? = some T := by
      rw [List.getElem?_map, List.getElem?_range hj]; simp [hji]
    simp only [getOrReplace, hji, if_false, hU, hv, Option.bind_some, Option.map_some, hr, construct, hne, hc]
    rfl

/-- C64 is false: none of the three forms of `with` accepts an lvalue, so that not even the uses in the documentation, all of which pass
a local variable, compile. -/
theorem C64_lvalue (conv : Convert Ty Val) (I : Nat) (T : Ty) (isConst : Bool) (pred : Ty → Bool) (Ts : List Ty) (vals : List Val)
    (newT : Ty) (newElement : Val) :
    withIndex conv true I Ts vals newT newElement = none ∧ withType conv true T isConst Ts vals newT newElement = none ∧
    withPred conv true pred Ts vals newT newElement = none := by
  refine ⟨rfl, rfl, ?_⟩
  unfold withPred
  cases tupleElementIndex true pred Ts <;> rfl

/-- C64: the example in the documentation of `with<I>`, `with<1>(std::tuple{ 1, 2.0 }, 3.0f)` (with an rvalue), returns a tuple of `double` and `float`
rather than `int` and `float` (types: 0 = `int`, 1 = `double`, 2 = `float`). -/
theorem C64_documented_example (conv : Convert Nat Int) (f : Int → Int) (hf : conv 0 1 = some f) :
    withIndex conv false 1 [0, 1] [1, 2] 2 3 = some ([1, 2], [f 1, 3]) := by
  simp [withIndex, accepts, withElement, replaceElement, getOrReplace, construct, List.range_succ, hf]

/-- C64: `with<T>` replaces the only element of type `T`; it does not compile if there is none or several, nor for `const` tuples. -/
theorem C64_with_type (conv : Convert Ty Val) (T : Ty) (Ts : List Ty) (vals : List Val) (newT : Ty) (newElement : Val) :
    (∀ k : Nat, Ts.count T = 1 → Ts[k]? = some T →
      withType conv false T false Ts vals newT newElement = withIndex conv false k Ts vals newT newElement) ∧
    (Ts.count T ≠ 1 → withType conv false T false Ts vals newT newElement = none) ∧
    withType conv false T true Ts vals newT newElement = none := by
  have hcount : (Ts.map fun U => (false, U)).countP (fun (q : Bool × Ty) => decide ((false, T) = q)) = Ts.count T := by
    rw [List.countP_map, List.count]
    refine List.countP_congr fun U _ => ?_
    by_cases h : U = T
    · simp [h]
    · simp [h, Ne.symm h]
  have hcount' : (Ts.map fun U => (true, U)).countP (fun (q : Bool × Ty) => decide ((false, T) = q)) = 0 := by
    rw [List.countP_map, List.countP_eq_zero]; simp
  refine ⟨fun k h1 hk => ?_, fun h1 => ?_, ?_⟩
  · obtain ⟨a1, a2, a3, a4⟩ := C46_tuple_element_index (fun (q : Bool × Ty) => decide ((false, T) = q)) (Ts.map fun U => (false, U))
    rw [hcount] at a4
    obtain ⟨m, hm⟩ := a4 h1
    obtain ⟨-, q, hq, hqT⟩ := a3 m hm
    have hmT : Ts[m]? = some T := by
      rw [List.getElem?_map] at hq
      simp only [Option.map_eq_some_iff] at hq
      obtain ⟨U, hU, rfl⟩ := hq
      simp only [decide_eq_true_eq, Prod.mk.injEq, true_and] at hqT
      rw [hU, hqT]
    have hmk : m = k := count_one_unique h1 hmT hk
    unfold withType accepts tupleElementIndex
    simp only [Bool.not_false, Bool.not_true, Bool.false_eq_true, if_false, hm, elementNotFound, elementNotUnique]
    rw [if_neg (by omega), if_neg (by omega), hmk]
    rfl
  · have := (C46_tuple_element_index_well_formed (fun (q : Bool × Ty) => decide ((false, T) = q)) (Ts.map fun U => (false, U)))
    rw [hcount] at this
    unfold withType accepts
    cases h : tupleElementIndex true (fun (q : Bool × Ty) => decide ((false, T) = q)) (Ts.map fun U => (false, U)) with
    | none => rfl
    | some i => rw [h] at this; exact absurd (this.1 rfl) h1
  · have := (C46_tuple_element_index_well_formed (fun (q : Bool × Ty) => decide ((false, T) = q)) (Ts.map fun U => (true, U)))
    rw [hcount'] at this
    unfold withType accepts
    cases h : tupleElementIndex true (fun (q : Bool × Ty) => decide ((false, T) = q)) (Ts.map fun U => (true, U)) with
    | none => rfl
    | some i => rw [h] at this; exact absurd (this.1 rfl) (by omega)

/-- C64: `with(tuple, pred, x)` replaces the only element whose type satisfies the predicate. -/
theorem C64_with_pred (conv : Convert Ty Val) (pred : Ty → Bool) (Ts : List Ty) (vals : List Val) (newT : Ty) (newElement : Val) :
    (∀ k T, Ts[k]? = some T → pred T = true → (∀ j U, Ts[j]? = some U → pred U = true → j = k) →
      withPred conv false pred Ts vals newT newElement = withIndex conv false k Ts vals newT newElement) ∧
    (Ts.countP pred ≠ 1 → withPred conv false pred Ts vals newT newElement = none) := by
  obtain ⟨a1, a2, a3, a4⟩ := C46_tuple_element_index pred Ts
  constructor
  · intro k T hk hT huniq
    have hcount : Ts.countP pred = 1 := by
      by_contra hc
      rcases Nat.lt_or_ge (Ts.countP pred) 1 with h | h
      · have h0 : Ts.countP pred = 0 := by omega
        exact absurd hT (List.countP_eq_zero.1 h0 T (List.mem_of_getElem? hk))
      · have h2 : 2 ≤ Ts.countP pred := by omega
        obtain ⟨j1, j2, U1, U2, hj, u1, u2, p1, p2⟩ := countP_two pred Ts h2
        exact hj ((huniq j1 U1 u1 p1).trans (huniq j2 U2 u2 p2).symm)
    obtain ⟨m, hm⟩ := a4 hcount
    obtain ⟨-, U, hU, hpU⟩ := a3 m hm
    have hmk := huniq m U hU hpU
    unfold withPred tupleElementIndex
    simp only [hm, elementNotFound, elementNotUnique]
    rw [if_neg (by omega), if_neg (by omega), hmk]
    rfl
  · intro h1
    have := C46_tuple_element_index_well_formed pred Ts
    unfold withPred
    cases h : tupleElementIndex true pred Ts with
    | none => rfl
    | some i => rw [h] at this; exact absurd (this.1 rfl) h1

-- a pair of two integers and of an integer and a double
example : ∀ j, j < [0, 0].length → ([0, 0] : List Nat)[j]? = [0, 0][1]? := by decide
example : withIndex (fun _ _ => none) false 1 [0, 0] [5, 6] 2 7 = some ([0, 2], [5, 7]) := by
  exact C64_with_partial _ 1 [0, 0] [5, 6] 2 7 (by decide) rfl (by decide)
example : ([0, 1] : List Nat)[1]? = some 1 ∧ ([0, 1] : List Nat)[0]? = some 0 := by decide
example : [0, 1].count 1 = 1 ∧ ([0, 1] : List Nat).countP (fun T => decide (T = 1)) = 1 := by decide

/-! ## C69 -/

/-- C69 is false: `single(tuple, pred)` does not compile, unless the predicate is itself a tuple of the same type; whatever elements the
predicate holds for. -/
theorem C69_single_ill_formed (tupleT predT : Ty) (vals : List Val) (h : tupleT ≠ predT) : single false tupleT predT vals = none := by
  have : singleIndex tupleT predT = -1 := (C46_type_pack_index tupleT [predT]).2.2 (by
    simp [Ne.symm h])
  simp [single, accepts, this]

/-- C69: `single_or_default(tuple, pred, d)` returns `d` for every predicate, also if one of the elements satisfies it. -/
theorem C69_default_always (tupleT predT : Ty) (vals : List Val) (d : Val) (h : tupleT ≠ predT) :
    singleOrDefault false tupleT predT vals d = some d := by
  have : singleIndex tupleT predT = -1 := (C46_type_pack_index tupleT [predT]).2.2 (by
    simp [Ne.symm h])
  simp [singleOrDefault, accepts, this]

/-- C69: neither function accepts an lvalue. -/
theorem C69_lvalue (tupleT predT : Ty) (vals : List Val) (d : Val) :
    single true tupleT predT vals = none ∧ singleOrDefault true tupleT predT vals d = none := ⟨rfl, rfl⟩

/-- C69: for a predicate which is itself a tuple of the type of the tuple, `single(tuple, pred)` returns the first element whatever the
predicate says, and `single_or_default(tuple, pred, d)` does not compile. -/
theorem C69_same_type (T : Ty) (vals : List Val) (d : Val) : single false T T vals = vals.head? ∧ singleOrDefault false T T vals d = none := by
  have : singleIndex T T = 0 := by simp [singleIndex, tryTypePackIndex]
  cases vals <;> simp [single, singleOrDefault, accepts, this]

/-- The element whose type satisfies the predicate, if there is exactly one; the intended meaning of `single`. -/
def onlyElement (pred : Ty → Bool) (Ts : List Ty) (vals : List Val) : Option Val :=
  match (Ts.zip vals).filter (fun p => pred p.1) with
  | [p] => some p.2
  | _ => none

/-- C69 (partial): `single_or_default(tuple, pred, d)` returns the only element that satisfies the predicate, or `d` if there is none.
Missing: tuples in which the predicate holds for some element, where it is wrong (`C69_default_always`). -/
theorem C69_single_or_default_partial (tupleT predT : Ty) (pred : Ty → Bool) (Ts : List Ty) (vals : List Val) (d : Val)
    (h : tupleT ≠ predT) (hnone : ∀ T ∈ Ts, pred T = false) :
    singleOrDefault false tupleT predT vals d = some ((onlyElement pred Ts vals).getD d) := by
  have : (Ts.zip vals).filter (fun p => pred p.1) = [] := by
    rw [List.filter_eq_nil_iff]
    intro p hp
    simp [hnone p.1 (List.of_mem_zip hp).1]
  rw [C69_default_always tupleT predT vals d h]
  simp [onlyElement, this]

/-- C69: the documented example, `single_or_default(std::tuple{ 1, 2.0 }, is_integral, 7)`, returns 7 instead of 1 (types: 0 = `int`,
1 = `double`, 2 = the tuple, 3 = the predicate). -/
theorem C69_documented_example :
    singleOrDefault false 2 3 [1, 2] 7 = some 7 ∧ onlyElement (fun T => decide (T = 0)) [0, 1] [1, 2] = some 1 ∧
    single false 2 3 [1, 2] = none := by decide

example : ∀ T ∈ [1, 1], (fun T => decide (T = 0)) T = false := by decide

end Makeshift.Props
