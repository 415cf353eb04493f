import Verif.Lemmas.RangeObjects
import Verif.Props.Zip
import Mathlib.Tactic.IntervalCases

/-! # C89: range algorithms on objects, with functors which have effects -/

namespace Makeshift.Props

open Spec RangeObjects

variable {M V B : Type}

/-- Ranges of the same length: `range_for` calls the functor with the references to the elements of each position in turn; each call
finds the state the previous one has left behind, and the first exceptional outcome ends the algorithm. -/
theorem C89_for (func : Fn M Unit) (rs : List (Rng Nat)) (hv : ValidArgs rs) (n : Nat) (hn : AllLength rs n) (fuel : Nat)
    (hf : n < fuel) (m : M) :
    ∃ ts, Zipped rs n ts ∧ RangeObjects.rangeFor func rs fuel m = .done (callEach func ts m).2 (callEach func ts m).1 := by
  obtain ⟨ts, hz, h⟩ := zipAlgorithm_equal rs hv (forBody func) (m, .ok ()) n hn fuel hf
  refine ⟨ts, hz, ?_⟩
  rw [RangeObjects.rangeFor, h, runBody_for]
  rfl

/-- The outcome of an algorithm and the contents of some objects thereafter. -/
def observe {B : Type} (locs : List Nat) : Res (Mem Nat) B → Option (Outcome B × List Nat)
  | .done m out => some (out, locs.map m)
  | _ => none

/-- Adds the second to the first; throws when the first is 7. -/
def addUnlessSeven : Fn (Mem Nat) Unit
  | .elem d :: .elem s :: _, m => if m d = 7 then (.throw [98, 97, 100], m) else (.ok (), m.store d (m d + m s))
  | _, m => (.ok (), m)

example : ValidArgs sampleRanges ∧ AllLength sampleRanges 3 ∧
    observe [10, 11, 12] (RangeObjects.rangeFor addUnlessSeven sampleRanges 4 (fun l => if l = 11 then 7 else l)) =
      some (.throw [98, 97, 100], [30, 7, 12]) :=
  ⟨sampleRanges_valid, sampleRanges_length, by decide +kernel⟩

/-- A range zipped with the rest of itself: later calls see the effects of earlier ones. -/
example : observe [0, 1, 2, 3] (RangeObjects.rangeFor addUnlessSeven
    [⟨.index, .dyn 3, [1, 2, 3]⟩, ⟨.index, .dyn 3, [0, 1, 2]⟩] 4 (fun _ => 1)) = some (.ok (), [1, 2, 3, 4]) := by
  decide +kernel

/-- Ranges of different lengths: the algorithm is rejected by the compiler, or the functor has been called for some of the positions
all ranges have when the program is terminated - unless a call was exceptional before. -/
theorem C89_mismatch (func : Fn M Unit) (rs : List (Rng Nat)) (hv : ValidArgs rs) (k : Nat)
    (hk : ∃ r ∈ rs, IsReal r ∧ r.elems.length = k) (hmin : ∀ r ∈ rs, IsReal r → k ≤ r.elems.length)
    (hlong : ∃ r ∈ rs, IsReal r ∧ k < r.elems.length) (fuel : Nat) (hf : k < fuel) (m : M) :
    RangeObjects.rangeFor func rs fuel m = .illFormed ∨
    ∃ j ≤ k, ∃ ts, Zipped rs j ts ∧ RangeObjects.rangeFor func rs fuel m =
      .done (callEach func ts m).2 (if (callEach func ts m).1 = .ok () then .failFast else (callEach func ts m).1) := by
  have hna : ¬ AllLength rs k := by
    intro h; obtain ⟨r, hr, hR, hl⟩ := hlong; have := h r hr hR; omega
  rcases zipAlgorithm_spec rs hv (forBody func) (m, .ok ()) k hk hmin fuel hf with ⟨-, ⟨h, -⟩ | h⟩ | ⟨ts, hz, h⟩
  · left; rw [RangeObjects.rangeFor, h]; rfl
  · right; refine ⟨0, by omega, [], ⟨rfl, by simp⟩, ?_⟩
    rw [RangeObjects.rangeFor, h]; rfl
  · right; refine ⟨k, Nat.le_refl k, ts, hz, ?_⟩
    rw [RangeObjects.rangeFor, h, runBody_for]
    rcases (callEach func ts m).1 with - | - | - | - <;> simp [regular, hna, finish]

example : ValidArgs unequalRanges ∧ (∃ r ∈ unequalRanges, IsReal r ∧ r.elems.length = 2) ∧
    (∃ r ∈ unequalRanges, IsReal r ∧ 2 < r.elems.length) ∧
    (observe [10, 11, 12] (RangeObjects.rangeFor addUnlessSeven unequalRanges 3 (fun l => l)) = some (.failFast, [40, 42, 12])) ∧
    observe [10, 11, 12] (RangeObjects.rangeFor addUnlessSeven unequalRanges 3 (fun l => if l = 11 then 7 else l)) = some ((.throw [98, 97, 100]), [40, 7, 12]) :=
  ⟨unequalRanges_valid, ⟨_, List.mem_cons_of_mem _ (List.mem_cons_self ..), by simp [IsReal], rfl⟩,
    ⟨_, List.mem_cons_self .., by simp [IsReal], by decide⟩, (by decide +kernel), (by decide +kernel)⟩

/-- How many calls there have been: if two ranges report sizes (by `size()`, or as constants) which differ, none; otherwise exactly those for
the positions which all ranges have. -/
theorem C89_mismatch_calls (func : Fn M Unit) (rs : List (Rng Nat)) (hv : ValidArgs rs) (k : Nat)
    (hk : ∃ r ∈ rs, IsReal r ∧ r.elems.length = k) (hmin : ∀ r ∈ rs, IsReal r → k ≤ r.elems.length)
    (hlong : ∃ r ∈ rs, IsReal r ∧ k < r.elems.length) (fuel : Nat) (hf : k < fuel) (m : M) :
    ((∃ r ∈ rs, ∃ r' ∈ rs, r.size ≠ .static (-1) ∧ r'.size ≠ .static (-1) ∧ r.elems.length ≠ r'.elems.length) →
      RangeObjects.rangeFor func rs fuel m = .illFormed ∨ RangeObjects.rangeFor func rs fuel m = .done m .failFast) ∧
    ((∀ r ∈ rs, ∀ r' ∈ rs, r.size ≠ .static (-1) → r'.size ≠ .static (-1) → r.elems.length = r'.elems.length) →
      ∃ ts, Zipped rs k ts ∧ RangeObjects.rangeFor func rs fuel m =
        .done (callEach func ts m).2 (if (callEach func ts m).1 = .ok () then .failFast else (callEach func ts m).1)) := by
  have hna : ¬ AllLength rs k := by
    intro h; obtain ⟨r, hr, hR, hl⟩ := hlong; have := h r hr hR; omega
  rcases zipAlgorithm_exact rs hv (forBody func) (m, .ok ()) k hk hmin fuel hf with ⟨hno, -, h⟩ | ⟨hc, ts, hz, h⟩
  · refine ⟨fun _ => ?_, fun hall => absurd ((consistent_iff hv.1).2 hall) hno⟩
    rcases h with ⟨h, -⟩ | h
    · left; rw [RangeObjects.rangeFor, h]; rfl
    · right; rw [RangeObjects.rangeFor, h]; rfl
  · refine ⟨?_, fun _ => ⟨ts, hz, ?_⟩⟩
    · rintro ⟨r, hr, r', hr', h1, h2, h3⟩
      exact absurd ((consistent_iff hv.1).1 hc r hr r' hr' h1 h2) h3
    · rw [RangeObjects.rangeFor, h, runBody_for]
      rcases (callEach func ts m).1 with - | - | - | - <;> simp [regular, hna, finish]

example : ∀ r ∈ unequalRanges, ∀ r' ∈ unequalRanges, r.size ≠ .static (-1) → r'.size ≠ .static (-1) → r.elems.length = r'.elems.length := by
  decide +kernel

/-- Transforming elementwise.  The functor assigns to the element of `dst` a value computed from the elements of `dst` and `src`; no
element of `src` is written before it is read.  Afterwards every element of `dst` has the value computed from the original elements,
and all other objects are unchanged. -/
theorem C89_elementwise (g : V → V → V) (func : Fn (Mem V) Unit) (dst src : Rng Nat) (hv : ValidArgs [dst, src])
    (hd : IsReal dst) (hs : IsReal src) (hl : dst.elems.length = src.elems.length) (hnd : dst.elems.Nodup)
    (hal : ∀ (i j : Nat) d, i < j → dst.elems[i]? = some d → src.elems[j]? ≠ some d)
    (hfunc : ∀ d s m, (func [.elem d, .elem s] m).1 = .ok () ∧ (func [.elem d, .elem s] m).2 d = g (m d) (m s) ∧
      ∀ l, l ≠ d → (func [.elem d, .elem s] m).2 l = m l)
    (fuel : Nat) (hf : dst.elems.length < fuel) (m : Mem V) :
    ∃ m', RangeObjects.rangeFor func [dst, src] fuel m = .done m' (.ok ()) ∧
      (∀ (i : Nat) d s, dst.elems[i]? = some d → src.elems[i]? = some s → m' d = g (m d) (m s)) ∧
      ∀ l, l ∉ dst.elems → m' l = m l := by
  have hn : AllLength [dst, src] dst.elems.length := by
    intro r hr _
    simp only [List.mem_cons, List.not_mem_nil, or_false] at hr
    rcases hr with rfl | rfl
    · rfl
    · exact hl.symm
  obtain ⟨ts, ⟨hlen, hz⟩, h⟩ := C89_for func [dst, src] hv _ hn fuel hf m
  have key : ∀ (ds ss : List Nat) (ts : List (List (Arg Nat))) (m : Mem V), ds.length = ss.length → ts.length = ds.length →
      (∀ (i : Nat) (args : List (Arg Nat)), ts[i]? = some args → ∃ d s, ds[i]? = some d ∧ ss[i]? = some s ∧ args = [.elem d, .elem s]) → ds.Nodup →
      (∀ (i j : Nat) d, i < j → ds[i]? = some d → ss[j]? ≠ some d) →
      (callEach func ts m).1 = .ok () ∧
      (∀ (i : Nat) d s, ds[i]? = some d → ss[i]? = some s → (callEach func ts m).2 d = g (m d) (m s)) ∧
      ∀ l, l ∉ ds → (callEach func ts m).2 l = m l := by
    intro ds
    induction ds with
    | nil =>
      intro ss ts m h1 h2 _ _ _
      obtain rfl : ts = [] := List.length_eq_zero_iff.mp h2
      exact ⟨rfl, by simp, by simp [callEach]⟩
    | cons d ds ih =>
      intro ss ts m h1 h2 h3 h4 h5
      cases ss with
      | nil => simp at h1
      | cons s ss =>
        cases ts with
        | nil => simp at h2
        | cons t ts =>
          obtain ⟨d', s', hd', hs', rfl⟩ := h3 0 t rfl
          simp only [List.getElem?_cons_zero, Option.some.injEq] at hd' hs'
          subst hd' hs'
          obtain ⟨f1, f2, f3⟩ := hfunc d s m
          rcases hfm : func [.elem d, .elem s] m with ⟨o, m1⟩
          rw [hfm] at f1 f2 f3
          simp only at f1 f2 f3
          subst f1
          have hnd := List.nodup_cons.mp h4
          have := ih ss ts m1 (by simpa using h1) (by simpa using h2) (fun i args hi => by simpa using h3 (i + 1) args (by simpa using hi)) hnd.2
            (fun i j x hij hx => by simpa using h5 (i + 1) (j + 1) x (by omega) (by simpa using hx))
          have hce : callEach func ([.elem d, .elem s] :: ts) m = callEach func ts m1 := by simp [callEach, andThen, hfm]
          rw [hce]
          refine ⟨this.1, ?_, ?_⟩
          · intro i x y hx hy
            cases i with
            | zero =>
              simp only [List.getElem?_cons_zero, Option.some.injEq] at hx hy
              subst hx hy
              rw [this.2.2 d hnd.1, f2]
            | succ i =>
              simp only [List.getElem?_cons_succ] at hx hy
              rw [this.2.1 i x y hx hy]
              have hxd : x ≠ d := by
                rintro rfl
                exact hnd.1 (List.mem_of_getElem? hx)
              have hyd : y ≠ d := by
                rintro rfl
                exact h5 0 (i + 1) y (by omega) rfl (by simpa using hy)
              rw [f3 x hxd, f3 y hyd]
          · intro l hl'
            simp only [List.mem_cons, not_or] at hl'
            rw [this.2.2 l hl'.2, f3 l hl'.1]
  obtain ⟨k1, k2, k3⟩ := key dst.elems src.elems ts m hl hlen (by
    intro i args hi
    have := hz i args hi
    rw [List.forall₂_cons_left_iff] at this
    obtain ⟨a, l1, ha, hl1, rfl⟩ := this
    rw [List.forall₂_cons_left_iff] at hl1
    obtain ⟨b, l2, hb, hl2, rfl⟩ := hl1
    cases hl2
    rcases ha with ⟨h', -⟩ | ⟨-, x, hx, rfl⟩
    · exact absurd h' hd
    · rcases hb with ⟨h', -⟩ | ⟨-, y, hy, rfl⟩
      · exact absurd h' hs
      · exact ⟨x, y, hx, hy, rfl⟩) hnd hal
  exact ⟨_, by rw [h, k1], k2, k3⟩

/-- `dst = 10 * dst + src`. -/
def tenTimes : Fn (Mem Nat) Unit
  | [.elem d, .elem s], m => (.ok (), m.store d (10 * m d + m s))
  | _, m => (.ok (), m)

/-- An array zipped with the rest of itself. -/
example : let a : Rng Nat := ⟨.index, .dyn 3, [0, 1, 2]⟩; let b : Rng Nat := ⟨.iteratorPair, .static (-1), [1, 2, 3]⟩;
    ValidArgs [a, b] ∧ a.elems.Nodup ∧ (∀ (i j : Nat) d, i < j → a.elems[i]? = some d → b.elems[j]? ≠ some d) ∧
    (∀ d s m, (tenTimes [.elem d, .elem s] m).1 = .ok () ∧ (tenTimes [.elem d, .elem s] m).2 d = 10 * m d + m s ∧
      ∀ l, l ≠ d → (tenTimes [.elem d, .elem s] m).2 l = m l) ∧
    observe [0, 1, 2, 3] (RangeObjects.rangeFor tenTimes [a, b] 4 (fun l => l + 1)) = some (.ok (), [12, 23, 34, 4]) := by
  refine ⟨⟨?_, ⟨_, List.mem_cons_self .., by simp [IsReal]⟩, Or.inl ⟨_, List.mem_cons_self .., by simp⟩⟩, by simp, ?_, ?_, by decide +kernel⟩
  · intro r hr
    simp only [List.mem_cons, List.not_mem_nil, or_false] at hr
    rcases hr with rfl | rfl <;> simp [ValidRange]
  · intro i j d hij hi hj
    have h1 : i < 3 := (List.getElem?_eq_some_iff.mp hi).1
    have h2 : j < 3 := (List.getElem?_eq_some_iff.mp hj).1
    interval_cases j <;> interval_cases i <;> simp at hij hi hj <;> omega
  · intro d s m
    exact ⟨rfl, by simp [tenTimes, Mem.store], fun l hl => by simp [tenTimes, Mem.store, hl]⟩

/-- What a reducer returned, as a value. -/
def returnedValue : Returned V → V
  | .value v => v
  | .lvalueOfFirst v => v
  | .rvalueOfFirst v => v

/-- `range_transform_reduce` calls the transformer and then the reducer for each position in turn, and returns the last value the
reducer has returned - if the reducer does not return a reference to its first argument as an rvalue, or assigning an object to itself
as an rvalue leaves it as it is.  What is missing: see `C89_self_move`. -/
theorem C89_transform_reduce_partial (selfMove : V → V) (initialValue : V) (reduce : V → B → M → Outcome (Returned V) × M)
    (transform : Fn M B) (hr : ∀ v b m w, (reduce v b m).1 = .ok (.rvalueOfFirst w) → selfMove w = w)
    (rs : List (Rng Nat)) (hv : ValidArgs rs) (n : Nat) (hn : AllLength rs n) (fuel : Nat) (hf : n < fuel) (m : M) :
    ∃ ts, Zipped rs n ts ∧
      let spec := foldEach (fun v args => andThen (transform args) fun b => andThen (reduce v b) fun r m => (.ok (returnedValue r), m))
        initialValue ts m
      RangeObjects.rangeTransformReduce selfMove initialValue reduce transform rs fuel m = .done spec.2 spec.1 := by
  obtain ⟨ts, hz, h⟩ := zipAlgorithm_equal rs hv (reduceBody selfMove reduce transform) (m, .ok initialValue) n hn fuel hf
  refine ⟨ts, hz, ?_⟩
  rw [RangeObjects.rangeTransformReduce, h, runBody_reduce,
    fold_returned selfMove reduce transform hr returnedValue (fun w => ⟨rfl, rfl, rfl⟩)]
  rfl

/-- Takes the contents of the first element away and leaves zero. -/
def takeFirst : Fn (Mem Nat) Nat
  | .elem l :: _, m => (.ok (m l), m.store l 0)
  | _, m => (.ub, m)

/-- Adds, and counts its calls in object 99; throws for the second call if object 98 is set. -/
def addCounting (v b : Nat) (m : Mem Nat) : Outcome (Returned Nat) × Mem Nat :=
  if m 98 ≠ 0 ∧ m 99 = 1 then (.throw [110, 111], m) else (.ok (.value (v + b)), m.store 99 (m 99 + 1))

example : ValidArgs sampleRanges ∧ AllLength sampleRanges 3 ∧
    (observe [10, 11, 12, 99] (RangeObjects.rangeTransformReduce (fun _ => 0) 5 addCounting takeFirst sampleRanges 4
      (fun l => if 98 ≤ l then 0 else l)) = some ((.ok 38), [0, 0, 0, 3])) ∧
    observe [10, 11, 12, 99] (RangeObjects.rangeTransformReduce (fun _ => 0) 5 addCounting takeFirst sampleRanges 4
      (fun l => if 99 ≤ l then 0 else l)) = some ((.throw [110, 111]), [0, 0, 12, 1]) :=
  ⟨sampleRanges_valid, sampleRanges_length, (by decide +kernel), (by decide +kernel)⟩

/-- `range_reduce` likewise. -/
theorem C89_reduce_partial (selfMove : V → V) (initialValue : V) (reduce : V → Nat → M → Outcome (Returned V) × M)
    (hr : ∀ v b m w, (reduce v b m).1 = .ok (.rvalueOfFirst w) → selfMove w = w) (range : List Nat) (m : M) :
    RangeObjects.rangeReduce selfMove reduce initialValue range m =
      foldEach (fun v elem => andThen (reduce v elem) fun r m => (.ok (returnedValue r), m)) initialValue range m :=
  rangeReduce_fold selfMove reduce hr returnedValue (fun _ => ⟨rfl, rfl, rfl⟩) range initialValue m

/-- Adds the element to the result and clears the element. -/
def addAndClear (v : Nat) (elem : Nat) (m : Mem Nat) : Outcome (Returned Nat) × Mem Nat :=
  (.ok (.value (v + m elem)), m.store elem 0)

example : (∀ v b m w, (addAndClear v b m).1 = .ok (.rvalueOfFirst w) → (fun _ => 0) w = w) ∧
    ∃ m' : Mem Nat, RangeObjects.rangeReduce (fun _ => 0) addAndClear 5 [10, 11, 10] (fun l => l) = (.ok 26, m') ∧ m' 10 = 0 ∧ m' 11 = 0 :=
  ⟨by simp [addAndClear], _, (by rfl), (by rfl), (by rfl)⟩

/-- A reducer which appends to its first argument and returns it, as an rvalue: the result is assigned to itself as an rvalue, and with
a type for which that empties an object, everything is lost. -/
theorem C89_self_move :
    let appendTo : List Nat → Nat → Mem Nat → Outcome (Returned (List Nat)) × Mem Nat :=
      fun v b m => (.ok (.rvalueOfFirst (v ++ [b])), m)
    let contents : Fn (Mem Nat) Nat := fun args m => match args with | .elem l :: _ => (.ok (m l), m) | _ => (.ub, m)
    observe [] (RangeObjects.rangeTransformReduce (fun _ => []) [] appendTo contents [⟨.index, .dyn 2, [10, 11]⟩] 3 (fun l => l)) =
        some (.ok [], []) ∧
      RangeObjects.rangeReduce (fun _ => []) (fun v l m => appendTo v (m l) m) [] [10, 11] (fun l => l) = (.ok [], fun l => l) :=
  ⟨by decide +kernel, rfl⟩

/-- `range_count_if` calls the predicate for each position in turn. -/
theorem C89_count_if (pred : Fn M Bool) (rs : List (Rng Nat)) (hv : ValidArgs rs) (n : Nat) (hn : AllLength rs n) (fuel : Nat)
    (hf : n < fuel) (m : M) :
    ∃ ts, Zipped rs n ts ∧ RangeObjects.rangeCountIf pred rs fuel m = .done (countEach pred ts m).2 (countEach pred ts m).1 := by
  obtain ⟨ts, hz, h⟩ := zipAlgorithm_equal rs hv (countBody pred) (m, .ok 0) n hn fuel hf
  refine ⟨ts, hz, ?_⟩
  rw [RangeObjects.rangeCountIf, h, runBody_count]
  rcases countEach pred ts m with ⟨o, m'⟩
  cases o <;> simp [finish]

/-- Says whether the element is odd, and adds one to it; 13 is an error. -/
def oddThenIncrement : Fn (Mem Nat) Bool
  | .elem l :: _, m => if m l = 13 then (.throw [49, 51], m) else (.ok (m l % 2 == 1), m.store l (m l + 1))
  | _, m => (.ub, m)

example : (observe [10, 11, 12] (RangeObjects.rangeCountIf oddThenIncrement sampleRanges 4 (fun l => l)) = some ((.ok 1), [11, 12, 13])) ∧
    observe [10, 11, 12] (RangeObjects.rangeCountIf oddThenIncrement sampleRanges 4 (fun l => l + 1)) = some ((.throw [49, 51]), [12, 13, 13]) :=
  ⟨(by decide +kernel), (by decide +kernel)⟩

/-- `range_all_of` calls the predicate for each position in turn, until it returns `false`. -/
theorem C89_all_of (pred : Fn M Bool) (rs : List (Rng Nat)) (hv : ValidArgs rs) (n : Nat) (hn : AllLength rs n) (fuel : Nat)
    (hf : n < fuel) (m : M) :
    ∃ ts, Zipped rs n ts ∧ RangeObjects.rangeAllOf pred rs fuel m =
      .done (anyReturns false pred ts m).2 ((anyReturns false pred ts m).1.mapVal (!·)) := by
  obtain ⟨ts, hz, h⟩ := zipAlgorithm_equal rs hv (searchBody false false pred) (m, .ok true) n hn fuel hf
  refine ⟨ts, hz, ?_⟩
  rw [RangeObjects.rangeAllOf, h, runBody_search]
  rcases anyReturns false pred ts m with ⟨o, m'⟩
  cases o with
  | ok b => cases b <;> rfl
  | _ => rfl

/-- `range_any_of` calls the predicate for each position in turn, until it returns `true`. -/
theorem C89_any_of (pred : Fn M Bool) (rs : List (Rng Nat)) (hv : ValidArgs rs) (n : Nat) (hn : AllLength rs n) (fuel : Nat)
    (hf : n < fuel) (m : M) :
    ∃ ts, Zipped rs n ts ∧ RangeObjects.rangeAnyOf pred rs fuel m =
      .done (anyReturns true pred ts m).2 (anyReturns true pred ts m).1 := by
  obtain ⟨ts, hz, h⟩ := zipAlgorithm_equal rs hv (searchBody true true pred) (m, .ok false) n hn fuel hf
  refine ⟨ts, hz, ?_⟩
  rw [RangeObjects.rangeAnyOf, h, runBody_search]
  rcases anyReturns true pred ts m with ⟨o, m'⟩
  cases o with
  | ok b => cases b <;> rfl
  | _ => rfl

/-- `range_none_of` likewise. -/
theorem C89_none_of (pred : Fn M Bool) (rs : List (Rng Nat)) (hv : ValidArgs rs) (n : Nat) (hn : AllLength rs n) (fuel : Nat)
    (hf : n < fuel) (m : M) :
    ∃ ts, Zipped rs n ts ∧ RangeObjects.rangeNoneOf pred rs fuel m =
      .done (anyReturns true pred ts m).2 ((anyReturns true pred ts m).1.mapVal (!·)) := by
  obtain ⟨ts, hz, h⟩ := zipAlgorithm_equal rs hv (searchBody true false pred) (m, .ok true) n hn fuel hf
  refine ⟨ts, hz, ?_⟩
  rw [RangeObjects.rangeNoneOf, h, runBody_search]
  rcases anyReturns true pred ts m with ⟨o, m'⟩
  cases o with
  | ok b => cases b <;> rfl
  | _ => rfl

example : (observe [10, 11, 12] (RangeObjects.rangeAllOf oddThenIncrement sampleRanges 4 (fun l => l)) = some ((.ok false), [11, 11, 12])) ∧
    (observe [10, 11, 12] (RangeObjects.rangeAnyOf oddThenIncrement sampleRanges 4 (fun l => l)) = some ((.ok true), [11, 12, 12])) ∧
    (observe [10, 11, 12] (RangeObjects.rangeNoneOf oddThenIncrement sampleRanges 4 (fun l => 2 * l)) = some ((.ok true), [21, 23, 25])) ∧
    observe [10, 11, 12] (RangeObjects.rangeAnyOf oddThenIncrement sampleRanges 4 (fun l => if l = 11 then 13 else 2)) = some ((.throw [49, 51]), [3, 13, 2]) :=
  ⟨(by decide +kernel), (by decide +kernel), (by decide +kernel), (by decide +kernel)⟩

/-- `range_fill`: every object of the range has the value which the argument had before the call, even if the argument is an element of
the range; all other objects are unchanged. -/
theorem C89_fill (value : Nat) (range : List Nat) (m : Mem V) (l : Nat) :
    RangeObjects.rangeFill value range m l = if l ∈ range then m value else m l := by
  have hval : ∀ loc, m.store loc (m value) value = m value := by
    intro loc; unfold Mem.store; split_ifs <;> rfl
  induction range generalizing m with
  | nil => simp [RangeObjects.rangeFill]
  | cons loc range ih =>
    rw [RangeObjects.rangeFill, ih _ (by intro l'; rw [hval]; unfold Mem.store; split_ifs <;> rfl), hval]
    unfold Mem.store
    by_cases h1 : l ∈ range
    · simp [h1]
    · by_cases h2 : l = loc <;> simp [h1, h2]

example : [0, 1, 2, 3].map (RangeObjects.rangeFill 1 [0, 1, 2] (fun l => l + 5)) = [6, 6, 6, 8] := rfl

/-- `range_generate`: the states of the program between the calls.  The generator finds all values generated so far in the range; if it
does not return regularly, that is the outcome, and the rest of the range is not written. -/
theorem C89_generate {S : Type} (generate : Mem V × S → Outcome V × (Mem V × S)) (range : List Nat) (m : Mem V × S) :
    ∃ (k : Nat) (s : Nat → Mem V × S), s 0 = m ∧
      (∀ i, i < k → ∃ loc v, range[i]? = some loc ∧ (generate (s i)).1 = .ok v ∧ (s (i + 1)).2 = (generate (s i)).2.2 ∧
        ∀ l, (s (i + 1)).1 l = if l = loc then v else (generate (s i)).2.1 l) ∧
      ((k = range.length ∧ RangeObjects.rangeGenerate generate range m = (.ok (), s k)) ∨
       (k < range.length ∧ ∃ o : Outcome Unit, RangeObjects.rangeGenerate generate range m = (o, (generate (s k)).2) ∧
          (∀ u, o ≠ .ok u) ∧ (generate (s k)).1.mapVal (fun _ => ()) = o)) := by
  induction range generalizing m with
  | nil => exact ⟨0, fun _ => m, rfl, by simp, Or.inl ⟨rfl, rfl⟩⟩
  | cons loc range ih =>
    rcases hg : generate m with ⟨o, m'⟩
    cases o with
    | ok v =>
      obtain ⟨k, s, h0, hs, hk⟩ := ih (m'.1.store loc v, m'.2)
      refine ⟨k + 1, fun i => match i with | 0 => m | i + 1 => s i, rfl, ?_, ?_⟩
      · intro i hi
        cases i with
        | zero => exact ⟨loc, v, rfl, by simp [hg], by simp [hg, h0], by intro l; simp [hg, h0, Mem.store]⟩
        | succ i => simpa using hs i (by omega)
      · rcases hk with ⟨rfl, hr⟩ | ⟨hlt, o, hr, ho, hgo⟩
        · left; exact ⟨by simp, by simp [RangeObjects.rangeGenerate, hg, hr]⟩
        · right; exact ⟨by simp; omega, o, by simp [RangeObjects.rangeGenerate, hg, hr], ho, hgo⟩
    | throw e => exact ⟨0, fun _ => m, rfl, by simp, Or.inr ⟨by simp, .throw e, by simp [RangeObjects.rangeGenerate, hg], by simp, by simp [hg]⟩⟩
    | failFast => exact ⟨0, fun _ => m, rfl, by simp, Or.inr ⟨by simp, .failFast, by simp [RangeObjects.rangeGenerate, hg], by simp, by simp [hg]⟩⟩
    | ub => exact ⟨0, fun _ => m, rfl, by simp, Or.inr ⟨by simp, .ub, by simp [RangeObjects.rangeGenerate, hg], by simp, by simp [hg]⟩⟩

/-- The Fibonacci numbers, computed from the elements generated so far; the state counts the calls. -/
def fibonacci (m : Mem Nat × Nat) : Outcome Nat × (Mem Nat × Nat) :=
  if m.2 = 5 then (.throw [111, 118], m)
  else (.ok (if m.2 < 2 then 1 else m.1 (m.2 - 1) + m.1 (m.2 - 2)), (m.1, m.2 + 1))

example : (∃ s : Mem Nat × Nat, RangeObjects.rangeGenerate fibonacci [0, 1, 2, 3, 4] (fun _ => 0, 0) = (.ok (), s) ∧
      [0, 1, 2, 3, 4].map s.1 = [1, 1, 2, 3, 5]) ∧
    ∃ s : Mem Nat × Nat, RangeObjects.rangeGenerate fibonacci [0, 1, 2, 3, 4, 5, 6] (fun _ => 0, 0) = (.throw [111, 118], s) ∧
      [0, 1, 2, 3, 4, 5, 6].map s.1 = [1, 1, 2, 3, 5, 0, 0] :=
  ⟨⟨_, (by rfl), (by rfl)⟩, ⟨_, (by rfl), (by rfl)⟩⟩

/-- `range_iota` with values `v 0, v 1, ...`: if all increments succeed - one for every element - the elements of the range have these
values; otherwise the elements before the one whose increment does not succeed have been written, and no other. -/
theorem C89_iota (inc : V → Outcome V) (range : List Nat) (hnd : range.Nodup) (v : Nat → V) (k : Nat)
    (hv : ∀ i, i < k → inc (v i) = .ok (v (i + 1))) (hk : k ≤ range.length)
    (hend : k = range.length ∨ ∀ w, inc (v k) ≠ .ok w) (m : Mem V) :
    (RangeObjects.rangeIota inc range (v 0) m).1 = (if k = range.length then .ok () else (inc (v k)).mapVal fun _ => ()) ∧
    (∀ i loc, i < k → range[i]? = some loc → (RangeObjects.rangeIota inc range (v 0) m).2 loc = v i) ∧
    ∀ l, (∀ i, i < k → range[i]? ≠ some l) → (RangeObjects.rangeIota inc range (v 0) m).2 l = m l := by
  induction range generalizing v k m with
  | nil =>
    obtain rfl : k = 0 := by simpa using hk
    exact ⟨rfl, by simp, fun l _ => rfl⟩
  | cons loc range ih =>
    have hnd' := List.nodup_cons.mp hnd
    cases k with
    | zero =>
      have h0 : ∀ w, inc (v 0) ≠ .ok w := by
        rcases hend with h | h
        · simp at h
        · exact h
      rcases hi : inc (v 0) with w | e | - | -
      · exact absurd hi (h0 w)
      all_goals simp [RangeObjects.rangeIota, hi]
    | succ k =>
      have h0 := hv 0 (by omega)
      obtain ⟨i1, i2, i3⟩ := ih hnd'.2 (fun i => v (i + 1)) k (fun i hi => hv (i + 1) (by omega)) (by simpa using hk)
        (by simpa using hend) (m.store loc (v 0))
      simp only [Nat.zero_add] at h0 i1 i2 i3
      simp only [RangeObjects.rangeIota, h0]
      refine ⟨by simpa using i1, ?_, ?_⟩
      · intro i x hi hx
        cases i with
        | zero =>
          simp only [List.getElem?_cons_zero, Option.some.injEq] at hx
          subst hx
          rw [i3 loc (fun i _ h => hnd'.1 (List.mem_of_getElem? h))]
          simp [Mem.store]
        | succ i =>
          simp only [List.getElem?_cons_succ] at hx
          exact i2 i x (by omega) hx
      · intro l hl
        rw [i3 l (fun i hi => by simpa using hl (i + 1) (by omega))]
        have : l ≠ loc := fun h => hl 0 (by omega) (by simp [h])
        simp [Mem.store, this]

/-- Three elements, and an increment which throws at 12: the third element would have been 12. -/
example : let inc := fun v : Nat => if v = 12 then Outcome.throw [111, 118] else .ok (v + 1);
    (∀ i, i < 2 → inc (10 + i) = .ok (10 + (i + 1))) ∧ (∀ w, inc (10 + 2) ≠ .ok w) ∧
    ∃ m' : Mem Nat, RangeObjects.rangeIota inc [0, 1, 2] 10 (fun _ => 0) = (.throw [111, 118], m') ∧ [0, 1, 2].map m' = [10, 11, 0] := by
  refine ⟨?_, by simp, _, (by rfl), (by rfl)⟩
  intro i hi
  interval_cases i <;> rfl

end Makeshift.Props
