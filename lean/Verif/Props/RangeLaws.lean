import Verif.Props.Zip
import Mathlib.Data.List.Forall2
import Mathlib.Data.List.Perm.Basic

/-! Laws of the range algorithms (C129). -/

namespace Makeshift.Props

open Spec

variable {α σ τ : Type}

/-- Two arguments which are `range_index` both, or ranges with the same elements of whatever kinds. -/
def SameElements (r r' : Rng α) : Prop := (IsReal r ↔ IsReal r') ∧ (IsReal r → r.elems = r'.elems)

/-- The kinds of the ranges do not matter: any algorithm does the same for vectors, linked lists, ranges without a size, ... with the same elements. -/
theorem C129_kinds (rs rs' : List (Rng α)) (hs : List.Forall₂ SameElements rs rs') (hv : ValidArgs rs) (hv' : ValidArgs rs') (n : Nat) (hn : AllLength rs n)
    (body : σ → List (Arg α) → σ × Bool) (init : σ) (fuel fuel' : Nat) (hf : n < fuel) (hf' : n < fuel') :
    zipAlgorithm rs body fuel init = zipAlgorithm rs' body fuel' init := by
  have harg : ∀ (i : Nat) (args : List (Arg α)), List.Forall₂ (ArgAt i) rs args → List.Forall₂ (ArgAt i) rs' args := by
    intro i
    clear hn hv hv'
    induction hs with
    | nil => exact fun args h => h
    | @cons r r' rs rs' h _ ih =>
      intro args ha
      cases ha with
      | cons ha hrest =>
        refine .cons ?_ (ih _ hrest)
        obtain ⟨h1, h2⟩ := h
        unfold IsReal at h1 h2
        rcases ha with ⟨hm, rfl⟩ | ⟨hm, x, hx, rfl⟩
        · exact .inl ⟨by by_contra hc; exact (h1.mpr hc) hm, rfl⟩
        · exact .inr ⟨h1.mp hm, x, by rw [← h2 hm]; exact hx, rfl⟩
  have hn' : AllLength rs' n := by
    clear harg hv hv'
    induction hs with
    | nil => exact hn
    | @cons r r' rs rs' h _ ih =>
      intro q hq hQ
      rcases List.mem_cons.mp hq with rfl | hq
      · rw [← h.2 (h.1.mpr hQ)]
        exact hn r (by simp) (h.1.mpr hQ)
      · exact ih (fun q hq hQ => hn q (by simp [hq]) hQ) q hq hQ
  obtain ⟨ts, ⟨hl, hz⟩, h⟩ := zipAlgorithm_equal rs hv body init n hn fuel hf
  obtain ⟨ts', hz', h'⟩ := zipAlgorithm_equal rs' hv' body init n hn' fuel' hf'
  rw [h, h', C26_tuples_unique rs' n ts ts' ⟨hl, fun i args hi => harg i args (hz i args hi)⟩ hz']

/-- A vector and a linked list without a size instead of two vectors. -/
example (body : Nat → List (Arg Nat) → Nat × Bool) :
    zipAlgorithm [⟨.index, .dyn 2, [1, 2]⟩, ⟨.index, .dyn 2, [3, 4]⟩] body 3 0 =
      zipAlgorithm [⟨.index, .dyn 2, [1, 2]⟩, ⟨.iteratorPair, .static (-1), [3, 4]⟩] body 9 0 := by
  refine C129_kinds _ _ ?_ ?_ ?_ 2 ?_ body 0 3 9 (by omega) (by omega)
  · simp [SameElements, IsReal]
  · exact ⟨by simp [ValidRange], by simp [IsReal], .inl (by simp)⟩
  · exact ⟨by simp [ValidRange], by simp [IsReal], .inl (by simp)⟩
  · simp [AllLength]

/-- The arguments may be reordered, and ranges may be passed several times or be left out if the functor does not need them: `q` lists the numbers of the
arguments passed instead. -/
theorem C129_arguments (q : List Nat) (rs : List (Rng α)) (hv : ValidArgs rs) (hv' : ValidArgs (q.filterMap (rs[·]?))) (n : Nat) (hn : AllLength rs n)
    (body body' : σ → List (Arg α) → σ × Bool) (hb : ∀ s args, args.length = rs.length → body' s (q.filterMap (args[·]?)) = body s args) (init : σ)
    (fuel fuel' : Nat) (hf : n < fuel) (hf' : n < fuel') :
    zipAlgorithm (q.filterMap (rs[·]?)) body' fuel' init = zipAlgorithm rs body fuel init := by
  have hn' : AllLength (q.filterMap (rs[·]?)) n := by
    intro r hr hR
    obtain ⟨i, -, hi⟩ := List.mem_filterMap.mp hr
    exact hn r (List.mem_of_getElem? hi) hR
  have harg : ∀ (i : Nat) (args : List (Arg α)), List.Forall₂ (ArgAt i) rs args → List.Forall₂ (ArgAt i) (q.filterMap (rs[·]?)) (q.filterMap (args[·]?)) := by
    intro i args h
    clear hv' hn' hb
    have hget : ∀ j : Nat, (rs[j]? = none ∧ args[j]? = none) ∨ ∃ r a, rs[j]? = some r ∧ args[j]? = some a ∧ ArgAt i r a := by
      intro j
      clear hv hn
      induction h generalizing j with
      | nil => exact .inl (by simp)
      | cons h1 _ ih =>
        cases j with
        | zero => exact .inr ⟨_, _, rfl, rfl, h1⟩
        | succ j => simpa using ih j
    induction q with
    | nil => exact .nil
    | cons j q ih =>
      rcases hget j with ⟨h1, h2⟩ | ⟨r, a, h1, h2, h3⟩
      · rw [List.filterMap_cons_none h1, List.filterMap_cons_none h2]; exact ih
      · rw [List.filterMap_cons_some h1, List.filterMap_cons_some h2]; exact .cons h3 ih
  obtain ⟨ts, ⟨hl, hz⟩, h⟩ := zipAlgorithm_equal rs hv body init n hn fuel hf
  obtain ⟨ts', hz', h'⟩ := zipAlgorithm_equal _ hv' body' init n hn' fuel' hf'
  have hts : ts' = ts.map fun args => q.filterMap (args[·]?) := by
    refine C26_tuples_unique _ n _ _ hz' ⟨by simpa using hl, fun i args hi => ?_⟩
    rw [List.getElem?_map] at hi
    obtain ⟨t, ht, rfl⟩ := Option.map_eq_some_iff.mp hi
    exact harg i t (hz i t ht)
  have hlen : ∀ t ∈ ts, t.length = rs.length := by
    intro t ht
    obtain ⟨i, hi⟩ := List.getElem?_of_mem ht
    exact (hz i t hi).length_eq.symm
  have hrun : ∀ (ts : List (List (Arg α))) (s : σ), (∀ t ∈ ts, t.length = rs.length) →
      runBody body' s (ts.map fun args => q.filterMap (args[·]?)) = runBody body s ts := by
    intro ts
    induction ts with
    | nil => intro s _; rfl
    | cons t ts ih =>
      intro s hl
      simp only [List.map_cons, runBody, hb s t (hl t (by simp)), ih _ (fun t ht => hl t (by simp [ht]))]
  rw [h, h', hts, hrun ts init hlen]

/-- Two arguments in reverse order, with a functor that takes its arguments in reverse order: differences of two ranges. -/
def difference (s : List Int) (args : List (Arg Int)) : List Int × Bool :=
  match args with
  | [.elem a, .elem b] => (s ++ [a - b], true)
  | _ => (s, true)
def reverseDifference (s : List Int) (args : List (Arg Int)) : List Int × Bool :=
  match args with
  | [.elem b, .elem a] => (s ++ [a - b], true)
  | _ => (s, true)
example : zipAlgorithm [⟨.iterator, .dyn 2, [3, 4]⟩, ⟨.index, .dyn 2, [1, 2]⟩] reverseDifference 3 [] =
    zipAlgorithm [⟨.index, .dyn 2, [1, 2]⟩, ⟨.iterator, .dyn 2, [3, 4]⟩] difference 3 [] := by
  refine C129_arguments [1, 0] [⟨.index, .dyn 2, [1, 2]⟩, ⟨.iterator, .dyn 2, [3, 4]⟩] ?_ ?_ 2 ?_ difference reverseDifference ?_ [] 3 3 (by omega) (by omega)
  · exact ⟨by simp [ValidRange], by simp [IsReal], .inl (by simp)⟩
  · exact ⟨by simp [ValidRange], by simp [IsReal], .inl (by simp)⟩
  · simp [AllLength]
  · intro s args h
    match args, h with
    | [a, b], _ => cases a <;> cases b <;> rfl
example : zipAlgorithm [⟨.index, .dyn 2, [1, 2]⟩, ⟨.iterator, .dyn 2, [3, 4]⟩] difference 3 [] = .done [-2, -2] (.ok ()) := by decide +kernel

/-- A range, and the two parts it is put together from. -/
structure Parts (α : Type) where
  first : Rng α
  second : Rng α
  whole : Rng α

/-- The elements of the whole are those of the parts; none of them is `range_index`. -/
def Parts.Joined (p : Parts α) : Prop := IsReal p.first ∧ IsReal p.second ∧ IsReal p.whole ∧ p.whole.elems = p.first.elems ++ p.second.elems

theorem zipped_parts {ps : List (Parts α)} (hj : ∀ p ∈ ps, p.Joined) {n1 n2 : Nat} {ts1 ts2 : List (List (Arg α))}
    (h1 : Zipped (ps.map Parts.first) n1 ts1) (h2 : Zipped (ps.map Parts.second) n2 ts2) (hn : AllLength (ps.map Parts.first) n1) :
    Zipped (ps.map Parts.whole) (n1 + n2) (ts1 ++ ts2) := by
  obtain ⟨hl1, hz1⟩ := h1
  obtain ⟨hl2, hz2⟩ := h2
  refine ⟨by simp [hl1, hl2], fun i args hi => ?_⟩
  by_cases hlt : i < n1
  · rw [List.getElem?_append_left (by omega)] at hi
    have := hz1 i args hi
    clear hi hz1 hz2
    generalize hr : ps.map Parts.first = rs at this
    induction this generalizing ps with
    | nil => rw [List.map_eq_nil_iff.mp hr]; exact .nil
    | @cons r a rs as ha _ ih =>
      obtain ⟨p, ps', rfl, rfl, rfl⟩ := List.map_eq_cons_iff.mp hr
      refine .cons ?_ (ih (fun p hp => hj p (by simp [hp])) (fun q hq => hn q (by simp at hq ⊢; exact .inr hq)) rfl)
      obtain ⟨j1, -, j3, j4⟩ := hj p (by simp)
      rcases ha with ⟨hm, -⟩ | ⟨-, x, hx, rfl⟩
      · exact absurd hm j1
      · refine .inr ⟨j3, x, ?_, rfl⟩
        rw [j4, List.getElem?_append_left (List.getElem?_eq_some_iff.mp hx).1]
        exact hx
  · rw [List.getElem?_append_right (by omega), hl1] at hi
    have := hz2 (i - n1) args hi
    clear hi hz1 hz2
    generalize hr : ps.map Parts.second = rs at this
    induction this generalizing ps with
    | nil => rw [List.map_eq_nil_iff.mp hr]; exact .nil
    | @cons r a rs as ha _ ih =>
      obtain ⟨p, ps', rfl, rfl, rfl⟩ := List.map_eq_cons_iff.mp hr
      refine .cons ?_ (ih (fun p hp => hj p (by simp [hp])) (fun q hq => hn q (by simp at hq ⊢; exact .inr hq)) rfl)
      obtain ⟨j1, j2, j3, j4⟩ := hj p (by simp)
      rcases ha with ⟨hm, -⟩ | ⟨-, x, hx, rfl⟩
      · exact absurd hm j2
      · refine .inr ⟨j3, x, ?_, rfl⟩
        have hlen := hn p.first (by simp) j1
        rw [j4, List.getElem?_append_right (by omega), hlen]
        exact hx

theorem length_parts {ps : List (Parts α)} (hj : ∀ p ∈ ps, p.Joined) {n1 n2 : Nat} (h1 : AllLength (ps.map Parts.first) n1)
    (h2 : AllLength (ps.map Parts.second) n2) : AllLength (ps.map Parts.whole) (n1 + n2) := by
  intro r hr _
  obtain ⟨p, hp, rfl⟩ := List.mem_map.mp hr
  obtain ⟨j1, j2, -, j4⟩ := hj p hp
  have a1 := h1 p.first (List.mem_map.mpr ⟨p, hp, rfl⟩) j1
  have a2 := h2 p.second (List.mem_map.mpr ⟨p, hp, rfl⟩) j2
  rw [j4, List.length_append, a1, a2]

/-- Reducing ranges is reducing their first parts, and then their second parts starting from the result. -/
theorem C129_reduce_parts (ps : List (Parts α)) (hj : ∀ p ∈ ps, p.Joined) (h1 : ValidArgs (ps.map Parts.first)) (h2 : ValidArgs (ps.map Parts.second))
    (h : ValidArgs (ps.map Parts.whole)) (n1 n2 : Nat) (hn1 : AllLength (ps.map Parts.first) n1) (hn2 : AllLength (ps.map Parts.second) n2)
    (init : σ) (reduce : σ → τ → σ) (transform : List (Arg α) → τ) (fuel : Nat) (hf : n1 + n2 < fuel) :
    ∃ mid last, rangeTransformReduce init reduce transform (ps.map Parts.first) fuel = .done mid (.ok ()) ∧
      rangeTransformReduce mid reduce transform (ps.map Parts.second) fuel = .done last (.ok ()) ∧
      rangeTransformReduce init reduce transform (ps.map Parts.whole) fuel = .done last (.ok ()) := by
  obtain ⟨ts1, z1, r1⟩ := C32_transform_reduce _ h1 n1 hn1 fuel (by omega) init reduce transform
  obtain ⟨ts2, z2, r2⟩ := C32_transform_reduce _ h2 n2 hn2 fuel (by omega) ((ts1.map transform).foldl reduce init) reduce transform
  obtain ⟨ts, z, r⟩ := C32_transform_reduce _ h (n1 + n2) (length_parts hj hn1 hn2) fuel hf init reduce transform
  have := C26_tuples_unique _ _ _ _ z (zipped_parts hj z1 z2 hn1)
  exact ⟨_, _, r1, r2, by rw [r, this, List.map_append, List.foldl_append]⟩

/-- Counting and quantifiers over ranges in terms of their parts. -/
theorem C129_predicate_parts (ps : List (Parts α)) (hj : ∀ p ∈ ps, p.Joined) (h1 : ValidArgs (ps.map Parts.first)) (h2 : ValidArgs (ps.map Parts.second))
    (h : ValidArgs (ps.map Parts.whole)) (n1 n2 : Nat) (hn1 : AllLength (ps.map Parts.first) n1) (hn2 : AllLength (ps.map Parts.second) n2)
    (pred : List (Arg α) → Bool) (fuel : Nat) (hf : n1 + n2 < fuel) :
    (∃ k1 k2 c1 c2 c, rangeCountIf pred (ps.map Parts.first) fuel = .done (k1, c1) (.ok ()) ∧
      rangeCountIf pred (ps.map Parts.second) fuel = .done (k2, c2) (.ok ()) ∧
      rangeCountIf pred (ps.map Parts.whole) fuel = .done (k1 + k2, c) (.ok ())) ∧
    (∃ b1 b2 c1 c2 c, rangeAllOf pred (ps.map Parts.first) fuel = .done (b1, c1) (.ok ()) ∧
      rangeAllOf pred (ps.map Parts.second) fuel = .done (b2, c2) (.ok ()) ∧
      rangeAllOf pred (ps.map Parts.whole) fuel = .done (b1 && b2, c) (.ok ())) ∧
    (∃ b1 b2 c1 c2 c, rangeAnyOf pred (ps.map Parts.first) fuel = .done (b1, c1) (.ok ()) ∧
      rangeAnyOf pred (ps.map Parts.second) fuel = .done (b2, c2) (.ok ()) ∧
      rangeAnyOf pred (ps.map Parts.whole) fuel = .done (b1 || b2, c) (.ok ())) ∧
    (∃ b1 b2 c1 c2 c, rangeNoneOf pred (ps.map Parts.first) fuel = .done (b1, c1) (.ok ()) ∧
      rangeNoneOf pred (ps.map Parts.second) fuel = .done (b2, c2) (.ok ()) ∧
      rangeNoneOf pred (ps.map Parts.whole) fuel = .done (b1 && b2, c) (.ok ())) := by
  have hn := length_parts hj hn1 hn2
  refine ⟨?_, ?_, ?_, ?_⟩
  · obtain ⟨ts1, z1, r1⟩ := C33_count_if _ h1 n1 hn1 fuel (by omega) pred
    obtain ⟨ts2, z2, r2⟩ := C33_count_if _ h2 n2 hn2 fuel (by omega) pred
    obtain ⟨ts, z, r⟩ := C33_count_if _ h (n1 + n2) hn fuel hf pred
    have := C26_tuples_unique _ _ _ _ z (zipped_parts hj z1 z2 hn1)
    refine ⟨_, _, _, _, ts, r1, r2, ?_⟩
    rw [r, show ts.countP pred = ts1.countP pred + ts2.countP pred by rw [this, List.countP_append]]
  · obtain ⟨ts1, z1, c1, r1, -⟩ := C33_all_of _ h1 n1 hn1 fuel (by omega) pred
    obtain ⟨ts2, z2, c2, r2, -⟩ := C33_all_of _ h2 n2 hn2 fuel (by omega) pred
    obtain ⟨ts, z, c, r, -⟩ := C33_all_of _ h (n1 + n2) hn fuel hf pred
    have := C26_tuples_unique _ _ _ _ z (zipped_parts hj z1 z2 hn1)
    refine ⟨_, _, _, _, c, r1, r2, ?_⟩
    rw [r, this, List.all_append]
  · obtain ⟨ts1, z1, c1, r1, -⟩ := C33_any_of _ h1 n1 hn1 fuel (by omega) pred
    obtain ⟨ts2, z2, c2, r2, -⟩ := C33_any_of _ h2 n2 hn2 fuel (by omega) pred
    obtain ⟨ts, z, c, r, -⟩ := C33_any_of _ h (n1 + n2) hn fuel hf pred
    have := C26_tuples_unique _ _ _ _ z (zipped_parts hj z1 z2 hn1)
    refine ⟨_, _, _, _, c, r1, r2, ?_⟩
    rw [r, this, List.any_append]
  · obtain ⟨ts1, z1, c1, r1, -⟩ := C33_none_of _ h1 n1 hn1 fuel (by omega) pred
    obtain ⟨ts2, z2, c2, r2, -⟩ := C33_none_of _ h2 n2 hn2 fuel (by omega) pred
    obtain ⟨ts, z, c, r, -⟩ := C33_none_of _ h (n1 + n2) hn fuel hf pred
    have := C26_tuples_unique _ _ _ _ z (zipped_parts hj z1 z2 hn1)
    refine ⟨_, _, _, _, c, r1, r2, ?_⟩
    rw [r, this, List.any_append, Bool.not_or]

/-- A vector in two parts, zipped with a linked list without a size in two parts. -/
def twoParts : List (Parts Nat) :=
  [⟨⟨.index, .dyn 2, [1, 2]⟩, ⟨.index, .dyn 1, [3]⟩, ⟨.index, .dyn 3, [1, 2, 3]⟩⟩,
   ⟨⟨.iteratorPair, .static (-1), [4, 5]⟩, ⟨.iteratorPair, .static (-1), [6]⟩, ⟨.iteratorPair, .static (-1), [4, 5, 6]⟩⟩]
example : (∀ p ∈ twoParts, p.Joined) ∧ ValidArgs (twoParts.map Parts.first) ∧ ValidArgs (twoParts.map Parts.second) ∧
    ValidArgs (twoParts.map Parts.whole) ∧ AllLength (twoParts.map Parts.first) 2 ∧ AllLength (twoParts.map Parts.second) 1 := by
  refine ⟨by simp [twoParts, Parts.Joined, IsReal], ?_, ?_, ?_, by simp [twoParts, AllLength], by simp [twoParts, AllLength]⟩ <;>
    exact ⟨by simp [twoParts, ValidRange], by simp [twoParts, IsReal], .inl (by simp [twoParts])⟩

/-- `range_index` counts from zero again in the second part, so the law does not extend to it. -/
theorem C129_index_parts_negated : ∃ (first second whole : Rng Nat) (f : Int → List (Arg Nat) → Int × Bool) (r1 r2 r : Int),
    whole.elems = first.elems ++ second.elems ∧ zipAlgorithm [first, ⟨.rangeIndex, .static (-1), []⟩] f 9 0 = .done r1 (.ok ()) ∧
    zipAlgorithm [second, ⟨.rangeIndex, .static (-1), []⟩] f 9 r1 = .done r2 (.ok ()) ∧
    zipAlgorithm [whole, ⟨.rangeIndex, .static (-1), []⟩] f 9 0 = .done r (.ok ()) ∧ r2 ≠ r :=
  ⟨⟨.index, .dyn 2, [7, 7]⟩, ⟨.index, .dyn 1, [7]⟩, ⟨.index, .dyn 3, [7, 7, 7]⟩,
    fun s args => match args with | [_, .idx i] => (s + i, true) | _ => (s, true), 1, 1, 3,
    rfl, by decide +kernel, by decide +kernel, by decide +kernel, by decide⟩

/-- The range `r'` has the elements of `r` in the order given by `perm`. -/
def Reordered (perm : List Nat) (r r' : Rng α) : Prop := IsReal r ∧ IsReal r' ∧ r'.elems = perm.filterMap (r.elems[·]?)

theorem zipped_reordered {perm : List Nat} {n : Nat} (hp : perm.Perm (List.range n)) {rs rs' : List (Rng α)} (hr : List.Forall₂ (Reordered perm) rs rs')
    (hn : AllLength rs n) {ts : List (List (Arg α))} (h : Zipped rs n ts) : Zipped rs' n (perm.filterMap (ts[·]?)) := by
  obtain ⟨hl, hz⟩ := h
  have hlt : ∀ j ∈ perm, j < n := fun j hj => List.mem_range.mp (hp.mem_iff.mp hj)
  have hget : ∀ {β : Type} (l : List β), l.length = n → ∀ i : Nat, (perm.filterMap (l[·]?))[i]? = perm[i]?.bind fun j => l[j]? := by
    intro β l hln
    clear hp hr
    induction perm with
    | nil => intro i; simp
    | cons j perm ih =>
      intro i
      have hj : j < l.length := by rw [hln]; exact hlt j (by simp)
      rw [List.filterMap_cons_some (List.getElem?_eq_getElem hj)]
      cases i with
      | zero => simp [List.getElem?_eq_getElem hj]
      | succ i =>
        simp only [List.getElem?_cons_succ]
        exact ih (fun j hj => hlt j (by simp [hj])) i
  refine ⟨?_, fun i args hi => ?_⟩
  · have h1 : (perm.filterMap (ts[·]?)).length = perm.length := by
      have : ∀ l : List Nat, (∀ j ∈ l, j < n) → (l.filterMap (ts[·]?)).length = l.length := by
        intro l
        induction l with
        | nil => intro _; rfl
        | cons j l ih =>
          intro h
          rw [List.filterMap_cons_some (List.getElem?_eq_getElem (by rw [hl]; exact h j (by simp)))]
          simp [ih fun j hj => h j (by simp [hj])]
      exact this perm hlt
    rw [h1, hp.length_eq, List.length_range]
  · rw [hget ts hl] at hi
    obtain ⟨j, hj, htj⟩ := Option.bind_eq_some_iff.mp hi
    have := hz j args htj
    clear hz hi htj
    induction hr generalizing args with
    | nil => cases this; exact .nil
    | @cons r r' rs rs' h _ ih =>
      cases this with
      | cons ha hrest =>
        refine .cons ?_ (ih (fun q hq => hn q (by simp [hq])) _ hrest)
        obtain ⟨h1, h2, h3⟩ := h
        rcases ha with ⟨hm, -⟩ | ⟨-, x, hx, rfl⟩
        · exact absurd hm h1
        · refine .inr ⟨h2, x, ?_, rfl⟩
          rw [h3, hget r.elems (hn r (by simp) h1), hj]
          exact hx

theorem perm_of_order {β : Type} {perm : List Nat} {l : List β} (hp : perm.Perm (List.range l.length)) : (perm.filterMap (l[·]?)).Perm l := by
  have h : (List.range l.length).filterMap (l[·]?) = l := by
    have : ∀ k ≤ l.length, (List.range k).filterMap (l[·]?) = l.take k := by
      intro k
      induction k with
      | zero => intro _; simp
      | succ k ih =>
        intro hk
        have hk' : k < l.length := by omega
        rw [List.range_succ, List.filterMap_append, ih (by omega), List.take_add_one]
        simp [List.getElem?_eq_getElem hk']
    simpa using this l.length (Nat.le_refl _)
  have := hp.filterMap (l[·]?)
  rwa [h] at this

/-- The order of the elements does not matter for counting and for the quantifiers, if all ranges are reordered alike. -/
theorem C129_predicate_reordered (perm : List Nat) (n : Nat) (hp : perm.Perm (List.range n)) (rs rs' : List (Rng α))
    (hr : List.Forall₂ (Reordered perm) rs rs') (hv : ValidArgs rs) (hv' : ValidArgs rs') (hn : AllLength rs n) (hn' : AllLength rs' n)
    (pred : List (Arg α) → Bool) (fuel : Nat) (hf : n < fuel) :
    (∃ k c c', rangeCountIf pred rs fuel = .done (k, c) (.ok ()) ∧ rangeCountIf pred rs' fuel = .done (k, c') (.ok ())) ∧
    (∃ b c c', rangeAllOf pred rs fuel = .done (b, c) (.ok ()) ∧ rangeAllOf pred rs' fuel = .done (b, c') (.ok ())) ∧
    (∃ b c c', rangeAnyOf pred rs fuel = .done (b, c) (.ok ()) ∧ rangeAnyOf pred rs' fuel = .done (b, c') (.ok ())) ∧
    (∃ b c c', rangeNoneOf pred rs fuel = .done (b, c) (.ok ()) ∧ rangeNoneOf pred rs' fuel = .done (b, c') (.ok ())) := by
  have key : ∀ ts ts' : List (List (Arg α)), Zipped rs n ts → Zipped rs' n ts' → ts'.Perm ts := by
    intro ts ts' h h'
    rw [C26_tuples_unique _ _ _ _ h' (zipped_reordered hp hr hn h)]
    exact perm_of_order (by rw [h.1]; exact hp)
  refine ⟨?_, ?_, ?_, ?_⟩
  · obtain ⟨ts, z, r⟩ := C33_count_if rs hv n hn fuel hf pred
    obtain ⟨ts', z', r'⟩ := C33_count_if rs' hv' n hn' fuel hf pred
    exact ⟨_, _, _, r, by rw [r', (key ts ts' z z').countP_eq]⟩
  · obtain ⟨ts, z, c, r, -⟩ := C33_all_of rs hv n hn fuel hf pred
    obtain ⟨ts', z', c', r', -⟩ := C33_all_of rs' hv' n hn' fuel hf pred
    exact ⟨_, _, _, r, by rw [r', (key ts ts' z z').all_eq]⟩
  · obtain ⟨ts, z, c, r, -⟩ := C33_any_of rs hv n hn fuel hf pred
    obtain ⟨ts', z', c', r', -⟩ := C33_any_of rs' hv' n hn' fuel hf pred
    exact ⟨_, _, _, r, by rw [r', (key ts ts' z z').any_eq]⟩
  · obtain ⟨ts, z, c, r, -⟩ := C33_none_of rs hv n hn fuel hf pred
    obtain ⟨ts', z', c', r', -⟩ := C33_none_of rs' hv' n hn' fuel hf pred
    exact ⟨_, _, _, r, by rw [r', (key ts ts' z z').any_eq]⟩

/-- Nor for a reduction, if it does not matter in which order two elements are taken in. -/
theorem C129_reduce_reordered (perm : List Nat) (n : Nat) (hp : perm.Perm (List.range n)) (rs rs' : List (Rng α))
    (hr : List.Forall₂ (Reordered perm) rs rs') (hv : ValidArgs rs) (hv' : ValidArgs rs') (hn : AllLength rs n) (hn' : AllLength rs' n)
    (init : σ) (reduce : σ → τ → σ) (hc : ∀ s a b, reduce (reduce s a) b = reduce (reduce s b) a) (transform : List (Arg α) → τ) (fuel : Nat)
    (hf : n < fuel) :
    ∃ r, rangeTransformReduce init reduce transform rs fuel = .done r (.ok ()) ∧ rangeTransformReduce init reduce transform rs' fuel = .done r (.ok ()) := by
  obtain ⟨ts, z, r⟩ := C32_transform_reduce rs hv n hn fuel hf init reduce transform
  obtain ⟨ts', z', r'⟩ := C32_transform_reduce rs' hv' n hn' fuel hf init reduce transform
  have h : ts'.Perm ts := by
    rw [C26_tuples_unique _ _ _ _ z' (zipped_reordered hp hr hn z)]
    exact perm_of_order (by rw [z.1]; exact hp)
  refine ⟨_, r, ?_⟩
  rw [r', (h.map transform).foldl_eq' (fun a _ b _ s => hc s a b)]

/-- Three elements in another order. -/
example : [2, 0, 1].Perm (List.range 3) ∧
    List.Forall₂ (Reordered [2, 0, 1]) [(⟨.index, .dyn 3, [5, 6, 7]⟩ : Rng Nat), ⟨.iterator, .dyn 3, [8, 9, 10]⟩]
      [⟨.index, .dyn 3, [7, 5, 6]⟩, ⟨.iterator, .dyn 3, [10, 8, 9]⟩] ∧
    (∀ s a b : Nat, s + a + b = s + b + a) := ⟨by decide, by simp [Reordered, IsReal], fun _ _ _ => by omega⟩

end Makeshift.Props
