import Verif.Model.ZipRows
import Verif.Spec.ZipRows
import Verif.Props.Zip
import Verif.Props.Permutation
import Verif.Lemmas.PermutationOver
import Mathlib.Data.List.Forall2
import Mathlib.Data.List.Nodup

/-!
# C114: assigning to and swapping the elements of zipped ranges
-/

namespace Makeshift.Props

open Makeshift Spec RangeObjects ZipRows

variable {V : Type}

/-- Both operations, over what is done to one object of each tuple. -/
private def rowwise (step : Mem V → Nat → Nat → Mem V) : List (Arg Nat) → List (Arg Nat) → Mem V → Mem V
  | .elem d :: ds, .elem s :: ss, m => rowwise step ds ss (step m d s)
  | .idx _ :: ds, .idx _ :: ss, m => rowwise step ds ss m
  | _, _, m => m

private theorem assignRow_eq (a : List (Arg Nat)) : ∀ (b : List (Arg Nat)) (m : Mem V), assignRow a b m = rowwise (fun m d s => m.store d (m s)) a b m := by
  induction a with
  | nil => intro b m; rw [assignRow, rowwise] <;> simp
  | cons x a ih =>
    intro b m
    cases b with
    | nil => rw [assignRow, rowwise] <;> simp
    | cons y b => cases x <;> cases y <;> simp only [assignRow, rowwise, ih]

private theorem swapRow_eq (a : List (Arg Nat)) : ∀ (b : List (Arg Nat)) (m : Mem V),
    swapRow a b m = rowwise (fun m d s => (m.store d (m s)).store s (m d)) a b m := by
  induction a with
  | nil => intro b m; rw [swapRow, rowwise] <;> simp
  | cons x a ih =>
    intro b m
    cases b with
    | nil => rw [swapRow, rowwise] <;> simp
    | cons y b => cases x <;> cases y <;> simp only [swapRow, rowwise, ih]

private theorem objects_cons (r : Rng Nat) (rs : List (Rng Nat)) :
    objects (r :: rs) = (if r.mode = .rangeIndex then [] else r.elems) ++ objects rs := rfl

private theorem mem_objects {rs : List (Rng Nat)} {r : Rng Nat} (hr : r ∈ rs) (h : IsReal r) {k l : Nat} (hl : r.elems[k]? = some l) : l ∈ objects rs := by
  unfold objects
  rw [List.mem_flatMap]
  exact ⟨r, hr, by rw [if_neg h]; exact List.mem_of_getElem? hl⟩

private theorem rowwise_spec (step : Mem V → Nat → Nat → Mem V) (τ : Nat → Nat → Nat → Nat) (h1 : ∀ m d s l, step m d s l = m (τ d s l))
    (h2 : ∀ d s l, l ≠ d → l ≠ s → τ d s l = l) (h3 : ∀ d s l, τ d s l = l ∨ τ d s l = d ∨ τ d s l = s) (p q : Nat) :
    ∀ (rs : List (Rng Nat)) (a b : List (Arg Nat)) (m : Mem V), List.Forall₂ (ArgAt p) rs a → List.Forall₂ (ArgAt q) rs b → (objects rs).Nodup →
    (∀ l, l ∉ objects rs → rowwise step a b m l = m l) ∧
    (∀ r ∈ rs, IsReal r → ∃ d s : Nat, r.elems[p]? = some d ∧ r.elems[q]? = some s ∧ ∀ k l : Nat, r.elems[k]? = some l → rowwise step a b m l = m (τ d s l)) := by
  intro rs
  induction rs with
  | nil =>
    intro a b m ha hb hn
    cases ha; cases hb
    exact ⟨fun _ _ => by simp [rowwise], by simp⟩
  | cons r rs ih =>
    intro a b m ha hb hn
    cases ha with
    | @cons _ x _ a hx ha =>
    cases hb with
    | @cons _ y _ b hy hb =>
    rcases hx with ⟨hm, rfl⟩ | ⟨hm, d, hd, rfl⟩
    · rcases hy with ⟨-, rfl⟩ | ⟨hm', -⟩
      swap
      · exact absurd hm hm'
      rw [objects_cons, if_pos hm, List.nil_append] at hn ⊢
      obtain ⟨i1, i2⟩ := ih a b m ha hb hn
      refine ⟨by simpa only [rowwise] using i1, ?_⟩
      intro r' hr' hreal
      rcases List.mem_cons.mp hr' with rfl | hr'
      · exact absurd hm hreal
      · simpa only [rowwise] using i2 r' hr' hreal
    · rcases hy with ⟨hm', -⟩ | ⟨-, s, hs, rfl⟩
      · exact absurd hm' hm
      rw [objects_cons, if_neg hm] at hn ⊢
      have hn' := List.nodup_append.mp hn
      obtain ⟨i1, i2⟩ := ih a b (step m d s) ha hb hn'.2.1
      have hdm := List.mem_of_getElem? hd
      have hsm := List.mem_of_getElem? hs
      simp only [rowwise]
      constructor
      · intro l hl
        rw [List.mem_append, not_or] at hl
        rw [i1 l hl.2, h1, h2]
        · rintro rfl; exact hl.1 hdm
        · rintro rfl; exact hl.1 hsm
      · intro r' hr' hreal
        rcases List.mem_cons.mp hr' with rfl | hr'
        · refine ⟨d, s, hd, hs, fun k l hl => ?_⟩
          rw [i1 l (fun hc => hn'.2.2 l (List.mem_of_getElem? hl) l hc rfl), h1]
        · obtain ⟨d', s', hd', hs', i3⟩ := i2 r' hr' hreal
          refine ⟨d', s', hd', hs', fun k l hl => ?_⟩
          have key : ∀ z, z ∈ objects rs → z ≠ d ∧ z ≠ s := by
            intro z hz
            exact ⟨fun e => hn'.2.2 d hdm z hz e.symm, fun e => hn'.2.2 s hsm z hz e.symm⟩
          have hz : τ d' s' l ∈ objects rs := by
            rcases h3 d' s' l with e | e | e <;> rw [e]
            · exact mem_objects hr' hreal hl
            · exact mem_objects hr' hreal hd'
            · exact mem_objects hr' hreal hs'
          rw [i3 k l hl, h1, h2 _ _ _ (key _ hz).1 (key _ hz).2]

private theorem objects_nodup_inj {rs : List (Rng Nat)} (h : (objects rs).Nodup) {r : Rng Nat} (hr : r ∈ rs) (hreal : IsReal r) {j k l : Nat}
    (hj : r.elems[j]? = some l) (hk : r.elems[k]? = some l) : j = k := by
  have : r.elems.Nodup := by
    unfold objects at h
    have := (List.nodup_flatMap.mp h).1 r hr
    rwa [if_neg hreal] at this
  have hjl : j < r.elems.length := by
    by_contra hc
    rw [List.getElem?_eq_none (by omega)] at hj
    cases hj
  exact (List.getElem?_inj hjl this).mp (by rw [hj, hk])

/-- C114: `*it = *jt` sets the elements of all zipped ranges at one position to those at the other, and changes nothing else, if no two ranges have an
element in common. -/
theorem C114_assign (rs : List (Rng Nat)) (hd : (objects rs).Nodup) (p q : Nat) (a b : List (Arg Nat)) (ha : List.Forall₂ (ArgAt p) rs a)
    (hb : List.Forall₂ (ArgAt q) rs b) (m : Mem V) : TuplesMoved rs m (assignRow a b m) (fun k => if k = p then q else k) := by
  rw [assignRow_eq]
  obtain ⟨h1, h2⟩ := rowwise_spec (fun m d s => Mem.store m d (m s)) (fun d s l => if l = d then s else l)
    (fun m d s l => by simp only [Mem.store]; split <;> rfl) (fun d s l e _ => if_neg e)
    (fun d s l => by split <;> simp) p q rs a b m ha hb hd
  refine ⟨fun r hr hreal k l l' hk hk' => ?_, h1⟩
  obtain ⟨d, s, e1, e2, e3⟩ := h2 r hr hreal
  dsimp only at hk'
  rw [e3 k l hk]
  by_cases hkp : k = p
  · subst hkp
    rw [e1] at hk; cases hk
    simp only [if_true] at hk' ⊢
    rw [e2] at hk'; cases hk'
    rfl
  · rw [if_neg hkp, hk] at hk'
    cases hk'
    rw [if_neg]
    rintro rfl
    exact hkp (objects_nodup_inj hd hr hreal hk e1)

/-- C114: swapping the tuples which two iterators yield, e.g. `auto t = *it; auto u = *jt; swap(t, u);`, swaps the elements of all ranges. -/
theorem C114_swap (rs : List (Rng Nat)) (hd : (objects rs).Nodup) (p q : Nat) (a b : List (Arg Nat)) (ha : List.Forall₂ (ArgAt p) rs a)
    (hb : List.Forall₂ (ArgAt q) rs b) (m : Mem V) : TuplesMoved rs m (swapRow a b m) (fun k => if k = p then q else if k = q then p else k) := by
  rw [swapRow_eq]
  obtain ⟨h1, h2⟩ := rowwise_spec (fun m d s => Mem.store (Mem.store m d (m s)) s (m d)) (fun d s l => if l = s then d else if l = d then s else l)
    (fun m d s l => by
      simp only [Mem.store]
      split
      · rfl
      · split <;> rfl) (fun d s l e e' => by simp [e, e'])
    (fun d s l => by
      split
      · simp
      · split <;> simp) p q rs a b m ha hb hd
  refine ⟨fun r hr hreal k l l' hk hk' => ?_, h1⟩
  obtain ⟨d, s, e1, e2, e3⟩ := h2 r hr hreal
  dsimp only at hk'
  rw [e3 k l hk]
  by_cases hks : l = s
  · subst hks
    obtain rfl := objects_nodup_inj hd hr hreal hk e2
    rw [if_pos rfl]
    by_cases hkp : k = p
    · subst hkp
      rw [if_pos rfl, hk] at hk'; cases hk'
      rw [hk] at e1; cases e1; rfl
    · rw [if_neg hkp, if_pos rfl, e1] at hk'; cases hk'; rfl
  · have hkq : k ≠ q := by
      rintro rfl
      rw [hk] at e2; cases e2; exact hks rfl
    rw [if_neg hks]
    by_cases hkp : k = p
    · subst hkp
      rw [if_pos rfl, e2] at hk'; cases hk'
      rw [hk] at e1; cases e1
      rw [if_pos rfl]
    · rw [if_neg hkp, if_neg hkq, hk] at hk'; cases hk'
      rw [if_neg]
      rintro rfl
      exact hkp (objects_nodup_inj hd hr hreal hk e1)

/-- Two ranges of two elements each, and their indices. -/
def zrRanges : List (Rng Nat) := [⟨.iteratorPair, .dyn 2, [10, 11]⟩, ⟨.rangeIndex, .static (-1), []⟩, ⟨.iteratorPair, .dyn 2, [20, 21]⟩]

example : (objects zrRanges).Nodup ∧ List.Forall₂ (ArgAt 0) zrRanges [.elem 10, .idx 0, .elem 20] ∧
    List.Forall₂ (ArgAt 1) zrRanges [.elem 11, .idx 1, .elem 21] :=
  ⟨by decide, .cons (.inr ⟨by decide, 10, rfl, rfl⟩) (.cons (.inl ⟨rfl, rfl⟩) (.cons (.inr ⟨by decide, 20, rfl, rfl⟩) .nil)),
    .cons (.inr ⟨by decide, 11, rfl, rfl⟩) (.cons (.inl ⟨rfl, rfl⟩) (.cons (.inr ⟨by decide, 21, rfl, rfl⟩) .nil))⟩

example : (swapRow [.elem 10, .idx 0, .elem 20] [.elem 11, .idx 1, .elem 21] (fun l : Nat => l + 100)) 20 = 121 := by decide

/-- What a temporary of type `value_type` does when it is assigned back. -/
private theorem writeRow_spec (p q : Nat) (m0 : Mem V) :
    ∀ (rs : List (Rng Nat)) (a b : List (Arg Nat)) (m : Mem V), List.Forall₂ (ArgAt p) rs a → List.Forall₂ (ArgAt q) rs b → (objects rs).Nodup →
    (∀ l, l ∉ objects rs → writeRow b (readRow m0 a) m l = m l) ∧
    (∀ r ∈ rs, IsReal r → ∃ d s : Nat, r.elems[p]? = some d ∧ r.elems[q]? = some s ∧
      ∀ k l : Nat, r.elems[k]? = some l → writeRow b (readRow m0 a) m l = if l = s then m0 d else m l) := by
  intro rs
  induction rs with
  | nil =>
    intro a b m ha hb hn
    cases ha; cases hb
    exact ⟨fun _ _ => by simp [writeRow], by simp⟩
  | cons r rs ih =>
    intro a b m ha hb hn
    cases ha with
    | @cons _ x _ a hx ha =>
    cases hb with
    | @cons _ y _ b hy hb =>
    rcases hx with ⟨hm, rfl⟩ | ⟨hm, d, hd, rfl⟩
    · rcases hy with ⟨-, rfl⟩ | ⟨hm', -⟩
      swap
      · exact absurd hm hm'
      rw [objects_cons, if_pos hm, List.nil_append] at hn ⊢
      obtain ⟨i1, i2⟩ := ih a b m ha hb hn
      change (∀ l, l ∉ objects rs → writeRow b (readRow m0 a) m l = m l) ∧ _
      refine ⟨i1, ?_⟩
      intro r' hr' hreal
      rcases List.mem_cons.mp hr' with rfl | hr'
      · exact absurd hm hreal
      · exact i2 r' hr' hreal
    · rcases hy with ⟨hm', -⟩ | ⟨-, s, hs, rfl⟩
      · exact absurd hm' hm
      rw [objects_cons, if_neg hm] at hn ⊢
      have hn' := List.nodup_append.mp hn
      obtain ⟨i1, i2⟩ := ih a b (m.store s (m0 d)) ha hb hn'.2.1
      have hsm := List.mem_of_getElem? hs
      have hst : ∀ l, (m.store s (m0 d)) l = if l = s then m0 d else m l := fun _ => rfl
      have he : writeRow (.elem s :: b) (readRow m0 (.elem d :: a)) m = writeRow b (readRow m0 a) (m.store s (m0 d)) := rfl
      rw [he]
      constructor
      · intro l hl
        rw [List.mem_append, not_or] at hl
        rw [i1 l hl.2, hst, if_neg]
        rintro rfl; exact hl.1 hsm
      · intro r' hr' hreal
        rcases List.mem_cons.mp hr' with rfl | hr'
        · refine ⟨d, s, hd, hs, fun k l hl => ?_⟩
          rw [i1 l (fun hc => hn'.2.2 l (List.mem_of_getElem? hl) l hc rfl), hst]
        · obtain ⟨d', s', hd', hs', i3⟩ := i2 r' hr' hreal
          refine ⟨d', s', hd', hs', fun k l hl => ?_⟩
          rw [i3 k l hl]
          have : l ≠ s := fun e => hn'.2.2 s hsm l (mem_objects hr' hreal hl) e.symm
          rw [hst, if_neg this]

/-- C114: exchanging two tuples with the help of an object of the `value_type` of the iterator. -/
theorem C114_value_type (rs : List (Rng Nat)) (hd : (objects rs).Nodup) (p q : Nat) (a b : List (Arg Nat)) (ha : List.Forall₂ (ArgAt p) rs a)
    (hb : List.Forall₂ (ArgAt q) rs b) (m : Mem V) :
    TuplesMoved rs m (exchangeByValue a b m) (fun k => if k = p then q else if k = q then p else k) := by
  obtain ⟨h1, h2⟩ := C114_assign rs hd p q a b ha hb m
  obtain ⟨w1, w2⟩ := writeRow_spec p q m rs a b (assignRow a b m) ha hb hd
  unfold exchangeByValue
  refine ⟨fun r hr hreal k l l' hk hk' => ?_, fun l hl => by rw [w1 l hl, h2 l hl]⟩
  obtain ⟨d, s, e1, e2, e3⟩ := w2 r hr hreal
  dsimp only at hk' h1
  rw [e3 k l hk]
  by_cases hks : l = s
  · subst hks
    obtain rfl := objects_nodup_inj hd hr hreal hk e2
    rw [if_pos rfl]
    by_cases hkp : k = p
    · subst hkp
      rw [if_pos rfl, hk] at hk'; cases hk'
      rw [hk] at e1; cases e1; rfl
    · rw [if_neg hkp, if_pos rfl, e1] at hk'; cases hk'; rfl
  · have hkq : k ≠ q := by
      rintro rfl
      rw [hk] at e2; cases e2; exact hks rfl
    rw [if_neg hks]
    rw [if_neg hkq] at hk'
    exact h1 r hr hreal k l l' hk hk'

private theorem moved_trans {rs : List (Rng Nat)} {m m1 m2 : Mem V} {f g : Nat → Nat} (h : TuplesMoved rs m m1 f) (h' : TuplesMoved rs m1 m2 g)
    (hg : ∀ r ∈ rs, IsReal r → ∀ k, k < r.elems.length → g k < r.elems.length) : TuplesMoved rs m m2 (fun k => f (g k)) := by
  refine ⟨fun r hr hreal k l l' hk hk' => ?_, fun l hl => by rw [h'.2 l hl, h.2 l hl]⟩
  have hkl := (List.getElem?_eq_some_iff.mp hk).1
  have := hg r hr hreal k hkl
  rw [h'.1 r hr hreal k l _ hk (List.getElem?_eq_getElem this)]
  exact h.1 r hr hreal (g k) _ l' (List.getElem?_eq_getElem this) hk'

private theorem argAt_lt {rs : List (Rng Nat)} {p : Nat} {a : List (Arg Nat)} (h : List.Forall₂ (ArgAt p) rs a) : ∀ r ∈ rs, IsReal r →
    p < r.elems.length := by
  induction h with
  | nil => simp
  | cons hx _ ih =>
    intro r hr hreal
    rcases List.mem_cons.mp hr with rfl | hr
    · rcases hx with ⟨hm, -⟩ | ⟨-, d, hd, -⟩
      · exact absurd hm hreal
      · exact (List.getElem?_eq_some_iff.mp hd).1
    · exact ih r hr hreal

/-- C114: but `auto t = *it;` refers to the elements, and hence the tuple at `it` is lost: both positions end up with what was at `jt`. -/
theorem C114_auto_negated (rs : List (Rng Nat)) (hd : (objects rs).Nodup) (p q : Nat) (a b : List (Arg Nat)) (ha : List.Forall₂ (ArgAt p) rs a)
    (hb : List.Forall₂ (ArgAt q) rs b) (m : Mem V) : TuplesMoved rs m (exchangeByAuto a b m) (fun k => if k = p then q else k) := by
  have h1 := C114_assign rs hd p q a b ha hb m
  have h2 := C114_assign rs hd q p b a hb ha (assignRow a b m)
  have h3 := moved_trans h1 h2 (fun r hr hreal k hk => by
    have := argAt_lt ha r hr hreal
    split <;> assumption)
  unfold exchangeByAuto
  convert h3 using 2 with k
  by_cases hkp : k = p <;> by_cases hkq : k = q <;> simp_all

/-- C114: if a range is zipped with itself, swapping has no effect: the elements are swapped twice. -/
theorem C114_same_range_twice (r : Rng Nat) (hr : IsReal r) (p q : Nat) (a b : List (Arg Nat)) (ha : List.Forall₂ (ArgAt p) [r, r] a)
    (hb : List.Forall₂ (ArgAt q) [r, r] b) (m : Mem V) : swapRow a b m = m := by
  rcases ha with _ | ⟨h1, _ | ⟨h2, _ | _⟩⟩
  rcases hb with _ | ⟨h3, _ | ⟨h4, _ | _⟩⟩
  obtain ⟨-, d, e1, rfl⟩ := h1.resolve_left (fun h => hr h.1)
  obtain ⟨-, d', e2, rfl⟩ := h2.resolve_left (fun h => hr h.1)
  obtain ⟨-, s, e3, rfl⟩ := h3.resolve_left (fun h => hr h.1)
  obtain ⟨-, s', e4, rfl⟩ := h4.resolve_left (fun h => hr h.1)
  rw [e1] at e2; cases e2
  rw [e3] at e4; cases e4
  funext l
  simp only [swapRow, Mem.store]
  by_cases c1 : l = s
  · subst c1
    by_cases c2 : d = l <;> simp [c2]
  · by_cases c2 : l = d
    · subst c2
      simp [c1]
    · simp [c1, c2]

example : List.Forall₂ (ArgAt 0) [⟨.iteratorPair, .dyn 2, [10, 11]⟩, ⟨.iteratorPair, .dyn 2, [10, 11]⟩] [.elem 10, .elem 10] ∧
    List.Forall₂ (ArgAt 1) [⟨.iteratorPair, .dyn 2, [10, 11]⟩, ⟨.iteratorPair, .dyn 2, [10, 11]⟩] [.elem 11, .elem 11] :=
  ⟨.cons (.inr ⟨by decide, 10, rfl, rfl⟩) (.cons (.inr ⟨by decide, 10, rfl, rfl⟩) .nil),
    .cons (.inr ⟨by decide, 11, rfl, rfl⟩) (.cons (.inr ⟨by decide, 11, rfl, rfl⟩) .nil)⟩

/-! ## Permutation algorithms -/

/-- The tuples have been rearranged as the positions in the list say. -/
private def TuplesRel (rs : List (Rng Nat)) (n : Nat) (m0 m : Mem V) (l : List Nat) : Prop :=
  l.length = n ∧ (∀ x ∈ l, x < n) ∧ TuplesMoved rs m0 m (fun k => (l[k]?).getD k)

private theorem tuplesRel_init (rs : List (Rng Nat)) (n : Nat) (hn : AllLength rs n) (m : Mem V) : TuplesRel rs n m m (List.range n) := by
  refine ⟨by simp, by simp, fun r hr hreal k l l' hk hk' => ?_, fun _ _ => rfl⟩
  have hkl := (List.getElem?_eq_some_iff.mp hk).1
  rw [hn r hr hreal] at hkl
  dsimp only at hk'
  rw [List.getElem?_range hkl, Option.getD_some, hk] at hk'
  cases hk'; rfl

private theorem swapElements_sim (rs : List (Rng Nat)) (hd : (objects rs).Nodup) (n : Nat) (hn : AllLength rs n) (m0 : Mem V) :
    SwapSim (swapElements rs) (TuplesRel rs n m0) := by
  rintro m l a b l' ⟨hl, hb, hR⟩ hsw
  obtain ⟨x, y, hx, hy, -⟩ := swapAt_some hsw
  have hal := (List.getElem?_eq_some_iff.mp hx).1
  have hbl := (List.getElem?_eq_some_iff.mp hy).1
  rw [hl] at hal hbl
  obtain ⟨it, h1, -, h2⟩ := C29_walk_from_begin rs n hn [] (by simp [StaysIn])
  simp only [walk, Outcome.ok.injEq] at h1
  subst h1
  obtain ⟨ra, ea, fa⟩ := h2 a a hal (by simp [destination])
  obtain ⟨rb, eb, fb⟩ := h2 b b hbl (by simp [destination])
  refine ⟨swapRow ra rb m, by simp only [swapElements, ea, eb], by rw [swapAt_length hsw, hl],
    fun x hx => hb x ((swapAt_perm hsw).mem_iff.mp hx), ?_⟩
  have hs := C114_swap rs hd a b ra rb fa fb m
  have ht := moved_trans hR hs (fun r hr hreal k hk => by
    rw [hn r hr hreal] at hk ⊢
    split
    · exact hbl
    · split <;> assumption)
  refine ⟨fun r hr hreal k z z' hk hk' => ht.1 r hr hreal k z z' hk ?_, ht.2⟩
  dsimp only at hk' ⊢
  rw [← hk', swapAt_get hsw]
  have hkl := (List.getElem?_eq_some_iff.mp hk).1
  rw [hn r hr hreal] at hkl
  have : (if k = a then b else if k = b then a else k) < l.length := by
    rw [hl]; split
    · exact hbl
    · split <;> assumption
  rw [List.getElem?_eq_getElem this, Option.getD_some, Option.getD_some]

private theorem perm_lt {idx : List Int} {n i p : Nat} (h : IsPermutation idx n) (hip : idx[i]? = some (p : Int)) : i < n ∧ p < n := by
  constructor
  · obtain ⟨hi, -⟩ := List.getElem?_eq_some_iff.1 hip
    have := h.length_eq
    simp at this
    omega
  · have := h.mem_iff.1 (List.mem_of_getElem? hip)
    simp only [List.mem_map, List.mem_range] at this
    obtain ⟨a, ha, hap⟩ := this
    have : (a : Int) = p := hap
    omega

private theorem compiles {cpp : Nat} (h : 23 ≤ cpp) {rs : List (Rng Nat)} (hr : ∀ r ∈ rs, IsReal r) : swapCompiles cpp rs = true := by
  unfold swapCompiles
  exact decide_eq_true ⟨h, hr⟩

/-- C114: with C++23 `apply_permutation` can rearrange zipped ranges: the ranges are rearranged alike. -/
theorem C114_apply_permutation (cpp : Nat) (hc : 23 ≤ cpp) (rs : List (Rng Nat)) (hr : ∀ r ∈ rs, IsReal r) (hd : (objects rs).Nodup) (n : Nat)
    (hn : AllLength rs n) (idx : List Int) (h : IsPermutation idx n) (m : Mem V) :
    ∃ m', permuteZip cpp rs n ⟨m, idx⟩ = some (.done, ⟨m', (List.range n).map Int.ofNat⟩) ∧
      (∀ r ∈ rs, ∀ i p l l' : Nat, idx[i]? = some (p : Int) → r.elems[i]? = some l → r.elems[p]? = some l' → m' l = m l') ∧
      ∀ l, l ∉ objects rs → m' l = m l := by
  obtain ⟨ps, h1, h2, h3⟩ := C20_apply_permutation (List.range n) idx (by rw [List.length_range]; exact h)
  have hsim := permOver_sim (swapElements_sim rs hd n hn m) m _ idx (tuplesRel_init rs n hn m) (by rw [h1]; simp)
  rw [h1, List.length_range] at hsim
  obtain ⟨e1, e2, -, -, e3, e4⟩ := hsim
  simp only at e1 e2 e3
  refine ⟨(permOver (swapElements rs) n ⟨m, idx⟩).2.mem, ?_, ?_, e4⟩
  · unfold permuteZip
    rw [if_pos (compiles hc hr)]
    refine congrArg some (Prod.ext e1 ?_)
    show _ = PermMem.mk _ _
    rw [← e2]
  · intro r hr' i p l l' hip hi hp
    refine e3 r hr' (hr r hr') i l l' hi ?_
    rw [h3 i p hip, List.getElem?_range (perm_lt h hip).2, Option.getD_some]
    exact hp

/-- C114: and `apply_reverse_permutation`. -/
theorem C114_apply_reverse_permutation (cpp : Nat) (hc : 23 ≤ cpp) (rs : List (Rng Nat)) (hr : ∀ r ∈ rs, IsReal r) (hd : (objects rs).Nodup) (n : Nat)
    (hn : AllLength rs n) (idx : List Int) (h : IsPermutation idx n) (m : Mem V) :
    ∃ m', revPermuteZip cpp rs n ⟨m, idx⟩ = some (.done, ⟨m', (List.range n).map Int.ofNat⟩) ∧
      (∀ r ∈ rs, ∀ i p l l' : Nat, idx[i]? = some (p : Int) → r.elems[p]? = some l → r.elems[i]? = some l' → m' l = m l') ∧
      ∀ l, l ∉ objects rs → m' l = m l := by
  obtain ⟨ps, h1, h2, h3⟩ := C22_apply_reverse_permutation (List.range n) idx (by rw [List.length_range]; exact h)
  have hsim := revOver_sim (swapElements_sim rs hd n hn m) m _ idx (tuplesRel_init rs n hn m) (by rw [h1]; simp)
  rw [h1, List.length_range] at hsim
  obtain ⟨e1, e2, -, -, e3, e4⟩ := hsim
  simp only at e1 e2 e3
  refine ⟨(revOver (swapElements rs) n ⟨m, idx⟩).2.mem, ?_, ?_, e4⟩
  · unfold revPermuteZip
    rw [if_pos (compiles hc hr)]
    refine congrArg some (Prod.ext e1 ?_)
    show _ = PermMem.mk _ _
    rw [← e2]
  · intro r hr' i p l l' hip hp hi
    refine e3 r hr' (hr r hr') p l l' hp ?_
    rw [h3 i p hip, List.getElem?_range (perm_lt h hip).1, Option.getD_some]
    exact hi

/-- C114: and `shuffle`, with one rearrangement of the positions for all ranges. -/
theorem C114_shuffle (cpp : Nat) (hc : 23 ≤ cpp) (rs : List (Rng Nat)) (hr : ∀ r ∈ rs, IsReal r) (hd : (objects rs).Nodup) (n : Nat)
    (hn : AllLength rs n) (draw : Nat → Nat) (h : ValidDraws n draw) (m : Mem V) :
    ∃ (m' : Mem V) (ps : List Nat), shuffleZip cpp rs draw n m = some (some m') ∧ ps.Perm (List.range n) ∧
      (∀ r ∈ rs, ∀ i p l l' : Nat, ps[i]? = some p → r.elems[i]? = some l → r.elems[p]? = some l' → m' l = m l') ∧
      ∀ l, l ∉ objects rs → m' l = m l := by
  obtain ⟨ps, h1, h2⟩ := C25_shuffle_permutes (List.range n) draw (by rw [List.length_range]; exact h)
  obtain ⟨m', h3, -, -, h4, h5⟩ := shuffleOver_sim (swapElements_sim rs hd n hn m) draw m _ ps (tuplesRel_init rs n hn m) h1
  rw [List.length_range] at h3
  refine ⟨m', ps, ?_, h2, ?_, h5⟩
  · unfold shuffleZip
    rw [if_pos (compiles hc hr), h3]
  · intro r hr' i p l l' hip hi hp
    exact h4 r hr' (hr r hr') i l l' hi (by dsimp only; rw [hip, Option.getD_some]; exact hp)

/-- C114: before C++23, or if one of the ranges is `range_index`, none of these compiles. -/
theorem C114_does_not_compile (cpp : Nat) (rs : List (Rng Nat)) (h : cpp < 23 ∨ ∃ r ∈ rs, ¬ IsReal r) (n : Nat) (idx : List Int) (draw : Nat → Nat)
    (m : Mem V) : permuteZip cpp rs n ⟨m, idx⟩ = none ∧ revPermuteZip cpp rs n ⟨m, idx⟩ = none ∧ shuffleZip cpp rs draw n m = none := by
  have : swapCompiles cpp rs = false := by
    unfold swapCompiles
    refine decide_eq_false ?_
    rintro ⟨h1, h2⟩
    rcases h with h | ⟨r, hr, hr'⟩
    · omega
    · exact hr' (h2 r hr)
  simp [permuteZip, revPermuteZip, shuffleZip, this]

/-- Two ranges of three elements each. -/
def zrPair : List (Rng Nat) := [⟨.iteratorPair, .dyn 3, [10, 11, 12]⟩, ⟨.iteratorPair, .static 3, [20, 21, 22]⟩]

example : (∀ r ∈ zrPair, IsReal r) ∧ (objects zrPair).Nodup ∧ AllLength zrPair 3 ∧ IsPermutation [2, 0, 1] 3 ∧ ValidDraws 3 (fun _ => 0) := by
  refine ⟨?_, by decide, ?_, by unfold IsPermutation; decide, fun _ _ _ => Nat.zero_le _⟩
  · intro r hr
    simp only [zrPair, List.mem_cons, List.not_mem_nil, or_false] at hr
    rcases hr with rfl | rfl <;> simp [IsReal]
  · intro r hr _
    simp only [zrPair, List.mem_cons, List.not_mem_nil, or_false] at hr
    rcases hr with rfl | rfl <;> rfl

example : ∃ r ∈ zrRanges, ¬ IsReal r := ⟨_, List.mem_cons_of_mem _ (List.mem_cons_self ..), fun h => h rfl⟩

end Makeshift.Props
