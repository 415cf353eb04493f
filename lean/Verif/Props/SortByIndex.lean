import Verif.Lemmas.SortByIndex
import Verif.Lemmas.ReduceTypes
import Verif.Props.PermutationInt
import Verif.Props.PermutationShort
import Verif.Props.Fill

/-!
# C138: sorting by indices
-/

namespace Makeshift.Props

open Makeshift.Spec Makeshift.SortByIndex

variable {α β : Type}

/-! ## Helper lemmas -/

private theorem sublist_pair {γ : Type} {l : List γ} {i j : Nat} {a b : γ} (hij : i < j) (ha : l[i]? = some a) (hb : l[j]? = some b) : [a, b].Sublist l := by
  induction l generalizing i j with
  | nil => simp at ha
  | cons x l ih =>
    obtain ⟨j, rfl⟩ : ∃ k, j = k + 1 := ⟨j - 1, by omega⟩
    rw [List.getElem?_cons_succ] at hb
    cases i with
    | zero =>
      rw [List.getElem?_cons_zero, Option.some.injEq] at ha
      subst ha
      exact List.Sublist.cons_cons _ (List.singleton_sublist.mpr (List.mem_of_getElem? hb))
    | succ i =>
      rw [List.getElem?_cons_succ] at ha
      exact (ih (by omega) ha hb).cons _

private theorem nodup_two_orders {γ : Type} {l : List γ} (h : l.Nodup) {a b : γ} (h1 : [a, b].Sublist l) (h2 : [b, a].Sublist l) : False := by
  induction l with
  | nil => simp at h1
  | cons x l ih =>
    rw [List.nodup_cons] at h
    cases h1 with
    | cons _ h1 =>
      cases h2 with
      | cons _ h2 => exact ih h.2 h1 h2
      | cons_cons _ h2 => exact h.1 (h1.subset (by simp))
    | cons_cons _ h1 =>
      cases h2 with
      | cons _ h2 => exact h.1 (h2.subset (by simp))
      | cons_cons _ h2 => exact h.1 (h1.subset (by simp))

private theorem lessAt_weak {less : α → α → Bool} {rows : List α} (h : StrictWeakOn less rows) (l : List Int) (hl : ∀ x ∈ l, 0 ≤ x ∧ x < rows.length) :
    StrictWeakOn (lessAt less rows) l := by
  have hg : ∀ x ∈ l, ∃ a ∈ rows, rows[x.toNat]? = some a := fun x hx => by
    have := hl x hx
    exact ⟨rows[x.toNat]'(by omega), List.getElem_mem _, List.getElem?_eq_getElem (by omega)⟩
  refine ⟨fun a ha => ?_, fun a ha b hb c hc => ?_, fun a ha b hb c hc => ?_⟩
  · obtain ⟨x, hx, ex⟩ := hg a ha
    simp only [lessAt, ex]; exact h.irrefl x hx
  all_goals
    obtain ⟨x, hx, ex⟩ := hg a ha
    obtain ⟨y, hy, ey⟩ := hg b hb
    obtain ⟨z, hz, ez⟩ := hg c hc
    simp only [lessAt, ex, ey, ez]
  · exact h.trans x hx y hy z hz
  · exact h.incomp x hx y hy z hz

theorem iota_identity {ty : IntTy} (ht : StdWidth ty) (indices : List Int) (h : (indices.length : Int) ≤ ty.maxVal) :
    rangeIota ty.inc id indices 0 = .ok (identity indices.length) := by
  rw [C34_iota_integers ht id indices 0 (minVal_nonpos ty) (by omega)]
  congr 1
  unfold identity
  congr 1
  funext i; simp

private theorem sortIndices_eq {ty : IntTy} (ht : StdWidth ty) (sort : (Int → Int → Bool) → List Int → List Int) (less : α → α → Bool) (rows : List α)
    (indices : List Int) (hi : indices.length = rows.length) (hn : (rows.length : Int) ≤ ty.maxVal) :
    sortIndices ty sort less rows indices = .ok (sort (lessAt less rows) (identity rows.length)) := by
  unfold sortIndices
  rw [iota_identity ht indices (by omega), Outcome.bind_ok, callSort, if_pos (fun x hx => ?_), hi]
  rw [hi] at hx
  exact mem_identity.mp hx

private theorem identity_weak {less : α → α → Bool} {rows : List α} (h : StrictWeakOn less rows) : StrictWeakOn (lessAt less rows) (identity rows.length) :=
  lessAt_weak h _ fun _ hx => mem_identity.mp hx

theorem perm_of_get {idx : List Int} {l l' : List α} (h : IsPermutation idx l.length) (hl : l'.length = l.length)
    (hg : ∀ i p : Nat, idx[i]? = some (p : Int) → l'[i]? = l[p]?) : l'.Perm l := by
  obtain ⟨e, h1, h2, h3⟩ := C20_apply_permutation l idx h
  have he : l' = e := by
    apply List.ext_getElem?
    intro i
    by_cases hi : i < l.length
    · obtain ⟨p, _, hp⟩ := (perm_get h).1 i hi
      rw [hg i p hp, h3 i p hp]
    · rw [List.getElem?_eq_none (by omega), List.getElem?_eq_none (by omega)]
  have := (C21_apply_permutation_rejects l idx (by simpa [IsPermutation] using h.length_eq)).2.2.2
  rw [h1] at this
  rw [he]; exact this

theorem apply_spec {ty : IntTy} (ht : StdWidth ty) {idx : List Int} {l : List α} (h : IsPermutation idx l.length) (hn : (l.length : Int) ≤ ty.maxVal)
    {fuel : Nat} (hf : l.length < fuel) :
    ∃ l', PermInt.applyPermutation ty fuel ⟨l, idx⟩ = some (.done, ⟨l', identity l.length⟩) ∧ l'.length = l.length ∧ l'.Perm l ∧
      ∀ i p : Nat, idx[i]? = some (p : Int) → l'[i]? = l[p]? := by
  obtain ⟨e, h1, h2, h3⟩ := C20_apply_permutation l idx h
  refine ⟨e, ?_, h2, perm_of_get h h2 h3, h3⟩
  rw [(C73_exact ty ht ⟨l, idx⟩ hn fuel hf).1, h1]; rfl

private theorem sorted_of_get {less : α → α → Bool} {rows rows' : List α} {idx : List Int} {m : Nat} (h : IsPermutation idx m)
    (hl : rows'.length = m) (hg : ∀ i p : Nat, idx[i]? = some (p : Int) → rows'[i]? = rows[p]?)
    (hp : idx.Pairwise fun a b => lessAt less rows b a = false) : rows'.Pairwise fun a b => less b a = false := by
  have hil : idx.length = m := by simpa [IsPermutation] using h.length_eq
  rw [List.pairwise_iff_getElem] at hp ⊢
  intro i j hi hj hij
  obtain ⟨p, hp', ep⟩ := (perm_get h).1 i (by omega)
  obtain ⟨q, hq', eq⟩ := (perm_get h).1 j (by omega)
  have h1 := hg i p ep
  have h2 := hg j q eq
  have h3 := hp i j (by omega) (by omega) hij
  rw [List.getElem?_eq_getElem (by omega), Option.some.injEq] at ep eq
  rw [ep, eq] at h3
  rw [List.getElem?_eq_getElem hi] at h1
  rw [List.getElem?_eq_getElem hj] at h2
  simpa [lessAt, ← h1, ← h2] using h3

private theorem maxVal_nonneg {ty : IntTy} (ht : StdWidth ty) : 0 ≤ ty.maxVal := by
  obtain ⟨b, s⟩ := ty
  cases s <;> rcases ht with h' | h' | h' | h' <;> simp only at h' <;> subst h' <;> decide

/-- The order in which positions are sorted stably. -/
private def Before (less : α → α → Bool) (rows : List α) (p q : Nat) : Prop :=
  ∀ a b, rows[p]? = some a → rows[q]? = some b → less a b = true ∨ (less b a = false ∧ p < q)

private theorem stable_order {sort : (Int → Int → Bool) → List Int → List Int} (hs : IsStableSort sort) {less : α → α → Bool} {rows : List α}
    (hw : StrictWeakOn less rows) :
    ((sort (lessAt less rows) (identity rows.length)).map Int.toNat).Perm (List.range rows.length) ∧
    ((sort (lessAt less rows) (identity rows.length)).map Int.toNat).Pairwise (Before less rows) := by
  obtain ⟨hp, hq⟩ := hs.1 _ _ (identity_weak hw)
  have hst := hs.2 _ _ (identity_weak hw)
  generalize sort (lessAt less rows) (identity rows.length) = idx at hp hq hst
  have hnd : idx.Nodup := hp.nodup_iff.mpr (identity_nodup _)
  have hval : ∀ x ∈ idx, 0 ≤ x ∧ x < rows.length := fun x hx => mem_identity.mp (hp.mem_iff.mp hx)
  constructor
  · have := hp.map Int.toNat
    rw [identity, List.map_map] at this
    have he : (Int.toNat ∘ Int.ofNat) = id := by funext k; simp
    rw [he, List.map_id] at this
    exact this
  · rw [List.pairwise_map, List.pairwise_iff_forall_sublist]
    intro x y hxy a b ha hb
    have hx := hval x (hxy.subset (by simp))
    have hy := hval y (hxy.subset (by simp))
    have hyx := (List.pairwise_iff_forall_sublist.mp hq) hxy
    have hba : less b a = false := by simpa [lessAt, ha, hb] using hyx
    cases hab : less a b with
    | true => exact .inl rfl
    | false =>
      refine .inr ⟨hba, ?_⟩
      by_contra hc
      have hne : x ≠ y := (List.pairwise_iff_forall_sublist.mp hnd) hxy
      have hsub : [y, x].Sublist (identity rows.length) :=
        sublist_pair (i := y.toNat) (j := x.toNat) (by omega) (by rw [identity_get (by omega)]; congr 1; omega) (by rw [identity_get (by omega)]; congr 1; omega)
      exact nodup_two_orders hnd hxy (hst y x hsub (by simp [lessAt, ha, hb, hab]))

private theorem order_unique {less : α → α → Bool} {rows : List α} (hw : StrictWeakOn less rows) {o o' : List Nat} (p1 : o.Perm (List.range rows.length))
    (p2 : o'.Perm (List.range rows.length)) (w1 : o.Pairwise (Before less rows)) (w2 : o'.Pairwise (Before less rows)) : o = o' := by
  refine List.Perm.eq_of_pairwise (fun p q hp hq h1 h2 => ?_) w1 w2 (p1.trans p2.symm)
  have hp := List.mem_range.mp (p1.mem_iff.mp hp)
  have hq := List.mem_range.mp (p2.mem_iff.mp hq)
  have ha := List.getElem?_eq_getElem hp
  have hb := List.getElem?_eq_getElem hq
  rcases h1 _ _ ha hb with h1 | ⟨h1, h1'⟩
  · rcases h2 _ _ hb ha with h2 | ⟨h2, h2'⟩
    · rw [hw.asymm (List.getElem_mem hp) (List.getElem_mem hq) h1] at h2; exact absurd h2 (by simp)
    · rw [h2] at h1; exact absurd h1 (by simp)
  · rcases h2 _ _ hb ha with h2 | ⟨h2, h2'⟩
    · rw [h1] at h2; exact absurd h2 (by simp)
    · omega

/-! ## The properties -/

/-- C138: if the index type can represent the number of rows, sorting the indices and applying them as permutation sorts the rows, whatever the array of
indices held before; the array of indices holds the numbers in order afterwards. -/
theorem C138_sorted (ty : IntTy) (ht : StdWidth ty) (sort : (Int → Int → Bool) → List Int → List Int) (hs : IsSort sort) (less : α → α → Bool)
    (rows : List α) (hw : StrictWeakOn less rows) (indices : List Int) (hi : indices.length = rows.length) (hn : (rows.length : Int) ≤ ty.maxVal)
    (fuel : Nat) (hf : rows.length < fuel) :
    ∃ rows', sortBy ty sort less rows indices fuel = .ok (some (.done, ⟨rows', (List.range rows.length).map Int.ofNat⟩)) ∧
      rows'.Perm rows ∧ rows'.Pairwise fun a b => less b a = false := by
  obtain ⟨hp, hq⟩ := hs _ _ (identity_weak hw)
  obtain ⟨rows', h1, h2, h3, h4⟩ := apply_spec ht (idx := sort (lessAt less rows) (identity rows.length)) (l := rows) hp hn hf
  refine ⟨rows', ?_, h3, sorted_of_get hp h2 h4 hq⟩
  rw [sortBy, sortIndices_eq ht sort less rows indices hi hn, Outcome.bind_ok, h1]; rfl

/-- C138: with a stable sorting algorithm, the sort is stable: the positions are ordered such that equivalent rows keep their order. -/
theorem C138_stable (ty : IntTy) (ht : StdWidth ty) (sort : (Int → Int → Bool) → List Int → List Int) (hs : IsStableSort sort) (less : α → α → Bool)
    (rows : List α) (hw : StrictWeakOn less rows) (indices : List Int) (hi : indices.length = rows.length) (hn : (rows.length : Int) ≤ ty.maxVal)
    (fuel : Nat) (hf : rows.length < fuel) :
    ∃ (rows' : List α) (order : List Nat), sortBy ty sort less rows indices fuel = .ok (some (.done, ⟨rows', (List.range rows.length).map Int.ofNat⟩)) ∧
      order.Perm (List.range rows.length) ∧ rows'.map some = order.map (fun p => rows[p]?) ∧
      order.Pairwise fun p q => ∀ a b, rows[p]? = some a → rows[q]? = some b → less a b = true ∨ (less b a = false ∧ p < q) := by
  obtain ⟨hp, -⟩ := hs.1 _ _ (identity_weak hw)
  obtain ⟨ho1, ho2⟩ := stable_order hs hw
  generalize hidx : sort (lessAt less rows) (identity rows.length) = idx at hp ho1 ho2
  obtain ⟨rows', h1, h2, h3, h4⟩ := apply_spec ht (idx := idx) (l := rows) hp hn hf
  have hil : idx.length = rows.length := by rw [hp.length_eq, identity_length]
  refine ⟨rows', idx.map Int.toNat, ?_, ho1, ?_, ho2⟩
  · rw [sortBy, sortIndices_eq ht sort less rows indices hi hn, Outcome.bind_ok, hidx, h1]; rfl
  · apply List.ext_getElem?
    intro i
    by_cases hil' : i < rows.length
    · obtain ⟨p, hp', ep⟩ := (perm_get hp).1 i hil'
      have := h4 i p ep
      rw [List.getElem?_map, List.getElem?_map, List.getElem?_map, ep, this]
      simp [hp']
    · rw [List.getElem?_eq_none (by simp; omega), List.getElem?_eq_none (by simp; omega)]

/-- Non-vacuity of `C138_sorted` and `C138_stable`: three rows, ordered by their first component. -/
example : IsStableSort (insertionSort (α := Int)) ∧ StrictWeakOn (fun a b : Nat × Nat => decide (a.1 < b.1)) [(2, 0), (1, 1), (2, 2)] ∧
    sortBy ⟨8, false⟩ insertionSort (fun a b : Nat × Nat => decide (a.1 < b.1)) [(2, 0), (1, 1), (2, 2)] [7, 7, 7] 4 =
      .ok (some (.done, ⟨[(1, 1), (2, 0), (2, 2)], [0, 1, 2]⟩)) :=
  ⟨insertionSort_stable, ⟨by simp, by simp, by simp⟩, by decide +kernel⟩

/-- C138: the result of a stable sort does not depend on the algorithm, on the index type or on the array of indices. -/
theorem C138_stable_unique (ty ty' : IntTy) (ht : StdWidth ty) (ht' : StdWidth ty') (sort sort' : (Int → Int → Bool) → List Int → List Int)
    (hs : IsStableSort sort) (hs' : IsStableSort sort') (less : α → α → Bool) (rows : List α) (hw : StrictWeakOn less rows) (indices indices' : List Int)
    (hi : indices.length = rows.length) (hi' : indices'.length = rows.length) (hn : (rows.length : Int) ≤ ty.maxVal)
    (hn' : (rows.length : Int) ≤ ty'.maxVal) (fuel fuel' : Nat) (hf : rows.length < fuel) (hf' : rows.length < fuel') :
    sortBy ty sort less rows indices fuel = sortBy ty' sort' less rows indices' fuel' := by
  obtain ⟨r, o, e1, p1, m1, w1⟩ := C138_stable ty ht sort hs less rows hw indices hi hn fuel hf
  obtain ⟨r', o', e2, p2, m2, w2⟩ := C138_stable ty' ht' sort' hs' less rows hw indices' hi' hn' fuel' hf'
  rw [e1, e2]
  have ho : o = o' := order_unique hw p1 p2 w1 w2
  subst ho
  rw [← m2] at m1
  rw [List.map_injective_iff.mpr (Option.some_injective α) m1]

/-- C138: rows which are in order already are left alone by a stable sort, and so are the indices. -/
theorem C138_already_sorted (ty : IntTy) (ht : StdWidth ty) (sort : (Int → Int → Bool) → List Int → List Int) (hs : IsStableSort sort) (less : α → α → Bool)
    (rows : List α) (hw : StrictWeakOn less rows) (hr : rows.Pairwise fun a b => less b a = false) (indices : List Int) (hi : indices.length = rows.length)
    (hn : (rows.length : Int) ≤ ty.maxVal) (fuel : Nat) (hf : rows.length < fuel) :
    sortIndices ty sort less rows indices = .ok ((List.range rows.length).map Int.ofNat) ∧
    sortBy ty sort less rows indices fuel = .ok (some (.done, ⟨rows, (List.range rows.length).map Int.ofNat⟩)) := by
  obtain ⟨hp, -⟩ := hs.1 _ _ (identity_weak hw)
  obtain ⟨ho1, ho2⟩ := stable_order hs hw
  have hid : sort (lessAt less rows) (identity rows.length) = identity rows.length := by
    generalize sort (lessAt less rows) (identity rows.length) = idx at hp ho1 ho2
    have ho := order_unique hw ho1 (List.Perm.refl _) ho2 (by
      rw [List.pairwise_iff_getElem] at hr ⊢
      intro i j hi hj hij a b ha hb
      simp only [List.length_range] at hi hj
      simp only [List.getElem_range] at ha hb ⊢
      rw [List.getElem?_eq_getElem hi, Option.some.injEq] at ha
      rw [List.getElem?_eq_getElem hj, Option.some.injEq] at hb
      exact .inr ⟨by rw [← ha, ← hb]; exact hr i j hi hj hij, hij⟩)
    rw [identity, ← ho, List.map_map]
    conv_lhs => rw [← List.map_id idx]
    refine List.map_congr_left fun x hx => ?_
    have := mem_identity.mp (hp.mem_iff.mp hx)
    simp only [id, Function.comp, Int.ofNat_eq_natCast]; omega
  have h1 := sortIndices_eq ht sort less rows indices hi hn
  rw [hid] at h1
  refine ⟨h1, ?_⟩
  obtain ⟨rows', h2, h3, h4, h5⟩ := apply_spec ht (idx := identity rows.length) (l := rows) (.refl _) hn hf
  rw [sortBy, h1, Outcome.bind_ok, h2]
  have : rows' = rows := by
    apply List.ext_getElem?
    intro i
    by_cases hi : i < rows.length
    · exact h5 i i (identity_get hi)
    · rw [List.getElem?_eq_none (by omega), List.getElem?_eq_none (by omega)]
  rw [this]; rfl

/-- Non-vacuity of `C138_already_sorted`. -/
example : StrictWeakOn (fun a b : Nat × Nat => decide (a.1 < b.1)) [(1, 5), (1, 3), (2, 4)] ∧
    [(1, 5), (1, 3), (2, 4)].Pairwise (fun a b : Nat × Nat => decide (b.1 < a.1) = false) :=
  ⟨⟨by simp, by simp, by simp⟩, by simp⟩

/-- C138: other rows which are permuted with a copy of the indices stay in step. -/
theorem C138_in_step (ty : IntTy) (ht : StdWidth ty) (sort : (Int → Int → Bool) → List Int → List Int) (hs : IsSort sort) (less : α → α → Bool)
    (rows : List α) (others : List β) (ho : others.length = rows.length) (hw : StrictWeakOn less rows) (indices : List Int)
    (hi : indices.length = rows.length) (hn : (rows.length : Int) ≤ ty.maxVal) (fuel : Nat) (hf : rows.length < fuel) :
    ∃ (rows' : List α) (others' : List β), sortBoth true ty sort less rows others indices fuel = .ok (some (.done, rows', others')) ∧
      (rows'.zip others').Perm (rows.zip others) ∧ rows'.length = rows.length ∧ others'.length = rows.length ∧ rows'.Pairwise fun a b => less b a = false := by
  obtain ⟨hp, hq⟩ := hs _ _ (identity_weak hw)
  obtain ⟨rows', h1, h2, h3, h4⟩ := apply_spec ht (idx := sort (lessAt less rows) (identity rows.length)) (l := rows) hp hn hf
  obtain ⟨others', k1, k2, k3, k4⟩ := apply_spec ht (idx := sort (lessAt less rows) (identity rows.length)) (l := others) (fuel := fuel)
    (by rw [ho]; exact hp) (by omega) (by omega)
  refine ⟨rows', others', ?_, ?_, h2, by omega, sorted_of_get hp h2 h4 hq⟩
  · rw [sortBoth, sortIndices_eq ht sort less rows indices hi hn, Outcome.bind_ok, h1]
    simp only [if_true]
    rw [k1]; rfl
  · refine perm_of_get (idx := sort (lessAt less rows) (identity rows.length)) ?_ (by simp; omega) (fun i p hip => ?_)
    · simpa [ho, IsPermutation, identity] using hp
    · simp only [List.zip, List.getElem?_zipWith, h4 i p hip, k4 i p hip]

/-- C138: the indices cannot be used a second time without a copy: `apply_permutation` has replaced them by the numbers in order, so nothing happens to
the other rows. -/
theorem C138_no_copy (ty : IntTy) (ht : StdWidth ty) (sort : (Int → Int → Bool) → List Int → List Int) (hs : IsSort sort) (less : α → α → Bool)
    (rows : List α) (others : List β) (ho : others.length = rows.length) (hw : StrictWeakOn less rows) (indices : List Int)
    (hi : indices.length = rows.length) (hn : (rows.length : Int) ≤ ty.maxVal) (fuel : Nat) (hf : rows.length < fuel) :
    ∃ rows' : List α, sortBoth false ty sort less rows others indices fuel = .ok (some (.done, rows', others)) ∧
      rows'.Perm rows ∧ rows'.Pairwise fun a b => less b a = false := by
  obtain ⟨hp, hq⟩ := hs _ _ (identity_weak hw)
  obtain ⟨rows', h1, h2, h3, h4⟩ := apply_spec ht (idx := sort (lessAt less rows) (identity rows.length)) (l := rows) hp hn hf
  obtain ⟨others', k1, k2, k3, k4⟩ := apply_spec ht (idx := identity rows.length) (l := others) (fuel := fuel)
    (by rw [ho]; exact .refl _) (by omega) (by omega)
  have : others' = others := by
    apply List.ext_getElem?
    intro i
    by_cases hi : i < rows.length
    · exact k4 i i (identity_get hi)
    · rw [List.getElem?_eq_none (by omega), List.getElem?_eq_none (by omega)]
  refine ⟨rows', ?_, h3, sorted_of_get hp h2 h4 hq⟩
  rw [sortBoth, sortIndices_eq ht sort less rows indices hi hn, Outcome.bind_ok, h1]
  simp only [Bool.false_eq_true, if_false]
  rw [k1, this]; rfl

/-- Non-vacuity of `C138_in_step` and `C138_no_copy`. -/
example : StrictWeakOn (fun a b : Nat => decide (a < b)) [3, 1, 2] ∧
    sortBoth true ⟨32, true⟩ insertionSort (fun a b : Nat => decide (a < b)) [3, 1, 2] ["three", "one", "two"] [0, 0, 0] 4 =
      .ok (some (.done, [1, 2, 3], ["one", "two", "three"])) :=
  ⟨⟨by simp, by simp, by simp⟩, by decide +kernel⟩

/-- C138: so the claim that the other rows stay in step is false if the copy is forgotten. -/
theorem C138_no_copy_negated : ¬ ∀ (rows others : List Nat) (indices : List Int), others.length = rows.length → indices.length = rows.length →
    ∃ (rows' others' : List Nat), sortBoth false ⟨32, true⟩ insertionSort (fun a b => decide (a < b)) rows others indices (rows.length + 1) =
      .ok (some (.done, rows', others')) ∧ (rows'.zip others').Perm (rows.zip others) := by
  intro h
  obtain ⟨r, o, h1, h2⟩ := h [2, 1] [20, 10] [0, 0] rfl rfl
  have : sortBoth false ⟨32, true⟩ insertionSort (fun a b : Nat => decide (a < b)) [2, 1] [20, 10] [0, 0] ([2, 1].length + 1) =
      .ok (some (.done, [1, 2], [20, 10])) := by decide +kernel
  rw [this] at h1
  simp only [Outcome.ok.injEq, Option.some.injEq, Prod.mk.injEq, true_and] at h1
  rw [← h1.1, ← h1.2] at h2
  exact absurd (h2.mem_iff (a := (1, 20))) (by decide)

/-- C138: with a copy of the sorted indices, `apply_reverse_permutation` restores the order which the rows had before. -/
theorem C138_undo (ty : IntTy) (ht : StdWidth ty) (sort : (Int → Int → Bool) → List Int → List Int) (hs : IsSort sort) (less : α → α → Bool)
    (rows : List α) (hw : StrictWeakOn less rows) (indices : List Int) (hi : indices.length = rows.length) (hn : (rows.length : Int) ≤ ty.maxVal)
    (fuel : Nat) (hf : rows.length < fuel) :
    ∃ (idx : List Int) (rows' : List α), sortIndices ty sort less rows indices = .ok idx ∧
      sortBy ty sort less rows indices fuel = .ok (some (.done, ⟨rows', (List.range rows.length).map Int.ofNat⟩)) ∧
      PermInt.applyReversePermutation ty fuel ⟨rows', idx⟩ = some (.done, ⟨rows, (List.range rows.length).map Int.ofNat⟩) := by
  obtain ⟨hp, hq⟩ := hs _ _ (identity_weak hw)
  have h0 := sortIndices_eq ht sort less rows indices hi hn
  generalize sort (lessAt less rows) (identity rows.length) = idx at hp hq h0
  obtain ⟨rows', h1, h2, h3⟩ := C20_apply_permutation rows idx hp
  refine ⟨idx, rows', h0, ?_, ?_⟩
  · rw [sortBy, h0, Outcome.bind_ok, (C73_exact ty ht ⟨rows, idx⟩ hn fuel hf).1, h1]
  · rw [(C73_exact ty ht ⟨rows', idx⟩ (by simp only; omega) fuel (by simp only; omega)).2]
    obtain ⟨e, k1, k2, k3⟩ := C22_apply_reverse_permutation rows' idx (by rw [h2]; exact hp)
    have := (C24_cancel rows idx hp).1
    rw [h1] at this
    simp only [k1] at this
    rw [k1, this, h2]

/-- Non-vacuity of `C138_undo`. -/
example : StrictWeakOn (fun a b : Nat => decide (a < b)) [3, 1, 2] ∧
    sortIndices ⟨32, true⟩ insertionSort (fun a b : Nat => decide (a < b)) [3, 1, 2] [0, 0, 0] = .ok [1, 2, 0] :=
  ⟨⟨by simp, by simp, by simp⟩, by decide +kernel⟩

/-! ## numbers of rows which the index type cannot represent, and other numbers of indices -/

/-- C138: an array with one element more than the largest value of an unsigned index type, or of one which is narrower than `int`, is not sorted: although
all the indices are valid and sorted correctly, nothing is permuted, and nothing reports this. -/
theorem C138_one_too_many (ty : IntTy) (ht : StdWidth ty) (hu : ty.signed = false ∨ ty.bits < 32) (sort : (Int → Int → Bool) → List Int → List Int)
    (hs : IsSort sort) (less : α → α → Bool) (rows : List α) (hw : StrictWeakOn less rows) (indices : List Int) (hi : indices.length = rows.length)
    (hn : (rows.length : Int) = ty.maxVal + 1) (fuel : Nat) :
    ∃ idx, IsPermutation idx rows.length ∧ sortBy ty sort less rows indices (fuel + 1) = .ok (some (.done, ⟨rows, idx⟩)) := by
  have hmin := minVal_nonpos ty
  have h0 : 0 ≤ ty.maxVal := maxVal_nonneg ht
  obtain ⟨hp, hq⟩ := hs _ _ (identity_weak hw)
  refine ⟨_, hp, ?_⟩
  have hio : rangeIota ty.inc id indices 0 = .ok (identity rows.length) := by
    rw [C34_iota_wraps ht hu id indices 0 ⟨hmin, by omega⟩]
    congr 1
    rw [hi]
    unfold identity
    refine List.map_congr_left fun i hi => ?_
    have := List.mem_range.mp hi
    simp only [id, Int.zero_add, Int.ofNat_eq_natCast]
    exact wrap_id ht ⟨by omega, by omega⟩
  rw [sortBy, sortIndices, hio, Outcome.bind_ok, callSort, if_pos (fun x hx => mem_identity.mp hx), Outcome.bind_ok]
  rw [(C73_one_too_many ty ht rows _ hp (fun x hx => ?_) (by omega) fuel).2.1]
  have := mem_identity.mp (hp.mem_iff.mp hx)
  exact ⟨by omega, by omega⟩

/-- C138: so 256 rows are not sorted with indices of type `std::uint8_t`. -/
theorem C138_one_too_many_unsorted (fuel : Nat) :
    ∃ idx, sortBy ⟨8, false⟩ insertionSort (fun a b : Nat => decide (a < b)) (List.range 256).reverse (List.replicate 256 0) (fuel + 1) =
      .ok (some (.done, ⟨(List.range 256).reverse, idx⟩)) ∧ ¬ (List.range 256).reverse.Pairwise (fun a b => decide (b < a) = false) := by
  obtain ⟨idx, -, h⟩ := C138_one_too_many ⟨8, false⟩ (.inl rfl) (.inl rfl) insertionSort insertionSort_stable.1 (fun a b : Nat => decide (a < b))
    (List.range 256).reverse
    ⟨fun a _ => decide_eq_false (by omega), fun a _ b _ c _ h1 h2 => decide_eq_true (by have := of_decide_eq_true h1; have := of_decide_eq_true h2; omega),
      fun a _ b _ c _ h1 h2 => decide_eq_false (by have := of_decide_eq_false h1; have := of_decide_eq_false h2; omega)⟩
    (List.replicate 256 0) (by rw [List.length_replicate, List.length_reverse, List.length_range])
    (by rw [List.length_reverse, List.length_range]; decide) fuel
  refine ⟨idx, h, ?_⟩
  rw [List.pairwise_reverse]
  intro hc
  have := (List.pairwise_iff_getElem.mp hc) 0 1 (by rw [List.length_range]; omega) (by rw [List.length_range]; omega) (by omega)
  rw [List.getElem_range, List.getElem_range] at this
  exact absurd this (by decide)

/-- C138: for a signed index type of at least the width of `int`, more elements than its largest value are undefined behaviour (in `range_iota`). -/
theorem C138_signed_overflow (ty : IntTy) (ht : StdWidth ty) (hs : ty.signed = true) (hb : 32 ≤ ty.bits) (sort : (Int → Int → Bool) → List Int → List Int)
    (less : α → α → Bool) (rows : List α) (indices : List Int) (hn : ty.maxVal < indices.length) (fuel : Nat) :
    sortBy ty sort less rows indices fuel = .ub := by
  have hmin := minVal_nonpos ty
  rw [sortBy, sortIndices, C34_iota_undefined ht hs hb id indices 0 ⟨hmin, maxVal_nonneg ht⟩ (by omega)]
  rfl

/-- Non-vacuity of `C138_signed_overflow`: for lists, which have no size limit. -/
example : (⟨32, true⟩ : IntTy).maxVal < (List.replicate 2147483648 (0 : Int)).length := by
  rw [List.length_replicate]; decide

/-- C138: for a signed index type narrower than `int`, the indices become negative if there are at least two elements more than its largest value; the
comparison then accesses rows out of bounds. -/
theorem C138_narrow_overflow (ty : IntTy) (ht : StdWidth ty) (hs : ty.signed = true) (hb : ty.bits < 32) (sort : (Int → Int → Bool) → List Int → List Int)
    (less : α → α → Bool) (rows : List α) (indices : List Int) (hn : ty.maxVal + 1 < indices.length) (fuel : Nat) :
    sortBy ty sort less rows indices fuel = .ub := by
  have hmin := minVal_nonpos ty
  have hneg : 0 ≤ ty.maxVal ∧ ty.wrap (ty.maxVal + 1) < 0 := by
    obtain ⟨b, s⟩ := ty
    simp only at hs; subst hs
    rcases ht with h' | h' | h' | h' <;> simp only at h' <;> subst h' <;> decide
  rw [sortBy, sortIndices, C34_iota_wraps ht (.inr hb) id indices 0 ⟨hmin, hneg.1⟩, Outcome.bind_ok, callSort, if_neg]
  · rfl
  · intro hc
    have := hc (ty.wrap (ty.maxVal + 1)) (List.mem_map.mpr ⟨(ty.maxVal + 1).toNat, List.mem_range.mpr (by omega), by
      simp only [id]; congr 1; omega⟩)
    omega

/-- Non-vacuity of `C138_narrow_overflow`. -/
example : (⟨8, true⟩ : IntTy).maxVal + 1 < (List.replicate 129 (0 : Int)).length := by
  rw [List.length_replicate]; decide

/-- C138: for an unsigned index type, rows are permuted only in front of the position which is the remainder of the number of rows modulo `2 ^ bits`; the
call may end normally or fail fast. -/
theorem C138_unsigned_overflow (ty : IntTy) (ht : StdWidth ty) (hu : ty.signed = false) (sort : (Int → Int → Bool) → List Int → List Int)
    (less : α → α → Bool) (rows : List α) (indices : List Int) (hn : ty.maxVal < rows.length)
    (fuel : Nat) (hf : rows.length % 2 ^ ty.bits < fuel) :
    ∃ e s, sortBy ty sort less rows indices fuel = .ok (some (e, s)) ∧ s.elems.length = rows.length ∧
      s.elems.drop (rows.length % 2 ^ ty.bits) = rows.drop (rows.length % 2 ^ ty.bits) := by
  have hmin := minVal_nonpos ty
  have hmin0 : ty.minVal = 0 := by unfold IntTy.minVal; rw [hu]; rfl
  have h0 : 0 ≤ ty.maxVal := maxVal_nonneg ht
  have hw : ty.wrap (rows.length : Int) = ((rows.length % 2 ^ ty.bits : Nat) : Int) := by
    unfold IntTy.wrap; rw [hu]; simp
  have hm : ((rows.length % 2 ^ ty.bits : Nat) : Int) ≤ ty.maxVal := by rw [← hw]; exact (wrap_inRange ht _).2
  have hml : rows.length % 2 ^ ty.bits ≤ rows.length := Nat.mod_le _ _
  rw [sortBy, sortIndices, C34_iota_wraps ht (.inl hu) id indices 0 ⟨hmin, h0⟩, Outcome.bind_ok, callSort, if_pos, Outcome.bind_ok]
  · generalize hsi : sort (lessAt less rows) _ = idx
    unfold PermInt.applyPermutation
    simp only [hw]
    generalize hmd : rows.length % 2 ^ ty.bits = m at hm hml hf
    have ho := outer_perm ht m hm m 0 fuel ⟨rows, idx⟩ (by omega) hf
    rw [Int.natCast_zero] at ho
    rw [ho]
    obtain ⟨k1, k2⟩ := applyPermOuter_append m m (Nat.le_refl _) (rows.drop m) m 0 (rows.take m) idx (by simp; omega) (by omega) (fun _ _ h => h)
    rw [List.take_append_drop] at k1
    rw [k1]
    refine ⟨_, _, rfl, ?_, ?_⟩
    · simp [k2]; omega
    · simp only
      rw [List.drop_left' k2]
  · intro x hx
    obtain ⟨i, -, rfl⟩ := List.mem_map.mp hx
    have := wrap_inRange ht (0 + (i : Int))
    simp only [id]
    exact ⟨by have := this.1; omega, by have := this.2; omega⟩

/-- Non-vacuity of `C138_unsigned_overflow`. -/
example : (⟨8, false⟩ : IntTy).maxVal < (List.range 258).length ∧ (List.range 258).length % 2 ^ 8 = 2 := by
  rw [List.length_range]; decide

/-- C138: more indices than rows are undefined behaviour (in the comparisons). -/
theorem C138_more_indices (ty : IntTy) (ht : StdWidth ty) (sort : (Int → Int → Bool) → List Int → List Int) (less : α → α → Bool)
    (rows : List α) (indices : List Int) (hi : rows.length < indices.length) (hn : (indices.length : Int) ≤ ty.maxVal) (fuel : Nat) :
    sortBy ty sort less rows indices fuel = .ub := by
  rw [sortBy, sortIndices, iota_identity ht indices hn, Outcome.bind_ok, callSort, if_neg]
  · rfl
  · intro hc
    have := hc rows.length (mem_identity.mpr ⟨by omega, by omega⟩)
    omega

/-- C138: fewer indices than rows are undefined behaviour, too (in `apply_permutation`), after the first rows have been sorted. -/
theorem C138_fewer_indices (ty : IntTy) (ht : StdWidth ty) (sort : (Int → Int → Bool) → List Int → List Int) (hs : IsSort sort) (less : α → α → Bool)
    (rows : List α) (hw : StrictWeakOn less rows) (indices : List Int) (hi : indices.length < rows.length) (hn : (rows.length : Int) ≤ ty.maxVal)
    (fuel : Nat) (hf : rows.length < fuel) :
    ∃ (e : List α) (idx : List Int), sortBy ty sort less rows indices fuel = .ok (some (.ub, ⟨e ++ rows.drop indices.length, idx⟩)) ∧
      e.length = indices.length ∧ e.Pairwise fun a b => less b a = false := by
  have hwk : StrictWeakOn (lessAt less rows) (identity indices.length) := lessAt_weak hw _ fun x hx => by
    have := mem_identity.mp hx; omega
  obtain ⟨hp, hq⟩ := hs _ _ hwk
  obtain ⟨e, h1, h2, h3⟩ := C21_too_few_permutation rows _ indices.length hp hi
  refine ⟨e, (List.range indices.length).map Int.ofNat, ?_, h2, sorted_of_get hp h2 h3 hq⟩
  rw [sortBy, sortIndices, iota_identity ht indices (by omega), Outcome.bind_ok, callSort, if_pos (fun x hx => by have := mem_identity.mp hx; omega),
    Outcome.bind_ok, (C73_exact ty ht _ hn fuel hf).1, h1]

/-- Non-vacuity of `C138_more_indices` and `C138_fewer_indices`. -/
example : StrictWeakOn (fun a b : Nat => decide (a < b)) [3, 1, 2] ∧ [3, 1, 2].length < [0, 0, 0, 0].length ∧ [0, 0].length < [3, 1, 2].length :=
  ⟨⟨by simp, by simp, by simp⟩, by decide, by decide⟩

end Makeshift.Props
