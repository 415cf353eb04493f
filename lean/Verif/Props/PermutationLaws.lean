import Verif.Props.Permutation

/-!
# C117: laws of permuting
-/

namespace Makeshift.Props

open Makeshift

private theorem swapAt_map {α β : Type} (f : α → β) (l : List α) (a b : Nat) : swapAt (l.map f) a b = (swapAt l a b).map (List.map f) := by
  unfold swapAt
  simp only [List.getElem?_map]
  cases l[a]? <;> cases l[b]? <;> simp [List.map_set]

private theorem inner_map {α β : Type} (f : α → β) (length i current : Nat) (s : PermState α) :
    applyPermInner length i current ⟨s.elems.map f, s.idx⟩ =
      ((applyPermInner length i current s).1, ⟨(applyPermInner length i current s).2.elems.map f, (applyPermInner length i current s).2.idx⟩) := by
  fun_induction applyPermInner length i current s with
  | case1 current s h => rw [applyPermInner]; split <;> simp_all
  | case2 current s h => rw [applyPermInner]; split <;> simp_all
  | case3 current s next h h1 h2 =>
    rw [applyPermInner]; split
    · simp_all
    · rename_i n' hn'
      have : n' = next := by simp only at hn'; rw [h] at hn'; simpa using hn'.symm
      subst this
      rw [if_neg h1, dif_pos h2]
  | case4 current s next h h1 h2 h3 =>
    rw [applyPermInner]; split
    · simp_all
    · rename_i n' hn'
      have : n' = next := by simp only at hn'; rw [h] at hn'; simpa using hn'.symm
      subst this
      rw [if_neg h1, dif_neg h2]
      simp only [swapAt_map, h3, Option.map_none]
  | case5 current s next h h1 h2 e h3 ih =>
    rw [applyPermInner]; split
    · simp_all
    · rename_i n' hn'
      have : n' = next := by simp only at hn'; rw [h] at hn'; simpa using hn'.symm
      subst this
      rw [if_neg h1, dif_neg h2]
      simp only [swapAt_map, h3, Option.map_some]
      exact ih

private theorem outer_map {α β : Type} (f : α → β) (length m i : Nat) (s : PermState α) :
    applyPermOuter length m i ⟨s.elems.map f, s.idx⟩ =
      ((applyPermOuter length m i s).1, ⟨(applyPermOuter length m i s).2.elems.map f, (applyPermOuter length m i s).2.idx⟩) := by
  induction m generalizing i s with
  | zero => rfl
  | succ m ih =>
    simp only [applyPermOuter, inner_map]
    rcases hr : applyPermInner length i i s with ⟨e, s'⟩
    cases e with
    | done => exact ih (i + 1) s'
    | failFast => rfl
    | ub => rfl

private theorem rev_inner_map {α β : Type} (f : α → β) (length i : Nat) (s : PermState α) :
    applyRevInner length i ⟨s.elems.map f, s.idx⟩ =
      ((applyRevInner length i s).1, ⟨(applyRevInner length i s).2.elems.map f, (applyRevInner length i s).2.idx⟩) := by
  fun_induction applyRevInner length i s with
  | case1 s h => rw [applyRevInner]; split <;> simp_all
  | case2 s h => rw [applyRevInner]; split <;> simp_all
  | case3 s next h h1 h2 =>
    rw [applyRevInner]; split
    · simp_all
    · rename_i n' hn'
      have : n' = next := by simp only at hn'; rw [h] at hn'; simpa using hn'.symm
      subst this
      rw [dif_neg h1, dif_pos h2]
  | case4 s next h h1 h2 h3 =>
    rw [applyRevInner]; split
    · simp_all
    · rename_i n' hn'
      have : n' = next := by simp only at hn'; rw [h] at hn'; simpa using hn'.symm
      subst this
      rw [dif_neg h1, dif_neg h2]
      split <;> simp_all
  | case5 s next h h1 h2 h3 =>
    rw [applyRevInner]; split
    · simp_all
    · rename_i n' hn'
      have : n' = next := by simp only at hn'; rw [h] at hn'; simpa using hn'.symm
      subst this
      rw [dif_neg h1, dif_neg h2]
      split <;> simp_all
  | case6 s next h h1 h2 nn h3 h4 h5 =>
    rw [applyRevInner]; split
    · simp_all
    · rename_i n' hn'
      have : n' = next := by simp only at hn'; rw [h] at hn'; simpa using hn'.symm
      subst this
      rw [dif_neg h1, dif_neg h2]
      split
      · simp_all
      · rename_i m' hm'
        have : m' = nn := by simp only at hm'; rw [h3] at hm'; simpa using hm'.symm
        subst this
        rw [dif_neg h4]
        simp only [swapAt_map, h5, Option.map_none]
  | case7 s next h h1 h2 nn h3 h4 e h5 ih =>
    rw [applyRevInner]; split
    · simp_all
    · rename_i n' hn'
      have : n' = next := by simp only at hn'; rw [h] at hn'; simpa using hn'.symm
      subst this
      rw [dif_neg h1, dif_neg h2]
      split
      · simp_all
      · rename_i m' hm'
        have : m' = nn := by simp only at hm'; rw [h3] at hm'; simpa using hm'.symm
        subst this
        rw [dif_neg h4]
        simp only [swapAt_map, h5, Option.map_some]
        exact ih

private theorem rev_outer_map {α β : Type} (f : α → β) (length m i : Nat) (s : PermState α) :
    applyRevOuter length m i ⟨s.elems.map f, s.idx⟩ =
      ((applyRevOuter length m i s).1, ⟨(applyRevOuter length m i s).2.elems.map f, (applyRevOuter length m i s).2.idx⟩) := by
  induction m generalizing i s with
  | zero => rfl
  | succ m ih =>
    simp only [applyRevOuter, rev_inner_map]
    rcases hr : applyRevInner length i s with ⟨e, s'⟩
    cases e with
    | done => exact ih (i + 1) s'
    | failFast => rfl
    | ub => rfl

/-- C117: the values of the elements do not matter, for valid and invalid index arrays alike: replacing all elements by their images under a
function replaces the elements of the result by their images, and changes neither how the call ends nor the index array left behind.  Hence
ranges permuted with copies of the same index array stay in step. -/
theorem C117_values_do_not_matter {α β : Type} (f : α → β) (elems : List α) (idx : List Int) :
    (∀ e elems' idx', applyPermutation ⟨elems, idx⟩ = (e, ⟨elems', idx'⟩) →
      applyPermutation ⟨elems.map f, idx⟩ = (e, ⟨elems'.map f, idx'⟩)) ∧
    (∀ e elems' idx', applyReversePermutation ⟨elems, idx⟩ = (e, ⟨elems', idx'⟩) →
      applyReversePermutation ⟨elems.map f, idx⟩ = (e, ⟨elems'.map f, idx'⟩)) := by
  constructor
  · intro e elems' idx' h
    unfold applyPermutation at h ⊢
    simp only [List.length_map]
    rw [outer_map f _ _ _ ⟨elems, idx⟩, h]
  · intro e elems' idx' h
    unfold applyReversePermutation at h ⊢
    simp only [List.length_map]
    rw [rev_outer_map f _ _ _ ⟨elems, idx⟩, h]

/-- An index array that is not a permutation: a position occurs twice. -/
example : ∃ e : PermEnd, ∃ elems' : List Nat, ∃ idx', applyPermutation ⟨[10, 11, 12], [1, 2, 1]⟩ = (e, ⟨elems', idx'⟩) := ⟨_, _, _, rfl⟩

private theorem get_of_perm {idx : List Int} {n : Nat} (h : IsPermutation idx n) (i : Nat) (hi : i < n) :
    ∃ p : Nat, p < n ∧ idx[i]? = some (p : Int) := by
  obtain ⟨hg, -⟩ := perm_get h
  obtain ⟨p, h1, h2⟩ := hg i hi
  exact ⟨p, h1, h2⟩

private theorem length_of_perm {idx : List Int} {n : Nat} (h : IsPermutation idx n) : idx.length = n := by
  have := h.length_eq
  simpa using this

private theorem perm_rearranges {α : Type} (elems : List α) (idx : List Int) (h : IsPermutation idx elems.length) (elems' : List α)
    (hl : elems'.length = elems.length) (hg : ∀ i p : Nat, idx[i]? = some (p : Int) → elems'[i]? = elems[p]?) : elems'.Perm elems := by
  have e1 : elems' = (idx.map Int.toNat).filterMap (fun p => elems[p]?) := by
    have hm : elems'.map some = (idx.map Int.toNat).map (fun p => elems[p]?) := by
      apply List.ext_getElem?
      intro k
      by_cases hk : k < elems.length
      · obtain ⟨p, hp, hip⟩ := get_of_perm h k hk
        have := hg k p hip
        simp only [List.getElem?_map, hip, this, Option.map_some, Int.toNat_natCast]
        rw [List.getElem?_eq_getElem hp]; rfl
      · have := length_of_perm h
        rw [List.getElem?_eq_none (by simp; omega), List.getElem?_eq_none (by simp; omega)]
    have := congrArg (List.filterMap id) hm
    simpa [List.filterMap_map, Function.comp_def] using this
  have e2 : elems = ((List.range elems.length).map (fun k => k)).filterMap (fun p => elems[p]?) := by
    have hm : elems.map some = (List.range elems.length).map (fun p => elems[p]?) := by
      apply List.ext_getElem?
      intro k
      by_cases hk : k < elems.length
      · simp [hk]
      · rw [List.getElem?_eq_none (by simp; omega), List.getElem?_eq_none (by simp; omega)]
    have := congrArg (List.filterMap id) hm
    simpa [List.filterMap_map, Function.comp_def] using this
  rw [e1]
  conv => rhs; rw [e2]
  apply List.Perm.filterMap
  have := h.map Int.toNat
  rw [List.map_map] at this
  exact this

/-- C117: permuting with `p` and then with `q` is permuting with the index array that results from permuting `p` itself with `q`, which is
again a permutation. -/
theorem C117_compose {α : Type} (elems : List α) (p q : List Int) (hp : IsPermutation p elems.length) (hq : IsPermutation q elems.length) :
    ∃ r id₁ : List Int, applyPermutation ⟨p, q⟩ = (.done, ⟨r, id₁⟩) ∧ IsPermutation r elems.length ∧
      ∃ x₁ x₂ : List α, ∃ id₂ id₃ id₄ : List Int, applyPermutation ⟨elems, p⟩ = (.done, ⟨x₁, id₂⟩) ∧
        applyPermutation ⟨x₁, q⟩ = (.done, ⟨x₂, id₃⟩) ∧ applyPermutation ⟨elems, r⟩ = (.done, ⟨x₂, id₄⟩) := by
  have hpl := length_of_perm hp
  obtain ⟨r, hr, hrl, hrg⟩ := C20_apply_permutation p q (by rw [hpl]; exact hq)
  have hrp : IsPermutation r elems.length := (perm_rearranges p q (by rw [hpl]; exact hq) r hrl hrg).trans hp
  obtain ⟨x₁, h1, h1l, h1g⟩ := C20_apply_permutation elems p hp
  obtain ⟨x₂, h2, h2l, h2g⟩ := C20_apply_permutation x₁ q (by rw [h1l]; exact hq)
  obtain ⟨x₃, h3, h3l, h3g⟩ := C20_apply_permutation elems r hrp
  have : x₃ = x₂ := by
    apply List.ext_getElem?
    intro k
    by_cases hk : k < elems.length
    · obtain ⟨b, hb, hqb⟩ := get_of_perm hq k hk
      obtain ⟨a, ha, hpa⟩ := get_of_perm hp b hb
      have : r[k]? = some (a : Int) := by rw [hrg k b hqb, hpa]
      rw [h3g k a this, h2g k b hqb, h1g b a hpa]
    · rw [List.getElem?_eq_none (by omega), List.getElem?_eq_none (by omega)]
  subst this
  exact ⟨r, _, hr, hrp, x₁, x₃, _, _, _, h1, h2, h3⟩

/-- C117: permuting in reverse with `p` and then with `q` is permuting in reverse with the index array that results from permuting `q` with `p`. -/
theorem C117_compose_reverse {α : Type} (elems : List α) (p q : List Int) (hp : IsPermutation p elems.length)
    (hq : IsPermutation q elems.length) :
    ∃ r id₁ : List Int, applyPermutation ⟨q, p⟩ = (.done, ⟨r, id₁⟩) ∧ IsPermutation r elems.length ∧
      ∃ x₁ x₂ : List α, ∃ id₂ id₃ id₄ : List Int, applyReversePermutation ⟨elems, p⟩ = (.done, ⟨x₁, id₂⟩) ∧
        applyReversePermutation ⟨x₁, q⟩ = (.done, ⟨x₂, id₃⟩) ∧ applyReversePermutation ⟨elems, r⟩ = (.done, ⟨x₂, id₄⟩) := by
  have hql := length_of_perm hq
  obtain ⟨r, hr, hrl, hrg⟩ := C20_apply_permutation q p (by rw [hql]; exact hp)
  have hrp : IsPermutation r elems.length := (perm_rearranges q p (by rw [hql]; exact hp) r hrl hrg).trans hq
  obtain ⟨x₁, h1, h1l, h1g⟩ := C22_apply_reverse_permutation elems p hp
  obtain ⟨x₂, h2, h2l, h2g⟩ := C22_apply_reverse_permutation x₁ q (by rw [h1l]; exact hq)
  obtain ⟨x₃, h3, h3l, h3g⟩ := C22_apply_reverse_permutation elems r hrp
  have : x₃ = x₂ := by
    apply List.ext_getElem?
    intro k
    by_cases hk : k < elems.length
    · obtain ⟨i, hi, hri⟩ := (perm_get hrp).2 k hk
      obtain ⟨a, ha, hpa⟩ := get_of_perm hp i hi
      have hqa : q[a]? = some (k : Int) := by rw [← hrg i a hpa, hri]
      rw [h3g i k hri, h2g a k hqa, h1g i a hpa]
    · rw [List.getElem?_eq_none (by omega), List.getElem?_eq_none (by omega)]
  subst this
  exact ⟨r, _, hr, hrp, x₁, x₃, _, _, _, h1, h2, h3⟩

example : IsPermutation [1, 2, 0] [10, 11, 12].length ∧ IsPermutation [0, 2, 1] [10, 11, 12].length := by unfold IsPermutation; decide

/-- C117: permuting the sequence `0, 1, ..` yields the index array; permuting it in reverse yields the inverse permutation, with which
`apply_permutation` does what `apply_reverse_permutation` does with the original one, and the other way round. -/
theorem C117_inverse {α : Type} (elems : List α) (p : List Int) (hp : IsPermutation p elems.length) :
    (∃ id₁ : List Int, applyPermutation ⟨(List.range elems.length).map Int.ofNat, p⟩ = (.done, ⟨p, id₁⟩)) ∧
    ∃ inv id₂ : List Int, applyReversePermutation ⟨(List.range elems.length).map Int.ofNat, p⟩ = (.done, ⟨inv, id₂⟩) ∧
      IsPermutation inv elems.length ∧ (∀ i k : Nat, p[i]? = some (k : Int) ↔ inv[k]? = some (i : Int)) ∧
      (∃ x : List α, ∃ id₃ id₄, applyReversePermutation ⟨elems, p⟩ = (.done, ⟨x, id₃⟩) ∧ applyPermutation ⟨elems, inv⟩ = (.done, ⟨x, id₄⟩)) ∧
      (∃ x : List α, ∃ id₃ id₄, applyPermutation ⟨elems, p⟩ = (.done, ⟨x, id₃⟩) ∧ applyReversePermutation ⟨elems, inv⟩ = (.done, ⟨x, id₄⟩)) := by
  have hpl := length_of_perm hp
  have hil : ((List.range elems.length).map Int.ofNat).length = elems.length := by simp
  have hiota : ∀ k : Nat, k < elems.length → ((List.range elems.length).map Int.ofNat)[k]? = some (k : Int) := by
    intro k hk; simp [hk]
  obtain ⟨e, he, hel, heg⟩ := C20_apply_permutation ((List.range elems.length).map Int.ofNat) p (by rw [hil]; exact hp)
  have hep : e = p := by
    apply List.ext_getElem?
    intro k
    by_cases hk : k < elems.length
    · obtain ⟨a, ha, hpa⟩ := get_of_perm hp k hk
      rw [heg k a hpa, hiota a ha, hpa]
    · rw [List.getElem?_eq_none (by omega), List.getElem?_eq_none (by omega)]
  subst hep
  refine ⟨⟨_, he⟩, ?_⟩
  obtain ⟨inv, hi, hvl, hvg⟩ := C22_apply_reverse_permutation ((List.range elems.length).map Int.ofNat) e (by rw [hil]; exact hp)
  have fwd : ∀ i k : Nat, e[i]? = some (k : Int) → inv[k]? = some (i : Int) := by
    intro i k h
    have : i < elems.length := by
      by_contra hc; rw [List.getElem?_eq_none (by omega)] at h; simp at h
    rw [hvg i k h, hiota i this]
  have bwd : ∀ i k : Nat, inv[k]? = some (i : Int) → e[i]? = some (k : Int) := by
    intro i k h
    have hk : k < elems.length := by
      by_contra hc; rw [List.getElem?_eq_none (by omega)] at h; simp at h
    obtain ⟨j, hj, hej⟩ := (perm_get hp).2 k hk
    have := fwd j k hej
    rw [h] at this
    simp only [Option.some.injEq, Int.natCast_inj] at this
    subst this; exact hej
  have hinv : IsPermutation inv elems.length := by
    unfold IsPermutation
    rw [List.perm_ext_iff_of_nodup]
    · intro x
      constructor
      · intro hx
        obtain ⟨k, hk⟩ := List.getElem?_of_mem hx
        have hkl : k < elems.length := by
          by_contra hc; rw [List.getElem?_eq_none (by omega)] at hk; simp at hk
        obtain ⟨j, hj, hej⟩ := (perm_get hp).2 k hkl
        rw [fwd j k hej, Option.some.injEq] at hk
        subst hk
        exact List.mem_map.mpr ⟨j, List.mem_range.mpr hj, rfl⟩
      · intro hx
        simp only [List.mem_map, List.mem_range] at hx
        obtain ⟨i, hi, rfl⟩ := hx
        obtain ⟨k, hk, hek⟩ := get_of_perm hp i hi
        exact List.mem_of_getElem? (fwd i k hek)
    · rw [List.nodup_iff_injective_getElem]
      intro a b hab
      obtain ⟨a, ha⟩ := a
      obtain ⟨b, hb⟩ := b
      simp only at hab
      rw [hvl, hil] at ha hb
      obtain ⟨j, hj, hej⟩ := (perm_get hp).2 a ha
      obtain ⟨j', hj', hej'⟩ := (perm_get hp).2 b hb
      have h1 := fwd j a hej
      have h2 := fwd j' b hej'
      rw [List.getElem?_eq_getElem (by omega), Option.some.injEq] at h1 h2
      rw [h1, h2] at hab
      have : j = j' := by omega
      subst this
      rw [hej, Option.some.injEq] at hej'
      simp only [Fin.mk.injEq]
      omega
    · exact List.Nodup.map (fun a b h => Int.ofNat.inj h) List.nodup_range
  refine ⟨inv, _, hi, hinv, fun i k => ⟨fwd i k, bwd i k⟩, ?_, ?_⟩
  · obtain ⟨x, h1, h1l, h1g⟩ := C22_apply_reverse_permutation elems e hp
    obtain ⟨y, h2, h2l, h2g⟩ := C20_apply_permutation elems inv hinv
    have : y = x := by
      apply List.ext_getElem?
      intro k
      by_cases hk : k < elems.length
      · obtain ⟨j, hj, hej⟩ := (perm_get hp).2 k hk
        rw [h1g j k hej, h2g k j (fwd j k hej)]
      · rw [List.getElem?_eq_none (by omega), List.getElem?_eq_none (by omega)]
    subst this
    exact ⟨y, _, _, h1, h2⟩
  · obtain ⟨x, h1, h1l, h1g⟩ := C20_apply_permutation elems e hp
    obtain ⟨y, h2, h2l, h2g⟩ := C22_apply_reverse_permutation elems inv hinv
    have : y = x := by
      apply List.ext_getElem?
      intro k
      by_cases hk : k < elems.length
      · obtain ⟨a, ha, hea⟩ := get_of_perm hp k hk
        rw [h1g k a hea, h2g a k (fwd k a hea)]
      · rw [List.getElem?_eq_none (by omega), List.getElem?_eq_none (by omega)]
    subst this
    exact ⟨y, _, _, h1, h2⟩

example : IsPermutation [2, 0, 1] [(7, true), (8, false), (9, true)].length := by unfold IsPermutation; decide

end Makeshift.Props
