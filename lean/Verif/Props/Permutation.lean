import Verif.Lemmas.Permutation

/-!
# Permutation algorithms and shuffle: C20 - C25

`indices` describes a permutation of `0 .. n-1` iff it is a rearrangement of the list `0, 1, .., n-1`.
Both functions are total in the model, on every input: the termination proofs are part of their definitions.
-/

namespace Makeshift.Props

/-- `idx` is a rearrangement of `0, 1, .., n-1`. -/
def IsPermutation (idx : List Int) (n : Nat) : Prop := idx.Perm ((List.range n).map Int.ofNat)

/-! ## C20 -/

/-- C20: given a permutation, `apply_permutation` ends normally, element `i` of the result is the old element
`indices[i]`, and the index array holds the identity afterwards. -/
theorem C20_apply_permutation {α : Type} (elems : List α) (idx : List Int) (h : IsPermutation idx elems.length) :
    ∃ elems', applyPermutation ⟨elems, idx⟩ = (.done, ⟨elems', (List.range elems.length).map Int.ofNat⟩) ∧
      elems'.length = elems.length ∧
      ∀ i p : Nat, idx[i]? = some (p : Int) → elems'[i]? = elems[p]? := by
  have hl : idx.length = elems.length := by simpa using h.length_eq
  obtain ⟨h1, h2, h3, h4⟩ := applyPermOuter_spec elems.length elems.length 0 ⟨elems, idx⟩ (by omega) rfl hl (by simp)
  obtain ⟨t1, t2⟩ := applyPermOuter_target elems.length elems.length 0 ⟨elems, idx⟩
    (fun k => (idx[k]?).bind (fun x => elems[x.toNat]?)) (by omega) rfl hl h (by intro k x hk; simp at hk; simp [hk])
  have hid := (h4 t1).2
  refine ⟨(applyPermutation ⟨elems, idx⟩).2.elems, Prod.ext t1 ?_, h2.length_eq, ?_⟩
  · change _ = identity _ at hid
    show (applyPermOuter _ _ _ _).2 = _
    conv => lhs; rw [show (applyPermOuter elems.length elems.length 0 ⟨elems, idx⟩).2 =
      ⟨(applyPermOuter elems.length elems.length 0 ⟨elems, idx⟩).2.elems,
       (applyPermOuter elems.length elems.length 0 ⟨elems, idx⟩).2.idx⟩ from rfl, hid]
    rfl
  · intro i p hp
    have hi : i < elems.length := by
      by_contra hc; rw [List.getElem?_eq_none (by omega)] at hp; simp at hp
    have := t2 i i (by rw [hid]; exact identity_get hi)
    simp [hp] at this
    exact this.symm

example : IsPermutation [2, 0, 1, 4, 3] [10, 11, 12, 13, 14].length := by unfold IsPermutation; decide

/-! ## C21 -/

/-- C21: `apply_permutation` succeeds exactly on permutations; on anything else it fails fast. It never accesses memory
out of bounds, and in every case, including failure, the elements are only rearranged. -/
theorem C21_apply_permutation_rejects {α : Type} (elems : List α) (idx : List Int) (hl : idx.length = elems.length) :
    ((applyPermutation ⟨elems, idx⟩).1 = .done ↔ IsPermutation idx elems.length) ∧
    ((applyPermutation ⟨elems, idx⟩).1 = .failFast ↔ ¬ IsPermutation idx elems.length) ∧
    (applyPermutation ⟨elems, idx⟩).1 ≠ .ub ∧
    (applyPermutation ⟨elems, idx⟩).2.elems.Perm elems := by
  obtain ⟨h1, h2, h3, h4⟩ := applyPermOuter_spec elems.length elems.length 0 ⟨elems, idx⟩ (by omega) rfl hl (by simp)
  have hiff : (applyPermutation ⟨elems, idx⟩).1 = .done ↔ IsPermutation idx elems.length := by
    constructor
    · intro hd
      obtain ⟨q1, q2⟩ := h4 hd
      rw [q2] at q1; exact q1
    · intro hp
      obtain ⟨e, he, -⟩ := C20_apply_permutation elems idx hp
      rw [he]
  refine ⟨hiff, ?_, h1, h2⟩
  rw [← hiff]
  have h1' : (applyPermutation ⟨elems, idx⟩).1 ≠ .ub := h1
  cases hr : (applyPermutation ⟨elems, idx⟩).1 <;> simp_all

example : ([1, 2, 1] : List Int).length = [10, 11, 12].length ∧ ¬ IsPermutation [1, 2, 1] [10, 11, 12].length := by
  unfold IsPermutation; decide

/-- C21: the length requirement matters: with too few indices the code reads past the end of the index range. -/
theorem C21_too_few_indices_is_ub : (applyPermutation ⟨[10, 11], [0]⟩ : PermEnd × PermState Nat).1 = .ub := by
  have h0 : applyPermInner 2 0 0 (⟨[10, 11], [0]⟩ : PermState Nat) = (.done, ⟨[10, 11], [0]⟩) := by
    rw [applyPermInner]; rfl
  have h1 : applyPermInner 2 1 1 (⟨[10, 11], [0]⟩ : PermState Nat) = (.ub, ⟨[10, 11], [0]⟩) := by
    rw [applyPermInner]; rfl
  unfold applyPermutation
  show (applyPermOuter 2 2 0 _).1 = _
  unfold applyPermOuter
  rw [h0]
  simp only
  unfold applyPermOuter
  rw [h1]

/-! ## C22 -/

/-- C22: given a permutation, `apply_reverse_permutation` ends normally, moves the old element `i` to position
`indices[i]`, and leaves the identity in the index array. -/
theorem C22_apply_reverse_permutation {α : Type} (elems : List α) (idx : List Int) (h : IsPermutation idx elems.length) :
    ∃ elems', applyReversePermutation ⟨elems, idx⟩ = (.done, ⟨elems', (List.range elems.length).map Int.ofNat⟩) ∧
      elems'.length = elems.length ∧
      ∀ i p : Nat, idx[i]? = some (p : Int) → elems'[p]? = elems[i]? := by
  have hl : idx.length = elems.length := by simpa using h.length_eq
  obtain ⟨h1, h2, h3, h4, h5, h6⟩ :=
    applyRevOuter_spec elems.length elems.length 0 ⟨elems, idx⟩ (by omega) rfl hl (by simp)
  have hd := h5 (h.nodup_iff.mpr (identity_nodup _)) (fun x hx => mem_identity.mp (h.mem_iff.mp hx))
  have hid := h6 hd
  refine ⟨(applyReversePermutation ⟨elems, idx⟩).2.elems, Prod.ext hd ?_, h3, ?_⟩
  · show (applyRevOuter _ _ _ _).2 = _
    conv => lhs; rw [show (applyRevOuter elems.length elems.length 0 ⟨elems, idx⟩).2 =
      ⟨(applyRevOuter elems.length elems.length 0 ⟨elems, idx⟩).2.elems,
       (applyRevOuter elems.length elems.length 0 ⟨elems, idx⟩).2.idx⟩ from rfl, hid]
    rfl
  · intro i p hp
    have hi : i < elems.length := by
      by_contra hc; rw [List.getElem?_eq_none (by omega)] at hp; simp at hp
    have hm : (elems[i], (p : Int)) ∈ elems.zip idx :=
      List.mem_of_getElem? (i := i) (by simp [List.getElem?_zip_eq_some, hp, hi])
    have hm' := h2.mem_iff.mpr hm
    rw [hid] at hm'
    obtain ⟨j, hj⟩ := List.getElem?_of_mem hm'
    rw [List.getElem?_zip_eq_some] at hj
    obtain ⟨hj1, hj2⟩ := hj
    have hjl : j < elems.length := by
      by_contra hc; rw [List.getElem?_eq_none (by rw [identity_length]; omega)] at hj2; simp at hj2
    rw [identity_get hjl] at hj2
    simp only [Option.some.injEq] at hj2
    have : j = p := by omega
    subst this
    rw [List.getElem?_eq_getElem hi]
    exact hj1

example : IsPermutation [3, 1, 0, 2] [10, 11, 12, 13].length := by unfold IsPermutation; decide

/-! ## C23 -/

/-- C23: `apply_reverse_permutation` succeeds exactly on permutations and fails fast otherwise, without out-of-bounds
access and having only rearranged elements. -/
theorem C23_apply_reverse_permutation_rejects {α : Type} (elems : List α) (idx : List Int)
    (hl : idx.length = elems.length) :
    ((applyReversePermutation ⟨elems, idx⟩).1 = .done ↔ IsPermutation idx elems.length) ∧
    ((applyReversePermutation ⟨elems, idx⟩).1 = .failFast ↔ ¬ IsPermutation idx elems.length) ∧
    (applyReversePermutation ⟨elems, idx⟩).1 ≠ .ub ∧
    (applyReversePermutation ⟨elems, idx⟩).2.elems.Perm elems ∧
    (applyReversePermutation ⟨elems, idx⟩).2.idx.Perm idx := by
  obtain ⟨h1, h2, h3, h4, h5, h6⟩ :=
    applyRevOuter_spec elems.length elems.length 0 ⟨elems, idx⟩ (by omega) rfl hl (by simp)
  have hidx : (applyReversePermutation ⟨elems, idx⟩).2.idx.Perm idx := by
    have := h2.map Prod.snd
    rwa [List.map_snd_zip (by omega), List.map_snd_zip (by simp [hl])] at this
  have hel : (applyReversePermutation ⟨elems, idx⟩).2.elems.Perm elems := by
    have := h2.map Prod.fst
    rwa [List.map_fst_zip (by omega), List.map_fst_zip (by simp [hl])] at this
  have hiff : (applyReversePermutation ⟨elems, idx⟩).1 = .done ↔ IsPermutation idx elems.length := by
    constructor
    · intro hd
      have := h6 hd
      have hidx' := hidx
      unfold applyReversePermutation at hidx'
      rw [this] at hidx'; exact hidx'.symm
    · intro hp
      obtain ⟨e, he, -⟩ := C22_apply_reverse_permutation elems idx hp
      rw [he]
  refine ⟨hiff, ?_, h1, hel, hidx⟩
  rw [← hiff]
  have h1' : (applyReversePermutation ⟨elems, idx⟩).1 ≠ .ub := h1
  cases hr : (applyReversePermutation ⟨elems, idx⟩).1 <;> simp_all

example : ([0, -1, 5] : List Int).length = [10, 11, 12].length ∧ ¬ IsPermutation [0, -1, 5] [10, 11, 12].length := by
  unfold IsPermutation; decide

/-! ## C24 -/

theorem perm_get {idx : List Int} {n : Nat} (h : IsPermutation idx n) :
    (∀ i < n, ∃ p : Nat, p < n ∧ idx[i]? = some (p : Int)) ∧ (∀ p < n, ∃ i : Nat, i < n ∧ idx[i]? = some (p : Int)) := by
  have hl : idx.length = n := by simpa using h.length_eq
  constructor
  · intro i hi
    have hil : i < idx.length := by omega
    have := mem_identity.mp (h.mem_iff.mp (List.getElem_mem hil))
    exact ⟨idx[i].toNat, by omega, by rw [List.getElem?_eq_getElem hil]; congr 1; omega⟩
  · intro p hp
    have : (p : Int) ∈ idx := h.mem_iff.mpr (mem_identity.mpr (by omega))
    obtain ⟨i, hi⟩ := List.getElem?_of_mem this
    refine ⟨i, ?_, hi⟩
    by_contra hc; rw [List.getElem?_eq_none (by omega)] at hi; simp at hi

/-- C24: the two algorithms, given copies of the same permutation, undo each other in either order. -/
theorem C24_cancel {α : Type} (elems : List α) (idx : List Int) (h : IsPermutation idx elems.length) :
    (applyReversePermutation ⟨(applyPermutation ⟨elems, idx⟩).2.elems, idx⟩).2.elems = elems ∧
    (applyPermutation ⟨(applyReversePermutation ⟨elems, idx⟩).2.elems, idx⟩).2.elems = elems := by
  obtain ⟨hg1, hg2⟩ := perm_get h
  constructor
  · obtain ⟨e, he, hlen, hget⟩ := C20_apply_permutation elems idx h
    obtain ⟨e', he', hlen', hget'⟩ := C22_apply_reverse_permutation e idx (by rw [hlen]; exact h)
    rw [he]; simp only; rw [he']; simp only
    apply List.ext_getElem?
    intro k
    by_cases hk : k < elems.length
    · obtain ⟨i, -, hip⟩ := hg2 k hk
      rw [hget' i k hip, hget i k hip]
    · rw [List.getElem?_eq_none (by omega), List.getElem?_eq_none (by omega)]
  · obtain ⟨e, he, hlen, hget⟩ := C22_apply_reverse_permutation elems idx h
    obtain ⟨e', he', hlen', hget'⟩ := C20_apply_permutation e idx (by rw [hlen]; exact h)
    rw [he]; simp only; rw [he']; simp only
    apply List.ext_getElem?
    intro k
    by_cases hk : k < elems.length
    · obtain ⟨p, -, hp⟩ := hg1 k hk
      rw [hget' k p hp, hget k p hp]
    · rw [List.getElem?_eq_none (by omega), List.getElem?_eq_none (by omega)]

example : IsPermutation [1, 2, 0] [10, 10, 12].length := by unfold IsPermutation; decide

/-! ## C25 -/

/-- The draws stay within the requested bounds: the value drawn for the range `[0, i]` is at most `i`. -/
def ValidDraws (n : Nat) (draw : Nat → Nat) : Prop := ∀ i, 1 ≤ i → i < n → draw i ≤ i

/-- C25: with valid draws, `shuffle` stays in bounds and rearranges the range. -/
theorem C25_shuffle_permutes {α : Type} (l : List α) (draw : Nat → Nat) (h : ValidDraws l.length draw) :
    ∃ l', shuffle draw l = some l' ∧ l'.Perm l := by
  obtain ⟨l', h1, h2, -⟩ := shuffleLoop_ok draw (l.length - 1) l (by omega) (fun k h1 h2 => h k h1 (by omega))
  exact ⟨l', h1, h2⟩

/-- C25: the result depends on nothing but one draw for each bound `1, .., n-1`. -/
theorem C25_shuffle_draws_used {α : Type} (l : List α) (d d' : Nat → Nat)
    (h : ∀ i, 1 ≤ i → i < l.length → d i = d' i) : shuffle d l = shuffle d' l :=
  shuffleLoop_congr d d' _ l (fun k h1 h2 => h k h1 (by omega))

theorem shuffleLoop_inj {α : Type} (i : Nat) (l : List α) (hn : l.Nodup) (hi : i < l.length ∨ i = 0) (d d' : Nat → Nat)
    (hd : ∀ k, 1 ≤ k → k ≤ i → d k ≤ k) (hd' : ∀ k, 1 ≤ k → k ≤ i → d' k ≤ k)
    (h : shuffleLoop d i l = shuffleLoop d' i l) : ∀ k, 1 ≤ k → k ≤ i → d k = d' k := by
  induction i generalizing l with
  | zero => intro k h1 h2; omega
  | succ i ih =>
    have hil : i + 1 < l.length := by omega
    have b1 := hd (i + 1) (by omega) (by omega)
    have b2 := hd' (i + 1) (by omega) (by omega)
    rw [shuffleLoop_succ d i l hil, shuffleLoop_succ d' i l hil] at h
    obtain ⟨l1, h1⟩ := swapAt_isSome l hil (b := d (i + 1)) (by omega)
    obtain ⟨l2, h2⟩ := swapAt_isSome l hil (b := d' (i + 1)) (by omega)
    rw [h1, h2] at h
    simp only [Option.bind_some] at h
    have n1 := swapAt_length h1
    have n2 := swapAt_length h2
    obtain ⟨r1, e1, -, g1⟩ := shuffleLoop_ok d i l1 (by omega) (fun k a b => hd k a (by omega))
    obtain ⟨r2, e2, -, g2⟩ := shuffleLoop_ok d' i l2 (by omega) (fun k a b => hd' k a (by omega))
    have hr : r1 = r2 := by rw [e1, e2] at h; simpa using h
    have q1 := g1 (i + 1) (by omega)
    have q2 := g2 (i + 1) (by omega)
    rw [swapAt_get h1] at q1
    rw [swapAt_get h2] at q2
    simp only [if_true] at q1 q2
    have hj : d (i + 1) = d' (i + 1) := by
      have : l[d (i + 1)]? = l[d' (i + 1)]? := by rw [← q1, ← q2, hr]
      rw [List.getElem?_eq_getElem (by omega), List.getElem?_eq_getElem (by omega), Option.some.injEq] at this
      exact (List.Nodup.getElem_inj_iff hn).mp this
    have hl12 : l1 = l2 := by rw [hj, h2] at h1; simpa using h1.symm
    subst hl12
    have := ih l1 ((swapAt_perm h1).nodup_iff.mpr hn) (by omega) (fun k a b => hd k a (by omega))
      (fun k a b => hd' k a (by omega)) h
    intro k a b
    by_cases hk : k = i + 1
    · subst hk; exact hj
    · exact this k a (by omega)

/-- C25: different draws give different arrangements of distinct elements. -/
theorem C25_shuffle_injective {α : Type} (l : List α) (hn : l.Nodup) (d d' : Nat → Nat)
    (hd : ValidDraws l.length d) (hd' : ValidDraws l.length d') (h : shuffle d l = shuffle d' l) :
    ∀ i, 1 ≤ i → i < l.length → d i = d' i := by
  intro i h1 h2
  exact shuffleLoop_inj (l.length - 1) l hn (by omega) d d' (fun k a b => hd k a (by omega))
    (fun k a b => hd' k a (by omega)) h i h1 (by omega)

theorem shuffleLoop_surj {α : Type} (i : Nat) (a a' c : List α) (ha : a.length = i + 1) (hp : a'.Perm a) :
    ∃ d : Nat → Nat, (∀ k, 1 ≤ k → k ≤ i → d k ≤ k) ∧ shuffleLoop d i (a ++ c) = some (a' ++ c) := by
  induction i generalizing a a' c with
  | zero =>
    obtain ⟨x, rfl⟩ := List.length_eq_one_iff.mp ha
    rw [List.perm_singleton.mp hp]
    exact ⟨fun _ => 0, fun _ _ _ => by omega, rfl⟩
  | succ i ih =>
    have hla' : a'.length = i + 2 := hp.length_eq.trans ha
    have hne : a' ≠ [] := by intro h; rw [h] at hla'; simp at hla'
    obtain ⟨b', x, rfl⟩ : ∃ b' x, a' = b' ++ [x] := ⟨a'.dropLast, a'.getLast hne, (List.dropLast_append_getLast hne).symm⟩
    have hx : x ∈ a := hp.mem_iff.mp (by simp)
    obtain ⟨j, hj⟩ := List.getElem?_of_mem hx
    have hjl : j < a.length := by
      by_contra hc; rw [List.getElem?_eq_none (by omega)] at hj; simp at hj
    obtain ⟨a1, h1⟩ := swapAt_isSome a (a := i + 1) (b := j) (by omega) hjl
    have hl1 := swapAt_length h1
    have h1x : a1[i + 1]? = some x := by rw [swapAt_get h1]; simpa using hj
    have hsplit : a1 = a1.take (i + 1) ++ [x] := by
      have hlt : i + 1 < a1.length := by omega
      have e1 : a1[i + 1] = x := by
        rw [List.getElem?_eq_getElem hlt] at h1x; simpa using h1x
      have := List.take_append_drop (i + 1) a1
      rw [List.drop_eq_getElem_cons hlt, e1, List.drop_of_length_le (by omega)] at this
      exact this.symm
    have hswap : swapAt (a ++ c) (i + 1) j = some (a1 ++ c) := by
      obtain ⟨u, v, hu, hv, rfl⟩ := swapAt_some h1
      unfold swapAt
      rw [List.getElem?_append_left (by omega), List.getElem?_append_left hjl, hu, hv]
      simp only
      rw [List.set_append_left _ _ (by omega), List.set_append_left _ _ (by simpa using hjl)]
    have hperm : b'.Perm (a1.take (i + 1)) := by
      have := hp.trans (swapAt_perm h1).symm
      rw [hsplit] at this
      exact (List.perm_append_right_iff [x]).mp this
    obtain ⟨d, hd, he⟩ := ih (a1.take (i + 1)) b' (x :: c) (by simp; omega) hperm
    refine ⟨fun k => if k = i + 1 then j else d k, ?_, ?_⟩
    · intro k h1 h2
      by_cases hk : k = i + 1
      · subst hk; simp; omega
      · simp only [hk, if_false]; exact hd k h1 (by omega)
    · rw [shuffleLoop_succ _ _ _ (by simp; omega)]
      simp only [if_true]
      rw [hswap]
      simp only [Option.bind_some]
      rw [shuffleLoop_congr _ d i _ (fun k h1 h2 => by simp [show k ≠ i + 1 by omega])]
      rw [hsplit, List.append_assoc, List.append_assoc]
      exact he

/-- C25: every arrangement is reached. Together with injectivity: the valid draw sequences (one value in `[0, i]` for
each `i` in `1 .. n-1`) correspond one-to-one to the arrangements of `n` distinct elements. -/
theorem C25_shuffle_surjective {α : Type} (l l' : List α) (h : l'.Perm l) :
    ∃ draw, ValidDraws l.length draw ∧ shuffle draw l = some l' := by
  cases l with
  | nil =>
    rw [List.perm_nil.mp h]
    exact ⟨fun _ => 0, fun i h1 h2 => Nat.zero_le _, rfl⟩
  | cons x xs =>
    obtain ⟨d, hd, he⟩ := shuffleLoop_surj xs.length (x :: xs) l' [] (by simp) h
    refine ⟨d, fun i h1 h2 => hd i h1 (by simp at h2; omega), ?_⟩
    simpa [shuffle] using he

example : ValidDraws [1, 2, 3, 4].length (fun i => i / 2) := fun i _ _ => Nat.div_le_self i 2
example : [1, 2, 3].Nodup ∧ [3, 1, 2].Perm [1, 2, 3] := by decide

end Makeshift.Props
