import Verif.Spec.Sizes
import Mathlib.Data.List.Basic

/-! Helper lemmas for `merge_sizes`. -/

namespace Makeshift

open Spec

/-- What a successful merge of `l` yields. -/
structure Summary (l : List Size) (z : Size) : Prop where
  isSize : IsSize z
  all : ∀ s ∈ l, ∀ n, known s = some n → known z = some n
  some : ∀ n, known z = some n → ∃ s ∈ l, known s = some n
  kind : staticKnown z ↔ ∃ s ∈ l, staticKnown s
  none : known z = none → z = .static (-1)

theorem Summary.consistent {l : List Size} {z : Size} (h : Summary l z) : Consistent l := by
  intro s hs t ht n m hn hm
  have := h.all s hs n hn
  rw [h.all t ht m hm] at this
  exact (Option.some.inj this).symm

theorem summary_single (s : Size) (hs : IsSize s) : Summary [s] s where
  isSize := hs
  all := by simp
  some := by simp
  kind := by simp
  none := by
    intro h
    cases s with
    | static n => simp only [known] at h; split at h <;> simp_all
    | dyn n => simp [known] at h

theorem merge0_spec (s t : Size) (hs : IsSize s) (ht : IsSize t) :
    (∃ z, mergeSizes0 s t = .ok z ∧ Summary [s, t] z) ∨
    ((∀ z, mergeSizes0 s t ≠ .ok z) ∧ ∃ n m, known s = some n ∧ known t = some m ∧ n ≠ m) := by
  cases s with
  | static a =>
    cases t with
    | static b =>
      simp only [mergeSizes0, unknownSize]
      by_cases h : a = -1 ∨ b = -1 ∨ a = b
      · left
        rw [if_pos h]
        refine ⟨_, rfl, ⟨?_, ?_, ?_, ?_, ?_⟩⟩
        · simp only [IsSize] at *; split <;> assumption
        · intro s hs n hn
          simp only [List.mem_cons, List.not_mem_nil, or_false] at hs
          rcases hs with rfl | rfl <;> simp only [known] at hn ⊢ <;> grind
        · intro n hn
          by_cases ha : a = -1
          · exact ⟨.static b, by simp, by simpa [ha] using hn⟩
          · exact ⟨.static a, by simp, by simpa [ha] using hn⟩
        · simp only [staticKnown]
          constructor
          · intro hk
            by_cases ha : a = -1
            · exact ⟨.static b, by simp, by simpa [ha] using hk⟩
            · exact ⟨.static a, by simp, ha⟩
          · rintro ⟨s, hs, hk⟩
            simp only [List.mem_cons, List.not_mem_nil, or_false] at hs
            rcases hs with rfl | rfl <;> grind
        · intro hk; simp only [known] at hk; grind
      · right
        rw [if_neg h]
        refine ⟨by simp, a, b, by simp [known]; omega, by simp [known]; omega, by omega⟩
    | dyn b =>
      simp only [mergeSizes0, unknownSize, IsSize] at *
      by_cases ha : a = -1
      · left
        rw [if_pos ha]
        refine ⟨_, rfl, ⟨ht, ?_, ?_, ?_, ?_⟩⟩ <;> simp [known, staticKnown, ha]
      · rw [if_neg ha]
        by_cases hb : b = a ∨ b = -1
        · left
          rw [if_pos hb]
          have : b = a := by omega
          subst this
          refine ⟨_, rfl, ⟨hs, ?_, ?_, ?_, ?_⟩⟩ <;> simp [known, staticKnown, ha]
        · right
          rw [if_neg hb]
          exact ⟨by simp, a, b, by simp [known, ha], by simp [known], by omega⟩
  | dyn a =>
    cases t with
    | static b =>
      simp only [mergeSizes0, unknownSize, IsSize] at *
      by_cases ha : b = -1
      · left
        rw [if_pos ha]
        refine ⟨_, rfl, ⟨hs, ?_, ?_, ?_, ?_⟩⟩ <;> simp [known, staticKnown, ha]
      · rw [if_neg ha]
        by_cases hb : a = b ∨ a = -1
        · left
          rw [if_pos hb]
          have : a = b := by omega
          subst this
          refine ⟨_, rfl, ⟨ht, ?_, ?_, ?_, ?_⟩⟩ <;> simp [known, staticKnown, ha]
        · right
          rw [if_neg hb]
          exact ⟨by simp, a, b, by simp [known], by simp [known, ha], by omega⟩
    | dyn b =>
      simp only [mergeSizes0, unknownSize, IsSize] at *
      rw [if_neg (by omega)]
      by_cases hb : a = b
      · left
        subst hb
        rw [if_pos rfl]
        refine ⟨_, rfl, ⟨hs, ?_, ?_, ?_, ?_⟩⟩ <;> simp [known, staticKnown]
      · right
        rw [if_neg hb]
        exact ⟨by simp, a, b, by simp [known], by simp [known], hb⟩

/-- Replacing the members of `a` by their summary. -/
theorem Summary.trans {a b l : List Size} {z w : Size} (h1 : Summary a z) (h2 : Summary b w)
    (hzb : z ∈ b) (hab : ∀ s ∈ l, s ∈ a ∨ s ∈ b) (hal : ∀ s ∈ a, s ∈ l) (hbl : ∀ s ∈ b, s = z ∨ s ∈ l) :
    Summary l w where
  isSize := h2.isSize
  all := by
    intro s hs n hn
    rcases hab s hs with h | h
    · exact h2.all z hzb n (h1.all s h n hn)
    · exact h2.all s h n hn
  some := by
    intro n hn
    obtain ⟨s, hs, hk⟩ := h2.some n hn
    rcases hbl s hs with rfl | h
    · obtain ⟨t, ht, hk'⟩ := h1.some n hk
      exact ⟨t, hal t ht, hk'⟩
    · exact ⟨s, h, hk⟩
  kind := by
    rw [h2.kind]
    constructor
    · rintro ⟨s, hs, hk⟩
      rcases hbl s hs with rfl | h
      · obtain ⟨t, ht, hk'⟩ := h1.kind.mp hk
        exact ⟨t, hal t ht, hk'⟩
      · exact ⟨s, h, hk⟩
    · rintro ⟨s, hs, hk⟩
      rcases hab s hs with h | h
      · exact ⟨z, hzb, h1.kind.mpr ⟨s, h, hk⟩⟩
      · exact ⟨s, h, hk⟩
  none := h2.none

/-- Inconsistency carries over from the summarised list. -/
theorem inconsistent_trans {a b l : List Size} {z : Size} (h1 : Summary a z) (hal : ∀ s ∈ a, s ∈ l)
    (hbl : ∀ s ∈ b, s = z ∨ s ∈ l) (h : ¬ Consistent b) : ¬ Consistent l := by
  intro hc
  apply h
  have lift : ∀ s ∈ b, ∀ n, known s = some n → ∃ t ∈ l, known t = some n := by
    intro s hs n hn
    rcases hbl s hs with rfl | h
    · obtain ⟨t, ht, hk⟩ := h1.some n hn; exact ⟨t, hal t ht, hk⟩
    · exact ⟨s, h, hn⟩
  intro s hs t ht n m hn hm
  obtain ⟨s', hs', hn'⟩ := lift s hs n hn
  obtain ⟨t', ht', hm'⟩ := lift t ht m hm
  exact hc s' hs' t' ht' n m hn' hm'

theorem mergeSizes_spec (l : List Size) (hl : ∀ s ∈ l, IsSize s) :
    (∃ z, mergeSizes l = .ok z ∧ Summary l z) ∨ ((∀ z, mergeSizes l ≠ .ok z) ∧ ¬ Consistent l) := by
  induction hm : l.length using Nat.strongRecOn generalizing l with
  | _ m ih =>
  -- merging the rest first, then one more
  have rest_first : ∀ (x y : Size) (rest : List Size), (∀ s ∈ rest ++ [y], s ∈ l) → x ∈ l →
      (∀ s ∈ l, s = x ∨ s ∈ rest ++ [y]) → (rest ++ [y]).length < m → ∀ g : Size → MergeResult,
      (∀ s, IsSize s → (∃ z, g s = .ok z ∧ Summary [x, s] z) ∨
        ((∀ z, g s ≠ .ok z) ∧ ∃ n m, known x = some n ∧ known s = some m ∧ n ≠ m)) →
      (∃ z, (mergeSizes (rest ++ [y])).bind g = .ok z ∧ Summary l z) ∨
      ((∀ z, (mergeSizes (rest ++ [y])).bind g ≠ .ok z) ∧ ¬ Consistent l) := by
    intro x y rest hsub hx hsup hlen g hg
    rcases ih _ hlen (rest ++ [y]) (fun s hs => hl s (hsub s hs)) rfl with ⟨w, hw, hsum⟩ | ⟨hno, hinc⟩
    · rw [hw]
      simp only [MergeResult.bind]
      rcases hg w hsum.isSize with ⟨z, hz, hs2⟩ | ⟨hno, n, m', hn, hm', hne⟩
      · left
        refine ⟨z, hz, hsum.trans hs2 (by simp) ?_ hsub ?_⟩
        · intro s hs
          rcases hsup s hs with rfl | h
          · right; simp
          · left; exact h
        · intro s hs
          simp only [List.mem_cons, List.not_mem_nil, or_false] at hs
          rcases hs with rfl | rfl
          · right; exact hx
          · left; rfl
      · right
        refine ⟨hno, fun hc => ?_⟩
        obtain ⟨t, ht, hk⟩ := hsum.some m' hm'
        exact hne (hc x hx t (hsub t ht) n m' hn hk)
    · right
      constructor
      · intro z
        cases hr : mergeSizes (rest ++ [y]) with
        | ok w => exact absurd hr (hno w)
        | staticMismatch => simp [MergeResult.bind]
        | failFast => simp [MergeResult.bind]
      · intro hc
        exact hinc (fun s hs t ht n m' hn hm' => hc s (hsub s hs) t (hsub t ht) n m' hn hm')
  match l, hl, rest_first with
  | [], _, _ =>
    left
    refine ⟨.static (-1), by rw [mergeSizes], ⟨by simp [IsSize], by simp, by simp [known], by simp [staticKnown], by simp⟩⟩
  | [s], hl, _ => left; exact ⟨s, by rw [mergeSizes], summary_single s (hl s (by simp))⟩
  | .static n1 :: .static n2 :: rest, hl, _ =>
    rw [mergeSizes]
    rcases merge0_spec (.static n1) (.static n2) (hl _ (by simp)) (hl _ (by simp)) with ⟨z, hz, hs⟩ | ⟨hno, n, m', hn, hm', hne⟩
    · rw [hz]
      simp only
      have hsz : ∀ s ∈ z :: rest, IsSize s := by
        intro s hs'
        rcases List.mem_cons.mp hs' with rfl | h
        · exact hs.isSize
        · exact hl s (by simp [h])
      have hal : ∀ s ∈ [Size.static n1, Size.static n2], s ∈ Size.static n1 :: Size.static n2 :: rest := by
        intro s hs'; simp only [List.mem_cons, List.not_mem_nil, or_false] at hs' ⊢; tauto
      have hbl : ∀ s ∈ z :: rest, s = z ∨ s ∈ Size.static n1 :: Size.static n2 :: rest := by
        intro s hs'; simp only [List.mem_cons] at hs' ⊢; tauto
      rcases ih _ (by rw [← hm]; simp) (z :: rest) hsz rfl with ⟨w, hw, hs2⟩ | ⟨hno, hinc⟩
      · left
        refine ⟨w, hw, hs.trans hs2 (by simp) ?_ hal hbl⟩
        intro s hs'; simp only [List.mem_cons, List.not_mem_nil, or_false] at hs' ⊢; tauto
      · right
        exact ⟨hno, inconsistent_trans hs hal hbl hinc⟩
    · right
      constructor
      · intro z
        cases hr : mergeSizes0 (.static n1) (.static n2) with
        | ok w => exact absurd hr (hno w)
        | staticMismatch => simp
        | failFast => simp
      · intro hc; exact hne (hc _ (by simp) _ (by simp) n m' hn hm')
  | .static n1 :: .dyn n2 :: rest, hl, rest_first =>
    rw [mergeSizes]
    refine rest_first (.static n1) (.dyn n2) rest ?_ (by simp) ?_ (by rw [← hm]; simp) _
      (fun s hs => merge0_spec _ s (hl _ (by simp)) hs)
    · intro s hs; simp only [List.mem_append, List.mem_cons, List.not_mem_nil, or_false] at hs ⊢; tauto
    · intro s hs; simp only [List.mem_append, List.mem_cons, List.not_mem_nil, or_false] at hs ⊢; tauto
  | .dyn n1 :: .static n2 :: rest, hl, rest_first =>
    rw [mergeSizes]
    refine rest_first (.static n2) (.dyn n1) rest ?_ (by simp) ?_ (by rw [← hm]; simp) _
      (fun s hs => merge0_spec _ s (hl _ (by simp)) hs)
    · intro s hs; simp only [List.mem_append, List.mem_cons, List.not_mem_nil, or_false] at hs ⊢; tauto
    · intro s hs; simp only [List.mem_append, List.mem_cons, List.not_mem_nil, or_false] at hs ⊢; tauto
  | .dyn n1 :: .dyn n2 :: rest, hl, rest_first =>
    rw [mergeSizes]
    refine rest_first (.dyn n2) (.dyn n1) rest ?_ (by simp) ?_ (by rw [← hm]; simp) _ ?_
    · intro s hs; simp only [List.mem_append, List.mem_cons, List.not_mem_nil, or_false] at hs ⊢; tauto
    · intro s hs; simp only [List.mem_append, List.mem_cons, List.not_mem_nil, or_false] at hs ⊢; tauto
    · intro s hs
      rcases merge0_spec s (.dyn n2) hs (hl _ (by simp)) with ⟨z, hz, hsum⟩ | ⟨hno, n, m', hn, hm', hne⟩
      · left
        refine ⟨z, hz, ⟨hsum.isSize, ?_, ?_, ?_, hsum.none⟩⟩
        · intro t ht; exact hsum.all t (by simp only [List.mem_cons, List.not_mem_nil, or_false] at ht ⊢; tauto)
        · intro n hn
          obtain ⟨t, ht, hk⟩ := hsum.some n hn
          exact ⟨t, by simp only [List.mem_cons, List.not_mem_nil, or_false] at ht ⊢; tauto, hk⟩
        · rw [hsum.kind]; simp only [List.mem_cons, List.not_mem_nil, or_false, exists_eq_or_imp, exists_eq_left]; tauto
      · right; exact ⟨hno, m', n, hm', hn, fun h => hne h.symm⟩

/-- If the lengths known at compile time agree, the program is not rejected. -/
theorem mergeSizes0_static (s t : Size) (h : mergeSizes0 s t = .staticMismatch) :
    ∃ n m, s = .static n ∧ t = .static m ∧ n ≠ -1 ∧ m ≠ -1 ∧ n ≠ m := by
  cases s <;> cases t <;> simp only [mergeSizes0, unknownSize] at h <;> (try split at h) <;> (try split at h) <;>
    simp_all

theorem Summary.static_mem {l : List Size} {m : Int} (h : Summary l (.static m)) (hm : m ≠ -1) : .static m ∈ l := by
  obtain ⟨t, ht, hk⟩ := h.kind.mp (by simpa [staticKnown] using hm)
  cases t with
  | dyn n => simp [staticKnown] at hk
  | static n =>
    simp only [staticKnown] at hk
    have := h.all _ ht n (by simp [known, hk])
    simp only [known, hm, if_false, Option.some.injEq] at this
    exact this ▸ ht

theorem mergeSizes_static (l : List Size) (hl : ∀ s ∈ l, IsSize s) (h : mergeSizes l = .staticMismatch) :
    ∃ n m, .static n ∈ l ∧ .static m ∈ l ∧ n ≠ -1 ∧ m ≠ -1 ∧ n ≠ m := by
  induction hm : l.length using Nat.strongRecOn generalizing l with
  | _ k ih =>
  have rest_first : ∀ (x y : Size) (rest : List Size), (∀ s ∈ rest ++ [y], s ∈ l) → x ∈ l →
      (rest ++ [y]).length < k → ∀ g : Size → MergeResult,
      (∀ s, g s = .staticMismatch → ∃ n m, x = .static n ∧ s = .static m ∧ n ≠ -1 ∧ m ≠ -1 ∧ n ≠ m) →
      (mergeSizes (rest ++ [y])).bind g = .staticMismatch →
      ∃ n m, .static n ∈ l ∧ .static m ∈ l ∧ n ≠ -1 ∧ m ≠ -1 ∧ n ≠ m := by
    intro x y rest hsub hx hlen g hg hb
    cases hr : mergeSizes (rest ++ [y]) with
    | failFast => rw [hr] at hb; simp [MergeResult.bind] at hb
    | staticMismatch =>
      obtain ⟨n, m, h1, h2, h3⟩ := ih _ hlen (rest ++ [y]) (fun s hs => hl s (hsub s hs)) hr rfl
      exact ⟨n, m, hsub _ h1, hsub _ h2, h3⟩
    | ok w =>
      rw [hr] at hb
      obtain ⟨n, m, h1, h2, h3⟩ := hg w hb
      refine ⟨n, m, h1 ▸ hx, ?_, h3⟩
      rcases mergeSizes_spec (rest ++ [y]) (fun s hs => hl s (hsub s hs)) with ⟨z, hz, hs⟩ | ⟨hno, -⟩
      · rw [hr, MergeResult.ok.injEq] at hz
        subst hz
        rw [h2] at hs
        exact hsub _ (hs.static_mem h3.2.1)
      · exact absurd hr (hno w)
  match l, hl, rest_first with
  | [], _, _ => rw [mergeSizes] at h; simp at h
  | [s], _, _ => rw [mergeSizes] at h; simp at h
  | .static n1 :: .static n2 :: rest, hl, _ =>
    rw [mergeSizes] at h
    cases hr : mergeSizes0 (.static n1) (.static n2) with
    | failFast => rw [hr] at h; simp at h
    | staticMismatch =>
      obtain ⟨n, m, h1, h2, h3⟩ := mergeSizes0_static _ _ hr
      exact ⟨n, m, by simp [h1], by simp [h2], h3⟩
    | ok z =>
      rw [hr] at h
      simp only at h
      have hzm : z = .static n1 ∨ z = .static n2 := by
        simp only [mergeSizes0] at hr
        split at hr
        · simp only [MergeResult.ok.injEq] at hr
          subst hr
          split <;> simp
        · simp at hr
      have hsub : ∀ s ∈ z :: rest, s ∈ Size.static n1 :: Size.static n2 :: rest := by
        intro s hs
        rcases List.mem_cons.mp hs with rfl | hs
        · rcases hzm with rfl | rfl <;> simp
        · simp [hs]
      obtain ⟨n, m, h1, h2, h3⟩ := ih _ (by rw [← hm]; simp) (z :: rest) (fun s hs => hl s (hsub s hs)) h rfl
      exact ⟨n, m, hsub _ h1, hsub _ h2, h3⟩
  | .static n1 :: .dyn n2 :: rest, hl, rest_first =>
    rw [mergeSizes] at h
    refine rest_first (.static n1) (.dyn n2) rest ?_ (by simp) (by rw [← hm]; simp) _ (fun s hs => mergeSizes0_static _ _ hs) h
    intro s hs; simp only [List.mem_append, List.mem_cons, List.not_mem_nil, or_false] at hs ⊢; tauto
  | .dyn n1 :: .static n2 :: rest, hl, rest_first =>
    rw [mergeSizes] at h
    refine rest_first (.static n2) (.dyn n1) rest ?_ (by simp) (by rw [← hm]; simp) _ (fun s hs => mergeSizes0_static _ _ hs) h
    intro s hs; simp only [List.mem_append, List.mem_cons, List.not_mem_nil, or_false] at hs ⊢; tauto
  | .dyn n1 :: .dyn n2 :: rest, hl, rest_first =>
    rw [mergeSizes] at h
    refine rest_first (.dyn n2) (.dyn n1) rest ?_ (by simp) (by rw [← hm]; simp) _ ?_ h
    · intro s hs; simp only [List.mem_append, List.mem_cons, List.not_mem_nil, or_false] at hs ⊢; tauto
    · intro s hs
      obtain ⟨n, m, -, h2, -⟩ := mergeSizes0_static _ _ hs
      simp at h2

end Makeshift
