import Verif.Spec.Cycles
import Verif.Lemmas.Permutation
import Verif.Lemmas.PermutationOver
import Mathlib.Data.Finset.Image
import Mathlib.Data.Fintype.Pigeonhole
import Mathlib.Tactic.Push

/-! Lemmas about cycles of index arrays. -/

namespace Makeshift

open Makeshift.Spec

/-- Taking `nx`, the successor of `i`, out of its cycle. -/
structure TakenOut (f f' : Nat → Nat) (i nx : Nat) : Prop where
  inj : Function.Injective f
  fi : f i = nx
  ne : nx ≠ i
  fnx : f' nx = nx
  fi' : f' i = f nx
  other : ∀ k, k ≠ i → k ≠ nx → f' k = f k

namespace TakenOut

variable {f f' : Nat → Nat} {i nx : Nat}

theorem fnx_ne (h : TakenOut f f' i nx) : f nx ≠ nx := fun e => h.ne (h.inj (e.trans h.fi.symm))

theorem step_ne (h : TakenOut f f' i nx) {y : Nat} (hy : y ≠ nx) : f' y ≠ nx := by
  by_cases hi : y = i
  · subst hi; rw [h.fi']; exact h.fnx_ne
  · rw [h.other y hi hy]
    intro e
    exact hi (h.inj (e.trans h.fi.symm))

theorem forward (h : TakenOut f f' i nx) {p : Nat} (hp : p ≠ nx) (k : Nat) : f'^[k] p ≠ nx ∧ ∃ j, f'^[k] p = f^[j] p := by
  induction k with
  | zero => exact ⟨hp, 0, rfl⟩
  | succ k ih =>
    obtain ⟨hne, j, hj⟩ := ih
    rw [Function.iterate_succ_apply']
    refine ⟨h.step_ne hne, ?_⟩
    by_cases hi : f'^[k] p = i
    · refine ⟨j + 2, ?_⟩
      rw [hi, h.fi', Function.iterate_succ_apply', Function.iterate_succ_apply', ← hj, hi, h.fi]
    · refine ⟨j + 1, ?_⟩
      rw [h.other _ hi hne, hj, Function.iterate_succ_apply']

theorem backward (h : TakenOut f f' i nx) {p : Nat} (hp : p ≠ nx) (k : Nat) :
    (∃ j, f'^[j] p = f^[k] p) ∨ (f^[k] p = nx ∧ ∃ j, f'^[j] p = i) := by
  induction k with
  | zero => exact .inl ⟨0, rfl⟩
  | succ k ih =>
    rw [Function.iterate_succ_apply']
    rcases ih with ⟨j, hj⟩ | ⟨he, j, hj⟩
    · by_cases hi : f^[k] p = i
      · exact .inr ⟨by rw [hi, h.fi], j, by rw [hj, hi]⟩
      · have hne : f^[k] p ≠ nx := hj ▸ (h.forward hp j).1
        exact .inl ⟨j + 1, by rw [Function.iterate_succ_apply', hj, h.other _ hi hne]⟩
    · exact .inl ⟨j + 1, by rw [Function.iterate_succ_apply', hj, h.fi', he]⟩

end TakenOut

theorem follow_of {idx : List Int} {p : Nat} {x : Int} (h : idx[p]? = some x) : follow idx p = x.toNat := by simp [follow, h]

theorem follow_none {idx : List Int} {p : Nat} (h : idx.length ≤ p) : follow idx p = p := by
  simp [follow, List.getElem?_eq_none h]

/-- The entries of the index array are a permutation of its positions. -/
def IsPerm (idx : List Int) : Prop := idx.Nodup ∧ ∀ x ∈ idx, 0 ≤ x ∧ x < idx.length

theorem IsPerm.entry {idx : List Int} (h : IsPerm idx) {p : Nat} (hp : p < idx.length) :
    ∃ q : Nat, idx[p]? = some (q : Int) ∧ q < idx.length := by
  have hm := h.2 idx[p] (List.getElem_mem hp)
  exact ⟨idx[p].toNat, by rw [List.getElem?_eq_getElem hp]; congr 1; omega, by omega⟩

theorem IsPerm.follow_lt {idx : List Int} (h : IsPerm idx) {p : Nat} (hp : p < idx.length) : follow idx p < idx.length := by
  obtain ⟨q, hq, hlt⟩ := h.entry hp
  rw [follow_of hq]
  simpa using hlt

theorem IsPerm.follow_inj {idx : List Int} (h : IsPerm idx) : Function.Injective (follow idx) := by
  intro a b hab
  by_cases ha : a < idx.length
  · obtain ⟨p, hp, hpl⟩ := h.entry ha
    by_cases hb : b < idx.length
    · obtain ⟨q, hq, hql⟩ := h.entry hb
      rw [follow_of hp, follow_of hq] at hab
      simp at hab
      subst hab
      exact nodup_get_inj h.1 hp hq
    · rw [follow_none (p := b) (by omega)] at hab
      have := h.follow_lt ha
      omega
  · rw [follow_none (p := a) (by omega)] at hab
    by_cases hb : b < idx.length
    · have := h.follow_lt hb
      omega
    · rw [follow_none (p := b) (by omega)] at hab
      exact hab

theorem IsPerm.iterate_lt {idx : List Int} (h : IsPerm idx) {p : Nat} (hp : p < idx.length) (k : Nat) :
    (follow idx)^[k] p < idx.length := by
  induction k with
  | zero => exact hp
  | succ k ih => rw [Function.iterate_succ_apply']; exact h.follow_lt ih

/-- Following the indices leads back. -/
theorem IsPerm.periodic {idx : List Int} (h : IsPerm idx) {p : Nat} (hp : p < idx.length) : ∃ k, (follow idx)^[k + 1] p = p := by
  obtain ⟨a, b, hab, he⟩ := Finite.exists_ne_map_eq_of_infinite fun k : Nat => (⟨(follow idx)^[k] p, h.iterate_lt hp k⟩ : Fin idx.length)
  have he' : (follow idx)^[a] p = (follow idx)^[b] p := congrArg Fin.val he
  clear he
  wlog hlt : a < b generalizing a b
  · exact this b a (Ne.symm hab) he'.symm (by omega)
  · refine ⟨b - a - 1, ?_⟩
    have hb : b = a + (b - a - 1 + 1) := by omega
    rw [hb, Function.iterate_add_apply] at he'
    exact (h.follow_inj.iterate a he').symm

/-- Taking an element out of a cycle whose smallest position is `i` makes one more cycle. -/
theorem cycleCount_takenOut {idx idx' : List Int} {i nx : Nat} (h : IsPerm idx) (hl : idx'.length = idx.length)
    (ht : TakenOut (follow idx) (follow idx') i nx) (hi : i < idx.length) (hfix : ∀ k, k < i → follow idx k = k) :
    cycleCount idx' = cycleCount idx + 1 := by
  have hlt : i < nx := by
    rcases Nat.lt_trichotomy nx i with hc | hc | hc
    · exact absurd (ht.inj ((hfix nx hc).trans ht.fi.symm)) ht.ne
    · exact absurd hc ht.ne
    · exact hc
  have hnl : nx < idx.length := ht.fi ▸ h.follow_lt hi
  have hnot : ¬ SmallestOfCycle idx nx := by
    intro hs
    obtain ⟨k, hk⟩ := h.periodic hi
    have := hs k
    rw [Function.iterate_succ_apply, ht.fi] at hk
    omega
  have hiff : ∀ p, p ≠ nx → (SmallestOfCycle idx' p ↔ SmallestOfCycle idx p) := by
    intro p hp
    constructor
    · intro hs k
      rcases ht.backward hp k with ⟨j, hj⟩ | ⟨he, j, hj⟩
      · rw [← hj]; exact hs j
      · have := hs j
        omega
    · intro hs k
      obtain ⟨_, j, hj⟩ := ht.forward hp k
      rw [hj]; exact hs j
  have hself : SmallestOfCycle idx' nx := by
    intro k
    have : (follow idx')^[k] nx = nx := Function.iterate_fixed ht.fnx k
    omega
  simp only [cycleCount, hl]
  classical
  rw [← Finset.card_insert_of_notMem (a := nx) (by simp [hnot])]
  congr 1
  ext p
  simp only [Finset.mem_filter, Finset.mem_range, Finset.mem_insert]
  by_cases hp : p = nx
  · subst hp; simp [hself, hnl]
  · simp [hp, hiff p hp]

theorem cycleCount_identity (n : Nat) : cycleCount (identity n) = n := by
  have : ∀ p, SmallestOfCycle (identity n) p := by
    intro p k
    have hf : follow (identity n) p = p := by
      by_cases hp : p < n
      · rw [follow_of (identity_get hp)]; simp
      · exact follow_none (by rw [identity_length]; omega)
    rw [Function.iterate_fixed hf k]
  simp [cycleCount, this, identity_length]

theorem get_set_self {l : List Int} {p : Nat} {y : Int} (hp : p < l.length) : (l.set p y)[p]? = some y := by
  rw [List.getElem?_set_self hp]

/-- One step of `apply_reverse_permutation` on the index array. -/
theorem step_isPerm {idx : List Int} {i nx : Nat} {nn : Int} (h : IsPerm idx) (hi : idx[i]? = some (nx : Int)) (hn : idx[nx]? = some nn)
    (hne : nx ≠ i) : IsPerm ((idx.set i nn).set nx nx) ∧
      TakenOut (follow idx) (follow ((idx.set i nn).set nx nx)) i nx := by
  have hil : i < idx.length := by by_contra hc; rw [List.getElem?_eq_none (by omega)] at hi; cases hi
  have hnl : nx < idx.length := by by_contra hc; rw [List.getElem?_eq_none (by omega)] at hn; cases hn
  have hsw : swapAt idx i nx = some ((idx.set i nn).set nx nx) := by simp only [swapAt, hi, hn]
  have hp := swapAt_perm hsw
  have hlen : ((idx.set i nn).set nx nx).length = idx.length := by simp
  refine ⟨⟨hp.nodup_iff.mpr h.1, fun x hx => by rw [hlen]; exact h.2 x (hp.mem_iff.mp hx)⟩, ?_⟩
  refine ⟨h.follow_inj, by rw [follow_of hi]; simp, hne, ?_, ?_, ?_⟩
  · rw [follow_of (get_set_self (by simpa using hnl))]; simp
  · rw [follow_of (x := nn) (by rw [List.getElem?_set_ne hne, get_set_self hil]), follow_of hn]
  · intro k h1 h2
    simp only [follow]
    rw [List.getElem?_set_ne (Ne.symm h2), List.getElem?_set_ne (Ne.symm h1)]

variable {σ : Type}

/-- What the loop for one position does: the swaps it calls, and the index array it leaves. -/
structure RoundOf (F : Nat → Prop) (i : Nat) (V idx' : List Int) (new : List (Nat × Nat)) : Prop where
  perm : IsPerm idx'
  len : idx'.length = V.length
  fixed : ∀ k, k ≤ i → k < V.length → idx'[k]? = some (k : Int)
  keeps : ∀ k, F k → idx'[k]? = some (k : Int)
  count : cycleCount idx' = cycleCount V + new.length
  moved : ∀ t ∈ new, t.1 ≠ t.2 ∧ t.1 < V.length ∧ t.2 < V.length ∧ ¬ F t.1 ∧ ¬ F t.2

theorem fixed_follow {idx : List Int} {i : Nat} (hfix : ∀ k, k < i → idx[k]? = some (k : Int)) : ∀ k, k < i → follow idx k = k := by
  intro k hk
  rw [follow_of (hfix k hk)]; simp

theorem revInner_round (swap : σ → Nat → Nat → σ) (F : Nat → Prop) (i : Nat) (N : Nat) :
    ∀ (m : σ) (log : List (Nat × Nat)) (idx : List Int), nonFixedFrom 0 idx ≤ N → IsPerm idx → i < idx.length →
      (∀ k, k < i → idx[k]? = some (k : Int)) → (∀ k, F k → idx[k]? = some (k : Int)) →
      ∃ m' new idx', revOverInner (logged swap) idx.length i ⟨(m, log), idx⟩ = (.done, ⟨(m', log ++ new), idx'⟩) ∧
        RoundOf F i idx idx' new := by
  induction N using Nat.strongRecOn with
  | ind N ih =>
    intro m log idx hN hp hi hfix hF
    rw [revOverInner_eq]
    obtain ⟨nx, hx, hxl⟩ := hp.entry hi
    simp only [hx]
    by_cases h1 : nx = i
    · subst h1
      refine ⟨m, [], idx, by simp, hp, rfl, ?_, hF, by simp, by simp⟩
      intro k hk _
      rcases Nat.lt_or_eq_of_le hk with h | h
      · exact hfix k h
      · subst h; exact hx
    · obtain ⟨nn, hn, hnl⟩ := hp.entry hxl
      have h3 : nx ≠ nn := by
        intro hc; subst hc
        exact h1 (nodup_get_inj hp.1 hn hx)
      have h1' : ¬ ((nx : Int) = (i : Int)) := by omega
      have h2' : ¬ ((nx : Int) < 0 ∨ (nx : Int) ≥ (idx.length : Int)) := by omega
      have h3' : ¬ ((nx : Int) = (nn : Int)) := by omega
      simp only [h1', if_false, h2', Int.toNat_natCast, hn, h3', logged]
      obtain ⟨hp', ht⟩ := step_isPerm hp hx hn h1
      have hlen : ((idx.set i (nn : Int)).set nx (nx : Int)).length = idx.length := by simp
      have hlt : i < nx := by
        rcases Nat.lt_trichotomy nx i with hc | hc | hc
        · exact absurd (nodup_get_inj hp.1 (hfix nx hc) hx) (by omega)
        · exact absurd hc h1
        · exact hc
      have hmeas : nonFixedFrom 0 ((idx.set i (nn : Int)).set nx (nx : Int)) < nonFixedFrom 0 idx := by
        have e1 := nonFixedFrom_set idx 0 i nx nn hx
        have e2 := nonFixedFrom_set (idx.set i (nn : Int)) 0 nx nn nx (by rw [List.getElem?_set_ne (Ne.symm h1)]; exact hn)
        have h4 : ¬ ((nn : Int) = (nx : Int)) := by omega
        simp only [Nat.zero_add, h1', h4, if_false, if_true] at e1 e2
        split at e1 <;> omega
      have hFi : ¬ F i := fun hf => by
        have := hF i hf
        rw [hx] at this; simp at this; omega
      have hFn : ¬ F nx := fun hf => by
        have := hF nx hf
        rw [hn] at this; simp at this; omega
      obtain ⟨m', new, idx', he, hr⟩ := ih _ (by omega) (swap m i nx) (log ++ [(i, nx)]) ((idx.set i (nn : Int)).set nx (nx : Int))
        (Nat.le_refl _) hp' (by rw [hlen]; exact hi)
        (fun k hk => by rw [List.getElem?_set_ne (by omega), List.getElem?_set_ne (by omega)]; exact hfix k hk)
        (fun k hk => by
          have e1 : nx ≠ k := fun e => hFn (e ▸ hk)
          have e2 : i ≠ k := fun e => hFi (e ▸ hk)
          rw [List.getElem?_set_ne e1, List.getElem?_set_ne e2]; exact hF k hk)
      rw [hlen] at he
      refine ⟨m', (i, nx) :: new, idx', by rw [he, List.append_assoc]; rfl, hr.perm, hr.len.trans hlen, ?_, hr.keeps, ?_, ?_⟩
      · intro k hk hkl; exact hr.fixed k hk (by rw [hlen]; exact hkl)
      · rw [hr.count, cycleCount_takenOut hp hlen ht hi (fixed_follow hfix), List.length_cons]; omega
      · intro t htm
        rcases List.mem_cons.mp htm with rfl | htm
        · exact ⟨fun e => h1 e.symm, hi, hxl, hFi, hFn⟩
        · obtain ⟨a, b, c, d, e⟩ := hr.moved t htm
          exact ⟨a, hlen ▸ b, hlen ▸ c, d, e⟩

/-- The permutation which remains to be done when the loop of `apply_permutation` for position `i` has come to position `current`. -/
def remaining (idx : List Int) (i current : Nat) (next : Int) : List Int := (idx.set current current).set i next

theorem permInner_round (swap : σ → Nat → Nat → σ) (F : Nat → Prop) (i : Nat) (N : Nat) :
    ∀ (m : σ) (log : List (Nat × Nat)) (idx : List Int) (current next : Nat), nonFixedFrom 0 idx ≤ N → idx[current]? = some (next : Int) →
      i < idx.length → (current = i ∨ (idx[i]? = some (i : Int) ∧ ¬ F current)) → IsPerm (remaining idx i current next) →
      (∀ k, k < i → (remaining idx i current next)[k]? = some (k : Int)) → (∀ k, F k → (remaining idx i current next)[k]? = some (k : Int)) →
      ∃ m' new idx', permOverInner (logged swap) idx.length i current ⟨(m, log), idx⟩ = (.done, ⟨(m', log ++ new), idx'⟩) ∧
        RoundOf F i (remaining idx i current next) idx' new := by
  induction N using Nat.strongRecOn with
  | ind N ih =>
    intro m log idx current next hN hx hi hcur hp hfix hF
    have hcl : current < idx.length := by by_contra hc; rw [List.getElem?_eq_none (by omega)] at hx; cases hx
    have hrl : (remaining idx i current next).length = idx.length := by simp [remaining]
    have hVi : (remaining idx i current next)[i]? = some (next : Int) := get_set_self (by simpa using hi)
    have hVc : current ≠ i → (remaining idx i current next)[current]? = some (current : Int) := by
      intro hne
      simp only [remaining]
      rw [List.getElem?_set_ne (Ne.symm hne), get_set_self hcl]
    have hVo : ∀ k, k ≠ i → k ≠ current → (remaining idx i current next)[k]? = idx[k]? := by
      intro k h1 h2
      simp only [remaining]
      rw [List.getElem?_set_ne (Ne.symm h1), List.getElem?_set_ne (Ne.symm h2)]
    have hnl : next < idx.length := by
      have := hp.2 next (List.mem_of_getElem? hVi)
      rw [hrl] at this; omega
    rw [permOverInner_eq]
    simp only [hx]
    by_cases h1 : next = i
    · subst h1
      simp only [if_true]
      have hV : remaining idx next current next = idx.set current current := by
        rcases hcur with rfl | ⟨h, _⟩
        · simp only [remaining, List.set_set]
        · simp only [remaining]
          apply List.ext_getElem?
          intro k
          by_cases hk : k = next
          · subst hk
            rw [get_set_self (by simpa using hi)]
            by_cases hkc : k = current
            · subst hkc; rw [get_set_self hcl]
            · rw [List.getElem?_set_ne (Ne.symm hkc)]; exact h.symm
          · rw [List.getElem?_set_ne (Ne.symm hk)]
      rw [hV] at hp hfix hF hVi ⊢
      refine ⟨m, [], idx.set current current, by simp, hp, rfl, ?_, hF, by simp, by simp⟩
      intro k hk _
      rcases Nat.lt_or_eq_of_le hk with h | h
      · exact hfix k h
      · subst h; exact hVi
    · have hnc : next ≠ current := by
        intro hc
        by_cases hci : current = i
        · exact h1 (hc.trans hci)
        · exact hci (nodup_get_inj hp.1 (hVc hci) (hc ▸ hVi))
      have h1' : ¬ ((next : Int) = (i : Int)) := by omega
      have h2' : ¬ ((next : Int) < 0 ∨ (next : Int) ≥ (idx.length : Int) ∨ (next : Int) = (current : Int)) := by omega
      simp only [h1', if_false, h2', Int.toNat_natCast, logged]
      have hVn := hVo next h1 hnc
      obtain ⟨nn, hn, hnnl⟩ := hp.entry (p := next) (by rw [hrl]; exact hnl)
      have hn' : idx[next]? = some (nn : Int) := hVn ▸ hn
      have hlen : (idx.set current (current : Int)).length = idx.length := by simp
      have hx' : (idx.set current (current : Int))[next]? = some (nn : Int) := by rw [List.getElem?_set_ne (Ne.symm hnc)]; exact hn'
      obtain ⟨hp', ht⟩ := step_isPerm hp hVi hn h1
      have hV2 : remaining (idx.set current (current : Int)) i next nn =
          ((remaining idx i current next).set i (nn : Int)).set next (next : Int) := by
        simp only [remaining, List.set_set]
        rw [List.set_comm _ _ h1]
      have hmeas : nonFixedFrom 0 (idx.set current (current : Int)) < nonFixedFrom 0 idx := by
        have e1 := nonFixedFrom_set idx 0 current next current hx
        have h4 : ¬ ((next : Int) = (current : Int)) := by omega
        simp only [Nat.zero_add, h4, if_false, if_true] at e1
        omega
      have hlt : i < next := by
        rcases Nat.lt_trichotomy next i with hc | hc | hc
        · exact absurd (nodup_get_inj hp.1 (hfix next hc) hVi) (by omega)
        · exact absurd hc h1
        · exact hc
      have hFi : ¬ F i := fun hf => by
        have := hF i hf
        rw [hVi] at this; simp at this; omega
      have hnn : nn ≠ next := by
        intro hc; subst hc
        exact h1 (nodup_get_inj hp.1 hn hVi)
      have hFn : ¬ F next := fun hf => by
        have := hF next hf
        rw [hn] at this; simp at this; omega
      have hFc : ¬ F current := by
        rcases hcur with rfl | ⟨_, h⟩
        · exact hFi
        · exact h
      have hcur' : (idx.set current (current : Int))[i]? = some (i : Int) := by
        rcases hcur with rfl | ⟨h, _⟩
        · exact get_set_self hcl
        · by_cases hci : current = i
          · subst hci; exact get_set_self hcl
          · rw [List.getElem?_set_ne hci]; exact h
      obtain ⟨m', new, idx', he, hr⟩ := ih _ (by omega) (swap m current next) (log ++ [(current, next)]) (idx.set current (current : Int)) next
        nn (Nat.le_refl _) hx' (by rw [hlen]; exact hi) (.inr ⟨hcur', hFn⟩) (hV2 ▸ hp')
        (fun k hk => by rw [hV2, List.getElem?_set_ne (by omega), List.getElem?_set_ne (by omega)]; exact hfix k hk)
        (fun k hk => by
          have e1 : next ≠ k := fun e => hFn (e ▸ hk)
          have e2 : i ≠ k := fun e => hFi (e ▸ hk)
          rw [hV2, List.getElem?_set_ne e1, List.getElem?_set_ne e2]; exact hF k hk)
      rw [hlen] at he
      have hrl2 : (remaining (idx.set current (current : Int)) i next nn).length = idx.length := by simp [remaining]
      refine ⟨m', (current, next) :: new, idx', by rw [he, List.append_assoc]; rfl, hr.perm, hr.len.trans (hrl2.trans hrl.symm), ?_, hr.keeps,
        ?_, ?_⟩
      · intro k hk hkl; exact hr.fixed k hk (by rw [hrl2, ← hrl]; exact hkl)
      · rw [hr.count, hV2, cycleCount_takenOut hp (by simp) ht (by rw [hrl]; exact hi) (fixed_follow hfix), List.length_cons]; omega
      · intro t htm
        rw [hrl]
        rcases List.mem_cons.mp htm with rfl | htm
        · exact ⟨fun e => hnc e.symm, hcl, hnl, hFc, hFn⟩
        · obtain ⟨a, b, c, d, e⟩ := hr.moved t htm
          exact ⟨a, hrl2 ▸ b, hrl2 ▸ c, d, e⟩

/-- All rounds, given that every round does what `RoundOf` says. -/
theorem rounds (round : Nat → PermMem (σ × List (Nat × Nat)) → PermEnd × PermMem (σ × List (Nat × Nat)))
    (outer : Nat → Nat → PermMem (σ × List (Nat × Nat)) → PermEnd × PermMem (σ × List (Nat × Nat))) (n : Nat) (F : Nat → Prop)
    (houter0 : ∀ i s, outer 0 i s = (.done, s))
    (houter : ∀ k i s s', round i s = (.done, s') → outer (k + 1) i s = outer k (i + 1) s')
    (hround : ∀ i m log idx, idx.length = n → i < n → IsPerm idx → (∀ k, k < i → idx[k]? = some (k : Int)) →
      (∀ k, F k → idx[k]? = some (k : Int)) →
      ∃ m' new idx', round i ⟨(m, log), idx⟩ = (.done, ⟨(m', log ++ new), idx'⟩) ∧ RoundOf F i idx idx' new) (k : Nat) :
    ∀ (i : Nat) (m : σ) (log : List (Nat × Nat)) (idx : List Int), i + k = n → idx.length = n → IsPerm idx →
      (∀ j, j < i → idx[j]? = some (j : Int)) → (∀ k, F k → idx[k]? = some (k : Int)) →
      ∃ m' new, outer k i ⟨(m, log), idx⟩ = (.done, ⟨(m', log ++ new), identity n⟩) ∧ new.length + cycleCount idx = n ∧
        ∀ t ∈ new, t.1 ≠ t.2 ∧ t.1 < n ∧ t.2 < n ∧ ¬ F t.1 ∧ ¬ F t.2 := by
  induction k with
  | zero =>
    intro i m log idx hik hl hp hfix hF
    have hid : idx = identity n := eq_identity hl fun j hj => hfix j (by omega)
    subst hid
    exact ⟨m, [], by rw [houter0]; simp, by rw [cycleCount_identity]; simp, by simp⟩
  | succ k ih =>
    intro i m log idx hik hl hp hfix hF
    obtain ⟨m1, new1, idx1, he, hr⟩ := hround i m log idx hl (by omega) hp hfix hF
    rw [houter k i _ _ he]
    obtain ⟨m2, new2, he2, hc, hm⟩ := ih (i + 1) m1 (log ++ new1) idx1 (by omega) (hr.len.trans hl) hr.perm
      (fun j hj => hr.fixed j (by omega) (by omega)) hr.keeps
    refine ⟨m2, new1 ++ new2, by rw [he2, List.append_assoc], ?_, ?_⟩
    · rw [hr.count] at hc
      simp only [List.length_append]
      omega
    · intro t ht
      rcases List.mem_append.mp ht with h | h
      · obtain ⟨a, b, c, d, e⟩ := hr.moved t h
        exact ⟨a, hl ▸ b, hl ▸ c, d, e⟩
      · exact hm t h

theorem revOver_rounds (swap : σ → Nat → Nat → σ) (F : Nat → Prop) (m : σ) (log : List (Nat × Nat)) (idx : List Int) (hp : IsPerm idx)
    (hF : ∀ k, F k → idx[k]? = some (k : Int)) :
    ∃ m' new, revOver (logged swap) idx.length ⟨(m, log), idx⟩ = (.done, ⟨(m', log ++ new), identity idx.length⟩) ∧
      new.length + cycleCount idx = idx.length ∧ ∀ t ∈ new, t.1 ≠ t.2 ∧ t.1 < idx.length ∧ t.2 < idx.length ∧ ¬ F t.1 ∧ ¬ F t.2 := by
  refine rounds (revOverInner (logged swap) idx.length) (revOverOuter (logged swap) idx.length) idx.length F (fun _ _ => rfl) ?_ ?_
    idx.length 0 m log idx (by omega) rfl hp (by simp) hF
  · intro k i s s' h; rw [revOverOuter, h]
  · intro i m log idx' hl hi hp hfix hF
    rw [← hl]
    exact revInner_round swap F i _ m log idx' (Nat.le_refl _) hp (by omega) hfix hF

theorem permOver_rounds (swap : σ → Nat → Nat → σ) (F : Nat → Prop) (m : σ) (log : List (Nat × Nat)) (idx : List Int) (hp : IsPerm idx)
    (hF : ∀ k, F k → idx[k]? = some (k : Int)) :
    ∃ m' new, permOver (logged swap) idx.length ⟨(m, log), idx⟩ = (.done, ⟨(m', log ++ new), identity idx.length⟩) ∧
      new.length + cycleCount idx = idx.length ∧ ∀ t ∈ new, t.1 ≠ t.2 ∧ t.1 < idx.length ∧ t.2 < idx.length ∧ ¬ F t.1 ∧ ¬ F t.2 := by
  refine rounds (fun i => permOverInner (logged swap) idx.length i i) (permOverOuter (logged swap) idx.length) idx.length F (fun _ _ => rfl) ?_
    ?_ idx.length 0 m log idx (by omega) rfl hp (by simp) hF
  · intro k i s s' h; rw [permOverOuter, h]
  · intro i m log idx' hl hi hp hfix hF
    rw [← hl]
    obtain ⟨nx, hx, hxl⟩ := hp.entry (p := i) (by omega)
    have hV : remaining idx' i i nx = idx' := by
      simp only [remaining, List.set_set]
      apply List.ext_getElem?
      intro k
      by_cases hk : k = i
      · subst hk; rw [get_set_self (by omega), hx]
      · rw [List.getElem?_set_ne (Ne.symm hk)]
    have := permInner_round swap F i _ m log idx' i nx (Nat.le_refl _) hx (by omega) (.inl rfl) (by rw [hV]; exact hp)
      (by rw [hV]; exact hfix) (by rw [hV]; exact hF)
    rw [hV] at this
    exact this

/-- Labels which are the same for all positions an element has been at: after `ts.length` swaps, there are at least `n - ts.length` of
them. -/
theorem labels (n : Nat) (ts : List (Nat × Nat)) :
    ∀ (g c : Nat → Nat) (r : Nat), (∀ p, c (g p) = c p) → n ≤ ((Finset.range n).image c).card + r →
      ∃ c' : Nat → Nat, (∀ p, c' (exchanges g ts p) = c' p) ∧ n ≤ ((Finset.range n).image c').card + r + ts.length := by
  induction ts with
  | nil => intro g c r h1 h2; exact ⟨c, h1, h2⟩
  | cons t ts ih =>
    obtain ⟨a, b⟩ := t
    intro g c r h1 h2
    let c1 : Nat → Nat := fun p => if c p = c b then c a else c p
    have hc1 : ∀ p, c1 (exchange g a b p) = c1 p := by
      intro p
      simp only [c1, exchange]
      by_cases hpa : p = a
      · subst hpa; simp only [if_true, h1 b]; split <;> rfl
      · by_cases hpb : p = b
        · subst hpb; simp only [hpa, if_false, if_true, h1 a]; split <;> rfl
        · simp only [hpa, hpb, if_false, h1 p]
    have hcard : ((Finset.range n).image c).card ≤ ((Finset.range n).image c1).card + 1 := by
      have hsub : (Finset.range n).image c ⊆ insert (c b) ((Finset.range n).image c1) := by
        intro x hx
        obtain ⟨p, hp, rfl⟩ := Finset.mem_image.mp hx
        by_cases he : c p = c b
        · rw [he]; exact Finset.mem_insert_self _ _
        · exact Finset.mem_insert_of_mem (Finset.mem_image.mpr ⟨p, hp, by simp only [c1, he, if_false]⟩)
      exact (Finset.card_le_card hsub).trans (Finset.card_insert_le _ _)
    obtain ⟨c', h3, h4⟩ := ih (exchange g a b) c1 (r + 1) hc1 (by omega)
    exact ⟨c', h3, by simp only [List.length_cons]; omega⟩

/-- Labels which are the same along the cycles: there are no more of them than cycles. -/
theorem labels_le_cycles {idx : List Int} (hp : IsPerm idx) (c : Nat → Nat) (h : ∀ p, p < idx.length → c (follow idx p) = c p) :
    ((Finset.range idx.length).image c).card ≤ cycleCount idx := by
  classical
  have hsub : (Finset.range idx.length).image c ⊆ ((Finset.range idx.length).filter fun p => SmallestOfCycle idx p).image c := by
    intro x hx
    obtain ⟨p, hpr, rfl⟩ := Finset.mem_image.mp hx
    have hpl := Finset.mem_range.mp hpr
    have hex : ∃ q, ∃ k, (follow idx)^[k] p = q := ⟨p, 0, rfl⟩
    have hq := Nat.find_spec hex
    have hmin : ∀ k, Nat.find hex ≤ (follow idx)^[k] p := fun k => Nat.find_min' hex ⟨k, rfl⟩
    generalize Nat.find hex = q at hq hmin
    obtain ⟨k, rfl⟩ := hq
    refine Finset.mem_image.mpr ⟨(follow idx)^[k] p, Finset.mem_filter.mpr ⟨Finset.mem_range.mpr (hp.iterate_lt hpl k), ?_⟩, ?_⟩
    · intro j
      rw [← Function.iterate_add_apply]
      exact hmin (j + k)
    · clear hmin
      induction k with
      | zero => rfl
      | succ k ih => rw [Function.iterate_succ_apply', h _ (hp.iterate_lt hpl k)]; exact ih
  exact (Finset.card_le_card hsub).trans Finset.card_image_le

end Makeshift
