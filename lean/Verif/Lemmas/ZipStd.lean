import Verif.Model.ZipStd
import Verif.Lemmas.Zip
import Verif.Props.IteratorTag

/-! Helper lemmas for zip iterators and the standard library. -/

namespace Makeshift.ZipStd

open Spec

variable {α : Type}

theorem isA_randomAccess (a : Category) : IsA a .randomAccess ↔ a = .randomAccess := by cases a <;> simp [IsA, strength]

theorem isA_bidirectional (a : Category) : IsA a .bidirectional ↔ a = .bidirectional ∨ a = .randomAccess := by
  cases a <;> simp [IsA, strength]

theorem isA_input (a : Category) : IsA a .input ↔ a ≠ .other ∧ a ≠ .output := by
  cases a <;> simp [IsA, strength]

/-- What tag dispatch selects. -/
theorem category_spec (cats : List Category) (hne : cats ≠ []) (hin : ∀ c ∈ cats, IsA c .input) :
    ((∀ c ∈ cats, IsA c .randomAccess) → category cats = some .randomAccess) ∧
    ((∀ c ∈ cats, IsA c .bidirectional) → (∃ c ∈ cats, ¬ IsA c .randomAccess) → category cats = some .bidirectional) ∧
    ((∃ c ∈ cats, ¬ IsA c .bidirectional) → category cats = some .input) := by
  obtain ⟨bases, hb, hc⟩ := Props.C35_weakest_category cats hne
  have hr := hc .randomAccess (by simp)
  have hbi := hc .bidirectional (by simp)
  have hi := (hc .input (by simp)).mpr hin
  have mr : TagIsA bases .randomAccess ↔ .randomAccess ∈ bases := by
    simp only [TagIsA, isA_randomAccess, exists_eq_right]
  have mb : TagIsA bases .bidirectional ↔ .bidirectional ∈ bases ∨ .randomAccess ∈ bases := by
    simp only [TagIsA, isA_bidirectional]
    constructor
    · rintro ⟨a, h, rfl | rfl⟩
      · exact Or.inl h
      · exact Or.inr h
    · rintro (h | h)
      · exact ⟨_, h, Or.inl rfl⟩
      · exact ⟨_, h, Or.inr rfl⟩
  refine ⟨fun h => ?_, fun h h' => ?_, fun h => ?_⟩
  · simp [category, hb, dispatch, mr.mp (hr.mpr h)]
  · have h1 : Category.randomAccess ∉ bases := by
      intro hm
      obtain ⟨c, hc1, hc2⟩ := h'
      exact hc2 (hr.mp (mr.mpr hm) c hc1)
    have h2 : Category.bidirectional ∈ bases := by
      rcases mb.mp (hbi.mpr h) with h | h
      · exact h
      · exact absurd h h1
    simp [category, hb, dispatch, h1, h2]
  · have hn : ¬ TagIsA bases .bidirectional := by
      intro ht
      obtain ⟨c, hc1, hc2⟩ := h
      exact hc2 (hbi.mp ht c hc1)
    have h1 : Category.randomAccess ∉ bases := fun hm => hn (mb.mpr (Or.inr hm))
    have h2 : Category.bidirectional ∉ bases := fun hm => hn (mb.mpr (Or.inl hm))
    obtain ⟨a, ha, hA⟩ := hi
    have h3 : Category.forward ∈ bases ∨ Category.input ∈ bases := by
      have := (isA_input a).mp hA
      cases a with
      | other => simp at this
      | output => simp at this
      | input => exact Or.inr ha
      | forward => exact Or.inl ha
      | bidirectional => exact absurd ha h2
      | randomAccess => exact absurd ha h1
    simp [category, hb, dispatch, h1, h2, h3]

theorem movePos_comp {r : Rng α} {q q1 a d : Int} (h : movePos r q a = .ok q1) : movePos r q1 d = movePos r q (a + d) := by
  unfold movePos at h
  split at h
  · simp only [Outcome.ok.injEq] at h
    subst h
    unfold movePos
    rw [show q + a + d = q + (a + d) by omega]
  · simp at h

theorem forLeaves_comp {f g h : Rng α → Int → Outcome Int} (hfg : ∀ r q q1, f r q = .ok q1 → g r q1 = h r q) :
    ∀ (rs : List (Rng α)) (ps qs : List Int), forLeaves f rs ps = .ok qs → forLeaves g rs qs = forLeaves h rs ps := by
  intro rs
  induction rs with
  | nil => intro ps qs he; simp [forLeaves] at he ⊢
  | cons r rs ih =>
    intro ps qs he
    cases ps with
    | nil => simp [forLeaves] at he ⊢; subst he; simp [forLeaves]
    | cons p ps =>
      simp only [forLeaves] at he ⊢
      cases h1 : f r p with
      | ok q1 =>
        rw [h1] at he
        simp only [Outcome.bind_ok] at he
        cases h2 : forLeaves f rs ps with
        | ok qs1 =>
          rw [h2] at he
          simp only [Outcome.bind_ok, Outcome.ok.injEq] at he
          subst he
          simp only [forLeaves, hfg r p q1 h1, ih ps qs1 h2]
        | throw m => rw [h2] at he; simp [Outcome.bind] at he
        | failFast => rw [h2] at he; simp [Outcome.bind] at he
        | ub => rw [h2] at he; simp [Outcome.bind] at he
      | throw m => rw [h1] at he; simp [Outcome.bind] at he
      | failFast => rw [h1] at he; simp [Outcome.bind] at he
      | ub => rw [h1] at he; simp [Outcome.bind] at he

theorem inc_advance {rs : List (Rng α)} {it it1 : ZipIt} {d : Int} (h : zipInc rs it = .ok it1) :
    zipAdvance rs it1 d = zipAdvance rs it (1 + d) := by
  unfold zipInc at h
  cases h1 : forLeaves leafInc rs it.pos with
  | ok ps =>
    rw [h1] at h
    simp only [Outcome.bind_ok, Outcome.ok.injEq] at h
    subst h
    unfold zipAdvance
    rw [forLeaves_comp (g := leafAdvance d) (h := leafAdvance (1 + d)) ?_ rs _ _ h1]
    · rw [show it.i + 1 + d = it.i + (1 + d) by omega]
    · intro r q q1 hq
      unfold leafInc at hq
      unfold leafAdvance
      cases hm : r.mode <;> simp only [hm] at hq ⊢
      · exact movePos_comp hq
      · exact movePos_comp hq
      · simpa using hq.symm
      · simpa using hq.symm
  | throw m => rw [h1] at h; simp [Outcome.bind] at h
  | failFast => rw [h1] at h; simp [Outcome.bind] at h
  | ub => rw [h1] at h; simp [Outcome.bind] at h

theorem dec_advance {rs : List (Rng α)} {it it1 : ZipIt} {d : Int} (h : zipDec rs it = .ok it1) :
    zipAdvance rs it1 d = zipAdvance rs it (-1 + d) := by
  unfold zipDec at h
  cases h1 : forLeaves leafDec rs it.pos with
  | ok ps =>
    rw [h1] at h
    simp only [Outcome.bind_ok, Outcome.ok.injEq] at h
    subst h
    unfold zipAdvance
    rw [forLeaves_comp (g := leafAdvance d) (h := leafAdvance (-1 + d)) ?_ rs _ _ h1]
    · rw [show it.i - 1 + d = it.i + (-1 + d) by omega]
    · intro r q q1 hq
      unfold leafDec at hq
      unfold leafAdvance
      cases hm : r.mode <;> simp only [hm] at hq ⊢
      · exact movePos_comp hq
      · exact movePos_comp hq
      · simpa using hq.symm
      · simpa using hq.symm
  | throw m => rw [h1] at h; simp [Outcome.bind] at h
  | failFast => rw [h1] at h; simp [Outcome.bind] at h
  | ub => rw [h1] at h; simp [Outcome.bind] at h

theorem forLeaves_zero : ∀ (rs : List (Rng α)) (ps : List Int),
    List.Forall₂ (fun r q => r.mode = .iteratorPair ∨ r.mode = .iterator → 0 ≤ q ∧ q ≤ r.elems.length) rs ps →
    forLeaves (leafAdvance 0) rs ps = .ok ps := by
  intro rs ps h
  induction h with
  | nil => rfl
  | @cons r q rs ps h1 _ ih =>
    have : leafAdvance 0 r q = .ok q := by
      unfold leafAdvance movePos
      cases hm : r.mode <;> simp only [Int.add_zero]
      · rw [if_pos (h1 (Or.inl hm))]
      · rw [if_pos (h1 (Or.inr hm))]
    simp [forLeaves, this, ih]

theorem advance_zero {rs : List (Rng α)} {it : ZipIt} {p : Int} (h : At rs it p) (h0 : 0 ≤ p)
    (hlen : ∀ r ∈ rs, IsReal r → p ≤ r.elems.length) : zipAdvance rs it 0 = .ok it := by
  unfold zipAdvance
  rw [forLeaves_zero rs it.pos ?_]
  · simp
  · obtain ⟨-, hp⟩ := h
    have : ∀ (rs : List (Rng α)) (ps : List Int), (∀ r ∈ rs, IsReal r → p ≤ r.elems.length) →
        List.Forall₂ (fun r q => r.mode = .iteratorPair ∨ r.mode = .iterator → q = p) rs ps →
        List.Forall₂ (fun r q => r.mode = .iteratorPair ∨ r.mode = .iterator → 0 ≤ q ∧ q ≤ r.elems.length) rs ps := by
      intro rs ps hlen hf
      induction hf with
      | nil => exact .nil
      | @cons r q rs ps h1 _ ih =>
        refine .cons (fun hm => ?_) (ih fun r hr => hlen r (by simp [hr]))
        rw [h1 hm]
        refine ⟨h0, hlen r (by simp) ?_⟩
        rcases hm with hm | hm <;> simp [IsReal, hm]
    exact this rs it.pos hlen hp

theorem incTimes_at {rs : List (Rng α)} {n : Nat} (hn : AllLength rs n) (k : Nat) {it : ZipIt} {p : Int} (h : At rs it p)
    (h0 : 0 ≤ p) (h1 : p + k ≤ n) : incTimes rs k it = zipAdvance rs it k := by
  induction k generalizing it p with
  | zero => exact (advance_zero h h0 (fun r hr hR => by rw [hn r hr hR]; omega)).symm
  | succ k ih =>
    obtain ⟨it1, e1, a1⟩ := zipInc_at h (by omega) (fun r hr hR => by rw [hn r hr hR]; omega)
    simp only [incTimes, e1, Outcome.bind_ok]
    rw [ih a1 (by omega) (by omega), inc_advance e1]
    congr 1
    omega

theorem decTimes_at {rs : List (Rng α)} {n : Nat} (hn : AllLength rs n) (k : Nat) {it : ZipIt} {p : Int} (h : At rs it p)
    (h0 : 0 ≤ p - k) (h1 : p ≤ n) : decTimes rs k it = zipAdvance rs it (-k) := by
  induction k generalizing it p with
  | zero => exact (advance_zero h (by omega) (fun r hr hR => by rw [hn r hr hR]; omega)).symm
  | succ k ih =>
    obtain ⟨it1, e1, a1⟩ := zipDec_at h (by omega) (fun r hr hR => by rw [hn r hr hR]; omega)
    simp only [decTimes, e1, Outcome.bind_ok]
    rw [ih a1 (by omega) (by omega), dec_advance e1]
    congr 1
    omega

theorem zipInc_index {rs : List (Rng α)} {it it' : ZipIt} (h : zipInc rs it = .ok it') : it'.i = it.i + 1 := by
  unfold zipInc at h
  cases h1 : forLeaves leafInc rs it.pos with
  | ok ps => rw [h1] at h; simp only [Outcome.bind_ok, Outcome.ok.injEq] at h; subst h; rfl
  | throw m => rw [h1] at h; simp [Outcome.bind] at h
  | failFast => rw [h1] at h; simp [Outcome.bind] at h
  | ub => rw [h1] at h; simp [Outcome.bind] at h

theorem distanceLoop_at {rs : List (Rng α)} {n : Nat} (hn : AllLength rs n) (last : ZipIt) (k : Nat) {it : ZipIt} {p : Int} (c : Int)
    (h : At rs it p) (h0 : 0 ≤ p) (hl : last.i = p + k) (h1 : p + k ≤ n) (fuel : Nat) (hf : k < fuel) :
    distanceLoop rs last fuel it c = some (.ok (c + k)) := by
  induction k generalizing it p c fuel with
  | zero =>
    obtain ⟨f, rfl⟩ : ∃ f, fuel = f + 1 := ⟨fuel - 1, by omega⟩
    have : zipNe it last = false := by simp [zipNe, zipEq, h.1, hl]
    simp [distanceLoop, this]
  | succ k ih =>
    obtain ⟨f, rfl⟩ : ∃ f, fuel = f + 1 := ⟨fuel - 1, by omega⟩
    have hne : zipNe it last = true := by
      have := h.1
      simp only [zipNe, zipEq, Bool.not_eq_true', beq_eq_false_iff_ne, ne_eq]
      omega
    obtain ⟨it1, e1, a1⟩ := zipInc_at h (by omega) (fun r hr hR => by rw [hn r hr hR]; omega)
    simp only [distanceLoop, hne, if_true, e1]
    rw [ih (c + 1) a1 (by omega) (by omega) (by omega) f (by omega)]
    congr 2
    push_cast
    omega

theorem leafInc_or_ub (r : Rng α) (q : Int) : (∃ b, leafInc r q = .ok b) ∨ leafInc r q = .ub := by
  have hm : (∃ b, movePos r q 1 = .ok b) ∨ movePos r q 1 = .ub := by
    unfold movePos
    split
    · exact .inl ⟨_, rfl⟩
    · exact .inr rfl
  unfold leafInc
  cases r.mode
  · exact hm
  · exact hm
  all_goals exact .inl ⟨_, rfl⟩

/-- A walk over the leaves only fails by undefined behaviour. -/
theorem zipInc_or_ub (rs : List (Rng α)) (it : ZipIt) : (∃ it', zipInc rs it = .ok it') ∨ zipInc rs it = .ub := by
  have key : ∀ (l : List (Rng α)) (ps : List Int), (∃ qs, forLeaves leafInc l ps = .ok qs) ∨ forLeaves leafInc l ps = .ub := by
    intro l
    induction l with
    | nil => intro ps; exact .inl ⟨[], rfl⟩
    | cons r l ih =>
      intro ps
      cases ps with
      | nil => exact .inl ⟨[], rfl⟩
      | cons q ps =>
        have h1 : (∃ b, leafInc r q = .ok b) ∨ leafInc r q = .ub := by
          exact leafInc_or_ub r q
        rcases h1 with ⟨b, h1⟩ | h1
        · rcases ih ps with ⟨qs, h2⟩ | h2
          · exact .inl ⟨b :: qs, by simp [forLeaves, h1, h2]⟩
          · exact .inr (by simp [forLeaves, h1, h2])
        · exact .inr (by simp [forLeaves, h1])
  rcases key rs it.pos with ⟨qs, h⟩ | h
  · exact .inl ⟨⟨it.i + 1, qs⟩, by simp [zipInc, h]⟩
  · exact .inr (by simp [zipInc, h])

theorem distanceLoop_behind (rs : List (Rng α)) (last : ZipIt) (fuel : Nat) : ∀ (it : ZipIt) (c : Int), last.i < it.i →
    distanceLoop rs last fuel it c = none ∨ distanceLoop rs last fuel it c = some .ub := by
  induction fuel with
  | zero => intro it c _; simp [distanceLoop]
  | succ f ih =>
    intro it c hlt
    have hne : zipNe it last = true := by
      simp only [zipNe, zipEq, Bool.not_eq_true', beq_eq_false_iff_ne, ne_eq]
      omega
    simp only [distanceLoop, hne, if_true]
    rcases zipInc_or_ub rs it with ⟨it', e1⟩ | e1
    · rw [e1]; exact ih it' _ (by have := zipInc_index e1; omega)
    · rw [e1]; exact .inr rfl

/-- If there is an iterator to be incremented, it is incremented past the end of its range. -/
theorem distanceLoop_past {rs : List (Rng α)} {n : Nat} (hn : AllLength rs n) (last : ZipIt)
    (hit : ∃ r ∈ rs, r.mode = .iteratorPair ∨ r.mode = .iterator) (k : Nat) : ∀ {it : ZipIt} {p : Int} (c : Int) (fuel : Nat),
    At rs it p → 0 ≤ p → p + k = n → last.i < p → k < fuel → distanceLoop rs last fuel it c = some .ub := by
  induction k with
  | zero =>
    intro it p c fuel h h0 hp hl hf
    obtain ⟨fuel, rfl⟩ : ∃ g, fuel = g + 1 := ⟨fuel - 1, by omega⟩
    have hne : zipNe it last = true := by
      have := h.1
      simp only [zipNe, zipEq, Bool.not_eq_true', beq_eq_false_iff_ne, ne_eq]
      omega
    obtain ⟨r, hr, hm⟩ := hit
    have hreal : IsReal r := by rcases hm with hm | hm <;> simp [IsReal, hm]
    have hlen := hn r hr hreal
    have hub : forLeaves leafInc rs it.pos = .ub := by
      refine forLeaves_fail (e' := .ub) (fun _ => rfl) (fun _ => rfl) h.2 ?_ ⟨r, hr, ?_⟩
      · intro r _ q _
        exact leafInc_or_ub r q
      · intro q hq
        have := hq hm
        rcases hm with hm | hm <;> · simp only [leafInc, hm, movePos]; rw [if_neg]; omega
    simp [distanceLoop, hne, zipInc, hub]
  | succ k ih =>
    intro it p c fuel h h0 hp hl hf
    obtain ⟨fuel, rfl⟩ : ∃ g, fuel = g + 1 := ⟨fuel - 1, by omega⟩
    have hne : zipNe it last = true := by
      have := h.1
      simp only [zipNe, zipEq, Bool.not_eq_true', beq_eq_false_iff_ne, ne_eq]
      omega
    obtain ⟨it', e, a⟩ := zipInc_at h (by omega) (fun r hr hR => by rw [hn r hr hR]; omega)
    simp only [distanceLoop, hne, if_true, e]
    exact ih _ fuel a (by omega) (by omega) (by omega) (by omega)

end Makeshift.ZipStd
