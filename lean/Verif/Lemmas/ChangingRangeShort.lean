import Verif.Lemmas.ChangingRange

/-! Helper lemmas for ranges without a size which turn out to be too short (C127). -/

namespace Makeshift.ChangingRange

open Makeshift.ChangingRange.Spec

variable {α σ β : Type}

/-- The loops up to the element number `m`, which need not be the last one. -/
theorem loop_upto {m n : Nat} {w0 : World α} {ls : List Leaf} {size : Size} {body : Body α σ} (hmn : m < n) (hsz : size.value = n)
    (hsu : size ≠ .static unknownSize) (Inv : Nat → World α → σ → Prop) (hin : ∀ i w s, Inv i w s → ∀ l ∈ ls, InPlace m w0 w l)
    (hf : ∀ l ∈ ls, Fresh m w0 l)
    (hb : ∀ i w s args w' s', Inv i w s → i < m → ls.mapM (elemAt w i) = some args → body w s args = (w', s', true) → Inv (i + 1) w' s') :
    ∀ (k i : Nat) (w : World α) (s : σ) (ps : List Pos), i + k = m → Inv i w s → PosAll w i ls ps →
    ∃ w' s' early, ByIndex ls body m i w s w' s' early ∧
      (early = true → ∀ fuel, k < fuel → loop ls size body fuel ⟨i, ps⟩ w s = .done (w', s') (.ok ()) ∧
        commonLoop ls n body fuel ⟨i, ps⟩ w s = .done (w', s') (.ok ())) ∧
      (early = false → Inv m w' s' ∧ ∃ ps', PosAll w' m ls ps' ∧ ∀ fuel,
        loop ls size body (fuel + k) ⟨i, ps⟩ w s = loop ls size body fuel ⟨m, ps'⟩ w' s' ∧
        commonLoop ls n body (fuel + k) ⟨i, ps⟩ w s = commonLoop ls n body fuel ⟨m, ps'⟩ w' s') := by
  intro k
  induction k with
  | zero =>
    intro i w s ps hk hi hp
    obtain rfl : i = m := by omega
    exact ⟨w, s, false, .finished, by simp, fun _ => ⟨hi, ps, hp, fun _ => ⟨rfl, rfl⟩⟩⟩
  | succ k ih =>
    intro i w s ps hk hi hp
    have hlt : i < m := by omega
    have hne : ¬ (i : Int) = n := by omega
    obtain ⟨us, hus⟩ := check_before hp (hin _ _ _ hi) hlt
    obtain ⟨args, hargs, hmap⟩ := derefs_at hp (hin _ _ _ hi) hf hlt
    cases hbody : body w s args with
    | mk w' r =>
      obtain ⟨s', go⟩ := r
      cases go with
      | false =>
        refine ⟨w', s', true, .returned hlt hmap hbody, ?_, by simp⟩
        intro _ fuel hfuel
        obtain ⟨fuel, rfl⟩ : ∃ m, fuel = m + 1 := ⟨fuel - 1, by omega⟩
        constructor
        · simp [loop, It.isEnd, hsu, hsz, hne, hus, Outcome.mapVal, It.deref, hargs, hbody]
        · simp [commonLoop, hne, It.deref, hargs, hbody]
      | true =>
        have hi' := hb i w s args w' s' hi hlt hmap hbody
        obtain ⟨ps', hps', hp'⟩ := incs_at hp (hin _ _ _ hi) (hin _ _ _ hi') hf hlt
        obtain ⟨w'', s'', early, h1, h2, h3⟩ := ih (i + 1) w' s' ps' (by omega) hi' hp'
        refine ⟨w'', s'', early, .step hlt hmap hbody h1, ?_, ?_⟩
        · intro he fuel hfuel
          obtain ⟨fuel, rfl⟩ : ∃ m, fuel = m + 1 := ⟨fuel - 1, by omega⟩
          obtain ⟨ha, hc⟩ := h2 he fuel (by omega)
          constructor
          · simpa [loop, It.isEnd, hsu, hsz, hne, hus, Outcome.mapVal, It.deref, hargs, hbody, It.inc, hps'] using ha
          · simpa [commonLoop, hne, It.deref, hargs, hbody, It.inc, hps', Outcome.mapVal] using hc
        · intro he
          obtain ⟨hI, ps'', hp'', h⟩ := h3 he
          refine ⟨hI, ps'', hp'', fun fuel => ?_⟩
          obtain ⟨ha, hc⟩ := h fuel
          rw [show fuel + (k + 1) = (fuel + k) + 1 by omega]
          constructor
          · rw [← ha]
            simp [loop, It.isEnd, hsu, hsz, hne, hus, Outcome.mapVal, It.deref, hargs, hbody, It.inc, hps']
          · rw [← hc]
            simp [commonLoop, hne, It.deref, hargs, hbody, It.inc, hps', Outcome.mapVal]

/-- Comparing to the sentinel where a range without a size has ended early. -/
theorem check_short {m : Nat} {w : World α} {ls : List Leaf} {ps : List Pos} (hp : PosAll w m ls ps)
    (h : ∃ c, Leaf.forwardList c ∈ ls ∧ (w.lists c).length ≤ m) : forAll (Leaf.checkEnd w false) ls ps = .failFast := by
  induction hp with
  | nil => obtain ⟨c, hc, -⟩ := h; cases hc
  | @cons l p ls ps hl _ ih =>
    have key : l.checkEnd w false p = .failFast ∨ (∀ c, l = .forwardList c → ¬ (w.lists c).length ≤ m) ∧ l.checkEnd w false p = .ok () := by
      cases l with
      | forwardList c =>
        cases hl
        simp only [Leaf.checkEnd, nodeIsEnd_at, Outcome.bind]
        by_cases he : (w.lists c).length ≤ m
        · left; simp [he, Outcome.expects]
        · right
          refine ⟨by rintro _ ⟨⟩; exact he, by simp [he, Outcome.expects]⟩
      | list c => exact .inr ⟨by rintro _ ⟨⟩, rfl⟩
      | vector c => exact .inr ⟨by rintro _ ⟨⟩, rfl⟩
      | index => exact .inr ⟨by rintro _ ⟨⟩, rfl⟩
    rcases key with hk | ⟨hk, hk'⟩
    · simp [forAll, hk, Outcome.bind]
    · obtain ⟨c, hc, hle⟩ := h
      rcases List.mem_cons.mp hc with hc | hc
      · exact absurd hle (hk c hc.symm)
      · simp [forAll, hk', ih ⟨c, hc, hle⟩, Outcome.bind, Outcome.mapVal]

/-- Dereferencing where a range without a size has ended early. -/
theorem deref_short {m : Nat} {w : World α} {ls : List Leaf} {ps : List Pos} (hp : PosAll w m ls ps)
    (h : ∃ c, Leaf.forwardList c ∈ ls ∧ (w.lists c).length ≤ m) : forAll (Leaf.deref w m) ls ps = .ub := by
  have node : ∀ c (l : List (Nat × α)) p, (∃ r, nodeDeref c l p = .ok r) ∨ nodeDeref c l p = .ub := by
    intro c l p
    cases p with
    | none => exact .inr rfl
    | some id =>
      simp only [nodeDeref]
      cases valueOf id l with
      | none => exact .inr rfl
      | some v => exact .inl ⟨_, rfl⟩
  induction hp with
  | nil => obtain ⟨c, hc, -⟩ := h; cases hc
  | @cons l p ls ps hl _ ih =>
    have key : l.deref w m p = .ub ∨ (∀ c, l = .forwardList c → ¬ (w.lists c).length ≤ m) ∧ ∃ r, l.deref w m p = .ok r := by
      cases l with
      | forwardList c =>
        cases hl
        by_cases he : (w.lists c).length ≤ m
        · left; simp [Leaf.deref, List.getElem?_eq_none_iff.mpr he, nodeDeref]
        · rcases node c (w.lists c) ((w.lists c)[m]?.map (·.1)) with h | h
          · exact .inr ⟨by rintro _ ⟨⟩; exact he, h⟩
          · exact .inl h
      | list c =>
        cases hl
        rcases node c (w.lists c) ((w.lists c)[m]?.map (·.1)) with h | h
        · exact .inr ⟨by rintro _ ⟨⟩, h⟩
        · exact .inl h
      | vector c =>
        cases hl
        cases hv : (w.vecs c).elems[m]? with
        | none => left; simp [Leaf.deref, hv]
        | some v => exact .inr ⟨by rintro _ ⟨⟩, _, by simp [Leaf.deref, hv]; rfl⟩
      | index => exact .inr ⟨by rintro _ ⟨⟩, .idx m, by cases p <;> rfl⟩
    rcases key with hk | ⟨hk, r, hk'⟩
    · simp [forAll, hk, Outcome.bind]
    · obtain ⟨c, hc, hle⟩ := h
      rcases List.mem_cons.mp hc with hc | hc
      · exact absurd hle (hk c hc.symm)
      · simp [forAll, hk', ih ⟨c, hc, hle⟩, Outcome.bind, Outcome.mapVal]

end Makeshift.ChangingRange
