import Verif.Model.Unchecked
import Verif.Spec.Unchecked
import Verif.Lemmas.Zip

/-! Helper lemmas for range algorithms without contract checks. -/

namespace Makeshift.Unchecked

open Makeshift Makeshift.Spec Makeshift.Unchecked.Spec

variable {α σ β : Type}

/-! ## checks switched on: the model of `Model.Zip` -/

theorem mergeSizes0_on (s t : Size) : mergeSizes0 .on s t = Makeshift.mergeSizes0 s t := by
  cases s <;> cases t <;> simp [mergeSizes0, Makeshift.mergeSizes0, Checks.merge]

theorem mergeSizes_on (l : List Size) : mergeSizes .on l = Makeshift.mergeSizes l := by
  induction hm : l.length using Nat.strongRecOn generalizing l with
  | _ m ih =>
  match l with
  | [] => rw [mergeSizes, Makeshift.mergeSizes]
  | [s] => rw [mergeSizes, Makeshift.mergeSizes]
  | .static n1 :: .static n2 :: rest =>
    rw [mergeSizes, Makeshift.mergeSizes, mergeSizes0_on]
    cases h : Makeshift.mergeSizes0 (.static n1) (.static n2) with
    | ok s => exact ih _ (by rw [← hm]; simp) _ rfl
    | staticMismatch => rfl
    | failFast => rfl
  | .static n1 :: .dyn n2 :: rest =>
    rw [mergeSizes, Makeshift.mergeSizes, ih _ (by rw [← hm]; simp) _ rfl]
    simp only [mergeSizes0_on]
  | .dyn n1 :: .static n2 :: rest =>
    rw [mergeSizes, Makeshift.mergeSizes, ih _ (by rw [← hm]; simp) _ rfl]
    simp only [mergeSizes0_on]
  | .dyn n1 :: .dyn n2 :: rest =>
    rw [mergeSizes, Makeshift.mergeSizes, ih _ (by rw [← hm]; simp) _ rfl]
    simp only [mergeSizes0_on]

theorem isEnd2_on (a b : Option Bool) : isEnd2 .on a b = Makeshift.isEnd2 a b := by cases a <;> cases b <;> rfl

theorem isEndVal_on : ∀ l : List (Option Bool), isEndVal .on l = Makeshift.isEndVal l
  | [] => rfl
  | [a] => rfl
  | [a, b] => isEnd2_on a b
  | a :: b :: d :: es => by
    simp only [isEndVal, Makeshift.isEndVal, isEnd2_on]
    rw [isEndVal_on (d :: es)]

theorem leafCheckEnd_on (e : Bool) : leafCheckEnd (α := α) .on e = Makeshift.leafCheckEnd e := by
  funext r p
  cases h : r.mode <;> simp [leafCheckEnd, Makeshift.leafCheckEnd, h, Checks.expects]

theorem zipIsEnd_on (rs : List (Rng α)) (size : Size) (it : ZipIt) : zipIsEnd .on rs size it = Makeshift.zipIsEnd rs size it := by
  simp only [zipIsEnd, Makeshift.zipIsEnd, isEndVal_on, leafCheckEnd_on]

theorem zipLoop_on (rs : List (Rng α)) (size : Size) (body : σ → List (Arg α) → σ × Bool) (fuel : Nat) (it : ZipIt) (s : σ) :
    zipLoop .on rs size body fuel it s = Makeshift.zipLoop rs size body fuel it s := by
  induction fuel generalizing it s with
  | zero => rfl
  | succ fuel ih =>
    simp only [zipLoop, Makeshift.zipLoop, zipIsEnd_on]
    cases Makeshift.zipIsEnd rs size it with
    | ok b =>
      cases b with
      | true => rfl
      | false =>
        simp only
        cases zipDeref rs it with
        | ok args =>
          simp only
          split
          · cases zipInc rs it with
            | ok it' => exact ih _ _
            | _ => rfl
          · rfl
        | _ => rfl
    | _ => rfl

theorem zipAlgorithm_on (rs : List (Rng α)) (body : σ → List (Arg α) → σ × Bool) (fuel : Nat) (init : σ) :
    zipAlgorithm .on rs body fuel init = Makeshift.zipAlgorithm rs body fuel init := by
  simp only [zipAlgorithm, Makeshift.zipAlgorithm, mergeSizes_on, zipLoop_on]
  cases Makeshift.mergeSizes (rs.map Rng.size) <;> rfl

/-! ## checks switched off: the size -/

/-- Which size is selected: a known one, and one known at compile time if there is any. -/
structure Pick (l : List Size) (z : Size) : Prop where
  isSize : IsSize z
  mem : known z ≠ none → z ∈ l
  static : ¬ staticKnown z → ∀ s ∈ l, ¬ staticKnown s
  none : known z = none → ∀ s ∈ l, known s = none

theorem pick_single (s : Size) (hs : IsSize s) : Pick [s] s where
  isSize := hs
  mem := by simp
  static := by simp
  none := by simp

theorem pick_iff_known_none {s : Size} : known s = none ↔ s = .static (-1) := by
  cases s with
  | static n => simp [known]
  | dyn n => simp [known]

theorem merge0_off (s t : Size) (hs : IsSize s) (ht : IsSize t) :
    (∃ z, mergeSizes0 .off s t = .ok z ∧ Pick [s, t] z) ∨
    (mergeSizes0 .off s t = .staticMismatch ∧ ∃ n m, s = .static n ∧ t = .static m ∧ n ≠ -1 ∧ m ≠ -1 ∧ n ≠ m) := by
  cases s with
  | static a =>
    cases t with
    | static b =>
      simp only [mergeSizes0, unknownSize]
      by_cases h : a = -1 ∨ b = -1 ∨ a = b
      · left
        rw [if_pos h]
        refine ⟨_, rfl, ⟨?_, ?_, ?_, ?_⟩⟩
        · simp only [IsSize] at *; split <;> assumption
        · intro _; by_cases ha : a = -1 <;> simp [ha]
        · intro hk s hs'
          simp only [List.mem_cons, List.not_mem_nil, or_false] at hs'
          by_cases ha : a = -1
          · simp only [ha, if_true, staticKnown, ne_eq, not_not] at hk
            rcases hs' with rfl | rfl <;> simp [staticKnown, ha, hk]
          · simp [ha, staticKnown] at hk
        · intro hk s hs'
          simp only [List.mem_cons, List.not_mem_nil, or_false] at hs'
          by_cases ha : a = -1
          · simp only [ha, if_true, known] at hk
            rcases hs' with rfl | rfl
            · simp [known, ha]
            · simpa [known] using hk
          · simp [ha, known] at hk
      · right
        rw [if_neg h]
        exact ⟨rfl, a, b, rfl, rfl, by tauto, by tauto, by tauto⟩
    | dyn b =>
      left
      simp only [mergeSizes0, unknownSize, Checks.merge]
      by_cases ha : a = -1
      · rw [if_pos ha]
        refine ⟨_, rfl, ⟨ht, by simp, ?_, by simp [known]⟩⟩
        intro _ s hs'
        simp only [List.mem_cons, List.not_mem_nil, or_false] at hs'
        rcases hs' with rfl | rfl <;> simp [staticKnown, ha]
      · rw [if_neg ha]
        exact ⟨_, rfl, ⟨hs, by simp, by simp [staticKnown, ha], by simp [known, ha]⟩⟩
  | dyn a =>
    cases t with
    | static b =>
      left
      simp only [mergeSizes0, unknownSize, Checks.merge]
      by_cases hb : b = -1
      · rw [if_pos hb]
        refine ⟨_, rfl, ⟨hs, by simp, ?_, by simp [known]⟩⟩
        intro _ s hs'
        simp only [List.mem_cons, List.not_mem_nil, or_false] at hs'
        rcases hs' with rfl | rfl <;> simp [staticKnown, hb]
      · rw [if_neg hb]
        exact ⟨_, rfl, ⟨ht, by simp, by simp [staticKnown, hb], by simp [known, hb]⟩⟩
    | dyn b =>
      left
      simp only [IsSize] at hs ht
      simp only [mergeSizes0, unknownSize, Checks.merge]
      rw [if_neg (by omega)]
      exact ⟨_, rfl, ⟨hs, by simp, by simp [staticKnown], by simp [known]⟩⟩

theorem Pick.trans {a b l : List Size} {z w : Size} (h1 : Pick a z) (h2 : Pick b w)
    (hzb : z ∈ b) (hab : ∀ s ∈ l, s ∈ a ∨ s ∈ b) (hal : ∀ s ∈ a, s ∈ l) (hbl : ∀ s ∈ b, s = z ∨ s ∈ l) :
    Pick l w where
  isSize := h2.isSize
  mem := by
    intro hk
    rcases hbl w (h2.mem hk) with rfl | h
    · exact hal _ (h1.mem hk)
    · exact h
  static := by
    intro hk s hs
    rcases hab s hs with h | h
    · exact h1.static (h2.static hk z hzb) s h
    · exact h2.static hk s h
  none := by
    intro hk s hs
    rcases hab s hs with h | h
    · exact h1.none (h2.none hk z hzb) s h
    · exact h2.none hk s h

theorem merge_off (l : List Size) (hl : ∀ s ∈ l, IsSize s) :
    (∃ z, mergeSizes .off l = .ok z ∧ Pick l z) ∨
    (mergeSizes .off l = .staticMismatch ∧
      ∃ n m, Size.static n ∈ l ∧ Size.static m ∈ l ∧ n ≠ -1 ∧ m ≠ -1 ∧ n ≠ m) := by
  induction hm : l.length using Nat.strongRecOn generalizing l with
  | _ m ih =>
  have static_mem : ∀ {a : List Size} {w : Size} {n : Int}, Pick a w → w = .static n → n ≠ -1 → Size.static n ∈ a := by
    intro a w n hp hw hn
    subst hw
    exact hp.mem (by simp [known, hn])
  have rest_first : ∀ (x y : Size) (rest : List Size), (∀ s ∈ rest ++ [y], s ∈ l) → x ∈ l →
      (∀ s ∈ l, s = x ∨ s ∈ rest ++ [y]) → (rest ++ [y]).length < m → ∀ g : Size → MergeResult,
      (∀ s, IsSize s → (∃ z, g s = .ok z ∧ Pick [x, s] z) ∨
        (g s = .staticMismatch ∧ ∃ n m, x = .static n ∧ s = .static m ∧ n ≠ -1 ∧ m ≠ -1 ∧ n ≠ m)) →
      (∃ z, (mergeSizes .off (rest ++ [y])).bind g = .ok z ∧ Pick l z) ∨
      ((mergeSizes .off (rest ++ [y])).bind g = .staticMismatch ∧
        ∃ n m, Size.static n ∈ l ∧ Size.static m ∈ l ∧ n ≠ -1 ∧ m ≠ -1 ∧ n ≠ m) := by
    intro x y rest hsub hx hsup hlen g hg
    rcases ih _ hlen (rest ++ [y]) (fun s hs => hl s (hsub s hs)) rfl with ⟨w, hw, hsum⟩ | ⟨hno, n, m', h1, h2, h3, h4, h5⟩
    · rw [hw]
      simp only [MergeResult.bind]
      rcases hg w hsum.isSize with ⟨z, hz, hs2⟩ | ⟨hno, n, m', hn, hm', h3, h4, hne⟩
      · left
        refine ⟨z, hz, hsum.trans hs2 (by simp) ?_ hsub ?_⟩
        · intro s hs
          rcases hsup s hs with rfl | h
          · right; simp
          · left; exact h
        · intro s hs
          simp only [List.mem_cons, List.not_mem_nil, or_false] at hs
          rcases hs with rfl | rfl
          · right; exact hx
          · left; rfl
      · right
        exact ⟨hno, n, m', by rw [← hn]; exact hx, hsub _ (static_mem hsum hm' h4), h3, h4, hne⟩
    · right
      rw [hno]
      exact ⟨rfl, n, m', hsub _ h1, hsub _ h2, h3, h4, h5⟩
  match l, hl, rest_first with
  | [], _, _ =>
    left
    exact ⟨.static (-1), by rw [mergeSizes], ⟨by simp [IsSize], by simp [known], by simp, by simp⟩⟩
  | [s], hl, _ => left; exact ⟨s, by rw [mergeSizes], pick_single s (hl s (by simp))⟩
  | .static n1 :: .static n2 :: rest, hl, _ =>
    rw [mergeSizes]
    have hal : ∀ s ∈ [Size.static n1, Size.static n2], s ∈ Size.static n1 :: Size.static n2 :: rest := by
      intro s hs'; simp only [List.mem_cons, List.not_mem_nil, or_false] at hs' ⊢; tauto
    rcases merge0_off (.static n1) (.static n2) (hl _ (by simp)) (hl _ (by simp)) with
      ⟨z, hz, hs⟩ | ⟨hno, n, m', hn, hm', h3, h4, hne⟩
    · rw [hz]
      simp only
      have hsz : ∀ s ∈ z :: rest, IsSize s := by
        intro s hs'
        rcases List.mem_cons.mp hs' with rfl | h
        · exact hs.isSize
        · exact hl s (by simp [h])
      have hbl : ∀ s ∈ z :: rest, s = z ∨ s ∈ Size.static n1 :: Size.static n2 :: rest := by
        intro s hs'; simp only [List.mem_cons] at hs' ⊢; tauto
      rcases ih _ (by rw [← hm]; simp) (z :: rest) hsz rfl with ⟨w, hw, hs2⟩ | ⟨hno, n, m', h1, h2, h3, h4, h5⟩
      · left
        refine ⟨w, hw, hs.trans hs2 (by simp) ?_ hal hbl⟩
        intro s hs'; simp only [List.mem_cons, List.not_mem_nil, or_false] at hs' ⊢; tauto
      · right
        have lift : ∀ k, Size.static k ∈ z :: rest → k ≠ -1 → Size.static k ∈ Size.static n1 :: Size.static n2 :: rest := by
          intro k hk hk1
          rcases hbl _ hk with h | h
          · exact hal _ (static_mem hs h.symm hk1)
          · exact h
        exact ⟨hno, n, m', lift n h1 h3, lift m' h2 h4, h3, h4, h5⟩
    · right
      rw [hno]
      cases hn
      cases hm'
      exact ⟨rfl, n1, n2, by simp, by simp, h3, h4, hne⟩
  | .static n1 :: .dyn n2 :: rest, hl, rest_first =>
    rw [mergeSizes]
    refine rest_first (.static n1) (.dyn n2) rest ?_ (by simp) ?_ (by rw [← hm]; simp) _
      (fun s hs => merge0_off _ s (hl _ (by simp)) hs)
    · intro s hs; simp only [List.mem_append, List.mem_cons, List.not_mem_nil, or_false] at hs ⊢; tauto
    · intro s hs; simp only [List.mem_append, List.mem_cons, List.not_mem_nil, or_false] at hs ⊢; tauto
  | .dyn n1 :: .static n2 :: rest, hl, rest_first =>
    rw [mergeSizes]
    refine rest_first (.static n2) (.dyn n1) rest ?_ (by simp) ?_ (by rw [← hm]; simp) _
      (fun s hs => merge0_off _ s (hl _ (by simp)) hs)
    · intro s hs; simp only [List.mem_append, List.mem_cons, List.not_mem_nil, or_false] at hs ⊢; tauto
    · intro s hs; simp only [List.mem_append, List.mem_cons, List.not_mem_nil, or_false] at hs ⊢; tauto
  | .dyn n1 :: .dyn n2 :: rest, hl, rest_first =>
    rw [mergeSizes]
    refine rest_first (.dyn n2) (.dyn n1) rest ?_ (by simp) ?_ (by rw [← hm]; simp) _ ?_
    · intro s hs; simp only [List.mem_append, List.mem_cons, List.not_mem_nil, or_false] at hs ⊢; tauto
    · intro s hs; simp only [List.mem_append, List.mem_cons, List.not_mem_nil, or_false] at hs ⊢; tauto
    · intro s hs
      rcases merge0_off s (.dyn n2) hs (hl _ (by simp)) with ⟨z, hz, hp⟩ | ⟨hno, n, m', hn, hm', -⟩
      · left
        have hsw : ∀ t, t ∈ [Size.dyn n2, s] ↔ t ∈ [s, Size.dyn n2] := by
          intro t; simp only [List.mem_cons, List.not_mem_nil, or_false]; tauto
        exact ⟨z, hz, ⟨hp.isSize, fun h => (hsw z).mpr (hp.mem h), fun h t ht => hp.static h t ((hsw t).mp ht),
          fun h t ht => hp.none h t ((hsw t).mp ht)⟩⟩
      · simp at hm'

/-! ## checks switched off: the end test -/

theorem isEnd2_off (a b : Option Bool) : isEnd2 .off a b = .ok (a.orElse fun _ => b) := by cases a <;> cases b <;> rfl

/-- The first answer counts. -/
theorem isEndVal_off : ∀ l : List (Option Bool), isEndVal .off l = .ok (l.foldr (fun a b => a.orElse fun _ => b) none)
  | [] => rfl
  | [a] => by cases a <;> rfl
  | [a, b] => by rw [isEndVal, isEnd2_off]; cases a <;> cases b <;> rfl
  | a :: b :: d :: es => by
    simp only [isEndVal, isEnd2_off, isEndVal_off (d :: es), Outcome.bind_ok]
    cases a <;> cases b <;> rfl

theorem leavesIsEnd_first {rs : List (Rng α)} {ps : List Int} {p : Int}
    (h : List.Forall₂ (fun r q => r.mode = .iteratorPair ∨ r.mode = .iterator → q = p) rs ps) {pre post : List (Rng α)}
    {r : Rng α} (hrs : rs = pre ++ r :: post) (hpre : ∀ q ∈ pre, q.mode ≠ .iteratorPair) (hr : r.mode = .iteratorPair) :
    (leavesIsEnd rs ps).foldr (fun a b => a.orElse fun _ => b) none = some (decide (p = r.elems.length)) := by
  induction pre generalizing rs ps with
  | nil =>
    subst hrs
    cases h with
    | cons h1 h2 =>
      simp [leavesIsEnd, leafIsEnd, hr, h1 (Or.inl hr), Option.orElse]
  | cons q pre ih =>
    subst hrs
    cases h with
    | cons h1 h2 =>
      have := ih h2 rfl (fun q' hq' => hpre q' (by simp [hq']))
      have hq := hpre q (by simp)
      have hl : leafIsEnd q ‹Int› = none := by unfold leafIsEnd; cases hm : q.mode <;> simp_all
      rw [List.cons_append, leavesIsEnd, List.foldr_cons, hl]
      exact this

theorem zipIsEnd_off_unknown {rs : List (Rng α)} {it : ZipIt} {p : Int} (h : At rs it p) {pre post : List (Rng α)}
    {r : Rng α} (hrs : rs = pre ++ r :: post) (hpre : ∀ q ∈ pre, q.mode ≠ .iteratorPair) (hr : r.mode = .iteratorPair) :
    zipIsEnd .off rs (.static (-1)) it = .ok (decide (p = r.elems.length)) := by
  unfold zipIsEnd
  rw [if_pos rfl, isEndVal_off, leavesIsEnd_first h.2 hrs hpre hr]
  rfl

theorem zipIsEnd_off_sized {rs : List (Rng α)} {it : ZipIt} {p : Int} {size : Size} (hs : size ≠ .static (-1)) (h : At rs it p) :
    zipIsEnd .off rs size it = .ok (decide (p = size.value)) := by
  unfold zipIsEnd
  rw [if_neg hs]
  obtain ⟨bs, hb, -⟩ := forLeaves_ok (f := leafCheckEnd .off (decide (it.i = size.value))) (Q := fun _ _ => True) h.2 (by
    intro r _ q _
    unfold leafCheckEnd
    cases r.mode <;> exact ⟨(), rfl, trivial⟩)
  simp only [hb, Outcome.bind_ok]
  rw [h.1]

theorem zipLoop_off_steps (rs : List (Rng α)) (size : Size) (body : σ → List (Arg α) → σ × Bool)
    (ts : List (List (Arg α))) (p : Nat) (it : ZipIt) (s : σ) (fuel : Nat) (h : At rs it p) (hts : TuplesFrom rs p ts)
    (hlen : ∀ r ∈ rs, IsReal r → p + ts.length ≤ r.elems.length)
    (hend : ∀ j : Nat, p ≤ j → j < p + ts.length → ∀ it', At rs it' j → zipIsEnd .off rs size it' = .ok false) :
    ∃ it', At rs it' (p + ts.length : Nat) ∧ zipLoop .off rs size body (fuel + ts.length) it s =
      if (runBody body s ts).2 then zipLoop .off rs size body fuel it' (runBody body s ts).1
      else .done (runBody body s ts).1 (.ok ()) := by
  induction ts generalizing p it s with
  | nil => exact ⟨it, by simpa using h, by simp [runBody]⟩
  | cons t ts ih =>
    simp only [List.length_cons] at hlen hend
    obtain ⟨args, hd, hargs⟩ := zipDeref_at h (fun r hr hm => by have := hlen r hr hm; omega)
    have hta : List.Forall₂ (ArgAt p) rs t := by simpa using hts 0 t rfl
    have : args = t := tuple_unique hargs hta
    subst this
    obtain ⟨it1, hi1, ha1⟩ := zipInc_at h (by omega) (fun r hr hm => by have := hlen r hr hm; omega)
    have hit := ih (p + 1) it1 (body s args).1 (by simpa using ha1) (tuplesFrom_tail hts)
      (fun r hr hm => by have := hlen r hr hm; omega) (fun j h1 h2 => hend j (by omega) (by omega))
    obtain ⟨it2, ha2, heq⟩ := hit
    refine ⟨it2, by rw [List.length_cons, show p + (ts.length + 1) = p + 1 + ts.length by omega]; exact ha2, ?_⟩
    rw [List.length_cons, show fuel + (ts.length + 1) = (fuel + ts.length) + 1 by omega, zipLoop,
      hend p (by omega) (by omega) it h, hd]
    simp only [runBody]
    by_cases hb : (body s args).2 = true
    · simp only [hb, if_true]; rw [hi1]; exact heq
    · simp only [hb]; simp

/-- Reading where one of the ranges has ended. -/
theorem zipDeref_ub {rs : List (Rng α)} {it : ZipIt} {p : Nat} (h : At rs it p)
    (hex : ∃ r ∈ rs, IsReal r ∧ r.elems.length = p) : zipDeref rs it = .ub := by
  obtain ⟨hi, hp⟩ := h
  have hread : ∀ r ∈ rs, ∀ q, (r.mode = .iteratorPair ∨ r.mode = .iterator → q = (p : Int)) → IsReal r →
      leafDeref it.i r q = readAt r p := by
    intro r _ q hq hR
    unfold leafDeref
    cases hm : r.mode with
    | iteratorPair => simp only [hq (Or.inl hm)]
    | iterator => simp only [hq (Or.inr hm)]
    | index => simp only [hi]
    | rangeIndex => exact absurd hm hR
  refine forLeaves_fail (e := .ub) (e' := .ub) (fun _ => rfl) (fun _ => rfl) hp ?_ ?_
  · intro r hr q hq
    by_cases hR : IsReal r
    · rw [hread r hr q hq hR]
      by_cases hlt : (p : Int) < r.elems.length
      · obtain ⟨x, -, he⟩ := readAt_ok (r := r) (p := p) (by omega) hlt
        exact Or.inl ⟨_, he⟩
      · exact Or.inr (readAt_ub (Or.inr (by omega)))
    · left
      have hm : r.mode = .rangeIndex := by simpa [IsReal] using hR
      exact ⟨_, by unfold leafDeref; rw [hm]⟩
  · obtain ⟨r, hr, hR, hl⟩ := hex
    refine ⟨r, hr, fun q hq => ?_⟩
    rw [hread r hr q hq hR]
    exact readAt_ub (Or.inr (by omega))

/-- The first range without a size. -/
theorem first_real (rs : List (Rng α)) (h : ∃ r ∈ rs, IsReal r) :
    ∃ before r after, rs = before ++ r :: after ∧ (∀ q ∈ before, ¬ IsReal q) ∧ IsReal r := by
  induction rs with
  | nil => simp at h
  | cons a rs ih =>
    by_cases ha : IsReal a
    · exact ⟨[], a, rs, rfl, by simp, ha⟩
    · obtain ⟨b, r, c, rfl, h1, h2⟩ := ih (by
        obtain ⟨r, hr, hR⟩ := h
        rcases List.mem_cons.mp hr with rfl | hr
        · exact absurd hR ha
        · exact ⟨r, hr, hR⟩)
      exact ⟨a :: b, r, c, rfl, by simpa [ha] using h1, h2⟩

/-- What any of the algorithms does without checks. -/
theorem zipAlgorithm_off (rs : List (Rng α)) (hv : ValidArgs rs) (hst : StaticSizesAgree rs) :
    ∃ L : Nat, Decides rs L ∧ (∃ r ∈ rs, IsReal r ∧ r.elems.length = L) ∧
      (∀ n : Int, mergeSizes .off (rs.map Rng.size) = .ok (.dyn n) → n = L) ∧
      ∀ (body : σ → List (Arg α) → σ × Bool) (init : σ) (fuel : Nat),
      (AtLeast rs L → L < fuel → ∃ ts, Zipped rs L ts ∧ zipAlgorithm .off rs body fuel init = .done (runBody body init ts).1 (.ok ())) ∧
      (∀ m, (∃ r ∈ rs, IsReal r ∧ r.elems.length = m) → AtLeast rs m → m < L → m < fuel →
        ∃ ts, Zipped rs m ts ∧ zipAlgorithm .off rs body fuel init =
          .done (runBody body init ts).1 (if (runBody body init ts).2 then .ub else .ok ())) := by
  obtain ⟨hval, hex, hlc⟩ := hv
  have hv : ValidArgs rs := ⟨hval, hex, hlc⟩
  obtain ⟨z, hz, hpick⟩ : ∃ z, mergeSizes .off (rs.map Rng.size) = .ok z ∧ Pick (rs.map Rng.size) z := by
    rcases merge_off (rs.map Rng.size) (sizes_ok hval) with h | ⟨-, n, m, hn, hm, h1, h2, h3⟩
    · exact h
    · exfalso
      obtain ⟨r, hr, hrn⟩ := List.mem_map.mp hn
      obtain ⟨r', hr', hrm⟩ := List.mem_map.mp hm
      have k1 : known r.size = some n := by rw [hrn]; simp [known, h1]
      have k2 : known r'.size = some m := by rw [hrm]; simp [known, h2]
      have e1 := (validRange_known (hval r hr) k1).1
      have e2 := (validRange_known (hval r' hr') k2).1
      have := hst r hr r' hr' r.elems.length r'.elems.length (by rw [hrn, e1]) (by rw [hrm, e2])
      omega
  have hsent : sentinelWellFormed rs z = true := by
    unfold sentinelWellFormed
    by_cases h : z = .static unknownSize
    · rw [if_pos h]
      have hnone : ∀ r ∈ rs, known r.size = none := fun r hr =>
        hpick.none (by rw [h]; simp [known]) r.size (List.mem_map_of_mem hr)
      have hmode : ∀ r ∈ rs, leafEndTy r = .bool ↔ IsReal r := by
        intro r hr
        unfold leafEndTy
        constructor
        · intro he hc; rw [hc] at he; simp at he
        · intro hR; rw [if_pos (validRange_unsized (hval r hr) hR (hnone r hr))]
      rw [decide_eq_true_iff, isEndTy_iff]
      obtain ⟨r0, hr0, hreal⟩ := hex
      constructor
      · exact List.mem_map.mpr ⟨r0, hr0, (hmode r0 hr0).mpr hreal⟩
      · intro k hk
        rw [← List.map_drop] at hk ⊢
        rcases hlc with ⟨r, hr, hne⟩ | hlc
        · exact absurd (known_none (hnone r hr)) hne
        · obtain ⟨r, hr, hR⟩ := hlc k (by simpa using hk)
          exact List.mem_map.mpr ⟨r, hr, (hmode r (List.mem_of_mem_drop hr)).mpr hR⟩
    · rw [if_neg h]
  -- the end test
  obtain ⟨L, hdec, hreal, hdyn, hend⟩ : ∃ L : Nat, Decides rs L ∧ (∃ r ∈ rs, IsReal r ∧ r.elems.length = L) ∧
      (∀ n : Int, z = .dyn n → n = L) ∧
      ∀ it (p : Nat), At rs it p → zipIsEnd .off rs z it = .ok (decide (p = L)) := by
    cases hk : known z with
    | none =>
      have hz' := known_none hk
      have hnone : ∀ r ∈ rs, known r.size = none := fun r hr => hpick.none hk r.size (List.mem_map_of_mem hr)
      obtain ⟨before, r, after, hrs, hb, hR⟩ := first_real rs hex
      have hrm : r ∈ rs := by rw [hrs]; simp
      refine ⟨r.elems.length, Or.inr (Or.inr ⟨fun r hr => known_none (hnone r hr), before, r, after, hrs, hb, hR, rfl⟩),
        ⟨r, hrm, hR, rfl⟩, fun n hn => (by rw [hz'] at hn; cases hn), fun it p hat => ?_⟩
      subst hz'
      rw [zipIsEnd_off_unknown hat hrs (fun q hq hc => hb q hq (by simp [IsReal, hc])) (validRange_unsized (hval r hrm) hR (hnone r hrm))]
      congr 1
      rw [decide_eq_decide]; omega
    | some n =>
      obtain ⟨hval', hne⟩ := value_of_known hk
      obtain ⟨r, hr, hrz⟩ := List.mem_map.mp (hpick.mem (by simp [hk]))
      obtain ⟨hn, hR⟩ := validRange_known (hval r hr) (by rw [hrz]; exact hk)
      refine ⟨r.elems.length, ?_, ⟨r, hr, hR, rfl⟩, fun k hk' => ?_, fun it p hat => ?_⟩
      · cases z with
        | static a =>
          left
          simp only [known] at hk
          split at hk
          · simp at hk
          · simp only [Option.some.injEq] at hk
            exact ⟨r, hr, by rw [hrz, hk, hn]⟩
        | dyn a =>
          right; left
          simp only [known, Option.some.injEq] at hk
          refine ⟨fun q hq k hqk => ?_, r, hr, by rw [hrz, hk, hn]⟩
          have := hpick.static (by simp [staticKnown]) q.size (List.mem_map_of_mem hq)
          rw [hqk] at this
          simpa [staticKnown] using this
      · subst hk'
        simp only [known, Option.some.injEq] at hk
        omega
      · rw [zipIsEnd_off_sized hne hat, hval', hn]
        congr 1
        rw [decide_eq_decide]; omega
  refine ⟨L, hdec, hreal, fun n hn => hdyn n (by rw [hz] at hn; exact MergeResult.ok.inj hn), fun body init fuel => ⟨fun hge hfuel => ?_, fun m hm hge hlt hfuel => ?_⟩⟩
  · obtain ⟨ts, hl, hts⟩ := tuplesFrom_exists (rs := rs) 0 L (by simpa [AtLeast] using hge)
    refine ⟨ts, ⟨hl, by intro i args hi; simpa using hts i args hi⟩, ?_⟩
    unfold zipAlgorithm
    rw [not_all_index hex]
    simp only [Bool.false_eq_true, if_false, hz, hsent, if_true]
    obtain ⟨f', rfl⟩ : ∃ f', fuel = (f' + 1) + ts.length := ⟨fuel - 1 - ts.length, by omega⟩
    obtain ⟨it', hat, heq⟩ := zipLoop_off_steps rs z body ts 0 (zipBegin rs) init (f' + 1) (at_begin rs) hts
      (by simpa [hl, AtLeast] using hge) (fun j _ hj it hat => by
        rw [hend it j hat]; congr 1; rw [decide_eq_false_iff_not]; omega)
    rw [heq]
    cases hb : (runBody body init ts).2 with
    | false => simp
    | true =>
      simp only [if_true]
      rw [zipLoop, hend it' _ hat]
      simp [hl]
  · obtain ⟨ts, hl, hts⟩ := tuplesFrom_exists (rs := rs) 0 m (by simpa [AtLeast] using hge)
    refine ⟨ts, ⟨hl, by intro i args hi; simpa using hts i args hi⟩, ?_⟩
    unfold zipAlgorithm
    rw [not_all_index hex]
    simp only [Bool.false_eq_true, if_false, hz, hsent, if_true]
    obtain ⟨f', rfl⟩ : ∃ f', fuel = (f' + 1) + ts.length := ⟨fuel - 1 - ts.length, by omega⟩
    obtain ⟨it', hat, heq⟩ := zipLoop_off_steps rs z body ts 0 (zipBegin rs) init (f' + 1) (at_begin rs) hts
      (by simpa [hl, AtLeast] using hge) (fun j _ hj it hat => by
        rw [hend it j hat]; congr 1; rw [decide_eq_false_iff_not]; omega)
    rw [heq]
    cases hb : (runBody body init ts).2 with
    | false => simp
    | true =>
      simp only [if_true]
      have hat' : At rs it' (m : Nat) := by rw [Nat.zero_add, hl] at hat; exact hat
      rw [zipLoop, hend it' _ hat', zipDeref_ub hat' hm]
      have : decide (m = L) = false := by rw [decide_eq_false_iff_not]; omega
      simp [this]

end Makeshift.Unchecked
