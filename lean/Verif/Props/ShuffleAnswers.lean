import Verif.Lemmas.ShuffleAnswers

/-! # C167: shuffling with a generator which throws, or whose numbers depend on each other -/

namespace Makeshift.Props

open Makeshift.ShuffleAnswers Makeshift.ShuffleAnswers.Spec

variable {α : Type}

/-- Whatever the generator answers: the range is rearranged unless behaviour is undefined; at most one number for every element but one is drawn, and exactly so many if the function returns; the first exception ends it
and reaches the caller; and behaviour is undefined only if it is so in the generator, or if the last number drawn is no position of the range. -/
theorem C167_run (w : Answers) (l : List α) :
    ((ShuffleAnswers.shuffle w l).out ≠ .ub → (ShuffleAnswers.shuffle w l).elems.Perm l) ∧ Answered w (ShuffleAnswers.shuffle w l).draws ∧
    (((ShuffleAnswers.shuffle w l).out = .ok () ∧ (ShuffleAnswers.shuffle w l).draws.length = l.length - 1) ∨
     ((ShuffleAnswers.shuffle w l).draws.length < l.length - 1 ∧
       ((∃ e, w (ShuffleAnswers.shuffle w l).draws = .throw e ∧ (ShuffleAnswers.shuffle w l).out = .throw e) ∨
        (w (ShuffleAnswers.shuffle w l).draws = .failFast ∧ (ShuffleAnswers.shuffle w l).out = .failFast) ∨
        (w (ShuffleAnswers.shuffle w l).draws = .ub ∧ (ShuffleAnswers.shuffle w l).out = .ub))) ∨
     ((ShuffleAnswers.shuffle w l).out = .ub ∧ (ShuffleAnswers.shuffle w l).draws.length ≤ l.length - 1 ∧
       ∃ d, (ShuffleAnswers.shuffle w l).draws.getLast? = some d ∧ l.length ≤ d)) := by
  obtain ⟨ds, h1, h2, h3, h4, h5⟩ := loop_run w (l.length - 1) [] l (by omega)
  have hds : (ShuffleAnswers.shuffle w l).draws = ds := h1
  rw [hds]
  simp only [List.nil_append] at h2 h5
  refine ⟨fun _ => h4, h2, ?_⟩
  rcases h5 with ⟨a, b, -⟩ | ⟨a, -, -, b⟩ | ⟨a, b⟩
  · exact .inl ⟨a, b⟩
  · exact .inr (.inl ⟨a, b⟩)
  · exact .inr (.inr ⟨a, h3, b⟩)

example : ShuffleAnswers.shuffle (fun made => if made.length < 2 then .ok (made.sum) else .throw (str "empty")) ['a', 'b', 'c', 'd'] =
    ⟨[0, 0], ['c', 'b', 'd', 'a'], .throw (str "empty")⟩ := by decide

private theorem conforming_fair {w : Answers} {l : List α} (hw : Conforming l.length w) : Fair l.length (ShuffleAnswers.shuffle w l).draws := by
  intro m d hm
  have := hw _ _ ((C167_run w l).2.1 m d hm)
  rwa [List.length_take, Nat.min_eq_left (Nat.le_of_lt (List.getElem?_eq_some_iff.1 hm).1)] at this

/-- With a distribution which keeps to the interval it is asked for, the `k` last elements are final as soon as `k` numbers have been drawn: they are the same whatever happens afterwards, in
particular if the generator throws. -/
theorem C167_final (w : Answers) (l : List α) (hw : Conforming l.length w) (k : Nat) (hk : k ≤ (ShuffleAnswers.shuffle w l).draws.length) (e : Str) :
    (ShuffleAnswers.shuffle w l).elems.drop (l.length - k) =
      (ShuffleAnswers.shuffle (scripted ((ShuffleAnswers.shuffle w l).draws.take k) e) l).elems.drop (l.length - k) := by
  have hf := conforming_fair hw
  obtain ⟨ds, h1, -, h3, -, h5⟩ := loop_run w (l.length - 1) [] l (by omega)
  have hds : (ShuffleAnswers.shuffle w l).draws = ds := h1
  rw [hds] at hf hk ⊢
  cases l with
  | nil => simp [ShuffleAnswers.shuffle, loop]
  | cons x l =>
    simp only [List.length_cons, Nat.add_sub_cancel] at h3 h5 hf ⊢
    rw [loop_scripted _ e (x :: l) (fair_take hf k) (by simp only [List.length_take, List.length_cons]; omega)]
    simp only [List.length_cons, Nat.add_sub_cancel]
    have he : (ShuffleAnswers.shuffle w (x :: l)).elems = after ds l.length (x :: l) := by
      rcases h5 with ⟨-, -, -, h⟩ | ⟨-, -, h, -⟩ | ⟨-, d, b, c⟩
      · exact h
      · exact h
      · rw [List.getLast?_eq_getElem?] at b
        have := hf _ _ b
        omega
    rw [he]
    exact after_take ds l.length k (x :: l) rfl hf hk (by omega)

example : Conforming 4 (fun made => if made.length < 2 then .ok made.length else .throw (str "empty")) := by
  intro made d h
  beta_reduce at h
  split at h
  · cases h; omega
  · cases h

/-- And they are a fair sample: every selection of `k` elements in any order is what exactly one of the possible sequences of `k` numbers leaves there.  So if these are equally likely, then
so are the selections, also if shuffling is cut short by an exception. -/
theorem C167_sample (l : List α) (hl : l.Nodup) (s : List α) (hs : s.Nodup) (hsub : ∀ x ∈ s, x ∈ l) (hlen : s.length < l.length) (e : Str) :
    ∃! ds : List Nat, ds.length = s.length ∧ Fair l.length ds ∧ (ShuffleAnswers.shuffle (scripted ds e) l).elems.drop (l.length - s.length) = s := by
  obtain ⟨ds, ⟨h1, h2, h3⟩, h4⟩ := after_sample s.length (l.length - 1) l s hl (by omega) (by omega) hs hsub rfl
  rw [show l.length - 1 + 1 = l.length by omega] at h2 h3 h4
  refine ⟨ds, ⟨h1, h2, ?_⟩, fun ds' hds' => ?_⟩
  · rw [loop_scripted ds e l h2 (by omega), h3]
  · obtain ⟨h5, h6, h7⟩ := hds'
    rw [loop_scripted ds' e l h6 (by omega)] at h7
    exact h4 ds' h5 h6 h7

example : (ShuffleAnswers.shuffle (scripted [0, 2] (str "stop")) ['a', 'b', 'c', 'd']).elems.drop 2 = ['c', 'a'] ∧ Fair 4 [0, 2] := by
  refine ⟨by decide, ?_⟩
  rintro (_ | _ | m) d h
  · cases h; omega
  · cases h; omega
  · simp at h

/-- With numbers the generator has not thrown at, the result is that of C25. -/
theorem C167_agrees (draw : Nat → Nat) (l : List α) (hd : ∀ i, draw i ≤ i) :
    (ShuffleAnswers.shuffle (fun made => .ok (draw (l.length - 1 - made.length))) l).out = .ok () ∧
    Makeshift.shuffle draw l = some (ShuffleAnswers.shuffle (fun made => .ok (draw (l.length - 1 - made.length))) l).elems := by
  have key : ∀ (i : Nat) (made : List Nat) (l' : List α), (i < l'.length ∨ i = 0) → l.length - 1 = i + made.length →
      (loop (fun made => .ok (draw (l.length - 1 - made.length))) i made l').out = .ok () ∧
      shuffleLoop draw i l' = some (loop (fun made => .ok (draw (l.length - 1 - made.length))) i made l').elems := by
    intro i
    induction i with
    | zero => intro made l' _ _; exact ⟨rfl, rfl⟩
    | succ i ih =>
      intro made l' hi hm
      have hj : l.length - 1 - made.length = i + 1 := by omega
      simp only [loop, shuffleLoop, hj]
      by_cases hne : i + 1 ≠ draw (i + 1)
      · obtain ⟨l'', h⟩ := swapAt_isSome l' (a := i + 1) (b := draw (i + 1)) (by omega) (by have := hd (i + 1); omega)
        simp only [if_pos hne, h]
        exact ih _ l'' (.inl (by rw [swapAt_length h]; omega)) (by simp; omega)
      · simp only [if_neg hne]
        exact ih _ l' (.inl (by omega)) (by simp; omega)
  exact key (l.length - 1) [] l (by omega) (by simp)

example : Makeshift.shuffle (fun i => i / 2) ['a', 'b', 'c', 'd'] = some ['c', 'a', 'd', 'b'] := by decide

end Makeshift.Props
