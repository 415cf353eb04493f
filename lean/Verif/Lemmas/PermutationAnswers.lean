import Verif.Spec.PermutationAnswers
import Verif.Model.Permutation

/-! # Lemmas for C164: permuting with an index range which answers anything -/

namespace Makeshift.PermutationAnswers

open Makeshift.PermutationAnswers Makeshift.PermutationAnswers.Spec

/-- Helper: an invariant `P` of all calls, and what holds of the calls before and after. -/
def Triple {α : Type} (w : Answers) (P : Op → Prop) (pre : List Op → Prop) (m : Code α) (post : α → List Op → Prop) : Prop :=
  ∀ made, Answered w made → (∀ o ∈ made, P o) → pre made →
    (∀ o ∈ (m made).1, P o) ∧
      ((Answered w (m made).1 ∧ ((∃ a, (m made).2 = .ok a ∧ post a (m made).1) ∨ (m made).2 = .failFast)) ∨ Interrupted w (m made))

theorem answered_nil' (w : Answers) : Answered w [] := fun _ h hp => absurd (List.prefix_nil.1 hp) h

theorem answered_snoc' {w : Answers} {l : List Op} {c : Op} {v : Int} (h : Answered w l) (hc : w (l ++ [c]) = .ok v) : Answered w (l ++ [c]) := by
  intro p hp hl
  rcases List.prefix_concat_iff.1 hl with rfl | h'
  · exact ⟨v, hc⟩
  · exact h p hp h'

theorem triple_call {w : Answers} {P : Op → Prop} {pre : List Op → Prop} {op : Op} (h : P op) :
    Triple w P pre (call w op) fun a made => ∃ before, pre before ∧ made = before ++ [op] ∧ w made = .ok a := by
  intro made ha hp hpre
  refine ⟨fun o ho => ?_, ?_⟩
  · rcases List.mem_append.1 ho with ho | ho
    · exact hp o ho
    · rw [List.mem_singleton.1 ho]; exact h
  · cases hw : w (made ++ [op]) with
    | ok v => exact .inl ⟨answered_snoc' ha hw, .inl ⟨v, hw, made, hpre, rfl, hw⟩⟩
    | throw e => exact .inr ⟨made, op, rfl, ha, .inl ⟨e, hw, hw⟩⟩
    | failFast => exact .inr ⟨made, op, rfl, ha, .inr (.inl ⟨hw, hw⟩)⟩
    | ub => exact .inr ⟨made, op, rfl, ha, .inr (.inr ⟨hw, hw⟩)⟩

theorem triple_give {α : Type} {w : Answers} {P : Op → Prop} {pre : List Op → Prop} {a : α} {post : α → List Op → Prop} (h : ∀ made, pre made → post a made) :
    Triple w P pre (give a) post := fun made ha hp hpre => ⟨hp, .inl ⟨ha, .inl ⟨a, rfl, h made hpre⟩⟩⟩

theorem triple_violated {α : Type} {w : Answers} {P : Op → Prop} {pre : List Op → Prop} {post : α → List Op → Prop} :
    Triple w P pre violated post := fun _ ha hp _ => ⟨hp, .inl ⟨ha, .inr rfl⟩⟩

theorem triple_andThen {α β : Type} {w : Answers} {P : Op → Prop} {pre : List Op → Prop} {m : Code α} {f : α → Code β} {mid : α → List Op → Prop}
    {post : β → List Op → Prop} (h : Triple w P pre m mid) (hf : ∀ a, Triple w P (mid a) (f a) post) : Triple w P pre (m.andThen f) post := by
  intro made ha hp hpre
  obtain ⟨h1, h2⟩ := h made ha hp hpre
  rw [Code.andThen]
  rcases h2 with ⟨h3, ⟨a, h4, h5⟩ | h4⟩ | ⟨before, op, h3, h4, h5⟩
  · rw [h4]
    exact hf a _ h3 h1 h5
  · rw [h4]
    exact ⟨h1, .inl ⟨h3, .inr rfl⟩⟩
  · rcases h5 with ⟨e, h5, h6⟩ | ⟨h5, h6⟩ | ⟨h5, h6⟩
    · rw [h6]
      exact ⟨h1, .inr ⟨before, op, h3, h4, .inl ⟨e, h5, rfl⟩⟩⟩
    · rw [h6]
      exact ⟨h1, .inr ⟨before, op, h3, h4, .inr (.inl ⟨h5, rfl⟩)⟩⟩
    · rw [h6]
      exact ⟨h1, .inr ⟨before, op, h3, h4, .inr (.inr ⟨h5, rfl⟩)⟩⟩

theorem seen_mono {w : Answers} {l l' : List Op} {j : Int} (h : Seen w l j) (hl : l <+: l') : Seen w l' j := by
  obtain ⟨p, k, h1, h2⟩ := h
  exact ⟨p, k, h1.trans hl, h2⟩

/-- Helper: all indices below `i` have been read. -/
def AllSeen (w : Answers) (i : Int) (made : List Op) : Prop := ∀ j, 0 ≤ j → j < i → Seen w made j

theorem AllSeen.snoc {w : Answers} {i : Int} {l : List Op} {o : Op} (h : AllSeen w i l) : AllSeen w i (l ++ [o]) :=
  fun j h0 h1 => seen_mono (h j h0 h1) (List.prefix_append _ _)

theorem AllSeen.next {w : Answers} {i : Int} {l : List Op} {k : Int} (h : AllSeen w i l) (hw : w (l ++ [.read k]) = .ok i) : AllSeen w (i + 1) (l ++ [.read k]) := by
  intro j h0 h1
  by_cases h2 : j < i
  · exact h.snoc j h0 h2
  · rw [show j = i by omega]
    exact ⟨l, k, List.prefix_refl _, hw⟩

theorem forward_step (w : Answers) (length : Int) (s : Int × Int) (h0 : 0 ≤ s.1) (h1 : s.1 < length) (h2 : Position length s.2) :
    Triple w (fun o => InRange length o ∧ NoSelfSwap o) (AllSeen w s.1) (forwardStep w length s) fun s' made =>
      0 ≤ s'.1 ∧ (s'.1 < length → Position length s'.2) ∧ AllSeen w s'.1 made := by
  refine triple_andThen (triple_call ⟨h2, trivial⟩) fun v => ?_
  split
  · next hv =>
    refine triple_andThen (triple_call ⟨h2, trivial⟩) fun _ => triple_give ?_
    rintro made ⟨b, ⟨b', hs, rfl, hw⟩, rfl, -⟩
    rw [← hv] at hw
    exact ⟨by show 0 ≤ s.1 + 1; omega, fun h => ⟨by show 0 ≤ s.1 + 1; omega, h⟩, (hs.next hw).snoc⟩
  · refine triple_andThen (triple_call ⟨h2, trivial⟩) fun next => ?_
    split
    · exact triple_andThen (triple_call ⟨⟨h0, h1⟩, trivial⟩) fun _ => triple_violated
    · next hn =>
      have hp : Position length next := ⟨by omega, by omega⟩
      refine triple_andThen (triple_call ⟨⟨h2, hp⟩, by show s.2 ≠ next; omega⟩) fun _ => triple_andThen (triple_call ⟨h2, trivial⟩) fun _ => triple_give ?_
      rintro made ⟨b1, ⟨b2, ⟨b3, ⟨b4, hs, rfl, -⟩, rfl, -⟩, rfl, -⟩, rfl, -⟩
      exact ⟨h0, fun _ => hp, hs.snoc.snoc.snoc.snoc⟩

theorem forward_run (w : Answers) (length : Int) (steps : Nat) : ∀ s : Int × Int, 0 ≤ s.1 → (s.1 < length → Position length s.2) →
    Triple w (fun o => InRange length o ∧ NoSelfSwap o) (AllSeen w s.1) (forwardRun w length steps s) fun b made => b = true → AllSeen w length made := by
  have fin : ∀ s : Int × Int, ¬ s.1 < length → ∀ made, AllSeen w s.1 made → AllSeen w length made := fun s hs made h j h0 h1 => h j h0 (by omega)
  induction steps with
  | zero =>
    intro s h0 h1
    rw [forwardRun]
    split
    · exact triple_give fun _ _ h => by cases h
    · next hs => exact triple_give fun made h _ => fin s hs made h
  | succ steps ih =>
    intro s h0 h1
    rw [forwardRun]
    split
    · next hs =>
      refine triple_andThen (forward_step w length s h0 hs (h1 hs)) fun s' => ?_
      intro made ha hp hq
      exact ih s' hq.1 hq.2.1 made ha hp hq.2.2
    · next hs => exact triple_give fun made h _ => fin s hs made h

theorem reverse_step (w : Answers) (length i : Int) (h0 : 0 ≤ i) (h1 : i < length) :
    Triple w (InRange length) (AllSeen w i) (reverseStep w length i) fun i' made => 0 ≤ i' ∧ AllSeen w i' made := by
  have h2 : Position length i := ⟨h0, h1⟩
  refine triple_andThen (triple_call h2) fun v => ?_
  split
  · next hv =>
    refine triple_give ?_
    rintro made ⟨b', hs, rfl, hw⟩
    rw [← hv] at hw
    exact ⟨by omega, hs.next hw⟩
  · refine triple_andThen (triple_call h2) fun next => ?_
    split
    · exact triple_violated
    · next hn =>
      have hp : Position length next := ⟨by omega, by omega⟩
      refine triple_andThen (triple_call hp) fun nn => ?_
      split
      · exact triple_violated
      · refine triple_andThen (triple_call ⟨h2, hp⟩) fun _ => triple_andThen (triple_call ⟨h2, hp⟩) fun _ => triple_give ?_
        rintro made ⟨b1, ⟨b2, ⟨b3, ⟨b4, ⟨b5, hs, rfl, -⟩, rfl, -⟩, rfl, -⟩, rfl, -⟩, rfl, -⟩
        exact ⟨h0, hs.snoc.snoc.snoc.snoc.snoc⟩

theorem reverse_run (w : Answers) (length : Int) (steps : Nat) : ∀ i : Int, 0 ≤ i →
    Triple w (InRange length) (AllSeen w i) (reverseRun w length steps i) fun b made => b = true → AllSeen w length made := by
  have fin : ∀ i : Int, ¬ i < length → ∀ made, AllSeen w i made → AllSeen w length made := fun i hs made h j h0 h1 => h j h0 (by omega)
  induction steps with
  | zero =>
    intro i h0
    rw [reverseRun]
    split
    · exact triple_give fun _ _ h => by cases h
    · next hs => exact triple_give fun made h _ => fin i hs made h
  | succ steps ih =>
    intro i h0
    rw [reverseRun]
    split
    · next hs =>
      refine triple_andThen (reverse_step w length i h0 hs) fun s' => ?_
      intro made ha hp hq
      exact ih s' hq.1 made ha hp hq.2
    · next hs => exact triple_give fun made h _ => fin i hs made h

/-- Helper: an iterator which computes the indices and ignores assignments. -/
def computed (f : Int → Int) : Answers := fun made => match made.getLast? with | some (.read k) => .ok (f k) | _ => .ok 0

theorem computed_read (f : Int → Int) (made : List Op) (k : Int) : computed f (made ++ [.read k]) = .ok (f k) := by simp [computed]

theorem computed_write (f : Int → Int) (made : List Op) (k v : Int) : computed f (made ++ [.write k v]) = .ok 0 := by simp [computed]

theorem computed_swap (f : Int → Int) (made : List Op) (a b : Int) : computed f (made ++ [.swap a b]) = .ok 0 := by simp [computed]

theorem computed_swapIndices (f : Int → Int) (made : List Op) (a b : Int) : computed f (made ++ [.swapIndices a b]) = .ok 0 := by simp [computed]

theorem andThen_call {α : Type} {w : Answers} {op : Op} {f : Int → Code α} {made : List Op} {v : Int} (h : w (made ++ [op]) = .ok v) :
    (call w op).andThen f made = f v (made ++ [op]) := by
  simp [Code.andThen, call, h]

theorem step_found {w : Answers} {length i c v : Int} {made : List Op} (h1 : w (made ++ [.read c]) = .ok i)
    (h2 : w (made ++ [.read c] ++ [.write c c]) = .ok v) :
    forwardStep w length (i, c) made = (made ++ [.read c] ++ [.write c c], .ok (i + 1, i + 1)) := by
  rw [forwardStep, andThen_call h1, if_pos rfl, andThen_call h2]
  rfl

theorem step_bad {w : Answers} {length i c next v : Int} {made : List Op} (h1 : w (made ++ [.read c]) = .ok next)
    (h2 : w (made ++ [.read c] ++ [.read c]) = .ok next) (h3 : w (made ++ [.read c] ++ [.read c] ++ [.write i next]) = .ok v) (hi : next ≠ i)
    (hn : next < 0 ∨ next ≥ length ∨ next = c) :
    forwardStep w length (i, c) made = (made ++ [.read c] ++ [.read c] ++ [.write i next], .failFast) := by
  rw [forwardStep, andThen_call h1, if_neg (fun h => hi h.symm), andThen_call h2, if_pos hn, andThen_call h3]
  rfl

theorem step_swap {w : Answers} {length i c next v v' : Int} {made : List Op} (h1 : w (made ++ [.read c]) = .ok next)
    (h2 : w (made ++ [.read c] ++ [.read c]) = .ok next) (h3 : w (made ++ [.read c] ++ [.read c] ++ [.swap c next]) = .ok v)
    (h4 : w (made ++ [.read c] ++ [.read c] ++ [.swap c next] ++ [.write c c]) = .ok v') (hi : next ≠ i) (hn : ¬ (next < 0 ∨ next ≥ length ∨ next = c)) :
    forwardStep w length (i, c) made = (made ++ [.read c] ++ [.read c] ++ [.swap c next] ++ [.write c c], .ok (i, next)) := by
  rw [forwardStep, andThen_call h1, if_neg (fun h => hi h.symm), andThen_call h2, if_neg hn, andThen_call h3, andThen_call h4]
  rfl

theorem run_ok {w : Answers} {length : Int} {steps : Nat} {s s' : Int × Int} {made made' : List Op} (hs : s.1 < length)
    (h : forwardStep w length s made = (made', .ok s')) : forwardRun w length (steps + 1) s made = forwardRun w length steps s' made' := by
  rw [forwardRun, if_pos hs, Code.andThen, h]

theorem run_bad {w : Answers} {length : Int} {steps : Nat} {s : Int × Int} {made made' : List Op} (hs : s.1 < length)
    (h : forwardStep w length s made = (made', .failFast)) : forwardRun w length (steps + 1) s made = (made', .failFast) := by
  rw [forwardRun, if_pos hs, Code.andThen, h]

theorem memory_append {α : Type} (elems : List α) (idx : List Int) (l l' : List Op) :
    memory elems idx (l ++ l') = memory (memory elems idx l).1 (memory elems idx l).2 l' := by
  induction l generalizing elems idx with
  | nil => rfl
  | cons op l ih =>
    cases op with
    | read k => exact ih _ _
    | write k v => exact ih _ _
    | swap a b =>
      simp only [List.cons_append, memory]
      split
      · exact ih _ _
      · exact ih _ _
    | swapIndices a b =>
      simp only [List.cons_append, memory]
      split
      · exact ih _ _
      · exact ih _ _

theorem inner_done {α : Type} {length i c : Nat} {s : PermState α} (h : s.idx[c]? = some (i : Int)) :
    applyPermInner length i c s = (.done, { s with idx := s.idx.set c c }) := by
  rw [applyPermInner]
  split
  · next h' => rw [h] at h'; cases h'
  · next n h' => rw [h] at h'; cases h'; rw [if_pos rfl]

theorem inner_bad {α : Type} {length i c : Nat} {next : Int} {s : PermState α} (h : s.idx[c]? = some next) (hi : next ≠ i)
    (hn : next < 0 ∨ next ≥ (length : Int) ∨ next = (c : Int)) : applyPermInner length i c s = (.failFast, { s with idx := s.idx.set i next }) := by
  rw [applyPermInner]
  split
  · next h' => rw [h] at h'; cases h'
  · next n h' => rw [h] at h'; cases h'; rw [if_neg hi, dif_pos hn]

theorem inner_swap {α : Type} {length i c : Nat} {next : Int} {s : PermState α} {e : List α} (h : s.idx[c]? = some next) (hi : next ≠ i)
    (hn : ¬ (next < 0 ∨ next ≥ (length : Int) ∨ next = (c : Int))) (he : swapAt s.elems c next.toNat = some e) :
    applyPermInner length i c s = applyPermInner length i next.toNat ⟨e, s.idx.set c c⟩ := by
  rw [applyPermInner]
  split
  · next h' => rw [h] at h'; cases h'
  · next n h' =>
    rw [h] at h'; cases h'
    rw [if_neg hi, dif_neg hn]
    split
    · next h2 => rw [he] at h2; cases h2
    · next e' h2 => rw [he] at h2; cases h2; rfl

/-- Helper: the run of `forwardRun` from `(i, c)` does what the model of C20 does. -/
def Simulates {α : Type} (w : Answers) (elems : List α) (idx : List Int) (length i c : Nat) (made : List Op) (r : PermEnd × PermState α) : Prop :=
  ∃ (k : Nat) (made' : List Op), memory elems idx made' = (r.2.elems, r.2.idx) ∧ r.2.elems.length = length ∧ length ≤ r.2.idx.length ∧
    ((r.1 = .done ∧ ∀ more, forwardRun w length (more + k) (i, c) made = forwardRun w length more ((i : Int) + 1, (i : Int) + 1) made') ∨
      (r.1 = .failFast ∧ ∀ more, forwardRun w length (more + k) (i, c) made = (made', .failFast)))

theorem inner_simulates {α : Type} {w : Answers} {elems : List α} {idx : List Int} (hw : FromMemory elems idx w) (length i : Nat) (hi : i < length) (n : Nat) :
    ∀ (c : Nat) (s : PermState α) (made : List Op), nonFixedFrom 0 s.idx < n → c < length → s.elems.length = length → length ≤ s.idx.length →
      memory elems idx made = (s.elems, s.idx) → Simulates w elems idx length i c made (applyPermInner length i c s) := by
  have rd : ∀ {made : List Op} {s : PermState α} {c : Nat} {v : Int}, memory elems idx made = (s.elems, s.idx) → s.idx[c]? = some v →
      w (made ++ [.read c]) = .ok v := fun hm hc => (hw _).1 _ _ (by rw [hm]; exact hc)
  have mrd : ∀ {made : List Op} {c : Int}, memory elems idx (made ++ [.read c]) = memory elems idx made := by
    intro made c
    rw [memory_append]
    rfl
  induction n with
  | zero => exact fun c s made hn => absurd hn (Nat.not_lt_zero _)
  | succ n ih =>
    intro c s made hn hc hl hl' hm
    obtain ⟨next, hx⟩ : ∃ v, s.idx[c]? = some v := ⟨_, List.getElem?_eq_getElem (by omega)⟩
    have r1 := rd hm hx
    have hm1 : memory elems idx (made ++ [.read (c : Int)]) = (s.elems, s.idx) := by rw [mrd, hm]
    by_cases h1 : next = i
    · subst h1
      obtain ⟨v, hv⟩ := (hw (made ++ [.read (c : Int)])).2 (.write c c) (by simp)
      rw [inner_done hx]
      refine ⟨1, made ++ [.read (c : Int)] ++ [.write c c], ?_, hl, by simpa using hl', .inl ⟨rfl, fun more => run_ok (by show (i : Int) < length; omega) (step_found r1 hv)⟩⟩
      rw [memory_append, hm1]
      simp [memory]
    · have r2 := rd hm1 hx
      have hm2 : memory elems idx (made ++ [.read (c : Int)] ++ [.read (c : Int)]) = (s.elems, s.idx) := by rw [mrd, hm1]
      by_cases h2 : next < 0 ∨ next ≥ (length : Int) ∨ next = (c : Int)
      · obtain ⟨v, hv⟩ := (hw (made ++ [.read (c : Int)] ++ [.read (c : Int)])).2 (.write i next) (by simp)
        rw [inner_bad hx h1 h2]
        refine ⟨1, made ++ [.read (c : Int)] ++ [.read (c : Int)] ++ [.write i next], ?_, hl, by simpa using hl',
          .inr ⟨rfl, fun more => run_bad (by show (i : Int) < length; omega) (step_bad r1 r2 hv h1 h2)⟩⟩
        rw [memory_append, hm2]
        simp [memory]
      · obtain ⟨v, hv⟩ := (hw (made ++ [.read (c : Int)] ++ [.read (c : Int)])).2 (.swap c next) (by simp)
        obtain ⟨v', hv'⟩ := (hw (made ++ [.read (c : Int)] ++ [.read (c : Int)] ++ [.swap c next])).2 (.write c c) (by simp)
        obtain ⟨x, ex⟩ : ∃ x, s.elems[c]? = some x := ⟨_, List.getElem?_eq_getElem (by omega)⟩
        obtain ⟨y, ey⟩ : ∃ y, s.elems[next.toNat]? = some y := ⟨_, List.getElem?_eq_getElem (by omega)⟩
        have he : swapAt s.elems c next.toNat = some ((s.elems.set c y).set next.toNat x) := by rw [swapAt, ex, ey]
        rw [inner_swap hx h1 h2 he]
        have hdec := nonFixedFrom_set s.idx 0 c next c hx
        rw [if_neg (by omega), if_pos (by omega)] at hdec
        obtain ⟨k, made', a1, a2, a3, a4⟩ := ih next.toNat ⟨(s.elems.set c y).set next.toNat x, s.idx.set c c⟩
          (made ++ [.read (c : Int)] ++ [.read (c : Int)] ++ [.swap c next] ++ [.write c c]) (by show nonFixedFrom 0 (s.idx.set c c) < n; omega) (by omega)
          (by simpa using hl) (by simpa using hl') (by
            rw [memory_append, memory_append, hm2]
            simp [memory, ex, ey])
        rw [Int.toNat_of_nonneg (by omega)] at a4
        have run : ∀ more, forwardRun w length (more + (k + 1)) (i, c) made = forwardRun w length (more + k) ((i : Int), next)
            (made ++ [.read (c : Int)] ++ [.read (c : Int)] ++ [.swap c next] ++ [.write c c]) :=
          fun more => run_ok (by show (i : Int) < length; omega) (step_swap r1 r2 hv hv' h1 h2)
        refine ⟨k + 1, made', a1, a2, a3, ?_⟩
        rcases a4 with ⟨a4, a5⟩ | ⟨a4, a5⟩
        · exact .inl ⟨a4, fun more => by rw [run, a5]⟩
        · exact .inr ⟨a4, fun more => by rw [run, a5]⟩

theorem outer_simulates {α : Type} {w : Answers} {elems : List α} {idx : List Int} (hw : FromMemory elems idx w) (length : Nat) (m : Nat) :
    ∀ (i : Nat) (s : PermState α) (made : List Op), i + m = length → s.elems.length = length → length ≤ s.idx.length → memory elems idx made = (s.elems, s.idx) →
      ∃ (steps : Nat) (made' : List Op), memory elems idx made' = ((applyPermOuter length m i s).2.elems, (applyPermOuter length m i s).2.idx) ∧
        (((applyPermOuter length m i s).1 = .done ∧ forwardRun w length steps (i, i) made = (made', .ok true)) ∨
          ((applyPermOuter length m i s).1 = .failFast ∧ forwardRun w length steps (i, i) made = (made', .failFast))) := by
  induction m with
  | zero =>
    intro i s made hi hl hl' hm
    refine ⟨0, made, hm, .inl ⟨rfl, ?_⟩⟩
    rw [forwardRun, if_neg (by show ¬ (i : Int) < length; omega)]
    rfl
  | succ m ih =>
    intro i s made hi hl hl' hm
    obtain ⟨k, made', a1, a2, a3, ⟨a4, a5⟩ | ⟨a4, a5⟩⟩ := inner_simulates hw length i (by omega) _ i s made (Nat.lt_succ_self _) (by omega) hl hl' hm
    · have e : applyPermOuter length (m + 1) i s = applyPermOuter length m (i + 1) (applyPermInner length i i s).2 := by
        rw [applyPermOuter]
        generalize applyPermInner length i i s = r at a4
        obtain ⟨r1, r2⟩ := r
        cases a4
        rfl
      obtain ⟨steps, made'', b1, b2⟩ := ih (i + 1) _ made' (by omega) a2 a3 a1
      rw [Int.natCast_add, Int.natCast_one] at b2
      refine ⟨steps + k, made'', ?_, ?_⟩
      · rw [e, b1]
      · rw [e, a5]
        exact b2
    · have e : applyPermOuter length (m + 1) i s = applyPermInner length i i s := by
        rw [applyPermOuter]
        generalize applyPermInner length i i s = r at a4
        obtain ⟨r1, r2⟩ := r
        cases a4
        rfl
      refine ⟨0 + k, made', ?_, .inr ⟨?_, ?_⟩⟩
      · rw [e, a1]
      · rw [e, a4]
      · rw [a5]

theorem rstep_found {w : Answers} {length i : Int} {made : List Op} (h1 : w (made ++ [.read i]) = .ok i) :
    reverseStep w length i made = (made ++ [.read i], .ok (i + 1)) := by
  rw [reverseStep, andThen_call h1, if_pos rfl]
  rfl

theorem rstep_range {w : Answers} {length i next : Int} {made : List Op} (h1 : w (made ++ [.read i]) = .ok next)
    (h2 : w (made ++ [.read i] ++ [.read i]) = .ok next) (hi : next ≠ i) (hn : next < 0 ∨ next ≥ length) :
    reverseStep w length i made = (made ++ [.read i] ++ [.read i], .failFast) := by
  rw [reverseStep, andThen_call h1, if_neg (fun h => hi h.symm), andThen_call h2, if_pos (by omega)]
  rfl

theorem rstep_twice {w : Answers} {length i next : Int} {made : List Op} (h1 : w (made ++ [.read i]) = .ok next)
    (h2 : w (made ++ [.read i] ++ [.read i]) = .ok next) (hi : next ≠ i) (hn : ¬ (next < 0 ∨ next ≥ length))
    (h3 : w (made ++ [.read i] ++ [.read i] ++ [.read next]) = .ok next) :
    reverseStep w length i made = (made ++ [.read i] ++ [.read i] ++ [.read next], .failFast) := by
  rw [reverseStep, andThen_call h1, if_neg (fun h => hi h.symm), andThen_call h2, if_neg (by omega), andThen_call h3, if_pos rfl]
  rfl

theorem rstep_swap {w : Answers} {length i next nn v v' : Int} {made : List Op} (h1 : w (made ++ [.read i]) = .ok next)
    (h2 : w (made ++ [.read i] ++ [.read i]) = .ok next) (hi : next ≠ i) (hn : ¬ (next < 0 ∨ next ≥ length))
    (h3 : w (made ++ [.read i] ++ [.read i] ++ [.read next]) = .ok nn) (hnn : next ≠ nn)
    (h4 : w (made ++ [.read i] ++ [.read i] ++ [.read next] ++ [.swap i next]) = .ok v)
    (h5 : w (made ++ [.read i] ++ [.read i] ++ [.read next] ++ [.swap i next] ++ [.swapIndices i next]) = .ok v') :
    reverseStep w length i made = (made ++ [.read i] ++ [.read i] ++ [.read next] ++ [.swap i next] ++ [.swapIndices i next], .ok i) := by
  rw [reverseStep, andThen_call h1, if_neg (fun h => hi h.symm), andThen_call h2, if_neg (by omega), andThen_call h3, if_neg hnn, andThen_call h4, andThen_call h5]
  rfl

theorem rrun_ok {w : Answers} {length : Int} {steps : Nat} {i i' : Int} {made made' : List Op} (hs : i < length)
    (h : reverseStep w length i made = (made', .ok i')) : reverseRun w length (steps + 1) i made = reverseRun w length steps i' made' := by
  rw [reverseRun, if_pos hs, Code.andThen, h]

theorem rrun_bad {w : Answers} {length : Int} {steps : Nat} {i : Int} {made made' : List Op} (hs : i < length)
    (h : reverseStep w length i made = (made', .failFast)) : reverseRun w length (steps + 1) i made = (made', .failFast) := by
  rw [reverseRun, if_pos hs, Code.andThen, h]

theorem rinner_done {α : Type} {length i : Nat} {s : PermState α} (h : s.idx[i]? = some (i : Int)) : applyRevInner length i s = (.done, s) := by
  rw [applyRevInner]
  split
  · next h' => rw [h] at h'; cases h'
  · next n h' => rw [h] at h'; cases h'; rw [dif_pos rfl]

theorem rinner_range {α : Type} {length i : Nat} {next : Int} {s : PermState α} (h : s.idx[i]? = some next) (hi : next ≠ i)
    (hn : next < 0 ∨ next ≥ (length : Int)) : applyRevInner length i s = (.failFast, s) := by
  rw [applyRevInner]
  split
  · next h' => rw [h] at h'; cases h'
  · next n h' => rw [h] at h'; cases h'; rw [dif_neg hi, dif_pos hn]

theorem rinner_twice {α : Type} {length i : Nat} {next : Int} {s : PermState α} (h : s.idx[i]? = some next) (hi : next ≠ i)
    (hn : ¬ (next < 0 ∨ next ≥ (length : Int))) (h2 : s.idx[next.toNat]? = some next) : applyRevInner length i s = (.failFast, s) := by
  rw [applyRevInner]
  split
  · next h' => rw [h] at h'; cases h'
  · next n h' =>
    rw [h] at h'; cases h'
    rw [dif_neg hi, dif_neg hn]
    split
    · next h3 => rw [h2] at h3; cases h3
    · next nn h3 => rw [h2] at h3; cases h3; rw [dif_pos rfl]

theorem rinner_swap {α : Type} {length i : Nat} {next nn : Int} {s : PermState α} {e : List α} (h : s.idx[i]? = some next) (hi : next ≠ i)
    (hn : ¬ (next < 0 ∨ next ≥ (length : Int))) (h2 : s.idx[next.toNat]? = some nn) (hnn : next ≠ nn) (he : swapAt s.elems i next.toNat = some e) :
    applyRevInner length i s = applyRevInner length i ⟨e, (s.idx.set i nn).set next.toNat next⟩ := by
  rw [applyRevInner]
  split
  · next h' => rw [h] at h'; cases h'
  · next n h' =>
    rw [h] at h'; cases h'
    rw [dif_neg hi, dif_neg hn]
    split
    · next h3 => rw [h2] at h3; cases h3
    · next nn' h3 =>
      rw [h2] at h3; cases h3
      rw [dif_neg hnn]
      split
      · next h4 => rw [he] at h4; cases h4
      · next e' h4 => rw [he] at h4; cases h4; rfl

def RSimulates {α : Type} (w : Answers) (elems : List α) (idx : List Int) (length i : Nat) (made : List Op) (r : PermEnd × PermState α) : Prop :=
  ∃ (k : Nat) (made' : List Op), memory elems idx made' = (r.2.elems, r.2.idx) ∧ r.2.elems.length = length ∧ length ≤ r.2.idx.length ∧
    ((r.1 = .done ∧ ∀ more, reverseRun w length (more + k) i made = reverseRun w length more ((i : Int) + 1) made') ∨
      (r.1 = .failFast ∧ ∀ more, reverseRun w length (more + k) i made = (made', .failFast)))

theorem rinner_simulates {α : Type} {w : Answers} {elems : List α} {idx : List Int} (hw : FromMemory elems idx w) (length i : Nat) (hi : i < length) (n : Nat) :
    ∀ (s : PermState α) (made : List Op), nonFixedFrom 0 s.idx < n → s.elems.length = length → length ≤ s.idx.length →
      memory elems idx made = (s.elems, s.idx) → RSimulates w elems idx length i made (applyRevInner length i s) := by
  have rd : ∀ {made : List Op} {s : PermState α} {c : Nat} {v : Int}, memory elems idx made = (s.elems, s.idx) → s.idx[c]? = some v →
      w (made ++ [.read c]) = .ok v := fun hm hc => (hw _).1 _ _ (by rw [hm]; exact hc)
  have mrd : ∀ {made : List Op} {c : Int}, memory elems idx (made ++ [.read c]) = memory elems idx made := by
    intro made c
    rw [memory_append]
    rfl
  have hil : (i : Int) < length := by omega
  induction n with
  | zero => exact fun s made hn => absurd hn (Nat.not_lt_zero _)
  | succ n ih =>
    intro s made hn hl hl' hm
    obtain ⟨next, hx⟩ : ∃ v, s.idx[i]? = some v := ⟨_, List.getElem?_eq_getElem (by omega)⟩
    have r1 := rd hm hx
    have hm1 : memory elems idx (made ++ [.read (i : Int)]) = (s.elems, s.idx) := by rw [mrd, hm]
    by_cases h1 : next = i
    · subst h1
      rw [rinner_done hx]
      exact ⟨1, _, hm1, hl, hl', .inl ⟨rfl, fun more => rrun_ok hil (rstep_found r1)⟩⟩
    · have r2 := rd hm1 hx
      have hm2 : memory elems idx (made ++ [.read (i : Int)] ++ [.read (i : Int)]) = (s.elems, s.idx) := by rw [mrd, hm1]
      by_cases h2 : next < 0 ∨ next ≥ (length : Int)
      · rw [rinner_range hx h1 h2]
        exact ⟨1, _, hm2, hl, hl', .inr ⟨rfl, fun more => rrun_bad hil (rstep_range r1 r2 h1 h2)⟩⟩
      · obtain ⟨nn, hnx⟩ : ∃ v, s.idx[next.toNat]? = some v := ⟨_, List.getElem?_eq_getElem (by omega)⟩
        have en : ((next.toNat : Nat) : Int) = next := Int.toNat_of_nonneg (by omega)
        have r3 := rd hm2 hnx
        rw [en] at r3
        have hm3 : memory elems idx (made ++ [.read (i : Int)] ++ [.read (i : Int)] ++ [.read next]) = (s.elems, s.idx) := by rw [mrd, hm2]
        by_cases h3 : next = nn
        · subst h3
          rw [rinner_twice hx h1 h2 hnx]
          exact ⟨1, _, hm3, hl, hl', .inr ⟨rfl, fun more => rrun_bad hil (rstep_twice r1 r2 h1 h2 r3)⟩⟩
        · obtain ⟨v, hv⟩ := (hw (made ++ [.read (i : Int)] ++ [.read (i : Int)] ++ [.read next])).2 (.swap i next) (by simp)
          obtain ⟨v', hv'⟩ := (hw (made ++ [.read (i : Int)] ++ [.read (i : Int)] ++ [.read next] ++ [.swap i next])).2 (.swapIndices i next) (by simp)
          obtain ⟨x, ex⟩ : ∃ x, s.elems[i]? = some x := ⟨_, List.getElem?_eq_getElem (by omega)⟩
          obtain ⟨y, ey⟩ : ∃ y, s.elems[next.toNat]? = some y := ⟨_, List.getElem?_eq_getElem (by omega)⟩
          have he : swapAt s.elems i next.toNat = some ((s.elems.set i y).set next.toNat x) := by rw [swapAt, ex, ey]
          rw [rinner_swap hx h1 h2 hnx h3 he]
          have hne : i ≠ next.toNat := by omega
          have d1 := nonFixedFrom_set s.idx 0 i next nn hx
          have d2 := nonFixedFrom_set (s.idx.set i nn) 0 next.toNat nn next (by rw [List.getElem?_set_ne hne]; exact hnx)
          rw [Nat.zero_add] at d1 d2
          rw [if_neg h1] at d1
          rw [en, if_neg (fun h => h3 h.symm), if_pos rfl] at d2
          obtain ⟨k, made', a1, a2, a3, a4⟩ := ih ⟨(s.elems.set i y).set next.toNat x, (s.idx.set i nn).set next.toNat next⟩
            (made ++ [.read (i : Int)] ++ [.read (i : Int)] ++ [.read next] ++ [.swap i next] ++ [.swapIndices i next])
            (by show nonFixedFrom 0 ((s.idx.set i nn).set next.toNat next) < n; split at d1 <;> omega) (by simpa using hl) (by simpa using hl') (by
              rw [memory_append, memory_append, hm3]
              simp [memory, ex, ey, hx, hnx])
          have run : ∀ more, reverseRun w length (more + (k + 1)) i made = reverseRun w length (more + k) (i : Int)
              (made ++ [.read (i : Int)] ++ [.read (i : Int)] ++ [.read next] ++ [.swap i next] ++ [.swapIndices i next]) :=
            fun more => rrun_ok hil (rstep_swap r1 r2 h1 h2 r3 h3 hv hv')
          refine ⟨k + 1, made', a1, a2, a3, ?_⟩
          rcases a4 with ⟨a4, a5⟩ | ⟨a4, a5⟩
          · exact .inl ⟨a4, fun more => by rw [run, a5]⟩
          · exact .inr ⟨a4, fun more => by rw [run, a5]⟩

theorem router_simulates {α : Type} {w : Answers} {elems : List α} {idx : List Int} (hw : FromMemory elems idx w) (length : Nat) (m : Nat) :
    ∀ (i : Nat) (s : PermState α) (made : List Op), i + m = length → s.elems.length = length → length ≤ s.idx.length → memory elems idx made = (s.elems, s.idx) →
      ∃ (steps : Nat) (made' : List Op), memory elems idx made' = ((applyRevOuter length m i s).2.elems, (applyRevOuter length m i s).2.idx) ∧
        (((applyRevOuter length m i s).1 = .done ∧ reverseRun w length steps i made = (made', .ok true)) ∨
          ((applyRevOuter length m i s).1 = .failFast ∧ reverseRun w length steps i made = (made', .failFast))) := by
  induction m with
  | zero =>
    intro i s made hi hl hl' hm
    refine ⟨0, made, hm, .inl ⟨rfl, ?_⟩⟩
    rw [reverseRun, if_neg (by omega)]
    rfl
  | succ m ih =>
    intro i s made hi hl hl' hm
    obtain ⟨k, made', a1, a2, a3, ⟨a4, a5⟩ | ⟨a4, a5⟩⟩ := rinner_simulates hw length i (by omega) _ s made (Nat.lt_succ_self _) hl hl' hm
    · have e : applyRevOuter length (m + 1) i s = applyRevOuter length m (i + 1) (applyRevInner length i s).2 := by
        rw [applyRevOuter]
        generalize applyRevInner length i s = r at a4
        obtain ⟨r1, r2⟩ := r
        cases a4
        rfl
      obtain ⟨steps, made'', b1, b2⟩ := ih (i + 1) _ made' (by omega) a2 a3 a1
      rw [Int.natCast_add, Int.natCast_one] at b2
      refine ⟨steps + k, made'', ?_, ?_⟩
      · rw [e, b1]
      · rw [e, a5]
        exact b2
    · have e : applyRevOuter length (m + 1) i s = applyRevInner length i s := by
        rw [applyRevOuter]
        generalize applyRevInner length i s = r at a4
        obtain ⟨r1, r2⟩ := r
        cases a4
        rfl
      refine ⟨0 + k, made', ?_, .inr ⟨?_, ?_⟩⟩
      · rw [e, a1]
      · rw [e, a4]
      · rw [a5]

end Makeshift.PermutationAnswers
