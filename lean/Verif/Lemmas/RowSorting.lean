import Verif.Spec.RowPrograms

/-! Lemmas about programs which sort rows. -/

namespace Makeshift.Soa

open Makeshift.Spec.Soa

variable {α β : Type}

/-! Insertion sort, as an example of a program. -/

theorem insertRow_spec {lt : List α → List α → Bool} (hasym : ∀ a b, lt a b = true → lt b a = false)
    (htrans : ∀ a b c, lt b a = false → lt c b = false → lt c a = false) :
    ∀ (i : Nat) (pre : List (List α)) (x : List α), pre.length = i → pre.Pairwise (fun a b => lt b a = false) →
      ∃ pre' : List (List α), pre'.Perm (pre ++ [x]) ∧ pre'.Pairwise (fun a b => lt b a = false) ∧
        ∀ (post : List (List α)) (p : RowProg α β), runRows (insertRow lt i p) (pre ++ x :: post) = runRows p (pre' ++ post) := by
  intro i
  induction i with
  | zero =>
    intro pre x hl hs
    obtain rfl : pre = [] := List.eq_nil_of_length_eq_zero hl
    exact ⟨[x], by simp, by simp, fun post p => rfl⟩
  | succ i ih =>
    intro pre x hl hs
    obtain ⟨pre, a, rfl⟩ : ∃ q a, pre = q ++ [a] := ⟨pre.dropLast, pre.getLast (by intro e; simp [e] at hl), (List.dropLast_append_getLast _).symm⟩
    have hl' : pre.length = i := by simpa using hl
    rw [List.pairwise_append] at hs
    obtain ⟨hs1, -, hs2⟩ := hs
    have hga : ∀ (rest : List (List α)), (pre ++ a :: rest)[i]? = some a := by
      intro rest; rw [List.getElem?_append_right (by omega)]; simp [hl']
    have hgx : ∀ (y : List α) (rest : List (List α)), (pre ++ a :: y :: rest)[i + 1]? = some y := by
      intro y rest; rw [List.getElem?_append_right (by omega)]; simp [hl']
    by_cases h : lt x a = true
    · obtain ⟨pre', h1, h2, h3⟩ := ih pre x hl' hs1
      refine ⟨pre' ++ [a], ?_, ?_, ?_⟩
      · refine (h1.append_right [a]).trans ?_
        rw [List.append_assoc, List.append_assoc]
        exact (List.Perm.swap a x []).append_left pre
      · rw [List.pairwise_append]
        refine ⟨h2, by simp, fun b hb c hc => ?_⟩
        obtain rfl := List.mem_singleton.1 hc
        rcases List.mem_append.1 (h1.mem_iff.1 hb) with hb | hb
        · exact hs2 b hb _ (by simp)
        · obtain rfl := List.mem_singleton.1 hb
          exact hasym _ _ h
      · intro post p
        have e : pre ++ [a] ++ x :: post = pre ++ a :: x :: post := by simp
        rw [e, insertRow, runRows, hga]
        dsimp only
        rw [runRows, hgx]
        dsimp only
        rw [if_pos h, runRows, hga, hgx]
        dsimp only
        have e2 : ((pre ++ a :: x :: post).set i x).set (i + 1) a = pre ++ x :: a :: post := by
          rw [List.set_append_right _ _ (by omega), List.set_append_right _ _ (by omega)]
          simp [hl']
        rw [e2, h3 (a :: post) p]
        simp
    · have h' : lt x a = false := by simpa using h
      refine ⟨pre ++ [a] ++ [x], .refl _, ?_, ?_⟩
      · rw [List.pairwise_append, List.pairwise_append]
        refine ⟨⟨hs1, by simp, hs2⟩, by simp, fun b hb c hc => ?_⟩
        obtain rfl := List.mem_singleton.1 hc
        rcases List.mem_append.1 hb with hb | hb
        · exact htrans b a c (hs2 b hb a (by simp)) h'
        · obtain rfl := List.mem_singleton.1 hb
          exact h'
      · intro post p
        have e : pre ++ [a] ++ x :: post = pre ++ a :: x :: post := by simp
        rw [e, insertRow, runRows, hga]
        dsimp only
        rw [runRows, hgx]
        dsimp only
        rw [h', if_neg (by simp)]
        simp

theorem insertionSort_spec {lt : List α → List α → Bool} (hasym : ∀ a b, lt a b = true → lt b a = false)
    (htrans : ∀ a b c, lt b a = false → lt c b = false → lt c a = false) :
    ∀ (post pre : List (List α)), pre.Pairwise (fun a b => lt b a = false) →
      ∃ rows' : List (List α), rows'.Perm (pre ++ post) ∧ rows'.Pairwise (fun a b => lt b a = false) ∧
        runRows (insertionSort lt post.length pre.length) (pre ++ post) = .ok ((), rows') := by
  intro post
  induction post with
  | nil => intro pre hs; exact ⟨pre, by simp, hs, by simp [insertionSort, runRows]⟩
  | cons x post ih =>
    intro pre hs
    obtain ⟨pre', h1, h2, h3⟩ := insertRow_spec (β := Unit) hasym htrans pre.length pre x rfl hs
    obtain ⟨rows', h4, h5, h6⟩ := ih pre' h2
    refine ⟨rows', h4.trans ?_, h5, ?_⟩
    · refine (h1.append_right post).trans ?_
      simp
    · rw [List.length_cons, insertionSort, h3]
      have : pre.length + 1 = pre'.length := by rw [h1.length_eq]; simp
      rw [this]
      exact h6

theorem insertRow_fits (n : Nat) (lt : List α → List α → Bool) : ∀ (i : Nat) (p : RowProg α β), Fits n p → Fits n (insertRow lt i p) := by
  intro i
  induction i with
  | zero => intro p h; exact h
  | succ i ih =>
    intro p h
    refine .load fun a _ => .load fun x _ => ?_
    split
    · exact .swap (ih p h)
    · exact h

theorem insertionSort_fits (n : Nat) (lt : List α → List α → Bool) : ∀ (m i : Nat), Fits n (insertionSort lt m i) := by
  intro m
  induction m with
  | zero => intro i; exact .done
  | succ m ih => intro i; exact insertRow_fits n lt i _ (ih _)

theorem shiftRows_spec {lt : List α → List α → Bool} (hasym : ∀ a b, lt a b = true → lt b a = false)
    (htrans : ∀ a b c, lt b a = false → lt c b = false → lt c a = false) (x : List α) :
    ∀ (i : Nat) (pre : List (List α)) (y : List α), pre.length = i → pre.Pairwise (fun a b => lt b a = false) →
      ∃ pre' : List (List α), pre'.Perm (pre ++ [x]) ∧ pre'.Pairwise (fun a b => lt b a = false) ∧
        ∀ (post : List (List α)) (p : RowProg α β), runRows (shiftRows lt x i p) (pre ++ y :: post) = runRows p (pre' ++ post) := by
  intro i
  induction i with
  | zero =>
    intro pre y hl hs
    obtain rfl : pre = [] := List.eq_nil_of_length_eq_zero hl
    exact ⟨[x], by simp, by simp, fun post p => by simp [shiftRows, runRows]⟩
  | succ i ih =>
    intro pre y hl hs
    obtain ⟨pre, a, rfl⟩ : ∃ q a, pre = q ++ [a] := ⟨pre.dropLast, pre.getLast (by intro e; simp [e] at hl), (List.dropLast_append_getLast _).symm⟩
    have hl' : pre.length = i := by simpa using hl
    rw [List.pairwise_append] at hs
    obtain ⟨hs1, -, hs2⟩ := hs
    have hga : ∀ (rest : List (List α)), (pre ++ a :: rest)[i]? = some a := by
      intro rest; rw [List.getElem?_append_right (by omega)]; simp [hl']
    have hgx : ∀ (y : List α) (rest : List (List α)), (pre ++ a :: y :: rest)[i + 1]? = some y := by
      intro y rest; rw [List.getElem?_append_right (by omega)]; simp [hl']
    by_cases h : lt x a = true
    · obtain ⟨pre', h1, h2, h3⟩ := ih pre a hl' hs1
      refine ⟨pre' ++ [a], ?_, ?_, ?_⟩
      · refine (h1.append_right [a]).trans ?_
        rw [List.append_assoc, List.append_assoc]
        exact (List.Perm.swap a x []).append_left pre
      · rw [List.pairwise_append]
        refine ⟨h2, by simp, fun b hb c hc => ?_⟩
        obtain rfl := List.mem_singleton.1 hc
        rcases List.mem_append.1 (h1.mem_iff.1 hb) with hb | hb
        · exact hs2 b hb _ (by simp)
        · obtain rfl := List.mem_singleton.1 hb
          exact hasym _ _ h
      · intro post p
        have e : pre ++ [a] ++ y :: post = pre ++ a :: y :: post := by simp
        rw [e, shiftRows, runRows, hga]
        dsimp only
        rw [if_pos h, runRows, hga, hgx]
        dsimp only
        have e2 : (pre ++ a :: y :: post).set (i + 1) a = pre ++ a :: a :: post := by
          rw [List.set_append_right _ _ (by omega)]
          simp [hl']
        rw [e2, h3 (a :: post) p]
        simp
    · have h' : lt x a = false := by simpa using h
      refine ⟨pre ++ [a] ++ [x], .refl _, ?_, ?_⟩
      · rw [List.pairwise_append, List.pairwise_append]
        refine ⟨⟨hs1, by simp, hs2⟩, by simp, fun b hb c hc => ?_⟩
        obtain rfl := List.mem_singleton.1 hc
        rcases List.mem_append.1 hb with hb | hb
        · exact htrans b a c (hs2 b hb a (by simp)) h'
        · obtain rfl := List.mem_singleton.1 hb
          exact h'
      · intro post p
        have e : pre ++ [a] ++ y :: post = pre ++ a :: y :: post := by simp
        rw [e, shiftRows, runRows, hga]
        dsimp only
        rw [h', if_neg (by simp), runRows]
        have e2 : (pre ++ a :: y :: post).set (i + 1) x = pre ++ a :: x :: post := by
          rw [List.set_append_right _ _ (by omega)]
          simp [hl']
        rw [e2, if_pos (by simp [hl'])]
        simp

theorem insertionSortCopying_spec {lt : List α → List α → Bool} (hasym : ∀ a b, lt a b = true → lt b a = false)
    (htrans : ∀ a b c, lt b a = false → lt c b = false → lt c a = false) :
    ∀ (post pre : List (List α)), pre.Pairwise (fun a b => lt b a = false) →
      ∃ rows' : List (List α), rows'.Perm (pre ++ post) ∧ rows'.Pairwise (fun a b => lt b a = false) ∧
        runRows (insertionSortCopying lt post.length pre.length) (pre ++ post) = .ok ((), rows') := by
  intro post
  induction post with
  | nil => intro pre hs; exact ⟨pre, by simp, hs, by simp [insertionSortCopying, runRows]⟩
  | cons x post ih =>
    intro pre hs
    obtain ⟨pre', h1, h2, h3⟩ := shiftRows_spec (β := Unit) hasym htrans x pre.length pre x rfl hs
    obtain ⟨rows', h4, h5, h6⟩ := ih pre' h2
    refine ⟨rows', h4.trans ?_, h5, ?_⟩
    · refine (h1.append_right post).trans ?_
      simp
    · have hg : (pre ++ x :: post)[pre.length]? = some x := by rw [List.getElem?_append_right (by omega)]; simp
      rw [List.length_cons, insertionSortCopying, runRows, hg]
      dsimp only
      rw [h3]
      have : pre.length + 1 = pre'.length := by rw [h1.length_eq]; simp
      rw [this]
      exact h6

theorem shiftRows_fits (n : Nat) (lt : List α → List α → Bool) (x : List α) (hx : x.length = n) :
    ∀ (i : Nat) (p : RowProg α β), Fits n p → Fits n (shiftRows lt x i p) := by
  intro i
  induction i with
  | zero => intro p h; exact .store hx h
  | succ i ih =>
    intro p h
    refine .load fun a _ => ?_
    split
    · exact .copy (ih p h)
    · exact .store hx h

theorem insertionSortCopying_fits (n : Nat) (lt : List α → List α → Bool) : ∀ (m i : Nat), Fits n (insertionSortCopying lt m i) := by
  intro m
  induction m with
  | zero => intro i; exact .done
  | succ m ih => intro i; exact .load fun x hx => shiftRows_fits n lt x hx i _ (ih _)

end Makeshift.Soa
