import Verif.Model.Mdarray
import Verif.Spec.Mdarray
import Mathlib.Tactic.Ring
import Mathlib.Tactic.Linarith

/-!
# C104: `mdarray`
-/

namespace Makeshift.Props

open Makeshift.Mdarray Makeshift.Spec.Mdarray

/-- C104: `mdarray<T, N1, ..., Nd>` nests `std::array` like `T[N1]...[Nd]` nests arrays; without dimensions it is `T`. -/
theorem C104_type (t : Nat) (dims : List Nat) :
    mdarrayTy t dims = cArrayTy t dims ∧ mdarrayTy t [] = .elem t ∧
    (∀ n, mdarrayTy t (dims ++ [n]) = (dims.foldr (fun m inner => .array inner m) (.array (.elem t) n))) ∧
    mdarrayTy t [2, 3, 4] = .array (.array (.array (.elem t) 4) 3) 2 := by
  have h : ∀ dims, mdarrayTy t dims = cArrayTy t dims := by
    intro dims
    induction dims with
    | nil => rfl
    | cons n dims ih => simp only [mdarrayTy, ih]; rfl
  refine ⟨h dims, rfl, fun n => ?_, rfl⟩
  rw [h, cArrayTy, List.foldr_append]
  rfl

/-- C104: it has as many elements as the product of the dimensions. -/
theorem C104_count (t : Nat) (dims : List Nat) : (mdarrayTy t dims).count = dims.prod := by
  induction dims with
  | nil => rfl
  | cons n dims ih => simp only [mdarrayTy, Ty.count, ih, List.prod_cons]

private theorem rowMajor_acc (dims : List Nat) : ∀ (is : List Nat) (a : Nat), is.length = dims.length →
    (is.zip dims).foldl (fun acc p => acc * p.2 + p.1) a = a * dims.prod + (is.zip dims).foldl (fun acc p => acc * p.2 + p.1) 0 := by
  induction dims with
  | nil => intro is a h; simp_all
  | cons n dims ih =>
    intro is a h
    rcases is with _ | ⟨i, is⟩
    · simp at h
    · have h' : is.length = dims.length := by simpa using h
      simp only [List.zip_cons_cons, List.foldl_cons, List.prod_cons]
      rw [ih is _ h', ih is (0 * n + i) h']
      ring

private theorem rowMajor_cons {n i : Nat} {dims is : List Nat} (h : is.length = dims.length) :
    rowMajor (n :: dims) (i :: is) = i * dims.prod + rowMajor dims is := by
  unfold rowMajor
  rw [List.zip_cons_cons, List.foldl_cons, rowMajor_acc dims is _ h]
  simp

/-- C104: with as many subscripts as dimensions, each in range, one gets the element at the position in row-major order; no other sequence of
subscripts gives an element. -/
theorem C104_element (t : Nat) (dims is : List Nat) (o : Nat) (u : Nat) :
    (mdarrayTy t dims).locate is = some (o, .elem u) ↔ InRange dims is ∧ o = rowMajor dims is ∧ u = t := by
  induction dims generalizing is o with
  | nil =>
    rcases is with _ | ⟨i, is⟩
    · simp only [mdarrayTy, Ty.locate, Option.some.injEq, Prod.mk.injEq, Ty.elem.injEq, InRange, rowMajor]
      constructor
      · rintro ⟨rfl, rfl⟩; exact ⟨.nil, rfl, rfl⟩
      · rintro ⟨-, rfl, rfl⟩; exact ⟨rfl, rfl⟩
    · simp [mdarrayTy, Ty.locate, InRange]
  | cons n dims ih =>
    rcases is with _ | ⟨i, is⟩
    · simp [mdarrayTy, Ty.locate, InRange]
    · simp only [mdarrayTy, Ty.locate, InRange, List.forall₂_cons]
      by_cases hi : i < n
      · rw [if_pos hi]
        simp only [Option.map_eq_some_iff, Prod.mk.injEq, Prod.exists, C104_count, hi, true_and]
        constructor
        · rintro ⟨o', u', h, rfl, rfl⟩
          obtain ⟨h1, rfl, rfl⟩ := (ih is o').1 h
          exact ⟨h1, (rowMajor_cons h1.length_eq).symm, rfl⟩
        · rintro ⟨h1, rfl, rfl⟩
          exact ⟨rowMajor dims is, _, (ih is _).2 ⟨h1, rfl, rfl⟩, (rowMajor_cons (List.Forall₂.length_eq h1)).symm, rfl⟩
      · simp [hi]

example : InRange [2, 3, 4] [1, 2, 3] ∧ rowMajor [2, 3, 4] [1, 2, 3] = 23 ∧ rowMajor [2, 3, 4] [1, 0, 2] = 14 :=
  ⟨by unfold InRange; simp, rfl, rfl⟩

/-- C104: fewer subscripts give the `mdarray` with the remaining dimensions, which begins at the position of its first element. -/
theorem C104_slice (t : Nat) (dims rest is : List Nat) (h : InRange dims is) :
    (mdarrayTy t (dims ++ rest)).locate is = some (rowMajor dims is * rest.prod, mdarrayTy t rest) := by
  induction dims generalizing is with
  | nil => cases h; simp [Ty.locate, rowMajor]
  | cons n dims ih =>
    rcases is with _ | ⟨i, is⟩
    · cases h
    · obtain ⟨hi, h⟩ := List.forall₂_cons.1 h
      simp only [List.cons_append, mdarrayTy, Ty.locate, if_pos hi, ih is h, Option.map_some, C104_count,
        rowMajor_cons (List.Forall₂.length_eq h), List.prod_append]
      congr 2
      ring

example : InRange [2, 3] [1, 2] := by unfold InRange; simp

private theorem rowMajor_lt {dims is : List Nat} (h : InRange dims is) : rowMajor dims is < dims.prod := by
  induction h with
  | nil => simp [rowMajor]
  | @cons i n is dims hi h ih =>
    rw [rowMajor_cons (List.Forall₂.length_eq h), List.prod_cons]
    calc i * dims.prod + rowMajor dims is < i * dims.prod + dims.prod := by omega
      _ = (i + 1) * dims.prod := by ring
      _ ≤ n * dims.prod := Nat.mul_le_mul_right _ hi

/-- C104: every one of the elements is reached, with exactly one sequence of subscripts. -/
theorem C104_bijection (dims : List Nat) :
    (∀ is, InRange dims is → rowMajor dims is < dims.prod) ∧
    ∀ o < dims.prod, ∃ is, InRange dims is ∧ rowMajor dims is = o ∧ ∀ js, InRange dims js → rowMajor dims js = o → js = is := by
  refine ⟨fun is => rowMajor_lt, ?_⟩
  induction dims with
  | nil =>
    intro o ho
    obtain rfl : o = 0 := by simpa using ho
    exact ⟨[], .nil, rfl, fun js h _ => by cases h; rfl⟩
  | cons n dims ih =>
    intro o ho
    rw [List.prod_cons] at ho
    have hp : 0 < dims.prod := by
      rcases Nat.eq_zero_or_pos dims.prod with h | h
      · simp [h] at ho
      · exact h
    obtain ⟨is, h1, h2, h3⟩ := ih (o % dims.prod) (Nat.mod_lt _ hp)
    refine ⟨o / dims.prod :: is, .cons (Nat.div_lt_of_lt_mul (by rwa [Nat.mul_comm] at ho)) h1, ?_, ?_⟩
    · rw [rowMajor_cons (List.Forall₂.length_eq h1), h2, Nat.mul_comm]
      exact Nat.div_add_mod _ _
    · intro js hj hjo
      rcases js with _ | ⟨j, js⟩
      · cases hj
      · obtain ⟨hj1, hj2⟩ := List.forall₂_cons.1 hj
        have hlt := rowMajor_lt hj2
        rw [rowMajor_cons (List.Forall₂.length_eq hj2)] at hjo
        have e1 : o / dims.prod = j := by
          rw [← hjo, Nat.mul_comm, Nat.mul_add_div hp, Nat.div_eq_of_lt hlt, Nat.add_zero]
        have e2 : o % dims.prod = rowMajor dims js := by
          rw [← hjo, Nat.mul_comm, Nat.mul_add_mod, Nat.mod_eq_of_lt hlt]
        rw [e1, h3 js hj2 e2.symm]

example : 14 < [2, 3, 4].prod := by decide

/-- C104: the order of the elements in memory is the lexicographic order of their subscripts. -/
theorem C104_order (dims is js : List Nat) (hi : InRange dims is) (hj : InRange dims js) :
    rowMajor dims is < rowMajor dims js ↔ List.Lex (· < ·) is js := by
  induction dims generalizing is js with
  | nil => cases hi; cases hj; simp [rowMajor]
  | cons n dims ih =>
    rcases is with _ | ⟨i, is⟩
    · cases hi
    rcases js with _ | ⟨j, js⟩
    · cases hj
    have hi' : InRange dims is := (List.forall₂_cons.1 hi).2
    have hj' : InRange dims js := (List.forall₂_cons.1 hj).2
    rw [rowMajor_cons (List.Forall₂.length_eq hi'), rowMajor_cons (List.Forall₂.length_eq hj')]
    have li := rowMajor_lt hi'
    have lj := rowMajor_lt hj'
    rcases Nat.lt_trichotomy i j with h | rfl | h
    · have : (i + 1) * dims.prod ≤ j * dims.prod := Nat.mul_le_mul_right _ h
      refine ⟨fun _ => .rel h, fun _ => ?_⟩
      have : (i + 1) * dims.prod = i * dims.prod + dims.prod := by ring
      omega
    · rw [Nat.add_lt_add_iff_left, ih is js hi' hj']
      constructor
      · exact fun h => .cons h
      · intro h
        cases h with
        | cons h => exact h
        | rel h => omega
    · have : (j + 1) * dims.prod ≤ i * dims.prod := Nat.mul_le_mul_right _ h
      have : (j + 1) * dims.prod = j * dims.prod + dims.prod := by ring
      constructor
      · intro; omega
      · intro h'
        cases h' with
        | cons h' => omega
        | rel h' => omega

example : InRange [2, 3] [0, 2] ∧ InRange [2, 3] [1, 0] ∧ List.Lex (· < ·) [0, 2] [1, 0] :=
  ⟨by unfold InRange; simp, by unfold InRange; simp, .rel (by decide)⟩

/-- C104: an element which has been written is read back; the other elements stay. -/
theorem C104_write {α : Type} (t : Nat) (dims is : List Nat) (mem : List α) (hm : mem.length = dims.prod) (h : InRange dims is) (v : α) :
    ∃ mem', writeElem (mdarrayTy t dims) mem is v = some mem' ∧ mem'.length = dims.prod ∧
      readElem (mdarrayTy t dims) mem' is = some v ∧
      ∀ js, js ≠ is → readElem (mdarrayTy t dims) mem' js = readElem (mdarrayTy t dims) mem js := by
  have hl := (C104_element t dims is _ t).2 ⟨h, rfl, rfl⟩
  have hlt := rowMajor_lt h
  refine ⟨mem.set (rowMajor dims is) v, by rw [writeElem, hl], by simpa using hm, ?_, ?_⟩
  · rw [readElem, hl]
    simp [hm, hlt]
  · intro js hne
    unfold readElem
    cases e : (mdarrayTy t dims).locate js with
    | none => rfl
    | some p =>
      obtain ⟨o, u⟩ := p
      cases u with
      | array u n => rfl
      | elem u =>
        obtain ⟨hj, rfl, -⟩ := (C104_element t dims js o u).1 e
        have : rowMajor dims is ≠ rowMajor dims js := by
          intro e
          obtain ⟨ks, -, -, hk⟩ := (C104_bijection dims).2 _ hlt
          exact hne ((hk js hj e.symm).trans (hk is h rfl).symm)
        simp [this]

example : InRange [2, 3] [1, 0] ∧ [10, 11, 12, 13, 14, 15].length = [2, 3].prod ∧
    readElem (mdarrayTy 0 [2, 3]) [10, 11, 12, 13, 14, 15] [1, 0] = some 13 :=
  ⟨by unfold InRange; simp, rfl, rfl⟩

private theorem lex_split {α : Type} (lt : List α → List α → Bool) (b : Nat) : ∀ (a : Nat) (x y : List α),
    lexLoop lt 1 (a + b) x y =
      if lexLoop lt 1 a x y then true else if lexLoop lt 1 a y x then false else lexLoop lt 1 b (x.drop a) (y.drop a) := by
  intro a
  induction a with
  | zero => intro x y; simp [lexLoop]
  | succ a ih =>
    intro x y
    rw [Nat.add_right_comm]
    simp only [lexLoop]
    rw [ih]
    by_cases h1 : lt x y = true
    · simp [h1]
    · by_cases h2 : lt y x = true
      · simp [h1, h2]
      · simp only [h1, h2, List.drop_drop, Nat.add_comm 1 a, Bool.false_eq_true, if_false]

private theorem lt_flat {α : Type} (lt : α → α → Bool) (T : Ty) : ∀ (x y : List α),
    ltArr lt T x y = lexLoop (ltArr lt (.elem 0)) 1 T.count x y := by
  induction T with
  | elem t =>
    intro x y
    simp only [Ty.count, lexLoop]
    have e : ∀ x y, ltArr lt (.elem t) x y = ltArr lt (.elem 0) x y := fun _ _ => rfl
    rw [e]
    cases ltArr lt (.elem 0) x y <;> simp
  | array T n ih =>
    have key : ∀ (n : Nat) (x y : List α), lexLoop (ltArr lt T) T.count n x y = lexLoop (ltArr lt (.elem 0)) 1 (n * T.count) x y := by
      intro n
      induction n with
      | zero => intro x y; simp [lexLoop]
      | succ n ihn =>
        intro x y
        conv_lhs => rw [lexLoop]
        rw [Nat.succ_mul, Nat.add_comm, lex_split, ih, ih, ihn]
    intro x y
    exact key n x y

private theorem flat_precedes {α : Type} (lt : α → α → Bool) : ∀ (n : Nat) (x y : List α), x.length = n → y.length = n →
    (lexLoop (ltArr lt (.elem 0)) 1 n x y = true ↔ Precedes lt x y) := by
  intro n
  induction n with
  | zero =>
    intro x y hx hy
    simp only [lexLoop, Precedes]
    constructor
    · intro h; exact absurd h (by simp)
    · rintro ⟨k, h1, -⟩; omega
  | succ n ih =>
    intro x y hx hy
    rcases x with _ | ⟨a, x⟩
    · simp at hx
    rcases y with _ | ⟨b, y⟩
    · simp at hy
    have hx' : x.length = n := by simpa using hx
    have hy' : y.length = n := by simpa using hy
    have e1 : ltArr lt (.elem 0) (a :: x) (b :: y) = lt a b := rfl
    have e2 : ltArr lt (.elem 0) (b :: y) (a :: x) = lt b a := rfl
    simp only [lexLoop, e1, e2, List.drop_one, List.tail_cons]
    by_cases h1 : lt a b = true
    · simp only [h1, if_true, true_iff]
      exact ⟨0, by simp, by simp, h1, fun j _ _ h => absurd h (Nat.not_lt_zero _)⟩
    · simp only [h1, if_false, Bool.false_eq_true]
      by_cases h2 : lt b a = true
      · simp only [h2, if_true, Bool.false_eq_true, false_iff]
        rintro ⟨k, g1, g2, g3, g4⟩
        rcases k with _ | k
        · exact h1 g3
        · have := (g4 0 (by simp) (by simp) (by omega)).2
          simp only [List.getElem_cons_zero] at this
          rw [this] at h2
          cases h2
      · simp only [h2, if_false, Bool.false_eq_true]
        rw [ih x y hx' hy']
        constructor
        · rintro ⟨k, g1, g2, g3, g4⟩
          refine ⟨k + 1, by simpa using g1, by simpa using g2, by simpa using g3, ?_⟩
          intro j j1 j2 hj
          rcases j with _ | j
          · simp only [List.getElem_cons_zero]
            exact ⟨by simpa using h1, by simpa using h2⟩
          · simpa using g4 j (by simpa using j1) (by simpa using j2) (by omega)
        · rintro ⟨k, g1, g2, g3, g4⟩
          rcases k with _ | k
          · exact absurd g3 h1
          · refine ⟨k, by simpa using g1, by simpa using g2, by simpa using g3, ?_⟩
            intro j j1 j2 hj
            have := g4 (j + 1) (by simpa using j1) (by simpa using j2) (by omega)
            simp only [List.getElem_cons_succ] at this
            exact this

/-- C104: `==` holds iff it holds for all elements, and `<` compares the elements in row-major order, whatever `==` and `<` of the elements
are. -/
theorem C104_compare {α : Type} (eq lt : α → α → Bool) (t : Nat) (dims : List Nat) (x y : List α) (hx : x.length = dims.prod)
    (hy : y.length = dims.prod) :
    (eqArr eq (mdarrayTy t dims) x y = true ↔ List.Forall₂ (fun a b => eq a b = true) x y) ∧
    (ltArr lt (mdarrayTy t dims) x y = true ↔ Precedes lt x y) := by
  constructor
  · have key : ∀ (dims : List Nat) (x y : List α), dims.prod ≤ x.length → dims.prod ≤ y.length →
        (eqArr eq (mdarrayTy t dims) x y = true ↔ ∀ (k : Nat) (h1 : k < x.length) (h2 : k < y.length), k < dims.prod → eq x[k] y[k] = true) := by
      intro dims
      induction dims with
      | nil =>
        intro x y hx hy
        rcases x with _ | ⟨a, x⟩
        · simp at hx
        rcases y with _ | ⟨b, y⟩
        · simp at hy
        simp only [mdarrayTy, eqArr, List.prod_nil, Nat.lt_one_iff]
        constructor
        · rintro h k - - rfl; exact h
        · intro h; exact h 0 (by simp) (by simp) rfl
      | cons n dims ih =>
        intro x y hx hy
        simp only [mdarrayTy, eqArr, List.all_eq_true, List.mem_range, C104_count]
        rw [List.prod_cons] at hx hy
        have hb : ∀ i < n, i * dims.prod + dims.prod ≤ n * dims.prod := by
          intro i hi
          calc i * dims.prod + dims.prod = (i + 1) * dims.prod := by ring
            _ ≤ n * dims.prod := Nat.mul_le_mul_right _ hi
        constructor
        · intro h k h1 h2 hk
          rw [List.prod_cons] at hk
          have hp : 0 < dims.prod := by
            rcases Nat.eq_zero_or_pos dims.prod with h | h
            · simp [h] at hk
            · exact h
          have hkn : k / dims.prod < n := Nat.div_lt_of_lt_mul (by rwa [Nat.mul_comm] at hk)
          have hb' := hb _ hkn
          have hmod := Nat.mod_lt k hp
          have hsum : k / dims.prod * dims.prod + k % dims.prod = k := by rw [Nat.mul_comm]; exact Nat.div_add_mod _ _
          have := (ih (x.drop (k / dims.prod * dims.prod)) (y.drop (k / dims.prod * dims.prod))
            (by rw [List.length_drop]; omega) (by rw [List.length_drop]; omega)).1 (h _ hkn) (k % dims.prod)
            (by rw [List.length_drop]; omega) (by rw [List.length_drop]; omega) hmod
          simpa only [List.getElem_drop, hsum] using this
        · intro h i hi
          have hb' := hb _ hi
          refine (ih _ _ (by rw [List.length_drop]; omega) (by rw [List.length_drop]; omega)).2 ?_
          intro k h1 h2 hk
          rw [List.getElem_drop, List.getElem_drop]
          rw [List.length_drop] at h1 h2
          exact h _ (by omega) (by omega) (by rw [List.prod_cons]; omega)
    rw [key dims x y (by omega) (by omega), List.forall₂_iff_get]
    constructor
    · intro h
      exact ⟨by omega, fun k h1 h2 => h k h1 h2 (by omega)⟩
    · rintro ⟨-, h⟩ k h1 h2 -
      exact h k h1 h2
  · rw [lt_flat, C104_count]
    exact flat_precedes lt _ x y hx hy

example : [1, 2, 3, 4].length = [2, 2].prod ∧ ltArr (fun a b => decide (a < b)) (mdarrayTy 0 [2, 2]) [1, 2, 3, 4] [1, 2, 4, 0] = true := by decide

end Makeshift.Props
