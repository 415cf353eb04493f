import Verif.Spec.AnySource

/-! # Lemmas: members take initialisers leaf by leaf -/

namespace Makeshift.AnySource

open Spec

/-- Leaf by leaf. -/
def leafTakes : Leaf → Nat → Option Nat
  | .object d, 0 => if d then some 0 else none
  | .lvalueRef, _ => none
  | .otherRef, 0 => none
  | _, k + 1 => some k

def leavesTake : List Leaf → Nat → Option Nat
  | [], k => some k
  | l :: ls, k => (leafTakes l k).bind (leavesTake ls)

theorem leavesTake_append (a b : List Leaf) (k : Nat) :
    leavesTake (a ++ b) k = (leavesTake a k).bind (leavesTake b) := by
  induction a generalizing k with
  | nil => rfl
  | cons l ls ih =>
    simp only [List.cons_append, leavesTake]
    cases leafTakes l k with
    | none => rfl
    | some j => exact ih j

theorem rep_eq (ls : List Leaf) (f : Nat → Option Nat) (h : ∀ k, f k = leavesTake ls k) (n k : Nat) :
    rep f n k = leavesTake (List.replicate n ls).flatten k := by
  induction n generalizing k with
  | zero => rfl
  | succ n ih =>
    rw [List.replicate_succ, List.flatten_cons, leavesTake_append, rep, h]
    congr 1
    funext j
    exact ih j

theorem takes_eq (e : Elem) (k : Nat) : e.takes k = leavesTake (leavesOf e) k := by
  induction e generalizing k with
  | object d => cases k <;> cases d <;> rfl
  | lref => cases k <;> rfl
  | cref => cases k <;> rfl
  | rref => cases k <;> rfl
  | array n e ih => exact rep_eq _ _ ih n k

theorem takesAll_eq (ms : List Elem) (k : Nat) : takesAll ms k = leavesTake (leaves ms) k := by
  induction ms generalizing k with
  | nil => rfl
  | cons e es ih =>
    rw [leaves, List.flatMap_cons, leavesTake_append, takesAll, takes_eq]
    congr 1
    funext j
    exact ih j

theorem leavesTake_iff (ls : List Leaf) (k : Nat) :
    leavesTake ls k = some 0 ↔
      k ≤ ls.length ∧ (∀ l ∈ ls.take k, l ≠ .lvalueRef) ∧ ∀ l ∈ ls.drop k, l = .object true := by
  induction ls generalizing k with
  | nil => simp [leavesTake]
  | cons l ls ih =>
    cases k with
    | zero =>
      have h0 := ih 0
      simp only [List.drop_zero, List.take_zero, Nat.zero_le, true_and] at h0
      cases l with
      | object d => cases d <;> simp [leavesTake, leafTakes, h0]
      | lvalueRef => simp [leavesTake, leafTakes]
      | otherRef => simp [leavesTake, leafTakes]
    | succ k =>
      cases l with
      | object d => simp [leavesTake, leafTakes, ih k]
      | lvalueRef => simp [leavesTake, leafTakes]
      | otherRef => simp [leavesTake, leafTakes, ih k]

theorem leavesOf_pos (e : Elem) (h : Valid e) : 0 < (leavesOf e).length := by
  induction e with
  | array n e ih =>
    simp only [leavesOf, List.length_flatten, List.map_replicate, List.sum_replicate_nat]
    exact Nat.mul_pos h.1 (ih h.2)
  | _ => simp [leavesOf]

theorem leavesOf_one_iff (e : Elem) (h : Valid e) : (leavesOf e).length = 1 ↔ Single e := by
  induction e with
  | array n e ih =>
    simp only [leavesOf, List.length_flatten, List.map_replicate, List.sum_replicate_nat, Single]
    rw [← ih h.2]
    have hp := leavesOf_pos e h.2
    have h1 := Nat.le_mul_of_pos_right n hp
    have h2 := Nat.le_mul_of_pos_left (leavesOf e).length h.1
    constructor
    · intro hh
      exact ⟨Nat.le_antisymm (hh ▸ h1) h.1, Nat.le_antisymm (hh ▸ h2) hp⟩
    · rintro ⟨e1, e2⟩
      rw [e1, e2]
  | _ => simp [leavesOf, Single]

theorem leaves_length_ge (ms : List Elem) (h : ∀ m ∈ ms, Valid m) : ms.length ≤ (leaves ms).length := by
  induction ms with
  | nil => simp
  | cons m ms ih =>
    have h1 := leavesOf_pos m (h m (List.mem_cons_self ..))
    have h2 := ih fun x hx => h x (List.mem_cons_of_mem _ hx)
    simp only [leaves, List.flatMap_cons, List.length_append, List.length_cons] at h2 ⊢
    omega

theorem leaves_length_eq_iff (ms : List Elem) (h : ∀ m ∈ ms, Valid m) :
    (leaves ms).length = ms.length ↔ ∀ m ∈ ms, Single m := by
  induction ms with
  | nil => simp [leaves]
  | cons m ms ih =>
    have hm := h m (List.mem_cons_self ..)
    have ht : ∀ x ∈ ms, Valid x := fun x hx => h x (List.mem_cons_of_mem _ hx)
    have h1 := leavesOf_pos m hm
    have h2 := leaves_length_ge ms ht
    have h3 := ih ht
    have h4 := leavesOf_one_iff m hm
    simp only [leaves, List.flatMap_cons, List.length_append, List.length_cons, List.forall_mem_cons] at h2 h3 ⊢
    rw [← h3, ← h4]
    omega

end Makeshift.AnySource
