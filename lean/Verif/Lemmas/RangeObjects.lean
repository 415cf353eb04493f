import Verif.Lemmas.Zip
import Verif.Model.RangeObjects
import Verif.Spec.RangeObjects
import Mathlib.Data.List.Nodup

/-! Lemmas for the range algorithms on objects. -/

namespace Makeshift.RangeObjects

open Spec

variable {M V B : Type}

/-- Whether a call has returned regularly. -/
def regular : Outcome B → Bool
  | .ok _ => true
  | _ => false

theorem runBody_for (func : Fn M Unit) (ts : List (List (Arg Nat))) (m : M) :
    runBody (forBody func) (m, .ok ()) ts = (((callEach func ts m).2, (callEach func ts m).1), regular (callEach func ts m).1) := by
  induction ts generalizing m with
  | nil => rfl
  | cons t ts ih =>
    rcases h : func t m with ⟨o, m'⟩
    cases o <;> simp [runBody, forBody, h, callEach, andThen, leave, regular, ih]

theorem runBody_reduce (selfMove : V → V) (reduce : V → B → M → Outcome (Returned V) × M) (transform : Fn M B)
    (ts : List (List (Arg Nat))) (v : V) (m : M) :
    (runBody (reduceBody selfMove reduce transform) (m, .ok v) ts).1 =
      ((foldEach (fun v args => andThen (transform args) fun b => andThen (reduce v b) fun r m => (.ok (assignResult selfMove r), m)) v ts m).2,
       (foldEach (fun v args => andThen (transform args) fun b => andThen (reduce v b) fun r m => (.ok (assignResult selfMove r), m)) v ts m).1) := by
  induction ts generalizing v m with
  | nil => rfl
  | cons t ts ih =>
    rcases h : transform t m with ⟨o, m'⟩
    cases o with
    | ok b =>
      rcases h2 : reduce v b m' with ⟨o2, m2⟩
      cases o2 <;> simp [runBody, reduceBody, h, h2, foldEach, andThen, leave, ih]
    | _ => simp [runBody, reduceBody, h, foldEach, andThen, leave]

theorem runBody_count (pred : Fn M Bool) (ts : List (List (Arg Nat))) (k : Nat) (m : M) :
    (runBody (countBody pred) (m, .ok k) ts).1 =
      ((countEach pred ts m).2, match (countEach pred ts m).1 with
        | .ok j => .ok (k + j)
        | .throw e => .throw e
        | .failFast => .failFast
        | .ub => .ub) := by
  induction ts generalizing k m with
  | nil => rfl
  | cons t ts ih =>
    rcases h : pred t m with ⟨o, m'⟩
    cases o with
    | ok b =>
      simp only [runBody, countBody, h, if_true, ih, countEach, andThen]
      rcases h2 : countEach pred ts m' with ⟨o2, m2⟩
      cases o2 <;> cases b <;> simp
      omega
    | _ => simp [runBody, countBody, h, countEach, andThen, leave]

theorem runBody_search (stop hit miss : Bool) (pred : Fn M Bool) (ts : List (List (Arg Nat))) (m : M) :
    (runBody (searchBody stop hit pred) (m, .ok miss) ts).1 =
      ((anyReturns stop pred ts m).2, match (anyReturns stop pred ts m).1 with
        | .ok found => .ok (if found then hit else miss)
        | .throw e => .throw e
        | .failFast => .failFast
        | .ub => .ub) := by
  induction ts generalizing m with
  | nil => rfl
  | cons t ts ih =>
    rcases h : pred t m with ⟨o, m'⟩
    cases o with
    | ok b =>
      by_cases hb : b = stop
      · simp [runBody, searchBody, h, anyReturns, andThen, hb]
      · have hb' : (b == stop) = false := by simpa using hb
        simp only [runBody, searchBody, h, hb', anyReturns, andThen, hb, if_false, if_true, ih, Bool.false_eq_true]
    | _ => simp [runBody, searchBody, h, anyReturns, andThen, leave]

/-! ## reductions -/

theorem fold_returned (selfMove : V → V) (reduce : V → B → M → Outcome (Returned V) × M) (transform : Fn M B)
    (h : ∀ v b m w, (reduce v b m).1 = .ok (.rvalueOfFirst w) → selfMove w = w) (val : Returned V → V)
    (hval : ∀ w, val (.value w) = w ∧ val (.lvalueOfFirst w) = w ∧ val (.rvalueOfFirst w) = w)
    (ts : List (List (Arg Nat))) (v : V) (m : M) :
    foldEach (fun v args => andThen (transform args) fun b => andThen (reduce v b) fun r m => (.ok (assignResult selfMove r), m)) v ts m =
    foldEach (fun v args => andThen (transform args) fun b => andThen (reduce v b) fun r m => (.ok (val r), m)) v ts m := by
  induction ts generalizing v m with
  | nil => rfl
  | cons t ts ih =>
    rcases h1 : transform t m with ⟨o, m'⟩
    cases o with
    | ok b =>
      rcases h2 : reduce v b m' with ⟨o2, m2⟩
      cases o2 with
      | ok r =>
        have hr : assignResult selfMove r = val r := by
          cases r with
          | value w => simp [assignResult, hval]
          | lvalueOfFirst w => simp [assignResult, hval]
          | rvalueOfFirst w => simp [assignResult, hval, h v b m' w (by rw [h2])]
        simp [foldEach, andThen, h1, h2, hr, ih]
      | _ => simp [foldEach, andThen, h1, h2]
    | _ => simp [foldEach, andThen, h1]

theorem rangeReduce_fold (selfMove : V → V) (reduce : V → Nat → M → Outcome (Returned V) × M)
    (h : ∀ v b m w, (reduce v b m).1 = .ok (.rvalueOfFirst w) → selfMove w = w) (val : Returned V → V)
    (hval : ∀ w, val (.value w) = w ∧ val (.lvalueOfFirst w) = w ∧ val (.rvalueOfFirst w) = w)
    (range : List Nat) (v : V) (m : M) :
    rangeReduce selfMove reduce v range m =
    foldEach (fun v elem => andThen (reduce v elem) fun r m => (.ok (val r), m)) v range m := by
  induction range generalizing v m with
  | nil => rfl
  | cons t ts ih =>
    rcases h2 : reduce v t m with ⟨o2, m2⟩
    cases o2 with
    | ok r =>
      have hr : assignResult selfMove r = val r := by
        cases r with
        | value w => simp [assignResult, hval]
        | lvalueOfFirst w => simp [assignResult, hval]
        | rvalueOfFirst w => simp [assignResult, hval, h v t m w (by rw [h2])]
      simp [rangeReduce, foldEach, andThen, h2, hr, ih]
    | _ => simp [rangeReduce, foldEach, andThen, h2]

end Makeshift.RangeObjects
