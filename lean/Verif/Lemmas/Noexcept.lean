import Verif.Model.Noexcept
import Verif.Spec.Noexcept

/-! Lemmas about exceptions and `noexcept`. -/

namespace Makeshift.Noexcept

open Makeshift.Spec

variable {M A B : Type}

theorem irregular_ok {x : A} {o : Outcome B} (h : Irregular (.ok x) o) : False := by cases h

theorem noexceptFn_of_not_throw {a : Act M B} {m : M} (h : ∀ e, (a m).1 ≠ .throw e) : noexceptFn a m = a m := by
  simp only [noexceptFn]
  cases ha : a m with
  | mk o m' =>
    cases o with
    | throw e => exact absurd (by rw [ha]) (h e)
    | ok _ => rfl
    | failFast => rfl
    | ub => rfl

theorem noexceptFn_of_throw {a : Act M B} {m m' : M} {e} (h : a m = (.throw e, m')) : noexceptFn a m = (.failFast, m') := by
  simp only [noexceptFn, h]

theorem noexceptFn_never {a : Act M B} (h : NeverThrows a) : noexceptFn a = a := funext fun m => noexceptFn_of_not_throw (h m)

theorem andThen_ok {a : Act M A} {f : A → Act M B} {m m' : M} {x} (h : a m = (.ok x, m')) : andThen a f m = f x m' := by
  simp only [andThen, h]

theorem andThen_irregular {a : Act M A} {f : A → Act M B} {m m' : M} {o : Outcome A} {o' : Outcome B} (h : a m = (o, m'))
    (hi : Irregular o o') : andThen a f m = (o', m') := by
  cases hi <;> simp only [andThen, h]

theorem inOrder_of_evaluates {acts : List (Act M B)} {m m' : M} {o} (h : Evaluates acts m o m') : inOrder acts m = (o, m') := by
  induction h with
  | nil m => rfl
  | step ha _ ih => simp only [inOrder]; rw [andThen_ok ha, andThen_ok ih]
  | stop ha hi => simp only [inOrder]; exact andThen_irregular ha hi
  | later ha _ hi ih => simp only [inOrder]; rw [andThen_ok ha]; exact andThen_irregular ih hi

theorem evaluates_inOrder (acts : List (Act M B)) (m : M) : Evaluates acts m (inOrder acts m).1 (inOrder acts m).2 := by
  induction acts generalizing m with
  | nil => exact .nil m
  | cons a as ih =>
    cases ha : a m with
    | mk o m' =>
      have key : ∀ {o' : Outcome (List B)}, Irregular o o' → Evaluates (a :: as) m (inOrder (a :: as) m).1 (inOrder (a :: as) m).2 := by
        intro o' hi
        have := inOrder_of_evaluates (Evaluates.stop (as := as) ha hi)
        rw [this]; exact .stop ha hi
      cases o with
      | throw e => exact key (.throw e)
      | failFast => exact key .failFast
      | ub => exact key .ub
      | ok b =>
        have hr := ih m'
        cases hs : inOrder as m' with
        | mk o2 m2 =>
          rw [hs] at hr
          have key2 : ∀ {o' : Outcome (List B)}, Irregular o2 o' → Evaluates (a :: as) m (inOrder (a :: as) m).1 (inOrder (a :: as) m).2 := by
            intro o' hi
            have := inOrder_of_evaluates (Evaluates.later ha hr hi)
            rw [this]; exact .later ha hr hi
          cases o2 with
          | throw e => exact key2 (.throw e)
          | failFast => exact key2 .failFast
          | ub => exact key2 .ub
          | ok bs =>
            have := inOrder_of_evaluates (Evaluates.step ha hr)
            rw [this]; exact .step ha hr

theorem evaluates_never {acts : List (Act M B)} (hn : ∀ a ∈ acts, NeverThrows a) {m m' : M} {o} (h : Evaluates acts m o m') :
    ∀ e, o ≠ .throw e := by
  induction h with
  | nil m => intro e he; cases he
  | step _ _ _ => intro e he; cases he
  | stop ha hi =>
    intro e he
    subst he
    cases hi
    exact hn _ (.head _) _ e (by rw [ha])
  | later ha _ hi ih =>
    intro e he
    subst he
    cases hi
    exact ih (fun a h => hn a (.tail _ h)) e rfl

theorem discard_of {a : Act M B} {m m' : M} {o} (h : a m = (o, m')) : discard a m = (o.mapVal fun _ => (), m') := by
  simp only [discard]
  cases o with
  | ok x => rw [andThen_ok h]; rfl
  | throw e => exact andThen_irregular h (.throw e)
  | failFast => exact andThen_irregular h .failFast
  | ub => exact andThen_irregular h .ub

theorem mapGet_never {gets : List (Act M A)} (hn : ∀ a ∈ gets, NeverThrows a) : gets.map getElement = gets := by
  induction gets with
  | nil => rfl
  | cons a as ih =>
    rw [List.map_cons, ih fun b h => hn b (.tail _ h), getElement, noexceptFn_never (hn a (.head _))]

theorem andThen_of_evaluatesCall {func : List A → Act M B} {gets : List (Act M A)} {m m' : M} {o}
    (h : EvaluatesCall func gets m o m') : andThen (inOrder gets) func m = (o, m') := by
  cases h with
  | call h => rw [andThen_ok (inOrder_of_evaluates h)]
  | stop h hi => exact andThen_irregular (inOrder_of_evaluates h) hi

/-- The arguments up to the first one whose function throws have been evaluated. -/
theorem inOrder_noexcept_throw {gets : List (Act M A)} {m m' : M} {e} (h : Evaluates gets m (.throw e) m') :
    inOrder (gets.map noexceptFn) m = (.failFast, m') := by
  generalize ho : (Outcome.throw e : Outcome (List A)) = o at h
  induction h with
  | nil m => cases ho
  | step _ _ _ => cases ho
  | stop ha hi =>
    subst ho
    cases hi
    simp only [List.map_cons, inOrder]
    exact andThen_irregular (noexceptFn_of_throw ha) .failFast
  | later ha _ hi ih =>
    subst ho
    cases hi
    simp only [List.map_cons, inOrder]
    rw [andThen_ok (by rw [noexceptFn_of_not_throw (by rw [ha]; intro e h; cases h), ha])]
    exact andThen_irregular (ih rfl) .failFast

theorem inOrder_noexcept_ok {gets : List (Act M A)} {m m' : M} {xs} (h : Evaluates gets m (.ok xs) m') :
    inOrder (gets.map noexceptFn) m = (.ok xs, m') := by
  generalize ho : (Outcome.ok xs : Outcome (List A)) = o at h
  induction h generalizing xs with
  | nil m => rfl
  | step ha _ ih =>
    cases ho
    simp only [List.map_cons, inOrder]
    rw [andThen_ok (by rw [noexceptFn_of_not_throw (by rw [ha]; intro e h; cases h), ha]), andThen_ok (ih rfl)]
  | stop _ hi => subst ho; cases hi
  | later _ _ hi _ => subst ho; cases hi

end Makeshift.Noexcept
