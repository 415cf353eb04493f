import Verif.Spec.Recursion
import Mathlib.Data.Nat.Factorial.Basic

/-!
# `y_combinator`: C65
-/

namespace Makeshift.Props

open Makeshift.YComb Makeshift.Spec

variable {X Y S : Type}

theorem exec_mono {f g : X → S → Option (Y × S)} (h : ∀ x s r, f x s = some r → g x s = some r) :
    ∀ (p : Prog X Y S) (s : S) (r : Y × S), exec f p s = some r → exec g p s = some r
  | .ret y, s, r => id
  | .call x k, s, r => by
    intro he
    simp only [exec] at he ⊢
    obtain ⟨r1, h1, h2⟩ := Option.bind_eq_some_iff.1 he
    rw [h x s r1 h1, Option.bind_some]
    exact exec_mono h (k r1.1) r1.2 r h2
  | .get k, s, r => exec_mono h (k s) s r
  | .put s' p, _, r => exec_mono h p s' r

theorem funcRef_mono (func : X → Prog X Y S) : ∀ (n m : Nat), n ≤ m → ∀ x s r, funcRef func n x s = some r → funcRef func m x s = some r
  | 0, _, _, x, s, r, h => by simp [funcRef] at h
  | n + 1, 0, hnm, _, _, _, _ => by omega
  | n + 1, m + 1, hnm, x, s, r, h => exec_mono (funcRef_mono func n m (by omega)) (func x) s r h

/-- C65: more room for the recursion does not change a result. -/
theorem C65_deterministic (func : X → Prog X Y S) (n m : Nat) (hnm : n ≤ m) (x : X) (s : S) (r : Y × S)
    (h : yCombinator func n x s = some r) : yCombinator func m x s = some r :=
  exec_mono (funcRef_mono func n m hnm) (func x) s r h

/-- C65: the fixed-point equation - the combinator applied to `x` is the functor applied to the combinator and `x`. -/
theorem C65_fixed_point (func : X → Prog X Y S) (n : Nat) (x : X) (s : S) :
    yCombinator func (n + 1) x s = exec (yCombinator func n) (func x) s := by
  have : funcRef func (n + 1) = yCombinator func n := by
    funext x s; rfl
  unfold yCombinator
  rw [this]; rfl

theorem exec_runs (func : X → Prog X Y S) (n : Nat) : ∀ (p : Prog X Y S) (s : S) (r : Y × S),
    exec (funcRef func n) p s = some r → Runs func p s r.1 r.2 := by
  induction n with
  | zero =>
    intro p
    induction p with
    | ret y =>
      intro s r h
      simp only [exec, Option.some.injEq] at h
      rw [← h]; exact Runs.ret y s
    | call x k ih => intro s r h; simp [exec, funcRef] at h
    | get k ih => intro s r h; exact Runs.get k s r.2 r.1 (ih s s r h)
    | put s' p ih => intro s r h; exact Runs.put s s' r.2 p r.1 (ih s' r h)
  | succ n ihn =>
    intro p
    induction p with
    | ret y =>
      intro s r h
      simp only [exec, Option.some.injEq] at h
      rw [← h]; exact Runs.ret y s
    | call x k ih =>
      intro s r h
      simp only [exec] at h
      obtain ⟨r1, h1, h2⟩ := Option.bind_eq_some_iff.1 h
      exact Runs.call x k s r1.2 r.2 r1.1 r.1 (ihn (func x) s r1 h1) (ih r1.1 r1.2 r h2)
    | get k ih => intro s r h; exact Runs.get k s r.2 r.1 (ih s s r h)
    | put s' p ih => intro s r h; exact Runs.put s s' r.2 p r.1 (ih s' r h)

theorem runs_exec {func : X → Prog X Y S} {p : Prog X Y S} {s s' : S} {y : Y} (h : Runs func p s y s') :
    ∃ n, exec (funcRef func n) p s = some (y, s') := by
  induction h with
  | ret y s => exact ⟨0, rfl⟩
  | call x k s s1 s2 y1 y2 _ _ ih1 ih2 =>
    obtain ⟨n, hn⟩ := ih1
    obtain ⟨m, hm⟩ := ih2
    refine ⟨max (n + 1) m, ?_⟩
    simp only [exec]
    rw [funcRef_mono func (n + 1) _ (by omega) x s (y1, s1) hn, Option.bind_some]
    exact exec_mono (funcRef_mono func m _ (by omega)) _ _ _ hm
  | get k s s1 y _ ih => exact ih
  | put s s' s1 p y _ ih => exact ih

/-- C65: `y_combinator(func)(x)` computes the recursive function described by `func`: it returns `y` (for some depth of recursion) and
leaves the functor in state `s'` iff the recursive function does. -/
theorem C65_computes (func : X → Prog X Y S) (x : X) (s : S) (y : Y) (s' : S) :
    (∃ n, yCombinator func n x s = some (y, s')) ↔ Runs func (func x) s y s' := by
  constructor
  · rintro ⟨n, h⟩; exact exec_runs func n (func x) s (y, s') h
  · intro h; exact runs_exec h

theorem runs_total (func : X → Prog X Y S) (r : X × S → X × S → Prop) (b : X × S)
    (ih : ∀ a, r a b → ∃ y s', Runs func (func a.1) a.2 y s') :
    ∀ (p : Prog X Y S) (s : S), CallsBelow r b p s → ∃ y s', Runs func p s y s'
  | .ret y, s, _ => ⟨y, s, .ret y s⟩
  | .call x k, s, h => by
    obtain ⟨y1, s1, h1⟩ := ih (x, s) h.1
    obtain ⟨y2, s2, h2⟩ := runs_total func r b ih (k y1) s1 (h.2 y1 s1)
    exact ⟨y2, s2, .call x k s s1 s2 y1 y2 h1 h2⟩
  | .get k, s, h => by
    obtain ⟨y, s1, h1⟩ := runs_total func r b ih (k s) s h
    exact ⟨y, s1, .get k s s1 y h1⟩
  | .put s' p, s, h => by
    obtain ⟨y, s1, h1⟩ := runs_total func r b ih p s' h
    exact ⟨y, s1, .put s s' s1 p y h1⟩

/-- C65: the combinator is defined for all arguments if the recursion is well-founded, that is, if all calls made by the functor's body
are for arguments (and functor states) smaller with respect to some well-founded relation. -/
theorem C65_total (func : X → Prog X Y S) (r : X × S → X × S → Prop) (hwf : WellFounded r)
    (hdec : ∀ x s, CallsBelow r (x, s) (func x) s) (x : X) (s : S) :
    ∃ n y s', ∀ m, n ≤ m → yCombinator func m x s = some (y, s') := by
  have h : ∀ a : X × S, ∃ y s', Runs func (func a.1) a.2 y s' := by
    intro a
    induction a using hwf.induction with
    | _ a ih => exact runs_total func r a ih (func a.1) a.2 (hdec a.1 a.2)
  obtain ⟨y, s', hr⟩ := h (x, s)
  obtain ⟨n, hn⟩ := (C65_computes func x s y s').2 hr
  exact ⟨n, y, s', fun m hm => C65_deterministic func n m hm x s _ hn⟩

theorem runs_value (func : X → Prog X Y S) (s : S) (f : X → Y) (hro : ∀ x, ReadOnly (func x))
    (r : X × S → X × S → Prop) (b : X × S) (ih : ∀ x, r (x, s) b → Runs func (func x) s (f x) s) :
    ∀ (p : Prog X Y S), ReadOnly p → CallsBelow r b p s → Runs func p s (valueWith f s p) s
  | .ret y, _, _ => .ret y s
  | .call x k, hp, h => by
    cases hp with
    | call _ _ hk =>
      exact .call x k s s s (f x) _ (ih x h.1) (runs_value func s f hro r b ih (k (f x)) (hk (f x)) (h.2 (f x) s))
  | .get k, hp, h => by
    cases hp with
    | get _ hk => exact .get k s s _ (runs_value func s f hro r b ih (k s) (hk s) h)
  | .put s' p, hp, h => by cases hp

/-- C65: for a functor that is not modified, whose recursion is well-founded, every function satisfying the recursive equation equals
the function computed by the combinator; and the functor is left as it was. -/
theorem C65_equals (func : X → Prog X Y S) (s : S) (hro : ∀ x, ReadOnly (func x)) (r : X × S → X × S → Prop) (hwf : WellFounded r)
    (hdec : ∀ x s, CallsBelow r (x, s) (func x) s) (f : X → Y) (hf : ∀ x, f x = valueWith f s (func x)) (x : X) :
    ∃ n, ∀ m, n ≤ m → yCombinator func m x s = some (f x, s) := by
  have h : ∀ a : X × S, a.2 = s → Runs func (func a.1) s (f a.1) s := by
    intro a
    induction a using hwf.induction with
    | _ a ih =>
      intro ha
      have hd := hdec a.1 a.2
      rw [ha] at hd
      have := runs_value func s f hro r (a.1, s) (fun x hx => ih (x, s) (by rw [← ha] at hx ⊢; exact hx) rfl) (func a.1) (hro a.1) hd
      rw [← hf] at this; exact this
  obtain ⟨n, hn⟩ := (C65_computes func x s (f x) s).2 (h (x, s) rfl)
  exact ⟨n, fun m hm => C65_deterministic func n m hm x s _ hn⟩

/-- C65: a functor that is not modified keeps its state in any call that returns. -/
theorem C65_read_only (func : X → Prog X Y S) (hro : ∀ x, ReadOnly (func x)) (n : Nat) (x : X) (s s' : S) (y : Y)
    (h : yCombinator func n x s = some (y, s')) : s' = s := by
  have hr := (C65_computes func x s y s').1 ⟨n, h⟩
  have : ∀ p s y s', Runs func p s y s' → ReadOnly p → s' = s := by
    intro p s y s' hr
    induction hr with
    | ret y s => intro _; rfl
    | call x k s s1 s2 y1 y2 _ _ ih1 ih2 =>
      intro hp
      cases hp with
      | call _ _ hk => rw [ih2 (hk y1), ih1 (hro x)]
    | get k s s1 y _ ih =>
      intro hp
      cases hp with
      | get _ hk => exact ih (hk s)
    | put s s' s1 p y _ ih => intro hp; cases hp
  exact this _ _ _ _ hr (hro x)

/-! The factorial of the documentation, and a functor that counts its own calls. -/

/-- functional.hpp:56-60. -/
def factorial (i : Nat) : Prog Nat Nat Nat := if i ≤ 1 then .ret 1 else .call (i - 1) fun y => .ret (i * y)

/-- The same, counting the calls in the functor's state. -/
def countingFactorial (i : Nat) : Prog Nat Nat Nat :=
  .get fun c => .put (c + 1) (if i ≤ 1 then .ret 1 else .call (i - 1) fun y => .ret (i * y))

example (x s : Nat) : CallsBelow (fun a b : Nat × Nat => a.1 < b.1) (x, s) (factorial x) s := by
  unfold factorial
  split
  · trivial
  · exact ⟨by show x - 1 < x; omega, fun _ _ => trivial⟩
example : WellFounded (fun a b : Nat × Nat => a.1 < b.1) := InvImage.wf Prod.fst Nat.lt_wfRel.wf
example (x : Nat) : ReadOnly (factorial x) := by
  unfold factorial
  split
  · exact .ret 1
  · exact .call _ _ fun y => .ret _
example (x s : Nat) : x.factorial = valueWith Nat.factorial s (factorial x) := by
  unfold factorial
  match x with
  | 0 => rfl
  | 1 => rfl
  | x + 2 => simp [valueWith, Nat.factorial]
example : yCombinator factorial 3 4 0 = some (24, 0) := by decide
example : yCombinator factorial 2 4 0 = none := by decide
example : yCombinator countingFactorial 3 4 10 = some (24, 14) := by decide

end Makeshift.Props
