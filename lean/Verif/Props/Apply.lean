import Verif.Spec.Apply
import Verif.Props.TupleAccess

/-! # C91: `apply` calls functions, function objects and pointers to members as `std::apply` does -/

namespace Makeshift.Props

open Makeshift.TupleAccess Makeshift.TupleMove Makeshift.VariantForward Makeshift.Apply Makeshift.Spec.Apply Makeshift.Spec.TupleAccess

private theorem select_iff (env : Env) (C : Nat) (e : Expr) (m : Member) (args : List Expr) (eff : Effect) :
    select env e C m args = some eff ↔ Selects env C e m args eff := by
  constructor
  · intro h
    cases hb : env.isBase C e.ty with
    | false => simp [select, hb] at h
    | true =>
      cases m with
      | data k =>
        cases args with
        | nil => simp [select, hb] at h; subst h; exact .data hb
        | cons => simp [select, hb] at h
      | func k q resTy =>
        simp only [select, hb, if_true] at h
        split at h
        · simp at h
        · rename_i hc
          simp only [Option.map_eq_some_iff] at h
          obtain ⟨r, hr, rfl⟩ := h
          refine .func hb ?_ ?_ ?_ hr
          · intro hk; cases k <;> simp_all
          · rintro rfl; cases he : e.rvalue <;> simp_all
          · rintro rfl; cases he : e.rvalue <;> simp_all
  · intro h
    cases h with
    | data hb => simp [select, hb]
    | func hb h1 h2 h3 hr =>
      rename_i k q resTy r
      simp only [select, hb, if_true, hr, Option.map_some]
      rw [if_neg]
      cases q <;> cases hk : k <;> cases hc : e.const <;> cases he : e.rvalue <;> simp_all

private theorem invokeMemptr_iff (env : Env) (C : Nat) (m : Member) (t1 : Expr) (args : List Expr) (eff : Effect) :
    invokeMemptr env C m t1 args = some eff ↔ ∃ e, Subject env C t1 e ∧ Selects env C e m args eff := by
  have key : (if env.isBase C t1.ty then select env t1 C m args
      else match env.refWrapper t1.ty with
        | some c => select env (getExpr env t1 c) C m args
        | none => (derefExpr env t1).bind fun e => select env e C m args) = some eff ↔
      ∃ e, Subject env C t1 e ∧ Selects env C e m args eff := by
    cases hb : env.isBase C t1.ty with
    | true =>
      simp only [if_true, select_iff]
      constructor
      · intro h; exact ⟨t1, .self hb, h⟩
      · rintro ⟨e, hs, h⟩
        cases hs with
        | self => exact h
        | wrapper hb' => simp [hb] at hb'
        | deref hb' => simp [hb] at hb'
    | false =>
      cases hw : env.refWrapper t1.ty with
      | some c =>
        simp only [Bool.false_eq_true, if_false, select_iff]
        constructor
        · intro h; exact ⟨_, .wrapper hb hw, h⟩
        · rintro ⟨e, hs, h⟩
          cases hs with
          | self hb' => simp [hb] at hb'
          | wrapper _ hw' => simp [hw] at hw'; subst hw'; exact h
          | deref _ hw' => simp [hw] at hw'
      | none =>
        simp only [Bool.false_eq_true, if_false, Option.bind_eq_some_iff, select_iff]
        constructor
        · rintro ⟨e, he, h⟩
          simp only [derefExpr, Option.map_eq_some_iff] at he
          obtain ⟨t, ht, he⟩ := he
          refine ⟨e, .deref hb hw ht ?_ ?_, h⟩
          · cases t <;> (simp only at he; subst he; exact ⟨rfl, rfl, rfl⟩)
          · cases t <;> (simp only at he; subst he; rfl)
        · rintro ⟨e, hs, h⟩
          cases hs with
          | self hb' => simp [hb] at hb'
          | wrapper _ hw' => simp [hw] at hw'
          | @deref t _ _ _ hd ht hl =>
            refine ⟨e, ?_, h⟩
            simp only [derefExpr, hd, Option.map_some]
            clear hd h
            obtain ⟨ty, k, r, l⟩ := e
            cases t <;> (obtain ⟨h1, h2, h3⟩ := ht; simp only at h1 h2 h3 hl; subst h1 h2 h3 hl; rfl)
  cases m with
  | func k q resTy => exact key
  | data k =>
    cases args with
    | nil =>
      simp only [invokeMemptr, List.isEmpty_nil, if_true]
      exact key
    | cons x xs =>
      simp only [invokeMemptr, List.isEmpty_cons, Bool.false_eq_true, if_false, reduceCtorEq, false_iff]
      rintro ⟨e, _, h⟩
      cases h

/-- The call of the functor is an `INVOKE` as in the standard: it compiles exactly if that is well-formed, and has the same effect -
functions and function objects are called; a pointer to member is applied to the first argument itself, to what a `reference_wrapper` refers
to, or to what a pointer points to. -/
theorem C91_invoke (env : Env) (f : Callable) (fa : Access) (args : List Expr) (eff : Effect) :
    invoke env f fa args = some eff ↔ Invokes env fa f args eff := by
  cases f with
  | object resTy =>
    simp only [invoke, Option.map_eq_some_iff]
    constructor
    · rintro ⟨r, hr, rfl⟩; exact .object hr
    · intro h; cases h with
      | object hr => exact ⟨_, hr, rfl⟩
  | memPtr C m =>
    cases args with
    | nil =>
      simp only [invoke, reduceCtorEq, false_iff]
      intro h; cases h
    | cons t1 args =>
      simp only [invoke, invokeMemptr_iff]
      constructor
      · rintro ⟨e, hs, h⟩; exact .member hs h
      · intro h; cases h with
        | member hs h => exact ⟨_, hs, h⟩

/-- Types for the examples: class 0 with derived class 1; 2 is `std::reference_wrapper<0>`, 3 is a pointer to const objects of class 1, 4 is
`int`. -/
private def applyEnv : Env where
  isBase := fun c d => c == d || (c == 0 && d == 1)
  refWrapper := fun t => if t = 2 then some ⟨0, false⟩ else none
  deref := fun t _ => if t = 3 then some (.lref ⟨1, true⟩) else none
  target := fun l => l + 100

/-- `std::tuple<Derived, int>`, `std::tuple<std::reference_wrapper<Base>, int>`, `std::tuple<Derived const*, int>` in one: the functor is a
member function `int f(int&&) const` of the base class. -/
private def applyMember : Callable := .memPtr 0 (.func true .none fun ts => if ts = [.rref ⟨4, false⟩] then some (.ty (.obj ⟨4, false⟩)) else none)

example : apply applyEnv applyMember ⟨false, false⟩ .std ⟨false, true⟩ [⟨.obj ⟨1, false⟩, 7⟩, ⟨.obj ⟨4, false⟩, 8⟩] =
      some (.memberCall ⟨1, false, true, 7⟩ [⟨4, false, true, 8⟩] (.ty (.obj ⟨4, false⟩))) ∧
    apply applyEnv applyMember ⟨false, false⟩ .std ⟨false, true⟩ [⟨.obj ⟨2, false⟩, 7⟩, ⟨.obj ⟨4, false⟩, 8⟩] =
      some (.memberCall ⟨0, false, false, 107⟩ [⟨4, false, true, 8⟩] (.ty (.obj ⟨4, false⟩))) ∧
    apply applyEnv applyMember ⟨false, false⟩ .std ⟨false, true⟩ [⟨.obj ⟨3, false⟩, 7⟩, ⟨.obj ⟨4, false⟩, 8⟩] =
      some (.memberCall ⟨1, true, false, 107⟩ [⟨4, false, true, 8⟩] (.ty (.obj ⟨4, false⟩))) ∧
    apply applyEnv applyMember ⟨false, false⟩ .std ⟨false, false⟩ [⟨.obj ⟨1, false⟩, 7⟩, ⟨.obj ⟨4, false⟩, 8⟩] = none := by decide

private theorem element_hasType (k : Kind) (a : Access) (e : Elem) (t : Ty) (x : Expr) (h : getOf k a e.ty = t) :
    x = element k a e ↔ x.loc = e.loc ∧ HasType x t := by
  subst h
  obtain ⟨ty, c, r, l⟩ := x
  simp only [element]
  cases getOf k a e.ty with
  | obj d => obtain ⟨n, b⟩ := d; simp [HasType]; tauto
  | lref d => obtain ⟨n, b⟩ := d; simp [HasType]; tauto
  | rref d => obtain ⟨n, b⟩ := d; simp [HasType]; tauto

private theorem getOf_std (a : Access) (t : Ty) : getOf .std a t = StdGet a t := by
  obtain ⟨c, r⟩ := a
  cases c <;> cases r <;> cases t with
  | obj d => obtain ⟨n, k⟩ := d; cases k <;> rfl
  | lref d => rfl
  | rref d => rfl

private theorem forall₂_unique {α β : Type} (g : α → β) (R : α → β → Prop) (l : List α) (h : ∀ a ∈ l, ∀ b, R a b ↔ b = g a) (l' : List β) :
    List.Forall₂ R l l' ↔ l' = l.map g := by
  induction l generalizing l' with
  | nil => simp
  | cons a l ih =>
    cases l' with
    | nil => simp
    | cons b l' =>
      simp only [List.forall₂_cons, List.map_cons, List.cons.injEq]
      rw [h a (List.mem_cons_self ..) b, ih (fun a ha => h a (List.mem_cons_of_mem _ ha))]

/-- Elements which `get<>` yields as `std::get<>` does for a `std::tuple`. -/
private theorem apply_std (env : Env) (f : Callable) (fa : Access) (k : Kind) (a : Access) (elems : List Elem)
    (h : ∀ e ∈ elems, getOf k a e.ty = StdGet a e.ty) (eff : Effect) :
    apply env f fa k a elems = some eff ↔ ∃ args, StdElements a elems args ∧ Invokes env fa f args eff := by
  have hu : ∀ args, StdElements a elems args ↔ args = elems.map (element k a) := by
    intro args
    exact forall₂_unique _ _ _ (fun e he x => (element_hasType k a e _ x (h e he)).symm) args
  simp only [hu, exists_eq_left, apply, C91_invoke]

/-- Full claim (false): `apply(f, t)` does for every tuple what `std::apply(f, t)` does for a `std::tuple`: `INVOKE(f, get<0>(t), get<1>(t),
...)`, with one call, the elements in order, and as rvalues if the tuple is an rvalue.  Proved for `std::tuple`, `std::pair`, `std::array`,
and for `value_tuple` unless it is an rvalue, or is const and holds references to non-const objects; see `C91_value_tuple` for the
exceptions. -/
theorem C91_apply_partial (env : Env) (f : Callable) (fa : Access) (k : Kind) (a : Access) (elems : List Elem)
    (h : k = .std ∨ a = ⟨false, false⟩ ∨ (a = ⟨true, false⟩ ∧ ∀ e ∈ elems, (∃ c, e.ty = .obj c) ∨ e.ty.referred.const = true)) (eff : Effect) :
    apply env f fa k a elems = some eff ↔ ∃ args, StdElements a elems args ∧ Invokes env fa f args eff := by
  apply apply_std
  intro e he
  cases k with
  | std => exact getOf_std a e.ty
  | value =>
    simp only [getOf]
    rw [C84_get_partial]
    rcases h with h | rfl | ⟨rfl, h⟩
    · cases h
    · trivial
    · exact h e he

example : ∃ args, StdElements ⟨true, false⟩ [⟨.obj ⟨3, false⟩, 7⟩] args ∧
    Invokes applyEnv ⟨false, false⟩ (.memPtr 0 (.data false)) args (.memberAccess ⟨1, true, false, 107⟩ true false) :=
  (C91_apply_partial applyEnv (.memPtr 0 (.data false)) ⟨false, false⟩ .value ⟨true, false⟩ [⟨.obj ⟨3, false⟩, 7⟩]
    (Or.inr (Or.inr ⟨rfl, by simp⟩)) (.memberAccess ⟨1, true, false, 107⟩ true false)).1 rfl

/-- The elements of a `value_tuple` which is an rvalue, or is const, are passed to the functor as lvalues of const type. -/
theorem C91_value_tuple (env : Env) (f : Callable) (fa : Access) (a : Access) (ha : a ≠ ⟨false, false⟩) (elems : List Elem) (eff : Effect) :
    apply env f fa .value a elems = some eff ↔
      Invokes env fa f (elems.map fun e => ⟨e.ty.referred.ty, true, false, e.loc⟩) eff := by
  rw [apply, C91_invoke]
  have : elems.map (element .value a) = elems.map fun e => ⟨e.ty.referred.ty, true, false, e.loc⟩ := by
    apply List.map_congr_left
    intro e _
    obtain ⟨c, h1, h2, h3⟩ := C84_get_lvalue a e.ty
    have hc : c.const = true := by
      cases hc : c.const with
      | true => rfl
      | false => exact absurd (h3.1 hc).1 ha
    simp [element, getOf, h1, h2, hc]
  rw [this]

/-- For example, `apply([](int&&) { ... }, value_tuple{ 1 })` does not compile, unlike `apply([](int&&) { ... }, std::tuple{ 1 })`, and nor
does `apply([](int&) { ... }, value_tuple<int&>{ i })`. -/
theorem C91_value_tuple_rvalue (env : Env) (fa : Access) :
    let takes (t : Ty) : Callable := .object fun _ ts => if ts = [t] then some .void else none
    apply env (takes (.rref ⟨4, false⟩)) fa .value ⟨false, true⟩ [⟨.obj ⟨4, false⟩, 0⟩] = none ∧
    apply env (takes (.rref ⟨4, false⟩)) fa .std ⟨false, true⟩ [⟨.obj ⟨4, false⟩, 0⟩] = some (.call fa [⟨4, false, true, 0⟩] .void) ∧
    apply env (takes (.lref ⟨4, false⟩)) fa .value ⟨false, true⟩ [⟨.lref ⟨4, false⟩, 0⟩] = none ∧
    apply env (takes (.lref ⟨4, false⟩)) fa .std ⟨false, true⟩ [⟨.lref ⟨4, false⟩, 0⟩] = some (.call fa [⟨4, false, false, 0⟩] .void) := by
  refine ⟨rfl, rfl, rfl, rfl⟩

end Makeshift.Props
