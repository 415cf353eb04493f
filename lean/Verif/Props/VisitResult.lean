import Verif.Lemmas.VariantForward
import Verif.Spec.VisitResult

/-! # C156: results of `visit<R>` -/

namespace Makeshift.Props

open Makeshift.TupleAccess Makeshift.TupleMove Makeshift.VariantForward Makeshift.VisitResult Makeshift.Spec.VariantForward Makeshift.Spec.VisitResult

variable {V F : Type}

private theorem howInit_iff (conv : Conversions V) (T t : Ty) : (howInit conv T t).isSome = true ↔ Accepts conv T t := by
  constructor
  · intro h
    cases T with
    | obj C =>
      cases t with
      | obj c =>
        simp only [howInit] at h
        split at h
        · exact .same ‹_›
        · exact .object (fun _ => by assumption) (by simpa using h)
      | lref c => exact .object (fun h' => absurd trivial h') (by simpa [howInit] using h)
      | rref c => exact .object (fun h' => absurd trivial h') (by simpa [howInit] using h)
    | lref C =>
      obtain ⟨k, b⟩ := C
      cases b with
      | true =>
        by_cases ht : (classOf t).ty = k
        · exact .constRef rfl ht
        · refine .converted (.inl rfl) ht ?_
          cases t <;> simp_all [howInit, classOf]
      | false =>
        cases t with
        | lref c =>
          simp only [howInit] at h
          split at h
          · refine .lvalue ‹_› ?_
            cases hc : c.const
            · rfl
            · simp [hc] at h
          · simp at h
        | rref c => simp [howInit] at h
        | obj c => simp [howInit] at h
    | rref C =>
      by_cases ht : (classOf t).ty = C.ty
      · cases t with
        | lref c => simp only [classOf] at ht; simp [howInit, ht] at h
        | rref c =>
          refine .rvalue (by simp) ht fun hc => ?_
          simp only [classOf] at ht hc
          simp only [howInit, ht, if_true, hc, Bool.true_and] at h
          cases hC : C.const
          · simp [hC] at h
          · rfl
        | obj c =>
          refine .rvalue (by simp) ht fun hc => ?_
          simp only [classOf] at ht hc
          simp only [howInit, ht, if_true, hc, Bool.true_and] at h
          cases hC : C.const
          · simp [hC] at h
          · rfl
      · refine .converted (.inr rfl) ht ?_
        cases t <;> simp_all [howInit, classOf]
  · intro h
    cases h with
    | same h => simp [howInit, h]
    | object h1 h2 =>
      cases t with
      | obj c =>
        have : c.ty ≠ _ := h1 (fun h => h)
        simp [howInit, this, h2]
      | lref c => simpa [howInit] using h2
      | rref c => simpa [howInit] using h2
    | constRef h1 h2 => cases t <;> simp_all [howInit, classOf]
    | lvalue h1 h2 => simp [howInit, h1, h2]
    | rvalue h1 h2 h3 =>
      cases t with
      | lref c => exact absurd rfl (h1 c)
      | rref c | obj c =>
        simp only [classOf] at h2 h3
        simp only [howInit, h2, if_true]
        cases hc : c.const
        · simp
        · simp [h3 hc]
    | converted h1 h2 h3 =>
      cases T with
      | obj C => rcases h1 with h1 | h1 <;> cases h1
      | lref C =>
        obtain ⟨k, b⟩ := C
        have hb : b = true := by
          rcases h1 with h1 | h1
          · injection h1 with h1; injection h1
          · cases h1
        subst hb
        cases t <;> simp_all [howInit, classOf]
      | rref C => cases t <;> simp_all [howInit, classOf]

/-- The statement `return` in a function of type `R` takes a result of type `r`. -/
private theorem returns_iff (conv : Conversions V) (R r : RTy) :
    returns conv R r = true ↔ R = .void ∧ r = .void ∨ ∃ T t, R = .ty T ∧ r = .ty t ∧ Accepts conv T t := by
  cases R <;> cases r <;> simp [returns, howInit_iff]

private theorem allReturn_iff (callTy : List Ty → Option RTy) (ok : RTy → Bool) (args : List VArg) :
    allReturn callTy ok args = true ↔ ∀ ts, Combo args ts → ∃ r, callTy ts = some r ∧ ok r = true := by
  obtain ⟨rs, h1, h2⟩ := resultSeq_spec callTy (args.map fun v => v.alts.map (Forwarded v.access))
  have he : visitTypes args = args.map fun v => v.alts.map (Forwarded v.access) := by
    unfold visitTypes
    congr 1
    funext v
    congr 1
    funext c
    exact getAlt_eq _ _
  unfold allReturn
  rw [he, h1]
  simp only [List.all_eq_true]
  constructor
  · intro h ts hts
    have := h _ ((h2 _).2 ⟨ts, (combination_iff args ts).2 hts, rfl⟩)
    cases hc : callTy ts with
    | none => rw [hc] at this; cases this
    | some r => rw [hc] at this; exact ⟨r, rfl, this⟩
  · intro h r hr
    obtain ⟨ts, hts, rfl⟩ := (h2 r).1 hr
    obtain ⟨q, hq, hq'⟩ := h ts ((combination_iff args ts).1 hts)
    rw [hq]
    exact hq'

private theorem visitWith_eq (conv : Conversions V) (callTy : List Ty → Option RTy) (R : RTy) (f : RFunctor V F) (a : Access) (s : F)
    {args : List VArg} (m : Mem V) {cs : List CTy} (hcs : List.Forall₂ HoldsAlt args cs) :
    visitWith conv callTy R f a s args m = (callTy (typesOf args cs)).map fun r =>
      ⟨[(a, argsOf m args cs)], (f.run a (argsOf m args cs) s).2.2,
        (deliverR conv R r (f.run a (argsOf m args cs) s).1
          (writeBack ((List.zipWith refTo args cs).map .elem) (f.run a (argsOf m args cs) s).2.1 0 m)).1,
        (deliverR conv R r (f.run a (argsOf m args cs) s).1
          (writeBack ((List.zipWith refTo args cs).map .elem) (f.run a (argsOf m args cs) s).2.1 0 m)).2⟩ := by
  unfold visitWith
  rw [activeRefs_eq hcs, refTy_eq hcs]
  simp only [seen_eq]

private theorem visitWith_some (conv : Conversions V) (callTy : List Ty → Option RTy) (R : RTy) (f : RFunctor V F) (a : Access) (s : F)
    {args : List VArg} (m : Mem V) (hw : ∀ v ∈ args, IsVariant v) (h : ∀ ts, Combo args ts → ∃ r, callTy ts = some r) :
    ∃ r, visitWith conv callTy R f a s args m = some r := by
  rcases holds_or hw with hv | ⟨cs, hcs⟩
  · unfold visitWith
    rw [activeRefs_none hv]
    exact ⟨_, rfl⟩
  · obtain ⟨r, hr⟩ := h _ (combo_typesOf hcs)
    rw [visitWith_eq conv callTy R f a s m hcs, hr]
    exact ⟨_, rfl⟩

private theorem combo_exists {args : List VArg} (h : ∀ v ∈ args, IsVariant v) : ∃ ts, Combo args ts := by
  induction args with
  | nil => exact ⟨[], .nil⟩
  | cons v vs ih =>
    obtain ⟨ts, hts⟩ := ih (fun v hv => h v (List.mem_cons_of_mem _ hv))
    obtain ⟨c, hc⟩ := List.exists_mem_of_ne_nil _ (h v List.mem_cons_self).1
    exact ⟨_ :: ts, .cons ⟨c, hc, rfl⟩ hts⟩

private theorem rcallTy_some {f : RFunctor V F} {a : Access} {ts : List Ty} {r : RTy} :
    f.callTy a ts = some r ↔ f.memberPointer = false ∧ f.resTy a ts = some r := by
  unfold RFunctor.callTy
  cases f.memberPointer <;> simp

/-- `visit<R>` compiles exactly if the functor can be called, not being a pointer to member, and the result of each call can initialise a
result of type `R`; void is for void only. -/
theorem C156_compiles (conv : Conversions V) (R : RTy) (f : RFunctor V F) (a : Access) (s : F) (args : List VArg) (m : Mem V)
    (hw : ∀ v ∈ args, IsVariant v) :
    (∃ r, visitR conv R f a s args m = some r) ↔
      f.memberPointer = false ∧ ∀ ts, Combo args ts → ∃ r, f.resTy a ts = some r ∧
        (R = .void ∧ r = .void ∨ ∃ T t, R = .ty T ∧ r = .ty t ∧ Accepts conv T t) := by
  have key : allReturn (f.callTy a) (returns conv R) args = true ↔
      f.memberPointer = false ∧ ∀ ts, Combo args ts → ∃ r, f.resTy a ts = some r ∧
        (R = .void ∧ r = .void ∨ ∃ T t, R = .ty T ∧ r = .ty t ∧ Accepts conv T t) := by
    rw [allReturn_iff]
    constructor
    · intro h
      obtain ⟨ts0, h0⟩ := combo_exists hw
      obtain ⟨r0, h1, -⟩ := h ts0 h0
      refine ⟨(rcallTy_some.1 h1).1, fun ts hts => ?_⟩
      obtain ⟨r, h1, h2⟩ := h ts hts
      exact ⟨r, (rcallTy_some.1 h1).2, (returns_iff conv R r).1 h2⟩
    · rintro ⟨hf, h⟩ ts hts
      obtain ⟨r, h1, h2⟩ := h ts hts
      exact ⟨r, rcallTy_some.2 ⟨hf, h1⟩, (returns_iff conv R r).2 h2⟩
  rw [← key]
  unfold visitR
  constructor
  · rintro ⟨r, h⟩
    by_contra hno
    rw [if_neg hno] at h
    cases h
  · intro h
    rw [if_pos h]
    exact visitWith_some conv _ R f a s m hw fun ts hts => by
      obtain ⟨r, h1, -⟩ := (allReturn_iff _ _ _).1 h ts hts
      exact ⟨r, h1⟩

/-- If a variant is valueless, `visit<R>` throws; the functor is not called and no object is changed. -/
theorem C156_valueless (conv : Conversions V) (R : RTy) (f : RFunctor V F) (a : Access) (s : F) (args : List VArg) (m : Mem V)
    {run : Run V F (Got V)} (h : visitR conv R f a s args m = some run) (hv : ∃ v ∈ args, v.active = none) :
    run.calls = [] ∧ run.functor = s ∧ run.mem = m ∧ run.out = .throw (str "bad_variant_access") := by
  unfold visitR at h
  split at h
  · unfold visitWith at h
    rw [activeRefs_none hv] at h
    cases h
    exact ⟨rfl, rfl, rfl, rfl⟩
  · cases h

private theorem visitR_run {conv : Conversions V} {R : RTy} {f : RFunctor V F} {a : Access} {s : F} {args : List VArg} {m : Mem V}
    {run : Run V F (Got V)} {cs : List CTy} {r : RTy} (h : visitR conv R f a s args m = some run) (hcs : List.Forall₂ HoldsAlt args cs)
    (hr : f.resTy a (typesOf args cs) = some r) (ho : OwnVariants args) :
    returns conv R r = true ∧ run.calls = [(a, argsOf m args cs)] ∧ run.functor = (f.run a (argsOf m args cs) s).2.2 ∧
    ∃ m', AfterCall m args cs (f.run a (argsOf m args cs) s).2.1 m' ∧
      run.mem = (deliverR conv R r (f.run a (argsOf m args cs) s).1 m').1 ∧ run.out = (deliverR conv R r (f.run a (argsOf m args cs) s).1 m').2 := by
  unfold visitR at h
  split at h
  · rename_i hall
    obtain ⟨q, h1, h2⟩ := (allReturn_iff _ _ _).1 hall _ (combo_typesOf hcs)
    have hq : q = r := by
      have := (rcallTy_some.1 h1).2
      rw [hr] at this
      exact (Option.some.inj this).symm
    subst hq
    rw [visitWith_eq conv _ R f a s m hcs, h1, Option.map_some] at h
    injection h with h
    subst h
    exact ⟨h2, rfl, rfl, _, afterCall cs ho m _, rfl, rfl⟩
  · cases h

/-- `visit<R>` for an object type `R`.  The functor is called once.  If it throws, so does `visit<R>`.  If it returns an object of class `R`,
this very object is the result.  If it returns an object of another class, the result is what the conversion makes of it, and if it returns a
reference, the result is what the conversion (or copy, or move) makes of the object referred to, as it is after the call; no other object is
touched.  An exception thrown by the conversion is passed on. -/
theorem C156_object {conv : Conversions V} {C : CTy} {f : RFunctor V F} {a : Access} {s : F} {args : List VArg} {m : Mem V}
    {run : Run V F (Got V)} {cs : List CTy} {t : Ty} {ret : Ret V} (h : visitR conv (.ty (.obj C)) f a s args m = some run)
    (hcs : List.Forall₂ HoldsAlt args cs) (ho : OwnVariants args) (hr : f.resTy a (typesOf args cs) = some (.ty t))
    (hret : (f.run a (argsOf m args cs) s).1 = ret) (hfit : Fits (.ty t) ret) :
    run.calls = [(a, argsOf m args cs)] ∧ run.functor = (f.run a (argsOf m args cs) s).2.2 ∧
    ∃ m', AfterCall m args cs (f.run a (argsOf m args cs) s).2.1 m' ∧
      (∀ msg, ret = .raise msg → run.out = .throw msg ∧ run.mem = m') ∧
      (∀ v, ret = .val v → (classOf t).ty = C.ty → run.out = .ok (.obj v) ∧ run.mem = m') ∧
      (∀ v, ret = .val v → (classOf t).ty ≠ C.ty → ∃ g, conv t C.ty = some g ∧ run.out = (g v).1.mapVal .obj ∧ run.mem = m') ∧
      (∀ l, ret = .loc l → ∃ g, conv t C.ty = some g ∧ run.out = (g (m' l)).1.mapVal .obj ∧ (∀ l', l' ≠ l → run.mem l' = m' l') ∧
        run.mem l = if (classOf t).const then m' l else (g (m' l)).2) := by
  obtain ⟨h1, h2, h3, m', h4, h5, h6⟩ := visitR_run h hcs hr ho
  refine ⟨h2, h3, m', h4, ?_⟩
  rw [hret] at h5 h6
  have hi : (howInit conv (.obj C) t).isSome = true := h1
  refine ⟨?_, ?_, ?_, ?_⟩
  · rintro msg rfl
    exact ⟨h6, h5⟩
  · rintro v rfl hc
    cases hfit with
    | @obj c =>
      simp only [classOf] at hc
      simp only [deliverR, deliver, howInit, hc, if_true] at h5 h6
      exact ⟨h6, h5⟩
  · rintro v rfl hc
    cases hfit with
    | @obj c =>
      simp only [classOf] at hc
      simp only [howInit, hc, if_false, Option.isSome_map] at hi
      obtain ⟨g, hg⟩ := Option.isSome_iff_exists.1 hi
      simp only [deliverR, deliver, howInit, hc, if_false, hg, Option.map_some] at h5 h6
      exact ⟨g, hg, h6, h5⟩
  · rintro l rfl
    cases hfit with
    | @lref c | @rref c =>
      simp only [howInit, Option.isSome_map] at hi
      obtain ⟨g, hg⟩ := Option.isSome_iff_exists.1 hi
      simp only [deliverR, deliver, howInit, hg, Option.map_some, leave] at h5 h6
      refine ⟨g, hg, h6, fun l' hl' => ?_, ?_⟩
      · rw [h5]
        split
        · rfl
        · simp [hl']
      · rw [h5]
        simp only [classOf]
        by_cases hk : c.const = true
        · simp only [hk, if_true]
        · simp only [hk]; simp

/-- `visit<R>` for a reference type `R`: the result refers to the object which the functor has returned a reference to, if that is of the same
class; otherwise - if the functor has returned an object, or the result has been converted - it is dangling from the start, although the
program compiles.  A conversion may change the object converted (unless it is const), but no other object. -/
theorem C156_reference {conv : Conversions V} {T : Ty} {f : RFunctor V F} {a : Access} {s : F} {args : List VArg} {m : Mem V}
    {run : Run V F (Got V)} {cs : List CTy} {t : Ty} {ret : Ret V} (hT : IsRef T) (h : visitR conv (.ty T) f a s args m = some run)
    (hcs : List.Forall₂ HoldsAlt args cs) (ho : OwnVariants args) (hr : f.resTy a (typesOf args cs) = some (.ty t))
    (hret : (f.run a (argsOf m args cs) s).1 = ret) (hfit : Fits (.ty t) ret) :
    run.calls = [(a, argsOf m args cs)] ∧ run.functor = (f.run a (argsOf m args cs) s).2.2 ∧
    ∃ m', AfterCall m args cs (f.run a (argsOf m args cs) s).2.1 m' ∧
      (∀ msg, ret = .raise msg → run.out = .throw msg ∧ run.mem = m') ∧
      (∀ l, ret = .loc l → (classOf t).ty = (classOf T).ty → run.out = .ok (.ref l) ∧ run.mem = m') ∧
      (∀ v, ret = .val v → (classOf t).ty = (classOf T).ty → run.out = .ok .dangling ∧ run.mem = m') ∧
      (∀ x, ret = .val x ∨ (∃ l, ret = .loc l ∧ x = m' l) → (classOf t).ty ≠ (classOf T).ty →
        ∃ g, conv t (classOf T).ty = some g ∧ (run.out = (g x).1.mapVal fun _ => .dangling) ∧
          (∀ v, ret = .val v → run.mem = m') ∧
          ∀ l, ret = .loc l → (∀ l', l' ≠ l → run.mem l' = m' l') ∧ run.mem l = if (classOf t).const then m' l else (g (m' l)).2) := by
  obtain ⟨h1, h2, h3, m', h4, h5, h6⟩ := visitR_run h hcs hr ho
  refine ⟨h2, h3, m', h4, ?_⟩
  rw [hret] at h5 h6
  have hi : (howInit conv T t).isSome = true := h1
  refine ⟨?_, ?_, ?_, ?_⟩
  · rintro msg rfl
    exact ⟨h6, h5⟩
  · rintro l rfl hc
    have hh : howInit conv T t = some .bind := by
      cases T with
      | obj C => exact hT.elim
      | lref C | rref C =>
        cases hfit <;> simp only [classOf] at hc <;> simp only [howInit, hc, if_true] at hi ⊢ <;> (repeat' split at hi) <;> simp_all
    simp only [deliverR, deliver, hh] at h5 h6
    exact ⟨h6, h5⟩
  · rintro v rfl hc
    have hh : howInit conv T t = some .temporary := by
      cases T with
      | obj C => exact hT.elim
      | lref C | rref C =>
        cases hfit <;> simp only [classOf] at hc <;> simp only [howInit, hc, if_true] at hi ⊢ <;> (repeat' split at hi) <;> simp_all
    simp only [deliverR, deliver, hh] at h5 h6
    exact ⟨h6, h5⟩
  · rintro x hx hc
    have hh : ∃ g, conv t (classOf T).ty = some g ∧ howInit conv T t = some (.convertTemporary g) := by
      cases T with
      | obj C => exact hT.elim
      | lref C =>
        cases t <;> simp only [classOf] at hc ⊢ <;> simp only [howInit, hc, if_false] at hi ⊢ <;> split at hi <;> simp_all <;>
          exact Option.isSome_iff_exists.1 hi
      | rref C =>
        cases t <;> simp only [classOf] at hc ⊢ <;> simp only [howInit, hc, if_false] at hi ⊢ <;> simp_all <;>
          exact Option.isSome_iff_exists.1 hi
    obtain ⟨g, hg, hh⟩ := hh
    refine ⟨g, hg, ?_, ?_, ?_⟩
    · rcases hx with rfl | ⟨l, rfl, rfl⟩ <;> simpa only [deliverR, deliver, hh] using h6
    · rintro v rfl
      simpa only [deliverR, deliver, hh] using h5
    · rintro l rfl
      simp only [deliverR, deliver, hh] at h5
      rw [h5]
      cases hfit with
      | @lref c | @rref c =>
        simp only [leave, classOf]
        refine ⟨fun l' hl' => ?_, ?_⟩
        · split
          · rfl
          · simp [hl']
        · by_cases hk : c.const = true
          · simp only [hk, if_true]
          · simp only [hk]; simp

/-- Reading the result of `visit<R>` for a reference type `R` is undefined exactly if what the functor returned was not a reference to an object of
that class; otherwise what is read is the object the functor referred to, as it is at that time. -/
theorem C156_reading {conv : Conversions V} {T : Ty} {f : RFunctor V F} {a : Access} {s : F} {args : List VArg} {m later : Mem V}
    {run : Run V F (Got V)} {cs : List CTy} {t : Ty} {res : Got V} {x : Outcome V} (hT : IsRef T) (h : visitR conv (.ty T) f a s args m = some run)
    (hcs : List.Forall₂ HoldsAlt args cs) (ho : OwnVariants args) (hr : f.resTy a (typesOf args cs) = some (.ty t))
    (hfit : Fits (.ty t) (f.run a (argsOf m args cs) s).1) (hout : run.out = .ok res) (hx : Reads later res x) :
    (x = .ub ↔ ¬ (IsRef t ∧ (classOf t).ty = (classOf T).ty)) ∧
    ∀ l, (f.run a (argsOf m args cs) s).1 = .loc l → (classOf t).ty = (classOf T).ty → x = .ok (later l) := by
  obtain ⟨-, -, m', -, k1, k2, k3, k4⟩ := C156_reference hT h hcs ho hr rfl hfit
  have hmap : ∀ {y : Outcome V}, run.out = y.mapVal (fun _ => (.dangling : Got V)) → res = .dangling := by
    intro y hy
    rw [hout] at hy
    cases y <;> simp_all [Outcome.mapVal]
  generalize hret : (f.run a (argsOf m args cs) s).1 = ret at hfit k1 k2 k3 k4
  cases ret with
  | void => cases hfit
  | raise msg => rw [(k1 msg rfl).1] at hout; cases hout
  | val v =>
    have ht : ¬ IsRef t := by cases hfit; exact fun h => h
    have : res = .dangling := by
      by_cases hc : (classOf t).ty = (classOf T).ty
      · rw [(k3 v rfl hc).1] at hout
        injection hout with hout
        exact hout.symm
      · obtain ⟨g, -, hg⟩ := k4 v (.inl rfl) hc
        exact hmap hg.1
    subst this
    cases hx
    exact ⟨⟨fun _ h => ht h.1, fun _ => rfl⟩, by simp⟩
  | loc l =>
    have ht : IsRef t := by cases hfit <;> trivial
    by_cases hc : (classOf t).ty = (classOf T).ty
    · rw [(k2 l rfl hc).1] at hout
      injection hout with hout
      subst hout
      cases hx
      refine ⟨⟨(by intro h; cases h), fun h => absurd ⟨ht, hc⟩ h⟩, ?_⟩
      intro l' hl' _
      injection hl' with hl'
      rw [hl']
    · obtain ⟨g, -, hg⟩ := k4 (m' l) (.inr ⟨l, rfl, rfl⟩) hc
      have := hmap hg.1
      subst this
      cases hx
      exact ⟨⟨fun _ h => hc h.2, fun _ => rfl⟩, fun _ _ h => absurd h hc⟩

/-- `visit<void>` calls the functor once, and passes on its exception. -/
theorem C156_void {conv : Conversions V} {f : RFunctor V F} {a : Access} {s : F} {args : List VArg} {m : Mem V} {run : Run V F (Got V)}
    {cs : List CTy} {r : RTy} (h : visitR conv .void f a s args m = some run) (hcs : List.Forall₂ HoldsAlt args cs) (ho : OwnVariants args)
    (hr : f.resTy a (typesOf args cs) = some r) (hfit : Fits r (f.run a (argsOf m args cs) s).1) :
    run.calls = [(a, argsOf m args cs)] ∧ run.functor = (f.run a (argsOf m args cs) s).2.2 ∧
    AfterCall m args cs (f.run a (argsOf m args cs) s).2.1 run.mem ∧
    ((f.run a (argsOf m args cs) s).1 = .void ∧ run.out = .ok .void ∨ ∃ msg, (f.run a (argsOf m args cs) s).1 = .raise msg ∧ run.out = .throw msg) := by
  obtain ⟨h1, h2, h3, m', h4, h5, h6⟩ := visitR_run h hcs hr ho
  have hr : r = .void := by
    cases r with
    | void => rfl
    | ty t => simp [returns] at h1
  subst hr
  refine ⟨h2, h3, ?_⟩
  generalize (f.run a (argsOf m args cs) s).1 = ret at *
  cases hfit with
  | void =>
    simp only [deliverR] at h5 h6
    exact ⟨h5 ▸ h4, .inl ⟨rfl, h6⟩⟩
  | raise =>
    simp only [deliverR] at h5 h6
    exact ⟨h5 ▸ h4, .inr ⟨_, rfl, h6⟩⟩

/-- `visit<R>` does what `std::visit<R>` does whenever it compiles.  It compiles whenever the latter does, except for pointers to members and, if `R`
is void, for functors which return something. -/
theorem C156_std (conv : Conversions V) (R : RTy) (f : RFunctor V F) (a : Access) (s : F) (args : List VArg) (m : Mem V) (hw : ∀ v ∈ args, IsVariant v) :
    (∀ run, visitR conv R f a s args m = some run → stdVisitR conv R f a s args m = some run) ∧
    ∀ run, stdVisitR conv R f a s args m = some run →
      (visitR conv R f a s args m = some run ↔ f.memberPointer = false ∧ (R = .void → ∀ ts, Combo args ts → f.resTy a ts = some .void)) := by
  have hcall : f.memberPointer = false → f.callTy a = f.resTy a := by
    intro h
    funext ts
    simp [RFunctor.callTy, h]
  have h1 : ∀ run, visitR conv R f a s args m = some run → stdVisitR conv R f a s args m = some run := by
    intro run h
    have hc := (C156_compiles conv R f a s args m hw).1 ⟨run, h⟩
    unfold visitR at h
    rw [hcall hc.1] at h
    split at h
    · rename_i hall
      have : allReturn (f.resTy a) (fun r => R = .void || returns conv R r) args = true := by
        rw [allReturn_iff] at hall ⊢
        intro ts hts
        obtain ⟨r, e1, e2⟩ := hall ts hts
        exact ⟨r, e1, by simp [e2]⟩
      unfold stdVisitR
      rw [if_pos this]
      exact h
    · cases h
  refine ⟨h1, fun run hstd => ⟨fun h => ?_, fun ⟨hf, hvoid⟩ => ?_⟩⟩
  · obtain ⟨hf, hc⟩ := (C156_compiles conv R f a s args m hw).1 ⟨run, h⟩
    refine ⟨hf, fun hR ts hts => ?_⟩
    obtain ⟨r, e1, e2⟩ := hc ts hts
    rcases e2 with ⟨-, rfl⟩ | ⟨T, t, e, -⟩
    · exact e1
    · rw [hR] at e; cases e
  · obtain ⟨run', h'⟩ := (C156_compiles conv R f a s args m hw).2 ⟨hf, fun ts hts => by
      have hall : allReturn (f.resTy a) (fun r => R = .void || returns conv R r) args = true := by
        by_contra hno
        unfold stdVisitR at hstd
        rw [if_neg hno] at hstd
        cases hstd
      obtain ⟨r, e1, e2⟩ := (allReturn_iff _ _ _).1 hall ts hts
      refine ⟨r, e1, ?_⟩
      cases R with
      | void =>
        have := hvoid rfl ts hts
        rw [e1] at this
        exact .inl ⟨rfl, Option.some.inj this⟩
      | ty T => exact (returns_iff conv (.ty T) r).1 (by simpa using e2)⟩
    rw [h', ← hstd, h1 run' h']

/-! ## Examples

`variant<A, B>` (types 1 and 2) holding a `B`; a functor which returns a reference to its argument if that is an `A`, and an `A` made from it otherwise. -/

private def vrArg (i : Nat) : VArg := ⟨[⟨1, false⟩, ⟨2, false⟩], some i, 0, ⟨false, false⟩⟩
private def vrMem : Mem Nat := fun l => 10 + l
/-- Every class converts to every other one by adding the number of the class; moves leave 0. -/
private def vrConv : Conversions Nat := fun t k => some fun v => (.ok (v + k), match t with | .rref _ => 0 | _ => v)
private def vrFirst (asValue : Bool) : RFunctor Nat Nat where
  resTy _ ts := match ts with
    | [.lref ⟨1, b⟩] => some (.ty (.lref ⟨1, b⟩))
    | [_] => some (.ty (if asValue then .obj ⟨1, false⟩ else .lref ⟨2, false⟩))
    | _ => none
  run _ vs s := ((match vs with
    | [(r, v)] => if r.loc = 0 ∧ v = 11 ∧ asValue then .val 5 else .loc r.loc
    | _ => .void), fun _ => none, s + 1)
  memberPointer := false

private theorem vrIs (i : Nat) (h : i < 2) : ∀ v ∈ [vrArg i], IsVariant v := by
  intro v hv
  rw [List.mem_singleton.1 hv]
  exact ⟨by simp [vrArg], fun j hj => by simp only [vrArg, Option.some.injEq] at hj; simp [vrArg]; omega⟩

/-- `visit<A const&>` compiles for this functor; the result is the object in the variant if it holds an `A`, and dangling if it holds a `B`. -/
example : (∃ r, visitR vrConv (.ty (.lref ⟨1, true⟩)) (vrFirst true) ⟨false, false⟩ 0 [vrArg 0] vrMem = some r ∧ r.out = .ok (.ref 0) ∧ r.functor = 1) ∧
    (∃ r, visitR vrConv (.ty (.lref ⟨1, true⟩)) (vrFirst true) ⟨false, false⟩ 0 [vrArg 1] (fun _ => 11) = some r ∧ r.out = .ok .dangling) ∧
    visitR vrConv (.ty (.lref ⟨1, false⟩)) (vrFirst true) ⟨false, false⟩ 0 [vrArg 0] vrMem = none ∧
    visitR vrConv .void (vrFirst true) ⟨false, false⟩ 0 [vrArg 0] vrMem = none ∧
    (∃ r, stdVisitR vrConv .void (vrFirst true) ⟨false, false⟩ 0 [vrArg 0] vrMem = some r ∧ r.out = .ok .void) ∧
    (∃ r, visitR vrConv (.ty (.obj ⟨3, false⟩)) (vrFirst false) ⟨false, false⟩ 0 [vrArg 1] vrMem = some r ∧ r.out = .ok (.obj 13)) :=
  ⟨⟨_, rfl, rfl, rfl⟩, ⟨_, rfl, rfl⟩, rfl, rfl, ⟨_, rfl, rfl⟩, ⟨_, rfl, rfl⟩⟩

/-- The hypotheses of the theorems above hold for these calls. -/
example : List.Forall₂ HoldsAlt [vrArg 1] [⟨2, false⟩] ∧ OwnVariants [vrArg 1] ∧ (∀ v ∈ [vrArg 1], IsVariant v) ∧
    (vrFirst true).resTy ⟨false, false⟩ (typesOf [vrArg 1] [⟨2, false⟩]) = some (.ty (.obj ⟨1, false⟩)) ∧
    Fits (.ty (.obj ⟨1, false⟩)) ((vrFirst true).run ⟨false, false⟩ (argsOf (fun _ => 11) [vrArg 1] [⟨2, false⟩]) 0).1 ∧
    IsRef (.lref ⟨1, true⟩) ∧ Reads (fun _ => 11) .dangling (.ub : Outcome Nat) :=
  ⟨.cons ⟨1, rfl, rfl⟩ .nil, by simp [OwnVariants], vrIs 1 (by decide), rfl, .obj, trivial, .dangling⟩

example : ∃ r, visitR vrConv (.ty (.lref ⟨1, true⟩)) (vrFirst true) ⟨false, false⟩ 0 [{ vrArg 0 with active := none }] vrMem = some r ∧
    r.calls = [] := ⟨_, rfl, rfl⟩

private def vrVoid : RFunctor Nat Nat := ⟨fun _ _ => some .void, fun _ vs s => (if vs.length = 2 then .raise (str "two") else .void, fun _ => some 3, s + 1), false⟩

example : (∃ r, visitR vrConv .void vrVoid ⟨false, false⟩ 0 [vrArg 1] vrMem = some r ∧ r.out = .ok .void ∧ r.mem 0 = 3) ∧
    (∃ r, visitR vrConv .void vrVoid ⟨false, false⟩ 0 [vrArg 1, { vrArg 0 with loc := 1 }] vrMem = some r ∧ r.out = .throw (str "two") ∧ r.functor = 1) :=
  ⟨⟨_, rfl, rfl, rfl⟩, ⟨_, rfl, rfl, rfl⟩⟩

end Makeshift.Props
