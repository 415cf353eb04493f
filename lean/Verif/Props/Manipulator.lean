import Verif.Spec.Manipulator

/-!
# Stream manipulator objects: C78
-/

namespace Makeshift.Props

open Makeshift Spec Manip

variable {V F St : Type}

private theorem update_self {α : Type} (f : Nat → Option α) (k : Nat) (v : Option α) : update f k v k = v := by simp [update]

private theorem update_ne {α : Type} (f : Nat → Option α) {k i : Nat} (v : Option α) (h : i ≠ k) : update f k v i = f i := by
  simp [update, h]

private theorem StandsFor.mono {w w' : World V F} {vars : Nat → Option V} (h : w.next ≤ w'.next) {a : Arg V} {p : Nat}
    (hs : StandsFor w' vars a p) : StandsFor w vars a p := by
  cases hs with
  | lvalue => exact .lvalue _ _
  | rvalue v c p h1 h2 => exact .rvalue v c p (Nat.le_trans h h1) h2

/-- All about the tuple of arguments. -/
private theorem bindArgs_spec (w : World V F) (args : List (Arg V)) (hf : Fresh w) :
    (bindArgs w args).1.manips = w.manips ∧ w.next ≤ (bindArgs w args).1.next ∧ Fresh (bindArgs w args).1 ∧
    (∀ i, i < w.next → (bindArgs w args).1.vars i = w.vars i) ∧
    (∀ o ∈ (bindArgs w args).2.2, w.next ≤ o ∧ o < (bindArgs w args).1.next) ∧
    (bindArgs w args).2.2.Nodup ∧
    temporaries args ((bindArgs w args).2.1.map Prod.fst) = (bindArgs w args).2.2 ∧
    List.Forall₂ (StandsFor w (bindArgs w args).1.vars) args ((bindArgs w args).2.1.map Prod.fst) ∧
    (bindArgs w args).2.1.map Prod.snd = args.map fun | .lvalue _ c => c | .rvalue _ c => c := by
  induction args generalizing w with
  | nil => simp [bindArgs, hf, temporaries]
  | cons a as ih =>
    cases a with
    | lvalue a c =>
      obtain ⟨h1, h2, h3, h4, h5, h6, h7, h8, h9⟩ := ih w hf
      exact ⟨h1, h2, h3, h4, h5, h6, h7, .cons (.lvalue a c) h8, by simp only [bindArgs, List.map_cons, h9]⟩
    | rvalue v c =>
      have hf' : Fresh ({ w with next := w.next + 1, vars := update w.vars w.next (some v) } : World V F) := by
        intro i hi
        have hi' : w.next + 1 ≤ i := hi
        have := hf i (by omega)
        exact ⟨(update_ne _ _ (by omega)).trans this.1, this.2⟩
      obtain ⟨h1, h2, h3, h4, h5, h6, h7, h8, h9⟩ := ih _ hf'
      have h2' : w.next + 1 ≤ _ := h2
      refine ⟨h1, by simp only [bindArgs]; omega, h3, ?_, ?_, ?_, ?_, .cons ?_ ?_, ?_⟩
      · intro i hi
        have hi' : i < w.next + 1 := by omega
        simp only [bindArgs]
        rw [h4 i hi']
        exact update_ne _ _ (by omega)
      · intro o ho
        simp only [bindArgs, List.mem_cons] at ho ⊢
        rcases ho with rfl | ho
        · omega
        · have := h5 o ho
          simp only at this
          omega
      · simp only [bindArgs, List.nodup_cons]
        refine ⟨fun hc => ?_, h6⟩
        have := h5 _ hc
        simp only at this
        omega
      · simp only [bindArgs, List.map_cons, temporaries, h7]
      · refine .rvalue v c _ (Nat.le_refl _) ?_
        simp only [bindArgs]
        rw [h4 w.next (by simp)]
        exact update_self _ _ _
      · exact h8.imp fun _ _ h => StandsFor.mono (by simp) h
      · simp only [bindArgs, List.map_cons, h9]

private theorem acceptsAll_iff (f : FunctorTy V F St) (args : List (Arg V)) (as : List (Nat × Bool))
    (h : as.map Prod.snd = args.map fun | .lvalue _ c => c | .rvalue _ c => c) :
    (f.isConst && acceptsAll f.params as) = true ↔ Callable f args := by
  have key : ∀ (ps : List Param) (as : List (Nat × Bool)) (args : List (Arg V)),
      as.map Prod.snd = args.map (fun | .lvalue _ c => c | .rvalue _ c => c) →
      (acceptsAll ps as = true ↔ List.Forall₂ (fun p (a : Arg V) => match a with
        | .lvalue _ c | .rvalue _ c => p ≠ Param.rref ∧ (p = .ref → c = false)) ps args) := by
    intro ps
    induction ps with
    | nil =>
      intro as args h
      cases as with
      | nil => cases args with
        | nil => simp [acceptsAll]
        | cons => simp at h
      | cons => cases args with
        | nil => simp at h
        | cons => simp [acceptsAll]
    | cons p ps ih =>
      intro as args h
      cases as with
      | nil => cases args with
        | nil => simp [acceptsAll]
        | cons => simp at h
      | cons x as => cases args with
        | nil => simp at h
        | cons y args =>
          simp only [List.map_cons, List.cons.injEq] at h
          simp only [acceptsAll, Bool.and_eq_true, List.forall₂_cons, ih as args h.2, h.1]
          refine and_congr_left fun _ => ?_
          cases y <;> cases p <;> simp [Param.acceptsLvalue]
  rw [Bool.and_eq_true, key f.params as args h]
  rfl

private theorem alive {w : World V F} {vars : Nat → Option V} {args : List (Arg V)} {ps : List Nat}
    (h : List.Forall₂ (StandsFor w vars) args ps) (hl : LvaluesAlive w args) (hv : ∀ i v, w.vars i = some v → vars i = some v) :
    ∀ p ∈ ps, (vars p).isSome = true := by
  induction h with
  | nil => simp
  | @cons a p as ps h1 _ ih =>
    intro q hq
    rcases List.mem_cons.mp hq with rfl | hq
    · cases h1 with
      | lvalue a c =>
        have := hl q c (by simp)
        obtain ⟨v, hv'⟩ := Option.isSome_iff_exists.mp this
        rw [hv q v hv']; rfl
      | rvalue v c p h2 h3 => rw [h3]; rfl
    · exact ih (fun a c h => hl a c (by simp [h])) q hq

private theorem vars_mono {w : World V F} {args : List (Arg V)} (hf : Fresh w) (i : Nat) (v : V) (h : w.vars i = some v) :
    (bindArgs w args).1.vars i = some v := by
  have : i < w.next := by
    by_contra hc
    have := (hf i (by omega)).1
    rw [h] at this
    cases this
  rw [(bindArgs_spec w args hf).2.2.2.1 i this, h]

/-- What a full expression does, for both directions. -/
private theorem streamExpr_spec (op : World V F → Bound → Category → St → Option (Outcome (World V F × St))) (f : FunctorTy V F St)
    (hop : ∀ w b st, op w b .rvalue st = apply f w b st) (w : World V F) (manip : Nat) (state : F) (args : List (Arg V)) (st : St)
    (hf : Fresh w) (hm : w.manips manip = some state) (hl : LvaluesAlive w args) :
    (¬Callable f args → streamExpr op w manip args st = none) ∧
    (Callable f args → ∃ vars ps, List.Forall₂ (StandsFor w vars) args ps ∧ (temporaries args ps).Nodup ∧
      (∀ i, i < w.next → vars i = w.vars i) ∧
      streamExpr op w manip args st = some ((f.run state vars st ps).bind fun r =>
        .ok ({ (bindArgs w args).1 with vars := fun i => if i ∈ temporaries args ps then none else r.1 i }, r.2))) := by
  obtain ⟨h1, h2, h3, h4, h5, h6, h7, h8, h9⟩ := bindArgs_spec w args hf
  have hc := acceptsAll_iff f args (bindArgs w args).2.1 h9
  have hcall : call w manip args = .ok ((bindArgs w args).1, ⟨manip, (bindArgs w args).2.1, (bindArgs w args).2.2⟩) := by
    simp [call, hm]
  constructor
  · intro hn
    rw [← hc, Bool.not_eq_true] at hn
    simp [streamExpr, hcall, hop, apply, hn]
  · intro hy
    refine ⟨(bindArgs w args).1.vars, (bindArgs w args).2.1.map Prod.fst, h8, by rw [h7]; exact h6, h4, ?_⟩
    have hall : (bindArgs w args).2.1.all (fun a => ((bindArgs w args).1.vars a.1).isSome) = true := by
      rw [List.all_eq_true]
      intro a ha
      exact alive h8 hl (vars_mono hf) a.1 (List.mem_map_of_mem ha)
    simp only [streamExpr, hcall, hop, apply, hc.mpr hy, if_true, h1, hm, hall, Option.map_some, h7]
    cases f.run state (bindArgs w args).1.vars st ((bindArgs w args).2.1.map Prod.fst) <;> simp [destroyBound]

private theorem temporaries_ge {w : World V F} {vars : Nat → Option V} {args : List (Arg V)} {ps : List Nat}
    (h : List.Forall₂ (StandsFor w vars) args ps) : ∀ p ∈ temporaries args ps, w.next ≤ p := by
  induction h with
  | nil => simp [temporaries]
  | cons h1 _ ih =>
    cases h1 with
    | lvalue => exact ih
    | rvalue v c p h2 h3 =>
      intro q hq
      rcases List.mem_cons.mp hq with rfl | hq
      · exact h2
      · exact ih q hq

private theorem streamExpr_meets (op : World V F → Bound → Category → St → Option (Outcome (World V F × St))) (f : FunctorTy V F St)
    (hop : ∀ w b st, op w b .rvalue st = apply f w b st) (w : World V F) (manip : Nat) (state : F) (args : List (Arg V)) (st : St)
    (hf : Fresh w) (hm : w.manips manip = some state) (hl : LvaluesAlive w args) :
    StreamSpec f state w args st (streamExpr op w manip args st) := by
  obtain ⟨h1, h2⟩ := streamExpr_spec op f hop w manip state args st hf hm hl
  refine ⟨h1, fun hc => ?_⟩
  obtain ⟨vars, ps, h3, h4, h5, h6⟩ := h2 hc
  refine ⟨vars, ps, h3, h4, h5, ?_⟩
  rw [h6]
  cases hr : f.run state vars st ps with
  | ok r =>
    refine ⟨_, rfl, (bindArgs_spec w args hf).1, ?_, ?_⟩
    · intro i hi
      have : i ∉ temporaries args ps := fun hc => by have := temporaries_ge h3 i hc; omega
      simp [this]
    · intro p hp
      simp [hp]
  | _ => rfl

/-- A stream of numbers (`V = Nat`); the to-stream function writes its state (a base) plus its arguments, the from-stream function reads a
number into its first argument. -/
private def exTy : ManipTy Nat Nat (List Nat) where
  toStream := ⟨0, true, false, true, [.constRef, .value], fun s vars st locs =>
    .ok (vars, st ++ locs.map fun l => s + (vars l).getD 0)⟩
  fromStream := some ⟨1, true, false, true, [.ref, .constRef], fun _ vars st locs =>
    match st, locs with
    | x :: st, l :: _ => .ok (update vars l ((vars l).map fun _ => x), st)
    | _, _ => .throw (str "eof")⟩

/-- A manipulator with base 100 at address 0 and a variable with value 7 at address 1. -/
private def exWorld : World Nat Nat := ⟨2, update (fun _ => none) 1 (some 7), update (fun _ => none) 0 (some 100)⟩

private theorem exWorld_fresh : Fresh exWorld := by
  intro i hi
  have hi' : 2 ≤ i := hi
  have h1 : i ≠ 1 := by omega
  have h0 : i ≠ 0 := by omega
  simp [exWorld, update, h0, h1]

private theorem ex_alive : LvaluesAlive exWorld [.lvalue 1 false, .rvalue 5 false] := by
  intro a c h
  simp at h
  rw [h.1]
  rfl

example : Fresh exWorld ∧ exWorld.manips 0 = some 100 ∧ LvaluesAlive exWorld [.lvalue 1 false, .rvalue 5 false] ∧
    Callable exTy.toStream [.lvalue 1 false, .rvalue 5 false] :=
  ⟨exWorld_fresh, rfl, ex_alive, rfl, .cons (by simp) (.cons (by simp) .nil)⟩

/-- `stream << m(x, 5)` writes 107 and 105. -/
example : ∃ w', streamExpr (Manip.insert exTy) exWorld 0 [.lvalue 1 false, .rvalue 5 false] [] = some (.ok (w', [107, 105])) := ⟨_, rfl⟩

/-- `stream >> m(x, 5)` reads into `x`; `stream >> m(5, x)` leaves `x` alone. -/
example : (∃ w', streamExpr (extract exTy) exWorld 0 [.lvalue 1 false, .rvalue 5 false] [9] = some (.ok (w', [])) ∧ w'.vars 1 = some 9) ∧
    ∃ w', streamExpr (extract exTy) exWorld 0 [.rvalue 5 false, .lvalue 1 false] [9] = some (.ok (w', [])) ∧ w'.vars 1 = some 7 :=
  ⟨⟨_, rfl, rfl⟩, _, rfl, rfl⟩

/-- C78: `stream << m(args...)`. -/
theorem C78_insert_partial (t : ManipTy V F St) (w : World V F) (manip : Nat) (state : F) (args : List (Arg V)) (st : St)
    (hf : Fresh w) (hm : w.manips manip = some state) (hl : LvaluesAlive w args) :
    StreamSpec t.toStream state w args st (streamExpr (insert t) w manip args st) :=
  streamExpr_meets (insert t) t.toStream (fun _ _ _ => rfl) w manip state args st hf hm hl

/-- C78: `stream >> m(args...)`; without a from-stream function, this does not compile. -/
theorem C78_extract_partial (t : ManipTy V F St) (w : World V F) (manip : Nat) (state : F) (args : List (Arg V)) (st : St)
    (hf : Fresh w) (hm : w.manips manip = some state) (hl : LvaluesAlive w args) :
    (t.fromStream = none → streamExpr (extract t) w manip args st = none) ∧
    ∀ g, t.fromStream = some g → StreamSpec g state w args st (streamExpr (extract t) w manip args st) := by
  constructor
  · intro h
    simp [streamExpr, call, hm, extract, h]
  · intro g h
    exact streamExpr_meets (extract t) g (fun _ _ _ => by simp [extract, h]) w manip state args st hf hm hl

/-- C78: a well-behaved function only modifies variables which the caller passed as non-const lvalues for parameters of type `T&`; what is
read into an rvalue argument is lost. -/
theorem C78_only_lvalues (f : FunctorTy V F St) (state : F) (w : World V F) (args : List (Arg V)) (st : St) (w' : World V F) (st' : St)
    (hw : WellBehaved f) (h : StreamSpec f state w args st (some (.ok (w', st')))) (i : Nat) (hi : i < w.next)
    (hn : ∀ k : Nat, ¬(args[k]? = some (.lvalue i false) ∧ f.params[k]? = some .ref)) : w'.vars i = w.vars i := by
  have hc : Callable f args := by
    by_contra hc
    cases h.1 hc
  obtain ⟨vars, ps, h1, _, h3, h4⟩ := h.2 hc
  cases hr : f.run state vars st ps with
  | ok r =>
    rw [hr] at h4
    obtain ⟨w'', h5, _, h6, _⟩ := h4
    cases h5
    rw [h6 i hi, ← h3 i hi]
    refine (hw _ _ _ _ _ _ hr).2 i fun k hk hp => ?_
    obtain ⟨hk', hk''⟩ := List.getElem?_eq_some_iff.mp hk
    have hlen := h1.length_eq
    have hs := (List.forall₂_iff_get.mp h1).2 k (by omega) hk'
    have hka : k < args.length := by omega
    have ha : args[k]? = some args[k] := List.getElem?_eq_getElem hka
    simp only [List.get_eq_getElem, hk''] at hs
    have hcp := (List.forall₂_iff_get.mp hc.2).2 k (by have := hc.2.length_eq; omega) hka
    obtain ⟨hkp, hkp'⟩ := List.getElem?_eq_some_iff.mp hp
    simp only [List.get_eq_getElem, hkp'] at hcp
    cases hak : args[k] with
    | lvalue a c =>
      rw [hak] at hs hcp ha
      cases hs
      have : c = false := by simpa using hcp
      subst this
      exact hn k ⟨ha, hp⟩
    | rvalue v c =>
      rw [hak] at hs
      cases hs
      omega
  | _ => rw [hr] at h4; cases h4

private theorem temporaries_subset (args : List (Arg V)) (ps : List Nat) : ∀ p ∈ temporaries args ps, p ∈ ps := by
  induction args generalizing ps with
  | nil => simp [temporaries]
  | cons a as ih =>
    cases ps with
    | nil => cases a <;> simp [temporaries]
    | cons q ps =>
      intro p hp
      cases a with
      | lvalue => exact List.mem_cons_of_mem _ (ih ps p hp)
      | rvalue =>
        rcases List.mem_cons.mp hp with rfl | hp
        · simp
        · exact List.mem_cons_of_mem _ (ih ps p hp)

private theorem standsFor_transport {w : World V F} {vars vars' : Nat → Option V} {args : List (Arg V)} {ps : List Nat}
    (h : List.Forall₂ (StandsFor w vars) args ps) (hv : ∀ p ∈ temporaries args ps, vars' p = vars p) :
    List.Forall₂ (StandsFor w vars') args ps := by
  induction h with
  | nil => exact .nil
  | cons h1 _ ih =>
    cases h1 with
    | lvalue => exact .cons (.lvalue _ _) (ih hv)
    | rvalue v c p h2 h3 =>
      exact .cons (.rvalue v c _ h2 ((hv _ (by simp [temporaries])).trans h3)) (ih fun q hq => hv q (by simp [temporaries, hq]))

private theorem update_cases {α : Type} (f : Nat → Option α) (k i : Nat) (v : Option α) :
    (i = k ∧ update f k v i = v) ∨ (i ≠ k ∧ update f k v i = f i) := by
  by_cases h : i = k
  · exact .inl ⟨h, by simp [update, h]⟩
  · exact .inr ⟨h, by simp [update, h]⟩

private theorem deferred_invariant (b : Bound) (hsub : ∀ o ∈ b.owned, o ∈ b.args.map Prod.fst) (es : List (Event V F))
    (he : ∀ e ∈ es, Event.Harmless b e) (w : World V F) (hf : Fresh w) (hm : (w.manips b.manip).isSome = true)
    (ha : ∀ p ∈ b.args.map Prod.fst, (w.vars p).isSome = true) :
    ((es.foldl (fun w e => e.step w) w).manips b.manip).isSome = true ∧
    (∀ p ∈ b.args.map Prod.fst, ((es.foldl (fun w e => e.step w) w).vars p).isSome = true) ∧
    ∀ o ∈ b.owned, (es.foldl (fun w e => e.step w) w).vars o = w.vars o := by
  induction es generalizing w with
  | nil => exact ⟨hm, ha, fun _ _ => rfl⟩
  | cons e es ih =>
    have hh := he e (by simp)
    have hne : ∀ p ∈ b.args.map Prod.fst, p ≠ w.next := by
      rintro p hp rfl
      have := ha _ hp
      rw [(hf w.next (Nat.le_refl _)).1] at this
      cases this
    have hnm : b.manip ≠ w.next := by
      intro h
      rw [h, (hf w.next (Nat.le_refl _)).2] at hm
      cases hm
    have step : Fresh (e.step w) ∧ ((e.step w).manips b.manip).isSome = true ∧
        (∀ p ∈ b.args.map Prod.fst, ((e.step w).vars p).isSome = true) ∧ ∀ o ∈ b.owned, (e.step w).vars o = w.vars o := by
      cases e with
      | newVar v =>
        refine ⟨fun i hi => ?_, hm, fun p hp => ?_, fun o ho => update_ne _ _ (hne o (hsub o ho))⟩
        · have hi' : w.next + 1 ≤ i := hi
          exact ⟨(update_ne _ _ (by omega)).trans (hf i (by omega)).1, (hf i (by omega)).2⟩
        · show (update w.vars w.next (some v) p).isSome = true
          rw [update_ne _ _ (hne p hp)]
          exact ha p hp
      | assign a v =>
        refine ⟨fun i hi => ⟨?_, (hf i hi).2⟩, hm, fun p hp => ?_, fun o ho => ?_⟩
        · show update _ _ _ _ = _
          rcases update_cases w.vars a i ((w.vars a).map fun _ => v) with ⟨rfl, h⟩ | ⟨_, h⟩
          · rw [h, (hf i hi).1]; rfl
          · rw [h, (hf i hi).1]
        · show (update _ _ _ _).isSome = true
          rcases update_cases w.vars a p ((w.vars a).map fun _ => v) with ⟨rfl, h⟩ | ⟨_, h⟩
          · rw [h, Option.isSome_map]; exact ha p hp
          · rw [h]; exact ha p hp
        · exact update_ne _ _ (fun h => hh (h ▸ ho))
      | destroyVar a =>
        refine ⟨fun i hi => ⟨?_, (hf i hi).2⟩, hm, fun p hp => ?_, fun o ho => ?_⟩
        · show update _ _ _ _ = _
          rcases update_cases w.vars a i none with ⟨rfl, h⟩ | ⟨_, h⟩
          · exact h
          · rw [h, (hf i hi).1]
        · show (update _ _ _ _).isSome = true
          have : p ≠ a := fun h => hh (h ▸ hp)
          rw [update_ne _ _ this]
          exact ha p hp
        · exact update_ne _ _ (fun h => hh (h ▸ hsub o ho))
      | newManip f =>
        refine ⟨fun i hi => ?_, ?_, ha, fun o ho => rfl⟩
        · have hi' : w.next + 1 ≤ i := hi
          exact ⟨(hf i (by omega)).1, (update_ne _ _ (by omega)).trans (hf i (by omega)).2⟩
        · show (update _ _ _ _).isSome = true
          rw [update_ne _ _ hnm]
          exact hm
      | assignManip a f =>
        refine ⟨fun i hi => ⟨(hf i hi).1, ?_⟩, ?_, ha, fun o ho => rfl⟩
        · show update _ _ _ _ = _
          rcases update_cases w.manips a i ((w.manips a).map fun _ => f) with ⟨rfl, h⟩ | ⟨_, h⟩
          · rw [h, (hf i hi).2]; rfl
          · rw [h, (hf i hi).2]
        · show (update _ _ _ _).isSome = true
          rcases update_cases w.manips a b.manip ((w.manips a).map fun _ => f) with ⟨rfl, h⟩ | ⟨_, h⟩
          · rw [h, Option.isSome_map]; exact hm
          · rw [h]; exact hm
      | destroyManip a =>
        refine ⟨fun i hi => ⟨(hf i hi).1, ?_⟩, ?_, ha, fun o ho => rfl⟩
        · show update _ _ _ _ = _
          rcases update_cases w.manips a i none with ⟨rfl, h⟩ | ⟨_, h⟩
          · exact h
          · rw [h, (hf i hi).2]
        · show (update _ _ _ _).isSome = true
          rw [update_ne _ _ (fun h => hh h.symm)]
          exact hm
    obtain ⟨s1, s2, s3, s4⟩ := step
    obtain ⟨i1, i2, i3⟩ := ih (fun x hx => he x (by simp [hx])) (e.step w) s1 s2 s3
    exact ⟨i1, i2, fun o ho => (i3 o ho).trans (s4 o ho)⟩

example : WellBehaved exTy.toStream := by
  intro s vars st locs vars' st' h
  cases h
  exact ⟨fun _ => rfl, fun _ _ => rfl⟩

example : ∃ g, exTy.fromStream = some g ∧ WellBehaved g := by
  refine ⟨_, rfl, ?_⟩
  intro s vars st locs vars' st' h
  cases st with
  | nil => simp at h
  | cons x st =>
    cases locs with
    | nil => simp at h
    | cons l locs =>
      cases h
      refine ⟨fun i => ?_, fun i hi => ?_⟩
      · rcases update_cases vars l i ((vars l).map fun _ => x) with ⟨rfl, h⟩ | ⟨_, h⟩ <;> simp [h]
      · exact update_ne _ _ fun h => hi 0 (by simp [h]) rfl

/-- C78: a bound manipulator refers to its lvalue arguments and to the manipulator, and keeps copies of its rvalue arguments.  Whatever
happens before it is streamed (as long as the objects it refers to exist), the function gets the current values of the former and the
original values of the latter, and the current state of the manipulator. -/
theorem C78_deferred (t : ManipTy V F St) (w : World V F) (manip : Nat) (args : List (Arg V)) (w1 : World V F) (b : Bound)
    (hf : Fresh w) (hl : LvaluesAlive w args) (h : call w manip args = .ok (w1, b)) (es : List (Event V F))
    (he : ∀ e ∈ es, Event.Harmless b e) (st : St) (hc : Callable t.toStream args) :
    ∃ state ps, (es.foldl (fun w e => e.step w) w1).manips manip = some state ∧
      List.Forall₂ (StandsFor w (es.foldl (fun w e => e.step w) w1).vars) args ps ∧
      insert t (es.foldl (fun w e => e.step w) w1) b .rvalue st =
        some ((t.toStream.run state (es.foldl (fun w e => e.step w) w1).vars st ps).bind fun r =>
          .ok ({ (es.foldl (fun w e => e.step w) w1) with vars := r.1 }, r.2)) := by
  have hm : (w.manips manip).isSome = true := by
    by_contra hn
    simp [call, hn] at h
  have hcall : call w manip args = .ok ((bindArgs w args).1, ⟨manip, (bindArgs w args).2.1, (bindArgs w args).2.2⟩) := by
    simp [call, hm]
  rw [hcall] at h
  simp only [Outcome.ok.injEq, Prod.mk.injEq] at h
  obtain ⟨rfl, rfl⟩ := h
  obtain ⟨h1, h2, h3, h4, h5, h6, h7, h8, h9⟩ := bindArgs_spec w args hf
  have hsub : ∀ o ∈ (bindArgs w args).2.2, o ∈ (bindArgs w args).2.1.map Prod.fst := by
    rw [← h7]
    exact temporaries_subset _ _
  have hinv := deferred_invariant ⟨manip, (bindArgs w args).2.1, (bindArgs w args).2.2⟩ hsub es he (bindArgs w args).1 h3
    (by simp only [h1]; exact hm) (alive h8 hl (vars_mono hf))
  obtain ⟨i1, i2, i3⟩ := hinv
  obtain ⟨state, hst⟩ := Option.isSome_iff_exists.mp i1
  refine ⟨state, (bindArgs w args).2.1.map Prod.fst, hst, ?_, ?_⟩
  · refine standsFor_transport h8 fun p hp => ?_
    rw [h7] at hp
    exact i3 p hp
  · have hall : (bindArgs w args).2.1.all
        (fun a => ((es.foldl (fun w e => e.step w) (bindArgs w args).1).vars a.1).isSome) = true := by
      rw [List.all_eq_true]
      intro a ha
      exact i2 a.1 (List.mem_map_of_mem ha)
    have hc' := (acceptsAll_iff t.toStream args (bindArgs w args).2.1 h9).mpr hc
    simp only [Manip.insert, Manip.apply, hc', if_true, hst, hall]

/-- `auto b = m(x, 5); x = 8; m = ...(200); stream << std::move(b);` writes 208 and 205. -/
example : ∃ w1 b, call exWorld 0 [.lvalue 1 false, .rvalue 5 false] = .ok (w1, b) ∧
    (∀ e ∈ [Event.assign 1 8, .newVar 3, .assignManip 0 200], Event.Harmless (V := Nat) (F := Nat) b e) ∧
    ∃ w2, Manip.insert exTy ([Event.assign 1 8, .newVar 3, .assignManip 0 200].foldl (fun w e => e.step w) w1) b .rvalue [] =
      some (.ok (w2, [208, 205])) :=
  ⟨_, _, rfl, by simp [Event.Harmless, exWorld], _, rfl⟩

/-- An lvalue of a bound manipulator cannot be streamed. -/
example (w : World Nat Nat) (b : Bound) : Manip.insert exTy w b .lvalue [] = none ∧ extract exTy w b .lvalue [] = none := ⟨rfl, rfl⟩

/-- C78: `make_manipulator` compiles if and only if the functions are of class type (not function pointers), not final, and of different
types. -/
theorem C78_make (t : ManipTy V F St) (state : F) (w : World V F) :
    (∃ r, makeManipulator t state w = some r) ↔ t.toStream.isClass = true ∧ t.toStream.isFinal = false ∧
      ∀ g, t.fromStream = some g → g.isClass = true ∧ g.isFinal = false ∧ g.id ≠ t.toStream.id := by
  unfold makeManipulator ManipTy.wellFormed FunctorTy.canBeBase
  cases hg : t.fromStream with
  | none => simp
  | some g =>
    simp only [Bool.and_eq_true, Bool.not_eq_true', bne_iff_ne, Option.some.injEq, forall_eq', ite_eq_iff]
    constructor
    · rintro ⟨r, h⟩
      rcases h with ⟨h, _⟩ | ⟨_, h⟩
      swap
      · cases h
      exact ⟨h.1.1, h.1.2, h.2.1.1, h.2.1.2, fun e => h.2.2 e.symm⟩
    · rintro ⟨h1, h2, h3, h4, h5⟩
      exact ⟨_, .inl ⟨⟨⟨h1, h2⟩, ⟨h3, h4⟩, fun e => h5 e.symm⟩, rfl⟩⟩

/-- C78: streaming through a bound manipulator which has survived its manipulator, or an lvalue argument, is undefined. -/
theorem C78_dangling (t : ManipTy V F St) (w : World V F) (b : Bound) (st : St)
    (h : w.manips b.manip = none ∨ ∃ a ∈ b.args, w.vars a.1 = none) :
    (∀ r, insert t w b .rvalue st = some r → r = .ub) ∧ (∀ r, extract t w b .rvalue st = some r → r = .ub) := by
  have key : ∀ (f : FunctorTy V F St) (r : Outcome (World V F × St)), Manip.apply f w b st = some r → r = .ub := by
    intro f r hr
    unfold Manip.apply at hr
    split at hr
    · rcases h with h | ⟨a, ha, hd⟩
      · simp only [h, Option.some.injEq] at hr
        exact hr.symm
      · cases hm : w.manips b.manip with
        | none =>
          simp only [hm, Option.some.injEq] at hr
          exact hr.symm
        | some state =>
          have : ¬ (b.args.all fun a => (w.vars a.1).isSome) = true := by
            intro hall
            have := List.all_eq_true.1 hall a ha
            simp [hd] at this
          simp only [hm, this, if_false, Option.some.injEq] at hr
          exact hr.symm
    · cases hr
  constructor
  · intro r hr
    exact key t.toStream r hr
  · intro r hr
    unfold extract at hr
    cases hg : t.fromStream with
    | none => simp [hg] at hr
    | some g =>
      simp only [hg] at hr
      exact key g r hr

/-- C78 is false for `as_enum` and `as_flags`: they return a bound manipulator which refers to a temporary of their return statement, so
`stream << as_enum(value)` and `stream >> as_enum(value)` compile and are undefined, for every argument (const arguments cannot be
extracted). -/
theorem C78_as_enum_dangling (toRun fromRun : F → (Nat → Option V) → St → List Nat → Outcome ((Nat → Option V) × St)) (state : F)
    (w : World V F) (value : Arg V) (st : St) :
    ∃ w' b, asManipulator (asManipulatorTy value toRun fromRun) state w value = some (.ok (w', b)) ∧
      insert (asManipulatorTy value toRun fromRun) w' b .rvalue st = some .ub ∧
      extract (asManipulatorTy value toRun fromRun) w' b .rvalue st =
        match value with
        | .lvalue _ c | .rvalue _ c => if c then none else some .ub := by
  have hw : (asManipulatorTy value toRun fromRun).wellFormed = true := rfl
  cases value with
  | lvalue a c =>
    refine ⟨_, _, by simp [asManipulator, makeManipulator, hw, call, update]; exact ⟨rfl, rfl⟩, ?_, ?_⟩
    · cases c <;> simp [Manip.insert, Manip.apply, asManipulatorTy, bindArgs, acceptsAll, Param.acceptsLvalue,
        update_self]
    · cases c <;> simp [extract, Manip.apply, asManipulatorTy, bindArgs, acceptsAll, Param.acceptsLvalue,
        update_self]
  | rvalue v c =>
    refine ⟨_, _, by simp [asManipulator, makeManipulator, hw, call, update]; exact ⟨rfl, rfl⟩, ?_, ?_⟩
    · cases c <;> simp [Manip.insert, Manip.apply, asManipulatorTy, bindArgs, acceptsAll, Param.acceptsLvalue,
        update_self]
    · cases c <;> simp [extract, Manip.apply, asManipulatorTy, bindArgs, acceptsAll, Param.acceptsLvalue,
        update_self]

end Makeshift.Props
