import Verif.Spec.VariantForward
import Verif.Lemmas.TupleMove
import Verif.Lemmas.VariantTransform
import Verif.Lemmas.TypeTraits

/-! # Lemmas on visiting variants with objects and functors -/

namespace Makeshift.VariantForward

open Makeshift.TupleAccess Makeshift.TupleMove Makeshift.Spec.VariantForward

variable {V F : Type}

theorem getAlt_eq (a : Access) (c : CTy) : getAlt a c = Forwarded a c := by
  obtain ⟨ac, ar⟩ := a
  obtain ⟨t, b⟩ := c
  cases ac <;> cases ar <;> simp [getAlt, stdGet, Forwarded, Ty.addLRef, Ty.addConst, addRRef]

theorem nthVariantType_eq (a : Access) (c : CTy) (h : ¬ (a.const = true ∧ a.rvalue = true)) : nthVariantType a c = some (Forwarded a c) := by
  obtain ⟨ac, ar⟩ := a
  obtain ⟨t, b⟩ := c
  cases ac <;> cases ar <;> simp_all [nthVariantType, Forwarded]

theorem refOfType_eq (v : VArg) (c : CTy) : refOfType (getAlt v.access c) v.loc = refTo v c := by
  rw [getAlt_eq]
  unfold Forwarded refTo
  cases hr : v.access.rvalue <;> simp [refOfType]

theorem mapM_map_some {α β : Type} (l : List α) (f : α → Option β) (g : α → β) (h : ∀ x ∈ l, f x = some (g x)) :
    l.mapM f = some (l.map g) := by
  induction l with
  | nil => rfl
  | cons x xs ih =>
    rw [List.mapM_cons, h x List.mem_cons_self, ih (fun y hy => h y (List.mem_cons_of_mem _ hy))]
    rfl

theorem mapM_none {α β : Type} (l : List α) (f : α → Option β) (h : ∃ x ∈ l, f x = none) : l.mapM f = none := by
  induction l with
  | nil => simp at h
  | cons x xs ih =>
    rw [List.mapM_cons]
    cases hx : f x with
    | none => rfl
    | some y =>
      obtain ⟨z, hz, hn⟩ := h
      rcases List.mem_cons.1 hz with rfl | hz'
      · rw [hn] at hx; cases hx
      · rw [ih ⟨z, hz', hn⟩]; rfl

theorem argTypes_eq (args : List VArg) (h : ∀ v ∈ args, ¬ (v.access.const = true ∧ v.access.rvalue = true)) :
    argTypes args = some (args.map fun v => v.alts.map (Forwarded v.access)) :=
  mapM_map_some _ _ _ fun v hv => mapM_map_some _ _ _ fun c _ => nthVariantType_eq _ c (h v hv)

theorem argTypes_none (args : List VArg) (h : ∃ v ∈ args, v.access.const = true ∧ v.access.rvalue = true ∧ v.alts ≠ []) :
    argTypes args = none := by
  obtain ⟨v, hv, h1, h2, h3⟩ := h
  obtain ⟨c, hc⟩ := List.exists_mem_of_ne_nil _ h3
  refine mapM_none _ _ ⟨v, hv, mapM_none _ _ ⟨c, hc, ?_⟩⟩
  simp [nthVariantType, h1, h2]

theorem combination_iff (args : List VArg) (ts : List Ty) :
    List.Forall₂ (fun T Ts => T ∈ Ts) ts (args.map fun v => v.alts.map (Forwarded v.access)) ↔ Combo args ts := by
  unfold Combo
  rw [List.forall₂_map_right_iff]
  constructor
  · intro h
    have := h.flip
    refine this.imp fun v t hvt => ?_
    obtain ⟨c, hc, hct⟩ := List.mem_map.1 hvt
    exact ⟨c, hc, hct.symm⟩
  · intro h
    have := h.flip
    refine this.imp ?_
    rintro t v ⟨c, hc, rfl⟩
    exact List.mem_map_of_mem hc

theorem mapM_id_iff {α : Type} (l : List (Option α)) (r : List α) : l.mapM id = some r ↔ l = r.map some := by
  induction l generalizing r with
  | nil => cases r <;> simp
  | cons x xs ih =>
    rw [List.mapM_cons]
    cases x with
    | none => cases r <;> simp
    | some x =>
      cases hx : xs.mapM id with
      | none =>
        cases r with
        | nil => simp
        | cons y ys =>
          have : ¬ xs = ys.map some := fun h => by rw [(ih ys).2 h] at hx; cases hx
          simp [this]
      | some ys =>
        cases r with
        | nil => simp
        | cons z zs =>
          have h1 := (ih zs)
          rw [hx] at h1
          simp only [id_eq, Option.bind_eq_bind, Option.bind_some, Option.pure_def, Option.some.injEq, List.cons.injEq, List.map_cons] at h1 ⊢
          rw [h1]

/-- The result types for all combinations. -/
theorem results_iff {R : Type} (callTy : List Ty → Option R) (args : List VArg) (ha : ∀ v ∈ args, v.alts ≠ []) :
    (∃ rs, results callTy args = some rs) ↔
      (∀ v ∈ args, ¬ (v.access.const = true ∧ v.access.rvalue = true)) ∧ ∀ ts, Combo args ts → ∃ r, callTy ts = some r := by
  by_cases hc : ∀ v ∈ args, ¬ (v.access.const = true ∧ v.access.rvalue = true)
  · obtain ⟨rs, h1, h2⟩ := resultSeq_spec callTy (args.map fun v => v.alts.map (Forwarded v.access))
    simp only [results, argTypes_eq args hc, Option.bind_some, h1]
    rw [and_iff_right hc]
    constructor
    · rintro ⟨r, hr⟩ ts hts
      rw [mapM_id_iff] at hr
      have := (h2 (callTy ts)).2 ⟨ts, (combination_iff args ts).2 hts, rfl⟩
      rw [hr] at this
      obtain ⟨x, _, hx⟩ := List.mem_map.1 this
      exact ⟨x, hx.symm⟩
    · intro h
      have : ∀ r ∈ rs, ∃ x, r = some x := by
        intro r hr
        obtain ⟨ts, hts, rfl⟩ := (h2 r).1 hr
        exact h ts ((combination_iff args ts).1 hts)
      clear h1 h2
      induction rs with
      | nil => exact ⟨[], rfl⟩
      | cons r rs ih =>
        obtain ⟨x, rfl⟩ := this r List.mem_cons_self
        obtain ⟨xs, hxs⟩ := ih (fun r hr => this r (List.mem_cons_of_mem _ hr))
        exact ⟨x :: xs, by rw [List.mapM_cons, hxs]; rfl⟩
  · have : argTypes args = none := by
      apply argTypes_none
      simp only [not_forall, not_not] at hc
      obtain ⟨v, hv, h1, h2⟩ := hc
      exact ⟨v, hv, h1, h2, ha v hv⟩
    constructor
    · rintro ⟨rs, hrs⟩
      rw [results, this] at hrs
      cases hrs
    · rintro ⟨h, _⟩
      exact absurd h hc

theorem results_mem {R : Type} {callTy : List Ty → Option R} {args : List VArg} {rs : List R} (ha : ∀ v ∈ args, v.alts ≠ [])
    (h : results callTy args = some rs) (r : R) : r ∈ rs ↔ ∃ ts, Combo args ts ∧ callTy ts = some r := by
  have hc := ((results_iff callTy args ha).1 ⟨rs, h⟩).1
  obtain ⟨rs', h1, h2⟩ := resultSeq_spec callTy (args.map fun v => v.alts.map (Forwarded v.access))
  simp only [results, argTypes_eq args hc, Option.bind_some, h1, mapM_id_iff] at h
  have := h2 (some r)
  rw [h] at this
  simp only [List.mem_map, Option.some.injEq, exists_eq_right] at this
  rw [this]
  exact exists_congr fun ts => and_congr_left fun _ => combination_iff args ts

theorem transformAlts_iff (rs : List RTy) :
    (∃ R, transformAlts rs = some R) ↔ (∃ t, RTy.ty t ∈ rs) ∧ ∀ t, RTy.ty t ∈ rs → ∃ c, t = .obj c := by
  unfold transformAlts
  have hm : ∀ r, r ∈ uniqueSequence (filterSequence (fun r => decide (r ≠ RTy.void)) rs) ↔ ∃ t, r = .ty t ∧ r ∈ rs := by
    intro r
    rw [mem_uniqueSequence, filterSequence_eq, List.mem_filter]
    cases r <;> simp
  generalize uniqueSequence (filterSequence (fun r => decide (r ≠ RTy.void)) rs) = R at hm
  simp only
  by_cases he : R.isEmpty
  · rw [List.isEmpty_iff] at he
    subst he
    simp only [List.isEmpty_nil, if_true, reduceCtorEq, exists_false, false_iff, not_and]
    rintro ⟨t, ht⟩
    exact absurd ((hm (.ty t)).2 ⟨t, rfl, ht⟩) (by simp)
  · simp only [he, Bool.false_eq_true, if_false]
    have hne : ∃ t, RTy.ty t ∈ rs := by
      obtain ⟨r, hr⟩ := List.exists_mem_of_ne_nil R (by simpa [List.isEmpty_iff] using he)
      obtain ⟨t, rfl, ht⟩ := (hm r).1 hr
      exact ⟨t, ht⟩
    simp only [hne, true_and]
    constructor
    · rintro ⟨cs, hcs⟩ t ht
      by_contra hn
      have : R.mapM RTy.objTy = none := mapM_none _ _ ⟨.ty t, (hm _).2 ⟨t, rfl, ht⟩, by
        cases t with
        | obj c => exact absurd ⟨c, rfl⟩ hn
        | lref c => rfl
        | rref c => rfl⟩
      rw [this] at hcs
      cases hcs
    · intro h
      have : ∃ cs, R.mapM RTy.objTy = some cs := by
        have hall : ∀ r ∈ R, ∃ c, r.objTy = some c := by
          intro r hr
          obtain ⟨t, rfl, ht⟩ := (hm r).1 hr
          obtain ⟨c, rfl⟩ := h t ht
          exact ⟨c, rfl⟩
        obtain ⟨cs, h1, _⟩ := mapM_option_some R RTy.objTy hall
        exact ⟨cs, h1⟩
      exact this

theorem mapM_objTy {R : List RTy} {cs : List CTy} (h : R.mapM RTy.objTy = some cs) : R = cs.map fun c => .ty (.obj c) := by
  induction R generalizing cs with
  | nil => cases h; rfl
  | cons r R ih =>
    rw [List.mapM_cons] at h
    cases hr : r.objTy with
    | none => rw [hr] at h; cases h
    | some c =>
      cases hR : R.mapM RTy.objTy with
      | none => rw [hr, hR] at h; cases h
      | some cs' =>
        rw [hr, hR] at h
        cases h
        have : r = .ty (.obj c) := by
          cases r with
          | void => cases hr
          | ty t => cases t <;> cases hr; rfl
        rw [this, ih hR]
        rfl

theorem transformAlts_spec {rs : List RTy} {R : List CTy} (h : transformAlts rs = some R) :
    R.Nodup ∧ ∀ T, T ∈ R ↔ RTy.ty (.obj T) ∈ rs := by
  unfold transformAlts at h
  have hm : ∀ r, r ∈ uniqueSequence (filterSequence (fun r => decide (r ≠ RTy.void)) rs) ↔ ∃ t, r = .ty t ∧ r ∈ rs := by
    intro r
    rw [mem_uniqueSequence, filterSequence_eq, List.mem_filter]
    cases r <;> simp
  have hn := nodup_uniqueSequence (filterSequence (fun r => decide (r ≠ RTy.void)) rs)
  generalize uniqueSequence (filterSequence (fun r => decide (r ≠ RTy.void)) rs) = U at hm hn h
  simp only at h
  by_cases he : U.isEmpty
  · rw [he] at h
    cases h
  · simp only [he, Bool.false_eq_true, if_false] at h
    have hU := mapM_objTy h
    subst hU
    refine ⟨(List.pairwise_map.1 hn).imp fun h1 h2 => h1 (by rw [h2]), fun T => ?_⟩
    have := hm (.ty (.obj T))
    simp only [List.mem_map, RTy.ty.injEq, Ty.obj.injEq, exists_eq_right] at this
    rw [this]
    simp

theorem chooseAlt_exact (other : List CTy → CTy → Option Nat) {R : List CTy} {T : CTy} (hn : R.Nodup) (hT : T ∈ R)
    (hu : ∀ T' ∈ R, T'.ty = T.ty → T' = T) : ∃ i, chooseAlt other R T = some i ∧ R[i]? = some T := by
  have hc : R.countP (fun R => R.ty = T.ty) = 1 := by
    have e : R.countP (fun R => R.ty = T.ty) = R.count T := by
      unfold List.count
      apply List.countP_congr
      intro x hx
      simp only [decide_eq_true_eq, beq_iff_eq]
      exact ⟨fun h => hu x hx h, fun h => by rw [h]⟩
    rw [e, count_one_of_nodup hn hT]
  refine ⟨R.findIdx fun R => R.ty = T.ty, by simp only [chooseAlt, hc], ?_⟩
  have hlt : (R.findIdx fun R => R.ty = T.ty) < R.length := List.findIdx_lt_length_of_exists ⟨T, hT, by simp⟩
  rw [List.getElem?_eq_getElem hlt]
  have hp := List.findIdx_getElem (w := hlt)
  simp only [decide_eq_true_eq] at hp
  exact congrArg some (hu _ (List.getElem_mem hlt) hp)

theorem chooseAlt_ambiguous (other : List CTy → CTy → Option Nat) {R : List CTy} {T T' : CTy} (hT : T ∈ R) (hT' : T' ∈ R)
    (hty : T'.ty = T.ty) (hne : T' ≠ T) : chooseAlt other R T = none := by
  have : 2 ≤ R.countP (fun R => R.ty = T.ty) := by
    rw [List.countP_eq_length_filter]
    have h1 : T ∈ R.filter (fun R => R.ty = T.ty) := by simp [hT]
    have h2 : T' ∈ R.filter (fun R => R.ty = T.ty) := by simp [hT', hty]
    generalize R.filter (fun R => R.ty = T.ty) = L at h1 h2
    match L, h1, h2 with
    | [x], h1, h2 =>
      simp only [List.mem_singleton] at h1 h2
      exact absurd (h2.trans h1.symm) hne
    | x :: y :: l, _, _ => simp
  obtain ⟨n, hn⟩ : ∃ n, R.countP (fun R => R.ty = T.ty) = n + 2 := ⟨_, (Nat.sub_add_cancel this).symm⟩
  simp only [chooseAlt, hn]

theorem refTy_eq {args : List VArg} {cs : List CTy} (h : List.Forall₂ HoldsAlt args cs) :
    args.mapM refTy = some (typesOf args cs) := by
  induction h with
  | nil => rfl
  | cons hv _ ih =>
    obtain ⟨i, h1, h2⟩ := hv
    rw [List.mapM_cons, ih]
    simp [refTy, h1, h2, typesOf, getAlt_eq]

theorem activeRefs_eq {args : List VArg} {cs : List CTy} (h : List.Forall₂ HoldsAlt args cs) :
    activeRefs args = some (List.zipWith refTo args cs) := by
  unfold activeRefs
  induction h with
  | nil => rfl
  | cons hv _ ih =>
    obtain ⟨i, h1, h2⟩ := hv
    rw [List.mapM_cons, ih]
    simp [h1, h2, refOfType_eq]

theorem activeRefs_none {args : List VArg} (h : ∃ v ∈ args, v.active = none) : activeRefs args = none := by
  obtain ⟨v, hv, hn⟩ := h
  exact mapM_none _ _ ⟨v, hv, by rw [hn]; rfl⟩

theorem holds_or {args : List VArg} (hw : ∀ v ∈ args, IsVariant v) :
    (∃ v ∈ args, v.active = none) ∨ ∃ cs, List.Forall₂ HoldsAlt args cs := by
  induction args with
  | nil => exact .inr ⟨[], .nil⟩
  | cons v vs ih =>
    cases hv : v.active with
    | none => exact .inl ⟨v, List.mem_cons_self, hv⟩
    | some i =>
      have hi := (hw v List.mem_cons_self).2 i hv
      rcases ih (fun v hv => hw v (List.mem_cons_of_mem _ hv)) with ⟨v', h1, h2⟩ | ⟨cs, hcs⟩
      · exact .inl ⟨v', List.mem_cons_of_mem _ h1, h2⟩
      · exact .inr ⟨v.alts[i] :: cs, .cons ⟨i, hv, List.getElem?_eq_getElem hi⟩ hcs⟩

theorem combo_typesOf {args : List VArg} {cs : List CTy} (h : List.Forall₂ HoldsAlt args cs) : Combo args (typesOf args cs) := by
  induction h with
  | nil => exact .nil
  | cons hv _ ih =>
    obtain ⟨i, h1, h2⟩ := hv
    exact .cons ⟨_, List.mem_of_getElem? h2, rfl⟩ ih

theorem seen_eq (m : Mem V) (args : List VArg) (cs : List CTy) :
    (List.zipWith refTo args cs).map (fun r => (r, m r.loc)) = argsOf m args cs := by
  induction args generalizing cs with
  | nil => rfl
  | cons v vs ih =>
    cases cs with
    | nil => rfl
    | cons c cs => simp only [List.zipWith_cons_cons, List.map_cons, ih, argsOf]; rfl

theorem separate_refs {args : List VArg} (cs : List CTy) (h : OwnVariants args) :
    Spec.TupleMove.Separate ((List.zipWith refTo args cs).map .elem) := by
  unfold Spec.TupleMove.Separate
  induction args generalizing cs with
  | nil => simp
  | cons v vs ih =>
    cases cs with
    | nil => simp
    | cons c cs =>
      rw [OwnVariants, List.pairwise_cons] at h
      rw [List.zipWith_cons_cons, List.map_cons, List.pairwise_cons]
      refine ⟨?_, ih cs h.2⟩
      intro y hy r r' hr hr' hl
      obtain ⟨q, hq, rfl⟩ := List.mem_map.1 hy
      simp only [TVal.elem.injEq] at hr hr'
      subst hr hr'
      obtain ⟨v', c', hv', hqe⟩ : ∃ v' c', v' ∈ vs ∧ q = refTo v' c' := by
        obtain ⟨i, hi⟩ := List.mem_iff_getElem?.1 hq
        rw [List.getElem?_zipWith] at hi
        cases h1 : vs[i]? with
        | none => simp [h1] at hi
        | some v' =>
          cases h2 : cs[i]? with
          | none => simp [h1, h2] at hi
          | some c' =>
            rw [h1, h2] at hi
            simp only [Option.some.injEq] at hi
            exact ⟨v', c', List.mem_of_getElem? h1, hi.symm⟩
      subst hqe
      have := h.1 v' hv' hl
      simp [refTo, this.1, this.2]

theorem afterCall {args : List VArg} (cs : List CTy) (h : OwnVariants args) (m : Mem V) (news : Nat → Option V) :
    AfterCall m args cs news (writeBack ((List.zipWith refTo args cs).map .elem) news 0 m) :=
  fun l => writeBack_leaves _ news m m l (separate_refs cs h) rfl

end Makeshift.VariantForward
