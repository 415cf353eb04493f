import Verif.Model.Overload
import Mathlib.Data.List.Nodup
import Mathlib.Data.List.Perm.Basic

/-! Property theorems C95: `overload`. -/

namespace Makeshift.Props

open Makeshift.Overload

/-- What overload resolution selects ([over.match.best]): a viable candidate which is better than every other viable candidate. -/
def IsBest (viable : Op → Prop) (better : Op → Op → Bool) (candidates : Op → Prop) (o : Op) : Prop :=
  candidates o ∧ viable o ∧ ∀ p, candidates p → viable p → p ≠ o → better o p = true

private theorem resolve_iff {viable : Op → Bool} {better : Op → Op → Bool} (ha : ∀ o p, better o p = true → better p o = false) {ops : List Op} {o : Op} :
    resolve viable better ops = some o ↔ IsBest (fun o => viable o = true) better (· ∈ ops) o := by
  have hq : ∀ q, (viable q && ops.all fun p => decide (p = q) || !viable p || better q p) = true ↔
      viable q = true ∧ ∀ p, p ∈ ops → viable p = true → p ≠ q → better q p = true := by
    intro q
    simp only [Bool.and_eq_true, List.all_eq_true, Bool.or_eq_true, decide_eq_true_eq, Bool.not_eq_true']
    constructor
    · rintro ⟨h1, h2⟩
      refine ⟨h1, fun p hp hv hne => ?_⟩
      rcases h2 p hp with (h | h) | h
      · exact absurd h hne
      · rw [hv] at h; simp at h
      · exact h
    · rintro ⟨h1, h2⟩
      refine ⟨h1, fun p hp => ?_⟩
      by_cases h : p = q
      · exact Or.inl (Or.inl h)
      · cases hv : viable p
        · exact Or.inl (Or.inr rfl)
        · exact Or.inr (h2 p hp hv h)
  unfold resolve IsBest
  constructor
  · intro h
    have h1 := List.find?_some h
    exact ⟨List.mem_of_find?_eq_some h, (hq o).mp h1⟩
  · rintro ⟨h1, h2, h3⟩
    cases hf : ops.find? _ with
    | none => exact absurd ((hq o).mpr ⟨h2, h3⟩) (by simpa using List.find?_eq_none.mp hf o h1)
    | some q =>
      have h4' := List.find?_some hf
      have h4 := (hq q).mp h4'
      have h5 := List.mem_of_find?_eq_some hf
      by_cases hne : q = o
      · rw [hne]
      · have := h3 q h5 h4.1 hne
        have h6 := h4.2 o h1 h2 (fun h => hne h.symm)
        rw [ha _ _ h6] at this
        simp at this

/-- A type with call operators of its own. -/
def IsClosure (F : FTy) : Prop := ∃ id consts, F = closure id consts ∧ consts ≠ []

private theorem closure_ops {F : FTy} (h : IsClosure F) : F.leaves = [F.id] ∧ ∀ o ∈ F.ops, o.owner = F.id := by
  obtain ⟨id, consts, rfl, -⟩ := h
  refine ⟨rfl, fun o ho => ?_⟩
  simp only [closure, List.mem_map] at ho
  obtain ⟨c, -, rfl⟩ := ho
  rfl

private theorem overloadTy_eq {code : List Nat → Nat} {Fs : List FTy} {T : FTy} (h : overloadTy code Fs = some T) :
    (∀ F ∈ Fs, F.isClass = true ∧ F.isFinal = false ∧ F.ops ≠ []) ∧ (Fs.map FTy.id).Nodup ∧
      T = ⟨code (Fs.map FTy.id), true, false, Fs.flatMap FTy.ops, Fs.flatMap FTy.leaves⟩ := by
  unfold overloadTy at h
  split at h
  · rename_i hc
    simp only [Bool.and_eq_true, List.all_eq_true, decide_eq_true_eq, Bool.not_eq_true', List.isEmpty_eq_false_iff] at hc
    exact ⟨fun F hF => ⟨(hc.1 F hF).1.1, (hc.1 F hF).1.2, (hc.1 F hF).2⟩, hc.2, (Option.some.inj h).symm⟩
  · simp at h

private theorem flatMap_leaves {Fs : List FTy} (hc : ∀ F ∈ Fs, F.leaves = [F.id]) : Fs.flatMap FTy.leaves = Fs.map FTy.id := by
  induction Fs with
  | nil => rfl
  | cons F Fs ih =>
    simp only [List.flatMap_cons, List.map_cons, hc F (by simp)]
    rw [ih (fun G hG => hc G (by simp [hG]))]
    rfl

/-- The call operators which can be called for a const or non-const object. -/
def Callable (viable : Op → Bool) (constObject : Bool) (o : Op) : Prop := viable o = true ∧ (constObject = true → o.const = true)

/-- C95: a call of `overload{ fs... }` calls the call operator which is the best match for the arguments among the call operators of all functors; if there is none,
the call does not compile. -/
theorem C95_call (code : List Nat → Nat) (viable : Op → Bool) (better : Op → Op → Bool) (ha : ∀ o p, better o p = true → better p o = false)
    (constObject : Bool) (Fs : List FTy) (hF : ∀ F ∈ Fs, IsClosure F) (T : FTy) (hT : overloadTy code Fs = some T) (o : Op) :
    call viable better constObject T = some o ↔
      IsBest (Callable viable constObject) better (fun o => ∃ F ∈ Fs, o ∈ F.ops) o := by
  obtain ⟨-, hn, rfl⟩ := overloadTy_eq hT
  have hv : ∀ o : Op, (viable o && (o.const || !constObject)) = true ↔ Callable viable constObject o := by
    intro o; unfold Callable; cases constObject <;> simp
  unfold call
  rw [Option.bind_eq_some_iff]
  simp only
  constructor
  · rintro ⟨q, hq, hc⟩
    split at hc
    · cases hc
      obtain ⟨h1, h2, h3⟩ := (resolve_iff ha).mp hq
      exact ⟨by simpa [List.mem_flatMap] using h1, (hv _).mp h2, fun p hp hpv => h3 p (by simpa [List.mem_flatMap] using hp) ((hv p).mpr hpv)⟩
    · simp at hc
  · rintro ⟨⟨F, hFm, ho⟩, h2, h3⟩
    refine ⟨o, (resolve_iff ha).mpr ⟨List.mem_flatMap.mpr ⟨F, hFm, ho⟩, (hv o).mpr h2, fun p hp hpv => h3 p (List.mem_flatMap.mp hp) ((hv p).mp hpv)⟩, ?_⟩
    rw [flatMap_leaves (fun F h => (closure_ops (hF F h)).1), (closure_ops (hF F hFm)).2 o ho]
    rw [if_pos]
    exact List.count_eq_one_of_mem hn (List.mem_map.mpr ⟨F, hFm, rfl⟩)

/-- `overload{ [](int) { }, [](float) { }, [](auto) { } }`. -/
private def docFs : List FTy := [closure 1 [true], closure 2 [true], closure 3 [true]]

/-- For an argument of type `int`, the first and the last one are exact matches, and a function is better than a template; all are viable. -/
private def intBetter (o p : Op) : Bool := decide (o.owner = 1 ∧ p.owner ≠ 1) || decide (o.owner = 3 ∧ p.owner = 2)

example : (∀ F ∈ docFs, IsClosure F) ∧ (∀ o p, intBetter o p = true → intBetter p o = false) ∧
    ∃ T, overloadTy List.sum docFs = some T ∧ call (fun _ => true) intBetter false T = some ⟨1, 0, true⟩ := by
  refine ⟨fun F hF => ?_, fun o p h => ?_, _, rfl, by decide⟩
  · simp only [docFs, List.mem_cons, List.not_mem_nil, or_false] at hF
    rcases hF with rfl | rfl | rfl <;> exact ⟨_, _, rfl, by simp⟩
  · simp only [intBetter, Bool.or_eq_true, decide_eq_true_eq] at h
    simp only [intBetter, Bool.or_eq_false_iff, decide_eq_false_iff_not]
    omega

/-- C95: the order of the functors does not matter for which call operator is called. -/
theorem C95_order (code : List Nat → Nat) (viable : Op → Bool) (better : Op → Op → Bool) (ha : ∀ o p, better o p = true → better p o = false)
    (constObject : Bool) (Fs Gs : List FTy) (hF : ∀ F ∈ Fs, IsClosure F) (hp : Fs.Perm Gs) :
    ((overloadTy code Fs).isSome = (overloadTy code Gs).isSome) ∧
    ∀ T U, overloadTy code Fs = some T → overloadTy code Gs = some U → call viable better constObject T = call viable better constObject U := by
  constructor
  · unfold overloadTy
    have h1 : (Fs.all fun F => F.isClass && !F.isFinal && !F.ops.isEmpty) = (Gs.all fun F => F.isClass && !F.isFinal && !F.ops.isEmpty) := by
      rw [Bool.eq_iff_iff, List.all_eq_true, List.all_eq_true]
      exact ⟨fun h F hF => h F (hp.mem_iff.mpr hF), fun h F hF => h F (hp.mem_iff.mp hF)⟩
    have h2 : (Fs.map FTy.id).Nodup ↔ (Gs.map FTy.id).Nodup := (hp.map FTy.id).nodup_iff
    rw [h1]
    by_cases h : (Gs.map FTy.id).Nodup
    · rw [decide_eq_true h, decide_eq_true (h2.mpr h)]; split <;> rfl
    · rw [decide_eq_false h, decide_eq_false (fun hc => h (h2.mp hc))]; simp
  · intro T U hT hU
    apply Option.ext
    intro o
    rw [C95_call code viable better ha constObject Fs hF T hT o,
      C95_call code viable better ha constObject Gs (fun F h => hF F (hp.mem_iff.mpr h)) U hU o]
    simp only [IsBest, hp.mem_iff]

/-- C95: nesting does not matter either: `overload{ overload{ fs... }, gs... }` calls the same call operator as `overload{ fs..., gs... }`, if the
functors are all different. -/
theorem C95_nested (code : List Nat → Nat) (viable : Op → Bool) (better : Op → Op → Bool) (constObject : Bool) (Fs Gs : List FTy) (T U V : FTy)
    (hT : overloadTy code Fs = some T) (hU : overloadTy code (T :: Gs) = some U) (hV : overloadTy code (Fs ++ Gs) = some V) :
    call viable better constObject U = call viable better constObject V := by
  obtain ⟨-, -, rfl⟩ := overloadTy_eq hT
  obtain ⟨-, -, rfl⟩ := overloadTy_eq hU
  obtain ⟨-, -, rfl⟩ := overloadTy_eq hV
  simp [call]

example : ∃ T U V, overloadTy (fun l => 100 + l.sum) (docFs.take 2) = some T ∧ overloadTy (fun l => 100 + l.sum) (T :: docFs.drop 2) = some U ∧
    overloadTy (fun l => 100 + l.sum) (docFs.take 2 ++ docFs.drop 2) = some V := ⟨_, _, _, rfl, rfl, rfl⟩

/-- C95: if a functor is contained twice, it cannot be called, although the object can be made: `overload{ overload{ f, g }, f }`. -/
theorem C95_twice (code : List Nat → Nat) (viable : Op → Bool) (better : Op → Op → Bool) (ha : ∀ o p, better o p = true → better p o = false)
    (constObject : Bool) (F G : FTy) (hF : IsClosure F) (hG : IsClosure G) (hne : F.id ≠ G.id) (hc : code [F.id, G.id] ≠ F.id) :
    ∃ T U, overloadTy code [F, G] = some T ∧ overloadTy code [T, F] = some U ∧
      ∀ o, call viable better constObject U = some o ↔ o ∈ G.ops ∧ IsBest (Callable viable constObject) better (fun o => o ∈ F.ops ∨ o ∈ G.ops) o := by
  obtain ⟨hFl, hFo⟩ := closure_ops hF
  obtain ⟨hGl, hGo⟩ := closure_ops hG
  have hFc : F.isClass = true ∧ F.isFinal = false ∧ F.ops.isEmpty = false := by
    obtain ⟨id, consts, rfl, h⟩ := hF
    refine ⟨rfl, rfl, ?_⟩
    cases consts with
    | nil => simp at h
    | cons c cs => simp [closure, List.zipIdx_cons]
  have hGc : G.isClass = true ∧ G.isFinal = false ∧ G.ops.isEmpty = false := by
    obtain ⟨id, consts, rfl, h⟩ := hG
    refine ⟨rfl, rfl, ?_⟩
    cases consts with
    | nil => simp at h
    | cons c cs => simp [closure, List.zipIdx_cons]
  have hT : overloadTy code [F, G] = some ⟨code [F.id, G.id], true, false, F.ops ++ G.ops, F.leaves ++ G.leaves⟩ := by
    simp [overloadTy, hFc, hGc, hne]
  refine ⟨_, ⟨code [code [F.id, G.id], F.id], true, false, F.ops ++ G.ops ++ F.ops, F.leaves ++ G.leaves ++ F.leaves⟩, hT, ?_, fun o => ?_⟩
  · have : (F.ops ++ G.ops).isEmpty = false := by
      have := hFc.2.2
      cases h : F.ops <;> simp_all
    simp [overloadTy, hFc, hc, this, List.append_assoc]
  · have hv : ∀ o : Op, (viable o && (o.const || !constObject)) = true ↔ Callable viable constObject o := by
      intro o; unfold Callable; cases constObject <;> simp
    unfold call
    rw [Option.bind_eq_some_iff]
    simp only [hFl, hGl]
    have hcnt : ∀ o : Op, ([F.id] ++ [G.id] ++ [F.id]).count o.owner = 1 ↔ o.owner = G.id := by
      intro o
      by_cases h1 : o.owner = F.id
      · rw [h1]
        have : ([F.id] ++ [G.id] ++ [F.id]).count F.id = 2 := by simp [hne.symm]
        rw [this]; simp [hne]
      · by_cases h2 : o.owner = G.id
        · rw [h2]; simp [hne]
        · simp [Ne.symm h1, Ne.symm h2, h2]
    have hmem : ∀ p, p ∈ F.ops ++ G.ops ++ F.ops ↔ p ∈ F.ops ∨ p ∈ G.ops := by
      intro p; simp only [List.mem_append]; tauto
    constructor
    · rintro ⟨q, hq, hcc⟩
      split at hcc
      · rename_i hcq
        cases hcc
        obtain ⟨h1, h2, h3⟩ := (resolve_iff ha).mp hq
        have h1' := (hmem _).mp h1
        refine ⟨?_, h1', (hv _).mp h2, fun p hp hpv => h3 p ((hmem p).mpr hp) ((hv p).mpr hpv)⟩
        rcases h1' with h | h
        · exact absurd ((hFo _ h).symm.trans ((hcnt _).mp hcq)) hne
        · exact h
      · simp at hcc
    · rintro ⟨hg, h1, h2, h3⟩
      refine ⟨o, (resolve_iff ha).mpr ⟨(hmem o).mpr h1, (hv o).mpr h2, fun p hp hpv => h3 p ((hmem p).mp hp) ((hv p).mp hpv)⟩, ?_⟩
      rw [if_pos ((hcnt o).mpr (hGo o hg))]

example : ∃ F G : FTy, IsClosure F ∧ IsClosure G ∧ F.id ≠ G.id ∧ (fun l : List Nat => 100 + l.sum) [F.id, G.id] ≠ F.id :=
  ⟨closure 1 [true], closure 2 [true, false], ⟨1, [true], rfl, by simp⟩, ⟨2, [true, false], rfl, by simp⟩, by decide, by decide⟩

/-- C95: which functors can be combined: classes which are not final, have a call operator, and are of different types. -/
theorem C95_compiles (code : List Nat → Nat) (Fs : List FTy) :
    (overloadTy code Fs).isSome = true ↔
      (∀ F ∈ Fs, F.isClass = true ∧ F.isFinal = false ∧ F.ops ≠ []) ∧ Fs.Pairwise (fun F G => F.id ≠ G.id) := by
  constructor
  · intro h
    obtain ⟨T, hT⟩ := Option.isSome_iff_exists.mp h
    obtain ⟨h1, h2, -⟩ := overloadTy_eq hT
    exact ⟨h1, by simpa [List.Nodup, List.pairwise_map] using h2⟩
  · rintro ⟨h1, h2⟩
    unfold overloadTy
    rw [if_pos]
    · rfl
    · simp only [Bool.and_eq_true, List.all_eq_true, decide_eq_true_eq, Bool.not_eq_true', List.isEmpty_eq_false_iff]
      exact ⟨fun F hF => ⟨⟨(h1 F hF).1, (h1 F hF).2.1⟩, (h1 F hF).2.2⟩, by simpa [List.Nodup, List.pairwise_map] using h2⟩

/-- A function pointer cannot be combined with other functors, nor can a functor with a copy of itself. -/
example : overloadTy List.sum [closure 1 [true], ⟨2, false, false, [], []⟩] = none ∧ overloadTy List.sum [closure 1 [true], closure 1 [true]] = none := by decide

/-- C95: `overload{ fs... }` (with braces) contains all functors, each with the state of the argument; a single `overload` object is copied.  Missing for the full claim: the
documented form with parentheses, `C95_parentheses`. -/
theorem C95_make_partial {S : Type} (code : List Nat → Nat) (isOverload : FTy → Bool) (lang : Lang) (fs : List (Obj S)) :
    (∀ a, fs = [a] → isOverload a.ty = true → make code isOverload lang .braces fs = some a) ∧
    (∀ T, (∀ f ∈ fs, isOverload f.ty = false ∧ IsClosure f.ty) → overloadTy code (fs.map Obj.ty) = some T →
      ∃ o, make code isOverload lang .braces fs = some o ∧ o.ty = T ∧ ∀ f ∈ fs, o.state f.ty.id = f.state f.ty.id) := by
  refine ⟨fun a h1 h2 => by subst h1; simp [make, h2], fun T hf hT => ?_⟩
  have hn := (overloadTy_eq hT).2.1
  have hsub : ∀ f ∈ fs, subobject fs f.ty.id = f.state f.ty.id := by
    clear hT
    induction fs with
    | nil => simp
    | cons a as ih =>
      intro f hfm
      simp only [subobject, (closure_ops (hf a (by simp)).2).1, List.mem_singleton]
      simp only [List.map_cons, List.nodup_cons] at hn
      rcases List.mem_cons.mp hfm with rfl | hfm
      · rw [if_pos rfl]
      · have hne : f.ty.id ≠ a.ty.id := fun h => hn.1 (by rw [← h]; simp only [List.map_map, List.mem_map]; exact ⟨f, hfm, rfl⟩)
        rw [if_neg hne]
        exact ih (fun g hg => hf g (by simp [hg])) hn.2 f hfm
  match fs, hf, hT, hsub with
  | [], _, hT, _ => exact ⟨⟨T, fun _ => none⟩, by simp only [make]; rw [show overloadTy code [] = some T from hT]; rfl, rfl, by simp⟩
  | [a], hf, hT, hsub =>
    refine ⟨⟨T, subobject [a]⟩, ?_, rfl, hsub⟩
    simp only [make, (hf a (by simp)).1, Bool.false_eq_true, if_false, true_or, if_true]
    rw [show overloadTy code [a.ty] = some T from hT]; rfl
  | a :: b :: as, hf, hT, hsub =>
    refine ⟨⟨T, subobject (a :: b :: as)⟩, ?_, rfl, hsub⟩
    simp only [make, true_or, if_true]
    rw [hT]; rfl

/-- C95: the form `overload(fs...)` with parentheses, which the documentation shows, compiles for new objects only since C++20, where it does the same as braces. -/
theorem C95_parentheses {S : Type} (code : List Nat → Nat) (isOverload : FTy → Bool) (fs : List (Obj S)) :
    make code isOverload .cpp20 .parens fs = make code isOverload .cpp20 .braces fs ∧
    (2 ≤ fs.length → make code isOverload .cpp17 .parens fs = none) := by
  match fs with
  | [] => simp [make]
  | [a] => simp [make]
  | a :: b :: as => simp [make]

example : ∃ o, make (S := Nat) List.sum (fun _ => false) .cpp17 .braces [closureObj 1 [true] 5, closureObj 2 [false] 6] = some o ∧
    o.state 1 = some 5 ∧ o.state 2 = some 6 ∧ (make (S := Nat) List.sum (fun _ => false) .cpp17 .parens [closureObj 1 [true] 5, closureObj 2 [false] 6]).isNone :=
  ⟨_, rfl, rfl, rfl, rfl⟩

end Makeshift.Props
