import Verif.Lemmas.VariantLaws
import Verif.Spec.VariantLaws
import Verif.Props.VariantTransform
import Mathlib.Data.List.Perm.Basic

/-! Property theorems C119: laws of `variant_transform` and `variant_transform_many`. -/

namespace Makeshift.Props

open Spec

variable {Ty V : Type}

private theorem range_flatMap (d n : Nat) :
    List.range (d * n) = (List.range n).flatMap fun j => (List.range d).map fun i => i + d * j := by
  induction n with
  | zero => simp
  | succ n ih =>
    rw [List.range_succ, List.flatMap_append, ← ih, Nat.mul_succ, List.range_add]
    simp [Nat.add_comm]

private theorem mapM_flatMap {α β γ : Type} (l : List α) (f : α → List β) (h : β → Option γ) :
    (l.flatMap f).mapM h = (l.mapM fun a => (f a).mapM h).map List.flatten := by
  induction l with
  | nil => rfl
  | cons a l ih =>
    simp only [List.flatMap_cons, List.mapM_append, ih, List.mapM_cons]
    cases (f a).mapM h <;> simp
    cases (l.mapM fun a => (f a).mapM h) <;> simp

private theorem mapM_mapOpt {α β γ : Type} (l : List α) (f : α → β) (h : β → Option γ) :
    (l.map f).mapM h = l.mapM fun a => h (f a) := by
  induction l with
  | nil => rfl
  | cons a l ih => simp only [List.map_cons, List.mapM_cons, ih]

theorem resultSeq_combinations (args : List (List Ty)) : resultSeq id args = some (combinations args) := by
  have key : ∀ args : List (List Ty), resultSeq id args =
      (List.range (computeSize (args.map List.length))).mapM fun i => comboTypes args (digits (args.map List.length) i) := by
    intro args
    simp only [resultSeq, computeStrides, decode_eq_digits, Nat.div_one, Option.map_id, id]
  induction args with
  | nil => rw [key]; rfl
  | cons Ts args ih =>
    rw [key] at ih ⊢
    have hs : computeSize ((Ts :: args).map List.length) = Ts.length * computeSize (args.map List.length) := rfl
    rw [hs, range_flatMap, mapM_flatMap]
    have hrow : ∀ j ∈ List.range (computeSize (args.map List.length)),
        ((List.range Ts.length).map fun i => i + Ts.length * j).mapM
        (fun i => comboTypes (Ts :: args) (digits ((Ts :: args).map List.length) i)) =
        (comboTypes args (digits (args.map List.length) j)).map fun rest => Ts.map (· :: rest) := by
      intro j hj
      obtain ⟨rest, hr⟩ := comboTypes_some args _ (digits_bound (args.map List.length) j (List.mem_range.1 hj))
      rw [mapM_mapOpt, hr, Option.map_some, ← range_mapM_get]
      apply mapM_congr_mem
      intro i hi
      rw [List.mem_range] at hi
      simp only [List.map_cons, digits, comboTypes, nthType_eq]
      rw [Nat.add_mul_mod_self_left, Nat.mod_eq_of_lt hi, Nat.add_mul_div_left _ _ (by omega), Nat.div_eq_of_lt hi, Nat.zero_add, hr]
      simp [hi]
    rw [mapM_congr_mem _ _ _ hrow, mapM_map_option, ih]
    simp [combinations, List.flatMap]

private theorem distinctByLast_unique {A : Type} [DecidableEq A] (l : List A) : DistinctByLast l (uniqueSequence l) := by
  refine ⟨fun T => mem_uniqueSequence T l, ?_⟩
  induction l with
  | nil => intro i j S T k m _ h; simp [uniqueSequence, uniqueSequence0] at h
  | cons x l ih =>
    have down : ∀ S k, S ∈ l → LastAt (x :: l) S k → ∃ k', k = k' + 1 ∧ LastAt l S k' := by
      intro S k hS hk
      cases k with
      | zero =>
        obtain ⟨n, hn⟩ := List.getElem?_of_mem hS
        exact absurd (by simpa using hn) (hk.2 (n + 1) (by omega))
      | succ k => exact ⟨k, rfl, by simpa using hk.1, fun m hm => by simpa using hk.2 (m + 1) (by omega)⟩
    have inner : ∀ (i j : Nat) (S T : A) (k m : Nat), i < j → (uniqueSequence l)[i]? = some S → (uniqueSequence l)[j]? = some T →
        LastAt (x :: l) S k → LastAt (x :: l) T m → k < m := by
      intro i j S T k m hij hS hT hk hm
      obtain ⟨k', rfl, hk'⟩ := down S k ((mem_uniqueSequence _ _).1 (List.mem_of_getElem? hS)) hk
      obtain ⟨m', rfl, hm'⟩ := down T m ((mem_uniqueSequence _ _).1 (List.mem_of_getElem? hT)) hm
      have := ih i j S T k' m' hij hS hT hk' hm'
      omega
    intro i j S T k m hij hS hT hk hm
    rw [uniqueSequence_cons] at hS hT
    split at hS
    · rename_i hx
      rw [if_pos hx] at hT
      exact inner i j S T k m hij hS hT hk hm
    · rename_i hx
      rw [if_neg hx] at hT
      cases j with
      | zero => omega
      | succ j =>
        rw [List.getElem?_cons_succ] at hT
        cases i with
        | zero =>
          simp only [List.getElem?_cons_zero, Option.some.injEq] at hS
          subst hS
          obtain ⟨m', rfl, _⟩ := down T m ((mem_uniqueSequence _ _).1 (List.mem_of_getElem? hT)) hm
          cases k with
          | zero => omega
          | succ k =>
            have := hk.1
            rw [List.getElem?_cons_succ] at this
            exact absurd (List.mem_of_getElem? this) hx
        | succ i =>
          rw [List.getElem?_cons_succ] at hS
          exact inner i j S T k m (by omega) hS hT hk hm

private theorem transformResult_eq [DecidableEq Ty] (isVoid : Ty → Bool) (resTy : List Ty → Ty) (args : List (List Ty)) :
    variantTransformResult isVoid resTy args =
      some (uniqueSequence (((combinations args).map resTy).filter fun T => !isVoid T)) := by
  rw [variantTransformResult, resultSeq_map, resultSeq_combinations]
  simp [filterSequence_eq]

private theorem manyResult_eq [DecidableEq Ty] (resTys : List Ty → List Ty) (args : List (List Ty)) :
    variantTransformManyResult resTys args = some (uniqueSequence ((combinations args).flatMap resTys)) := by
  rw [variantTransformManyResult, resultSeq_map, resultSeq_combinations]
  simp [flattenVariant_eq, List.flatMap]

private theorem combinations_single (Ts : List Ty) : combinations [Ts] = Ts.map fun T => [T] := by
  simp [combinations]

private theorem mem_combinations (args : List (List Ty)) (types : List Ty) :
    types ∈ combinations args ↔ Combination types args := by
  obtain ⟨rs, h1, h2⟩ := resultSeq_spec (id : List Ty → List Ty) args
  rw [resultSeq_combinations] at h1
  cases h1
  rw [h2]
  simp [Combination]

/-! ## C119 -/

/-- The alternatives of the result are the distinct result types for all combinations of alternatives, in the order of the last
combination with that result type, where the alternatives of the first argument vary fastest. -/
theorem C119_order [DecidableEq Ty] (isVoid : Ty → Bool) (resTy : List Ty → Ty) (resTys : List Ty → List Ty) (args : List (List Ty)) :
    (∃ R, variantTransformResult isVoid resTy args = some R ∧ R.Nodup ∧
      DistinctByLast (((combinations args).map resTy).filter fun T => !isVoid T) R) ∧
    (∃ R, variantTransformManyResult resTys args = some R ∧ R.Nodup ∧ DistinctByLast ((combinations args).flatMap resTys) R) :=
  ⟨⟨_, transformResult_eq isVoid resTy args, nodup_uniqueSequence _, distinctByLast_unique _⟩,
    ⟨_, manyResult_eq resTys args, nodup_uniqueSequence _, distinctByLast_unique _⟩⟩

/-- With `f(10, 20)` and `f(11, 21)` of type 1 and `f(11, 20)`, `f(10, 21)` of type 2, the order of the alternatives is 2, 1. -/
example : combinations [[10, 11], [20, 21]] = [[10, 20], [11, 20], [10, 21], [11, 21]] ∧
    variantTransformResult (fun _ => false) (fun types => if types.sum = 31 then 2 else 1) [[10, 11], [20, 21]] = some [2, 1] := by
  decide

/-- These conditions determine the list. -/
theorem C119_order_unique {A : Type} (l R R' : List A) (h : DistinctByLast l R) (h' : DistinctByLast l R') (hn : R.Nodup) (hn' : R'.Nodup) :
    R = R' := by
  have last : ∀ (l : List A) (T : A), T ∈ l → ∃ k, LastAt l T k := by
    intro l T hT
    induction l using List.reverseRecOn with
    | nil => simp at hT
    | append_singleton l x ih =>
      by_cases hx : x = T
      · subst hx
        exact ⟨l.length, by simp, fun m hm => by rw [List.getElem?_eq_none (by simp; omega)]; simp⟩
      · have hl : T ∈ l := by
          rcases List.mem_append.1 hT with h | h
          · exact h
          · exact absurd (List.mem_singleton.1 h).symm hx
        obtain ⟨k, hk, hk'⟩ := ih hl
        have hkl := (List.getElem?_eq_some_iff.1 hk).1
        refine ⟨k, by rw [List.getElem?_append_left hkl]; exact hk, fun m hm => ?_⟩
        by_cases hml : m < l.length
        · rw [List.getElem?_append_left hml]; exact hk' m hm
        · rw [List.getElem?_append_right (by omega)]
          intro hc
          exact hx (List.mem_singleton.1 (List.mem_of_getElem? hc)).symm
  have sorted : ∀ R : List A, DistinctByLast l R → R.Pairwise fun S T => ∀ k m, LastAt l S k → LastAt l T m → k < m := by
    intro R h
    rw [List.pairwise_iff_getElem]
    intro i j hi hj hij k m hk hm
    exact h.2 i j R[i] R[j] k m hij (by simp) (by simp) hk hm
  refine List.Perm.eq_of_pairwise ?_ (sorted R h) (sorted R' h')
    ((List.perm_ext_iff_of_nodup hn hn').2 fun T => (h.1 T).trans (h'.1 T).symm)
  intro S T hS hT h1 h2
  obtain ⟨k, hk⟩ := last l S ((h.1 S).1 hS)
  obtain ⟨m, hm⟩ := last l T ((h'.1 T).1 hT)
  have := h1 k m hk hm
  have := h2 m k hm hk
  omega

example : DistinctByLast [1, 2, 2, 1] [2, 1] ∧ [2, 1].Nodup := by
  refine ⟨distinctByLast_unique [1, 2, 2, 1], by decide⟩

/-- `variant_transform(g, variant_transform(f, args...))` has the type, the alternative and the value of
`variant_transform([=](auto... xs) { return g(f(xs...)); }, args...)`; either both compile or none. -/
theorem C119_compose [DecidableEq Ty] (isVoid : Ty → Bool) (f g : VFunctor Ty V) (args : List (VariantVal Ty V)) (act : List (Ty × V))
    (h : List.Forall₂ Active args act)
    (hf : ∀ types, Combination types (args.map VariantVal.types) → isVoid (f.resTy types) = false) :
    ∃ v, variantTransform isVoid f args = some ⟨[act], .ok v⟩ ∧
      (variantTransform isVoid g [v]).map Traced.out = (variantTransform isVoid (compose g f) args).map Traced.out := by
  have hc := active_types h
  obtain ⟨t, ht, hcalls, _, hok⟩ := C17_transform isVoid f args act h ⟨_, hc, hf _ hc⟩
  obtain ⟨v, hv, hR, ha⟩ := hok (hf _ hc)
  refine ⟨v, ?_, ?_⟩
  · rw [ht, ← hcalls, ← hv]
  · have hres : variantTransformResult isVoid g.resTy [v.types] =
        variantTransformResult isVoid (compose g f).resTy (args.map VariantVal.types) := by
      rw [transformResult_eq] at hR
      simp only [Option.some.injEq] at hR
      rw [transformResult_eq, transformResult_eq, ← hR, combinations_single]
      have e1 : ((combinations (args.map VariantVal.types)).map f.resTy).filter (fun T => !isVoid T) =
          (combinations (args.map VariantVal.types)).map f.resTy := by
        rw [List.filter_eq_self]
        intro T hT
        obtain ⟨types, hm, rfl⟩ := List.mem_map.1 hT
        simp [hf types ((mem_combinations _ _).1 hm)]
      rw [e1]
      have e2 : ∀ (l : List Ty), (((l.map fun T => [T]).map g.resTy).filter fun T => !isVoid T) =
          l.flatMap fun T => if isVoid (g.resTy [T]) then [] else [g.resTy [T]] := by
        intro l
        induction l with
        | nil => rfl
        | cons T l ih =>
          simp only [List.map_cons, List.filter_cons, List.flatMap_cons, ih]
          cases isVoid (g.resTy [T]) <;> simp
      rw [e2, uniqueSequence_flatMap, ← e2]
      simp [compose, Function.comp_def]
    have hact : activeAlternatives [v] = .ok [(f.resTy (act.map Prod.fst), f.run act)] :=
      activeAlternatives_ok (.cons ha .nil)
    unfold variantTransform
    simp only [List.map_cons, List.map_nil, hres, hact, activeAlternatives_ok h]
    rcases variantTransformResult isVoid (compose g f).resTy (args.map VariantVal.types) with _ | R
    · rfl
    · simp only [Option.bind_some]
      split
      · rfl
      · have e3 : (compose g f).resTy (act.map Prod.fst) = g.resTy [f.resTy (act.map Prod.fst)] := rfl
        have e4 : (compose g f).run act = g.run [(f.resTy (act.map Prod.fst), f.run act)] := rfl
        simp only [e3, e4]
        split
        · rfl
        · cases convertToVariant R (g.resTy [f.resTy (act.map Prod.fst)]) (g.run [(f.resTy (act.map Prod.fst), f.run act)]) <;> rfl

example : variantTransform (fun _ => false) ⟨fun types => types.sum % 2, fun l => (l.map Prod.snd).sum⟩ exArgs =
      some ⟨[[(11, 7), (20, 8)]], .ok ⟨[0, 1], some (1, 15)⟩⟩ ∧
    (variantTransform (fun _ => false) (compose ⟨fun types => types.sum + 5, fun l => (l.map Prod.snd).sum * 2⟩
      ⟨fun types => types.sum % 2, fun l => (l.map Prod.snd).sum⟩) exArgs).map Traced.out = some (.ok ⟨[5, 6], some (1, 30)⟩) := by
  decide

private theorem eq_of_active {v w : VariantVal Ty V} {p : Ty × V} (ht : v.types = w.types) (hn : w.types.Nodup) (hv : Active v p)
    (hw : Active w p) : v = w := by
  obtain ⟨i, h1, h2⟩ := hv
  obtain ⟨j, h3, h4⟩ := hw
  rw [ht] at h2
  have hij : i = j := by
    obtain ⟨hi, h2'⟩ := List.getElem?_eq_some_iff.1 h2
    obtain ⟨hj, h4'⟩ := List.getElem?_eq_some_iff.1 h4
    exact (List.Nodup.getElem_inj_iff hn).1 (h2'.trans h4'.symm)
  subst hij
  cases v
  cases w
  simp_all

/-- `variant_transform` with the identity function returns a variant equal to its argument, if the alternatives of the argument are
distinct; otherwise the type of the result differs. -/
theorem C119_identity [DecidableEq Ty] (isVoid : Ty → Bool) (f : VFunctor Ty V) (v : VariantVal Ty V) (p : Ty × V) (hv : Active v p)
    (hvoid : ∀ T ∈ v.types, isVoid T = false) (hf : ∀ T ∈ v.types, f.resTy [T] = T) (hr : ∀ T x, f.run [(T, x)] = x) :
    variantTransform isVoid f [v] = some ⟨[[p]], .ok v⟩ ↔ v.types.Nodup := by
  have hp : p.1 ∈ v.types := by obtain ⟨i, _, h⟩ := hv; exact List.mem_of_getElem? h
  have hact : List.Forall₂ Active [v] [p] := .cons hv .nil
  obtain ⟨t, ht, hc, _, hok⟩ := C17_transform isVoid f [v] [p] hact
    ⟨[p.1], .cons hp .nil, by rw [hf _ hp]; exact hvoid _ hp⟩
  simp only [List.map_cons, List.map_nil, hf _ hp] at hok
  obtain ⟨w, hw, hR, ha⟩ := hok (hvoid _ hp)
  rw [hr p.1 p.2] at ha
  have hty : w.types = uniqueSequence v.types := by
    rw [transformResult_eq, combinations_single] at hR
    simp only [Option.some.injEq] at hR
    rw [← hR]
    congr 1
    rw [List.map_map, List.filter_eq_self.2]
    · have : v.types.map (f.resTy ∘ fun T => [T]) = v.types.map id := List.map_congr_left fun T hT => hf T hT
      rw [this, List.map_id]
    · intro T hT
      obtain ⟨S, hS, rfl⟩ := List.mem_map.1 hT
      simp [hf S hS, hvoid S hS]
  obtain ⟨c, o⟩ := t
  simp only at hc hw
  subst hc hw
  rw [ht]
  simp only [Option.some.injEq, Traced.mk.injEq, true_and, Outcome.ok.injEq]
  constructor
  · rintro rfl
    rw [hty]
    exact nodup_uniqueSequence _
  · intro hn
    exact eq_of_active (by rw [hty, uniqueSequence_of_nodup _ hn]) hn ha hv

example : Active (⟨[10, 11], some (1, 7)⟩ : VariantVal Nat Int) (11, 7) ∧ ([10, 11] : List Nat).Nodup ∧ ¬ ([10, 10] : List Nat).Nodup ∧
    variantTransform (fun _ => false) (⟨fun types => types.sum, fun l => (l.map Prod.snd).sum⟩ : VFunctor Nat Int) [⟨[10, 10], some (1, 7)⟩] =
      some ⟨[[(10, 7)]], .ok ⟨[10], some (0, 7)⟩⟩ :=
  ⟨⟨1, rfl, rfl⟩, by decide, by decide, by decide⟩

/-- `variant_transform_many(f, std::variant<T>(x))` is `f(x)`, if the alternatives of `f(x)` are distinct; otherwise it differs in type. -/
theorem C119_many_unit_left [DecidableEq Ty] (f : VMFunctor Ty V) (T : Ty) (x : V) (q : Ty × V)
    (hq : Active (⟨f.resTys [T], f.run [(T, x)]⟩ : VariantVal Ty V) q) :
    variantTransformMany f [⟨[T], some (0, x)⟩] = some ⟨[[(T, x)]], .ok ⟨f.resTys [T], f.run [(T, x)]⟩⟩ ↔ (f.resTys [T]).Nodup := by
  obtain ⟨w, hw, hR, ha⟩ := C19_transform_many f [⟨[T], some (0, x)⟩] [(T, x)] (.cons ⟨0, rfl, rfl⟩ .nil) q hq
  have hty : w.types = uniqueSequence (f.resTys [T]) := by
    simp only [List.map_cons, List.map_nil] at hR
    rw [manyResult_eq, combinations_single] at hR
    simp only [Option.some.injEq] at hR
    rw [← hR]
    simp
  rw [hw]
  simp only [Option.some.injEq, Traced.mk.injEq, true_and, Outcome.ok.injEq]
  constructor
  · rintro rfl
    simp only at hty
    rw [hty]
    exact nodup_uniqueSequence _
  · intro hn
    exact eq_of_active (by simp [hty, uniqueSequence_of_nodup _ hn]) hn ha hq

example : Active (⟨exMany.resTys [11], exMany.run [(11, 7)]⟩ : VariantVal Nat Int) (11, 7) ∧ (exMany.resTys [11]).Nodup ∧
    ¬ (exMany.resTys [99]).Nodup := ⟨⟨0, rfl, rfl⟩, by decide, by decide⟩

/-- `variant_transform_many([](auto x) { return std::variant<decltype(x)>(x); }, v)` equals `v`, if the alternatives of `v` are
distinct; otherwise it differs in type. -/
theorem C119_many_unit_right [DecidableEq Ty] (f : VMFunctor Ty V) (v : VariantVal Ty V) (p : Ty × V) (hv : Active v p)
    (hf : ∀ T, f.resTys [T] = [T]) (hr : ∀ T x, f.run [(T, x)] = some (0, x)) :
    variantTransformMany f [v] = some ⟨[[p]], .ok v⟩ ↔ v.types.Nodup := by
  obtain ⟨w, hw, hR, ha⟩ := C19_transform_many f [v] [p] (.cons hv .nil) p
    ⟨0, by simp only; exact hr p.1 p.2, by simp [hf]⟩
  have hty : w.types = uniqueSequence v.types := by
    simp only [List.map_cons, List.map_nil] at hR
    rw [manyResult_eq, combinations_single] at hR
    simp only [Option.some.injEq] at hR
    rw [← hR]
    congr 1
    have : ∀ l : List Ty, (l.map fun T => [T]).flatMap f.resTys = l := by
      intro l
      induction l with
      | nil => rfl
      | cons T l ih => simp only [List.map_cons, List.flatMap_cons, hf, ih]; rfl
    exact this _
  rw [hw]
  simp only [Option.some.injEq, Traced.mk.injEq, true_and, Outcome.ok.injEq]
  constructor
  · rintro rfl
    rw [hty]
    exact nodup_uniqueSequence _
  · intro hn
    exact eq_of_active (by rw [hty, uniqueSequence_of_nodup _ hn]) hn ha hv

example : variantTransformMany (⟨fun types => types, fun l => some (0, (l.map Prod.snd).sum)⟩ : VMFunctor Nat Int) [⟨[10, 11], some (1, 7)⟩] =
    some ⟨[[(11, 7)]], .ok ⟨[10, 11], some (1, 7)⟩⟩ := by decide

/-- `variant_transform_many(g, variant_transform_many(f, args...))` and
`variant_transform_many([=](auto... xs) { return variant_transform_many(g, f(xs...)); }, args...)` have the same type, alternative
and value.  (`k` is the latter functor.) -/
theorem C119_many_assoc [DecidableEq Ty] (f g k : VMFunctor Ty V) (args : List (VariantVal Ty V)) (act : List (Ty × V)) (p q : Ty × V)
    (h : List.Forall₂ Active args act) (hp : Active (⟨f.resTys (act.map Prod.fst), f.run act⟩ : VariantVal Ty V) p)
    (hq : Active (⟨g.resTys [p.1], g.run [p]⟩ : VariantVal Ty V) q)
    (hk : ∀ types, Combination types (args.map VariantVal.types) →
      variantTransformManyResult g.resTys [f.resTys types] = some (k.resTys types))
    (hr : (variantTransformMany g [⟨f.resTys (act.map Prod.fst), f.run act⟩]).map Traced.out =
      some (.ok ⟨k.resTys (act.map Prod.fst), k.run act⟩)) :
    ∃ v w, variantTransformMany f args = some ⟨[act], .ok v⟩ ∧ variantTransformMany g [v] = some ⟨[[p]], .ok w⟩ ∧
      variantTransformMany k args = some ⟨[act], .ok w⟩ := by
  obtain ⟨v, hv, hvR, hva⟩ := C19_transform_many f args act h p hp
  obtain ⟨w, hw, hwR, hwa⟩ := C19_transform_many g [v] [p] (.cons hva .nil) q hq
  obtain ⟨u, hu, huR, hua⟩ := C19_transform_many g [⟨f.resTys (act.map Prod.fst), f.run act⟩] [p] (.cons hp .nil) q hq
  rw [hu] at hr
  simp only [Option.map_some, Option.some.injEq, Outcome.ok.injEq] at hr
  subst hr
  obtain ⟨z, hz, hzR, hza⟩ := C19_transform_many k args act h q hua
  have hwz : z = w := by
    have hnd : w.types.Nodup := by
      obtain ⟨R, hR, hn, _⟩ := C19_result_type g.resTys ([v].map VariantVal.types)
      rw [hR] at hwR
      cases hwR
      exact hn
    refine eq_of_active ?_ hnd hza hwa
    simp only [List.map_cons, List.map_nil] at hwR
    rw [manyResult_eq] at hzR hwR hvR
    simp only [Option.some.injEq] at hzR hwR hvR
    rw [← hzR, ← hwR, ← hvR, combinations_single]
    have e1 : ∀ l : List Ty, (l.map fun T => [T]).flatMap g.resTys = l.flatMap fun T => g.resTys [T] := by
      intro l
      induction l with
      | nil => rfl
      | cons T l ih => simp only [List.map_cons, List.flatMap_cons, ih]
    rw [e1, uniqueSequence_flatMap, List.flatMap_assoc,
      ← uniqueSequence_flatMap_unique (fun types => (f.resTys types).flatMap fun T => g.resTys [T])]
    congr 1
    apply List.flatMap_congr
    intro types hm
    have := hk types ((mem_combinations _ _).1 hm)
    rw [manyResult_eq, combinations_single, e1] at this
    exact (Option.some.inj this).symm
  subst hwz
  exact ⟨v, z, hv, hw, hz⟩

/-- `f` returns `variant<T0 + T1, 99>`, `g` returns `variant<0, T0>`. -/
example : let g : VMFunctor Nat Int := ⟨fun types => [0, types.sum], fun l => some (1, (l.map Prod.snd).sum * 2)⟩
    let k : VMFunctor Nat Int := ⟨fun types => [types.sum, 0, 99], fun l => some (0, (l.map Prod.snd).sum * 2)⟩
    Active (⟨exMany.resTys [11, 20], exMany.run [(11, 7), (20, 8)]⟩ : VariantVal Nat Int) (31, 15) ∧
    Active (⟨g.resTys [31], g.run [(31, 15)]⟩ : VariantVal Nat Int) (31, 30) ∧
    variantTransformManyResult g.resTys [exMany.resTys [11, 20]] = some (k.resTys [11, 20]) ∧
    (variantTransformMany g [⟨exMany.resTys [11, 20], exMany.run [(11, 7), (20, 8)]⟩]).map Traced.out =
      some (.ok ⟨k.resTys [11, 20], k.run [(11, 7), (20, 8)]⟩) ∧
    (variantTransformMany k exArgs).map Traced.out = some (.ok ⟨[32, 30, 31, 0, 99], some (2, 30)⟩) :=
  ⟨⟨0, rfl, rfl⟩, ⟨1, rfl, rfl⟩, by decide, by decide, by decide⟩

/-- `variant_transform(f, args...)` is `variant_transform_many` with the functor which wraps the result of `f` in a variant, for
functors which never return void; also in the case of failure. -/
theorem C119_transform_as_many [DecidableEq Ty] (isVoid : Ty → Bool) (f : VFunctor Ty V) (g : VMFunctor Ty V)
    (args : List (VariantVal Ty V)) (hf : ∀ types, Combination types (args.map VariantVal.types) → isVoid (f.resTy types) = false)
    (hg : ∀ types, g.resTys types = [f.resTy types]) (hr : ∀ act, g.run act = some (0, f.run act)) :
    variantTransformMany g args = variantTransform isVoid f args := by
  have hres : variantTransformManyResult g.resTys (args.map VariantVal.types) =
      variantTransformResult isVoid f.resTy (args.map VariantVal.types) := by
    rw [manyResult_eq, transformResult_eq, List.filter_eq_self.2]
    · congr 2
      generalize combinations (args.map VariantVal.types) = l
      induction l with
      | nil => rfl
      | cons T l ih => simp only [List.map_cons, List.flatMap_cons, ih, hg]; rfl
    · intro T hT
      obtain ⟨types, hm, rfl⟩ := List.mem_map.1 hT
      simp [hf types ((mem_combinations _ _).1 hm)]
  unfold variantTransformMany variantTransform
  rw [hres]
  rcases variantTransformResult isVoid f.resTy (args.map VariantVal.types) with _ | R
  · rfl
  · simp only [Option.bind_some]
    split
    · rfl
    · have hcomb : ∀ (vs : List (VariantVal Ty V)) act, activeAlternatives vs = .ok act →
          Combination (act.map Prod.fst) (vs.map VariantVal.types) := by
        intro vs
        induction vs with
        | nil => intro act h; cases h; exact .nil
        | cons v vs ih =>
          intro act h
          simp only [activeAlternatives] at h
          split at h
          · cases h
          · split at h
            · cases h
            · rename_i T hT
              cases hrest : activeAlternatives vs with
              | ok rest =>
                rw [hrest] at h
                cases h
                exact .cons (List.mem_of_getElem? hT) (ih rest hrest)
              | throw m => rw [hrest] at h; cases h
              | failFast => rw [hrest] at h; cases h
              | ub => rw [hrest] at h; cases h
      cases hact : activeAlternatives args with
      | ok act =>
        simp only [hg, hr, activeAlternatives, hf _ (hcomb args act hact)]
        simp
      | throw m => rfl
      | failFast => rfl
      | ub => rfl

example : variantTransformMany (⟨fun types => [types.sum], fun l => some (0, (l.map Prod.snd).sum)⟩ : VMFunctor Nat Int) exArgs =
    variantTransform (fun _ => false) ⟨fun types => types.sum, fun l => (l.map Prod.snd).sum⟩ exArgs := by decide

end Makeshift.Props
