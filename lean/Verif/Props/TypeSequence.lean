import Verif.Model.TypeSequence
import Verif.Props.TypeTraits
import Mathlib.Data.List.Induction

/-! Property theorems C94: `type_sequence` as a tuple of `gsl::type_identity` objects. -/

namespace Makeshift.Props

open Makeshift.TypeSequence

variable {Ty : Type}

/-- C94: `get<I>` returns the element at position `I`, `tuple_element` is its type, and there is none beyond the size. -/
theorem C94_get (i : Nat) (Ts : List Ty) :
    getAt i Ts = Ts[i]? ∧ tupleElement i Ts = Ts[i]? ∧ ((getAt i Ts).isSome = true ↔ i < tupleSize Ts) := by
  have h1 : getAt i Ts = Ts[i]? := by
    unfold getAt
    rw [C46_nth_type]
    by_cases h : i < Ts.length <;> simp [h]
  refine ⟨h1, C46_nth_type i Ts, ?_⟩
  rw [h1]; simp [tupleSize]

/-- C94: `get<T>` compiles exactly if `T` appears once, as for `std::tuple`; then it is the element `get<I>` at the only position of `T`. -/
theorem C94_get_by_type [DecidableEq Ty] (T : Ty) (Ts : List Ty) (hn : Ts.length < 2 ^ 63) :
    ((getType T Ts).isSome = true ↔ Ts.count T = 1) ∧
    (∀ U, getType T Ts = some U → U = T ∧ ∃ i, getAt i Ts = some U ∧ ∀ j, getAt j Ts = some U → j = i) := by
  have h46 := C46_type_pack_index T Ts
  have hwrap : IntTy.sizeT.wrap (-1) = 18446744073709551615 := by simp [IntTy.sizeT, IntTy.wrap]
  have key : (getType T Ts).isSome = true ↔ Ts.count T = 1 := by
    unfold getType
    constructor
    · intro h
      by_contra hc
      rw [h46.2.mpr hc] at h
      simp at h
    · intro h
      have hne : tryTypePackIndex T Ts ≠ -1 := fun hc => h46.2.mp hc h
      have : ∃ k : Nat, tryTypePackIndex T Ts = k ∧ k < Ts.length := by
        obtain ⟨k, hk⟩ := List.getElem?_of_mem (List.count_pos_iff.mp (by omega : 0 < Ts.count T))
        unfold tryTypePackIndex at hne ⊢
        split
        · rename_i p hp
          have hm : p ∈ Ts.zipIdx.filter (fun p => p.1 = T) := by rw [hp]; simp
          have := (List.mem_filter.mp hm).1
          have := List.snd_lt_of_mem_zipIdx this
          exact ⟨p.2, rfl, by simpa using this⟩
        · rename_i hq
          split at hne
          · rename_i p hp; exact absurd hp (hq p)
          · simp [elementNotFound] at hne
      obtain ⟨k, hk, hkl⟩ := this
      rw [hk, hwrap]
      have : IntTy.sizeT.wrap (k : Int) = k := by simp [IntTy.sizeT, IntTy.wrap]; omega
      rw [this]
      rw [if_pos (by omega)]
      rfl
  refine ⟨key, fun U hU => ?_⟩
  have hc := key.mp (by rw [hU]; rfl)
  have hT : U = T := by
    unfold getType at hU
    split at hU
    · exact (Option.some.inj hU).symm
    · simp at hU
  subst hT
  refine ⟨rfl, ?_⟩
  obtain ⟨i, hi⟩ := List.getElem?_of_mem (List.count_pos_iff.mp (by omega : 0 < Ts.count U))
  refine ⟨i, by rw [(C94_get i Ts).1]; exact hi, fun j hj => ?_⟩
  rw [(C94_get j Ts).1] at hj
  by_contra hne
  have h2 : ∀ a b : Nat, a < b → Ts[a]? = some U → Ts[b]? = some U → False := by
    intro a b hab ha hb
    have hbl : b < Ts.length := (List.getElem?_eq_some_iff.mp hb).1
    have hsplit : Ts = Ts.take b ++ Ts.drop b := (List.take_append_drop b Ts).symm
    have hcount : Ts.count U = (Ts.take b).count U + (Ts.drop b).count U := by
      conv_lhs => rw [hsplit]
      exact List.count_append
    have h3 : 0 < (Ts.take b).count U := by
      apply List.count_pos_iff.mpr
      apply List.mem_of_getElem? (i := a)
      rw [List.getElem?_take, if_pos hab]; exact ha
    have h4 : 0 < (Ts.drop b).count U := by
      apply List.count_pos_iff.mpr
      apply List.mem_of_getElem? (i := 0)
      rw [List.getElem?_drop]; simpa using hb
    omega
  rcases Nat.lt_or_gt_of_ne hne with h | h
  · exact h2 j i h hj hi
  · exact h2 i j h hi hj

example : getType 2 [1, 2, 3] = some 2 ∧ getType 2 [2, 1, 2] = none ∧ getType 4 [1, 2, 3] = none := by decide +kernel

private theorem deduceIdentities_map (Ts : List Ty) : deduceIdentities (Ts.map Arg.identity) = some Ts := by
  induction Ts with
  | nil => rfl
  | cons T Ts ih => simp only [List.map_cons, deduceIdentities]; rw [ih]; rfl

/-- C94: taking a type sequence apart and putting it together again gives the same sequence, with `make_type_sequence` as well as with class template
argument deduction; so does its value as a constval. -/
theorem C94_round_trip (Ts : List Ty) :
    ∃ es, elements Ts = some es ∧ makeTypeSequence (es.map .identity) = some Ts ∧ deduceSequence (es.map .identity) = some Ts ∧
      deduceSequence [.seq (callValue Ts)] = some Ts := by
  have he : elements Ts = some Ts := by
    unfold elements
    have h1 : (List.range (tupleSize Ts)).mapM (fun i => getAt i Ts) = (List.range (tupleSize Ts)).mapM (fun i => Ts[i]?) := by
      congr 1
      funext i
      exact (C94_get i Ts).1
    rw [h1]
    unfold tupleSize
    clear h1
    induction Ts using List.reverseRecOn with
    | nil => rfl
    | append_singleton Ts T ih =>
      rw [List.length_append, List.length_singleton, List.range_succ, List.mapM_append]
      have h2 : (List.range Ts.length).mapM (fun i => (Ts ++ [T])[i]?) = (List.range Ts.length).mapM (fun i => Ts[i]?) := by
        have : ∀ l : List Nat, (∀ i ∈ l, i < Ts.length) → l.mapM (fun i => (Ts ++ [T])[i]?) = l.mapM (fun i => Ts[i]?) := by
          intro l
          induction l with
          | nil => simp
          | cons a l ih => intro h; simp only [List.mapM_cons]; rw [ih (fun i hi => h i (by simp [hi])), List.getElem?_append_left (h a (by simp))]
        exact this _ (fun i hi => List.mem_range.mp hi)
      rw [h2, ih]
      simp
  have hm := deduceIdentities_map Ts
  refine ⟨Ts, he, hm, ?_, rfl⟩
  unfold deduceSequence
  split
  · rename_i Us h
    cases Ts with
    | nil => simp at h
    | cons T Ts => simp at h
  · exact hm

/-- C94: what `type_sequence(args...)` and `make_type_sequence(args...)` accept: `type_identity` objects; the former also copies one type sequence
(it is not nested).  `type_sequence<Ts...>` can be constructed from such arguments, and from none. -/
theorem C94_deduction [DecidableEq Ty] (as : List (Arg Ty)) (Ts : List Ty) :
    (makeTypeSequence as = some Ts ↔ as = Ts.map .identity) ∧
    (deduceSequence as = some Ts ↔ as = Ts.map .identity ∨ as = [.seq Ts]) ∧
    (constructibleFrom Ts as = true ↔ as = [] ∨ as = Ts.map .identity ∨ as = [.seq Ts]) := by
  have h1 : ∀ (as : List (Arg Ty)) (Ts : List Ty), deduceIdentities as = some Ts ↔ as = Ts.map .identity := by
    intro as
    induction as with
    | nil => intro Ts; cases Ts <;> simp [deduceIdentities]
    | cons a as ih =>
      intro Ts
      cases a with
      | identity T =>
        simp only [deduceIdentities, Option.map_eq_some_iff]
        constructor
        · rintro ⟨Us, h, rfl⟩; rw [(ih Us).mp h]; rfl
        · intro h
          cases Ts with
          | nil => simp at h
          | cons U Us =>
            simp only [List.map_cons, List.cons.injEq, Arg.identity.injEq] at h
            exact ⟨Us, (ih Us).mpr h.2, by rw [h.1]⟩
      | seq Us => cases Ts <;> simp [deduceIdentities]
      | other => cases Ts <;> simp [deduceIdentities]
  have h2 : deduceSequence as = some Ts ↔ as = Ts.map .identity ∨ as = [.seq Ts] := by
    unfold deduceSequence
    split
    · rename_i Us
      have : ([Arg.seq Us] : List (Arg Ty)) ≠ Ts.map .identity := by cases Ts <;> simp
      simp [this]
    · rename_i hne
      rw [h1]
      constructor
      · exact Or.inl
      · rintro (h | h)
        · exact h
        · exact absurd h (hne Ts)
  refine ⟨h1 as Ts, h2, ?_⟩
  unfold constructibleFrom
  split
  · simp
  · rename_i Us
    have : ([Arg.seq Us] : List (Arg Ty)) ≠ Ts.map .identity := by cases Ts <;> simp
    simp [this]
  · rename_i hne1 hne2
    rw [decide_eq_true_eq, h1]
    constructor
    · exact fun h => Or.inr (Or.inl h)
    · rintro (h | h | h)
      · exact absurd h hne1
      · exact h
      · exact absurd h (hne2 Ts)

example : deduceSequence ([.identity 3, .identity 1] : List (Arg Nat)) = some [3, 1] ∧ deduceSequence ([.seq [3, 1]] : List (Arg Nat)) = some [3, 1] ∧
    makeTypeSequence ([.seq [3, 1]] : List (Arg Nat)) = none ∧ deduceSequence ([.seq [3], .seq [1]] : List (Arg Nat)) = none := by decide

end Makeshift.Props
