import Mathlib.Data.List.Basic
import Mathlib.Data.List.Induction
import Verif.Spec.TupleAlgo
import Verif.Lemmas.Fill

namespace Makeshift

open Spec

variable {α β V S : Type}

theorem getElement_iff (i : Nat) (a : TArg α) (v : TVal α) : getElement i a = some v ↔ ReceivesAt i a v := by
  cases a with
  | tuple l =>
    simp only [getElement, Option.map_eq_some_iff]
    constructor
    · rintro ⟨x, hx, rfl⟩; exact .tuple hx
    · rintro (h | _ | _); exact ⟨_, h, rfl⟩
  | rangeIndex =>
    simp only [getElement, Option.some.injEq]
    constructor
    · rintro rfl; exact .rangeIndex
    · rintro (_ | _ | _); rfl
  | tupleIndex =>
    simp only [getElement, Option.some.injEq]
    constructor
    · rintro rfl; exact .tupleIndex
    · rintro (_ | _ | _); rfl

theorem getElements_iff (i : Nat) (args : List (TArg α)) (vs : List (TVal α)) :
    getElements i args = some vs ↔ List.Forall₂ (ReceivesAt i) args vs := by
  induction args generalizing vs with
  | nil => simp [getElements]
  | cons a as ih =>
    simp only [getElements, Option.bind_eq_some_iff, Option.map_eq_some_iff]
    constructor
    · rintro ⟨v, hv, ws, hws, rfl⟩
      exact .cons ((getElement_iff i a v).1 hv) ((ih ws).1 hws)
    · intro h
      cases h with
      | cons h1 h2 => exact ⟨_, (getElement_iff i a _).2 h1, _, (ih _).2 h2, rfl⟩

theorem templateForImpl_calls (func : Func α β S) (args : List (TArg α)) (calls : List (List (TVal α))) (k : Nat) (s : S)
    (h : ∀ i vs, calls[i]? = some vs → getElements (k + i) args = some vs) :
    templateForImpl func args (List.range' k calls.length) s = some (calls.foldl (fun s vs => (func vs s).2) s) := by
  induction calls generalizing k s with
  | nil => rfl
  | cons c cs ih =>
    have h0 := h 0 c rfl
    simp only [Nat.add_zero] at h0
    simp only [List.length_cons, List.range'_succ, templateForImpl, transformElement, h0, Option.map_some, Option.bind_some,
      List.foldl_cons]
    apply ih
    intro i vs hi
    have := h (i + 1) vs (by simpa using hi)
    rwa [show k + 1 + i = k + (i + 1) by omega]

theorem arrayTransformImpl_calls (func : Func α β S) (args : List (TArg α)) (calls : List (List (TVal α))) (k : Nat) (s : S)
    (h : ∀ i vs, calls[i]? = some vs → getElements (k + i) args = some vs) :
    arrayTransformImpl func args (List.range' k calls.length) s = some (mapCalls func calls s) := by
  induction calls generalizing k s with
  | nil => rfl
  | cons c cs ih =>
    have h0 := h 0 c rfl
    simp only [Nat.add_zero] at h0
    simp only [List.length_cons, List.range'_succ, arrayTransformImpl, transformElement, h0, Option.map_some, Option.bind_some,
      mapCalls]
    rw [ih]
    · rfl
    · intro i vs hi
      have := h (i + 1) vs (by simpa using hi)
      rwa [show k + 1 + i = k + (i + 1) by omega]

theorem evalCalls_calls (func : Func α β S) (args : List (TArg α)) (order : List Nat) (cs : List (List (TVal α))) (s : S)
    (h : List.Forall₂ (fun i vs => getElements i args = some vs) order cs) :
    evalCalls func args order s = some (order.zip (mapCalls func cs s).1, (mapCalls func cs s).2) := by
  induction h generalizing s with
  | nil => rfl
  | cons h _ ih =>
    simp only [evalCalls, transformElement, h, Option.map_some, Option.bind_some, mapCalls, ih, List.zip_cons_cons]

theorem mapCalls_length (func : Func α β S) (cs : List (List (TVal α))) (s : S) : (mapCalls func cs s).1.length = cs.length := by
  induction cs generalizing s with
  | nil => rfl
  | cons c cs ih => simp [mapCalls, ih]

theorem lookup_zip (order : List Nat) (rs : List β) (hnd : order.Nodup) (hlen : rs.length = order.length) (j i : Nat)
    (hj : order[j]? = some i) : (order.zip rs).lookup i = rs[j]? := by
  induction order generalizing rs j with
  | nil => simp at hj
  | cons o os ih =>
    cases rs with
    | nil => simp at hlen
    | cons r rs =>
      simp only [List.nodup_cons] at hnd
      cases j with
      | zero =>
        simp only [List.getElem?_cons_zero, Option.some.injEq] at hj
        subst hj
        simp
      | succ j =>
        simp only [List.getElem?_cons_succ] at hj ⊢
        have hne : (i == o) = false := by
          simp only [beq_eq_false_iff_ne]
          rintro rfl
          exact hnd.1 (List.mem_of_getElem? hj)
        simp only [List.zip_cons_cons, List.lookup_cons, hne]
        exact ih rs hnd.2 (by simpa using hlen) j hj

theorem mapM_some_of_forall {γ δ : Type} (f : γ → Option δ) (l : List γ) (h : ∀ x ∈ l, ∃ y, f x = some y) :
    ∃ out, l.mapM f = some out ∧ out.length = l.length ∧ ∀ (i : Nat) (x : γ), l[i]? = some x → out[i]? = f x := by
  induction l with
  | nil => exact ⟨[], rfl, rfl, by simp⟩
  | cons a l ih =>
    obtain ⟨y, hy⟩ := h a (by simp)
    obtain ⟨out, ho, hl, hi⟩ := ih (fun x hx => h x (by simp [hx]))
    refine ⟨y :: out, by simp [List.mapM_cons, hy, ho], by simp [hl], ?_⟩
    intro i x hx
    cases i with
    | zero => simp only [List.getElem?_cons_zero, Option.some.injEq] at hx ⊢; rw [← hx, hy]
    | succ i => simpa using hi i x (by simpa using hx)

theorem equalSizes0_false (n : Int) (sizes : List Int) (hs : ∀ s ∈ sizes, -1 ≤ s) (hn : -1 ≤ n) :
    ((equalSizes0 false n sizes).1 = true ↔ ∃ m : Int, (n = -1 ∨ n = m) ∧ ∀ s ∈ sizes, s = -1 ∨ s = m) ∧
    (∀ m : Int, (equalSizes0 false n sizes).1 = true →
      ((equalSizes0 false n sizes).2 = m ∧ m ≠ -1 ↔ m ≠ -1 ∧ (n = m ∨ (n = -1 ∧ m ∈ sizes)) ∧ ∀ s ∈ sizes, s = -1 ∨ s = m)) ∧
    ((equalSizes0 false n sizes).1 = true → (equalSizes0 false n sizes).2 = -1 →
      n = -1 ∧ ∀ s ∈ sizes, s = -1) := by
  induction sizes generalizing n with
  | nil =>
    refine ⟨⟨fun _ => ⟨n, by simp⟩, fun _ => rfl⟩, ?_, ?_⟩
    · intro m _; simp [equalSizes0, and_comm]
    · intro _ h; exact ⟨h, by simp⟩
  | cons s ss ih =>
    have hs1 := hs s (by simp)
    have hss : ∀ s ∈ ss, -1 ≤ s := fun x hx => hs x (by simp [hx])
    simp only [equalSizes0]
    by_cases hmis : n ≠ -1 ∧ s ≠ -1 ∧ n ≠ s
    · have hb : (decide (n ≠ -1) && decide (s ≠ -1) && decide (n ≠ s)) = true := by simp [hmis.1, hmis.2.1, hmis.2.2]
      rw [hb]
      simp only [equalSizes0, Bool.false_eq_true, false_iff, false_implies, implies_true, and_true]
      rintro ⟨m, h1, h2⟩
      have := h2 s (by simp)
      omega
    · have hb : (decide (n ≠ -1) && decide (s ≠ -1) && decide (n ≠ s)) = false := by
        by_contra hc
        simp only [Bool.not_eq_false, Bool.and_eq_true, decide_eq_true_eq] at hc
        exact hmis ⟨hc.1.1, hc.1.2, hc.2⟩
      rw [hb]
      obtain ⟨i1, i2, i3⟩ := ih (if n ≠ -1 then n else s) hss (by split <;> omega)
      refine ⟨?_, ?_, ?_⟩
      · rw [i1]
        constructor
        · rintro ⟨m, h1, h2⟩
          by_cases hn1 : n = -1
          · simp only [hn1, ne_eq, not_true_eq_false, if_false] at h1
            exact ⟨m, .inl hn1, by simpa using ⟨h1, h2⟩⟩
          · simp only [ne_eq, hn1, not_false_eq_true, if_true, false_or] at h1
            refine ⟨m, .inr h1, ?_⟩
            simp only [List.mem_cons, forall_eq_or_imp]
            exact ⟨by clear h2 i1 i2 i3 ih hss hs; omega, h2⟩
        · rintro ⟨m, h1, h2⟩
          simp only [List.mem_cons, forall_eq_or_imp] at h2
          refine ⟨m, ?_, h2.2⟩
          split <;> omega
      · intro m ht
        rw [i2 m ht]
        simp only [List.mem_cons, forall_eq_or_imp]
        by_cases hn1 : n = -1
        · simp only [hn1, ne_eq, not_true_eq_false, if_false, true_and]
          constructor
          · rintro ⟨h0, h1, h2⟩
            refine ⟨h0, .inr ?_, ?_, h2⟩
            · rcases h1 with h1 | h1
              · exact .inl h1.symm
              · exact .inr h1.2
            · rcases h1 with h1 | h1
              · exact .inr h1
              · exact .inl h1.1
          · rintro ⟨h0, h1, h2, h3⟩
            refine ⟨h0, ?_, h3⟩
            rcases h1 with h1 | h1 | h1
            · exact absurd h1.symm h0
            · exact .inl h1.symm
            · rcases h2 with h2 | h2
              · exact .inr ⟨h2, h1⟩
              · exact .inl h2
        · simp only [ne_eq, hn1, not_false_eq_true, if_true, false_and, or_false]
          constructor
          · rintro ⟨h0, h1, h2⟩
            have h3 : s = -1 ∨ s = m := by clear h2 i1 i2 i3 ih hss hs; omega
            exact ⟨h0, h1, h3, h2⟩
          · rintro ⟨h0, h1, _, h2⟩
            exact ⟨h0, h1, h2⟩
      · intro ht h
        obtain ⟨j1, j2⟩ := i3 ht h
        by_cases hn1 : n = -1
        · simp only [hn1, ne_eq, not_true_eq_false, if_false] at j1
          refine ⟨hn1, ?_⟩
          simp only [List.mem_cons, forall_eq_or_imp]
          exact ⟨j1, j2⟩
        · simp only [ne_eq, hn1, not_false_eq_true, if_true] at j1

theorem maybeSize_ge (args : List (TArg α)) : ∀ s ∈ args.map TArg.maybeSize, -1 ≤ s := by
  intro s hs
  simp only [List.mem_map] at hs
  obtain ⟨a, _, rfl⟩ := hs
  cases a <;> simp [TArg.maybeSize]

theorem sizes_all_iff (args : List (TArg α)) (m : Nat) :
    (∀ s ∈ args.map TArg.maybeSize, s = -1 ∨ s = (m : Int)) ↔ AllSize m args := by
  simp only [List.mem_map, forall_exists_index, and_imp, forall_apply_eq_imp_iff₂, AllSize]
  constructor
  · intro h l hl
    have := h _ hl
    simp only [TArg.maybeSize] at this
    omega
  · intro h a ha
    cases a with
    | tuple l => have := h l ha; simp only [TArg.maybeSize]; omega
    | _ => exact .inl rfl

theorem sizes_any_iff (args : List (TArg α)) : (∀ s ∈ args.map TArg.maybeSize, s = -1) ↔ ¬ HasTuple args := by
  simp only [List.mem_map, forall_exists_index, and_imp, forall_apply_eq_imp_iff₂, HasTuple, not_exists]
  constructor
  · intro h l hl
    have := h _ hl
    simp only [TArg.maybeSize] at this
    omega
  · intro h a ha
    cases a with
    | tuple l => exact absurd ha (h l)
    | _ => rfl

theorem mem_sizes_iff (args : List (TArg α)) (m : Nat) :
    (m : Int) ∈ args.map TArg.maybeSize ↔ ∃ l, TArg.tuple l ∈ args ∧ l.length = m := by
  simp only [List.mem_map]
  constructor
  · rintro ⟨a, ha, he⟩
    cases a with
    | tuple l => exact ⟨l, ha, by simp only [TArg.maybeSize] at he; omega⟩
    | _ => simp only [TArg.maybeSize] at he; omega
  · rintro ⟨l, hl, he⟩
    exact ⟨_, hl, by simp [TArg.maybeSize, he]⟩

theorem equalSizes_fst (args : List (TArg α)) : (equalSizes (args.map TArg.maybeSize)).1 = true ↔ ∃ m, AllSize m args := by
  unfold equalSizes
  rw [(equalSizes0_false (-1) _ (maybeSize_ge args) (by omega)).1]
  constructor
  · rintro ⟨m, _, h⟩
    by_cases hm : 0 ≤ m
    · refine ⟨m.toNat, (sizes_all_iff args _).1 ?_⟩
      rwa [Int.toNat_of_nonneg hm]
    · refine ⟨0, fun l hl => ?_⟩
      have := h l.length (List.mem_map.2 ⟨_, hl, rfl⟩)
      omega
  · rintro ⟨m, h⟩
    exact ⟨m, .inl rfl, (sizes_all_iff args m).2 h⟩

theorem equalSizes_snd (args : List (TArg α)) (m : Nat) (ht : HasTuple args) (h : AllSize m args) :
    equalSizes (args.map TArg.maybeSize) = (true, (m : Int)) := by
  have h1 : (equalSizes (args.map TArg.maybeSize)).1 = true := (equalSizes_fst args).2 ⟨m, h⟩
  obtain ⟨l, hl⟩ := ht
  have h2 := ((equalSizes0_false (-1) _ (maybeSize_ge args) (by omega)).2.1 m h1).2
    ⟨by omega, .inr ⟨rfl, (mem_sizes_iff args m).2 ⟨l, hl, h l hl⟩⟩, (sizes_all_iff args m).2 h⟩
  exact Prod.ext h1 h2.1

theorem equalSizes_none (args : List (TArg α)) (ht : ¬ HasTuple args) : equalSizes (args.map TArg.maybeSize) = (true, -1) := by
  have hs := (sizes_any_iff args).2 ht
  have h1 : (equalSizes (args.map TArg.maybeSize)).1 = true :=
    (equalSizes_fst args).2 ⟨0, fun l hl => absurd ⟨l, hl⟩ ht⟩
  refine Prod.ext h1 ?_
  show (equalSizes0 false (-1) (args.map TArg.maybeSize)).2 = -1
  by_contra hc
  have h2 := ((equalSizes0_false (-1) _ (maybeSize_ge args) (by omega)).2.1 _ h1).1 ⟨rfl, hc⟩
  rcases h2.2.1 with h3 | h3
  · exact hc h3.symm
  · exact hc (hs _ h3.2)

theorem tupleTransformSize_of_agree (n : Int) (args : List (TArg α)) (m : Nat) (h : AllSize m args)
    (hn : (n = -1 ∧ HasTuple args) ∨ n = m) : tupleTransformSize n args = some m := by
  have h1 := (equalSizes_fst args).2 ⟨m, h⟩
  unfold tupleTransformSize
  rcases hn with ⟨rfl, ht⟩ | rfl
  · have h2 := equalSizes_snd args m ht h
    simp only [h2]
    rw [if_pos ⟨trivial, .inr (.inl (by omega)), .inr (by omega)⟩]
    simp
  · have hne : (m : Int) ≠ -1 := by omega
    simp only [h1]
    rw [if_pos ⟨trivial, .inl hne, .inl hne⟩]
    simp [hne]

theorem getElements_of_callArgs {args : List (TArg α)} {calls : List (List (TVal α))} (h : CallArgs args calls) (i : Nat)
    (vs : List (TVal α)) (hi : calls[i]? = some vs) : getElements i args = some vs :=
  (getElements_iff i args vs).2 (h i vs hi)

theorem transformReduceFn_left (size : Nat) (reduce : V → β → S → V × S) (transform : Func α β S) (args : List (TArg α))
    (calls : List (List (TVal α))) (k : Nat) (hk : size = k + calls.length) (v : V) (s : S)
    (h : ∀ i vs, calls[i]? = some vs → getElements (k + i) args = some vs) :
    transformReduceFn true size reduce transform args calls.length v s =
      some (calls.foldl (fun r vs => reduce r.1 (transform vs r.2).1 (transform vs r.2).2) (v, s)) := by
  induction calls generalizing k v s with
  | nil => rfl
  | cons c cs ih =>
    have h0 := h 0 c rfl
    simp only [List.length_cons] at hk
    have hi : size - (cs.length + 1) = k + 0 := by omega
    simp only [List.length_cons, transformReduceFn, hi, if_true, transformElement, h0, Option.map_some, Option.bind_some,
      List.foldl_cons]
    apply ih (k + 1) (by omega)
    intro i vs hi
    have := h (i + 1) vs (by simpa using hi)
    rwa [show k + 1 + i = k + (i + 1) by omega]

theorem transformReduceFn_right (size : Nat) (reduce : V → β → S → V × S) (transform : Func α β S) (args : List (TArg α))
    (calls : List (List (TVal α))) (hk : calls.length ≤ size) (v : V) (s : S)
    (h : ∀ i vs, calls[i]? = some vs → getElements i args = some vs) :
    transformReduceFn false size reduce transform args calls.length v s =
      some (calls.reverse.foldl (fun r vs => reduce r.1 (transform vs r.2).1 (transform vs r.2).2) (v, s)) := by
  induction calls using List.reverseRecOn generalizing v s with
  | nil => rfl
  | append_singleton cs c ih =>
    have h0 := h cs.length c (by simp)
    simp only [List.length_append, List.length_singleton] at hk
    have hi : size - 1 - (size - (cs.length + 1)) = cs.length := by omega
    simp only [List.length_append, List.length_singleton, transformReduceFn, hi, Bool.false_eq_true, if_false, transformElement,
      h0, Option.map_some, Option.bind_some, List.reverse_append, List.reverse_singleton, List.singleton_append, List.foldl_cons]
    apply ih (by omega)
    intro i vs hi
    apply h i vs
    rw [List.getElem?_append_left]
    · exact hi
    · exact (List.getElem?_eq_some_iff.1 hi).1

theorem conjunctionFn_calls (size : Nat) (pred : Bool → Bool) (p : List (TVal α) → Bool) (upd : List (TVal α) → S → S)
    (args : List (TArg α)) (calls : List (List (TVal α))) (k : Nat) (hk : size = k + calls.length) (s : S)
    (h : ∀ i vs, calls[i]? = some vs → getElements (k + i) args = some vs) :
    conjunctionFn size pred (fun vs s => (p vs, upd vs s)) args calls.length s =
      some (calls.all fun vs => pred (p vs), (throughFirst (fun vs => !pred (p vs)) calls).foldl (fun s vs => upd vs s) s) := by
  induction calls generalizing k s with
  | nil => rfl
  | cons c cs ih =>
    have h0 := h 0 c rfl
    simp only [List.length_cons] at hk
    have hi : size - (cs.length + 1) = k + 0 := by omega
    simp only [List.length_cons, conjunctionFn, hi, transformElement, h0, Option.map_some, Option.bind_some, List.all_cons,
      throughFirst]
    by_cases hp : pred (p c) = false
    · simp [hp]
    · simp only [Bool.not_eq_false] at hp
      simp only [hp, Bool.not_true, Bool.false_eq_true, if_false, Bool.true_and, List.foldl_cons]
      apply ih (k + 1) (by omega)
      intro i vs hi
      have := h (i + 1) vs (by simpa using hi)
      rwa [show k + 1 + i = k + (i + 1) by omega]

theorem cadd_eq (l : List Nat) : cadd l = l.sum := by
  induction l with
  | nil => rfl
  | cons a l ih => simp [cadd, ih]

theorem rowCol_spec (ts : List (List α)) (r0 i : Nat) (hi : i < ts.flatten.length) :
    ∃ r c t a, rowCol (ts.map List.length) r0 i = some (r0 + r, c) ∧ ts[r]? = some t ∧ t[c]? = some a ∧
      ts.flatten[i]? = some a := by
  induction ts generalizing r0 i with
  | nil => simp at hi
  | cons t ts ih =>
    simp only [List.map_cons, rowCol, List.flatten_cons, List.length_append] at hi ⊢
    by_cases h : i ≥ t.length
    · rw [if_pos h]
      obtain ⟨r, c, t', a, h1, h2, h3, h4⟩ := ih (r0 + 1) (i - t.length) (by omega)
      refine ⟨r + 1, c, t', a, ?_, by simpa using h2, h3, ?_⟩
      · rw [h1, show r0 + 1 + r = r0 + (r + 1) by omega]
      · rw [List.getElem?_append_right h]; exact h4
    · rw [if_neg h]
      have h' : i < t.length := by omega
      exact ⟨0, i, t, t[i], rfl, rfl, List.getElem?_eq_getElem h', by
        rw [List.getElem?_append_left h', List.getElem?_eq_getElem h']⟩

theorem catElement_eq (ts : List (List α)) (i : Nat) (hi : i < ts.flatten.length) : catElement ts i = ts.flatten[i]? := by
  obtain ⟨r, c, t, a, h1, h2, h3, h4⟩ := rowCol_spec ts 0 i hi
  simp only [Nat.zero_add] at h1
  simp [catElement, h1, h2, h3, h4]

theorem valueTupleLtLoop_iff (lt : α → α → Bool) (lhs rhs : List α) :
    valueTupleLtLoop lt false lhs rhs = true ↔ LexLt lt lhs rhs := by
  induction lhs generalizing rhs with
  | nil => simp [valueTupleLtLoop, LexLt]
  | cons a as ih =>
    cases rhs with
    | nil => simp [valueTupleLtLoop, LexLt]
    | cons b bs =>
      simp only [valueTupleLtLoop]
      by_cases h1 : lt a b = true
      · rw [if_pos h1]
        exact ⟨fun _ => ⟨0, a, b, rfl, rfl, h1, by simp⟩, fun _ => rfl⟩
      · rw [if_neg h1]
        by_cases h2 : lt b a = true
        · rw [if_pos h2]
          simp only [Bool.false_eq_true, false_iff]
          rintro ⟨k, x, y, hx, hy, hlt, hpre⟩
          cases k with
          | zero =>
            simp only [List.getElem?_cons_zero, Option.some.injEq] at hx hy
            subst hx hy
            exact h1 hlt
          | succ k =>
            have := (hpre 0 (by omega) a b rfl rfl).2
            rw [h2] at this
            cases this
        · rw [if_neg h2, ih]
          simp only [Bool.not_eq_true] at h1 h2
          constructor
          · rintro ⟨k, x, y, hx, hy, hlt, hpre⟩
            refine ⟨k + 1, x, y, by simpa using hx, by simpa using hy, hlt, ?_⟩
            intro j hj u v hu hv
            cases j with
            | zero =>
              simp only [List.getElem?_cons_zero, Option.some.injEq] at hu hv
              subst hu hv
              exact ⟨h1, h2⟩
            | succ j => exact hpre j (by omega) u v (by simpa using hu) (by simpa using hv)
          · rintro ⟨k, x, y, hx, hy, hlt, hpre⟩
            cases k with
            | zero =>
              simp only [List.getElem?_cons_zero, Option.some.injEq] at hx hy
              subst hx hy
              rw [h1] at hlt
              cases hlt
            | succ k =>
              refine ⟨k, x, y, by simpa using hx, by simpa using hy, hlt, ?_⟩
              intro j hj u v hu hv
              exact hpre (j + 1) (by omega) u v (by simpa using hu) (by simpa using hv)

theorem arrayIota_eq_rangeIota (inc : α → Outcome α) (l : List α) (v : α) :
    arrayIota inc l.length v = rangeIota inc id l v := by
  induction l generalizing v with
  | nil => rfl
  | cons a l ih => simp only [List.length_cons, arrayIota, rangeIota, ih, id]

end Makeshift
