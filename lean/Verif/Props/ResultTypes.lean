import Verif.Spec.ResultTypes
import Verif.Props.TupleAlgo
import Verif.Lemmas.TypeTraits

/-!
# Result types of the tuple and array algorithms: C76
-/

namespace Makeshift.Props

open Makeshift Spec ResultTypes

/-- The type of an element of an array of `e` which is forwarded with the given qualification. -/
def elementRef (e : Base) (a : Arg) : CTy := ⟨e, a.isConst, if a.lvalue then .lvalue else .rvalue⟩

/-- The argument is an array of non-`const` elements of type `e`, and not a `const` rvalue. -/
def PlainArray (a : Arg) (e : Base) : Prop := (∃ k, a.kind = .array e false k) ∧ (a.isConst = true → a.lvalue = true)

private theorem plain_homogeneous {args : List Arg} {es : List Base} (h : List.Forall₂ PlainArray args es) :
    args.all isHomogeneousArg = true ∧ homogeneousArgTypes args = some (List.zipWith elementRef es args) := by
  induction h with
  | nil => exact ⟨rfl, rfl⟩
  | cons h1 _ ih =>
    obtain ⟨⟨k, hk⟩, hc⟩ := h1
    obtain ⟨i1, i2⟩ := ih
    constructor
    · rw [List.all_cons, i1, Bool.and_true]; simp [isHomogeneousArg, hk]
    · simp only [homogeneousArgTypes, homogeneousArgType, hk, i2, Option.bind_some, Option.map_some, List.zipWith_cons_cons]
      congr 2
      unfold transferRef elementRef
      rename_i a _ _ _ _
      cases hl : a.lvalue <;> cases hcc : a.isConst <;> simp_all

private theorem plain_elements {args : List Arg} {es : List Base} (h : List.Forall₂ PlainArray args es) {m : Nat}
    (hm : AllSize m (args.map Arg.sizeOnly)) {i : Nat} (hi : i < m) : getElementTypes i args = some (List.zipWith elementRef es args) := by
  induction h with
  | nil => rfl
  | cons h1 _ ih =>
    obtain ⟨⟨k, hk⟩, hc⟩ := h1
    have hkm : k = m := by
      have := hm (List.replicate k ()) (by simp [Arg.sizeOnly, hk])
      simpa using this
    have := ih fun l hl => hm l (List.mem_cons_of_mem _ hl)
    simp only [getElementTypes, getElementType, hk, this, hkm, hi, if_true, Option.bind_some, Option.map_some, List.zipWith_cons_cons]
    congr 2
    simp [qualify, elementRef]

private theorem initAll_iff (conv : Base → Base → Bool) (f : Fn) (args : List Arg) (R : CTy) (n : Nat) :
    initAll conv f args R n = true ↔ ∀ i < n, ∃ r, resultType false f args i = some r ∧ initialises conv r R = true := by
  simp only [initAll, List.all_eq_true, List.mem_range]
  refine forall₂_congr fun i _ => ?_
  cases resultType false f args i <;> simp

/-- C76 (partial): for arrays, the element type of the result is the decayed result type of the functor, if that is an object type.
Missing: arguments which are not arrays of non-`const` elements or are `const` rvalues; functors passed as rvalues whose result type
depends on it. -/
theorem C76_element_type_partial (conv : Base → Base → Bool) (n : Int) (f : Fn) (args : List Arg) (es : List Base) (m : Nat)
    (h : List.Forall₂ PlainArray args es) (hm : AllSize m (args.map Arg.sizeOnly))
    (hn : (n = -1 ∧ HasTuple (args.map Arg.sizeOnly)) ∨ n = m) (R : CTy) (m' : Nat) :
    arrayTransformType conv n false f args = some (R, m') ↔
      m' = m ∧ ∃ r, f.call false (List.zipWith elementRef es args) = some r ∧ r.base ≠ .void ∧ R = ⟨r.base, false, .none⟩ := by
  obtain ⟨h1, h2⟩ := plain_homogeneous h
  unfold arrayTransformType
  rw [tupleTransformSize_of_agree n _ m hm hn, Option.bind_some, if_pos h1]
  unfold homogeneousResult
  rw [h2, Option.bind_some]
  cases hc : f.call false (List.zipWith elementRef es args) with
  | none => simp
  | some r =>
    have hr : ∀ i < m, resultType false f args i = some r := by
      intro i hi
      unfold resultType
      rw [plain_elements h hm hi, Option.bind_some, hc]
    simp only [Option.map_some, Option.bind_some, CTy.decay]
    by_cases hv : r.base = .void
    · simp [isObject, hv]
    · have : (isObject ⟨r.base, false, .none⟩ && initAll conv f args ⟨r.base, false, .none⟩ m) = true := by
        rw [Bool.and_eq_true, initAll_iff]
        refine ⟨by simp [isObject, hv], fun i hi => ⟨r, hr i hi, by simp [initialises, hv]⟩⟩
      rw [if_pos this]
      constructor
      · rintro ⟨⟩; exact ⟨rfl, r, rfl, hv, rfl⟩
      · rintro ⟨rfl, r', h3, _, rfl⟩; cases h3; rfl

private theorem not_homogeneous {args : List Arg} (h : HasTupleArg args) : ¬args.all isHomogeneousArg = true := by
  obtain ⟨a, ha, hh⟩ := h
  have hh : isHomogeneousArg a = false := by
    rcases hh with ⟨es, h⟩ | h <;> simp [isHomogeneousArg, h]
  rw [List.all_eq_true]
  intro hc
  rw [hc a ha] at hh; cases hh

private theorem mapM_iff {γ δ : Type} {g : γ → Option δ} {l : List γ} {out : List δ} :
    l.mapM g = some out ↔ List.Forall₂ (fun a b => g a = some b) l out := by
  induction l generalizing out with
  | nil => simp [eq_comm]
  | cons a l ih =>
    rw [List.mapM_cons]
    cases hg : g a with
    | none => simp [List.forall₂_cons_left_iff, hg]
    | some b =>
      simp only [Option.bind_eq_bind, Option.bind_some, Option.bind_eq_some_iff, List.forall₂_cons_left_iff, hg, ih]
      constructor
      · rintro ⟨l', h1, ⟨⟩⟩; exact ⟨b, l', rfl, h1, rfl⟩
      · rintro ⟨b', l', ⟨⟩, h1, rfl⟩; exact ⟨l', h1, rfl⟩

private theorem mapM_range_iff {δ : Type} {g : Nat → Option δ} {n : Nat} {out : List δ} :
    (List.range n).mapM g = some out ↔ out.length = n ∧ ∀ i < n, g i = out[i]? := by
  rw [mapM_iff, List.forall₂_iff_get]
  constructor
  · rintro ⟨h1, h2⟩
    rw [List.length_range] at h1
    refine ⟨h1.symm, fun i hi => ?_⟩
    have := h2 i (by simpa using hi) (by omega)
    simp at this
    rw [this, List.getElem?_eq_getElem (by omega)]
  · rintro ⟨h1, h2⟩
    refine ⟨by simp [h1], fun i hi hi' => ?_⟩
    simp
    rw [h2 i (by omega), List.getElem?_eq_getElem hi']

private theorem check_iff {n : Nat} {frv : Bool} {f : Fn} {args : List Arg} {R : CTy} :
    checkHomogeneousResult n frv f args = some R ↔ n ≠ 0 ∧ ∀ i < n, resultType frv f args i = some R := by
  unfold checkHomogeneousResult
  rw [Option.bind_eq_some_iff]
  constructor
  · rintro ⟨l, h1, h2⟩
    obtain ⟨h3, h4⟩ := (equalTypes_spec l R).mp h2
    obtain ⟨hl, h1⟩ := mapM_range_iff.mp h1
    refine ⟨fun hn => h3 (List.length_eq_zero_iff.mp (by omega)), fun i hi => ?_⟩
    rw [h1 i hi, List.getElem?_eq_getElem (by omega), h4 _ (List.getElem_mem _)]
  · rintro ⟨h1, h2⟩
    refine ⟨List.replicate n R, mapM_range_iff.mpr ⟨by simp, fun i hi => by simp [h2 i hi, hi]⟩,
      (equalTypes_spec _ _).mpr ⟨?_, fun U hU => List.eq_of_mem_replicate hU⟩⟩
    intro h; exact h1 (by simpa using congrArg List.length h)

private theorem element_iff (i : Nat) (a : Arg) (t : CTy) : getElementType i a = some t ↔ Element i a t := by
  obtain ⟨k, c, lv⟩ := a
  constructor
  · intro h
    cases k with
    | array e ec n =>
      simp only [getElementType] at h
      split at h
      · rename_i hi
        cases h
        have := Element.array (e := e) (c := ec) (k := c) (lv := lv) hi
        cases lv <;> exact this
      · cases h
    | tuple es =>
      simp only [getElementType, Option.map_eq_some_iff] at h
      obtain ⟨⟨e, ec, r⟩, h1, rfl⟩ := h
      cases r with
      | none =>
        have := Element.object (k := c) (lv := lv) h1
        cases lv <;> exact this
      | lvalue => simp only [qualify, beq_self_eq_true, Bool.or_true, if_true]; exact .lvalueRef h1
      | rvalue =>
        have := Element.rvalueRef (k := c) (lv := lv) h1
        cases lv <;> exact this
    | rangeIndex => cases h; exact .rangeIndex
    | tupleIndex => cases h; exact .tupleIndex
  · intro h
    cases h with
    | array hi => simp [getElementType, hi, qualify, refOf]
    | object h1 => simp [getElementType, h1, qualify, refOf]
    | lvalueRef h1 => simp [getElementType, h1, qualify]
    | rvalueRef h1 => simp [getElementType, h1, qualify, refOf]
    | rangeIndex => rfl
    | tupleIndex => rfl

private theorem getElementTypes_iff (i : Nat) (args : List Arg) (ts : List CTy) :
    getElementTypes i args = some ts ↔ List.Forall₂ (Element i) args ts := by
  induction args generalizing ts with
  | nil => simp [getElementTypes, eq_comm]
  | cons a as ih =>
    simp only [getElementTypes, Option.bind_eq_some_iff, Option.map_eq_some_iff, List.forall₂_cons_left_iff, ih, element_iff]
    constructor
    · rintro ⟨t, h1, ts', h2, rfl⟩; exact ⟨t, ts', h1, h2, rfl⟩
    · rintro ⟨t, ts', h1, h2, rfl⟩; exact ⟨t, h1, ts', h2, rfl⟩

/-- C76: if some argument is not an array (nor `range_index`), the undecayed result types of the functor must be one and the same object
type for all elements, and there must be an element; only then does the call compile. -/
theorem C76_tuple_args (conv : Base → Base → Bool) (n : Int) (f : Fn) (args : List Arg) (m : Nat)
    (h : HasTupleArg args) (hm : AllSize m (args.map Arg.sizeOnly))
    (hn : (n = -1 ∧ HasTuple (args.map Arg.sizeOnly)) ∨ n = m) (R : CTy) (m' : Nat) :
    arrayTransformType conv n false f args = some (R, m') ↔
      m' = m ∧ m ≠ 0 ∧ R.ref = .none ∧ R.base ≠ .void ∧
        ∀ i < m, ∃ ts, List.Forall₂ (Element i) args ts ∧ f.call false ts = some R := by
  have hres : ∀ i R, resultType false f args i = some R ↔
      ∃ ts, List.Forall₂ (Element i) args ts ∧ f.call false ts = some R := by
    intro i R
    unfold resultType
    rw [Option.bind_eq_some_iff]
    simp only [getElementTypes_iff]
  simp only [← hres]
  unfold arrayTransformType
  rw [tupleTransformSize_of_agree n _ m hm hn, Option.bind_some, if_neg (not_homogeneous h)]
  by_cases h0 : m = 0
  · simp [h0]
  · rw [if_neg h0, Option.bind_eq_some_iff]
    constructor
    · rintro ⟨R', h1, h2⟩
      obtain ⟨h3, h4⟩ := check_iff.mp h1
      split at h2
      · rename_i h5
        cases h2
        simp [isObject] at h5
        exact ⟨rfl, h0, h5.1.1, h5.1.2, h4⟩
      · cases h2
    · rintro ⟨rfl, _, h1, h2, h3⟩
      refine ⟨R, check_iff.mpr ⟨h0, h3⟩, if_pos ?_⟩
      rw [Bool.and_eq_true, initAll_iff]
      refine ⟨by simp [isObject, h1, h2], fun i hi => ⟨R, h3 i hi, by simp [initialises, h2]⟩⟩

/-- C76 is false: whatever the functor, if it returns a reference for some element of the arguments, and not all arguments are arrays,
the call does not compile. -/
theorem C76_reference_results (conv : Base → Base → Bool) (n : Int) (f : Fn) (args : List Arg) (m : Nat)
    (h : HasTupleArg args) (hm : AllSize m (args.map Arg.sizeOnly))
    (hn : (n = -1 ∧ HasTuple (args.map Arg.sizeOnly)) ∨ n = m) (i : Nat) (hi : i < m) (ts : List CTy) (r : CTy)
    (hts : List.Forall₂ (Element i) args ts) (hr : f.call false ts = some r) (href : r.ref ≠ .none) :
    arrayTransformType conv n false f args = none := by
  rw [Option.eq_none_iff_forall_ne_some]
  rintro ⟨R, m'⟩ hsome
  obtain ⟨_, _, h1, _, h2⟩ := (C76_tuple_args conv n f args m h hm hn R m').mp hsome
  obtain ⟨ts', h3, h4⟩ := h2 i hi
  have : ts' = ts := by
    clear hr h4 h2 hsome h hm hn
    induction hts generalizing ts' with
    | nil => cases h3; rfl
    | cons h5 _ ih =>
      cases h3 with
      | cons h6 h7 =>
        rw [← element_iff] at h5 h6
        rw [h5] at h6; cases h6; rw [ih _ h7]
  subst this
  rw [hr] at h4; cases h4; exact href h1

/-- C76: with an empty `std::tuple` argument it does not compile either, whatever the functor. -/
theorem C76_empty_tuple (conv : Base → Base → Bool) (n : Int) (f : Fn) (args : List Arg)
    (h : HasTupleArg args) (hm : AllSize 0 (args.map Arg.sizeOnly))
    (hn : (n = -1 ∧ HasTuple (args.map Arg.sizeOnly)) ∨ n = 0) :
    arrayTransformType conv n false f args = none := by
  rw [Option.eq_none_iff_forall_ne_some]
  rintro ⟨R, m'⟩ hsome
  exact ((C76_tuple_args conv n f args 0 h hm (by simpa using hn) R m').mp hsome).2.1 rfl

/-- C76: with an explicit element type, the call compiles iff the functor can be called for each index and each result initialises
an element, that is, has this type up to qualification or an implicit conversion to it which is not narrowing. -/
theorem C76_explicit_type (conv : Base → Base → Bool) (n : Int) (T : CTy) (f : Fn) (args : List Arg) (m : Nat)
    (hm : AllSize m (args.map Arg.sizeOnly)) (hn : (n = -1 ∧ HasTuple (args.map Arg.sizeOnly)) ∨ n = m) (R : CTy) (m' : Nat) :
    arrayTransformToType conv n T f args = some (R, m') ↔
      R = T ∧ m' = m ∧ T.ref = .none ∧ T.base ≠ .void ∧
        ∀ i < m, ∃ ts r, List.Forall₂ (Element i) args ts ∧ f.call false ts = some r ∧ r.base ≠ .void ∧
          (r.base = T.base ∨ conv r.base T.base = true) := by
  have hres : ∀ i r, resultType false f args i = some r ↔
      ∃ ts, List.Forall₂ (Element i) args ts ∧ f.call false ts = some r := by
    intro i R
    unfold resultType
    rw [Option.bind_eq_some_iff]
    simp only [getElementTypes_iff]
  unfold arrayTransformToType
  rw [tupleTransformSize_of_agree n _ m hm hn, Option.bind_some]
  have hinit := initAll_iff conv f args T m
  simp only [hres] at hinit
  constructor
  · intro h
    split at h
    · rename_i h1
      cases h
      rw [Bool.and_eq_true, hinit] at h1
      simp [isObject] at h1
      refine ⟨rfl, rfl, h1.1.1, h1.1.2, fun i hi => ?_⟩
      obtain ⟨r, ⟨ts, h2, h3⟩, h4⟩ := h1.2 i hi
      simp [initialises] at h4
      exact ⟨ts, r, h2, h3, h4⟩
    · cases h
  · rintro ⟨rfl, rfl, h1, h2, h3⟩
    refine if_pos ?_
    rw [Bool.and_eq_true, hinit]
    refine ⟨by simp [isObject, h1, h2], fun i hi => ?_⟩
    obtain ⟨ts, r, h4, h5, h6, h7⟩ := h3 i hi
    exact ⟨r, ⟨ts, h4, h5⟩, by simp [initialises, h6, h7]⟩

/-- C76: `tuple_transform` compiles iff each call has a result, whose types may all be different; the elements of the tuple are the
decayed results: references are never kept. -/
theorem C76_tuple_transform (n : Int) (f : Fn) (args : List Arg) (m : Nat)
    (hm : AllSize m (args.map Arg.sizeOnly)) (hn : (n = -1 ∧ HasTuple (args.map Arg.sizeOnly)) ∨ n = m) (Rs : List CTy) :
    tupleTransformType n f args = some Rs ↔
      Rs.length = m ∧ ∀ i < m, ∃ ts r, List.Forall₂ (Element i) args ts ∧ f.call false ts = some r ∧
        r.base ≠ .void ∧ Rs[i]? = some ⟨r.base, false, .none⟩ := by
  unfold tupleTransformType
  rw [tupleTransformSize_of_agree n _ m hm hn, Option.bind_some, mapM_range_iff]
  refine and_congr_right fun hl => forall₂_congr fun i hi => ?_
  have hlt : i < Rs.length := by omega
  rw [List.getElem?_eq_getElem hlt, Option.bind_eq_some_iff]
  constructor
  · rintro ⟨r, h1, h2⟩
    obtain ⟨ts, h3, h4⟩ := Option.bind_eq_some_iff.mp h1
    split at h2
    · cases h2
    · rename_i hv
      exact ⟨ts, r, (getElementTypes_iff i args ts).mp h3, h4, hv, h2.symm⟩
  · rintro ⟨ts, r, h3, h4, hv, h5⟩
    refine ⟨r, Option.bind_eq_some_iff.mpr ⟨ts, (getElementTypes_iff i args ts).mpr h3, h4⟩, ?_⟩
    rw [if_neg hv]; exact h5.symm

private theorem elementTypes_count {a : Arg} {ts : List CTy} (h : elementTypes a = some ts) : Count a ts.length := by
  rcases a with ⟨k | k | k | k, c, lv⟩ <;> simp only [elementTypes, Option.some.injEq, reduceCtorEq] at h <;> subst h
  · rw [List.length_replicate]; exact .array
  · exact .tuple

private theorem elementTypes_of_count {a : Arg} {n : Nat} (h : Count a n) : ∃ ts, elementTypes a = some ts ∧ ts.length = n := by
  cases h with
  | array => exact ⟨_, rfl, by simp⟩
  | tuple => exact ⟨_, rfl, rfl⟩

private theorem elementTypes_elements {a : Arg} {ts : List CTy} (h : elementTypes a = some ts) (P : Base → Prop) :
    (∀ t ∈ ts, P t.base) ↔ ∀ i t, Element i a t → P t.base := by
  rcases a with ⟨⟨e, ec, n⟩ | es | _ | _, c, lv⟩ <;> simp only [elementTypes, Option.some.injEq, reduceCtorEq] at h <;> subst h
  · constructor
    · intro h i t ht
      cases ht with
      | array hi => exact h ⟨e, ec, .none⟩ (List.mem_replicate.mpr ⟨by omega, rfl⟩)
    · intro h t ht
      obtain ⟨h1, rfl⟩ := List.mem_replicate.mp ht
      have := h 0 _ (Element.array (Nat.pos_of_ne_zero h1)); exact this
  · constructor
    · intro h i t ht
      cases ht with
      | object he => have := h _ (List.mem_of_getElem? he); exact this
      | lvalueRef he => have := h _ (List.mem_of_getElem? he); exact this
      | rvalueRef he => have := h _ (List.mem_of_getElem? he); exact this
    · intro h t ht
      obtain ⟨i, hi⟩ := List.getElem?_of_mem ht
      rcases t with ⟨e, ec, _ | _ | _⟩
      · have := h i _ (Element.object hi); exact this
      · have := h i _ (Element.lvalueRef hi); exact this
      · have := h i _ (Element.rvalueRef hi); exact this

private theorem mapM_elementTypes (args : List Arg) (tss : List (List CTy)) :
    args.mapM elementTypes = some tss ↔ List.Forall₂ (fun a ts => elementTypes a = some ts) args tss := by
  induction args generalizing tss with
  | nil => cases tss <;> simp
  | cons a r ih =>
    rw [List.mapM_cons]
    cases tss with
    | nil =>
      cases h1 : elementTypes a with
      | none => simp
      | some y => cases h2 : r.mapM elementTypes <;> simp
    | cons x xs =>
      rw [List.forall₂_cons, ← ih]
      cases h1 : elementTypes a with
      | none => simp
      | some y => cases h2 : r.mapM elementTypes <;> simp

private theorem counts (args : List Arg) (m : Nat) :
    (∃ ns, List.Forall₂ Count args ns ∧ m = ns.sum) ↔
      ∃ tss, List.Forall₂ (fun a ts => elementTypes a = some ts) args tss ∧ m = tss.flatten.length := by
  induction args generalizing m with
  | nil => simp
  | cons a r ih =>
    constructor
    · rintro ⟨ns, h, rfl⟩
      cases h with
      | cons h1 h2 =>
        obtain ⟨ts, h3, h4⟩ := elementTypes_of_count h1
        obtain ⟨tss, h5, h6⟩ := (ih _).mp ⟨_, h2, rfl⟩
        exact ⟨ts :: tss, .cons h3 h5, by simp only [List.sum_cons, List.flatten_cons, List.length_append]; omega⟩
    · rintro ⟨tss, h, rfl⟩
      cases h with
      | cons h1 h2 =>
        obtain ⟨ns, h5, h6⟩ := (ih _).mpr ⟨_, h2, rfl⟩
        exact ⟨_ :: ns, .cons (elementTypes_count h1) h5, by simp only [List.sum_cons, List.flatten_cons, List.length_append]; omega⟩

private theorem all_elements {args : List Arg} {tss : List (List CTy)} (h : List.Forall₂ (fun a ts => elementTypes a = some ts) args tss)
    (P : Base → Prop) : (∀ t ∈ tss.flatten, P t.base) ↔ ∀ a ∈ args, ∀ i t, Element i a t → P t.base := by
  induction h with
  | nil => simp
  | cons h _ ih =>
    simp only [List.flatten_cons, List.mem_append, List.forall_mem_cons]
    rw [← elementTypes_elements h P, ← ih]
    constructor
    · intro hh; exact ⟨fun t ht => hh t (Or.inl ht), fun t ht => hh t (Or.inr ht)⟩
    · rintro ⟨h1, h2⟩ t (ht | ht)
      · exact h1 t ht
      · exact h2 t ht

/-- C76: `array_cat<T>` compiles iff all arguments are arrays or tuples and every element of every argument initialises a `T` - by a conversion
which is not narrowing; the result has as many elements as the arguments together. -/
theorem C76_array_cat (conv : Base → Base → Bool) (T : CTy) (args : List Arg) (R : CTy) (m : Nat) :
    arrayCatType conv T args = some (R, m) ↔
      R = T ∧ (∃ ns, List.Forall₂ Count args ns ∧ m = ns.sum) ∧ T.ref = .none ∧ T.base ≠ .void ∧
        ∀ a ∈ args, ∀ i t, Element i a t → t.base ≠ .void ∧ (t.base = T.base ∨ conv t.base T.base = true) := by
  rw [counts]
  unfold arrayCatType
  rw [Option.bind_eq_some_iff]
  have hP : ∀ ts : List CTy, ts.all (fun t => initialises conv t T) = true ↔
      ∀ t ∈ ts, t.base ≠ .void ∧ (t.base = T.base ∨ conv t.base T.base = true) := by
    intro ts
    rw [List.all_eq_true]
    simp [initialises]
  constructor
  · rintro ⟨tss, h1, h⟩
    have h1 := (mapM_elementTypes _ _).mp h1
    rw [C41_cat, Option.bind_some] at h
    split at h
    · rename_i h2
      cases h
      rw [Bool.and_eq_true, hP] at h2
      simp only [isObject, Bool.and_eq_true, beq_iff_eq, bne_iff_ne] at h2
      exact ⟨rfl, ⟨tss, h1, rfl⟩, h2.1.1, h2.1.2,
        (all_elements h1 (fun b => b ≠ .void ∧ (b = T.base ∨ conv b T.base = true))).mp h2.2⟩
    · cases h
  · rintro ⟨rfl, ⟨tss, h1, rfl⟩, h2, h3, h4⟩
    refine ⟨tss, (mapM_elementTypes _ _).mpr h1, ?_⟩
    rw [C41_cat, Option.bind_some]
    refine if_pos ?_
    rw [Bool.and_eq_true, hP]
    exact ⟨by simp [isObject, h2, h3], (all_elements h1 (fun b => b ≠ .void ∧ (b = R.base ∨ conv b R.base = true))).mpr h4⟩

example : ∃ ns, List.Forall₂ Count [⟨.array (.ty 0) false 2, false, true⟩, ⟨.tuple [⟨.ty 0, true, .lvalue⟩], true, false⟩] ns ∧ 3 = ns.sum :=
  ⟨[2, 1], .cons .array (.cons .tuple .nil), rfl⟩

/-! The functor `[](auto& x) -> auto& { return x; }`, an lvalue `std::array<int, 2>`, an lvalue `std::tuple<int, int>`. -/

/-- Returns its argument by reference. -/
def refFn : Fn where
  call := fun _ ts => match ts with
    | [⟨b, c, .lvalue⟩] => some ⟨b, c, .lvalue⟩
    | _ => none

/-- An lvalue array of two elements of type 0. -/
def pairArray : Arg := ⟨.array (.ty 0) false 2, false, true⟩

/-- An lvalue tuple of two elements of type 0. -/
def pairTuple : Arg := ⟨.tuple [⟨.ty 0, false, .none⟩, ⟨.ty 0, false, .none⟩], false, true⟩

private theorem pairSize (a : Arg) (h : a = pairArray ∨ a = pairTuple) :
    AllSize 2 ([a].map Arg.sizeOnly) ∧ HasTuple ([a].map Arg.sizeOnly) := by
  rcases h with rfl | rfl
  all_goals
    refine ⟨?_, List.replicate 2 (), by simp [Arg.sizeOnly, pairArray, pairTuple]⟩
    intro l hl
    simp [Arg.sizeOnly, pairArray, pairTuple] at hl
    simp [hl]

/-- C76 is false, concretely: `array_transform` of a functor that returns a reference compiles for an array, but not for a tuple of
elements of the same type; for the latter, `tuple_transform` does compile. -/
theorem C76_array_but_not_tuple :
    arrayTransformType (fun _ _ => false) (-1) false refFn [pairArray] = some (⟨.ty 0, false, .none⟩, 2) ∧
    arrayTransformType (fun _ _ => false) (-1) false refFn [pairTuple] = none ∧
    tupleTransformType (-1) refFn [pairTuple] = some [⟨.ty 0, false, .none⟩, ⟨.ty 0, false, .none⟩] := by
  refine ⟨by decide, ?_, ?_⟩
  · exact C76_reference_results _ _ refFn [pairTuple] 2 ⟨pairTuple, by simp, .inl ⟨_, rfl⟩⟩ (pairSize _ (.inr rfl)).1
      (.inl ⟨rfl, (pairSize _ (.inr rfl)).2⟩) 1 (by decide) [⟨.ty 0, false, .lvalue⟩] ⟨.ty 0, false, .lvalue⟩ (.cons ((element_iff _ _ _).mp rfl) .nil) rfl
      (by decide)
  · refine (C76_tuple_transform (-1) refFn [pairTuple] 2 (pairSize _ (.inr rfl)).1 (.inl ⟨rfl, (pairSize _ (.inr rfl)).2⟩) _).mpr
      ⟨rfl, fun i hi => ?_⟩
    match i, hi with
    | 0, _ => exact ⟨[⟨.ty 0, false, .lvalue⟩], ⟨.ty 0, false, .lvalue⟩, .cons ((element_iff _ _ _).mp rfl) .nil, rfl, by decide, rfl⟩
    | 1, _ => exact ⟨[⟨.ty 0, false, .lvalue⟩], ⟨.ty 0, false, .lvalue⟩, .cons ((element_iff _ _ _).mp rfl) .nil, rfl, by decide, rfl⟩

/-- C76: `range_index` is passed to the functor as a prvalue, but the element type is determined with a `const` lvalue (as `range_index` is
one): a functor which takes its index by rvalue reference can be called for all elements, and yet the call does not compile. -/
theorem C76_index_as_lvalue :
    let f : Fn := ⟨fun _ ts => match ts with
      | [⟨.index, false, .none⟩] => some ⟨.ty 0, false, .none⟩
      | [⟨.index, false, .rvalue⟩] => some ⟨.ty 0, false, .none⟩
      | _ => none⟩
    arrayTransformType (fun _ _ => false) 2 false f [⟨.rangeIndex, true, true⟩] = none ∧
    arrayTransformToType (fun _ _ => false) 2 ⟨.ty 0, false, .none⟩ f [⟨.rangeIndex, true, true⟩] = some (⟨.ty 0, false, .none⟩, 2) := by
  decide

example := C76_element_type_partial (fun _ _ => false) (-1) refFn [pairArray] [.ty 0] 2
  (.cons ⟨⟨2, rfl⟩, by decide⟩ .nil) (pairSize _ (.inl rfl)).1 (.inl ⟨rfl, (pairSize _ (.inl rfl)).2⟩)
example := C76_tuple_args (fun _ _ => false) (-1) refFn [pairTuple] 2 ⟨pairTuple, by simp, .inl ⟨_, rfl⟩⟩ (pairSize _ (.inr rfl)).1
  (.inl ⟨rfl, (pairSize _ (.inr rfl)).2⟩)
example : arrayTransformType (fun _ _ => false) (-1) false refFn [pairTuple] = none :=
  C76_reference_results _ _ refFn [pairTuple] 2 ⟨pairTuple, by simp, .inl ⟨_, rfl⟩⟩ (pairSize _ (.inr rfl)).1
    (.inl ⟨rfl, (pairSize _ (.inr rfl)).2⟩) 1 (by decide) [⟨.ty 0, false, .lvalue⟩] ⟨.ty 0, false, .lvalue⟩ (.cons ((element_iff _ _ _).mp rfl) .nil) rfl
    (by decide)
example := C76_explicit_type (fun _ _ => false) (-1) ⟨.ty 0, false, .none⟩ refFn [pairTuple] 2 (pairSize _ (.inr rfl)).1
  (.inl ⟨rfl, (pairSize _ (.inr rfl)).2⟩)
example := C76_tuple_transform (-1) refFn [pairTuple] 2 (pairSize _ (.inr rfl)).1 (.inl ⟨rfl, (pairSize _ (.inr rfl)).2⟩)
example : arrayTransformType (fun _ _ => false) (-1) false refFn [⟨.tuple [], false, true⟩] = none :=
  C76_empty_tuple _ _ _ _ ⟨⟨.tuple [], false, true⟩, by simp, .inl ⟨_, rfl⟩⟩ (by intro l hl; simp [Arg.sizeOnly] at hl; simp [hl])
    (.inl ⟨rfl, [], by simp [Arg.sizeOnly]⟩)
/-- `array_cat<long>` of an array and a tuple of `int`s (0 is `int`, 1 is `long`, 2 is `double`), and of a tuple with a `double`. -/
example : arrayCatType (fun a b => a == .ty 0 && b == .ty 1) ⟨.ty 1, false, .none⟩ [pairArray, pairTuple] = some (⟨.ty 1, false, .none⟩, 4) ∧
    arrayCatType (fun a b => a == .ty 0 && b == .ty 1) ⟨.ty 1, false, .none⟩ [⟨.tuple [⟨.ty 2, false, .none⟩], false, true⟩] = none := by
  decide

end Makeshift.Props
