import Verif.Props.TupleAlgo
import Mathlib.Data.List.Forall2

/-! Laws of the tuple and array algorithms (C130). -/

namespace Makeshift.Props

open Spec

variable {α β γ V S : Type}

/-- Concatenating in groups is concatenating all: `tuple_cat(tuple_cat(a, b), c)` is `tuple_cat(a, b, c)`, and so on. -/
theorem C130_cat_nested (groups : List (List (List α))) : (groups.mapM tupleCat).bind tupleCat = tupleCat groups.flatten := by
  have h : groups.mapM tupleCat = some (groups.map List.flatten) := by
    induction groups with
    | nil => rfl
    | cons g gs ih => rw [List.mapM_cons, C41_cat, ih]; rfl
  rw [h]
  simp only [Option.bind_some, C41_cat, List.flatten_flatten]

example : (tupleCat [[1, 2], [3]]).bind (fun ab => tupleCat [ab, [], [4]]) = tupleCat [[1, 2], [3], [], [4]] := by decide +kernel
example : ([[[1, 2], [3]], [], [[4]]].mapM tupleCat).bind tupleCat = some [1, 2, 3, 4] := by decide +kernel

/-- Each tuple of `ws` is the concatenation of the two parts given by `ps`. -/
def CatOf (ps : List (List α × List α)) (ws : List (List α)) : Prop := List.Forall₂ (fun p w => tupleCat [p.1, p.2] = some w) ps ws

/-- The first parts as arguments of an algorithm. -/
def firstArgs (ps : List (List α × List α)) : List (TArg α) := ps.map fun p => .tuple p.1

/-- The second parts. -/
def secondArgs (ps : List (List α × List α)) : List (TArg α) := ps.map fun p => .tuple p.2

/-- The tuples put together. -/
def wholeArgs (ws : List (List α)) : List (TArg α) := ws.map .tuple

/-- The sizes of the parts agree, and there is at least one tuple. -/
def PartSizes (ps : List (List α × List α)) (n1 n2 : Nat) : Prop := ps ≠ [] ∧ ∀ p ∈ ps, p.1.length = n1 ∧ p.2.length = n2

theorem catOf_eq {ps : List (List α × List α)} {ws : List (List α)} (h : CatOf ps ws) : ws = ps.map fun p => p.1 ++ p.2 := by
  induction h with
  | nil => rfl
  | cons h _ ih =>
    rw [C41_cat] at h
    simp at h
    rw [ih, ← h]
    rfl

/-- The calls for the whole are those for the first parts and those for the second parts. -/
theorem calls_parts {ps : List (List α × List α)} {ws : List (List α)} {n1 n2 : Nat} (h : CatOf ps ws) (hs : PartSizes ps n1 n2) :
    ∃ c1 c2, (AllSize c1.length (firstArgs ps) ∧ HasTuple (firstArgs ps) ∧ CallArgs (firstArgs ps) c1) ∧
      (AllSize c2.length (secondArgs ps) ∧ HasTuple (secondArgs ps) ∧ CallArgs (secondArgs ps) c2) ∧
      (AllSize (c1 ++ c2).length (wholeArgs ws) ∧ HasTuple (wholeArgs ws) ∧ CallArgs (wholeArgs ws) (c1 ++ c2)) := by
  obtain ⟨hne, hs⟩ := hs
  have a1 : AllSize n1 (firstArgs ps) := by
    intro l hl
    obtain ⟨p, hp, hpl⟩ := List.mem_map.mp hl
    cases hpl
    exact (hs p hp).1
  have a2 : AllSize n2 (secondArgs ps) := by
    intro l hl
    obtain ⟨p, hp, hpl⟩ := List.mem_map.mp hl
    cases hpl
    exact (hs p hp).2
  obtain ⟨c1, l1, h1, -⟩ := C38_calls_exist _ _ a1
  obtain ⟨c2, l2, h2, -⟩ := C38_calls_exist _ _ a2
  obtain ⟨p0, hp0⟩ := List.exists_mem_of_ne_nil _ hne
  have hw := catOf_eq h
  subst hw
  refine ⟨c1, c2, ⟨l1 ▸ a1, ⟨p0.1, List.mem_map.mpr ⟨p0, hp0, rfl⟩⟩, h1⟩, ⟨l2 ▸ a2, ⟨p0.2, List.mem_map.mpr ⟨p0, hp0, rfl⟩⟩, h2⟩, ?_,
    ⟨p0.1 ++ p0.2, List.mem_map.mpr ⟨p0.1 ++ p0.2, List.mem_map.mpr ⟨p0, hp0, rfl⟩, rfl⟩⟩, ?_⟩
  · intro l hl
    simp only [wholeArgs, List.mem_map] at hl
    obtain ⟨w, ⟨p, hp, rfl⟩, hpl⟩ := hl
    cases hpl
    simp [(hs p hp).1, (hs p hp).2, l1, l2]
  · intro i vs hi
    by_cases hlt : i < c1.length
    · rw [List.getElem?_append_left hlt] at hi
      have hf := h1 i vs hi
      clear h1 h2 a1 a2 hne hp0 h hi
      simp only [firstArgs, wholeArgs, List.map_map, List.forall₂_map_left_iff] at hf ⊢
      refine hf.imp fun p v hr => ?_
      cases hr with
      | tuple hr => exact .tuple (by rw [List.getElem?_append_left (List.getElem?_eq_some_iff.mp hr).1]; exact hr)
    · rw [List.getElem?_append_right (by omega)] at hi
      have hf := h2 _ vs hi
      simp only [secondArgs, wholeArgs, List.map_map, List.forall₂_map_left_iff] at hf ⊢
      have : ∀ p ∈ ps, p.1.length = c1.length := fun p hp => by rw [(hs p hp).1, l1]
      clear h1 h2 a1 a2 hne hp0 h hi hs
      induction hf with
      | nil => exact .nil
      | @cons p v ps vs hr _ ih =>
        refine .cons ?_ (ih fun p hp => this p (by simp [hp]))
        have hl := this p (by simp)
        cases hr with
        | tuple hr => exact .tuple (by rw [List.getElem?_append_right (by omega), hl]; exact hr)

theorem mapCalls_append (func : Func α β S) (c1 c2 : List (List (TVal α))) (s : S) :
    mapCalls func (c1 ++ c2) s = ((mapCalls func c1 s).1 ++ (mapCalls func c2 (mapCalls func c1 s).2).1, (mapCalls func c2 (mapCalls func c1 s).2).2) := by
  induction c1 generalizing s with
  | nil => rfl
  | cons c c1 ih => simp only [List.cons_append, mapCalls, ih]

/-- `template_for` over concatenated tuples does what it does for the first parts, and then what it does for the second parts. -/
theorem C130_for_cat (ps : List (List α × List α)) (ws : List (List α)) (n1 n2 : Nat) (h : CatOf ps ws) (hs : PartSizes ps n1 n2) (func : Func α β S)
    (s : S) : ∃ s1 s2, templateFor (-1) func (firstArgs ps) s = some s1 ∧ templateFor (-1) func (secondArgs ps) s1 = some s2 ∧
      templateFor (-1) func (wholeArgs ws) s = some s2 := by
  obtain ⟨c1, c2, ⟨a1, t1, h1⟩, ⟨a2, t2, h2⟩, a, t, hc⟩ := calls_parts h hs
  refine ⟨_, _, C38_template_for _ func _ c1 s a1 (.inl ⟨rfl, t1⟩) h1, C38_template_for _ func _ c2 _ a2 (.inl ⟨rfl, t2⟩) h2, ?_⟩
  rw [C38_template_for _ func _ _ s a (.inl ⟨rfl, t⟩) hc, List.foldl_append]

/-- Transforming concatenated tuples is concatenating the transformed parts, also for functors with side effects. -/
theorem C130_transform_cat (ps : List (List α × List α)) (ws : List (List α)) (n1 n2 : Nat) (h : CatOf ps ws) (hs : PartSizes ps n1 n2) (func : Func α β S)
    (s : S) : ∃ r1 s1 r2 s2, arrayTransform (-1) func (firstArgs ps) s = some (r1, s1) ∧ arrayTransform (-1) func (secondArgs ps) s1 = some (r2, s2) ∧
      arrayTransform (-1) func (wholeArgs ws) s = (tupleCat [r1, r2]).map (·, s2) := by
  obtain ⟨c1, c2, ⟨a1, t1, h1⟩, ⟨a2, t2, h2⟩, a, t, hc⟩ := calls_parts h hs
  refine ⟨_, _, _, _, C38_array_transform _ func _ c1 s a1 (.inl ⟨rfl, t1⟩) h1, C38_array_transform _ func _ c2 _ a2 (.inl ⟨rfl, t2⟩) h2, ?_⟩
  rw [C38_array_transform _ func _ _ s a (.inl ⟨rfl, t⟩) hc, mapCalls_append, C41_cat]
  simp

/-- The same for `tuple_transform` and functors without side effects, for any orders of evaluation. -/
theorem C130_tuple_transform_cat (ps : List (List α × List α)) (ws : List (List α)) (n1 n2 : Nat) (h : CatOf ps ws) (hs : PartSizes ps n1 n2)
    (f : List (TVal α) → β) (s : S) (o1 o2 o : List Nat) (ho1 : o1.Perm (List.range n1)) (ho2 : o2.Perm (List.range n2))
    (ho : o.Perm (List.range (n1 + n2))) :
    ∃ r1 r2, tupleTransform (-1) (fun vs s => (f vs, s)) (firstArgs ps) o1 s = some (r1, s) ∧
      tupleTransform (-1) (fun vs s => (f vs, s)) (secondArgs ps) o2 s = some (r2, s) ∧
      tupleTransform (-1) (fun vs s => (f vs, s)) (wholeArgs ws) o s = (tupleCat [r1, r2]).map (·, s) := by
  obtain ⟨c1, c2, ⟨a1, t1, h1⟩, ⟨a2, t2, h2⟩, a, t, hc⟩ := calls_parts h hs
  obtain ⟨p, hp⟩ := List.exists_mem_of_ne_nil _ hs.1
  have l1 : c1.length = n1 := by rw [← (hs.2 p hp).1]; exact (a1 _ (List.mem_map.mpr ⟨p, hp, rfl⟩)).symm
  have l2 : c2.length = n2 := by rw [← (hs.2 p hp).2]; exact (a2 _ (List.mem_map.mpr ⟨p, hp, rfl⟩)).symm
  refine ⟨_, _, C38_tuple_transform_pointwise _ f _ c1 o1 s a1 (.inl ⟨rfl, t1⟩) h1 (l1 ▸ ho1),
    C38_tuple_transform_pointwise _ f _ c2 o2 s a2 (.inl ⟨rfl, t2⟩) h2 (l2 ▸ ho2), ?_⟩
  rw [C38_tuple_transform_pointwise _ f _ _ o s a (.inl ⟨rfl, t⟩) hc (by rw [List.length_append, l1, l2]; exact ho), C41_cat]
  simp

/-- Reducing concatenated tuples is reducing the first parts, and then the second parts starting with the result. -/
theorem C130_reduce_cat (ps : List (List α × List α)) (ws : List (List α)) (n1 n2 : Nat) (h : CatOf ps ws) (hs : PartSizes ps n1 n2) (initial : V)
    (reduce : V → β → S → V × S) (transform : Func α β S) (s : S) :
    ∃ v1 s1 r, templateTransformReduce initial reduce transform (firstArgs ps) s = some (v1, s1) ∧
      templateTransformReduce v1 reduce transform (secondArgs ps) s1 = some r ∧
      templateTransformReduce initial reduce transform (wholeArgs ws) s = some r := by
  obtain ⟨c1, c2, ⟨a1, t1, h1⟩, ⟨a2, t2, h2⟩, a, t, hc⟩ := calls_parts h hs
  refine ⟨_, _, _, C40_transform_reduce initial reduce transform _ c1 s a1 t1 h1, C40_transform_reduce _ reduce transform _ c2 _ a2 t2 h2, ?_⟩
  rw [C40_transform_reduce initial reduce transform _ _ s a t hc, List.foldl_append]

theorem throughFirst_append {δ : Type} (p : δ → Bool) (a b : List δ) : throughFirst p (a ++ b) = if a.any p then throughFirst p a else a ++ throughFirst p b := by
  induction a with
  | nil => rfl
  | cons x a ih =>
    simp only [List.cons_append, throughFirst, ih, List.any_cons]
    by_cases hx : p x = true <;> by_cases ha : a.any p = true <;> simp [hx, ha]

theorem throughFirst_none {δ : Type} (p : δ → Bool) (a : List δ) (h : a.any p = false) : throughFirst p a = a := by
  induction a with
  | nil => rfl
  | cons x a ih =>
    simp only [List.any_cons, Bool.or_eq_false_iff] at h
    simp [throughFirst, h.1, ih h.2]

/-- `template_all_of` over concatenated tuples: if it is false for the first parts, this is the result; otherwise it is what it is for the second parts,
which come after the first parts. -/
theorem C130_all_of_cat (ps : List (List α × List α)) (ws : List (List α)) (n1 n2 : Nat) (h : CatOf ps ws) (hs : PartSizes ps n1 n2)
    (p : List (TVal α) → Bool) (upd : List (TVal α) → S → S) (s : S) :
    ∃ b1 s1, templateAllOf (fun vs s => (p vs, upd vs s)) (firstArgs ps) s = some (b1, s1) ∧
      templateAllOf (fun vs s => (p vs, upd vs s)) (wholeArgs ws) s =
        if b1 then templateAllOf (fun vs s => (p vs, upd vs s)) (secondArgs ps) s1 else some (false, s1) := by
  obtain ⟨c1, c2, ⟨a1, t1, h1⟩, ⟨a2, t2, h2⟩, a, t, hc⟩ := calls_parts h hs
  refine ⟨_, _, C40_all_of p upd _ c1 s a1 t1 h1, ?_⟩
  rw [C40_all_of p upd _ _ s a t hc, C40_all_of p upd _ c2 _ a2 t2 h2, throughFirst_append]
  by_cases hall : ∀ vs ∈ c1, p vs = true
  · have hany : c1.any (fun vs => !p vs) = false := by simpa using hall
    rw [throughFirst_none _ _ hany]
    have hsame : (∀ vs ∈ c1 ++ c2, p vs = true) ↔ ∀ vs ∈ c2, p vs = true :=
      ⟨fun h vs hv => h vs (by simp [hv]), fun h vs hv => (List.mem_append.mp hv).elim (hall vs) (h vs)⟩
    simp only [hany, decide_eq_true hall, if_true, List.foldl_append, Bool.false_eq_true, if_false, decide_eq_decide.mpr hsame]
  · have hany : c1.any (fun vs => !p vs) = true := by simpa using hall
    have hno : ¬ ∀ vs ∈ c1 ++ c2, p vs = true := fun h => hall fun vs hv => h vs (by simp [hv])
    simp only [hany, if_true, decide_eq_false hall, decide_eq_false hno, Bool.false_eq_true, if_false]

/-- `template_any_of` over concatenated tuples: if it is true for the first parts, this is the result; otherwise it is what it is for the second parts. -/
theorem C130_any_of_cat (ps : List (List α × List α)) (ws : List (List α)) (n1 n2 : Nat) (h : CatOf ps ws) (hs : PartSizes ps n1 n2)
    (p : List (TVal α) → Bool) (upd : List (TVal α) → S → S) (s : S) :
    ∃ b1 s1, templateAnyOf (fun vs s => (p vs, upd vs s)) (firstArgs ps) s = some (b1, s1) ∧
      templateAnyOf (fun vs s => (p vs, upd vs s)) (wholeArgs ws) s =
        if b1 then some (true, s1) else templateAnyOf (fun vs s => (p vs, upd vs s)) (secondArgs ps) s1 := by
  obtain ⟨c1, c2, ⟨a1, t1, h1⟩, ⟨a2, t2, h2⟩, a, t, hc⟩ := calls_parts h hs
  refine ⟨_, _, C40_any_of p upd _ c1 s a1 t1 h1, ?_⟩
  rw [C40_any_of p upd _ _ s a t hc, C40_any_of p upd _ c2 _ a2 t2 h2, throughFirst_append]
  by_cases hex : ∃ vs ∈ c1, p vs = true
  · have hany : c1.any p = true := by simpa using hex
    have hex' : ∃ vs ∈ c1 ++ c2, p vs = true := by obtain ⟨vs, hv, hp⟩ := hex; exact ⟨vs, by simp [hv], hp⟩
    simp only [hany, if_true, decide_eq_true hex, decide_eq_true hex']
  · have hany : c1.any p = false := by simpa using hex
    rw [throughFirst_none _ _ hany]
    have hsame : (∃ vs ∈ c1 ++ c2, p vs = true) ↔ ∃ vs ∈ c2, p vs = true :=
      ⟨fun ⟨vs, hv, hp⟩ => ⟨vs, (List.mem_append.mp hv).resolve_left fun hv => hex ⟨vs, hv, hp⟩, hp⟩, fun ⟨vs, hv, hp⟩ => ⟨vs, by simp [hv], hp⟩⟩
    simp only [hany, Bool.false_eq_true, if_false, decide_eq_false hex, List.foldl_append, decide_eq_decide.mpr hsame]

/-- Two tuples of three elements, each concatenated from two parts. -/
def lawParts : List (List Nat × List Nat) := [([1], [2, 3]), ([4], [5, 6])]
example : CatOf lawParts [[1, 2, 3], [4, 5, 6]] := by
  refine .cons ?_ (.cons ?_ .nil) <;> decide +kernel
example : PartSizes lawParts 1 2 := ⟨by simp [lawParts], by simp [lawParts]⟩
example : [1, 0].Perm (List.range 2) ∧ [2, 0, 1].Perm (List.range (1 + 2)) := by decide

/-- `tuple_index` and `range_index` count from zero again in the second part: the laws do not extend to them. -/
theorem C130_index_cat_negated : ∃ (f : List (TVal Nat) → Nat) (a b w : List Nat) (r1 r2 : List Nat), tupleCat [a, b] = some w ∧
    arrayTransform (-1) (fun vs (s : Unit) => (f vs, s)) [.tuple a, .tupleIndex] () = some (r1, ()) ∧
    arrayTransform (-1) (fun vs (s : Unit) => (f vs, s)) [.tuple b, .tupleIndex] () = some (r2, ()) ∧
    arrayTransform (-1) (fun vs (s : Unit) => (f vs, s)) [.tuple w, .tupleIndex] () ≠ (tupleCat [r1, r2]).map (·, ()) :=
  ⟨fun vs => match vs with | [_, .indexConstant i] => i | _ => 0, [7], [8], [7, 8], [0], [0], by decide +kernel⟩

theorem callArgs_single (l : List α) : CallArgs [.tuple l] (l.map fun a => [.elem a]) := by
  intro i vs hi
  rw [List.getElem?_map] at hi
  obtain ⟨a, ha, rfl⟩ := Option.map_eq_some_iff.mp hi
  exact .cons (.tuple ha) .nil

theorem allSize_single (l : List α) : AllSize (l.map fun a => [TVal.elem a]).length [.tuple l] := by
  intro l' hl'
  simp at hl'
  simp [hl']

theorem hasTuple_single (l : List α) : HasTuple [TArg.tuple l] := ⟨l, by simp⟩

/-- Transforming the result of a transformation is transforming once with the composed functor, if the functors have no side effects. -/
theorem C130_transform_transform (n : Int) (args : List (TArg α)) (f : List (TVal α) → β) (g : β → γ) (s : S) (l : List β)
    (h : arrayTransform n (fun vs s => (f vs, s)) args s = some (l, s)) (m : Nat) (hm : AllSize m args) (hn : (n = -1 ∧ HasTuple args) ∨ n = m) :
    arrayTransform (-1) (fun vs s => ((match vs with | [.elem b] => some (g b) | _ => none), s)) [.tuple l] s =
      (arrayTransform n (fun vs s => (some (g (f vs)), s)) args s) := by
  obtain ⟨calls, hl, hc, -⟩ := C38_calls_exist args m hm
  subst hl
  rw [C38_array_transform_pointwise n f args calls s hm hn hc] at h
  rw [C38_array_transform_pointwise n _ args calls s hm hn hc]
  simp at h
  rw [C38_array_transform_pointwise (-1) _ _ _ s (allSize_single l) (.inl ⟨rfl, hasTuple_single l⟩) (callArgs_single l), ← h]
  simp

example : arrayTransform (-1) (fun vs s => ((match vs with | [.elem a, .elem b] => a + b | _ => 0), s)) [.tuple [1, 2], .tuple [3, 4]] () =
    some ([4, 6], ()) ∧ AllSize 2 [TArg.tuple [1, 2], .tuple [3, 4]] := ⟨by decide +kernel, by simp [AllSize]⟩

/-- Reducing with a transformation is transforming and then reducing, if the transformation has no side effects. -/
theorem C130_reduce_transform (args : List (TArg α)) (f : List (TVal α) → β) (initial : V) (reduce : V → β → S → V × S) (s : S) (l : List β)
    (h : arrayTransform (-1) (fun vs s => (f vs, s)) args s = some (l, s)) (m : Nat) (hm : AllSize m args) (ht : HasTuple args) :
    templateTransformReduce initial reduce (fun vs s => (f vs, s)) args s =
      templateReduce l initial (fun v b s => match b with | .elem b => reduce v b s | _ => (v, s)) s := by
  obtain ⟨calls, hl, hc, -⟩ := C38_calls_exist args m hm
  subst hl
  rw [C38_array_transform_pointwise (-1) f args calls s hm (.inl ⟨rfl, ht⟩) hc] at h
  simp at h
  rw [C40_transform_reduce initial reduce _ args calls s hm ht hc, C40_reduce, ← h, List.foldl_map]

/-- With side effects this need not be: `template_transform_reduce` calls the two functors in turns. -/
theorem C130_reduce_transform_effects_negated : ∃ (transform : Func Nat Nat Nat) (reduce : Nat → Nat → Nat → Nat × Nat) (t l : List Nat) (s : Nat),
    arrayTransform (-1) transform [.tuple t] 0 = some (l, s) ∧
    templateTransformReduce 0 reduce transform [.tuple t] 0 ≠ templateReduce l 0 (fun v b s => match b with | .elem b => reduce v b s | _ => (v, s)) s :=
  ⟨fun _ s => (s, s + 1), fun v b s => (v + b, 2 * s), [5, 6, 7], [0, 1, 2], 3, by decide +kernel⟩

private theorem rearranged (q : List Nat) (args : List (TArg α)) (m : Nat) (hm : AllSize m args) :
    ∃ calls : List (List (TVal α)), AllSize calls.length args ∧ CallArgs args calls ∧ (∀ vs ∈ calls, vs.length = args.length) ∧
      AllSize (calls.map fun vs => q.filterMap (vs[·]?)).length (q.filterMap (args[·]?)) ∧
      CallArgs (q.filterMap (args[·]?)) (calls.map fun vs => q.filterMap (vs[·]?)) := by
  obtain ⟨calls, hl, hc, -⟩ := C38_calls_exist args m hm
  subst hl
  have hm' : AllSize (calls.map fun vs => q.filterMap (vs[·]?)).length (q.filterMap (args[·]?)) := by
    intro l hl
    obtain ⟨i, -, hi⟩ := List.mem_filterMap.mp hl
    rw [List.length_map]
    exact hm l (List.mem_of_getElem? hi)
  have hc' : CallArgs (q.filterMap (args[·]?)) (calls.map fun vs => q.filterMap (vs[·]?)) := by
    intro i vs hi
    rw [List.getElem?_map] at hi
    obtain ⟨vs, hvs, rfl⟩ := Option.map_eq_some_iff.mp hi
    have h := hc i vs hvs
    have hget : ∀ j : Nat, (args[j]? = none ∧ vs[j]? = none) ∨ ∃ r a, args[j]? = some r ∧ vs[j]? = some a ∧ ReceivesAt i r a := by
      intro j
      clear hm hc hm' hvs hi
      induction h generalizing j with
      | nil => exact .inl (by simp)
      | cons h1 _ ih =>
        cases j with
        | zero => exact .inr ⟨_, _, rfl, rfl, h1⟩
        | succ j => simpa using ih j
    clear hm hc hm' hvs hi
    induction q with
    | nil => exact .nil
    | cons j q ih =>
      rcases hget j with ⟨h1, h2⟩ | ⟨r, a, h1, h2, h3⟩
      · rw [List.filterMap_cons_none h1, List.filterMap_cons_none h2]; exact ih
      · rw [List.filterMap_cons_some h1, List.filterMap_cons_some h2]; exact .cons h3 ih
  have hlen : ∀ vs ∈ calls, vs.length = args.length := by
    intro vs hvs
    obtain ⟨i, hi⟩ := List.getElem?_of_mem hvs
    exact (hc i vs hi).length_eq.symm
  exact ⟨calls, hm, hc, hlen, hm', hc'⟩

/-- The arguments may be reordered, and tuples may be passed several times or be left out: `q` lists the numbers of the arguments passed instead. -/
theorem C130_arguments (q : List Nat) (args : List (TArg α)) (m : Nat) (hm : AllSize m args) (ht : HasTuple args)
    (ht' : HasTuple (q.filterMap (args[·]?))) (func func' : Func α β S)
    (hb : ∀ vs s, vs.length = args.length → func' (q.filterMap (vs[·]?)) s = func vs s) (s : S) :
    arrayTransform (-1) func' (q.filterMap (args[·]?)) s = arrayTransform (-1) func args s ∧
    templateFor (-1) func' (q.filterMap (args[·]?)) s = templateFor (-1) func args s := by
  obtain ⟨calls, hm, hc, hlen, hm', hc'⟩ := rearranged q args m hm
  rw [C38_array_transform _ func _ _ s hm (.inl ⟨rfl, ht⟩) hc, C38_array_transform _ func' _ _ s hm' (.inl ⟨rfl, ht'⟩) hc',
    C38_template_for _ func _ _ s hm (.inl ⟨rfl, ht⟩) hc, C38_template_for _ func' _ _ s hm' (.inl ⟨rfl, ht'⟩) hc']
  clear hc hc' hm hm'
  constructor
  · congr 1
    induction calls generalizing s with
    | nil => rfl
    | cons c calls ih => simp only [List.map_cons, mapCalls, hb c s (hlen c (by simp)), ih _ (fun vs hv => hlen vs (by simp [hv]))]
  · congr 1
    induction calls generalizing s with
    | nil => rfl
    | cons c calls ih => simp only [List.map_cons, List.foldl_cons, hb c s (hlen c (by simp)), ih _ (fun vs hv => hlen vs (by simp [hv]))]

/-- The same for `template_transform_reduce`. -/
theorem C130_arguments_reduce (q : List Nat) (args : List (TArg α)) (m : Nat) (hm : AllSize m args) (ht : HasTuple args)
    (ht' : HasTuple (q.filterMap (args[·]?))) (func func' : Func α β S)
    (hb : ∀ vs s, vs.length = args.length → func' (q.filterMap (vs[·]?)) s = func vs s) (initial : V) (reduce : V → β → S → V × S) (s : S) :
    templateTransformReduce initial reduce func' (q.filterMap (args[·]?)) s = templateTransformReduce initial reduce func args s := by
  obtain ⟨calls, hm, hc, hlen, hm', hc'⟩ := rearranged q args m hm
  rw [C40_transform_reduce initial reduce func args calls s hm ht hc, C40_transform_reduce initial reduce func' _ _ s hm' ht' hc']
  clear hc hc' hm hm'
  congr 1
  induction calls generalizing s initial with
  | nil => rfl
  | cons c calls ih => simp only [List.map_cons, List.foldl_cons, hb c s (hlen c (by simp)), ih _ _ (fun vs hv => hlen vs (by simp [hv]))]

private theorem rearranged_throughFirst {q : List Nat} {k : Nat} (p p' : List (TVal α) → Bool) (upd upd' : List (TVal α) → S → S) : ∀ (calls : List (List (TVal α))),
    (∀ vs ∈ calls, vs.length = k) → (∀ vs : List (TVal α), vs.length = k → p' (q.filterMap (vs[·]?)) = p vs) →
    (∀ (vs : List (TVal α)) s, vs.length = k → upd' (q.filterMap (vs[·]?)) s = upd vs s) → ∀ s : S,
    (throughFirst p' (calls.map fun vs => q.filterMap (vs[·]?))).foldl (fun s vs => upd' vs s) s = (throughFirst p calls).foldl (fun s vs => upd vs s) s := by
  intro calls
  induction calls with
  | nil => intros; rfl
  | cons c calls ih =>
    intro hlen hp hu s
    have h1 := hp c (hlen c (by simp))
    have h2 := hu c s (hlen c (by simp))
    have ih := ih (fun vs hv => hlen vs (by simp [hv])) hp hu (upd c s)
    cases hpc : p c <;> simp_all [throughFirst]

/-- The arguments of the predicate algorithms may be rearranged likewise. -/
theorem C130_arguments_predicates (q : List Nat) (args : List (TArg α)) (m : Nat) (hm : AllSize m args) (ht : HasTuple args)
    (ht' : HasTuple (q.filterMap (args[·]?))) (p p' : List (TVal α) → Bool) (upd upd' : List (TVal α) → S → S)
    (hp : ∀ vs, vs.length = args.length → p' (q.filterMap (vs[·]?)) = p vs)
    (hu : ∀ vs s, vs.length = args.length → upd' (q.filterMap (vs[·]?)) s = upd vs s) (s : S) :
    templateAllOf (fun vs s => (p' vs, upd' vs s)) (q.filterMap (args[·]?)) s = templateAllOf (fun vs s => (p vs, upd vs s)) args s ∧
    templateAnyOf (fun vs s => (p' vs, upd' vs s)) (q.filterMap (args[·]?)) s = templateAnyOf (fun vs s => (p vs, upd vs s)) args s ∧
    templateNoneOf (fun vs s => (p' vs, upd' vs s)) (q.filterMap (args[·]?)) s = templateNoneOf (fun vs s => (p vs, upd vs s)) args s := by
  obtain ⟨calls, hm, hc, hlen, hm', hc'⟩ := rearranged q args m hm
  rw [C40_all_of p upd args calls s hm ht hc, C40_all_of p' upd' _ _ s hm' ht' hc', C40_any_of p upd args calls s hm ht hc,
    C40_any_of p' upd' _ _ s hm' ht' hc', C40_none_of p upd args calls s hm ht hc, C40_none_of p' upd' _ _ s hm' ht' hc']
  have hmem : ∀ b, (∀ vs ∈ calls.map fun vs => q.filterMap (vs[·]?), p' vs = b) ↔ ∀ vs ∈ calls, p vs = b := by
    intro b
    constructor
    · intro h vs hv; rw [← hp vs (hlen vs hv)]; exact h _ (List.mem_map.2 ⟨vs, hv, rfl⟩)
    · intro h vs hv
      obtain ⟨vs, hv', rfl⟩ := List.mem_map.1 hv
      rw [hp vs (hlen vs hv')]; exact h vs hv'
  have hex : (∃ vs ∈ calls.map fun vs => q.filterMap (vs[·]?), p' vs = true) ↔ ∃ vs ∈ calls, p vs = true := by
    constructor
    · rintro ⟨vs, hv, h⟩
      obtain ⟨vs, hv', rfl⟩ := List.mem_map.1 hv
      exact ⟨vs, hv', by rw [← hp vs (hlen vs hv')]; exact h⟩
    · rintro ⟨vs, hv, h⟩
      exact ⟨_, List.mem_map.2 ⟨vs, hv, rfl⟩, by rw [hp vs (hlen vs hv)]; exact h⟩
  rw [rearranged_throughFirst p p' upd upd' calls hlen hp hu, rearranged_throughFirst (fun vs => !p vs) (fun vs => !p' vs) upd upd' calls hlen
    (fun vs hv => by rw [hp vs hv]) hu]
  simp only [hmem, hex, and_self]

/-- ... and those of `tuple_transform`, for functors without side effects and all orders of evaluation. -/
theorem C130_arguments_tuple (q : List Nat) (args : List (TArg α)) (m : Nat) (hm : AllSize m args) (ht : HasTuple args)
    (ht' : HasTuple (q.filterMap (args[·]?))) (f f' : List (TVal α) → β) (hb : ∀ vs, vs.length = args.length → f' (q.filterMap (vs[·]?)) = f vs)
    (o o' : List Nat) (ho : o.Perm (List.range m)) (ho' : o'.Perm (List.range m)) (s : S) :
    tupleTransform (-1) (fun vs s => (f' vs, s)) (q.filterMap (args[·]?)) o' s = tupleTransform (-1) (fun vs s => (f vs, s)) args o s := by
  obtain ⟨calls, hm1, hc, hlen, hm', hc'⟩ := rearranged q args m hm
  have hcm : calls.length = m := by
    obtain ⟨l, hl⟩ := ht
    exact (hm1 l hl).symm.trans (hm l hl)
  rw [C38_tuple_transform_pointwise _ f args calls o s hm1 (.inl ⟨rfl, ht⟩) hc (hcm ▸ ho),
    C38_tuple_transform_pointwise _ f' _ _ o' s hm' (.inl ⟨rfl, ht'⟩) hc' (by rw [List.length_map, hcm]; exact ho')]
  simp only [List.map_map]
  congr 2
  exact List.map_congr_left fun vs hv => hb vs (hlen vs hv)

/-- Two tuples in reverse order. -/
example : [1, 0].filterMap ([TArg.tuple [1, 2], .tuple [3, 4]][·]?) = [TArg.tuple [3, 4], .tuple [1, 2]] := rfl
example (vs : List (TVal Nat)) (s : Nat) (h : vs.length = 2) :
    (fun (vs : List (TVal Nat)) s => match vs with | [.elem b, .elem a] => (a - b, s) | _ => (0, s)) ([1, 0].filterMap (vs[·]?)) s =
    (fun (vs : List (TVal Nat)) s => match vs with | [.elem a, .elem b] => (a - b, s) | _ => (0, s)) vs s := by
  match vs, h with
  | [a, b], _ => cases a <;> cases b <;> rfl

end Makeshift.Props
