import Mathlib.Data.List.Forall2
import Verif.Spec.TupleAccess

/-! # C84: value_tuple can be used like std::tuple -/

namespace Makeshift.Props

open Makeshift.TupleAccess Makeshift.Spec.TupleAccess

variable {V : Type}

/-! ## Access -/

/-- `get<I>` of a `value_tuple` is what it is for a `std::tuple` if the tuple is a non-const lvalue; if it is a const lvalue, exactly
for elements which are objects or references to const; if it is an rvalue, only for lvalue references to const. -/
theorem C84_get_partial (a : Access) (t : Ty) :
    TupleAccess.get a t = StdGet a t ↔
      match a.const, a.rvalue with
      | false, false => True
      | true, false => (∃ c, t = .obj c) ∨ t.referred.const = true
      | _, true => ∃ n, t = .lref ⟨n, true⟩ := by
  obtain ⟨c, r⟩ := a
  cases c <;> cases r <;> cases t with
  | obj d => obtain ⟨n, k⟩ := d; cases k <;> simp [TupleAccess.get, StdGet, leafGet, leafGetConst, Ty.addLRef, Ty.addConst, Ty.referred]
  | lref d => obtain ⟨n, k⟩ := d; cases k <;> simp [TupleAccess.get, StdGet, leafGet, leafGetConst, Ty.addLRef, Ty.addConst, Ty.referred]
  | rref d => obtain ⟨n, k⟩ := d; cases k <;> simp [TupleAccess.get, StdGet, leafGet, leafGetConst, Ty.addLRef, Ty.addConst, Ty.referred]

/-- Elements of a `value_tuple` are always handed out as lvalues, so they are never moved from; and unless the tuple is a non-const
lvalue, they are read-only even if the element is a reference to a modifiable object. -/
theorem C84_get_lvalue (a : Access) (t : Ty) :
    ∃ c, TupleAccess.get a t = .lref c ∧ c.ty = t.referred.ty ∧ (c.const = false ↔ a = ⟨false, false⟩ ∧ t.referred.const = false) := by
  obtain ⟨c, r⟩ := a
  cases c <;> cases r <;> cases t <;> simp [TupleAccess.get, leafGet, leafGetConst, Ty.addLRef, Ty.addConst, Ty.referred]

/-- `get<0>(value_tuple<int>{ ... })` is an lvalue of type `int const`, and so is `get<0>(value_tuple<int&>{ i })`. -/
theorem C84_get_rvalue_const :
    TupleAccess.get ⟨false, true⟩ (.obj ⟨0, false⟩) = .lref ⟨0, true⟩ ∧ StdGet ⟨false, true⟩ (.obj ⟨0, false⟩) = .rref ⟨0, false⟩ ∧
    TupleAccess.get ⟨false, true⟩ (.lref ⟨0, false⟩) = .lref ⟨0, true⟩ ∧ StdGet ⟨false, true⟩ (.lref ⟨0, false⟩) = .lref ⟨0, false⟩ := by
  decide

/-! ## Structured bindings -/

/-- A structured binding to an element of a `value_tuple` compiles exactly in these cases: `auto&`; the element is const or a
reference to const; the binding is const and the element is an object. -/
theorem C84_bindings_partial (d : Decl) (t : Ty) :
    Bindable (tupleElement d.access.const t) (TupleAccess.get d.access t) ↔
      d = .autoRef ∨ t.referred.const = true ∨ (d.access.const = true ∧ ∃ c, t = .obj c) := by
  cases d <;> cases t <;>
    simp [Bindable, Binds, tupleElement, TupleAccess.get, Decl.access, leafGet, leafGetConst, Ty.addLRef, Ty.addConst, Ty.referred]

/-- For a `std::tuple` all of them compile. -/
theorem C84_bindings_std (d : Decl) (t : Ty) : Bindable (tupleElement d.access.const t) (StdGet d.access t) := by
  cases d <;> cases t <;>
    simp [Bindable, Binds, tupleElement, StdGet, Decl.access, Ty.addLRef, Ty.addConst]

/-- In particular, `auto [a] = value_tuple{ 1 };` does not compile, and neither does `auto [a] = tie_members<value_tuple>(x);`. -/
theorem C84_no_auto_binding :
    ¬ Bindable (tupleElement Decl.auto.access.const (.obj ⟨0, false⟩)) (TupleAccess.get Decl.auto.access (.obj ⟨0, false⟩)) ∧
    ¬ Bindable (tupleElement Decl.auto.access.const (.lref ⟨0, false⟩)) (TupleAccess.get Decl.auto.access (.lref ⟨0, false⟩)) := by
  constructor <;> exact fun h => by simpa [Ty.referred, Decl.access] using (C84_bindings_partial _ _).1 h

example : Bindable (tupleElement Decl.autoRef.access.const (.obj ⟨0, false⟩)) (TupleAccess.get Decl.autoRef.access (.obj ⟨0, false⟩)) :=
  (C84_bindings_partial _ _).2 (.inl rfl)

/-! ## Construction -/

/-- A `value_tuple` can be constructed exactly if there is one argument per element and each element can be initialised. -/
theorem C84_construct_iff (cls : Classes) (moved : V → V) (ts : List Ty) (args : List (Arg V)) (m : Mem V) :
    (∃ r, construct cls moved ts args m = some r) ↔ List.Forall₂ (CanInit cls) ts args := by
  induction ts generalizing args m with
  | nil => cases args <;> simp [construct, initParams, initLeaves]
  | cons t ts ih =>
    cases args with
    | nil => simp [construct, initParams]
    | cons a as =>
      have key : (∃ r, construct cls moved (t :: ts) (a :: as) m = some r) ↔
          ∃ p l, initParam cls moved t a m = some p ∧ initLeaf cls t p.1 = some l ∧ ∃ r, construct cls moved ts as p.2 = some r := by
        simp only [construct, initParams]
        constructor
        · rintro ⟨r, h⟩
          simp only [Option.bind_eq_some_iff, Option.map_eq_some_iff] at h
          obtain ⟨_, ⟨p, hp, ⟨ps, hps, rfl⟩⟩, ls, hl, rfl⟩ := h
          simp only [initLeaves, Option.bind_eq_some_iff, Option.map_eq_some_iff] at hl
          obtain ⟨l, hl1, ls', hl2, rfl⟩ := hl
          exact ⟨p, l, hp, hl1, _, by simp [hps, hl2]; rfl⟩
        · rintro ⟨p, l, hp, hl, r, h⟩
          simp only [Option.bind_eq_some_iff, Option.map_eq_some_iff] at h
          obtain ⟨ps, hps, ls, hls, rfl⟩ := h
          exact ⟨(l :: ls, ps.2), by simp [hp, hps, initLeaves, hl, hls]⟩
      rw [key, List.forall₂_cons]
      constructor
      · rintro ⟨p, l, hp, hl, hr⟩
        refine ⟨?_, (ih as p.2).1 hr⟩
        cases t with
        | obj c =>
          have hc : cls.copyable c.ty = true := by
            by_contra hn
            cases hps : p.1 <;> simp [initLeaf, hps, hn] at hl
          refine ⟨hc, fun loc hloc => ?_⟩
          subst hloc
          by_contra hn
          simp [initParam, hn] at hp
        | lref c =>
          cases a with
          | prvalue v => simp [initParam] at hp
          | ref loc k r =>
            simp only [initParam] at hp
            split at hp
            · rename_i hb
              simp at hb
              exact ⟨hb.1, fun hk => by cases hb.2 with
                | inl h => exact h
                | inr h => simp [hk] at h⟩
            · simp at hp
        | rref c => cases hps : p.1 <;> simp [initLeaf] at hl
      · rintro ⟨hc, hrest⟩
        cases t with
        | obj c =>
          obtain ⟨h1, h2⟩ := hc
          cases a with
          | prvalue v => exact ⟨_, .val v, rfl, by simp [initLeaf, h1], (ih as _).2 hrest⟩
          | ref loc k r =>
            by_cases hm : (r && !k) = true
            · simp at hm
              obtain ⟨rfl, rfl⟩ := hm
              exact ⟨(.val (m loc), m.moveFrom moved loc), .val (m loc), by simp [initParam, h2 loc rfl], by simp [initLeaf, h1], (ih as _).2 hrest⟩
            · exact ⟨(.val (m loc), m), .val (m loc), by simp only [initParam, hm, h1]; simp, by simp [initLeaf, h1], (ih as _).2 hrest⟩
        | lref c =>
          cases a with
          | prvalue v => exact hc.elim
          | ref loc k r =>
            obtain ⟨rfl, h2⟩ := hc
            refine ⟨(.ref loc, m), .ref loc, ?_, rfl, (ih as _).2 hrest⟩
            cases k <;> simp [initParam] at h2 ⊢
            exact h2
        | rref c => exact hc.elim

/-- An element of a move-only type cannot be stored, whatever the argument. -/
theorem C84_no_move_only (cls : Classes) (moved : V → V) (ts : List Ty) (args : List (Arg V)) (m : Mem V) (c : CTy)
    (hc : .obj c ∈ ts) (hcopy : cls.copyable c.ty = false) : construct cls moved ts args m = none := by
  by_contra hn
  obtain ⟨r, hr⟩ := Option.ne_none_iff_exists'.1 hn
  have h := (C84_construct_iff cls moved ts args m).1 ⟨r, hr⟩
  obtain ⟨i, hi, hit⟩ := List.getElem_of_mem hc
  have := (List.forall₂_iff_get.1 h).2 i hi (h.length_eq ▸ hi)
  simp only [List.get_eq_getElem, hit, CanInit, hcopy] at this
  exact absurd this.1 (by simp)

private theorem holds_mono {m m' : Mem V} {t : Ty} {a : Arg V} {s : Stored V} (h : Holds m' t a s)
    (hm : ∀ l, SourceLoc t a = some l → m' l = m l) : Holds m t a s := by
  cases t <;> cases a <;> simp_all [Holds, SourceLoc]

/-- If no object is moved from for one element and read for another, the elements hold what the arguments held before the call, in
order; objects passed as non-const rvalues for object elements are moved from (once) and all others are unchanged. -/
theorem C84_construct_values (cls : Classes) (moved : V → V) (ts : List Ty) (args : List (Arg V)) (m m' : Mem V) (ls : List (Stored V))
    (h : construct cls moved ts args m = some (ls, m'))
    (hd : (ts.zip args).Pairwise fun p q => (∀ l, MovedLoc p.1 p.2 = some l → SourceLoc q.1 q.2 ≠ some l)) :
    List.Forall₂ (fun ta s => Holds m ta.1 ta.2 s) (ts.zip args) ls ∧
    (∀ l, some l ∈ (ts.zip args).map (fun ta => MovedLoc ta.1 ta.2) → m' l = moved (m l)) ∧
    (∀ l, some l ∉ (ts.zip args).map (fun ta => MovedLoc ta.1 ta.2) → m' l = m l) := by
  induction ts generalizing args m ls with
  | nil =>
    cases args with
    | nil => simp [construct, initParams, initLeaves] at h; simp [← h.1, ← h.2]
    | cons a as => simp [construct, initParams] at h
  | cons t ts ih =>
    cases args with
    | nil => simp [construct, initParams] at h
    | cons a as =>
      simp only [construct, initParams, Option.bind_eq_some_iff, Option.map_eq_some_iff] at h
      obtain ⟨_, ⟨⟨p, m1⟩, hp, ⟨ps, hps, rfl⟩⟩, ls0, hl, h3⟩ := h
      simp only [initLeaves, Option.bind_eq_some_iff, Option.map_eq_some_iff] at hl
      obtain ⟨l, hl1, ls', hl2, rfl⟩ := hl
      cases h3
      simp only [List.zip_cons_cons, List.pairwise_cons] at hd
      have hrec := ih as m1 ls' (by simp [construct, hps, hl2]) hd.2
      obtain ⟨r1, r2, r3⟩ := hrec
      -- the first element
      have hmem : ∀ l, MovedLoc t a ≠ some l → m1 l = m l := by
        intro l hne
        cases t <;> cases a <;> simp only [initParam] at hp
        · cases hp; rfl
        · rename_i c loc k r
          split at hp
          · rename_i hk
            simp at hk
            obtain ⟨rfl, rfl⟩ := hk
            split at hp
            · cases hp
              simp only [MovedLoc, ne_eq, Option.some.injEq] at hne
              simp [Mem.moveFrom, Ne.symm hne]
            · cases hp
          · split at hp <;> cases hp; rfl
        · cases hp
        · split at hp <;> cases hp; rfl
        · cases hp
        · split at hp <;> cases hp; rfl
      have hmv : ∀ l, MovedLoc t a = some l → m1 l = moved (m l) := by
        intro l he
        cases t <;> cases a <;> simp only [MovedLoc] at he <;> try (cases he)
        rename_i c loc k r
        cases k <;> cases r <;> simp at he
        subst he
        simp only [initParam] at hp
        split at hp
        · cases hcm : cls.movable c.ty <;> simp [hcm] at hp
          simp [← hp.2, Mem.moveFrom]
        · simp_all
      have hhold : Holds m t a l := by
        cases t <;> cases a <;> simp only [initParam] at hp
        · cases hp
          simp only [initLeaf] at hl1
          split at hl1 <;> cases hl1
          rfl
        · split at hp <;> split at hp <;> cases hp <;> simp only [initLeaf] at hl1 <;> split at hl1 <;> cases hl1 <;> rfl
        · cases hp
        · split at hp <;> cases hp
          simp only [initLeaf] at hl1
          cases hl1
          rfl
        · cases hp
        · split at hp <;> cases hp
          simp [initLeaf] at hl1
      have hsrc : ∀ q ∈ ts.zip as, ∀ l, SourceLoc q.1 q.2 = some l → m1 l = m l := by
        intro q hq l hl
        apply hmem
        intro hml
        exact hd.1 q hq l hml hl
      have hms : ∀ q : Ty × Arg V, ∀ l, MovedLoc q.1 q.2 = some l → SourceLoc q.1 q.2 = some l := by
        rintro ⟨t, a⟩ l
        cases t <;> cases a <;> simp only [MovedLoc, SourceLoc] <;> try (intro h; cases h)
        rename_i c loc k r
        cases k <;> cases r <;> simp
      refine ⟨?_, ?_, ?_⟩
      · refine List.Forall₂.cons hhold ?_
        have : ∀ (zs : List (Ty × Arg V)) ss, (∀ q ∈ zs, ∀ l, SourceLoc q.1 q.2 = some l → m1 l = m l) →
            List.Forall₂ (fun ta s => Holds m1 ta.1 ta.2 s) zs ss → List.Forall₂ (fun ta s => Holds m ta.1 ta.2 s) zs ss := by
          intro zs ss hz h
          induction h with
          | nil => exact .nil
          | cons h1 _ ih => exact .cons (holds_mono h1 (hz _ (by simp))) (ih fun q hq => hz q (by simp [hq]))
        exact this _ _ hsrc r1
      · intro l hmem'
        simp only [List.zip_cons_cons, List.map_cons, List.mem_cons] at hmem'
        rcases hmem' with he | hr
        · have hnot : some l ∉ (ts.zip as).map (fun ta => MovedLoc ta.1 ta.2) := by
            intro hin
            obtain ⟨q, hq, hql⟩ := List.mem_map.1 hin
            exact hd.1 q hq l he.symm (hms q l hql)
          rw [r3 l hnot, hmv l he.symm]
        · rw [r2 l hr]
          obtain ⟨q, hq, hql⟩ := List.mem_map.1 hr
          rw [hsrc q hq l (hms q l hql)]
      · intro l hmem'
        simp only [List.zip_cons_cons, List.map_cons, List.mem_cons, not_or] at hmem'
        rw [r3 l hmem'.2, hmem l (fun h => hmem'.1 h.symm)]

-- `value_tuple<int, int&, int>{ i, j, std::move(k) }`
example : construct (V := Int) ⟨fun _ => true, fun _ => true⟩ (fun _ => 0) [.obj ⟨0, false⟩, .lref ⟨0, false⟩, .obj ⟨0, false⟩]
    [.ref 0 false false, .ref 1 false false, .ref 2 false true] (fun l => (l : Int) + 10) =
    some ([Stored.val (10 : Int), Stored.ref 1, Stored.val 12], fun l : Nat => if l = 2 then 0 else (l : Int) + 10) := by
  simp [construct, initParams, initParam, initLeaves, initLeaf]
  funext l
  simp [Mem.moveFrom]

example : ([Ty.obj ⟨0, false⟩, .lref ⟨0, false⟩, .obj ⟨0, false⟩].zip
    [Arg.ref (V := Int) 0 false false, .ref 1 false false, .ref 2 false true]).Pairwise
    fun p q => (∀ l, MovedLoc p.1 p.2 = some l → SourceLoc q.1 q.2 ≠ some l) := by
  simp [MovedLoc, SourceLoc]

-- a move-only type (number 1) can be held by a reference only
example : construct (V := Int) ⟨fun n => n = 0, fun _ => true⟩ (fun _ => 0) [.obj ⟨1, false⟩] [.prvalue 3] (fun _ => 0) = none :=
  C84_no_move_only _ _ _ _ _ ⟨1, false⟩ (by simp) rfl

/-! ## Deduction -/

private theorem not_self_nested (ts : List DTy) : ts ≠ [.valueTuple ts] := by
  intro h
  have := congrArg sizeOf h
  simp at this
  omega

/-- `value_tuple{ args... }` has one element per argument unless it is given exactly one `value_tuple`, which is copied;
`make_value_tuple(args...)` always has one element per argument. -/
theorem C84_deduce_partial (args : List DTy) :
    makeValueTuple args = .valueTuple args ∧ (deduce args = .valueTuple args ↔ ¬ ∃ ts, args = [.valueTuple ts]) := by
  refine ⟨rfl, ?_⟩
  match args with
  | [] => simp [deduce]
  | [.base n] => simp [deduce]
  | [.valueTuple ts] => simpa [deduce] using not_self_nested ts
  | _ :: _ :: _ => simp [deduce]

/-- So nesting a single tuple has no effect: `value_tuple{ value_tuple{ 1 } }` is a `value_tuple<int>`. -/
theorem C84_deduce_single (ts : List DTy) : deduce [.valueTuple ts] = .valueTuple ts ∧ deduce [.valueTuple ts] ≠ makeValueTuple [.valueTuple ts] := by
  refine ⟨rfl, ?_⟩
  intro h
  simp only [deduce, makeValueTuple, DTy.valueTuple.injEq] at h
  exact not_self_nested ts h

example : deduce [.base 0, .valueTuple [.base 1]] = .valueTuple [.base 0, .valueTuple [.base 1]] :=
  (C84_deduce_partial _).2.2 (by simp)

end Makeshift.Props
