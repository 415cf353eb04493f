import Verif.Spec.SoaColumns
import Verif.Lemmas.SoaSpan
import Verif.Props.SoaSpan

/-!
# C103: the columns of a `soa_span`, and its iterator types
-/

namespace Makeshift.Props

open Makeshift.Soa Makeshift.Spec.Soa

variable {α : Type}

private theorem sub_data {s t : Span} {o n : Nat} (h : s.subspan o n = .ok t) :
    t = ⟨s.data.map fun p => { p with off := p.off + o }, if n ≠ npos then n else s.size - o⟩ ∧ o ≤ s.size ∧
      (n = npos ∨ n ≤ s.size - o) := by
  unfold Span.subspan Outcome.expects at h
  by_cases hc : (decide (o ≤ s.size) && (decide (n = npos) || decide (n ≤ s.size - o))) = true
  · rw [hc] at h
    simp only [if_true, Outcome.bind_ok, Outcome.ok.injEq] at h
    simp only [Bool.and_eq_true, Bool.or_eq_true, decide_eq_true_eq] at hc
    exact ⟨h.symm, hc.1, hc.2⟩
  · simp [hc, Outcome.bind] at h

private theorem last_sub {s t : Span} {n : Nat} (h : s.last n = .ok t) : s.subspan (s.size - n) n = .ok t := by
  unfold Span.last Outcome.expects at h
  by_cases hc : n ≤ s.size
  · simpa [hc] using h
  · simp [hc, Outcome.bind] at h

private theorem make_data {cols : List Col} {s : Span} (h : makeSoaSpan cols = .ok s) :
    s.data = cols.map (·.1) ∧ (∀ c ∈ cols, c.2 = s.size) ∧ (cols = [] → s.size = 0) := ((C58_construct cols).1 s).1 h

private theorem mapM_range {β : Type} (l : List β) : (List.range l.length).mapM (fun i => l[i]?) = some l := by
  induction l with
  | nil => rfl
  | cons x l ih =>
    rw [List.length_cons, List.range_succ_eq_map, List.mapM_cons]
    have : (List.map Nat.succ (List.range l.length)).mapM (fun i => (x :: l)[i]?) =
        (List.range l.length).mapM (fun i => l[i]?) := by
      rw [List.mapM_map]; rfl
    rw [this, ih]; rfl

private theorem bindings_eq (s : Span) : s.bindings = some (s.data.map fun p => (p, s.size)) := by
  have h := mapM_range (s.data.map fun p => (p, s.size))
  rw [List.length_map] at h
  rw [← h]
  unfold Span.bindings Span.tupleSize
  congr 1
  funext i
  simp [Span.get]

/-- C103: taking the columns of a span gives back the spans it was made from, in the same order. -/
theorem C103_columns (cols : List Col) (s : Span) (h : makeSoaSpan cols = .ok s) :
    s.bindings = some cols ∧ ∀ I, s.get I = cols[I]? := by
  obtain ⟨h1, h2, -⟩ := make_data h
  have key : s.data.map (fun p => (p, s.size)) = cols := by
    rw [h1, List.map_map]
    conv_rhs => rw [← List.map_id cols]
    apply List.map_congr_left
    rintro ⟨p, n⟩ hc
    have := h2 _ hc
    simp only [Function.comp, id] at *
    rw [this]
  refine ⟨by rw [bindings_eq, key], fun I => ?_⟩
  conv_rhs => rw [← key]
  simp [Span.get]

example : ∃ s, makeSoaSpan [(⟨0, 1⟩, 3), (⟨1, 1⟩, 3)] = .ok s := ⟨_, rfl⟩

/-- C103: conversely, every span which a program can have is the one made from its columns. -/
theorem C103_reassemble (s : Span) (h : Obtained s) : ∃ cols, s.bindings = some cols ∧ makeSoaSpan cols = .ok s := by
  have inv : s.data = [] → s.size = 0 := by
    induction h with
    | make h =>
      obtain ⟨h1, -, h3⟩ := make_data h
      intro e
      exact h3 (by simpa [h1] using e)
    | subspan _ e ih =>
      obtain ⟨rfl, h1, h2⟩ := sub_data e
      intro e
      have := ih (by simpa using e)
      simp only
      split <;> omega
    | first _ e ih =>
      obtain ⟨rfl, h1, h2⟩ := sub_data e
      intro e
      have := ih (by simpa using e)
      simp only
      split <;> omega
    | last _ e ih =>
      obtain ⟨rfl, h1, h2⟩ := sub_data (last_sub e)
      intro e
      have := ih (by simpa using e)
      simp only
      split <;> omega
  refine ⟨_, bindings_eq s, ((C58_construct _).1 s).2 ⟨?_, ?_, ?_⟩⟩
  · simp [Function.comp_def]
  · simp
  · intro e
    exact inv (by simpa using e)

example : ∃ t, soaExampleSpan.subspan 1 2 = .ok t ∧ Obtained t :=
  ⟨_, rfl, .subspan (.make (cols := [(⟨0, 1⟩, 3), (⟨1, 1⟩, 3)]) (s := soaExampleSpan) rfl) (o := 1) (n := 2) rfl⟩

/-- C103: the columns of a part of a span are the same parts of its columns. -/
theorem C103_subspan (s t : Span) (o n : Nat) (h : s.subspan o n = .ok t) (I : Nat) :
    t.tupleSize = s.tupleSize ∧
    t.get I = (s.get I).map fun c => partOf c o (if n = 18446744073709551615 then c.2 - o else n) := by
  obtain ⟨rfl, -, -⟩ := sub_data h
  have hn : npos = 18446744073709551615 := rfl
  refine ⟨by simp [Span.tupleSize], ?_⟩
  rcases he : s.data[I]? with _ | p
  · simp [Span.get, he]
  · simp only [Span.get, List.getElem?_map, he, Option.map_some, partOf, hn]
    by_cases hc : n = 18446744073709551615 <;> simp [hc]

example : ∃ t, soaExampleSpan.subspan 1 2 = .ok t := ⟨_, rfl⟩

/-- C103: row `i` has element `i` of each column: reading `get<I>(s)[i]` gives what reading `get<I>(s[i])` gives, and both fail fast iff `i`
is not less than the size. -/
theorem C103_elements (st : State α) (b : Nat) (s : Span) (hb : st.spans b = some s) (hv : Valid st s) (I : Nat) (c : Col)
    (hc : s.get I = some c) (i : Nat) :
    (i < s.size → ∃ r v, at' st b i = .ok r ∧ getElem st r I = .ok (some v) ∧ Col.at st c i = .ok v) ∧
    (s.size ≤ i → at' st b i = .failFast ∧ Col.at st c i = .failFast) := by
  simp only [Span.get, Option.map_eq_some_iff] at hc
  obtain ⟨p, hp, rfl⟩ := hc
  constructor
  · intro hi
    obtain ⟨r, vals, h1, h2, -, h4⟩ := (C58_index st b s hb hv i).1 hi
    obtain ⟨hI, hpI⟩ := List.getElem?_eq_some_iff.1 hp
    have hl := h2.length_eq
    have hv' := (List.forall₂_iff_get.1 h2).2 I hI (by omega)
    simp only [List.get_eq_getElem, hpI] at hv'
    refine ⟨r, vals[I], h1, h4 I _ (List.getElem?_eq_getElem (by omega)), ?_⟩
    simp only [Col.at, Outcome.expects, hi, decide_true, if_true, Outcome.bind_ok]
    exact readCell_ok hv'
  · intro hi
    refine ⟨(C58_index st b s hb hv i).2 hi, ?_⟩
    have : ¬ i < s.size := by omega
    simp [Col.at, Outcome.expects, this, Outcome.bind]

example : soaExample.spans 0 = some soaExampleSpan ∧ Valid soaExample soaExampleSpan ∧ soaExampleSpan.get 1 = some (⟨1, 1⟩, 3) :=
  ⟨rfl, soaExample_valid, rfl⟩

/-- C103: writing an element through a column changes that component of that row, and nothing else. -/
theorem C103_write (st : State α) (s : Span) (hv : Valid st s) (hs : Separate s) (hw : Writable st s) (I : Nat) (c : Col)
    (hc : s.get I = some c) (i : Nat) (hi : i < s.size) (v : α) (vals : List α) (hr : Row st s i vals) :
    ∃ st', Col.set st c i v = .ok st' ∧ OnlyRowSet s st st' i (vals.set I v) := by
  simp only [Span.get, Option.map_eq_some_iff] at hc
  obtain ⟨p, hp, rfl⟩ := hc
  obtain ⟨hI, hpI⟩ := List.getElem?_eq_some_iff.1 hp
  have hmem : p ∈ s.data := hpI ▸ List.getElem_mem hI
  have hlen : p.off + i < (st.cells p.arr).length := by have := hv p hmem; omega
  have huniq : ∀ (k : Nat) (hk : k < s.data.length), s.data[k].arr = p.arr → k = I := by
    intro k hk e
    have hk' : k < (s.data.map (·.arr)).length := by simpa using hk
    have hI' : I < (s.data.map (·.arr)).length := by simpa using hI
    have : (s.data.map (·.arr))[k] = (s.data.map (·.arr))[I] := by
      simp only [List.getElem_map, hpI, e]
    exact (List.Nodup.getElem_inj_iff hs).1 this
  have helem : ∀ (q : Ptr), q ∈ s.data → ∀ k, k ≠ i →
      elem { st with cells := fun a => if a = p.arr then (st.cells a).set (p.off + i) v else st.cells a } q k = elem st q k := by
    intro q hq k hk
    by_cases e : q.arr = p.arr
    · have : q = p := separate_unique hs hq hmem e
      subst this
      simp [elem, Ne.symm hk]
    · simp [elem, e]
  refine ⟨{ st with cells := fun a => if a = p.arr then (st.cells a).set (p.off + i) v else st.cells a }, ?_, ?_, ?_, rfl, ?_⟩
  · simp only [Col.set, Outcome.expects, hi, decide_true, if_true, Outcome.bind_ok]
    exact writeCell_ok st p i v hlen (hw p hmem)
  · refine List.forall₂_iff_get.2 ⟨by rw [List.length_set]; exact hr.length_eq, ?_⟩
    intro k h1 h2
    have hl := hr.length_eq
    have h3 : k < vals.length := by simpa using h2
    have hk := (List.forall₂_iff_get.1 hr).2 k h1 h3
    simp only [List.get_eq_getElem] at hk ⊢
    by_cases e : k = I
    · subst e
      rw [hpI] at hk ⊢
      simp [elem, hlen]
    · rw [List.getElem_set_ne (Ne.symm e)]
      have : ¬ s.data[k].arr = p.arr := fun h => e (huniq k h1 h)
      simpa [elem, this] using hk
  · intro k r hk
    unfold Row
    constructor
    · intro h
      refine List.Forall₂.imp ?_ (List.forall₂_and_left (p := fun q => q ∈ s.data) _ _ |>.2 ⟨fun q hq => hq, h⟩)
      rintro q w ⟨hq, e⟩
      rw [helem q hq k hk]; exact e
    · intro h
      refine List.Forall₂.imp ?_ (List.forall₂_and_left (p := fun q => q ∈ s.data) _ _ |>.2 ⟨fun q hq => hq, h⟩)
      rintro q w ⟨hq, e⟩
      rw [helem q hq k hk] at e; exact e
  · intro arr pos hout
    by_cases e : arr = p.arr
    · subst e
      have : ¬ p.off + i = pos := by
        intro h
        exact hout ⟨p, hmem, rfl, by omega, by omega⟩
      simp [this]
    · simp [e]

example : Valid soaExample soaExampleSpan ∧ Separate soaExampleSpan ∧ Writable soaExample soaExampleSpan ∧
    soaExampleSpan.get 1 = some (⟨1, 1⟩, 3) ∧ 1 < soaExampleSpan.size ∧ ∃ vals, Row soaExample soaExampleSpan 1 vals :=
  ⟨soaExample_valid, soaExample_separate, soaExample_writable, rfl, by decide, row_exists soaExample_valid (by decide)⟩

private theorem zip_const : ∀ (ts : List ColTy), ((ts.map ColTy.addConst).zip ts).all (fun (t, r) => decide (t = r.addConst)) = true := by
  intro ts
  induction ts with
  | nil => rfl
  | cons t ts ih => simp [ih]

private theorem addConst_of_const {t : ColTy} (h : t.const = true) : t.addConst = t := by
  cases t; simp_all [ColTy.addConst]

private theorem map_addConst_eq (ts : List ColTy) : ts.map ColTy.addConst = ts ↔ ∀ t ∈ ts, t.const = true := by
  constructor
  · intro h t ht
    rw [← h] at ht
    obtain ⟨r, -, rfl⟩ := List.mem_map.1 ht
    rfl
  · intro h
    conv_rhs => rw [← List.map_id ts]
    exact List.map_congr_left fun t ht => by simp [addConst_of_const (h t ht)]

/-- C103: when an iterator converts to another iterator type: if the types are the same, or if no column of the first is `const` and the
second has the same columns, all `const`. -/
theorem C103_conversion (ts rs : List ColTy) :
    iteratorFrom ts rs = true ↔
      ts = rs ∨ (∀ r ∈ rs, r.const = false) ∧ ts = rs.map fun r => ⟨r.ty, true⟩ := by
  have h2 : ∀ (ts rs : List ColTy), ts.length = rs.length → ((ts.zip rs).all (fun (t, r) => decide (t = r.addConst)) = true ↔
      ts = rs.map fun r => ⟨r.ty, true⟩) := by
    intro ts
    induction ts with
    | nil => intro rs h; cases rs <;> simp_all
    | cons t ts ih =>
      intro rs h
      rcases rs with _ | ⟨r, rs⟩
      · simp at h
      · simp only [List.zip_cons_cons, List.all_cons, Bool.and_eq_true, decide_eq_true_eq, List.map_cons, List.cons.injEq]
        rw [ih rs (by simpa using h)]
        rfl
  unfold iteratorFrom convertingCtor
  simp only [Bool.or_eq_true, Bool.and_eq_true, decide_eq_true_eq]
  apply or_congr_right
  constructor
  · rintro ⟨hl, ⟨-, hr⟩, hz⟩
    exact ⟨by simpa using hr, (h2 ts rs hl).1 hz⟩
  · rintro ⟨hr, rfl⟩
    refine ⟨by simp, ⟨by simp, by simpa using hr⟩, (h2 _ _ (by simp)).2 rfl⟩

/-- C103: the iterator of a span converts to its `const_iterator` if no column is `const`, or all are; and the result refers to the same
row. -/
theorem C103_to_const_iterator_partial (ts : List ColTy) (h : (∀ t ∈ ts, t.const = false) ∨ ∀ t ∈ ts, t.const = true) :
    iteratorFrom (constIteratorTy ts) (iteratorTy ts) = true ∧ (∀ it, convertIterator it = it) ∧
    (∀ b, convertIterator (begin' b) = cbegin b) ∧
    (∀ (st : State α) b, (end' st b).bind (fun it => .ok (convertIterator it)) = cend st b) := by
  refine ⟨?_, fun _ => rfl, fun _ => rfl, ?_⟩
  · rw [C103_conversion]
    rcases h with h | h
    · exact .inr ⟨h, rfl⟩
    · exact .inl ((map_addConst_eq ts).2 h)
  · intro st b
    unfold end' cend State.withSpan
    cases st.spans b <;> rfl

example : ∃ ts : List ColTy, ts.length = 2 ∧ ∀ t ∈ ts, t.const = false := ⟨[⟨0, false⟩, ⟨1, false⟩], rfl, by simp⟩

/-- C103, the part of the claim which is false: a span with a column which is `const` and one which is not, as in
`soa_span<int, double const>`, has an `iterator` which does not convert to its `const_iterator`. -/
theorem C103_to_const_iterator_negated :
    (∀ ts : List ColTy, iteratorFrom (constIteratorTy ts) (iteratorTy ts) = true ↔
      (∀ t ∈ ts, t.const = false) ∨ ∀ t ∈ ts, t.const = true) ∧
    iteratorFrom (constIteratorTy [⟨0, false⟩, ⟨1, true⟩]) (iteratorTy [⟨0, false⟩, ⟨1, true⟩]) = false := by
  refine ⟨fun ts => ⟨fun h => ?_, fun h => (C103_to_const_iterator_partial (α := Nat) ts h).1⟩, by decide⟩
  rcases (C103_conversion _ _).1 h with h | h
  · exact .inr ((map_addConst_eq ts).1 h)
  · exact .inl h.1

/-- C103: iterators never convert to iterators which are less `const`. -/
theorem C103_keeps_const (ts rs : List ColTy) (h : iteratorFrom ts rs = true) : MoreConst ts rs := by
  rcases (C103_conversion ts rs).1 h with rfl | ⟨-, rfl⟩
  · exact List.forall₂_same.2 fun t _ => ⟨rfl, id⟩
  · unfold MoreConst
    rw [List.forall₂_map_right_iff]
    exact List.forall₂_same.2 fun t _ => ⟨rfl, fun _ => rfl⟩

example : iteratorFrom [⟨0, true⟩, ⟨1, true⟩] [⟨0, false⟩, ⟨1, false⟩] = true := by decide

/-- C103, another part which is false: a reference converts to the `const_reference` type of the span only if the two are the same type, that
is, if all columns are `const`. -/
theorem C103_to_const_reference_negated (ts : List ColTy) :
    (referenceFrom (constReferenceTy ts) (referenceTy ts) = true ↔ ∀ t ∈ ts, t.const = true) ∧
    referenceFrom (constReferenceTy [⟨0, false⟩, ⟨1, false⟩]) (referenceTy [⟨0, false⟩, ⟨1, false⟩]) = false := by
  refine ⟨?_, by decide⟩
  unfold referenceFrom constReferenceTy referenceTy
  rw [decide_eq_true_eq]
  exact map_addConst_eq ts

/-- C103: `value_type` of the iterators.  It is that of the span iff no column is `const`; that of `const_iterator` never is, unless there are
no columns: its components are `const`. -/
theorem C103_value_type (ts : List ColTy) :
    (iteratorValueTy (iteratorTy ts) = valueTy ts ↔ ∀ t ∈ ts, t.const = false) ∧
    (iteratorValueTy (constIteratorTy ts) = valueTy ts ↔ ts = []) ∧
    iteratorValueTy (iteratorTy ts) = elementTy ts := by
  refine ⟨?_, ?_, rfl⟩
  · unfold iteratorValueTy iteratorTy valueTy
    constructor
    · intro h t ht
      rw [h] at ht
      obtain ⟨r, -, rfl⟩ := List.mem_map.1 ht
      rfl
    · intro h
      conv_lhs => rw [← List.map_id ts]
      exact List.map_congr_left fun t ht => by have := h t ht; cases t; simp_all
  · unfold iteratorValueTy constIteratorTy valueTy
    cases ts <;> simp [ColTy.addConst]

example : (∀ t ∈ ([⟨0, false⟩, ⟨1, false⟩] : List ColTy), t.const = false) ∧ ([⟨0, false⟩, ⟨1, false⟩] : List ColTy) ≠ [] := by decide

end Makeshift.Props
