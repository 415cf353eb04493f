import Verif.Lemmas.SoaSpan
import Verif.Props.Permutation

/-!
# `soa_span`: C58 - C60, C67, C68
-/

namespace Makeshift.Props

open Makeshift.Soa
open Makeshift.Spec.Soa

variable {α : Type}

/-! A state for the examples: two columns of four elements, a span over the last three rows as object 0. -/

/-- Example state. -/
def soaExample : State Nat :=
  { cells := fun a => if a = 0 then [10, 11, 12, 13] else if a = 1 then [20, 21, 22, 23] else []
    isConst := fun _ => false
    spans := fun b => if b = 0 then some ⟨[⟨0, 1⟩, ⟨1, 1⟩], 3⟩ else none }

/-- The span of the example. -/
def soaExampleSpan : Span := ⟨[⟨0, 1⟩, ⟨1, 1⟩], 3⟩

theorem soaExample_span : soaExample.spans 0 = some soaExampleSpan := rfl
theorem soaExample_valid : Valid soaExample soaExampleSpan := by
  intro p hp
  simp only [soaExampleSpan, List.mem_cons, List.not_mem_nil, or_false] at hp
  rcases hp with rfl | rfl <;> decide
theorem soaExample_separate : Separate soaExampleSpan := by unfold Separate; decide
theorem soaExample_writable : Writable soaExample soaExampleSpan := fun _ _ => rfl

/-! ## C58 -/

/-- C58: a span can be made from columns iff they have the same size; otherwise the constructor fails fast. -/
theorem C58_construct (cols : List (Ptr × Nat)) :
    (∀ s, makeSpan cols = .ok s ↔ s.data = cols.map (·.1) ∧ (∀ c ∈ cols, c.2 = s.size) ∧ (cols = [] → s.size = 0)) ∧
    (makeSpan cols = .failFast ↔ ∃ c ∈ cols, ∃ d ∈ cols, c.2 ≠ d.2) := by
  have key : ∀ (l : List Nat), (∀ n, checkAllEqual l = .ok n ↔ (∀ x ∈ l, x = n) ∧ (l = [] → n = 0)) ∧
      (checkAllEqual l = .failFast ↔ ∃ x ∈ l, ∃ y ∈ l, x ≠ y) := by
    intro l
    induction l with
    | nil => simp [checkAllEqual, eq_comm]
    | cons v l ih =>
      rcases l with _ | ⟨w, l⟩
      · simp [checkAllEqual]
      · rw [checkAllEqual]
        obtain ⟨ih1, ih2⟩ := ih
        rcases h : checkAllEqual (w :: l) with n | e | _ | _
        · have hn := ((ih1 n).1 h).1
          by_cases hv : v = n
          · subst hv
            have hall : ∀ x ∈ v :: w :: l, x = v := by
              intro x hx
              rcases List.mem_cons.1 hx with rfl | hx
              · rfl
              · exact hn x hx
            constructor
            · intro m
              simp only [Outcome.expects, decide_true, if_true, Outcome.bind_ok, Outcome.ok.injEq]
              constructor
              · rintro rfl; exact ⟨hall, by simp⟩
              · intro hm; exact hm.1 v (by simp)
            · simp only [Outcome.expects, decide_true, if_true, Outcome.bind_ok, reduceCtorEq, false_iff]
              rintro ⟨x, hx, y, hy, hne⟩
              exact hne ((hall x hx).trans (hall y hy).symm)
          · have hw : w = n := hn w (by simp)
            constructor
            · intro m
              simp only [Outcome.expects, hv, decide_false, Outcome.bind_ok]
              constructor
              · intro hc; simp [Outcome.bind] at hc
              · intro hm
                exact absurd ((hm.1 v (by simp)).trans (hm.1 w (by simp)).symm) (by rw [hw]; exact hv)
            · simp only [Outcome.expects, hv, decide_false, Outcome.bind_ok]
              constructor
              · intro _; exact ⟨v, by simp, w, by simp, by rw [hw]; exact hv⟩
              · intro _; simp [Outcome.bind]
        all_goals
          first
          | (have hff : checkAllEqual (w :: l) = .failFast := h
             obtain ⟨x, hx, y, hy, hne⟩ := ih2.1 hff
             constructor
             · intro m
               constructor
               · intro hc; simp [Outcome.bind] at hc
               · intro hm
                 exact absurd ((hm.1 x (List.mem_cons_of_mem _ hx)).trans (hm.1 y (List.mem_cons_of_mem _ hy)).symm) hne
             · constructor
               · intro _; exact ⟨x, List.mem_cons_of_mem _ hx, y, List.mem_cons_of_mem _ hy, hne⟩
               · intro _; rfl)
          | (exfalso
             have : (∀ x ∈ w :: l, x = w) ∨ ∃ x ∈ w :: l, ∃ y ∈ w :: l, x ≠ y := by
               by_cases hh : ∀ x ∈ w :: l, x = w
               · exact .inl hh
               · simp only [not_forall] at hh
                 obtain ⟨x, hx, hne⟩ := hh
                 exact .inr ⟨x, hx, w, by simp, hne⟩
             rcases this with hh | hh
             · have := (ih1 w).2 ⟨hh, by simp⟩; rw [h] at this; cases this
             · have := ih2.2 hh; rw [h] at this; cases this)
  obtain ⟨k1, k2⟩ := key (cols.map (·.2))
  have hmem : ∀ n, (∀ x ∈ cols.map (·.2), x = n) ↔ ∀ c ∈ cols, c.2 = n := by
    intro n
    simp only [List.mem_map, forall_exists_index, and_imp, forall_apply_eq_imp_iff₂]
  constructor
  · rintro ⟨d, n⟩
    unfold makeSpan
    constructor
    · intro h
      rcases hc : checkAllEqual (cols.map (·.2)) with m | e | _ | _ <;> rw [hc] at h <;> simp [Outcome.bind] at h
      obtain ⟨rfl, rfl⟩ := h
      have := (k1 m).1 hc
      refine ⟨rfl, (hmem m).1 this.1, fun h => this.2 (by simp [h])⟩
    · rintro ⟨rfl, h2, h3⟩
      rw [(k1 n).2 ⟨(hmem n).2 h2, fun h => h3 (by simpa using h)⟩]
      rfl
  · unfold makeSpan
    have : (checkAllEqual (cols.map (·.2))).bind (fun n => Outcome.ok (Span.mk (cols.map (·.1)) n)) = .failFast ↔
        checkAllEqual (cols.map (·.2)) = .failFast := by
      generalize checkAllEqual (cols.map (·.2)) = x
      rcases x <;> simp [Outcome.bind]
    rw [this, k2]
    constructor
    · rintro ⟨x, hx, y, hy, hne⟩
      obtain ⟨c, hc, rfl⟩ := List.mem_map.1 hx
      obtain ⟨d, hd, rfl⟩ := List.mem_map.1 hy
      exact ⟨c, hc, d, hd, hne⟩
    · rintro ⟨c, hc, d, hd, hne⟩
      exact ⟨_, List.mem_map_of_mem hc, _, List.mem_map_of_mem hd, hne⟩

example : ∃ c ∈ [((⟨0, 1⟩ : Ptr), 3), (⟨1, 0⟩, 2)], ∃ d ∈ [((⟨0, 1⟩ : Ptr), 3), (⟨1, 0⟩, 2)], c.2 ≠ d.2 := by decide

/-- C58: `s[i]` refers to the `i`-th elements of all columns iff `i < size()`, and fails fast otherwise. -/
theorem C58_index (st : State α) (b : Nat) (s : Span) (hb : st.spans b = some s) (hv : Valid st s) (i : Nat) :
    (i < s.size → ∃ r vals, at' st b i = .ok r ∧ Row st s i vals ∧ toTuple st r = .ok vals ∧
      ∀ (k : Nat) (v : α), vals[k]? = some v → getElem st r k = .ok (some v)) ∧
    (s.size ≤ i → at' st b i = .failFast) := by
  constructor
  · intro hi
    obtain ⟨vals, hr⟩ := row_exists hv hi
    refine ⟨⟨b, i⟩, vals, ?_, hr, ?_, ?_⟩
    · simp [at', withSpan_some hb, Outcome.expects, hi]
    · simp only [toTuple, withSpan_some hb]; exact readRow_ok hr
    · intro k v hk
      obtain ⟨hkl, hkv⟩ := List.getElem?_eq_some_iff.1 hk
      have hlen := hr.length_eq
      have hp : s.data[k]? = some s.data[k] := List.getElem?_eq_getElem (by omega)
      have := (List.forall₂_iff_get.1 hr).2 k (by omega) hkl
      simp only [List.get_eq_getElem, hkv] at this
      simp only [Makeshift.Soa.getElem, withSpan_some hb, hp, readCell_ok this, Outcome.mapVal, Outcome.bind_ok]
  · intro hi
    have : ¬ i < s.size := by omega
    simp [at', withSpan_some hb, Outcome.expects, this, Outcome.bind]

example : soaExample.spans 0 = some soaExampleSpan ∧ Valid soaExample soaExampleSpan ∧ 2 < soaExampleSpan.size :=
  ⟨rfl, soaExample_valid, by decide⟩

theorem isPart_shift (s : Span) (offset n : Nat) : IsPart s ⟨s.data.map fun p => { p with off := p.off + offset }, n⟩ offset n := by
  refine ⟨rfl, ?_⟩
  intro α st i vals
  simp only [Row, elem, List.forall₂_map_left_iff, Nat.add_assoc]

/-- C58: `subspan(offset, count)` is the part with `count` rows starting at row `offset`, if it is contained in the span; the default
count, which is the greatest number of type `std::size_t`, means the rest.  Otherwise it fails fast. -/
theorem C58_subspan (s : Span) (offset count : Nat) :
    (count ≠ npos → offset + count ≤ s.size → ∃ t, s.subspan offset count = .ok t ∧ IsPart s t offset count) ∧
    (offset ≤ s.size → ∃ t, s.subspan offset npos = .ok t ∧ IsPart s t offset (s.size - offset)) ∧
    (count ≠ npos → s.size < offset + count → s.subspan offset count = .failFast) ∧
    (s.size < offset → s.subspan offset npos = .failFast) ∧
    npos = 18446744073709551615 := by
  refine ⟨?_, ?_, ?_, ?_, rfl⟩
  · intro hc ho
    refine ⟨_, ?_, isPart_shift s offset count⟩
    have h1 : offset ≤ s.size := by omega
    have h2 : count ≤ s.size - offset := by omega
    simp [Span.subspan, Outcome.expects, h1, h2, hc]
  · intro ho
    refine ⟨_, ?_, isPart_shift s offset (s.size - offset)⟩
    simp [Span.subspan, Outcome.expects, ho]
  · intro hc ho
    have h1 : offset ≤ s.size → ¬ count ≤ s.size - offset := by omega
    by_cases h : offset ≤ s.size
    · simp [Span.subspan, Outcome.expects, h, h1 h, hc, Outcome.bind]
    · simp [Span.subspan, Outcome.expects, h, Outcome.bind]
  · intro ho
    have h : ¬ offset ≤ s.size := by omega
    simp [Span.subspan, Outcome.expects, h, Outcome.bind]

example : 2 ≠ npos ∧ 1 + 2 ≤ soaExampleSpan.size := by decide

/-- C58: `first(count)` is the part with the first `count` rows, `last(count)` the part with the last; they fail fast if there are
less. -/
theorem C58_first_last (s : Span) (count : Nat) (hc : count ≠ npos) :
    (count ≤ s.size → ∃ t u, s.first count = .ok t ∧ IsPart s t 0 count ∧ s.last count = .ok u ∧ IsPart s u (s.size - count) count) ∧
    (s.size < count → s.first count = .failFast ∧ s.last count = .failFast) := by
  constructor
  · intro h
    obtain ⟨t, ht1, ht2⟩ := (C58_subspan s 0 count).1 hc (by omega)
    obtain ⟨u, hu1, hu2⟩ := (C58_subspan s (s.size - count) count).1 hc (by omega)
    exact ⟨t, u, ht1, ht2, by simp [Span.last, Outcome.expects, h, hu1], hu2⟩
  · intro h
    refine ⟨(C58_subspan s 0 count).2.2.1 hc (by omega), ?_⟩
    have : ¬ count ≤ s.size := by omega
    simp [Span.last, Outcome.expects, this, Outcome.bind]

example : 2 ≠ npos ∧ 2 ≤ soaExampleSpan.size := by decide

/-- C58: the one count for which `first()` does not check: `first(size_t(-1))` is the whole span, whatever its size, while
`last(size_t(-1))` fails fast. -/
theorem C58_first_npos (s : Span) (hs : s.size < npos) :
    (∃ t, s.first npos = .ok t ∧ IsPart s t 0 s.size) ∧ s.last npos = .failFast := by
  obtain ⟨t, h1, h2⟩ := (C58_subspan s 0 npos).2.1 (Nat.zero_le _)
  refine ⟨⟨t, h1, h2⟩, ?_⟩
  have : ¬ npos ≤ s.size := by omega
  simp [Span.last, Outcome.expects, this, Outcome.bind]

/-- C58: a subspan of a subspan is a subspan. -/
theorem C58_compose (s t u : Span) (o c o' c' : Nat) (hs : s.size < npos) (h1 : s.subspan o c = .ok t) (h2 : t.subspan o' c' = .ok u) :
    s.subspan (o + o') (if c' = npos then t.size - o' else c') = .ok u := by
  have key : ∀ (s t : Span) (o c : Nat), s.subspan o c = .ok t → o ≤ s.size ∧ (c = npos ∨ c ≤ s.size - o) ∧
      t = ⟨s.data.map fun p => { p with off := p.off + o }, if c ≠ npos then c else s.size - o⟩ := by
    intro s t o c h
    unfold Span.subspan Outcome.expects at h
    by_cases hc : (decide (o ≤ s.size) && (decide (c = npos) || decide (c ≤ s.size - o))) = true
    · rw [hc] at h
      simp only [if_true, Outcome.bind_ok, Outcome.ok.injEq] at h
      simp only [Bool.and_eq_true, Bool.or_eq_true, decide_eq_true_eq] at hc
      exact ⟨hc.1, hc.2, h.symm⟩
    · simp [hc, Outcome.bind] at h
  obtain ⟨a1, a2, rfl⟩ := key s t o c h1
  obtain ⟨b1, b2, rfl⟩ := key _ u o' c' h2
  simp only at b1 b2 ⊢
  have hsz : (if c ≠ npos then c else s.size - o) ≤ s.size - o := by
    split
    · rcases a2 with a2 | a2
      · contradiction
      · exact a2
    · exact Nat.le_refl _
  generalize (if c ≠ npos then c else s.size - o) = n at *
  have hcnt : (if c' = npos then n - o' else c') ≤ s.size - (o + o') := by
    split <;> omega
  have hne : (if c' = npos then n - o' else c') ≠ npos := by omega
  have e1 : o + o' ≤ s.size := by omega
  have e3 : (if c' = npos then n - o' else c') = (if c' ≠ npos then c' else n - o') := by
    by_cases h : c' = npos <;> simp [h]
  simp only [Span.subspan, Outcome.expects, e1, hcnt, hne, decide_true, decide_false, Bool.or_true, Bool.and_true, if_true, ne_eq,
    not_false_eq_true, Outcome.bind_ok, List.map_map]
  rw [e3]
  congr 2
  apply List.map_congr_left
  intro p _
  simp [Nat.add_assoc]

example : ∃ t u, soaExampleSpan.subspan 1 npos = .ok t ∧ t.subspan 1 1 = .ok u := ⟨_, _, rfl, rfl⟩

/-- C58: the iterators: `end() - begin()` is the size, `begin() + n` equals `end()` iff `n` is the size, differences of iterators are
differences of positions, and dereferencing `begin() + n` gives `s[n]`. -/
theorem C58_iterators (st : State α) (b : Nat) (s : Span) (hb : st.spans b = some s) :
    ∃ e, end' st b = .ok e ∧ e.minus (begin' b) = (s.size : Int) ∧
      (∀ n : Int, ((begin' b).plus n).eq e = true ↔ n = (s.size : Int)) ∧
      (∀ m n : Int, ((begin' b).plus m).minus ((begin' b).plus n) = m - n) ∧
      (∀ n : Nat, n < s.size → at' st b n = .ok ((begin' b).plus n)) := by
  refine ⟨⟨b, s.size⟩, by simp [end', withSpan_some hb], by simp [Ref.minus, begin'], ?_, ?_, ?_⟩
  · intro n; simp [Ref.eq, Ref.plus, begin']
  · intro m n; simp [Ref.minus, Ref.plus, begin']
  · intro n hn; simp [at', withSpan_some hb, Outcome.expects, hn, Ref.plus, begin']

example : soaExample.spans 0 = some soaExampleSpan := rfl

theorem assign_row {st : State α} {s : Span} (hs : Separate s) (hv : Valid st s) {i : Nat} (hi : i < s.size) {st' : State α}
    {vals : List α} (hsp : st'.spans = st.spans)
    (h4 : List.Forall₂ (fun p v => st'.cells p.arr = (st.cells p.arr).set (p.off + i) v) s.data vals)
    (h5 : ∀ arr, (∀ p ∈ s.data, p.arr ≠ arr) → st'.cells arr = st.cells arr) : OnlyRowSet s st st' i vals := by
  have hex : ∀ p ∈ s.data, ∃ v, st'.cells p.arr = (st.cells p.arr).set (p.off + i) v := by
    intro p hp
    obtain ⟨k, hk, rfl⟩ := List.getElem_of_mem hp
    have := h4.length_eq
    exact ⟨_, (List.forall₂_iff_get.1 h4).2 k hk (by omega)⟩
  refine ⟨?_, ?_, ?_⟩
  · unfold Row
    apply List.Forall₂.imp _ (List.forall₂_and_left (p := fun q => q ∈ s.data) _ _ |>.2 ⟨fun q hq => hq, h4⟩)
    rintro p v ⟨hp, hpv⟩
    have := hv p hp
    rw [elem, hpv, List.getElem?_set_self (by omega)]
  · intro k r hk
    have he : ∀ p ∈ s.data, elem st' p k = elem st p k := by
      intro p hp
      obtain ⟨v, hv'⟩ := hex p hp
      rw [elem, hv', List.getElem?_set_ne (by omega)]; rfl
    unfold Row
    constructor <;> intro h
    · apply List.Forall₂.imp _ (List.forall₂_and_left (p := fun q => q ∈ s.data) _ _ |>.2 ⟨fun q hq => hq, h⟩)
      rintro p v ⟨hp, hpv⟩
      rw [he p hp, hpv]
    · apply List.Forall₂.imp _ (List.forall₂_and_left (p := fun q => q ∈ s.data) _ _ |>.2 ⟨fun q hq => hq, h⟩)
      rintro p v ⟨hp, hpv⟩
      rw [← he p hp, hpv]
  · apply sameOutside_of hs hsp _ h5
    intro p hp pos hpos
    obtain ⟨v, hv'⟩ := hex p hp
    rw [hv', List.getElem?_set_ne (by omega)]

/-- C58: writing through a subspan changes exactly the corresponding row of the span. -/
theorem C58_write_through_subspan (st : State α) (s t : Span) (b offset count i : Nat) (hv : Valid st s) (hs : Separate s)
    (hw : Writable st s) (ht : s.subspan offset count = .ok t) (hb : st.spans b = some t) (hi : i < t.size) (vals : List α)
    (hlen : vals.length = s.data.length) :
    ∃ r st', at' st b i = .ok r ∧ assignTuple st r vals = .ok st' ∧ OnlyRowSet s st st' (offset + i) vals := by
  unfold Span.subspan Outcome.expects at ht
  by_cases hc : (decide (offset ≤ s.size) && (decide (count = npos) || decide (count ≤ s.size - offset))) = true
  swap
  · simp [hc, Outcome.bind] at ht
  rw [hc] at ht
  simp only [if_true, Outcome.bind_ok, Outcome.ok.injEq] at ht
  simp only [Bool.and_eq_true, Bool.or_eq_true, decide_eq_true_eq] at hc
  subst ht
  simp only at hi
  have hos : offset + i < s.size := by
    split at hi
    · rcases hc.2 with h | h
      · contradiction
      · omega
    · omega
  obtain ⟨st', h1, h2, h3, h4, h5⟩ := writeRow_spec (s.data.map fun p => { p with off := p.off + offset }) i st vals
    (by simpa using hlen) (by rw [List.map_map]; exact hs)
    (by intro p hp; obtain ⟨q, hq, rfl⟩ := List.mem_map.1 hp; have := hv q hq; simp only; omega)
    (by intro p hp; obtain ⟨q, hq, rfl⟩ := List.mem_map.1 hp; exact hw q hq)
  refine ⟨⟨b, i⟩, st', ?_, ?_, ?_⟩
  · simp only [at', withSpan_some hb, Outcome.expects, hi, decide_true, if_true, Outcome.bind_ok]
  · simp only [assignTuple, withSpan_some hb, h1]
  · apply assign_row hs hv hos h2
    · simpa only [List.forall₂_map_left_iff, Nat.add_assoc] using h4
    · intro arr ha
      apply h5 arr
      intro p hp; obtain ⟨q, hq, rfl⟩ := List.mem_map.1 hp; exact ha q hq

example : ∃ t, soaExampleSpan.subspan 1 2 = .ok t ∧ Valid soaExample soaExampleSpan ∧ Separate soaExampleSpan ∧
    Writable soaExample soaExampleSpan ∧ 1 < t.size :=
  ⟨_, rfl, soaExample_valid, soaExample_separate, soaExample_writable, by decide⟩

/-! ## C59 -/

/-- C59 is false: `empty()` says the opposite of what it should, for every span. -/
theorem C59_empty_inverted (s : Span) : s.empty = true ↔ s.size' ≠ 0 := by
  simp [Span.empty, Span.size']

/-- C59 is false: `front()` and `back()` fail fast for every span which has rows. -/
theorem C59_front_back_fail (st : State α) (b : Nat) (s : Span) (hb : st.spans b = some s) (hn : s.size' ≠ 0) :
    front st b = .failFast ∧ back st b = .failFast := by
  have : s.size ≠ 0 := hn
  simp [front, back, withSpan_some hb, Span.empty, this, Outcome.expects, Outcome.bind]

example : soaExample.spans 0 = some soaExampleSpan ∧ soaExampleSpan.size' ≠ 0 := ⟨rfl, by decide⟩

/-- C59 is false: for an empty span `front()` and `back()` do return references.  Using them is undefined if the columns are at the
beginning and end of their arrays (as for a span over empty containers). -/
theorem C59_front_back_empty (st : State α) (b : Nat) (s : Span) (hb : st.spans b = some s) (h0 : s.size' = 0)
    (p : Ptr) (ps : List Ptr) (hd : s.data = p :: ps) (hp : st.cells p.arr = []) (ho : p.off = 0) :
    ∃ f k, front st b = .ok f ∧ back st b = .ok k ∧ toTuple st f = .ub ∧ toTuple st k = .ub := by
  have h0' : s.size = 0 := h0
  refine ⟨⟨b, 0⟩, ⟨b, -1⟩, ?_, ?_, ?_, ?_⟩
  · simp [front, withSpan_some hb, Span.empty, h0', Outcome.expects]
  · simp [back, withSpan_some hb, Span.empty, h0', Outcome.expects]
  · simp [toTuple, withSpan_some hb, hd, readRow, readCell, hp, ho, Outcome.bind]
  · simp [toTuple, withSpan_some hb, hd, readRow, readCell, ho, Outcome.bind]

example : ∃ (st : State Nat) (s : Span), st.spans 0 = some s ∧ s.size' = 0 ∧ s.data = ⟨0, 0⟩ :: [⟨1, 0⟩] ∧ st.cells 0 = [] :=
  ⟨⟨fun _ => [], fun _ => false, fun _ => some ⟨[⟨0, 0⟩, ⟨1, 0⟩], 0⟩⟩, _, rfl, rfl, rfl, rfl⟩

/-- C59, the part which can be relied upon: `begin() == end()` holds iff `size()` is 0, and the first and the last row of a span with
rows are `s[0]` and `s[size() - 1]`. -/
theorem C59_first_last_row_partial (st : State α) (b : Nat) (s : Span) (hb : st.spans b = some s) (hv : Valid st s) :
    (∃ e, end' st b = .ok e ∧ ((begin' b).eq e = true ↔ s.size' = 0)) ∧
    (s.size' ≠ 0 → ∃ r r' f l, at' st b 0 = .ok r ∧ toTuple st r = .ok f ∧ Row st s 0 f ∧
      at' st b (s.size' - 1) = .ok r' ∧ toTuple st r' = .ok l ∧ Row st s (s.size - 1) l) := by
  constructor
  · obtain ⟨e, h1, -, h3, -⟩ := C58_iterators st b s hb
    refine ⟨e, h1, ?_⟩
    have := h3 0
    simp only [Ref.plus, Int.add_zero, Span.size'] at this ⊢
    rw [this]; omega
  · intro hn
    have hn' : s.size ≠ 0 := hn
    obtain ⟨r, f, a1, a2, a3, -⟩ := (C58_index st b s hb hv 0).1 (by omega)
    obtain ⟨r', l, b1, b2, b3, -⟩ := (C58_index st b s hb hv (s.size - 1)).1 (by omega)
    exact ⟨r, r', f, l, a1, a3, a2, b1, b3, b2⟩

example : soaExample.spans 0 = some soaExampleSpan ∧ Valid soaExample soaExampleSpan ∧ soaExampleSpan.size' ≠ 0 :=
  ⟨rfl, soaExample_valid, by decide⟩

/-! ## C60 -/

/-- C60: assigning a tuple of values to `s[i]` sets row `i` and changes nothing else. -/
theorem C60_assign_values (st : State α) (b : Nat) (s : Span) (hb : st.spans b = some s) (hv : Valid st s) (hs : Separate s)
    (hw : Writable st s) (i : Nat) (hi : i < s.size) (vals : List α) (hlen : vals.length = s.data.length) :
    ∃ r st', at' st b i = .ok r ∧ assignTuple st r vals = .ok st' ∧ OnlyRowSet s st st' i vals := by
  obtain ⟨st', h1, h2, h3, h4, h5⟩ := writeRow_spec s.data i st vals hlen hs (fun p hp => by have := hv p hp; omega) hw
  refine ⟨⟨b, i⟩, st', ?_, ?_, assign_row hs hv hi h2 h4 h5⟩
  · simp [at', withSpan_some hb, Outcome.expects, hi]
  · simp [assignTuple, withSpan_some hb, h1]

/-- C60: `s[i] = s[j]` sets row `i` to the values of row `j` and changes nothing else. -/
theorem C60_assign_row (st : State α) (b : Nat) (s : Span) (hb : st.spans b = some s) (hv : Valid st s) (hs : Separate s)
    (hw : Writable st s) (i j : Nat) (hi : i < s.size) (hj : j < s.size) (vals : List α) (hr : Row st s j vals) :
    ∃ r q st', at' st b i = .ok r ∧ at' st b j = .ok q ∧ assignRef st r q = .ok st' ∧ OnlyRowSet s st st' i vals := by
  obtain ⟨st', h1, h2, h3, h4, h5⟩ := copyRow_spec s.data i j st hs (fun p hp => by have := hv p hp; omega)
    (fun p hp => by have := hv p hp; omega) hw
  refine ⟨⟨b, i⟩, ⟨b, j⟩, st', ?_, ?_, ?_, assign_row hs hv hi h2 ?_ h5⟩
  · simp [at', withSpan_some hb, Outcome.expects, hi]
  · simp [at', withSpan_some hb, Outcome.expects, hj]
  · simp [assignRef, withSpan_some hb, h1]
  · apply List.Forall₂.imp _ (List.forall₂_and_left (p := fun q => q ∈ s.data) _ _ |>.2 ⟨fun q hq => hq, hr⟩)
    rintro p v ⟨hp, hpv⟩
    obtain ⟨w, hw1, hw2⟩ := h4 p hp
    rw [hpv] at hw1; cases hw1
    exact hw2

/-- C60: `s[i] = t[j]` for two spans (which may overlap, if only columns of the same position share an array): row `i` of `s` gets the
values of row `j` of `t`, and nothing else changes. -/
theorem C60_assign_across (st : State α) (b c : Nat) (s t : Span) (hb : st.spans b = some s) (hc : st.spans c = some t)
    (hcols : s.data.length = t.data.length) (hv : Valid st s) (hs : Separate s) (hm : Unmixed s t) (hw : Writable st s)
    (i j : Nat) (hi : i < s.size) (hj : j < t.size) (vals : List α) (hr : Row st t j vals) :
    ∃ r q st', at' st b i = .ok r ∧ at' st c j = .ok q ∧ assignRef st r q = .ok st' ∧ OnlyRowSet s st st' i vals := by
  obtain ⟨st', h1, h2, h3, h4, h5⟩ := copyRow_across s.data i j t.data vals st hcols hs hm (fun p hp => by have := hv p hp; omega) hw hr
  refine ⟨⟨b, i⟩, ⟨c, j⟩, st', ?_, ?_, ?_, assign_row hs hv hi h2 h4 h5⟩
  · simp [at', withSpan_some hb, Outcome.expects, hi]
  · simp [at', withSpan_some hc, Outcome.expects, hj]
  · simp [assignRef, withSpan_some hb, withSpan_some hc, h1]

/-- C60: `swap(s[i], t[j])` for two spans without common arrays: it is as if row `i` of `s` were set to what row `j` of `t` was, and row
`j` of `t` to what row `i` of `s` was. -/
theorem C60_swap_across (st : State α) (b c : Nat) (s t : Span) (hb : st.spans b = some s) (hc : st.spans c = some t)
    (hcols : s.data.length = t.data.length) (hv : Valid st s) (hv' : Valid st t) (hs : Separate s) (ht : Separate t)
    (hd : Disjoint s t) (hw : Writable st s) (hw' : Writable st t) (i j : Nat) (hi : i < s.size) (hj : j < t.size)
    (v w : List α) (hr : Row st s i v) (hr' : Row st t j w) :
    ∃ r q mid st', at' st b i = .ok r ∧ at' st c j = .ok q ∧ swapRefs st r q = .ok st' ∧
      OnlyRowSet s st mid i w ∧ OnlyRowSet t mid st' j v := by
  obtain ⟨st', h1, h2, h3, h4, h5⟩ := swapRow_across s.data i j t.data v w st hs ht hd hw hw' hcols hr hr'
  let mid : State α := { st' with cells := fun a => if a ∈ s.data.map (·.arr) then st'.cells a else st.cells a }
  have hmt : ∀ q ∈ t.data, mid.cells q.arr = st.cells q.arr := by
    intro q hq
    have : q.arr ∉ s.data.map (·.arr) := by
      simp only [List.mem_map, not_exists, not_and]
      exact fun p hp => hd p hp q hq
    simp only [mid, this, if_false]
  have hms : ∀ p ∈ s.data, mid.cells p.arr = st'.cells p.arr := by
    intro p hp
    simp only [mid, List.mem_map_of_mem hp, if_true]
  refine ⟨⟨b, i⟩, ⟨c, j⟩, mid, st', ?_, ?_, ?_, assign_row hs hv hi h2 ?_ ?_, assign_row ht ?_ hj rfl ?_ ?_⟩
  · simp [at', withSpan_some hb, Outcome.expects, hi]
  · simp [at', withSpan_some hc, Outcome.expects, hj]
  · simp [swapRefs, withSpan_some hb, withSpan_some hc, h1]
  · apply List.Forall₂.imp _ (List.forall₂_and_left (p := fun q => q ∈ s.data) _ _ |>.2 ⟨fun q hq => hq, h3⟩)
    rintro p x ⟨hp, hx⟩
    rw [hms p hp, hx]
  · intro arr harr
    have : arr ∉ s.data.map (·.arr) := by simpa using harr
    simp only [mid, this, if_false]
  · intro q hq
    rw [hmt q hq]; exact hv' q hq
  · apply List.Forall₂.imp _ (List.forall₂_and_left (p := fun q => q ∈ t.data) _ _ |>.2 ⟨fun q hq => hq, h4⟩)
    rintro q x ⟨hq, hx⟩
    rw [hmt q hq, hx]
  · intro arr harr
    by_cases h : arr ∈ s.data.map (·.arr)
    · simp only [mid, h, if_true]
    · simp only [mid, h, if_false]
      exact h5 arr (fun p hp he => h (by rw [← he]; exact List.mem_map_of_mem hp)) harr

/-- Two spans of two columns each, in four arrays. -/
def soaTwo : State Nat :=
  { cells := fun a => if a < 4 then [10 * a, 10 * a + 1, 10 * a + 2] else []
    isConst := fun _ => false
    spans := fun b => if b = 0 then some ⟨[⟨0, 1⟩, ⟨1, 1⟩], 2⟩ else if b = 1 then some ⟨[⟨2, 0⟩, ⟨3, 0⟩], 3⟩ else none }

example : soaTwo.spans 0 = some ⟨[⟨0, 1⟩, ⟨1, 1⟩], 2⟩ ∧ soaTwo.spans 1 = some ⟨[⟨2, 0⟩, ⟨3, 0⟩], 3⟩ ∧
    Valid soaTwo ⟨[⟨0, 1⟩, ⟨1, 1⟩], 2⟩ ∧ Valid soaTwo ⟨[⟨2, 0⟩, ⟨3, 0⟩], 3⟩ ∧
    Separate ⟨[⟨0, 1⟩, ⟨1, 1⟩], 2⟩ ∧ Separate ⟨[⟨2, 0⟩, ⟨3, 0⟩], 3⟩ ∧
    Disjoint ⟨[⟨0, 1⟩, ⟨1, 1⟩], 2⟩ ⟨[⟨2, 0⟩, ⟨3, 0⟩], 3⟩ ∧ Unmixed ⟨[⟨0, 1⟩, ⟨1, 1⟩], 2⟩ ⟨[⟨2, 0⟩, ⟨3, 0⟩], 3⟩ ∧
    Writable soaTwo ⟨[⟨0, 1⟩, ⟨1, 1⟩], 2⟩ ∧ Writable soaTwo ⟨[⟨2, 0⟩, ⟨3, 0⟩], 3⟩ ∧
    Row soaTwo ⟨[⟨0, 1⟩, ⟨1, 1⟩], 2⟩ 1 [2, 12] ∧ Row soaTwo ⟨[⟨2, 0⟩, ⟨3, 0⟩], 3⟩ 0 [20, 30] := by
  have hd : Disjoint ⟨[⟨0, 1⟩, ⟨1, 1⟩], 2⟩ ⟨[⟨2, 0⟩, ⟨3, 0⟩], 3⟩ := by unfold Disjoint; decide
  refine ⟨rfl, rfl, by unfold Valid; decide, by unfold Valid; decide, by unfold Separate; decide, by unfold Separate; decide, hd,
    ?_, fun _ _ => rfl, fun _ _ => rfl, .cons rfl (.cons rfl .nil), .cons rfl (.cons rfl .nil)⟩
  intro k l p q hp hq he
  exact absurd he (hd p (List.mem_of_getElem? hp) q (List.mem_of_getElem? hq))

/-- C60: `swap(s[i], s[j])` exchanges the two rows in all columns and changes nothing else. -/
theorem C60_swap (st : State α) (b : Nat) (s : Span) (hb : st.spans b = some s) (hv : Valid st s) (hs : Separate s)
    (hw : Writable st s) (i j : Nat) (hi : i < s.size) (hj : j < s.size) :
    ∃ r q st', at' st b i = .ok r ∧ at' st b j = .ok q ∧ swapRefs st r q = .ok st' ∧
      RowsMoved s st st' (fun k => if k = i then j else if k = j then i else k) := by
  obtain ⟨rows, hR⟩ := rowsRel_init hv
  obtain ⟨rows', hsw⟩ := swapAt_isSome rows (a := i) (b := j) (by rw [hR.n]; exact hi) (by rw [hR.n]; exact hj)
  obtain ⟨st', h1, hR'⟩ := swapRows_sim hb hv hs hw st rows i j rows' hR hsw
  refine ⟨⟨b, i⟩, ⟨b, j⟩, st', ?_, ?_, ?_, ?_, hR'.outside⟩
  · simp [at', withSpan_some hb, Outcome.expects, hi]
  · simp [at', withSpan_some hb, Outcome.expects, hj]
  · unfold swapRows at h1
    simp only [begin', Ref.plus, Int.zero_add] at h1
    split at h1
    · rename_i st'' he; cases h1; exact he
    · cases h1
  · intro k hk r hr
    simp only at hr
    apply hR'.row k r
    rw [swapAt_get hsw]
    generalize hk' : (if k = i then j else if k = j then i else k) = k' at hr
    have hk'' : k' < rows.length := by rw [hR.n]; subst hk'; split <;> [exact hj; (split <;> [exact hi; exact hk])]
    rw [List.getElem?_eq_getElem hk'']
    exact congrArg some (row_unique (hR.row k' _ (List.getElem?_eq_getElem hk'')) hr)

/-- C60: `apply_permutation` on the rows of a span: given a permutation it ends normally, row `i` of the result is the old row
`indices[i]` - in all columns -, nothing else changes, and the index array holds the identity. -/
theorem C60_apply_permutation (st : State α) (b : Nat) (s : Span) (hb : st.spans b = some s) (hv : Valid st s) (hs : Separate s)
    (hw : Writable st s) (idx : List Int) (h : IsPermutation idx s.size) :
    ∃ st', permOver (swapRows (begin' b)) s.size ⟨st, idx⟩ = (.done, ⟨st', (List.range s.size).map Int.ofNat⟩) ∧
      SameOutside s st st' ∧
      ∀ i p : Nat, idx[i]? = some (p : Int) → ∀ r, Row st s p r → Row st' s i r := by
  obtain ⟨rows, hR⟩ := rowsRel_init hv
  obtain ⟨rows', h1, h2, h3⟩ := C20_apply_permutation rows idx (by rw [hR.n]; exact h)
  have hsim := permOver_sim (swapRows_sim hb hv hs hw) st rows idx hR (by rw [h1]; simp)
  rw [h1, hR.n] at hsim
  obtain ⟨e1, e2, e3⟩ := hsim
  simp only at e1 e2 e3
  refine ⟨(permOver (swapRows (begin' b)) s.size ⟨st, idx⟩).2.mem, ?_, e3.outside, ?_⟩
  · refine Prod.ext e1 ?_
    show _ = PermMem.mk _ _
    rw [← e2]
  · intro i p hip r hr
    apply e3.row i r
    rw [h3 i p hip]
    have hp : p < rows.length := by
      rw [hR.n]
      have := h.mem_iff.1 (List.mem_of_getElem? hip)
      simp only [List.mem_map, List.mem_range] at this
      obtain ⟨a, ha, hap⟩ := this
      have : (a : Int) = p := hap
      omega
    rw [List.getElem?_eq_getElem hp]
    exact congrArg some (row_unique (hR.row p _ (List.getElem?_eq_getElem hp)) hr)

/-- C60: `apply_reverse_permutation` on the rows of a span. -/
theorem C60_apply_reverse_permutation (st : State α) (b : Nat) (s : Span) (hb : st.spans b = some s) (hv : Valid st s)
    (hs : Separate s) (hw : Writable st s) (idx : List Int) (h : IsPermutation idx s.size) :
    ∃ st', revOver (swapRows (begin' b)) s.size ⟨st, idx⟩ = (.done, ⟨st', (List.range s.size).map Int.ofNat⟩) ∧
      SameOutside s st st' ∧
      ∀ i p : Nat, idx[i]? = some (p : Int) → ∀ r, Row st s i r → Row st' s p r := by
  obtain ⟨rows, hR⟩ := rowsRel_init hv
  obtain ⟨rows', h1, h2, h3⟩ := C22_apply_reverse_permutation rows idx (by rw [hR.n]; exact h)
  have hsim := revOver_sim (swapRows_sim hb hv hs hw) st rows idx hR (by rw [h1]; simp)
  rw [h1, hR.n] at hsim
  obtain ⟨e1, e2, e3⟩ := hsim
  simp only at e1 e2 e3
  refine ⟨(revOver (swapRows (begin' b)) s.size ⟨st, idx⟩).2.mem, ?_, e3.outside, ?_⟩
  · refine Prod.ext e1 ?_
    show _ = PermMem.mk _ _
    rw [← e2]
  · intro i p hip r hr
    apply e3.row p r
    rw [h3 i p hip]
    have hi : i < rows.length := by
      rw [hR.n]
      obtain ⟨hi, -⟩ := List.getElem?_eq_some_iff.1 hip
      have := h.length_eq
      simp at this
      omega
    rw [List.getElem?_eq_getElem hi]
    exact congrArg some (row_unique (hR.row i _ (List.getElem?_eq_getElem hi)) hr)

/-- C60: indices which are not a permutation are detected, with the rows only rearranged by then: the rows which were there are there,
as often as before. -/
theorem C60_rejects (st : State α) (b : Nat) (s : Span) (hb : st.spans b = some s) (hv : Valid st s) (hs : Separate s)
    (hw : Writable st s) (idx : List Int) (hl : idx.length = s.size) (h : ¬ IsPermutation idx s.size) :
    ∃ rows rows' : List (List α), rows'.Perm rows ∧ rows.length = s.size ∧
      (∀ (i : Nat) (r : List α), rows[i]? = some r → Row st s i r) ∧
      (permOver (swapRows (begin' b)) s.size ⟨st, idx⟩).1 = .failFast ∧
      SameOutside s st (permOver (swapRows (begin' b)) s.size ⟨st, idx⟩).2.mem ∧
      (∀ (i : Nat) (r : List α), rows'[i]? = some r → Row (permOver (swapRows (begin' b)) s.size ⟨st, idx⟩).2.mem s i r) := by
  obtain ⟨rows, hR⟩ := rowsRel_init hv
  obtain ⟨-, h2, h3, h4⟩ := C21_apply_permutation_rejects rows idx (by rw [hR.n]; exact hl)
  have hsim := permOver_sim (swapRows_sim hb hv hs hw) st rows idx hR h3
  rw [hR.n] at hsim h2
  obtain ⟨e1, e2, e3⟩ := hsim
  exact ⟨rows, _, h4, hR.n, hR.row, by rw [e1]; exact h2.2 h, e3.outside, e3.row⟩

/-- C60: `shuffle` on the rows of a span moves whole rows: there is a rearrangement `perm` of the row numbers such that row `i` is now
what row `perm[i]` was, in all columns, and nothing else changes. -/
theorem C60_shuffle (st : State α) (b : Nat) (s : Span) (hb : st.spans b = some s) (hv : Valid st s) (hs : Separate s)
    (hw : Writable st s) (draw : Nat → Nat) (h : ValidDraws s.size draw) :
    ∃ (st' : State α) (rows rows' : List (List α)), shuffleOver (swapRows (begin' b)) draw s.size st = some st' ∧ SameOutside s st st' ∧
      rows'.Perm rows ∧ rows.length = s.size ∧
      (∀ (i : Nat) (r : List α), rows[i]? = some r → Row st s i r) ∧ (∀ (i : Nat) (r : List α), rows'[i]? = some r → Row st' s i r) := by
  obtain ⟨rows, hR⟩ := rowsRel_init hv
  obtain ⟨rows', h1, h2⟩ := C25_shuffle_permutes rows draw (by rw [hR.n]; exact h)
  obtain ⟨st', h3, h4⟩ := shuffleOver_sim (swapRows_sim hb hv hs hw) draw st rows rows' hR h1
  rw [hR.n] at h3
  exact ⟨st', rows, rows', h3, h4.outside, h2, hR.n, hR.row, h4.row⟩

example : soaExample.spans 0 = some soaExampleSpan ∧ Valid soaExample soaExampleSpan ∧ Separate soaExampleSpan ∧
    Writable soaExample soaExampleSpan ∧ IsPermutation [2, 0, 1] soaExampleSpan.size ∧ ¬ IsPermutation [1, 1, 0] soaExampleSpan.size ∧
    ValidDraws soaExampleSpan.size (fun _ => 0) :=
  ⟨rfl, soaExample_valid, soaExample_separate, soaExample_writable, by unfold IsPermutation; decide, by unfold IsPermutation; decide,
    fun _ _ _ => Nat.zero_le _⟩

example : Row soaExample soaExampleSpan 1 [12, 22] := .cons rfl (.cons rfl .nil)

/-! ## C67 -/

/-- C67 is false: once the span object is gone - as is a temporary such as a subspan at the end of the full expression - every use of a
reference or iterator obtained from it is undefined, although the columns still exist. -/
theorem C67_dangling (st : State α) (b i : Nat) (r : Ref) (h : at' st b i = .ok r) (vals : List α) (k : Nat) :
    toTuple (st.setSpan b none) r = .ub ∧ getElem (st.setSpan b none) r k = .ub ∧
    assignTuple (st.setSpan b none) r vals = .ub ∧ swapRefs (st.setSpan b none) r r = .ub := by
  have hr : r.obj = b := by
    unfold at' State.withSpan at h
    split at h
    · rename_i s _
      by_cases hi : i < s.size
      · simp [Outcome.expects, hi] at h; rw [← h]
      · simp [Outcome.expects, hi, Outcome.bind] at h
    · cases h
  have : (st.setSpan b none).spans r.obj = none := by simp [State.setSpan, hr]
  simp [toTuple, Makeshift.Soa.getElem, assignTuple, swapRefs, State.withSpan, this]

example : at' soaExample 0 1 = .ok ⟨0, 1⟩ := rfl

/-- C67 is false: when the span object is assigned to, references obtained from it earlier refer to rows of the new span. -/
theorem C67_follows_assignment (st : State α) (b i : Nat) (r : Ref) (h : at' st b i = .ok r) (t : Span) (hv : Valid st t)
    (hi : i < t.size) (vals : List α) (hrow : Row st t i vals) : toTuple (st.setSpan b (some t)) r = .ok vals := by
  have hr : r = ⟨b, i⟩ := by
    unfold at' State.withSpan at h
    split at h
    · rename_i s _
      by_cases hi : i < s.size
      · simp [Outcome.expects, hi] at h; exact h.symm
      · simp [Outcome.expects, hi, Outcome.bind] at h
    · cases h
  subst hr
  have : (st.setSpan b (some t)).spans b = some t := by simp [State.setSpan]
  simp only [toTuple, withSpan_some this]
  exact readRow_ok hrow

example : at' soaExample 0 1 = .ok ⟨0, 1⟩ ∧ Valid soaExample ⟨[⟨1, 0⟩, ⟨0, 0⟩], 2⟩ ∧ 1 < (⟨[⟨1, 0⟩, ⟨0, 0⟩], 2⟩ : Span).size ∧
    Row soaExample ⟨[⟨1, 0⟩, ⟨0, 0⟩], 2⟩ 1 [21, 11] := by
  refine ⟨rfl, ?_, by decide, .cons rfl (.cons rfl .nil)⟩
  intro p hp
  simp only [List.mem_cons, List.not_mem_nil, or_false] at hp
  rcases hp with rfl | rfl <;> decide

/-- C67, the part which holds: as long as the span object is unchanged and the columns exist, a reference refers to its row, whatever
happened to the elements and to other span objects meanwhile. -/
theorem C67_valid_partial (st st' : State α) (b i : Nat) (s : Span) (r : Ref) (hb : st.spans b = some s) (h : at' st b i = .ok r)
    (hb' : st'.spans b = some s) (hv : Valid st' s) : ∃ vals, toTuple st' r = .ok vals ∧ Row st' s i vals := by
  by_cases hi : i < s.size
  · simp [at', withSpan_some hb, Outcome.expects, hi] at h
    subst h
    obtain ⟨vals, hr⟩ := row_exists hv hi
    exact ⟨vals, by simp only [toTuple, withSpan_some hb']; exact readRow_ok hr, hr⟩
  · simp [at', withSpan_some hb, Outcome.expects, hi, Outcome.bind] at h

example : soaExample.spans 0 = some soaExampleSpan ∧ at' soaExample 0 1 = .ok ⟨0, 1⟩ ∧ Valid soaExample soaExampleSpan :=
  ⟨rfl, rfl, soaExample_valid⟩

/-! ## C68 -/

/-- C68 is false: with all columns declared `const`, assigning a row compiles nevertheless.  It overwrites the elements, or is
undefined if one of the arrays is really `const`. -/
theorem C68_const_overwritten (quals : List Bool) (st : State α) (b : Nat) (s : Span) (hb : st.spans b = some s)
    (hv : Valid st s) (hs : Separate s) (i : Nat) (hi : i < s.size) (vals : List α) (hlen : vals.length = s.data.length) :
    ∃ r, at' st b i = .ok r ∧
      (Writable st s → ∃ st', assignTupleQ quals st r vals = some (.ok st') ∧ OnlyRowSet s st st' i vals) ∧
      (¬ Writable st s → assignTupleQ quals st r vals = some .ub) := by
  refine ⟨⟨b, i⟩, by simp [at', withSpan_some hb, Outcome.expects, hi], ?_, ?_⟩
  · intro hw
    obtain ⟨r, st', h1, h2, h3⟩ := C60_assign_values st b s hb hv hs hw i hi vals hlen
    have : r = ⟨b, i⟩ := by simpa [at', withSpan_some hb, Outcome.expects, hi] using h1.symm
    subst this
    exact ⟨st', by simp [assignTupleQ, h2], h3⟩
  · intro hw
    simp only [assignTupleQ, assignTuple, withSpan_some hb, Option.some.injEq]
    have hw' : ∃ p ∈ s.data, st.isConst p.arr = true := by
      simp only [Writable, not_forall, Bool.not_eq_false] at hw
      obtain ⟨p, hp, h⟩ := hw
      exact ⟨p, hp, h⟩
    have hv' : ∀ p ∈ s.data, p.off + i < (st.cells p.arr).length := fun p hp => by have := hv p hp; omega
    clear hw hv hb
    unfold Separate at hs
    generalize s.data = ps at *
    induction ps generalizing st vals with
    | nil => simp at hw'
    | cons p ps ih =>
      rcases vals with _ | ⟨v, vals⟩
      · simp at hlen
      simp only [List.map_cons, List.nodup_cons, List.mem_map, not_exists, not_and] at hs
      by_cases hc : st.isConst p.arr = true
      · simp [writeRow, writeCell, hc, Outcome.bind]
      · rw [writeRow, writeCell_ok st p i v (hv' p (by simp)) (by simpa using hc), Outcome.bind_ok]
        apply ih
        · exact hs.2
        · simpa using hlen
        · obtain ⟨q, hq, hqc⟩ := hw'
          rcases List.mem_cons.1 hq with rfl | hq
          · exact absurd hqc hc
          · exact ⟨q, hq, hqc⟩
        · intro q hq
          simp only [hs.1 q hq, if_false]
          exact hv' q (by simp [hq])

example : soaExample.spans 0 = some soaExampleSpan ∧ Valid soaExample soaExampleSpan ∧ Separate soaExampleSpan ∧ 1 < soaExampleSpan.size ∧
    [1, 2].length = soaExampleSpan.data.length ∧ Writable soaExample soaExampleSpan :=
  ⟨rfl, soaExample_valid, soaExample_separate, by decide, rfl, soaExample_writable⟩

/-- C68, the part which holds: with a `const` column, `swap` of rows does not compile, and neither does assignment to an element of
that column through `get<I>()`. -/
theorem C68_swap_get_partial (quals : List Bool) (k : Nat) (hk : quals[k]? = some true) (st : State α) (l r : Ref) (v : α) :
    swapQ quals st l r = none ∧ assignElemQ quals st r k v = none := by
  have hm := List.mem_of_getElem? hk
  refine ⟨?_, by simp [assignElemQ, hk]⟩
  unfold swapQ
  rw [if_neg]
  intro h
  simp only [List.all_eq_true] at h
  simpa using h true hm

example : [false, true][1]? = some true := rfl

end Makeshift.Props
