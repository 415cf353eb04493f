import Verif.Lemmas.Zip

/-! # C26, C27, C29-C33: zipped ranges -/

namespace Makeshift.Props

open Spec

variable {α σ τ : Type}

/-! ## sample arguments -/

/-- A vector of three, a list of three, an unsized range of three, and `range_index`. -/
def sampleRanges : List (Rng Nat) :=
  [⟨.index, .dyn 3, [10, 11, 12]⟩, ⟨.iterator, .dyn 3, [20, 21, 22]⟩, ⟨.iteratorPair, .static (-1), [30, 31, 32]⟩,
   ⟨.rangeIndex, .static (-1), []⟩]

theorem sampleRanges_valid : ValidArgs sampleRanges := by
  refine ⟨?_, ⟨⟨.index, .dyn 3, [10, 11, 12]⟩, by simp [sampleRanges], by simp [IsReal]⟩,
    Or.inl ⟨⟨.index, .dyn 3, [10, 11, 12]⟩, by simp [sampleRanges], by simp⟩⟩
  intro r hr
  simp only [sampleRanges, List.mem_cons, List.not_mem_nil, or_false] at hr
  rcases hr with rfl | rfl | rfl | rfl <;> simp [ValidRange]

theorem sampleRanges_length : AllLength sampleRanges 3 := by
  intro r hr hR
  simp only [sampleRanges, List.mem_cons, List.not_mem_nil, or_false] at hr
  rcases hr with rfl | rfl | rfl | rfl <;> first | rfl | exact absurd rfl hR

/-- A vector of three and an unsized range of two. -/
def unequalRanges : List (Rng Nat) :=
  [⟨.index, .dyn 3, [10, 11, 12]⟩, ⟨.iteratorPair, .static (-1), [30, 31]⟩]

theorem unequalRanges_valid : ValidArgs unequalRanges := by
  refine ⟨?_, ⟨⟨.index, .dyn 3, [10, 11, 12]⟩, by simp [unequalRanges], by simp [IsReal]⟩,
    Or.inl ⟨⟨.index, .dyn 3, [10, 11, 12]⟩, by simp [unequalRanges], by simp⟩⟩
  intro r hr
  simp only [unequalRanges, List.mem_cons, List.not_mem_nil, or_false] at hr
  rcases hr with rfl | rfl <;> simp [ValidRange]

/-! ## C26 -/

/-- `range_for` over ranges of equal length `n` calls the functor with the `n` tuples, in order, each once. -/
theorem C26_range_for (rs : List (Rng α)) (hv : ValidArgs rs) (n : Nat) (hn : AllLength rs n) (fuel : Nat) (hf : n < fuel) :
    ∃ calls, Zipped rs n calls ∧ rangeFor rs fuel = .done calls (.ok ()) := by
  obtain ⟨ts, hz, h⟩ := zipAlgorithm_equal rs hv (fun calls args => (calls ++ [args], true)) [] n hn fuel hf
  refine ⟨ts, hz, ?_⟩
  unfold rangeFor
  rw [h, runBody_log]
  simp

example : ValidArgs sampleRanges ∧ AllLength sampleRanges 3 ∧ rangeFor sampleRanges 4 =
    .done [[.elem 10, .elem 20, .elem 30, .idx 0], [.elem 11, .elem 21, .elem 31, .idx 1],
      [.elem 12, .elem 22, .elem 32, .idx 2]] (.ok ()) :=
  ⟨sampleRanges_valid, sampleRanges_length, by decide +kernel⟩

/-- The list of the first `n` tuples is determined by the ranges: there is exactly one. -/
theorem C26_tuples_unique (rs : List (Rng α)) (n : Nat) (ts us : List (List (Arg α))) (h1 : Zipped rs n ts) (h2 : Zipped rs n us) :
    ts = us := by
  apply List.ext_getElem?
  intro i
  by_cases hi : i < n
  · rw [List.getElem?_eq_getElem (by rw [h1.1]; exact hi), List.getElem?_eq_getElem (by rw [h2.1]; exact hi)]
    congr 1
    exact tuple_unique (h1.2 i _ (List.getElem?_eq_getElem _)) (h2.2 i _ (List.getElem?_eq_getElem _))
  · rw [List.getElem?_eq_none (by rw [h1.1]; omega), List.getElem?_eq_none (by rw [h2.1]; omega)]

example : Zipped [⟨.index, .dyn 1, [(5 : Nat)]⟩] 1 [[.elem 5]] := by
  refine ⟨rfl, ?_⟩
  intro i args h
  match i, h with
  | 0, h =>
    simp only [List.getElem?_cons_zero, Option.some.injEq] at h
    subst h
    exact .cons (Or.inr ⟨by simp, 5, rfl, rfl⟩) .nil

/-- Finding: without a sized range, the loop condition does not compile if three or more `range_index` arguments follow an even
number of arguments at the end of the list (the general `is_end` overload cannot return a `nullopt_bool`). -/
theorem C26_loop_condition_ill_formed (rs : List (Rng α)) (hval : ∀ r ∈ rs, ValidRange r) (hno : ¬ LoopCompiles rs)
    (body : σ → List (Arg α) → σ × Bool) (init : σ) (fuel : Nat) : zipAlgorithm rs body fuel init = .illFormed := by
  have hun : ∀ r ∈ rs, r.size = .static (-1) := by
    intro r hr; by_contra h; exact hno (Or.inl ⟨r, hr, h⟩)
  unfold zipAlgorithm
  split
  · rfl
  · have hmap : ∀ s ∈ rs.map Rng.size, s = .static (-1) := by
      intro s hs; obtain ⟨r, hr, rfl⟩ := List.mem_map.mp hs; exact hun r hr
    rcases mergeSizes_spec (rs.map Rng.size) (sizes_ok hval) with ⟨z, hz, hsum⟩ | ⟨-, hinc⟩
    · rw [hz]
      have hz1 : z = .static (-1) := by
        cases hk : known z with
        | none => exact known_none hk
        | some n =>
          obtain ⟨s, hs, hks⟩ := hsum.some n hk
          rw [hmap s hs] at hks
          simp [known] at hks
      subst hz1
      have : sentinelWellFormed rs (.static (-1)) = false := by
        unfold sentinelWellFormed
        rw [if_pos rfl, decide_eq_false_iff_not, isEndTy_iff]
        rintro ⟨-, h⟩
        apply hno
        right
        intro k hk
        have := h k (by rw [← List.map_drop]; simpa using hk)
        rw [← List.map_drop] at this
        obtain ⟨r, hr, he⟩ := List.mem_map.mp this
        refine ⟨r, hr, ?_⟩
        intro hc
        unfold leafEndTy at he
        rw [hc] at he
        simp at he
      simp only [this]
      simp
    · exfalso
      apply hinc
      intro s hs t _ a _ ha
      rw [hmap s hs] at ha
      simp [known] at ha

/-- Two unsized ranges followed by three `range_index`. -/
example : ¬ LoopCompiles [⟨.iteratorPair, .static (-1), [(1 : Nat)]⟩, ⟨.iteratorPair, .static (-1), [2]⟩,
    ⟨.rangeIndex, .static (-1), []⟩, ⟨.rangeIndex, .static (-1), []⟩, ⟨.rangeIndex, .static (-1), []⟩] := by
  rintro (⟨r, hr, h⟩ | h)
  · simp only [List.mem_cons, List.not_mem_nil, or_false] at hr
    rcases hr with rfl | rfl | rfl | rfl | rfl <;> exact h rfl
  · obtain ⟨r, hr, hR⟩ := h 1 (by simp)
    simp only [List.drop_succ_cons, List.drop_zero, List.mem_cons, List.not_mem_nil, or_false] at hr
    rcases hr with rfl | rfl | rfl <;> exact hR rfl

/-! ## C27 -/

/-- Ranges of different lengths: `range_for` fails fast (or is rejected by the compiler because two compile-time sizes differ),
having called the functor at most with the tuples all ranges can supply. -/
theorem C27_range_for_mismatch (rs : List (Rng α)) (hv : ValidArgs rs) (m : Nat)
    (hm : ∃ r ∈ rs, IsReal r ∧ r.elems.length = m) (hmin : ∀ r ∈ rs, IsReal r → m ≤ r.elems.length)
    (hlong : ∃ r ∈ rs, IsReal r ∧ m < r.elems.length) (fuel : Nat) (hf : m < fuel) :
    (rangeFor rs fuel = .illFormed ∧
        ∃ r ∈ rs, ∃ r' ∈ rs, ∃ a b, r.size = .static a ∧ r'.size = .static b ∧ a ≠ -1 ∧ b ≠ -1 ∧ a ≠ b) ∨
    ∃ k ≤ m, ∃ calls, Zipped rs k calls ∧ rangeFor rs fuel = .done calls .failFast := by
  have hna : ¬ AllLength rs m := by
    intro h; obtain ⟨r, hr, hR, hl⟩ := hlong; have := h r hr hR; omega
  rcases zipAlgorithm_spec rs hv (fun calls args => (calls ++ [args], true)) [] m hm hmin fuel hf with
    ⟨-, ⟨h, hst⟩ | h⟩ | ⟨ts, hz, h⟩
  · left
    refine ⟨h, ?_⟩
    obtain ⟨a, b, ha, hb, h1, h2, h3⟩ := mergeSizes_static _ (sizes_ok hv.1) hst
    obtain ⟨r, hr, hra⟩ := List.mem_map.mp ha
    obtain ⟨r', hr', hrb⟩ := List.mem_map.mp hb
    exact ⟨r, hr, r', hr', a, b, hra, hrb, h1, h2, h3⟩
  · right
    exact ⟨0, by omega, [], ⟨rfl, by simp⟩, h⟩
  · right
    refine ⟨m, by omega, ts, hz, ?_⟩
    unfold rangeFor
    rw [h, runBody_log]
    simp [hna]

example : ValidArgs unequalRanges ∧ (∃ r ∈ unequalRanges, IsReal r ∧ r.elems.length = 2) ∧
    (∃ r ∈ unequalRanges, IsReal r ∧ 2 < r.elems.length) ∧
    rangeFor unequalRanges 3 = .done [[.elem 10, .elem 30], [.elem 11, .elem 31]] .failFast :=
  ⟨unequalRanges_valid, ⟨_, List.mem_cons_of_mem _ (List.mem_cons_self ..), by simp [IsReal], rfl⟩,
    ⟨_, List.mem_cons_self .., by simp [IsReal], by decide⟩, by decide +kernel⟩

/-- How many calls there have been: if two ranges report sizes (by `size()`, or as constants) which differ, none; otherwise exactly those for
the positions which all ranges have. -/
theorem C27_calls (rs : List (Rng α)) (hv : ValidArgs rs) (m : Nat)
    (hm : ∃ r ∈ rs, IsReal r ∧ r.elems.length = m) (hmin : ∀ r ∈ rs, IsReal r → m ≤ r.elems.length)
    (hlong : ∃ r ∈ rs, IsReal r ∧ m < r.elems.length) (fuel : Nat) (hf : m < fuel) :
    ((∃ r ∈ rs, ∃ r' ∈ rs, r.size ≠ .static (-1) ∧ r'.size ≠ .static (-1) ∧ r.elems.length ≠ r'.elems.length) →
      rangeFor rs fuel = .illFormed ∨ rangeFor rs fuel = .done [] .failFast) ∧
    ((∀ r ∈ rs, ∀ r' ∈ rs, r.size ≠ .static (-1) → r'.size ≠ .static (-1) → r.elems.length = r'.elems.length) →
      ∃ calls, Zipped rs m calls ∧ rangeFor rs fuel = .done calls .failFast) := by
  have hna : ¬ AllLength rs m := by
    intro h; obtain ⟨r, hr, hR, hl⟩ := hlong; have := h r hr hR; omega
  rcases zipAlgorithm_exact rs hv (fun calls args => (calls ++ [args], true)) [] m hm hmin fuel hf with
    ⟨hno, -, h⟩ | ⟨hc, ts, hz, h⟩
  · refine ⟨fun _ => ?_, fun hall => absurd ((consistent_iff hv.1).2 hall) hno⟩
    rcases h with ⟨h, -⟩ | h
    · exact .inl h
    · exact .inr h
  · refine ⟨?_, fun _ => ⟨ts, hz, ?_⟩⟩
    · rintro ⟨r, hr, r', hr', h1, h2, h3⟩
      exact absurd ((consistent_iff hv.1).1 hc r hr r' hr' h1 h2) h3
    · unfold rangeFor
      rw [h, runBody_log]
      simp [hna]

example : (∀ r ∈ unequalRanges, ∀ r' ∈ unequalRanges, r.size ≠ .static (-1) → r'.size ≠ .static (-1) → r.elems.length = r'.elems.length) ∧
    rangeFor ([⟨.index, .dyn 3, [10, 11, 12]⟩, ⟨.index, .dyn 2, [30, 31]⟩] : List (Rng Nat)) 4 = .done [] .failFast := by
  constructor <;> decide +kernel

/-- The same for any algorithm built on the zipped loop: it fails fast, unless its body returns early. -/
theorem C27_any_algorithm (rs : List (Rng α)) (hv : ValidArgs rs) (m : Nat)
    (hm : ∃ r ∈ rs, IsReal r ∧ r.elems.length = m) (hmin : ∀ r ∈ rs, IsReal r → m ≤ r.elems.length)
    (hlong : ∃ r ∈ rs, IsReal r ∧ m < r.elems.length) (fuel : Nat) (hf : m < fuel)
    (body : σ → List (Arg α) → σ × Bool) (init : σ) :
    zipAlgorithm rs body fuel init = .illFormed ∨
    (∃ s, zipAlgorithm rs body fuel init = .done s .failFast) ∨
    ∃ s0 i args, i < m ∧ List.Forall₂ (ArgAt i) rs args ∧ (body s0 args).2 = false ∧
      zipAlgorithm rs body fuel init = .done (body s0 args).1 (.ok ()) := by
  have hna : ¬ AllLength rs m := by
    intro h; obtain ⟨r, hr, hR, hl⟩ := hlong; have := h r hr hR; omega
  rcases zipAlgorithm_spec rs hv body init m hm hmin fuel hf with ⟨-, ⟨h, -⟩ | h⟩ | ⟨ts, hz, h⟩
  · left; exact h
  · right; left; exact ⟨_, h⟩
  · right
    by_cases hb : (runBody body init ts).2 = true
    · left
      rw [h]
      simp only [hb, if_true, hna, if_false]
      exact ⟨_, rfl⟩
    · right
      rw [h]
      simp only [hb]
      -- find the call that returned
      obtain ⟨hl, hts⟩ := hz
      have : ∀ (ts : List (List (Arg α))) (p : Nat) (s : σ), TuplesFrom rs p ts → ¬ (runBody body s ts).2 = true →
          ∃ s0 i args, i < p + ts.length ∧ List.Forall₂ (ArgAt i) rs args ∧ (body s0 args).2 = false ∧
            (runBody body s ts).1 = (body s0 args).1 := by
        intro ts
        induction ts with
        | nil => intro p s _ h; simp [runBody] at h
        | cons t ts ih =>
          intro p s hts h
          by_cases ht : (body s t).2 = true
          · simp only [runBody, ht, if_true] at h ⊢
            obtain ⟨s0, i, args, h1, h2⟩ := ih (p + 1) _ (tuplesFrom_tail hts) h
            exact ⟨s0, i, args, by simp only [List.length_cons]; omega, h2⟩
          · refine ⟨s, p, t, by simp only [List.length_cons]; omega, by simpa using hts 0 t rfl, by simpa using ht, ?_⟩
            simp [runBody, ht]
      obtain ⟨s0, i, args, h1, h2, h3, h4⟩ := this ts 0 init (by intro i args hi; simpa using hts i args hi) hb
      refine ⟨s0, i, args, by omega, h2, h3, ?_⟩
      rw [h4]
      simp

example : rangeTransformReduce (σ := Nat) 0 (· + ·) (fun (a : List (Arg Nat)) => a.length) unequalRanges 3 = .done 4 .failFast ∧
    rangeAllOf (fun (a : List (Arg Nat)) => a == [.elem 10, .elem 30]) unequalRanges 3 =
      .done (false, [[.elem 10, .elem 30], [.elem 11, .elem 31]]) (.ok ()) := by
  constructor <;> decide +kernel

/-- `range_transform_reduce` never returns a result for ranges of different lengths, ... -/
theorem C27_transform_reduce_mismatch (rs : List (Rng α)) (hv : ValidArgs rs) (m : Nat)
    (hm : ∃ r ∈ rs, IsReal r ∧ r.elems.length = m) (hmin : ∀ r ∈ rs, IsReal r → m ≤ r.elems.length)
    (hlong : ∃ r ∈ rs, IsReal r ∧ m < r.elems.length) (fuel : Nat) (hf : m < fuel)
    (init : σ) (reduce : σ → τ → σ) (transform : List (Arg α) → τ) :
    rangeTransformReduce init reduce transform rs fuel = .illFormed ∨
    ∃ s, rangeTransformReduce init reduce transform rs fuel = .done s .failFast := by
  rcases C27_any_algorithm rs hv m hm hmin hlong fuel hf (fun acc args => (reduce acc (transform args), true)) init with
    h | h | ⟨s0, i, args, -, -, h, -⟩
  · left; exact h
  · right; exact h
  · simp at h

/-- ... nor does `range_count_if`. -/
theorem C27_count_if_mismatch (rs : List (Rng α)) (hv : ValidArgs rs) (m : Nat)
    (hm : ∃ r ∈ rs, IsReal r ∧ r.elems.length = m) (hmin : ∀ r ∈ rs, IsReal r → m ≤ r.elems.length)
    (hlong : ∃ r ∈ rs, IsReal r ∧ m < r.elems.length) (fuel : Nat) (hf : m < fuel) (pred : List (Arg α) → Bool) :
    rangeCountIf pred rs fuel = .illFormed ∨ ∃ s, rangeCountIf pred rs fuel = .done s .failFast := by
  rcases C27_any_algorithm rs hv m hm hmin hlong fuel hf
    (fun (s : Nat × List (List (Arg α))) args => ((if pred args then s.1 + 1 else s.1, s.2 ++ [args]), true)) (0, []) with
    h | h | ⟨s0, i, args, -, -, h, -⟩
  · left; exact h
  · right; exact h
  · simp at h

/-! ## C29 -/

/-- Any sequence of steps from `begin()` that stays in `[0, n]` succeeds and arrives where expected: the iterator dereferences to
the tuple at its position, and so does any subscript in bounds. -/
theorem C29_walk_from_begin (rs : List (Rng α)) (n : Nat) (hn : AllLength rs n) (ms : List Move)
    (hs : StaysIn n ms 0) :
    ∃ it, walk rs ms (zipBegin rs) = .ok it ∧
      (∀ p : Nat, p < n → destination ms 0 = p → ∃ args, zipDeref rs it = .ok args ∧ List.Forall₂ (ArgAt p) rs args) ∧
      (∀ (d : Int) (p : Nat), p < n → destination ms 0 + d = p →
        ∃ args, zipSubscript rs it d = .ok args ∧ List.Forall₂ (ArgAt p) rs args) := by
  obtain ⟨it, h1, h2, -⟩ := walk_at hn ms (at_begin rs) hs
  refine ⟨it, h1, ?_, ?_⟩
  · intro p hp hd
    rw [hd] at h2
    exact zipDeref_at h2 (fun r hr hR => by rw [hn r hr hR]; exact hp)
  · intro d p hp hd
    exact zipSubscript_at h2 hd (fun r hr hR => by rw [hn r hr hR]; exact hp)

/-- Two iterators reached from `begin()` differ by the difference of their positions and compare as their positions do. -/
theorem C29_difference_and_comparison (rs : List (Rng α)) (n : Nat) (hn : AllLength rs n) (ms ns : List Move)
    (hs : StaysIn n ms 0) (hs' : StaysIn n ns 0) :
    ∃ a b, walk rs ms (zipBegin rs) = .ok a ∧ walk rs ns (zipBegin rs) = .ok b ∧
      zipDiff a b = destination ms 0 - destination ns 0 ∧
      (zipEq a b = true ↔ destination ms 0 = destination ns 0) ∧
      (zipLt a b = true ↔ destination ms 0 < destination ns 0) ∧
      (zipLe a b = true ↔ destination ms 0 ≤ destination ns 0) ∧
      (zipNe a b = true ↔ destination ms 0 ≠ destination ns 0) ∧
      (zipGt a b = true ↔ destination ms 0 > destination ns 0) ∧
      (zipGe a b = true ↔ destination ms 0 ≥ destination ns 0) := by
  obtain ⟨a, h1, ⟨hi1, -⟩, -⟩ := walk_at hn ms (at_begin rs) hs
  obtain ⟨b, h2, ⟨hi2, -⟩, -⟩ := walk_at hn ns (at_begin rs) hs'
  refine ⟨a, b, h1, h2, ?_, ?_, ?_, ?_, ?_, ?_, ?_⟩
  · simp [zipDiff, hi1, hi2]
  · simp [zipEq, hi1, hi2]
  · simp [zipLt, hi1, hi2]
  · simp [zipLe, zipLt, hi1, hi2]
  · simp [zipNe, zipEq, hi1, hi2]
  · simp [zipGt, zipLt, hi1, hi2]
  · simp [zipGe, zipLt, hi1, hi2]

/-- The operators that do not modify the iterator they are applied to, or return what it was before: `it + d`, `d + it` and
`it - d` go where the corresponding number of steps goes, and `it++` and `it--` return the iterator they were applied to and
leave behind the next and the previous one. -/
theorem C29_derived_operators (rs : List (Rng α)) (it : ZipIt) :
    (∀ d, zipPlus rs it d = walk rs [.add d] it) ∧ (∀ d, zipPlusLeft rs d it = walk rs [.add d] it) ∧
    (∀ d, zipMinus rs it d = walk rs [.sub d] it) ∧
    (∀ old new, zipPostInc rs it = .ok (old, new) ↔ old = it ∧ walk rs [.inc] it = .ok new) ∧
    (∀ old new, zipPostDec rs it = .ok (old, new) ↔ old = it ∧ walk rs [.dec] it = .ok new) := by
  refine ⟨fun d => ?_, fun d => ?_, fun d => ?_, fun old new => ?_, fun old new => ?_⟩
  · simp only [zipPlus, walk, Move.take]; cases zipAdvance rs it d <;> rfl
  · simp only [zipPlusLeft, walk, Move.take]; cases zipAdvance rs it d <;> rfl
  · simp only [zipMinus, walk, Move.take]; cases zipRetreat rs it d <;> rfl
  · simp only [zipPostInc, walk, Move.take]; cases zipInc rs it <;> simp [Outcome.bind, eq_comm]
  · simp only [zipPostDec, walk, Move.take]; cases zipDec rs it <;> simp [Outcome.bind, eq_comm]

example : ∃ new, zipPostInc sampleRanges (zipBegin sampleRanges) = .ok (zipBegin sampleRanges, new) ∧
    zipDeref sampleRanges new = .ok [.elem 11, .elem 21, .elem 31, .idx 1] ∧ zipGt new (zipBegin sampleRanges) = true :=
  ⟨⟨1, [0, 1, 1, 0]⟩, by decide +kernel, by decide +kernel, by decide +kernel⟩

/-- Iterating over `range_zip` yields every tuple once, in order. -/
theorem C29_iteration (rs : List (Rng α)) (hval : ∀ r ∈ rs, ValidRange r) (n : Nat) (hn : AllLength rs n)
    (hsized : ∃ r ∈ rs, r.size ≠ .static (-1)) (fuel : Nat) (hf : n < fuel) :
    ∃ ts, Zipped rs n ts ∧ rangeZipIterate rs fuel = .done ts (.ok ()) := by
  obtain ⟨z, hz⟩ := merge_equal hval hn
  obtain ⟨r1, hr1, hs1⟩ := hsized
  obtain ⟨hv1, hne⟩ := sized_length hval hz hr1 hs1
  have hvn : z.value = n := by
    obtain ⟨r2, hr2, hR2, hv2, -⟩ := size_value hval hz hne
    rw [hv2, hn r2 hr2 hR2]
  obtain ⟨ts, hl, hts⟩ := tuplesFrom_exists (rs := rs) 0 n (fun r hr hR => by rw [hn r hr hR]; omega)
  refine ⟨ts, ⟨hl, by intro i args hi; simpa using hts i args hi⟩, ?_⟩
  unfold rangeZipIterate
  rw [hz]
  simp only
  rw [if_neg hne]
  obtain ⟨f', rfl⟩ : ∃ f', fuel = (f' + 1) + ts.length := ⟨fuel - 1 - ts.length, by omega⟩
  obtain ⟨it', hat, heq⟩ := zipCommonLoop_steps rs (zipEnd z rs) ts 0 (zipBegin rs) [] (f' + 1) (at_begin rs) hts
    (fun r hr hR => by rw [hn r hr hR]; omega) (by simp only [zipEnd]; omega)
  rw [heq, zipCommonLoop]
  have : zipEq it' (zipEnd z rs) = true := by
    unfold zipEq
    rw [hat.1, beq_iff_eq]
    simp only [zipEnd]; omega
  rw [this]
  simp

example : StaysIn 3 [.inc, .add 2, .dec, .sub 1] 0 ∧ destination [.inc, .add 2, .dec, .sub 1] 0 = 1 ∧
    (walk sampleRanges [.inc, .add 2, .dec, .sub 1] (zipBegin sampleRanges)).bind (zipDeref sampleRanges) =
      .ok [.elem 11, .elem 21, .elem 31, .idx 1] ∧
    rangeZipIterate sampleRanges 4 = rangeFor sampleRanges 4 := by
  refine ⟨by simp [StaysIn, Move.shift], by simp [destination, Move.shift], by decide +kernel, by decide +kernel⟩

/-! ## C30 -/

/-- Full claim (false): any walk from `end()` that stays in bounds succeeds.  Proved if no zipped range has a `size()` but no
`data()`; for such ranges `C30_backward_is_undefined` shows the opposite. -/
theorem C30_walk_from_end_partial (rs : List (Rng α)) (hval : ∀ r ∈ rs, ValidRange r) (n : Nat) (hn : AllLength rs n)
    (z : Size) (hz : mergeSizes (rs.map Rng.size) = .ok z) (hne : z ≠ .static (-1)) (hno : ∀ r ∈ rs, r.mode ≠ .iterator)
    (ms : List Move) (hs : StaysIn n ms n) :
    ∃ it, walk rs ms (zipEnd z rs) = .ok it ∧
      (∀ p : Nat, p < n → destination ms n = p → ∃ args, zipDeref rs it = .ok args ∧ List.Forall₂ (ArgAt p) rs args) ∧
      (∀ (d : Int) (p : Nat), p < n → destination ms n + d = p →
        ∃ args, zipSubscript rs it d = .ok args ∧ List.Forall₂ (ArgAt p) rs args) := by
  have hvn : z.value = n := by
    obtain ⟨r2, hr2, hR2, hv2, -⟩ := size_value hval hz hne
    rw [hv2, hn r2 hr2 hR2]
  obtain ⟨it, h1, h2, -⟩ := walk_at hn ms (zipEnd_at hn hvn hno) hs
  refine ⟨it, h1, ?_, ?_⟩
  · intro p hp hd
    rw [hd] at h2
    exact zipDeref_at h2 (fun r hr hR => by rw [hn r hr hR]; exact hp)
  · intro d p hp hd
    exact zipSubscript_at h2 hd (fun r hr hR => by rw [hn r hr hR]; exact hp)

example : (walk [⟨.index, .dyn 3, [10, 11, 12]⟩, ⟨.iteratorPair, .static (-1), [30, 31, 32]⟩, ⟨.rangeIndex, .static (-1), []⟩]
      [.dec] (zipEnd (.dyn 3) [⟨.index, .dyn 3, [10, 11, 12]⟩, ⟨.iteratorPair, .static (-1), [30, 31, 32]⟩,
        ⟨.rangeIndex, .static (-1), []⟩])).bind
    (zipDeref [⟨.index, .dyn 3, [10, 11, 12]⟩, ⟨.iteratorPair, .static (-1), [30, 31, 32]⟩, ⟨.rangeIndex, .static (-1), []⟩]) =
    .ok [.elem (12 : Nat), .elem 32, .idx 2] := by decide +kernel

/-- With a range that has `size()` but no `data()`, decrementing `end()` is undefined behaviour - for all ranges and lengths. -/
theorem C30_backward_is_undefined (rs : List (Rng α)) (z : Size) (hit : ∃ r ∈ rs, r.mode = .iterator) :
    zipDec rs (zipEnd z rs) = .ub := by
  unfold zipDec
  have := forLeaves_fail (f := leafDec) (rs := rs) (ps := (zipEnd z rs).pos) (e := .ub) (e' := .ub)
    (P := fun r q => q = leafEnd r)
    (fun _ => rfl) (fun _ => rfl) (forall2_of_all (fun r _ => rfl)) (by
      intro r hr q hq
      unfold leafDec movePos
      cases hm : r.mode with
      | iteratorPair => simp only; split
                        · left; exact ⟨_, rfl⟩
                        · right; rfl
      | iterator => simp only; split
                    · left; exact ⟨_, rfl⟩
                    · right; rfl
      | index => left; exact ⟨_, rfl⟩
      | rangeIndex => left; exact ⟨_, rfl⟩) (by
      obtain ⟨r, hr, hm⟩ := hit
      refine ⟨r, hr, fun q hq => ?_⟩
      unfold leafDec movePos
      rw [hm]
      simp only
      rw [hq]
      unfold leafEnd
      rw [hm]
      rfl)
  rw [this]
  rfl

example : ∃ r ∈ sampleRanges, r.mode = .iterator := ⟨_, List.mem_cons_of_mem _ (List.mem_cons_self ..), rfl⟩

/-! ## C31 -/

/-- Full claim (false): iterating over `range_zip` never reads past the end of a range.  Proved if all lengths agree, for any walk
or iteration (see also `C29_walk_from_begin`); `C31_over_read` shows the opposite otherwise. -/
theorem C31_no_over_read_partial (rs : List (Rng α)) (hval : ∀ r ∈ rs, ValidRange r) (n : Nat) (hn : AllLength rs n)
    (fuel : Nat) (hf : n < fuel) :
    rangeZipIterate rs fuel = .illFormed ∨ ∃ ts, Zipped rs n ts ∧ rangeZipIterate rs fuel = .done ts (.ok ()) := by
  by_cases hs : ∃ r ∈ rs, r.size ≠ .static (-1)
  · exact Or.inr (C29_iteration rs hval n hn hs fuel hf)
  · left
    obtain ⟨z, hz⟩ := merge_equal hval hn
    unfold rangeZipIterate
    rw [hz]
    simp only
    by_cases hne : z = .static (-1)
    · rw [if_pos hne]
    · obtain ⟨r, hr, _, _, hsz⟩ := size_value hval hz hne
      exact absurd ⟨r, hr, hsz⟩ hs

example : rangeZipIterate sampleRanges 4 ≠ .illFormed ∧ AllLength sampleRanges 3 :=
  ⟨by decide +kernel, sampleRanges_length⟩

/-- Whenever an unsized range is shorter than the sized ones, iterating over `range_zip` reads past its end. -/
theorem C31_over_read (rs : List (Rng α)) (hval : ∀ r ∈ rs, ValidRange r) (z : Size)
    (hz : mergeSizes (rs.map Rng.size) = .ok z) (m : Nat) (hlt : m < z.value)
    (hm : ∃ r ∈ rs, IsReal r ∧ r.elems.length = m) (hmin : ∀ r ∈ rs, IsReal r → m ≤ r.elems.length)
    (fuel : Nat) (hf : m < fuel) :
    ∃ ts, Zipped rs m ts ∧ rangeZipIterate rs fuel = .done ts .ub := by
  have hne : z ≠ .static (-1) := by
    intro h; rw [h] at hlt; simp only [Size.value] at hlt; omega
  obtain ⟨ts, hl, hts⟩ := tuplesFrom_exists (rs := rs) 0 m (by simpa using hmin)
  refine ⟨ts, ⟨hl, by intro i args hi; simpa using hts i args hi⟩, ?_⟩
  unfold rangeZipIterate
  rw [hz]
  simp only
  rw [if_neg hne]
  obtain ⟨f', rfl⟩ : ∃ f', fuel = (f' + 1) + ts.length := ⟨fuel - 1 - ts.length, by omega⟩
  obtain ⟨it', hat, heq⟩ := zipCommonLoop_steps rs (zipEnd z rs) ts 0 (zipBegin rs) [] (f' + 1) (at_begin rs) hts
    (by simpa [hl] using hmin) (by simp only [zipEnd]; omega)
  rw [heq, zipCommonLoop]
  have : zipEq it' (zipEnd z rs) = false := by
    unfold zipEq
    rw [hat.1, beq_eq_false_iff_ne]
    simp only [zipEnd]; omega
  rw [this]
  have hub : zipDeref rs it' = .ub := by
    obtain ⟨hi, hp⟩ := hat
    refine forLeaves_fail (e' := .ub) (fun _ => rfl) (fun _ => rfl) hp ?_ ?_
    · intro r hr q hq
      have hread : ∀ p, (∃ b, readAt r p = .ok b) ∨ readAt r p = .ub := by
        intro p
        by_cases h : 0 ≤ p ∧ p < r.elems.length
        · obtain ⟨x, _, h⟩ := readAt_ok h.1 h.2
          exact Or.inl ⟨_, h⟩
        · exact Or.inr (readAt_ub (by omega))
      unfold leafDeref
      cases r.mode with
      | iteratorPair => exact hread q
      | iterator => exact hread q
      | index => exact hread it'.i
      | rangeIndex => exact Or.inl ⟨_, rfl⟩
    · obtain ⟨r, hr, hR, hlen⟩ := hm
      refine ⟨r, hr, fun q hq => ?_⟩
      unfold leafDeref
      cases hmode : r.mode with
      | iteratorPair => simp only; rw [hq (Or.inl hmode)]; exact readAt_ub (by omega)
      | iterator => simp only; rw [hq (Or.inr hmode)]; exact readAt_ub (by omega)
      | index => simp only; rw [hi]; exact readAt_ub (by omega)
      | rangeIndex => exact absurd hmode hR
  rw [hub]
  simp

example : mergeSizes (unequalRanges.map Rng.size) = .ok (.dyn 3) ∧
    rangeZipIterate unequalRanges 3 = .done [[.elem 10, .elem 30], [.elem 11, .elem 31]] .ub := by
  constructor <;> decide +kernel

/-- The sentinel-based `range_zip_sentinel` does exactly what `range_for` does: by C27 it fails fast instead. -/
theorem C31_sentinel_like_range_for (rs : List (Rng α)) (hval : ∀ r ∈ rs, ValidRange r)
    (hsized : ∃ r ∈ rs, r.size ≠ .static (-1)) (fuel : Nat) :
    rangeZipSentinelIterate rs fuel = rangeFor rs fuel := by
  obtain ⟨r, hr, hs⟩ := hsized
  have hR : IsReal r := by
    intro hc
    have := hval r hr
    unfold ValidRange at this
    rw [hc] at this
    exact hs this
  unfold rangeZipSentinelIterate rangeFor zipAlgorithm
  rw [not_all_index ⟨r, hr, hR⟩]
  cases hz : mergeSizes (rs.map Rng.size) with
  | staticMismatch => rfl
  | failFast => rfl
  | ok z =>
    obtain ⟨-, hne⟩ := sized_length hval hz hr hs
    simp only [Bool.false_eq_true, if_false]
    rw [if_neg hne]
    have : sentinelWellFormed rs z = true := by
      unfold sentinelWellFormed; rw [if_neg hne]
    rw [this]
    simp

/-- Unlike `range_for`, it does not compile if no range has a size. -/
theorem C31_sentinel_unsized (rs : List (Rng α)) (hval : ∀ r ∈ rs, ValidRange r) (n : Nat) (hn : AllLength rs n)
    (h : ∀ r ∈ rs, r.size = .static (-1)) (fuel : Nat) : rangeZipSentinelIterate rs fuel = .illFormed := by
  obtain ⟨z, hz⟩ := merge_equal hval hn
  unfold rangeZipSentinelIterate
  rw [hz]
  simp only
  by_cases hne : z = .static (-1)
  · rw [if_pos hne]
  · obtain ⟨r, hr, _, _, hsz⟩ := size_value hval hz hne
    exact absurd (h r hr) hsz

example : let r : Rng Nat := ⟨.iteratorPair, .static (-1), [1, 2]⟩
    ValidRange r ∧ AllLength [r] 2 ∧ rangeZipSentinelIterate [r] 9 = .illFormed ∧ rangeFor [r] 9 = .done [[.elem 1], [.elem 2]] (.ok ()) := by
  refine ⟨?_, ?_, by decide +kernel, by decide +kernel⟩ <;> simp [ValidRange, AllLength]

example : rangeZipSentinelIterate unequalRanges 3 = .done [[.elem 10, .elem 30], [.elem 11, .elem 31]] .failFast := by
  decide +kernel

/-! ## C32 -/

/-- `range_transform_reduce` is the left fold of the transformed tuples. -/
theorem C32_transform_reduce (rs : List (Rng α)) (hv : ValidArgs rs) (n : Nat) (hn : AllLength rs n) (fuel : Nat) (hf : n < fuel)
    (init : σ) (reduce : σ → τ → σ) (transform : List (Arg α) → τ) :
    ∃ ts, Zipped rs n ts ∧
      rangeTransformReduce init reduce transform rs fuel = .done ((ts.map transform).foldl reduce init) (.ok ()) := by
  obtain ⟨ts, hz, h⟩ := zipAlgorithm_equal rs hv (fun acc args => (reduce acc (transform args), true)) init n hn fuel hf
  refine ⟨ts, hz, ?_⟩
  unfold rangeTransformReduce
  rw [h]
  congr 1
  clear h hz
  induction ts generalizing init with
  | nil => rfl
  | cons t ts ih => simp only [runBody, if_true]; exact ih _

/-- `range_reduce` is the left fold of the range. -/
theorem C32_reduce (init : σ) (reduce : σ → α → σ) (l : List α) : rangeReduce init reduce l = l.foldl reduce init := by
  induction l generalizing init with
  | nil => rfl
  | cons a l ih => simp only [rangeReduce, List.foldl_cons]; exact ih _

example : rangeTransformReduce ([] : List Nat) (fun acc t => t :: acc) (fun (a : List (Arg Nat)) => a.length) sampleRanges 4 =
    .done [4, 4, 4] (.ok ()) := by decide +kernel

example : rangeReduce 100 (fun a b => a - b) [1, 2, 3] = (94 : Int) := by decide

/-! ## C33 -/

/-- `range_count_if` counts the tuples satisfying the predicate, calling it once for each, in order. -/
theorem C33_count_if (rs : List (Rng α)) (hv : ValidArgs rs) (n : Nat) (hn : AllLength rs n) (fuel : Nat) (hf : n < fuel)
    (pred : List (Arg α) → Bool) :
    ∃ ts, Zipped rs n ts ∧ rangeCountIf pred rs fuel = .done (ts.countP pred, ts) (.ok ()) := by
  obtain ⟨ts, hz, h⟩ := zipAlgorithm_equal rs hv
    (fun (s : Nat × List (List (Arg α))) args => ((if pred args then s.1 + 1 else s.1, s.2 ++ [args]), true)) (0, []) n hn fuel hf
  refine ⟨ts, hz, ?_⟩
  unfold rangeCountIf
  rw [h]
  congr 1
  have : ∀ (ts : List (List (Arg α))) (k : Nat) (c : List (List (Arg α))),
      (runBody (fun (s : Nat × List (List (Arg α))) args => ((if pred args then s.1 + 1 else s.1, s.2 ++ [args]), true))
        (k, c) ts).1 = (k + ts.countP pred, c ++ ts) := by
    intro ts
    induction ts with
    | nil => intro k c; simp [runBody]
    | cons t ts ih =>
      intro k c
      simp only [runBody, if_true]
      rw [ih]
      by_cases ht : pred t = true
      · simp [ht]; omega
      · simp [ht]
  simpa using this ts 0 []

/-- `range_any_of`: whether some tuple satisfies the predicate; calls stop after the first that does. -/
theorem C33_any_of (rs : List (Rng α)) (hv : ValidArgs rs) (n : Nat) (hn : AllLength rs n) (fuel : Nat) (hf : n < fuel)
    (pred : List (Arg α) → Bool) :
    ∃ ts, Zipped rs n ts ∧ ∃ calls, rangeAnyOf pred rs fuel = .done (ts.any pred, calls) (.ok ()) ∧
      calls = ts.takeWhile (fun t => !pred t) ++ (ts.dropWhile (fun t => !pred t)).take 1 := by
  obtain ⟨ts, hz, h⟩ := zipAlgorithm_equal rs hv (fun (s : Bool × List (List (Arg α))) args =>
      if pred args then ((true, s.2 ++ [args]), false) else ((s.1, s.2 ++ [args]), true)) (false, []) n hn fuel hf
  refine ⟨ts, hz, _, ?_, rfl⟩
  unfold rangeAnyOf
  rw [h, search_spec pred true false ts []]
  cases ts.any pred <;> simp

/-- `range_none_of`: whether no tuple satisfies the predicate; calls stop after the first that does. -/
theorem C33_none_of (rs : List (Rng α)) (hv : ValidArgs rs) (n : Nat) (hn : AllLength rs n) (fuel : Nat) (hf : n < fuel)
    (pred : List (Arg α) → Bool) :
    ∃ ts, Zipped rs n ts ∧ ∃ calls, rangeNoneOf pred rs fuel = .done (!ts.any pred, calls) (.ok ()) ∧
      calls = ts.takeWhile (fun t => !pred t) ++ (ts.dropWhile (fun t => !pred t)).take 1 := by
  obtain ⟨ts, hz, h⟩ := zipAlgorithm_equal rs hv (fun (s : Bool × List (List (Arg α))) args =>
      if pred args then ((false, s.2 ++ [args]), false) else ((s.1, s.2 ++ [args]), true)) (true, []) n hn fuel hf
  refine ⟨ts, hz, _, ?_, rfl⟩
  unfold rangeNoneOf
  rw [h, search_spec pred false true ts []]
  cases ts.any pred <;> simp

/-- `range_all_of`: whether all tuples satisfy the predicate; calls stop after the first that does not. -/
theorem C33_all_of (rs : List (Rng α)) (hv : ValidArgs rs) (n : Nat) (hn : AllLength rs n) (fuel : Nat) (hf : n < fuel)
    (pred : List (Arg α) → Bool) :
    ∃ ts, Zipped rs n ts ∧ ∃ calls, rangeAllOf pred rs fuel = .done (ts.all pred, calls) (.ok ()) ∧
      calls = ts.takeWhile pred ++ (ts.dropWhile pred).take 1 := by
  obtain ⟨ts, hz, h⟩ := zipAlgorithm_equal rs hv (fun (s : Bool × List (List (Arg α))) args =>
      if !pred args then ((false, s.2 ++ [args]), false) else ((s.1, s.2 ++ [args]), true)) (true, []) n hn fuel hf
  refine ⟨ts, hz, _, ?_, rfl⟩
  unfold rangeAllOf
  rw [h, search_spec (fun t => !pred t) false true ts []]
  simp only [Bool.not_not, List.nil_append]
  congr 2
  rw [List.all_eq_not_any_not]
  cases ts.any (fun t => !pred t) <;> rfl

/-- `none_of(p) == !any_of(p)` and `all_of(p) == !any_of(not p)`. -/
theorem C33_duality (rs : List (Rng α)) (hv : ValidArgs rs) (n : Nat) (hn : AllLength rs n) (fuel : Nat) (hf : n < fuel)
    (pred : List (Arg α) → Bool) :
    (∃ b c c', rangeNoneOf pred rs fuel = .done (!b, c) (.ok ()) ∧ rangeAnyOf pred rs fuel = .done (b, c') (.ok ())) ∧
    (∃ b c c', rangeAllOf pred rs fuel = .done (!b, c) (.ok ()) ∧
      rangeAnyOf (fun t => !pred t) rs fuel = .done (b, c') (.ok ())) := by
  constructor
  · obtain ⟨ts, hz, c, h, -⟩ := C33_none_of rs hv n hn fuel hf pred
    obtain ⟨ts', hz', c', h', -⟩ := C33_any_of rs hv n hn fuel hf pred
    have := C26_tuples_unique rs n ts ts' hz hz'
    subst this
    exact ⟨_, _, _, h, h'⟩
  · obtain ⟨ts, hz, c, h, -⟩ := C33_all_of rs hv n hn fuel hf pred
    obtain ⟨ts', hz', c', h', -⟩ := C33_any_of rs hv n hn fuel hf (fun t => !pred t)
    have := C26_tuples_unique rs n ts ts' hz hz'
    subst this
    rw [List.all_eq_not_any_not] at h
    exact ⟨_, _, _, h, h'⟩

/-- Empty ranges give true / false / true / 0, without any call. -/
theorem C33_empty (rs : List (Rng α)) (hv : ValidArgs rs) (hn : AllLength rs 0) (fuel : Nat) (hf : 0 < fuel)
    (pred : List (Arg α) → Bool) :
    rangeAllOf pred rs fuel = .done (true, []) (.ok ()) ∧ rangeAnyOf pred rs fuel = .done (false, []) (.ok ()) ∧
    rangeNoneOf pred rs fuel = .done (true, []) (.ok ()) ∧ rangeCountIf pred rs fuel = .done (0, []) (.ok ()) := by
  have hnil : ∀ ts : List (List (Arg α)), Zipped rs 0 ts → ts = [] := fun ts h => List.length_eq_zero_iff.mp h.1
  obtain ⟨t1, z1, c1, h1, e1⟩ := C33_all_of rs hv 0 hn fuel hf pred
  obtain ⟨t2, z2, c2, h2, e2⟩ := C33_any_of rs hv 0 hn fuel hf pred
  obtain ⟨t3, z3, c3, h3, e3⟩ := C33_none_of rs hv 0 hn fuel hf pred
  obtain ⟨t4, z4, h4⟩ := C33_count_if rs hv 0 hn fuel hf pred
  rw [hnil _ z1] at h1 e1
  rw [hnil _ z2] at h2 e2
  rw [hnil _ z3] at h3 e3
  rw [hnil _ z4] at h4
  subst e1 e2 e3
  exact ⟨h1, h2, h3, h4⟩

example : rangeAllOf (fun (a : List (Arg Nat)) => a != [.elem 11, .elem 21, .elem 31, .idx 1]) sampleRanges 4 =
    .done (false, [[.elem 10, .elem 20, .elem 30, .idx 0], [.elem 11, .elem 21, .elem 31, .idx 1]]) (.ok ()) := by decide +kernel

example : rangeCountIf (fun (a : List (Arg Nat)) => a != [.elem 11, .elem 21, .elem 31, .idx 1]) sampleRanges 4 =
    .done (2, [[.elem 10, .elem 20, .elem 30, .idx 0], [.elem 11, .elem 21, .elem 31, .idx 1],
      [.elem 12, .elem 22, .elem 32, .idx 2]]) (.ok ()) := by decide +kernel

end Makeshift.Props
