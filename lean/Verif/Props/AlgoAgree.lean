import Verif.Spec.AlgoAgree
import Verif.Props.Zip
import Verif.Props.TupleAlgo

/-! Property theorems C121: algorithms for ranges and algorithms for tuples agree. -/

namespace Makeshift.Props

open Spec

variable {α σ τ : Type}

/-- The arguments of the calls correspond. -/
private theorem calls_agree {args : List (TArg α)} {rs : List (Rng α)} (hs : List.Forall₂ SameArg args rs) {n : Nat}
    {calls : List (List (TVal α))} {ts : List (List (Arg α))} (hl : calls.length = n) (hc : CallArgs args calls) (hz : Zipped rs n ts) :
    List.Forall₂ SameCall calls ts := by
  rw [List.forall₂_iff_get]
  refine ⟨by rw [hl, hz.1], fun i h1 h2 => ?_⟩
  have h3 := hc i calls[i] (by simp)
  have h4 := hz.2 i ts[i] (by simp)
  simp only [List.get_eq_getElem]
  generalize calls[i] = vs at h3
  generalize ts[i] = as at h4
  unfold SameCall
  clear hc hz
  induction hs generalizing vs as with
  | nil => cases h3; cases h4; exact .nil
  | cons ha _ ih =>
    cases h3 with
    | cons p ps =>
      cases h4 with
      | cons q qs =>
        refine .cons ?_ (ih _ ps _ qs)
        cases ha with
        | elements hm =>
          cases p with
          | tuple hp =>
            rcases q with ⟨hq, _⟩ | ⟨_, x, hx, rfl⟩
            · exact absurd hq hm
            · rw [hp] at hx
              cases hx
              exact .elem _
        | rangeIndex hm =>
          cases p
          rcases q with ⟨_, rfl⟩ | ⟨hq, _⟩
          · exact .index i
          · exact absurd hm hq

private theorem allSize_of {args : List (TArg α)} {rs : List (Rng α)} (hs : List.Forall₂ SameArg args rs) {n : Nat}
    (hn : AllLength rs n) : AllSize n args := by
  induction hs with
  | nil => intro l hl; simp at hl
  | cons ha _ ih =>
    intro l hl
    rcases List.mem_cons.1 hl with h | h
    · cases ha with
      | elements hm =>
        cases h
        exact hn _ (by simp) hm
      | rangeIndex => cases h
    · exact ih (fun r hr => hn r (by simp [hr])) l h

private theorem hasTuple_of {args : List (TArg α)} {rs : List (Rng α)} (hs : List.Forall₂ SameArg args rs)
    (hr : ∃ r ∈ rs, IsReal r) : HasTuple args := by
  induction hs with
  | nil => simp at hr
  | cons ha _ ih =>
    obtain ⟨r, hm, hR⟩ := hr
    cases ha with
    | elements => exact ⟨_, List.mem_cons_self⟩
    | rangeIndex hi =>
      rcases List.mem_cons.1 hm with rfl | hm
      · exact absurd hi hR
      · obtain ⟨l, hl⟩ := ih ⟨r, hm, hR⟩
        exact ⟨l, by simp [hl]⟩

private theorem calls_of {args : List (TArg α)} {rs : List (Rng α)} (hs : List.Forall₂ SameArg args rs) {n : Nat} (hn : AllLength rs n) :
    ∃ calls, calls.length = n ∧ CallArgs args calls ∧ ∀ ts, Zipped rs n ts → List.Forall₂ SameCall calls ts := by
  obtain ⟨calls, h1, h2, _⟩ := C38_calls_exist args n (allSize_of hs hn)
  exact ⟨calls, h1, h2, fun ts hz => calls_agree hs h1 h2 hz⟩

/-! ## C121 -/

/-- `template_for(f, tuples...)` and `range_for(f, ranges...)` make the same calls in the same order, if the ranges have the elements of
the tuples. -/
theorem C121_for (args : List (TArg α)) (rs : List (Rng α)) (hs : List.Forall₂ SameArg args rs) (hv : ValidArgs rs) (n : Nat)
    (hn : AllLength rs n) (fuel : Nat) (hf : n < fuel) :
    ∃ calls ts, templateFor (-1) (fun vs log => ((), log ++ [vs])) args [] = some calls ∧ rangeFor rs fuel = .done ts (.ok ()) ∧
      List.Forall₂ SameCall calls ts := by
  obtain ⟨calls, h1, h2, h3⟩ := calls_of hs hn
  obtain ⟨ts, hz, ht⟩ := C26_range_for rs hv n hn fuel hf
  refine ⟨calls, ts, ?_, ht, h3 ts hz⟩
  rw [C38_template_for (-1) _ args calls [] (by rw [h1]; exact allSize_of hs hn) (.inl ⟨rfl, hasTuple_of hs hv.2.1⟩) h2]
  congr 1
  have : ∀ (l acc : List (List (TVal α))), l.foldl (fun s vs => s ++ [vs]) acc = acc ++ l := by
    intro l
    induction l with
    | nil => intro acc; simp
    | cons c l ih => intro acc; simp [ih]
  simpa using this calls []

/-- `template_transform_reduce` and `range_transform_reduce` return the same, if the functors do for the same arguments. -/
theorem C121_transform_reduce (args : List (TArg α)) (rs : List (Rng α)) (hs : List.Forall₂ SameArg args rs) (hv : ValidArgs rs) (n : Nat)
    (hn : AllLength rs n) (fuel : Nat) (hf : n < fuel) (init : σ) (reduce : σ → τ → σ) (tt : List (TVal α) → τ)
    (rt : List (Arg α) → τ) (hsame : ∀ vs as, SameCall vs as → tt vs = rt as) :
    ∃ r, templateTransformReduce (S := Unit) init (fun a b s => (reduce a b, s)) (fun vs s => (tt vs, s)) args () = some (r, ()) ∧
      rangeTransformReduce init reduce rt rs fuel = .done r (.ok ()) := by
  obtain ⟨calls, h1, h2, h3⟩ := calls_of hs hn
  obtain ⟨ts, hz, ht⟩ := C32_transform_reduce rs hv n hn fuel hf init reduce rt
  refine ⟨_, ?_, ht⟩
  rw [C40_transform_reduce init _ _ args calls () (by rw [h1]; exact allSize_of hs hn) (hasTuple_of hs hv.2.1) h2]
  congr 1
  have hagree := h3 ts hz
  clear h1 h2 h3 hz ht
  induction hagree generalizing init with
  | nil => rfl
  | cons h _ ih => simp only [List.foldl_cons, List.map_cons, hsame _ _ h, ih]

private theorem through_eq {β : Type} (p : β → Bool) (l : List β) :
    throughFirst p l = l.takeWhile (fun t => !p t) ++ (l.dropWhile (fun t => !p t)).take 1 := by
  induction l with
  | nil => rfl
  | cons a l ih =>
    cases h : p a <;> simp [throughFirst, h, ih]

private theorem through_agree {calls : List (List (TVal α))} {ts : List (List (Arg α))} (h : List.Forall₂ SameCall calls ts)
    {tp : List (TVal α) → Bool} {rp : List (Arg α) → Bool} (hsame : ∀ vs as, SameCall vs as → tp vs = rp as) :
    List.Forall₂ SameCall (throughFirst tp calls) (throughFirst rp ts) := by
  induction h with
  | nil => exact .nil
  | cons h hr ih =>
    simp only [throughFirst, hsame _ _ h]
    split
    · exact .cons h .nil
    · exact .cons h ih

private theorem log_fold (l acc : List (List (TVal α))) : l.foldl (fun s vs => s ++ [vs]) acc = acc ++ l := by
  induction l generalizing acc with
  | nil => simp
  | cons c l ih => simp [ih]

private theorem any_agree {calls : List (List (TVal α))} {ts : List (List (Arg α))} (h : List.Forall₂ SameCall calls ts)
    {tp : List (TVal α) → Bool} {rp : List (Arg α) → Bool} (hsame : ∀ vs as, SameCall vs as → tp vs = rp as) :
    ts.any rp = calls.any tp := by
  induction h with
  | nil => rfl
  | cons h _ ih => simp only [List.any_cons, hsame _ _ h, ih]

/-- `template_all_of`, `template_any_of` and `template_none_of` return what `range_all_of`, `range_any_of` and `range_none_of` return, and
make the same calls to the predicate. -/
theorem C121_quantifiers (args : List (TArg α)) (rs : List (Rng α)) (hs : List.Forall₂ SameArg args rs) (hv : ValidArgs rs) (n : Nat)
    (hn : AllLength rs n) (fuel : Nat) (hf : n < fuel) (tp : List (TVal α) → Bool) (rp : List (Arg α) → Bool)
    (hsame : ∀ vs as, SameCall vs as → tp vs = rp as) :
    (∃ b tc rc, templateAllOf (fun vs log => (tp vs, log ++ [vs])) args [] = some (b, tc) ∧
      rangeAllOf rp rs fuel = .done (b, rc) (.ok ()) ∧ List.Forall₂ SameCall tc rc) ∧
    (∃ b tc rc, templateAnyOf (fun vs log => (tp vs, log ++ [vs])) args [] = some (b, tc) ∧
      rangeAnyOf rp rs fuel = .done (b, rc) (.ok ()) ∧ List.Forall₂ SameCall tc rc) ∧
    (∃ b tc rc, templateNoneOf (fun vs log => (tp vs, log ++ [vs])) args [] = some (b, tc) ∧
      rangeNoneOf rp rs fuel = .done (b, rc) (.ok ()) ∧ List.Forall₂ SameCall tc rc) := by
  obtain ⟨calls, h1, h2, h3⟩ := calls_of hs hn
  have hall : AllSize calls.length args := by rw [h1]; exact allSize_of hs hn
  have htup := hasTuple_of hs hv.2.1
  refine ⟨?_, ?_, ?_⟩
  · obtain ⟨ts, hz, c, hc, rfl⟩ := C33_all_of rs hv n hn fuel hf rp
    have hag := h3 ts hz
    refine ⟨_, _, ts.takeWhile rp ++ (ts.dropWhile rp).take 1, C40_all_of tp (fun vs log => log ++ [vs]) args calls [] hall htup h2, ?_, ?_⟩
    · rw [hc]
      congr 2
      rw [List.all_eq_not_any_not, any_agree hag (tp := fun vs => !tp vs) (rp := fun as => !rp as) (by
        intro vs as h; rw [hsame vs as h]), Bool.eq_iff_iff]
      simp
    · have := through_agree hag (tp := fun vs => !tp vs) (rp := fun as => !rp as) (by intro vs as h; rw [hsame vs as h])
      rw [log_fold, List.nil_append]
      rw [through_eq (fun as => !rp as)] at this
      simpa using this
  · obtain ⟨ts, hz, c, hc, rfl⟩ := C33_any_of rs hv n hn fuel hf rp
    have hag := h3 ts hz
    refine ⟨_, _, ts.takeWhile (fun t => !rp t) ++ (ts.dropWhile (fun t => !rp t)).take 1, C40_any_of tp (fun vs log => log ++ [vs]) args calls [] hall htup h2, ?_, ?_⟩
    · rw [hc, any_agree hag hsame]
      congr 2
      rw [Bool.eq_iff_iff]
      simp
    · rw [log_fold, List.nil_append, ← through_eq]
      exact through_agree hag hsame
  · obtain ⟨ts, hz, c, hc, rfl⟩ := C33_none_of rs hv n hn fuel hf rp
    have hag := h3 ts hz
    refine ⟨_, _, ts.takeWhile (fun t => !rp t) ++ (ts.dropWhile (fun t => !rp t)).take 1, C40_none_of tp (fun vs log => log ++ [vs]) args calls [] hall htup h2, ?_, ?_⟩
    · rw [hc, any_agree hag hsame]
      congr 2
      rw [Bool.eq_iff_iff]
      simp
    · rw [log_fold, List.nil_append, ← through_eq]
      exact through_agree hag hsame

/-- A tuple of three and a vector of three with the same elements, each with the index. -/
example : List.Forall₂ SameArg [.tuple [10, 11, 12], .tuple [20, 21, 22], .tuple [30, 31, 32], .rangeIndex] sampleRanges ∧
    ValidArgs sampleRanges ∧ AllLength sampleRanges 3 := by
  refine ⟨?_, sampleRanges_valid, sampleRanges_length⟩
  exact .cons (.elements (r := ⟨.index, .dyn 3, [10, 11, 12]⟩) (by decide)) (.cons (.elements (r := ⟨.iterator, .dyn 3, [20, 21, 22]⟩) (by decide))
    (.cons (.elements (r := ⟨.iteratorPair, .static (-1), [30, 31, 32]⟩) (by decide)) (.cons (.rangeIndex rfl) .nil)))

example : (∀ vs as, SameCall vs as → vs.length = (as : List (Arg Nat)).length) ∧
    SameCall [TVal.elem 10, .index 0] [Arg.elem 10, .idx 0] :=
  ⟨fun _ _ h => h.length_eq, .cons (.elem 10) (.cons (.index 0) .nil)⟩

end Makeshift.Props
