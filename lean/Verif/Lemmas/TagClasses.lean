import Verif.Lemmas.SinkOverload

/-! Helper lemmas for class hierarchies of iterator tags. -/

namespace Makeshift.SinkOverload

open Makeshift.SinkOverload.Spec

theorem subobjects_eq (C : Classes) (b c : Nat) :
    C.subobjects b c = if c = b then 1 else ((C.bases c).map fun x => C.subobjects b x).sum := by
  rw [Classes.subobjects]
  split
  · rfl
  · congr 1
    rw [List.attach_map_val (l := C.bases c) (f := fun x => C.subobjects b x)]

theorem subobjects_self (C : Classes) (b : Nat) : C.subobjects b b = 1 := by rw [subobjects_eq, if_pos rfl]

theorem isBaseOf_self (C : Classes) (b : Nat) : C.isBaseOf b b = true := by
  simp [Classes.isBaseOf, subobjects_self]

theorem sum_pos_iff {α : Type} (f : α → Nat) (l : List α) : 0 < (l.map f).sum ↔ ∃ x ∈ l, 0 < f x := by
  induction l with
  | nil => simp
  | cons a l ih =>
    simp only [List.map_cons, List.sum_cons, List.mem_cons, exists_eq_or_imp, ← ih]
    omega

theorem isBaseOf_iff (C : Classes) (b c : Nat) :
    C.isBaseOf b c = true ↔ c = b ∨ ∃ x ∈ C.bases c, C.isBaseOf b x = true := by
  simp only [Classes.isBaseOf, decide_eq_true_eq]
  rw [subobjects_eq]
  by_cases h : c = b
  · simp [h]
  · rw [if_neg h]
    simp only [h, false_or, sum_pos_iff]

theorem isBaseOf_trans (C : Classes) {a b c : Nat} (h1 : C.isBaseOf a b = true) (h2 : C.isBaseOf b c = true) :
    C.isBaseOf a c = true := by
  induction c using Nat.strongRecOn with
  | _ c ih =>
    rcases (isBaseOf_iff C b c).mp h2 with rfl | ⟨x, hx, hbx⟩
    · exact h1
    · exact (isBaseOf_iff C a c).mpr (Or.inr ⟨x, hx, ih x (C.before c x hx) hbx⟩)

theorem isBaseOf_le (C : Classes) {a c : Nat} (h : C.isBaseOf a c = true) : a ≤ c := by
  induction c using Nat.strongRecOn with
  | _ c ih =>
    rcases (isBaseOf_iff C a c).mp h with rfl | ⟨x, hx, hbx⟩
    · exact Nat.le_refl _
    · have := ih x (C.before c x hx) hbx
      have := C.before c x hx
      omega

/-- The order of the declarations of the tags. -/
theorem tags_lt {T : Tags} {C : Classes} (hT : T.Declared C) :
    T.input < T.forward ∧ T.forward < T.bidirectional ∧ T.bidirectional < T.randomAccess :=
  ⟨C.before _ _ (by rw [hT.forward]; simp), C.before _ _ (by rw [hT.bidirectional]; simp),
    C.before _ _ (by rw [hT.randomAccess]; simp)⟩

theorem base_input {T : Tags} {C : Classes} (hT : T.Declared C) (t : Nat) :
    C.isBaseOf t T.input = true ↔ t = T.input := by
  rw [isBaseOf_iff, hT.input]; simp [@eq_comm _ T.input t]

theorem base_output {T : Tags} {C : Classes} (hT : T.Declared C) (t : Nat) :
    C.isBaseOf t T.output = true ↔ t = T.output := by
  rw [isBaseOf_iff, hT.output]; simp [@eq_comm _ T.output t]

theorem base_forward {T : Tags} {C : Classes} (hT : T.Declared C) (t : Nat) :
    C.isBaseOf t T.forward = true ↔ t = T.forward ∨ t = T.input := by
  rw [isBaseOf_iff, hT.forward]; simp [base_input hT, @eq_comm _ T.forward t]

theorem base_bidirectional {T : Tags} {C : Classes} (hT : T.Declared C) (t : Nat) :
    C.isBaseOf t T.bidirectional = true ↔ t = T.bidirectional ∨ t = T.forward ∨ t = T.input := by
  rw [isBaseOf_iff, hT.bidirectional]; simp [base_forward hT, @eq_comm _ T.bidirectional t]

theorem base_randomAccess {T : Tags} {C : Classes} (hT : T.Declared C) (t : Nat) :
    C.isBaseOf t T.randomAccess = true ↔ t = T.randomAccess ∨ t = T.bidirectional ∨ t = T.forward ∨ t = T.input := by
  rw [isBaseOf_iff, hT.randomAccess]; simp [base_bidirectional hT, @eq_comm _ T.randomAccess t]

/-! ## The overloads for one argument -/

/-- The overload for parameter type `p`. -/
def ovl (C : Classes) (c p r : Nat) : Fn ClassConv := ⟨r, false, (paramIcs C c p).map fun i => [i]⟩

/-- What a class which is not derived from the parameter type is converted by. -/
theorem paramIcs_not_base (C : Classes) (c p : Nat) (h : C.isBaseOf p c = false) :
    (paramIcs C c p = none ∧ (∀ q ∈ C.convs c, C.isBaseOf p q = false)) ∨
    ((∃ q ∈ C.convs c, C.isBaseOf p q = true) ∧
      (paramIcs C c p = some .ambiguous ∨ ∃ q ∈ C.convs c, ∃ s, paramIcs C c p = some (.user q s))) := by
  have hne : c ≠ p := by rintro rfl; rw [isBaseOf_self] at h; cases h
  have hcc : classConv C c p = none := by simp [classConv, hne, h]
  unfold paramIcs
  rw [hcc]
  simp only []
  cases hf : (C.convs c).filter fun q => C.isBaseOf p q with
  | nil =>
    left
    refine ⟨rfl, fun q hq => ?_⟩
    have := List.filter_eq_nil_iff.mp hf q hq
    simpa using this
  | cons q l =>
    right
    have hq : q ∈ (C.convs c).filter fun q => C.isBaseOf p q := by rw [hf]; simp
    obtain ⟨hq1, hq2⟩ := List.mem_filter.mp hq
    refine ⟨⟨q, hq1, hq2⟩, ?_⟩
    cases l with
    | nil =>
      right
      refine ⟨q, hq1, ?_⟩
      by_cases hqp : q = p
      · exact ⟨.same, by simp [classConv, hqp]⟩
      · exact ⟨.toBase p, by simp [classConv, hqp, hq2]⟩
    | cons _ _ => exact Or.inl rfl

theorem paramIcs_base (C : Classes) (c p : Nat) (h : C.isBaseOf p c = true) :
    paramIcs C c p = some (.std (if c = p then .same else .toBase p)) := by
  unfold paramIcs classConv
  by_cases hp : c = p
  · simp [hp]
  · simp [hp, h]

/-- A base of a class wins against weaker bases and everything else. -/
theorem base_beats (C : Classes) (c p r p' r' : Nat) (h : C.isBaseOf p c = true) (hne : p' ≠ p)
    (h' : C.isBaseOf p' p = true ∨ C.isBaseOf p' c = false) :
    beats (ClassConv.better C) (ovl C c p r) (ovl C c p' r') = true := by
  unfold beats ovl
  rw [paramIcs_base C c p h]
  by_cases hb : C.isBaseOf p' c = true
  · rw [paramIcs_base C c p' hb]
    have hp'p : C.isBaseOf p' p = true := by
      rcases h' with h' | h'
      · exact h'
      · rw [hb] at h'; cases h'
    have hcp' : c ≠ p' := by
      rintro rfl
      have := isBaseOf_le C hp'p
      have := isBaseOf_le C h
      exact hne (by omega)
    have hpp' : C.isBaseOf p p' = false := by
      rw [Bool.eq_false_iff]
      intro hpp
      have := isBaseOf_le C hp'p
      have := isBaseOf_le C hpp
      exact hne (by omega)
    by_cases hcp : c = p
    · simp [betterFn, Ics.better, ClassConv.better, hcp, show p ≠ p' from fun e => hne e.symm]
    · simp [betterFn, Ics.better, ClassConv.better, hcp, hcp', hp'p, hpp', show p ≠ p' from fun e => hne e.symm]
  · rcases paramIcs_not_base C c p' (by simpa using hb) with ⟨hn, -⟩ | ⟨-, ha | ⟨q, -, s, hs⟩⟩
    · rw [hn]; rfl
    · rw [ha]; simp [betterFn, Ics.better]
    · rw [hs]; simp [betterFn, Ics.better]

/-- A base of a class wins against the fallback. -/
theorem base_beats_fallback (C : Classes) (c p r k : Nat) (h : C.isBaseOf p c = true) :
    beats (ClassConv.better C) (ovl C c p r) (fallback .same 0 [.other k]) = true := by
  unfold beats ovl fallback
  rw [paramIcs_base C c p h]
  simp [betterFn, Ics.better, sinkIcs]

/-- Without a conversion, the fallback wins. -/
theorem fallback_beats_none (C : Classes) (c p r k : Nat) (h : C.isBaseOf p c = false) (hc : ∀ q ∈ C.convs c, C.isBaseOf p q = false) :
    beats (ClassConv.better C) (fallback .same 0 [.other k]) (ovl C c p r) = true := by
  unfold beats ovl fallback
  rcases paramIcs_not_base C c p h with ⟨hn, -⟩ | ⟨⟨q, hq, hb⟩, -⟩
  · rw [hn]; rfl
  · rw [hc q hq] at hb; cases hb

/-- With a user-defined conversion, neither wins. -/
theorem fallback_conversion (C : Classes) (c p r k : Nat) (h : C.isBaseOf p c = false) (hk : k ∉ C.convs c)
    (hc : ∃ q ∈ C.convs c, C.isBaseOf p q = true) :
    beats (ClassConv.better C) (fallback .same 0 [.other k]) (ovl C c p r) = false := by
  unfold beats ovl fallback
  rcases paramIcs_not_base C c p h with ⟨-, hn⟩ | ⟨-, ha | ⟨q, hq, s, hs⟩⟩
  · obtain ⟨q, hq, hb⟩ := hc
    rw [hn q hq] at hb; cases hb
  · rw [ha]; simp [betterFn, Ics.better, sinkIcs]
  · have : k ≠ q := fun e => hk (e ▸ hq)
    rw [hs]; simp [betterFn, Ics.better, sinkIcs, this]

theorem not_base_beats_fallback (C : Classes) (c p r k : Nat) (h : C.isBaseOf p c = false) (hk : k ∉ C.convs c) :
    beats (ClassConv.better C) (ovl C c p r) (fallback .same 0 [.other k]) = false := by
  unfold beats ovl fallback
  rcases paramIcs_not_base C c p h with ⟨hn, -⟩ | ⟨-, ha | ⟨q, hq, s, hs⟩⟩
  · rw [hn]; rfl
  · rw [ha]; simp [betterFn, Ics.better, sinkIcs]
  · have : q ≠ k := fun e => hk (e ▸ hq)
    rw [hs]; simp [betterFn, Ics.better, sinkIcs, this]

theorem inputBit_unfold (C : Classes) (k : Nat) (T : Tags) (c r : Nat)
    (h : resolve (ClassConv.better C) [fallback .same 0 [.other k], ovl C c T.input 1, ovl C c T.forward 2, ovl C c T.bidirectional 3,
      ovl C c T.randomAccess 4] = some r) :
    inputBit C k T c = if r = 0 then some 0
      else ([(T.input, 1), (T.forward, 2), (T.bidirectional, 3), (T.randomAccess, 4)].find? fun o => decide (o.2 = r)).bind fun o =>
        if C.subobjects o.1 c ≤ 1 then some r else none := by
  unfold inputBit tagBit
  simp only [List.map_cons, List.map_nil]
  unfold ovl at h
  rw [h]
  rfl

theorem inputBit_0 {C : Classes} {T : Tags} (hT : T.Declared C) (k c : Nat) (h : C.isBaseOf T.input c = false)
    (hc : ∀ q ∈ C.convs c, C.isBaseOf T.input q = false) : inputBit C k T c = some 0 := by
  have up : ∀ t, C.isBaseOf T.input t = true → C.isBaseOf t c = false ∧ ∀ q ∈ C.convs c, C.isBaseOf t q = false := by
    intro t ht
    refine ⟨?_, fun q hq => ?_⟩
    · rw [Bool.eq_false_iff]; intro h'; rw [isBaseOf_trans C ht h'] at h; cases h
    · rw [Bool.eq_false_iff]; intro h'
      have := hc q hq
      rw [isBaseOf_trans C ht h'] at this; cases this
  have hf := up T.forward ((base_forward hT _).mpr (Or.inr rfl))
  have hb := up T.bidirectional ((base_bidirectional hT _).mpr (Or.inr (Or.inr rfl)))
  have hr := up T.randomAccess ((base_randomAccess hT _).mpr (Or.inr (Or.inr (Or.inr rfl))))
  rw [inputBit_unfold C k T c 0, if_pos rfl]
  rw [resolve_iff]
  refine ⟨_, List.mem_cons_self .., rfl, rfl, ?_⟩
  intro G hG
  simp only [List.mem_cons, List.not_mem_nil, or_false] at hG
  rcases hG with rfl | rfl | rfl | rfl | rfl
  · exact Or.inl rfl
  · exact Or.inr (fallback_beats_none C c _ _ k h hc)
  · exact Or.inr (fallback_beats_none C c _ _ k hf.1 hf.2)
  · exact Or.inr (fallback_beats_none C c _ _ k hb.1 hb.2)
  · exact Or.inr (fallback_beats_none C c _ _ k hr.1 hr.2)

theorem inputBit_1 {C : Classes} {T : Tags} (hT : T.Declared C) (k c : Nat) (h : C.isBaseOf T.input c = true)
    (h' : C.isBaseOf T.forward c = false) : inputBit C k T c = if C.subobjects T.input c ≤ 1 then some 1 else none := by
  have up : ∀ t, C.isBaseOf T.forward t = true → C.isBaseOf t c = false := by
    intro t ht
    rw [Bool.eq_false_iff]; intro h''; rw [isBaseOf_trans C ht h''] at h'; cases h'
  have hb := up T.bidirectional ((base_bidirectional hT _).mpr (Or.inr (Or.inl rfl)))
  have hr := up T.randomAccess ((base_randomAccess hT _).mpr (Or.inr (Or.inr (Or.inl rfl))))
  obtain ⟨l1, l2, l3⟩ := tags_lt hT
  rw [inputBit_unfold C k T c 1]
  · simp
  rw [resolve_iff]
  refine ⟨ovl C c T.input 1, by simp, rfl, by simp [ovl, paramIcs_base C c _ h], ?_⟩
  intro G hG
  simp only [List.mem_cons, List.not_mem_nil, or_false] at hG
  rcases hG with rfl | rfl | rfl | rfl | rfl
  · exact Or.inr (base_beats_fallback C c _ _ k h)
  · exact Or.inl rfl
  · exact Or.inr (base_beats C c _ _ _ _ h (by omega) (Or.inr h'))
  · exact Or.inr (base_beats C c _ _ _ _ h (by omega) (Or.inr hb))
  · exact Or.inr (base_beats C c _ _ _ _ h (by omega) (Or.inr hr))

theorem inputBit_2 {C : Classes} {T : Tags} (hT : T.Declared C) (k c : Nat) (h : C.isBaseOf T.forward c = true)
    (h' : C.isBaseOf T.bidirectional c = false) : inputBit C k T c = if C.subobjects T.forward c ≤ 1 then some 2 else none := by
  have hr : C.isBaseOf T.randomAccess c = false := by
    rw [Bool.eq_false_iff]; intro h''
    rw [isBaseOf_trans C ((base_randomAccess hT _).mpr (Or.inr (Or.inl rfl))) h''] at h'; cases h'
  obtain ⟨l1, l2, l3⟩ := tags_lt hT
  rw [inputBit_unfold C k T c 2]
  · simp
  rw [resolve_iff]
  refine ⟨ovl C c T.forward 2, by simp, rfl, by simp [ovl, paramIcs_base C c _ h], ?_⟩
  intro G hG
  simp only [List.mem_cons, List.not_mem_nil, or_false] at hG
  rcases hG with rfl | rfl | rfl | rfl | rfl
  · exact Or.inr (base_beats_fallback C c _ _ k h)
  · exact Or.inr (base_beats C c _ _ _ _ h (by omega) (Or.inl ((base_forward hT _).mpr (Or.inr rfl))))
  · exact Or.inl rfl
  · exact Or.inr (base_beats C c _ _ _ _ h (by omega) (Or.inr h'))
  · exact Or.inr (base_beats C c _ _ _ _ h (by omega) (Or.inr hr))

theorem inputBit_3 {C : Classes} {T : Tags} (hT : T.Declared C) (k c : Nat) (h : C.isBaseOf T.bidirectional c = true)
    (h' : C.isBaseOf T.randomAccess c = false) :
    inputBit C k T c = if C.subobjects T.bidirectional c ≤ 1 then some 3 else none := by
  obtain ⟨l1, l2, l3⟩ := tags_lt hT
  rw [inputBit_unfold C k T c 3]
  · simp
  rw [resolve_iff]
  refine ⟨ovl C c T.bidirectional 3, by simp, rfl, by simp [ovl, paramIcs_base C c _ h], ?_⟩
  intro G hG
  simp only [List.mem_cons, List.not_mem_nil, or_false] at hG
  rcases hG with rfl | rfl | rfl | rfl | rfl
  · exact Or.inr (base_beats_fallback C c _ _ k h)
  · exact Or.inr (base_beats C c _ _ _ _ h (by omega) (Or.inl ((base_bidirectional hT _).mpr (Or.inr (Or.inr rfl)))))
  · exact Or.inr (base_beats C c _ _ _ _ h (by omega) (Or.inl ((base_bidirectional hT _).mpr (Or.inr (Or.inl rfl)))))
  · exact Or.inl rfl
  · exact Or.inr (base_beats C c _ _ _ _ h (by omega) (Or.inr h'))

theorem inputBit_4 {C : Classes} {T : Tags} (hT : T.Declared C) (k c : Nat) (h : C.isBaseOf T.randomAccess c = true) :
    inputBit C k T c = if C.subobjects T.randomAccess c ≤ 1 then some 4 else none := by
  obtain ⟨l1, l2, l3⟩ := tags_lt hT
  rw [inputBit_unfold C k T c 4]
  · simp
  rw [resolve_iff]
  refine ⟨ovl C c T.randomAccess 4, by simp, rfl, by simp [ovl, paramIcs_base C c _ h], ?_⟩
  intro G hG
  simp only [List.mem_cons, List.not_mem_nil, or_false] at hG
  rcases hG with rfl | rfl | rfl | rfl | rfl
  · exact Or.inr (base_beats_fallback C c _ _ k h)
  · exact Or.inr (base_beats C c _ _ _ _ h (by omega) (Or.inl ((base_randomAccess hT _).mpr (Or.inr (Or.inr (Or.inr rfl))))))
  · exact Or.inr (base_beats C c _ _ _ _ h (by omega) (Or.inl ((base_randomAccess hT _).mpr (Or.inr (Or.inr (Or.inl rfl))))))
  · exact Or.inr (base_beats C c _ _ _ _ h (by omega) (Or.inl ((base_randomAccess hT _).mpr (Or.inr (Or.inl rfl)))))
  · exact Or.inl rfl

/-- A class which is not derived from the input tag but can be converted to it: the call is ill-formed. -/
theorem inputBit_conversion {C : Classes} {T : Tags} (hT : T.Declared C) (k c : Nat) (h : C.isBaseOf T.input c = false)
    (hk : k ∉ C.convs c) (hc : ∃ q ∈ C.convs c, C.isBaseOf T.input q = true) : inputBit C k T c = none := by
  have up : ∀ t, C.isBaseOf T.input t = true → C.isBaseOf t c = false := by
    intro t ht
    rw [Bool.eq_false_iff]; intro h'; rw [isBaseOf_trans C ht h'] at h; cases h
  have hf := up T.forward ((base_forward hT _).mpr (Or.inr rfl))
  have hb := up T.bidirectional ((base_bidirectional hT _).mpr (Or.inr (Or.inr rfl)))
  have hr := up T.randomAccess ((base_randomAccess hT _).mpr (Or.inr (Or.inr (Or.inr rfl))))
  have hn : resolve (ClassConv.better C) [fallback .same 0 [.other k], ovl C c T.input 1, ovl C c T.forward 2, ovl C c T.bidirectional 3,
      ovl C c T.randomAccess 4] = none := by
    cases hres : resolve (ClassConv.better C) [fallback .same 0 [.other k], ovl C c T.input 1, ovl C c T.forward 2,
      ovl C c T.bidirectional 3, ovl C c T.randomAccess 4] with
    | none => rfl
    | some r =>
      exfalso
      obtain ⟨F, hF, hFr, -, hall⟩ := (resolve_iff _ _ _).mp hres
      have h0 := hall (fallback .same 0 [.other k]) (by simp)
      have h1 := hall (ovl C c T.input 1) (by simp)
      simp only [List.mem_cons, List.not_mem_nil, or_false] at hF
      rcases hF with rfl | rfl | rfl | rfl | rfl
      · rw [fallback_conversion C c _ _ k h hk hc] at h1
        simp [ovl, fallback] at h1 hFr
        omega
      · rw [not_base_beats_fallback C c _ _ k h hk] at h0; simp [ovl, fallback] at h0 hFr; omega
      · rw [not_base_beats_fallback C c _ _ k hf hk] at h0; simp [ovl, fallback] at h0 hFr; omega
      · rw [not_base_beats_fallback C c _ _ k hb hk] at h0; simp [ovl, fallback] at h0 hFr; omega
      · rw [not_base_beats_fallback C c _ _ k hr hk] at h0; simp [ovl, fallback] at h0 hFr; omega
  unfold inputBit tagBit
  simp only [List.map_cons, List.map_nil]
  unfold ovl at hn
  rw [hn]
  rfl

theorem outputBit_unfold (C : Classes) (k : Nat) (T : Tags) (c : Nat) :
    outputBit C k T c = (resolve (ClassConv.better C) [fallback .same 0 [.other k], ovl C c T.output 1]).bind fun r =>
      if r = 0 then some 0
      else ([(T.output, 1)].find? fun o => decide (o.2 = r)).bind fun o => if C.subobjects o.1 c ≤ 1 then some r else none := rfl

theorem outputBit_1 {C : Classes} {T : Tags} (k c : Nat) (h : C.isBaseOf T.output c = true) :
    outputBit C k T c = if C.subobjects T.output c ≤ 1 then some 1 else none := by
  have hr : resolve (ClassConv.better C) [fallback .same 0 [.other k], ovl C c T.output 1] = some 1 := by
    rw [resolve_iff]
    refine ⟨ovl C c T.output 1, by simp, rfl, by simp [ovl, paramIcs_base C c _ h], ?_⟩
    intro G hG
    simp only [List.mem_cons, List.not_mem_nil, or_false] at hG
    rcases hG with rfl | rfl
    · exact Or.inr (base_beats_fallback C c _ _ k h)
    · exact Or.inl rfl
  rw [outputBit_unfold, hr]
  simp

theorem outputBit_0 {C : Classes} {T : Tags} (k c : Nat) (h : C.isBaseOf T.output c = false)
    (hc : ∀ q ∈ C.convs c, C.isBaseOf T.output q = false) : outputBit C k T c = some 0 := by
  have hr : resolve (ClassConv.better C) [fallback .same 0 [.other k], ovl C c T.output 1] = some 0 := by
    rw [resolve_iff]
    refine ⟨_, List.mem_cons_self .., rfl, rfl, ?_⟩
    intro G hG
    simp only [List.mem_cons, List.not_mem_nil, or_false] at hG
    rcases hG with rfl | rfl
    · exact Or.inl rfl
    · exact Or.inr (fallback_beats_none C c _ _ k h hc)
  rw [outputBit_unfold, hr]
  simp

theorem outputBit_conversion {C : Classes} {T : Tags} (k c : Nat) (h : C.isBaseOf T.output c = false)
    (hk : k ∉ C.convs c) (hc : ∃ q ∈ C.convs c, C.isBaseOf T.output q = true) : outputBit C k T c = none := by
  have hn : resolve (ClassConv.better C) [fallback .same 0 [.other k], ovl C c T.output 1] = none := by
    cases hres : resolve (ClassConv.better C) [fallback .same 0 [.other k], ovl C c T.output 1] with
    | none => rfl
    | some r =>
      exfalso
      obtain ⟨F, hF, hFr, -, hall⟩ := (resolve_iff _ _ _).mp hres
      have h0 := hall (fallback .same 0 [.other k]) (by simp)
      have h1 := hall (ovl C c T.output 1) (by simp)
      simp only [List.mem_cons, List.not_mem_nil, or_false] at hF
      rcases hF with rfl | rfl
      · rw [fallback_conversion C c _ _ k h hk hc] at h1
        simp [ovl, fallback] at h1 hFr
        omega
      · rw [not_base_beats_fallback C c _ _ k h hk] at h0; simp [ovl, fallback] at h0 hFr; omega
  rw [outputBit_unfold, hn]
  rfl

/-- The strength by the strongest tag. -/
theorem inputStrength_cases {C : Classes} {T : Tags} (hT : T.Declared C) (c : Nat) :
    (C.isBaseOf T.input c = false ∧ inputStrength C T c = 0) ∨
    (C.isBaseOf T.input c = true ∧ C.isBaseOf T.forward c = false ∧ inputStrength C T c = 1) ∨
    (C.isBaseOf T.forward c = true ∧ C.isBaseOf T.bidirectional c = false ∧ inputStrength C T c = 2) ∨
    (C.isBaseOf T.bidirectional c = true ∧ C.isBaseOf T.randomAccess c = false ∧ inputStrength C T c = 3) ∨
    (C.isBaseOf T.randomAccess c = true ∧ inputStrength C T c = 4) := by
  have h1 : C.isBaseOf T.forward c = true → C.isBaseOf T.input c = true := isBaseOf_trans C ((base_forward hT _).mpr (Or.inr rfl))
  have h2 : C.isBaseOf T.bidirectional c = true → C.isBaseOf T.forward c = true :=
    isBaseOf_trans C ((base_bidirectional hT _).mpr (Or.inr (Or.inl rfl)))
  have h3 : C.isBaseOf T.randomAccess c = true → C.isBaseOf T.bidirectional c = true :=
    isBaseOf_trans C ((base_randomAccess hT _).mpr (Or.inr (Or.inl rfl)))
  unfold inputStrength inputTags
  cases hi : C.isBaseOf T.input c <;> cases hf : C.isBaseOf T.forward c <;> cases hb : C.isBaseOf T.bidirectional c <;>
    cases hr : C.isBaseOf T.randomAccess c <;> simp_all

/-- If the bit is defined, it is the strength. -/
theorem inputBit_some {C : Classes} {T : Tags} (hT : T.Declared C) (k c : Nat) (hk : k ∉ C.convs c) (n : Nat)
    (h : inputBit C k T c = some n) : n = inputStrength C T c := by
  rcases inputStrength_cases hT c with ⟨h1, hs⟩ | ⟨h1, h2, hs⟩ | ⟨h1, h2, hs⟩ | ⟨h1, h2, hs⟩ | ⟨h1, hs⟩
  · by_cases hc : ∃ q ∈ C.convs c, C.isBaseOf T.input q = true
    · rw [inputBit_conversion hT k c h1 hk hc] at h; cases h
    · rw [inputBit_0 hT k c h1 (by simpa using hc)] at h
      cases h; exact hs.symm
  · rw [inputBit_1 hT k c h1 h2] at h; split at h <;> cases h; exact hs.symm
  · rw [inputBit_2 hT k c h1 h2] at h; split at h <;> cases h; exact hs.symm
  · rw [inputBit_3 hT k c h1 h2] at h; split at h <;> cases h; exact hs.symm
  · rw [inputBit_4 hT k c h1] at h; split at h <;> cases h; exact hs.symm

theorem outputBit_some {C : Classes} {T : Tags} (k c : Nat) (hk : k ∉ C.convs c) (n : Nat)
    (h : outputBit C k T c = some n) : n = if C.isBaseOf T.output c then 1 else 0 := by
  cases h1 : C.isBaseOf T.output c with
  | true => rw [outputBit_1 k c h1] at h; split at h <;> cases h; rfl
  | false =>
    by_cases hc : ∃ q ∈ C.convs c, C.isBaseOf T.output q = true
    · rw [outputBit_conversion k c h1 hk hc] at h; cases h
    · rw [outputBit_0 k c h1 (by simpa using hc)] at h
      cases h; rfl

/-- Being derived from a tag, by the strength. -/
theorem isBaseOf_iff_strength {C : Classes} {T : Tags} (hT : T.Declared C) (c : Nat) :
    (C.isBaseOf T.input c = true ↔ 1 ≤ inputStrength C T c) ∧ (C.isBaseOf T.forward c = true ↔ 2 ≤ inputStrength C T c) ∧
    (C.isBaseOf T.bidirectional c = true ↔ 3 ≤ inputStrength C T c) ∧ (C.isBaseOf T.randomAccess c = true ↔ 4 ≤ inputStrength C T c) := by
  have h1 : C.isBaseOf T.forward c = true → C.isBaseOf T.input c = true := isBaseOf_trans C ((base_forward hT _).mpr (Or.inr rfl))
  have h2 : C.isBaseOf T.bidirectional c = true → C.isBaseOf T.forward c = true :=
    isBaseOf_trans C ((base_bidirectional hT _).mpr (Or.inr (Or.inl rfl)))
  have h3 : C.isBaseOf T.randomAccess c = true → C.isBaseOf T.bidirectional c = true :=
    isBaseOf_trans C ((base_randomAccess hT _).mpr (Or.inr (Or.inl rfl)))
  unfold inputStrength inputTags
  cases hi : C.isBaseOf T.input c <;> cases hf : C.isBaseOf T.forward c <;> cases hb : C.isBaseOf T.bidirectional c <;>
    cases hr : C.isBaseOf T.randomAccess c <;> simp_all

theorem inputStrength_le (C : Classes) (T : Tags) (c : Nat) : inputStrength C T c ≤ 4 := by
  unfold inputStrength
  exact Nat.le_trans (List.length_filter_le _ _) (by simp [inputTags])

end Makeshift.SinkOverload
