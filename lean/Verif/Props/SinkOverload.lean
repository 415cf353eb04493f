import Verif.Lemmas.CommonTag

/-! # C124: fallback overloads by `any_sink`; C125: iterator tags which are user-defined classes -/

namespace Makeshift.Props

open Makeshift.SinkOverload Makeshift.SinkOverload.Spec

variable {S : Type}

/-- A function with parameters of type `any_sink` is called if and only if no viable function takes an argument by a standard conversion, and all viable
functions take one by way of an ellipsis or are templates. -/
theorem C124_selected_iff (lt : S → S → Bool) (same : S) (hirr : lt same same = false) (fns : List (Fn S)) (id : Nat)
    (args : List (SinkArg S)) (hother : ∀ a ∈ args, ∃ c, a = SinkArg.other c) (hid : ∀ F ∈ fns, F.id ≠ id)
    (htakes : ∀ F ∈ fns, Takes same args F) :
    resolve lt (fallback same id args :: fns) = some id ↔
      ∀ F ∈ fns, F.conv.isSome = true → ¬ ByStandardConversion F ∧ (ByEllipsis F ∨ F.template = true) := by
  rw [resolve_iff]
  constructor
  · rintro ⟨F, hF, hFi, -, hall⟩ G hG
    have hFf : F = fallback same id args := by
      rcases List.mem_cons.mp hF with h | h
      · exact h
      · exact absurd hFi (hid F h)
    subst hFf
    rcases hall G (List.mem_cons_of_mem _ hG) with h | h
    · exact absurd h (hid G hG)
    · exact (fallback_beats_iff lt same hirr id args hother G (htakes G hG)).mp h
  · intro h
    refine ⟨_, List.mem_cons_self .., rfl, rfl, fun G hG => ?_⟩
    rcases List.mem_cons.mp hG with rfl | hG
    · exact Or.inl rfl
    · exact Or.inr ((fallback_beats_iff lt same hirr id args hother G (htakes G hG)).mpr (h G hG))

/-- In particular it is called if no other function is viable. -/
theorem C124_only_viable (lt : S → S → Bool) (same : S) (hirr : lt same same = false) (fns : List (Fn S)) (id : Nat)
    (args : List (SinkArg S)) (hother : ∀ a ∈ args, ∃ c, a = SinkArg.other c) (hid : ∀ F ∈ fns, F.id ≠ id)
    (hnone : ∀ F ∈ fns, F.conv = none) : resolve lt (fallback same id args :: fns) = some id := by
  rw [C124_selected_iff lt same hirr fns id args hother hid (fun F hF l hl => by rw [hnone F hF] at hl; cases hl)]
  intro F hF h
  rw [hnone F hF] at h
  cases h

/-- Another function is called in the presence of the fallback if and only if it would be called without, takes an argument by a
standard conversion, and none by way of an ellipsis. -/
theorem C124_kept_iff (lt : S → S → Bool) (same : S) (hirr : lt same same = false) (fns : List (Fn S)) (id : Nat)
    (args : List (SinkArg S)) (hother : ∀ a ∈ args, ∃ c, a = SinkArg.other c) (hid : ∀ F ∈ fns, F.id ≠ id)
    (htakes : ∀ F ∈ fns, Takes same args F) (hdist : ∀ F ∈ fns, ∀ G ∈ fns, F.id = G.id → F = G) (F : Fn S) (hF : F ∈ fns) :
    resolve lt (fallback same id args :: fns) = some F.id ↔
      resolve lt fns = some F.id ∧ ByStandardConversion F ∧ ¬ ByEllipsis F := by
  have hb := beats_fallback_iff lt same hirr id args hother F (htakes F hF)
  rw [resolve_iff, resolve_iff]
  constructor
  · rintro ⟨F', hF', hi, hv, hall⟩
    have hF'm : F' ∈ fns := by
      rcases List.mem_cons.mp hF' with rfl | h
      · exact absurd hi.symm (hid F hF)
      · exact h
    have := hdist F' hF'm F hF hi
    subst this
    refine ⟨⟨F', hF'm, rfl, hv, fun G hG => hall G (List.mem_cons_of_mem _ hG)⟩, hb.mp ?_⟩
    rcases hall _ (List.mem_cons_self ..) with h | h
    · exact absurd h.symm (hid F' hF'm)
    · exact h
  · rintro ⟨⟨F', hF', hi, hv, hall⟩, h⟩
    have := hdist F' hF' F hF hi
    subst this
    refine ⟨F', List.mem_cons_of_mem _ hF', rfl, hv, fun G hG => ?_⟩
    rcases List.mem_cons.mp hG with rfl | hG
    · exact Or.inr (hb.mpr h)
    · exact hall G hG

/-- So a call of a function which takes the arguments by user-defined conversions only becomes ill-formed when a fallback is added. -/
theorem C124_user_conversion_ill_formed (lt : S → S → Bool) (same : S) (hirr : lt same same = false) (fns : List (Fn S)) (id : Nat)
    (args : List (SinkArg S)) (hother : ∀ a ∈ args, ∃ c, a = SinkArg.other c) (hid : ∀ F ∈ fns, F.id ≠ id)
    (htakes : ∀ F ∈ fns, Takes same args F) (hdist : ∀ F ∈ fns, ∀ G ∈ fns, F.id = G.id → F = G) (F : Fn S) (hF : F ∈ fns)
    (hcalled : resolve lt fns = some F.id) (hstd : ¬ ByStandardConversion F) (hell : ¬ ByEllipsis F) (htmpl : F.template = false) :
    resolve lt (fallback same id args :: fns) = none := by
  cases hres : resolve lt (fallback same id args :: fns) with
  | none => rfl
  | some r =>
    exfalso
    obtain ⟨G, hG, rfl, -, -⟩ := (resolve_iff _ _ _).mp hres
    rcases List.mem_cons.mp hG with rfl | hG
    · have hv : F.conv.isSome = true := by
        obtain ⟨F', hF', hi, hv, -⟩ := (resolve_iff _ _ _).mp hcalled
        rwa [← hdist F' hF' F hF hi]
      have := (C124_selected_iff lt same hirr fns id args hother hid htakes).mp hres F hF hv
      rcases this.2 with h | h
      · exact hell h
      · rw [htmpl] at h; cases h
    · obtain ⟨h1, h2, h3⟩ := (C124_kept_iff lt same hirr fns id args hother hid htakes hdist G hG).mp hres
      rw [hcalled] at h1
      have := hdist F hF G hG (Option.some.inj h1)
      subst this
      exact hstd h2

/-- An argument which is an `any_sink` already is passed on as it is: a fallback which is called with the parameters of another fallback prevails over all
functions which do not take an argument by a standard conversion. -/
theorem C124_forwarded (lt : S → S → Bool) (same : S) (fns : List (Fn S)) (id : Nat) (args : List (SinkArg S)) (hne : args ≠ [])
    (hsink : ∀ a ∈ args, ∃ s, a = SinkArg.sink s) (hlen : ∀ F ∈ fns, ∀ l, F.conv = some l → l.length = args.length)
    (hstd : ∀ F ∈ fns, ¬ ByStandardConversion F) : resolve lt (fallback same id args :: fns) = some id := by
  rw [resolve_iff]
  refine ⟨_, List.mem_cons_self .., rfl, rfl, fun G hG => ?_⟩
  rcases List.mem_cons.mp hG with rfl | hG
  · exact Or.inl rfl
  · right
    unfold beats fallback
    cases hc : G.conv with
    | none => rfl
    | some l =>
      have hl := hlen G hG l hc
      have harg : ∀ (i : Nat) x, (args.map (sinkIcs same))[i]? = some x → ∃ s, x = Ics.std s := by
        intro i x hx
        rw [List.getElem?_map] at hx
        obtain ⟨a, ha, rfl⟩ := Option.map_eq_some_iff.mp hx
        obtain ⟨s, rfl⟩ := hsink a (List.mem_of_getElem? ha)
        exact ⟨s, rfl⟩
      have hy : ∀ (i : Nat) y s, l[i]? = some y → Ics.better lt y (.std s) = false ∧ Ics.better lt (.std s) y = true := by
        intro i y s hi
        cases y with
        | std t => exact absurd ⟨l, t, hc, List.mem_of_getElem? hi⟩ (hstd G hG)
        | user g t => exact ⟨rfl, rfl⟩
        | ambiguous => exact ⟨rfl, rfl⟩
        | ellipsis => exact ⟨rfl, rfl⟩
      rw [betterFn_iff]
      constructor
      · intro i x y hx hi
        obtain ⟨s, rfl⟩ := harg i x hx
        exact (hy i y s hi).1
      · left
        have h0 : 0 < args.length := List.length_pos_of_ne_nil hne
        obtain ⟨s, hs⟩ := harg 0 _ (List.getElem?_eq_getElem (by simpa using h0))
        refine ⟨0, _, _, List.getElem?_eq_getElem (by simpa using h0), List.getElem?_eq_getElem (by omega), ?_⟩
        rw [hs]
        exact (hy 0 _ s (List.getElem?_eq_getElem (by omega))).2

/-- Two fallbacks with several functions taking an `any_sink` by other conversions. -/
example : resolve (fun a b : Nat => decide (a < b)) [fallback 0 0 [.sink 0], ⟨1, false, some [.user 7 0]⟩, ⟨2, true, some [.ellipsis]⟩] = some 0 := by
  decide

/-- By comparison, a fallback with an ellipsis, `f(...)`, changes no call of another function which takes no argument by way of an ellipsis, not even those which
need user-defined conversions, and it is called if and only if the other viable functions take all arguments by way of an ellipsis and are templates. -/
theorem C124_ellipsis_fallback (lt : S → S → Bool) (fns : List (Fn S)) (id n : Nat) (hn : 0 < n) (hid : ∀ F ∈ fns, F.id ≠ id)
    (hlen : ∀ F ∈ fns, ∀ l, F.conv = some l → l.length = n) (hdist : ∀ F ∈ fns, ∀ G ∈ fns, F.id = G.id → F = G) :
    (∀ F ∈ fns, ¬ ByEllipsis F →
      (resolve lt (⟨id, false, some (List.replicate n .ellipsis)⟩ :: fns) = some F.id ↔ resolve lt fns = some F.id)) ∧
    (resolve lt (⟨id, false, some (List.replicate n .ellipsis)⟩ :: fns) = some id ↔
      ∀ F ∈ fns, ∀ l, F.conv = some l → (∀ x ∈ l, x = .ellipsis) ∧ F.template = true) := by
  have hbetter : ∀ y : Ics S, Ics.better lt .ellipsis y = false ∧ (y ≠ .ellipsis → Ics.better lt y .ellipsis = true) ∧
      (Ics.better lt y .ellipsis = false → y = .ellipsis) := by
    intro y
    cases y <;> simp [Ics.better]
  constructor
  · intro F hF hell
    rw [resolve_iff, resolve_iff]
    constructor
    · rintro ⟨F', hF', hi, hv, hall⟩
      rcases List.mem_cons.mp hF' with rfl | hF'
      · exact absurd hi.symm (hid F hF)
      · exact ⟨F', hF', hi, hv, fun G hG => hall G (List.mem_cons_of_mem _ hG)⟩
    · rintro ⟨F', hF', hi, hv, hall⟩
      have := hdist F' hF' F hF hi
      subst this
      refine ⟨F', List.mem_cons_of_mem _ hF', rfl, hv, fun G hG => ?_⟩
      rcases List.mem_cons.mp hG with rfl | hG
      · right
        obtain ⟨l, hl⟩ := Option.isSome_iff_exists.mp hv
        have hll := hlen F' hF' l hl
        unfold beats
        rw [hl]
        simp only
        rw [betterFn_iff]
        constructor
        · intro i x y hx hy
          rw [List.getElem?_replicate] at hy
          split at hy
          · cases hy; exact (hbetter x).1
          · cases hy
        · left
          refine ⟨0, l[0], .ellipsis, List.getElem?_eq_getElem (by omega), by simp [hn], (hbetter _).2.1 ?_⟩
          intro h
          exact hell ⟨l, hl, h ▸ List.getElem_mem _⟩
      · exact hall G hG
  · rw [resolve_iff]
    have hiff : ∀ F ∈ fns, beats lt ⟨id, false, some (List.replicate n .ellipsis)⟩ F = true ↔
        ∀ l, F.conv = some l → (∀ x ∈ l, x = .ellipsis) ∧ F.template = true := by
      intro F hF
      unfold beats
      cases hc : F.conv with
      | none => simp
      | some l =>
        have hll := hlen F hF l hc
        simp only [Option.some.injEq, forall_eq']
        rw [betterFn_iff]
        constructor
        · rintro ⟨h1, h2⟩
          refine ⟨fun x hx => ?_, ?_⟩
          · obtain ⟨i, hi⟩ := List.getElem?_of_mem hx
            have hil := (List.getElem?_eq_some_iff.mp hi).1
            exact (hbetter x).2.2 (h1 i .ellipsis x (by rw [List.getElem?_replicate, if_pos (by omega)]) hi)
          · rcases h2 with ⟨i, x, y, hx, hy, hb⟩ | ⟨-, h⟩
            · rw [List.getElem?_replicate] at hx
              split at hx
              · cases hx; rw [(hbetter y).1] at hb; cases hb
              · cases hx
            · exact h
        · rintro ⟨h1, h2⟩
          refine ⟨fun i x y hx hy => ?_, Or.inr ⟨rfl, h2⟩⟩
          rw [List.getElem?_replicate] at hx
          split at hx
          · cases hx
            rw [h1 y (List.mem_of_getElem? hy)]
            exact (hbetter _).1
          · cases hx
    constructor
    · rintro ⟨F, hF, hi, hv, hall⟩ G hG
      rcases List.mem_cons.mp hF with rfl | hF
      · rcases hall G (List.mem_cons_of_mem _ hG) with h | h
        · exact absurd h (hid G hG)
        · exact (hiff G hG).mp h
      · exact absurd hi (hid F hF)
    · intro h
      refine ⟨_, List.mem_cons_self .., rfl, rfl, fun G hG => ?_⟩
      rcases List.mem_cons.mp hG with rfl | hG
      · exact Or.inl rfl
      · exact Or.inr ((hiff G hG).mpr (h G hG))

/-- A call by a user-defined conversion, which `any_sink` makes ambiguous, and one by an ambiguous conversion sequence. -/
example : resolve (fun a b : Nat => decide (a < b)) [⟨0, false, some [.ellipsis]⟩, ⟨1, false, some [.user 7 0]⟩] = some 1 ∧
    resolve (fun a b : Nat => decide (a < b)) [⟨0, false, some [.ellipsis]⟩, ⟨1, false, some [.ambiguous]⟩] = some 1 ∧
    ¬ ByEllipsis (⟨1, false, some [.ambiguous]⟩ : Fn Nat) := by
  refine ⟨by decide, by decide, ?_⟩
  rintro ⟨l, hl, hm⟩
  cases hl
  simp at hm

/-- A call with a class that can be converted to a parameter's type is such a call. -/
example : resolve (fun a b : Nat => decide (a < b)) [⟨1, false, some [.user 7 0]⟩] = some 1 ∧
    resolve (fun a b : Nat => decide (a < b)) [fallback 0 0 [.other 100], ⟨1, false, some [.user 7 0]⟩] = none := by decide

/-- The documented use: a function template for types with a member, which is not viable for other types. -/
example : resolve (fun a b : Nat => decide (a < b)) [fallback 0 0 [.other 100], ⟨1, true, some [.std 0]⟩] = some 1 ∧
    resolve (fun a b : Nat => decide (a < b)) [fallback 0 0 [.other 100], ⟨1, true, none⟩] = some 0 := by decide

example : Takes 0 [.other 100] (⟨1, true, some [.std 0]⟩ : Fn Nat) ∧ ByStandardConversion (⟨1, true, some [.std 0]⟩ : Fn Nat) ∧
    ¬ ByEllipsis (⟨1, true, some [.std 0]⟩ : Fn Nat) := by
  refine ⟨?_, ⟨_, 0, rfl, by simp⟩, ?_⟩
  · intro l hl
    cases hl
    refine ⟨rfl, fun i c s _ h => ?_⟩
    match i with
    | 0 => simp at h
    | _ + 1 => simp at h
  · rintro ⟨l, hl, h⟩
    cases hl
    simp at h

/-! ## Iterator tags -/

/-- A tag of which the standard tags are unambiguous bases, and which has no conversion functions to them unless it is derived from the input
tag, is classified by the standard tags from which it is derived. -/
theorem C125_classified (C : Classes) (T : Tags) (hT : T.Declared C) (k c : Nat)
    (huniq : ∀ t ∈ [T.input, T.forward, T.bidirectional, T.randomAccess, T.output], C.subobjects t c ≤ 1)
    (hconv : C.isBaseOf T.input c = true ∨ ∀ q ∈ C.convs c, C.isBaseOf T.input q = false)
    (hconv' : C.isBaseOf T.output c = true ∨ ∀ q ∈ C.convs c, C.isBaseOf T.output q = false) :
    inputBit C k T c = some (inputStrength C T c) ∧ outputBit C k T c = some (if C.isBaseOf T.output c then 1 else 0) := by
  refine ⟨?_, ?_⟩
  · rcases inputStrength_cases hT c with ⟨h1, hs⟩ | ⟨h1, h2, hs⟩ | ⟨h1, h2, hs⟩ | ⟨h1, h2, hs⟩ | ⟨h1, hs⟩
    · rw [hs]
      refine inputBit_0 hT k c h1 (hconv.resolve_left (by simp [h1]))
    · rw [hs, inputBit_1 hT k c h1 h2, if_pos (huniq _ (by simp))]
    · rw [hs, inputBit_2 hT k c h1 h2, if_pos (huniq _ (by simp))]
    · rw [hs, inputBit_3 hT k c h1 h2, if_pos (huniq _ (by simp))]
    · rw [hs, inputBit_4 hT k c h1, if_pos (huniq _ (by simp))]
  · cases h1 : C.isBaseOf T.output c with
    | true => rw [outputBit_1 k c h1, if_pos (huniq _ (by simp))]; rfl
    | false => rw [outputBit_0 k c h1 (hconv'.resolve_left (by simp [h1]))]; rfl

/-- A tag which is derived from the strongest of its tags twice is rejected. -/
theorem C125_ambiguous_base (C : Classes) (T : Tags) (hT : T.Declared C) (k c : Nat) (hpos : 0 < inputStrength C T c) (t : Nat)
    (ht : (inputTags T)[inputStrength C T c - 1]? = some t) (htwice : 2 ≤ C.subobjects t c) : inputBit C k T c = none := by
  have hn : ¬ C.subobjects t c ≤ 1 := by omega
  rcases inputStrength_cases hT c with ⟨h1, hs⟩ | ⟨h1, h2, hs⟩ | ⟨h1, h2, hs⟩ | ⟨h1, h2, hs⟩ | ⟨h1, hs⟩
  · omega
  · rw [hs] at ht; simp [inputTags] at ht; subst ht; rw [inputBit_1 hT k c h1 h2, if_neg hn]
  · rw [hs] at ht; simp [inputTags] at ht; subst ht; rw [inputBit_2 hT k c h1 h2, if_neg hn]
  · rw [hs] at ht; simp [inputTags] at ht; subst ht; rw [inputBit_3 hT k c h1 h2, if_neg hn]
  · rw [hs] at ht; simp [inputTags] at ht; subst ht; rw [inputBit_4 hT k c h1, if_neg hn]

/-- A tag which is not derived from a standard tag but has a conversion function to one is rejected (although the call would be well-formed without
the fallback). -/
theorem C125_convertible (C : Classes) (T : Tags) (hT : T.Declared C) (k c : Nat) (hk : k ∉ C.convs c) :
    (C.isBaseOf T.input c = false → (∃ q ∈ C.convs c, C.isBaseOf T.input q = true) → inputBit C k T c = none) ∧
    (C.isBaseOf T.output c = false → (∃ q ∈ C.convs c, C.isBaseOf T.output q = true) → outputBit C k T c = none) :=
  ⟨fun h hc => inputBit_conversion hT k c h hk hc, fun h hc => outputBit_conversion k c h hk hc⟩

/-- The tag of a zip iterator is derived from a standard tag if and only if the tags of all zipped iterators are. -/
theorem C125_common_tag (C : Classes) (T : Tags) (hT : T.Declared C) (k : Nat) (cs : List Nat) (hne : cs ≠ []) (z : Nat)
    (hk : ∀ c ∈ cs, k ∉ C.convs c) (h : IsCommonTag C k T cs z) (t : Nat)
    (ht : t ∈ [T.input, T.forward, T.bidirectional, T.randomAccess, T.output]) :
    C.isBaseOf t z = true ↔ ∀ c ∈ cs, C.isBaseOf t c = true :=
  common_derives hT k cs hne z hk h t ht

/-- The tag of a zip iterator exists if all tags can be classified. -/
theorem C125_well_formed (C : Classes) (T : Tags) (hT : T.Declared C) (k : Nat) (cs : List Nat) (hne : cs ≠ [])
    (hk : ∀ c ∈ cs, k ∉ C.convs c) (hi : ∀ c ∈ cs, (inputBit C k T c).isSome = true)
    (ho : ∀ c ∈ cs, (outputBit C k T c).isSome = true) :
    ∃ bx bz, (commonBitOf (inputBit C k T) cs).bind (inputBase T) = some bx ∧
      (commonBitOf (outputBit C k T) cs).bind (outputBase T) = some bz := by
  obtain ⟨h1, h2⟩ := common_exists hT k cs hne hk hi ho
  obtain ⟨bx, hx⟩ := Option.isSome_iff_exists.mp h1
  obtain ⟨bz, hz⟩ := Option.isSome_iff_exists.mp h2
  exact ⟨bx, bz, hx, hz⟩

/-- The tag of a zip iterator can itself be classified, so zips can be zipped. -/
theorem C125_zip_classified (C : Classes) (T : Tags) (hT : T.Declared C) (k : Nat) (cs : List Nat) (z : Nat)
    (h : IsCommonTag C k T cs z) :
    inputBit C k T z = some (inputStrength C T z) ∧ outputBit C k T z = some (if C.isBaseOf T.output z then 1 else 0) :=
  C125_classified C T hT k z (fun t ht => common_unique hT k cs z h t ht) (Or.inr (by rw [h.convs]; simp))
    (Or.inr (by rw [h.convs]; simp))

/-- Zipping a zip with further ranges gives the same category as zipping all the ranges. -/
theorem C125_nested (C : Classes) (T : Tags) (hT : T.Declared C) (k : Nat) (cs ds : List Nat) (hne : cs ≠ []) (z w v : Nat)
    (hk : ∀ c ∈ cs ++ ds, k ∉ C.convs c) (hz : IsCommonTag C k T cs z) (hw : IsCommonTag C k T (z :: ds) w)
    (hv : IsCommonTag C k T (cs ++ ds) v) (t : Nat) (ht : t ∈ [T.input, T.forward, T.bidirectional, T.randomAccess, T.output]) :
    C.isBaseOf t w = C.isBaseOf t v := by
  rw [Bool.eq_iff_iff, C125_common_tag C T hT k (z :: ds) (by simp) w ?_ hw t ht,
    C125_common_tag C T hT k (cs ++ ds) (by simp [hne]) v hk hv t ht]
  · simp only [List.mem_cons, List.mem_append, or_imp, forall_and, forall_eq]
    rw [C125_common_tag C T hT k cs hne z (fun c hc => hk c (by simp [hc])) hz t ht]
  · intro c hc
    rcases List.mem_cons.mp hc with rfl | hc
    · rw [hz.convs]; simp
    · exact hk c (by simp [hc])

/-- The tags of the standard library (0 to 4), a tag derived from the random access tag (5), the classes for zipping iterators with the tags 5 and
2 (6, 7, 8), a class with a conversion function to the input tag (9), and a class derived twice from the forward tag (10 = 11, 12 : 1). -/
def sinkTestClasses : Classes where
  bases
    | 1 => [0] | 2 => [1] | 3 => [2] | 5 => [3] | 6 => [2] | 8 => [6, 7] | 10 => [1] | 11 => [1] | 12 => [10, 11] | _ => []
  before := by
    intro c b hb
    split at hb <;> simp at hb <;> omega
  convs | 9 => [0] | _ => []

/-- The numbers of the standard library's tags there. -/
def sinkTestTags : Tags := ⟨0, 1, 2, 3, 4⟩

theorem sinkTestTags_declared : sinkTestTags.Declared sinkTestClasses := ⟨rfl, rfl, rfl, rfl, rfl, by decide⟩

example : inputBit sinkTestClasses 100 sinkTestTags 5 = some 4 ∧ inputBit sinkTestClasses 100 sinkTestTags 8 = some 3 ∧
    inputBit sinkTestClasses 100 sinkTestTags 9 = none ∧ inputBit sinkTestClasses 100 sinkTestTags 12 = none ∧
    inputBit sinkTestClasses 100 sinkTestTags 4 = some 0 ∧ outputBit sinkTestClasses 100 sinkTestTags 4 = some 1 := by decide +kernel

example : inputStrength sinkTestClasses sinkTestTags 12 = 2 ∧ (inputTags sinkTestTags)[1]? = some 1 ∧
    sinkTestClasses.subobjects 1 12 = 2 := by decide +kernel

example : IsCommonTag sinkTestClasses 100 sinkTestTags [5, 2] 8 :=
  ⟨⟨6, 7, rfl, by decide, by decide, by decide +kernel, by decide +kernel⟩, rfl⟩

end Makeshift.Props
