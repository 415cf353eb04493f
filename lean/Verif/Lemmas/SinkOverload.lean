import Verif.Spec.SinkOverload
import Verif.Lemmas.IteratorTag
import Mathlib.Data.List.Basic

/-! Helper lemmas for fallback overloads and iterator tags. -/

namespace Makeshift.SinkOverload

open Makeshift.SinkOverload.Spec

variable {S : Type}

theorem zipWith_all_iff {α β : Type} (f : α → β → Bool) (a : List α) (b : List β) :
    (List.zipWith f a b).all id = true ↔ ∀ (i : Nat) x y, a[i]? = some x → b[i]? = some y → f x y = true := by
  induction a generalizing b with
  | nil => simp
  | cons u a ih =>
    cases b with
    | nil => simp
    | cons v b =>
      simp only [List.zipWith_cons_cons, List.all_cons, id, Bool.and_eq_true, ih]
      constructor
      · rintro ⟨h1, h2⟩ i x y hx hy
        cases i with
        | zero => simp at hx hy; subst hx; subst hy; exact h1
        | succ i => exact h2 i x y (by simpa using hx) (by simpa using hy)
      · intro h
        exact ⟨h 0 u v rfl rfl, fun i x y hx hy => h (i + 1) x y (by simpa using hx) (by simpa using hy)⟩

theorem zipWith_any_iff {α β : Type} (f : α → β → Bool) (a : List α) (b : List β) :
    (List.zipWith f a b).any id = true ↔ ∃ (i : Nat), ∃ x y, a[i]? = some x ∧ b[i]? = some y ∧ f x y = true := by
  induction a generalizing b with
  | nil => simp
  | cons u a ih =>
    cases b with
    | nil => simp
    | cons v b =>
      simp only [List.zipWith_cons_cons, List.any_cons, id, Bool.or_eq_true, ih]
      constructor
      · rintro (h | ⟨i, x, y, hx, hy, h⟩)
        · exact ⟨0, u, v, rfl, rfl, h⟩
        · exact ⟨i + 1, x, y, by simpa using hx, by simpa using hy, h⟩
      · rintro ⟨i, x, y, hx, hy, h⟩
        cases i with
        | zero => simp at hx hy; subst hx; subst hy; exact Or.inl h
        | succ i => exact Or.inr ⟨i, x, y, by simpa using hx, by simpa using hy, h⟩

theorem betterFn_iff (lt : S → S → Bool) (at_ bt : Bool) (a b : List (Ics S)) :
    betterFn lt at_ bt a b = true ↔
      (∀ (i : Nat) x y, a[i]? = some x → b[i]? = some y → Ics.better lt y x = false) ∧
      ((∃ (i : Nat), ∃ x y, a[i]? = some x ∧ b[i]? = some y ∧ Ics.better lt x y = true) ∨ (at_ = false ∧ bt = true)) := by
  unfold betterFn
  rw [Bool.and_eq_true, zipWith_all_iff, Bool.or_eq_true, zipWith_any_iff]
  simp

theorem betterFn_asymm (lt : S → S → Bool) (at_ bt : Bool) (a b : List (Ics S)) (h : betterFn lt at_ bt a b = true) :
    betterFn lt bt at_ b a = false := by
  rw [Bool.eq_false_iff]
  intro h'
  obtain ⟨h1, h2⟩ := (betterFn_iff ..).mp h
  obtain ⟨h3, h4⟩ := (betterFn_iff ..).mp h'
  rcases h2 with ⟨i, x, y, hx, hy, hb⟩ | ⟨ha, hb⟩
  · rw [h3 i y x hy hx] at hb; cases hb
  · rcases h4 with ⟨i, x, y, hx, hy, hb'⟩ | ⟨ha', _⟩
    · rw [h1 i y x hy hx] at hb'; cases hb'
    · rw [ha'] at hb; cases hb

theorem beats_asymm (lt : S → S → Bool) (F G : Fn S) (h : beats lt F G = true) : beats lt G F = false := by
  unfold beats at *
  cases hF : F.conv <;> cases hG : G.conv <;> simp only [hF, hG] at h ⊢
  · cases h
  · exact betterFn_asymm _ _ _ _ _ h

/-- What resolution means. -/
theorem resolve_iff (lt : S → S → Bool) (fns : List (Fn S)) (i : Nat) :
    resolve lt fns = some i ↔
      ∃ F ∈ fns, F.id = i ∧ F.conv.isSome = true ∧ ∀ G ∈ fns, G.id = i ∨ beats lt F G = true := by
  constructor
  · intro h
    unfold resolve at h
    obtain ⟨F, hF, rfl⟩ := Option.map_eq_some_iff.mp h
    refine ⟨F, List.mem_of_find?_eq_some hF, rfl, ?_⟩
    have := List.find?_some hF
    simp only [Bool.and_eq_true, List.all_eq_true, Bool.or_eq_true, decide_eq_true_eq] at this
    exact this
  · rintro ⟨F, hF, rfl, hv, hall⟩
    unfold resolve
    have hex : (fns.find? fun F => F.conv.isSome && fns.all fun G => decide (G.id = F.id) || beats lt F G).isSome = true := by
      rw [List.find?_isSome]
      refine ⟨F, hF, ?_⟩
      simp only [Bool.and_eq_true, List.all_eq_true, Bool.or_eq_true, decide_eq_true_eq]
      exact ⟨hv, hall⟩
    obtain ⟨G, hG⟩ := Option.isSome_iff_exists.mp hex
    rw [hG]
    have hGm := List.mem_of_find?_eq_some hG
    have hGp := List.find?_some hG
    simp only [Bool.and_eq_true, List.all_eq_true, Bool.or_eq_true, decide_eq_true_eq] at hGp
    simp only [Option.map_some, Option.some.injEq]
    rcases hall G hGm with h | h
    · exact h
    · rcases hGp.2 F hF with h' | h'
      · exact h'.symm
      · rw [beats_asymm lt _ _ h] at h'; cases h'

/-- The fallback against another function. -/
theorem fallback_beats_iff (lt : S → S → Bool) (same : S) (hirr : lt same same = false) (id : Nat) (args : List (SinkArg S))
    (hother : ∀ a ∈ args, ∃ c, a = SinkArg.other c) (F : Fn S) (hF : Takes same args F) :
    beats lt (fallback same id args) F = true ↔
      (F.conv.isSome = true → ¬ ByStandardConversion F ∧ (ByEllipsis F ∨ F.template = true)) := by
  unfold beats fallback ByStandardConversion ByEllipsis
  cases hc : F.conv with
  | none => simp
  | some l =>
    obtain ⟨hlen, hsame⟩ := hF l hc
    have harg : ∀ (i : Nat) y, l[i]? = some y → ∃ c, args[i]? = some (.other c) ∧ (args.map (sinkIcs same))[i]? = some (.user c same) := by
      intro i y hy
      have hi := (List.getElem?_eq_some_iff.mp hy).1
      have hi' : i < args.length := by omega
      obtain ⟨c, hcc⟩ := hother args[i] (List.getElem_mem hi')
      refine ⟨c, by rw [List.getElem?_eq_getElem hi', hcc], ?_⟩
      rw [List.getElem?_map, List.getElem?_eq_getElem hi', hcc]; rfl
    simp only [Option.some.injEq, Option.isSome_some, forall_const]
    rw [betterFn_iff]
    constructor
    · rintro ⟨h1, h2⟩
      refine ⟨?_, ?_⟩
      · rintro ⟨_, s, rfl, hs⟩
        obtain ⟨i, hi⟩ := List.getElem?_of_mem hs
        obtain ⟨c, -, hm⟩ := harg i _ hi
        have := h1 i _ _ hm hi
        simp [Ics.better] at this
      · rcases h2 with ⟨i, x, y, hx, hy, hb⟩ | ⟨-, h⟩
        · left
          obtain ⟨c, ha, hm⟩ := harg i _ hy
          rw [hm] at hx
          cases hx
          cases y with
          | std s => simp [Ics.better] at hb
          | user g s =>
            simp only [Ics.better, Bool.and_eq_true, beq_iff_eq] at hb
            obtain ⟨rfl, hb⟩ := hb
            rw [hsame i _ s ha hy, hirr] at hb
            cases hb
          | ambiguous => simp [Ics.better] at hb
          | ellipsis => exact ⟨l, rfl, List.mem_of_getElem? hy⟩
        · exact Or.inr h
    · rintro ⟨h1, h2⟩
      refine ⟨?_, ?_⟩
      · intro i x y hx hy
        obtain ⟨c, ha, hm⟩ := harg i _ hy
        rw [hm] at hx
        cases hx
        cases y with
        | std s => exact absurd ⟨l, s, rfl, List.mem_of_getElem? hy⟩ h1
        | user g s =>
          simp only [Ics.better, Bool.and_eq_false_iff, beq_eq_false_iff_ne]
          by_cases hg : g = c
          · subst hg
            right
            rw [hsame i _ s ha hy]; exact hirr
          · exact Or.inl hg
        | ambiguous => rfl
        | ellipsis => rfl
      · rcases h2 with ⟨l', hl', he⟩ | h
        · cases hl'
          left
          obtain ⟨i, hi⟩ := List.getElem?_of_mem he
          obtain ⟨c, -, hm⟩ := harg i _ hi
          exact ⟨i, _, _, hm, hi, rfl⟩
        · exact Or.inr ⟨rfl, h⟩

/-- Another function against the fallback. -/
theorem beats_fallback_iff (lt : S → S → Bool) (same : S) (hmin : lt same same = false) (id : Nat) (args : List (SinkArg S))
    (hother : ∀ a ∈ args, ∃ c, a = SinkArg.other c) (F : Fn S) (hF : Takes same args F) :
    beats lt F (fallback same id args) = true ↔ ByStandardConversion F ∧ ¬ ByEllipsis F := by
  unfold beats fallback ByStandardConversion ByEllipsis
  cases hc : F.conv with
  | none => simp
  | some l =>
    obtain ⟨hlen, hsame⟩ := hF l hc
    have harg : ∀ (i : Nat) y, l[i]? = some y → ∃ c, args[i]? = some (.other c) ∧ (args.map (sinkIcs same))[i]? = some (.user c same) := by
      intro i y hy
      have hi := (List.getElem?_eq_some_iff.mp hy).1
      have hi' : i < args.length := by omega
      obtain ⟨c, hcc⟩ := hother args[i] (List.getElem_mem hi')
      refine ⟨c, by rw [List.getElem?_eq_getElem hi', hcc], ?_⟩
      rw [List.getElem?_map, List.getElem?_eq_getElem hi', hcc]; rfl
    simp only [Option.some.injEq]
    rw [betterFn_iff]
    constructor
    · rintro ⟨h1, h2⟩
      refine ⟨?_, ?_⟩
      · rcases h2 with ⟨i, x, y, hx, hy, hb⟩ | ⟨-, h⟩
        · obtain ⟨c, ha, hm⟩ := harg i _ hx
          rw [hm] at hy
          cases hy
          cases x with
          | std s => exact ⟨l, s, rfl, List.mem_of_getElem? hx⟩
          | user g s =>
            simp only [Ics.better, Bool.and_eq_true, beq_iff_eq] at hb
            obtain ⟨rfl, hb⟩ := hb
            rw [hsame i _ s ha hx, hmin] at hb
            cases hb
          | ambiguous => simp [Ics.better] at hb
          | ellipsis => simp [Ics.better] at hb
        · cases h
      · rintro ⟨_, rfl, he⟩
        obtain ⟨i, hi⟩ := List.getElem?_of_mem he
        obtain ⟨c, -, hm⟩ := harg i _ hi
        have := h1 i _ _ hi hm
        simp [Ics.better] at this
    · rintro ⟨⟨_, s, rfl, hs⟩, h2⟩
      refine ⟨?_, Or.inl ?_⟩
      · intro i x y hx hy
        obtain ⟨c, ha, hm⟩ := harg i _ hx
        rw [hm] at hy
        cases hy
        cases x with
        | std s => rfl
        | user g s =>
          simp only [Ics.better, Bool.and_eq_false_iff, beq_eq_false_iff_ne]
          by_cases hg : c = g
          · subst hg
            right
            rw [hsame i _ s ha hx]; exact hmin
          · exact Or.inl hg
        | ambiguous => rfl
        | ellipsis => exact absurd ⟨l, rfl, List.mem_of_getElem? hx⟩ h2
      · obtain ⟨i, hi⟩ := List.getElem?_of_mem hs
        obtain ⟨c, -, hm⟩ := harg i _ hi
        exact ⟨i, _, _, hi, hm, rfl⟩

end Makeshift.SinkOverload
