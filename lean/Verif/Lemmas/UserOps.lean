import Verif.Spec.UserOps
import Verif.Lemmas.Zip
import Verif.Lemmas.MergeSizes
import Mathlib.Data.List.Nodup
import Mathlib.Data.List.Perm.Basic

/-! # Lemmas on algorithms over user-defined iterators -/

namespace Makeshift.UserOps

open Makeshift.Spec.UserOps

variable {α β γ : Type}

/-- What a part adds to the record if it ends normally resp. otherwise. -/
def Good (m : Act α β) (P : List (Event α) → β → Prop) (B : List (Event α) → Stop → Prop) : Prop :=
  ∀ h, ∃ es, (m h).1 = h ++ es ∧ (∀ b, (m h).2 = .ok b → P es b) ∧ ∀ s, (m h).2 = .stop s → B es s

theorem Good.mono {m : Act α β} {P P' : List (Event α) → β → Prop} {B B' : List (Event α) → Stop → Prop} (h : Good m P B) (hP : ∀ es b, P es b → P' es b)
    (hB : ∀ es s, B es s → B' es s) : Good m P' B' := by
  intro r
  obtain ⟨es, h1, h2, h3⟩ := h r
  exact ⟨es, h1, fun b hb => hP _ _ (h2 b hb), fun s hs => hB _ _ (h3 s hs)⟩

theorem good_pure (b : β) : Good (α := α) (pure' b) (fun es c => es = [] ∧ c = b) fun _ _ => False := by
  intro h
  refine ⟨[], by simp [pure'], ?_, ?_⟩
  · intro c hc
    simp only [pure', Ending.ok.injEq] at hc
    exact ⟨rfl, hc.symm⟩
  · intro s hs
    simp [pure'] at hs

theorem good_stop (s : Stop) : Good (α := α) (β := β) (stop s) (fun _ _ => False) fun es s' => es = [] ∧ s' = s := by
  intro h
  refine ⟨[], by simp [stop], ?_, ?_⟩
  · intro c hc
    simp [stop] at hc
  · intro s' hs
    simp only [stop, Ending.stop.injEq] at hs
    exact ⟨rfl, hs.symm⟩

theorem good_andThen {m : Act α β} {f : β → Act α γ} {P : List (Event α) → β → Prop} {B : List (Event α) → Stop → Prop}
    {P' : List (Event α) → β → List (Event α) → γ → Prop} {B' : List (Event α) → β → List (Event α) → Stop → Prop} (hm : Good m P B)
    (hf : ∀ e b, P e b → Good (f b) (P' e b) (B' e b)) :
    Good (andThen m f) (fun es c => ∃ e1 e2 b, es = e1 ++ e2 ∧ P e1 b ∧ P' e1 b e2 c)
      fun es s => B es s ∨ ∃ e1 e2 b, es = e1 ++ e2 ∧ P e1 b ∧ B' e1 b e2 s := by
  intro h
  obtain ⟨e1, h1, h2, h3⟩ := hm h
  rcases hr : m h with ⟨h', b | s⟩
  · rw [hr] at h1 h2 h3
    simp only at h1
    have hb := h2 b rfl
    obtain ⟨e2, g1, g2, g3⟩ := hf e1 b hb h'
    refine ⟨e1 ++ e2, ?_, ?_, ?_⟩
    · simp only [andThen, hr]
      rw [g1, h1, List.append_assoc]
    · intro c hc
      simp only [andThen, hr] at hc
      exact ⟨e1, e2, b, rfl, hb, g2 c hc⟩
    · intro s hs
      simp only [andThen, hr] at hs
      exact .inr ⟨e1, e2, b, rfl, hb, g3 s hs⟩
  · rw [hr] at h1 h2 h3
    simp only at h1
    refine ⟨e1, ?_, ?_, ?_⟩
    · simp only [andThen, hr]
      exact h1
    · intro c hc
      simp [andThen, hr] at hc
    · intro s' hs
      simp only [andThen, hr, Ending.stop.injEq] at hs
      exact .inl (h3 s' (by rw [← hs]))

theorem andThen_assoc {δ : Type} (m : Act α β) (f : β → Act α γ) (g : γ → Act α δ) : andThen (andThen m f) g = andThen m fun b => andThen (f b) g := by
  funext h
  unfold andThen
  rcases m h with ⟨h', b | s⟩ <;> rfl

theorem pure_andThen (b : β) (f : β → Act α γ) : andThen (pure' b) f = f b := rfl

theorem good_ask (u : User α) (o : Op α) : Good (ask u o) (fun es r => es = [.did o r]) fun es s => es = [.threw o] ∧ s = .exception := by
  intro h
  rcases hu : u h o with _ | r
  · refine ⟨[.threw o], by simp [ask, hu], ?_, ?_⟩
    · intro c hc
      simp [ask, hu] at hc
    · intro s hs
      simp only [ask, hu, Ending.stop.injEq] at hs
      exact ⟨rfl, hs.symm⟩
  · refine ⟨[.did o r], by simp [ask, hu], ?_, ?_⟩
    · intro c hc
      simp only [ask, hu, Ending.ok.injEq] at hc
      rw [hc]
    · intro s hs
      simp [ask, hu] at hs

/-- All parts of a pack expansion have ended normally. -/
inductive EachOk (P : Nat → List (Event α) → β → Prop) : List Nat → List (Event α) → List (Nat × β) → Prop where
  | nil : EachOk P [] [] []
  | cons {r rs e b es bs} : P r e b → EachOk P rs es bs → EachOk P (r :: rs) (e ++ es) ((r, b) :: bs)

theorem good_each {f : Nat → Act α β} {P : Nat → List (Event α) → β → Prop} {B : Nat → List (Event α) → Stop → Prop} (hf : ∀ r, Good (f r) (P r) (B r)) :
    ∀ order, Good (each f order) (EachOk P order)
      fun es s => ∃ done r rest e1 bs e2, order = done ++ r :: rest ∧ EachOk P done e1 bs ∧ es = e1 ++ e2 ∧ B r e2 s
  | [] => (good_pure []).mono (by rintro es b ⟨rfl, rfl⟩; exact .nil) (by simp)
  | r :: rs => by
    refine (good_andThen (hf r) fun e b _ => good_andThen (good_each hf rs) fun es bs _ => good_pure ((r, b) :: bs)).mono ?_ ?_
    · rintro es c ⟨e1, e2, b, rfl, h1, e3, e4, bs, rfl, h2, rfl, rfl⟩
      simpa using EachOk.cons h1 h2
    · rintro es s (h | ⟨e1, e2, b, rfl, h1, h | ⟨_, _, _, _, _, h⟩⟩)
      · exact ⟨[], r, rs, [], [], es, rfl, .nil, rfl, h⟩
      · obtain ⟨done, q, rest, e3, bs, e4, rfl, h2, rfl, h3⟩ := h
        exact ⟨r :: done, q, rest, e1 ++ e3, (r, b) :: bs, e4, rfl, .cons h1 h2, by simp, h3⟩
      · exact h.elim

theorem EachOk.functions [Inhabited β] {P : Nat → List (Event α) → β → Prop} {order : List Nat} {es : List (Event α)} {bs : List (Nat × β)} (h : EachOk P order es bs)
    (hn : order.Nodup) :
    ∃ (v : Nat → β) (e : Nat → List (Event α)), bs = order.map (fun r => (r, v r)) ∧ es = order.flatMap e ∧ ∀ r ∈ order, P r (e r) (v r) := by
  induction h with
  | nil => exact ⟨fun _ => default, fun _ => [], rfl, rfl, by simp⟩
  | @cons r rs e b es bs h1 _ ih =>
    rw [List.nodup_cons] at hn
    obtain ⟨v, f, rfl, rfl, h2⟩ := ih hn.2
    have ne : ∀ q ∈ rs, q ≠ r := fun q hq he => hn.1 (he ▸ hq)
    refine ⟨fun q => if q = r then b else v q, fun q => if q = r then e else f q, ?_, ?_, ?_⟩
    · simp only [List.map_cons, if_true]
      congr 1
      apply List.map_congr_left
      intro q hq
      simp [ne q hq]
    · simp only [List.flatMap_cons, if_true]
      congr 1
      rw [List.flatMap_def, List.flatMap_def]
      congr 1
      apply List.map_congr_left
      intro q hq
      simp [ne q hq]
    · intro q hq
      rcases List.mem_cons.1 hq with rfl | hq
      · simpa using h1
      · simpa [ne q hq] using h2 q hq

theorem lookup_map (v : Nat → β) : ∀ (order : List Nat) (r : Nat), r ∈ order → List.lookup r (order.map fun r => (r, v r)) = some (v r)
  | q :: order, r, h => by
    simp only [List.map_cons, List.lookup_cons]
    by_cases hq : r = q
    · subst hq; simp
    · have : (r == q) = false := by simpa using hq
      rw [this]
      exact lookup_map v order r ((List.mem_cons.1 h).resolve_left hq)

theorem assemble_map (v : Nat → β) (n : Nat) (order : List Nat) (h : order.Perm (List.range n)) :
    assemble n (order.map fun r => (r, v r)) = (List.range n).map v := by
  unfold assemble
  rw [show (List.range n).map v = (List.range n).filterMap fun r => some (v r) from (congrFun List.filterMap_eq_map _).symm]
  apply List.filterMap_congr
  intro r hr
  exact lookup_map v order r (h.mem_iff.2 hr)

theorem mem_positions {ls : List Leaf} {p : Leaf → Bool} {r : Nat} : r ∈ positions ls p ↔ ∃ l, ls[r]? = some l ∧ p l = true := by
  unfold positions
  rw [List.mem_filter, List.mem_range]
  constructor
  · rintro ⟨-, h⟩
    rw [Option.any_eq_true] at h
    obtain ⟨l, h1, h2⟩ := h
    exact ⟨l, h1, h2⟩
  · rintro ⟨l, h1, h2⟩
    refine ⟨(List.getElem?_eq_some_iff.1 h1).1, ?_⟩
    rw [h1]
    exact h2

theorem positions_nodup (ls : List Leaf) (p : Leaf → Bool) : (positions ls p).Nodup := List.nodup_range.filter _

/-- A list of positions in which some do nothing. -/
theorem filter_positions {ls : List Leaf} {p : Leaf → Bool} {order : List Nat} (h : order.Perm (List.range ls.length)) :
    (order.filter fun r => (ls[r]?).any p).Perm (positions ls p) := h.filter _

theorem flatMap_filter (order : List Nat) (q : Nat → Bool) (e : Nat → List (Event α)) (f : Nat → Event α) (h1 : ∀ r ∈ order, q r = true → e r = [f r])
    (h2 : ∀ r ∈ order, q r = false → e r = []) : order.flatMap e = (order.filter q).map f := by
  induction order with
  | nil => rfl
  | cons r rs ih =>
    rw [List.flatMap_cons, ih (fun x hx => h1 x (List.mem_cons_of_mem _ hx)) fun x hx => h2 x (List.mem_cons_of_mem _ hx)]
    rcases hq : q r
    · rw [h2 r (by simp) hq, List.filter_cons_of_neg (by simp [hq])]; rfl
    · rw [h1 r (by simp) hq, List.filter_cons_of_pos hq]; rfl

section leaves

variable (u : User α) (ls : List Leaf)

theorem good_deref (i : Nat) (r : Nat) :
    Good (leafDeref u i ls r) (fun es v => Fits ls i r v ∧ es = obtained r v) fun es s => s = .exception ∧ es = [.threw (.deref r)] ∧ r ∈ walked ls := by
  have hw : ∀ m, (ls[r]?).map Leaf.mode = some m → (m = .iteratorPair ∨ m = .iterator) → r ∈ walked ls := by
    intro m h hm
    rw [Option.map_eq_some_iff] at h
    obtain ⟨l, h1, rfl⟩ := h
    exact mem_positions.2 ⟨l, h1, by rcases hm with h | h <;> simp [h]⟩
  have key : ∀ (_ : r ∈ walked ls), (∀ a : α, Fits ls i r (.elem a)) →
      Good (andThen (ask u (.deref r)) fun (a : α) => pure' (Val.elem a)) (fun es v => Fits ls i r v ∧ es = obtained r v)
        fun es s => s = .exception ∧ es = [.threw (.deref r)] ∧ r ∈ walked ls := by
    intro hr hf
    refine (good_andThen (good_ask u (.deref r)) fun e a _ => good_pure (Val.elem a)).mono ?_ ?_
    · rintro es v ⟨e1, e2, a, rfl, rfl, rfl, rfl⟩
      exact ⟨hf a, rfl⟩
    · rintro es s (⟨rfl, rfl⟩ | ⟨_, _, _, _, _, h⟩)
      · exact ⟨rfl, rfl, hr⟩
      · exact h.elim
  unfold leafDeref
  rcases hm : (ls[r]?).map Leaf.mode with _ | m
  · exact (good_pure _).mono (by rintro es v ⟨rfl, rfl⟩; simp [Fits, hm, obtained]) (by simp)
  · cases m
    · exact key (hw _ hm (.inl rfl)) (by intro a; simp [Fits, hm])
    · exact key (hw _ hm (.inr rfl)) (by intro a; simp [Fits, hm])
    · exact (good_pure _).mono (by rintro es v ⟨rfl, rfl⟩; simp [Fits, hm, obtained]) (by simp)
    · exact (good_pure _).mono (by rintro es v ⟨rfl, rfl⟩; simp [Fits, hm, obtained]) (by simp)

theorem mode_walked {r : Nat} {m : LeafMode} (h : (ls[r]?).map Leaf.mode = some m) : (ls[r]?).any (fun l => l.mode = .iteratorPair || l.mode = .iterator) = decide (m = .iteratorPair ∨ m = .iterator) := by
  rw [Option.map_eq_some_iff] at h
  obtain ⟨l, h1, rfl⟩ := h
  rw [h1]
  simp

theorem mode_paired {r : Nat} {m : LeafMode} (h : (ls[r]?).map Leaf.mode = some m) : (ls[r]?).any (fun l => l.mode = .iteratorPair) = decide (m = .iteratorPair) := by
  rw [Option.map_eq_some_iff] at h
  obtain ⟨l, h1, rfl⟩ := h
  rw [h1]
  simp

theorem mode_none {r : Nat} (h : (ls[r]?).map Leaf.mode = none) (p : Leaf → Bool) : (ls[r]?).any p = false := by
  rw [Option.map_eq_none_iff] at h
  rw [h]
  rfl

theorem good_inc (r : Nat) :
    Good (leafInc u ls r) (fun es _ => es = if (ls[r]?).any (fun l => l.mode = .iteratorPair || l.mode = .iterator) then [.did (.inc r) ()] else [])
      fun es s => s = .exception ∧ es = [.threw (.inc r)] ∧ (ls[r]?).any (fun l => l.mode = .iteratorPair || l.mode = .iterator) = true := by
  unfold leafInc
  rcases hm : (ls[r]?).map Leaf.mode with _ | m
  · exact (good_pure _).mono (by rintro es v ⟨rfl, rfl⟩; rw [mode_none ls hm]; rfl) (by simp)
  · rw [mode_walked ls hm]
    cases m
    · exact (good_ask u (.inc r)).mono (by rintro es v rfl; rfl) (by rintro es s ⟨rfl, rfl⟩; exact ⟨rfl, rfl, rfl⟩)
    · exact (good_ask u (.inc r)).mono (by rintro es v rfl; rfl) (by rintro es s ⟨rfl, rfl⟩; exact ⟨rfl, rfl, rfl⟩)
    · exact (good_pure _).mono (by rintro es v ⟨rfl, rfl⟩; rfl) (by simp)
    · exact (good_pure _).mono (by rintro es v ⟨rfl, rfl⟩; rfl) (by simp)

theorem good_checkEnd (isEnd : Bool) (r : Nat) :
    Good (leafCheckEnd u isEnd ls r) (fun es _ => es = if (ls[r]?).any (fun l => l.mode = .iteratorPair) then [.did (.eq r) isEnd] else [])
      fun es s => (s = .exception ∧ es = [.threw (.eq r)] ∨ s = .failFast ∧ es = [.did (.eq r) (!isEnd)]) ∧ (ls[r]?).any (fun l => l.mode = .iteratorPair) = true := by
  unfold leafCheckEnd
  rcases hm : (ls[r]?).map Leaf.mode with _ | m
  · exact (good_pure _).mono (by rintro es v ⟨rfl, rfl⟩; rw [mode_none ls hm]; rfl) (by simp)
  · rw [mode_paired ls hm]
    cases m
    · refine (good_andThen (P' := fun _ b es _ => es = [] ∧ b = isEnd) (B' := fun _ b es s => es = [] ∧ s = .failFast ∧ b = !isEnd) (good_ask u (.eq r)) ?_).mono ?_ ?_
      · intro e (b : Bool) _
        by_cases hb : b = isEnd
        · simp only [hb, if_true]
          exact (good_pure _).mono (by rintro es v ⟨rfl, -⟩; exact ⟨rfl, by trivial⟩) (by simp)
        · simp only [hb, if_false]
          exact (good_stop _).mono (by simp) (by rintro es s ⟨rfl, rfl⟩; exact ⟨rfl, rfl, by cases b <;> cases isEnd <;> simp_all⟩)
      · rintro es v ⟨e1, e2, b, rfl, rfl, rfl, rfl⟩
        rfl
      · rintro es s (⟨rfl, rfl⟩ | ⟨e1, e2, b, rfl, rfl, rfl, rfl, rfl⟩)
        · exact ⟨.inl ⟨rfl, rfl⟩, rfl⟩
        · exact ⟨.inr ⟨rfl, rfl⟩, rfl⟩
    · exact (good_pure _).mono (by rintro es v ⟨rfl, rfl⟩; rfl) (by simp)
    · exact (good_pure _).mono (by rintro es v ⟨rfl, rfl⟩; rfl) (by simp)
    · exact (good_pure _).mono (by rintro es v ⟨rfl, rfl⟩; rfl) (by simp)

theorem good_leafIsEnd (r : Nat) :
    Good (leafIsEnd u ls r) (fun es v => if (ls[r]?).any (fun l => l.mode = .iteratorPair) then ∃ b, v = some b ∧ es = [.did (.eq r) b] else v = none ∧ es = [])
      fun es s => s = .exception ∧ es = [.threw (.eq r)] ∧ (ls[r]?).any (fun l => l.mode = .iteratorPair) = true := by
  unfold leafIsEnd
  rcases hm : (ls[r]?).map Leaf.mode with _ | m
  · exact (good_pure _).mono (by rintro es v ⟨rfl, rfl⟩; rw [mode_none ls hm]; exact ⟨rfl, rfl⟩) (by simp)
  · rw [mode_paired ls hm]
    cases m
    · refine (good_andThen (good_ask u (.eq r)) fun e b _ => good_pure (some b)).mono ?_ ?_
      · rintro es v ⟨e1, e2, b, rfl, rfl, rfl, rfl⟩
        exact ⟨b, rfl, rfl⟩
      · rintro es s (⟨rfl, rfl⟩ | ⟨_, _, _, _, _, h⟩)
        · exact ⟨rfl, rfl, by simp⟩
        · exact h.elim
    · exact (good_pure _).mono (by rintro es v ⟨rfl, rfl⟩; exact ⟨rfl, rfl⟩) (by simp)
    · exact (good_pure _).mono (by rintro es v ⟨rfl, rfl⟩; exact ⟨rfl, rfl⟩) (by simp)
    · exact (good_pure _).mono (by rintro es v ⟨rfl, rfl⟩; exact ⟨rfl, rfl⟩) (by simp)

/-- A pack expansion in which the parts add at most one call. -/
theorem EachOk.filtered {P : Nat → List (Event α) → Unit → Prop} {order : List Nat} {es : List (Event α)} {bs : List (Nat × Unit)} (h : EachOk P order es bs)
    (q : Nat → Bool) (f : Nat → Event α) (hP : ∀ r e, P r e () → e = if q r then [f r] else []) : es = (order.filter q).map f := by
  induction h with
  | nil => rfl
  | @cons r rs e b es bs h1 _ ih =>
    rw [hP r e h1, ih]
    rcases hq : q r
    · rw [List.filter_cons_of_neg (by simp [hq])]; rfl
    · rw [List.filter_cons_of_pos hq]; rfl

theorem split_filter {order done rest : List Nat} {r : Nat} (h : order = done ++ r :: rest) (q : Nat → Bool) (hq : q r = true) :
    done.filter q ++ r :: rest.filter q = order.filter q := by
  rw [h, List.filter_append, List.filter_cons_of_pos hq]

theorem good_incs : Good (each (leafInc u ls) (List.range ls.length)) (fun es _ => es = incs ls) fun es s => s = .exception ∧ IncThrows ls es := by
  refine (good_each (good_inc u ls) _).mono ?_ ?_
  · intro es bs h
    exact h.filtered _ (fun r => .did (.inc r) ()) fun r e he => he
  · rintro es s ⟨done, r, rest, e1, bs, e2, h1, h2, rfl, rfl, rfl, h3⟩
    refine ⟨rfl, _, r, _, split_filter h1 _ h3, ?_⟩
    rw [h2.filtered _ (fun r => .did (.inc r) ()) fun r e he => he]

theorem good_derefs (i : Nat) (order : List Nat) (ho : order.Perm (List.range ls.length)) :
    Good (each (leafDeref u i ls) order) (fun es vs => Derefs ls i es (assemble ls.length vs)) fun es s => s = .exception ∧ DerefThrows ls i es := by
  have hn : order.Nodup := ho.nodup_iff.2 List.nodup_range
  have : Inhabited (Val α) := ⟨.index 0⟩
  refine (good_each (good_deref u ls i) _).mono ?_ ?_
  · intro es bs h
    obtain ⟨v, e, rfl, rfl, h1⟩ := h.functions hn
    refine ⟨order, v, ho, fun r hr => (h1 r (ho.mem_iff.2 (List.mem_range.2 hr))).1, ?_, assemble_map v _ order ho⟩
    rw [List.flatMap_def, List.flatMap_def, List.map_congr_left fun r hr => (h1 r hr).2]
  · rintro es s ⟨done, r, rest, e1, bs, e2, rfl, h2, rfl, rfl, rfl, h3⟩
    rw [List.nodup_append] at hn
    obtain ⟨v, e, rfl, rfl, h1⟩ := h2.functions hn.1
    refine ⟨rfl, done, r, rest, v, ho, h3, fun q hq => (h1 q hq).1, ?_⟩
    rw [List.flatMap_def, List.flatMap_def, List.map_congr_left fun r hr => (h1 r hr).2]

/-- The size as the specification has it. -/
def sizeOf (size : Size) : Option Int := if size = .static unknownSize then none else some size.value

theorem good_isEnd (size : Size) (i : Nat) (order : List Nat) (ho : order.Perm (List.range ls.length)) :
    Good (isEnd u ls size order i) (fun es b => Checks ls (sizeOf size) i b es)
      fun es s => s = .exception ∧ CheckThrows ls es ∨ s = .failFast ∧ CheckDiffers ls (sizeOf size) i es := by
  have hn : order.Nodup := ho.nodup_iff.2 List.nodup_range
  unfold isEnd sizeOf
  by_cases hs : size = .static unknownSize
  · simp only [hs, if_true]
    refine (good_andThen (P' := fun e _ es b => es = [] ∧ Checks ls none i b e) (B' := fun e _ es s => es = [] ∧ s = .failFast ∧ CheckDiffers ls none i e)
      (good_each (good_leafIsEnd u ls) order) ?_).mono ?_ ?_
    · intro e bs h
      obtain ⟨v, f, rfl, rfl, h1⟩ := h.functions hn
      rw [assemble_map v _ order ho]
      set q : Nat → Bool := fun r => (ls[r]?).any (fun l => l.mode = .iteratorPair) with hq
      have hf : order.flatMap f = (order.filter q).map fun r => .did (.eq r) ((v r).getD false) := by
        apply flatMap_filter
        · intro r hr hqr
          have := h1 r hr
          rw [if_pos hqr] at this
          obtain ⟨b, h2, h3⟩ := this
          rw [h3, h2]; rfl
        · intro r hr hqr
          have := h1 r hr
          rw [if_neg (by simpa [hq] using hqr)] at this
          exact this.2
      have hv : ∀ e, some e ∈ (List.range ls.length).map v ↔ ∃ r ∈ order.filter q, (v r).getD false = e := by
        intro e
        rw [List.mem_map]
        constructor
        · rintro ⟨r, hr, h2⟩
          have hr' := ho.mem_iff.2 hr
          refine ⟨r, List.mem_filter.2 ⟨hr', ?_⟩, by rw [h2]; rfl⟩
          by_contra hqr
          have := h1 r hr'
          rw [if_neg hqr, h2] at this
          exact absurd this.1 (by simp)
        · rintro ⟨r, hr, rfl⟩
          rw [List.mem_filter] at hr
          have := h1 r hr.1
          rw [if_pos hr.2] at this
          obtain ⟨b, h2, -⟩ := this
          exact ⟨r, ho.mem_iff.1 hr.1, by rw [h2]; rfl⟩
      rcases isEndVal_spec ((List.range ls.length).map v) with ⟨y, hy, h2⟩ | ⟨hy, b, h2, h3⟩
      · rw [hy]
        refine (good_pure _).mono ?_ (by simp)
        rintro es b ⟨rfl, rfl⟩
        refine ⟨rfl, order.filter q, filter_positions ho, ?_, by simp⟩
        rw [hf]
        apply List.map_congr_left
        intro r hr
        have := (h2 ((v r).getD false)).2 ((hv _).2 ⟨r, hr, rfl⟩)
        rw [this]; rfl
      · rw [hy]
        refine (good_stop _).mono (by simp) ?_
        rintro es s ⟨rfl, rfl⟩
        obtain ⟨p, hp, rfl⟩ := (hv _).1 h2
        obtain ⟨p', hp', h4⟩ := (hv _).1 h3
        refine ⟨rfl, rfl, .inl ⟨order.filter q, fun r => (v r).getD false, rfl, filter_positions ho, hf, p, hp, p', hp', ?_⟩⟩
        show (v p).getD false ≠ (v p').getD false
        rw [h4]
        simp
    · rintro es b ⟨e1, e2, _, rfl, -, rfl, h⟩
      simpa using h
    · rintro es s (⟨done, r, rest, e1, bs, e2, rfl, h2, rfl, rfl, rfl, h3⟩ | ⟨e1, e2, _, rfl, -, rfl, rfl, h⟩)
      · rw [List.nodup_append] at hn
        obtain ⟨v, f, rfl, rfl, h1⟩ := h2.functions hn.1
        left
        refine ⟨rfl, done.filter fun r => (ls[r]?).any (fun l => l.mode = .iteratorPair), r, rest.filter fun r => (ls[r]?).any (fun l => l.mode = .iteratorPair),
          fun q => (v q).getD false, ?_, ?_⟩
        · rw [split_filter rfl (fun r => (ls[r]?).any (fun l => l.mode = .iteratorPair)) h3]
          exact filter_positions ho
        · congr 1
          apply flatMap_filter
          · intro r hr hqr
            have := h1 r hr
            rw [if_pos hqr] at this
            obtain ⟨b, h2, h3⟩ := this
            rw [h3]; show _ = [Event.did (.eq r) ((v r).getD false)]; rw [h2]; rfl
          · intro r hr hqr
            have := h1 r hr
            rw [if_neg (by simpa using hqr)] at this
            exact this.2
      · right
        refine ⟨rfl, ?_⟩
        simpa using h
  · simp only [hs, if_false]
    refine (good_andThen (good_each (good_checkEnd u ls _) (List.range ls.length)) fun _ _ _ => good_pure (decide ((i : Int) = size.value))).mono ?_ ?_
    · rintro es b ⟨e1, e2, bs, rfl, h, rfl, rfl⟩
      refine ⟨paired ls, .refl _, ?_, ?_⟩
      · rw [List.append_nil]
        exact h.filtered _ (fun r => .did (.eq r) (decide ((i : Int) = size.value))) fun r e he => he
      · rintro n hn'
        rw [Option.some.injEq] at hn'
        subst hn'
        exact ⟨rfl, rfl⟩
    · rintro es s (⟨done, r, rest, e1, bs, e2, h1, h2, rfl, h3, h4⟩ | ⟨_, _, _, _, _, h⟩)
      · have h5 := h2.filtered _ (fun r => .did (.eq r) (decide ((i : Int) = size.value))) fun r e he => he
        have h6 := split_filter h1 (fun r => (ls[r]?).any (fun l => l.mode = .iteratorPair)) h4
        rcases h3 with ⟨rfl, rfl⟩ | ⟨rfl, rfl⟩
        · left
          exact ⟨rfl, _, r, _, fun _ => decide ((i : Int) = size.value), List.Perm.of_eq h6, by rw [h5]⟩
        · right
          exact ⟨rfl, .inr ⟨_, _, r, _, rfl, h6, by rw [h5]⟩⟩
      · exact h.elim

theorem good_loop (size : Size) (ord : Orders) (hc : ∀ i, (ord.check i).Perm (List.range ls.length)) (hd : ∀ i, (ord.deref i).Perm (List.range ls.length)) :
    ∀ fuel i, Good (loop u ls size ord.check ord.deref fuel i) (fun es b => ∀ t, Rounds ls (sizeOf size) i t → Trace ls (sizeOf size) (i + fuel) (t ++ es) (.ok b))
      fun es s => ∀ t, Rounds ls (sizeOf size) i t → Trace ls (sizeOf size) (i + fuel) (t ++ es) (.stop s)
  | 0, i => (good_stop _).mono (by simp) (by rintro es s ⟨rfl, rfl⟩ t ht; simpa using Trace.running ht)
  | fuel + 1, i => by
    set sz := sizeOf size with hsz
    have hrest : ∀ (vs : List (Val α)) (c d : List (Event α)), Checks ls sz i false c → Derefs ls i d vs →
        Good (andThen (ask u (.call vs)) fun (go : Bool) =>
            if go then andThen (each (leafInc u ls) (List.range ls.length)) fun _ => loop u ls size ord.check ord.deref fuel (i + 1) else pure' false)
          (fun es b => ∀ t, Rounds ls sz i t → Trace ls sz (i + (fuel + 1)) (t ++ (c ++ d ++ es)) (.ok b))
          fun es s => ∀ t, Rounds ls sz i t → Trace ls sz (i + (fuel + 1)) (t ++ (c ++ d ++ es)) (.stop s) := by
      intro vs c d hC hD
      refine (good_andThen (P' := fun e _ es b => ∀ t, Rounds ls sz i t → Trace ls sz (i + (fuel + 1)) (t ++ (c ++ d ++ (e ++ es))) (.ok b))
        (B' := fun e _ es s => ∀ t, Rounds ls sz i t → Trace ls sz (i + (fuel + 1)) (t ++ (c ++ d ++ (e ++ es))) (.stop s)) (good_ask u (.call vs)) ?_).mono ?_ ?_
      · rintro e (go : Bool) rfl
        cases go
        · simp only [Bool.false_eq_true, if_false]
          refine (good_pure _).mono ?_ (by simp)
          rintro es b ⟨rfl, rfl⟩ t ht
          exact .returned ht hC hD
        · simp only [if_true]
          refine (good_andThen (good_incs u ls) fun _ _ _ => good_loop size ord hc hd fuel (i + 1)).mono ?_ ?_
          · rintro es b ⟨e1, e2, _, rfl, rfl, h⟩ t ht
            have := h _ (Rounds.next ht hC hD)
            simpa [Nat.add_assoc, Nat.add_comm 1 fuel, List.append_assoc] using this
          · rintro es s (⟨rfl, h⟩ | ⟨e1, e2, _, rfl, rfl, h⟩) t ht
            · have := Trace.incThrew (fuel := i + (fuel + 1)) ht hC hD h
              simpa [List.append_assoc] using this
            · have := h _ (Rounds.next ht hC hD)
              simpa [Nat.add_assoc, Nat.add_comm 1 fuel, List.append_assoc] using this
      · rintro es b ⟨e1, e2, _, rfl, -, h⟩
        exact h
      · rintro es s (⟨rfl, rfl⟩ | ⟨e1, e2, _, rfl, -, h⟩)
        · intro t ht
          exact .callThrew ht hC hD
        · exact h
    refine (good_andThen (P' := fun c _ es b => ∀ t, Rounds ls sz i t → Trace ls sz (i + (fuel + 1)) (t ++ (c ++ es)) (.ok b))
        (B' := fun c _ es s => ∀ t, Rounds ls sz i t → Trace ls sz (i + (fuel + 1)) (t ++ (c ++ es)) (.stop s)) (good_isEnd u ls size i _ (hc i)) ?_).mono ?_ ?_
    · intro c e hC
      cases e
      · simp only [Bool.false_eq_true, if_false]
        refine (good_andThen (good_derefs u ls i _ (hd i)) fun d vs hD => hrest _ c d hC hD).mono ?_ ?_
        · rintro es b ⟨e1, e2, vs, rfl, -, h⟩ t ht
          simpa [List.append_assoc] using h t ht
        · rintro es s (⟨rfl, h⟩ | ⟨e1, e2, vs, rfl, -, h⟩) t ht
          · exact .derefThrew ht hC h
          · simpa [List.append_assoc] using h t ht
      · simp only [if_true]
        refine (good_pure _).mono ?_ (by simp)
        rintro es b ⟨rfl, rfl⟩ t ht
        rw [List.append_nil]
        exact .finished ht hC
    · rintro es b ⟨e1, e2, _, rfl, -, h⟩
      exact h
    · rintro es s ((⟨rfl, h⟩ | ⟨rfl, h⟩) | ⟨e1, e2, _, rfl, -, h⟩)
      · intro t ht
        exact .checkThrew ht h
      · intro t ht
        exact .checkDiffers ht h
      · exact h

/-- What `range_size()` yields for an argument, where `n` is what `size()` returns. -/
def sizeVal (r : Nat) (n : Int) : Size :=
  match ls[r]? with
  | some ⟨_, some k⟩ => .static k
  | some ⟨.iterator, none⟩ | some ⟨.index, none⟩ => .dyn n
  | _ => .static unknownSize

theorem good_size (hu : Lengths u) (r : Nat) :
    Good (leafSize u ls r)
      (fun es v => ∃ n, 0 ≤ n ∧ v = sizeVal ls r n ∧ es = if (ls[r]?).any (fun l => (l.mode = .iterator || l.mode = .index) && l.fixed = none) then [.did (.size r) n] else [])
      fun es s => s = .terminated ∧ es = [.threw (.size r)] ∧ (ls[r]?).any (fun l => (l.mode = .iterator || l.mode = .index) && l.fixed = none) = true := by
  have key : (∀ n, sizeVal ls r n = .dyn n) → (ls[r]?).any (fun l => (l.mode = .iterator || l.mode = .index) && l.fixed = none) = true →
      Good (α := α) (β := Size) (fun h =>
        match ask u (.size r) h with
        | (h', .ok n) => (h', .ok (.dyn n))
        | (h', .stop .exception) => (h', .stop .terminated)
        | (h', .stop s) => (h', .stop s))
      (fun es v => ∃ n, 0 ≤ n ∧ v = sizeVal ls r n ∧ es = if (ls[r]?).any (fun l => (l.mode = .iterator || l.mode = .index) && l.fixed = none) then [.did (.size r) n] else [])
      fun es s => s = .terminated ∧ es = [.threw (.size r)] ∧ (ls[r]?).any (fun l => (l.mode = .iterator || l.mode = .index) && l.fixed = none) = true := by
    intro hv ha h
    rcases hr : u h (.size r) with _ | (n : Int)
    · refine ⟨[.threw (.size r)], by simp [ask, hr], ?_, ?_⟩
      · intro b hb
        simp [ask, hr] at hb
      · intro s hs
        simp only [ask, hr, Ending.stop.injEq] at hs
        exact ⟨hs.symm, rfl, ha⟩
    · refine ⟨[.did (.size r) n], by simp [ask, hr], ?_, ?_⟩
      · intro b hb
        simp only [ask, hr, Ending.ok.injEq] at hb
        exact ⟨n, hu h r n hr, by rw [hv]; exact hb.symm, by rw [if_pos ha]⟩
      · intro s hs
        simp [ask, hr] at hs
  unfold leafSize
  rcases hl : ls[r]? with _ | ⟨m, f⟩
  · exact (good_pure _).mono (by rintro es v ⟨rfl, rfl⟩; exact ⟨0, Int.le_refl 0, by simp [sizeVal, hl], by simp⟩) (by simp)
  · rw [hl] at key
    rcases f with _ | k
    · cases m
      · exact (good_pure _).mono (by rintro es v ⟨rfl, rfl⟩; exact ⟨0, Int.le_refl 0, by simp [sizeVal, hl], by simp⟩) (by simp)
      · exact key (fun n => by simp [sizeVal, hl]) (by simp)
      · exact key (fun n => by simp [sizeVal, hl]) (by simp)
      · exact (good_pure _).mono (by rintro es v ⟨rfl, rfl⟩; exact ⟨0, Int.le_refl 0, by simp [sizeVal, hl], by simp⟩) (by simp)
    · exact (good_pure _).mono (by rintro es v ⟨rfl, rfl⟩; exact ⟨0, Int.le_refl 0, by simp [sizeVal, hl], by simp⟩) (by simp)

theorem known_sizeVal (s : Nat → Int) (r : Nat) : Spec.known (sizeVal ls r (s r)) = knownSize ls s r := by
  unfold sizeVal knownSize
  rcases ls[r]? with _ | ⟨m, f⟩
  · simp [Spec.known]
  · rcases f with _ | k
    · cases m <;> simp [Spec.known]
    · have : ((k : Nat) : Int) ≠ -1 := by omega
      cases m <;> simp [Spec.known, this]

theorem isSize_sizeVal (r : Nat) (n : Int) (hn : 0 ≤ n) : Spec.IsSize (sizeVal ls r n) := by
  unfold sizeVal
  rcases ls[r]? with _ | ⟨m, f⟩
  · simp [Spec.IsSize]
  · rcases f with _ | k
    · cases m <;> simp [Spec.IsSize, hn]
    · have : (-1 : Int) ≤ k := by omega
      cases m <;> simp [Spec.IsSize, this]

/-- The sizes of all arguments. -/
theorem good_sizes (hu : Lengths u) (order : List Nat) (ho : order.Perm (List.range ls.length)) :
    Good (each (leafSize u ls) order)
      (fun es vs => ∃ (order : List Nat) (s : Nat → Int), order.Perm (asked ls) ∧ es = order.map (fun r => .did (.size r) (s r)) ∧ (∀ r, 0 ≤ s r) ∧
        assemble ls.length vs = (List.range ls.length).map fun r => sizeVal ls r (s r))
      fun es s => s = .terminated ∧ ∃ (done : List Nat) (r : Nat) (rest : List Nat) (s : Nat → Int), (done ++ r :: rest).Perm (asked ls) ∧
        es = done.map (fun q => .did (.size q) (s q)) ++ [.threw (.size r)] := by
  have hn : order.Nodup := ho.nodup_iff.2 List.nodup_range
  have : Inhabited Size := ⟨.dyn 0⟩
  set q : Nat → Bool := fun r => (ls[r]?).any (fun l => (l.mode = .iterator || l.mode = .index) && l.fixed = none) with hq
  have key : ∀ (l : List Nat) (es : List (Event α)) (bs : List (Nat × Size)), l.Nodup →
      EachOk (fun r es v => ∃ n, 0 ≤ n ∧ v = sizeVal ls r n ∧ es = if q r then [.did (.size r) n] else []) l es bs →
      ∃ s : Nat → Int, (∀ r, 0 ≤ s r) ∧ bs = l.map (fun r => (r, sizeVal ls r (s r))) ∧ es = (l.filter q).map (fun r => .did (.size r) (s r)) := by
    intro l es bs hl h
    obtain ⟨v, e, rfl, rfl, h1⟩ := h.functions hl
    have : ∀ r, ∃ n : Int, 0 ≤ n ∧ (r ∈ l → v r = sizeVal ls r n ∧ e r = if q r then [.did (.size r) n] else []) := by
      intro r
      by_cases hr : r ∈ l
      · obtain ⟨n, h2, h3, h4⟩ := h1 r hr
        exact ⟨n, h2, fun _ => ⟨h3, h4⟩⟩
      · exact ⟨0, Int.le_refl 0, fun h => absurd h hr⟩
    choose s hs hv using this
    refine ⟨s, hs, ?_, ?_⟩
    · apply List.map_congr_left
      intro r hr
      rw [(hv r hr).1]
    · apply flatMap_filter
      · intro r hr hqr
        rw [(hv r hr).2, if_pos hqr]
      · intro r hr hqr
        rw [(hv r hr).2, if_neg (by simp [hqr])]
  refine (good_each (good_size u ls hu) _).mono ?_ ?_
  · intro es bs h
    obtain ⟨s, h1, rfl, rfl⟩ := key order es bs hn h
    exact ⟨_, s, filter_positions ho, rfl, h1, assemble_map (fun r => sizeVal ls r (s r)) _ order ho⟩
  · rintro es s ⟨done, r, rest, e1, bs, e2, rfl, h2, rfl, rfl, rfl, h3⟩
    rw [List.nodup_append] at hn
    obtain ⟨s, h1, rfl, rfl⟩ := key done e1 bs hn.1 h2
    refine ⟨rfl, _, r, rest.filter q, s, ?_, rfl⟩
    rw [split_filter rfl q h3]
    exact filter_positions ho

theorem good_start (r : Nat) :
    Good (leafStart u ls r) (fun es _ => es = start ls r) fun es s => s = .exception ∧ ∃ y op v, es = y ++ [.threw op] ∧ y ++ [.did op v] <+: start ls r := by
  unfold leafStart start
  rcases hm : (ls[r]?).map Leaf.mode with _ | m
  · exact (good_pure _).mono (by rintro es v ⟨rfl, rfl⟩; rfl) (by simp)
  · cases m
    · refine (good_andThen (good_ask u (.begin_ r)) fun _ _ _ => good_ask u (.end_ r)).mono ?_ ?_
      · rintro es v ⟨e1, e2, b, rfl, rfl, rfl⟩
        rfl
      · rintro es s (⟨rfl, rfl⟩ | ⟨e1, e2, _, rfl, rfl, rfl, rfl⟩)
        · exact ⟨rfl, [], .begin_ r, (), rfl, ⟨_, rfl⟩⟩
        · exact ⟨rfl, [.did (.begin_ r) ()], .end_ r, (), rfl, ⟨[], rfl⟩⟩
    · exact (good_ask u (.begin_ r)).mono (by rintro es v rfl; rfl) (by rintro es s ⟨rfl, rfl⟩; exact ⟨rfl, [], .begin_ r, (), rfl, ⟨[], rfl⟩⟩)
    · exact (good_ask u (.data r)).mono (by rintro es v rfl; rfl) (by rintro es s ⟨rfl, rfl⟩; exact ⟨rfl, [], .data r, (), rfl, ⟨[], rfl⟩⟩)
    · exact (good_pure _).mono (by rintro es v ⟨rfl, rfl⟩; rfl) (by simp)

theorem EachOk.flat {P : Nat → List (Event α) → β → Prop} {order : List Nat} {es : List (Event α)} {bs : List (Nat × β)} (h : EachOk P order es bs)
    (f : Nat → List (Event α)) (hP : ∀ r e b, P r e b → e = f r) : es = order.flatMap f := by
  induction h with
  | nil => rfl
  | cons h1 _ ih => rw [hP _ _ _ h1, ih, List.flatMap_cons]

theorem range_split {n r : Nat} {done rest : List Nat} (h : List.range n = done ++ r :: rest) : done = List.range r ∧ r < n := by
  have hl : done.length < n := by
    have := congrArg List.length h
    simp at this
    omega
  have h1 : (List.range n)[done.length]? = some done.length := by simp [hl]
  rw [h] at h1
  simp at h1
  refine ⟨?_, by omega⟩
  have h2 : (List.range n).take done.length = done := by rw [h]; simp
  rw [List.take_range] at h2
  rw [← h2, h1]
  congr 1
  omega

theorem good_starts : Good (each (leafStart u ls) (List.range ls.length)) (fun es _ => es = starts ls) fun es s => s = .exception ∧ StartThrows ls es := by
  refine (good_each (good_start u ls) _).mono ?_ ?_
  · intro es bs h
    exact h.flat _ fun r e b he => he
  · rintro es s ⟨done, r, rest, e1, bs, e2, h1, h2, rfl, rfl, y, o, v, rfl, h3⟩
    obtain ⟨rfl, hr⟩ := range_split h1
    exact ⟨rfl, r, y, o, hr, by rw [h2.flat _ fun r e b he => he]; simp, v, h3⟩

theorem sizeOf_known (z : Size) : sizeOf z = Spec.known z := by
  cases z with
  | static n => by_cases h : n = -1 <;> simp [sizeOf, Spec.known, h, Size.value]
  | dyn n => simp [sizeOf, Spec.known, Size.value]

theorem known_lt {s : Nat → Int} {r : Nat} {n : Int} (h : knownSize ls s r = some n) : r ∈ List.range ls.length := by
  rw [List.mem_range]
  by_contra hr
  rw [knownSize, List.getElem?_eq_none (by omega)] at h
  exact absurd h (by simp)

theorem agreed_of_summary (s : Nat → Int) {z : Size} (hsum : Summary ((List.range ls.length).map fun r => sizeVal ls r (s r)) z) : Agreed ls s (sizeOf z) := by
  rw [sizeOf_known]
  rcases hk : Spec.known z with _ | n
  · intro r
    rcases hr : knownSize ls s r with _ | m
    · rfl
    · have := hsum.all (sizeVal ls r (s r)) (List.mem_map.2 ⟨r, known_lt ls hr, rfl⟩) m (by rw [known_sizeVal, hr])
      rw [hk] at this
      exact absurd this (by simp)
  · obtain ⟨x, hx, hx'⟩ := hsum.some n hk
    obtain ⟨r, -, rfl⟩ := List.mem_map.1 hx
    refine ⟨⟨r, by rw [← known_sizeVal]; exact hx'⟩, ?_⟩
    intro r m hr
    have := hsum.all (sizeVal ls r (s r)) (List.mem_map.2 ⟨r, known_lt ls hr, rfl⟩) m (by rw [known_sizeVal, hr])
    rw [hk] at this
    exact (Option.some.inj this).symm

theorem differ_of_inconsistent (s : Nat → Int) (h : ¬ Spec.Consistent ((List.range ls.length).map fun r => sizeVal ls r (s r))) :
    ∃ p q n m, knownSize ls s p = some n ∧ knownSize ls s q = some m ∧ n ≠ m := by
  simp only [Spec.Consistent] at h
  push Not at h
  obtain ⟨a, ha, b, hb, n, m, hn, hm, hne⟩ := h
  obtain ⟨p, -, rfl⟩ := List.mem_map.1 ha
  obtain ⟨q, -, rfl⟩ := List.mem_map.1 hb
  rw [known_sizeVal] at hn hm
  exact ⟨p, q, n, m, hn, hm, hne⟩

theorem good_algorithm (hu : Lengths u) (ord : Orders) (hs : ord.sizes.Perm (List.range ls.length))
    (hc : ∀ i, (ord.check i).Perm (List.range ls.length)) (hd : ∀ i, (ord.deref i).Perm (List.range ls.length)) (fuel : Nat) :
    Good (algorithm u ls ord fuel) (fun es b => Algorithm ls fuel es (.ok b)) fun es s => Algorithm ls fuel es (.stop s) := by
  unfold algorithm
  refine (good_andThen (P' := fun z _ es b => Algorithm ls fuel (z ++ es) (.ok b)) (B' := fun z _ es s => Algorithm ls fuel (z ++ es) (.stop s)) (good_sizes u ls hu _ hs) ?_).mono ?_ ?_
  · rintro z vs ⟨order, s, ho, rfl, hpos, hv⟩
    rw [hv]
    have hsz : ∀ x ∈ (List.range ls.length).map fun r => sizeVal ls r (s r), Spec.IsSize x := by
      intro x hx
      obtain ⟨r, -, rfl⟩ := List.mem_map.1 hx
      exact isSize_sizeVal ls r _ (hpos r)
    rcases mergeSizes_spec _ hsz with ⟨z, hz, hsum⟩ | ⟨hno, hcons⟩
    · rw [hz]
      have hag := agreed_of_summary ls s hsum
      refine (good_andThen (P' := fun x _ es b => Algorithm ls fuel (order.map (fun r => .did (.size r) (s r)) ++ (x ++ es)) (.ok b))
        (B' := fun x _ es b => Algorithm ls fuel (order.map (fun r => .did (.size r) (s r)) ++ (x ++ es)) (.stop b)) (good_starts u ls) ?_).mono ?_ ?_
      · rintro x _ rfl
        by_cases hw : sentinelCompiles ls z = true
        · simp only [hw, if_true]
          refine (good_loop u ls z ord hc hd fuel 0).mono ?_ ?_
          · intro es b h
            have := h [] .zero
            rw [Nat.zero_add] at this
            exact .run ho hag this
          · intro es b h
            have := h [] .zero
            rw [Nat.zero_add] at this
            exact .run ho hag this
        · simp only [hw, Bool.false_eq_true, if_false]
          exact (good_stop _).mono (by simp) (by rintro es s ⟨rfl, rfl⟩; exact .rejected)
      · rintro es b ⟨e1, e2, _, rfl, -, h⟩
        exact h
      · rintro es s' (⟨rfl, h⟩ | ⟨e1, e2, _, rfl, -, h⟩)
        · exact .startThrew ho hag h
        · exact h
    · rcases hz : mergeSizes ((List.range ls.length).map fun r => sizeVal ls r (s r)) with z | _ | _
      · exact absurd hz (hno z)
      · exact (good_stop _).mono (by simp) (by rintro es s ⟨rfl, rfl⟩; exact .rejected)
      · refine (good_stop _).mono (by simp) ?_
        rintro es s' ⟨rfl, rfl⟩
        obtain ⟨p, q, n, m, hn, hm, hne⟩ := differ_of_inconsistent ls s hcons
        rw [List.append_nil]
        exact .mismatch ho hn hm hne
  · rintro es b ⟨e1, e2, _, rfl, -, h⟩
    exact h
  · rintro es s (⟨rfl, done, r, rest, s, h, rfl⟩ | ⟨e1, e2, _, rfl, -, h⟩)
    · exact .sizeThrew h
    · exact h

/-! ## `range_zip` -/

theorem each_pure (f : Nat → Act α Unit) : ∀ (order : List Nat), (∀ r ∈ order, f r = pure' ()) → each f order = pure' (order.map fun r => (r, ()))
  | [], _ => rfl
  | r :: rs, h => by
    rw [each, h r (by simp), each_pure f rs fun q hq => h q (List.mem_cons_of_mem _ hq)]
    rfl

theorem unpaired_mode (r : Nat) : ((unpaired ls)[r]?).map Leaf.mode = ((ls[r]?).map Leaf.mode).map fun m => if m = .iteratorPair then .iterator else m := by
  unfold unpaired
  rw [List.getElem?_map]
  rcases ls[r]? with _ | l
  · rfl
  · simp only [Option.map_some, Option.some.injEq]
    split <;> rfl

theorem unpaired_length : (unpaired ls).length = ls.length := by simp [unpaired]

theorem deref_unpaired (i : Int) (r : Nat) : leafDeref u i (unpaired ls) r = leafDeref u i ls r := by
  unfold leafDeref
  rw [unpaired_mode]
  rcases (ls[r]?).map Leaf.mode with _ | m
  · rfl
  · cases m <;> rfl

theorem inc_unpaired (r : Nat) : leafInc u (unpaired ls) r = leafInc u ls r := by
  unfold leafInc
  rw [unpaired_mode]
  rcases (ls[r]?).map Leaf.mode with _ | m
  · rfl
  · cases m <;> rfl

theorem check_unpaired (b : Bool) (r : Nat) : leafCheckEnd u b (unpaired ls) r = pure' () := by
  unfold leafCheckEnd
  rw [unpaired_mode]
  rcases (ls[r]?).map Leaf.mode with _ | m
  · rfl
  · cases m <;> rfl

theorem zipLoop_eq (z : Size) (hz : z ≠ .static unknownSize) (check : Nat → List Nat) :
    ∀ fuel i, zipLoop u ls z.value fuel i = loop u (unpaired ls) z check (fun _ => List.range ls.length) fuel i
  | 0, _ => rfl
  | fuel + 1, i => by
    have hI : leafInc u (unpaired ls) = leafInc u ls := funext (inc_unpaired u ls)
    have hD : leafDeref u i (unpaired ls) = leafDeref u i ls := funext (deref_unpaired u ls i)
    rw [zipLoop, loop, isEnd, if_neg hz, each_pure _ _ fun r _ => check_unpaired u ls _ r, hI, hD, unpaired_length, zipLoop_eq z hz check fuel (i + 1)]
    simp only [andThen_assoc, pure_andThen, decide_eq_true_eq]

theorem good_stopLeaf (r : Nat) :
    Good (leafStop u ls r) (fun es _ => es = stopOf ls r) fun es s => s = .exception ∧ ∃ op v, es = [.threw op] ∧ stopOf ls r = [.did op v] := by
  unfold leafStop stopOf
  rcases hm : (ls[r]?).map Leaf.mode with _ | m
  · exact (good_pure _).mono (by rintro es v ⟨rfl, rfl⟩; rfl) (by simp)
  · cases m
    · exact (good_ask u (.end_ r)).mono (by rintro es v rfl; rfl) (by rintro es s ⟨rfl, rfl⟩; exact ⟨rfl, .end_ r, (), rfl, rfl⟩)
    · exact (good_ask u (.begin_ r)).mono (by rintro es v rfl; rfl) (by rintro es s ⟨rfl, rfl⟩; exact ⟨rfl, .begin_ r, (), rfl, rfl⟩)
    · exact (good_ask u (.data r)).mono (by rintro es v rfl; rfl) (by rintro es s ⟨rfl, rfl⟩; exact ⟨rfl, .data r, (), rfl, rfl⟩)
    · exact (good_pure _).mono (by rintro es v ⟨rfl, rfl⟩; rfl) (by simp)

theorem good_stops :
    Good (each (leafStop u ls) (List.range ls.length)) (fun es _ => es = (List.range ls.length).flatMap (stopOf ls)) fun es s => s = .exception ∧ StopThrows ls es := by
  refine (good_each (good_stopLeaf u ls) _).mono ?_ ?_
  · intro es bs h
    exact h.flat _ fun r e b he => he
  · rintro es s ⟨done, r, rest, e1, bs, e2, h1, h2, rfl, rfl, o, v, rfl, h3⟩
    obtain ⟨rfl, hr⟩ := range_split h1
    exact ⟨rfl, r, o, v, hr, by rw [h2.flat _ fun r e b he => he], h3⟩

theorem good_zip (hu : Lengths u) (ord : Orders) (hs : ord.sizes.Perm (List.range ls.length)) (fuel : Nat) :
    Good (zipIterate u ls ord fuel) (fun es b => Zip ls fuel es (.ok b)) fun es s => Zip ls fuel es (.stop s) := by
  unfold zipIterate
  refine (good_andThen (P' := fun z _ es b => Zip ls fuel (z ++ es) (.ok b)) (B' := fun z _ es s => Zip ls fuel (z ++ es) (.stop s)) (good_sizes u ls hu _ hs) ?_).mono ?_ ?_
  · rintro z vs ⟨order, s, ho, rfl, hpos, hv⟩
    rw [hv]
    have hsz : ∀ x ∈ (List.range ls.length).map fun r => sizeVal ls r (s r), Spec.IsSize x := by
      intro x hx
      obtain ⟨r, -, rfl⟩ := List.mem_map.1 hx
      exact isSize_sizeVal ls r _ (hpos r)
    rcases mergeSizes_spec _ hsz with ⟨z, hz, hsum⟩ | ⟨hno, hcons⟩
    · rw [hz]
      by_cases hunk : z = .static unknownSize
      · simp only [hunk, if_true]
        exact (good_stop _).mono (by simp) (by rintro es s ⟨rfl, rfl⟩; exact .rejected)
      have hag := agreed_of_summary ls s hsum
      have hso : sizeOf z = some z.value := by rw [sizeOf, if_neg hunk]
      rw [hso] at hag
      simp only [hunk, if_false]
      refine (good_andThen (P' := fun x _ es b => Zip ls fuel (order.map (fun r => .did (.size r) (s r)) ++ (x ++ es)) (.ok b))
        (B' := fun x _ es b => Zip ls fuel (order.map (fun r => .did (.size r) (s r)) ++ (x ++ es)) (.stop b)) (good_starts u ls) ?_).mono ?_ ?_
      · rintro x _ rfl
        refine (good_andThen (P' := fun x _ es b => Zip ls fuel (order.map (fun r => .did (.size r) (s r)) ++ (starts ls ++ (x ++ es))) (.ok b))
          (B' := fun x _ es b => Zip ls fuel (order.map (fun r => .did (.size r) (s r)) ++ (starts ls ++ (x ++ es))) (.stop b)) (good_stops u ls) ?_).mono ?_ ?_
        · rintro x _ rfl
          rw [zipLoop_eq u ls z hunk fun _ => List.range ls.length]
          have hl := unpaired_length ls
          refine (good_loop u (unpaired ls) z ⟨[], fun _ => List.range ls.length, fun _ => List.range ls.length⟩ (by simp [hl]) (by simp [hl]) fuel 0).mono ?_ ?_
          · intro es b h
            have := h [] .zero
            rw [Nat.zero_add, hso] at this
            exact .run ho hag this
          · intro es b h
            have := h [] .zero
            rw [Nat.zero_add, hso] at this
            exact .run ho hag this
        · rintro es b ⟨e1, e2, _, rfl, -, h⟩
          exact h
        · rintro es s' (⟨rfl, h⟩ | ⟨e1, e2, _, rfl, -, h⟩)
          · exact .stopThrew ho hag h
          · exact h
      · rintro es b ⟨e1, e2, _, rfl, -, h⟩
        exact h
      · rintro es s' (⟨rfl, h⟩ | ⟨e1, e2, _, rfl, -, h⟩)
        · exact .startThrew ho hag h
        · exact h
    · rcases hz : mergeSizes ((List.range ls.length).map fun r => sizeVal ls r (s r)) with z | _ | _
      · exact absurd hz (hno z)
      · exact (good_stop _).mono (by simp) (by rintro es s ⟨rfl, rfl⟩; exact .rejected)
      · refine (good_stop _).mono (by simp) ?_
        rintro es s' ⟨rfl, rfl⟩
        obtain ⟨p, q, n, m, hn, hm, hne⟩ := differ_of_inconsistent ls s hcons
        rw [List.append_nil]
        exact .mismatch ho hn hm hne
  · rintro es b ⟨e1, e2, _, rfl, -, h⟩
    exact h
  · rintro es s (⟨rfl, done, r, rest, s, h, rfl⟩ | ⟨e1, e2, _, rfl, -, h⟩)
    · exact .sizeThrew h
    · exact h

end leaves

/-! ## Loops over one range -/

section single

variable (u : User α)

/-- A loop whose rounds begin with a comparison. -/
theorem good_rounds [Inhabited α] {Round : List (Event α) → Prop} {L : Nat → Act α Unit} {body : Act α Unit} (h0 : L 0 = stop .running)
    (hL : ∀ fuel, L (fuel + 1) = andThen (ask u (.eq 0)) fun (e : Bool) => if e then pure' () else andThen body fun _ => L fuel)
    (hb : Good body (fun es _ => Round (.did (.eq 0) false :: es)) fun es s => s = .exception ∧ ∃ y o v z, Round (.did (.eq 0) false :: (y ++ .did o v :: z)) ∧ es = y ++ [.threw o])
    (hR : ∃ z, Round (.did (.eq 0) false :: z)) :
    ∀ fuel, Good (L fuel) (fun es _ => ∃ rounds : List (List (Event α)), es = rounds.flatten ++ [.did (.eq 0) true] ∧ ∀ y ∈ rounds, Round y)
      fun es s => ∃ (rounds : List (List (Event α))) (x : List (Event α)), es = rounds.flatten ++ x ∧ (∀ y ∈ rounds, Round y) ∧
        ((s = .running ∧ x = [] ∧ rounds.length = fuel) ∨ s = .exception ∧ ∃ y o v z, Round (y ++ .did o v :: z) ∧ x = y ++ [.threw o])
  | 0 => by
    rw [h0]
    exact (good_stop _).mono (by simp) (by rintro es s ⟨rfl, rfl⟩; exact ⟨[], [], rfl, by simp, .inl ⟨rfl, rfl, rfl⟩⟩)
  | fuel + 1 => by
    rw [hL]
    refine (good_andThen (P' := fun e _ es _ => ∃ rounds : List (List (Event α)), e ++ es = rounds.flatten ++ [.did (.eq 0) true] ∧ ∀ y ∈ rounds, Round y)
      (B' := fun e _ es s => ∃ (rounds : List (List (Event α))) (x : List (Event α)), e ++ es = rounds.flatten ++ x ∧ (∀ y ∈ rounds, Round y) ∧
        ((s = .running ∧ x = [] ∧ rounds.length = fuel + 1) ∨ s = .exception ∧ ∃ y o v z, Round (y ++ .did o v :: z) ∧ x = y ++ [.threw o])) (good_ask u (.eq 0)) ?_).mono ?_ ?_
    · rintro e (b : Bool) rfl
      cases b
      · simp only [Bool.false_eq_true, if_false]
        refine (good_andThen hb fun _ _ _ => good_rounds h0 hL hb hR fuel).mono ?_ ?_
        · rintro es _ ⟨e1, e2, _, rfl, h1, rounds, rfl, h2⟩
          refine ⟨(.did (.eq 0) false :: e1) :: rounds, by simp, ?_⟩
          intro y hy
          rcases List.mem_cons.1 hy with rfl | hy
          · exact h1
          · exact h2 y hy
        · rintro es s (⟨rfl, y, o, v, z, h1, rfl⟩ | ⟨e1, e2, _, rfl, h1, rounds, x, rfl, h2, h3⟩)
          · exact ⟨[], _, rfl, by simp, .inr ⟨rfl, .did (.eq 0) false :: y, o, v, z, h1, rfl⟩⟩
          · refine ⟨(.did (.eq 0) false :: e1) :: rounds, x, by simp, ?_, ?_⟩
            · intro y hy
              rcases List.mem_cons.1 hy with rfl | hy
              · exact h1
              · exact h2 y hy
            · rcases h3 with ⟨h4, h5, h6⟩ | h
              · exact .inl ⟨h4, h5, by simp [h6]⟩
              · exact .inr h
      · simp only [if_true]
        refine (good_pure _).mono ?_ (by simp)
        rintro es _ ⟨rfl, -⟩
        exact ⟨[], rfl, by simp⟩
    · rintro es b ⟨e1, e2, _, rfl, -, h⟩
      exact h
    · rintro es s (⟨rfl, rfl⟩ | ⟨e1, e2, _, rfl, -, h⟩)
      · obtain ⟨z, hz⟩ := hR
        exact ⟨[], _, rfl, by simp, .inr ⟨rfl, [], .eq 0, false, z, hz, rfl⟩⟩
      · exact h

theorem good_walk {Round : List (Event α) → Prop} {L : Act α Unit} {fuel : Nat}
    (hL : Good L (fun es _ => ∃ rounds : List (List (Event α)), es = rounds.flatten ++ [.did (.eq 0) true] ∧ ∀ y ∈ rounds, Round y)
      fun es s => ∃ (rounds : List (List (Event α))) (x : List (Event α)), es = rounds.flatten ++ x ∧ (∀ y ∈ rounds, Round y) ∧
        ((s = .running ∧ x = [] ∧ rounds.length = fuel) ∨ s = .exception ∧ ∃ y o v z, Round (y ++ .did o v :: z) ∧ x = y ++ [.threw o])) :
    Good (andThen (ask u (.begin_ 0)) fun _ => andThen (ask u (.end_ 0)) fun _ => L) (fun es b => Walk Round fuel es (.ok b)) fun es s => Walk Round fuel es (.stop s) := by
  refine (good_andThen (good_ask u (.begin_ 0)) fun _ _ _ => good_andThen (good_ask u (.end_ 0)) fun _ _ _ => hL).mono ?_ ?_
  · rintro es b ⟨e1, e2, _, rfl, rfl, e3, e4, _, rfl, rfl, rounds, rfl, h⟩
    exact .inr (.inr ⟨rounds, _, by simp only [List.append_assoc]; rfl, h, .inl ⟨rfl, rfl⟩⟩)
  · rintro es s (⟨rfl, rfl⟩ | ⟨e1, e2, _, rfl, rfl, ⟨rfl, rfl⟩ | ⟨e3, e4, _, rfl, rfl, rounds, x, rfl, h1, h2⟩⟩)
    · exact .inl ⟨rfl, rfl⟩
    · exact .inr (.inl ⟨rfl, rfl⟩)
    · refine .inr (.inr ⟨rounds, x, by simp only [List.append_assoc]; rfl, h1, .inr ?_⟩)
      rcases h2 with ⟨rfl, h3, h4⟩ | ⟨rfl, h3⟩
      · exact .inl ⟨rfl, h3, h4⟩
      · exact .inr ⟨rfl, h3⟩

theorem good_fill [Inhabited α] (calls : Bool) (fuel : Nat) :
    Good (fill u calls fuel) (fun es b => Walk (FillRound calls) fuel es (.ok b)) fun es s => Walk (FillRound calls) fuel es (.stop s) := by
  refine good_walk u (good_rounds u (body := andThen (if calls then ask u (.call []) else pure' true) fun _ => andThen (ask u (.deref 0)) fun _ =>
    andThen (ask u (.assign 0)) fun _ => ask u (.inc 0)) rfl ?_ ?_ ⟨_, default, true, rfl⟩ fuel)
  · intro fuel
    refine congrArg (andThen (ask u (.eq 0))) (funext fun (e : Bool) => ?_)
    cases e
    · exact ((andThen_assoc _ _ _).trans (congrArg (andThen _) (funext fun _ => (andThen_assoc _ _ _).trans (congrArg (andThen _) (funext fun _ => andThen_assoc _ _ _))))).symm
    · rfl
  · have htail : ∀ (pre : List (Event α)), (∀ a : α, FillRound calls (.did (.eq 0) false :: (pre ++ [.did (.deref 0) a, .did (.assign 0) (), .did (.inc 0) ()]))) →
        Good (andThen (ask u (.deref 0)) fun _ => andThen (ask u (.assign 0)) fun _ => ask u (.inc 0)) (fun es _ => FillRound calls (.did (.eq 0) false :: (pre ++ es)))
          fun es s => s = .exception ∧ ∃ y o v z, FillRound calls (.did (.eq 0) false :: (y ++ .did o v :: z)) ∧ pre ++ es = y ++ [.threw o] := by
      intro pre hpre
      refine (good_andThen (good_ask u (.deref 0)) fun _ _ _ => good_andThen (good_ask u (.assign 0)) fun _ _ _ => good_ask u (.inc 0)).mono ?_ ?_
      · rintro es _ ⟨e1, e2, a, rfl, rfl, e3, e4, _, rfl, rfl, rfl⟩
        exact hpre a
      · rintro es s (⟨rfl, rfl⟩ | ⟨e1, e2, (a : α), rfl, rfl, ⟨rfl, rfl⟩ | ⟨e3, e4, _, rfl, rfl, rfl, rfl⟩⟩)
        · exact ⟨rfl, pre, .deref 0, (default : α), _, hpre default, rfl⟩
        · exact ⟨rfl, pre ++ [.did (.deref 0) a], .assign 0, (), [.did (.inc 0) ()], by simpa using hpre a, by simp⟩
        · exact ⟨rfl, pre ++ [.did (.deref 0) a, .did (.assign 0) ()], .inc 0, (), [], by simpa using hpre a, by simp only [List.append_assoc]; rfl⟩
    cases calls
    · exact (htail [] fun a => ⟨a, true, rfl⟩).mono (fun _ _ h => h) fun _ _ h => h
    · refine (good_andThen (good_ask u (.call [])) fun e (g : Bool) (he : e = [.did (.call []) g]) => htail e fun a => ⟨a, g, by rw [he]; rfl⟩).mono ?_ ?_
      · rintro es _ ⟨e1, e2, g, rfl, -, h⟩
        exact h
      · rintro es s (⟨rfl, rfl⟩ | ⟨e1, e2, g, rfl, -, h⟩)
        · exact ⟨rfl, [], .call [], true, _, ⟨default, true, rfl⟩, rfl⟩
        · exact h

theorem good_reduce [Inhabited α] (fuel : Nat) : Good (reduce u fuel) (fun es b => Walk ReduceRound fuel es (.ok b)) fun es s => Walk ReduceRound fuel es (.stop s) := by
  refine good_walk u (good_rounds u (body := andThen (ask u (.deref 0)) fun (a : α) => andThen (ask u (.call [.elem a])) fun _ => ask u (.inc 0)) rfl ?_ ?_
    ⟨_, default, true, rfl⟩ fuel)
  · intro fuel
    refine congrArg (andThen (ask u (.eq 0))) (funext fun (e : Bool) => ?_)
    cases e
    · exact ((andThen_assoc _ _ _).trans (congrArg (andThen _) (funext fun _ => andThen_assoc _ _ _))).symm
    · rfl
  · refine (good_andThen (good_ask u (.deref 0)) fun _ (a : α) _ => good_andThen (good_ask u (.call [.elem a])) fun _ _ _ => good_ask u (.inc 0)).mono ?_ ?_
    · rintro es _ ⟨e1, e2, (a : α), rfl, rfl, e3, e4, (g : Bool), rfl, rfl, rfl⟩
      exact ⟨a, g, rfl⟩
    · rintro es s (⟨rfl, rfl⟩ | ⟨e1, e2, (a : α), rfl, rfl, ⟨rfl, rfl⟩ | ⟨e3, e4, (g : Bool), rfl, rfl, rfl, rfl⟩⟩)
      · exact ⟨rfl, [], .deref 0, (default : α), _, ⟨default, true, rfl⟩, rfl⟩
      · exact ⟨rfl, [.did (.deref 0) a], .call [.elem a], true, _, ⟨a, true, rfl⟩, rfl⟩
      · exact ⟨rfl, [.did (.deref 0) a, .did (.call [.elem a]) g], .inc 0, (), [], ⟨a, g, rfl⟩, rfl⟩

end single

end Makeshift.UserOps
