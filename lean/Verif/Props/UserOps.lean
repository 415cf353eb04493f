import Verif.Lemmas.UserOps

/-!
# C154: what the algorithms do with the user's iterators
-/

namespace Makeshift.Props

open Makeshift.UserOps Makeshift.Spec.UserOps

variable {α : Type}

/-- The calls which `range_for()`, `range_transform_reduce()`, `range_count_if()`, `range_all_of()`, `range_any_of()` and `range_none_of()` make, whatever the user's functions answer and whichever
of them throw an exception, and in whichever order arguments are evaluated. -/
theorem C154_calls (u : User α) (hu : Lengths u) (ls : List Leaf) (ord : Orders) (hs : ord.sizes.Perm (List.range ls.length))
    (hc : ∀ i, (ord.check i).Perm (List.range ls.length)) (hd : ∀ i, (ord.deref i).Perm (List.range ls.length)) (fuel : Nat) :
    Algorithm ls fuel (algorithm u ls ord fuel []).1 (algorithm u ls ord fuel []).2 := by
  obtain ⟨es, h1, h2, h3⟩ := good_algorithm u ls hu ord hs hc hd fuel []
  rw [List.nil_append] at h1
  rw [h1]
  rcases h : (algorithm u ls ord fuel []).2 with b | s
  · exact h2 b h
  · exact h3 s h

section

variable {ls : List Leaf} {size : Option Int} {fuel : Nat} {r : Nat} {l : Leaf}

private theorem onRange_append (r : Nat) (x y : List (Event α)) : onRange r (x ++ y) = onRange r x ++ onRange r y := List.filterMap_append

private theorem onRange_flatMap (r : Nat) (f : Nat → List (Event α)) : ∀ (order : List Nat), order.Nodup → (∀ q ∈ order, q ≠ r → onRange r (f q) = []) →
    onRange r (order.flatMap f) = if r ∈ order then onRange r (f r) else []
  | [], _, _ => rfl
  | q :: order, hn, hf => by
    rw [List.nodup_cons] at hn
    rw [List.flatMap_cons, onRange_append, onRange_flatMap r f order hn.2 fun p hp => hf p (List.mem_cons_of_mem _ hp)]
    by_cases hq : q = r
    · subst hq
      simp [hn.1]
    · rw [hf q (by simp) hq]
      have : r ∈ q :: order ↔ r ∈ order := by
        rw [List.mem_cons]
        exact ⟨fun h => h.resolve_left fun he => hq he.symm, .inr⟩
      simp [this]

private theorem onRange_map (r : Nat) (f : Nat → Event α) (k : Kind) (hf : ∀ q, kindOn r (op (f q)) = if q = r then some k else none) (order : List Nat) (hn : order.Nodup) :
    onRange r (order.map f) = if r ∈ order then [k] else [] := by
  have h1 : order.map f = order.flatMap fun q => [f q] := by
    rw [List.flatMap_def]
    induction order with
    | nil => rfl
    | cons a as ih =>
      rw [List.nodup_cons] at hn
      rw [List.map_cons, ih hn.2]; rfl
  rw [h1, onRange_flatMap r _ order hn]
  · have : onRange r [f r] = [k] := by simp [onRange, hf r]
    rw [this]
  · intro q _ hq
    simp [onRange, hf q, hq]

/-- The parts of a round. -/
private def eqPart (l : Leaf) : List Kind := if l.mode = .iteratorPair then [.eq] else []
private def derefPart (l : Leaf) : List Kind := if l.mode = .iteratorPair ∨ l.mode = .iterator then [.deref] else []
private def incPart (l : Leaf) : List Kind := if l.mode = .iteratorPair ∨ l.mode = .iterator then [.inc] else []

private theorem roundOf_parts (l : Leaf) : roundOf l = eqPart l ++ (derefPart l ++ incPart l) := by
  unfold roundOf eqPart derefPart incPart
  cases l.mode <;> simp

private theorem mem_paired (hl : ls[r]? = some l) : r ∈ paired ls ↔ l.mode = .iteratorPair := by
  unfold paired
  rw [mem_positions]
  constructor
  · rintro ⟨l', h1, h2⟩
    rw [hl, Option.some.injEq] at h1
    subst h1
    simpa using h2
  · intro h
    exact ⟨l, hl, by simpa using h⟩

private theorem mem_walked (hl : ls[r]? = some l) : r ∈ walked ls ↔ (l.mode = .iteratorPair ∨ l.mode = .iterator) := by
  unfold walked
  rw [mem_positions]
  constructor
  · rintro ⟨l', h1, h2⟩
    rw [hl, Option.some.injEq] at h1
    subst h1
    simpa using h2
  · intro h
    exact ⟨l, hl, by simpa using h⟩

private theorem mem_asked (hl : ls[r]? = some l) : r ∈ asked ls ↔ ((l.mode = .iterator ∨ l.mode = .index) ∧ l.fixed = none) := by
  unfold asked
  rw [mem_positions]
  constructor
  · rintro ⟨l', h1, h2⟩
    rw [hl, Option.some.injEq] at h1
    subst h1
    simpa using h2
  · intro h
    exact ⟨l, hl, by simpa using h⟩

private theorem onRange_checks (hl : ls[r]? = some l) {i : Nat} {b : Bool} {c : List (Event α)} (h : Checks ls size i b c) : onRange r c = eqPart l := by
  obtain ⟨order, h1, rfl, -⟩ := h
  rw [onRange_map r _ .eq (fun q => rfl) order (h1.nodup_iff.2 (positions_nodup _ _))]
  unfold eqPart
  simp only [h1.mem_iff, mem_paired hl]

private theorem onRange_obtained (r q : Nat) (v : Val α) (h : q ≠ r) : onRange r (obtained q v) = [] := by
  cases v <;> simp [obtained, onRange, kindOn, op, h]

private theorem onRange_fits (hl : ls[r]? = some l) {i : Nat} {v : Val α} (h : Fits ls i r v) : onRange r (obtained r v) = derefPart l := by
  unfold Fits at h
  rw [hl] at h
  unfold derefPart
  simp only [Option.map_some] at h
  rcases hm : l.mode <;> rw [hm] at h
  · obtain ⟨a, rfl⟩ := h
    simp [obtained, onRange, kindOn, op]
  · obtain ⟨a, rfl⟩ := h
    simp [obtained, onRange, kindOn, op]
  · subst h; simp [obtained, onRange]
  · subst h; simp [obtained, onRange]

private theorem onRange_derefs (hl : ls[r]? = some l) {i : Nat} {d : List (Event α)} {vs : List (Val α)} (h : Derefs ls i d vs) : onRange r d = derefPart l := by
  obtain ⟨order, v, h1, h2, rfl, -⟩ := h
  rw [onRange_flatMap r _ order (h1.nodup_iff.2 List.nodup_range) fun q _ hq => onRange_obtained r q _ hq]
  have hr : r < ls.length := (List.getElem?_eq_some_iff.1 hl).1
  rw [if_pos (h1.mem_iff.2 (List.mem_range.2 hr)), onRange_fits hl (h2 r hr)]

private theorem onRange_incs (hl : ls[r]? = some l) : onRange r (incs ls : List (Event α)) = incPart l := by
  have h := onRange_map (α := α) r (fun q => .did (.inc q) ()) .inc (fun q => rfl) (walked ls) (positions_nodup _ _)
  rw [show onRange r (incs ls : List (Event α)) = _ from h]
  unfold incPart
  simp only [mem_walked hl]

private theorem onRange_call (vs : List (Val α)) (b : Bool) : onRange r [Event.did (.call vs) b] = [] := rfl

private theorem onRange_rounds (hl : ls[r]? = some l) {n : Nat} {t : List (Event α)} (h : Rounds ls size n t) : onRange r t = (List.replicate n (roundOf l)).flatten := by
  induction h with
  | zero => rfl
  | next _ hC hD ih =>
    rw [onRange_append, ih, onRange_append, onRange_append, onRange_append, onRange_checks hl hC, onRange_derefs hl hD, onRange_call, onRange_incs hl, List.append_nil,
      List.append_assoc, ← roundOf_parts, List.replicate_succ', List.flatten_append]
    simp

private theorem onRange_checkThrows (hl : ls[r]? = some l) {x : List (Event α)} (h : CheckThrows ls x) : onRange r x <+: eqPart l := by
  obtain ⟨done, p, rest, b, h1, rfl⟩ := h
  have hn := h1.nodup_iff.2 (positions_nodup _ _)
  rw [List.nodup_append] at hn
  rw [onRange_append, onRange_map r _ .eq (fun q => rfl) done hn.1]
  unfold eqPart
  by_cases hp : p = r
  · subst hp
    have h2 : p ∉ done := fun h => hn.2.2 p h p (by simp) rfl
    rw [if_neg h2, if_pos ((mem_paired hl).1 (h1.mem_iff.1 (by simp)))]
    simp [onRange, kindOn, op]
  · by_cases hd : r ∈ done
    · rw [if_pos hd, if_pos ((mem_paired hl).1 (h1.mem_iff.1 (by simp [hd])))]
      simp [onRange, kindOn, op, hp]
    · rw [if_neg hd]
      simp [onRange, kindOn, op, hp]

private theorem onRange_checkDiffers (hl : ls[r]? = some l) {i : Nat} {x : List (Event α)} (h : CheckDiffers ls size i x) : onRange r x <+: eqPart l := by
  rcases h with ⟨order, b, -, h1, rfl, -⟩ | ⟨n, done, p, rest, -, h1, rfl⟩
  · rw [onRange_map r _ .eq (fun q => rfl) order (h1.nodup_iff.2 (positions_nodup _ _))]
    unfold eqPart
    simp only [h1.mem_iff, mem_paired hl]
    exact List.prefix_refl _
  · have hn : (done ++ p :: rest).Nodup := h1 ▸ positions_nodup _ _
    rw [List.nodup_append] at hn
    rw [onRange_append, onRange_map r _ .eq (fun q => rfl) done hn.1]
    unfold eqPart
    by_cases hp : p = r
    · subst hp
      have h2 : p ∉ done := fun h => hn.2.2 p h p (by simp) rfl
      rw [if_neg h2, if_pos ((mem_paired hl).1 (h1 ▸ (by simp)))]
      simp [onRange, kindOn, op]
    · by_cases hd : r ∈ done
      · rw [if_pos hd, if_pos ((mem_paired hl).1 (h1 ▸ (by simp [hd])))]
        simp [onRange, kindOn, op, hp]
      · rw [if_neg hd]
        simp [onRange, kindOn, op, hp]

private theorem onRange_derefThrows (hl : ls[r]? = some l) {i : Nat} {x : List (Event α)} (h : DerefThrows ls i x) : onRange r x <+: derefPart l := by
  obtain ⟨done, p, rest, v, h1, hw, h2, rfl⟩ := h
  have hn := h1.nodup_iff.2 List.nodup_range
  rw [List.nodup_append] at hn
  rw [onRange_append, onRange_flatMap r _ done hn.1 fun q _ hq => onRange_obtained r q _ hq]
  by_cases hp : p = r
  · subst hp
    have h3 : p ∉ done := fun h => hn.2.2 p h p (by simp) rfl
    unfold derefPart
    rw [if_neg h3, if_pos ((mem_walked hl).1 hw)]
    simp [onRange, kindOn, op]
  · by_cases hd : r ∈ done
    · rw [if_pos hd, onRange_fits hl (h2 r hd)]
      simp [onRange, kindOn, op, hp]
    · rw [if_neg hd]
      simp [onRange, kindOn, op, hp]

private theorem onRange_incThrows (hl : ls[r]? = some l) {x : List (Event α)} (h : IncThrows ls x) : onRange r x <+: incPart l := by
  obtain ⟨done, p, rest, h1, rfl⟩ := h
  have hn : (done ++ p :: rest).Nodup := h1 ▸ positions_nodup _ _
  rw [List.nodup_append] at hn
  rw [onRange_append, onRange_map r _ .inc (fun q => rfl) done hn.1]
  unfold incPart
  by_cases hp : p = r
  · subst hp
    have h2 : p ∉ done := fun h => hn.2.2 p h p (by simp) rfl
    rw [if_neg h2, if_pos ((mem_walked hl).1 (h1 ▸ (by simp)))]
    simp [onRange, kindOn, op]
  · by_cases hd : r ∈ done
    · rw [if_pos hd, if_pos ((mem_walked hl).1 (h1 ▸ (by simp [hd])))]
      simp [onRange, kindOn, op, hp]
    · rw [if_neg hd]
      simp [onRange, kindOn, op, hp]

private theorem prefix_round (n : Nat) (x y z : List Kind) (h : x ++ y = z) : (List.replicate n z).flatten ++ x <+: (List.replicate (n + 1) z).flatten := by
  rw [List.replicate_succ', List.flatten_append, ← h]
  simp

private theorem onRange_trace (hl : ls[r]? = some l) {es : List (Event α)} {e : Ending Bool} (h : Trace ls size fuel es e) :
    ∃ k, onRange r es <+: (List.replicate k (roundOf l)).flatten := by
  have step : ∀ {n : Nat} {x p y : List Kind}, x <+: p → p ++ y = roundOf l → (List.replicate n (roundOf l)).flatten ++ x <+: (List.replicate (n + 1) (roundOf l)).flatten := by
    intro n x p y hx hp
    obtain ⟨z, rfl⟩ := hx
    exact prefix_round n x (z ++ y) _ (by rw [← hp, List.append_assoc])
  have hp := roundOf_parts l
  cases h with
  | @finished n t c hR hC =>
    rw [onRange_append, onRange_rounds hl hR, onRange_checks hl hC]
    exact ⟨n + 1, step (List.prefix_refl _) hp.symm⟩
  | @returned n t c d vs hR hC hD =>
    rw [onRange_append, onRange_rounds hl hR, onRange_append, onRange_append, onRange_checks hl hC, onRange_derefs hl hD, onRange_call, List.append_nil]
    exact ⟨n + 1, step (y := incPart l) (List.prefix_refl _) (by rw [hp, List.append_assoc])⟩
  | @checkThrew n t x hR hX =>
    rw [onRange_append, onRange_rounds hl hR]
    exact ⟨n + 1, step (onRange_checkThrows hl hX) hp.symm⟩
  | @checkDiffers n t x hR hX =>
    rw [onRange_append, onRange_rounds hl hR]
    exact ⟨n + 1, step (onRange_checkDiffers hl hX) hp.symm⟩
  | @derefThrew n t c x hR hC hX =>
    rw [onRange_append, onRange_rounds hl hR, onRange_append, onRange_checks hl hC]
    refine ⟨n + 1, step (p := eqPart l ++ derefPart l) (y := incPart l) ?_ (by rw [hp, List.append_assoc])⟩
    exact (List.prefix_append_right_inj _).2 (onRange_derefThrows hl hX)
  | @callThrew n t c d vs hR hC hD =>
    rw [onRange_append, onRange_rounds hl hR, onRange_append, onRange_append, onRange_checks hl hC, onRange_derefs hl hD]
    refine ⟨n + 1, step (p := eqPart l ++ derefPart l) (y := incPart l) ?_ (by rw [hp, List.append_assoc])⟩
    show _ ++ [] <+: _
    rw [List.append_nil]
    exact List.prefix_refl _
  | @incThrew n t c d vs x hR hC hD hX =>
    rw [onRange_append, onRange_rounds hl hR, onRange_append, onRange_append, onRange_append, onRange_checks hl hC, onRange_derefs hl hD, onRange_call, List.append_nil]
    refine ⟨n + 1, step (p := eqPart l ++ derefPart l ++ incPart l) (y := []) ?_ (by rw [hp, List.append_nil, List.append_assoc])⟩
    exact (List.prefix_append_right_inj _).2 (onRange_incThrows hl hX)
  | running hR =>
    rw [onRange_rounds hl hR]
    exact ⟨fuel, List.prefix_refl _⟩

/-- The parts of the opening. -/
private def sizePart (l : Leaf) : List Kind := if (l.mode = .iterator ∨ l.mode = .index) ∧ l.fixed = none then [.size] else []

private theorem onRange_sizes (hl : ls[r]? = some l) {order : List Nat} (h1 : order.Perm (asked ls)) (s : Nat → Int) :
    onRange r (order.map fun r => (Event.did (.size r) (s r) : Event α)) = sizePart l := by
  rw [onRange_map r _ .size (fun q => rfl) order (h1.nodup_iff.2 (positions_nodup _ _))]
  unfold sizePart
  simp only [h1.mem_iff, mem_asked hl]

private theorem onRange_start (q : Nat) (h : q ≠ r) : onRange r (start ls q : List (Event α)) = [] := by
  unfold start
  rcases (ls[q]?).map Leaf.mode with _ | m
  · rfl
  · cases m <;> simp [onRange, kindOn, op, h]

private theorem onRange_starts (hl : ls[r]? = some l) : onRange r (starts ls : List (Event α)) = onRange r (start ls r : List (Event α)) := by
  unfold starts
  rw [onRange_flatMap r _ _ List.nodup_range fun q _ hq => onRange_start q hq]
  rw [if_pos (List.mem_range.2 (List.getElem?_eq_some_iff.1 hl).1)]

private theorem opening_parts (hl : ls[r]? = some l) : opening l = sizePart l ++ onRange r (start ls r : List (Event α)) := by
  unfold opening sizePart start
  rw [hl]
  obtain ⟨m, f⟩ := l
  cases m <;> cases f <;> simp [onRange, kindOn, op]

private theorem onRange_startThrows (hl : ls[r]? = some l) {x : List (Event α)} (h : StartThrows ls x) : onRange r x <+: onRange r (start ls r : List (Event α)) := by
  obtain ⟨q, y, o, hq, rfl, v, hp⟩ := h
  rw [onRange_append, onRange_append, onRange_flatMap r _ _ List.nodup_range fun q _ hq => onRange_start q hq]
  have h1 : onRange r (y ++ [.did o v]) <+: onRange r (start ls q : List (Event α)) := by
    obtain ⟨z, hz⟩ := hp
    rw [← hz, onRange_append r (y ++ _)]
    exact List.prefix_append _ _
  have h2 : onRange r [Event.did o v] = onRange r [Event.threw o] := rfl
  rw [onRange_append, h2] at h1
  by_cases hqr : q = r
  · subst hqr
    rw [if_neg (by simp)]
    exact h1
  · rw [onRange_start q hqr, List.prefix_nil, List.append_eq_nil_iff] at h1
    rw [h1.1, h1.2, List.append_nil, List.append_nil]
    by_cases hr : r ∈ List.range q
    · rw [if_pos hr]
      exact List.prefix_refl _
    · rw [if_neg hr]
      exact List.nil_prefix

/-- However the functor and the iterators behave: on every range the algorithms do nothing but follow the protocol of input iterators: `size()` if it has one, `begin()`, `end()` resp.
`data()`, and then over and over again: comparison with the end (only if the range has no size), `*it`, `++it`. -/
theorem C154_protocol (es : List (Event α)) (e : Ending Bool) (h : Algorithm ls fuel es e) (hne : e ≠ .stop .illFormed) (hl : ls[r]? = some l) :
    ∃ k, onRange r es <+: opening l ++ (List.replicate k (roundOf l)).flatten := by
  have ho := opening_parts (α := α) hl
  cases h with
  | rejected => exact absurd rfl hne
  | @sizeThrew done p rest s h1 =>
    refine ⟨0, ?_⟩
    have hn := h1.nodup_iff.2 (positions_nodup _ _)
    rw [List.nodup_append] at hn
    rw [onRange_append, onRange_map r _ .size (fun q => rfl) done hn.1, ho, List.append_assoc]
    unfold sizePart
    by_cases hp : p = r
    · subst hp
      have h2 : p ∉ done := fun h => hn.2.2 p h p (by simp) rfl
      rw [if_neg h2, if_pos ((mem_asked hl).1 (h1.mem_iff.1 (by simp)))]
      simp [onRange, kindOn, op]
    · by_cases hd : r ∈ done
      · rw [if_pos hd, if_pos ((mem_asked hl).1 (h1.mem_iff.1 (by simp [hd])))]
        simp [onRange, kindOn, op, hp]
      · rw [if_neg hd]
        simp [onRange, kindOn, op, hp]
  | @mismatch order s p q n m h1 =>
    refine ⟨0, ?_⟩
    rw [onRange_sizes hl h1 s, ho, List.append_assoc]
    exact List.prefix_append _ _
  | @startThrew order x s size h1 _ h2 =>
    refine ⟨0, ?_⟩
    rw [onRange_append, onRange_sizes hl h1 s, ho, List.append_assoc]
    exact (List.prefix_append_right_inj _).2 ((onRange_startThrows hl h2).trans (List.prefix_append _ _))
  | @run order es e s size h1 _ h2 =>
    obtain ⟨k, hk⟩ := onRange_trace hl h2
    refine ⟨k, ?_⟩
    rw [onRange_append, onRange_append, onRange_sizes hl h1 s, onRange_starts hl, ho, List.append_assoc]
    exact (List.prefix_append_right_inj _).2 ((List.prefix_append_right_inj _).2 hk)

private theorem isCall_map_false {order : List Nat} {f : Nat → Event α} (h : ∀ q, isCall (f q) = false) : (order.map f).filter isCall = [] := by
  rw [List.filter_eq_nil_iff]
  intro e he
  obtain ⟨q, -, rfl⟩ := List.mem_map.1 he
  simp [h q]

private theorem isCall_checks {i : Nat} {b : Bool} {c : List (Event α)} (h : Checks ls size i b c) : c.filter isCall = [] := by
  obtain ⟨order, -, rfl, -⟩ := h
  exact isCall_map_false fun q => rfl

private theorem op_starts {x : Event α} (h : x ∈ starts ls) : ∃ q, op x = .begin_ q ∨ op x = .end_ q ∨ op x = .data q := by
  obtain ⟨q, -, hq⟩ := List.mem_flatMap.1 h
  unfold start at hq
  refine ⟨q, ?_⟩
  generalize (ls[q]?).map Leaf.mode = o at hq
  rcases o with _ | m
  · exact absurd hq (List.not_mem_nil)
  · cases m
    · rcases List.mem_cons.1 hq with rfl | hq
      · exact .inl rfl
      · have hq := List.mem_singleton.1 hq
        subst hq
        exact .inr (.inl rfl)
    · have hq := List.mem_singleton.1 hq
      subst hq
      exact .inl rfl
    · have hq := List.mem_singleton.1 hq
      subst hq
      exact .inr (.inr rfl)
    · exact absurd hq (List.not_mem_nil)

private theorem isCall_iff (x : Event α) : isCall x = true ↔ ∃ vs, op x = .call vs := by
  rcases x with ⟨o, v⟩ | o <;> cases o <;> simp [isCall, op]

private theorem isCall_starts : (starts ls : List (Event α)).filter isCall = [] := by
  rw [List.filter_eq_nil_iff]
  intro e he
  rw [isCall_iff]
  rintro ⟨vs, h⟩
  obtain ⟨q, h1 | h1 | h1⟩ := op_starts he <;> rw [h] at h1 <;> cases h1

private theorem op_checks {i : Nat} {b : Bool} {c : List (Event α)} (h : Checks ls size i b c) {x : Event α} (hx : x ∈ c) : ∃ q, x = .did (.eq q) b := by
  obtain ⟨order, -, rfl, -⟩ := h
  obtain ⟨q, -, rfl⟩ := List.mem_map.1 hx
  exact ⟨q, rfl⟩

private theorem op_obtained {order : List Nat} {v : Nat → Val α} {x : Event α} (hx : x ∈ order.flatMap fun r => obtained r (v r)) :
    ∃ q ∈ order, ∃ a, x = .did (.deref q) a ∧ v q = .elem a := by
  obtain ⟨q, hq, h⟩ := List.mem_flatMap.1 hx
  refine ⟨q, hq, ?_⟩
  rcases hv : v q with a | i | i <;> rw [hv] at h
  · exact ⟨a, List.mem_singleton.1 h, rfl⟩
  · exact absurd h List.not_mem_nil
  · exact absurd h List.not_mem_nil

private theorem op_derefs {i : Nat} {d : List (Event α)} {vs : List (Val α)} (h : Derefs ls i d vs) {x : Event α} (hx : x ∈ d) : ∃ q a, x = .did (.deref q) a := by
  obtain ⟨order, v, -, -, rfl, -⟩ := h
  obtain ⟨q, -, a, h, -⟩ := op_obtained hx
  exact ⟨q, a, h⟩

private theorem isCall_derefs {i : Nat} {d : List (Event α)} {vs : List (Val α)} (h : Derefs ls i d vs) : d.filter isCall = [] := by
  rw [List.filter_eq_nil_iff]
  intro x hx
  obtain ⟨q, a, rfl⟩ := op_derefs h hx
  rw [isCall_iff]
  rintro ⟨vs, h⟩
  cases h

/-- What happens in full rounds. -/
private theorem op_rounds {n : Nat} {t : List (Event α)} (h : Rounds ls size n t) {x : Event α} (hx : x ∈ t) :
    ∃ q, x = .did (.eq q) false ∨ (∃ a, x = .did (.deref q) a) ∨ (∃ vs, x = .did (.call vs) true) ∨ x = .did (.inc q) () := by
  induction h with
  | zero => exact absurd hx List.not_mem_nil
  | next _ hC hD ih =>
    rcases List.mem_append.1 hx with hx | hx
    · exact ih hx
    rcases List.mem_append.1 hx with hx | hx
    · rcases List.mem_append.1 hx with hx | hx
      · rcases List.mem_append.1 hx with hx | hx
        · obtain ⟨q, rfl⟩ := op_checks hC hx
          exact ⟨q, .inl rfl⟩
        · obtain ⟨q, a, rfl⟩ := op_derefs hD hx
          exact ⟨q, .inr (.inl ⟨a, rfl⟩)⟩
      · rw [List.mem_singleton] at hx
        exact ⟨0, .inr (.inr (.inl ⟨_, hx⟩))⟩
    · obtain ⟨q, -, rfl⟩ := List.mem_map.1 hx
      exact ⟨q, .inr (.inr (.inr rfl))⟩

private theorem isCall_rounds {n : Nat} {t : List (Event α)} (h : Rounds ls size n t) : (t.filter isCall).length = n := by
  induction h with
  | zero => rfl
  | next _ hC hD ih =>
    have : (incs ls : List (Event α)).filter isCall = [] := isCall_map_false fun q => rfl
    rw [List.filter_append, List.filter_append, List.filter_append, List.filter_append, isCall_checks hC, isCall_derefs hD, this]
    rw [List.length_append, ih]
    rfl

private theorem known_fixed {s : Nat → Int} {m : Nat} (hl : ls[r]? = some l) (hm : l.fixed = some m) : knownSize ls s r = some m := by
  unfold knownSize
  rw [hl]
  obtain ⟨_, f⟩ := l
  simp only at hm
  subst hm
  rfl

private theorem known_asked {s : Nat → Int} (hr : r ∈ asked ls) : knownSize ls s r = some (s r) := by
  obtain ⟨l, hl, h6⟩ := mem_positions.1 hr
  unfold knownSize
  rw [hl]
  obtain ⟨md, f⟩ := l
  cases md <;> cases f <;> simp at h6 ⊢

/-- If an algorithm runs to its end, it has called the functor as many times as every size that is known says, every range has been walked exactly that far, and ranges without a size have been
compared with the end once more. -/
theorem C154_finished (es : List (Event α)) (h : Algorithm ls fuel es (.ok true)) :
    ∃ n : Nat, (es.filter isCall).length = n ∧
      (∀ (r : Nat) (l : Leaf), ls[r]? = some l → onRange r es = opening l ++ (List.replicate n (roundOf l)).flatten ++ if l.mode = .iteratorPair then [.eq] else []) ∧
      (∀ (r : Nat) (l : Leaf) (m : Nat), ls[r]? = some l → l.fixed = some m → m = n) ∧ ∀ (r : Nat) (m : Int), .did (.size r) m ∈ es → m = n := by
  generalize he : (Ending.ok true : Ending Bool) = e at h
  cases h with
  | rejected => cases he
  | sizeThrew => cases he
  | mismatch => cases he
  | startThrew => cases he
  | @run order es' e s size h1 h2 h3 =>
    subst he
    generalize he : (Ending.ok true : Ending Bool) = e at h3
    cases h3 with
    | @finished n t c hR hC =>
      have hsz : ∀ m, size = some m → m = n := by
        intro m hm
        obtain ⟨_, -, -, hb⟩ := hC
        have := (hb m hm).2
        exact (of_decide_eq_true this.symm).symm
      refine ⟨n, ?_, ?_, ?_, ?_⟩
      · have h4 : (order.map fun r => (Event.did (.size r) (s r) : Event α)).filter isCall = [] := isCall_map_false fun q => rfl
        rw [List.filter_append, List.filter_append, List.filter_append, h4, isCall_starts, isCall_checks hC]
        simpa using isCall_rounds hR
      · intro r l hl
        rw [onRange_append, onRange_append, onRange_append, onRange_sizes hl h1 s, onRange_starts hl, onRange_rounds hl hR, onRange_checks hl hC, opening_parts (α := α) hl]
        unfold eqPart
        simp only [List.append_assoc]
      · intro r l m hl hm
        have hk := known_fixed (s := s) hl hm
        rcases size with _ | k
        · rw [h2 r] at hk
          cases hk
        · have := h2.2 r m hk
          have := hsz k rfl
          omega
      · intro r m hmem
        have hm : r ∈ asked ls ∧ m = s r := by
          rcases List.mem_append.1 hmem with h | h
          · obtain ⟨q, hq, h5⟩ := List.mem_map.1 h
            injection h5 with h6 h7
            obtain rfl := Op.size.inj h6
            exact ⟨h1.mem_iff.1 hq, h7.symm⟩
          · exfalso
            have hno : ∀ x ∈ (starts ls ++ (t ++ c) : List (Event α)), op x ≠ .size r := by
              intro x hx hop
              rcases List.mem_append.1 hx with hx | hx
              · obtain ⟨q, h1 | h1 | h1⟩ := op_starts hx <;> rw [hop] at h1 <;> cases h1
              rcases List.mem_append.1 hx with hx | hx
              · obtain ⟨q, rfl | ⟨a, rfl⟩ | ⟨vs, rfl⟩ | rfl⟩ := op_rounds hR hx <;> cases hop
              · obtain ⟨q, rfl⟩ := op_checks hC hx
                cases hop
            exact hno _ h rfl
        obtain ⟨hr, rfl⟩ := hm
        have hk := known_asked (s := s) hr
        rcases size with _ | k
        · rw [h2 r] at hk
          cases hk
        · have := h2.2 r _ hk
          have := hsz k rfl
          omega
    | _ => cases he

/-- If the functor ends the loop in its last call, all ranges have been walked up to the element it received, and nothing more is done. -/
theorem C154_returned (es : List (Event α)) (h : Algorithm ls fuel es (.ok false)) :
    ∃ (n : Nat) (init : List (Event α)) (vs : List (Val α)), es = init ++ [.did (.call vs) false] ∧ (es.filter isCall).length = n + 1 ∧
      ∀ (r : Nat) (l : Leaf), ls[r]? = some l → onRange r es = opening l ++ (List.replicate n (roundOf l)).flatten ++ (roundOf l).filter fun k => k ≠ .inc := by
  generalize he : (Ending.ok false : Ending Bool) = e at h
  cases h with
  | rejected => cases he
  | sizeThrew => cases he
  | mismatch => cases he
  | startThrew => cases he
  | @run order es' e s size h1 h2 h3 =>
    subst he
    generalize he : (Ending.ok false : Ending Bool) = e at h3
    cases h3 with
    | @returned n t c d vs hR hC hD =>
      refine ⟨n, order.map (fun r => .did (.size r) (s r)) ++ (starts ls ++ (t ++ (c ++ d))), vs, ?_, ?_, ?_⟩
      · simp only [List.append_assoc]
      · have h4 : (order.map fun r => (Event.did (.size r) (s r) : Event α)).filter isCall = [] := isCall_map_false fun q => rfl
        rw [List.filter_append, List.filter_append, List.filter_append, List.filter_append, List.filter_append, h4, isCall_starts, isCall_checks hC, isCall_derefs hD]
        rw [List.nil_append, List.nil_append, List.length_append, isCall_rounds hR]
        rfl
      · intro r l hl
        rw [onRange_append, onRange_append, onRange_append, onRange_append, onRange_append, onRange_sizes hl h1 s, onRange_starts hl, onRange_rounds hl hR, onRange_checks hl hC,
          onRange_derefs hl hD, opening_parts (α := α) hl, onRange_call]
        have : (roundOf l).filter (fun k => k ≠ .inc) = eqPart l ++ derefPart l := by
          unfold roundOf eqPart derefPart
          cases l.mode <;> simp
        rw [this, List.append_nil]
        simp only [List.append_assoc]
    | _ => cases he

/-! ## After the end -/

private def Safe (es : List (Event α)) : Prop := ∀ a b r, es = a ++ .did (.eq r) true :: b → ∀ e ∈ b, IsComparison e

private theorem safe_append {x y : List (Event α)} (hx : ∀ r, .did (.eq r) true ∉ x) (hy : Safe y) : Safe (x ++ y) := by
  intro a b r h
  rcases List.append_eq_append_iff.1 h with ⟨c, rfl, h1⟩ | ⟨c, rfl, h1⟩
  · exact hy c b r h1
  · rcases c with _ | ⟨e, c⟩
    · exact hy [] b r h1.symm
    · rw [List.cons_append, List.cons.injEq] at h1
      obtain ⟨rfl, rfl⟩ := h1
      exact absurd (by simp) (hx r)

private theorem safe_none {x : List (Event α)} (hx : ∀ r, .did (.eq r) true ∉ x) : Safe x := by
  intro a b r h
  exact absurd (by rw [h]; simp) (hx r)

private theorem safe_all {x : List (Event α)} (hx : ∀ e ∈ x, IsComparison e) : Safe x := by
  intro a b r h e he
  exact hx e (by rw [h]; simp [he])

private theorem notEnd_of_op {x : List (Event α)} (h : ∀ e ∈ x, ¬ IsComparison e) (r : Nat) : .did (.eq r) true ∉ x := fun hr => h _ hr ⟨r, rfl⟩

private theorem notEnd_rounds {n : Nat} {t : List (Event α)} (h : Rounds ls size n t) (r : Nat) : .did (.eq r) true ∉ t := by
  intro hx
  obtain ⟨q, h | ⟨a, h⟩ | ⟨vs, h⟩ | h⟩ := op_rounds h hx
  · injection h with h1 h2
    obtain rfl := Op.eq.inj h1
    exact Bool.noConfusion h2
  · injection h with h1; cases h1
  · injection h with h1; cases h1
  · injection h with h1; cases h1

private theorem notEnd_checks {i : Nat} {c : List (Event α)} (h : Checks ls size i false c) (r : Nat) : .did (.eq r) true ∉ c := by
  intro hx
  obtain ⟨q, h⟩ := op_checks h hx
  injection h with h1 h2
  obtain rfl := Op.eq.inj h1
  exact Bool.noConfusion h2

private theorem notEnd_derefs {i : Nat} {d : List (Event α)} {vs : List (Val α)} (h : Derefs ls i d vs) (r : Nat) : .did (.eq r) true ∉ d := by
  intro hx
  obtain ⟨q, a, h⟩ := op_derefs h hx
  injection h with h1; cases h1

private theorem notEnd_append {x y : List (Event α)} {r : Nat} (hx : .did (.eq r) true ∉ x) (hy : .did (.eq r) true ∉ y) : .did (.eq r) true ∉ x ++ y := by
  rw [List.mem_append]
  exact fun h => h.elim hx hy

private theorem safe_trace {es : List (Event α)} {e : Ending Bool} (h : Trace ls size fuel es e) : Safe es := by
  cases h with
  | finished hR hC =>
    refine safe_append (notEnd_rounds hR) (safe_all fun e he => ?_)
    obtain ⟨q, rfl⟩ := op_checks hC he
    exact ⟨q, rfl⟩
  | returned hR hC hD =>
    refine safe_append (notEnd_rounds hR) (safe_none fun r => notEnd_append (notEnd_append (notEnd_checks hC r) (notEnd_derefs hD r)) ?_)
    intro h
    have h := List.mem_singleton.1 h
    injection h with h1; cases h1
  | checkThrew hR hX =>
    refine safe_append (notEnd_rounds hR) (safe_all fun e he => ?_)
    obtain ⟨done, p, rest, b, -, rfl⟩ := hX
    rcases List.mem_append.1 he with he | he
    · obtain ⟨q, -, rfl⟩ := List.mem_map.1 he
      exact ⟨q, rfl⟩
    · obtain rfl := List.mem_singleton.1 he
      exact ⟨p, rfl⟩
  | checkDiffers hR hX =>
    refine safe_append (notEnd_rounds hR) (safe_all fun e he => ?_)
    rcases hX with ⟨order, b, -, -, rfl, -⟩ | ⟨n, done, p, rest, -, -, rfl⟩
    · obtain ⟨q, -, rfl⟩ := List.mem_map.1 he
      exact ⟨q, rfl⟩
    · rcases List.mem_append.1 he with he | he
      · obtain ⟨q, -, rfl⟩ := List.mem_map.1 he
        exact ⟨q, rfl⟩
      · obtain rfl := List.mem_singleton.1 he
        exact ⟨p, rfl⟩
  | derefThrew hR hC hX =>
    refine safe_append (notEnd_rounds hR) (safe_append (notEnd_checks hC) (safe_none fun r h => ?_))
    obtain ⟨done, p, rest, v, -, -, -, rfl⟩ := hX
    rcases List.mem_append.1 h with h | h
    · obtain ⟨q, -, a, h, -⟩ := op_obtained h
      injection h with h1; cases h1
    · have h := List.mem_singleton.1 h
      cases h
  | callThrew hR hC hD =>
    refine safe_append (notEnd_rounds hR) (safe_none fun r => notEnd_append (notEnd_append (notEnd_checks hC r) (notEnd_derefs hD r)) ?_)
    intro h
    have h := List.mem_singleton.1 h
    cases h
  | incThrew hR hC hD hX =>
    refine safe_append (notEnd_rounds hR) (safe_none fun r => notEnd_append (notEnd_append (notEnd_append (notEnd_checks hC r) (notEnd_derefs hD r)) ?_) ?_)
    · intro h
      have h := List.mem_singleton.1 h
      injection h with h1; cases h1
    · obtain ⟨done, p, rest, -, rfl⟩ := hX
      intro h
      rcases List.mem_append.1 h with h | h
      · obtain ⟨q, -, h⟩ := List.mem_map.1 h
        injection h with h1; cases h1
      · have h := List.mem_singleton.1 h
        cases h
  | running hR => exact safe_none (notEnd_rounds hR)

private theorem notEnd_sizes {order : List Nat} {s : Nat → Int} (r : Nat) : (.did (.eq r) true : Event α) ∉ order.map fun q => .did (.size q) (s q) := by
  intro h
  obtain ⟨q, -, h⟩ := List.mem_map.1 h
  injection h with h1; cases h1

/-- Once the iterators of a range without a size have been found to be at the end, no iterator of any range is dereferenced or incremented, and the functor is not called: at most more iterators
are compared with their ends.  So no iterator is ever dereferenced or incremented at the end of its range. -/
theorem C154_after_end (es a b : List (Event α)) (e : Ending Bool) (h : Algorithm ls fuel es e) (hne : e ≠ .stop .illFormed) (hes : es = a ++ .did (.eq r) true :: b) :
    ∀ x ∈ b, IsComparison x := by
  suffices hs : Safe es from hs a b r hes
  cases h with
  | rejected => exact absurd rfl hne
  | sizeThrew =>
    refine safe_none fun r => notEnd_append (notEnd_sizes r) fun h => ?_
    have h := List.mem_singleton.1 h
    cases h
  | mismatch => exact safe_none notEnd_sizes
  | startThrew h1 _ h2 =>
    refine safe_append notEnd_sizes (safe_none fun r h => ?_)
    obtain ⟨q, y, o, -, rfl, v, hp⟩ := h2
    have hst : ∀ q, (.did (.eq r) true : Event α) ∉ start ls q := by
      intro q h
      unfold start at h
      generalize (ls[q]?).map Leaf.mode = o at h
      rcases o with _ | m
      · exact absurd h List.not_mem_nil
      · cases m
        · rcases List.mem_cons.1 h with h | h
          · injection h with h1; cases h1
          · have h := List.mem_singleton.1 h
            injection h with h1; cases h1
        · have h := List.mem_singleton.1 h
          injection h with h1; cases h1
        · have h := List.mem_singleton.1 h
          injection h with h1; cases h1
        · exact absurd h List.not_mem_nil
    rcases List.mem_append.1 h with h | h
    · rcases List.mem_append.1 h with h | h
      · obtain ⟨p, -, h⟩ := List.mem_flatMap.1 h
        exact hst p h
      · exact hst q (hp.subset (List.mem_append_left _ h))
    · have h := List.mem_singleton.1 h
      cases h
  | run h1 _ h2 =>
    refine safe_append notEnd_sizes (safe_append (fun r h => ?_) (safe_trace h2))
    obtain ⟨q, h1 | h1 | h1⟩ := op_starts h <;> cases h1

/-! ## Arguments -/

private def ArgsOk (ls : List Leaf) (pre es : List (Event α)) : Prop := ∀ a e b vs, es = a ++ e :: b → op e = .call vs → Receives ls (pre ++ a) vs

private theorem args_append {pre x y : List (Event α)} (hx : ArgsOk ls pre x) (hy : ArgsOk ls (pre ++ x) y) : ArgsOk ls pre (x ++ y) := by
  intro a e b vs h ho
  rcases List.append_eq_append_iff.1 h with ⟨c, rfl, h1⟩ | ⟨c, rfl, h1⟩
  · rw [← List.append_assoc]
    exact hy c e b vs h1 ho
  · rcases c with _ | ⟨e', c⟩
    · have := hy [] e b vs h1.symm ho
      simpa using this
    · rw [List.cons_append, List.cons.injEq] at h1
      obtain ⟨rfl, rfl⟩ := h1
      exact hx a e c vs rfl ho

private theorem args_none {pre x : List (Event α)} (hx : ∀ e ∈ x, isCall e = false) : ArgsOk ls pre x := by
  intro a e b vs h ho
  have h1 := hx e (by rw [h]; simp)
  rw [(isCall_iff e).2 ⟨vs, ho⟩] at h1
  cases h1

private theorem args_single {pre : List (Event α)} {e : Event α} {vs : List (Val α)} (ho : op e = .call vs) (h : Receives ls pre vs) : ArgsOk ls pre [e] := by
  intro a e' b vs' h1 ho'
  rcases a with _ | ⟨x, a⟩
  · rw [List.nil_append, List.cons.injEq] at h1
    obtain ⟨rfl, -⟩ := h1
    rw [ho] at ho'
    obtain rfl := Op.call.inj ho'
    simpa using h
  · simp at h1

private theorem noCall {x : List (Event α)} (h : x.filter isCall = []) : ∀ e ∈ x, isCall e = false := by
  intro e he
  rw [List.filter_eq_nil_iff] at h
  simpa using h e he

private theorem args_round {n : Nat} {pre t c d : List (Event α)} {vs : List (Val α)} (hpre : pre.filter isCall = []) (hR : Rounds ls size n t) (hC : Checks ls size n false c)
    (hD : Derefs ls n d vs) : Receives ls (pre ++ (t ++ (c ++ d))) vs := by
  have hcount : ((pre ++ (t ++ (c ++ d))).filter isCall).length = n := by
    rw [List.filter_append, List.filter_append, List.filter_append, hpre, isCall_checks hC, isCall_derefs hD]
    simpa using isCall_rounds hR
  obtain ⟨order, v, h1, h2, rfl, rfl⟩ := hD
  refine ⟨by simp, ?_⟩
  intro r l hl
  have hr : r < ls.length := (List.getElem?_eq_some_iff.1 hl).1
  have hv : ((List.range ls.length).map v)[r]? = some (v r) := by simp [hr]
  have hf := h2 r hr
  unfold Fits at hf
  rw [hl] at hf
  simp only [Option.map_some] at hf
  have hmem : r ∈ order := h1.mem_iff.2 (List.mem_range.2 hr)
  have walk : ∀ x, v r = .elem x → ∃ x a1 a2, ((List.range ls.length).map v)[r]? = some (.elem x) ∧
      pre ++ (t ++ (c ++ order.flatMap fun r => obtained r (v r))) = a1 ++ .did (.deref r) x :: a2 ∧ ∀ e ∈ a2, op e ≠ .inc r ∧ op e ≠ .deref r := by
    intro x hx
    obtain ⟨o1, o2, rfl⟩ := List.append_of_mem hmem
    have hnd := h1.nodup_iff.2 List.nodup_range
    rw [List.nodup_append, List.nodup_cons] at hnd
    refine ⟨x, pre ++ (t ++ (c ++ o1.flatMap fun r => obtained r (v r))), o2.flatMap fun r => obtained r (v r), by rw [hv, hx], ?_, ?_⟩
    · rw [List.flatMap_append, List.flatMap_cons, hx]
      simp [obtained]
    · intro e he
      obtain ⟨q, hq, a, rfl, -⟩ := op_obtained he
      refine ⟨by simp [op], ?_⟩
      intro h
      simp only [op, Op.deref.injEq] at h
      exact hnd.2.1.1 (h ▸ hq)
  rcases hm : l.mode <;> rw [hm] at hf
  · obtain ⟨x, hx⟩ := hf
    exact walk x hx
  · obtain ⟨x, hx⟩ := hf
    exact walk x hx
  · rw [hv, hf, hcount]
  · rw [hv, hf, hcount]

private theorem args_rounds {n : Nat} {pre t : List (Event α)} (hpre : pre.filter isCall = []) (hR : Rounds ls size n t) : ArgsOk ls pre t := by
  induction hR with
  | zero => exact args_none (by simp)
  | next hR hC hD ih =>
    refine args_append ih (args_append (args_append (args_append (args_none (noCall (isCall_checks hC))) (args_none (noCall (isCall_derefs hD)))) ?_) ?_)
    · refine args_single rfl ?_
      have := args_round hpre hR hC hD
      simpa [List.append_assoc] using this
    · exact args_none (noCall (isCall_map_false fun q => rfl))

private theorem args_trace {pre es : List (Event α)} {e : Ending Bool} (hpre : pre.filter isCall = []) (h : Trace ls size fuel es e) : ArgsOk ls pre es := by
  have last : ∀ {n : Nat} {t c d : List (Event α)} {vs : List (Val α)} (x : Event α), Rounds ls size n t → Checks ls size n false c → Derefs ls n d vs → op x = .call vs →
      ArgsOk ls (pre ++ t) (c ++ d ++ [x]) := by
    intro n t c d vs x hR hC hD hx
    refine args_append (args_append (args_none (noCall (isCall_checks hC))) (args_none (noCall (isCall_derefs hD)))) (args_single hx ?_)
    have := args_round hpre hR hC hD
    simpa [List.append_assoc] using this
  cases h with
  | finished hR hC => exact args_append (args_rounds hpre hR) (args_none (noCall (isCall_checks hC)))
  | returned hR hC hD => exact args_append (args_rounds hpre hR) (last _ hR hC hD rfl)
  | checkThrew hR hX =>
    refine args_append (args_rounds hpre hR) (args_none ?_)
    obtain ⟨done, p, rest, b, -, rfl⟩ := hX
    intro e he
    rcases List.mem_append.1 he with he | he
    · obtain ⟨q, -, rfl⟩ := List.mem_map.1 he
      rfl
    · obtain rfl := List.mem_singleton.1 he
      rfl
  | checkDiffers hR hX =>
    refine args_append (args_rounds hpre hR) (args_none ?_)
    intro e he
    rcases hX with ⟨order, b, -, -, rfl, -⟩ | ⟨n, done, p, rest, -, -, rfl⟩
    · obtain ⟨q, -, rfl⟩ := List.mem_map.1 he
      rfl
    · rcases List.mem_append.1 he with he | he
      · obtain ⟨q, -, rfl⟩ := List.mem_map.1 he
        rfl
      · obtain rfl := List.mem_singleton.1 he
        rfl
  | derefThrew hR hC hX =>
    refine args_append (args_rounds hpre hR) (args_append (args_none (noCall (isCall_checks hC))) (args_none ?_))
    obtain ⟨done, p, rest, v, -, -, -, rfl⟩ := hX
    intro e he
    rcases List.mem_append.1 he with he | he
    · obtain ⟨q, -, a, rfl, -⟩ := op_obtained he
      rfl
    · obtain rfl := List.mem_singleton.1 he
      rfl
  | callThrew hR hC hD => exact args_append (args_rounds hpre hR) (last _ hR hC hD rfl)
  | incThrew hR hC hD hX =>
    refine args_append (args_rounds hpre hR) (args_append (last _ hR hC hD rfl) (args_none ?_))
    obtain ⟨done, p, rest, -, rfl⟩ := hX
    intro e he
    rcases List.mem_append.1 he with he | he
    · obtain ⟨q, -, rfl⟩ := List.mem_map.1 he
      rfl
    · obtain rfl := List.mem_singleton.1 he
      rfl
  | running hR => exact args_rounds hpre hR

/-- The functor receives what the iterators have just returned. -/
theorem C154_arguments (es a b : List (Event α)) (x : Event α) (vs : List (Val α)) (e : Ending Bool) (h : Algorithm ls fuel es e) (hne : e ≠ .stop .illFormed)
    (hes : es = a ++ x :: b) (hx : op x = .call vs) : Receives ls a vs := by
  suffices hs : ArgsOk ls [] es from hs a x b vs hes hx
  cases h with
  | rejected => exact absurd rfl hne
  | sizeThrew =>
    refine args_none fun e he => ?_
    rcases List.mem_append.1 he with he | he
    · obtain ⟨q, -, rfl⟩ := List.mem_map.1 he
      rfl
    · obtain rfl := List.mem_singleton.1 he
      rfl
  | mismatch => exact args_none (noCall (isCall_map_false fun q => rfl))
  | startThrew h1 _ h2 =>
    refine args_append (args_none (noCall (isCall_map_false fun q => rfl))) (args_none fun e he => ?_)
    obtain ⟨q, y, o, hq, rfl, v, hp⟩ := h2
    have hst : ∀ p < ls.length, ∀ z ∈ (start ls p : List (Event α)), isCall z = false := by
      intro p hp z hz
      have hz' : z ∈ (starts ls : List (Event α)) := List.mem_flatMap.2 ⟨p, List.mem_range.2 hp, hz⟩
      exact noCall isCall_starts z hz'
    rcases List.mem_append.1 he with he | he
    · rcases List.mem_append.1 he with he | he
      · obtain ⟨p, hp, he⟩ := List.mem_flatMap.1 he
        exact hst p (by rw [List.mem_range] at hp; omega) e he
      · exact hst q hq e (hp.subset (List.mem_append_left _ he))
    · obtain rfl := List.mem_singleton.1 he
      have := hst q hq _ (hp.subset (by simp : Event.did o v ∈ y ++ [.did o v]))
      cases o <;> first | rfl | cases this
  | @run order es' e s size h1 _ h2 =>
    have h4 : (order.map fun r => (Event.did (.size r) (s r) : Event α)).filter isCall = [] := isCall_map_false fun q => rfl
    refine args_append (args_none (noCall h4)) (args_append (args_none (noCall isCall_starts)) (args_trace ?_ h2))
    rw [List.filter_append, List.filter_append, h4, isCall_starts]
    rfl

/-! ## Exceptions -/

private def Clean (x : List (Event α)) : Prop := ∀ o, .threw o ∉ x

private theorem clean_append {x y : List (Event α)} (hx : Clean x) (hy : Clean y) : Clean (x ++ y) := by
  intro o h
  exact (List.mem_append.1 h).elim (hx o) (hy o)

private theorem clean_map {order : List Nat} {f : Nat → Op α} {g : (q : Nat) → (f q).Reply} : Clean (order.map fun q => .did (f q) (g q)) := by
  intro o h
  obtain ⟨q, -, h⟩ := List.mem_map.1 h
  cases h

private theorem clean_obtained {order : List Nat} {v : Nat → Val α} : Clean (order.flatMap fun r => obtained r (v r)) := by
  intro o h
  obtain ⟨q, -, a, h, -⟩ := op_obtained h
  cases h

private theorem clean_checks {i : Nat} {b : Bool} {c : List (Event α)} (h : Checks ls size i b c) : Clean c := by
  obtain ⟨order, -, rfl, -⟩ := h
  exact clean_map

private theorem clean_derefs {i : Nat} {d : List (Event α)} {vs : List (Val α)} (h : Derefs ls i d vs) : Clean d := by
  obtain ⟨order, v, -, -, rfl, -⟩ := h
  exact clean_obtained

private theorem clean_single (o : Op α) (v : o.Reply) : Clean [.did o v] := by
  intro o' h
  have h := List.mem_singleton.1 h
  cases h

private theorem clean_rounds {n : Nat} {t : List (Event α)} (h : Rounds ls size n t) : Clean t := by
  induction h with
  | zero => intro o h; exact absurd h List.not_mem_nil
  | next _ hC hD ih => exact clean_append ih (clean_append (clean_append (clean_append (clean_checks hC) (clean_derefs hD)) (clean_single _ _)) clean_map)

private theorem clean_start (q : Nat) : Clean (start ls q : List (Event α)) := by
  intro o h
  unfold start at h
  generalize (ls[q]?).map Leaf.mode = m at h
  rcases m with _ | m
  · exact absurd h List.not_mem_nil
  · cases m
    · rcases List.mem_cons.1 h with h | h
      · cases h
      · have h := List.mem_singleton.1 h
        cases h
    · have h := List.mem_singleton.1 h
      cases h
    · have h := List.mem_singleton.1 h
      cases h
    · exact absurd h List.not_mem_nil

private theorem clean_starts (l : List Nat) : Clean (l.flatMap (start ls) : List (Event α)) := by
  intro o h
  obtain ⟨q, -, h⟩ := List.mem_flatMap.1 h
  exact clean_start q o h

/-- How calls end in an exception. -/
private def Last (es : List (Event α)) (e : Ending Bool) : Prop :=
  (Clean es ∧ e ≠ .stop .exception ∧ e ≠ .stop .terminated) ∨ ∃ a o, es = a ++ [.threw o] ∧ Clean a ∧ e = .stop .exception ∧ ∀ r, o ≠ .size r

private theorem last_append {x y : List (Event α)} {e : Ending Bool} (hx : Clean x) (hy : Last y e) : Last (x ++ y) e := by
  rcases hy with ⟨h, h1⟩ | ⟨a, o, rfl, h, h1⟩
  · exact .inl ⟨clean_append hx h, h1⟩
  · exact .inr ⟨x ++ a, o, by simp, clean_append hx h, h1⟩

private theorem last_throw {x : List (Event α)} {o : Op α} (hx : Clean x) (ho : ∀ r, o ≠ .size r) : Last (x ++ [.threw o]) (.stop .exception) := .inr ⟨x, o, rfl, hx, rfl, ho⟩

private theorem last_trace {es : List (Event α)} {e : Ending Bool} (h : Trace ls size fuel es e) : Last es e := by
  cases h with
  | finished hR hC => exact .inl ⟨clean_append (clean_rounds hR) (clean_checks hC), by simp, by simp⟩
  | returned hR hC hD =>
    exact .inl ⟨clean_append (clean_rounds hR) (clean_append (clean_append (clean_checks hC) (clean_derefs hD)) (clean_single _ _)), by simp, by simp⟩
  | checkThrew hR hX =>
    obtain ⟨done, p, rest, b, -, rfl⟩ := hX
    exact last_append (clean_rounds hR) (last_throw clean_map (by simp))
  | checkDiffers hR hX =>
    refine .inl ⟨clean_append (clean_rounds hR) ?_, by simp, by simp⟩
    rcases hX with ⟨order, b, -, -, rfl, -⟩ | ⟨n, done, p, rest, -, -, rfl⟩
    · exact clean_map
    · exact clean_append clean_map (clean_single _ _)
  | derefThrew hR hC hX =>
    obtain ⟨done, p, rest, v, -, -, -, rfl⟩ := hX
    exact last_append (clean_rounds hR) (last_append (clean_checks hC) (last_throw clean_obtained (by simp)))
  | callThrew hR hC hD => exact last_append (clean_rounds hR) (last_throw (clean_append (clean_checks hC) (clean_derefs hD)) (by simp))
  | incThrew hR hC hD hX =>
    obtain ⟨done, p, rest, -, rfl⟩ := hX
    exact last_append (clean_rounds hR) (last_append (clean_append (clean_append (clean_checks hC) (clean_derefs hD)) (clean_single _ _)) (last_throw clean_map (by simp)))
  | running hR => exact .inl ⟨clean_rounds hR, by simp, by simp⟩

private theorem last_split {x a b : List (Event α)} {o o' : Op α} (hx : Clean x) (h : x ++ [.threw o'] = a ++ .threw o :: b) : b = [] ∧ o = o' := by
  rcases List.append_eq_append_iff.1 h with ⟨c, rfl, h1⟩ | ⟨c, rfl, h1⟩
  · rcases c with _ | ⟨y, c⟩
    · simp only [List.nil_append, List.cons.injEq, Event.threw.injEq] at h1
      exact ⟨h1.2.symm, h1.1.symm⟩
    · simp at h1
  · rcases c with _ | ⟨y, c⟩
    · simp only [List.nil_append, List.cons.injEq, Event.threw.injEq] at h1
      exact ⟨h1.2, h1.1⟩
    · rw [List.cons_append, List.cons.injEq] at h1
      obtain ⟨rfl, -⟩ := h1
      exact absurd (by simp) (hx o)

/-- After an exception of the user's nothing else is called; it leaves the algorithm, except that an exception thrown by `size()` ends the program.  No other exceptions are thrown. -/
theorem C154_exceptions (es : List (Event α)) (e : Ending Bool) (h : Algorithm ls fuel es e) (hne : e ≠ .stop .illFormed) :
    (∀ a o b, es = a ++ .threw o :: b → b = [] ∧ ((∃ r, o = .size r) ∧ e = .stop .terminated ∨ (∀ r, o ≠ .size r) ∧ e = .stop .exception)) ∧
      (e = .stop .exception ∨ e = .stop .terminated → ∃ a o, es = a ++ [.threw o]) := by
  have key : ∀ {es : List (Event α)} {e : Ending Bool}, Last es e →
      (∀ a o b, es = a ++ .threw o :: b → b = [] ∧ ((∃ r, o = .size r) ∧ e = .stop .terminated ∨ (∀ r, o ≠ .size r) ∧ e = .stop .exception)) ∧
      (e = .stop .exception ∨ e = .stop .terminated → ∃ a o, es = a ++ [.threw o]) := by
    rintro es e (⟨hc, h1, h2⟩ | ⟨a, o, rfl, hc, rfl, ho⟩)
    · exact ⟨fun a o b h => absurd (by rw [h]; simp) (hc o), fun h => (h.elim h1 h2).elim⟩
    · refine ⟨fun a' o' b h => ?_, fun _ => ⟨a, o, rfl⟩⟩
      obtain ⟨rfl, rfl⟩ := last_split hc h
      exact ⟨rfl, .inr ⟨ho, rfl⟩⟩
  cases h with
  | rejected => exact absurd rfl hne
  | @sizeThrew done p rest s h1 =>
    refine ⟨fun a o b h => ?_, fun _ => ⟨_, _, rfl⟩⟩
    obtain ⟨rfl, rfl⟩ := last_split clean_map h
    exact ⟨rfl, .inl ⟨⟨p, rfl⟩, rfl⟩⟩
  | mismatch => exact key (.inl ⟨clean_map, by simp, by simp⟩)
  | startThrew h1 _ h2 =>
    obtain ⟨q, y, o, hq, rfl, v, hp⟩ := h2
    refine key (last_append clean_map (last_throw (clean_append (clean_starts _) ?_) ?_))
    · intro o' h
      exact clean_start q o' (hp.subset (List.mem_append_left _ h))
    · rintro r rfl
      have hm : (Event.did (.size r) v : Event α) ∈ starts ls := List.mem_flatMap.2 ⟨q, List.mem_range.2 hq, hp.subset (by simp)⟩
      obtain ⟨p, h | h | h⟩ := op_starts hm <;> cases h
  | run h1 _ h2 => exact key (last_append clean_map (last_append (clean_starts _) (last_trace h2)))

/-! ## `range_zip` -/

/-- The calls which a loop over `range_zip()` makes. -/
theorem C154_zip_calls (u : User α) (hu : Lengths u) (ls : List Leaf) (ord : Orders) (hs : ord.sizes.Perm (List.range ls.length)) (fuel : Nat) :
    Zip ls fuel (zipIterate u ls ord fuel []).1 (zipIterate u ls ord fuel []).2 := by
  obtain ⟨es, h1, h2, h3⟩ := good_zip u ls hu ord hs fuel []
  rw [List.nil_append] at h1
  rw [h1]
  rcases h : (zipIterate u ls ord fuel []).2 with b | s
  · exact h2 b h
  · exact h3 s h

private theorem op_stop {q : Nat} {x : Event α} (h : x ∈ stopOf ls q) : x = .did (.begin_ q) () ∨ x = .did (.end_ q) () ∨ x = .did (.data q) () := by
  unfold stopOf at h
  generalize (ls[q]?).map Leaf.mode = o at h
  rcases o with _ | m
  · exact absurd h List.not_mem_nil
  · cases m
    · exact .inr (.inl (List.mem_singleton.1 h))
    · exact .inl (List.mem_singleton.1 h)
    · exact .inr (.inr (List.mem_singleton.1 h))
    · exact absurd h List.not_mem_nil

private theorem paired_unpaired : paired (unpaired ls) = [] := by
  rw [List.eq_nil_iff_forall_not_mem]
  intro r h
  obtain ⟨l, h1, h2⟩ := mem_positions.1 h
  unfold unpaired at h1
  rw [List.getElem?_map, Option.map_eq_some_iff] at h1
  obtain ⟨l', -, rfl⟩ := h1
  split at h2 <;> simp_all

private theorem unpaired_at (hl : ls[r]? = some l) : (unpaired ls)[r]? = some (if l.mode = .iteratorPair then { l with mode := .iterator } else l) := by
  unfold unpaired
  rw [List.getElem?_map, hl]
  rfl

/-- Only ranges without a size are compared. -/
private def OnlyPaired (ls : List Leaf) (es : List (Event α)) : Prop := ∀ x ∈ es, ∀ q, op x = .eq q → q ∈ paired ls

private theorem only_append {x y : List (Event α)} (hx : OnlyPaired ls x) (hy : OnlyPaired ls y) : OnlyPaired ls (x ++ y) := by
  intro e he
  exact (List.mem_append.1 he).elim (hx e) (hy e)

private theorem only_single {x : Event α} (hx : ∀ q, op x = .eq q → q ∈ paired ls) : OnlyPaired ls [x] := by
  intro e he
  obtain rfl := List.mem_singleton.1 he
  exact hx

private theorem only_map {order : List Nat} {f : Nat → Event α} (hf : ∀ q ∈ order, ∀ p, op (f q) = .eq p → p ∈ paired ls) : OnlyPaired ls (order.map f) := by
  intro e he
  obtain ⟨q, hq, rfl⟩ := List.mem_map.1 he
  exact hf q hq

private theorem only_obtained {order : List Nat} {v : Nat → Val α} : OnlyPaired ls (order.flatMap fun r => obtained r (v r)) := by
  intro e he q hq
  obtain ⟨p, -, a, rfl, -⟩ := op_obtained he
  cases hq

private theorem only_checks {i : Nat} {b : Bool} {c : List (Event α)} (h : Checks ls size i b c) : OnlyPaired ls c := by
  obtain ⟨order, h1, rfl, -⟩ := h
  refine only_map fun q hq p hp => ?_
  obtain rfl := Op.eq.inj hp
  exact h1.mem_iff.1 hq

private theorem only_derefs {i : Nat} {d : List (Event α)} {vs : List (Val α)} (h : Derefs ls i d vs) : OnlyPaired ls d := by
  obtain ⟨order, v, -, -, rfl, -⟩ := h
  exact only_obtained

private theorem only_rounds {n : Nat} {t : List (Event α)} (h : Rounds ls size n t) : OnlyPaired ls t := by
  induction h with
  | zero => intro x hx; exact absurd hx List.not_mem_nil
  | next _ hC hD ih =>
    exact only_append ih (only_append (only_append (only_append (only_checks hC) (only_derefs hD)) (only_single fun q h => by cases h)) (only_map fun q _ p h => by cases h))

private theorem only_trace {es : List (Event α)} {e : Ending Bool} (h : Trace ls size fuel es e) : OnlyPaired ls es := by
  cases h with
  | finished hR hC => exact only_append (only_rounds hR) (only_checks hC)
  | returned hR hC hD =>
    exact only_append (only_rounds hR) (only_append (only_append (only_checks hC) (only_derefs hD)) (only_single fun q h => by cases h))
  | checkThrew hR hX =>
    obtain ⟨done, p, rest, b, h1, rfl⟩ := hX
    refine only_append (only_rounds hR) (only_append (only_map fun q hq p hp => ?_) (only_single fun q hq => ?_))
    · obtain rfl := Op.eq.inj hp
      exact h1.mem_iff.1 (by simp [hq])
    · obtain rfl := Op.eq.inj hq
      exact h1.mem_iff.1 (by simp)
  | checkDiffers hR hX =>
    refine only_append (only_rounds hR) ?_
    rcases hX with ⟨order, b, -, h1, rfl, -⟩ | ⟨n, done, p, rest, -, h1, rfl⟩
    · refine only_map fun q hq p hp => ?_
      obtain rfl := Op.eq.inj hp
      exact h1.mem_iff.1 hq
    · refine only_append (only_map fun q hq p hp => ?_) (only_single fun q hq => ?_)
      · obtain rfl := Op.eq.inj hp
        rw [← h1]
        simp [hq]
      · obtain rfl := Op.eq.inj hq
        rw [← h1]
        simp
  | derefThrew hR hC hX =>
    obtain ⟨done, p, rest, v, -, -, -, rfl⟩ := hX
    exact only_append (only_rounds hR) (only_append (only_checks hC) (only_append only_obtained (only_single fun q h => by cases h)))
  | callThrew hR hC hD =>
    exact only_append (only_rounds hR) (only_append (only_append (only_checks hC) (only_derefs hD)) (only_single fun q h => by cases h))
  | incThrew hR hC hD hX =>
    obtain ⟨done, p, rest, -, rfl⟩ := hX
    exact only_append (only_rounds hR) (only_append (only_append (only_append (only_checks hC) (only_derefs hD)) (only_single fun q h => by cases h))
      (only_append (only_map fun q _ p h => by cases h) (only_single fun q h => by cases h)))
  | running hR => exact only_rounds hR

/-- A loop over `range_zip()` never compares the iterators of the ranges, in contrast to the other algorithms: ranges without a size are walked as far as the sizes of the others say. -/
theorem C154_zip_no_comparisons (es : List (Event α)) (e : Ending Bool) (h : Zip ls fuel es e) (hne : e ≠ .stop .illFormed) : ∀ x ∈ es, ¬ IsComparison x := by
  have hst : ∀ {x : Event α}, x ∈ starts ls → ¬ IsComparison x := by
    rintro x hx ⟨q, hq⟩
    obtain ⟨p, h | h | h⟩ := op_starts hx <;> rw [hq] at h <;> cases h
  have hsz : ∀ {order : List Nat} {s : Nat → Int} {x : Event α}, x ∈ (order.map fun q => (.did (.size q) (s q) : Event α)) → ¬ IsComparison x := by
    rintro order s x hx ⟨q, hq⟩
    obtain ⟨p, -, rfl⟩ := List.mem_map.1 hx
    cases hq
  have hsp : ∀ {q : Nat} {x : Event α}, x ∈ stopOf ls q → ¬ IsComparison x := by
    rintro q x hx ⟨p, hp⟩
    rcases op_stop hx with rfl | rfl | rfl <;> cases hp
  intro x hx
  cases h with
  | rejected => exact absurd rfl hne
  | sizeThrew =>
    rcases List.mem_append.1 hx with hx | hx
    · exact hsz hx
    · obtain rfl := List.mem_singleton.1 hx
      rintro ⟨q, hq⟩
      cases hq
  | mismatch => exact hsz hx
  | startThrew h1 _ h2 =>
    rcases List.mem_append.1 hx with hx | hx
    · exact hsz hx
    · obtain ⟨q, y, o, hq, rfl, v, hp⟩ := h2
      have hin : ∀ p < ls.length, ∀ z ∈ (start ls p : List (Event α)), ¬ IsComparison z := fun p hp z hz => hst (List.mem_flatMap.2 ⟨p, List.mem_range.2 hp, hz⟩)
      rcases List.mem_append.1 hx with hx | hx
      · rcases List.mem_append.1 hx with hx | hx
        · obtain ⟨p, hp, hx⟩ := List.mem_flatMap.1 hx
          exact hin p (by rw [List.mem_range] at hp; omega) x hx
        · exact hin q hq x (hp.subset (List.mem_append_left _ hx))
      · obtain rfl := List.mem_singleton.1 hx
        exact hin q hq (.did o v) (hp.subset (by simp))
  | stopThrew h1 _ h2 =>
    rcases List.mem_append.1 hx with hx | hx
    · exact hsz hx
    rcases List.mem_append.1 hx with hx | hx
    · exact hst hx
    obtain ⟨q, o, v, hq, rfl, hp⟩ := h2
    rcases List.mem_append.1 hx with hx | hx
    · obtain ⟨p, -, hx⟩ := List.mem_flatMap.1 hx
      exact hsp hx
    · obtain rfl := List.mem_singleton.1 hx
      exact hsp (q := q) (x := .did o v) (by rw [hp]; simp)
  | run h1 _ h2 =>
    rcases List.mem_append.1 hx with hx | hx
    · exact hsz hx
    rcases List.mem_append.1 hx with hx | hx
    · exact hst hx
    rcases List.mem_append.1 hx with hx | hx
    · obtain ⟨p, -, hx⟩ := List.mem_flatMap.1 hx
      exact hsp hx
    · rintro ⟨q, hq⟩
      have := only_trace h2 x hx q hq
      rw [paired_unpaired] at this
      exact absurd this List.not_mem_nil

private theorem onRange_stops (hl : ls[r]? = some l) : onRange r ((List.range ls.length).flatMap (stopOf ls) : List (Event α)) = closing l := by
  rw [onRange_flatMap r _ _ List.nodup_range]
  · rw [if_pos (List.mem_range.2 (List.getElem?_eq_some_iff.1 hl).1)]
    unfold stopOf closing
    rw [hl]
    simp only [Option.map_some]
    cases l.mode <;> simp [onRange, kindOn, op]
  · intro q _ hq
    unfold stopOf
    rcases (ls[q]?).map Leaf.mode with _ | m
    · rfl
    · cases m <;> simp [onRange, kindOn, op, hq]

/-- If a loop over `range_zip()` runs to its end, every range has been walked exactly as far as every known size says: one `*it` and one `++it` for every call of the body. -/
theorem C154_zip_finished (es : List (Event α)) (h : Zip ls fuel es (.ok true)) :
    ∃ n : Nat, (es.filter isCall).length = n ∧
      (∀ (r : Nat) (l : Leaf), ls[r]? = some l → onRange r es = opening l ++ closing l ++ (List.replicate n ((roundOf l).filter fun k => k ≠ .eq)).flatten) ∧
      (∀ (r : Nat) (l : Leaf) (m : Nat), ls[r]? = some l → l.fixed = some m → m = n) ∧ ∀ (r : Nat) (m : Int), .did (.size r) m ∈ es → m = n := by
  generalize he : (Ending.ok true : Ending Bool) = e at h
  cases h with
  | rejected => cases he
  | sizeThrew => cases he
  | mismatch => cases he
  | startThrew => cases he
  | stopThrew => cases he
  | @run order es' e s m h1 h2 h3 =>
    subst he
    generalize he : (Ending.ok true : Ending Bool) = e at h3
    cases h3 with
    | @finished n t c hR hC =>
      have hkn : ∀ r k, knownSize ls s r = some k → k = n := by
        intro r k hk
        obtain ⟨_, -, -, hb⟩ := hC
        have h8 := (hb m rfl).2
        have h9 := of_decide_eq_true h8.symm
        have := h2.2 r k hk
        omega
      refine ⟨n, ?_, ?_, ?_, ?_⟩
      · have h4 : (order.map fun r => (Event.did (.size r) (s r) : Event α)).filter isCall = [] := isCall_map_false fun q => rfl
        have h5 : ((List.range ls.length).flatMap (stopOf ls) : List (Event α)).filter isCall = [] := by
          rw [List.filter_eq_nil_iff]
          intro x hx
          obtain ⟨q, -, hx⟩ := List.mem_flatMap.1 hx
          rcases op_stop hx with rfl | rfl | rfl <;> simp [isCall_iff, op]
        rw [List.filter_append, List.filter_append, List.filter_append, List.filter_append, h4, h5, isCall_starts, isCall_checks hC]
        simpa using isCall_rounds hR
      · intro r l hl
        have hl' := unpaired_at hl
        rw [onRange_append, onRange_append, onRange_append, onRange_append, onRange_sizes hl h1 s, onRange_starts hl, onRange_stops hl, onRange_rounds hl' hR,
          onRange_checks hl' hC, opening_parts (α := α) hl]
        have h6 : roundOf (if l.mode = .iteratorPair then { l with mode := .iterator } else l) = (roundOf l).filter fun k => k ≠ .eq := by
          obtain ⟨md, f⟩ := l
          cases md <;> simp [roundOf]
        have h7 : eqPart (if l.mode = .iteratorPair then { l with mode := .iterator } else l) = [] := by
          obtain ⟨md, f⟩ := l
          cases md <;> simp [eqPart]
        rw [h6, h7]
        simp only [List.append_assoc, List.append_nil]
      · intro r l k hl hk
        have := hkn r k (known_fixed hl hk)
        omega
      · intro r k hmem
        rcases List.mem_append.1 hmem with h | h
        · obtain ⟨q, hq, h5⟩ := List.mem_map.1 h
          injection h5 with h6 h7
          obtain rfl := Op.size.inj h6
          obtain rfl := h7
          exact hkn q _ (known_asked (h1.mem_iff.1 hq))
        · exfalso
          rcases List.mem_append.1 h with h | h
          · obtain ⟨q, h1 | h1 | h1⟩ := op_starts h <;> cases h1
          rcases List.mem_append.1 h with h | h
          · obtain ⟨q, -, hx⟩ := List.mem_flatMap.1 h
            rcases op_stop hx with h | h | h <;> (injection h with h1; cases h1)
          rcases List.mem_append.1 h with h | h
          · obtain ⟨q, h | ⟨a, h⟩ | ⟨vs, h⟩ | h⟩ := op_rounds hR h <;> (injection h with h1; cases h1)
          · obtain ⟨q, h⟩ := op_checks hC h
            injection h with h1; cases h1
    | _ => cases he

/-- The body of the loop receives what the iterators have just returned. -/
theorem C154_zip_arguments (es a b : List (Event α)) (x : Event α) (vs : List (Val α)) (e : Ending Bool) (h : Zip ls fuel es e) (hne : e ≠ .stop .illFormed)
    (hes : es = a ++ x :: b) (hx : op x = .call vs) : Receives ls a vs := by
  have hsz : ∀ {order : List Nat} {s : Nat → Int}, (order.map fun r => (Event.did (.size r) (s r) : Event α)).filter isCall = [] := isCall_map_false fun q => rfl
  have hsp : ∀ l : List Nat, (l.flatMap (stopOf ls) : List (Event α)).filter isCall = [] := by
    intro l
    rw [List.filter_eq_nil_iff]
    intro x hx
    obtain ⟨q, -, hx⟩ := List.mem_flatMap.1 hx
    rcases op_stop hx with rfl | rfl | rfl <;> simp [isCall_iff, op]
  cases h with
  | rejected => exact absurd rfl hne
  | sizeThrew h1 =>
    exact C154_arguments (fuel := fuel) _ a b x vs _ (.sizeThrew h1) (by simp) hes hx
  | mismatch h1 h2 h3 h4 => exact C154_arguments (fuel := fuel) _ a b x vs _ (.mismatch h1 h2 h3 h4) (by simp) hes hx
  | startThrew h1 h2 h3 => exact C154_arguments (fuel := fuel) _ a b x vs _ (.startThrew h1 h2 h3) (by simp) hes hx
  | stopThrew h1 _ h2 =>
    obtain ⟨q, o, v, hq, rfl, hp⟩ := h2
    refine args_append (pre := []) (args_none (noCall hsz)) (args_append (args_none (noCall isCall_starts)) (args_append (args_none (noCall (hsp _))) (args_none ?_))) a x b vs hes hx
    intro y hy
    obtain rfl := List.mem_singleton.1 hy
    have hm : (Event.did o v : Event α) ∈ stopOf ls q := by rw [hp]; simp
    rcases op_stop hm with h | h | h <;> (injection h with h1; subst h1; rfl)
  | @run order es' e s size h1 _ h2 =>
    have hall : ArgsOk (unpaired ls) [] (order.map (fun r => (Event.did (.size r) (s r) : Event α)) ++ (starts ls ++ ((List.range ls.length).flatMap (stopOf ls) ++ es'))) := by
      refine args_append (args_none (noCall hsz)) (args_append (args_none (noCall isCall_starts)) (args_append (args_none (noCall (hsp _))) (args_trace ?_ h2)))
      rw [List.filter_append, List.filter_append, List.filter_append, hsz, isCall_starts, hsp]
      rfl
    have := hall a x b vs hes hx
    rw [List.nil_append] at this
    obtain ⟨g1, g2⟩ := this
    refine ⟨by rw [g1]; simp [unpaired], fun r l hl => ?_⟩
    have := g2 r _ (unpaired_at hl)
    obtain ⟨md, f⟩ := l
    cases md <;> simpa using this

/-! ## Loops over one range -/

/-- `range_generate()` (`calls`), `range_iota()` and `range_fill()`: for every element, one comparison, one call of the generator before the element is accessed, one access, one assignment, one
increment. -/
theorem C154_fill_calls [Inhabited α] (u : User α) (calls : Bool) (fuel : Nat) : Walk (FillRound calls) fuel (fill u calls fuel []).1 (fill u calls fuel []).2 := by
  obtain ⟨es, h1, h2, h3⟩ := good_fill u calls fuel []
  rw [List.nil_append] at h1
  rw [h1]
  rcases h : (fill u calls fuel []).2 with b | s
  · exact h2 b h
  · exact h3 s h

/-- `range_reduce()`: for every element, one comparison, one access, one call of the reducer with the element just obtained, one increment. -/
theorem C154_reduce_calls [Inhabited α] (u : User α) (fuel : Nat) : Walk ReduceRound fuel (reduce u fuel []).1 (reduce u fuel []).2 := by
  obtain ⟨es, h1, h2, h3⟩ := good_reduce u fuel []
  rw [List.nil_append] at h1
  rw [h1]
  rcases h : (reduce u fuel []).2 with b | s
  · exact h2 b h
  · exact h3 s h

end

/-! ## Examples -/

/-- A user whose range 0 (no size) yields 10, 20, range 1 (`size()`) yields 1, 2; `limit`: the number of calls of functions of the user's after which one throws; `stopAt`: the call of the functor
which ends the loop. -/
private def someUser (limit stopAt : Nat) : User Nat := fun h o =>
  if h.length = limit then none
  else
    let steps (r : Nat) : Nat := (h.filter fun e => decide (op e = .inc r)).length
    match o with
    | .size _ => some (2 : Int)
    | .eq r => some (decide (steps r = 2))
    | .deref r => some (if r = 0 then 10 * (steps 0 + 1) else steps 1 + 1)
    | .call _ => some (decide ((h.filter isCall).length + 1 ≠ stopAt))
    | .begin_ _ => some ()
    | .end_ _ => some ()
    | .data _ => some ()
    | .inc _ => some ()
    | .assign _ => some ()

private def someLeaves : List Leaf := [⟨.iteratorPair, none⟩, ⟨.iterator, none⟩, ⟨.rangeIndex, none⟩]

private def someOrders : Orders := ⟨[2, 1, 0], fun _ => [1, 0, 2], fun i => if i % 2 = 0 then [0, 1, 2] else [2, 1, 0]⟩

example : Lengths (someUser 100 100) := by
  intro h r n hn
  simp only [someUser] at hn
  split at hn
  · cases hn
  · cases hn; decide

example : someOrders.sizes.Perm (List.range someLeaves.length) := by decide

example : (algorithm (someUser 100 100) someLeaves someOrders 10 []).2 = .ok true ∧
    (algorithm (someUser 100 100) someLeaves someOrders 10 []).1.map op =
      [.size 1, .begin_ 0, .end_ 0, .begin_ 1, .eq 0, .deref 0, .deref 1, .call [.elem 10, .elem 1, .index 0], .inc 0, .inc 1,
        .eq 0, .deref 1, .deref 0, .call [.elem 20, .elem 2, .index 1], .inc 0, .inc 1, .eq 0] := by decide +kernel

-- the first call of the functor ends the loop
example : (algorithm (someUser 100 1) someLeaves someOrders 10 []).2 = .ok false ∧
    (algorithm (someUser 100 1) someLeaves someOrders 10 []).1.map op =
      [.size 1, .begin_ 0, .end_ 0, .begin_ 1, .eq 0, .deref 0, .deref 1, .call [.elem 10, .elem 1, .index 0]] := by decide +kernel

-- exceptions
example : (algorithm (someUser 8 100) someLeaves someOrders 10 []).2 = .stop .exception ∧ (algorithm (someUser 0 100) someLeaves someOrders 10 []).2 = .stop .terminated ∧
    (algorithm (someUser 8 100) someLeaves someOrders 10 []).1.map op =
      [.size 1, .begin_ 0, .end_ 0, .begin_ 1, .eq 0, .deref 0, .deref 1, .call [.elem 10, .elem 1, .index 0], .inc 0] := by decide +kernel

-- iteration over range_zip(...)
example : (zipIterate (someUser 100 100) someLeaves someOrders 10 []).2 = .ok true ∧
    (zipIterate (someUser 100 100) someLeaves someOrders 10 []).1.map op =
      [.size 1, .begin_ 0, .end_ 0, .begin_ 1, .end_ 0, .begin_ 1, .deref 0, .deref 1, .call [.elem 10, .elem 1, .index 0], .inc 0, .inc 1,
        .deref 0, .deref 1, .call [.elem 20, .elem 2, .index 1], .inc 0, .inc 1] := by decide +kernel

-- loops over one range
example : (fill (someUser 100 100) true 10 []).2 = .ok () ∧
    (fill (someUser 100 100) true 10 []).1.map op =
      [.begin_ 0, .end_ 0, .eq 0, .call [], .deref 0, .assign 0, .inc 0, .eq 0, .call [], .deref 0, .assign 0, .inc 0, .eq 0] ∧
    (reduce (someUser 100 100) 10 []).1.map op =
      [.begin_ 0, .end_ 0, .eq 0, .deref 0, .call [.elem 10], .inc 0, .eq 0, .deref 0, .call [.elem 20], .inc 0, .eq 0] := by decide +kernel

end Makeshift.Props
