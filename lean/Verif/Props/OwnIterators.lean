import Verif.Lemmas.OwnIterators
import Verif.Props.UserOps
import Verif.Props.UserOpsAnswers

/-!
# C159: iterators of the user's which walk sequences
-/

namespace Makeshift.Props

open Makeshift.UserOps Makeshift.Spec.UserOps Makeshift.Spec.OwnIterators Makeshift.OwnIterators

variable {α : Type}

section

variable {u : User α} {L : Nat → List α} {ls : List Leaf}

private theorem lengths_of (hu : Sequences u L) : Lengths u := by
  intro h r n hn
  rw [hu.size h r] at hn
  have : ((L r).length : Int) = n := Option.some.inj hn
  omega

/-- What `size()` returned. -/
private theorem sizes_of (hu : Sequences u L) {order : List Nat} {s : Nat → Int} {x : List (Event α)} (ha : Answered u (order.map (fun r => .did (.size r) (s r)) ++ x)) :
    ∀ r ∈ order, s r = (L r).length := by
  intro r hr
  obtain ⟨a, b, rfl⟩ := List.append_of_mem hr
  have h1 := answered_did (h := []) ha (a := a.map fun r => .did (.size r) (s r)) (b := b.map (fun r => .did (.size r) (s r)) ++ x) (o := .size r) (r := s r) (by simp)
  rw [hu.size] at h1
  exact (Option.some.inj h1).symm

private theorem known_length (ht : Truthful L ls) {s : Nat → Int} (hs : ∀ r ∈ asked ls, s r = (L r).length) {r : Nat} {n : Int} (hk : knownSize ls s r = some n) :
    ∃ m, lengthOf L ls r = some m ∧ n = (m : Int) := by
  rcases hl : ls[r]? with _ | ⟨m, f⟩
  · simp [knownSize, hl] at hk
  · rcases f with _ | k
    · cases m
      · simp [knownSize, hl] at hk
      · have h1 := hs r (mem_positions.2 ⟨_, hl, by simp⟩)
        simp only [knownSize, hl, Option.some.injEq] at hk
        exact ⟨(L r).length, by simp only [lengthOf, hl], by rw [← hk, h1]⟩
      · have h1 := hs r (mem_positions.2 ⟨_, hl, by simp⟩)
        simp only [knownSize, hl, Option.some.injEq] at hk
        exact ⟨(L r).length, by simp only [lengthOf, hl], by rw [← hk, h1]⟩
      · simp [knownSize, hl] at hk
    · simp only [knownSize, hl, Option.some.injEq] at hk
      exact ⟨k, ht r _ k hl rfl, hk.symm⟩

private theorem length_known (ht : Truthful L ls) {s : Nat → Int} (hs : ∀ r ∈ asked ls, s r = (L r).length) {r m : Nat} (hm : lengthOf L ls r = some m) :
    knownSize ls s r = some (m : Int) ∨ (r ∈ paired ls ∧ knownSize ls s r = none) := by
  rcases hl : ls[r]? with _ | ⟨md, f⟩
  · simp [lengthOf, hl] at hm
  · rcases f with _ | k
    · cases md
      · exact .inr ⟨mem_positions.2 ⟨_, hl, by simp⟩, by simp [knownSize, hl]⟩
      · have h1 := hs r (mem_positions.2 ⟨_, hl, by simp⟩)
        simp only [lengthOf, hl, Option.some.injEq] at hm
        exact .inl (by simp only [knownSize, hl]; rw [h1, hm])
      · have h1 := hs r (mem_positions.2 ⟨_, hl, by simp⟩)
        simp only [lengthOf, hl, Option.some.injEq] at hm
        exact .inl (by simp only [knownSize, hl]; rw [h1, hm])
      · simp [lengthOf, hl] at hm
    · have := ht r _ k hl rfl
      rw [hm] at this
      cases this
      exact .inl (by simp only [knownSize, hl])

private theorem covered_of (ht : Truthful L ls) {s : Nat → Int} (hs : ∀ r ∈ asked ls, s r = (L r).length) {size : Option Int} (hg : Agreed ls s size) : Covered L ls size := by
  constructor
  · intro r m hm
    rcases length_known ht hs hm with h | ⟨h, -⟩
    · rcases size with _ | n
      · have := hg r
        rw [h] at this
        cases this
      · exact .inl (by rw [hg.2 r _ h])
    · exact .inr h
  · rintro n rfl
    obtain ⟨r, hr⟩ := hg.1
    obtain ⟨m, h1, h2⟩ := known_length ht hs hr
    exact ⟨r, m, h1, h2⟩

private theorem start_ops {r : Nat} {e : Event α} (he : e ∈ start ls r) : ∃ q, e = .did (.begin_ q) () ∨ e = .did (.end_ q) () ∨ e = .did (.data q) () := by
  unfold start at he
  split at he <;> simp at he
  · rcases he with rfl | rfl
    · exact ⟨r, .inl rfl⟩
    · exact ⟨r, .inr (.inl rfl)⟩
  · exact ⟨r, .inl he⟩
  · exact ⟨r, .inr (.inr he)⟩

private theorem still_opening {order : List Nat} {s : Nat → Int} : Still (order.map (fun r => (.did (.size r) (s r) : Event α)) ++ starts ls) := by
  intro e he r
  rcases List.mem_append.1 he with he | he
  · obtain ⟨q, -, rfl⟩ := List.mem_map.1 he
    rfl
  · obtain ⟨q, -, hq⟩ := List.mem_flatMap.1 he
    obtain ⟨p, rfl | rfl | rfl⟩ := start_ops hq <;> rfl

private theorem calls_sizes {order : List Nat} {s : Nat → Int} : functorCalls (order.map fun r => (.did (.size r) (s r) : Event α)) = [] := by
  refine functorCalls_nil fun e he => ?_
  obtain ⟨q, -, rfl⟩ := List.mem_map.1 he
  rfl

private theorem calls_starts : functorCalls (starts ls : List (Event α)) = [] := by
  refine functorCalls_nil fun e he => ?_
  obtain ⟨q, -, hq⟩ := List.mem_flatMap.1 he
  obtain ⟨p, rfl | rfl | rfl⟩ := start_ops hq <;> rfl

private theorem no_startThrows (hu : Sequences u L) {h x : List (Event α)} (hx : StartThrows ls x) : ¬ Answered u (h ++ x) := by
  intro ha
  obtain ⟨r, y, o, -, rfl, v, hp⟩ := hx
  have h1 := answered_threw ha (a := (List.range r).flatMap (start ls) ++ y) (b := []) (o := o) rfl
  have hm : .did o v ∈ start (α := α) ls r := hp.subset (by simp)
  obtain ⟨p, h2 | h2 | h2⟩ := start_ops hm <;> injection h2 with h2 h3 <;> subst h2
  · rw [hu.begin_] at h1; cases h1
  · rw [hu.end_] at h1; cases h1
  · rw [hu.data] at h1; cases h1

/-- The sizes known in advance are different, or the loop has been run. -/
private inductive Ran (L : Nat → List α) (ls : List Leaf) (fuel : Nat) (es : List (Event α)) (e : Ending Bool) : Prop where
  | mismatch {p q n m} : HasSize ls p → HasSize ls q → lengthOf L ls p = some n → lengthOf L ls q = some m → n ≠ m → functorCalls es = [] → e = .stop .failFast → Ran L ls fuel es e
  | run {pre x} : es = pre ++ x → functorCalls es = functorCalls x → (∀ p q n m, HasSize ls p → HasSize ls q → lengthOf L ls p = some n → lengthOf L ls q = some m → n = m) → LoopEnd L ls fuel x e → Ran L ls fuel es e

private theorem hasSize_of_known {s : Nat → Int} {r : Nat} {n : Int} (hk : knownSize ls s r = some n) : HasSize ls r := by
  rcases hl : ls[r]? with _ | ⟨m, f⟩
  · simp [knownSize, hl] at hk
  · refine ⟨_, hl, ?_⟩
    rcases f with _ | k
    · cases m
      · simp [knownSize, hl] at hk
      · exact .inr (.inl rfl)
      · exact .inr (.inr rfl)
      · simp [knownSize, hl] at hk
    · exact .inl (by simp)

private theorem known_of_hasSize {s : Nat → Int} {r : Nat} (hk : HasSize ls r) : knownSize ls s r ≠ none := by
  obtain ⟨⟨m, f⟩, hl, h⟩ := hk
  rcases f with _ | k
  · rcases h with h | h | h
    · exact absurd rfl h
    · simp only at h; subst h; simp [knownSize, hl]
    · simp only at h; subst h; simp [knownSize, hl]
  · simp [knownSize, hl]

private theorem agreed_sizes (ht : Truthful L ls) {s : Nat → Int} (hs : ∀ r ∈ asked ls, s r = (L r).length) {size : Option Int} (hg : Agreed ls s size) (p q n m : Nat)
    (hp : HasSize ls p) (hq : HasSize ls q) (h1 : lengthOf L ls p = some n) (h2 : lengthOf L ls q = some m) : n = m := by
  have k1 := (length_known ht hs h1).resolve_right fun h => known_of_hasSize hp h.2
  have k2 := (length_known ht hs h2).resolve_right fun h => known_of_hasSize hq h.2
  rcases size with _ | N
  · have := hg p
    rw [k1] at this
    cases this
  · have e1 := hg.2 p _ k1
    have e2 := hg.2 q _ k2
    omega

private theorem ran (hu : Sequences u L) (ht : Truthful L ls) (ord : Orders) (hs : ord.sizes.Perm (List.range ls.length)) (hc : ∀ i, (ord.check i).Perm (List.range ls.length))
    (hd : ∀ i, (ord.deref i).Perm (List.range ls.length)) (fuel : Nat) (hne : (algorithm u ls ord fuel []).2 ≠ .stop .illFormed) :
    Ran L ls fuel (algorithm u ls ord fuel []).1 (algorithm u ls ord fuel []).2 := by
  have ha := (C154_answers u ls ord fuel false).1
  have h := C154_calls u (lengths_of hu) ls ord hs hc hd fuel
  generalize (algorithm u ls ord fuel []).1 = es at *
  generalize (algorithm u ls ord fuel []).2 = e at *
  cases h with
  | rejected => exact absurd rfl hne
  | @sizeThrew done r rest s h1 =>
    have := answered_threw (h := []) ha (a := done.map fun q => .did (.size q) (s q)) (b := []) (o := .size r) rfl
    rw [hu.size] at this
    cases this
  | @mismatch order s p q n m h1 h2 h3 h4 =>
    have hs' : ∀ r ∈ asked ls, s r = (L r).length := fun r hr => sizes_of hu (x := []) (by simpa using ha) r (h1.mem_iff.2 hr)
    obtain ⟨n', k1, rfl⟩ := known_length ht hs' h2
    obtain ⟨m', k2, rfl⟩ := known_length ht hs' h3
    exact .mismatch (hasSize_of_known h2) (hasSize_of_known h3) k1 k2 (fun hc => h4 (by rw [hc])) calls_sizes rfl
  | @startThrew order x s size h1 h2 h3 => exact absurd ha (no_startThrows hu h3)
  | @run order x _ s size h1 h2 h3 =>
    have hs' : ∀ r ∈ asked ls, s r = (L r).length := fun r hr => sizes_of hu ha r (h1.mem_iff.2 hr)
    rw [← List.append_assoc] at ha
    have := trace_result hu (covered_of ht hs' h2) still_opening h3 ha
    refine .run (List.append_assoc _ _ _).symm ?_ (agreed_sizes ht hs' h2) this
    simp only [functorCalls_append, calls_sizes, calls_starts, List.nil_append]

end

section

variable (u : User α) (L : Nat → List α) (hu : Sequences u L) (ls : List Leaf) (ht : Truthful L ls) (ord : Orders) (hs : ord.sizes.Perm (List.range ls.length))
  (hc : ∀ i, (ord.check i).Perm (List.range ls.length)) (hd : ∀ i, (ord.deref i).Perm (List.range ls.length)) (fuel : Nat)
  (hne : (algorithm u ls ord fuel []).2 ≠ .stop .illFormed)

include hu ht hs hc hd hne

/-- If the user's ranges behave like sequences, then call `k` of the functor has the elements with index `k` as arguments, and all the ranges have such an element; all calls but the last tell the
loop to go on.  This holds in whichever order arguments are evaluated. -/
theorem C159_arguments (k : Nat) (c : List (Val α) × Option Bool) (hk : (functorCalls (algorithm u ls ord fuel []).1)[k]? = some c) :
    Arguments L ls k c.1 ∧ (∀ r m, lengthOf L ls r = some m → k < m) ∧ (c.2 = some true ∨ k + 1 = (functorCalls (algorithm u ls ord fuel []).1).length) := by
  have h := ran hu ht ord hs hc hd fuel hne
  generalize (algorithm u ls ord fuel []).1 = es at *
  generalize (algorithm u ls ord fuel []).2 = e at *
  have last : ∀ {n cs vs} {b : Option Bool}, AllTrue L ls n cs → Arguments L ls n vs → More L ls n → functorCalls es = cs ++ [(vs, b)] →
      Arguments L ls k c.1 ∧ (∀ r m, lengthOf L ls r = some m → k < m) ∧ (c.2 = some true ∨ k + 1 = (functorCalls es).length) := by
    intro n cs vs b h1 h2 h3 h4
    rw [h4] at hk ⊢
    rcases Nat.lt_trichotomy k cs.length with hlt | heq | hgt
    · rw [List.getElem?_append_left hlt] at hk
      have := h1.2 k c hk
      exact ⟨this.1, this.2.2, .inl this.2.1⟩
    · subst heq
      rw [List.getElem?_append_right (Nat.le_refl _), Nat.sub_self] at hk
      cases hk
      rw [h1.1]
      exact ⟨h2, h3, .inr (by simp [h1.1])⟩
    · rw [List.getElem?_eq_none (by simp; omega)] at hk
      cases hk
  have all : ∀ {n}, AllTrue L ls n (functorCalls es) → Arguments L ls k c.1 ∧ (∀ r m, lengthOf L ls r = some m → k < m) ∧ (c.2 = some true ∨ k + 1 = (functorCalls es).length) := by
    intro n h1
    have := h1.2 k c hk
    exact ⟨this.1, this.2.2, .inl this.2.1⟩
  cases h with
  | mismatch _ _ _ _ _ h1 => rw [h1] at hk; simp at hk
  | run _ h1 _ h2 =>
    cases h2 with
    | all h3 _ => exact all (h1 ▸ h3)
    | differ h3 => exact all (h1 ▸ h3)
    | running _ h3 => exact all (h1 ▸ h3)
    | returned h3 h4 h5 h6 => exact last h3 h4 h5 (h1.trans h6)
    | threw h3 h4 h5 h6 => exact last h3 h4 h5 (h1.trans h6)

/-- If the functor says that the loop is to go on whenever it is called, and the ranges are equally long, then the loop is finished after as many calls as there are elements. -/
theorem C159_same_length (hall : ∀ c ∈ functorCalls (algorithm u ls ord fuel []).1, c.2 = some true) (n p : Nat) (hp : lengthOf L ls p = some n) (hfuel : n < fuel)
    (hlen : ∀ r m, lengthOf L ls r = some m → m = n) :
    (algorithm u ls ord fuel []).2 = .ok true ∧ (functorCalls (algorithm u ls ord fuel []).1).length = n := by
  have h := ran hu ht ord hs hc hd fuel hne
  generalize (algorithm u ls ord fuel []).1 = es at *
  generalize (algorithm u ls ord fuel []).2 = e at *
  cases h with
  | mismatch _ _ h1 h2 h3 => exact absurd ((hlen _ _ h1).trans (hlen _ _ h2).symm) h3
  | run _ h1 _ h2 =>
    rw [h1] at hall ⊢
    cases h2 with
    | all h3 h4 => exact ⟨rfl, by rw [h3.1, h4 p n hp]⟩
    | differ _ _ h4 h5 h6 => exact absurd ((hlen _ _ h5).trans (hlen _ _ h4).symm) h6
    | running h3 => have := h3 p n hp; omega
    | @returned _ cs vs _ _ _ _ h6 => have := hall (vs, some false) (by rw [h6]; simp); simp at this
    | @threw _ cs vs _ _ _ _ h6 => have := hall (vs, none) (by rw [h6]; simp); simp at this

/-- If the functor says that the loop is to go on whenever it is called, and two of the ranges are not equally long, then this is detected: before the functor is called if both have a size;
otherwise, if those which have a size agree, when the shortest range has ended. -/
theorem C159_different (hall : ∀ c ∈ functorCalls (algorithm u ls ord fuel []).1, c.2 = some true) (n m p q : Nat) (hp : lengthOf L ls p = some n) (hq : lengthOf L ls q = some m)
    (hnm : n ≠ m) (hfuel : n < fuel) :
    (algorithm u ls ord fuel []).2 = .stop .failFast ∧
    (HasSize ls p → HasSize ls q → functorCalls (algorithm u ls ord fuel []).1 = []) ∧
    ((∀ p q n m, HasSize ls p → HasSize ls q → lengthOf L ls p = some n → lengthOf L ls q = some m → n = m) →
      (∃ r, lengthOf L ls r = some (functorCalls (algorithm u ls ord fuel []).1).length) ∧
      ∀ r k, lengthOf L ls r = some k → (functorCalls (algorithm u ls ord fuel []).1).length ≤ k) := by
  have h := ran hu ht ord hs hc hd fuel hne
  generalize (algorithm u ls ord fuel []).1 = es at *
  generalize (algorithm u ls ord fuel []).2 = e at *
  cases h with
  | mismatch k1 k2 h1 h2 h3 h4 h5 => exact ⟨h5, fun _ _ => h4, fun h => absurd (h _ _ _ _ k1 k2 h1 h2) h3⟩
  | run _ h1 hag h2 =>
    rw [h1] at hall ⊢
    cases h2 with
    | all h3 h4 => exact absurd ((h4 _ _ hp).trans (h4 _ _ hq).symm) hnm
    | @differ n' p' q' m' h3 h4 h5 _ _ =>
      refine ⟨rfl, fun s1 s2 => absurd (hag p q n m s1 s2 hp hq) hnm, fun _ => ⟨⟨p', by rw [h3.1, h5]⟩, fun r k hk => by rw [h3.1]; exact h4 r k hk⟩⟩
    | running h3 => have := h3 p n hp; omega
    | @returned _ cs vs _ _ _ _ h6 => have := hall (vs, some false) (by rw [h6]; simp); simp at this
    | @threw _ cs vs _ _ _ _ h6 => have := hall (vs, none) (by rw [h6]; simp); simp at this

/-- When the functor ends the loop, or throws an exception, then this is the end: nothing else is called. -/
theorem C159_interrupted (vs : List (Val α)) (b : Option Bool) (hm : (vs, b) ∈ functorCalls (algorithm u ls ord fuel []).1) (hb : b ≠ some true) :
    (b = some false ∧ (algorithm u ls ord fuel []).2 = .ok false ∧ ∃ y, (algorithm u ls ord fuel []).1 = y ++ [.did (.call vs) false]) ∨
    (b = none ∧ (algorithm u ls ord fuel []).2 = .stop .exception ∧ ∃ y, (algorithm u ls ord fuel []).1 = y ++ [.threw (.call vs)]) := by
  have h := ran hu ht ord hs hc hd fuel hne
  generalize (algorithm u ls ord fuel []).1 = es at *
  generalize (algorithm u ls ord fuel []).2 = e at *
  have no : ∀ {n cs}, AllTrue L ls n cs → (vs, b) ∉ cs := by
    intro n cs h1 h2
    obtain ⟨k, hk⟩ := List.getElem?_of_mem h2
    exact hb (h1.2 k _ hk).2.1
  cases h with
  | mismatch _ _ _ _ _ h1 => rw [h1] at hm; simp at hm
  | @run pre x he h1 _ h2 =>
    rw [h1] at hm
    cases h2 with
    | all h3 _ => exact absurd hm (no h3)
    | differ h3 => exact absurd hm (no h3)
    | running _ h3 => exact absurd hm (no h3)
    | @returned n cs vs' y h3 _ _ h6 h7 =>
      rw [h6] at hm
      have := (List.mem_append.1 hm).resolve_left (no h3)
      simp at this
      obtain ⟨rfl, rfl⟩ := this
      exact .inl ⟨rfl, rfl, pre ++ y, by rw [he, h7, List.append_assoc]⟩
    | @threw n cs vs' y h3 _ _ h6 h7 =>
      rw [h6] at hm
      have := (List.mem_append.1 hm).resolve_left (no h3)
      simp at this
      obtain ⟨rfl, rfl⟩ := this
      exact .inr ⟨rfl, rfl, pre ++ y, by rw [he, h7, List.append_assoc]⟩

end

/-! ## `range_zip` -/

section

variable {u : User α} {L : Nat → List α} {ls : List Leaf}

private theorem unpaired_get (r : Nat) : (unpaired ls)[r]? = (ls[r]?).map fun l => if l.mode = .iteratorPair then { l with mode := .iterator } else l := by
  simp [unpaired]

private theorem lengthOf_unpaired (r : Nat) : lengthOf L (unpaired ls) r = lengthOf L ls r := by
  unfold lengthOf
  rw [unpaired_get]
  rcases ls[r]? with _ | ⟨m, f⟩
  · rfl
  · cases m <;> rfl

private theorem arguments_unpaired {k : Nat} {vs : List (Val α)} (h : Arguments L (unpaired ls) k vs) : Arguments L ls k vs := by
  refine ⟨by rw [h.1, unpaired_length], fun r l hl => ?_⟩
  have h1 := h.2 r (if l.mode = .iteratorPair then { l with mode := .iterator } else l) (by rw [unpaired_get, hl]; rfl)
  rcases l with ⟨m, f⟩
  cases m <;> exact h1

private theorem still_stops : Still ((List.range ls.length).flatMap (stopOf ls) : List (Event α)) := by
  intro e he r
  obtain ⟨q, -, hq⟩ := List.mem_flatMap.1 he
  unfold stopOf at hq
  split at hq <;> simp at hq <;> subst hq <;> rfl

private theorem calls_stops : functorCalls ((List.range ls.length).flatMap (stopOf ls) : List (Event α)) = [] := by
  refine functorCalls_nil fun e he => ?_
  obtain ⟨q, -, hq⟩ := List.mem_flatMap.1 he
  unfold stopOf at hq
  split at hq <;> simp at hq <;> subst hq <;> rfl

private theorem no_stopThrows (hu : Sequences u L) {h x : List (Event α)} (hx : StopThrows ls x) : ¬ Answered u (h ++ x) := by
  intro ha
  obtain ⟨r, o, v, -, rfl, hp⟩ := hx
  have h1 := answered_threw ha (a := (List.range r).flatMap (stopOf ls)) (b := []) (o := o) rfl
  unfold stopOf at hp
  split at hp <;> simp at hp <;> obtain ⟨rfl, -⟩ := hp
  · rw [hu.end_] at h1; cases h1
  · rw [hu.begin_] at h1; cases h1
  · rw [hu.data] at h1; cases h1

end

/-- The same for a loop over `range_zip()`, if the ranges are equally long. -/
theorem C159_zip (u : User α) (L : Nat → List α) (hu : Sequences u L) (ls : List Leaf) (ht : Truthful L ls) (ord : Orders) (hs : ord.sizes.Perm (List.range ls.length)) (fuel : Nat)
    (hne : (zipIterate u ls ord fuel []).2 ≠ .stop .illFormed) (n : Nat) (hlen : ∀ r m, lengthOf L ls r = some m → m = n) (hfuel : n < fuel) :
    (∀ k c, (functorCalls (zipIterate u ls ord fuel []).1)[k]? = some c →
      Arguments L ls k c.1 ∧ k < n ∧ (c.2 = some true ∨ k + 1 = (functorCalls (zipIterate u ls ord fuel []).1).length)) ∧
    ((∀ c ∈ functorCalls (zipIterate u ls ord fuel []).1, c.2 = some true) →
      (zipIterate u ls ord fuel []).2 = .ok true ∧ (functorCalls (zipIterate u ls ord fuel []).1).length = n) ∧
    ∀ vs b, (vs, b) ∈ functorCalls (zipIterate u ls ord fuel []).1 → b ≠ some true →
      (b = some false ∧ (zipIterate u ls ord fuel []).2 = .ok false ∧ ∃ y, (zipIterate u ls ord fuel []).1 = y ++ [.did (.call vs) false]) ∨
      (b = none ∧ (zipIterate u ls ord fuel []).2 = .stop .exception ∧ ∃ y, (zipIterate u ls ord fuel []).1 = y ++ [.threw (.call vs)]) := by
  have ha := (C154_answers u ls ord fuel false).2.1
  have h := C154_zip_calls u (lengths_of hu) ls ord hs fuel
  generalize (zipIterate u ls ord fuel []).1 = es at *
  generalize (zipIterate u ls ord fuel []).2 = e at *
  cases h with
  | rejected => exact absurd rfl hne
  | @sizeThrew done r rest s h1 =>
    have := answered_threw (h := []) ha (a := done.map fun q => .did (.size q) (s q)) (b := []) (o := .size r) rfl
    rw [hu.size] at this
    cases this
  | @mismatch order s p q n' m' h1 h2 h3 h4 =>
    have hs' : ∀ r ∈ asked ls, s r = (L r).length := fun r hr => sizes_of hu (x := []) (by simpa using ha) r (h1.mem_iff.2 hr)
    obtain ⟨n', k1, rfl⟩ := known_length ht hs' h2
    obtain ⟨m', k2, rfl⟩ := known_length ht hs' h3
    exact absurd (by rw [hlen _ _ k1, hlen _ _ k2]) h4
  | @startThrew order x s size h1 h2 h3 => exact absurd ha (no_startThrows hu h3)
  | @stopThrew order x s size h1 h2 h3 =>
    rw [← List.append_assoc] at ha
    exact absurd ha (no_stopThrows hu h3)
  | @run order x _ s N h1 h2 h3 =>
    have hs' : ∀ r ∈ asked ls, s r = (L r).length := fun r hr => sizes_of hu ha r (h1.mem_iff.2 hr)
    obtain ⟨p, hp⟩ := h2.1
    obtain ⟨n', k1, rfl⟩ := known_length ht hs' hp
    obtain rfl := hlen _ _ k1
    have hcov : Covered L (unpaired ls) (some (n' : Int)) := by
      refine ⟨fun r m hm => .inl ?_, fun k hk => ⟨p, n', by rw [lengthOf_unpaired]; exact k1, (Option.some.inj hk).symm⟩⟩
      rw [lengthOf_unpaired] at hm
      rw [hlen r m hm]
    rw [← List.append_assoc, ← List.append_assoc] at ha
    have hr := trace_result hu hcov (still_opening.append still_stops) h3 ha
    have hcalls : functorCalls (order.map (fun r => .did (.size r) (s r)) ++ (starts ls ++ ((List.range ls.length).flatMap (stopOf ls) ++ x))) = functorCalls x := by
      simp only [functorCalls_append, calls_sizes, calls_starts, calls_stops, List.nil_append]
    rw [hcalls]
    have k1' : lengthOf L (unpaired ls) p = some n' := by rw [lengthOf_unpaired]; exact k1
    have hlen' : ∀ r m, lengthOf L (unpaired ls) r = some m → m = n' := fun r m hm => hlen r m (by rw [← lengthOf_unpaired]; exact hm)
    have all : ∀ {j cs k c}, AllTrue L (unpaired ls) j cs → cs[k]? = some c → Arguments L ls k c.1 ∧ k < n' ∧ c.2 = some true := fun g hk =>
      ⟨arguments_unpaired (g.2 _ _ hk).1, (g.2 _ _ hk).2.2 p n' k1', (g.2 _ _ hk).2.1⟩
    have last : ∀ {j cs vs} {b : Option Bool}, AllTrue L (unpaired ls) j cs → Arguments L (unpaired ls) j vs → More L (unpaired ls) j → functorCalls x = cs ++ [(vs, b)] →
        ∀ k c, (functorCalls x)[k]? = some c → Arguments L ls k c.1 ∧ k < n' ∧ (c.2 = some true ∨ k + 1 = (functorCalls x).length) := by
      intro j cs vs b g1 g2 g3 g4 k c hk
      rw [g4] at hk ⊢
      rcases Nat.lt_trichotomy k cs.length with hlt | heq | hgt
      · rw [List.getElem?_append_left hlt] at hk
        obtain ⟨e1, e2, e3⟩ := all g1 hk
        exact ⟨e1, e2, .inl e3⟩
      · subst heq
        rw [List.getElem?_append_right (Nat.le_refl _), Nat.sub_self] at hk
        cases hk
        rw [g1.1]
        exact ⟨arguments_unpaired g2, g3 p n' k1', .inr (by simp [g1.1])⟩
      · rw [List.getElem?_eq_none (by simp; omega)] at hk
        cases hk
    have no : ∀ {j cs vs} {b : Option Bool}, AllTrue L (unpaired ls) j cs → b ≠ some true → (vs, b) ∉ cs := by
      intro j cs vs b g1 hb g2
      obtain ⟨k, hk⟩ := List.getElem?_of_mem g2
      exact hb (g1.2 k _ hk).2.1
    cases hr with
    | all g1 g2 =>
      refine ⟨fun k c hk => ?_, fun _ => ⟨rfl, by rw [g1.1, g2 p n' k1']⟩, fun vs b hm hb => absurd hm (no g1 hb)⟩
      obtain ⟨e1, e2, e3⟩ := all g1 hk
      exact ⟨e1, e2, .inl e3⟩
    | differ _ _ g1 g2 g3 => exact absurd ((hlen' _ _ g2).trans (hlen' _ _ g1).symm) g3
    | running g1 => have := g1 p n' k1'; omega
    | @returned j cs vs y g1 g2 g3 g4 g5 =>
      refine ⟨last g1 g2 g3 g4, fun hall => ?_, fun vs' b hm hb => .inl ?_⟩
      · have := hall (vs, some false) (by rw [g4]; simp)
        simp at this
      · rw [g4] at hm
        have := (List.mem_append.1 hm).resolve_left (no g1 hb)
        simp at this
        obtain ⟨rfl, rfl⟩ := this
        exact ⟨rfl, rfl, order.map (fun r => .did (.size r) (s r)) ++ (starts ls ++ ((List.range ls.length).flatMap (stopOf ls) ++ y)), by rw [g5]; simp⟩
    | @threw j cs vs y g1 g2 g3 g4 g5 =>
      refine ⟨last g1 g2 g3 g4, fun hall => ?_, fun vs' b hm hb => .inr ?_⟩
      · have := hall (vs, none) (by rw [g4]; simp)
        simp at this
      · rw [g4] at hm
        have := (List.mem_append.1 hm).resolve_left (no g1 hb)
        simp at this
        obtain ⟨rfl, rfl⟩ := this
        exact ⟨rfl, rfl, order.map (fun r => .did (.size r) (s r)) ++ (starts ls ++ ((List.range ls.length).flatMap (stopOf ls) ++ y)), by rw [g5]; simp⟩

/-! ## Loops over one range -/

private theorem ask_some {u : User α} {o : Op α} {h : List (Event α)} {v : o.Reply} (hv : u h o = some v) : ask u o h = (h ++ [.did o v], .ok v) := by
  simp only [ask, hv]

private theorem ask_then {β : Type} {u : User α} {o : Op α} {h : List (Event α)} {v : o.Reply} (hv : u h o = some v) (f : o.Reply → Act α β) :
    andThen (ask u o) f h = f v (h ++ [.did o v]) := by
  simp only [andThen, ask_some hv]

private theorem advanced_snoc {r : Nat} {h : List (Event α)} {e : Event α} (he : isInc r e = false) : advanced r (h ++ [e]) = advanced r h := by
  rw [advanced_append]
  simp [advanced, he]

private theorem reduceLoop_sequence {u : User α} {L : Nat → List α} (hu : Sequences u L) : ∀ (fuel : Nat) (h : List (Event α)), advanced 0 h ≤ (L 0).length → (L 0).length - advanced 0 h < fuel →
    ∃ x, (reduceLoop u fuel h).1 = h ++ x ∧
      (((reduceLoop u fuel h).2 = .ok () ∧ (functorCalls x).map Prod.fst = ((L 0).drop (advanced 0 h)).map (fun a => [.elem a]) ∧ ∀ c ∈ functorCalls x, c.2 ≠ none) ∨
      ((reduceLoop u fuel h).2 = .stop .exception ∧ ∃ j cs vs, functorCalls x = cs ++ [(vs, none)] ∧ (∀ c ∈ cs, c.2 ≠ none) ∧ advanced 0 h + j < (L 0).length ∧
        (functorCalls x).map Prod.fst = (((L 0).drop (advanced 0 h)).take (j + 1)).map (fun a => [.elem a])))
  | 0, _, _, hf => absurd hf (Nat.not_lt_zero _)
  | fuel + 1, h, hle, hf => by
    have h1 := hu.eq h 0 hle
    by_cases hend : advanced 0 h = (L 0).length
    · simp only [hend, decide_true] at h1
      refine ⟨[.did (.eq 0) true], ?_⟩
      have : reduceLoop u (fuel + 1) h = (h ++ [.did (.eq 0) true], .ok ()) := by
        exact ask_then (o := .eq 0) h1 _
      rw [this]
      refine ⟨rfl, .inl ⟨rfl, ?_, ?_⟩⟩
      · rw [hend, List.drop_length]; rfl
      · intro c hc; cases hc
    · have hlt : advanced 0 h < (L 0).length := by omega
      simp only [hend, decide_false] at h1
      obtain ⟨a, ha⟩ : ∃ a, (L 0)[advanced 0 h]? = some a := ⟨_, List.getElem?_eq_getElem hlt⟩
      have a1 : advanced 0 (h ++ [.did (.eq 0) false]) = advanced 0 h := advanced_snoc rfl
      have h2 := hu.deref (h ++ [.did (.eq 0) false]) 0 a (by rw [a1]; exact ha)
      have hdrop : (L 0).drop (advanced 0 h) = a :: (L 0).drop (advanced 0 h + 1) := by
        rw [List.drop_eq_getElem_cons hlt]
        rw [List.getElem?_eq_getElem hlt] at ha
        rw [Option.some.inj ha]
      have step : reduceLoop u (fuel + 1) h = (andThen (ask u (.call [.elem a])) fun _ => andThen (ask u (.inc 0)) fun _ => reduceLoop u fuel) (h ++ [.did (.eq 0) false] ++ [.did (.deref 0) a]) := by
        exact (ask_then (o := .eq 0) h1 _).trans (ask_then (o := .deref 0) h2 _)
      rcases hcall : u (h ++ [.did (.eq 0) false] ++ [.did (.deref 0) a]) (.call [.elem a]) with _ | (g : Bool)
      · refine ⟨[.did (.eq 0) false, .did (.deref 0) a, .threw (.call [.elem a])], ?_⟩
        have step1 : reduceLoop u (fuel + 1) h = (h ++ [.did (.eq 0) false] ++ [.did (.deref 0) a] ++ [.threw (.call [.elem a])], .stop .exception) := by
          rw [step]
          simp only [andThen, ask, hcall]
        rw [step1]
        refine ⟨by simp, .inr ⟨rfl, 0, [], [.elem a], rfl, by simp, by omega, ?_⟩⟩
        rw [hdrop]
        rfl
      · have a2 : advanced 0 (h ++ [.did (.eq 0) false] ++ [.did (.deref 0) a] ++ [.did (.call [.elem a]) g]) = advanced 0 h := by
          rw [advanced_snoc rfl, advanced_snoc rfl, a1]
        have h3 := hu.inc (h ++ [.did (.eq 0) false] ++ [.did (.deref 0) a] ++ [.did (.call [.elem a]) g]) 0 (by rw [a2]; exact hlt)
        have step2 : reduceLoop u (fuel + 1) h = reduceLoop u fuel (h ++ [.did (.eq 0) false] ++ [.did (.deref 0) a] ++ [.did (.call [.elem a]) g] ++ [.did (.inc 0) ()]) := by
          exact step.trans ((ask_then (o := .call [.elem a]) hcall _).trans (ask_then (o := .inc 0) h3 _))
        have a3 : advanced 0 (h ++ [.did (.eq 0) false] ++ [.did (.deref 0) a] ++ [.did (.call [.elem a]) g] ++ [.did (.inc 0) ()]) = advanced 0 h + 1 := by
          rw [advanced_append, a2]
          rfl
        obtain ⟨x, hx, hr⟩ := reduceLoop_sequence hu fuel (h ++ [.did (.eq 0) false] ++ [.did (.deref 0) a] ++ [.did (.call [.elem a]) g] ++ [.did (.inc 0) ()]) (by omega) (by omega)
        rw [a3] at hr
        have hcs : functorCalls ([.did (.eq 0) false, .did (.deref 0) a, .did (.call [.elem a]) g, .did (.inc 0) ()] ++ x) = ([.elem a], some g) :: functorCalls x := by
          rw [functorCalls_append]
          rfl
        refine ⟨[.did (.eq 0) false, .did (.deref 0) a, .did (.call [.elem a]) g, .did (.inc 0) ()] ++ x, ?_, ?_⟩
        · rw [step2, hx]; simp
        · rw [step2, hcs, hdrop]
          rcases hr with ⟨r1, r2, r3⟩ | ⟨r1, j, cs, vs, r2, r3, r4, r5⟩
          · refine .inl ⟨r1, by simp [r2], ?_⟩
            intro c hc
            rcases List.mem_cons.1 hc with rfl | hc
            · simp
            · exact r3 c hc
          · refine .inr ⟨r1, j + 1, ([.elem a], some g) :: cs, vs, by rw [r2]; rfl, ?_, by omega, ?_⟩
            · intro c hc
              rcases List.mem_cons.1 hc with rfl | hc
              · simp
              · exact r3 c hc
            · rw [List.map_cons, r5]
              rfl

/-- `range_reduce()` calls the functor with all elements of the range in order, unless it throws an exception: that is then the last call. -/
theorem C159_reduce (u : User α) (L : Nat → List α) (hu : Sequences u L) (fuel : Nat) (hfuel : (L 0).length < fuel) :
    ((reduce u fuel []).2 = .ok () ∧ (functorCalls (reduce u fuel []).1).map Prod.fst = (L 0).map (fun a => [.elem a]) ∧ ∀ c ∈ functorCalls (reduce u fuel []).1, c.2 ≠ none) ∨
    ((reduce u fuel []).2 = .stop .exception ∧ ∃ j cs vs, functorCalls (reduce u fuel []).1 = cs ++ [(vs, none)] ∧ (∀ c ∈ cs, c.2 ≠ none) ∧ j < (L 0).length ∧
      (functorCalls (reduce u fuel []).1).map Prod.fst = ((L 0).take (j + 1)).map (fun a => [.elem a])) := by
  have step : reduce u fuel [] = reduceLoop u fuel [.did (.begin_ 0) (), .did (.end_ 0) ()] := by
    exact (ask_then (o := .begin_ 0) (hu.begin_ [] 0) _).trans (ask_then (o := .end_ 0) (hu.end_ _ 0) _)
  have h0 : advanced 0 [(.did (.begin_ 0) () : Event α), .did (.end_ 0) ()] = 0 := rfl
  obtain ⟨x, hx, hr⟩ := reduceLoop_sequence hu fuel [.did (.begin_ 0) (), .did (.end_ 0) ()] (by rw [h0]; exact Nat.zero_le _) (by rw [h0]; exact hfuel)
  have hc : functorCalls ([.did (.begin_ 0) (), .did (.end_ 0) ()] ++ x) = functorCalls x := by rw [functorCalls_append]; rfl
  rw [step, hx, hc]
  simp only [h0, List.drop_zero, Nat.zero_add] at hr
  exact hr

private theorem assigned_append : ∀ (a b : List (Event α)) (k : Nat), (∀ e ∈ a, ∀ r, r ≠ 0 → isInc r e = false) → assigned k (a ++ b) = assigned k a ++ assigned (k + advanced 0 a) b
  | [], b, k, _ => by simp [assigned, advanced]
  | e :: a, b, k, h => by
    have ih := fun k => assigned_append a b k fun e he => h e (List.mem_cons_of_mem _ he)
    have hcons : advanced 0 (e :: a) = advanced 0 [e] + advanced 0 a := advanced_append 0 [e] a
    rw [hcons]
    have he := h e List.mem_cons_self
    rcases e with ⟨o, v⟩ | o
    · cases o with
      | inc r =>
        have hr : r = 0 := by
          by_contra hr
          have := he r hr
          simp [isInc] at this
        subst hr
        have : advanced 0 [(.did (.inc 0) v : Event α)] = 1 := rfl
        rw [this]
        simp only [List.cons_append, assigned, ih]
        rw [Nat.add_assoc, Nat.add_comm 1]
      | _ => simp [List.cons_append, assigned, ih, advanced, isInc]
    · simp [List.cons_append, assigned, ih, advanced, isInc]

private theorem fillLoop_sequence {u : User α} {L : Nat → List α} (hu : Sequences u L) (calls : Bool) : ∀ (fuel : Nat) (h : List (Event α)), advanced 0 h ≤ (L 0).length →
    (L 0).length - advanced 0 h < fuel →
    ∃ x, (fillLoop u calls fuel h).1 = h ++ x ∧
      (((fillLoop u calls fuel h).2 = .ok () ∧ assigned (advanced 0 h) x = List.range' (advanced 0 h) ((L 0).length - advanced 0 h) ∧
        (functorCalls x).length = (if calls then (L 0).length - advanced 0 h else 0) ∧ ∀ c ∈ functorCalls x, c.1 = [] ∧ c.2 ≠ none) ∨
      ((fillLoop u calls fuel h).2 = .stop .exception ∧ calls = true ∧ ∃ j cs, functorCalls x = cs ++ [([], none)] ∧ (∀ c ∈ cs, c.1 = [] ∧ c.2 ≠ none) ∧ cs.length = j ∧
        advanced 0 h + j < (L 0).length ∧ assigned (advanced 0 h) x = List.range' (advanced 0 h) j))
  | 0, _, _, hf => absurd hf (Nat.not_lt_zero _)
  | fuel + 1, h, hle, hf => by
    have h1 := hu.eq h 0 hle
    by_cases hend : advanced 0 h = (L 0).length
    · simp only [hend, decide_true] at h1
      refine ⟨[.did (.eq 0) true], ?_⟩
      have : fillLoop u calls (fuel + 1) h = (h ++ [.did (.eq 0) true], .ok ()) := by
        exact ask_then (o := .eq 0) h1 _
      rw [this]
      refine ⟨rfl, .inl ⟨rfl, ?_, ?_, ?_⟩⟩
      · rw [hend, Nat.sub_self]; rfl
      · rw [hend, Nat.sub_self]; cases calls <;> rfl
      · intro c hc; cases hc
    · have hlt : advanced 0 h < (L 0).length := by omega
      simp only [hend, decide_false] at h1
      -- the part of the round after the call
      have rest : ∀ (pre : List (Event α)) (cs : List (List (Val α) × Option Bool)), (∀ r, advanced r pre = 0) → (∀ k, assigned k pre = []) → functorCalls pre = cs → (∀ c ∈ cs, c.1 = [] ∧ c.2 ≠ none) →
          cs.length = (if calls then 1 else 0) →
          fillLoop u calls (fuel + 1) h = (andThen (ask u (.deref 0)) fun _ => andThen (ask u (.assign 0)) fun _ => andThen (ask u (.inc 0)) fun _ => fillLoop u calls fuel) (h ++ pre) →
          ∃ x, (fillLoop u calls (fuel + 1) h).1 = h ++ x ∧
            (((fillLoop u calls (fuel + 1) h).2 = .ok () ∧ assigned (advanced 0 h) x = List.range' (advanced 0 h) ((L 0).length - advanced 0 h) ∧
              (functorCalls x).length = (if calls then (L 0).length - advanced 0 h else 0) ∧ ∀ c ∈ functorCalls x, c.1 = [] ∧ c.2 ≠ none) ∨
            ((fillLoop u calls (fuel + 1) h).2 = .stop .exception ∧ calls = true ∧ ∃ j cs, functorCalls x = cs ++ [([], none)] ∧ (∀ c ∈ cs, c.1 = [] ∧ c.2 ≠ none) ∧ cs.length = j ∧
              advanced 0 h + j < (L 0).length ∧ assigned (advanced 0 h) x = List.range' (advanced 0 h) j)) := by
        intro pre cs hpre hpa hpc hcs hcl step
        have a1 : advanced 0 (h ++ pre) = advanced 0 h := by rw [advanced_append, hpre]; rfl
        obtain ⟨a, ha⟩ : ∃ a, (L 0)[advanced 0 h]? = some a := ⟨_, List.getElem?_eq_getElem hlt⟩
        have h2 := hu.deref (h ++ pre) 0 a (by rw [a1]; exact ha)
        have h3 := hu.assign (h ++ pre ++ [.did (.deref 0) a]) 0
        have a2 : advanced 0 (h ++ pre ++ [.did (.deref 0) a] ++ [.did (.assign 0) ()]) = advanced 0 h := by
          rw [advanced_snoc rfl, advanced_snoc rfl, a1]
        have h4 := hu.inc (h ++ pre ++ [.did (.deref 0) a] ++ [.did (.assign 0) ()]) 0 (by rw [a2]; exact hlt)
        have step2 : fillLoop u calls (fuel + 1) h = fillLoop u calls fuel (h ++ pre ++ [.did (.deref 0) a] ++ [.did (.assign 0) ()] ++ [.did (.inc 0) ()]) := by
          exact step.trans ((ask_then (o := .deref 0) h2 _).trans ((ask_then (o := .assign 0) h3 _).trans (ask_then (o := .inc 0) h4 _)))
        have a3 : advanced 0 (h ++ pre ++ [.did (.deref 0) a] ++ [.did (.assign 0) ()] ++ [.did (.inc 0) ()]) = advanced 0 h + 1 := by
          rw [advanced_append, a2]
          rfl
        obtain ⟨x, hx, hr⟩ := fillLoop_sequence hu calls fuel (h ++ pre ++ [.did (.deref 0) a] ++ [.did (.assign 0) ()] ++ [.did (.inc 0) ()]) (by omega) (by omega)
        rw [a3] at hr
        have hcs2 : functorCalls (pre ++ ([.did (.deref 0) a, .did (.assign 0) (), .did (.inc 0) ()] ++ x)) = cs ++ functorCalls x := by
          rw [functorCalls_append, functorCalls_append, hpc]
          rfl
        have has : assigned (advanced 0 h) (pre ++ ([.did (.deref 0) a, .did (.assign 0) (), .did (.inc 0) ()] ++ x)) = advanced 0 h :: assigned (advanced 0 h + 1) x := by
          rw [assigned_append, hpa, hpre]
          · rfl
          · intro e he r _
            have := hpre r
            unfold advanced at this
            rw [List.countP_eq_zero] at this
            simpa using this e he
        refine ⟨pre ++ ([.did (.deref 0) a, .did (.assign 0) (), .did (.inc 0) ()] ++ x), by rw [step2, hx]; simp, ?_⟩
        rw [step2, hcs2, has]
        rcases hr with ⟨r1, r2, r3, r4⟩ | ⟨r1, r2, j, cs', r3, r4, r5, r6, r7⟩
        · refine .inl ⟨r1, ?_, ?_, ?_⟩
          · rw [r2, ← List.range'_succ]
            congr 1
            omega
          · rw [List.length_append, r3, hcl]
            cases calls <;> simp
            omega
          · intro c hc
            rcases List.mem_append.1 hc with hc | hc
            · exact hcs c hc
            · exact r4 c hc
        · refine .inr ⟨r1, r2, j + 1, cs ++ cs', by rw [r3, List.append_assoc], ?_, ?_, by omega, ?_⟩
          · intro c hc
            rcases List.mem_append.1 hc with hc | hc
            · exact hcs c hc
            · exact r4 c hc
          · rw [List.length_append, r5, hcl, if_pos r2]; omega
          · rw [r7, ← List.range'_succ]
      cases calls with
      | false =>
        refine rest [.did (.eq 0) false] [] (fun r => rfl) (fun k => rfl) rfl (by simp) rfl ?_
        exact ask_then (o := .eq 0) h1 _
      | true =>
        have step : fillLoop u true (fuel + 1) h =
            (andThen (ask u (.call [])) fun _ => andThen (ask u (.deref 0)) fun _ => andThen (ask u (.assign 0)) fun _ => andThen (ask u (.inc 0)) fun _ => fillLoop u true fuel)
              (h ++ [.did (.eq 0) false]) := by
          exact ask_then (o := .eq 0) h1 _
        rcases hcall : u (h ++ [.did (.eq 0) false]) (.call []) with _ | (g : Bool)
        · refine ⟨[.did (.eq 0) false, .threw (.call [])], ?_⟩
          have step1 : fillLoop u true (fuel + 1) h = (h ++ [.did (.eq 0) false] ++ [.threw (.call [])], .stop .exception) := by
            rw [step]
            simp only [andThen, ask, hcall]
          rw [step1]
          refine ⟨by simp, .inr ⟨rfl, rfl, 0, [], rfl, by simp, rfl, by omega, rfl⟩⟩
        · refine rest ([.did (.eq 0) false] ++ [.did (.call []) g]) [([], some g)] (fun r => rfl) (fun k => rfl) rfl (by simp) rfl ?_
          rw [← List.append_assoc]
          exact step.trans (ask_then (o := .call []) hcall _)

/-- `range_fill()`, `range_iota()` (`calls` is false) and `range_generate()` (`calls` is true) assign a value to every element once, in order; the generator is called as many times, without arguments.
If it throws an exception, the elements before have been assigned, and the others have not. -/
theorem C159_fill (u : User α) (L : Nat → List α) (hu : Sequences u L) (calls : Bool) (fuel : Nat) (hfuel : (L 0).length < fuel) :
    ((fill u calls fuel []).2 = .ok () ∧ assigned 0 (fill u calls fuel []).1 = List.range (L 0).length ∧
      (functorCalls (fill u calls fuel []).1).length = (if calls then (L 0).length else 0) ∧ ∀ c ∈ functorCalls (fill u calls fuel []).1, c.1 = [] ∧ c.2 ≠ none) ∨
    ((fill u calls fuel []).2 = .stop .exception ∧ calls = true ∧ ∃ j cs, functorCalls (fill u calls fuel []).1 = cs ++ [([], none)] ∧ (∀ c ∈ cs, c.1 = [] ∧ c.2 ≠ none) ∧ cs.length = j ∧
      j < (L 0).length ∧ assigned 0 (fill u calls fuel []).1 = List.range j) := by
  have step : fill u calls fuel [] = fillLoop u calls fuel [.did (.begin_ 0) (), .did (.end_ 0) ()] := by
    exact (ask_then (o := .begin_ 0) (hu.begin_ [] 0) _).trans (ask_then (o := .end_ 0) (hu.end_ _ 0) _)
  have h0 : advanced 0 [(.did (.begin_ 0) () : Event α), .did (.end_ 0) ()] = 0 := rfl
  obtain ⟨x, hx, hr⟩ := fillLoop_sequence hu calls fuel [.did (.begin_ 0) (), .did (.end_ 0) ()] (by rw [h0]; exact Nat.zero_le _) (by rw [h0]; exact hfuel)
  have hc : functorCalls ([.did (.begin_ 0) (), .did (.end_ 0) ()] ++ x) = functorCalls x := by rw [functorCalls_append]; rfl
  have has : assigned 0 ([.did (.begin_ 0) (), .did (.end_ 0) ()] ++ x) = assigned 0 x := rfl
  rw [step, hx, hc, has]
  simp only [h0, Nat.sub_zero, Nat.zero_add, ← List.range_eq_range'] at hr
  exact hr

/-! ## Examples -/

/-- The elements of two ranges. -/
private def twoLists : Nat → List Nat
  | 0 => [10, 20, 30]
  | _ => [7, 8, 9]

/-- Ranges which behave like `twoLists`, and a functor which always goes on. -/
private def walker (L : Nat → List Nat) : User Nat := fun h o =>
  match o with
  | .size r => some ((L r).length : Int)
  | .begin_ _ | .end_ _ | .data _ | .assign _ => some ()
  | .eq r => some (decide (advanced r h = (L r).length))
  | .deref r => (L r)[advanced r h]?
  | .inc r => if advanced r h < (L r).length then some () else none
  | .call _ => some true

private theorem walker_sequences (L : Nat → List Nat) : Sequences (walker L) L where
  size _ _ := rfl
  begin_ _ _ := rfl
  end_ _ _ := rfl
  data _ _ := rfl
  assign _ _ := rfl
  eq _ _ _ := rfl
  deref _ _ _ h := h
  inc _ _ hlt := if_pos hlt

private def threeLeaves : List Leaf := [⟨.iteratorPair, none⟩, ⟨.iterator, none⟩, ⟨.rangeIndex, none⟩]

private def someOrders : Orders := ⟨[1, 0, 2], fun _ => [2, 1, 0], fun i => if i = 0 then [0, 1, 2] else [1, 2, 0]⟩

/-- The hypotheses of `C159_arguments`, `C159_same_length`, `C159_interrupted`, `C159_zip`, `C159_reduce` and `C159_fill`; the functor is called with the elements `(10, 7, 0)`, ... -/
example : Sequences (walker twoLists) twoLists ∧ Truthful twoLists threeLeaves ∧ someOrders.sizes.Perm (List.range 3) ∧ (∀ i, (someOrders.check i).Perm (List.range 3)) ∧
    (∀ i, (someOrders.deref i).Perm (List.range 3)) ∧
    (algorithm (walker twoLists) threeLeaves someOrders 5 []).2 = .ok true ∧
    functorCalls (algorithm (walker twoLists) threeLeaves someOrders 5 []).1 =
      [([.elem 10, .elem 7, .index 0], some true), ([.elem 20, .elem 8, .index 1], some true), ([.elem 30, .elem 9, .index 2], some true)] ∧
    lengthOf twoLists threeLeaves 0 = some 3 ∧ lengthOf twoLists threeLeaves 2 = none ∧
    (zipIterate (walker twoLists) threeLeaves someOrders 5 []).2 = .ok true := by
  refine ⟨walker_sequences _, ?_, by decide, fun _ => (by decide : List.Perm [2, 1, 0] (List.range 3)), fun i => ?_, by decide +kernel, by decide +kernel, rfl, rfl, by decide +kernel⟩
  · intro r l n hl hf
    rcases r with _ | _ | _ | r
    · cases hl; cases hf
    · cases hl; cases hf
    · cases hl; cases hf
    · simp [threeLeaves] at hl
  · unfold someOrders
    simp only
    split <;> decide

/-- The hypotheses of `C159_different`: the first range is shorter. -/
example : (algorithm (walker fun r => if r = 0 then [10, 20] else [7, 8, 9]) threeLeaves someOrders 5 []).2 = .stop .failFast ∧
    functorCalls (algorithm (walker fun r => if r = 0 then [10, 20] else [7, 8, 9]) threeLeaves someOrders 5 []).1 =
      [([.elem 10, .elem 7, .index 0], some true), ([.elem 20, .elem 8, .index 1], some true)] := by
  decide +kernel

end Makeshift.Props
