import Verif.Lemmas.UserOps
import Verif.Spec.OwnIterators

/-!
# Lemmas on iterators which walk sequences
-/

namespace Makeshift.OwnIterators

open Makeshift.UserOps Makeshift.Spec.UserOps Makeshift.Spec.OwnIterators

variable {α : Type} {u : User α} {L : Nat → List α} {ls : List Leaf} {size : Option Int} {h x : List (Event α)}

/-- No iterator is incremented. -/
def Still (x : List (Event α)) : Prop := ∀ e ∈ x, ∀ r, isInc r e = false

theorem advanced_append (r : Nat) (a b : List (Event α)) : advanced r (a ++ b) = advanced r a + advanced r b := List.countP_append

theorem advanced_still {r : Nat} (hx : Still x) : advanced r x = 0 := by
  unfold advanced
  rw [List.countP_eq_zero]
  intro e he
  simp [hx e he r]

theorem advanced_append_still {r : Nat} (hx : Still x) : advanced r (h ++ x) = advanced r h := by
  rw [advanced_append, advanced_still hx]; rfl

theorem Still.append {y : List (Event α)} (hx : Still x) (hy : Still y) : Still (x ++ y) := by
  intro e he
  rcases List.mem_append.1 he with he | he
  · exact hx e he
  · exact hy e he

theorem Still.left {y : List (Event α)} (hx : Still (x ++ y)) : Still x := fun e he => hx e (List.mem_append.2 (.inl he))

theorem answered_did (ha : Answered u (h ++ x)) {a b : List (Event α)} {o : Op α} {r : o.Reply} (hx : x = a ++ .did o r :: b) : u (h ++ a) o = some r := by
  subst hx
  have := ha (h ++ a) (.did o r) b (by simp)
  exact this

theorem answered_threw (ha : Answered u (h ++ x)) {a b : List (Event α)} {o : Op α} (hx : x = a ++ .threw o :: b) : u (h ++ a) o = none := by
  subst hx
  have := ha (h ++ a) (.threw o) b (by simp)
  exact this

theorem answered_left {a b : List (Event α)} (ha : Answered u (a ++ b)) : Answered u a := by
  intro a' e b' h
  exact ha a' e (b' ++ b) (by rw [h]; simp)

theorem lengthOf_walked {r : Nat} (hr : r ∈ walked ls) : lengthOf L ls r = some (L r).length := by
  obtain ⟨l, hl, hp⟩ := mem_positions.1 hr
  unfold lengthOf
  rw [hl]
  rcases l with ⟨m, f⟩
  cases m <;> simp_all

theorem walked_of_paired {r : Nat} (hr : r ∈ paired ls) : r ∈ walked ls := by
  obtain ⟨l, hl, hp⟩ := mem_positions.1 hr
  exact mem_positions.2 ⟨l, hl, by simp_all⟩

/-- Where all iterators are after `n` rounds. -/
def At (L : Nat → List α) (ls : List Leaf) (n : Nat) (h : List (Event α)) : Prop :=
  (∀ r ∈ walked ls, advanced r h = n) ∧ ∀ r m, lengthOf L ls r = some m → n ≤ m

/-- Every length is the known size, or that of a range which is asked whether the end has been reached. -/
def Covered (L : Nat → List α) (ls : List Leaf) (size : Option Int) : Prop := 
  (∀ r m, lengthOf L ls r = some m → size = some (m : Int) ∨ r ∈ paired ls) ∧ ∀ n, size = some n → ∃ r m, lengthOf L ls r = some m ∧ n = (m : Int)

theorem still_checks {order : List Nat} {b : Nat → Bool} : Still (order.map fun r => (.did (.eq r) (b r) : Event α)) := by
  intro e he r
  obtain ⟨q, -, rfl⟩ := List.mem_map.1 he
  rfl

/-- What `it == end` answers. -/
theorem eq_answer (hu : Sequences u L) {n : Nat} (hat : At L ls n h) {a : List (Event α)} (hs : Still a) {r : Nat} (hr : r ∈ paired ls) :
    u (h ++ a) (.eq r) = some (decide (n = (L r).length)) := by
  have h1 := hat.1 r (walked_of_paired hr)
  have h2 := hat.2 r _ (lengthOf_walked (walked_of_paired hr))
  have h3 := hu.eq (h ++ a) r (by rw [advanced_append_still hs, h1]; exact h2)
  rw [advanced_append_still hs, h1] at h3
  exact h3

theorem check_answers (hu : Sequences u L) {n : Nat} (hat : At L ls n h) {order : List Nat} {b : Nat → Bool} (ho : ∀ r ∈ order, r ∈ paired ls)
    (ha : Answered u (h ++ order.map fun r => .did (.eq r) (b r))) : ∀ r ∈ order, b r = decide (n = (L r).length) := by
  intro r hr
  obtain ⟨s, t, rfl⟩ := List.append_of_mem hr
  have h1 := answered_did ha (a := s.map fun r => .did (.eq r) (b r)) (b := t.map fun r => .did (.eq r) (b r)) (o := .eq r) (r := b r) (by simp)
  rw [eq_answer hu hat still_checks (ho r (by simp))] at h1
  exact (Option.some.inj h1).symm

/-- After comparisons which say that the end has been reached, or that it has not. -/
theorem checked (hu : Sequences u L) {n : Nat} (hat : At L ls n h) (hcov : Covered L ls size) {b : Bool} {c : List (Event α)} (hc : Checks ls size n b c) (ha : Answered u (h ++ c)) :
    ∀ r m, lengthOf L ls r = some m → b = decide (n = m) := by
  obtain ⟨order, hp, rfl, hn⟩ := hc
  intro r m hm
  rcases hcov.1 r m hm with h1 | h1
  · have := (hn _ h1).2
    rw [this]
    exact decide_eq_decide.2 Int.ofNat_inj
  · have h2 := lengthOf_walked (L := L) (walked_of_paired h1)
    rw [h2] at hm
    cases hm
    exact check_answers hu hat (b := fun _ => b) (fun r hr => hp.mem_iff.1 hr) ha r (hp.mem_iff.2 h1)

theorem still_checks' {n : Nat} {b : Bool} {c : List (Event α)} (hc : Checks ls size n b c) : Still c := by
  obtain ⟨order, -, rfl, -⟩ := hc
  exact still_checks (b := fun _ => b)

theorem still_obtained {order : List Nat} {v : Nat → Val α} : Still (order.flatMap fun r => obtained r (v r)) := by
  intro e he r
  obtain ⟨q, -, hq⟩ := List.mem_flatMap.1 he
  rcases hv : v q with a | i | i <;> rw [hv] at hq
  · rw [List.mem_singleton.1 hq]; rfl
  · exact absurd hq List.not_mem_nil
  · exact absurd hq List.not_mem_nil

theorem still_derefs {n : Nat} {d : List (Event α)} {vs : List (Val α)} (hd : Derefs ls n d vs) : Still d := by
  obtain ⟨order, v, -, -, rfl, -⟩ := hd
  exact still_obtained

/-- All arguments have another element. -/
def More (L : Nat → List α) (ls : List Leaf) (n : Nat) : Prop := ∀ r m, lengthOf L ls r = some m → n < m

theorem more_of_check {n : Nat} (hat : At L ls n h) (hc : ∀ r m, lengthOf L ls r = some m → false = decide (n = m)) : More L ls n := by
  intro r m hm
  have h1 := hat.2 r m hm
  have h2 := hc r m hm
  have h3 : n ≠ m := by simpa using h2.symm
  omega

theorem deref_answer (hu : Sequences u L) {n : Nat} (hat : At L ls n h) (hm : More L ls n) {a : List (Event α)} (hs : Still a) {r : Nat} (hr : r ∈ walked ls) :
    ∃ x, (L r)[n]? = some x ∧ u (h ++ a) (.deref r) = some x := by
  have h1 := hm r _ (lengthOf_walked hr)
  refine ⟨(L r)[n], List.getElem?_eq_getElem h1, hu.deref _ r _ ?_⟩
  rw [advanced_append_still hs, hat.1 r hr]
  exact List.getElem?_eq_getElem h1

theorem derefs_answers (hu : Sequences u L) {n : Nat} (hat : At L ls n h) (hm : More L ls n) {d : List (Event α)} {vs : List (Val α)} (hd : Derefs ls n d vs) (ha : Answered u (h ++ d)) :
    Arguments L ls n vs := by
  obtain ⟨order, v, hp, hf, rfl, rfl⟩ := hd
  refine ⟨by simp, fun r l hl => ?_⟩
  have hr : r < ls.length := (List.getElem?_eq_some_iff.1 hl).1
  have hfit := hf r hr
  unfold Fits at hfit
  rw [hl] at hfit
  have hv : ((List.range ls.length).map v)[r]? = some (v r) := by simp [hr]
  rw [hv]
  have key : r ∈ walked ls → (∃ a, v r = .elem a) → ∃ a, (L r)[n]? = some a ∧ some (v r) = some (.elem a) := by
    rintro hw ⟨a, hva⟩
    obtain ⟨s, t, rfl⟩ := List.append_of_mem (hp.mem_iff.2 (List.mem_range.2 hr))
    have h1 := answered_did ha (a := s.flatMap fun r => obtained r (v r)) (b := t.flatMap fun r => obtained r (v r)) (o := .deref r) (r := a) (by simp [hva, obtained])
    obtain ⟨x, hx, h2⟩ := deref_answer hu hat hm (still_obtained (order := s) (v := v)) hw
    rw [h2] at h1
    have h1 := Option.some.inj h1
    exact ⟨x, hx, by rw [hva, h1]⟩
  rcases l with ⟨m, f⟩
  cases m
  · exact key (mem_positions.2 ⟨_, hl, by simp⟩) hfit
  · exact key (mem_positions.2 ⟨_, hl, by simp⟩) hfit
  · exact congrArg some hfit
  · exact congrArg some hfit

theorem advanced_incs (ls : List Leaf) {r : Nat} (hr : r ∈ walked ls) : advanced r (incs ls : List (Event α)) = 1 := by
  have h1 : advanced r (incs ls : List (Event α)) = (walked ls).count r := by
    unfold advanced incs
    rw [List.countP_map, List.count]
    refine List.countP_congr fun q _ => ?_
    simp [isInc, Function.comp]
  rw [h1]
  exact List.count_eq_one_of_mem (positions_nodup _ _) hr

theorem still_call {vs : List (Val α)} {b : Bool} : Still [(.did (.call vs) b : Event α)] := by
  intro e he r
  rw [List.mem_singleton.1 he]
  rfl

theorem functorCalls_append (a b : List (Event α)) : functorCalls (a ++ b) = functorCalls a ++ functorCalls b := List.filterMap_append

/-- The functor is not called. -/
theorem functorCalls_nil (hx : ∀ e ∈ x, isCall e = false) : functorCalls x = [] := by
  unfold functorCalls
  rw [List.filterMap_eq_nil_iff]
  intro e he
  have := hx e he
  rcases e with ⟨o, r⟩ | o <;> cases o <;> first | rfl | cases this

theorem calls_checks {n : Nat} {b : Bool} {c : List (Event α)} (hc : Checks ls size n b c) : functorCalls c = [] := by
  obtain ⟨order, -, rfl, -⟩ := hc
  refine functorCalls_nil fun e he => ?_
  obtain ⟨q, -, rfl⟩ := List.mem_map.1 he
  rfl

theorem calls_derefs {n : Nat} {d : List (Event α)} {vs : List (Val α)} (hd : Derefs ls n d vs) : functorCalls d = [] := by
  obtain ⟨order, v, -, -, rfl, -⟩ := hd
  refine functorCalls_nil fun e he => ?_
  obtain ⟨q, -, hq⟩ := List.mem_flatMap.1 he
  rcases hv : v q with a | i | i <;> rw [hv] at hq
  · rw [List.mem_singleton.1 hq]; rfl
  · exact absurd hq List.not_mem_nil
  · exact absurd hq List.not_mem_nil

theorem calls_incs : functorCalls (incs ls : List (Event α)) = [] := by
  refine functorCalls_nil fun e he => ?_
  obtain ⟨q, -, rfl⟩ := List.mem_map.1 he
  rfl

/-- `n` calls with the elements `0`, ..., `n - 1`, after each of which the loop goes on. -/
def AllTrue (L : Nat → List α) (ls : List Leaf) (n : Nat) (cs : List (List (Val α) × Option Bool)) : Prop :=
  cs.length = n ∧ ∀ k c, cs[k]? = some c → Arguments L ls k c.1 ∧ c.2 = some true ∧ More L ls k

theorem allTrue_snoc {n : Nat} {cs : List (List (Val α) × Option Bool)} {vs : List (Val α)} (h1 : AllTrue L ls n cs) (h2 : Arguments L ls n vs) (h3 : More L ls n) :
    AllTrue L ls (n + 1) (cs ++ [(vs, some true)]) := by
  refine ⟨by simp [h1.1], fun k c hk => ?_⟩
  rcases Nat.lt_trichotomy k cs.length with hlt | heq | hgt
  · rw [List.getElem?_append_left hlt] at hk
    exact h1.2 k c hk
  · subst heq
    rw [List.getElem?_append_right (Nat.le_refl _), Nat.sub_self] at hk
    cases hk
    rw [h1.1]
    exact ⟨h2, rfl, h3⟩
  · rw [List.getElem?_eq_none (by simp; omega)] at hk
    cases hk

/-- One round up to the call. -/
theorem round_call (hu : Sequences u L) (hcov : Covered L ls size) {n : Nat} (hat : At L ls n h) {c d : List (Event α)} {vs : List (Val α)} (hc : Checks ls size n false c) (hd : Derefs ls n d vs)
    (ha : Answered u (h ++ (c ++ d))) : More L ls n ∧ Arguments L ls n vs := by
  rw [← List.append_assoc] at ha
  have h1 := more_of_check hat (checked hu hat hcov hc (answered_left ha))
  have hat' : At L ls n (h ++ c) := ⟨fun r hr => by rw [advanced_append_still (still_checks' hc)]; exact hat.1 r hr, hat.2⟩
  exact ⟨h1, derefs_answers hu hat' h1 hd ha⟩

theorem at_zero (hs : Still h) : At L ls 0 h := ⟨fun _ _ => advanced_still hs, fun _ _ _ => Nat.zero_le _⟩

theorem rounds_at (hu : Sequences u L) (hcov : Covered L ls size) (hs : Still h) {n : Nat} {t : List (Event α)} (hr : Rounds ls size n t) (ha : Answered u (h ++ t)) :
    At L ls n (h ++ t) ∧ AllTrue L ls n (functorCalls t) := by
  induction hr with
  | zero => 
    rw [List.append_nil]
    exact ⟨at_zero hs, rfl, by intro k c hk; simp [functorCalls] at hk⟩
  | @next n t c d vs h1 h2 h3 ih =>
    have ha1 : Answered u ((h ++ t) ++ (c ++ d) ++ ([.did (.call vs) true] ++ incs ls)) := by simpa using ha
    obtain ⟨i1, i2⟩ := ih (answered_left (answered_left ha1))
    obtain ⟨h4, h5⟩ := round_call hu hcov i1 h2 h3 (answered_left ha1)
    refine ⟨⟨fun r hr => ?_, fun r m hm => h4 r m hm⟩, ?_⟩
    · rw [← List.append_assoc, advanced_append, i1.1 r hr, advanced_append, advanced_incs ls hr,
        advanced_still (((still_checks' h2).append (still_derefs h3)).append still_call)]
    · have : functorCalls (t ++ (c ++ d ++ [.did (.call vs) true] ++ incs ls)) = functorCalls t ++ [(vs, some true)] := by
        simp only [functorCalls_append, calls_checks h2, calls_derefs h3, calls_incs]
        rfl
      rw [this]
      exact allTrue_snoc i2 h5 h4

/-- What is known at the end of a loop. -/
inductive LoopEnd (L : Nat → List α) (ls : List Leaf) (fuel : Nat) (x : List (Event α)) : Ending Bool → Prop where
  | all {n} : AllTrue L ls n (functorCalls x) → (∀ r m, lengthOf L ls r = some m → m = n) → LoopEnd L ls fuel x (.ok true)
  | differ {n p q m} : AllTrue L ls n (functorCalls x) → (∀ r m, lengthOf L ls r = some m → n ≤ m) → lengthOf L ls p = some n → lengthOf L ls q = some m → m ≠ n → LoopEnd L ls fuel x (.stop .failFast)
  | running : (∀ r m, lengthOf L ls r = some m → fuel ≤ m) → AllTrue L ls fuel (functorCalls x) → LoopEnd L ls fuel x (.stop .running)
  | returned {n cs vs y} : AllTrue L ls n cs → Arguments L ls n vs → More L ls n → functorCalls x = cs ++ [(vs, some false)] → x = y ++ [.did (.call vs) false] → LoopEnd L ls fuel x (.ok false)
  | threw {n cs vs y} : AllTrue L ls n cs → Arguments L ls n vs → More L ls n → functorCalls x = cs ++ [(vs, none)] → x = y ++ [.threw (.call vs)] → LoopEnd L ls fuel x (.stop .exception)

theorem trace_result (hu : Sequences u L) (hcov : Covered L ls size) (hs : Still h) {fuel : Nat} {e : Ending Bool} (hr : Trace ls size fuel x e) (ha : Answered u (h ++ x)) : LoopEnd L ls fuel x e := by
  cases hr with
  | @finished n t c h1 h2 =>
    rw [← List.append_assoc] at ha
    obtain ⟨i1, i2⟩ := rounds_at hu hcov hs h1 (answered_left ha)
    refine .all (n := n) ?_ fun r m hm => ?_
    · rw [functorCalls_append, calls_checks h2, List.append_nil]
      exact i2
    · have := checked hu i1 hcov h2 ha r m hm
      exact (of_decide_eq_true this.symm).symm
  | @returned n t c d vs h1 h2 h3 =>
    have ha1 : Answered u ((h ++ t) ++ (c ++ d) ++ [.did (.call vs) false]) := by simpa using ha
    obtain ⟨i1, i2⟩ := rounds_at hu hcov hs h1 (answered_left (answered_left ha1))
    obtain ⟨h4, h5⟩ := round_call hu hcov i1 h2 h3 (answered_left ha1)
    refine .returned (y := t ++ (c ++ d)) i2 h5 h4 ?_ (by simp)
    simp only [functorCalls_append, calls_checks h2, calls_derefs h3]
    rfl
  | @callThrew n t c d vs h1 h2 h3 =>
    have ha1 : Answered u ((h ++ t) ++ (c ++ d) ++ [.threw (.call vs)]) := by simpa using ha
    obtain ⟨i1, i2⟩ := rounds_at hu hcov hs h1 (answered_left (answered_left ha1))
    obtain ⟨h4, h5⟩ := round_call hu hcov i1 h2 h3 (answered_left ha1)
    refine .threw (y := t ++ (c ++ d)) i2 h5 h4 ?_ (by simp)
    simp only [functorCalls_append, calls_checks h2, calls_derefs h3]
    rfl
  | @checkThrew n t y h1 h2 =>
    rw [← List.append_assoc] at ha
    obtain ⟨i1, i2⟩ := rounds_at hu hcov hs h1 (answered_left ha)
    obtain ⟨done, r, rest, b, hp, rfl⟩ := h2
    have h3 := answered_threw ha (a := done.map fun q => .did (.eq q) (b q)) (b := []) (o := .eq r) rfl
    rw [eq_answer hu i1 still_checks (hp.mem_iff.1 (by simp))] at h3
    cases h3
  | @checkDiffers n t y h1 h2 =>
    rw [← List.append_assoc] at ha
    obtain ⟨i1, i2⟩ := rounds_at hu hcov hs h1 (answered_left ha)
    have hno : functorCalls y = [] := by
      rcases h2 with ⟨order, b, -, -, rfl, -⟩ | ⟨N, done, r, rest, -, -, rfl⟩
      · refine functorCalls_nil fun e he => ?_
        obtain ⟨q, -, rfl⟩ := List.mem_map.1 he
        rfl
      · refine functorCalls_nil fun e he => ?_
        rcases List.mem_append.1 he with he | he
        · obtain ⟨q, -, rfl⟩ := List.mem_map.1 he
          rfl
        · rw [List.mem_singleton.1 he]
          rfl
    have hall : AllTrue L ls n (functorCalls (t ++ y)) := by rw [functorCalls_append, hno, List.append_nil]; exact i2
    rcases h2 with ⟨order, b, -, hp, rfl, p, hp1, q, hq1, hne⟩ | ⟨N, done, r, rest, hN, hd, rfl⟩
    · have hb := check_answers hu i1 (fun r hr => hp.mem_iff.1 hr) ha
      rw [hb p hp1, hb q hq1] at hne
      have lp := lengthOf_walked (L := L) (walked_of_paired (hp.mem_iff.1 hp1))
      have lq := lengthOf_walked (L := L) (walked_of_paired (hp.mem_iff.1 hq1))
      by_cases hpn : n = (L p).length
      · refine .differ (n := n) hall i1.2 (by rw [lp, ← hpn]) lq fun hc => hne ?_
        simp [hc, ← hpn]
      · have hqn : n = (L q).length := by
          by_contra hqn
          simp [hpn, hqn] at hne
        exact .differ (n := n) hall i1.2 (by rw [lq, ← hqn]) lp (Ne.symm hpn)
    · have hrp : r ∈ paired ls := by rw [← hd]; simp
      have h3 := answered_did ha (a := done.map fun q => .did (.eq q) (decide ((n : Int) = N))) (b := []) (o := .eq r) (r := !decide ((n : Int) = N)) rfl
      rw [eq_answer hu i1 (still_checks (b := fun _ => decide ((n : Int) = N))) hrp] at h3
      have h3 : decide (n = (L r).length) = !decide ((n : Int) = N) := Option.some.inj h3
      have lr := lengthOf_walked (L := L) (walked_of_paired hrp)
      obtain ⟨p, m, lp, rfl⟩ := hcov.2 N hN
      by_cases hn : n = m
      · subst hn
        have : n ≠ (L r).length := by simpa using h3
        exact .differ hall i1.2 lp lr this.symm
      · have hn' : (n : Int) ≠ m := fun hc => hn (Int.ofNat_inj.1 hc)
        have h4 : n = (L r).length := by simpa [hn'] using h3
        exact .differ hall i1.2 (by rw [lr, ← h4]) lp (Ne.symm hn)
  | @derefThrew n t c y h1 h2 h3 =>
    have ha1 : Answered u ((h ++ t ++ c) ++ y) := by simpa using ha
    obtain ⟨i1, i2⟩ := rounds_at hu hcov hs h1 (answered_left (answered_left ha1))
    have h4 := more_of_check i1 (checked hu i1 hcov h2 (answered_left ha1))
    have i1' : At L ls n (h ++ t ++ c) := ⟨fun r hr => by rw [advanced_append_still (still_checks' h2)]; exact i1.1 r hr, i1.2⟩
    obtain ⟨done, r, rest, v, hp, hr, hf, rfl⟩ := h3
    have h5 := answered_threw ha1 (a := done.flatMap fun q => obtained q (v q)) (b := []) (o := .deref r) rfl
    obtain ⟨z, -, h6⟩ := deref_answer hu i1' h4 (still_obtained (order := done) (v := v)) hr
    rw [h6] at h5
    cases h5
  | @incThrew n t c d vs y h1 h2 h3 h4 =>
    have ha1 : Answered u ((h ++ t) ++ (c ++ d) ++ [.did (.call vs) true] ++ y) := by simpa using ha
    have ha2 := answered_left (answered_left ha1)
    obtain ⟨i1, i2⟩ := rounds_at hu hcov hs h1 (answered_left ha2)
    obtain ⟨h5, -⟩ := round_call hu hcov i1 h2 h3 ha2
    obtain ⟨done, r, rest, hd, rfl⟩ := h4
    have h6 := answered_threw ha1 (a := done.map fun q => .did (.inc q) ()) (b := []) (o := .inc r) rfl
    have hr : r ∈ walked ls := by rw [← hd]; simp
    have hnd : r ∉ done := by
      have := positions_nodup ls fun l => l.mode = .iteratorPair || l.mode = .iterator
      change (walked ls).Nodup at this
      rw [← hd] at this
      intro hmem
      exact (List.nodup_append.1 this).2.2 r hmem r (by simp) rfl
    have h7 : advanced r (done.map fun q => (.did (.inc q) () : Event α)) = 0 := by
      unfold advanced
      rw [List.countP_eq_zero]
      intro e he
      obtain ⟨q, hq, rfl⟩ := List.mem_map.1 he
      have : q ≠ r := fun hqr => hnd (hqr ▸ hq)
      simp [isInc, this]
    rw [hu.inc _ r ?_] at h6
    · cases h6
    · rw [advanced_append, h7, advanced_append_still still_call, advanced_append_still ((still_checks' h2).append (still_derefs h3)), i1.1 r hr]
      exact h5 r _ (lengthOf_walked hr)
  | running h1 =>
    obtain ⟨i1, i2⟩ := rounds_at hu hcov hs h1 ha
    exact .running i1.2 i2

end Makeshift.OwnIterators
