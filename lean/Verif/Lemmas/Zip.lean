import Verif.Spec.Zip
import Verif.Lemmas.MergeSizes

/-! Helper lemmas for zipped ranges. -/

namespace Makeshift

open Spec

variable {α σ β : Type}

/-- The iterator stands at position `p`: so do all leaves that have a position of their own. -/
def At (rs : List (Rng α)) (it : ZipIt) (p : Int) : Prop :=
  it.i = p ∧ List.Forall₂ (fun r q => r.mode = .iteratorPair ∨ r.mode = .iterator → q = p) rs it.pos

theorem forLeaves_ok {f : Rng α → Int → Outcome β} {P : Rng α → Int → Prop} {Q : Rng α → β → Prop}
    {rs : List (Rng α)} {ps : List Int} (hp : List.Forall₂ P rs ps)
    (h : ∀ r ∈ rs, ∀ p, P r p → ∃ b, f r p = .ok b ∧ Q r b) :
    ∃ bs, forLeaves f rs ps = .ok bs ∧ List.Forall₂ Q rs bs := by
  induction hp with
  | nil => exact ⟨[], rfl, .nil⟩
  | @cons r p rs ps hrp _ ih =>
    obtain ⟨b, hb, hq⟩ := h r (by simp) p hrp
    obtain ⟨bs, hbs, hqs⟩ := ih (fun r hr => h r (by simp [hr]))
    exact ⟨b :: bs, by simp [forLeaves, hb, hbs], .cons hq hqs⟩

theorem forLeaves_fail {f : Rng α → Int → Outcome β} {P : Rng α → Int → Prop} {e : Outcome (List β)} {e' : Outcome β}
    (he : ∀ g : β → Outcome (List β), e'.bind g = e) (he2 : ∀ g : List β → Outcome (List β), e.bind g = e)
    {rs : List (Rng α)} {ps : List Int} (hp : List.Forall₂ P rs ps)
    (h : ∀ r ∈ rs, ∀ p, P r p → (∃ b, f r p = .ok b) ∨ f r p = e')
    (hex : ∃ r ∈ rs, ∀ p, P r p → f r p = e') : forLeaves f rs ps = e := by
  induction hp with
  | nil => simp at hex
  | @cons r p rs ps hrp _ ih =>
    rcases h r (by simp) p hrp with ⟨b, hb⟩ | hb
    · have : ∃ r ∈ rs, ∀ p, P r p → f r p = e' ∨ (∃ b, f r p = .ok b ∧ f r p = e') := by
        obtain ⟨r', hr', hf⟩ := hex
        rcases List.mem_cons.mp hr' with rfl | hr'
        · -- contradiction unless e' is ok, which `he` forbids to matter
          have h1 := hf p hrp
          rw [hb] at h1
          exfalso
          have h2 := he (fun _ => .ok [])
          have h3 := he (fun _ => .ok [b])
          rw [← h1] at h2 h3
          simp only [Outcome.bind_ok] at h2 h3
          rw [← h2] at h3
          simp at h3
        · exact ⟨r', hr', fun p hp => Or.inl (hf p hp)⟩
      have hex' : ∃ r ∈ rs, ∀ p, P r p → f r p = e' := by
        obtain ⟨r', hr', hf⟩ := this
        exact ⟨r', hr', fun p hp => (hf p hp).elim id (fun ⟨_, _, h⟩ => h)⟩
      have := ih (fun r hr => h r (by simp [hr])) hex'
      simp only [forLeaves, hb, Outcome.bind_ok, this]
      exact he2 _
    · simp only [forLeaves, hb]
      exact he _

theorem forall2_of_all {R : Rng α → Int → Prop} {rs : List (Rng α)} {f : Rng α → Int} (h : ∀ r ∈ rs, R r (f r)) :
    List.Forall₂ R rs (rs.map f) := by
  induction rs with
  | nil => exact .nil
  | cons r rs ih => exact .cons (h r (by simp)) (ih (fun r hr => h r (by simp [hr])))

theorem at_begin (rs : List (Rng α)) : At rs (zipBegin rs) 0 :=
  ⟨rfl, forall2_of_all (fun _ _ _ => rfl)⟩

theorem readAt_ok {r : Rng α} {p : Int} (h0 : 0 ≤ p) (h1 : p < r.elems.length) :
    ∃ x, r.elems[p.toNat]? = some x ∧ readAt r p = .ok (.elem x) := by
  have : p.toNat < r.elems.length := by omega
  refine ⟨r.elems[p.toNat], List.getElem?_eq_getElem this, ?_⟩
  unfold readAt
  rw [if_neg (by omega), List.getElem?_eq_getElem this]

theorem readAt_ub {r : Rng α} {p : Int} (h : p < 0 ∨ r.elems.length ≤ p) : readAt r p = .ub := by
  unfold readAt
  by_cases h0 : p < 0
  · rw [if_pos h0]
  · rw [if_neg h0, List.getElem?_eq_none (by omega)]

theorem zipDeref_at {rs : List (Rng α)} {it : ZipIt} {p : Nat} (h : At rs it p)
    (hlen : ∀ r ∈ rs, IsReal r → p < r.elems.length) :
    ∃ args, zipDeref rs it = .ok args ∧ List.Forall₂ (ArgAt p) rs args := by
  obtain ⟨hi, hp⟩ := h
  refine forLeaves_ok hp ?_
  intro r hr q hq
  unfold leafDeref ArgAt
  cases hm : r.mode with
  | iteratorPair =>
    obtain ⟨x, hx, he⟩ := readAt_ok (r := r) (p := q) (by rw [hq (Or.inl hm)]; omega)
      (by rw [hq (Or.inl hm)]; have := hlen r hr (by simp [IsReal, hm]); omega)
    rw [hq (Or.inl hm)] at hx
    exact ⟨_, he, Or.inr ⟨by simp, x, by simpa using hx, rfl⟩⟩
  | iterator =>
    obtain ⟨x, hx, he⟩ := readAt_ok (r := r) (p := q) (by rw [hq (Or.inr hm)]; omega)
      (by rw [hq (Or.inr hm)]; have := hlen r hr (by simp [IsReal, hm]); omega)
    rw [hq (Or.inr hm)] at hx
    exact ⟨_, he, Or.inr ⟨by simp, x, by simpa using hx, rfl⟩⟩
  | index =>
    obtain ⟨x, hx, he⟩ := readAt_ok (r := r) (p := it.i) (by omega)
      (by have := hlen r hr (by simp [IsReal, hm]); omega)
    rw [hi] at hx
    exact ⟨_, he, Or.inr ⟨by simp, x, by simpa using hx, rfl⟩⟩
  | rangeIndex => exact ⟨_, rfl, Or.inl ⟨rfl, by rw [hi]⟩⟩

/-- A move of all leaves by `d`. -/
theorem move_at {rs : List (Rng α)} {it : ZipIt} {p d : Int} (h : At rs it p) (f : Rng α → Int → Outcome Int)
    (hf : ∀ r q, f r q = match r.mode with
      | .iteratorPair => movePos r q d
      | .iterator => movePos r q d
      | .index => .ok q
      | .rangeIndex => .ok q)
    (h0 : 0 ≤ p + d) (hlen : ∀ r ∈ rs, IsReal r → p + d ≤ r.elems.length) :
    ∃ ps, forLeaves f rs it.pos = .ok ps ∧ At rs ⟨it.i + d, ps⟩ (p + d) := by
  obtain ⟨hi, hp⟩ := h
  have := forLeaves_ok (f := f) (Q := fun r q => r.mode = .iteratorPair ∨ r.mode = .iterator → q = p + d) hp ?_
  · obtain ⟨ps, h1, h2⟩ := this
    exact ⟨ps, h1, by rw [hi], h2⟩
  · intro r hr q hq
    rw [hf]
    cases hm : r.mode with
    | iteratorPair =>
      have hl := hlen r hr (by simp [IsReal, hm])
      refine ⟨q + d, ?_, fun _ => by rw [hq (Or.inl hm)]⟩
      simp only [movePos]
      rw [hq (Or.inl hm), if_pos ⟨h0, hl⟩]
    | iterator =>
      have hl := hlen r hr (by simp [IsReal, hm])
      refine ⟨q + d, ?_, fun _ => by rw [hq (Or.inr hm)]⟩
      simp only [movePos]
      rw [hq (Or.inr hm), if_pos ⟨h0, hl⟩]
    | index => exact ⟨q, rfl, by simp⟩
    | rangeIndex => exact ⟨q, rfl, by simp⟩

theorem zipInc_at {rs : List (Rng α)} {it : ZipIt} {p : Int} (h : At rs it p) (h0 : 0 ≤ p + 1)
    (hlen : ∀ r ∈ rs, IsReal r → p + 1 ≤ r.elems.length) : ∃ it', zipInc rs it = .ok it' ∧ At rs it' (p + 1) := by
  obtain ⟨ps, h1, h2⟩ := move_at (d := 1) h leafInc (fun r q => rfl) h0 hlen
  exact ⟨_, by unfold zipInc; rw [h1]; rfl, h2⟩

theorem zipDec_at {rs : List (Rng α)} {it : ZipIt} {p : Int} (h : At rs it p) (h0 : 0 ≤ p - 1)
    (hlen : ∀ r ∈ rs, IsReal r → p - 1 ≤ r.elems.length) : ∃ it', zipDec rs it = .ok it' ∧ At rs it' (p - 1) := by
  obtain ⟨ps, h1, h2⟩ := move_at (d := -1) h leafDec (fun r q => rfl) h0 hlen
  exact ⟨_, by unfold zipDec; rw [h1]; rfl, h2⟩

theorem zipAdvance_at {rs : List (Rng α)} {it : ZipIt} {p d : Int} (h : At rs it p) (h0 : 0 ≤ p + d)
    (hlen : ∀ r ∈ rs, IsReal r → p + d ≤ r.elems.length) : ∃ it', zipAdvance rs it d = .ok it' ∧ At rs it' (p + d) := by
  obtain ⟨ps, h1, h2⟩ := move_at (d := d) h (leafAdvance d) (fun r q => rfl) h0 hlen
  exact ⟨_, by unfold zipAdvance; rw [h1]; rfl, h2⟩

/-! ## the end test -/

theorem isEnd2_spec (a b : Option Bool) :
    (∃ y, isEnd2 a b = .ok y ∧ (∀ e, y = some e ↔ a = some e ∨ b = some e)) ∨
    (isEnd2 a b = .failFast ∧ ∃ e, a = some e ∧ b = some !e) := by
  rcases a with _ | a <;> rcases b with _ | b
  · left; exact ⟨none, rfl, by simp⟩
  · left; exact ⟨some b, rfl, by simp⟩
  · left; exact ⟨some a, rfl, by simp⟩
  · cases a <;> cases b
    · left; exact ⟨some false, rfl, by simp⟩
    · right; exact ⟨rfl, false, rfl, rfl⟩
    · right; exact ⟨rfl, true, rfl, rfl⟩
    · left; exact ⟨some true, rfl, by simp⟩

theorem isEndVal_spec (l : List (Option Bool)) :
    (∃ y, isEndVal l = .ok y ∧ (∀ e, y = some e ↔ some e ∈ l)) ∨
    (isEndVal l = .failFast ∧ ∃ e, some e ∈ l ∧ some (!e) ∈ l) := by
  induction l using isEndVal.induct with
  | case1 => left; exact ⟨none, rfl, by simp⟩
  | case2 a => left; exact ⟨a, rfl, by intro e; simp [eq_comm]⟩
  | case3 a b =>
    rcases isEnd2_spec a b with ⟨y, hy, h⟩ | ⟨hy, e, h1, h2⟩
    · left; exact ⟨y, hy, fun e => by rw [h]; simp [eq_comm]⟩
    · right; exact ⟨hy, e, by simp [h1], by simp [h2]⟩
  | case4 a b c es ih =>
    simp only [isEndVal]
    rcases isEnd2_spec a b with ⟨x, hx, h1⟩ | ⟨hx, e, h1, h2⟩
    · rw [hx]
      simp only [Outcome.bind_ok]
      rcases ih with ⟨y, hy, h2⟩ | ⟨hy, e, h3, h4⟩
      · rw [hy]
        simp only [Outcome.bind_ok]
        rcases isEnd2_spec x y with ⟨z, hz, h3⟩ | ⟨hz, e, h3, h4⟩
        · left
          refine ⟨z, hz, fun e => ?_⟩
          rw [h3, h1, h2]
          simp only [List.mem_cons, eq_comm (a := some e)]; tauto
        · right
          refine ⟨hz, e, ?_, ?_⟩
          · rcases (h1 e).mp h3 with h | h <;> simp [h]
          · have := (h2 _).mp h4
            exact List.mem_cons_of_mem _ (List.mem_cons_of_mem _ this)
      · right
        rw [hy]
        exact ⟨rfl, e, List.mem_cons_of_mem _ (List.mem_cons_of_mem _ h3), List.mem_cons_of_mem _ (List.mem_cons_of_mem _ h4)⟩
    · right
      rw [hx]
      exact ⟨rfl, e, by simp [h1], by simp [h2]⟩

theorem isEndTy_mem : ∀ (l : List EndTy) (t : EndTy), isEndTy l = some t → (t = .bool ↔ EndTy.bool ∈ l)
  | [], t, ht => by simp [isEndTy] at ht; subst ht; simp
  | [a], t, ht => by simp [isEndTy] at ht; subst ht; cases a <;> simp
  | [a, b], t, ht => by simp [isEndTy] at ht; subst ht; cases a <;> cases b <;> simp [isEndTy2]
  | a :: b :: c :: es, t, ht => by
    simp only [isEndTy] at ht
    cases hc : isEndTy (c :: es) with
    | none => rw [hc] at ht; simp at ht
    | some u =>
      rw [hc] at ht
      simp only at ht
      split at ht
      · rename_i hb
        simp only [Option.some.injEq] at ht
        subst ht
        have := isEndTy_mem (c :: es) u hc
        simp only [List.mem_cons] at this ⊢
        cases a <;> cases b <;> cases u <;> simp_all [isEndTy2]
      · simp at ht

theorem isEndTy_iff : ∀ l : List EndTy,
    isEndTy l = some .bool ↔ EndTy.bool ∈ l ∧ ∀ k, 3 ≤ (l.drop (2 * k)).length → EndTy.bool ∈ l.drop (2 * k)
  | [] => by simp [isEndTy]
  | [a] => by
    simp only [isEndTy, Option.some.injEq]
    constructor
    · rintro rfl; exact ⟨by simp, fun k h => by rw [List.length_drop] at h; simp at h; omega⟩
    · rintro ⟨h, -⟩; simp at h; exact h.symm
  | [a, b] => by
    simp only [isEndTy, Option.some.injEq]
    constructor
    · intro h; exact ⟨by cases a <;> cases b <;> simp_all [isEndTy2], fun k h => by rw [List.length_drop] at h; simp at h; omega⟩
    · rintro ⟨h, -⟩; cases a <;> cases b <;> simp_all [isEndTy2]
  | a :: b :: c :: es => by
    have ih := isEndTy_iff (c :: es)
    have hdrop : ∀ k, (a :: b :: c :: es).drop (2 * (k + 1)) = (c :: es).drop (2 * k) := by
      intro k; rw [show 2 * (k + 1) = 2 * k + 1 + 1 by omega]; simp
    constructor
    · intro h
      have hmem := (isEndTy_mem _ _ h).mp rfl
      refine ⟨hmem, fun k hk => ?_⟩
      cases k with
      | zero => simpa using hmem
      | succ k =>
        rw [hdrop] at hk ⊢
        by_contra hno
        -- the recursive call is then ill-formed or yields nullopt on at least three arguments
        simp only [isEndTy] at h
        cases hc : isEndTy (c :: es) with
        | none => rw [hc] at h; simp at h
        | some u =>
          cases u with
          | bool => exact hno ((ih.mp hc).2 k hk)
          | nullopt =>
            match es, hc, hk with
            | [], _, hk => rw [List.length_drop] at hk; simp at hk; omega
            | [d], _, hk => rw [List.length_drop] at hk; simp at hk; omega
            | d :: e :: es, hc, _ =>
              simp only [isEndTy] at hc
              split at hc
              · split at hc <;> simp at hc
              · simp at hc
    · rintro ⟨h1, h2⟩
      have h2' : ∀ k, 3 ≤ ((c :: es).drop (2 * k)).length → EndTy.bool ∈ (c :: es).drop (2 * k) := by
        intro k hk; have := h2 (k + 1); rw [hdrop] at this; exact this hk
      by_cases hc : EndTy.bool ∈ c :: es
      · have := ih.mpr ⟨hc, h2'⟩
        simp only [isEndTy, this]
        cases a <;> cases b <;> simp [isEndTy2]
      · -- at most two arguments remain
        have hlen : (c :: es).length < 3 := by
          by_contra h; exact hc (by simpa using h2' 0 (by simpa using h))
        have hab : isEndTy2 a b = .bool := by
          simp only [List.mem_cons] at h1 hc
          cases a <;> cases b <;> simp_all [isEndTy2]
        have hb : ∀ t, isEndTy2 .bool t = .bool := by intro t; cases t <;> rfl
        match es, hlen with
        | [], _ => simp [isEndTy, hab, hb]
        | [d], _ => simp [isEndTy, hab, hb]
        | _ :: _ :: _, h => simp at h; omega

theorem mem_leavesIsEnd {rs : List (Rng α)} {it : ZipIt} {p : Int} (h : At rs it p) (e : Bool) :
    some e ∈ leavesIsEnd rs it.pos ↔ ∃ r ∈ rs, r.mode = .iteratorPair ∧ e = decide (p = r.elems.length) := by
  obtain ⟨-, hp⟩ := h
  generalize it.pos = ps at hp
  induction hp with
  | nil => simp [leavesIsEnd]
  | @cons r q rs ps hrq _ ih =>
    simp only [leavesIsEnd, List.mem_cons, ih]
    have : some e = leafIsEnd r q ↔ r.mode = .iteratorPair ∧ e = decide (p = r.elems.length) := by
      unfold leafIsEnd
      cases hm : r.mode <;> simp
      rw [hrq (Or.inl hm)]
    rw [this]
    constructor
    · rintro (h | ⟨r', hr', h⟩)
      · exact ⟨r, Or.inl rfl, h⟩
      · exact ⟨r', Or.inr hr', h⟩
    · rintro ⟨r', rfl | hr', h⟩
      · exact Or.inl h
      · exact Or.inr ⟨r', hr', h⟩

theorem zipIsEnd_unknown {rs : List (Rng α)} {it : ZipIt} {p : Int} (h : At rs it p)
    (hex : ∃ r ∈ rs, r.mode = .iteratorPair) :
    (∃ e, zipIsEnd rs (.static (-1)) it = .ok e ∧ ∀ r ∈ rs, r.mode = .iteratorPair → e = decide (p = r.elems.length)) ∨
    (zipIsEnd rs (.static (-1)) it = .failFast ∧ (∃ r ∈ rs, r.mode = .iteratorPair ∧ p = r.elems.length) ∧
      ∃ r ∈ rs, r.mode = .iteratorPair ∧ p ≠ r.elems.length) := by
  unfold zipIsEnd
  rw [if_pos rfl]
  rcases isEndVal_spec (leavesIsEnd rs it.pos) with ⟨y, hy, hs⟩ | ⟨hy, e, h1, h2⟩
  · left
    rw [hy]
    obtain ⟨r, hr, hm⟩ := hex
    have hyr := (hs _).mpr ((mem_leavesIsEnd h _).mpr ⟨r, hr, hm, rfl⟩)
    refine ⟨decide (p = r.elems.length), by simp [hyr], fun r' hr' hm' => ?_⟩
    have := (hs _).mpr ((mem_leavesIsEnd h _).mpr ⟨r', hr', hm', rfl⟩)
    rw [hyr] at this
    exact Option.some.inj this
  · right
    rw [hy]
    obtain ⟨r1, hr1, hm1, he1⟩ := (mem_leavesIsEnd h _).mp h1
    obtain ⟨r2, hr2, hm2, he2⟩ := (mem_leavesIsEnd h _).mp h2
    refine ⟨rfl, ?_⟩
    cases e with
    | true =>
      exact ⟨⟨r1, hr1, hm1, by simpa using he1⟩, ⟨r2, hr2, hm2, by simpa using he2⟩⟩
    | false =>
      exact ⟨⟨r2, hr2, hm2, by simpa using he2⟩, ⟨r1, hr1, hm1, by simpa using he1⟩⟩

theorem zipIsEnd_sized {rs : List (Rng α)} {it : ZipIt} {p : Int} {size : Size} (hs : size ≠ .static (-1)) (h : At rs it p) :
    (zipIsEnd rs size it = .ok (decide (p = size.value)) ∧
      ∀ r ∈ rs, r.mode = .iteratorPair → (p = r.elems.length ↔ p = size.value)) ∨
    (zipIsEnd rs size it = .failFast ∧
      ∃ r ∈ rs, r.mode = .iteratorPair ∧ ¬ (p = r.elems.length ↔ p = size.value)) := by
  obtain ⟨hi, hp⟩ := h
  unfold zipIsEnd
  rw [if_neg hs]
  simp only [hi]
  have heq : ∀ r : Rng α, (decide (p = r.elems.length) == decide (p = size.value)) = true ↔
      (p = r.elems.length ↔ p = size.value) := by
    intro r; rw [beq_iff_eq, decide_eq_decide]
  by_cases hall : ∀ r ∈ rs, r.mode = .iteratorPair → (p = r.elems.length ↔ p = size.value)
  · left
    obtain ⟨bs, hb, -⟩ := forLeaves_ok (f := leafCheckEnd (decide (p = size.value))) (Q := fun _ _ => True) hp (by
      intro r hr q hq
      unfold leafCheckEnd
      cases hm : r.mode with
      | iteratorPair =>
        simp only
        rw [hq (Or.inl hm), (heq r).mpr (hall r hr hm)]
        exact ⟨(), rfl, trivial⟩
      | iterator => exact ⟨(), rfl, trivial⟩
      | index => exact ⟨(), rfl, trivial⟩
      | rangeIndex => exact ⟨(), rfl, trivial⟩)
    rw [hb]
    exact ⟨rfl, hall⟩
  · right
    have hall' : ∃ r ∈ rs, r.mode = .iteratorPair ∧ ¬ (p = r.elems.length ↔ p = size.value) := by
      by_contra hc
      apply hall
      intro r hr hm
      by_contra h
      exact hc ⟨r, hr, hm, h⟩
    have hff : ∀ r : Rng α, r.mode = .iteratorPair → ¬ (p = r.elems.length ↔ p = size.value) → ∀ q,
        (r.mode = .iteratorPair ∨ r.mode = .iterator → q = p) → leafCheckEnd (decide (p = size.value)) r q = .failFast := by
      intro r hm hn q hq
      unfold leafCheckEnd
      rw [hm]
      simp only
      rw [hq (Or.inl hm)]
      cases hb : (decide (p = r.elems.length) == decide (p = size.value)) with
      | true => exact absurd ((heq r).mp hb) hn
      | false => rfl
    have := forLeaves_fail (f := leafCheckEnd (decide (p = size.value))) (e := .failFast) (e' := .failFast)
      (fun _ => rfl) (fun _ => rfl) hp (by
        intro r hr q hq
        by_cases hm : r.mode = .iteratorPair
        · by_cases hh : (p = r.elems.length ↔ p = size.value)
          · left
            unfold leafCheckEnd
            rw [hm]
            simp only
            rw [hq (Or.inl hm), (heq r).mpr hh]
            exact ⟨(), rfl⟩
          · right; exact hff r hm hh q hq
        · left
          unfold leafCheckEnd
          cases hm' : r.mode <;> simp_all) (by
        obtain ⟨r, hr, hm, hn⟩ := hall'
        exact ⟨r, hr, fun q hq => hff r hm hn q hq⟩)
    rw [this]
    exact ⟨rfl, hall'⟩

/-! ## the loop -/

/-- Running a loop body over argument tuples, until it returns. -/
def runBody (body : σ → List (Arg α) → σ × Bool) : σ → List (List (Arg α)) → σ × Bool
  | s, [] => (s, true)
  | s, t :: ts => if (body s t).2 then runBody body (body s t).1 ts else ((body s t).1, false)

/-- The tuples at positions `p, ..., p + ts.length - 1`. -/
def TuplesFrom (rs : List (Rng α)) (p : Nat) (ts : List (List (Arg α))) : Prop :=
  ∀ i args, ts[i]? = some args → List.Forall₂ (ArgAt (p + i)) rs args

theorem argAt_unique {i : Nat} {r : Rng α} {a b : Arg α} (h1 : ArgAt i r a) (h2 : ArgAt i r b) : a = b := by
  rcases h1 with ⟨h1, rfl⟩ | ⟨h1, x, hx, rfl⟩ <;> rcases h2 with ⟨h2, rfl⟩ | ⟨h2, y, hy, rfl⟩
  · rfl
  · exact absurd h1 h2
  · exact absurd h2 h1
  · rw [hx] at hy; rw [Option.some.inj hy]

theorem tuple_unique {i : Nat} {rs : List (Rng α)} {a b : List (Arg α)} (h1 : List.Forall₂ (ArgAt i) rs a)
    (h2 : List.Forall₂ (ArgAt i) rs b) : a = b := by
  induction h1 generalizing b with
  | nil => cases h2; rfl
  | cons h _ ih =>
    cases h2 with
    | cons h' h2' => rw [argAt_unique h h', ih h2']

theorem tuple_exists {i : Nat} {rs : List (Rng α)} (hlen : ∀ r ∈ rs, IsReal r → i < r.elems.length) :
    ∃ args, List.Forall₂ (ArgAt i) rs args := by
  induction rs with
  | nil => exact ⟨[], .nil⟩
  | cons r rs ih =>
    obtain ⟨as, has⟩ := ih (fun r hr => hlen r (by simp [hr]))
    by_cases hm : r.mode = .rangeIndex
    · exact ⟨.idx i :: as, .cons (Or.inl ⟨hm, rfl⟩) has⟩
    · exact ⟨.elem (r.elems[i]'(hlen r (by simp) hm)) :: as,
        .cons (Or.inr ⟨hm, _, List.getElem?_eq_getElem _, rfl⟩) has⟩

theorem tuplesFrom_exists {rs : List (Rng α)} (p n : Nat) (hlen : ∀ r ∈ rs, IsReal r → p + n ≤ r.elems.length) :
    ∃ ts, ts.length = n ∧ TuplesFrom rs p ts := by
  induction n generalizing p with
  | zero => exact ⟨[], rfl, by intro i args h; simp at h⟩
  | succ n ih =>
    obtain ⟨ts, h1, h2⟩ := ih (p + 1) (fun r hr hm => by have := hlen r hr hm; omega)
    obtain ⟨a, ha⟩ := tuple_exists (rs := rs) (i := p) (fun r hr hm => by have := hlen r hr hm; omega)
    refine ⟨a :: ts, by simp [h1], ?_⟩
    intro i args hi
    cases i with
    | zero => simp at hi; subst hi; simpa using ha
    | succ i =>
      have := h2 i args (by simpa using hi)
      rwa [show p + 1 + i = p + (i + 1) by omega] at this

theorem tuplesFrom_tail {rs : List (Rng α)} {p : Nat} {t : List (Arg α)} {ts : List (List (Arg α))}
    (h : TuplesFrom rs p (t :: ts)) : TuplesFrom rs (p + 1) ts := by
  intro i args hi
  have := h (i + 1) args (by simpa using hi)
  rwa [show p + (i + 1) = p + 1 + i by omega] at this

/-- The loop consumes the tuples as long as the end test says no. -/
theorem zipLoop_steps (rs : List (Rng α)) (size : Size) (body : σ → List (Arg α) → σ × Bool)
    (ts : List (List (Arg α))) (p : Nat) (it : ZipIt) (s : σ) (fuel : Nat) (h : At rs it p) (hts : TuplesFrom rs p ts)
    (hlen : ∀ r ∈ rs, IsReal r → p + ts.length ≤ r.elems.length)
    (hend : ∀ j : Nat, p ≤ j → j < p + ts.length → ∀ it', At rs it' j → zipIsEnd rs size it' = .ok false) :
    ∃ it', At rs it' (p + ts.length : Nat) ∧ zipLoop rs size body (fuel + ts.length) it s =
      if (runBody body s ts).2 then zipLoop rs size body fuel it' (runBody body s ts).1
      else .done (runBody body s ts).1 (.ok ()) := by
  induction ts generalizing p it s with
  | nil => exact ⟨it, by simpa using h, by simp [runBody]⟩
  | cons t ts ih =>
    simp only [List.length_cons] at hlen hend
    obtain ⟨args, hd, hargs⟩ := zipDeref_at h (fun r hr hm => by have := hlen r hr hm; omega)
    have hta : List.Forall₂ (ArgAt p) rs t := by simpa using hts 0 t rfl
    have : args = t := tuple_unique hargs hta
    subst this
    obtain ⟨it1, hi1, ha1⟩ := zipInc_at h (by omega) (fun r hr hm => by have := hlen r hr hm; omega)
    have hit := ih (p + 1) it1 (body s args).1 (by simpa using ha1) (tuplesFrom_tail hts)
      (fun r hr hm => by have := hlen r hr hm; omega) (fun j h1 h2 => hend j (by omega) (by omega))
    obtain ⟨it2, ha2, heq⟩ := hit
    refine ⟨it2, by rw [List.length_cons, show p + (ts.length + 1) = p + 1 + ts.length by omega]; exact ha2, ?_⟩
    rw [List.length_cons, show fuel + (ts.length + 1) = (fuel + ts.length) + 1 by omega, zipLoop,
      hend p (by omega) (by omega) it h, hd]
    simp only [runBody]
    by_cases hb : (body s args).2 = true
    · simp only [hb, if_true]; rw [hi1]; exact heq
    · simp only [hb]; simp

/-! ## valid arguments -/

theorem validRange_isSize {r : Rng α} (h : ValidRange r) : IsSize r.size := by
  unfold ValidRange at h
  cases hm : r.mode with
  | iteratorPair => rw [hm] at h; rcases h with h | h | h <;> rw [h] <;> simp [IsSize]
  | iterator => rw [hm] at h; rcases h with h | h <;> rw [h] <;> simp [IsSize]
  | index => rw [hm] at h; rcases h with h | h <;> rw [h] <;> simp [IsSize]
  | rangeIndex => rw [hm] at h; simp only at h; rw [h]; simp [IsSize]

theorem validRange_known {r : Rng α} (h : ValidRange r) {n : Int} (hk : known r.size = some n) : n = r.elems.length ∧ IsReal r := by
  unfold ValidRange at h
  have hstat : ∀ l : Nat, known (.static l) = some (l : Int) := by
    intro l; simp only [known]; rw [if_neg (by omega)]
  cases hm : r.mode with
  | iteratorPair =>
    rw [hm] at h
    rcases h with h | h | h <;> rw [h] at hk
    · simp [known] at hk
    · simp only [known, Option.some.injEq] at hk; exact ⟨hk.symm, by simp [IsReal, hm]⟩
    · rw [hstat] at hk; exact ⟨(Option.some.inj hk).symm, by simp [IsReal, hm]⟩
  | iterator =>
    rw [hm] at h
    rcases h with h | h <;> rw [h] at hk
    · simp only [known, Option.some.injEq] at hk; exact ⟨hk.symm, by simp [IsReal, hm]⟩
    · rw [hstat] at hk; exact ⟨(Option.some.inj hk).symm, by simp [IsReal, hm]⟩
  | index =>
    rw [hm] at h
    rcases h with h | h <;> rw [h] at hk
    · simp only [known, Option.some.injEq] at hk; exact ⟨hk.symm, by simp [IsReal, hm]⟩
    · rw [hstat] at hk; exact ⟨(Option.some.inj hk).symm, by simp [IsReal, hm]⟩
  | rangeIndex => rw [hm] at h; simp only at h; rw [h] at hk; simp [known] at hk

theorem validRange_unsized {r : Rng α} (h : ValidRange r) (hr : IsReal r) (hk : known r.size = none) :
    r.mode = .iteratorPair := by
  unfold ValidRange at h
  have hstat : ∀ l : Nat, known (.static l) = some (l : Int) := by
    intro l; simp only [known]; rw [if_neg (by omega)]
  cases hm : r.mode with
  | iteratorPair => rfl
  | iterator =>
    rw [hm] at h
    rcases h with h | h <;> rw [h] at hk
    · simp [known] at hk
    · rw [hstat] at hk; simp at hk
  | index =>
    rw [hm] at h
    rcases h with h | h <;> rw [h] at hk
    · simp [known] at hk
    · rw [hstat] at hk; simp at hk
  | rangeIndex => exact absurd hm hr

theorem known_none {s : Size} (h : known s = none) : s = .static (-1) := by
  cases s with
  | static n => simp only [known] at h; split at h <;> simp_all
  | dyn n => simp [known] at h

theorem value_of_known {s : Size} {n : Int} (h : known s = some n) : s.value = n ∧ s ≠ .static (-1) := by
  cases s with
  | static m => simp only [known] at h; split at h <;> simp_all [Size.value]
  | dyn m => simpa [known, Size.value] using h

/-- In a valid argument list the loop condition compiles. -/
theorem sentinel_ok {rs : List (Rng α)} (hv : ValidArgs rs) {z : Size} (hz : mergeSizes (rs.map Rng.size) = .ok z)
    (hsum : Summary (rs.map Rng.size) z) : sentinelWellFormed rs z = true := by
  obtain ⟨hval, ⟨r0, hr0, hreal⟩, hlc⟩ := hv
  unfold sentinelWellFormed
  by_cases h : z = .static unknownSize
  · rw [if_pos h]
    have hnone : ∀ r ∈ rs, known r.size = none := by
      intro r hr
      cases hk : known r.size with
      | none => rfl
      | some n =>
        have := hsum.all r.size (List.mem_map_of_mem hr) n hk
        rw [h] at this; simp [known] at this
    have hmode : ∀ r ∈ rs, leafEndTy r = .bool ↔ IsReal r := by
      intro r hr
      unfold leafEndTy
      constructor
      · intro he hc; rw [hc] at he; simp at he
      · intro hR; rw [if_pos (validRange_unsized (hval r hr) hR (hnone r hr))]
    rw [decide_eq_true_iff, isEndTy_iff]
    constructor
    · exact List.mem_map.mpr ⟨r0, hr0, (hmode r0 hr0).mpr hreal⟩
    · intro k hk
      rw [← List.map_drop] at hk ⊢
      rcases hlc with ⟨r, hr, hne⟩ | hlc
      · exact absurd (known_none (hnone r hr)) hne
      · obtain ⟨r, hr, hR⟩ := hlc k (by simpa using hk)
        exact List.mem_map.mpr ⟨r, hr, (hmode r (List.mem_of_mem_drop hr)).mpr hR⟩
  · rw [if_neg h]

theorem not_all_index {rs : List (Rng α)} (h : ∃ r ∈ rs, IsReal r) : rs.all (fun r => r.mode = .rangeIndex) = false := by
  obtain ⟨r, hr, hm⟩ := h
  rw [List.all_eq_false]
  exact ⟨r, hr, by simpa [IsReal] using hm⟩

theorem sizes_ok {rs : List (Rng α)} (h : ∀ r ∈ rs, ValidRange r) : ∀ s ∈ rs.map Rng.size, IsSize s := by
  intro s hs
  obtain ⟨r, hr, rfl⟩ := List.mem_map.mp hs
  exact validRange_isSize (h r hr)

theorem minimum_exists (l : List Nat) (h : l ≠ []) : ∃ m ∈ l, ∀ x ∈ l, m ≤ x := by
  induction l with
  | nil => exact absurd rfl h
  | cons a l ih =>
    by_cases hl : l = []
    · subst hl; exact ⟨a, by simp, by simp⟩
    · obtain ⟨m, hm, hle⟩ := ih hl
      by_cases ham : a ≤ m
      · refine ⟨a, by simp, fun x hx => ?_⟩
        rcases List.mem_cons.mp hx with rfl | hx
        · omega
        · have := hle x hx; omega
      · refine ⟨m, by simp [hm], fun x hx => ?_⟩
        rcases List.mem_cons.mp hx with rfl | hx
        · omega
        · exact hle x hx

/-- The length of the shortest range. -/
theorem shortest_exists {rs : List (Rng α)} (h : ∃ r ∈ rs, IsReal r) :
    ∃ m : Nat, (∃ r ∈ rs, IsReal r ∧ r.elems.length = m) ∧ ∀ r ∈ rs, IsReal r → m ≤ r.elems.length := by
  classical
  obtain ⟨r0, hr0, hR0⟩ := h
  obtain ⟨m, hm, hle⟩ := minimum_exists ((rs.filter (fun r => decide (IsReal r))).map (fun r => r.elems.length)) (by
    intro hc
    have : r0.elems.length ∈ (rs.filter (fun r => decide (IsReal r))).map (fun r => r.elems.length) :=
      List.mem_map.mpr ⟨r0, List.mem_filter.mpr ⟨hr0, by simpa using hR0⟩, rfl⟩
    rw [hc] at this; simp at this)
  obtain ⟨r, hr, rfl⟩ := List.mem_map.mp hm
  rw [List.mem_filter] at hr
  exact ⟨_, ⟨r, hr.1, by simpa using hr.2, rfl⟩,
    fun r' hr' hR' => hle _ (List.mem_map.mpr ⟨r', List.mem_filter.mpr ⟨hr', by simpa using hR'⟩, rfl⟩)⟩

open Classical in
/-- What any of the algorithms does: if the sizes cannot be merged, it fails at once; otherwise it runs its body over the tuples
up to the length `m` of the shortest range, and then succeeds or fails fast according to whether all lengths agree. -/
theorem zipAlgorithm_exact (rs : List (Rng α)) (hv : ValidArgs rs) (body : σ → List (Arg α) → σ × Bool) (init : σ) (m : Nat)
    (hm : ∃ r ∈ rs, IsReal r ∧ r.elems.length = m) (hmin : ∀ r ∈ rs, IsReal r → m ≤ r.elems.length) (fuel : Nat)
    (hfuel : m < fuel) :
    (¬ Consistent (rs.map Rng.size) ∧ ¬ AllLength rs m ∧
      ((zipAlgorithm rs body fuel init = .illFormed ∧ mergeSizes (rs.map Rng.size) = .staticMismatch) ∨
        zipAlgorithm rs body fuel init = .done init .failFast)) ∨
    Consistent (rs.map Rng.size) ∧ ∃ ts, Zipped rs m ts ∧ zipAlgorithm rs body fuel init =
      .done (runBody body init ts).1 (if (runBody body init ts).2 then (if AllLength rs m then .ok () else .failFast) else .ok ()) := by
  classical
  obtain ⟨hval, hex, hlc⟩ := hv
  have hv : ValidArgs rs := ⟨hval, hex, hlc⟩
  unfold zipAlgorithm
  rw [not_all_index hex]
  simp only [Bool.false_eq_true, if_false]
  rcases mergeSizes_spec (rs.map Rng.size) (sizes_ok hval) with ⟨z, hz, hsum⟩ | ⟨hno, hinc⟩
  · right
    rw [hz]
    simp only
    rw [sentinel_ok hv hz hsum, if_pos rfl]
    obtain ⟨ts, hl, hts⟩ := tuplesFrom_exists (rs := rs) 0 m (by simpa using hmin)
    refine ⟨hsum.consistent, ts, ⟨hl, by intro i args hi; simpa using hts i args hi⟩, ?_⟩
    -- the end test before and at position m
    have hkey : (∀ j : Nat, j < m → ∀ it', At rs it' j → zipIsEnd rs z it' = .ok false) ∧
        (∀ it', At rs it' (m : Nat) → zipIsEnd rs z it' = if AllLength rs m then .ok true else .failFast) := by
      cases hk : known z with
      | none =>
        have hz' := hsum.none hk
        subst hz'
        have hpair : ∀ r ∈ rs, IsReal r → r.mode = .iteratorPair := by
          intro r hr hR
          refine validRange_unsized (hval r hr) hR ?_
          cases hkr : known r.size with
          | none => rfl
          | some n => have := hsum.all r.size (List.mem_map_of_mem hr) n hkr; rw [hk] at this; simp at this
        obtain ⟨r0, hr0, hR0, hl0⟩ := hm
        have hex' : ∃ r ∈ rs, r.mode = .iteratorPair := ⟨r0, hr0, hpair r0 hr0 hR0⟩
        constructor
        · intro j hj it' hat
          rcases zipIsEnd_unknown hat hex' with ⟨e, he, hall⟩ | ⟨-, ⟨r, hr, hmode, hp⟩, -⟩
          · rw [he, hall r0 hr0 (hpair r0 hr0 hR0)]
            congr 1
            simp only [decide_eq_false_iff_not]; omega
          · have := hmin r hr (by simp [IsReal, hmode]); omega
        · intro it' hat
          rcases zipIsEnd_unknown hat hex' with ⟨e, he, hall⟩ | ⟨hf, -, ⟨r, hr, hmode, hp⟩⟩
          · have h0 := hall r0 hr0 (hpair r0 hr0 hR0)
            have htrue : e = true := by rw [h0]; simp only [decide_eq_true_eq]; omega
            subst htrue
            have hA : AllLength rs m := by
              intro r hr hR
              have := hall r hr (hpair r hr hR)
              have := of_decide_eq_true this.symm
              omega
            rw [he, if_pos hA]
          · have hA : ¬ AllLength rs m := by
              intro hA
              have := hA r hr (by simp [IsReal, hmode])
              omega
            rw [hf, if_neg hA]
      | some n =>
        obtain ⟨hval', hne⟩ := value_of_known hk
        obtain ⟨s, hs, hks⟩ := hsum.some n hk
        obtain ⟨r1, hr1, rfl⟩ := List.mem_map.mp hs
        obtain ⟨hn1, hR1⟩ := validRange_known (hval r1 hr1) hks
        have hmn : (m : Int) ≤ n := by have := hmin r1 hr1 hR1; omega
        -- ranges that are not iterator pairs have length n
        have hother : ∀ r ∈ rs, IsReal r → r.mode ≠ .iteratorPair → (r.elems.length : Int) = n := by
          intro r hr hR hp
          cases hkr : known r.size with
          | none => exact absurd (validRange_unsized (hval r hr) hR hkr) hp
          | some k =>
            have h1 := hsum.all r.size (List.mem_map_of_mem hr) k hkr
            rw [hk] at h1
            have := (validRange_known (hval r hr) hkr).1
            have h2 := Option.some.inj h1
            omega
        constructor
        · intro j hj it' hat
          rcases zipIsEnd_sized hne hat with ⟨he, -⟩ | ⟨-, r, hr, hmode, hnot⟩
          · rw [he]
            congr 1
            simp only [decide_eq_false_iff_not]; omega
          · exfalso
            apply hnot
            have := hmin r hr (by simp [IsReal, hmode])
            constructor <;> intro h <;> omega
        · intro it' hat
          rcases zipIsEnd_sized hne hat with ⟨he, hall⟩ | ⟨hf, r, hr, hmode, hnot⟩
          · -- all iterator pairs agree
            have hmn' : (m : Int) = n := by
              obtain ⟨r0, hr0, hR0, hl0⟩ := hm
              by_cases hp : r0.mode = .iteratorPair
              · have := (hall r0 hr0 hp).mp (by omega); omega
              · have := hother r0 hr0 hR0 hp; omega
            have hA : AllLength rs m := by
              intro r hr hR
              by_cases hp : r.mode = .iteratorPair
              · have := (hall r hr hp).mpr (by omega); omega
              · have := hother r hr hR hp; omega
            rw [he, if_pos hA]
            congr 1
            simp only [decide_eq_true_eq]; omega
          · have hA : ¬ AllLength rs m := by
              intro hA
              apply hnot
              have h1 := hA r hr (by simp [IsReal, hmode])
              have h2 := hA r1 hr1 hR1
              constructor <;> intro h <;> omega
            rw [hf, if_neg hA]
    obtain ⟨f', rfl⟩ : ∃ f', fuel = (f' + 1) + ts.length := ⟨fuel - 1 - ts.length, by omega⟩
    obtain ⟨it', hat, heq⟩ := zipLoop_steps rs z body ts 0 (zipBegin rs) init (f' + 1) (at_begin rs) hts
      (by simpa [hl] using hmin) (fun j _ hj => hkey.1 j (by omega))
    rw [heq]
    cases hb : (runBody body init ts).2 with
    | false => simp
    | true =>
      simp only [if_true]
      rw [zipLoop, hkey.2 it' (by rw [Nat.zero_add, hl] at hat; exact hat)]
      by_cases hA : AllLength rs m
      · simp [hA]
      · simp [hA]
  · left
    refine ⟨hinc, ?_⟩
    constructor
    · intro hA
      apply hinc
      intro s hs t ht a b ha hb
      obtain ⟨r, hr, rfl⟩ := List.mem_map.mp hs
      obtain ⟨r', hr', rfl⟩ := List.mem_map.mp ht
      obtain ⟨h1, hR1⟩ := validRange_known (hval r hr) ha
      obtain ⟨h2, hR2⟩ := validRange_known (hval r' hr') hb
      have h3 := hA r hr hR1
      have h4 := hA r' hr' hR2
      omega
    · cases hr : mergeSizes (rs.map Rng.size) with
      | ok z => exact absurd hr (hno z)
      | staticMismatch => left; exact ⟨rfl, rfl⟩
      | failFast => right; rfl

open Classical in
/-- The same without saying which of the cases it is. -/
theorem zipAlgorithm_spec (rs : List (Rng α)) (hv : ValidArgs rs) (body : σ → List (Arg α) → σ × Bool) (init : σ) (m : Nat)
    (hm : ∃ r ∈ rs, IsReal r ∧ r.elems.length = m) (hmin : ∀ r ∈ rs, IsReal r → m ≤ r.elems.length) (fuel : Nat)
    (hfuel : m < fuel) :
    (¬ AllLength rs m ∧ ((zipAlgorithm rs body fuel init = .illFormed ∧ mergeSizes (rs.map Rng.size) = .staticMismatch) ∨
        zipAlgorithm rs body fuel init = .done init .failFast)) ∨
    ∃ ts, Zipped rs m ts ∧ zipAlgorithm rs body fuel init =
      .done (runBody body init ts).1 (if (runBody body init ts).2 then (if AllLength rs m then .ok () else .failFast) else .ok ()) := by
  rcases zipAlgorithm_exact rs hv body init m hm hmin fuel hfuel with ⟨_, h⟩ | ⟨_, h⟩
  · exact .inl h
  · exact .inr h

/-- Sizes which are reported are lengths, so they are consistent if these agree. -/
theorem consistent_iff {rs : List (Rng α)} (hv : ∀ r ∈ rs, ValidRange r) : Consistent (rs.map Rng.size) ↔
    ∀ r ∈ rs, ∀ r' ∈ rs, r.size ≠ .static (-1) → r'.size ≠ .static (-1) → r.elems.length = r'.elems.length := by
  have hkn : ∀ r ∈ rs, r.size ≠ .static (-1) → known r.size = some (r.elems.length : Int) := by
    intro r hr hne
    cases hk : known r.size with
    | none => exact absurd (known_none hk) hne
    | some n => rw [(validRange_known (hv r hr) hk).1]
  constructor
  · intro h r hr r' hr' h1 h2
    have := h _ (List.mem_map_of_mem hr) _ (List.mem_map_of_mem hr') _ _ (hkn r hr h1) (hkn r' hr' h2)
    omega
  · intro h s hs t ht a b ha hb
    obtain ⟨r, hr, rfl⟩ := List.mem_map.mp hs
    obtain ⟨r', hr', rfl⟩ := List.mem_map.mp ht
    have h1 := (validRange_known (hv r hr) ha).1
    have h2 := (validRange_known (hv r' hr') hb).1
    have := h r hr r' hr' (value_of_known ha).2 (value_of_known hb).2
    omega

/-- All lengths agree: the body runs over all tuples. -/
theorem zipAlgorithm_equal (rs : List (Rng α)) (hv : ValidArgs rs) (body : σ → List (Arg α) → σ × Bool) (init : σ) (n : Nat)
    (hn : AllLength rs n) (fuel : Nat) (hfuel : n < fuel) :
    ∃ ts, Zipped rs n ts ∧ zipAlgorithm rs body fuel init = .done (runBody body init ts).1 (.ok ()) := by
  obtain ⟨r0, hr0, hR0⟩ := hv.2.1
  rcases zipAlgorithm_spec rs hv body init n ⟨r0, hr0, hR0, hn r0 hr0 hR0⟩ (fun r hr hR => by have := hn r hr hR; omega)
    fuel hfuel with ⟨hno, -⟩ | ⟨ts, hz, heq⟩
  · exact absurd hn hno
  · refine ⟨ts, hz, ?_⟩
    rw [heq]
    simp [hn]

theorem runBody_log (s : List (List (Arg α))) (ts : List (List (Arg α))) :
    runBody (fun calls args => (calls ++ [args], true)) s ts = (s ++ ts, true) := by
  induction ts generalizing s with
  | nil => simp [runBody]
  | cons t ts ih => simp [runBody, ih]

/-- A search: returns `hit` at the first tuple for which `stop` holds, `miss` if there is none. -/
theorem search_spec (stop : List (Arg α) → Bool) (hit miss : Bool) (ts : List (List (Arg α))) (c : List (List (Arg α))) :
    (runBody (fun (s : Bool × List (List (Arg α))) args =>
      if stop args then ((hit, s.2 ++ [args]), false) else ((s.1, s.2 ++ [args]), true)) (miss, c) ts).1 =
    (if ts.any stop then hit else miss, c ++ ts.takeWhile (fun t => !stop t) ++ (ts.dropWhile (fun t => !stop t)).take 1) := by
  induction ts generalizing c with
  | nil => simp [runBody]
  | cons t ts ih =>
    simp only [runBody]
    by_cases ht : stop t = true
    · simp [ht]
    · simp only [ht, Bool.false_eq_true, if_false, if_true]
      rw [ih]
      simp [ht]

/-! ## random access -/

theorem walk_at {rs : List (Rng α)} {n : Nat} (hn : AllLength rs n) (ms : List Move) {it : ZipIt} {p : Int} (h : At rs it p)
    (hs : StaysIn n ms p) : ∃ it', walk rs ms it = .ok it' ∧ At rs it' (destination ms p) ∧
      0 ≤ destination ms p ∧ destination ms p ≤ n := by
  induction ms generalizing it p with
  | nil => exact ⟨it, rfl, h, hs.1, hs.2⟩
  | cons m ms ih =>
    obtain ⟨_, _, hs⟩ := hs
    have hb : 0 ≤ p + m.shift ∧ p + m.shift ≤ n := by cases ms with
      | nil => exact hs
      | cons m' ms => exact ⟨hs.1, hs.2.1⟩
    have hlen : ∀ r ∈ rs, IsReal r → p + m.shift ≤ r.elems.length := by
      intro r hr hR; have := hn r hr hR; omega
    have : ∃ it1, m.take rs it = .ok it1 ∧ At rs it1 (p + m.shift) := by
      cases m with
      | inc => exact zipInc_at h hb.1 hlen
      | dec => exact zipDec_at h hb.1 hlen
      | add d => exact zipAdvance_at h hb.1 hlen
      | sub d => exact zipAdvance_at h hb.1 hlen
    obtain ⟨it1, h1, ha1⟩ := this
    obtain ⟨it2, h2, ha2⟩ := ih ha1 hs
    exact ⟨it2, by simp only [walk, h1, Outcome.bind_ok, h2], ha2⟩

theorem zipSubscript_at {rs : List (Rng α)} {it : ZipIt} {p d : Int} {q : Nat} (h : At rs it p) (hq : p + d = q)
    (hlen : ∀ r ∈ rs, IsReal r → q < r.elems.length) :
    ∃ args, zipSubscript rs it d = .ok args ∧ List.Forall₂ (ArgAt q) rs args := by
  obtain ⟨hi, hp⟩ := h
  refine forLeaves_ok hp ?_
  intro r hr q' hq'
  unfold leafDerefAt ArgAt
  cases hm : r.mode with
  | iteratorPair =>
    obtain ⟨x, hx, he⟩ := readAt_ok (r := r) (p := q' + d) (by rw [hq' (Or.inl hm)]; omega)
      (by rw [hq' (Or.inl hm)]; have := hlen r hr (by simp [IsReal, hm]); omega)
    rw [hq' (Or.inl hm), hq] at hx
    exact ⟨_, he, Or.inr ⟨by simp, x, by simpa using hx, rfl⟩⟩
  | iterator =>
    obtain ⟨x, hx, he⟩ := readAt_ok (r := r) (p := q' + d) (by rw [hq' (Or.inr hm)]; omega)
      (by rw [hq' (Or.inr hm)]; have := hlen r hr (by simp [IsReal, hm]); omega)
    rw [hq' (Or.inr hm), hq] at hx
    exact ⟨_, he, Or.inr ⟨by simp, x, by simpa using hx, rfl⟩⟩
  | index =>
    obtain ⟨x, hx, he⟩ := readAt_ok (r := r) (p := it.i + d) (by omega)
      (by have := hlen r hr (by simp [IsReal, hm]); omega)
    rw [hi, hq] at hx
    exact ⟨_, he, Or.inr ⟨by simp, x, by simpa using hx, rfl⟩⟩
  | rangeIndex => exact ⟨_, rfl, Or.inl ⟨rfl, by rw [hi, hq]⟩⟩

/-- The size of zipped ranges of equal length, one of them sized. -/
theorem size_value {rs : List (Rng α)} (hval : ∀ r ∈ rs, ValidRange r) {z : Size} (hz : mergeSizes (rs.map Rng.size) = .ok z)
    (hne : z ≠ .static (-1)) : ∃ r ∈ rs, IsReal r ∧ z.value = r.elems.length ∧ r.size ≠ .static (-1) := by
  rcases mergeSizes_spec (rs.map Rng.size) (sizes_ok hval) with ⟨z', hz', hsum⟩ | ⟨hno, -⟩
  · rw [hz] at hz'; cases hz'
    cases hk : known z with
    | none => exact absurd (known_none hk) hne
    | some n =>
      obtain ⟨s, hs, hks⟩ := hsum.some n hk
      obtain ⟨r, hr, rfl⟩ := List.mem_map.mp hs
      obtain ⟨h1, h2⟩ := validRange_known (hval r hr) hks
      refine ⟨r, hr, h2, by rw [(value_of_known hk).1, h1], (value_of_known hks).2⟩
  · exact absurd hz (hno z)

/-- Sized ranges all have the length the merged size says. -/
theorem sized_length {rs : List (Rng α)} (hval : ∀ r ∈ rs, ValidRange r) {z : Size} (hz : mergeSizes (rs.map Rng.size) = .ok z)
    {r : Rng α} (hr : r ∈ rs) (hs : r.size ≠ .static (-1)) : z.value = r.elems.length ∧ z ≠ .static (-1) := by
  rcases mergeSizes_spec (rs.map Rng.size) (sizes_ok hval) with ⟨z', hz', hsum⟩ | ⟨hno, -⟩
  · rw [hz] at hz'; cases hz'
    cases hk : known r.size with
    | none => exact absurd (known_none hk) hs
    | some n =>
      have := hsum.all r.size (List.mem_map_of_mem hr) n hk
      have h1 := validRange_known (hval r hr) hk
      exact ⟨by rw [(value_of_known this).1, h1.1], (value_of_known this).2⟩
  · exact absurd hz (hno z)

theorem merge_equal {rs : List (Rng α)} (hval : ∀ r ∈ rs, ValidRange r) {n : Nat} (hn : AllLength rs n) :
    ∃ z, mergeSizes (rs.map Rng.size) = .ok z := by
  rcases mergeSizes_spec (rs.map Rng.size) (sizes_ok hval) with ⟨z, hz, -⟩ | ⟨-, hinc⟩
  · exact ⟨z, hz⟩
  · exfalso
    apply hinc
    intro s hs t ht a b ha hb
    obtain ⟨r, hr, rfl⟩ := List.mem_map.mp hs
    obtain ⟨r', hr', rfl⟩ := List.mem_map.mp ht
    obtain ⟨h1, hR1⟩ := validRange_known (hval r hr) ha
    obtain ⟨h2, hR2⟩ := validRange_known (hval r' hr') hb
    have h3 := hn r hr hR1
    have h4 := hn r' hr' hR2
    omega

theorem zipEnd_at {rs : List (Rng α)} {n : Nat} (hn : AllLength rs n) {z : Size} (hz : z.value = n)
    (hno : ∀ r ∈ rs, r.mode ≠ .iterator) : At rs (zipEnd z rs) n := by
  refine ⟨hz, forall2_of_all (fun r hr h => ?_)⟩
  rcases h with h | h
  · unfold leafEnd
    rw [h]
    have := hn r hr (by simp [IsReal, h])
    simp only; omega
  · exact absurd h (hno r hr)

/-- The loop over a common range consumes the tuples. -/
theorem zipCommonLoop_steps (rs : List (Rng α)) (stop : ZipIt) (ts : List (List (Arg α))) (p : Nat) (it : ZipIt)
    (s : List (List (Arg α))) (fuel : Nat) (h : At rs it p) (hts : TuplesFrom rs p ts)
    (hlen : ∀ r ∈ rs, IsReal r → p + ts.length ≤ r.elems.length) (hstop : (p + ts.length : Nat) ≤ stop.i) :
    ∃ it', At rs it' (p + ts.length : Nat) ∧ zipCommonLoop rs stop (fuel + ts.length) it s =
      zipCommonLoop rs stop fuel it' (s ++ ts) := by
  induction ts generalizing p it s with
  | nil => exact ⟨it, by simpa using h, by simp⟩
  | cons t ts ih =>
    simp only [List.length_cons] at hlen hstop
    obtain ⟨args, hd, hargs⟩ := zipDeref_at h (fun r hr hm => by have := hlen r hr hm; omega)
    have hta : List.Forall₂ (ArgAt p) rs t := by simpa using hts 0 t rfl
    have : args = t := tuple_unique hargs hta
    subst this
    obtain ⟨it1, hi1, ha1⟩ := zipInc_at h (by omega) (fun r hr hm => by have := hlen r hr hm; omega)
    obtain ⟨it2, ha2, heq⟩ := ih (p + 1) it1 (s ++ [args]) (by simpa using ha1) (tuplesFrom_tail hts)
      (fun r hr hm => by have := hlen r hr hm; omega) (by omega)
    refine ⟨it2, by rw [List.length_cons, show p + (ts.length + 1) = p + 1 + ts.length by omega]; exact ha2, ?_⟩
    have hne : zipEq it stop = false := by
      unfold zipEq
      rw [h.1, beq_eq_false_iff_ne]
      omega
    rw [List.length_cons, show fuel + (ts.length + 1) = (fuel + ts.length) + 1 by omega, zipCommonLoop, hne, hd]
    simp only [Bool.false_eq_true, if_false, hi1]
    rw [heq]
    simp

end Makeshift
