import Mathlib.Data.List.Forall2
import Verif.Spec.RowMoves

/-! Lemmas about programs which move rows. -/

namespace Makeshift.Soa

open Makeshift.Spec.Soa

variable {α β : Type}

theorem present_eq (r : List (Option α)) : present r = valuesOf r := by
  induction r with
  | nil => rfl
  | cons a r ih =>
    cases a with
    | none => simp [present, valuesOf]
    | some v =>
      rw [present, ih]
      by_cases h : r.all (·.isSome) <;> simp [valuesOf, h]

theorem present_some {r : List (Option α)} {t : List α} (h : present r = some t) : r = t.map some := by
  induction r generalizing t with
  | nil => simp [present] at h; subst h; rfl
  | cons a r ih =>
    cases a with
    | none => simp [present] at h
    | some v =>
      simp only [present, Option.map_eq_some_iff] at h
      obtain ⟨t', h1, rfl⟩ := h
      simp [ih h1]

theorem present_map (t : List α) : present (t.map some) = some t := by
  induction t with
  | nil => rfl
  | cons a t ih => simp [present, ih]

theorem agree_refl (rows : List (List (Option α))) : SpecifiedAgree rows rows :=
  List.forall₂_same.2 fun _ _ => List.forall₂_same.2 fun _ _ => .inr rfl

theorem agree_row {r q : List (Option α)} {t : List α} (h : List.Forall₂ (fun a b : Option α => a = none ∨ b = a) r q)
    (ht : present r = some t) : q = r := by
  have := present_some ht
  subst this
  clear ht
  generalize hr : t.map some = r at h
  induction h generalizing t with
  | nil => rfl
  | cons h1 h2 ih =>
    cases t with
    | nil => simp at hr
    | cons v t =>
      simp only [List.map_cons, List.cons.injEq] at hr
      obtain ⟨rfl, hr⟩ := hr
      rw [ih hr]
      rcases h1 with h1 | h1
      · simp at h1
      · rw [h1]

theorem agree_get {rows rows2 : List (List (Option α))} (h : SpecifiedAgree rows rows2) {i : Nat} {r : List (Option α)} (hi : rows[i]? = some r) :
    ∃ q, rows2[i]? = some q ∧ List.Forall₂ (fun a b : Option α => a = none ∨ b = a) r q := by
  obtain ⟨hl, h⟩ := List.forall₂_iff_get.1 h
  obtain ⟨hlt, rfl⟩ := List.getElem?_eq_some_iff.1 hi
  exact ⟨rows2[i]'(by omega), List.getElem?_eq_getElem _, h i hlt (by omega)⟩

theorem agree_elem {r q : List (Option α)} (h : List.Forall₂ (fun a b : Option α => a = none ∨ b = a) r q) {j : Nat} {v : α}
    (hj : r[j]? = some (some v)) : q[j]? = some (some v) := by
  obtain ⟨hl, h⟩ := List.forall₂_iff_get.1 h
  obtain ⟨hlt, e⟩ := List.getElem?_eq_some_iff.1 hj
  have := h j hlt (by omega)
  simp only [List.get_eq_getElem, e] at this
  rcases this with h' | h'
  · simp at h'
  · rw [List.getElem?_eq_getElem (by omega), h']

theorem forall₂_set {γ δ : Type} {R : γ → δ → Prop} {l : List γ} {l' : List δ} (h : List.Forall₂ R l l') {a : γ} {b : δ} (hab : R a b) (i : Nat) :
    List.Forall₂ R (l.set i a) (l'.set i b) := by
  induction h generalizing i with
  | nil => exact .nil
  | cons h1 h2 ih =>
    cases i with
    | zero => exact .cons hab h2
    | succ i => exact .cons h1 (ih i)

theorem forall₂_set_left {γ δ : Type} {R : γ → δ → Prop} {l : List γ} {l' : List δ} (h : List.Forall₂ R l l') {a : γ} (i : Nat)
    (hab : ∀ b, l'[i]? = some b → R a b) : List.Forall₂ R (l.set i a) l' := by
  induction h generalizing i with
  | nil => exact .nil
  | cons h1 h2 ih =>
    cases i with
    | zero => exact .cons (hab _ rfl) h2
    | succ i => exact .cons h1 (ih i fun b hb => hab b (by simpa using hb))

theorem agree_none {r q : List (Option α)} (h : r.length = q.length) :
    List.Forall₂ (fun a b : Option α => a = none ∨ b = a) (r.map fun _ => none) q := by
  induction r generalizing q with
  | nil => cases q with
    | nil => exact .nil
    | cons => simp at h
  | cons a r ih => cases q with
    | nil => simp at h
    | cons b q => exact .cons (.inl rfl) (ih (by simpa using h))

/-- The number of times a row is copied if it is referred to by a proxy. -/
def copiesOf (kind : RowRefKind) (c : RowCounts) : Nat :=
  c.copied + c.taken + match kind with | .soaReference => c.stored | .tupleOfReferences => 0

theorem proxies_simulate (kind : RowRefKind) (p : MoveProg α β) :
    ∀ (c : RowCounts) (n : Nat) (rows rows2 : List (List (Option α))) (x : β) (c' : RowCounts) (rows' : List (List (Option α))),
      SpecifiedAgree rows rows2 → runVector p c rows = .ok ((some x, c'), rows') →
      ∃ n' rows2', runRows (onProxies kind p n) rows2 = .ok ((some x, n'), rows2') ∧ SpecifiedAgree rows' rows2' ∧
        n' + copiesOf kind c = n + copiesOf kind c' := by
  induction p with
  | done y =>
    intro c n rows rows2 x c' rows' ha h
    simp only [runVector, Outcome.ok.injEq, Prod.mk.injEq, Option.some.injEq] at h
    obtain ⟨⟨rfl, rfl⟩, rfl⟩ := h
    exact ⟨n, rows2, rfl, ha, rfl⟩
  | look i k ih =>
    intro c n rows rows2 x c' rows' ha h
    rw [runVector] at h
    cases hi : rows[i]? with
    | none => simp [hi] at h
    | some r =>
      simp only [hi] at h
      rw [← present_eq] at h
      cases ht : present r with
      | none => simp [ht] at h
      | some t =>
        simp only [ht] at h
        obtain ⟨q, hq, hrq⟩ := agree_get ha hi
        rw [agree_row hrq ht] at hq
        obtain ⟨n', rows2', h1, h2, h3⟩ := ih t c n rows rows2 x c' rows' ha h
        exact ⟨n', rows2', by rw [onProxies, runRows, hq]; simp only [withValues, ht]; exact h1, h2, h3⟩
  | load i k ih =>
    intro c n rows rows2 x c' rows' ha h
    rw [runVector] at h
    cases hi : rows[i]? with
    | none => simp [hi] at h
    | some r =>
      simp only [hi] at h
      rw [← present_eq] at h
      cases ht : present r with
      | none => simp [ht] at h
      | some t =>
        simp only [ht] at h
        obtain ⟨q, hq, hrq⟩ := agree_get ha hi
        rw [agree_row hrq ht] at hq
        obtain ⟨n', rows2', h1, h2, h3⟩ := ih t _ (n + 1) rows rows2 x c' rows' ha h
        exact ⟨n', rows2', by rw [onProxies, runRows, hq]; simp only [withValues, ht]; exact h1, h2, by simp only [copiesOf] at h3 ⊢; omega⟩
  | take i k ih =>
    intro c n rows rows2 x c' rows' ha h
    rw [runVector] at h
    cases hi : rows[i]? with
    | none => simp [hi] at h
    | some r =>
      simp only [hi] at h
      rw [← present_eq] at h
      cases ht : present r with
      | none => simp [ht] at h
      | some t =>
        simp only [ht] at h
        obtain ⟨q, hq, hrq⟩ := agree_get ha hi
        rw [agree_row hrq ht] at hq
        have ha' : SpecifiedAgree (rows.set i (r.map fun _ => none)) rows2 :=
          forall₂_set_left ha i fun b hb => by
            rw [hq, Option.some.injEq] at hb; subst hb
            exact agree_none rfl
        obtain ⟨n', rows2', h1, h2, h3⟩ := ih t _ (n + 1) _ rows2 x c' rows' ha' h
        exact ⟨n', rows2', by rw [onProxies, runRows, hq]; simp only [withValues, ht]; exact h1, h2, by simp only [copiesOf] at h3 ⊢; omega⟩
  | takeElem i j k ih =>
    intro c n rows rows2 x c' rows' ha h
    rw [runVector] at h
    cases hi : rows[i]? with
    | none => simp [hi] at h
    | some r =>
      simp only [hi] at h
      cases hj : r[j]? with
      | none => simp [hj] at h
      | some o =>
        cases o with
        | none => simp [hj] at h
        | some v =>
          simp only [hj] at h
          obtain ⟨q, hq, hrq⟩ := agree_get ha hi
          have hqj := agree_elem hrq hj
          obtain ⟨n', rows2', h1, h2, h3⟩ := ih v c n _ (rows2.set i (q.set j none)) x c' rows'
            (forall₂_set ha (forall₂_set hrq (.inl rfl) j) i) h
          refine ⟨n', rows2', ?_, h2, h3⟩
          rw [onProxies, runRows, hq]
          simp only [hqj]
          rw [runRows, hq]
          exact h1
  | store i t p ih =>
    intro c n rows rows2 x c' rows' ha h
    rw [runVector] at h
    split at h
    · rename_i hi
      obtain ⟨n', rows2', h1, h2, h3⟩ := ih _ (afterStore kind n) _ (rows2.set i (t.map some)) x c' rows'
        (forall₂_set ha (List.forall₂_same.2 fun _ _ => .inr rfl) i) h
      refine ⟨n', rows2', ?_, h2, ?_⟩
      · rw [onProxies, runRows, if_pos (by rw [← List.Forall₂.length_eq ha]; exact hi)]
        exact h1
      · cases kind <;> simp only [copiesOf, afterStore] at h3 ⊢ <;> omega
    · simp at h
  | storeElem i j v p ih =>
    intro c n rows rows2 x c' rows' ha h
    rw [runVector] at h
    cases hi : rows[i]? with
    | none => simp [hi] at h
    | some r =>
      simp only [hi] at h
      obtain ⟨q, hq, hrq⟩ := agree_get ha hi
      obtain ⟨n', rows2', h1, h2, h3⟩ := ih c n _ (rows2.set i (q.set j (some v))) x c' rows'
        (forall₂_set ha (forall₂_set hrq (.inr rfl) j) i) h
      exact ⟨n', rows2', by rw [onProxies, runRows, hq]; exact h1, h2, h3⟩
  | copy i j p ih =>
    intro c n rows rows2 x c' rows' ha h
    rw [runVector] at h
    cases hi : rows[i]? with
    | none => simp [hi] at h
    | some r =>
      cases hj : rows[j]? with
      | none => simp [hi, hj] at h
      | some u =>
        simp only [hi, hj] at h
        obtain ⟨q, hq, hrq⟩ := agree_get ha hi
        obtain ⟨w, hw, huw⟩ := agree_get ha hj
        obtain ⟨n', rows2', h1, h2, h3⟩ := ih _ (n + 1) _ (rows2.set i w) x c' rows' (forall₂_set ha huw i) h
        exact ⟨n', rows2', by rw [onProxies, runRows, hq, hw]; exact h1, h2, by simp only [copiesOf] at h3 ⊢; omega⟩
  | transfer i j p ih =>
    intro c n rows rows2 x c' rows' ha h
    rw [runVector] at h
    cases hi : rows[i]? with
    | none => simp [hi] at h
    | some r =>
      cases hj : rows[j]? with
      | none => simp [hi, hj] at h
      | some u =>
        simp only [hi, hj] at h
        obtain ⟨q, hq, hrq⟩ := agree_get ha hi
        obtain ⟨w, hw, huw⟩ := agree_get ha hj
        have ha' : SpecifiedAgree ((rows.set i u).set j (u.map fun _ => none)) (rows2.set i w) := by
          refine forall₂_set_left (forall₂_set ha huw i) j fun b hb => agree_none ?_
          by_cases hij : i = j
          · subst hij
            rw [List.getElem?_set_self (by exact (List.getElem?_eq_some_iff.1 hq).1), Option.some.injEq] at hb
            subst hb
            exact huw.length_eq
          · rw [List.getElem?_set_ne hij, hw, Option.some.injEq] at hb
            subst hb
            exact huw.length_eq
        obtain ⟨n', rows2', h1, h2, h3⟩ := ih _ (n + 1) _ (rows2.set i w) x c' rows' ha' h
        exact ⟨n', rows2', by rw [onProxies, runRows, hq, hw]; exact h1, h2, by simp only [copiesOf] at h3 ⊢; omega⟩
  | swap i j p ih =>
    intro c n rows rows2 x c' rows' ha h
    rw [runVector] at h
    cases hi : rows[i]? with
    | none => simp [hi] at h
    | some r =>
      cases hj : rows[j]? with
      | none => simp [hi, hj] at h
      | some u =>
        simp only [hi, hj] at h
        obtain ⟨q, hq, hrq⟩ := agree_get ha hi
        obtain ⟨w, hw, huw⟩ := agree_get ha hj
        obtain ⟨n', rows2', h1, h2, h3⟩ := ih _ n _ ((rows2.set i w).set j q) x c' rows' (forall₂_set (forall₂_set ha huw i) hrq j) h
        exact ⟨n', rows2', by rw [onProxies, runRows, hq, hw]; exact h1, h2, h3⟩
  | part o m b k ihb ihk =>
    intro c n rows rows2 x c' rows' ha h
    rw [runVector] at h
    have hl : rows2.length = rows.length := (List.Forall₂.length_eq ha).symm
    simp only at h
    generalize hn : (if m = 18446744073709551615 then rows.length - o else m) = cnt at h
    split at h
    · rename_i hle
      cases hb : runVector b c ((rows.drop o).take cnt) with
      | ok r =>
        obtain ⟨⟨y, c1⟩, part⟩ := r
        rw [hb, Outcome.bind_ok] at h
        cases y with
        | none => simp at h
        | some y =>
          simp only at h
          obtain ⟨n1, part2, h1, h2, h3⟩ := ihb c n _ ((rows2.drop o).take cnt) y c1 part (List.forall₂_take _ (List.forall₂_drop _ ha)) hb
          obtain ⟨n2, rows2', h4, h5, h6⟩ := ihk y c1 n1 _ (rows2.take o ++ part2 ++ rows2.drop (o + cnt)) x c' rows'
            (List.rel_append (List.rel_append (List.forall₂_take _ ha) h2) (List.forall₂_drop _ ha)) h
          refine ⟨n2, rows2', ?_, h5, by omega⟩
          rw [onProxies, runRows]
          simp only [hl, hn]
          rw [if_pos hle, h1, Outcome.bind_ok]
          exact h4
      | throw _ => rw [hb] at h; simp [Outcome.bind] at h
      | failFast => rw [hb] at h; simp [Outcome.bind] at h
      | ub => rw [hb] at h; simp [Outcome.bind] at h
    · simp at h

theorem onProxies_fits (kind : RowRefKind) {w : Nat} {p : MoveProg α β} (h : MoveFits w p) : ∀ n, Fits w (onProxies kind p n) := by
  have key : ∀ (k : List α → MoveProg α β), (∀ t, t.length = w → ∀ n, Fits w (onProxies kind (k t) n)) → ∀ (i n n' : Nat),
      Fits w (RowProg.load i fun t => withValues t n' fun v => onProxies kind (k v) n) := by
    intro k hk i n n'
    refine .load fun t ht => ?_
    unfold withValues
    cases hp : present t with
    | none => exact .done
    | some v =>
      have := present_some hp
      subst this
      exact hk v (by simpa using ht) n
  induction h with
  | done => intro n; exact .done
  | look h ih => intro n; exact key _ ih _ _ _
  | load h ih => intro n; exact key _ ih _ _ _
  | take h ih => intro n; exact key _ ih _ _ _
  | takeElem hc h ih =>
    intro n
    rw [onProxies]
    refine .loadElem hc fun v => ?_
    cases v with
    | none => exact .done
    | some v => exact .storeElem hc (ih v n)
  | store ht h ih => intro n; exact .store (by simpa using ht) (ih _)
  | storeElem hc h ih => intro n; exact .storeElem hc (ih n)
  | copy h ih => intro n; exact .copy (ih _)
  | transfer h ih => intro n; exact .copy (ih _)
  | swap h ih => intro n; exact .swap (ih _)
  | part hb h ihb ih =>
    intro n
    rw [onProxies]
    refine .part (ihb n) fun r => ?_
    obtain ⟨x, m⟩ := r
    cases x with
    | none => exact .done
    | some x => exact ih x m

/-- No element is unspecified. -/
def AllPresent (rows : List (List (Option α))) : Prop := ∀ r ∈ rows, none ∉ r

theorem AllPresent.set {rows : List (List (Option α))} (h : AllPresent rows) {r : List (Option α)} (hr : none ∉ r) (i : Nat) : AllPresent (rows.set i r) :=
  fun q hq => (List.mem_or_eq_of_mem_set hq).elim (h q) fun e => e ▸ hr

theorem AllPresent.get {rows : List (List (Option α))} (h : AllPresent rows) {i : Nat} {r : List (Option α)} (hi : rows[i]? = some r) : none ∉ r :=
  h r (List.mem_of_getElem? hi)

theorem proxies_keep (kind : RowRefKind) {p : MoveProg α β} (h : NoElementTaken p) :
    ∀ (n : Nat) (rows : List (List (Option α))) (x : Option β) (n' : Nat) (rows' : List (List (Option α))), AllPresent rows →
      runRows (onProxies kind p n) rows = .ok ((x, n'), rows') → AllPresent rows' := by
  have key : ∀ (k : List α → MoveProg α β), (∀ t n rows x n' rows', AllPresent rows → runRows (onProxies kind (k t) n) rows = .ok ((x, n'), rows') →
      AllPresent rows') → ∀ (i m n : Nat) (rows : List (List (Option α))) (x : Option β) (n' : Nat) (rows' : List (List (Option α))), AllPresent rows →
      runRows (RowProg.load i fun t => withValues t m fun v => onProxies kind (k v) n) rows = .ok ((x, n'), rows') → AllPresent rows' := by
    intro k hk i m n rows x n' rows' ha hr
    rw [runRows] at hr
    cases hi : rows[i]? with
    | none => simp [hi] at hr
    | some r =>
      simp only [hi, withValues] at hr
      cases hp : present r with
      | none => simp only [hp, runRows, Outcome.ok.injEq, Prod.mk.injEq] at hr; exact hr.2 ▸ ha
      | some v => simp only [hp] at hr; exact hk v n rows x n' rows' ha hr
  induction h with
  | done =>
    intro n rows x n' rows' ha hr
    simp only [onProxies, runRows, Outcome.ok.injEq, Prod.mk.injEq] at hr
    exact hr.2 ▸ ha
  | look h ih => intro n rows x n' rows' ha hr; exact key _ ih _ _ _ rows x n' rows' ha hr
  | load h ih => intro n rows x n' rows' ha hr; exact key _ ih _ _ _ rows x n' rows' ha hr
  | take h ih => intro n rows x n' rows' ha hr; exact key _ ih _ _ _ rows x n' rows' ha hr
  | store h ih =>
    intro n rows x n' rows' ha hr
    rw [onProxies, runRows] at hr
    split at hr
    · exact ih _ _ x n' rows' (ha.set (by simp) _) hr
    · simp at hr
  | @storeElem i j v p h ih =>
    intro n rows x n' rows' ha hr
    rw [onProxies, runRows] at hr
    cases hi : rows[i]? with
    | none => simp [hi] at hr
    | some r =>
      simp only [hi] at hr
      refine ih _ _ x n' rows' (ha.set (fun hm => ?_) _) hr
      rcases List.mem_or_eq_of_mem_set hm with hm | hm
      · exact ha.get hi hm
      · simp at hm
  | @copy i j p h ih =>
    intro n rows x n' rows' ha hr
    rw [onProxies, runRows] at hr
    cases hi : rows[i]? with
    | none => simp [hi] at hr
    | some r =>
      cases hj : rows[j]? with
      | none => simp [hi, hj] at hr
      | some u => simp only [hi, hj] at hr; exact ih _ _ x n' rows' (ha.set (ha.get hj) _) hr
  | @transfer i j p h ih =>
    intro n rows x n' rows' ha hr
    rw [onProxies, runRows] at hr
    cases hi : rows[i]? with
    | none => simp [hi] at hr
    | some r =>
      cases hj : rows[j]? with
      | none => simp [hi, hj] at hr
      | some u => simp only [hi, hj] at hr; exact ih _ _ x n' rows' (ha.set (ha.get hj) _) hr
  | @swap i j p h ih =>
    intro n rows x n' rows' ha hr
    rw [onProxies, runRows] at hr
    cases hi : rows[i]? with
    | none => simp [hi] at hr
    | some r =>
      cases hj : rows[j]? with
      | none => simp [hi, hj] at hr
      | some u => simp only [hi, hj] at hr; exact ih _ _ x n' rows' ((ha.set (ha.get hj) _).set (ha.get hi) _) hr
  | @part o m b k hb h ihb ih =>
    intro n rows x n' rows' ha hr
    rw [onProxies, runRows] at hr
    simp only at hr
    generalize (if m = 18446744073709551615 then rows.length - o else m) = cnt at hr
    split at hr
    · cases hbr : runRows (onProxies kind b n) ((rows.drop o).take cnt) with
      | ok r =>
        obtain ⟨⟨y, n1⟩, q⟩ := r
        rw [hbr, Outcome.bind_ok] at hr
        have hq : AllPresent q := ihb n _ y n1 q (fun r hr => ha r (List.mem_of_mem_drop (List.mem_of_mem_take hr))) hbr
        have hall : AllPresent (rows.take o ++ q ++ rows.drop (o + cnt)) := by
          intro r hr
          simp only [List.mem_append] at hr
          rcases hr with (hr | hr) | hr
          · exact ha r (List.mem_of_mem_take hr)
          · exact hq r hr
          · exact ha r (List.mem_of_mem_drop hr)
        cases y with
        | none => simp only [runRows, Outcome.ok.injEq, Prod.mk.injEq] at hr; exact hr.2 ▸ hall
        | some y => exact ih y _ _ x n' rows' hall hr
      | throw _ => rw [hbr] at hr; simp [Outcome.bind] at hr
      | failFast => rw [hbr] at hr; simp [Outcome.bind] at hr
      | ub => rw [hbr] at hr; simp [Outcome.bind] at hr
    · simp at hr

theorem proxies_no_copies (kind : RowRefKind) (p : MoveProg α β) :
    ∀ (n : Nat) (rows : List (List (Option α))) (x : Option β) (n' : Nat) (rows' : List (List (Option α))), compilesMoveOnly kind p →
      runRows (onProxies kind p n) rows = .ok ((x, n'), rows') → n' = n := by
  induction p with
  | done =>
    intro n rows x n' rows' hc hr
    simp only [onProxies, runRows, Outcome.ok.injEq, Prod.mk.injEq] at hr
    exact hr.1.2.symm
  | look i k ih =>
    intro n rows x n' rows' hc hr
    rw [onProxies, runRows] at hr
    cases hi : rows[i]? with
    | none => simp [hi] at hr
    | some r =>
      simp only [hi, withValues] at hr
      cases hp : present r with
      | none => simp only [hp, runRows, Outcome.ok.injEq, Prod.mk.injEq] at hr; exact hr.1.2.symm
      | some v => simp only [hp] at hr; exact ih v n rows x n' rows' (hc v) hr
  | load i k ih => intro n rows x n' rows' hc; exact hc.elim
  | take i k ih => intro n rows x n' rows' hc; exact hc.elim
  | copy i j p ih => intro n rows x n' rows' hc; exact hc.elim
  | transfer i j p ih => intro n rows x n' rows' hc; exact hc.elim
  | takeElem i j k ih =>
    intro n rows x n' rows' hc hr
    rw [onProxies, runRows] at hr
    cases hi : rows[i]? with
    | none => simp [hi] at hr
    | some r =>
      simp only [hi] at hr
      cases hj : r[j]? with
      | none => simp [hj] at hr
      | some o =>
        cases o with
        | none => simp only [hj, runRows, Outcome.ok.injEq, Prod.mk.injEq] at hr; exact hr.1.2.symm
        | some v => simp only [hj, runRows, hi] at hr; exact ih v n _ x n' rows' (hc v) hr
  | store i t p ih =>
    intro n rows x n' rows' hc hr
    obtain ⟨rfl, hc⟩ := hc
    rw [onProxies, runRows] at hr
    split at hr
    · exact ih n _ x n' rows' hc hr
    · simp at hr
  | storeElem i j v p ih =>
    intro n rows x n' rows' hc hr
    rw [onProxies, runRows] at hr
    cases hi : rows[i]? with
    | none => simp [hi] at hr
    | some r => simp only [hi] at hr; exact ih n _ x n' rows' hc hr
  | swap i j p ih =>
    intro n rows x n' rows' hc hr
    rw [onProxies, runRows] at hr
    cases hi : rows[i]? with
    | none => simp [hi] at hr
    | some r =>
      cases hj : rows[j]? with
      | none => simp [hi, hj] at hr
      | some u => simp only [hi, hj] at hr; exact ih n _ x n' rows' hc hr
  | part o m b k ihb ih =>
    intro n rows x n' rows' hc hr
    rw [onProxies, runRows] at hr
    simp only at hr
    generalize (if m = 18446744073709551615 then rows.length - o else m) = cnt at hr
    split at hr
    · cases hbr : runRows (onProxies kind b n) ((rows.drop o).take cnt) with
      | ok r =>
        obtain ⟨⟨y, n1⟩, q⟩ := r
        rw [hbr, Outcome.bind_ok] at hr
        have h1 := ihb n _ y n1 q hc.1 hbr
        cases y with
        | none => simp only [runRows, Outcome.ok.injEq, Prod.mk.injEq] at hr; omega
        | some y => exact (ih y _ _ x n' rows' (hc.2 y) hr).trans h1
      | throw _ => rw [hbr] at hr; simp [Outcome.bind] at hr
      | failFast => rw [hbr] at hr; simp [Outcome.bind] at hr
      | ub => rw [hbr] at hr; simp [Outcome.bind] at hr
    · simp at hr

/-! Sorting. -/

theorem valuesOf_map (t : List α) : valuesOf (t.map some) = some t := by rw [← present_eq, present_map]

theorem shiftMoving_spec {lt : List α → List α → Bool} (hasym : ∀ a b, lt a b = true → lt b a = false)
    (htrans : ∀ a b c, lt b a = false → lt c b = false → lt c a = false) (x : List α) :
    ∀ (i : Nat) (pre : List (List α)) (y : List (Option α)), pre.length = i → pre.Pairwise (fun a b => lt b a = false) →
      ∃ pre' : List (List α), pre'.Perm (pre ++ [x]) ∧ pre'.Pairwise (fun a b => lt b a = false) ∧ ∃ m : Nat, m ≤ i ∧
        ∀ (c : RowCounts) (post : List (List (Option α))) (p : MoveProg α β), runVector (shiftMoving lt x i p) c (pre.map (·.map some) ++ y :: post) =
          runVector p ⟨c.copied, c.taken + m, c.stored + 1⟩ (pre'.map (·.map some) ++ post) := by
  intro i
  induction i with
  | zero =>
    intro pre y hl hs
    obtain rfl : pre = [] := List.eq_nil_of_length_eq_zero hl
    exact ⟨[x], by simp, by simp, 0, by omega, fun c post p => by simp [shiftMoving, runVector]⟩
  | succ i ih =>
    intro pre y hl hs
    obtain ⟨pre, a, rfl⟩ : ∃ q a, pre = q ++ [a] := ⟨pre.dropLast, pre.getLast (by intro e; simp [e] at hl), (List.dropLast_append_getLast _).symm⟩
    have hl' : pre.length = i := by simpa using hl
    rw [List.pairwise_append] at hs
    obtain ⟨hs1, -, hs2⟩ := hs
    have hga : ∀ (r : List (Option α)) (rest : List (List (Option α))), (pre.map (·.map some) ++ r :: rest)[i]? = some r := by
      intro r rest; rw [List.getElem?_append_right (by simp; omega)]; simp [hl']
    have hgx : ∀ (r y : List (Option α)) (rest : List (List (Option α))), (pre.map (·.map some) ++ r :: y :: rest)[i + 1]? = some y := by
      intro r y rest; rw [List.getElem?_append_right (by simp; omega)]; simp [hl']
    by_cases h : lt x a = true
    · obtain ⟨pre', h1, h2, m, hm, h3⟩ := ih pre (a.map fun _ => none) hl' hs1
      refine ⟨pre' ++ [a], ?_, ?_, m + 1, by omega, ?_⟩
      · refine (h1.append_right [a]).trans ?_
        rw [List.append_assoc, List.append_assoc]
        exact (List.Perm.swap a x []).append_left pre
      · rw [List.pairwise_append]
        refine ⟨h2, by simp, fun b hb c hc => ?_⟩
        obtain rfl := List.mem_singleton.1 hc
        rcases List.mem_append.1 (h1.mem_iff.1 hb) with hb | hb
        · exact hs2 b hb _ (by simp)
        · obtain rfl := List.mem_singleton.1 hb
          exact hasym _ _ h
      · intro c post p
        have e : (pre ++ [a]).map (·.map some) ++ y :: post = pre.map (·.map some) ++ a.map some :: y :: post := by simp
        rw [e, shiftMoving, runVector, hga]
        simp only [valuesOf_map]
        rw [if_pos h, runVector, hga, hgx]
        simp only
        have e2 : ((pre.map (·.map some) ++ a.map some :: y :: post).set (i + 1) (a.map some)).set i ((a.map some).map fun _ => none) =
            pre.map (·.map some) ++ (a.map fun _ => none) :: a.map some :: post := by
          rw [List.set_append_right _ _ (by simp; omega), List.set_append_right _ _ (by simp; omega)]
          simp [hl', Function.comp_def]
        rw [e2, h3]
        simp only [List.map_append, List.map_cons, List.map_nil, List.append_assoc, List.cons_append, List.nil_append]
        congr 2
        omega
    · have h' : lt x a = false := by simpa using h
      refine ⟨pre ++ [a] ++ [x], .refl _, ?_, 0, by omega, ?_⟩
      · rw [List.pairwise_append, List.pairwise_append]
        refine ⟨⟨hs1, by simp, hs2⟩, by simp, fun b hb c hc => ?_⟩
        obtain rfl := List.mem_singleton.1 hc
        rcases List.mem_append.1 hb with hb | hb
        · exact htrans b a c (hs2 b hb a (by simp)) h'
        · obtain rfl := List.mem_singleton.1 hb
          exact h'
      · intro c post p
        have e : (pre ++ [a]).map (·.map some) ++ y :: post = pre.map (·.map some) ++ a.map some :: y :: post := by simp
        rw [e, shiftMoving, runVector, hga]
        simp only [valuesOf_map]
        rw [h', if_neg (by simp), runVector]
        have e2 : (pre.map (·.map some) ++ a.map some :: y :: post).set (i + 1) (x.map some) = pre.map (·.map some) ++ a.map some :: x.map some :: post := by
          rw [List.set_append_right _ _ (by simp; omega)]
          simp [hl']
        rw [e2, if_pos (by simp [hl'])]
        simp

theorem insertionSortMoving_spec {lt : List α → List α → Bool} (hasym : ∀ a b, lt a b = true → lt b a = false)
    (htrans : ∀ a b c, lt b a = false → lt c b = false → lt c a = false) :
    ∀ (post pre : List (List α)) (c : RowCounts), pre.Pairwise (fun a b => lt b a = false) →
      ∃ (rows' : List (List α)) (m : Nat), rows'.Perm (pre ++ post) ∧ rows'.Pairwise (fun a b => lt b a = false) ∧
        runVector (insertionSortMoving lt post.length pre.length) c ((pre ++ post).map (·.map some)) =
          .ok ((some (), ⟨c.copied, c.taken + post.length + m, c.stored + post.length⟩), rows'.map (·.map some)) := by
  intro post
  induction post with
  | nil => intro pre c hs; exact ⟨pre, 0, by simp, hs, by simp [insertionSortMoving, runVector]⟩
  | cons x post ih =>
    intro pre c hs
    obtain ⟨pre', h1, h2, m, -, h3⟩ := shiftMoving_spec (β := Unit) hasym htrans x pre.length pre (x.map fun _ => none) rfl hs
    obtain ⟨rows', m', h4, h5, h6⟩ := ih pre' ⟨c.copied, c.taken + 1 + m, c.stored + 1⟩ h2
    refine ⟨rows', m + m', h4.trans ?_, h5, ?_⟩
    · refine (h1.append_right post).trans ?_
      simp
    · have e : (pre ++ x :: post).map (·.map some) = pre.map (·.map some) ++ x.map some :: post.map (·.map some) := by simp
      have hg : (pre.map (·.map some) ++ x.map some :: post.map (·.map some) : List (List (Option α)))[pre.length]? = some (x.map some) := by
        rw [List.getElem?_append_right (by simp)]; simp
      have e2 : (pre.map (·.map some) ++ x.map some :: post.map (·.map some) : List (List (Option α))).set pre.length ((x.map some).map fun _ => none) =
          pre.map (·.map some) ++ (x.map fun _ => none) :: post.map (·.map some) := by
        rw [List.set_append_right _ _ (by simp)]
        simp [Function.comp_def]
      rw [e, List.length_cons, insertionSortMoving, runVector, hg]
      simp only [valuesOf_map]
      rw [e2, h3]
      have : pre.length + 1 = pre'.length := by rw [h1.length_eq]; simp
      rw [this, ← List.map_append]
      simp only
      rw [h6]
      simp only [Outcome.ok.injEq, Prod.mk.injEq, true_and, and_true, RowCounts.mk.injEq]
      omega

theorem shiftMoving_fits (n : Nat) (lt : List α → List α → Bool) (x : List α) (hx : x.length = n) :
    ∀ (i : Nat) (p : MoveProg α β), MoveFits n p → MoveFits n (shiftMoving lt x i p) := by
  intro i
  induction i with
  | zero => intro p h; exact .store hx h
  | succ i ih =>
    intro p h
    refine .look fun a _ => ?_
    split
    · exact .transfer (ih p h)
    · exact .store hx h

theorem insertionSortMoving_fits (n : Nat) (lt : List α → List α → Bool) : ∀ (m i : Nat), MoveFits n (insertionSortMoving lt m i) := by
  intro m
  induction m with
  | zero => intro i; exact .done
  | succ m ih => intro i; exact .take fun x hx => shiftMoving_fits n lt x hx i _ (ih _)

theorem insertSwapping_spec {lt : List α → List α → Bool} (hasym : ∀ a b, lt a b = true → lt b a = false)
    (htrans : ∀ a b c, lt b a = false → lt c b = false → lt c a = false) :
    ∀ (i : Nat) (pre : List (List α)) (x : List α), pre.length = i → pre.Pairwise (fun a b => lt b a = false) →
      ∃ pre' : List (List α), pre'.Perm (pre ++ [x]) ∧ pre'.Pairwise (fun a b => lt b a = false) ∧
        ∀ (c : RowCounts) (post : List (List (Option α))) (p : MoveProg α β), runVector (insertSwapping lt i p) c (pre.map (·.map some) ++ x.map some :: post) =
          runVector p c (pre'.map (·.map some) ++ post) := by
  intro i
  induction i with
  | zero =>
    intro pre x hl hs
    obtain rfl : pre = [] := List.eq_nil_of_length_eq_zero hl
    exact ⟨[x], by simp, by simp, fun c post p => rfl⟩
  | succ i ih =>
    intro pre x hl hs
    obtain ⟨pre, a, rfl⟩ : ∃ q a, pre = q ++ [a] := ⟨pre.dropLast, pre.getLast (by intro e; simp [e] at hl), (List.dropLast_append_getLast _).symm⟩
    have hl' : pre.length = i := by simpa using hl
    rw [List.pairwise_append] at hs
    obtain ⟨hs1, -, hs2⟩ := hs
    have hga : ∀ (r : List (Option α)) (rest : List (List (Option α))), (pre.map (·.map some) ++ r :: rest)[i]? = some r := by
      intro r rest; rw [List.getElem?_append_right (by simp; omega)]; simp [hl']
    have hgx : ∀ (r y : List (Option α)) (rest : List (List (Option α))), (pre.map (·.map some) ++ r :: y :: rest)[i + 1]? = some y := by
      intro r y rest; rw [List.getElem?_append_right (by simp; omega)]; simp [hl']
    by_cases h : lt x a = true
    · obtain ⟨pre', h1, h2, h3⟩ := ih pre x hl' hs1
      refine ⟨pre' ++ [a], ?_, ?_, ?_⟩
      · refine (h1.append_right [a]).trans ?_
        rw [List.append_assoc, List.append_assoc]
        exact (List.Perm.swap a x []).append_left pre
      · rw [List.pairwise_append]
        refine ⟨h2, by simp, fun b hb c hc => ?_⟩
        obtain rfl := List.mem_singleton.1 hc
        rcases List.mem_append.1 (h1.mem_iff.1 hb) with hb | hb
        · exact hs2 b hb _ (by simp)
        · obtain rfl := List.mem_singleton.1 hb
          exact hasym _ _ h
      · intro c post p
        have e : (pre ++ [a]).map (·.map some) ++ x.map some :: post = pre.map (·.map some) ++ a.map some :: x.map some :: post := by simp
        rw [e, insertSwapping, runVector, hga]
        simp only [valuesOf_map]
        rw [runVector, hgx]
        simp only [valuesOf_map]
        rw [if_pos h, runVector, hga, hgx]
        simp only
        have e2 : ((pre.map (·.map some) ++ a.map some :: x.map some :: post).set i (x.map some)).set (i + 1) (a.map some) =
            pre.map (·.map some) ++ x.map some :: a.map some :: post := by
          rw [List.set_append_right _ _ (by simp; omega), List.set_append_right _ _ (by simp; omega)]
          simp [hl']
        rw [e2, h3 c (a.map some :: post) p]
        simp
    · have h' : lt x a = false := by simpa using h
      refine ⟨pre ++ [a] ++ [x], .refl _, ?_, ?_⟩
      · rw [List.pairwise_append, List.pairwise_append]
        refine ⟨⟨hs1, by simp, hs2⟩, by simp, fun b hb c hc => ?_⟩
        obtain rfl := List.mem_singleton.1 hc
        rcases List.mem_append.1 hb with hb | hb
        · exact htrans b a c (hs2 b hb a (by simp)) h'
        · obtain rfl := List.mem_singleton.1 hb
          exact h'
      · intro c post p
        have e : (pre ++ [a]).map (·.map some) ++ x.map some :: post = pre.map (·.map some) ++ a.map some :: x.map some :: post := by simp
        rw [e, insertSwapping, runVector, hga]
        simp only [valuesOf_map]
        rw [runVector, hgx]
        simp only [valuesOf_map]
        rw [h', if_neg (by simp)]
        simp

theorem insertionSortSwapping_spec {lt : List α → List α → Bool} (hasym : ∀ a b, lt a b = true → lt b a = false)
    (htrans : ∀ a b c, lt b a = false → lt c b = false → lt c a = false) :
    ∀ (post pre : List (List α)) (c : RowCounts), pre.Pairwise (fun a b => lt b a = false) →
      ∃ rows' : List (List α), rows'.Perm (pre ++ post) ∧ rows'.Pairwise (fun a b => lt b a = false) ∧
        runVector (insertionSortSwapping lt post.length pre.length) c ((pre ++ post).map (·.map some)) = .ok ((some (), c), rows'.map (·.map some)) := by
  intro post
  induction post with
  | nil => intro pre c hs; exact ⟨pre, by simp, hs, by simp [insertionSortSwapping, runVector]⟩
  | cons x post ih =>
    intro pre c hs
    obtain ⟨pre', h1, h2, h3⟩ := insertSwapping_spec (β := Unit) hasym htrans pre.length pre x rfl hs
    obtain ⟨rows', h4, h5, h6⟩ := ih pre' c h2
    refine ⟨rows', h4.trans ?_, h5, ?_⟩
    · refine (h1.append_right post).trans ?_
      simp
    · have e : (pre ++ x :: post).map (·.map some) = pre.map (·.map some) ++ x.map some :: post.map (·.map some) := by simp
      rw [e, List.length_cons, insertionSortSwapping, h3]
      have : pre.length + 1 = pre'.length := by rw [h1.length_eq]; simp
      rw [this, ← List.map_append]
      exact h6

theorem insertSwapping_fits (n : Nat) (lt : List α → List α → Bool) : ∀ (i : Nat) (p : MoveProg α β), MoveFits n p → MoveFits n (insertSwapping lt i p) := by
  intro i
  induction i with
  | zero => intro p h; exact h
  | succ i ih =>
    intro p h
    refine .look fun a _ => .look fun x _ => ?_
    split
    · exact .swap (ih p h)
    · exact h

theorem insertionSortSwapping_fits (n : Nat) (lt : List α → List α → Bool) : ∀ (m i : Nat), MoveFits n (insertionSortSwapping lt m i) := by
  intro m
  induction m with
  | zero => intro i; exact .done
  | succ m ih => intro i; exact insertSwapping_fits n lt i _ (ih _)

theorem insertSwapping_compiles (kind : RowRefKind) (lt : List α → List α → Bool) :
    ∀ (i : Nat) (p : MoveProg α β), compilesMoveOnly kind p → compilesMoveOnly kind (insertSwapping lt i p) := by
  intro i
  induction i with
  | zero => intro p h; exact h
  | succ i ih =>
    intro p h a x
    show compilesMoveOnly kind (if lt x a then _ else _)
    split
    · exact ih p h
    · exact h

theorem insertionSortSwapping_compiles (kind : RowRefKind) (lt : List α → List α → Bool) :
    ∀ (m i : Nat), compilesMoveOnly kind (insertionSortSwapping lt m i) := by
  intro m
  induction m with
  | zero => intro i; trivial
  | succ m ih => intro i; exact insertSwapping_compiles kind lt i _ (ih _)

theorem shiftMoving_vector (lt : List α → List α → Bool) (x : List α) :
    ∀ (i : Nat) (p : MoveProg α β), vectorCompilesMoveOnly p → vectorCompilesMoveOnly (shiftMoving lt x i p) := by
  intro i
  induction i with
  | zero => intro p h; exact h
  | succ i ih =>
    intro p h a
    show vectorCompilesMoveOnly (if lt x a then _ else _)
    split
    · exact ih p h
    · exact h

theorem insertionSortMoving_vector (lt : List α → List α → Bool) : ∀ (m i : Nat), vectorCompilesMoveOnly (insertionSortMoving lt m i) := by
  intro m
  induction m with
  | zero => intro i; trivial
  | succ m ih => intro i x; exact shiftMoving_vector lt x i _ (ih _)

theorem agree_present {rows' : List (List α)} {rows2 : List (List (Option α))} (h : SpecifiedAgree (rows'.map (·.map some)) rows2) :
    rows2 = rows'.map (·.map some) := by
  generalize he : rows'.map (·.map some) = l at h
  unfold SpecifiedAgree at h
  induction h generalizing rows' with
  | nil => rfl
  | cons h1 h2 ih =>
    cases rows' with
    | nil => simp at he
    | cons r rows' =>
      simp only [List.map_cons, List.cons.injEq] at he
      obtain ⟨rfl, he⟩ := he
      rw [ih he, agree_row h1 (present_map r)]

end Makeshift.Soa
