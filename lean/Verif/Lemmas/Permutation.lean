import Verif.Model.Permutation
import Mathlib.Data.List.Perm.Basic
import Mathlib.Data.List.Nodup

/-! Helper lemmas for the permutation algorithms. -/

namespace Makeshift

theorem perm_cons_set {α : Type} {l : List α} {p : Nat} {x : α} (y : α) (h : l[p]? = some x) :
    (y :: l).Perm (x :: l.set p y) := by
  induction l generalizing p with
  | nil => simp at h
  | cons a r ih =>
    cases p with
    | zero =>
      simp only [List.getElem?_cons_zero, Option.some.injEq] at h; subst h
      exact List.Perm.swap _ _ _
    | succ p =>
      simp only [List.getElem?_cons_succ] at h
      simp only [List.set_cons_succ]
      exact (List.Perm.swap _ _ _).trans (((ih h).cons a).trans (List.Perm.swap _ _ _))

theorem swapAt_some {α : Type} {l l' : List α} {a b : Nat} (h : swapAt l a b = some l') :
    ∃ x y, l[a]? = some x ∧ l[b]? = some y ∧ l' = (l.set a y).set b x := by
  unfold swapAt at h
  split at h
  · rename_i x y hx hy
    exact ⟨x, y, hx, hy, by simpa using h.symm⟩
  · simp at h

theorem swapAt_isSome {α : Type} (l : List α) {a b : Nat} (ha : a < l.length) (hb : b < l.length) :
    ∃ l', swapAt l a b = some l' := by
  unfold swapAt
  rw [List.getElem?_eq_getElem ha, List.getElem?_eq_getElem hb]
  exact ⟨_, rfl⟩

theorem swapAt_get {α : Type} {l l' : List α} {a b : Nat} (h : swapAt l a b = some l') (k : Nat) :
    l'[k]? = l[if k = a then b else if k = b then a else k]? := by
  obtain ⟨x, y, hx, hy, rfl⟩ := swapAt_some h
  have hal : a < l.length := by
    by_contra hc; rw [List.getElem?_eq_none (by omega)] at hx; simp at hx
  have hbl : b < l.length := by
    by_contra hc; rw [List.getElem?_eq_none (by omega)] at hy; simp at hy
  by_cases hka : k = a
  · subst hka
    by_cases hkb : b = k
    · subst hkb
      rw [hx] at hy; simp only [Option.some.injEq] at hy; subst hy
      rw [List.getElem?_set_self (by simpa using hal)]; simp [hx]
    · simp [List.getElem?_set, hal, hkb, hy]
  · by_cases hkb : k = b
    · subst hkb
      simp [List.getElem?_set, hbl, hka, hx]
    · have h1 : b ≠ k := fun h => hkb h.symm
      have h2 : a ≠ k := fun h => hka h.symm
      simp [List.getElem?_set, hka, hkb, h1, h2]

theorem swapAt_perm {α : Type} {l l' : List α} {a b : Nat} (h : swapAt l a b = some l') : l'.Perm l := by
  obtain ⟨x, y, hx, hy, rfl⟩ := swapAt_some h
  by_cases hab : a = b
  · subst hab
    rw [hx] at hy
    simp only [Option.some.injEq] at hy; subst hy
    rw [List.set_set]
    have := perm_cons_set x hx
    exact ((List.perm_cons x).mp this).symm
  · have h1 := perm_cons_set y hx
    have h2 : (l.set a y)[b]? = some y := by rw [List.getElem?_set_ne hab]; exact hy
    have h3 := perm_cons_set x h2
    exact ((List.perm_cons y).mp (h1.trans h3)).symm

theorem swapAt_length {α : Type} {l l' : List α} {a b : Nat} (h : swapAt l a b = some l') : l'.length = l.length :=
  (swapAt_perm h).length_eq

/-- The identity index list. -/
def identity (n : Nat) : List Int := (List.range n).map Int.ofNat

theorem identity_get {n k : Nat} (h : k < n) : (identity n)[k]? = some (k : Int) := by
  simp [identity, h]

theorem mem_identity {n : Nat} {x : Int} : x ∈ identity n ↔ 0 ≤ x ∧ x < n := by
  simp only [identity, List.mem_map, List.mem_range]
  constructor
  · rintro ⟨k, hk, rfl⟩; simp; omega
  · rintro ⟨h1, h2⟩; exact ⟨x.toNat, by omega, by simp; omega⟩

theorem identity_nodup (n : Nat) : (identity n).Nodup :=
  (List.nodup_range).map (fun a b h => Int.ofNat.inj h)

theorem identity_length (n : Nat) : (identity n).length = n := by simp [identity]

theorem eq_identity {l : List Int} {n : Nat} (hl : l.length = n) (h : ∀ k, k < n → l[k]? = some (k : Int)) :
    l = identity n := by
  apply List.ext_getElem?
  intro k
  by_cases hk : k < n
  · rw [h k hk, identity_get hk]
  · rw [List.getElem?_eq_none (by omega), List.getElem?_eq_none (by rw [identity_length]; omega)]

theorem count_two {l : List Int} {a b : Nat} {x : Int} (hab : a ≠ b) (ha : l[a]? = some x) (hb : l[b]? = some x) :
    2 ≤ l.count x := by
  have h1 := (perm_cons_set (x + 1) ha).count_eq x
  have h2 : (l.set a (x + 1))[b]? = some x := by rw [List.getElem?_set_ne hab]; exact hb
  have h3 : 1 ≤ (l.set a (x + 1)).count x := List.one_le_count_iff.mpr (List.mem_of_getElem? h2)
  have h4 : (x + 1 == x) = false := by simp only [beq_eq_false_iff_ne]; omega
  simp only [List.count_cons, h4, beq_self_eq_true, if_true] at h1
  simp at h1
  omega

theorem nodup_get_inj {l : List Int} (h : l.Nodup) {a b : Nat} {x : Int} (ha : l[a]? = some x) (hb : l[b]? = some x) :
    a = b := by
  by_contra hab
  have h1 := count_two hab ha hb
  have h2 := List.nodup_iff_count_le_one.mp h x
  omega

/-! ## apply_permutation -/

/-- What one run of the inner loop does, whatever the indices are. -/
theorem applyPermInner_spec {α : Type} (n i cur : Nat) (s : PermState α)
    (hn : s.elems.length = n) (hl : s.idx.length = n) (hi : i < n) (hc : cur < n)
    (hfix : cur ≠ i → s.idx[i]? = some (i : Int)) :
    let r := applyPermInner n i cur s
    r.1 ≠ .ub ∧ r.2.elems.Perm s.elems ∧ r.2.idx.length = n ∧
    (r.1 = .done → ((cur : Int) :: s.idx).Perm ((i : Int) :: r.2.idx) ∧ r.2.idx[i]? = some (i : Int) ∧
      ∀ k : Nat, s.idx[k]? = some (k : Int) → r.2.idx[k]? = some (k : Int)) := by
  induction hm : nonFixedFrom 0 s.idx using Nat.strongRecOn generalizing cur s with
  | _ m ih =>
  have hcl : cur < s.idx.length := by omega
  unfold applyPermInner
  split
  · rename_i h; rw [List.getElem?_eq_getElem hcl] at h; simp at h
  · rename_i next h
    split
    · rename_i hx
      subst hx
      refine ⟨by simp, List.Perm.refl _, by simpa using hl, fun _ => ⟨perm_cons_set _ h, ?_, ?_⟩⟩
      · by_cases hci : cur = i
        · subst hci; simp [hcl]
        · simp only [List.getElem?_set_ne hci]; exact hfix hci
      · intro k hk
        by_cases hck : cur = k
        · subst hck; simp [hcl]
        · simp only [List.getElem?_set_ne hck]; exact hk
    · split
      · exact ⟨by simp, List.Perm.refl _, by simpa using hl, by simp⟩
      · rename_i hxi hx
        have hx1 : 0 ≤ next := by omega
        have hx2 : next < n := by omega
        have hx3 : next ≠ cur := fun hc => hx (Or.inr (Or.inr hc))
        obtain ⟨e, he⟩ := swapAt_isSome s.elems (a := cur) (b := next.toNat) (by omega) (by omega)
        rw [he]
        simp only
        have hdec := nonFixedFrom_set s.idx 0 cur next cur h
        simp [hx3] at hdec
        obtain ⟨r1, r2, r3, r5⟩ := ih _ (by simp only; omega) next.toNat ⟨e, s.idx.set cur cur⟩
          (by simpa using (swapAt_length he).trans hn) (by simpa using hl) (by omega)
          (by
            intro _
            by_cases hci : cur = i
            · subst hci; simp [hcl]
            · simp only [List.getElem?_set_ne hci]; exact hfix hci) rfl
        refine ⟨r1, r2.trans (swapAt_perm he), r3, fun hd => ?_⟩
        obtain ⟨q1, q2, q3⟩ := r5 hd
        refine ⟨?_, q2, ?_⟩
        · have hp := perm_cons_set (cur : Int) h
          have : ((next.toNat : Nat) : Int) = next := by omega
          rw [this] at q1
          exact hp.trans q1
        · intro k hk
          apply q3
          by_cases hck : cur = k
          · subst hck; simp [hcl]
          · simp only [List.getElem?_set_ne hck]; exact hk

/-- On a permutation, the inner loop succeeds and preserves the target arrangement `T`. -/
theorem applyPermInner_target {α : Type} (n i cur : Nat) (s : PermState α) (T : Nat → Option α)
    (hn : s.elems.length = n) (hl : s.idx.length = n) (hi : i < n) (hc : cur < n)
    (hfix : cur ≠ i → s.idx[i]? = some (i : Int))
    (hperm : ((cur : Int) :: s.idx).Perm ((i : Int) :: identity n))
    (hT : ∀ k x, s.idx[k]? = some x → T k = if x = (i : Int) ∧ k ≠ i then s.elems[cur]? else s.elems[x.toNat]?) :
    let r := applyPermInner n i cur s
    r.1 = .done ∧ ∀ (k : Nat) x, r.2.idx[k]? = some x → T k = r.2.elems[x.toNat]? := by
  induction hm : nonFixedFrom 0 s.idx using Nat.strongRecOn generalizing cur s with
  | _ m ih =>
  have hcl : cur < s.idx.length := by omega
  have hcount : ∀ x : Int, (if (cur : Int) = x then 1 else 0) + s.idx.count x =
      (if (i : Int) = x then 1 else 0) + (identity n).count x := by
    intro x
    have := hperm.count_eq x
    simp only [List.count_cons, beq_iff_eq] at this
    omega
  have hid : ∀ x : Int, (identity n).count x ≤ 1 := List.nodup_iff_count_le_one.mp (identity_nodup n)
  unfold applyPermInner
  split
  · rename_i h; rw [List.getElem?_eq_getElem hcl] at h; simp at h
  · rename_i next h
    have hmem : next ∈ s.idx := List.mem_of_getElem? h
    have hrange : 0 ≤ next ∧ next < n := by
      have := hperm.mem_iff.mp (List.mem_cons_of_mem _ hmem)
      rcases List.mem_cons.mp this with h' | h'
      · omega
      · exact mem_identity.mp h'
    split
    · rename_i hx
      subst hx
      refine ⟨rfl, ?_⟩
      intro k x hk
      simp only at hk ⊢
      by_cases hck : cur = k
      · subst hck
        simp [hcl] at hk
        subst hk
        have := hT cur i h
        rw [this]
        by_cases hci : cur = i
        · subst hci; simp
        · simp [hci]
      · rw [List.getElem?_set_ne hck] at hk
        have := hT k x hk
        rw [this, if_neg]
        rintro ⟨rfl, hki⟩
        -- `k` and `cur` would both hold `i`
        have h2 := count_two hck h hk
        have h3 := hcount (i : Int)
        have h4 := hid (i : Int)
        by_cases hci : cur = i
        · subst hci; simp at h3; omega
        · have h5 := hfix hci
          -- three occurrences of `i`
          have h6 : (cur : Int) ≠ (i : Int) := by omega
          rw [if_neg h6] at h3
          have h7 := (perm_cons_set ((i : Int) + 1) h5).count_eq (i : Int)
          have h8 := count_two hck (x := (i : Int)) (l := s.idx.set i ((i : Int) + 1))
            (by rw [List.getElem?_set_ne (Ne.symm hci)]; exact h) (by rw [List.getElem?_set_ne (Ne.symm hki)]; exact hk)
          have h9 : ((i : Int) + 1 == (i : Int)) = false := by simp only [beq_eq_false_iff_ne]; omega
          simp only [List.count_cons, h9, beq_self_eq_true, if_true] at h7
          simp at h7 h3
          omega
    · rename_i hxi
      have hnc : next ≠ (cur : Int) := by
        intro hnc
        subst hnc
        have h3 := hcount (cur : Int)
        have h4 := hid (cur : Int)
        have h5 : 1 ≤ s.idx.count (cur : Int) := List.one_le_count_iff.mpr hmem
        have hne : (i : Int) ≠ (cur : Int) := fun h => hxi h.symm
        rw [if_neg hne] at h3
        simp at h3
        omega
      rw [dif_neg (by omega)]
      obtain ⟨e, he⟩ := swapAt_isSome s.elems (a := cur) (b := next.toNat) (by omega) (by omega)
      rw [he]
      simp only
      have hdec := nonFixedFrom_set s.idx 0 cur next cur h
      simp [hnc] at hdec
      have hcast : ((next.toNat : Nat) : Int) = next := by omega
      refine ih _ (by simp only; omega) next.toNat ⟨e, s.idx.set cur cur⟩
          (by simpa using (swapAt_length he).trans hn) (by simpa using hl) (by omega) ?_ ?_ ?_ rfl
      · intro _
        by_cases hci : cur = i
        · subst hci; simp [hcl]
        · simp only [List.getElem?_set_ne hci]; exact hfix hci
      · rw [hcast]
        exact (perm_cons_set (cur : Int) h).symm.trans hperm
      · intro k x hk
        simp only at hk ⊢
        by_cases hck : cur = k
        · subst hck
          simp [hcl] at hk
          subst hk
          rw [hT cur next h, if_neg (fun hh => hxi hh.1), if_neg (by rintro ⟨h1, h2⟩; omega), swapAt_get he]
          simp
        · rw [List.getElem?_set_ne hck] at hk
          rw [hT k x hk]
          by_cases hcond : x = (i : Int) ∧ k ≠ i
          · rw [if_pos hcond, if_pos hcond, swapAt_get he]
            by_cases h' : next.toNat = cur
            · omega
            · simp [h']
          · rw [if_neg hcond, if_neg hcond, swapAt_get he]
            have hxr : 0 ≤ x := by
              have := hperm.mem_iff.mp (List.mem_cons_of_mem _ (List.mem_of_getElem? hk))
              rcases List.mem_cons.mp this with h' | h'
              · omega
              · exact (mem_identity.mp h').1
            have hx1 : x.toNat ≠ cur := by
              intro hxc
              have hxc' : x = (cur : Int) := by omega
              subst hxc'
              by_cases hci : cur = i
              · subst hci
                exact hcond ⟨rfl, fun h => hck h.symm⟩
              · have h3 := hcount (cur : Int)
                have h4 := hid (cur : Int)
                have h5 : 1 ≤ s.idx.count (cur : Int) := List.one_le_count_iff.mpr (List.mem_of_getElem? hk)
                have h6 : (i : Int) ≠ (cur : Int) := by omega
                rw [if_neg h6] at h3
                simp at h3; omega
            have hx2 : x.toNat ≠ next.toNat := by
              intro hxn
              have hxn' : x = next := by omega
              subst hxn'
              have h2 := count_two hck h hk
              have h3 := hcount x
              have h4 := hid x
              rw [if_neg (fun h => hnc h.symm), if_neg (fun h => hxi h.symm)] at h3
              omega
            simp [hx1, hx2]

theorem applyPermOuter_spec {α : Type} (n m i : Nat) (s : PermState α) (him : i + m = n)
    (hn : s.elems.length = n) (hl : s.idx.length = n) (hdone : ∀ k < i, s.idx[k]? = some (k : Int)) :
    let r := applyPermOuter n m i s
    r.1 ≠ .ub ∧ r.2.elems.Perm s.elems ∧ r.2.idx.length = n ∧
    (r.1 = .done → s.idx.Perm r.2.idx ∧ r.2.idx = identity n) := by
  induction m generalizing i s with
  | zero =>
    refine ⟨by simp [applyPermOuter], List.Perm.refl _, hl, fun _ => ⟨List.Perm.refl _, ?_⟩⟩
    exact eq_identity hl (fun k hk => hdone k (by omega))
  | succ m ih =>
    obtain ⟨h1, h2, h3, h5⟩ := applyPermInner_spec n i i s hn hl (by omega) (by omega) (fun h => absurd rfl h)
    simp only [applyPermOuter]
    split
    · rename_i s' hs
      rw [hs] at h1 h2 h3 h5
      obtain ⟨q1, q2, q3⟩ := h5 rfl
      simp only at h2 h3 q1 q2 q3
      obtain ⟨r1, r2, r3, r4⟩ := ih (i + 1) s' (by omega) (h2.length_eq.trans hn) h3 (by
        intro k hk
        by_cases hki : k = i
        · subst hki; exact q2
        · exact q3 k (hdone k (by omega)))
      exact ⟨r1, r2.trans h2, r3, fun hd => ⟨((List.perm_cons _).mp q1).trans (r4 hd).1, (r4 hd).2⟩⟩
    · rename_i hnd
      refine ⟨h1, h2, h3, fun hd => ?_⟩
      exact (hnd _ (Prod.ext hd rfl)).elim

theorem applyPermOuter_target {α : Type} (n m i : Nat) (s : PermState α) (T : Nat → Option α) (him : i + m = n)
    (hn : s.elems.length = n) (hl : s.idx.length = n) (hperm : s.idx.Perm (identity n))
    (hT : ∀ (k : Nat) x, s.idx[k]? = some x → T k = s.elems[x.toNat]?) :
    let r := applyPermOuter n m i s
    r.1 = .done ∧ ∀ (k : Nat) x, r.2.idx[k]? = some x → T k = r.2.elems[x.toNat]? := by
  induction m generalizing i s with
  | zero => exact ⟨rfl, hT⟩
  | succ m ih =>
    obtain ⟨-, h2, h3, h5⟩ := applyPermInner_spec n i i s hn hl (by omega) (by omega) (fun h => absurd rfl h)
    obtain ⟨t1, t2⟩ := applyPermInner_target n i i s T hn hl (by omega) (by omega) (fun h => absurd rfl h)
      (hperm.cons _) (by
        intro k x hk
        rw [hT k x hk]
        split
        · rename_i hc; rw [hc.1]; simp
        · rfl)
    simp only [applyPermOuter]
    rw [show applyPermInner n i i s = (.done, (applyPermInner n i i s).2) from Prod.ext t1 rfl]
    simp only
    exact ih (i + 1) _ (by omega) (h2.length_eq.trans hn) h3
      (((List.perm_cons _).mp (h5 t1).1).symm.trans hperm) t2

/-! ## apply_reverse_permutation -/

theorem set_zip {α β : Type} (l : List α) (m : List β) (a : Nat) (u : α) (v : β) :
    (l.set a u).zip (m.set a v) = (l.zip m).set a (u, v) := by
  induction l generalizing m a with
  | nil => simp
  | cons x xs ih =>
    cases m with
    | nil => simp
    | cons y ys => cases a with
      | zero => simp
      | succ a => simp [ih]

theorem swap_zip {α : Type} {l e : List α} {ix : List Int} {a b : Nat} {x y : Int}
    (he : swapAt l a b = some e) (ha : ix[a]? = some x) (hb : ix[b]? = some y) :
    swapAt (l.zip ix) a b = some (e.zip ((ix.set a y).set b x)) := by
  obtain ⟨u, v, hu, hv, rfl⟩ := swapAt_some he
  unfold swapAt
  have h1 : (l.zip ix)[a]? = some (u, x) := by simp [List.getElem?_zip_eq_some, hu, ha]
  have h2 : (l.zip ix)[b]? = some (v, y) := by simp [List.getElem?_zip_eq_some, hv, hb]
  rw [h1, h2, set_zip, set_zip]

theorem applyRevInner_spec {α : Type} (n i : Nat) (s : PermState α)
    (hn : s.elems.length = n) (hl : s.idx.length = n) (hi : i < n) :
    let r := applyRevInner n i s
    r.1 ≠ .ub ∧ (r.2.elems.zip r.2.idx).Perm (s.elems.zip s.idx) ∧ r.2.elems.length = n ∧ r.2.idx.length = n ∧
    (s.idx.Nodup → (∀ x ∈ s.idx, 0 ≤ x ∧ x < n) → r.1 = .done) ∧
    (r.1 = .done → r.2.idx[i]? = some (i : Int) ∧
      ∀ k : Nat, s.idx[k]? = some (k : Int) → r.2.idx[k]? = some (k : Int)) := by
  induction hm : nonFixedFrom 0 s.idx using Nat.strongRecOn generalizing s with
  | _ m ih =>
  have hil : i < s.idx.length := by omega
  unfold applyRevInner
  split
  · rename_i h; rw [List.getElem?_eq_getElem hil] at h; simp at h
  · rename_i next h
    split
    · rename_i hx
      subst hx
      exact ⟨by simp, List.Perm.refl _, hn, hl, fun _ _ => rfl, fun _ => ⟨h, fun k hk => hk⟩⟩
    · rename_i hxi
      split
      · rename_i hr
        exact ⟨by simp, List.Perm.refl _, hn, hl, fun _ hall => by
          have := hall next (List.mem_of_getElem? h); omega, by simp⟩
      · rename_i hr
        have hnl : next.toNat < s.idx.length := by omega
        split
        · rename_i h'; rw [List.getElem?_eq_getElem hnl] at h'; simp at h'
        · rename_i nn h'
          split
          · rename_i hnn
            subst hnn
            exact ⟨by simp, List.Perm.refl _, hn, hl, fun hd _ => by
              have := nodup_get_inj hd h h'; omega, by simp⟩
          · rename_i hnn
            obtain ⟨e, he⟩ := swapAt_isSome s.elems (a := i) (b := next.toNat) (by omega) (by omega)
            have hzip := swap_zip he h h'
            have hidx : swapAt s.idx i next.toNat = some ((s.idx.set i nn).set next.toNat next) := by
              unfold swapAt; rw [h, h']
            have hne : i ≠ next.toNat := by omega
            have hd1 := nonFixedFrom_set s.idx 0 i next nn h
            have hd2 := nonFixedFrom_set (s.idx.set i nn) 0 next.toNat nn next
              (by rw [List.getElem?_set_ne hne]; exact h')
            have hcast : ((next.toNat : Nat) : Int) = next := by omega
            have hnn' : nn ≠ next := fun hc => hnn hc.symm
            rw [he]
            simp only
            obtain ⟨r1, r2, r3, r4, r5, r6⟩ := ih _ (by
                simp [hcast, hxi, hnn'] at hd1 hd2 ⊢
                split at hd1 <;> omega)
              ⟨e, (s.idx.set i nn).set next.toNat next⟩ ((swapAt_length he).trans hn) (by simpa using hl) rfl
            refine ⟨r1, r2.trans (swapAt_perm hzip), r3, r4, ?_, ?_⟩
            · intro hd hall
              exact r5 ((swapAt_perm hidx).nodup_iff.mpr hd) (fun x hx => hall x ((swapAt_perm hidx).mem_iff.mp hx))
            · intro hdn
              refine ⟨(r6 hdn).1, fun k hk => (r6 hdn).2 k ?_⟩
              simp only
              rw [swapAt_get hidx]
              have hki : k ≠ i := by rintro rfl; rw [h, Option.some.injEq] at hk; exact hxi hk
              have hkn : k ≠ next.toNat := by
                rintro rfl; rw [h', Option.some.injEq] at hk; omega
              simp [hki, hkn, hk]

theorem applyRevOuter_spec {α : Type} (n m i : Nat) (s : PermState α) (him : i + m = n)
    (hn : s.elems.length = n) (hl : s.idx.length = n) (hdone : ∀ k < i, s.idx[k]? = some (k : Int)) :
    let r := applyRevOuter n m i s
    r.1 ≠ .ub ∧ (r.2.elems.zip r.2.idx).Perm (s.elems.zip s.idx) ∧ r.2.elems.length = n ∧ r.2.idx.length = n ∧
    (s.idx.Nodup → (∀ x ∈ s.idx, 0 ≤ x ∧ x < n) → r.1 = .done) ∧
    (r.1 = .done → r.2.idx = identity n) := by
  induction m generalizing i s with
  | zero =>
    exact ⟨by simp [applyRevOuter], List.Perm.refl _, hn, hl, fun _ _ => rfl,
      fun _ => eq_identity hl (fun k hk => hdone k (by omega))⟩
  | succ m ih =>
    obtain ⟨h1, h2, h3, h4, h5, h6⟩ := applyRevInner_spec n i s hn hl (by omega)
    simp only [applyRevOuter]
    split
    · rename_i s' hs
      rw [hs] at h1 h2 h3 h4 h6
      obtain ⟨q2, q3⟩ := h6 rfl
      simp only at h2 h3 h4 q2 q3
      have hidx : s'.idx.Perm s.idx := by
        have := h2.map Prod.snd
        rwa [List.map_snd_zip (by omega), List.map_snd_zip (by omega)] at this
      obtain ⟨r1, r2, r3, r4, r5, r6⟩ := ih (i + 1) s' (by omega) h3 h4 (by
        intro k hk
        by_cases hki : k = i
        · subst hki; exact q2
        · exact q3 k (hdone k (by omega)))
      exact ⟨r1, r2.trans h2, r3, r4, fun hd hall => r5 (hidx.nodup_iff.mpr hd)
        (fun x hx => hall x (hidx.mem_iff.mp hx)), r6⟩
    · rename_i hnd
      exact ⟨h1, h2, h3, h4, h5, fun hd => (hnd _ (Prod.ext hd rfl)).elim⟩

/-! ## shuffle -/

theorem swapAt_self {α : Type} {l : List α} {a : Nat} (h : a < l.length) : swapAt l a a = some l := by
  unfold swapAt
  rw [List.getElem?_eq_getElem h]
  simp

theorem shuffleLoop_succ {α : Type} (draw : Nat → Nat) (i : Nat) (l : List α) (h : i + 1 < l.length) :
    shuffleLoop draw (i + 1) l = (swapAt l (i + 1) (draw (i + 1))).bind (shuffleLoop draw i) := by
  simp only [shuffleLoop]
  by_cases hj : i + 1 = draw (i + 1)
  · rw [if_neg (by simpa using hj), ← hj, swapAt_self h]; rfl
  · rw [if_pos hj]
    cases swapAt l (i + 1) (draw (i + 1)) <;> rfl

theorem shuffleLoop_congr {α : Type} (d d' : Nat → Nat) (i : Nat) (l : List α)
    (h : ∀ k, 1 ≤ k → k ≤ i → d k = d' k) : shuffleLoop d i l = shuffleLoop d' i l := by
  induction i generalizing l with
  | zero => rfl
  | succ i ih =>
    simp only [shuffleLoop, h (i + 1) (by omega) (by omega)]
    split
    · split
      · rfl
      · exact ih _ (fun k h1 h2 => h k h1 (by omega))
    · exact ih _ (fun k h1 h2 => h k h1 (by omega))

theorem shuffleLoop_ok {α : Type} (d : Nat → Nat) (i : Nat) (l : List α) (hi : i < l.length ∨ i = 0)
    (hd : ∀ k, 1 ≤ k → k ≤ i → d k ≤ k) :
    ∃ l', shuffleLoop d i l = some l' ∧ l'.Perm l ∧ ∀ k, i < k → l'[k]? = l[k]? := by
  induction i generalizing l with
  | zero => exact ⟨l, rfl, List.Perm.refl _, fun _ _ => rfl⟩
  | succ i ih =>
    have hil : i + 1 < l.length := by omega
    rw [shuffleLoop_succ d i l hil]
    have := hd (i + 1) (by omega) (by omega)
    obtain ⟨l1, h1⟩ := swapAt_isSome l hil (b := d (i + 1)) (by omega)
    have hlen := swapAt_length h1
    obtain ⟨l', h2, h3, h4⟩ := ih l1 (by omega) (fun k a b => hd k a (by omega))
    refine ⟨l', by rw [h1]; exact h2, h3.trans (swapAt_perm h1), ?_⟩
    intro k hk
    rw [h4 k (by omega), swapAt_get h1]
    simp [show k ≠ i + 1 by omega, show k ≠ d (i + 1) by omega]

end Makeshift
