import Verif.Model.Strings
import Mathlib.Data.List.Basic
import Mathlib.Data.List.TakeWhile
import Verif.Spec.Text

/-! Helper lemmas about strings, trimming, joining and character sets. -/

namespace Makeshift

open Spec

theorem Spec.AllWs.reverse {s : Str} (h : AllWs s) : AllWs s.reverse := fun c hc => h c (by simpa using hc)

theorem Spec.AllWs.append {s t : Str} (h : AllWs s) (h' : AllWs t) : AllWs (s ++ t) := by
  intro c hc; rcases List.mem_append.mp hc with hc | hc; exacts [h c hc, h' c hc]

theorem mem_whitespaceChars (c : CChar) : c ∈ whitespaceChars ↔ isWs c = true := by
  simp [whitespaceChars, str, isWs, or_assoc]

theorem contains_whitespaceChars (c : CChar) : whitespaceChars.contains c = isWs c := by
  rw [Bool.eq_iff_iff, ← mem_whitespaceChars]; simp

theorem findIdx?_append_not {p : CChar → Bool} {a r : Str} {c : CChar} (ha : ∀ x ∈ a, p x = false) (hc : p c = true) :
    (a ++ c :: r).findIdx? p = some a.length := by
  induction a with
  | nil => simp [List.findIdx?_cons, hc]
  | cons x xs ih =>
    have hx : p x = false := ha x (by simp)
    simp [List.findIdx?_cons, hx, ih (fun y hy => ha y (by simp [hy]))]

theorem allWs_or_decomp (s : Str) :
    AllWs s ∨ ∃ a c r, s = a ++ c :: r ∧ AllWs a ∧ isWs c = false := by
  induction s with
  | nil => left; simp [AllWs]
  | cons x xs ih =>
    by_cases hx : isWs x = true
    · rcases ih with h | ⟨a, c, r, rfl, ha, hc⟩
      · left; intro y hy; rcases List.mem_cons.mp hy with rfl | hy; exacts [hx, h _ hy]
      · right; refine ⟨x :: a, c, r, rfl, ?_, hc⟩
        intro y hy; rcases List.mem_cons.mp hy with rfl | hy; exacts [hx, ha _ hy]
    · right; exact ⟨[], x, xs, rfl, by simp [AllWs], by simpa using hx⟩

theorem allWs_or_decomp_end (s : Str) :
    AllWs s ∨ ∃ r c b, s = r ++ c :: b ∧ AllWs b ∧ isWs c = false := by
  rcases allWs_or_decomp s.reverse with h | ⟨a, c, r, hs, ha, hc⟩
  · left; simpa using h.reverse
  · right; refine ⟨r.reverse, c, a.reverse, ?_, ha.reverse, hc⟩
    have := congrArg List.reverse hs; simpa using this

theorem findIdx?_none {p : CChar → Bool} {s : Str} (h : ∀ x ∈ s, p x = false) : s.findIdx? p = none := by
  simpa using h

theorem not_contains_of_isWs {a : Str} (ha : AllWs a) : ∀ x ∈ a, (!whitespaceChars.contains x) = false := by
  intro x hx; rw [contains_whitespaceChars, ha x hx]; rfl

theorem dropWhile_allWs {a : Str} (ha : AllWs a) (t : Str) : (a ++ t).dropWhile isWs = t.dropWhile isWs := by
  induction a with
  | nil => rfl
  | cons x xs ih =>
    have hx := ha x (by simp)
    simp [hx, ih (fun y hy => ha y (by simp [hy]))]

theorem dropWhile_head {t : Str} (h : ∀ c, t.head? = some c → isWs c = false) : t.dropWhile isWs = t := by
  cases t with
  | nil => rfl
  | cons x xs => simp [h x rfl]

theorem strip_pad {pre t post : Str} (h1 : AllWs pre) (h2 : AllWs post) (ht : Stripped t) :
    strip (pre ++ t ++ post) = t := by
  unfold strip
  rw [List.append_assoc, dropWhile_allWs h1]
  cases t with
  | nil =>
    have : post.dropWhile isWs = [] := by rw [List.dropWhile_eq_nil_iff]; exact h2
    simp [this]
  | cons x xs =>
    have hx : isWs x = false := ht.1 x rfl
    have h3 : (x :: xs ++ post).dropWhile isWs = x :: xs ++ post := by simp [hx]
    rw [h3, List.reverse_append, dropWhile_allWs h2.reverse, dropWhile_head, List.reverse_reverse]
    intro c hc
    apply ht.2
    rw [← hc, List.head?_reverse]

theorem exists_strip (s : Str) : ∃ t, IsStripOf t s := by
  rcases allWs_or_decomp s with h | ⟨a, c, r, rfl, ha, hc⟩
  · exact ⟨[], s, [], by simp, h, by simp [AllWs], by simp [Stripped]⟩
  · rcases allWs_or_decomp_end (c :: r) with h | ⟨m, d, b, hm, hb, hd⟩
    · have := h c (by simp); simp [hc] at this
    · refine ⟨m ++ [d], a, b, by rw [hm]; simp, ha, hb, ?_, ?_⟩
      · intro x hx
        cases m with
        | nil => simp at hx; simp at hm; rw [← hx]; exact hd
        | cons y ys => simp at hx; simp at hm; rw [← hx, ← hm.1]; exact hc
      · intro x hx; simp at hx; rw [← hx]; exact hd

theorem strip_spec (s : Str) : IsStripOf (strip s) s := by
  obtain ⟨t, pre, post, rfl, h1, h2, h3⟩ := exists_strip s
  rw [strip_pad h1 h2 h3]
  exact ⟨pre, post, rfl, h1, h2, h3⟩

theorem isStripOf_unique {s t t' : Str} (h : IsStripOf t s) (h' : IsStripOf t' s) : t = t' := by
  obtain ⟨pre, post, rfl, h1, h2, h3⟩ := h
  obtain ⟨pre', post', he, h1', h2', h3'⟩ := h'
  rw [← strip_pad h1 h2 h3, he, strip_pad h1' h2' h3']

theorem trim_eq_strip (s : Str) : trim s = strip s := by
  obtain ⟨t, pre, post, rfl, h1, h2, h3⟩ := exists_strip s
  rw [strip_pad h1 h2 h3]
  cases t with
  | nil =>
    have : findFirstNotOf (pre ++ [] ++ post) whitespaceChars = none := by
      apply findIdx?_none
      exact not_contains_of_isWs (by simpa using h1.append h2)
    rw [trim, this]
  | cons x xs =>
    have hx : isWs x = false := h3.1 x rfl
    have hf : findFirstNotOf (pre ++ x :: xs ++ post) whitespaceChars = some pre.length := by
      unfold findFirstNotOf
      rw [List.append_assoc, List.cons_append]
      exact findIdx?_append_not (not_contains_of_isWs h1) (by rw [contains_whitespaceChars, hx]; rfl)
    obtain ⟨ys, y, hy⟩ : ∃ ys y, x :: xs = ys ++ [y] :=
      ⟨(x :: xs).dropLast, (x :: xs).getLast (by simp), (List.dropLast_append_getLast (l := x :: xs) (by simp)).symm⟩
    have hyw : isWs y = false := h3.2 y (by rw [hy]; simp)
    have hl : findLastNotOf (pre ++ x :: xs ++ post) whitespaceChars = some (pre.length + ys.length) := by
      unfold findLastNotOf
      have hr : (pre ++ x :: xs ++ post).reverse = post.reverse ++ y :: (ys.reverse ++ pre.reverse) := by
        rw [hy]; simp
      rw [hr, findIdx?_append_not (not_contains_of_isWs h2.reverse) (by rw [contains_whitespaceChars, hyw]; rfl), hy]
      simp; omega
    have hlen : ys.length + 1 = (x :: xs).length := by rw [hy]; simp
    have harith : pre.length + ys.length - pre.length + 1 = (x :: xs).length := by omega
    simp only [trim, hf, hl, substr, harith]
    rw [List.append_assoc, List.drop_left, List.take_left]

theorem trim_of_stripped {s : Str} (h : Stripped s) : trim s = s := by
  rw [trim_eq_strip]
  have := strip_pad (pre := []) (post := []) (t := s) (by simp [AllWs]) (by simp [AllWs]) h
  simpa using this

theorem strip_stripped (s : Str) : Stripped (strip s) := by
  obtain ⟨_, _, _, _, _, h⟩ := strip_spec s; exact h

/-! ### join -/

@[simp] theorem join_nil (sep : Str) : join sep [] = [] := rfl
@[simp] theorem join_singleton (sep x : Str) : join sep [x] = x := rfl
theorem join_cons_cons (sep x y : Str) (r : List Str) : join sep (x :: y :: r) = x ++ sep ++ join sep (y :: r) := rfl

theorem join_cons_ne {sep x : Str} {r : List Str} (h : r ≠ []) : join sep (x :: r) = x ++ sep ++ join sep r := by
  cases r with
  | nil => contradiction
  | cons => rfl

/-! ### split -/

theorem split_ne_nil (p : CChar → Bool) (s : Str) : split p s ≠ [] := by
  cases s with
  | nil => simp [split]
  | cons c cs => unfold split; split <;> (try split) <;> simp

theorem split_no_delim {p : CChar → Bool} {s : Str} (h : ∀ c ∈ s, p c = false) : split p s = [s] := by
  induction s with
  | nil => rfl
  | cons c cs ih =>
    unfold split
    rw [ih (fun x hx => h x (by simp [hx]))]
    simp [h c (by simp)]

theorem split_append_delim {p : CChar → Bool} {a r : Str} {c : CChar} (ha : ∀ x ∈ a, p x = false) (hc : p c = true) :
    split p (a ++ c :: r) = a :: split p r := by
  induction a with
  | nil => simp [split, hc]
  | cons x xs ih =>
    have := ih (fun y hy => ha y (by simp [hy]))
    simp only [List.cons_append]
    rw [split, this]
    simp [ha x (by simp)]

/-! ### character bit set -/

theorem insert_contains (b : CharBitset) (c d : CChar) :
    (b.insert c).contains d = (b.contains d || decide (c = d)) := by
  have hbit : ∀ (x : BitVec 64) (n : Nat), n < 64 → ((x &&& (1#64 <<< n)) != 0#64) = x.getLsbD n := by
    intro x n hn
    rw [Bool.eq_iff_iff]
    constructor
    · intro h
      have h : x &&& (1#64 <<< n) ≠ 0#64 := by simpa using h
      rcases hx : x.getLsbD n with _ | _
      case true => rfl
      exfalso; apply h
      apply BitVec.eq_of_getLsbD_eq
      intro i hi
      simp only [BitVec.getLsbD_and, BitVec.getLsbD_shiftLeft, BitVec.getLsbD_one, BitVec.getLsbD_zero]
      by_cases hin : i = n
      · subst hin; simp [hx]
      · have : i < n ∨ ¬ (i - n = 0) := by omega
        rcases this with h | h
        · simp [h]
        · simp [h]
    · intro h
      have : x &&& (1#64 <<< n) ≠ 0#64 := by
        intro h0
        have := congrArg (fun v => v.getLsbD n) h0
        simp only [BitVec.getLsbD_and, BitVec.getLsbD_shiftLeft, BitVec.getLsbD_one, BitVec.getLsbD_zero, h] at this
        simp [hn] at this
      simpa using this
  have hc : c.toNat % 64 < 64 := Nat.mod_lt _ (by decide)
  have hd : d.toNat % 64 < 64 := Nat.mod_lt _ (by decide)
  unfold CharBitset.contains CharBitset.insert
  simp only [hbit _ _ hd]
  by_cases hw : CharBitset.word d = CharBitset.word c
  · have hw' : d.toNat / 64 = c.toNat / 64 := by simpa [CharBitset.word] using hw
    simp only [hw, if_true, BitVec.getLsbD_or, BitVec.getLsbD_shiftLeft, BitVec.getLsbD_one]
    congr 1
    by_cases hcd : c = d
    · subst hcd; simp [hc]
    · have : c.toNat ≠ d.toNat := fun h => hcd (UInt8.toNat_inj.mp h)
      have : d.toNat % 64 < c.toNat % 64 ∨ ¬ (d.toNat % 64 - c.toNat % 64 = 0) := by omega
      rcases this with h | h
      · simp [h, hcd]
      · simp [h, hcd]
  · have : c ≠ d := by rintro rfl; exact hw rfl
    simp [hw, this]

theorem ofChars_contains_aux (chars : Str) (b : CharBitset) (d : CChar) :
    (chars.foldl CharBitset.insert b).contains d = (b.contains d || chars.contains d) := by
  induction chars generalizing b with
  | nil => simp
  | cons c cs ih =>
    rw [List.foldl_cons, ih, insert_contains, Bool.or_assoc, List.contains_cons]
    congr 2
    rw [Bool.eq_iff_iff, decide_eq_true_iff, beq_iff_eq]
    exact eq_comm

theorem ofChars_contains (chars : Str) (d : CChar) : (CharBitset.ofChars chars).contains d = chars.contains d := by
  unfold CharBitset.ofChars
  rw [ofChars_contains_aux]
  simp [CharBitset.contains]

end Makeshift
