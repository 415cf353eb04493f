import Verif.Model.TextCost
import Verif.Spec.TextCost
import Verif.Lemmas.Serialize

/-! # Lemmas: the record of work done changes nothing, and what it amounts to -/

namespace Makeshift.TextCost

open Makeshift.Spec

theorem searched_nil {α : Type} (p : α → Bool) : searched p [] = 0 := by simp [searched]

theorem searched_cons {α : Type} (p : α → Bool) (a : α) (l : List α) :
    searched p (a :: l) = if p a then 1 else searched p l + 1 := by
  simp only [searched, List.findIdx_cons, List.length_cons]
  cases h : p a
  · simp only [cond_false, Bool.false_eq_true, if_false]
    omega
  · simp only [cond_true, if_true]
    omega

theorem searched_le {α : Type} (p : α → Bool) (l : List α) : searched p l ≤ l.length := Nat.min_le_right ..

theorem enumToString_eq {V : Type} [DecidableEq V] (value : V) (es : List (V × Str)) :
    enumToString value es = (enumToStringLoop value es, searched (fun e => e.1 == value) es) := by
  induction es with
  | nil => simp [enumToString, enumToStringLoop, searched_nil]
  | cons e es ih =>
    obtain ⟨v, n⟩ := e
    rw [enumToString, enumToStringLoop, searched_cons, ih]
    by_cases h : value = v
    · simp [h]
    · have h' : ¬ v = value := fun e => h e.symm
      simp [h, h']

theorem tryEnumFromString_eq {V : Type} (value : V) (s : Str) (es : List (V × Str)) :
    tryEnumFromString value s es = (tryEnumFromStringLoop value s es, searched (fun e => e.2 == s) es) := by
  induction es with
  | nil => simp [tryEnumFromString, tryEnumFromStringLoop, searched_nil]
  | cons e es ih =>
    obtain ⟨v, n⟩ := e
    rw [tryEnumFromString, tryEnumFromStringLoop, searched_cons, ih]
    by_cases h : s = n
    · simp [h]
    · have h' : ¬ n = s := fun e => h e.symm
      simp [h, h']

theorem flagsTokenLoop_eq {w : Nat} (token : Str) (r : BitVec w) (t : List (BitVec w × Str)) :
    flagsTokenLoop token r t = (Makeshift.flagsTokenLoop token r t, searched (fun e => e.2 == token) t) := by
  induction t with
  | nil => simp [flagsTokenLoop, Makeshift.flagsTokenLoop, searched_nil]
  | cons e es ih =>
    obtain ⟨v, n⟩ := e
    rw [flagsTokenLoop, Makeshift.flagsTokenLoop, searched_cons, ih]
    by_cases h : token = n
    · simp [h]
    · have h' : ¬ n = token := fun e => h e.symm
      simp [h, h']

theorem flagsToStringLoop_eq {w : Nat} (flags : BitVec w) (result : Str) (flagsSet : BitVec w) (k : Nat) (l : List (BitVec w × Str)) :
    flagsToStringLoop flags result flagsSet k l = (Makeshift.flagsToStringLoop flags result flagsSet l, k + l.length) := by
  induction l generalizing result flagsSet k with
  | nil => rfl
  | cons e l ih =>
    obtain ⟨f, n⟩ := e
    simp only [flagsToStringLoop, Makeshift.flagsToStringLoop, List.length_cons]
    split
    · rw [ih, Nat.add_right_comm, Nat.add_assoc]
    · rw [ih, Nat.add_right_comm, Nat.add_assoc]

theorem trimLooked_le (s : Str) : trimLooked s ≤ s.length + 1 := by
  unfold trimLooked
  cases hf : findFirstNotOf s whitespaceChars with
  | none => simp
  | some i =>
    unfold findFirstNotOf at hf
    obtain ⟨hi, hc, -⟩ := List.findIdx?_eq_some_iff_getElem.mp hf
    cases hr : findFirstNotOf s.reverse whitespaceChars with
    | none =>
      unfold findFirstNotOf at hr
      rw [List.findIdx?_eq_none_iff] at hr
      have := hr s[i] (List.mem_reverse.mpr (List.getElem_mem hi))
      rw [this] at hc
      cases hc
    | some k =>
      unfold findFirstNotOf at hr
      obtain ⟨hk, -, hb⟩ := List.findIdx?_eq_some_iff_getElem.mp hr
      simp only [looked]
      rw [List.length_reverse] at hk
      by_contra hlt
      have hj : s.length - 1 - i < k := by omega
      have := hb (s.length - 1 - i) hj
      rw [List.getElem_reverse] at this
      have he : s.length - 1 - (s.length - 1 - i) = i := by omega
      simp only [he] at this
      exact this hc

theorem flagsFromStringLoop_nil {w : Nat} (table : List (BitVec w × Str)) (r : BitVec w) :
    flagsFromStringLoop table r [] = ⟨.ok r, 0, 0⟩ := by
  unfold flagsFromStringLoop; simp

theorem lookup_isSome_iff {w : Nat} (table : List (BitVec w × Str)) (t : Str) :
    (lookup table t).isSome = true ↔ ∃ e ∈ table, e.2 = t := by
  simp [lookup]

theorem plain_some {w : Nat} (table : List (BitVec w × Str)) (r : BitVec w) {s : Str} (hs : s ≠ []) {pos : Nat}
    (hf : findFirstOf s (str "+|") = some pos) :
    Makeshift.flagsFromStringLoop table r s =
      match Makeshift.flagsTokenLoop (trim (substr s 0 pos)) r table with
      | some r' => Makeshift.flagsFromStringLoop table r' (s.drop (pos + 1))
      | none => .error (trim (substr s 0 pos)) := by
  rw [Makeshift.flagsFromStringLoop, dif_neg hs]
  split
  · next p h =>
    rw [hf] at h
    cases h
    rfl
  · next h =>
    rw [hf] at h
    cases h

theorem plain_none {w : Nat} (table : List (BitVec w × Str)) (r : BitVec w) {s : Str} (hs : s ≠ [])
    (hf : findFirstOf s (str "+|") = none) :
    Makeshift.flagsFromStringLoop table r s =
      if trim s = [] then .ok r
      else
        match Makeshift.flagsTokenLoop (trim s) r table with
        | some r' => .ok r'
        | none => .error (trim s) := by
  rw [Makeshift.flagsFromStringLoop, dif_neg hs]
  split
  · next p h =>
    rw [hf] at h
    cases h
  · simp only [Makeshift.flagsFromStringLoop_nil]
    rfl

theorem flagsFromStringLoop_result {w : Nat} (table : List (BitVec w × Str)) (r : BitVec w) (s : Str) :
    (flagsFromStringLoop table r s).result = Makeshift.flagsFromStringLoop table r s := by
  induction hl : s.length using Nat.strongRecOn generalizing s r with
  | _ n ih =>
    by_cases hs : s = []
    · rw [hs, flagsFromStringLoop_nil, Makeshift.flagsFromStringLoop_nil]
    · unfold flagsFromStringLoop
      rw [dif_neg hs]
      split
      · next pos hf =>
        rw [plain_some table r hs hf]
        simp only [flagsTokenLoop_eq]
        have hlt := findFirstOf_lt hf
        cases Makeshift.flagsTokenLoop (trim (substr s 0 pos)) r table with
        | none => rfl
        | some r' => exact ih (s.drop (pos + 1)).length (by simp; omega) _ _ rfl
      · next hf =>
        rw [plain_none table r hs hf]
        simp only [flagsTokenLoop_eq, flagsFromStringLoop_nil]
        split
        · rfl
        · cases Makeshift.flagsTokenLoop (trim s) r table <;> rfl

theorem flagsFromStringLoop_looked {w : Nat} (table : List (BitVec w × Str)) (r : BitVec w) (s : Str) :
    (flagsFromStringLoop table r s).looked ≤ 2 * s.length + 1 := by
  induction hl : s.length using Nat.strongRecOn generalizing s r with
  | _ n ih =>
    unfold flagsFromStringLoop
    by_cases hs : s = []
    · simp [hs]
    · rw [dif_neg hs]
      split
      · next pos hf =>
        have hlt := findFirstOf_lt hf
        have ht := trimLooked_le (substr s 0 pos)
        have hp : (substr s 0 pos).length = pos := by simp [substr]; omega
        rw [hp] at ht
        simp only [flagsTokenLoop_eq]
        cases Makeshift.flagsTokenLoop (trim (substr s 0 pos)) r table with
        | none =>
          show pos + 1 + trimLooked (substr s 0 pos) ≤ _
          omega
        | some r' =>
          have h := ih (s.drop (pos + 1)).length (by simp; omega) r' _ rfl
          simp only [Parsed.after]
          rw [List.length_drop] at h
          omega
      · have ht := trimLooked_le s
        simp only [flagsTokenLoop_eq, flagsFromStringLoop_nil]
        split
        · show s.length + trimLooked s ≤ _
          omega
        · cases Makeshift.flagsTokenLoop (trim s) r table with
          | none =>
            show s.length + trimLooked s ≤ _
            omega
          | some r' =>
            show s.length + trimLooked s + 0 ≤ _
            omega

theorem flagTokens_delim {s : Str} {pos : Nat} (hf : findFirstOf s (str "+|") = some pos) :
    flagTokens s = strip (s.take pos) :: flagTokens (s.drop (pos + 1)) := by
  obtain ⟨c, hc, hcm, hb⟩ := findFirstOf_some hf
  have hsplit : split isFlagDelim s = s.take pos :: split isFlagDelim (s.drop (pos + 1)) := by
    conv => lhs; rw [hc]
    exact split_append_delim
      (fun x hx => by
        have := hb x hx
        rw [mem_delims] at this; simpa using this)
      ((mem_delims c).mp hcm)
  unfold flagTokens dropEmptyLast
  have hne : (split isFlagDelim (s.drop (pos + 1))).map strip ≠ [] := by
    simp [split_ne_nil]
  rw [hsplit, List.map_cons, getLast?_cons_of_ne hne]
  split
  · rw [List.dropLast_cons_of_ne_nil hne]
  · rfl

theorem flagTokens_no_delim {s : Str} (hf : findFirstOf s (str "+|") = none) :
    flagTokens s = if strip s = [] then [] else [strip s] := by
  have hno := findFirstOf_eq_none.mp hf
  have hsplit : split isFlagDelim s = [s] :=
    split_no_delim (fun c hc => by
      have := hno c hc
      rw [mem_delims] at this; simpa using this)
  unfold flagTokens dropEmptyLast
  rw [hsplit]
  by_cases ht : strip s = [] <;> simp [ht]

theorem flagsFromStringLoop_compared {w : Nat} (table : List (BitVec w × Str)) (r : BitVec w) (s : Str) :
    (flagsFromStringLoop table r s).compared = tokensSearched table (flagTokens s) := by
  induction hl : s.length using Nat.strongRecOn generalizing s r with
  | _ n ih =>
    unfold flagsFromStringLoop
    by_cases hs : s = []
    · subst hs
      simp [flagTokens, split, strip, dropEmptyLast, tokensSearched]
    · rw [dif_neg hs]
      split
      · next pos hf =>
        have hlt := findFirstOf_lt hf
        rw [flagTokens_delim hf, tokensSearched]
        simp only [flagsTokenLoop_eq, Makeshift.flagsTokenLoop_eq, substr, List.drop_zero, trim_eq_strip]
        cases hlk : lookup table (strip (s.take pos)) with
        | none =>
          have hno : ¬ ∃ e ∈ table, e.2 = strip (s.take pos) := by
            rw [← lookup_isSome_iff, hlk]; simp
          simp only [Option.map_none, if_neg hno, Nat.add_zero]
        | some v =>
          have hyes : ∃ e ∈ table, e.2 = strip (s.take pos) := by
            rw [← lookup_isSome_iff, hlk]; rfl
          simp only [Option.map_some, if_pos hyes, Parsed.after]
          rw [ih (s.drop (pos + 1)).length (by simp; omega) _ _ rfl]
      · next hf =>
        rw [flagTokens_no_delim hf]
        simp only [flagsTokenLoop_eq, Makeshift.flagsTokenLoop_eq, trim_eq_strip, flagsFromStringLoop_nil]
        by_cases ht : strip s = []
        · simp [ht, tokensSearched]
        · simp only [ht, if_false, tokensSearched]
          cases lookup table (strip s) <;> simp [Parsed.after]

theorem tokensSearched_le {w : Nat} (table : List (BitVec w × Str)) (ts : List Str) :
    tokensSearched table ts ≤ ts.length * table.length := by
  induction ts with
  | nil => simp [tokensSearched]
  | cons t ts ih =>
    have h := searched_le (fun e : BitVec w × Str => e.2 == t) table
    rw [tokensSearched, List.length_cons, Nat.succ_mul]
    split <;> omega

theorem split_length (p : CChar → Bool) (s : Str) : (split p s).length = s.countP p + 1 := by
  induction s with
  | nil => rfl
  | cons c s ih =>
    unfold split
    rw [List.countP_cons]
    cases h : p c
    · simp only [Bool.false_eq_true, if_false, Nat.add_zero]
      cases hs : split p s with
      | nil => rw [hs] at ih; simp at ih
      | cons t ts => rw [hs] at ih; simpa using ih
    · simp [ih]

theorem flagTokens_length_le (s : Str) : (flagTokens s).length ≤ s.countP isFlagDelim + 1 := by
  have h := split_length isFlagDelim s
  unfold flagTokens dropEmptyLast
  split
  · rw [List.length_dropLast, List.length_map]; omega
  · rw [List.length_map]; omega

end Makeshift.TextCost
