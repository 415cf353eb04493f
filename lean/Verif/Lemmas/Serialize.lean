import Verif.Model.Serialize
import Verif.Lemmas.Text
import Verif.Lemmas.Bits

/-! Helper lemmas about enum and flags serialisation. -/

namespace Makeshift

open Spec

/-! ### tables -/

theorem enumToStringLoop_eq {V : Type} [DecidableEq V] (v : V) (t : List (V × Str)) :
    enumToStringLoop v t = match nameOf t v with | some n => .ok n | none => .failFast := by
  induction t with
  | nil => rfl
  | cons e r ih =>
    obtain ⟨x, n⟩ := e
    unfold enumToStringLoop nameOf
    by_cases h : v = x
    · subst h; simp
    · have h' : ¬ x = v := fun e => h e.symm
      rw [if_neg h, ih, nameOf]
      simp [h']

theorem tryEnumFromStringLoop_eq {V : Type} (value : V) (s : Str) (t : List (V × Str)) :
    tryEnumFromStringLoop value s t = match lookup t s with | some v => (v, 0) | none => (value, -1) := by
  induction t with
  | nil => rfl
  | cons e r ih =>
    obtain ⟨x, n⟩ := e
    unfold tryEnumFromStringLoop lookup
    by_cases h : s = n
    · subst h; simp
    · have h' : ¬ n = s := fun e => h e.symm
      rw [if_neg h, ih, lookup]
      simp [h']

theorem lookup_cons {V : Type} (e : V × Str) (r : List (V × Str)) (s : Str) :
    lookup (e :: r) s = if e.2 = s then some e.1 else lookup r s := by
  unfold lookup
  by_cases h : e.2 = s
  · simp [h]
  · simp [h]

theorem lookup_of_nodup {V : Type} {t : List (V × Str)} (h : (t.map Prod.snd).Nodup) {e : V × Str} (he : e ∈ t) :
    lookup t e.2 = some e.1 := by
  induction t with
  | nil => simp at he
  | cons x r ih =>
    rw [lookup_cons]
    simp only [List.map_cons, List.nodup_cons] at h
    rcases List.mem_cons.mp he with rfl | he
    · simp
    · have : x.2 ≠ e.2 := by
        intro hx; apply h.1; rw [hx]; exact List.mem_map_of_mem he
      rw [if_neg this]; exact ih h.2 he

theorem lookup_some_mem {V : Type} {t : List (V × Str)} {s : Str} {v : V} (h : lookup t s = some v) : (v, s) ∈ t := by
  induction t with
  | nil => simp [lookup] at h
  | cons x r ih =>
    rw [lookup_cons] at h
    split at h
    · next hx => simp at h; subst hx; subst h; simp
    · exact List.mem_cons_of_mem _ (ih h)

theorem lookup_none_iff {V : Type} {t : List (V × Str)} {s : Str} : lookup t s = none ↔ s ∉ t.map Prod.snd := by
  induction t with
  | nil => simp [lookup]
  | cons x r ih =>
    rw [lookup_cons]
    split
    · next h => simp [h]
    · next h => rw [ih]; simp [Ne.symm h]

theorem nameOf_some_mem {V : Type} [DecidableEq V] {t : List (V × Str)} {v : V} {n : Str} (h : nameOf t v = some n) :
    (v, n) ∈ t := by
  unfold nameOf at h
  rw [Option.map_eq_some_iff] at h
  obtain ⟨e, he, rfl⟩ := h
  have := List.mem_of_find?_eq_some he
  have hv := List.find?_some he
  simp at hv; subst hv; exact this

theorem nameOf_isSome_iff {V : Type} [DecidableEq V] {t : List (V × Str)} {v : V} :
    (∃ n, nameOf t v = some n) ↔ v ∈ t.map Prod.fst := by
  unfold nameOf
  constructor
  · rintro ⟨n, h⟩
    have := nameOf_some_mem (t := t) (v := v) (n := n) h
    exact List.mem_map_of_mem (f := Prod.fst) this
  · intro h
    obtain ⟨e, he, rfl⟩ := List.mem_map.mp h
    cases hf : t.find? (fun e' => e'.1 == e.1) with
    | none => simp at hf; exact absurd rfl (hf _ _ he)
    | some x => exact ⟨x.2, by simp⟩

/-! ### name validation -/

theorem findFirstOf_eq_none {s chars : Str} : findFirstOf s chars = none ↔ ∀ c ∈ s, c ∉ chars := by
  simp [findFirstOf]

theorem checkNames_eq (forbidden : Str) (names : List Str) :
    checkNames forbidden names =
      if ∀ n ∈ names, n ≠ [] ∧ ∀ c ∈ n, c ∉ forbidden then .ok () else .failFast := by
  induction names with
  | nil => simp [checkNames]
  | cons n r ih =>
    unfold checkNames
    by_cases h1 : n = []
    · simp [h1]
    · by_cases h2 : ∀ c ∈ n, c ∉ forbidden
      · have h2' := findFirstOf_eq_none.mpr h2
        have hne : n.isEmpty = false := by simpa using h1
        simp only [hne, h2', Outcome.bind_eq, Bool.not_false, Outcome.expects_true, Outcome.bind_ok, BEq.rfl, ih]
        by_cases hr : ∀ m ∈ r, m ≠ [] ∧ ∀ c ∈ m, c ∉ forbidden
        · rw [if_pos hr, if_pos]
          intro m hm
          rcases List.mem_cons.mp hm with rfl | hm
          exacts [⟨h1, h2⟩, hr m hm]
        · rw [if_neg hr, if_neg]
          exact fun h => hr (fun m hm => h m (List.mem_cons_of_mem _ hm))
      · have h2' : (findFirstOf n forbidden == none) = false := by
          cases hf : findFirstOf n forbidden with
          | none => exact absurd (findFirstOf_eq_none.mp hf) h2
          | some => rfl
        have hne : n.isEmpty = false := by simpa using h1
        simp only [hne, h2', Outcome.bind_eq, Bool.not_false, Outcome.expects_true, Outcome.bind_ok,
          Outcome.expects_false, Outcome.bind_failFast]
        simp [h2]

/-! ### error message -/

theorem appendNames_false (names : List Str) (msg : Str) :
    appendNames false msg names = msg ++ (names.map (fun n => str ", " ++ quote n)).flatten := by
  induction names generalizing msg with
  | nil => simp [appendNames]
  | cons n r ih =>
    unfold appendNames
    simp only [Bool.not_false, if_true, ih, quote, List.map_cons, List.flatten_cons, List.append_assoc]

theorem join_eq_flatten (x : Str) (names : List Str) :
    join (str ", ") (x :: names) = x ++ (names.map (fun n => str ", " ++ n)).flatten := by
  induction names generalizing x with
  | nil => simp
  | cons n r ih => rw [join_cons_cons, ih]; simp

theorem appendNames_true (names : List Str) (msg : Str) :
    appendNames true msg names = msg ++ join (str ", ") (names.map quote) := by
  cases names with
  | nil => simp [appendNames]
  | cons n r =>
    unfold appendNames
    rw [List.map_cons, join_eq_flatten, appendNames_false]
    simp [quote, List.map_map, Function.comp_def]

theorem enumFromStringError_eq {V : Type} (s : Str) (md : EnumMd V) (flags : Bool) :
    enumFromStringError s md flags =
      unknownValueMessage md.description s (md.entries.map Prod.snd) flags := by
  unfold enumFromStringError unknownValueMessage
  simp only [appendNames_true]
  by_cases hd : md.description = [] <;> cases flags <;> simp [hd]

/-! ### single bits -/

theorem isPowerOf2_iff {w : Nat} (v : BitVec w) : isPowerOf2 v = true ↔ SingleBit v := by
  unfold isPowerOf2
  rw [Bool.and_eq_true, decide_eq_true_iff, beq_iff_eq]
  constructor
  · rintro ⟨h0, h1⟩
    have h0' : 0 < v.toNat := by simpa [BitVec.lt_def] using h0
    have hw : v.toNat < 2 ^ w := v.isLt
    have hsub : (v - 1#w).toNat = v.toNat - 1 := by
      have hw1 : 1 < 2 ^ w := by omega
      rw [BitVec.toNat_sub_of_le]
      · simp [Nat.mod_eq_of_lt hw1]
      · rw [BitVec.le_def]; simp [Nat.mod_eq_of_lt hw1]; omega
    have h2 : v.toNat &&& (v.toNat - 1) = 0 := by
      rw [← hsub, ← BitVec.toNat_and, h1]; simp
    obtain ⟨k, hk⟩ := nat_pow_two_of_and (by omega) h2
    refine ⟨k, ?_, singleBit_toNat.mpr hk⟩
    rw [hk] at hw
    exact (Nat.pow_lt_pow_iff_right (by decide)).mp hw
  · rintro ⟨i, hi, h⟩
    have hn := singleBit_toNat.mp h
    have hpos : 0 < v.toNat := by rw [hn]; exact Nat.two_pow_pos i
    have hw : v.toNat < 2 ^ w := v.isLt
    have hw1 : 1 < 2 ^ w := by omega
    have hsub : (v - 1#w).toNat = v.toNat - 1 := by
      rw [BitVec.toNat_sub_of_le]
      · simp [Nat.mod_eq_of_lt hw1]
      · rw [BitVec.le_def]; simp [Nat.mod_eq_of_lt hw1]; omega
    refine ⟨by simpa [BitVec.lt_def] using hpos, ?_⟩
    apply BitVec.eq_of_toNat_eq
    rw [BitVec.toNat_and, hsub, hn, Nat.and_two_pow_sub_one_eq_mod]
    simp

theorem Spec.SingleBit.and_ne_zero {w : Nat} {v f : BitVec w} (h : SingleBit v) : (f &&& v) ≠ 0#w ↔ SubBits v f := by
  obtain ⟨i, hi, h⟩ := h
  rw [ne_zero_iff_bits]
  constructor
  · rintro ⟨j, hj⟩ k hk
    rw [BitVec.getLsbD_and, Bool.and_eq_true] at hj
    rw [h] at hk hj
    simp at hk hj
    rw [hk, ← hj.2]; exact hj.1
  · intro hs
    refine ⟨i, ?_⟩
    rw [BitVec.getLsbD_and, hs i (by rw [h]; simp), h]; simp


theorem find?_congr_of {α : Type} {p q : α → Bool} {l : List α} (h : ∀ x ∈ l, p x = q x) : l.find? p = l.find? q := by
  induction l with
  | nil => rfl
  | cons x r ih =>
    rw [List.find?_cons, List.find?_cons, h x (by simp), ih (fun y hy => h y (List.mem_cons_of_mem _ hy))]

/-! ### union -/

theorem union_getLsbD {w : Nat} (vs : List (BitVec w)) (i : Nat) :
    (union vs).getLsbD i = true ↔ ∃ v ∈ vs, v.getLsbD i = true := by
  induction vs with
  | nil => simp [union]
  | cons v vs ih => simp [union, ih]

theorem eq_of_bits {w : Nat} {a b : BitVec w} (h : ∀ i, a.getLsbD i = true ↔ b.getLsbD i = true) : a = b := by
  apply BitVec.eq_of_getLsbD_eq
  intro i _
  rw [Bool.eq_iff_iff]; exact h i

theorem and_not_eq_zero {w : Nat} (f a : BitVec w) : (f &&& ~~~a) = 0#w ↔ SubBits f a := by
  rw [eq_zero_iff_bits]
  constructor
  · intro h i hi
    have := h i
    rw [BitVec.getLsbD_and, BitVec.getLsbD_not, hi] at this
    have hw : i < w := BitVec.lt_of_getLsbD hi
    simpa [hw] using this
  · intro h i
    rw [BitVec.getLsbD_and, BitVec.getLsbD_not]
    cases hf : f.getLsbD i with
    | false => simp
    | true => simp [h i hf]

/-! ### building the flags table -/

theorem flagsScan_eq {w : Nat} (entries : List (BitVec w × Str)) (hn : ∀ e ∈ entries, e.2 ≠ []) (st : FlagsScan w) :
    entries.foldl flagsScanStep st =
      { table := st.table ++ entries.filter (fun e => isPowerOf2 e.1)
        allDefined := st.allDefined ||| union (entries.map Prod.fst)
        allIndividual := st.allIndividual ||| union ((entries.filter (fun e => isPowerOf2 e.1)).map Prod.fst)
        noneName := if st.noneName = [] then (nameOf entries 0#w).getD [] else st.noneName } := by
  induction entries generalizing st with
  | nil =>
    obtain ⟨a, b, c, d⟩ := st
    by_cases h : d = [] <;> simp [union, nameOf, h]
  | cons e r ih =>
    have hne : e.2 ≠ [] := hn e (by simp)
    rw [List.foldl_cons, ih (fun x hx => hn x (List.mem_cons_of_mem _ hx))]
    unfold flagsScanStep
    by_cases hp : isPowerOf2 e.1 = true
    · have h0 : e.1 ≠ 0#w := by
        intro h; rw [h] at hp; simp [isPowerOf2] at hp
      have hno : nameOf (e :: r) 0#w = nameOf r 0#w := by
        simp [nameOf, h0]
      simp [hp, union, hno, BitVec.or_assoc]
    · have hp' : isPowerOf2 e.1 = false := by simpa using hp
      by_cases h0 : e.1 = 0#w
      · have hno : nameOf (e :: r) 0#w = some e.2 := by
          simp [nameOf, h0]
        by_cases hs : st.noneName = []
        · simp [h0, hs, hno, hne, union, isPowerOf2]
        · simp [h0, hs, hno, union, isPowerOf2]
      · have hno : nameOf (e :: r) 0#w = nameOf r 0#w := by
          simp [nameOf, h0]
        simp [hp', h0, hno, union, BitVec.or_assoc]

theorem flagsRest_eq {w : Nat} (entries t : List (BitVec w × Str)) :
    entries.foldl flagsRestStep t = t ++ entries.filter (fun e => !isPowerOf2 e.1) := by
  induction entries generalizing t with
  | nil => simp
  | cons e r ih =>
    rw [List.foldl_cons, ih]
    unfold flagsRestStep
    by_cases hp : isPowerOf2 e.1 = true <;> simp [hp]

/-- What a successfully built flags table looks like. -/
theorem makeFlagsMetadata_eq {w : Nat} (desc : Str) (entries : List (BitVec w × Str)) :
    makeFlagsMetadata desc entries =
      if (∀ n ∈ entries.map Prod.snd, n ≠ [] ∧ ∀ c ∈ n, c ∉ flagsForbiddenChars) ∧
          union (entries.map Prod.fst) = union ((entries.filter (fun e => isPowerOf2 e.1)).map Prod.fst) then
        .ok { description := desc
              entries := entries.filter (fun e => isPowerOf2 e.1) ++ entries.filter (fun e => !isPowerOf2 e.1)
              allDefinedFlags := union (entries.map Prod.fst)
              noneName := (nameOf entries 0#w).getD []
              numIndividualNames := (entries.filter (fun e => isPowerOf2 e.1)).length }
      else .failFast := by
  unfold makeFlagsMetadata
  rw [checkNames_eq]
  by_cases h1 : ∀ n ∈ entries.map Prod.snd, n ≠ [] ∧ ∀ c ∈ n, c ∉ flagsForbiddenChars
  · have hn : ∀ e ∈ entries, e.2 ≠ [] := fun e he => (h1 e.2 (List.mem_map_of_mem he)).1
    rw [if_pos h1]
    simp only [flagsScan_eq entries hn, flagsRest_eq]
    by_cases h2 : union (entries.map Prod.fst) = union ((entries.filter (fun e => isPowerOf2 e.1)).map Prod.fst)
    · have h12 := And.intro h1 h2
      rw [if_pos h12]
      simp [h2]
    · have h12 := fun h : (∀ n ∈ entries.map Prod.snd, n ≠ [] ∧ ∀ c ∈ n, c ∉ flagsForbiddenChars) ∧ _ => h2 h.2
      rw [if_neg h12]
      have hb : (union (entries.map Prod.fst) == union ((entries.filter (fun e => isPowerOf2 e.1)).map Prod.fst)) = false := by
        simpa using h2
      simp [hb]
  · rw [if_neg h1, if_neg (fun h => h1 h.1)]
    rfl

/-! ### printing flags -/

/-- The entries `flags_to_string` prints. -/
def picked {w : Nat} (f set : BitVec w) : List (BitVec w × Str) → List (BitVec w × Str)
  | [] => []
  | e :: r =>
    if (f &&& e.1) ≠ 0#w ∧ (set &&& e.1) = 0#w then e :: picked f (set ||| e.1) r else picked f set r

theorem flagsToStringLoop_eq {w : Nat} (f : BitVec w) (t : List (BitVec w × Str)) (hn : ∀ e ∈ t, e.2 ≠ [])
    (res : Str) (set : BitVec w) :
    flagsToStringLoop f res set t =
      if res = [] then join (str "+") ((picked f set t).map Prod.snd)
      else join (str "+") (res :: (picked f set t).map Prod.snd) := by
  induction t generalizing res set with
  | nil => by_cases h : res = [] <;> simp [flagsToStringLoop, picked, h]
  | cons e r ih =>
    have hne : e.2 ≠ [] := hn e (by simp)
    have ih := ih (fun x hx => hn x (List.mem_cons_of_mem _ hx))
    obtain ⟨v, n⟩ := e
    unfold flagsToStringLoop picked
    by_cases hc : (f &&& v) ≠ 0#w ∧ (set &&& v) = 0#w
    · rw [if_pos hc, if_pos hc, ih]
      by_cases h : res = []
      · subst h
        have : n ≠ [] := hne
        simp [this]
      · have h' : res.isEmpty = false := by simpa using h
        simp only [h', Bool.not_false, if_true]
        rw [if_neg (by simp [h]), if_neg h, List.map_cons, join_cons_cons]
        cases (List.map Prod.snd (picked f (set ||| v) r)) with
        | nil => simp
        | cons => simp [join_cons_cons]
    · rw [if_neg hc, if_neg hc, ih]

theorem picked_sublist {w : Nat} (f set : BitVec w) (t : List (BitVec w × Str)) : (picked f set t).Sublist t := by
  induction t generalizing set with
  | nil => simp [picked]
  | cons e r ih =>
    unfold picked
    split
    · exact List.Sublist.cons_cons _ (ih _)
    · exact List.Sublist.cons _ (ih _)

theorem picked_mem {w : Nat} {f set : BitVec w} {t : List (BitVec w × Str)} {e : BitVec w × Str}
    (h : e ∈ picked f set t) : (f &&& e.1) ≠ 0#w ∧ (set &&& e.1) = 0#w := by
  induction t generalizing set with
  | nil => simp [picked] at h
  | cons x r ih =>
    unfold picked at h
    split at h
    · next hc =>
      rcases List.mem_cons.mp h with rfl | h
      · exact hc
      · have := ih h
        refine ⟨this.1, ?_⟩
        rw [eq_zero_iff_bits] at this ⊢
        intro i
        have := this.2 i
        simp only [BitVec.getLsbD_and, BitVec.getLsbD_or, Bool.and_eq_false_iff, Bool.or_eq_false_iff] at this ⊢
        tauto
    · exact ih h

theorem or_and_self_ne {w : Nat} {set v : BitVec w} (hv : v ≠ 0#w) : ((set ||| v) &&& v) ≠ 0#w := by
  rw [ne_zero_iff_bits] at hv ⊢
  obtain ⟨i, hi⟩ := hv
  exact ⟨i, by simp [hi]⟩

theorem picked_nodup {w : Nat} (f set : BitVec w) (t : List (BitVec w × Str)) (hs : ∀ e ∈ t, e.1 ≠ 0#w) :
    ((picked f set t).map Prod.fst).Nodup := by
  induction t generalizing set with
  | nil => simp [picked]
  | cons e r ih =>
    have ih := ih (hs := fun x hx => hs x (List.mem_cons_of_mem _ hx))
    unfold picked
    split
    · rw [List.map_cons, List.nodup_cons]
      refine ⟨?_, ih _⟩
      intro h
      obtain ⟨x, hx, hxe⟩ := List.mem_map.mp h
      have := (picked_mem hx).2
      rw [hxe] at this
      exact or_and_self_ne (hs e (by simp)) this
    · exact ih _

theorem nameOf_cons {V : Type} [DecidableEq V] (e : V × Str) (r : List (V × Str)) (v : V) :
    nameOf (e :: r) v = if e.1 = v then some e.2 else nameOf r v := by
  unfold nameOf
  by_cases h : e.1 = v <;> simp [h]

theorem picked_nameOf {w : Nat} {f set : BitVec w} {t : List (BitVec w × Str)} (hs : ∀ e ∈ t, e.1 ≠ 0#w)
    {e : BitVec w × Str} (h : e ∈ picked f set t) : nameOf t e.1 = some e.2 := by
  induction t generalizing set with
  | nil => simp [picked] at h
  | cons x r ih =>
    have ih := fun {set'} (h : e ∈ picked f set' r) => ih (set := set') (fun x hx => hs x (List.mem_cons_of_mem _ hx)) h
    rw [nameOf_cons]
    unfold picked at h
    split at h
    · rcases List.mem_cons.mp h with rfl | h
      · simp
      · have hm := picked_mem h
        rw [if_neg, ih h]
        intro hx
        rw [← hx] at hm
        exact or_and_self_ne (hs x (by simp)) hm.2
    · next hc =>
      have hm := picked_mem h
      rw [if_neg, ih h]
      intro hx
      rw [← hx] at hm
      exact hc hm

theorem picked_cover {w : Nat} {f set : BitVec w} {t : List (BitVec w × Str)} (hs : ∀ e ∈ t, SingleBit e.1)
    {e : BitVec w × Str} (he : e ∈ t) (hf : (f &&& e.1) ≠ 0#w) :
    (set &&& e.1) ≠ 0#w ∨ e.1 ∈ (picked f set t).map Prod.fst := by
  induction t generalizing set with
  | nil => simp at he
  | cons x r ih =>
    have ih := fun (set') he => ih (set := set') (fun x hx => hs x (List.mem_cons_of_mem _ hx)) he
    unfold picked
    split
    · next hc =>
      rcases List.mem_cons.mp he with rfl | he
      · right; simp
      · rcases ih (set ||| x.1) he with h | h
        · -- either in `set` or equal to `x.1`
          obtain ⟨i, hi, hb⟩ := hs e (List.mem_cons_of_mem _ he)
          obtain ⟨k, hk, hx⟩ := hs x (by simp)
          rw [ne_zero_iff_bits] at h
          obtain ⟨j, hj⟩ := h
          rw [BitVec.getLsbD_and, BitVec.getLsbD_or, hb, hx] at hj
          simp at hj
          obtain ⟨h1, h2⟩ := hj
          rcases h1 with h1 | h1
          · left; rw [ne_zero_iff_bits]; exact ⟨j, by rw [BitVec.getLsbD_and, h1, hb]; simp [h2]⟩
          · right
            have : e.1 = x.1 := by
              apply BitVec.eq_of_getLsbD_eq; intro m _; rw [hb, hx]; congr 1; rw [← h1, ← h2]
            simp [this]
        · right; simp only [List.map_cons, List.mem_cons]; exact Or.inr h
    · next hc =>
      rcases List.mem_cons.mp he with rfl | he
      · left; intro h; exact hc ⟨hf, h⟩
      · exact ih set he

/-! ### parsing flags -/

theorem mem_delims (c : CChar) : c ∈ str "+|" ↔ isFlagDelim c = true := by
  simp [str, isFlagDelim]

theorem flagsTokenLoop_eq {w : Nat} (token : Str) (r : BitVec w) (t : List (BitVec w × Str)) :
    flagsTokenLoop token r t = (lookup t token).map (fun v => r ||| v) := by
  induction t with
  | nil => rfl
  | cons e t ih =>
    obtain ⟨v, n⟩ := e
    unfold flagsTokenLoop
    rw [lookup_cons]
    by_cases h : token = n
    · subst h; simp
    · have h' : ¬ n = token := fun e => h e.symm
      simp only [h, h', if_false, ih]

/-- Accumulator version of `Spec.tokensValue`. -/
def accValue {w : Nat} (r : BitVec w) : Except Str (BitVec w) → Except Str (BitVec w)
  | .ok v => .ok (r ||| v)
  | .error e => .error e

theorem findFirstOf_some {s chars : Str} {pos : Nat} (h : findFirstOf s chars = some pos) :
    ∃ c, s = s.take pos ++ c :: s.drop (pos + 1) ∧ c ∈ chars ∧ ∀ x ∈ s.take pos, x ∉ chars := by
  have hlt := findFirstOf_lt h
  unfold findFirstOf at h
  rw [List.findIdx?_eq_some_iff_getElem] at h
  obtain ⟨hl, hc, hb⟩ := h
  refine ⟨s[pos], ?_, by simpa using hc, ?_⟩
  · rw [List.getElem_cons_drop, List.take_append_drop]
  · intro x hx
    obtain ⟨i, hi, rfl⟩ := List.mem_iff_getElem.mp hx
    have := hb i (by simp at hi; omega)
    simpa using this

theorem flagsFromStringLoop_nil {w : Nat} (table : List (BitVec w × Str)) (r : BitVec w) :
    flagsFromStringLoop table r [] = .ok r := by
  unfold flagsFromStringLoop; simp

theorem getLast?_cons_of_ne {α} {a : α} {l : List α} (h : l ≠ []) : (a :: l).getLast? = l.getLast? := by
  cases l with
  | nil => contradiction
  | cons b r => simp [List.getLast?_cons_cons]

theorem flagsFromStringLoop_eq {w : Nat} (table : List (BitVec w × Str)) (r : BitVec w) (s : Str) :
    flagsFromStringLoop table r s = accValue r (tokensValue table (flagTokens s)) := by
  induction hl : s.length using Nat.strongRecOn generalizing s r with
  | _ n ih =>
    unfold flagsFromStringLoop
    by_cases hs : s = []
    · subst hs
      simp [flagTokens, split, strip, dropEmptyLast, tokensValue, accValue]
    · rw [dif_neg hs]
      split
      · next pos hf =>
        obtain ⟨c, hc, hcm, hb⟩ := findFirstOf_some hf
        have hsplit : split isFlagDelim s = s.take pos :: split isFlagDelim (s.drop (pos + 1)) := by
          conv => lhs; rw [hc]
          exact split_append_delim
            (fun x hx => by
              have := hb x hx
              rw [mem_delims] at this; simpa using this)
            ((mem_delims c).mp hcm)
        have htok : flagTokens s = strip (s.take pos) :: flagTokens (s.drop (pos + 1)) := by
          unfold flagTokens dropEmptyLast
          have hne : (split isFlagDelim (s.drop (pos + 1))).map strip ≠ [] := by
            simp [split_ne_nil]
          rw [hsplit, List.map_cons, getLast?_cons_of_ne hne]
          split
          · rw [List.dropLast_cons_of_ne_nil hne]
          · rfl
        rw [htok]
        unfold tokensValue
        simp only [substr, List.drop_zero, flagsTokenLoop_eq, trim_eq_strip]
        cases hlk : lookup table (strip (s.take pos)) with
        | none => simp [accValue]
        | some v =>
          simp only [Option.map_some]
          have hlt := findFirstOf_lt hf
          rw [ih (s.drop (pos + 1)).length (by simp; omega) _ _ rfl]
          cases tokensValue table (flagTokens (s.drop (pos + 1))) with
          | ok x => simp [accValue, BitVec.or_assoc]
          | error e => simp [accValue]
      · next hf =>
        have hno := findFirstOf_eq_none.mp hf
        have hsplit : split isFlagDelim s = [s] :=
          split_no_delim (fun c hc => by
            have := hno c hc
            rw [mem_delims] at this; simpa using this)
        simp only [flagsFromStringLoop_nil, flagsTokenLoop_eq, trim_eq_strip]
        unfold flagTokens dropEmptyLast
        rw [hsplit]
        by_cases ht : strip s = []
        · simp [ht, tokensValue, accValue]
        · simp only [ht, if_false, List.map_cons, List.map_nil, List.getLast?_singleton, Option.some.injEq, tokensValue]
          cases lookup table (strip s) with
          | none => simp [accValue]
          | some v => simp [accValue]

theorem accValue_zero {w : Nat} (x : Except Str (BitVec w)) : accValue 0#w x = x := by
  cases x <;> simp [accValue]

/-- Tokens of a joined list of clean names. -/
theorem split_join_plus {names : List Str} (hne : names ≠ []) (h : ∀ n ∈ names, ∀ c ∈ n, isFlagDelim c = false) :
    split isFlagDelim (join (str "+") names) = names := by
  induction names with
  | nil => contradiction
  | cons n r ih =>
    cases r with
    | nil => simpa using split_no_delim (h n (by simp))
    | cons m r =>
      rw [join_cons_cons]
      have : str "+" = [43] := by decide
      rw [this, List.append_assoc, List.singleton_append,
        split_append_delim (h n (by simp)) (by decide), ← this, ih (by simp) (fun x hx => h x (by simp [hx]))]

theorem strip_of_stripped {s : Str} (h : Stripped s) : strip s = s := by
  rw [← trim_eq_strip]; exact trim_of_stripped h

theorem flagTokens_join {names : List Str} (h : ∀ n ∈ names, CleanFlagName n) :
    flagTokens (join (str "+") names) = names := by
  unfold flagTokens
  cases names with
  | nil => simp [split, strip, dropEmptyLast]
  | cons n r =>
    rw [split_join_plus (by simp) (fun x hx => (h x hx).2.1)]
    have : (n :: r).map strip = n :: r := by
      conv => rhs; rw [← List.map_id (n :: r)]
      exact List.map_congr_left (fun x hx => strip_of_stripped (h x hx).2.2)
    rw [this, dropEmptyLast, if_neg]
    intro hl
    have := List.mem_of_getLast? hl
    exact (h _ this).1 rfl

end Makeshift
