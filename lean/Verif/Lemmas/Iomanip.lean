import Verif.Model.Iomanip
import Verif.Lemmas.Serialize

/-! Helper lemmas about stream extraction. -/

namespace Makeshift

open Spec

theorem readLoop_notGood (fb : CharBitset) (st : IStream) (acc : Str) (h : st.good = false) :
    readLoop fb st acc = (st, acc) := by
  unfold readLoop; simp [h]

theorem readLoop_good (fb : CharBitset) (rest acc : Str) :
    readLoop fb { rest := rest } acc =
      ({ rest := rest.dropWhile (fun c => !fb.contains c), eofbit := (rest.dropWhile (fun c => !fb.contains c)).isEmpty },
        acc ++ rest.takeWhile (fun c => !fb.contains c)) := by
  induction rest generalizing acc with
  | nil => unfold readLoop; simp [IStream.good]
  | cons c r ih =>
    unfold readLoop
    by_cases h : fb.contains c = true
    · simp [IStream.good, h]
    · simp [IStream.good, h, ih]

theorem good_eq {st : IStream} (h : st.good = true) : st = { rest := st.rest } := by
  obtain ⟨r, e, f, b⟩ := st
  simp [IStream.good] at h
  simp [h]

/-- Reading a token from a good stream. -/
theorem readToken_good (fb : CharBitset) (rest : Str) :
    readLoop fb (IStream.ws { rest := rest }) [] =
      let r := rest.dropWhile isSpaceC
      ({ rest := r.dropWhile (fun c => !fb.contains c), eofbit := (r.dropWhile (fun c => !fb.contains c)).isEmpty },
        r.takeWhile (fun c => !fb.contains c)) := by
  simp only [IStream.ws, IStream.good, Bool.not_false, Bool.and_self, if_true]
  cases h : rest.dropWhile isSpaceC with
  | nil => rw [readLoop_notGood] <;> simp [IStream.good]
  | cons c r => simp only [List.isEmpty_cons]; rw [readLoop_good]; simp

theorem readToken_notGood (fb : CharBitset) (st : IStream) (h : st.good = false) :
    readLoop fb st.ws [] = ({ st with failbit := true }, []) := by
  have : st.ws = { st with failbit := true } := by simp [IStream.ws, h]
  rw [this, readLoop_notGood]
  simp [IStream.good]

theorem isSpaceC_of_isWs {c : CChar} (h : isWs c = true) : isSpaceC c = true := by
  unfold isWs at h
  simp only [Bool.or_eq_true, beq_iff_eq] at h
  rcases h with ((rfl | rfl) | rfl) | rfl <;> decide

theorem dropWhile_append_all {p : CChar → Bool} {a b : Str} (ha : ∀ c ∈ a, p c = true) :
    (a ++ b).dropWhile p = b.dropWhile p := by
  induction a with
  | nil => rfl
  | cons x xs ih => simp [ha x (by simp), ih (fun c hc => ha c (by simp [hc]))]

theorem takeWhile_append_stop {p : CChar → Bool} {a b : Str} (ha : ∀ c ∈ a, p c = true)
    (hb : ∀ c, b.head? = some c → p c = false) : (a ++ b).takeWhile p = a ∧ (a ++ b).dropWhile p = b := by
  induction a with
  | nil =>
    cases b with
    | nil => simp
    | cons c r => simp [hb c rfl]
  | cons x xs ih =>
    have := ih (fun c hc => ha c (by simp [hc]))
    simp [ha x (by simp), this]

theorem dropWhile_head_stop {p : CChar → Bool} {b : Str} (hb : ∀ c, b.head? = some c → p c = false) :
    b.dropWhile p = b := by
  cases b with
  | nil => rfl
  | cons c r => simp [hb c rfl]

theorem head_dropWhile {p : CChar → Bool} {b : Str} {c : CChar} (h : (b.dropWhile p).head? = some c) : p c = false := by
  induction b with
  | nil => simp at h
  | cons x xs ih =>
    by_cases hx : p x = true
    · simp [hx] at h; exact ih h
    · simp [hx] at h; rw [← h]; simpa using hx

theorem asEnumExtract_good {V : Type} (md : EnumMd V) (rest : Str) (value : V) :
    asEnumExtract md { rest := rest } value =
      let tok := (rest.dropWhile isSpaceC).takeWhile (fun c => !enumForbiddenCharSet.contains c)
      let rest' := (rest.dropWhile isSpaceC).dropWhile (fun c => !enumForbiddenCharSet.contains c)
      match (if tok = [] then none else lookup md.entries tok) with
      | some v => ({ rest := rest', eofbit := rest'.isEmpty }, v)
      | none => ({ rest := rest', eofbit := rest'.isEmpty, failbit := true }, value) := by
  unfold asEnumExtract
  rw [readToken_good]
  simp only [tryEnumFromString, tryEnumFromStringLoop_eq]
  generalize (rest.dropWhile isSpaceC).takeWhile (fun c => !enumForbiddenCharSet.contains c) = tok
  by_cases h : tok = []
  · simp [h]
  · have : tok.isEmpty = false := by simpa using h
    simp only [this, h]
    cases lookup md.entries tok <;> simp

theorem asFlagsExtract_good {w : Nat} (md : EnumMd (BitVec w)) (rest : Str) (value : BitVec w) :
    asFlagsExtract md { rest := rest } value =
      let tok := (rest.dropWhile isSpaceC).takeWhile (fun c => !flagsForbiddenCharSet.contains c)
      let rest' := (rest.dropWhile isSpaceC).dropWhile (fun c => !flagsForbiddenCharSet.contains c)
      match tokensValue md.entries (flagTokens tok) with
      | .ok v => ({ rest := rest', eofbit := rest'.isEmpty }, v)
      | .error _ => ({ rest := rest', eofbit := rest'.isEmpty, failbit := true }, value) := by
  unfold asFlagsExtract
  rw [readToken_good]
  simp only [flagsFromStringNoRaise, flagsFromStringLoop_eq, accValue_zero]
  generalize (rest.dropWhile isSpaceC).takeWhile (fun c => !flagsForbiddenCharSet.contains c) = tok
  cases tokensValue md.entries (flagTokens tok) <;> simp

end Makeshift
