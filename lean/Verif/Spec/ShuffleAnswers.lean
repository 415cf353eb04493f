import Verif.Model.ShuffleAnswers

/-! Specification vocabulary for C167. -/

namespace Makeshift.ShuffleAnswers.Spec

/-- The numbers are what the generator has answered. -/
def Answered (w : Answers) (draws : List Nat) : Prop := ∀ m d, draws[m]? = some d → w (draws.take m) = .ok d

/-- For a range of `n` elements the first number is at most `n - 1`, the second at most `n - 2`, and so on. -/
def Fair (n : Nat) (draws : List Nat) : Prop := ∀ m d, draws[m]? = some d → d + m < n

/-- A distribution which always yields numbers from the interval it has been asked for. -/
def Conforming (n : Nat) (w : Answers) : Prop := ∀ made d, w made = .ok d → d + made.length < n

/-- A generator which yields the given numbers and then throws. -/
def scripted (draws : List Nat) (e : Str) : Answers := fun made =>
  match draws[made.length]? with
  | some d => .ok d
  | none => .throw e

end Makeshift.ShuffleAnswers.Spec
