import Verif.Outcome

/-! Specification vocabulary for filling ranges. -/

namespace Makeshift.Spec

variable {T S : Type}

/-- `value` incremented `n` times. -/
def incremented (inc : T → Outcome T) : Nat → T → Outcome T
  | 0, v => .ok v
  | n + 1, v => (inc v).bind (incremented inc n)

/-- The program state after `n` calls of a generator. -/
def afterCalls (generate : S → T × S) : Nat → S → S
  | 0, s => s
  | n + 1, s => afterCalls generate n (generate s).2

end Makeshift.Spec
