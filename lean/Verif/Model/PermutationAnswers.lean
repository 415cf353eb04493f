import Verif.Outcome

/-!
# Permuting with an index range which answers anything

Model of experimental/algorithm.hpp:26-89 for index ranges and elements of the user's own: every read of an index, every assignment to one and every swap is a call of the user's
code, which may throw, and reading an index need not yield what has been stored (as for an iterator which computes indices, or an array which somebody else is writing to).

Simplifications: indices are unbounded integers (narrow types are the subject of C73); `last - first` is evaluated before anything else and is a parameter; for
`swap(indices[i], indices[next])` there is one call.
-/

namespace Makeshift.PermutationAnswers

/-- A call of the user's code: reading `indices[k]`, `indices[k] = v`, `swap(first[a], first[b])`, and `swap(indices[a], indices[b])`. -/
inductive Op where
  | read (k : Int)
  | write (k v : Int)
  | swap (a b : Int)
  | swapIndices (a b : Int)
  deriving DecidableEq, Repr

/-- The answer to a call, given all calls up to and including it.  The value is that of a `read`, and is ignored otherwise; the outcome may be an exception. -/
abbrev Answers := List Op → Outcome Int

/-- Code which calls the user's code: from the calls made before, all calls, and the outcome. -/
abbrev Code (α : Type) := List Op → List Op × Outcome α

/-- One call. -/
def call (w : Answers) (op : Op) : Code Int := fun made => (made ++ [op], w (made ++ [op]))

/-- `f` after `m` if `m` has returned. -/
def Code.andThen {α β : Type} (m : Code α) (f : α → Code β) : Code β := fun made =>
  match (m made).2 with
  | .ok a => f a (m made).1
  | .throw e => ((m made).1, .throw e)
  | .failFast => ((m made).1, .failFast)
  | .ub => ((m made).1, .ub)

/-- No call. -/
def give {α : Type} (a : α) : Code α := fun made => (made, .ok a)

/-- A violated contract. -/
def violated {α : Type} : Code α := fun made => (made, .failFast)

/-- `apply_permutation`: one evaluation of the condition of the `while` loop together with what follows it, experimental/algorithm.hpp:43-56, with variables `i` and `current`: the next values of the variables.
-/
def forwardStep (w : Answers) (length : Int) (s : Int × Int) : Code (Int × Int) :=
  (call w (.read s.2)).andThen fun v =>                                                    -- 43
  if s.1 = v then (call w (.write s.2 s.2)).andThen fun _ => give (s.1 + 1, s.1 + 1)       -- 56, 40, 42
  else (call w (.read s.2)).andThen fun next =>                                            -- 45
    if next < 0 ∨ next ≥ length ∨ next = s.2 then                                          -- 46
      (call w (.write s.1 next)).andThen fun _ => violated                                 -- 49-50
    else (call w (.swap s.2 next)).andThen fun _ =>                                        -- 52
      (call w (.write s.2 s.2)).andThen fun _ => give (s.1, next)                          -- 53-54

/-- The loops of `apply_permutation`, experimental/algorithm.hpp:40-57, up to a number of steps: `true` if it has run to its end. -/
def forwardRun (w : Answers) (length : Int) : Nat → Int × Int → Code Bool
  | steps, s => if s.1 < length then
      match steps with
      | 0 => give false
      | steps + 1 => (forwardStep w length s).andThen (forwardRun w length steps)
    else give true

/-- experimental/algorithm.hpp:26-58 `apply_permutation`. -/
def forward (w : Answers) (length : Int) (steps : Nat) : List Op × Outcome Bool := forwardRun w length steps (0, 0) []

/-- `apply_reverse_permutation`: one evaluation of the condition of the `while` loop together with what follows it, experimental/algorithm.hpp:79-86, with variable `i`. -/
def reverseStep (w : Answers) (length : Int) (i : Int) : Code Int :=
  (call w (.read i)).andThen fun v =>                                                      -- 79
  if i = v then give (i + 1)                                                               -- 77
  else (call w (.read i)).andThen fun next =>                                              -- 81
    if ¬ (next ≥ 0 ∧ next < length) then violated                                          -- 82
    else (call w (.read next)).andThen fun nn =>                                           -- 83
      if next = nn then violated
      else (call w (.swap i next)).andThen fun _ =>                                        -- 84
        (call w (.swapIndices i next)).andThen fun _ => give i                             -- 85

/-- The loops of `apply_reverse_permutation`, experimental/algorithm.hpp:77-87, up to a number of steps. -/
def reverseRun (w : Answers) (length : Int) : Nat → Int → Code Bool
  | steps, i => if i < length then
      match steps with
      | 0 => give false
      | steps + 1 => (reverseStep w length i).andThen (reverseRun w length steps)
    else give true

/-- experimental/algorithm.hpp:63-88 `apply_reverse_permutation`. -/
def reverse (w : Answers) (length : Int) (steps : Nat) : List Op × Outcome Bool := reverseRun w length steps 0 []

end Makeshift.PermutationAnswers
