import Verif.Model.UserOps

/-!
# What may happen to the user's iterators

A description of the calls an algorithm over ranges makes, written down without the algorithm.  `Leaf`, `Op`, `Event` are the arguments and the calls, see `Verif/Model/UserOps.lean`.
-/

namespace Makeshift.Spec.UserOps

open Makeshift.UserOps (Val Op Event Leaf Stop Ending)

variable {α : Type}

/-- `size()` never returns a negative number. -/
def Lengths (u : Makeshift.UserOps.User α) : Prop := ∀ h r (n : Int), u h (.size r) = some n → 0 ≤ n

/-- The positions of the arguments with a property. -/
def positions (ls : List Leaf) (p : Leaf → Bool) : List Nat := (List.range ls.length).filter fun r => (ls[r]?).any p

/-- Ranges without a size: iterators are compared with the end. -/
def paired (ls : List Leaf) : List Nat := positions ls fun l => l.mode = .iteratorPair

/-- Ranges walked with iterators. -/
def walked (ls : List Leaf) : List Nat := positions ls fun l => l.mode = .iteratorPair || l.mode = .iterator

/-- Ranges asked for their size: those which have one that is not a constant. -/
def asked (ls : List Leaf) : List Nat := positions ls fun l => (l.mode = .iterator || l.mode = .index) && l.fixed = none

/-- The size of an argument as far as known, where `s r` is what `size()` of argument `r` returned. -/
def knownSize (ls : List Leaf) (s : Nat → Int) (r : Nat) : Option Int :=
  match ls[r]? with
  | some ⟨_, some n⟩ => some n
  | some ⟨.iterator, none⟩ | some ⟨.index, none⟩ => some (s r)
  | _ => none

/-- The size all arguments agree on; `none`: nothing is known. -/
def Agreed (ls : List Leaf) (s : Nat → Int) : Option Int → Prop
  | some n => (∃ r, knownSize ls s r = some n) ∧ ∀ r m, knownSize ls s r = some m → m = n
  | none => ∀ r, knownSize ls s r = none

/-- What is called for an argument at the beginning. -/
def start (ls : List Leaf) (r : Nat) : List (Event α) :=
  match (ls[r]?).map Leaf.mode with
  | some .iteratorPair => [.did (.begin_ r) (), .did (.end_ r) ()]
  | some .iterator => [.did (.begin_ r) ()]
  | some .index => [.did (.data r) ()]
  | _ => []

/-- ... for all arguments, from left to right. -/
def starts (ls : List Leaf) : List (Event α) := (List.range ls.length).flatMap (start ls)

/-- The comparisons of a round: all ranges without a size, all with answer `b`; from left to right if the size is known, and then `b` says whether it has been reached. -/
def Checks (ls : List Leaf) (size : Option Int) (i : Nat) (b : Bool) (c : List (Event α)) : Prop :=
  ∃ order : List Nat, order.Perm (paired ls) ∧ c = order.map (fun r => .did (.eq r) b) ∧ ∀ n, size = some n → order = paired ls ∧ b = decide ((i : Int) = n)

/-- What an argument of the functor is in round `i`. -/
def Fits (ls : List Leaf) (i : Nat) (r : Nat) (v : Val α) : Prop :=
  match (ls[r]?).map Leaf.mode with
  | some .iteratorPair | some .iterator => ∃ a, v = .elem a
  | some .index => v = .cell i
  | _ => v = .index i

/-- The call by which it has been obtained. -/
def obtained (r : Nat) : Val α → List (Event α)
  | .elem a => [.did (.deref r) a]
  | _ => []

/-- The elements are obtained, in any order; `vs` are the arguments of the functor. -/
def Derefs (ls : List Leaf) (i : Nat) (d : List (Event α)) (vs : List (Val α)) : Prop :=
  ∃ (order : List Nat) (v : Nat → Val α), order.Perm (List.range ls.length) ∧ (∀ r < ls.length, Fits ls i r (v r)) ∧ d = order.flatMap (fun r => obtained r (v r)) ∧
    vs = (List.range ls.length).map v

/-- All iterators are incremented, from left to right. -/
def incs (ls : List Leaf) : List (Event α) := (walked ls).map fun r => .did (.inc r) ()

/-- `n` full rounds. -/
inductive Rounds (ls : List Leaf) (size : Option Int) : Nat → List (Event α) → Prop where
  | zero : Rounds ls size 0 []
  | next {n t c d vs} : Rounds ls size n t → Checks ls size n false c → Derefs ls n d vs → Rounds ls size (n + 1) (t ++ (c ++ d ++ [.did (.call vs) true] ++ incs ls))

/-- A comparison throws: there may have been others before. -/
def CheckThrows (ls : List Leaf) (x : List (Event α)) : Prop :=
  ∃ (done : List Nat) (r : Nat) (rest : List Nat) (b : Nat → Bool), (done ++ r :: rest).Perm (paired ls) ∧ x = done.map (fun q => .did (.eq q) (b q)) ++ [.threw (.eq r)]

/-- Comparisons contradict each other, or the known size. -/
def CheckDiffers (ls : List Leaf) (size : Option Int) (i : Nat) (x : List (Event α)) : Prop :=
  (∃ (order : List Nat) (b : Nat → Bool), size = none ∧ order.Perm (paired ls) ∧ x = order.map (fun q => .did (.eq q) (b q)) ∧ ∃ p ∈ order, ∃ q ∈ order, b p ≠ b q) ∨
  ∃ (n : Int) (done : List Nat) (r : Nat) (rest : List Nat), size = some n ∧ done ++ r :: rest = paired ls ∧
    x = done.map (fun q => .did (.eq q) (decide ((i : Int) = n))) ++ [.did (.eq r) (!decide ((i : Int) = n))]

/-- `*it` throws. -/
def DerefThrows (ls : List Leaf) (i : Nat) (x : List (Event α)) : Prop :=
  ∃ (done : List Nat) (r : Nat) (rest : List Nat) (v : Nat → Val α), (done ++ r :: rest).Perm (List.range ls.length) ∧ r ∈ walked ls ∧ (∀ q ∈ done, Fits ls i q (v q)) ∧
    x = done.flatMap (fun q => obtained q (v q)) ++ [.threw (.deref r)]

/-- `++it` throws. -/
def IncThrows (ls : List Leaf) (x : List (Event α)) : Prop :=
  ∃ (done : List Nat) (r : Nat) (rest : List Nat), done ++ r :: rest = walked ls ∧ x = done.map (fun q => .did (.inc q) ()) ++ [.threw (.inc r)]

/-- The calls of a loop, and how it ends: `ok true`: finished; `ok false`: the functor ended it; not more than `fuel` rounds are considered. -/
inductive Trace (ls : List Leaf) (size : Option Int) (fuel : Nat) : List (Event α) → Ending Bool → Prop where
  | finished {n t c} : Rounds ls size n t → Checks ls size n true c → Trace ls size fuel (t ++ c) (.ok true)
  | returned {n t c d vs} : Rounds ls size n t → Checks ls size n false c → Derefs ls n d vs →
      Trace ls size fuel (t ++ (c ++ d ++ [.did (.call vs) false])) (.ok false)
  | checkThrew {n t x} : Rounds ls size n t → CheckThrows ls x → Trace ls size fuel (t ++ x) (.stop .exception)
  | checkDiffers {n t x} : Rounds ls size n t → CheckDiffers ls size n x → Trace ls size fuel (t ++ x) (.stop .failFast)
  | derefThrew {n t c x} : Rounds ls size n t → Checks ls size n false c → DerefThrows ls n x → Trace ls size fuel (t ++ (c ++ x)) (.stop .exception)
  | callThrew {n t c d vs} : Rounds ls size n t → Checks ls size n false c → Derefs ls n d vs →
      Trace ls size fuel (t ++ (c ++ d ++ [.threw (.call vs)])) (.stop .exception)
  | incThrew {n t c d vs x} : Rounds ls size n t → Checks ls size n false c → Derefs ls n d vs → IncThrows ls x →
      Trace ls size fuel (t ++ (c ++ d ++ [.did (.call vs) true] ++ x)) (.stop .exception)
  | running {t} : Rounds ls size fuel t → Trace ls size fuel t (.stop .running)

/-- Construction of the iterators fails. -/
def StartThrows (ls : List Leaf) (x : List (Event α)) : Prop :=
  ∃ (r : Nat) (y : List (Event α)) (op : Op α), r < ls.length ∧ x = (List.range r).flatMap (start ls) ++ y ++ [.threw op] ∧ ∃ v, y ++ [.did op v] <+: start ls r

/-- The calls of a range algorithm, and how it ends. -/
inductive Algorithm (ls : List Leaf) (fuel : Nat) : List (Event α) → Ending Bool → Prop where
  /-- rejected by the compiler -/
  | rejected {es} : Algorithm ls fuel es (.stop .illFormed)
  /-- `size()` throws, which ends the program -/
  | sizeThrew {done : List Nat} {r rest} {s : Nat → Int} : (done ++ r :: rest).Perm (asked ls) →
      Algorithm ls fuel (done.map (fun q => .did (.size q) (s q)) ++ [.threw (.size r)]) (.stop .terminated)
  /-- sizes differ -/
  | mismatch {order : List Nat} {s : Nat → Int} {p q n m} : order.Perm (asked ls) → knownSize ls s p = some n → knownSize ls s q = some m → n ≠ m →
      Algorithm ls fuel (order.map fun r => .did (.size r) (s r)) (.stop .failFast)
  | startThrew {order : List Nat} {x} {s : Nat → Int} {size} : order.Perm (asked ls) → Agreed ls s size → StartThrows ls x →
      Algorithm ls fuel (order.map (fun r => .did (.size r) (s r)) ++ x) (.stop .exception)
  | run {order : List Nat} {es e} {s : Nat → Int} {size} : order.Perm (asked ls) → Agreed ls s size → Trace ls size fuel es e →
      Algorithm ls fuel (order.map (fun r => .did (.size r) (s r)) ++ (starts ls ++ es)) e

/-- The function called. -/
def op : Event α → Op α
  | .did o _ => o
  | .threw o => o

/-- What is called, without arguments and results. -/
inductive Kind where
  | size | begin_ | end_ | data | eq | deref | inc
  deriving DecidableEq, Repr

/-- The kind of a call for argument `r`. -/
def kindOn (r : Nat) : Op α → Option Kind
  | .size q => if q = r then some .size else none
  | .begin_ q => if q = r then some .begin_ else none
  | .end_ q => if q = r then some .end_ else none
  | .data q => if q = r then some .data else none
  | .eq q => if q = r then some .eq else none
  | .deref q => if q = r then some .deref else none
  | .inc q => if q = r then some .inc else none
  | _ => none

/-- All calls for argument `r`, in order. -/
def onRange (r : Nat) (es : List (Event α)) : List Kind := es.filterMap fun e => kindOn r (op e)

/-- Before the loop, an argument is asked for its size (if it has one that is not a constant), then for what is needed to walk it. -/
def opening (l : Leaf) : List Kind :=
  match l.mode, l.fixed with
  | .iteratorPair, _ => [.begin_, .end_]
  | .iterator, none => [.size, .begin_]
  | .iterator, some _ => [.begin_]
  | .index, none => [.size, .data]
  | .index, some _ => [.data]
  | .rangeIndex, _ => []

/-- One round of an argument. -/
def roundOf (l : Leaf) : List Kind :=
  match l.mode with
  | .iteratorPair => [.eq, .deref, .inc]
  | .iterator => [.deref, .inc]
  | _ => []

/-- The calls of the functor. -/
def isCall : Event α → Bool
  | .did (.call _) _ => true
  | .threw (.call _) => true
  | _ => false

/-- Comparisons. -/
def IsComparison (e : Event α) : Prop := ∃ r, op e = .eq r

/-- Calls which have thrown. -/
def Threw (e : Event α) : Prop := ∃ o, e = .threw o

/-- What the functor receives after the calls `a`: for a range walked with iterators, what `*it` returned since the last `++it`; for a contiguous range, the element with the number of calls so
far; for `range_index`, this number. -/
def Receives (ls : List Leaf) (a : List (Event α)) (vs : List (Val α)) : Prop :=
  vs.length = ls.length ∧ ∀ (r : Nat) (l : Leaf), ls[r]? = some l →
    match l.mode with
    | .iteratorPair | .iterator => ∃ x a1 a2, vs[r]? = some (.elem x) ∧ a = a1 ++ .did (.deref r) x :: a2 ∧ ∀ e ∈ a2, op e ≠ .inc r ∧ op e ≠ .deref r
    | .index => vs[r]? = some (.cell (a.filter isCall).length)
    | .rangeIndex => vs[r]? = some (.index (a.filter isCall).length)

/-! ## `range_zip` -/

/-- Iteration over `range_zip(...)` does not compare iterators: every range is walked as if it had a size. -/
def unpaired (ls : List Leaf) : List Leaf := ls.map fun l => if l.mode = .iteratorPair then { l with mode := .iterator } else l

/-- What is called for an argument to construct the end. -/
def stopOf (ls : List Leaf) (r : Nat) : List (Event α) :=
  match (ls[r]?).map Leaf.mode with
  | some .iteratorPair => [.did (.end_ r) ()]
  | some .iterator => [.did (.begin_ r) ()]
  | some .index => [.did (.data r) ()]
  | _ => []

/-- Construction of the end fails. -/
def StopThrows (ls : List Leaf) (x : List (Event α)) : Prop :=
  ∃ (r : Nat) (op : Op α) (v : op.Reply), r < ls.length ∧ x = (List.range r).flatMap (stopOf ls) ++ [.threw op] ∧ stopOf ls r = [.did op v]

/-- The calls of a loop over `range_zip(...)`, and how it ends. -/
inductive Zip (ls : List Leaf) (fuel : Nat) : List (Event α) → Ending Bool → Prop where
  | rejected {es} : Zip ls fuel es (.stop .illFormed)
  | sizeThrew {done : List Nat} {r rest} {s : Nat → Int} : (done ++ r :: rest).Perm (asked ls) →
      Zip ls fuel (done.map (fun q => .did (.size q) (s q)) ++ [.threw (.size r)]) (.stop .terminated)
  | mismatch {order : List Nat} {s : Nat → Int} {p q n m} : order.Perm (asked ls) → knownSize ls s p = some n → knownSize ls s q = some m → n ≠ m →
      Zip ls fuel (order.map fun r => .did (.size r) (s r)) (.stop .failFast)
  | startThrew {order : List Nat} {x} {s : Nat → Int} {n} : order.Perm (asked ls) → Agreed ls s (some n) → StartThrows ls x →
      Zip ls fuel (order.map (fun r => .did (.size r) (s r)) ++ x) (.stop .exception)
  | stopThrew {order : List Nat} {x} {s : Nat → Int} {n} : order.Perm (asked ls) → Agreed ls s (some n) → StopThrows ls x →
      Zip ls fuel (order.map (fun r => .did (.size r) (s r)) ++ (starts ls ++ x)) (.stop .exception)
  | run {order : List Nat} {es e} {s : Nat → Int} {n} : order.Perm (asked ls) → Agreed ls s (some n) → Trace (unpaired ls) (some n) fuel es e →
      Zip ls fuel (order.map (fun r => .did (.size r) (s r)) ++ (starts ls ++ ((List.range ls.length).flatMap (stopOf ls) ++ es))) e

/-- What is called for the end, without arguments and results. -/
def closing (l : Leaf) : List Kind :=
  match l.mode with
  | .iteratorPair => [.end_]
  | .iterator => [.begin_]
  | .index => [.data]
  | .rangeIndex => []

/-- Within a round, elements are obtained from left to right: after `*it` for argument `r`, the next one (before the functor is called) is for an argument behind `r`.  `b` is the first argument
allowed. -/
def leftToRight (b : Nat) : List (Event α) → Prop
  | [] => True
  | e :: es =>
    match op e with
    | .deref r => b ≤ r ∧ leftToRight (r + 1) es
    | .call _ => leftToRight 0 es
    | _ => leftToRight b es

/-! ## Acceptance -/

/-- Constant sizes do not contradict each other. -/
def FixedAgree (ls : List Leaf) : Prop := ∀ l ∈ ls, ∀ l' ∈ ls, ∀ n m, l.fixed = some n → l'.fixed = some m → n = m

/-- A range with a size. -/
def Sized (l : Leaf) : Prop := l.fixed ≠ none ∨ l.mode = .iterator ∨ l.mode = .index

/-! ## The record and the user's answers -/

/-- Every call recorded has been answered by the user as recorded, knowing what had happened before. -/
def Answered (u : Makeshift.UserOps.User α) (es : List (Event α)) : Prop :=
  ∀ a e b, es = a ++ e :: b → match e with
    | .did o r => u a o = some r
    | .threw o => u a o = none

/-! ## Loops over one range -/

/-- A round of `range_generate()` (`calls`) resp. `range_iota()`, `range_fill()`. -/
def FillRound (calls : Bool) (x : List (Event α)) : Prop :=
  ∃ (a : α) (g : Bool), x = .did (.eq 0) false :: ((if calls then [.did (.call []) g] else []) ++ [.did (.deref 0) a, .did (.assign 0) (), .did (.inc 0) ()])

/-- A round of `range_reduce()`: the functor receives the element just obtained. -/
def ReduceRound (x : List (Event α)) : Prop :=
  ∃ (a : α) (g : Bool), x = [.did (.eq 0) false, .did (.deref 0) a, .did (.call [.elem a]) g, .did (.inc 0) ()]

/-- `begin()`, `end()`, any number of rounds, and a last comparison; an exception ends this at any place. -/
def Walk (Round : List (Event α) → Prop) (fuel : Nat) (es : List (Event α)) (e : Ending Unit) : Prop :=
  (es = [.threw (.begin_ 0)] ∧ e = .stop .exception) ∨ (es = [.did (.begin_ 0) (), .threw (.end_ 0)] ∧ e = .stop .exception) ∨
  ∃ (rounds : List (List (Event α))) (x : List (Event α)), es = [.did (.begin_ 0) (), .did (.end_ 0) ()] ++ rounds.flatten ++ x ∧ (∀ y ∈ rounds, Round y) ∧
    ((e = .ok () ∧ x = [.did (.eq 0) true]) ∨ (e = .stop .running ∧ x = [] ∧ rounds.length = fuel) ∨
      e = .stop .exception ∧ ∃ y o v z, Round (y ++ .did o v :: z) ∧ x = y ++ [.threw o])

end Makeshift.Spec.UserOps
