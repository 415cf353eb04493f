import Verif.Model.ChangingRange
import Mathlib.Data.List.Nodup

/-! Specification vocabulary for functors which change the containers an algorithm runs over. -/

namespace Makeshift.ChangingRange.Spec

open Makeshift.ChangingRange

variable {α σ : Type}

/-- The nodes of a list in order. -/
def nodes (w : World α) (c : Nat) : List Nat := (w.lists c).map (·.1)

/-- The number of elements a range has at the moment, if it has a `size()`. -/
def sizeNow (w : World α) : Leaf → Option Nat
  | .list c => some (w.lists c).length
  | .vector c => some (w.vecs c).elems.length
  | _ => none

/-- The first `n` elements of the range are still in place: in a list they are the same nodes in the same order, in a vector they still are in the same
memory block.  Their values may be others, and there may be further elements after them. -/
def InPlace (n : Nat) (w w' : World α) : Leaf → Prop
  | .forwardList c => n ≤ (nodes w c).length ∧ (nodes w' c).take n = (nodes w c).take n
  | .list c => n ≤ (nodes w c).length ∧ (nodes w' c).take n = (nodes w c).take n
  | .vector c => (w'.vecs c).block = (w.vecs c).block ∧ n ≤ (w'.vecs c).elems.length
  | .index => True

/-- The element number `i` of a range at the moment. -/
def elemAt (w : World α) (i : Nat) : Leaf → Option (Ref α)
  | .forwardList c => (w.lists c)[i]?.map fun x => .node c x.1 x.2
  | .list c => (w.lists c)[i]?.map fun x => .node c x.1 x.2
  | .vector c => (w.vecs c).elems[i]?.map fun v => .cell c i v
  | .index => some (.idx i)

/-- The body is run for the elements number `i`, `i + 1`, ... up to but without `n`, as they are at that time, or until it returns; `early` tells
whether it did. -/
inductive ByIndex (ls : List Leaf) (body : Body α σ) (n : Nat) : Nat → World α → σ → World α → σ → Bool → Prop
  | finished {w s} : ByIndex ls body n n w s w s false
  | step {i w s args w' s' w'' s'' early} : i < n → ls.mapM (elemAt w i) = some args → body w s args = (w', s', true) →
      ByIndex ls body n (i + 1) w' s' w'' s'' early → ByIndex ls body n i w s w'' s'' early
  | returned {i w s args w' s'} : i < n → ls.mapM (elemAt w i) = some args → body w s args = (w', s', false) →
      ByIndex ls body n i w s w' s' true

/-- The body is run for the node `p` of a list, then for the node which follows it by then, and so on up to the end of the list, or until it returns. -/
inductive Following (c : Nat) (body : Body α σ) : Option Nat → World α → σ → World α → σ → Prop
  | atEnd {w s} : Following c body none w s w s
  | step {id v v' pre post pre' post' w s w' s' w'' s''} : w.lists c = pre ++ (id, v) :: post → body w s [.node c id v] = (w', s', true) →
      w'.lists c = pre' ++ (id, v') :: post' → Following c body (post'.head?.map (·.1)) w' s' w'' s'' → Following c body (some id) w s w'' s''
  | returned {id v pre post w s w' s'} : w.lists c = pre ++ (id, v) :: post → body w s [.node c id v] = (w', s', false) →
      Following c body (some id) w s w' s'

/-- The body erases the element it has been called with, and goes on; before, everything is as above. -/
inductive Erasing (c : Nat) (body : Body α σ) : Option Nat → World α → σ → World α → σ → Prop
  | step {id v v' pre post pre' post' w s w' s' w'' s''} : w.lists c = pre ++ (id, v) :: post → body w s [.node c id v] = (w', s', true) →
      w'.lists c = pre' ++ (id, v') :: post' → Erasing c body (post'.head?.map (·.1)) w' s' w'' s'' → Erasing c body (some id) w s w'' s''
  | erased {id v pre post w s w' s'} : w.lists c = pre ++ (id, v) :: post → body w s [.node c id v] = (w', s', true) →
      id ∉ nodes w' c → Erasing c body (some id) w s w' s'

/-- The body is run for the node `p` of a list, then for the node which follows it by then, and so on, for as many nodes as given, or until it returns.  It is undefined if there
are not as many, or if the body erases the element it has been called with and goes on. -/
inductive FollowingFor (c : Nat) (body : Body α σ) : Nat → Option Nat → World α → σ → World α → σ → Outcome Unit → Prop
  | finished {p w s} : FollowingFor c body 0 p w s w s (.ok ())
  | noMore {k w s} : FollowingFor c body (k + 1) none w s w s .ub
  | step {k id v v' pre post pre' post' w s w' s' w'' s'' o} : w.lists c = pre ++ (id, v) :: post → body w s [.node c id v] = (w', s', true) →
      w'.lists c = pre' ++ (id, v') :: post' → FollowingFor c body k (post'.head?.map (·.1)) w' s' w'' s'' o → FollowingFor c body (k + 1) (some id) w s w'' s'' o
  | returned {k id v pre post w s w' s'} : w.lists c = pre ++ (id, v) :: post → body w s [.node c id v] = (w', s', false) →
      FollowingFor c body (k + 1) (some id) w s w' s' (.ok ())
  | erased {k id v pre post w s w' s'} : w.lists c = pre ++ (id, v) :: post → body w s [.node c id v] = (w', s', true) → id ∉ nodes w' c →
      FollowingFor c body (k + 1) (some id) w s w' s' .ub

/-- The body is run for the elements number `i`, ..., `n - 1` of a vector as they are at that time, or until it returns.  It is undefined if an element is not there any more, or not in the
same memory block. -/
inductive AtIndices (c block n : Nat) (body : Body α σ) : Nat → World α → σ → World α → σ → Outcome Unit → Prop
  | finished {w s} : AtIndices c block n body n w s w s (.ok ())
  | gone {i w s} : i < n → (w.vecs c).block ≠ block ∨ (w.vecs c).elems.length ≤ i → AtIndices c block n body i w s w s .ub
  | step {i v w s w' s' w'' s'' o} : i < n → (w.vecs c).block = block → (w.vecs c).elems[i]? = some v → body w s [.cell c i v] = (w', s', true) →
      AtIndices c block n body (i + 1) w' s' w'' s'' o → AtIndices c block n body i w s w'' s'' o
  | returned {i v w s w' s'} : i < n → (w.vecs c).block = block → (w.vecs c).elems[i]? = some v → body w s [.cell c i v] = (w', s', false) →
      AtIndices c block n body i w s w' s' (.ok ())

/-- The functor is called for the elements number `i`, ..., `n - 1` of a vector as they are at that time.  It is undefined if their number or the memory block changes, even if
this happens in the last call. -/
inductive Reducing (c block n : Nat) (reduce : World α → σ → Ref α → World α × σ) : Nat → World α → σ → World α → σ → Outcome Unit → Prop
  | finished {w s} : (w.vecs c).block = block → (w.vecs c).elems.length = n → Reducing c block n reduce n w s w s (.ok ())
  | changed {i w s} : i ≤ n → (w.vecs c).block ≠ block ∨ (w.vecs c).elems.length ≠ n → Reducing c block n reduce i w s w s .ub
  | step {i v w s w' s' w'' s'' o} : (w.vecs c).block = block → (w.vecs c).elems.length = n → (w.vecs c).elems[i]? = some v →
      reduce w s (.cell c i v) = (w', s') → Reducing c block n reduce (i + 1) w' s' w'' s'' o → Reducing c block n reduce i w s w'' s'' o

/-- Nodes are distinct. -/
def Distinct (w : World α) : Prop := ∀ c, (nodes w c).Nodup

/-- The first `n` nodes of each list of a leaf are distinct. -/
def Fresh (n : Nat) (w : World α) : Leaf → Prop
  | .forwardList c => ((nodes w c).take n).Nodup
  | .list c => ((nodes w c).take n).Nodup
  | _ => True

/-- The nodes stay distinct. -/
def KeepsDistinct (body : Body α σ) : Prop := ∀ w s args, Distinct w → Distinct (body w s args).1

/-- A functor which never returns early, as a loop body. -/
def always (reduce : World α → σ → Ref α → World α × σ) : Body α σ := fun w s args =>
  match args with
  | [r] => ((reduce w s r).1, (reduce w s r).2, true)
  | _ => (w, s, true)

/-- How an algorithm ends, with the final state of the functor. -/
def ending : Result (World α × σ) → Option (σ × Outcome Unit)
  | .done (_, s) out => some (s, out)
  | _ => none

end Makeshift.ChangingRange.Spec
