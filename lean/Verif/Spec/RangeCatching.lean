import Verif.Model.RangeCatching

/-! Specification vocabulary for programs on ranges which catch violated contracts. -/

namespace Makeshift.Spec.RangeCatching

open Makeshift.RangeCatching (AnyRange Prog Ends)

variable {α β : Type}

/-- The range refers to the elements `elems` of the array. -/
def Covers (array : List α) (elems : List α) : AnyRange → Prop
  | .dyn r => ∃ before after, array = before ++ elems ++ after ∧ r.first = before.length ∧ r.last = before.length + elems.length
  | .static r => ∃ before after, array = before ++ elems ++ after ∧ r.first = before.length ∧ r.extent = elems.length

/-- What a program does which reads `elems`: there is no way to go on after reading an element which does not exist. -/
inductive Does (elems : List α) : Prog α β → Ends β → Prop
  | done {x} : Does elems (.done x) (.returned x)
  | raise : Does elems .raise .violated
  | read {i k v e} (hv : elems[i]? = some v) (h : Does elems (k v) e) : Does elems (.subscript i k) e
  | outOfRange {i k} (hi : elems.length ≤ i) : Does elems (.subscript i k) .terminated
  | indices {n k e} (hn : 0 ≤ n) (h : Does elems (k ⟨0, n⟩) e) : Does elems (.indices n k) e
  | negative {n k} (hn : n < 0) : Does elems (.indices n k) .violated
  | indicesFrom {first last k e} (hn : first ≤ last) (h : Does elems (k ⟨first, last⟩) e) : Does elems (.indicesFrom first last k) e
  | reversed {first last k} (hn : last < first) : Does elems (.indicesFrom first last k) .violated
  | completed {body k x e} (hb : Does elems body (.returned x)) (h : Does elems (k (some x)) e) : Does elems (.attempt body k) e
  | caught {body k e} (hb : Does elems body .violated) (h : Does elems (k none) e) : Does elems (.attempt body k) e
  | notCaught {body k} (hb : Does elems body .terminated) : Does elems (.attempt body k) .terminated

/-- Both programs do nothing but subscript the range and catch violated contracts, and are the same except for what they do after catching one. -/
inductive SameButHandlers : Prog α β → Prog α β → Prop
  | done {x} : SameButHandlers (.done x) (.done x)
  | subscript {i k k'} (h : ∀ v, SameButHandlers (k v) (k' v)) : SameButHandlers (.subscript i k) (.subscript i k')
  | attempt {b b' k k'} (hb : SameButHandlers b b') (h : ∀ x, SameButHandlers (k (some x)) (k' (some x))) :
    SameButHandlers (.attempt b k) (.attempt b' k')

end Makeshift.Spec.RangeCatching
