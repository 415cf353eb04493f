import Verif.Model.MachineInt

/-!
# `range_iota`, `range_fill`, `range_generate`

Model of `algorithm.hpp` lines 109-151.  The range is the list of its elements before the call; the loop
`for (; it != end; ++it) *it = ...` is recursion over it.  The value type `T` of `range_iota` and the element type `E` may differ.
-/

namespace Makeshift

variable {T E S : Type}

/-- algorithm.hpp:109-119 `range_iota`.  `inc` is `++value` (which may be undefined), `conv` the conversion of the assignment.
The elements already written are lost in the `ub` outcome. -/
def rangeIota (inc : T → Outcome T) (conv : T → E) : List E → T → Outcome (List E)
  | [], _ => .ok []
  | _ :: l, value =>
    (inc value).bind fun next =>                              -- `value++` increments before the assignment takes place
      (rangeIota inc conv l next).bind fun rest => .ok (conv value :: rest)

/-- algorithm.hpp:125-135 `range_fill`. -/
def rangeFill (conv : T → E) (value : T) : List E → List E
  | [] => []
  | _ :: l => conv value :: rangeFill conv value l

/-- algorithm.hpp:141-151 `range_generate`; the generator is a function of the program state `S`, which it may change. -/
def rangeGenerate (generate : S → T × S) (conv : T → E) : List E → S → List E × S
  | [], s => ([], s)
  | _ :: l, s =>
    let (v, s') := generate s
    let (rest, s'') := rangeGenerate generate conv l s'
    (conv v :: rest, s'')

/-- `++value` for an integer type: the sum is computed in the promoted type, where signed overflow is undefined, and converted
back ([expr.pre.incr], [expr.ass]). -/
def IntTy.inc (t : IntTy) (v : Int) : Outcome Int := (t.promote.arith (v + 1)).bind fun s => .ok (t.wrap s)

end Makeshift
