import Verif.Model.SoaSpan
import Verif.Model.MachineInt

/-!
# Iterators of `soa_span`

Model of `soa_span_iterator` (experimental/detail/span.hpp lines 109-227), with the range of `std::ptrdiff_t`.  An iterator is the `Ref` of
`Model/SoaSpan.lean`: the span object it refers to, and an index.
-/

namespace Makeshift.Soa

/-- `index_ + n`, where `index_` and `n` have type `std::ptrdiff_t`. -/
def Ref.shift (it : Ref) (n : Int) : Outcome Ref := (IntTy.ptrdiffT.arith (it.index + n)).bind fun i => .ok { it with index := i }

/-- The operations which move an iterator. -/
inductive ItOp where
  | preInc | postInc | preDec | postDec | addAssign (n : Int)
  /-- `it = it + n` -/
  | plus (n : Int)
  /-- `it = n + it` -/
  | plusLeft (n : Int)
  /-- `it = it - n` -/
  | minus (n : Int)
  deriving DecidableEq, Repr

/-- The iterator after the operation, and the value of the expression. -/
def ItOp.step : ItOp → Ref → Outcome (Ref × Ref)
  | .preInc, it => (it.shift 1).bind fun it' => .ok (it', it')                   -- experimental/detail/span.hpp:150-154
  | .postInc, it => (it.shift 1).bind fun it' => .ok (it', it)                   -- 155-160
  | .addAssign n, it => (it.shift n).bind fun it' => .ok (it', it')              -- 161-165
  | .preDec, it => (it.shift (-1)).bind fun it' => .ok (it', it')                -- 166-170
  | .postDec, it => (it.shift (-1)).bind fun it' => .ok (it', it)                -- 171-176
  | .plus n, it => (it.shift n).bind fun it' => .ok (it', it')                   -- 177-181
  | .plusLeft n, it => (it.shift n).bind fun it' => .ok (it', it')               -- 182-186
  | .minus n, it => (it.shift (-n)).bind fun it' => .ok (it', it')               -- 187-191

/-- A sequence of operations on an iterator (client code), with the values of the expressions. -/
def walkSoa : List ItOp → Ref → Outcome (Ref × List Ref)
  | [], it => .ok (it, [])
  | op :: ops, it => (op.step it).bind fun r => (walkSoa ops r.1).bind fun rs => .ok (rs.1, r.2 :: rs.2)

/-- experimental/detail/span.hpp:192-195 `lhs - rhs`. -/
def Ref.diff (l r : Ref) : Outcome Int := IntTy.ptrdiffT.arith (l.index - r.index)

/-- experimental/detail/span.hpp:146-149 `it[n]`; 142-145 `*it` is `it[0]`. -/
def Ref.subscript (it : Ref) (n : Int) : Outcome Ref := it.shift n

/-- experimental/detail/span.hpp:207-210 `!=`. -/
def Ref.ne (l r : Ref) : Bool := !l.eq r
/-- experimental/detail/span.hpp:211-214 `<`. -/
def Ref.lt (l r : Ref) : Bool := decide (l.index < r.index)
/-- experimental/detail/span.hpp:215-218 `>`. -/
def Ref.gt (l r : Ref) : Bool := r.lt l
/-- experimental/detail/span.hpp:219-222 `<=`. -/
def Ref.le (l r : Ref) : Bool := !r.lt l
/-- experimental/detail/span.hpp:223-226 `>=`. -/
def Ref.ge (l r : Ref) : Bool := !l.lt r

/-- The declarations in the class `soa_span_iterator` (experimental/detail/span.hpp:109-227). -/
inductive ItFunction where
  | defaultCtor | copyCtor | copyAssign | deref | subscript | preInc | postInc | preDec | postDec | addAssign | subAssign
  | plus | plusLeft | minus | difference | eq | ne | lt | gt | le | ge
  deriving DecidableEq, Repr

/-- experimental/detail/span.hpp:109-227: the functions declared; a user-declared constructor suppresses the default constructor. -/
def declaredFunctions : List ItFunction :=
  [.copyCtor, .copyAssign, .deref, .subscript, .preInc, .postInc, .addAssign, .preDec, .postDec, .plus, .plusLeft, .minus, .difference,
    .eq, .ne, .lt, .gt, .le, .ge]

end Makeshift.Soa
