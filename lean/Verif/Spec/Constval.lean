import Verif.Model.Constval

/-! Specification vocabulary for constvals. -/

namespace Makeshift.Spec

open Constval

/-- Types which are constvals already by the way they are written: `std::integral_constant`, `array_constant`, `tuple_constant` and the
classes which `make_constval` itself returns; and `type_identity`. -/
inductive Given : CT → Prop
  | integralConstant (ty : Nat) (v : Int) : Given (.integralConstant ty v)
  | typeIdentity (ty : Nat) : Given (.typeIdentity ty)
  | arrayConstant (ty : Nat) (vs : List Int) : Given (.arrayConstant ty vs)
  | arrayConstantRef (b : Bool) (ty : Nat) (cs : List CT) : Given (.arrayConstantRef b ty cs)
  | tupleConstant (cs : List CT) : Given (.tupleConstant cs)
  | constval (c : CT) : Given (.constval c)
  | tupleLikeConstval (c : CT) : Given (.tupleLikeConstval c)
  | refConstval (o : Nat) : Given (.refConstval o)
  | refTo (c : CT) : Given (.refTo c)

/-- Values built from scalars, arrays and tuples only, with arrays of uniform type. -/
inductive Normalisable : Val → Prop
  | scalar (ty : Nat) (v : Int) : Normalisable (.scalar ty v)
  | scalarArray (ty : Nat) (vs : List Int) : Normalisable (.array true ty (vs.map (.scalar ty)))
  | array (ty : Nat) (vs : List Val) : (∀ v ∈ vs, Normalisable v) → Normalisable (.array false ty vs)
  | tuple (vs : List Val) : (∀ v ∈ vs, Normalisable v) → Normalisable (.tuple vs)

/-- Values without constval objects inside (an `integral_constant` or a functor object is allowed). -/
inductive Plain : Val → Prop
  | scalar (ty : Nat) (v : Int) : Plain (.scalar ty v)
  | other (ty : Nat) (v : Int) : Plain (.other ty v)
  | tupleLike (ty : Nat) (vs : List Val) : Plain (.tupleLike ty vs)
  | array (b : Bool) (ty : Nat) (vs : List Val) : (∀ v ∈ vs, Plain v) → Plain (.array b ty vs)
  | tuple (vs : List Val) : (∀ v ∈ vs, Plain v) → Plain (.tuple vs)
  | obj (c : CT) : tagged c = false → Plain (.obj c)

/-- Values without constval objects inside which stand for other values (type tags stand for themselves). -/
inductive Kept : Val → Prop
  | scalar (ty : Nat) (v : Int) : Kept (.scalar ty v)
  | other (ty : Nat) (v : Int) : Kept (.other ty v)
  | tupleLike (ty : Nat) (vs : List Val) : Kept (.tupleLike ty vs)
  | array (b : Bool) (ty : Nat) (vs : List Val) : (∀ v ∈ vs, Kept v) → Kept (.array b ty vs)
  | tuple (vs : List Val) : (∀ v ∈ vs, Kept v) → Kept (.tuple vs)
  | obj (c : CT) : tagged c = false → Kept (.obj c)
  | typeTag (t : Nat) : Kept (.obj (.typeTag t))

/-- Constvals which represent types rather than values: their value is the object itself, and they have no `value_type`. -/
def RepresentsTypes : CT → Prop
  | .typeSequence _ => True
  | .typeTag _ => True
  | _ => False

/-- Values of which a constval can be made. -/
inductive Representable : Val → Prop
  | scalar (ty : Nat) (v : Int) : Representable (.scalar ty v)
  | other (ty : Nat) (v : Int) : Representable (.other ty v)
  | tupleLike (ty : Nat) (vs : List Val) : Representable (.tupleLike ty vs)
  | scalarArray (ty : Nat) (vs : List Int) : Representable (.array true ty (vs.map (.scalar ty)))
  | array (ty : Nat) (vs : List Val) : (∀ v ∈ vs, Representable v) → (∀ v ∈ vs, Kept v) → Representable (.array false ty vs)
  | tuple (vs : List Val) : (∀ v ∈ vs, Representable v) → (∀ c, RepresentsTypes c → .obj c ∉ vs) →
       Representable (.tuple vs)
  | obj (c : CT) : Representable (.obj c)

mutual
/-- The value with all constval objects (inside `std::tuple`s) replaced by the values they represent. -/
def extractVal (env : Env) : Val → Option Val
  | .obj c => if tagged c then eval env c else some (.obj c)
  | .tuple vs => (extractVals env vs).map .tuple
  | v => some v
def extractVals (env : Env) : List Val → Option (List Val)
  | [] => some []
  | v :: vs => (extractVal env v).bind fun w => (extractVals env vs).map (w :: ·)
end

end Makeshift.Spec
