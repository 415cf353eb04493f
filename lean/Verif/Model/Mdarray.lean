/-!
# `mdarray`

Model of array.hpp lines 25-31 and detail/array.hpp lines 128-130.

An object of type `std::array<T, N>` is an object which contains `N` objects of type `T` one after another ([array.overview]: contiguous; the
aggregate has no other members in the implementations, so that there is no padding).  The layout is written down for an element type without
subobjects; offsets are counted in elements.
-/

namespace Makeshift.Mdarray

/-- Types: an element type, or `std::array<T, n>`. -/
inductive Ty where
  | elem (t : Nat)
  | array (t : Ty) (n : Nat)
  deriving DecidableEq, Repr

/-- detail/array.hpp:128-130 `mdarray_`. -/
def mdarrayTy (t : Nat) : List Nat → Ty
  | [] => .elem t
  | dim0 :: dims => .array (mdarrayTy t dims) dim0

/-- The type `T[N1]...[Nd]` of a C array, as nested array types: an array of `N1` elements, of type `T[N2]...[Nd]` ([dcl.array]).  (For
comparison; a declarator `x[N1]...[Nd]` is read from the left.) -/
def cArrayTy (t : Nat) (dims : List Nat) : Ty := dims.foldr (fun n inner => .array inner n) (.elem t)

/-- The number of elements an object of the type contains. -/
def Ty.count : Ty → Nat
  | .elem _ => 1
  | .array t n => n * t.count

/-- `a[i1]...[id]`: the offset of the object accessed with this sequence of subscripts from the beginning of the object, with its type.
`none`: ill-formed, or a subscript is out of range. -/
def Ty.locate : Ty → List Nat → Option (Nat × Ty)
  | t, [] => some (0, t)
  | .elem _, _ :: _ => none
  | .array t n, i :: is => if i < n then (t.locate is).map fun (o, u) => (i * t.count + o, u) else none

/-- The element of the object stored in `mem` with these subscripts; `none`: ill-formed, not an element, or out of range. -/
def readElem {α : Type} (t : Ty) (mem : List α) (is : List Nat) : Option α :=
  match t.locate is with
  | some (o, .elem _) => mem[o]?
  | _ => none

/-- Assignment to that element. -/
def writeElem {α : Type} (t : Ty) (mem : List α) (is : List Nat) (v : α) : Option (List α) :=
  match t.locate is with
  | some (o, .elem _) => some (mem.set o v)
  | _ => none

/-- `std::array::operator ==`: elements are compared one after another, for nested arrays recursively. -/
def eqArr {α : Type} (eq : α → α → Bool) : Ty → List α → List α → Bool
  | .elem _, x, y => match x, y with
    | a :: _, b :: _ => eq a b
    | _, _ => true
  | .array t n, x, y => (List.range n).all fun i => eqArr eq t (x.drop (i * t.count)) (y.drop (i * t.count))

/-- `std::lexicographical_compare` of the first `n` objects in `x` and in `y`, where `k` is the number of elements of an object. -/
def lexLoop {β : Type} (lt : List β → List β → Bool) (k : Nat) : Nat → List β → List β → Bool
  | 0, _, _ => false
  | n + 1, x, y => if lt x y then true else if lt y x then false else lexLoop lt k n (x.drop k) (y.drop k)

/-- `std::array::operator <`: `std::lexicographical_compare`, for nested arrays recursively. -/
def ltArr {α : Type} (lt : α → α → Bool) : Ty → List α → List α → Bool
  | .elem _, x, y => match x, y with
    | a :: _, b :: _ => lt a b
    | _, _ => false
  | .array t n, x, y => lexLoop (ltArr lt t) t.count n x y

end Makeshift.Mdarray
