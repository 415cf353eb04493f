/-!
# Which function supplies the metadata of a type

Model of the overload resolution in `reflector::operator ()` (detail/metadata.hpp lines 30-57): the unqualified call
`reflect(gsl::type_identity<T>{ })` considers the two functions declared in `makeshift::detail` and, by argument-dependent lookup, the
user's functions named `reflect` in the namespaces associated with `T`.

Namespaces, classes, enumerations and fundamental types are identified by numbers.

Simplifications: inline namespaces, template template arguments and function types are left out; a class is described by its direct and indirect base
classes with the namespaces of these; parameters of the user's functions are `gsl::type_identity<...>`, a class which can be constructed from every
`gsl::type_identity<>`, or an ellipsis; a function is declared either in a namespace or as a friend in a class, but not both.
-/

namespace Makeshift.Reflect

/-- Where a function is declared: in a namespace, or as a friend in the definition of a class. -/
inductive Scope where
  | ns (n : Nat)
  | friendOf (cls : Nat)
  deriving DecidableEq, Repr

/-- A type: a fundamental type; an enumeration with the innermost namespace it is declared in and the class of which it is a member, if any; a class (or class
template) with the same, and its direct and indirect base classes with their namespaces; a class template `C` with one more template argument; a pointer; or a
const-qualified type. -/
inductive Ty where
  | fundamental (id : Nat)
  | enumeration (id ns : Nat) (outer : Option Nat)
  | cls (id ns : Nat) (outer : Option Nat) (bases : List (Nat × Nat))
  | app (C A : Ty)
  | ptr (T : Ty)
  | const (T : Ty)
  deriving DecidableEq, Repr

/-- `bool`. -/
def boolTy : Ty := .fundamental 0

/-- The namespace `gsl_lite`, where `type_identity<>` is declared. -/
def gslNs : Nat := 0

/-- The namespaces and classes associated with a type ([basic.lookup.argdep]): those of enumerations (which are not classes themselves) and classes, those of the base classes, those of
the template arguments, and those of the type pointed to. -/
def scopesOf : Ty → List Scope
  | .fundamental _ => []
  | .enumeration _ ns outer => .ns ns :: outer.toList.map Scope.friendOf
  | .cls id ns outer bases => .ns ns :: .friendOf id :: (outer.toList.map Scope.friendOf ++ bases.flatMap fun b => [.friendOf b.1, .ns b.2])
  | .app C A => scopesOf C ++ scopesOf A
  | .ptr T => scopesOf T
  | .const T => scopesOf T

/-- The namespaces and classes associated with the argument `gsl::type_identity<T>{ }`. -/
def associated (T : Ty) : List Scope := .ns gslNs :: scopesOf T

/-- The class template of which a type is a specialisation. -/
def template? : Ty → Option Nat
  | .app (.cls id _ _ _) _ => some id
  | .app C _ => template? C
  | _ => none

/-- The parameter of a function named `reflect`: `gsl::type_identity<T>` for a given type; the function templates with parameter `gsl::type_identity<C<Ts...>>` for a given class template and
`gsl::type_identity<T>` for every `T`; a class with a converting constructor from every `gsl::type_identity<T>`
(as `convertible_from_type_identity`, detail/metadata.hpp:30-36); and an ellipsis. -/
inductive Param where
  | exact (T : Ty)
  | specialisation (C : Nat)
  | every
  | converting
  | ellipsis
  deriving DecidableEq, Repr

/-- A function named `reflect`: its number, where it is declared, and its parameter. -/
structure Fn where
  id : Nat
  scope : Scope
  param : Param
  deriving DecidableEq, Repr

/-- What is called: detail/metadata.hpp:38-42 (which returns `std::nullopt`), detail/metadata.hpp:43-47 (which returns the array of both truth values), or a
user's function. -/
inductive Target where
  | unavailable
  | boolValues
  | user (f : Fn)
  deriving DecidableEq, Repr

/-- detail/metadata.hpp:38-47: the parameters of the library's functions and of the user's. -/
def Target.param : Target → Param
  | .unavailable => .converting
  | .boolValues => .exact boolTy
  | .user f => f.param

/-- Whether a function can be called with an argument of type `gsl::type_identity<T>`. -/
def viable (T : Ty) : Param → Bool
  | .exact U => decide (U = T)
  | .specialisation C => decide (template? T = some C)
  | .every => true
  | .converting => true
  | .ellipsis => true

/-- [over.match.best], [over.ics.rank]: the identity conversion is better than a user-defined conversion, which is better than the ellipsis; among
functions with identity conversion, a function is better than a function template, and a more specialised template better than a less specialised. -/
def rank : Param → Nat
  | .exact _ => 0
  | .specialisation _ => 1
  | .every => 2
  | .converting => 3
  | .ellipsis => 4

/-- The candidates: the functions which are visible where the call is written (detail/metadata.hpp:38-47; functions of enclosing namespaces are hidden by these), and those found by
argument-dependent lookup among the user's functions declared so far: those in associated namespaces, and friends of associated classes. -/
def candidates (fs : List Fn) (T : Ty) : List Target :=
  .unavailable :: .boolValues :: (fs.filter fun f => decide (f.scope ∈ associated T)).map Target.user

/-- detail/metadata.hpp:49-57 `reflector::operator ()`: the function called; `none` if the call is ambiguous. -/
def resolve (fs : List Fn) (T : Ty) : Option Target :=
  let cs := (candidates fs T).filter fun c => viable T c.param
  cs.find? fun c => cs.all fun d => decide (d = c) || decide (rank c.param < rank d.param)

/-- A translation unit is a sequence of declarations of functions named `reflect` and of uses of the metadata of types. -/
inductive Item where
  | declare (f : Fn)
  | query (T : Ty)
  deriving DecidableEq, Repr

/-- The results of overload resolution at the uses of the metadata of `T`, with `fs` the functions declared before. -/
def uses (T : Ty) : List Fn → List Item → List (Option Target)
  | _, [] => []
  | fs, .declare f :: is => uses T (fs ++ [f]) is
  | fs, .query U :: is => (if U = T then [resolve fs T] else []) ++ uses T fs is

/-- The functions declared in a translation unit. -/
def declared : List Item → List Fn
  | [] => []
  | .declare f :: is => f :: declared is
  | .query _ :: is => declared is

/-- The points of instantiation of `reflector::operator ()<T>` ([temp.point]): after each use, and at the end of a translation unit in which there is a use. -/
def points (T : Ty) (unit : List Item) : List (Option Target) :=
  let us := uses T [] unit
  if us.isEmpty then [] else us ++ [resolve (declared unit) T]

/-- The meaning of the metadata of a type in a program. -/
inductive Meaning where
  /-- it is not used -/
  | unused
  /-- an ambiguous call -/
  | illFormed
  /-- the meaning differs between points of instantiation: the program is ill-formed, but no compiler needs to tell -/
  | undiagnosed
  | calls (t : Target)
  deriving DecidableEq, Repr

/-- The meaning of `reflector{ }(gsl::type_identity<T>{ })` in a program of several translation units. -/
def meaning (program : List (List Item)) (T : Ty) : Meaning :=
  if (program.any fun u => (uses T [] u).any Option.isNone) then .illFormed
  else match program.flatMap (points T) with
    | [] => .unused
    | none :: _ => .illFormed
    | some t :: ps => if ps.all (fun p => decide (p = some t)) then .calls t else .undiagnosed

end Makeshift.Reflect
