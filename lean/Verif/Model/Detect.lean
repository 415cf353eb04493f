import Verif.Outcome

/-!
# `can_instantiate<>` and `is_instantiation_of<>`

Model of type_traits.hpp:121-150 and detail/type_traits.hpp:31-32, for programs with class templates and alias templates whose parameters are types.

Substitution of template arguments has three results: a type, a failure in the immediate context ([temp.deduct]/8), after which
the partial specialisation is dropped, or an error outside of it - while a class is instantiated -, which makes the program ill-formed.  The
arguments are substituted in lexical order, and the first problem decides ([temp.deduct]/7).

Simplifications: no default template arguments, no explicit or partial specialisations of class templates other than through the function
which tells the members of an instantiation, no constraints.  Whether equivalent alias templates are the same template is unsettled
(CWG 1286); here, no alias template is the same as a class template.
-/

namespace Makeshift.Detect

/-- Types: those which are no instantiations (number 0 is `void`), `Z<Ts...>` for class template number `z`, `T const`, `T&`. -/
inductive Ty where
  | builtin (n : Nat)
  | inst (z : Nat) (args : List Ty)
  | const (t : Ty)
  | ref (t : Ty)

/-- What an alias template stands for: a template parameter, a type, `Z<es...>`, `typename e::name`, `e const`, `e&`. -/
inductive TExpr where
  | param (i : Nat)
  | builtin (n : Nat)
  | app (z : Nat) (es : List TExpr)
  | member (e : TExpr) (name : Nat)
  | const (e : TExpr)
  | ref (e : TExpr)

/-- A class template with its number of parameters (`none`: any number) and the member types of its instantiations, `none` if the definition
of the class is ill-formed for the arguments; or an alias template. -/
inductive Decl where
  | cls (arity : Option Nat) (members : List Ty → Option (List (Nat × Ty)))
  | als (arity : Option Nat) (body : TExpr)

/-- Result of a substitution. -/
inductive SubRes (α : Type) where
  | ok (x : α)
  | failure
  | error

/-- Go on if there was no problem. -/
def SubRes.bind {α β : Type} (x : SubRes α) (f : α → SubRes β) : SubRes β :=
  match x with
  | .ok a => f a
  | .failure => .failure
  | .error => .error

/-- Number of arguments. -/
def arityFits (arity : Option Nat) (n : Nat) : Bool :=
  match arity with
  | none => true
  | some k => n = k

/-- The class of a class type, without `const`. -/
def classOf : Ty → Option (Nat × List Ty)
  | .inst z ts => some (z, ts)
  | .const (.inst z ts) => some (z, ts)
  | _ => none

/-- `typename T::name`: `T` must be a class, which is instantiated for it ([temp.inst]). -/
def memberOf (ds : List Decl) (name : Nat) (t : Ty) : SubRes Ty :=
  match classOf t with
  | some (z, ts) =>
    match ds[z]? with
    | some (.cls _ members) =>
      match members ts with
      | none => .error
      | some tbl =>
        match tbl.lookup name with
        | some t => .ok t
        | none => .failure
    | _ => .error
  | none => .failure

/-- `T const`: ignored for references, and if `T` is const ([dcl.ref]/1, [dcl.type.cv]). -/
def addConst : Ty → Ty
  | .const t => .const t
  | .ref t => .ref t
  | t => .const t

/-- `T&`: reference collapsing; there are no references to `void` ([dcl.ref]). -/
def addRef : Ty → SubRes Ty
  | .ref t => .ok (.ref t)
  | .builtin 0 => .failure
  | .const (.builtin 0) => .failure
  | t => .ok (.ref t)

mutual
/-- Substitution of `args` for the template parameters; `ap` is the meaning of the templates in scope. -/
def subst (ds : List Decl) (ap : Nat → List Ty → SubRes Ty) (args : List Ty) : TExpr → SubRes Ty
  | .param i =>
    match args[i]? with
    | some t => .ok t
    | none => .failure
  | .builtin n => .ok (.builtin n)
  | .app z es => (substAll ds ap args es).bind fun ts => ap z ts
  | .member e name => (subst ds ap args e).bind fun t => memberOf ds name t
  | .const e => (subst ds ap args e).bind fun t => .ok (addConst t)
  | .ref e => (subst ds ap args e).bind addRef

/-- The same for a list of template arguments, from left to right. -/
def substAll (ds : List Decl) (ap : Nat → List Ty → SubRes Ty) (args : List Ty) : List TExpr → SubRes (List Ty)
  | [] => .ok []
  | e :: es => (subst ds ap args e).bind fun t => (substAll ds ap args es).bind fun ts => .ok (t :: ts)
end

/-- `Z<ts...>` for one of the first `k` templates.  Naming the specialisation of a class template does not instantiate the class ([temp.inst]/1);
an alias is replaced by what it stands for ([temp.alias]), in which only templates declared before can be used. -/
def apply (ds : List Decl) : Nat → Nat → List Ty → SubRes Ty
  | 0 => fun _ _ => .error
  | k + 1 => fun z ts =>
    if z = k then
      match ds[z]? with
      | none => .error
      | some (.cls arity _) => if arityFits arity ts.length then .ok (.inst z ts) else .failure
      | some (.als arity body) => if arityFits arity ts.length then subst ds (apply ds k) ts body else .failure
    else apply ds k z ts

/-- type_traits.hpp:123-131 `can_instantiate_v<Z, Ts...>`, detail/type_traits.hpp:31-32: the specialisation with `std::void_t<Z<Ts...>>` is used if the
substitution succeeds.  `none`: the program is ill-formed. -/
def canInstantiate (ds : List Decl) (z : Nat) (ts : List Ty) : Option Bool :=
  match apply ds ds.length z ts with
  | .ok _ => some true
  | .failure => some false
  | .error => none

/-- type_traits.hpp:137-147 `is_instantiation_of_v<T, U>`: the specialisation for `U<Ts...>, U` is used if `T` is an instantiation of a class template
which is the template `U`. -/
def isInstantiationOf (ds : List Decl) (t : Ty) (u : Nat) : Bool :=
  match t with
  | .inst z _ =>
    match ds[u]? with
    | some (.cls _ _) => z = u
    | _ => false
  | _ => false

end Makeshift.Detect
