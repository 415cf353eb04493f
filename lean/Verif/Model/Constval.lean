/-!
# Constvals

Model of `detail/constval.hpp`, `constval.hpp` and of `is_constval` / `is_type_transportable` (`type_traits.hpp`,
`detail/type_traits.hpp`).

`CT` is the language of empty default-constructible class types which occur as constvals or proto-constvals (stateless functors);
two constvals have the same type iff the terms are equal.  `Val` is the language of constant values.  What user-defined functors
return and the values of user-defined static objects are given by an environment.  `none` means ill-formed.

Functors which return references or `const` objects (`MAKESHIFT_CONSTVAL` never creates one): see `Verif.Model.ConstvalRef`.
Not modelled: the VC++ workarounds.
-/

namespace Makeshift

/-- Empty class types, seen as (proto-)constvals. -/
inductive CT where
  /-- a user-defined stateless functor, e.g. the lambda of `MAKESHIFT_CONSTVAL` (detail/constval.hpp:20-41) -/
  | functor (id : Nat)
  /-- an empty class which cannot be called, e.g. `std::monostate` -/
  | emptyType (id : Nat)
  /-- `gsl::type_identity<T>` -/
  | typeIdentity (ty : Nat)
  /-- utility.hpp:27-46 `type_sequence<Ts...>`, a constval whose value is itself -/
  | typeSequence (tys : List Nat)
  /-- experimental/utility.hpp:29-57 `type_tag<T>`, the type of `type_c<T>`: a constval whose value is itself -/
  | typeTag (ty : Nat)
  /-- `std::is_same<T, U>`, which can be called and yields a `bool` (`ty`) -/
  | isSame (ty : Nat) (t u : Nat)
  /-- detail/constval.hpp:97-105 `tuple_accessor_functor<I, C>` -/
  | tupleAccessor (i : Nat) (c : CT)
  /-- detail/constval.hpp:149-156 `array_accessor_functor<I, C>` -/
  | arrayAccessor (i : Nat) (c : CT)
  /-- `std::integral_constant<T, V>` -/
  | integralConstant (ty : Nat) (v : Int)
  /-- constval.hpp:284-334 `array_constant<T, Vs...>` with `T` a valid non-type template parameter type -/
  | arrayConstant (ty : Nat) (vs : List Int)
  /-- constval.hpp:284-334 `array_constant<T const&, Vs...>`; the arguments are references to `C::value` for the given types `C`
  (for `refConstval o`: to the object `o` or the copy of it in `ref_constval<T, o>::value`, which are not distinguished) -/
  | arrayConstantRef (scalar : Bool) (ty : Nat) (refs : List CT)
  /-- constval.hpp:365-391 `tuple_constant<Cs...>` -/
  | tupleConstant (cs : List CT)
  /-- detail/constval.hpp:67-93 `constval<T, F>` (`T` is determined by `F`) -/
  | constval (f : CT)
  /-- detail/constval.hpp:107-119 `tuple_like_constval<T, F>` -/
  | tupleLikeConstval (f : CT)
  /-- detail/constval.hpp:121-141 `ref_constval<T, Ref>` -/
  | refConstval (obj : Nat)
  /-- detail/constval.hpp:121-141 `ref_constval<T, C::value>`, where `C::value` is the static member of a constval type -/
  | refTo (c : CT)
  /-- detail/constval.hpp:250-257 `constval_transform_functor<F, Cs...>` -/
  | transform (f : Nat) (cs : List CT)
  /-- detail/constval.hpp:271-278 `constval_extend_functor<CF, Cs...>` -/
  | extend (f : Nat) (cs : List CT)

/-- Constant values (with as much type information as normalisation inspects). -/
inductive Val where
  /-- a value of a type which is a valid non-type template parameter type (integers, enumerations) -/
  | scalar (ty : Nat) (v : Int)
  /-- a value of another type which is not tuple-like (`double`, a class) -/
  | other (ty : Nat) (v : Int)
  /-- `std::array`; `scalar` tells whether the element type is a valid non-type template parameter type -/
  | array (scalar : Bool) (ty : Nat) (vs : List Val)
  /-- `std::tuple` -/
  | tuple (vs : List Val)
  /-- another tuple-like type, e.g. `std::pair` -/
  | tupleLike (ty : Nat) (vs : List Val)
  /-- an object of an empty class type -/
  | obj (c : CT)

namespace Constval

/-- User-defined functors and static objects. -/
structure Env where
  call : Nat → List Val → Val
  object : Nat → Val

/-- `using std::get; get<I>(tuple)`, which also works for `std::array`. -/
def getTuple (i : Nat) : Val → Option Val
  | .tuple vs => vs[i]?
  | .tupleLike _ vs => vs[i]?
  | .array _ _ vs => vs[i]?
  | _ => none

/-- `std::get<I>(array)`. -/
def getArray (i : Nat) : Val → Option Val
  | .array _ _ vs => vs[i]?
  | _ => none

mutual
/-- `C{ }()`: the call operators of the types listed at `CT`. -/
def eval (env : Env) : CT → Option Val
  | .functor id => some (env.call id [])
  | .emptyType _ => none
  | .typeIdentity _ => none
  | .typeSequence tys => some (.obj (.typeSequence tys))
  | .typeTag t => some (.obj (.typeTag t))
  | .isSame ty t u => some (.scalar ty (if t = u then 1 else 0))
  | .tupleAccessor i c => (eval env c).bind (getTuple i)
  | .arrayAccessor i c => (eval env c).bind (getArray i)
  | .integralConstant ty v => some (.scalar ty v)
  | .arrayConstant ty vs => some (.array true ty (vs.map (.scalar ty)))
  | .arrayConstantRef b ty refs => (evalList env refs).map (.array b ty)
  | .tupleConstant cs => (evalList env cs).map .tuple
  | .constval f => eval env f
  | .tupleLikeConstval f => eval env f
  | .refConstval o => some (env.object o)
  | .refTo c => eval env c
  | .transform f cs => (evalList env cs).map (env.call f)
  | .extend f cs => some (env.call f (cs.map .obj))
/-- `Cs{ }()...`. -/
def evalList (env : Env) : List CT → Option (List Val)
  | [] => some []
  | c :: cs => (eval env c).bind fun v => (evalList env cs).map (v :: ·)
end

/-- Types derived from `constval_tag` (detail/type_traits.hpp:175; constval.hpp:285, 311, 366; detail/constval.hpp:69, 123;
utility.hpp:28, 39; experimental/detail/utility.hpp:23-27). -/
def tagged : CT → Bool
  | .typeSequence _ => true
  | .typeTag _ => true
  | .arrayConstant _ _ => true
  | .arrayConstantRef _ _ _ => true
  | .tupleConstant _ => true
  | .constval _ => true
  | .tupleLikeConstval _ => true
  | .refConstval _ => true
  | .refTo _ => true
  | _ => false

/-- detail/constval.hpp:204-211: the specialisations of `make_constval_` which return the type unaltered. -/
def known : CT → Bool
  | .integralConstant _ _ => true
  | .typeIdentity _ => true
  | .arrayConstant _ _ => true
  | .arrayConstantRef _ _ _ => true
  | .tupleConstant _ => true
  | .constval _ => true
  | .tupleLikeConstval _ => true
  | .refConstval _ => true
  | .refTo _ => true
  | _ => false

/-- detail/type_traits.hpp:186-196 `is_constval_`: tagged types and `integral_constant`.  (Functors and accessors have no
`value_type`.) -/
def isConstval : CT → Bool
  | .integralConstant _ _ => true
  | c => tagged c

/-- Whether a type has a member `value_type`, which `tuple_constant` needs (constval.hpp:370): all constvals except
`type_sequence` and `type_tag`. -/
def hasValueType : CT → Bool
  | .typeSequence _ => false
  | .typeTag _ => false
  | c => isConstval c

/-- The value of a scalar of the given type. -/
def asScalar (ty : Nat) : Val → Option Int
  | .scalar ty' v => if ty' = ty then some v else none
  | _ => none

mutual
/-- Whether the value has a component of a type derived from `constval_tag` (inside `std::tuple`s and `std::array`s, which are
the types normalisation looks into) for which `value` is not of that type and does not convert to it.  (The member `value` of a `type_tag`
is a proxy object which converts to a reference to a tag, experimental/utility.hpp:47-48, 111-122.) -/
def hasTagged : Val → Bool
  | .obj (.typeTag _) => false
  | .obj c => tagged c
  | .tuple vs => anyHasTagged vs
  | .array _ _ vs => anyHasTagged vs
  | _ => false
def anyHasTagged : List Val → Bool
  | [] => false
  | v :: vs => hasTagged v || anyHasTagged vs
end

mutual
/-- detail/constval.hpp:198-201 `make_constval_1_<T, C>` and the templates it uses (158-195), where `v` is the value of `C` (which
determines `T`).  The recursive uses of `constval_t` are for accessor functors, to which no specialisation of `make_constval_`
applies. -/
def norm1 : Val → CT → Option CT
  | .scalar ty v, _ => some (.integralConstant ty v)                           -- make_constval_2_<true>
  | .other _ _, c => match c with                                             -- make_constval_4_<false>
    | .refConstval o => some (.refConstval o)
    | .refTo d => some (.refTo d)
    | c => some (.constval c)
  | .tupleLike _ _, c => some (.tupleLikeConstval c)                           -- make_constval_4_<true>
  | .obj c', c =>                                                              -- make_constval_3_
    if tagged c' then some c'
    else match c with
      | .refConstval o => some (.refConstval o)
      | .refTo d => some (.refTo d)
      | c => some (.constval c)
  | .array true ty vs, _ => (vs.mapM (asScalar ty)).map (.arrayConstant ty)    -- make_array_constval_<true>
  | .array false ty vs, c => (normArray vs 0 c).map (.arrayConstantRef false ty)  -- make_array_constval_<false>
  | .tuple vs, c => (normTuple vs 0 c).map .tupleConstant                      -- make_tuple_constval_
/-- `constval_t<array_accessor_functor<Is, C>>::value...` as arguments for parameters of type `T const&`.  Their type must be `T` or
convert to `T const&`; it does not if normalisation replaced a constval object by the value it represents. -/
def normArray : List Val → Nat → CT → Option (List CT)
  | [], _, _ => some []
  | v :: vs, i, c =>
    if hasTagged v then none
    else (norm1 v (.arrayAccessor i c)).bind fun c' => (normArray vs (i + 1) c).map (c' :: ·)
/-- `constval_t<tuple_accessor_functor<Is, C>>...` as arguments for `tuple_constant`. -/
def normTuple : List Val → Nat → CT → Option (List CT)
  | [], _, _ => some []
  | v :: vs, i, c =>
    (norm1 v (.tupleAccessor i c)).bind fun c' =>
      if hasValueType c' then (normTuple vs (i + 1) c).map (c' :: ·) else none
end

/-- detail/constval.hpp:63-64, 204-211 `constval_t`, `make_constval_`; also `make_constval` (330-334) and
`MAKESHIFT_CONSTVAL`. -/
def constvalT (env : Env) (c : CT) : Option CT :=
  if known c then some c else (eval env c).bind fun v => norm1 v c

/-- constval.hpp:149-150, 188-189 and detail/constval.hpp:213-226 `ref_constant` / `constant` for a reference: `make_constval_1_` is used
directly, so that a `ref_constval` of normalisable type is normalised. -/
def refConstant (env : Env) (obj : Nat) : Option CT := norm1 (env.object obj) (.refConstval obj)

/-- detail/constval.hpp:112-119, constval.hpp:337-344 and 397-404: `get<I>` of a constval of tuple-like type. -/
def getC (env : Env) (i : Nat) : CT → Option CT
  | .tupleConstant cs => if i < cs.length then constvalT env (.tupleAccessor i (.tupleConstant cs)) else none
  | .tupleLikeConstval f => constvalT env (.tupleAccessor i (.tupleLikeConstval f))
  | .arrayConstant ty vs => if i < vs.length then constvalT env (.arrayAccessor i (.arrayConstant ty vs)) else none
  | .arrayConstantRef b ty refs => if i < refs.length then constvalT env (.arrayAccessor i (.arrayConstantRef b ty refs)) else none
  | _ => none

/-- An argument of `constval_transform` etc.: an object of an empty class type, which is type-transportable
(type_traits.hpp:249), or any other value. -/
inductive HArg where
  | obj (c : CT)
  /-- (an object of an empty class is treated as `obj` also if it is given as a value) -/
  | value (v : Val)

/-- What such a function returns. -/
inductive HResult where
  | constval (c : CT)
  | value (v : Val)

/-- `std::conjunction<is_type_transportable<Cs>...>` (constval.hpp:234, 257): the argument types, if all are transportable. -/
def transportable : List HArg → Option (List CT)
  | [] => some []
  | .obj c :: as => (transportable as).map (c :: ·)
  | .value (.obj c) :: as => (transportable as).map (c :: ·)
  | .value _ :: _ => none

/-- detail/constval.hpp:234-248 `get_hvalue`. -/
def getHValue (env : Env) : HArg → Option Val
  | .obj c => if isConstval c then eval env c else some (.obj c)
  | .value (.obj c) => if isConstval c then eval env c else some (.obj c)
  | .value v => some v

/-- `detail::get_hvalue(args)...`. -/
def getHValues (env : Env) : List HArg → Option (List Val)
  | [] => some []
  | a :: as => (getHValue env a).bind fun v => (getHValues env as).map (v :: ·)

/-- constval.hpp:229-235 `constval_transform` and detail/constval.hpp:259-268. -/
def constvalTransform (env : Env) (f : Nat) (args : List HArg) : Option HResult :=
  match transportable args with
  | some cs => (constvalT env (.transform f cs)).map .constval
  | none => (getHValues env args).map fun vs => .value (env.call f vs)

/-- The argument itself as a value. -/
def HArg.toVal : HArg → Val
  | .obj c => .obj c
  | .value v => v

/-- constval.hpp:252-258 `constval_extend` and detail/constval.hpp:280-289. -/
def constvalExtend (env : Env) (f : Nat) (args : List HArg) : Option HResult :=
  match transportable args with
  | some cs => (constvalT env (.extend f cs)).map .constval
  | none => some (.value (env.call f (args.map HArg.toVal)))

/-- constval.hpp:213-218 `constval_extract` and detail/constval.hpp:292-301. -/
def constvalExtract (env : Env) : HArg → Option Val
  | .obj c => if isConstval c then eval env c else some (.obj c)
  | .value (.obj c) => if isConstval c then eval env c else some (.obj c)
  | .value v => some v

end Constval

end Makeshift
