import Verif.Model.IteratorTag

/-!
# Fallback overloads by `any_sink`, and the overload sets for iterator tags

Model of `any_sink` (experimental/utility.hpp:72-85, detail/type_traits.hpp:17-23), of overload resolution as far as it decides between
functions by implicit conversions of the arguments and by the rule that a function is better than a template specialization
([over.ics.rank], [over.match.best]), and of the overload sets `input_iterator_tag_bit`, `output_iterator_tag_bit` with the classes
`common_iterator_tag` (detail/zip.hpp:136-203).

Simplifications: arguments are expressions (not braced lists, which are never converted to `any_sink`); of two template specializations
none is more specialized; there are no constraints; base classes are not virtual and accessible.
-/

namespace Makeshift.SinkOverload

/-- An implicit conversion sequence ([over.best.ics]): a standard conversion; a user-defined conversion by the function `fn`, followed by
a standard conversion; an ambiguous conversion sequence; or the conversion to `...`. -/
inductive Ics (S : Type) where
  | std (s : S)
  | user (fn : Nat) (second : S)
  | ambiguous
  | ellipsis
  deriving DecidableEq, Repr

/-- [over.ics.rank]: whether the first conversion sequence is better; `lt` is the same for standard conversions.  User-defined conversions by
different functions are indistinguishable. -/
def Ics.better {S : Type} (lt : S → S → Bool) : Ics S → Ics S → Bool
  | .std a, .std b => lt a b
  | .std _, _ => true
  | .user f a, .user g b => f == g && lt a b
  | .user _ _, .ellipsis => true
  | .ambiguous, .ellipsis => true
  | _, _ => false

/-- A function in an overload set, as seen by a call: what identifies it, whether it is a specialization of a template, and the
conversions of the arguments (`none`: not viable). -/
structure Fn (S : Type) where
  id : Nat
  template : Bool
  conv : Option (List (Ics S))

/-- [over.match.best]: whether a viable function with conversions `a` is better than another with conversions `b`. -/
def betterFn {S : Type} (lt : S → S → Bool) (at_ bt : Bool) (a b : List (Ics S)) : Bool :=
  (List.zipWith (fun x y => !Ics.better lt y x) a b).all id &&
  ((List.zipWith (fun x y => Ics.better lt x y) a b).any id || (!at_ && bt))

/-- Whether `F` is viable and better than `G`, or `G` is not viable. -/
def beats {S : Type} (lt : S → S → Bool) (F G : Fn S) : Bool :=
  match F.conv, G.conv with
  | some a, some b => betterFn lt F.template G.template a b
  | some _, none => true
  | none, _ => false

/-- Overload resolution: the function which is viable and better than all the others; `none`: the call is ill-formed. -/
def resolve {S : Type} (lt : S → S → Bool) (fns : List (Fn S)) : Option Nat :=
  (fns.find? fun F => F.conv.isSome && fns.all fun G => decide (G.id = F.id) || beats lt F G).map Fn.id

/-- An argument as far as it matters to `any_sink`: an object of a class which is `any_sink` or derived from it (with the standard conversion
to it), or anything else; then `T` of the constructor template is deduced, which gives the specialization `ctor`. -/
inductive SinkArg (S : Type) where
  | sink (s : S)
  | other (ctor : Nat)
  deriving DecidableEq, Repr

/-- experimental/utility.hpp:72-85, detail/type_traits.hpp:17-23: the constructor is a template for all `T&&` without constraints, and not
explicit; so the argument is converted by it, whatever it is. `same` is the identity conversion. -/
def sinkIcs {S : Type} (same : S) : SinkArg S → Ics S
  | .sink s => .std s
  | .other ctor => .user ctor same

/-- A function (not a template) all of whose parameters are of type `any_sink`, called with as many arguments as it has parameters. -/
def fallback {S : Type} (same : S) (id : Nat) (args : List (SinkArg S)) : Fn S := ⟨id, false, some (args.map (sinkIcs same))⟩

/-! ## Iterator tags -/

/-- Classes, numbered in the order of their definitions: a class is derived from classes defined before. `convs` are the classes to which
the class has conversion functions (also inherited ones). -/
structure Classes where
  bases : Nat → List Nat
  before : ∀ c, ∀ b ∈ bases c, b < c
  convs : Nat → List Nat

/-- The number of subobjects of class `b` in an object of class `c` (which counts itself). -/
def Classes.subobjects (C : Classes) (b c : Nat) : Nat :=
  if c = b then 1 else ((C.bases c).attach.map fun x => C.subobjects b x.1).sum
  termination_by c
  decreasing_by exact C.before c x.1 x.2

/-- `std::is_base_of<b, c>`. -/
def Classes.isBaseOf (C : Classes) (b c : Nat) : Bool := decide (0 < C.subobjects b c)

/-- A standard conversion of an object of class type: the identity or a derived-to-base conversion. -/
inductive ClassConv where
  | same
  | toBase (b : Nat)
  deriving DecidableEq, Repr

/-- [over.ics.rank]: the identity is better than a conversion to a base, and of two conversions to bases the one to the derived class. -/
def ClassConv.better (C : Classes) : ClassConv → ClassConv → Bool
  | .same, .toBase _ => true
  | .toBase a, .toBase b => a != b && C.isBaseOf b a
  | _, .same => false

/-- The standard conversion from class `c` to the class `p`. -/
def classConv (C : Classes) (c p : Nat) : Option ClassConv :=
  if c = p then some .same else if C.isBaseOf p c then some (.toBase p) else none

/-- The conversion of an argument of class `c` for a parameter of type `p` (by value): a standard conversion, or by a conversion function to `p`
or a class derived from it.  Several of these are taken to be ambiguous (simplification). -/
def paramIcs (C : Classes) (c p : Nat) : Option (Ics ClassConv) :=
  match classConv C c p with
  | some s => some (.std s)
  | none =>
    match (C.convs c).filter fun q => C.isBaseOf p q with
    | [] => none
    | [q] => (classConv C q p).map fun s => .user q s
    | _ => some .ambiguous

/-- The classes of the standard library's iterator tags. -/
structure Tags where
  input : Nat
  forward : Nat
  bidirectional : Nat
  randomAccess : Nat
  output : Nat

/-- [std.iterator.tags]. -/
structure Tags.Declared (T : Tags) (C : Classes) : Prop where
  input : C.bases T.input = []
  output : C.bases T.output = []
  forward : C.bases T.forward = [T.input]
  bidirectional : C.bases T.bidirectional = [T.forward]
  randomAccess : C.bases T.randomAccess = [T.bidirectional]
  distinct : T.input ≠ T.output

/-- An overload set of functions (with the numbers of the classes of their parameters and their results), and one with a parameter of type
`any_sink`, which returns 0: the result of a call with an object of class `c`.  The number of the constructor of `any_sink` differs from all
conversion functions (`sinkCtor`).  The conversion of the object must not be ambiguous once the function is selected. -/
def tagBit (C : Classes) (sinkCtor : Nat) (overloads : List (Nat × Nat)) (c : Nat) : Option Nat :=
  let fns := fallback .same 0 [.other sinkCtor] ::
    overloads.map fun o => (⟨o.2, false, (paramIcs C c o.1).map fun i => [i]⟩ : Fn ClassConv)
  (resolve (ClassConv.better C) fns).bind fun r =>
    if r = 0 then some 0
    else (overloads.find? fun o => decide (o.2 = r)).bind fun o =>
      if C.subobjects o.1 c ≤ 1 then some r else none

/-- detail/zip.hpp:137-145 `input_iterator_tag_bit`. -/
def inputBit (C : Classes) (sinkCtor : Nat) (T : Tags) (c : Nat) : Option Nat :=
  tagBit C sinkCtor [(T.input, 1), (T.forward, 2), (T.bidirectional, 3), (T.randomAccess, 4)] c

/-- detail/zip.hpp:147-149 `output_iterator_tag_bit`. -/
def outputBit (C : Classes) (sinkCtor : Nat) (T : Tags) (c : Nat) : Option Nat :=
  tagBit C sinkCtor [(T.output, 1)] c

/-- detail/zip.hpp:177-186 `common_input_iterator_bit`, `common_output_iterator_bit`. -/
def commonBitOf (bit : Nat → Option Nat) (cs : List Nat) : Option Nat :=
  (cs.mapM bit).map fun bits => bitWidth (cbitand (bits.map fillMask))

/-- detail/zip.hpp:188-193 `input_iterator_tag_base<MSB>`: its base classes; `none` is the undefined primary template. -/
def inputBase (T : Tags) : Nat → Option (List Nat)
  | 0 => some []
  | 1 => some [T.input]
  | 2 => some [T.forward]
  | 3 => some [T.bidirectional]
  | 4 => some [T.randomAccess]
  | _ => none

/-- detail/zip.hpp:194-196 `output_iterator_tag_base<MSB>`. -/
def outputBase (T : Tags) : Nat → Option (List Nat)
  | 0 => some []
  | 1 => some [T.output]
  | _ => none

/-- detail/zip.hpp:198-203: class `z` is `common_iterator_tag<cs...>`, derived from an `input_iterator_tag_base` `x` and an
`output_iterator_tag_base` `y`. -/
structure IsCommonTag (C : Classes) (sinkCtor : Nat) (T : Tags) (cs : List Nat) (z : Nat) : Prop where
  bases : ∃ x y, C.bases z = [x, y] ∧
    x ∉ [T.input, T.forward, T.bidirectional, T.randomAccess, T.output] ∧
    y ∉ [T.input, T.forward, T.bidirectional, T.randomAccess, T.output] ∧
    (commonBitOf (inputBit C sinkCtor T) cs).bind (inputBase T) = some (C.bases x) ∧
    (commonBitOf (outputBit C sinkCtor T) cs).bind (outputBase T) = some (C.bases y)
  convs : C.convs z = []

end Makeshift.SinkOverload
