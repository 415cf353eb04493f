import Verif.Model.SinkOverload

/-! Specification vocabulary for fallback overloads and iterator tags. -/

namespace Makeshift.SinkOverload.Spec

/-- The function takes as many arguments as are passed if it is viable, and where it has a parameter of type `any_sink` itself, this is initialized
by the constructor of `any_sink` and nothing else. -/
def Takes {S : Type} (same : S) (args : List (SinkArg S)) (F : Fn S) : Prop :=
  ∀ l, F.conv = some l → l.length = args.length ∧
    ∀ (i c : Nat) (s : S), args[i]? = some (.other c) → l[i]? = some (.user c s) → s = same

/-- Some argument is passed to the function by a standard conversion. -/
def ByStandardConversion {S : Type} (F : Fn S) : Prop := ∃ l s, F.conv = some l ∧ Ics.std s ∈ l

/-- Some argument is passed to the function by way of an ellipsis. -/
def ByEllipsis {S : Type} (F : Fn S) : Prop := ∃ l, F.conv = some l ∧ Ics.ellipsis ∈ l

/-- The standard library's input iterator tags from the weakest to the strongest. -/
def inputTags (T : Tags) : List Nat := [T.input, T.forward, T.bidirectional, T.randomAccess]

/-- The number of these tags from which a class is derived. -/
def inputStrength (C : Classes) (T : Tags) (c : Nat) : Nat := ((inputTags T).filter fun t => C.isBaseOf t c).length

end Makeshift.SinkOverload.Spec
