import Verif.Model.SinkFault
import Verif.Spec.StreamFormat

/-! # What a program which writes to a stream is meant to write -/

namespace Makeshift.Spec

/-- The text of the items of a program, where `nameE` and `nameF` give the texts of enum and flags values, on a stream with the given width, fill character and adjustment. -/
inductive Writes {V : Type} {w : Nat} (nameE : V → Str → Prop) (nameF : BitVec w → Str → Prop) :
    Nat → CChar → Bool → List (OutItem V w) → Str → Prop where
  | nil (width fill left) : Writes nameE nameF width fill left [] []
  | text {width fill left s t items u} (ht : Padded s width fill left t) (h : Writes nameE nameF 0 fill left items u) :
      Writes nameE nameF width fill left (.text s :: items) (t ++ u)
  | enum {width fill left v s t items u} (hs : nameE v s) (ht : Padded s width fill left t) (h : Writes nameE nameF 0 fill left items u) :
      Writes nameE nameF width fill left (.enum v :: items) (t ++ u)
  | flags {width fill left f s t items u} (hs : nameF f s) (ht : Padded s width fill left t) (h : Writes nameE nameF 0 fill left items u) :
      Writes nameE nameF width fill left (.flags f :: items) (t ++ u)
  | setw {width fill left n items u} (h : Writes nameE nameF n fill left items u) : Writes nameE nameF width fill left (.setw n :: items) u
  | setfill {width fill left c items u} (h : Writes nameE nameF width c left items u) : Writes nameE nameF width fill left (.setfill c :: items) u
  | adjust {width fill left l items u} (h : Writes nameE nameF width fill l items u) : Writes nameE nameF width fill left (.adjust l :: items) u

/-- No name is the beginning of another one. -/
def PrefixFree (names : List Str) : Prop := ∀ a ∈ names, ∀ b ∈ names, a <+: b → a = b

end Makeshift.Spec
