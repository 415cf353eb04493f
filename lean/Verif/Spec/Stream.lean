import Verif.Spec.Text

/-! Specification vocabulary for stream extraction. -/

namespace Makeshift.Spec

/-- Characters skipped by formatted input in the classic locale: tab, LF, VT, FF, CR, space. -/
def skippable : Str := [9, 10, 11, 12, 13, 32]

/-- `content` is split into skipped leading whitespace, a token without reserved characters, and a rest that is empty
or begins with a reserved character.  The split is unique: see `TokenSplit.unique` in `Props/Iomanip.lean`. -/
structure TokenSplit (reserved content skipped token rest : Str) : Prop where
  content_eq : content = skipped ++ token ++ rest
  skipped_ws : ∀ c ∈ skipped, c ∈ skippable
  first_not_ws : ∀ c, (token ++ rest).head? = some c → c ∉ skippable
  token_legal : ∀ c ∈ token, c ∉ reserved
  rest_stop : ∀ c, rest.head? = some c → c ∈ reserved

end Makeshift.Spec
