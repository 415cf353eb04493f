import Verif.Spec.Stream

/-! # Splitting the input at a token, for any notion of whitespace -/

namespace Makeshift.Spec

/-- `content` is split into skipped leading whitespace (as the locale of the stream sees it), a token without reserved characters, and a
rest that is empty or begins with a reserved character.  Like `TokenSplit`, where whitespace is that of the classic locale. -/
structure SplitIn (blank : CChar → Bool) (reserved content skipped token rest : Str) : Prop where
  content_eq : content = skipped ++ token ++ rest
  skipped_ws : ∀ c ∈ skipped, blank c = true
  first_not_ws : ∀ c, (token ++ rest).head? = some c → blank c = false
  token_legal : ∀ c ∈ token, c ∉ reserved
  rest_stop : ∀ c, rest.head? = some c → c ∈ reserved

end Makeshift.Spec
