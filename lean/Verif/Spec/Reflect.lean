import Verif.Model.Reflect

/-!
# Specification of the functions named `reflect` (C132)
-/

namespace Makeshift.Reflect.Spec

open Makeshift.Reflect

/-- A type mentions a namespace or class: the type itself, the class of which it is a member, one of its base classes, or a type mentioned as a template argument or by a pointer is that class or declared
in that namespace. -/
inductive Mentions : Ty → Scope → Prop where
  | enumNs (id ns outer) : Mentions (.enumeration id ns outer) (.ns ns)
  | enumOuter (id ns outer) : Mentions (.enumeration id ns (some outer)) (.friendOf outer)
  | clsNs (id ns outer bs) : Mentions (.cls id ns outer bs) (.ns ns)
  | clsSelf (id ns outer bs) : Mentions (.cls id ns outer bs) (.friendOf id)
  | clsOuter (id ns outer bs) : Mentions (.cls id ns (some outer) bs) (.friendOf outer)
  | base {id ns outer bs b n} (h : (b, n) ∈ bs) : Mentions (.cls id ns outer bs) (.friendOf b)
  | baseNs {id ns outer bs b n} (h : (b, n) ∈ bs) : Mentions (.cls id ns outer bs) (.ns n)
  | head {C A n} (h : Mentions C n) : Mentions (.app C A) n
  | arg {C A n} (h : Mentions A n) : Mentions (.app C A) n
  | ptr {T n} (h : Mentions T n) : Mentions (.ptr T) n
  | const {T n} (h : Mentions T n) : Mentions (.const T) n

/-- A function is found for a type: it is declared in a namespace which the type mentions, or in `gsl_lite`, or as a friend in a class which the type mentions. -/
def Found (f : Fn) (T : Ty) : Prop := f.scope = .ns gslNs ∨ Mentions T f.scope

/-- `T` is `C<Ts...>` for the class template `C`, with at least one argument. -/
inductive Specialises (C : Nat) : Ty → Prop where
  | one (ns outer bs A) : Specialises C (.app (.cls C ns outer bs) A)
  | more {D A} (h : Specialises C D) : Specialises C (.app D A)

/-- A function takes `gsl::type_identity<T>` itself as its argument. -/
def Takes (f : Fn) (T : Ty) : Prop :=
  f.param = .exact T ∨ (∃ C, f.param = .specialisation C ∧ Specialises C T) ∨ f.param = .every

/-- A function is a match for a type. -/
def Matches (f : Fn) (T : Ty) : Prop := Takes f T ∨ f.param = .converting ∨ f.param = .ellipsis

end Makeshift.Reflect.Spec
