import Verif.Model.Detect

/-!
# Specification for C157: which type an expression denotes

Alias templates are replaced by what they stand for; no order of evaluation, no reference to how the traits are implemented.
-/

namespace Makeshift.Spec.Detect

open Makeshift.Detect

/-- The template can take `n` arguments. -/
def Takes (arity : Option Nat) (n : Nat) : Prop := ∀ k, arity = some k → n = k

mutual
/-- With template arguments `args`, the expression denotes the type. -/
inductive Denotes (ds : List Decl) : List Ty → TExpr → Ty → Prop
  | param {args i t} : args[i]? = some t → Denotes ds args (.param i) t
  | builtin {args n} : Denotes ds args (.builtin n) (.builtin n)
  | cls {args z es ts arity members} : ds[z]? = some (.cls arity members) → DenoteAll ds args es ts → Takes arity ts.length →
      Denotes ds args (.app z es) (.inst z ts)
  | als {args z es ts arity body t} : ds[z]? = some (.als arity body) → DenoteAll ds args es ts → Takes arity ts.length → Denotes ds ts body t →
      Denotes ds args (.app z es) t
  | member {args e u z ts arity members tbl name t} : Denotes ds args e u → u = .inst z ts ∨ u = .const (.inst z ts) → ds[z]? = some (.cls arity members) →
      members ts = some tbl → tbl.lookup name = some t → Denotes ds args (.member e name) t
  | const {args e t} : Denotes ds args e t → (∀ u, t ≠ .const u ∧ t ≠ .ref u) → Denotes ds args (.const e) (.const t)
  | const_same {args e t u} : Denotes ds args e t → t = .const u ∨ t = .ref u → Denotes ds args (.const e) t
  | ref {args e t} : Denotes ds args e t → (∀ u, t ≠ .ref u) → t ≠ .builtin 0 → t ≠ .const (.builtin 0) → Denotes ds args (.ref e) (.ref t)
  | ref_ref {args e t} : Denotes ds args e (.ref t) → Denotes ds args (.ref e) (.ref t)

/-- The expressions denote the types. -/
inductive DenoteAll (ds : List Decl) : List Ty → List TExpr → List Ty → Prop
  | nil {args} : DenoteAll ds args [] []
  | cons {args e es t ts} : Denotes ds args e t → DenoteAll ds args es ts → DenoteAll ds args (e :: es) (t :: ts)
end

mutual
/-- All templates used in the expression are among the first `k`. -/
def Uses (k : Nat) : TExpr → Prop
  | .param _ => True
  | .builtin _ => True
  | .app z es => z < k ∧ UsesAll k es
  | .member e _ => Uses k e
  | .const e => Uses k e
  | .ref e => Uses k e

/-- The same for lists. -/
def UsesAll (k : Nat) : List TExpr → Prop
  | [] => True
  | e :: es => Uses k e ∧ UsesAll k es
end

/-- Alias templates use templates declared before only. -/
def Ordered (ds : List Decl) : Prop := ∀ z arity body, ds[z]? = some (.als arity body) → Uses z body

/-- Types of the program: instantiations are instantiations of class templates. -/
inductive IsType (ds : List Decl) : Ty → Prop
  | builtin {n} : IsType ds (.builtin n)
  | inst {z ts arity members} : ds[z]? = some (.cls arity members) → (∀ t ∈ ts, IsType ds t) → IsType ds (.inst z ts)
  | const {t} : IsType ds t → IsType ds (.const t)
  | ref {t} : IsType ds t → IsType ds (.ref t)

/-- No definition of a class template is ill-formed for any types as arguments, and members are types. -/
def Robust (ds : List Decl) : Prop :=
  ∀ (z : Nat) arity members ts, ds[z]? = some (Decl.cls arity members) → (∀ t ∈ ts, IsType ds t) →
    ∃ tbl, members ts = some tbl ∧ ∀ nt ∈ tbl, IsType ds nt.2

end Makeshift.Spec.Detect
