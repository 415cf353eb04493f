import Verif.Spec.Buffer
import Verif.Model.BufferExceptions

/-!
# What a program may expect of buffers whose elements may throw

A buffer variable holds a sequence of elements; there is no storage, and there are no element objects.  The operations, types and
responses are those of the API (`Verif.Model.Buffer`), and so are programs (`Verif.Model.BufferExceptions`).
-/

namespace Makeshift.Spec.BufEx

open Makeshift.Buffer (Ty Op Resp)
open Makeshift.BufferEx (Seen Prog)

/-- Buffers by variable. -/
abbrev Store := Nat → Option (List Int)

def set (a : Store) (b : Nat) (x : Option (List Int)) : Store := fun j => if j = b then x else a j

/-- No buffers. -/
def none : Store := fun _ => .none

/-- How an operation ends. -/
inductive Result where
  | returned (a : Store) (r : Resp)
  | threw (a : Store)
  | failFast

/-- Whether an array fits into a buffer of the type. -/
def fits : Ty → Nat → Prop
  | .fixed .none m, n => n ≤ m
  | _, _ => True

/-- What the caller has to see to: buffers exist when they are used, do not exist when they are created, indices are in range, and
a `fixed_buffer` is not constructed from too long an array (which the library does not check). -/
def InContract (a : Store) : Op → Prop
  | .construct b _ _ => a b = .none
  | .constructArray b ty vals => a b = .none ∧ fits ty vals.length
  | .copy b src => a b = .none ∧ a src ≠ .none
  | .assignArray b _ => a b ≠ .none
  | .copyAssign b src => a b ≠ .none ∧ a src ≠ .none
  | .size b => a b ≠ .none
  | .empty b => a b ≠ .none
  | .read b i => ∃ l, a b = some l ∧ i < l.length
  | .write b i _ => ∃ l, a b = some l ∧ i < l.length
  | .front b => a b ≠ .none
  | .back b => a b ≠ .none
  | .destroy b => a b ≠ .none

/-- How an operation which keeps to the contract may end.  Only what creates or alters elements may throw.  Then a constructor has had no effect at all, and an
assignment has replaced the elements before the one which threw, whose value is unspecified. -/
inductive Allowed (a : Store) : Op → Result → Prop
  | construct {b : Nat} {ty : Ty} {e : Int} : Buf.extentOk ty e →
      Allowed a (.construct b ty e) (.returned (set a b (some (List.replicate e.toNat 0))) .unit)
  | constructRejected {b : Nat} {ty : Ty} {e : Int} : ¬ Buf.extentOk ty e → Allowed a (.construct b ty e) .failFast
  | constructThrew {b : Nat} {ty : Ty} {e : Int} : Allowed a (.construct b ty e) (.threw a)
  | constructArray {b : Nat} {ty : Ty} {vals : List Int} :
      Allowed a (.constructArray b ty vals) (.returned (set a b (some vals)) .unit)
  | constructArrayThrew {b : Nat} {ty : Ty} {vals : List Int} : Allowed a (.constructArray b ty vals) (.threw a)
  | copy {b src : Nat} {l : List Int} : a src = some l → Allowed a (.copy b src) (.returned (set a b (some l)) .unit)
  | copyThrew {b src : Nat} : Allowed a (.copy b src) (.threw a)
  | assignArray {b : Nat} {l vals : List Int} : a b = some l → vals.length = l.length →
      Allowed a (.assignArray b vals) (.returned (set a b (some vals)) .unit)
  | assignArrayRejected {b : Nat} {l vals : List Int} : a b = some l → vals.length ≠ l.length →
      Allowed a (.assignArray b vals) .failFast
  | assignArrayThrew {b : Nat} {l vals : List Int} (k : Nat) (x : Int) : a b = some l → vals.length = l.length → k < l.length →
      Allowed a (.assignArray b vals) (.threw (set a b (some (vals.take k ++ x :: l.drop (k + 1)))))
  | copyAssign {b src : Nat} {l : List Int} : a src = some l →
      Allowed a (.copyAssign b src) (.returned (set a b (some l)) .unit)
  | copyAssignThrew {b src : Nat} {l m l' : List Int} (k : Nat) : a b = some l → a src = some m → l'.length = l.length →
      (∀ i < k, i < l.length → i < m.length → l'[i]? = m[i]?) → (∀ i > k, l'[i]? = l[i]?) →
      Allowed a (.copyAssign b src) (.threw (set a b (some l')))
  | size {b : Nat} {l : List Int} : a b = some l → Allowed a (.size b) (.returned a (.num l.length))
  | empty {b : Nat} {l : List Int} : a b = some l → Allowed a (.empty b) (.returned a (.num (if l = [] then 1 else 0)))
  | read {b i : Nat} {l : List Int} {v : Int} : a b = some l → l[i]? = some v → Allowed a (.read b i) (.returned a (.num v))
  | write {b i : Nat} {l : List Int} {v : Int} : a b = some l →
      Allowed a (.write b i v) (.returned (set a b (some (l.set i v))) .unit)
  | writeThrew {b i : Nat} {l : List Int} {v : Int} (x : Int) : a b = some l →
      Allowed a (.write b i v) (.threw (set a b (some (l.set i x))))
  | front {b : Nat} {l : List Int} {v : Int} : a b = some (v :: l) → Allowed a (.front b) (.returned a (.num v))
  | frontRejected {b : Nat} : a b = some [] → Allowed a (.front b) .failFast
  | back {b : Nat} {l : List Int} {v : Int} : a b = some (l ++ [v]) → Allowed a (.back b) (.returned a (.num v))
  | backRejected {b : Nat} : a b = some [] → Allowed a (.back b) .failFast
  | destroy {b : Nat} : Allowed a (.destroy b) (.returned (set a b .none) .unit)

/-- The number of elements an operation may have to find memory for. -/
def needs (a : Store) : Op → Nat
  | .construct _ _ e => Buf.request e
  | .constructArray _ _ vals => vals.length
  | .copy _ src => ((a src).map List.length).getD 0
  | _ => 0

/-- Operations which create a buffer. -/
def creates : Op → Bool
  | .construct _ _ _ => true
  | .constructArray _ _ _ => true
  | .copy _ _ => true
  | _ => false

/-- Whether all operations of a program compile, given the types of the variables which hold buffers. -/
def WellFormed (tyOf : Nat → Ty) : Prog → Prop
  | .done => True
  | .op o k => o.wellFormed tyOf ∧ ∀ seen, WellFormed tyOf (k seen)

/-- Whether a program keeps to the contract, whichever way its operations end. -/
def Safe : Prog → Store → Prop
  | .done, _ => True
  | .op o k, a => InContract a o ∧
      (∀ a' r, Allowed a o (.returned a' r) → Safe (k (.returned r)) a') ∧ (∀ a', Allowed a o (.threw a') → Safe (k .threw) a')

/-- What a program may observe, and the buffers it may leave. -/
inductive Ends : Store → Prog → List Seen → Store → Prop
  | done (a : Store) : Ends a .done [] a
  | returned {a a' a'' : Store} {o : Op} {k : Seen → Prog} {r : Resp} {seen : List Seen} : Allowed a o (.returned a' r) →
      Ends a' (k (.returned r)) seen a'' → Ends a (.op o k) (.returned r :: seen) a''
  | threw {a a' a'' : Store} {o : Op} {k : Seen → Prog} {seen : List Seen} : Allowed a o (.threw a') →
      Ends a' (k .threw) seen a'' → Ends a (.op o k) (.threw :: seen) a''

/-- Whether a program may be terminated because an expectation is violated. -/
inductive Stops : Store → Prog → Prop
  | here {a : Store} {o : Op} {k : Seen → Prog} : Allowed a o .failFast → Stops a (.op o k)
  | returned {a a' : Store} {o : Op} {k : Seen → Prog} {r : Resp} : Allowed a o (.returned a' r) → Stops a' (k (.returned r)) →
      Stops a (.op o k)
  | threw {a a' : Store} {o : Op} {k : Seen → Prog} : Allowed a o (.threw a') → Stops a' (k .threw) → Stops a (.op o k)

end Makeshift.Spec.BufEx
