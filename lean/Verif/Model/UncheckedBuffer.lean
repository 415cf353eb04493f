import Verif.Model.Buffer
import Verif.Model.Unchecked

/-!
# Programs on buffers with contract checks switched on or off

`experimental/buffer.hpp` and `experimental/detail/buffer.hpp` once more (see `Model/Buffer.lean`, whose simplifications apply), with the
configuration of gsl-lite as a parameter (see `Model/Unchecked.lean`).  The storage operations, which contain no checks, are those of
`Model/Buffer.lean`.
-/

namespace Makeshift.Unchecked.Buf

open Makeshift Makeshift.Buffer

/-- experimental/buffer.hpp:56-64 and 151-160: the constructors from an extent, with the checks of experimental/detail/buffer.hpp:331-350. -/
def constructExtent (c : Checks) (limit : Nat) (h : Heap) (ty : Ty) (e : Int) : Outcome (Heap × Obj) :=
  (construct limit h ty (IntTy.sizeT.wrap e).toNat).bind fun r => (c.expects (checkExtent ty e)).bind fun _ => .ok r

/-- `_size() - 1` in `std::size_t` (experimental/detail/buffer.hpp:88, 93). -/
def lastIndex (size : Nat) : Nat := if size = 0 then 2 ^ 64 - 1 else size - 1

/-- One operation. -/
def step (c : Checks) (limit : Nat) (s : State) : Op → Outcome (State × Resp)
  | .construct b ty e =>
    match s.objs b with
    | some _ => .ub
    | none => (constructExtent c limit s.heap ty e).bind fun r => .ok (⟨r.1, update s.objs b (some r.2)⟩, .unit)
  | .constructArray b ty vals =>
    match s.objs b with
    | some _ => .ub
    | none => (constructArray limit s.heap ty vals).bind fun r => .ok (⟨r.1, update s.objs b (some r.2)⟩, .unit)
  | .copy b src =>
    match s.objs b with
    | some _ => .ub
    | none => s.withObj src fun o =>
      (copyConstruct limit s.heap o).bind fun r => .ok (⟨r.1, update s.objs b (some r.2)⟩, .unit)
  | .assignArray b vals => s.withObj b fun o =>                                        -- experimental/buffer.hpp:73-81, 169-177
    (c.expects (decide (vals.length = o.size))).bind fun _ =>
    (storeAll s.heap o 0 vals).bind fun r => .ok (⟨r.1, update s.objs b (some r.2)⟩, .unit)
  | .copyAssign b src => s.withObj b fun _ => s.withObj src fun o =>
    .ok (⟨s.heap, update s.objs b (some o)⟩, .unit)
  | .size b => s.withObj b fun o => .ok (s, .num o.size)
  | .empty b => s.withObj b fun o => .ok (s, .num (if o.size = 0 then 1 else 0))
  | .read b i => s.withObj b fun o => (load s.heap o i).bind fun v => .ok (s, .num v)
  | .write b i v => s.withObj b fun o =>
    (store s.heap o i v).bind fun r => .ok (⟨r.1, update s.objs b (some r.2)⟩, .unit)
  | .front b => s.withObj b fun o =>                                                   -- experimental/detail/buffer.hpp:75-84
    (c.expects (decide (o.size ≠ 0))).bind fun _ => (load s.heap o 0).bind fun v => .ok (s, .num v)
  | .back b => s.withObj b fun o =>                                                    -- experimental/detail/buffer.hpp:85-94
    (c.expects (decide (o.size ≠ 0))).bind fun _ => (load s.heap o (lastIndex o.size)).bind fun v => .ok (s, .num v)
  | .destroy b => s.withObj b fun o =>
    (destroy s.heap o).bind fun h => .ok (⟨h, update s.objs b none⟩, .unit)

/-- A program. -/
def run (c : Checks) (limit : Nat) : State → List Op → Outcome (State × List Resp)
  | s, [] => .ok (s, [])
  | s, op :: ops => (step c limit s op).bind fun r => (run c limit r.1 ops).bind fun rs => .ok (rs.1, r.2 :: rs.2)

end Makeshift.Unchecked.Buf
