import Verif.Spec.BufferTypes
import Verif.Spec.TupleAccess
import Verif.Props.Buffer
import Verif.Props.RangeArgs

/-! # C96: `make_buffer`, `make_fixed_buffer`, and buffers as ranges and tuples -/

namespace Makeshift.Props

open Makeshift.Buffer Makeshift.Spec.BufferTypes
open Makeshift.Spec.TupleAccess (Decl Bindable Binds Decl.access)
open Makeshift.Spec (Buf.allocates Buf.extentOk Buf.request)

/-! ## helper lemmas -/

private theorem ptrdiff_wrap {v : Int} (h0 : 0 ≤ v) (h1 : v < 2 ^ 63) : IntTy.ptrdiffT.wrap v = v := by
  simp only [IntTy.wrap, IntTy.ptrdiffT, if_true, Int.bmod_def]
  omega

private theorem toExtent_nat (n : Nat) : toExtent (n : Int) = some (some n) := by
  simp [toExtent, show ¬ (n : Int) = -1 by omega, show ¬ (n : Int) < 0 by omega]

private theorem constructExtent_cases (limit : Nat) (h : Heap) (ty : Ty) (n : Nat) (hn : (n : Int) < 2 ^ 63)
    (hok : Buf.extentOk ty n) :
    (Buf.allocates ty n ∧ limit < n → constructExtent limit h ty n = .throw (str "bad_alloc")) ∧
    (¬ (Buf.allocates ty n ∧ limit < n) → ∃ h' o, constructExtent limit h ty n = .ok (h', o) ∧ o.ty = ty ∧ o.size = n) := by
  have hreq : (IntTy.sizeT.wrap (n : Int)).toNat = n := by
    rw [wrap_request _ (by omega) (by omega)]; simp [Buf.request, show ¬ (n : Int) < 0 by omega]
  simp only [constructExtent, hreq]
  constructor
  · rintro ⟨h1, h2⟩
    rw [construct_throw limit h ty n h1 h2]; rfl
  · intro hal
    obtain ⟨h', o, hcon, hty, _, hsh⟩ := construct_ok limit h ty n hal
    have hg := extentOk_good hok
    simp only [Int.toNat_natCast] at hg
    refine ⟨h', o, ?_, hty, (hsh hg).2.1⟩
    rw [hcon, (checkExtent_iff ty n).2 hok]; rfl

/-! ## construction -/

/-- Full claim (false, see `C96_derived_constant`): for every size argument, `make_buffer<T, M>(size)` has the documented type and puts
its elements where documented.  Proved unless the argument is of a class derived from `std::integral_constant`: it compiles, the extent
is static for a constval and dynamic otherwise, there are as many elements as asked for, and they are on the heap exactly if documented;
if so, and if there is not enough memory, and only then, an exception is thrown.  Without `M` the same holds with `M = -1`. -/
theorem C96_make_buffer_partial (limit : Nat) (h : Heap) (M : Int) (hM : -1 ≤ M) (hM' : M < 2 ^ 63) (c : SizeArg) (n : Nat)
    (hc : c = .int n ∨ c = .constant n) (hn : (n : Int) < 2 ^ 63) :
    ∃ r, makeBufferMax limit h M c = some r ∧ (M = -1 → makeBuffer limit h c = some r) ∧
      (OnHeap M c n ∧ limit < n → r = .throw (str "bad_alloc")) ∧
      (¬ (OnHeap M c n ∧ limit < n) → ∃ h' o ext, r = .ok (h', o) ∧ o.ty = .buffer ext M ∧ Extent c n ext ∧ o.size = n ∧
        ((∃ id, o.data = .block id) ↔ OnHeap M c n)) := by
  have key : ∀ ext, constructFrom limit h (.buffer ext M) c = some (constructExtent limit h (.buffer ext M) n) →
      Buf.extentOk (.buffer ext M) n → (Buf.allocates (.buffer ext M) n ↔ OnHeap M c n) → Extent c n ext →
      ∃ r, constructFrom limit h (.buffer ext M) c = some r ∧
      (OnHeap M c n ∧ limit < n → r = .throw (str "bad_alloc")) ∧
      (¬ (OnHeap M c n ∧ limit < n) → ∃ h' o ext, r = .ok (h', o) ∧ o.ty = .buffer ext M ∧ Extent c n ext ∧ o.size = n ∧
        ((∃ id, o.data = .block id) ↔ OnHeap M c n)) := by
    intro ext hcf hok hal hext
    obtain ⟨h1, h2⟩ := constructExtent_cases limit h (.buffer ext M) n hn hok
    rw [hal] at h1 h2
    refine ⟨_, hcf, h1, fun hh => ?_⟩
    obtain ⟨h', o, hr, hty, hsz⟩ := h2 hh
    refine ⟨h', o, ext, hr, hty, hext, hsz, ?_⟩
    rw [C55_allocates_iff limit h h' _ n o (by omega) (by omega) hr, ← hal]
    rcases ext with _ | k
    · simp only [Buf.allocates]; omega
    · simp only [Buf.allocates, Buf.extentOk] at hok ⊢
      omega
  suffices hs : ∃ r, makeBufferMax limit h M c = some r ∧
      (OnHeap M c n ∧ limit < n → r = .throw (str "bad_alloc")) ∧
      (¬ (OnHeap M c n ∧ limit < n) → ∃ h' o ext, r = .ok (h', o) ∧ o.ty = .buffer ext M ∧ Extent c n ext ∧ o.size = n ∧
        ((∃ id, o.data = .block id) ↔ OnHeap M c n)) by
    obtain ⟨r, h1, h2⟩ := hs
    exact ⟨r, h1, fun hm => by subst hm; exact h1, h2⟩
  rcases hc with rfl | rfl
  · simp only [makeBufferMax, extentFromConstval, toExtent, if_true, Option.bind_some]
    refine key none ?_ (by simp [Buf.extentOk]) ?_ ⟨by simp [IsConstval], fun _ => rfl⟩
    · simp [constructFrom, Ty.wellFormed, extentCompiles, extentNum, SizeArg.value]
      omega
    · simp only [Buf.allocates, OnHeap, IsConstval]
      split <;> simp <;> omega
  · simp only [makeBufferMax, extentFromConstval, ptrdiff_wrap (show (0 : Int) ≤ n by omega) hn, toExtent_nat, Option.bind_some]
    refine key (some n) ?_ (by simp [Buf.extentOk]) ?_ ⟨fun _ => rfl, by simp [IsConstval]⟩
    · simp [constructFrom, Ty.wellFormed, extentCompiles, extentNum, SizeArg.value, extentFromConstval,
        ptrdiff_wrap (show (0 : Int) ≤ n by omega) hn]
      omega
    · simp only [Buf.allocates, OnHeap, IsConstval]
      split <;> simp <;> omega

example : ∃ h' o, makeBufferMax 100 State.init.heap 16 (.int 20) = some (.ok (h', o)) ∧ o.ty = .buffer none 16 ∧ o.data = .block 0 :=
  ⟨_, _, rfl, rfl, rfl⟩
example : ∃ h' o, makeBuffer 100 State.init.heap (.constant 20) = some (.ok (h', o)) ∧ o.ty = .buffer (some 20) (-1) ∧ o.data = .own :=
  ⟨_, _, rfl, rfl, rfl⟩

/-- A size of a class derived from `std::integral_constant`, such as `std::tuple_size<X>{ }`, is a constval, but it is treated like a
run-time integer: the elements are allocated on the heap. -/
theorem C96_derived_constant (limit : Nat) (h : Heap) (n : Nat) (hpos : 0 < n) (hn : (n : Int) < 2 ^ 63) (hl : n ≤ limit) :
    IsConstval (.derived n) ∧ ¬ OnHeap (-1) (.derived n) n ∧
    ∃ h' o id, makeBuffer limit h (.derived n) = some (.ok (h', o)) ∧ o.ty = .buffer none (-1) ∧ o.data = .block id := by
  refine ⟨trivial, by simp [OnHeap, IsConstval], ?_⟩
  obtain ⟨r, _, hr, _, h2⟩ := C96_make_buffer_partial limit h (-1) (by omega) (by omega) (.int n) n (.inl rfl) hn
  obtain ⟨h', o, ext, rfl, hty, hext, _, hb⟩ := h2 (by omega)
  obtain ⟨id, hid⟩ := hb.2 ⟨hpos, by simp [IsConstval]⟩
  refine ⟨h', o, id, hr rfl, ?_, hid⟩
  rw [hty, hext.2 (by simp [IsConstval])]

example : ∃ h' o, makeBuffer 100 State.init.heap (.derived 3) = some (.ok (h', o)) ∧ o.data = .block 0 := ⟨_, _, rfl, rfl⟩

/-- The constant -1 is not rejected at compile time: it stands for a dynamic extent, and the program asks for 2^64 - 1 elements. -/
theorem C96_minus_one (limit : Nat) (h : Heap) (hl : limit < 2 ^ 64 - 1) (max : Nat) (hmax : max < 2 ^ 63) :
    makeBuffer limit h (.constant (-1)) = some (.throw (str "bad_alloc")) ∧
    makeFixedBufferMax limit h max (.constant (-1)) = some .failFast ∧
    makeFixedBuffer limit h (.constant (-1)) = none := by
  refine ⟨?_, ?_, rfl⟩
  · simp only [makeBuffer, extentFromConstval, show IntTy.ptrdiffT.wrap (-1) = -1 by decide, toExtent, if_true, Option.bind_some,
      constructFrom, Ty.wellFormed, extentCompiles, extentNum, SizeArg.value]
    simp only [constructExtent, show (IntTy.sizeT.wrap (-1)).toNat = 2 ^ 64 - 1 by decide]
    rw [construct_throw limit h _ _ (by simp [Buf.allocates]) hl]
    rfl
  · simp only [makeFixedBufferMax, extentFromConstval, show IntTy.ptrdiffT.wrap (-1) = -1 by decide, toExtent, if_true,
      Option.bind_some, constructFrom, Ty.wellFormed, extentCompiles, extentNum, SizeArg.value]
    simp [hmax, constructExtent, construct, Ty.kind, checkExtent, Outcome.expects]

example : (100 : Nat) < 2 ^ 64 - 1 ∧ (16 : Nat) < 2 ^ 63 := by decide

/-- `make_fixed_buffer<T>(size)` compiles exactly for constants which are not negative (and are representable); the result has a static
extent, and the elements are in place. -/
theorem C96_make_fixed_buffer (limit : Nat) (h : Heap) (c : SizeArg) :
    ((makeFixedBuffer limit h c).isSome ↔ IsConstval c ∧ 0 ≤ c.value ∧ c.value < 2 ^ 63) ∧
    ∀ r, makeFixedBuffer limit h c = some r → ∃ o, r = .ok (h, o) ∧ o.ty = .fixed (some c.value.toNat) c.value.toNat ∧
      (o.size : Int) = c.value ∧ o.data = .own := by
  have key : ∀ v : Int, 0 ≤ v → v < 2 ^ 63 → ∃ o, constructFrom limit h (.fixed (some v.toNat) v.toNat) (.constant v) = some (.ok (h, o)) ∧
      o.ty = .fixed (some v.toNat) v.toNat ∧ (o.size : Int) = v ∧ o.data = .own := by
    intro v h0 h1
    refine ⟨⟨.fixed (some v.toNat) v.toNat, v.toNat, .own, List.replicate v.toNat (.val 0)⟩, ?_, rfl, by simp; omega, rfl⟩
    simp only [constructFrom, Ty.wellFormed, extentCompiles, extentFromConstval, ptrdiff_wrap h0 h1, extentNum, SizeArg.value,
      constructExtent, construct, Ty.kind, Outcome.bind_ok, checkExtent, Outcome.expects]
    simp only [Int.toNat_of_nonneg h0]
    simp
    omega
  rcases c with v | v | v
  · simp [makeFixedBuffer, IsConstval]
  all_goals
    simp only [makeFixedBuffer, IsConstval, SizeArg.value, true_and]
    by_cases hv : 0 ≤ v ∧ v < 2 ^ 63
    · obtain ⟨o, ho, hh⟩ := key v hv.1 hv.2
      have hc : ¬ ((decide (v < 0) || decide (v ≥ 2 ^ 63)) = true) := by
        simp only [Bool.or_eq_true, decide_eq_true_eq]; omega
      rw [if_neg hc, ho]
      refine ⟨by simp [hv.1]; omega, ?_⟩
      rintro r ⟨⟩
      exact ⟨o, rfl, hh⟩
    · have hc : (decide (v < 0) || decide (v ≥ 2 ^ 63)) = true := by
        simp only [Bool.or_eq_true, decide_eq_true_eq]; omega
      rw [if_pos hc]
      refine ⟨by simp; omega, by simp⟩

example : ∃ o, makeFixedBuffer 100 State.init.heap (.derived 3) = some (.ok (State.init.heap, o)) ∧ o.size = 3 := ⟨_, rfl, rfl⟩

/-- Full claim (false for classes derived from `std::integral_constant`, see `C96_derived_fixed`): `make_fixed_buffer<T, M>(size)` with a
size which exceeds `M` is rejected, at compile time if the size is a constval.  Proved for run-time integers and for objects of type
`std::integral_constant`: if the size does not exceed `M`, the result has the documented type and the elements are in place. -/
theorem C96_make_fixed_buffer_max_partial (limit : Nat) (h : Heap) (M : Nat) (hM : M < 2 ^ 63) (c : SizeArg) (n : Nat)
    (hc : c = .int n ∨ c = .constant n) (hn : (n : Int) < 2 ^ 63) :
    (M < n → IsConstval c → makeFixedBufferMax limit h M c = none) ∧
    (M < n → ¬ IsConstval c → makeFixedBufferMax limit h M c = some .failFast) ∧
    (n ≤ M → ∃ o ext, makeFixedBufferMax limit h M c = some (.ok (h, o)) ∧ o.ty = .fixed ext M ∧ Extent c n ext ∧ o.size = n ∧
      o.data = .own) := by
  rcases hc with rfl | rfl
  · simp only [makeFixedBufferMax, extentFromConstval, toExtent, if_true, Option.bind_some, IsConstval, not_false_eq_true, true_implies,
      false_implies, implies_true, true_and]
    have hreq : (IntTy.sizeT.wrap (n : Int)).toNat = n := by
      rw [wrap_request _ (by omega) (by omega)]; simp [Buf.request, show ¬ (n : Int) < 0 by omega]
    simp only [constructFrom, Ty.wellFormed, hM, extentCompiles, extentNum, SizeArg.value, constructExtent, construct, Ty.kind, hreq,
      Outcome.bind_ok, checkExtent, extentFromConstval]
    constructor
    · intro hlt
      simp [Outcome.expects, show ¬ n ≤ M by omega]
    · intro hle
      refine ⟨⟨.fixed none M, n, .own, List.replicate M (.val 0)⟩, none, ?_, rfl, ⟨by simp [IsConstval], fun _ => rfl⟩, rfl, rfl⟩
      simp [Outcome.expects, hle]
  · simp only [makeFixedBufferMax, extentFromConstval, ptrdiff_wrap (show (0 : Int) ≤ n by omega) hn, toExtent_nat, Option.bind_some,
      IsConstval, not_true_eq_false, true_implies, false_implies, implies_true, true_and]
    simp only [constructFrom, Ty.wellFormed, hM, extentCompiles, extentNum, SizeArg.value, constructExtent, construct, Ty.kind,
      Outcome.bind_ok, checkExtent, extentFromConstval, ptrdiff_wrap (show (0 : Int) ≤ n by omega) hn]
    constructor
    · intro hlt
      simp [show ¬ n ≤ M by omega]
    · intro hle
      refine ⟨⟨.fixed (some n) M, n, .own, List.replicate n (.val 0)⟩, some n, ?_, rfl, ⟨fun _ => rfl, by simp [IsConstval]⟩, rfl, rfl⟩
      simp [Outcome.expects, hle]

example : makeFixedBufferMax 100 State.init.heap 16 (.constant 17) = none ∧
    makeFixedBufferMax 100 State.init.heap 16 (.int 17) = some .failFast := ⟨rfl, rfl⟩

/-- With a derived class the compile-time check is a run-time one. -/
theorem C96_derived_fixed (limit : Nat) (h : Heap) (M n : Nat) (hM : M < 2 ^ 63) (hn : (n : Int) < 2 ^ 63) (hlt : M < n) :
    IsConstval (.derived n) ∧ makeFixedBufferMax limit h M (.derived n) = some .failFast :=
  ⟨trivial, (C96_make_fixed_buffer_max_partial limit h M hM (.int n) n (.inl rfl) hn).2.1 hlt (by simp [IsConstval])⟩

example : makeFixedBufferMax 100 State.init.heap 2 (.derived 3) = some .failFast := rfl

/-- The compile-time check of a constant agrees with the run-time check: the constructor from a constant compiles exactly if the
constructor from an integer of the same value accepts it. -/
theorem C96_static_check (limit : Nat) (h : Heap) (ty : Ty) (hw : ty.wellFormed = true) (n : Nat) (hn : (n : Int) < 2 ^ 63) :
    ((constructFrom limit h ty (.constant n)).isSome ↔ Buf.extentOk ty n) ∧
    (constructFrom limit h ty (.int n)).isSome ∧
    (¬ Buf.extentOk ty n → ∀ r, constructFrom limit h ty (.int n) = some r → ∀ x, r ≠ .ok x) := by
  refine ⟨?_, ?_, ?_⟩
  · simp only [constructFrom, hw, Bool.true_and, extentCompiles, extentFromConstval, ptrdiff_wrap (show (0 : Int) ≤ n by omega) hn]
    rcases ty with ⟨_ | k, m⟩ | ⟨_ | k, m⟩
    · simp [extentNum, Buf.extentOk]
    · simp [extentNum, Buf.extentOk, show ¬ (k : Int) = -1 by omega, show ¬ (n : Int) = -1 by omega]
      by_cases hkn : (k : Int) = n
      · simp [hkn]
      · simp [hkn]; omega
    · simp [extentNum, Buf.extentOk, show ¬ (n : Int) = -1 by omega]
    · simp only [Ty.wellFormed, Bool.and_eq_true, decide_eq_true_eq] at hw
      simp only [extentNum, Buf.extentOk, show ¬ (k : Int) = -1 by omega, show ¬ (n : Int) = -1 by omega, decide_false, Bool.false_or]
      by_cases hkn : (k : Int) = n
      · simp [hkn]; omega
      · simp [hkn]; omega
  · rcases ty with ⟨_ | k, m⟩ | ⟨_ | k, m⟩ <;>
      simp [constructFrom, hw, extentCompiles, extentFromConstval]
  · intro hno r hr x hx
    subst hx
    have hcx : constructExtent limit h ty n = .ok x := by
      simp only [constructFrom] at hr
      split at hr
      · simpa [SizeArg.value] using hr
      · cases hr
    have hchk : checkExtent ty n = false := by
      rcases hcc : checkExtent ty n with _ | _
      · rfl
      · exact absurd ((checkExtent_iff ty n).1 hcc) hno
    simp only [constructExtent, hchk, Outcome.expects] at hcx
    rcases hcon : construct limit h ty (IntTy.sizeT.wrap (n : Int)).toNat with r | m | _ | _ <;> rw [hcon] at hcx <;> simp at hcx

example : (constructFrom 100 State.init.heap (.fixed none 4) (.constant 5)).isSome = false ∧
    (constructFrom 100 State.init.heap (.fixed none 4) (.constant 4)).isSome = true := by decide

/-! ## elements -/

private theorem after {tyOf : Nat → Ty} {limit : Nat} {ops : List Op} (hwf : ∀ op ∈ ops, op.wellFormed tyOf)
    {a : Spec.Buf.Store} {rs : List Resp} (hspec : Spec.Buf.run limit Spec.Buf.none ops = .ok (a, rs)) :
    ∃ s, run limit State.init ops = .ok (s, rs) ∧ Rel tyOf s a := by
  have h := sim_run limit ops (rel_init tyOf) hwf
  rw [hspec] at h
  exact h

private theorem getAt_rel {tyOf : Nat → Ty} {s : State} {a : Spec.Buf.Store} (hR : Rel tyOf s a) {b : Nat} {ty : Ty}
    {elems : List Cell} (ha : a b = some (ty, elems)) {i : Nat} (hi : i < elems.length) :
    getAt s b i = Spec.Buf.get elems i := by
  obtain ⟨o, ho, hoty, hty, hsh, hel, hg⟩ := rel_some hR ha
  simp only [getAt, withObj_some ho, load_eq]
  subst hel
  simp only [List.length_take] at hi
  simp [Spec.Buf.get, show i < o.size by omega]

/-- After any sequence of operations on buffers: `get<I>` of a buffer with static extent compiles exactly for the indices of its
elements, which are as many as `std::tuple_size` says, and yields the element at this position; with a dynamic extent, neither
compiles. -/
theorem C96_get (tyOf : Nat → Ty) (limit : Nat) (ops : List Op) (hwf : ∀ op ∈ ops, op.wellFormed tyOf) (a : Spec.Buf.Store)
    (rs : List Resp) (hspec : Spec.Buf.run limit Spec.Buf.none ops = .ok (a, rs)) (b : Nat) (ty : Ty) (elems : List Cell)
    (ha : a b = some (ty, elems)) (elem : Nat) (acc : TupleAccess.Access) :
    ∃ s, run limit State.init ops = .ok (s, rs) ∧
      match ty.extent with
      | none => ty.tupleSize = none ∧ ∀ i, getTy elem acc ty i = none
      | some k => ty.tupleSize = some elems.length ∧ k = elems.length ∧
          ∀ i, ((getTy elem acc ty i).isSome ↔ i < elems.length) ∧ (i < elems.length → getAt s b i = Spec.Buf.get elems i) := by
  obtain ⟨s, hrun, hR⟩ := after hwf hspec
  refine ⟨s, hrun, ?_⟩
  obtain ⟨o, ho, hoty, hty, hsh, hel, hg⟩ := rel_some hR ha
  have hlen : elems.length = o.size := by
    have := shape_size hsh
    rw [hel, List.length_take]; omega
  rcases hx : ty.extent with _ | k
  · simp [Ty.tupleSize, getTy, hx]
  · have hk : k = elems.length := by
      rw [hlen]
      rw [← hty] at hg
      rcases ty with ⟨_ | k', m⟩ | ⟨_ | k', m⟩ <;> simp only [Ty.extent, reduceCtorEq, Option.some.injEq] at hx <;>
        simp only [GoodSize] at hg <;> omega
    subst hk
    refine ⟨by simp [Ty.tupleSize, hx], rfl, fun i => ⟨?_, fun hi => getAt_rel hR ha hi⟩⟩
    simp only [getTy, hx]
    split <;> simp_all

/-- A program with a buffer of static extent. -/
private def pairTypes (_ : Nat) : Ty := .buffer (some 2) 1
private def pairOps : List Op := [.construct 0 (.buffer (some 2) 1) 2, .write 0 1 7, .constructArray 1 (.buffer (some 2) 1) [8, 9]]

example : (∀ op ∈ pairOps, op.wellFormed pairTypes) ∧
    ∃ a rs, Spec.Buf.run 100 Spec.Buf.none pairOps = .ok (a, rs) ∧ a 0 = some (.buffer (some 2) 1, [.val 0, .val 7]) ∧
      a 1 = some (.buffer (some 2) 1, [.val 8, .val 9]) := by
  refine ⟨?_, _, _, rfl, rfl, rfl⟩
  intro op hop
  simp only [pairOps, List.mem_cons, List.not_mem_nil, or_false] at hop
  rcases hop with rfl | rfl | rfl <;> simp [Op.wellFormed, pairTypes, Ty.wellFormed, Ty.arrayOk, Ty.extent]

/-- `get<I>` of a non-const lvalue is a non-const lvalue of the element type; of const lvalues *and of rvalues* a const one: elements are
never moved from. -/
theorem C96_get_type (elem : Nat) (acc : TupleAccess.Access) (ty : Ty) (i : Nat) (t : TupleAccess.Ty) (h : getTy elem acc ty i = some t) :
    ∃ const, t = .lref ⟨elem, const⟩ ∧ (const = false ↔ acc = ⟨false, false⟩) := by
  simp only [getTy] at h
  rcases hx : ty.extent with _ | k <;> rw [hx] at h <;> simp only at h
  · cases h
  · split at h
    · cases h
      rcases acc with ⟨_ | _, _ | _⟩ <;> simp
    · cases h

example : getTy 5 ⟨false, true⟩ (.fixed (some 3) 4) 2 = some (.lref ⟨5, true⟩) := rfl

/-- Full claim (false): structured bindings to the elements of a buffer of static extent compile.  They do except for `auto [...]`. -/
theorem C96_bindings_partial (elem : Nat) (d : Decl) (ty : Ty) (k : Nat) (hk : ty.extent = some k) :
    (∀ i < k, ∃ g, getTy elem d.access ty i = some g ∧ Bindable (elementTy elem d.access.const) g) ↔ k = 0 ∨ d ≠ .auto := by
  constructor
  · intro h
    by_cases h0 : k = 0
    · exact .inl h0
    · right
      rintro rfl
      obtain ⟨g, hg, hb⟩ := h 0 (by omega)
      simp only [getTy, hk, show 0 < k by omega, if_true, Option.some.injEq] at hg
      subst hg
      simp [Decl.access, Bindable, Binds, elementTy, TupleAccess.Ty.addLRef] at hb
  · rintro h i hi
    rcases h with rfl | hd
    · omega
    · refine ⟨_, by simp only [getTy, hk, hi, if_true]; rfl, ?_⟩
      cases d <;> simp_all [Decl.access, Bindable, Binds, elementTy, TupleAccess.Ty.addLRef]

/-- The type of such a name (`std::tuple_element`) is that of the element, not a reference, and is const exactly if the buffer cannot be
modified through it. -/
theorem C96_binding_type (elem : Nat) (d : Decl) (hd : d ≠ .auto) (ty : Ty) (k : Nat) (hk : ty.extent = some k) (i : Nat) (hi : i < k) :
    ∃ c : TupleAccess.CTy, c.ty = elem ∧ elementTy elem d.access.const = .obj c ∧ getTy elem d.access ty i = some (.lref c) := by
  refine ⟨⟨elem, d.access.const⟩, rfl, rfl, ?_⟩
  simp only [getTy, hk, hi, if_true]
  cases d <;> simp_all [Decl.access]

example : Decl.autoConst ≠ .auto ∧ (Ty.fixed (some 3) 4).extent = some 3 := ⟨by simp, rfl⟩

/-- `auto [a, b] = make_buffer<T>(std::integral_constant<int, 2>{ });` does not compile. -/
theorem C96_no_auto_binding (elem : Nat) :
    ¬ ∀ i < 2, ∃ g, getTy elem Decl.auto.access (.buffer (some 2) (-1)) i = some g ∧ Bindable (elementTy elem Decl.auto.access.const) g := by
  rw [C96_bindings_partial elem .auto (.buffer (some 2) (-1)) 2 rfl]
  simp

example : ∃ g, getTy 5 Decl.autoRef.access (.buffer (some 2) (-1)) 1 = some g ∧ Bindable (elementTy 5 Decl.autoRef.access.const) g :=
  (C96_bindings_partial 5 .autoRef (.buffer (some 2) (-1)) 2 rfl).2 (.inr (by simp)) 1 (by decide)

/-! ## iteration -/

private theorem iterateFrom_eq (h : Heap) (o : Obj) (vals : List Int) (hsz : endPos o = vals.length)
    (hl : ∀ i v, vals[i]? = some v → load h o i = .ok v) (fuel pos : Nat) (hp : pos ≤ vals.length) (hf : vals.length < pos + fuel) :
    iterateFrom h o fuel pos = .ok (vals.drop pos) := by
  induction fuel generalizing pos with
  | zero => omega
  | succ fuel ih =>
    simp only [iterateFrom, hsz]
    by_cases he : pos = vals.length
    · simp [he]
    · have hlt : pos < vals.length := by omega
      rw [if_neg he, hl pos vals[pos] (by simp [hlt]), Outcome.bind_ok, ih (pos + 1) (by omega) (by omega), Outcome.bind_ok,
        List.drop_eq_getElem_cons hlt]

/-- After any sequence of operations on buffers, a loop from `begin()` to `end()` over a buffer whose elements all have values visits
exactly these values, in order, and stays in the storage of the buffer. -/
theorem C96_iterate (tyOf : Nat → Ty) (limit : Nat) (ops : List Op) (hwf : ∀ op ∈ ops, op.wellFormed tyOf) (a : Spec.Buf.Store)
    (rs : List Resp) (hspec : Spec.Buf.run limit Spec.Buf.none ops = .ok (a, rs)) (b : Nat) (ty : Ty) (vals : List Int)
    (ha : a b = some (ty, vals.map .val)) :
    ∃ s, run limit State.init ops = .ok (s, rs) ∧ iterate s b = .ok vals := by
  obtain ⟨s, hrun, hR⟩ := after hwf hspec
  refine ⟨s, hrun, ?_⟩
  obtain ⟨o, ho, hoty, hty, hsh, hel, hg⟩ := rel_some hR ha
  have hsize := shape_size hsh
  have hlen : vals.length = o.size := by
    have := congrArg List.length hel
    simp only [List.length_map, List.length_take] at this
    omega
  have hstore : storageSize s.heap o = (view s.heap o).length := by
    simp only [storageSize, view]
    rcases o.data with _ | _ | id <;> rfl
  have hend : endPos o = vals.length := by
    rw [hlen]
    unfold endPos
    unfold Shape at hsh
    rcases hk : o.ty.kind with n | cap | cap | _ <;> rw [hk] at hsh <;> simp only at hsh ⊢
    exact hsh.2.2.symm
  simp only [iterate, withObj_some ho]
  rw [iterateFrom_eq s.heap o vals hend ?_ _ 0 (by omega) (by omega)]
  · rfl
  · intro i v hv
    have hi : i < vals.length := by
      by_contra hc
      rw [List.getElem?_eq_none (by omega)] at hv; cases hv
    have h1 := getAt_rel hR ha (i := i) (by simpa using hi)
    simp only [getAt, withObj_some ho] at h1
    rw [h1]
    simp [Spec.Buf.get, hv]

example : (run 100 State.init pairOps).bind (fun r => iterate r.1 1) = .ok [8, 9] := rfl
example : (run 100 State.init (sampleOps.take 3)).bind (fun r => iterate r.1 1) = .ok [9, 6, 7] := rfl

/-- Buffers can be passed to the range algorithms whatever their constness and value category, and the size which is assumed for a
buffer with given elements - that of the type for static extents - is their number. -/
theorem C96_range_argument (tyOf : Nat → Ty) (limit : Nat) (ops : List Op) (hwf : ∀ op ∈ ops, op.wellFormed tyOf)
    (a : Spec.Buf.Store) (rs : List Resp) (hspec : Spec.Buf.run limit Spec.Buf.none ops = .ok (a, rs)) (b : Nat) (ty : Ty)
    (elems : List Cell) (ha : a b = some (ty, elems)) (const rvalue : Bool) :
    RangeArgs.algorithmCompiles [⟨ty.rangeTy, const, rvalue⟩] = true ∧ Spec.Honest elems.length ty.rangeTy ∧
    ∃ r, RangeArgs.toRng ⟨ty.rangeTy, const, rvalue⟩ elems = some r ∧ r.mode = .index ∧ r.elems = elems ∧
      r.size = if ty.extent.isSome then .static elems.length else .dyn elems.length := by
  obtain ⟨s, _, hg⟩ := C96_get tyOf limit ops hwf a rs hspec b ty elems ha 0 ⟨false, false⟩
  refine ⟨by cases const <;> cases rvalue <;> rfl, ?_, ?_⟩
  · intro k hk
    rcases hx : ty.extent with _ | k' <;> rw [hx] at hg <;> simp only at hg
    · rw [hg.1] at hk; cases hk
    · rw [hg.1] at hk; cases hk; rfl
  · refine ⟨_, rfl, rfl, rfl, ?_⟩
    simp only [RangeArgs.sizeOfRange, Ty.rangeTy]
    rcases hx : ty.extent with _ | k' <;> rw [hx] at hg <;> simp only at hg
    · simp [hg.1]
    · simp [hg.1]

/-- `range_for` over any buffers with the same number of elements calls the functor for each position, in order. -/
theorem C96_range_for (tyOf : Nat → Ty) (limit : Nat) (ops : List Op) (hwf : ∀ op ∈ ops, op.wellFormed tyOf)
    (a : Spec.Buf.Store) (rs : List Resp) (hspec : Spec.Buf.run limit Spec.Buf.none ops = .ok (a, rs))
    (bufs : List (Ty × List Cell × Bool × Bool)) (hne : bufs ≠ []) (hb : ∀ p ∈ bufs, ∃ b, a b = some (p.1, p.2.1)) (n : Nat)
    (hn : ∀ p ∈ bufs, p.2.1.length = n) (fuel : Nat) (hf : n < fuel) :
    ∃ rngs : List (Rng Cell), List.Forall₂ (fun p r => RangeArgs.toRng ⟨p.1.rangeTy, p.2.2.1, p.2.2.2⟩ p.2.1 = some r ∧
        r.elems = p.2.1) bufs rngs ∧
      ∃ calls, Spec.Zipped rngs n calls ∧ rangeFor rngs fuel = .done calls (.ok ()) := by
  have hc : RangeArgs.algorithmCompiles ((bufs.map fun p =>
      ((⟨p.1.rangeTy, p.2.2.1, p.2.2.2⟩ : RangeArgs.Argument), p.2.1)).map Prod.fst) = true := by
    simp only [List.map_map, RangeArgs.algorithmCompiles, List.all_map, List.all_eq_true]
    rintro ⟨ty, elems, c, r⟩ _
    cases c <;> cases r <;> rfl
  obtain ⟨rngs, h1, h2⟩ := C90_range_for (α := Cell)
    (bufs.map fun p => ((⟨p.1.rangeTy, p.2.2.1, p.2.2.2⟩ : RangeArgs.Argument), p.2.1)) n hc
    (by
      intro p hp
      obtain ⟨q, hq, rfl⟩ := List.mem_map.1 hp
      obtain ⟨b, hab⟩ := hb q hq
      exact (C96_range_argument tyOf limit ops hwf a rs hspec b q.1 q.2.1 hab false false).2.1)
    (by
      intro p hp _
      obtain ⟨q, hq, rfl⟩ := List.mem_map.1 hp
      exact hn q hq)
    (by
      obtain ⟨q, l, rfl⟩ := List.exists_cons_of_ne_nil hne
      exact ⟨_, List.mem_cons_self .., by simp [Ty.rangeTy]⟩)
    (.inr (by
      intro p hp
      obtain ⟨q, hq, rfl⟩ := List.mem_map.1 hp
      simp [Ty.rangeTy])) fuel hf
  refine ⟨rngs, ?_, h2⟩
  rw [List.forall₂_map_left_iff] at h1
  exact h1.imp fun _ _ h => ⟨h.1, h.2.1⟩

example : ∀ p ∈ [((.buffer (some 2) 1 : Ty), ([.val 0, .val 7] : List Cell), false, true), (.buffer (some 2) 1, [.val 8, .val 9], true, false)],
    p.2.1.length = 2 := by decide

end Makeshift.Props
