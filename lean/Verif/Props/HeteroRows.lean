import Verif.Spec.HeteroRows
import Verif.Props.RowCatching

/-!
# Programs on the rows of a `soa_span` with columns of different types: C153
-/

namespace Makeshift.Props

open Makeshift.Soa
open Makeshift.Spec.Soa

variable {τ : Type} {V : τ → Type} {n : Nat} {β : Type}

private theorem encode_get {ty : Fin n → τ} (t : Tuple V ty) (c : Fin n) : (encode t)[c.1]? = some ⟨ty c, t c⟩ := by
  simp [encode]

private theorem encode_length {ty : Fin n → τ} (t : Tuple V ty) : (encode t).length = n := by simp [encode]

private theorem encode_replaced {ty : Fin n → τ} (t : Tuple V ty) (c : Fin n) (v : V (ty c)) :
    (encode t).set c.1 ⟨ty c, v⟩ = encode (replaced t c v) := by
  apply List.ext_getElem?
  intro d
  by_cases hd : d < n
  · rw [encode_get (replaced t c v) ⟨d, hd⟩, List.getElem?_set]
    by_cases e : c.1 = d
    · have : (⟨d, hd⟩ : Fin n) = c := Fin.ext e.symm
      rw [this, if_pos e, if_pos (by rw [encode_length]; exact c.2)]
      simp [replaced]
    · rw [if_neg e, encode_get t ⟨d, hd⟩]
      have : (⟨d, hd⟩ : Fin n) ≠ c := fun h => e (by rw [← h])
      simp [replaced, this]
  · rw [List.getElem?_eq_none (by simp [encode_length]; omega), List.getElem?_eq_none (by simp [encode_length]; omega)]

private theorem tuples_rows {ty : Fin n → τ} {st : State (Cell V)} {s : Span} {rows : List (Tuple V ty)} (hn : s.data.length = n) :
    TuplesInSpan st s rows ↔ RowsAre st s (rows.map encode) := by
  unfold TuplesInSpan RowsAre Row
  rw [List.length_map]
  refine and_congr_right fun _ => ⟨fun h i r hr => ?_, fun h i t ht c p hp => ?_⟩
  · rw [List.getElem?_map] at hr
    rcases ht : rows[i]? with _ | t <;> rw [ht] at hr <;> cases hr
    rw [List.forall₂_iff_get]
    refine ⟨by rw [hn, encode_length], fun c h1 h2 => ?_⟩
    have hc : c < n := by omega
    have := h i t ht ⟨c, hc⟩ s.data[c] (List.getElem?_eq_getElem h1)
    have h3 := encode_get t ⟨c, hc⟩
    rw [List.getElem?_eq_getElem h2] at h3
    cases h3' : (encode t)[c] with | mk a b => ?_
    rw [h3'] at h3
    simp only [List.get_eq_getElem, h3']
    rw [this, ← h3]
  · have := h i (encode t) (by rw [List.getElem?_map, ht]; rfl)
    rw [List.forall₂_iff_get] at this
    obtain ⟨h1, h2⟩ := this
    have hc1 : c.1 < s.data.length := by rw [hn]; exact c.2
    have hc2 : c.1 < (encode t).length := by rw [encode_length]; exact c.2
    have h3 := h2 c.1 hc1 hc2
    simp only [List.get_eq_getElem] at h3
    rw [List.getElem?_eq_getElem hc1] at hp
    cases hp
    rw [h3, ← List.getElem?_eq_getElem hc2, encode_get]

variable [DecidableEq τ]

private theorem decodeCell_some (t : τ) (v : V t) : decodeCell t (some ⟨t, v⟩) = some v := by simp [decodeCell]

private theorem decode_encode {ty : Fin n → τ} (t : Tuple V ty) : decode ty (encode t) = some t := by
  unfold decode
  have h : ∀ c : Fin n, decodeCell (ty c) (encode t)[c.1]? = some (t c) := fun c => by rw [encode_get, decodeCell_some]
  rw [dif_pos (fun c => by rw [h c]; rfl)]
  congr 1
  funext c
  simp only [h c, Option.get_some]

private theorem untyped_fits {ty : Fin n → τ} (p : TypedProg V ty β) : CatchFits n p.untyped := by
  induction p with
  | done x => exact .done
  | raise => exact .raise
  | load i k ih =>
    rw [TypedProg.untyped]
    refine .act (a := .load i) trivial fun l _ => ?_
    rcases decode ty l with _ | t
    · exact .raise
    · exact ih t
  | loadElem i c k ih =>
    rw [TypedProg.untyped]
    refine .act (a := .loadElem i c) c.2 fun l _ => ?_
    rcases decodeCell (ty c) l[0]? with _ | v
    · exact .raise
    · exact ih v
  | store i t p ih => exact .act (encode_length t) fun _ _ => ih
  | storeElem i c v p ih => exact .act c.2 fun _ _ => ih
  | copy i j p ih => exact .act trivial fun _ _ => ih
  | swap i j p ih => exact .act trivial fun _ _ => ih
  | part o c body k ihb ih => exact .part ihb ih
  | attempt body k ihb ih => exact .attempt ihb ih

private theorem untyped_rows {ty : Fin n → τ} (p : TypedProg V ty β) : ∀ rows : List (Tuple V ty),
    catchRows p.untyped (rows.map encode) = ((typedRows p rows).1, (typedRows p rows).2.map encode) := by
  induction p with
  | done x => intro rows; rfl
  | raise => intro rows; rfl
  | load i k ih =>
    intro rows
    simp only [TypedProg.untyped, catchRows, typedRows, actRows, List.getElem?_map]
    rcases rows[i]? with _ | t
    · rfl
    · simp only [Option.map_some, decode_encode]
      exact ih t rows
  | loadElem i c k ih =>
    intro rows
    simp only [TypedProg.untyped, catchRows, typedRows, actRows, List.getElem?_map]
    rcases rows[i]? with _ | t
    · rfl
    · simp only [Option.map_some, encode_get, Option.toList_some, List.getElem?_cons_zero, decodeCell_some]
      exact ih (t c) rows
  | store i t p ih =>
    intro rows
    simp only [TypedProg.untyped, catchRows, typedRows, actRows, List.getElem?_map]
    rcases rows[i]? with _ | u
    · rfl
    · simp only [Option.map_some, ← List.map_set]
      exact ih _
  | storeElem i c v p ih =>
    intro rows
    simp only [TypedProg.untyped, catchRows, typedRows, actRows, List.getElem?_map]
    rcases rows[i]? with _ | u
    · rfl
    · simp only [Option.map_some, encode_replaced, ← List.map_set]
      exact ih _
  | copy i j p ih =>
    intro rows
    simp only [TypedProg.untyped, catchRows, typedRows, actRows, List.getElem?_map]
    rcases rows[i]? with _ | u <;> rcases rows[j]? with _ | w
    · rfl
    · rfl
    · rfl
    · simp only [Option.map_some, ← List.map_set]
      exact ih _
  | swap i j p ih =>
    intro rows
    simp only [TypedProg.untyped, catchRows, typedRows, actRows, List.getElem?_map]
    rcases rows[i]? with _ | u <;> rcases rows[j]? with _ | w
    · rfl
    · rfl
    · rfl
    · simp only [Option.map_some, ← List.map_set]
      exact ih _
  | part o c body k ihb ih =>
    intro rows
    simp only [TypedProg.untyped, catchRows, typedRows, List.length_map]
    generalize (if c = 18446744073709551615 then rows.length - o else c) = m
    by_cases h : o + m ≤ rows.length
    · rw [if_pos h, if_pos h]
      rw [← List.map_drop, ← List.map_take, ihb, ← List.map_take, ← List.map_drop]
      generalize typedRows body ((rows.drop o).take m) = y
      obtain ⟨x, part⟩ := y
      simp only [← List.map_append]
      cases x with
      | none => rfl
      | some x => exact ih x _
    · rw [if_neg h, if_neg h]
  | attempt body k ihb ih =>
    intro rows
    simp only [TypedProg.untyped, catchRows, typedRows]
    rw [ihb]
    exact ih _ _

/-- C153: a program which works on the rows of a `soa_span<Ts...>` does what it does to a `std::vector<std::tuple<Ts...>>`, for any types `Ts`: it returns the same value
or is left by an exception, leaves the same tuples - in each column, objects of the type of the column -, and changes nothing else. -/
theorem C153_refines (ty : Fin n → τ) (p : TypedProg V ty β) (b fresh : Nat) (st : State (Cell V)) (s : Span) (rows : List (Tuple V ty))
    (hn : s.data.length = n) (hb : st.spans b = some s) (hf : b < fresh) (hfr : ∀ j, fresh ≤ j → st.spans j = none) (hv : Valid st s) (hs : Separate s)
    (hw : Writable st s) (hR : TuplesInSpan st s rows) :
    ∃ st', (runCatch b fresh p.untyped st = match (typedRows p rows).1 with | some x => .returned x st' | none => .violated st') ∧
      TuplesInSpan st' s (typedRows p rows).2 ∧ SameOutside s st st' := by
  obtain ⟨st', h1, h2, h3⟩ := C151_refines p.untyped b fresh st s (rows.map encode) hb hf hfr hv hs hw ((tuples_rows hn).1 hR)
    (by rw [hn]; exact untyped_fits p)
  rw [untyped_rows] at h1 h2
  exact ⟨st', h1, (tuples_rows hn).2 h2, h3⟩

omit [DecidableEq τ] in
private theorem typed_rows_exist (ty : Fin n → τ) {st : State (Cell V)} {s : Span} (hn : s.data.length = n) (hv : Valid st s) (arrTy : Nat → τ)
    (hty : ∀ (c : Fin n) (q : Ptr), s.data[c.1]? = some q → arrTy q.arr = ty c) (hcells : ∀ arr, ∀ x ∈ st.cells arr, x.1 = arrTy arr) :
    ∃ rows : List (Tuple V ty), TuplesInSpan st s rows := by
  have key : ∀ i, i < s.size → ∃ t : Tuple V ty, ∀ (c : Fin n) (p : Ptr), s.data[c.1]? = some p → elem st p i = some ⟨ty c, t c⟩ := by
    intro i hi
    have h : ∀ c : Fin n, ∃ v : V (ty c), ∀ p : Ptr, s.data[c.1]? = some p → elem st p i = some ⟨ty c, v⟩ := by
      intro c
      have hc : c.1 < s.data.length := by rw [hn]; exact c.2
      have hp := hv _ (List.getElem_mem hc)
      have hlt : s.data[c.1].off + i < (st.cells s.data[c.1].arr).length := by omega
      have h1 := hcells _ _ (List.getElem_mem hlt)
      rw [hty c _ (List.getElem?_eq_getElem hc)] at h1
      generalize hx : (st.cells s.data[c.1].arr)[s.data[c.1].off + i] = x at h1
      obtain ⟨t, v⟩ := x
      dsimp only at h1
      subst h1
      refine ⟨v, fun p hp => ?_⟩
      rw [List.getElem?_eq_getElem hc] at hp
      cases hp
      simp only [elem]
      rw [List.getElem?_eq_getElem hlt, hx]
    exact ⟨fun c => (h c).choose, fun c => (h c).choose_spec⟩
  refine ⟨List.ofFn fun i : Fin s.size => (key i i.2).choose, by simp, fun i t ht => ?_⟩
  obtain ⟨hi, rfl⟩ := List.getElem?_eq_some_iff.1 ht
  have hi' : i < s.size := by simpa using hi
  simp only [List.getElem_ofFn]
  exact (key i hi').choose_spec

/-- C153: no object is ever stored where objects of another type live: if every array holds objects of one type only, and the columns of the span are of the types
of their arrays, this is still so afterwards, whatever the program does. -/
theorem C153_types (ty : Fin n → τ) (p : TypedProg V ty β) (b fresh : Nat) (st : State (Cell V)) (s : Span) (hn : s.data.length = n)
    (hb : st.spans b = some s) (hf : b < fresh) (hfr : ∀ j, fresh ≤ j → st.spans j = none) (hv : Valid st s) (hs : Separate s) (hw : Writable st s)
    (arrTy : Nat → τ) (hty : ∀ (c : Fin n) (q : Ptr), s.data[c.1]? = some q → arrTy q.arr = ty c)
    (hcells : ∀ arr, ∀ x ∈ st.cells arr, x.1 = arrTy arr) :
    ∃ st', ((∃ x, runCatch b fresh p.untyped st = .returned x st') ∨ runCatch b fresh p.untyped st = .violated st') ∧
      ∀ arr, ∀ x ∈ st'.cells arr, x.1 = arrTy arr := by
  obtain ⟨rows, hR⟩ := typed_rows_exist ty hn hv arrTy hty hcells
  obtain ⟨st', h1, h2, h3⟩ := C153_refines ty p b fresh st s rows hn hb hf hfr hv hs hw hR
  refine ⟨st', ?_, fun arr x hx => ?_⟩
  · rcases hx : (typedRows p rows).1 with _ | x <;> rw [hx] at h1
    · exact .inr h1
    · exact .inl ⟨x, h1⟩
  · obtain ⟨pos, hpos, rfl⟩ := List.getElem_of_mem hx
    by_cases hin : Inside s arr pos
    · obtain ⟨q, hq, rfl, hlo, hhi⟩ := hin
      obtain ⟨c, hc, rfl⟩ := List.getElem_of_mem hq
      have hc' : c < n := by omega
      have hrow : pos - s.data[c].off < (typedRows p rows).2.length := by rw [h2.1]; omega
      have := h2.2 (pos - s.data[c].off) _ (List.getElem?_eq_getElem hrow) ⟨c, hc'⟩ s.data[c] (List.getElem?_eq_getElem hc)
      simp only [elem] at this
      rw [show s.data[c].off + (pos - s.data[c].off) = pos by omega, List.getElem?_eq_getElem hpos] at this
      rw [Option.some.inj this]
      exact (hty ⟨c, hc'⟩ _ (List.getElem?_eq_getElem hc)).symm
    · have := h3.2 arr pos hin
      rw [List.getElem?_eq_getElem hpos] at this
      exact hcells arr _ (List.mem_of_getElem? this.symm)

/-- Two types: `int` and `bool`. -/
def heteroVal : Bool → Type
  | false => Int
  | true => Bool

/-- `soa_span<int, bool>`. -/
def heteroTy : Fin 2 → Bool
  | 0 => false
  | 1 => true

/-- An `int`. -/
def heteroInt (x : Int) : Cell heteroVal := ⟨false, x⟩
/-- A `bool`. -/
def heteroBool (x : Bool) : Cell heteroVal := ⟨true, x⟩

/-- An array of three `int`s, of which the last two belong to the span, and an array of two `bool`s. -/
def heteroState : State (Cell heteroVal) :=
  ⟨fun a => match a with | 0 => [heteroInt 4, heteroInt 5, heteroInt 6] | 1 => [heteroBool true, heteroBool false] | _ => [], fun _ => false,
    fun b => if b = 0 then some ⟨[⟨0, 1⟩, ⟨1, 0⟩], 2⟩ else none⟩

/-- A row. -/
def heteroRow (x : Int) (y : Bool) : Tuple heteroVal heteroTy
  | 0 => x
  | 1 => y

/-- A program which exchanges the rows of the span, changes one element, reads another, and fails. -/
def heteroProg : TypedProg heteroVal heteroTy Bool :=
  .swap 0 1 (.storeElem 1 0 (9 : Int) (.loadElem 0 1 fun (y : Bool) => .attempt (.copy 0 2 (.done true)) fun
    | some x => .done x
    | none => .store 0 (heteroRow 7 (!y)) (.done y)))

/-- Non-vacuity of `C153_refines` and `C153_types`. -/
example : heteroState.spans 0 = some ⟨[⟨0, 1⟩, ⟨1, 0⟩], 2⟩ ∧ (∀ j, 1 ≤ j → heteroState.spans j = none) ∧ Valid heteroState ⟨[⟨0, 1⟩, ⟨1, 0⟩], 2⟩ ∧
    Separate ⟨[⟨0, 1⟩, ⟨1, 0⟩], 2⟩ ∧ Writable heteroState ⟨[⟨0, 1⟩, ⟨1, 0⟩], 2⟩ := by
  refine ⟨rfl, fun j hj => by simp [heteroState]; omega, fun p hp => ?_, by simp [Separate], fun p hp => rfl⟩
  rcases List.mem_cons.1 hp with rfl | hp
  · decide
  · rcases List.mem_cons.1 hp with rfl | hp
    · decide
    · cases hp

example : TuplesInSpan heteroState ⟨[⟨0, 1⟩, ⟨1, 0⟩], 2⟩ [heteroRow 5 true, heteroRow 6 false] := by
  refine ⟨rfl, fun i t ht c p hp => ?_⟩
  match i, c with
  | 0, 0 => cases ht; cases hp; rfl
  | 0, 1 => cases ht; cases hp; rfl
  | 1, 0 => cases ht; cases hp; rfl
  | 1, 1 => cases ht; cases hp; rfl

example : typedRows heteroProg [heteroRow 5 true, heteroRow 6 false] = (some false, [heteroRow 7 true, heteroRow 9 true]) := by
  have h : replaced (heteroRow 5 true) 0 (9 : Int) = heteroRow 9 true := by
    funext c
    match c with
    | 0 => rfl
    | 1 => rfl
  rw [← h]
  rfl

example : (∀ (c : Fin 2) (q : Ptr), ([⟨0, 1⟩, ⟨1, 0⟩] : List Ptr)[c.1]? = some q → decide (q.arr = 1) = heteroTy c) ∧
    ∀ arr, ∀ x ∈ heteroState.cells arr, x.1 = decide (arr = 1) := by
  constructor
  · intro c q hq
    match c with
    | 0 => cases hq; rfl
    | 1 => cases hq; rfl
  · intro arr x hx
    match arr with
    | 0 => simp [heteroState, heteroInt] at hx; rcases hx with rfl | rfl | rfl <;> rfl
    | 1 => simp [heteroState, heteroBool] at hx; rcases hx with rfl | rfl <;> rfl
    | _ + 2 => cases hx

end Makeshift.Props
