import Verif.Model.InstantiationDepth
import Verif.Props.VariantLaws
import Mathlib.Data.List.Dedup

/-! Helper lemmas for C165: the number of levels needed by each template. -/

namespace Makeshift.InstantiationDepth

variable {Ty : Type}

theorem inst_iff {α : Type} (d : Nat) (f : Nat → Option α) (r : α) : inst d f = some r ↔ 1 ≤ d ∧ f (d - 1) = some r := by
  cases d <;> simp [inst]

theorem need_bind {α : Type} (n d : Nat) (f : Unit → Option α) (r : α) : (need n d).bind f = some r ↔ n ≤ d ∧ f () = some r := by
  unfold need; split <;> simp_all; omega

theorem forall_lt_succ (n : Nat) (P : Nat → Prop) : (∀ i < n + 1, P i) ↔ P 0 ∧ ∀ i < n, P (i + 1) := by
  constructor
  · exact fun h => ⟨h 0 (by omega), fun i hi => h (i + 1) (by omega)⟩
  · rintro ⟨h0, h⟩ (_ | i) hi
    · exact h0
    · exact h i (by omega)

theorem forall_get_cons (T : Ty) (Ts : List Ty) (P : Nat → Ty → Prop) :
    (∀ i U, (T :: Ts)[i]? = some U → P i U) ↔ P 0 T ∧ ∀ i U, Ts[i]? = some U → P (i + 1) U := by
  constructor
  · exact fun h => ⟨h 0 T rfl, fun i U hi => h (i + 1) U hi⟩
  · rintro ⟨h0, h⟩ (_ | i) U hi
    · cases hi; exact h0
    · exact h i U hi

theorem unique0_iff [DecidableEq Ty] (b : Nat → Nat) (Ts : List Ty) : ∀ (Rs : List Ty) (d : Nat) (R : List Ty), unique0 b Rs Ts d = some R ↔
    2 * Ts.length + 1 ≤ d ∧ (∀ i < Ts.length, 2 * i + 1 + b (Ts.length - 1 - i) ≤ d) ∧ R = Rs ++ Ts.dedup := by
  induction Ts with
  | nil => intro Rs d R; simp [unique0, inst_iff]; intro _; exact eq_comm
  | cons T Ts ih =>
    intro Rs d R
    have hs : ∀ Q : List Ty → Prop, (2 * (Ts.length + 1) + 1 ≤ d ∧ (∀ i < Ts.length + 1, 2 * i + 1 + b (Ts.length + 1 - 1 - i) ≤ d) ∧ Q R) ↔
        1 ≤ d ∧ b Ts.length ≤ d - 1 ∧ 1 ≤ d - 1 ∧ 2 * Ts.length + 1 ≤ d - 1 - 1 ∧ (∀ i < Ts.length, 2 * i + 1 + b (Ts.length - 1 - i) ≤ d - 1 - 1) ∧ Q R := by
      intro Q
      rw [forall_lt_succ]
      constructor
      · rintro ⟨h1, ⟨h2, h3⟩, h4⟩
        simp only [Nat.add_sub_cancel, Nat.sub_zero] at h2
        refine ⟨by omega, by omega, by omega, by omega, fun i hi => ?_, h4⟩
        have := h3 i hi
        rw [show Ts.length + 1 - 1 - (i + 1) = Ts.length - 1 - i by omega] at this
        omega
      · rintro ⟨h1, h2, h3, h4, h5, h6⟩
        refine ⟨by omega, ⟨by simp only [Nat.add_sub_cancel, Nat.sub_zero]; omega, fun i hi => ?_⟩, h6⟩
        have := h5 i hi
        rw [show Ts.length + 1 - 1 - (i + 1) = Ts.length - 1 - i by omega]
        omega
    simp only [unique0, inst_iff, need_bind, List.length_cons]
    rw [hs fun R => R = Rs ++ (T :: Ts).dedup]
    by_cases hT : T ∈ Ts
    · have hi : isIn T Ts = true := (isIn_iff T Ts).2 hT
      rw [if_pos hi, inst_iff, ih, List.dedup_cons_of_mem hT]
    · have hi : ¬ isIn T Ts = true := fun h => hT ((isIn_iff T Ts).1 h)
      rw [if_neg hi, inst_iff, ih, List.dedup_cons_of_notMem hT, List.append_assoc, List.singleton_append]

theorem filter0_iff (p : Ty → Nat) (pred : Ty → Bool) (Ts : List Ty) : ∀ (Rs : List Ty) (d : Nat) (R : List Ty), filter0 p pred Rs Ts d = some R ↔
    2 * Ts.length + 1 ≤ d ∧ (∀ i T, Ts[i]? = some T → 2 * i + 1 + p T ≤ d) ∧ R = Rs ++ Ts.filter pred := by
  induction Ts with
  | nil => intro Rs d R; simp [filter0, inst_iff]; intro _; exact eq_comm
  | cons T Ts ih =>
    intro Rs d R
    have hs : ∀ Q : List Ty → Prop, (2 * (Ts.length + 1) + 1 ≤ d ∧ (∀ i U, (T :: Ts)[i]? = some U → 2 * i + 1 + p U ≤ d) ∧ Q R) ↔
        1 ≤ d ∧ p T ≤ d - 1 ∧ 1 ≤ d - 1 ∧ 2 * Ts.length + 1 ≤ d - 1 - 1 ∧ (∀ i U, Ts[i]? = some U → 2 * i + 1 + p U ≤ d - 1 - 1) ∧ Q R := by
      intro Q
      rw [forall_get_cons T Ts fun i U => 2 * i + 1 + p U ≤ d]
      constructor
      · rintro ⟨h1, ⟨h2, h3⟩, h4⟩
        exact ⟨by omega, by omega, by omega, by omega, fun i U hi => by have := h3 i U hi; omega, h4⟩
      · rintro ⟨h1, h2, h3, h4, h5, h6⟩
        exact ⟨by omega, ⟨by omega, fun i U hi => by have := h5 i U hi; omega⟩, h6⟩
    simp only [filter0, inst_iff, need_bind, List.length_cons]
    rw [hs fun R => R = Rs ++ (T :: Ts).filter pred]
    by_cases hT : pred T = true
    · rw [if_pos hT, inst_iff, ih, List.filter_cons_of_pos hT, List.append_assoc, List.singleton_append]
    · rw [if_neg hT, inst_iff, ih, List.filter_cons_of_neg hT]

theorem unique_iff [DecidableEq Ty] (b : Nat → Nat) (Ts : List Ty) (d : Nat) (R : List Ty) : unique b Ts d = some R ↔
    2 * Ts.length + 2 ≤ d ∧ (∀ i < Ts.length, 2 * (i + 1) + b (Ts.length - 1 - i) ≤ d) ∧ R = Ts.dedup := by
  simp only [unique, inst_iff, unique0_iff, List.nil_append]
  constructor
  · rintro ⟨h1, h2, h3, h4⟩
    exact ⟨by omega, fun i hi => by have := h3 i hi; omega, h4⟩
  · rintro ⟨h1, h2, h3⟩
    exact ⟨by omega, by omega, fun i hi => by have := h2 i hi; omega, h3⟩

theorem filter_iff (p : Ty → Nat) (pred : Ty → Bool) (Ts : List Ty) (d : Nat) (R : List Ty) : filter p pred Ts d = some R ↔
    2 * Ts.length + 2 ≤ d ∧ (∀ i T, Ts[i]? = some T → 2 * (i + 1) + p T ≤ d) ∧ R = Ts.filter pred := by
  simp only [filter, inst_iff, filter0_iff, List.nil_append]
  constructor
  · rintro ⟨h1, h2, h3, h4⟩
    exact ⟨by omega, fun i T hi => by have := h3 i T hi; omega, h4⟩
  · rintro ⟨h1, h2, h3⟩
    exact ⟨by omega, by omega, fun i T hi => by have := h2 i T hi; omega, h3⟩

theorem cat0_iff (Ts : List (List Ty)) : ∀ (Rs : List Ty) (d : Nat) (R : List Ty), cat0 Rs Ts d = some R ↔ Ts.length + 1 ≤ d ∧ R = Rs ++ Ts.flatten := by
  induction Ts with
  | nil => intro Rs d R; simp [cat0, inst_iff]; intro _; exact eq_comm
  | cons T Ts ih =>
    intro Rs d R
    simp only [cat0, inst_iff, ih, List.length_cons, List.flatten_cons, List.append_assoc]
    exact ⟨fun ⟨a, b, c⟩ => ⟨by omega, c⟩, fun ⟨a, b⟩ => ⟨by omega, by omega, b⟩⟩

theorem flatten_iff (Ts : List (List Ty)) : ∀ (Rs : List Ty) (d : Nat) (R : List Ty), flatten Rs Ts d = some R ↔ Ts.length + 1 ≤ d ∧ R = Rs ++ Ts.flatten := by
  induction Ts with
  | nil => intro Rs d R; simp [flatten, inst_iff]; intro _; exact eq_comm
  | cons T Ts ih =>
    intro Rs d R
    simp only [flatten, inst_iff, ih, List.length_cons, List.flatten_cons, List.append_assoc]
    exact ⟨fun ⟨a, b, c⟩ => ⟨by omega, c⟩, fun ⟨a, b⟩ => ⟨by omega, by omega, b⟩⟩

theorem strides0_iff (dims : List Nat) : ∀ (cur : Nat) (s : List Nat) (d : Nat) (R : List Nat), strides0 cur s dims d = some R ↔
    dims.length + 1 ≤ d ∧ R = computeStrides0 cur s dims := by
  induction dims with
  | nil => intro cur s d R; simp [strides0, inst_iff, computeStrides0]; intro _; exact eq_comm
  | cons T Ts ih =>
    intro cur s d R
    simp only [strides0, inst_iff, ih, List.length_cons, computeStrides0]
    exact ⟨fun ⟨a, b, c⟩ => ⟨by omega, c⟩, fun ⟨a, b⟩ => ⟨by omega, by omega, b⟩⟩

theorem equal0_same [DecidableEq Ty] (T : Ty) (n : Nat) : ∀ (d : Nat) (r : Option Ty), equal0 T (List.replicate n T) d = some r ↔ n + 1 ≤ d ∧ r = some T := by
  induction n with
  | zero => intro d r; simp [equal0, inst_iff]; intro _; exact eq_comm
  | succ n ih =>
    intro d r
    simp only [List.replicate_succ, equal0, inst_iff, if_true, ih]
    exact ⟨fun ⟨a, b, c⟩ => ⟨by omega, c⟩, fun ⟨a, b⟩ => ⟨by omega, by omega, b⟩⟩

theorem equal0_other [DecidableEq Ty] (T U : Ty) (h : T ≠ U) (Ts : List Ty) (n : Nat) : ∀ (d : Nat) (r : Option Ty),
    equal0 T (List.replicate n T ++ U :: Ts) d = some r ↔ n + 1 ≤ d ∧ r = none := by
  induction n with
  | zero => intro d r; simp [equal0, inst_iff, h]; intro _; exact eq_comm
  | succ n ih =>
    intro d r
    simp only [List.replicate_succ, List.cons_append, equal0, inst_iff, if_true, ih]
    exact ⟨fun ⟨a, b, c⟩ => ⟨by omega, c⟩, fun ⟨a, b⟩ => ⟨by omega, by omega, b⟩⟩

/-- A computation for every element of a list, each of which also needs something. -/
theorem mapM_need {α β γ : Type} (f : α → Option β) (g : β → γ) (h : α → Option γ) (P : β → Prop)
    (hh : ∀ a c, h a = some c ↔ ∃ x, f a = some x ∧ P x ∧ c = g x) (l : List α) (bs : List β) :
    l.mapM f = some bs → ∀ cs, l.mapM h = some cs ↔ (∀ x ∈ bs, P x) ∧ cs = bs.map g := by
  induction l generalizing bs with
  | nil => intro hf cs; cases hf; simp [eq_comm]
  | cons a l ih =>
    intro hf cs
    simp only [List.mapM_cons, Option.bind_eq_bind, Option.bind_eq_some_iff, Option.pure_def, Option.some.injEq] at hf ⊢
    obtain ⟨x, hx, xs, hxs, rfl⟩ := hf
    have ih := ih xs hxs
    constructor
    · rintro ⟨c, hc, cs', hcs, rfl⟩
      obtain ⟨x', hx', hp, rfl⟩ := (hh a c).1 hc
      rw [hx] at hx'; cases hx'
      obtain ⟨h1, rfl⟩ := (ih cs').1 hcs
      exact ⟨by simpa using ⟨hp, h1⟩, rfl⟩
    · rintro ⟨h1, rfl⟩
      exact ⟨g x, (hh a _).2 ⟨x, hx, h1 x (by simp), rfl⟩, xs.map g, (ih _).2 ⟨fun y hy => h1 y (by simp [hy]), rfl⟩, rfl⟩

theorem results_iff {R : Type} (l : Nat) (call : List Ty → Nat) (resTy : List Ty → R) (args : List (List Ty)) (d : Nat) (rs : List R) :
    results l call resTy args d = some rs ↔
      l + 1 ≤ d ∧ args.length + 2 ≤ d ∧ (∀ Ts ∈ Spec.combinations args, call Ts + 3 ≤ d) ∧ rs = (Spec.combinations args).map resTy := by
  have hc : (List.range (computeSize (args.map List.length))).mapM (fun i => comboTypes args (decodeIndex (args.map List.length) (computeStrides (args.map List.length)) i)) =
      some (Spec.combinations args) := by
    have := Props.resultSeq_combinations args
    simpa only [resultSeq, Option.map_id, id] using this
  have hm := mapM_need _ resTy (fun i => (inst (d - 1 - 1) fun _ => some ()).bind fun _ =>
        (comboTypes args (decodeIndex (args.map List.length) (computeStrides (args.map List.length)) i)).bind fun Ts =>
        inst (d - 1 - 1) fun d => (need (call Ts) d).map fun _ => resTy Ts) (fun Ts => call Ts + 3 ≤ d) (by
      intro i c
      simp only [Option.bind_eq_some_iff, inst_iff, Option.map_eq_some_iff, need]
      constructor
      · rintro ⟨_, ⟨h1, -⟩, Ts, h2, h3, _, h4, rfl⟩
        refine ⟨Ts, h2, ?_, rfl⟩
        split at h4
        · omega
        · cases h4
      · rintro ⟨Ts, h2, h3, rfl⟩
        exact ⟨(), ⟨by omega, trivial⟩, Ts, h2, by omega, (), by rw [if_pos (by omega)], rfl⟩) _ _ hc rs
  simp only [results, inst_iff, need_bind]
  simp only [Option.bind_eq_some_iff, inst_iff, strides0_iff, List.length_map]
  constructor
  · rintro ⟨h1, h2, s, ⟨h3, rfl⟩, h4, h5⟩
    obtain ⟨h6, h7⟩ := hm.1 h5
    exact ⟨by omega, by omega, h6, h7⟩
  · rintro ⟨h1, h2, h3, h4⟩
    exact ⟨by omega, by omega, _, ⟨by omega, rfl⟩, by omega, hm.2 ⟨h3, h4⟩⟩

theorem combinations_length (args : List (List Ty)) : (Spec.combinations args).length = (args.map List.length).prod := by
  induction args with
  | nil => rfl
  | cons Ts args ih =>
    simp only [Spec.combinations, List.length_flatMap, List.length_map, List.map_cons, List.prod_cons, ← ih]
    simp [Nat.mul_comm]

theorem need_map {α : Type} (n d : Nat) (f : Unit → α) (r : α) : (need n d).map f = some r ↔ n ≤ d ∧ r = f () := by
  unfold need
  split
  · simp_all [eq_comm]
  · simp_all; omega

theorem search0_unique (c : Nat) (q : Ty → Nat) (pred : Ty → Bool) (Ts : List Ty) : ∀ (i d : Nat) (r : Int), search0 true c q pred i Ts d = some r ↔
    2 * Ts.length + 1 + c ≤ d ∧ (∀ j T, Ts[j]? = some T → 2 * j + 1 + q T ≤ d) ∧ r = searchTupleElementIndexFrom true pred i Ts := by
  induction Ts with
  | nil =>
    intro i d r
    simp only [search0, inst_iff, need_map, searchTupleElementIndexFrom, List.length_nil]
    exact ⟨fun ⟨a, b, e⟩ => ⟨by omega, by simp, e⟩, fun ⟨a, _, e⟩ => ⟨by omega, by omega, e⟩⟩
  | cons T Ts ih =>
    intro i d r
    have hs : ∀ Q : Prop, (2 * (Ts.length + 1) + 1 + c ≤ d ∧ (∀ j U, (T :: Ts)[j]? = some U → 2 * j + 1 + q U ≤ d) ∧ Q) ↔
        1 ≤ d ∧ q T ≤ d - 1 ∧ 1 ≤ d - 1 ∧ 2 * Ts.length + 1 + c ≤ d - 1 - 1 ∧ (∀ j U, Ts[j]? = some U → 2 * j + 1 + q U ≤ d - 1 - 1) ∧ Q := by
      intro Q
      rw [forall_get_cons T Ts fun j U => 2 * j + 1 + q U ≤ d]
      constructor
      · rintro ⟨h1, ⟨h2, h3⟩, h4⟩
        exact ⟨by omega, by omega, by omega, by omega, fun j U hj => by have := h3 j U hj; omega, h4⟩
      · rintro ⟨h1, h2, h3, h4, h5, h6⟩
        exact ⟨by omega, ⟨by omega, fun j U hj => by have := h5 j U hj; omega⟩, h6⟩
    simp only [search0, inst_iff, need_bind, List.length_cons]
    rw [hs]
    simp only [searchTupleElementIndexFrom, if_true]
    by_cases hT : pred T = true
    · simp only [if_pos hT, Option.bind_eq_some_iff, need_map, ih]
      constructor
      · rintro ⟨h1, h2, h3, _, ⟨h4, h5, rfl⟩, h6, h7⟩
        exact ⟨h1, h2, h3, h4, h5, h7⟩
      · rintro ⟨h1, h2, h3, h4, h5, h6⟩
        exact ⟨h1, h2, h3, _, ⟨h4, h5, rfl⟩, by omega, h6⟩
    · simp only [if_neg hT, ih]

theorem search0_found (c : Nat) (q : Ty → Nat) (pred : Ty → Bool) (T : Ty) (Us Ts : List Ty) (hT : pred T = true) (hU : ∀ U ∈ Us, pred U = false) :
    ∀ (i d : Nat) (r : Int), search0 false c q pred i (Us ++ T :: Ts) d = some r ↔
      2 * Us.length + 2 + c ≤ d ∧ (∀ j U, (Us ++ [T])[j]? = some U → 2 * j + 1 + q U ≤ d) ∧ r = (i : Int) + Us.length := by
  induction Us with
  | nil =>
    intro i d r
    simp only [List.nil_append, search0, inst_iff, need_bind, hT, if_true, Bool.false_eq_true, if_false, need_map, List.length_nil]
    rw [forall_get_cons T [] fun j U => 2 * j + 1 + q U ≤ d]
    constructor
    · rintro ⟨h1, h2, h3, h4, h5⟩; exact ⟨by omega, ⟨by omega, by simp⟩, by omega⟩
    · rintro ⟨h1, ⟨h2, -⟩, h5⟩; exact ⟨by omega, by omega, by omega, by omega, by omega⟩
  | cons V Us ih =>
    intro i d r
    have hV : ¬ pred V = true := by simp [hU V (by simp)]
    simp only [List.cons_append, search0, inst_iff, need_bind, if_neg hV, ih fun U h => hU U (by simp [h]), List.length_cons]
    rw [forall_get_cons V (Us ++ [T]) fun j U => 2 * j + 1 + q U ≤ d]
    constructor
    · rintro ⟨h1, h2, h3, h4, h5, h6⟩
      exact ⟨by omega, ⟨by omega, fun j U hj => by have := h5 j U hj; omega⟩, by omega⟩
    · rintro ⟨h1, ⟨h2, h3⟩, h4⟩
      exact ⟨by omega, by omega, by omega, by omega, fun j U hj => by have := h3 j U hj; omega, by omega⟩

end Makeshift.InstantiationDepth
