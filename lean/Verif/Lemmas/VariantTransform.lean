import Verif.Model.VariantTransform
import Verif.Lemmas.TypeTraits
import Verif.Spec.Variant

/-! Helper lemmas for `variant_transform`. -/

namespace Makeshift

variable {Ty V : Type}

/-- Mixed-radix digits, least significant first. -/
def digits : List Nat → Nat → List Nat
  | [], _ => []
  | d :: ds, i => i % d :: digits ds (i / d)

theorem computeStrides0_append (c : Nat) (s shape : List Nat) :
    computeStrides0 c s shape = s ++ computeStrides0 c [] shape := by
  induction shape generalizing c s with
  | nil => simp [computeStrides0]
  | cons d ds ih =>
    simp only [computeStrides0]
    rw [ih (c * d) (s ++ [c]), ih (c * d) ([] ++ [c])]; simp

theorem decode_eq_digits (c : Nat) (shape : List Nat) (i : Nat) :
    decodeIndex shape (computeStrides0 c [] shape) i = digits shape (i / c) := by
  induction shape generalizing c with
  | nil => simp [decodeIndex, computeStrides0, digits]
  | cons d ds ih =>
    rw [computeStrides0, computeStrides0_append]
    have := ih (c * d)
    rw [← Nat.div_div_eq_div_mul] at this
    unfold decodeIndex at this ⊢
    simp [digits, this]

theorem digits_bound (shape : List Nat) (i : Nat) (h : i < computeSize shape) :
    List.Forall₂ (· < ·) (digits shape i) shape := by
  induction shape generalizing i with
  | nil => exact List.Forall₂.nil
  | cons d ds ih =>
    have hs : computeSize (d :: ds) = d * computeSize ds := rfl
    rw [hs] at h
    have hd : 0 < d := by
      rcases Nat.eq_zero_or_pos d with rfl | h'
      · simp at h
      · exact h'
    refine List.Forall₂.cons (Nat.mod_lt _ hd) (ih _ ?_)
    exact (Nat.div_lt_iff_lt_mul hd).mpr (by rw [Nat.mul_comm]; exact h)

theorem digits_inj (shape : List Nat) (i j : Nat) (hi : i < computeSize shape) (hj : j < computeSize shape)
    (h : digits shape i = digits shape j) : i = j := by
  induction shape generalizing i j with
  | nil => simp [computeSize] at hi hj; omega
  | cons d ds ih =>
    have hs : computeSize (d :: ds) = d * computeSize ds := rfl
    rw [hs] at hi hj
    have hd : 0 < d := by
      rcases Nat.eq_zero_or_pos d with rfl | h'
      · simp at hi
      · exact h'
    simp only [digits, List.cons.injEq] at h
    have := ih _ _ ((Nat.div_lt_iff_lt_mul hd).mpr (by rw [Nat.mul_comm]; exact hi))
      ((Nat.div_lt_iff_lt_mul hd).mpr (by rw [Nat.mul_comm]; exact hj)) h.2
    rw [← Nat.div_add_mod i d, ← Nat.div_add_mod j d, this, h.1]

theorem digits_surj (shape idx : List Nat) (h : List.Forall₂ (· < ·) idx shape) :
    ∃ i, i < computeSize shape ∧ digits shape i = idx := by
  induction h with
  | nil => exact ⟨0, by simp [computeSize], rfl⟩
  | @cons x d xs ds hx _ ih =>
    obtain ⟨i, hi, he⟩ := ih
    refine ⟨x + d * i, ?_, ?_⟩
    · have hs : computeSize (d :: ds) = d * computeSize ds := rfl
      rw [hs]
      calc x + d * i < d + d * i := by omega
        _ = d * (i + 1) := by rw [Nat.mul_add]; omega
        _ ≤ d * computeSize ds := Nat.mul_le_mul_left _ hi
    · simp only [digits]
      rw [Nat.add_mul_mod_self_left, Nat.mod_eq_of_lt hx, Nat.add_mul_div_left _ _ (by omega), Nat.div_eq_of_lt hx,
        Nat.zero_add, he]

theorem nthType_eq (i : Nat) (Ts : List Ty) : nthType i Ts = Ts[i]? := by
  unfold nthType
  rw [filter_zipIdx_idx Ts 0 i]
  by_cases h : i < Ts.length
  · simp [h]
  · simp [h]

theorem comboTypes_some (args : List (List Ty)) (idx : List Nat)
    (h : List.Forall₂ (· < ·) idx (args.map List.length)) : ∃ types, comboTypes args idx = some types := by
  induction args generalizing idx with
  | nil =>
    cases idx with
    | nil => exact ⟨[], rfl⟩
    | cons _ _ => cases h
  | cons Ts args ih =>
    cases idx with
    | nil => cases h
    | cons i is =>
      cases h with
      | cons h1 h2 =>
        obtain ⟨r, hr⟩ := ih is h2
        refine ⟨Ts[i] :: r, ?_⟩
        simp [comboTypes, nthType_eq, hr, List.getElem?_eq_getElem h1]

theorem comboTypes_iff (args : List (List Ty)) (types : List Ty) :
    (∃ idx, comboTypes args idx = some types) ↔ List.Forall₂ (fun T Ts => T ∈ Ts) types args := by
  constructor
  · rintro ⟨idx, h⟩
    induction args generalizing idx types with
    | nil =>
      cases idx with
      | nil => simp [comboTypes] at h; subst h; exact List.Forall₂.nil
      | cons _ _ => simp [comboTypes] at h
    | cons Ts args ih =>
      cases idx with
      | nil => simp [comboTypes] at h
      | cons i is =>
        simp only [comboTypes, nthType_eq, Option.bind_eq_bind, Option.bind_eq_some_iff, Option.pure_def,
          Option.some.injEq] at h
        obtain ⟨T, hT, r, hr, rfl⟩ := h
        exact List.Forall₂.cons (List.mem_of_getElem? hT) (ih r is hr)
  · intro h
    induction h with
    | nil => exact ⟨[], rfl⟩
    | @cons T Ts r rs hT _ ih =>
      obtain ⟨is, hi⟩ := ih
      obtain ⟨i, hi'⟩ := List.getElem?_of_mem hT
      exact ⟨i :: is, by simp [comboTypes, nthType_eq, hi, hi']⟩

theorem comboTypes_bound (args : List (List Ty)) (idx : List Nat) (types : List Ty) (h : comboTypes args idx = some types) :
    List.Forall₂ (· < ·) idx (args.map List.length) := by
  induction args generalizing idx types with
  | nil =>
    cases idx with
    | nil => exact List.Forall₂.nil
    | cons _ _ => simp [comboTypes] at h
  | cons Ts args ih =>
    cases idx with
    | nil => simp [comboTypes] at h
    | cons i is =>
      simp only [comboTypes, nthType_eq, Option.bind_eq_bind, Option.bind_eq_some_iff, Option.pure_def,
        Option.some.injEq] at h
      obtain ⟨T, hT, r, hr, rfl⟩ := h
      refine List.Forall₂.cons ?_ (ih is r hr)
      by_contra hc
      rw [List.getElem?_eq_none (by omega)] at hT; simp at hT

theorem mapM_option_some {α β : Type} (l : List α) (f : α → Option β) (h : ∀ a ∈ l, ∃ b, f a = some b) :
    ∃ bs, l.mapM f = some bs ∧ ∀ b, b ∈ bs ↔ ∃ a ∈ l, f a = some b := by
  induction l with
  | nil => exact ⟨[], by simp, by simp⟩
  | cons a l ih =>
    obtain ⟨b, hb⟩ := h a (by simp)
    obtain ⟨bs, hbs, hm⟩ := ih (fun a ha => h a (by simp [ha]))
    refine ⟨b :: bs, by simp [hb, hbs], fun b' => ?_⟩
    rw [List.mem_cons, hm]
    constructor
    · rintro (rfl | ⟨a', ha', hf⟩)
      · exact ⟨a, by simp, hb⟩
      · exact ⟨a', by simp [ha'], hf⟩
    · rintro ⟨a', ha', hf⟩
      rcases List.mem_cons.mp ha' with rfl | ha'
      · left; rw [hb] at hf; exact (Option.some.inj hf).symm
      · exact Or.inr ⟨a', ha', hf⟩

theorem resultSeq_spec {R : Type} (resTy : List Ty → R) (args : List (List Ty)) :
    ∃ rs, resultSeq resTy args = some rs ∧
      ∀ r, r ∈ rs ↔ ∃ types, List.Forall₂ (fun T Ts => T ∈ Ts) types args ∧ resTy types = r := by
  have key : ∀ i, decodeIndex (args.map List.length) (computeStrides (args.map List.length)) i =
      digits (args.map List.length) i := by
    intro i; rw [computeStrides, decode_eq_digits, Nat.div_one]
  obtain ⟨rs, h1, h2⟩ := mapM_option_some (List.range (computeSize (args.map List.length)))
    (fun i => (comboTypes args (decodeIndex (args.map List.length) (computeStrides (args.map List.length)) i)).map resTy)
    (by
      intro i hi
      rw [List.mem_range] at hi
      rw [key]
      obtain ⟨t, ht⟩ := comboTypes_some args _ (digits_bound _ i hi)
      exact ⟨resTy t, by rw [ht]; rfl⟩)
  refine ⟨rs, h1, fun r => ?_⟩
  rw [h2]
  simp only [key, List.mem_range, Option.map_eq_some_iff]
  constructor
  · rintro ⟨i, hi, t, ht, hr⟩
    exact ⟨t, (comboTypes_iff args t).mp ⟨_, ht⟩, hr⟩
  · rintro ⟨t, ht, hr⟩
    obtain ⟨idx, hidx⟩ := (comboTypes_iff args t).mpr ht
    obtain ⟨i, hi, he⟩ := digits_surj _ idx (comboTypes_bound args idx t hidx)
    exact ⟨i, hi, t, by rw [he]; exact hidx, hr⟩

theorem flattenVariant_eq (Rs : List Ty) (Vs : List (List Ty)) : flattenVariant Rs Vs = Rs ++ Vs.flatten := by
  induction Vs generalizing Rs with
  | nil => simp [flattenVariant]
  | cons N Ts ih => simp [flattenVariant, ih]

theorem count_one_of_nodup [DecidableEq Ty] {l : List Ty} (hn : l.Nodup) {T : Ty} (h : T ∈ l) : l.count T = 1 := by
  have h1 := List.nodup_iff_count.mp hn T
  have h2 := List.count_pos_iff.mpr h
  omega

theorem convertToVariant_spec [DecidableEq Ty] {Rs : List Ty} (hn : Rs.Nodup) {T : Ty} (h : T ∈ Rs) (x : V) :
    ∃ i, convertToVariant Rs T x = some ⟨Rs, some (i, x)⟩ ∧ Rs[i]? = some T := by
  refine ⟨Rs.idxOf T, ?_, ?_⟩
  · unfold convertToVariant; rw [if_pos (count_one_of_nodup hn h)]
  · rw [List.getElem?_eq_getElem (List.idxOf_lt_length_iff.mpr h)]
    simp

theorem active_unique {v : VariantVal Ty V} {p q : Ty × V} (h1 : Spec.Active v p) (h2 : Spec.Active v q) : p = q := by
  obtain ⟨i, a1, b1⟩ := h1
  obtain ⟨j, a2, b2⟩ := h2
  rw [a1] at a2
  simp only [Option.some.injEq, Prod.mk.injEq] at a2
  obtain ⟨rfl, hv⟩ := a2
  rw [b1] at b2
  exact Prod.ext (Option.some.inj b2) hv

theorem activeAlternatives_ok {args : List (VariantVal Ty V)} {act : List (Ty × V)}
    (h : List.Forall₂ Spec.Active args act) : activeAlternatives args = .ok act := by
  induction h with
  | nil => rfl
  | @cons v p vs ps hv _ ih =>
    obtain ⟨i, h1, h2⟩ := hv
    simp [activeAlternatives, h1, h2, ih]

theorem activeAlternatives_valueless {args : List (VariantVal Ty V)} (hw : ∀ v ∈ args, v.active ≠ none → ∃ p, Spec.Active v p)
    (h : ∃ v ∈ args, v.active = none) : activeAlternatives args = .throw (str "bad_variant_access") := by
  induction args with
  | nil => simp at h
  | cons v vs ih =>
    simp only [activeAlternatives]
    cases hv : v.active with
    | none => rfl
    | some p =>
      obtain ⟨q, i, h1, h2⟩ := hw v (by simp) (by simp [hv])
      rw [hv, Option.some.injEq] at h1
      subst h1
      simp only [h2]
      rw [ih (fun w hw' => hw w (by simp [hw'])) (by
        obtain ⟨w, hw1, hw2⟩ := h
        rcases List.mem_cons.mp hw1 with rfl | hw1
        · rw [hv] at hw2; simp at hw2
        · exact ⟨w, hw1, hw2⟩)]
      rfl

theorem active_types {args : List (VariantVal Ty V)} {act : List (Ty × V)} (h : List.Forall₂ Spec.Active args act) :
    List.Forall₂ (fun T Ts => T ∈ Ts) (act.map Prod.fst) (args.map VariantVal.types) := by
  induction h with
  | nil => exact List.Forall₂.nil
  | @cons v p vs ps hv _ ih =>
    obtain ⟨i, h1, h2⟩ := hv
    exact List.Forall₂.cons (List.mem_of_getElem? h2) ih

end Makeshift
