import Verif.Lemmas.VariantTransform
import Mathlib.Data.List.Induction

/-! Helper lemmas for the laws of `variant_transform` and `variant_transform_many`. -/

namespace Makeshift

variable {Ty V : Type}

section Unique

variable [DecidableEq Ty]

theorem uniqueSequence_append_congr (a b b' : List Ty) (h : uniqueSequence b = uniqueSequence b') :
    uniqueSequence (a ++ b) = uniqueSequence (a ++ b') := by
  have hm : ∀ x, x ∈ b ↔ x ∈ b' := fun x => by rw [← mem_uniqueSequence x b, h, mem_uniqueSequence]
  induction a with
  | nil => exact h
  | cons y a ih => simp only [List.cons_append, uniqueSequence_cons, List.mem_append, hm, ih]

theorem uniqueSequence_append_subset (a b : List Ty) (h : ∀ x ∈ a, x ∈ b) : uniqueSequence (a ++ b) = uniqueSequence b := by
  induction a with
  | nil => rfl
  | cons y a ih =>
    rw [List.cons_append, uniqueSequence_cons, if_pos (by simp [h y (by simp)])]
    exact ih fun x hx => h x (by simp [hx])

theorem uniqueSequence_unique_append (a b : List Ty) : uniqueSequence (uniqueSequence a ++ b) = uniqueSequence (a ++ b) := by
  induction a with
  | nil => rfl
  | cons y a ih =>
    rw [uniqueSequence_cons]
    split
    · rename_i h
      rw [ih, List.cons_append, uniqueSequence_cons, if_pos (by simp [h])]
    · simp only [List.cons_append, uniqueSequence_cons, List.mem_append, mem_uniqueSequence, ih]

theorem uniqueSequence_flatMap {S : Type} [DecidableEq S] (g : S → List Ty) (xs : List S) :
    uniqueSequence ((uniqueSequence xs).flatMap g) = uniqueSequence (xs.flatMap g) := by
  induction xs with
  | nil => rfl
  | cons x xs ih =>
    rw [uniqueSequence_cons]
    split
    · rename_i h
      rw [ih, List.flatMap_cons, uniqueSequence_append_subset]
      exact fun y hy => List.mem_flatMap.2 ⟨x, h, hy⟩
    · simp only [List.flatMap_cons]
      exact uniqueSequence_append_congr _ _ _ ih

theorem uniqueSequence_flatMap_unique {S : Type} (h : S → List Ty) (xs : List S) :
    uniqueSequence (xs.flatMap fun x => uniqueSequence (h x)) = uniqueSequence (xs.flatMap h) := by
  induction xs with
  | nil => rfl
  | cons x xs ih =>
    simp only [List.flatMap_cons]
    rw [uniqueSequence_unique_append]
    exact uniqueSequence_append_congr _ _ _ ih

theorem uniqueSequence_idem (xs : List Ty) : uniqueSequence (uniqueSequence xs) = uniqueSequence xs :=
  uniqueSequence_of_nodup _ (nodup_uniqueSequence _)

theorem uniqueSequence_eq_iff (xs : List Ty) : uniqueSequence xs = xs ↔ xs.Nodup :=
  ⟨fun h => h ▸ nodup_uniqueSequence xs, uniqueSequence_of_nodup xs⟩

end Unique

theorem mapM_map_option {α β γ : Type} (l : List α) (f : α → Option β) (g : β → γ) :
    (l.mapM fun a => (f a).map g) = (l.mapM f).map (List.map g) := by
  induction l with
  | nil => rfl
  | cons a l ih =>
    simp only [List.mapM_cons, ih]
    cases f a <;> simp
    cases l.mapM f <;> simp

/-- The result types are those of the combinations, in a fixed order. -/
theorem resultSeq_map {R : Type} (resTy : List Ty → R) (args : List (List Ty)) :
    resultSeq resTy args = (resultSeq id args).map (List.map resTy) := by
  simp only [resultSeq]
  rw [← mapM_map_option]
  simp

theorem mapM_congr_mem {α β : Type} (l : List α) (F G : α → Option β) (h : ∀ i ∈ l, F i = G i) : l.mapM F = l.mapM G := by
  induction l with
  | nil => rfl
  | cons a l ih => simp only [List.mapM_cons, h a (by simp), ih fun i hi => h i (by simp [hi])]

theorem range_mapM_get {R : Type} (Ts : List Ty) (g : Ty → R) :
    (List.range Ts.length).mapM (fun i => (Ts[i]?).map g) = some (Ts.map g) := by
  induction Ts using List.reverseRecOn with
  | nil => rfl
  | append_singleton ts t ih =>
    rw [List.length_append, List.length_singleton, List.range_succ, List.mapM_append]
    have e1 : (List.range ts.length).mapM (fun i => ((ts ++ [t])[i]?).map g) = some (ts.map g) := by
      rw [← ih]
      apply mapM_congr_mem
      intro i hi
      rw [List.getElem?_append_left (List.mem_range.1 hi)]
    rw [e1]
    simp

theorem resultSeq_single {R : Type} (resTy : List Ty → R) (Ts : List Ty) :
    resultSeq resTy [Ts] = some (Ts.map fun T => resTy [T]) := by
  simp only [resultSeq, List.map_cons, List.map_nil]
  have hs : computeSize [Ts.length] = Ts.length := by simp [computeSize]
  rw [hs, ← range_mapM_get]
  apply mapM_congr_mem
  intro i hi
  rw [List.mem_range] at hi
  rw [computeStrides, decode_eq_digits, Nat.div_one]
  simp [digits, comboTypes, nthType_eq, Nat.mod_eq_of_lt hi, hi]

end Makeshift
