import Verif.Model.Reflect
import Verif.Spec.Reflect

/-!
# C132: which function supplies the metadata of a type
-/

namespace Makeshift.Props

open Makeshift.Reflect Makeshift.Reflect.Spec

private theorem mem_scopesOf (T : Ty) (n : Scope) : n ∈ scopesOf T ↔ Mentions T n := by
  induction T with
  | fundamental id => simp only [scopesOf, List.not_mem_nil, false_iff]; intro h; cases h
  | enumeration id ns outer =>
    simp only [scopesOf, List.mem_cons, List.mem_map, Option.mem_toList]
    constructor
    · rintro (rfl | ⟨c, hc, rfl⟩)
      · exact .enumNs _ _ _
      · cases hc; exact .enumOuter _ _ _
    · intro h
      cases h with
      | enumNs => exact .inl rfl
      | enumOuter => exact .inr ⟨_, rfl, rfl⟩
  | cls id ns outer bs =>
    simp only [scopesOf, List.mem_cons, List.mem_append, List.mem_map, Option.mem_toList, List.mem_flatMap, List.not_mem_nil, or_false]
    constructor
    · rintro (rfl | rfl | ⟨c, hc, rfl⟩ | ⟨⟨b, m⟩, hb, rfl | rfl⟩)
      · exact .clsNs _ _ _ _
      · exact .clsSelf _ _ _ _
      · cases hc; exact .clsOuter _ _ _ _
      · exact .base hb
      · exact .baseNs hb
    · intro h
      cases h with
      | clsNs => exact .inl rfl
      | clsSelf => exact .inr (.inl rfl)
      | clsOuter => exact .inr (.inr (.inl ⟨_, rfl, rfl⟩))
      | base h => exact .inr (.inr (.inr ⟨_, h, .inl rfl⟩))
      | baseNs h => exact .inr (.inr (.inr ⟨_, h, .inr rfl⟩))
  | app C A ihC ihA =>
    simp only [scopesOf, List.mem_append, ihC, ihA]
    constructor
    · rintro (h | h)
      · exact .head h
      · exact .arg h
    · intro h
      cases h with
      | head h => exact .inl h
      | arg h => exact .inr h
  | ptr T ih =>
    simp only [scopesOf, ih]
    exact ⟨.ptr, fun h => by cases h; assumption⟩
  | const T ih =>
    simp only [scopesOf, ih]
    exact ⟨.const, fun h => by cases h; assumption⟩

private theorem mem_associated (f : Fn) (T : Ty) : f.scope ∈ associated T ↔ Found f T := by
  simp [associated, Found, mem_scopesOf]

private theorem template_iff (C : Nat) (T : Ty) : template? T = some C ↔ Specialises C T := by
  induction T with
  | app D A ihD _ =>
    cases D with
    | cls id ns outer bs =>
      simp only [template?, Option.some.injEq]
      constructor
      · rintro rfl; exact .one _ _ _ _
      · intro h
        cases h with
        | one => rfl
        | more h => cases h
    | app D' A' =>
      rw [show template? (.app (.app D' A') A) = template? (.app D' A') from rfl, ihD]
      exact ⟨.more, fun h => by cases h with | more h => exact h⟩
    | fundamental | enumeration | ptr | const =>
      simp only [template?, reduceCtorEq, false_iff]
      intro h; cases h with | more h => cases h
  | _ => simp only [template?, reduceCtorEq, false_iff]; intro h; cases h

private theorem viable_user (f : Fn) (T : Ty) : viable T (Target.user f).param = true ↔ Matches f T := by
  obtain ⟨i, sc, p⟩ := f
  cases p <;> simp [Target.param, viable, Matches, Takes, template_iff]

private theorem mem_cands (fs : List Fn) (T : Ty) (c : Target) :
    c ∈ (candidates fs T).filter (fun c => viable T c.param) ↔
      c = .unavailable ∨ (c = .boolValues ∧ T = boolTy) ∨ ∃ f ∈ fs, Found f T ∧ Matches f T ∧ c = .user f := by
  rw [List.mem_filter]
  simp only [candidates, List.mem_cons, List.mem_map, List.mem_filter, decide_eq_true_eq, mem_associated]
  constructor
  · rintro ⟨rfl | rfl | ⟨f, ⟨hf, hF⟩, rfl⟩, hv⟩
    · exact .inl rfl
    · refine .inr (.inl ⟨rfl, ?_⟩)
      simp [Target.param, viable] at hv
      exact hv.symm
    · exact .inr (.inr ⟨f, hf, hF, (viable_user f T).1 hv, rfl⟩)
  · rintro (rfl | ⟨rfl, rfl⟩ | ⟨f, hf, hF, hM, rfl⟩)
    · exact ⟨.inl rfl, rfl⟩
    · exact ⟨.inr (.inl rfl), by simp [Target.param, viable]⟩
    · exact ⟨.inr (.inr ⟨f, ⟨hf, hF⟩, rfl⟩), (viable_user f T).2 hM⟩

private theorem resolve_iff (fs : List Fn) (T : Ty) (t : Target) :
    resolve fs T = some t ↔
      t ∈ (candidates fs T).filter (fun c => viable T c.param) ∧
        ∀ d ∈ (candidates fs T).filter (fun c => viable T c.param), d = t ∨ rank t.param < rank d.param := by
  unfold resolve
  generalize (candidates fs T).filter (fun c => viable T c.param) = cs
  constructor
  · intro h
    refine ⟨List.mem_of_find?_eq_some h, ?_⟩
    have := List.find?_some h
    simpa [List.all_eq_true] using this
  · rintro ⟨ht, hb⟩
    cases hf : cs.find? (fun c => cs.all fun d => decide (d = c) || decide (rank c.param < rank d.param)) with
    | none =>
      have := List.find?_eq_none.1 hf t ht
      exact absurd (by simpa [List.all_eq_true] using hb) this
    | some c =>
      have hc := List.mem_of_find?_eq_some hf
      have hcb := List.find?_some hf
      simp [List.all_eq_true] at hcb
      rcases hb c hc with h | h
      · exact congrArg some h
      · rcases hcb t ht with h' | h'
        · exact congrArg some h'.symm
        · omega

/-- C132. Overload resolution depends on the functions which are found for the type and match it, only, and not on the order of declarations. -/
theorem C132_relevant (fs gs : List Fn) (T : Ty)
    (h : ∀ f, Found f T → Takes f T ∨ f.param = .converting → (f ∈ fs ↔ f ∈ gs)) : resolve fs T = resolve gs T := by
  have key : ∀ (fs gs : List Fn), (∀ f, Found f T → Takes f T ∨ f.param = .converting → (f ∈ fs ↔ f ∈ gs)) →
      ∀ t, resolve fs T = some t → resolve gs T = some t := by
    intro fs gs h t ht
    rw [resolve_iff] at ht ⊢
    obtain ⟨ht, hb⟩ := ht
    have hun := hb .unavailable ((mem_cands fs T _).2 (.inl rfl))
    have hlt : rank t.param ≤ 3 := by
      rcases hun with h | h
      · subst h; simp [Target.param, rank]
      · have h' : rank t.param < 3 := h
        omega
    refine ⟨?_, ?_⟩
    · rw [mem_cands] at ht ⊢
      rcases ht with h' | h' | ⟨f, hf, hF, hM, rfl⟩
      · exact .inl h'
      · exact .inr (.inl h')
      · refine .inr (.inr ⟨f, ?_, hF, hM, rfl⟩)
        rcases hM with hM | hM | hM
        · exact (h f hF (.inl hM)).1 hf
        · exact (h f hF (.inr hM)).1 hf
        · simp [Target.param, hM, rank] at hlt
    · intro d hd
      rw [mem_cands] at hd
      rcases hd with h' | h' | ⟨f, hf, hF, hM, rfl⟩
      · exact hb d ((mem_cands fs T _).2 (.inl h'))
      · exact hb d ((mem_cands fs T _).2 (.inr (.inl h')))
      · rcases hM with hM | hM | hM
        · exact hb _ ((mem_cands fs T _).2 (.inr (.inr ⟨f, (h f hF (.inl hM)).2 hf, hF, .inl hM, rfl⟩)))
        · exact hb _ ((mem_cands fs T _).2 (.inr (.inr ⟨f, (h f hF (.inr hM)).2 hf, hF, .inr (.inl hM), rfl⟩)))
        · refine .inr ?_
          simp only [Target.param, hM, rank]
          exact Nat.lt_succ_of_le hlt
  cases hr : resolve fs T with
  | some t => exact (key fs gs h t hr).symm
  | none =>
    cases hr' : resolve gs T with
    | none => rfl
    | some t => rw [key gs fs (fun f hF hM => (h f hF hM).symm) t hr'] at hr; cases hr

/-- `my::E`, an enumeration in namespace 7. -/
def reflectE : Ty := .enumeration 1 7 none

/-- `std::vector<T>`, in namespace 3. -/
def reflectVector (T : Ty) : Ty := .app (.cls 2 3 none []) T

/-- `int`. -/
def reflectInt : Ty := .fundamental 1

example : resolve [⟨1, .ns 7, .exact reflectE⟩, ⟨2, .ns 9, .every⟩] reflectE = resolve [⟨1, .ns 7, .exact reflectE⟩] reflectE ∧
    resolve [⟨1, .ns 7, .exact reflectE⟩] reflectE = some (.user ⟨1, .ns 7, .exact reflectE⟩) := by decide

/-- C132. The function declared for a type, in a namespace the type mentions, supplies its metadata, whatever else is declared. -/
theorem C132_own (fs : List Fn) (T : Ty) (f : Fn) (hf : f ∈ fs) (hF : Found f T) (hp : f.param = .exact T) (hb : T ≠ boolTy)
    (huniq : ∀ g ∈ fs, Found g T → g.param = .exact T → g = f) : resolve fs T = some (.user f) := by
  rw [resolve_iff]
  refine ⟨(mem_cands _ _ _).2 (.inr (.inr ⟨f, hf, hF, .inl (.inl hp), rfl⟩)), ?_⟩
  intro d hd
  rw [mem_cands] at hd
  rcases hd with rfl | ⟨_, h⟩ | ⟨g, hg, hG, hM, rfl⟩
  · exact .inr (by simp [Target.param, hp, rank])
  · exact absurd h hb
  · by_cases hge : g.param = .exact T
    · rw [huniq g hg hG hge]; exact .inl rfl
    · refine .inr ?_
      obtain ⟨i, sc, p⟩ := g
      cases p with
      | exact U => rcases hM with (h | ⟨C, h, _⟩ | h) | h | h <;> simp_all
      | _ => simp [Target.param, hp, rank]

example : Found ⟨1, .ns 7, .exact reflectE⟩ reflectE ∧
    resolve [⟨2, .ns 7, .every⟩, ⟨1, .ns 7, .exact reflectE⟩, ⟨3, .ns 7, .converting⟩] reflectE = some (.user ⟨1, .ns 7, .exact reflectE⟩) :=
  ⟨.inr (.enumNs _ _ _), by decide⟩

/-- C132. A function declared as a friend in a class supplies the metadata of this class, and of an enumeration declared in the class. -/
theorem C132_friend (fs : List Fn) (f : Fn) (T : Ty) (c : Nat) (hf : f ∈ fs) (hs : f.scope = .friendOf c) (hp : f.param = .exact T)
    (hT : (∃ ns outer bs, T = .cls c ns outer bs) ∨ ∃ id ns, T = .enumeration id ns (some c))
    (huniq : ∀ g ∈ fs, Found g T → g.param = .exact T → g = f) : resolve fs T = some (.user f) := by
  rcases hT with ⟨ns, outer, bs, rfl⟩ | ⟨id, ns, rfl⟩
  · exact C132_own fs _ f hf (.inr (hs ▸ .clsSelf _ _ _ _)) hp (by simp [boolTy]) huniq
  · exact C132_own fs _ f hf (.inr (hs ▸ .enumOuter _ _ _)) hp (by simp [boolTy]) huniq

example : resolve [⟨1, .friendOf 4, .exact (.enumeration 6 7 (some 4))⟩] (.enumeration 6 7 (some 4)) =
      some (.user ⟨1, .friendOf 4, .exact (.enumeration 6 7 (some 4))⟩) ∧
    resolve [⟨1, .friendOf 4, .exact (.enumeration 6 7 none)⟩] (.enumeration 6 7 none) = some .unavailable := by decide

/-- C132. A type for which no function is found that takes it or converts from it has no metadata; `bool` has both truth values. -/
theorem C132_unavailable (fs : List Fn) (T : Ty) (h : ∀ f ∈ fs, Found f T → ¬Takes f T ∧ f.param ≠ .converting) :
    resolve fs T = some (if T = boolTy then .boolValues else .unavailable) := by
  rw [C132_relevant fs [] T (fun f hF hM => by
    simp only [List.not_mem_nil, iff_false]
    intro hf
    rcases hM with hM | hM
    · exact (h f hf hF).1 hM
    · exact (h f hf hF).2 hM)]
  rw [resolve_iff]
  by_cases hb : T = boolTy
  · subst hb
    simp only [if_true]
    refine ⟨(mem_cands _ _ _).2 (.inr (.inl ⟨rfl, rfl⟩)), fun d hd => ?_⟩
    rw [mem_cands] at hd
    rcases hd with rfl | ⟨rfl, _⟩ | ⟨g, hg, _⟩
    · exact .inr (by decide)
    · exact .inl rfl
    · cases hg
  · simp only [if_neg hb]
    refine ⟨(mem_cands _ _ _).2 (.inl rfl), fun d hd => ?_⟩
    rw [mem_cands] at hd
    rcases hd with rfl | ⟨rfl, h⟩ | ⟨g, hg, _⟩
    · exact .inl rfl
    · exact absurd h hb
    · cases hg

example : resolve [⟨1, .ns 7, .exact reflectE⟩, ⟨2, .ns 7, .ellipsis⟩] (reflectVector reflectE) = some .unavailable ∧ resolve [] boolTy = some .boolValues := by
  decide

/-- C132. A function in a namespace which the type does not mention has no effect, wherever it is declared. -/
theorem C132_elsewhere (fs gs : List Fn) (f : Fn) (T : Ty) (hF : ¬Found f T) : resolve (fs ++ f :: gs) T = resolve (fs ++ gs) T := by
  refine C132_relevant _ _ _ fun g hG _ => ?_
  simp only [List.mem_append, List.mem_cons]
  constructor
  · rintro (h | rfl | h)
    · exact .inl h
    · exact absurd hG hF
    · exact .inr h
  · rintro (h | h)
    · exact .inl h
    · exact .inr (.inr h)

example : ¬Found ⟨1, .ns 7, .exact reflectInt⟩ reflectInt := by
  rintro (h | h)
  · simp [gslNs] at h
  · cases h

/-- C132. A function declared for another type has no effect: neither one for a base class, nor one for the element type of a container, nor one for `T` on
`T const`. -/
theorem C132_other_types (fs gs : List Fn) (f : Fn) (T U : Ty) (hp : f.param = .exact U) (hU : U ≠ T) :
    resolve (fs ++ f :: gs) T = resolve (fs ++ gs) T := by
  refine C132_relevant _ _ _ fun g _ hM => ?_
  simp only [List.mem_append, List.mem_cons]
  constructor
  · rintro (h | rfl | h)
    · exact .inl h
    · simp [Takes, hp] at hM
      exact absurd hM hU
    · exact .inr h
  · rintro (h | h)
    · exact .inl h
    · exact .inr (.inr h)

example : resolve [⟨1, .ns 7, .exact reflectE⟩] (.const reflectE) = some .unavailable ∧ reflectE ≠ .const reflectE := by decide

/-- C132. The claim that a function declared for a type supplies its metadata wherever it is declared is false: it is ignored for `int`, and for types of other namespaces. -/
theorem C132_own_negated :
    ¬∀ (fs : List Fn) (T : Ty) (f : Fn), f ∈ fs → f.param = .exact T → T ≠ boolTy → (∀ g ∈ fs, g.param = .exact T → g = f) →
      resolve fs T = some (.user f) := by
  intro h
  have := h [⟨1, .ns 7, .exact reflectInt⟩] reflectInt ⟨1, .ns 7, .exact reflectInt⟩ (by decide) rfl (by decide) (by simp)
  revert this; decide

/-- C132. Fundamental types and pointers to these: no function outside of `gsl_lite` is ever considered, so their metadata cannot be supplied by the user's own namespace. -/
theorem C132_fundamental (fs : List Fn) (i : Nat) (h : ∀ f ∈ fs, f.scope ≠ .ns gslNs) :
    resolve fs (.fundamental i) = some (if i = 0 then .boolValues else .unavailable) ∧ resolve fs (.ptr (.fundamental i)) = some .unavailable := by
  have h1 : ∀ f ∈ fs, ¬Found f (.fundamental i) := by
    rintro f hf (hn | hm)
    · exact h f hf hn
    · cases hm
  have h2 : ∀ f ∈ fs, ¬Found f (.ptr (.fundamental i)) := by
    rintro f hf (hn | hm)
    · exact h f hf hn
    · cases hm with | ptr hm => cases hm
  constructor
  · rw [C132_unavailable fs _ fun f hf hF => absurd hF (h1 f hf)]
    simp [boolTy]
  · rw [C132_unavailable fs _ fun f hf hF => absurd hF (h2 f hf)]
    simp [boolTy]

example : ∀ f ∈ [(⟨1, .ns 7, .exact reflectInt⟩ : Fn)], f.scope ≠ .ns gslNs := by decide

/-- C132. A function template for the specialisations of a class template supplies the metadata of those for which there is no function. -/
theorem C132_template (fs : List Fn) (T : Ty) (f : Fn) (C : Nat) (hf : f ∈ fs) (hF : Found f T) (hp : f.param = .specialisation C) (hs : Specialises C T)
    (hno : ∀ g ∈ fs, Found g T → g.param ≠ .exact T) (huniq : ∀ g ∈ fs, Found g T → g.param = .specialisation C → g = f) :
    resolve fs T = some (.user f) := by
  rw [resolve_iff]
  refine ⟨(mem_cands _ _ _).2 (.inr (.inr ⟨f, hf, hF, .inl (.inr (.inl ⟨C, hp, hs⟩)), rfl⟩)), ?_⟩
  intro d hd
  rw [mem_cands] at hd
  rcases hd with rfl | ⟨_, rfl⟩ | ⟨g, hg, hG, hM, rfl⟩
  · exact .inr (by simp [Target.param, hp, rank])
  · cases hs
  · have hne := hno g hg hG
    have hu := huniq g hg hG
    obtain ⟨i, sc, p⟩ := g
    cases p with
    | exact U => rcases hM with (h | ⟨C, h, _⟩ | h) | h | h <;> simp_all
    | specialisation D =>
      have hD : Specialises D T := by rcases hM with (h | ⟨C, h, h'⟩ | h) | h | h <;> simp_all
      rw [← template_iff] at hs hD
      have : D = C := by rw [hs] at hD; exact (Option.some.inj hD).symm
      subst this
      exact .inl (by rw [hu rfl])
    | _ => exact .inr (by simp [Target.param, hp, rank])

example : Specialises 2 (reflectVector reflectE) ∧ Found ⟨1, .ns 3, .specialisation 2⟩ (reflectVector reflectE) ∧
    resolve [⟨1, .ns 3, .specialisation 2⟩, ⟨2, .ns 7, .every⟩] (reflectVector reflectE) = some (.user ⟨1, .ns 3, .specialisation 2⟩) :=
  ⟨.one _ _ _ _, .inr (.head (.clsNs _ _ _ _)), by decide⟩

/-- C132. A function template for all types supplies the metadata of every type which has no function or more specialised template of its own and mentions the template's
namespace; also of types of other namespaces, such as `std::vector<my::E>`, and of classes derived from one of `my`. -/
theorem C132_every (fs : List Fn) (T : Ty) (f : Fn) (hf : f ∈ fs) (hF : Found f T) (hp : f.param = .every) (hb : T ≠ boolTy)
    (huniq : ∀ g ∈ fs, Found g T → Takes g T → g = f) : resolve fs T = some (.user f) := by
  rw [resolve_iff]
  refine ⟨(mem_cands _ _ _).2 (.inr (.inr ⟨f, hf, hF, .inl (.inr (.inr hp)), rfl⟩)), ?_⟩
  intro d hd
  rw [mem_cands] at hd
  rcases hd with rfl | ⟨_, h⟩ | ⟨g, hg, hG, hM, rfl⟩
  · exact .inr (by simp [Target.param, hp, rank])
  · exact absurd h hb
  · rcases hM with hM | hM | hM
    · exact .inl (by rw [huniq g hg hG hM])
    · exact .inr (by simp [Target.param, hp, hM, rank])
    · exact .inr (by simp [Target.param, hp, hM, rank])

example : resolve [⟨1, .ns 7, .every⟩] (reflectVector reflectE) = some (.user ⟨1, .ns 7, .every⟩) ∧
    resolve [⟨1, .ns 7, .every⟩] (.cls 9 8 none [(5, 7)]) = some (.user ⟨1, .ns 7, .every⟩) ∧ resolve [⟨1, .ns 7, .every⟩] (reflectVector reflectInt) = some .unavailable := by decide

/-- C132. Two functions found for the same type are ambiguous, as are two templates for all types if no function or more specialised template is found. -/
theorem C132_ambiguous (fs : List Fn) (T : Ty) (f g : Fn) (hf : f ∈ fs) (hg : g ∈ fs) (hF : Found f T) (hG : Found g T) (hne : f ≠ g)
    (h : (f.param = .exact T ∧ g.param = .exact T) ∨
      (f.param = .every ∧ g.param = .every ∧ T ≠ boolTy ∧ ∀ k ∈ fs, Found k T → Takes k T → k.param = .every)) : resolve fs T = none := by
  cases hr : resolve fs T with
  | none => rfl
  | some t =>
    exfalso
    rw [resolve_iff] at hr
    obtain ⟨ht, hbest⟩ := hr
    have hT : Takes f T ∧ Takes g T := by
      rcases h with ⟨h1, h2⟩ | ⟨h1, h2, _⟩
      · exact ⟨.inl h1, .inl h2⟩
      · exact ⟨.inr (.inr h1), .inr (.inr h2)⟩
    have hf' := hbest _ ((mem_cands _ _ _).2 (.inr (.inr ⟨f, hf, hF, .inl hT.1, rfl⟩)))
    have hg' := hbest _ ((mem_cands _ _ _).2 (.inr (.inr ⟨g, hg, hG, .inl hT.2, rfl⟩)))
    rcases h with ⟨h1, h2⟩ | ⟨h1, h2, hb, hall⟩
    · rcases hf' with rfl | h'
      · rcases hg' with h'' | h''
        · exact hne (by injection h'' with h; exact h.symm)
        · simp [Target.param, h1, h2, rank] at h''
      · simp [Target.param, h1, rank] at h'
    · rw [mem_cands] at ht
      rcases ht with rfl | ⟨_, h⟩ | ⟨k, hk, hK, hM, rfl⟩
      · rcases hf' with h' | h'
        · cases h'
        · simp [Target.param, h1, rank] at h'
      · exact hb h
      · have hkr : 2 ≤ rank k.param := by
          rcases hM with hM | hM | hM
          · simp [hall k hk hK hM, rank]
          · simp [hM, rank]
          · simp [hM, rank]
        rcases hf' with h' | h'
        · rcases hg' with h'' | h''
          · exact hne (by injection h' with a; injection h'' with b; rw [a, b])
          · have h3 : rank k.param < rank g.param := h''
            rw [h2] at h3
            have h4 : rank k.param < 2 := h3
            omega
        · have h3 : rank k.param < rank f.param := h'
          rw [h1] at h3
          have h4 : rank k.param < 2 := h3
          omega

example : resolve [⟨1, .ns 7, .every⟩, ⟨2, .ns 3, .every⟩] (reflectVector reflectE) = none ∧
    Found ⟨1, .ns 7, .every⟩ (reflectVector reflectE) ∧ Found ⟨2, .ns 3, .every⟩ (reflectVector reflectE) :=
  ⟨by decide, .inr (.arg (.enumNs _ _ _)), .inr (.head (.clsNs _ _ _ _))⟩

/-- C132. A fallback of the user's which converts from every `gsl::type_identity<>`, as the library's own does, makes the metadata of all types which mention its namespace and have no
function of their own ambiguous. -/
theorem C132_converting (fs : List Fn) (T : Ty) (f : Fn) (hf : f ∈ fs) (hF : Found f T) (hp : f.param = .converting) (hb : T ≠ boolTy)
    (hno : ∀ g ∈ fs, Found g T → ¬Takes g T) : resolve fs T = none := by
  cases hr : resolve fs T with
  | none => rfl
  | some t =>
    exfalso
    rw [resolve_iff] at hr
    obtain ⟨ht, hbest⟩ := hr
    have hf' := hbest _ ((mem_cands _ _ _).2 (.inr (.inr ⟨f, hf, hF, .inr (.inl hp), rfl⟩)))
    have hu' := hbest .unavailable ((mem_cands _ _ _).2 (.inl rfl))
    rw [mem_cands] at ht
    rcases ht with rfl | ⟨_, h⟩ | ⟨k, hk, hK, hM, rfl⟩
    · rcases hf' with h' | h'
      · cases h'
      · simp [Target.param, hp, rank] at h'
    · exact hb h
    · rcases hM with hM | hM
      · exact hno k hk hK hM
      · rcases hu' with h' | h'
        · cases h'
        · rcases hM with hM | hM <;> simp [Target.param, hM, rank] at h'

example : resolve [⟨1, .ns 7, .converting⟩] reflectE = none ∧ resolve [⟨1, .ns 7, .converting⟩, ⟨2, .ns 7, .exact reflectE⟩] reflectE = some (.user ⟨2, .ns 7, .exact reflectE⟩) := by
  decide

/-- C132. A fallback with an ellipsis has no effect: the library's own is preferred. -/
theorem C132_ellipsis (fs gs : List Fn) (f : Fn) (T : Ty) (hp : f.param = .ellipsis) : resolve (fs ++ f :: gs) T = resolve (fs ++ gs) T := by
  refine C132_relevant _ _ _ fun g _ hM => ?_
  simp only [List.mem_append, List.mem_cons]
  constructor
  · rintro (h | rfl | h)
    · exact .inl h
    · simp [Takes, hp] at hM
    · exact .inr h
  · rintro (h | h)
    · exact .inl h
    · exact .inr (.inr h)

example : resolve [⟨1, .ns 7, .ellipsis⟩] reflectE = some .unavailable := by decide

private theorem uses_mem (T : Ty) (is : List Item) (fs : List Fn) (r : Option Target) :
    r ∈ uses T fs is ↔ ∃ p s, is = p ++ .query T :: s ∧ r = resolve (fs ++ declared p) T := by
  induction is generalizing fs with
  | nil => simp [uses]
  | cons i is ih =>
    cases i with
    | declare f =>
      simp only [uses, ih]
      constructor
      · rintro ⟨p, s, rfl, rfl⟩
        exact ⟨.declare f :: p, s, rfl, by simp [declared]⟩
      · rintro ⟨p, s, h, rfl⟩
        cases p with
        | nil => simp at h
        | cons i p =>
          simp only [List.cons_append, List.cons.injEq] at h
          obtain ⟨rfl, rfl⟩ := h
          exact ⟨p, s, rfl, by simp [declared]⟩
    | query U =>
      simp only [uses, List.mem_append, ih]
      constructor
      · rintro (h | ⟨p, s, rfl, rfl⟩)
        · by_cases hU : U = T
          · subst hU
            simp at h
            exact ⟨[], is, rfl, by simp [declared, h]⟩
          · simp [hU] at h
        · exact ⟨.query U :: p, s, rfl, by simp [declared]⟩
      · rintro ⟨p, s, h, rfl⟩
        cases p with
        | nil =>
          simp only [List.nil_append, List.cons.injEq, Item.query.injEq] at h
          exact .inl (by simp [h.1, declared])
        | cons i p =>
          simp only [List.cons_append, List.cons.injEq] at h
          obtain ⟨rfl, rfl⟩ := h
          exact .inr ⟨p, s, rfl, by simp [declared]⟩

private theorem points_mem (T : Ty) (u : List Item) (r : Option Target) :
    r ∈ points T u ↔ r ∈ uses T [] u ∨ (uses T [] u ≠ [] ∧ r = resolve (declared u) T) := by
  unfold points
  by_cases h : uses T [] u = []
  · simp [h]
  · simp [h]

private theorem meaning_calls (program : List (List Item)) (T : Ty) (t : Target)
    (hne : program.flatMap (points T) ≠ []) (h : ∀ r ∈ program.flatMap (points T), r = some t) : meaning program T = .calls t := by
  unfold meaning
  rw [if_neg]
  · cases hp : program.flatMap (points T) with
    | nil => exact absurd hp hne
    | cons r ps =>
      rw [hp] at h
      rw [h r (by simp)]
      simp only
      rw [if_pos]
      simp only [List.all_eq_true, decide_eq_true_eq]
      exact fun p hpp => h p (List.mem_cons_of_mem _ hpp)
  · simp only [List.any_eq_true, not_exists, not_and]
    intro u hu r hr
    have := h r (List.mem_flatMap.2 ⟨u, hu, (points_mem T u r).2 (.inl hr)⟩)
    simp [this]

/-- C132. If the functions which matter for a type are declared before its metadata is used for the first time, in every translation unit, and are the same ones in all of
these, then all uses in the program agree, and mean what overload resolution among these functions says. -/
theorem C132_agree (program : List (List Item)) (T : Ty) (R : List Fn) (t : Target)
    (hused : ∃ u ∈ program, .query T ∈ u)
    (hbefore : ∀ u ∈ program, ∀ p s, u = p ++ .query T :: s → ∀ f, Found f T → Takes f T ∨ f.param = .converting →
      ((f ∈ declared p ↔ f ∈ R) ∧ (f ∈ declared u ↔ f ∈ R)))
    (hr : resolve R T = some t) : meaning program T = .calls t := by
  apply meaning_calls
  · obtain ⟨u, hu, hq⟩ := hused
    obtain ⟨p, s, rfl⟩ := List.append_of_mem hq
    have hm : resolve (declared p) T ∈ uses T [] (p ++ .query T :: s) := (uses_mem T _ [] _).2 ⟨p, s, rfl, by simp⟩
    intro he
    have := List.mem_flatMap.2 ⟨_, hu, (points_mem T _ _).2 (.inl hm)⟩
    rw [he] at this; cases this
  · intro r hr'
    obtain ⟨u, hu, hru⟩ := List.mem_flatMap.1 hr'
    rw [points_mem] at hru
    rcases hru with h | ⟨hne, rfl⟩
    · obtain ⟨p, s, hps, rfl⟩ := (uses_mem T u [] r).1 h
      rw [← hr]
      exact C132_relevant _ _ _ fun f hF hM => by simpa using (hbefore u hu p s hps f hF hM).1
    · obtain ⟨r', hr''⟩ := List.exists_mem_of_ne_nil _ hne
      obtain ⟨p, s, hps, rfl⟩ := (uses_mem T u [] r').1 hr''
      rw [← hr]
      exact C132_relevant _ _ _ fun f hF hM => (hbefore u hu p s hps f hF hM).2

example : meaning [[.declare ⟨1, .ns 7, .exact reflectE⟩, .query reflectE, .declare ⟨2, .ns 7, .exact (.const reflectE)⟩, .query reflectE], [.query reflectInt],
    [.declare ⟨1, .ns 7, .exact reflectE⟩, .query reflectE]] reflectE = .calls (.user ⟨1, .ns 7, .exact reflectE⟩) := by decide

private theorem meaning_undiagnosed (program : List (List Item)) (T : Ty) (r r' : Option Target)
    (hok : ∀ u ∈ program, ∀ x ∈ uses T [] u, x ≠ none)
    (h1 : r ∈ program.flatMap (points T)) (h2 : r' ∈ program.flatMap (points T)) (hne : r ≠ r') : meaning program T = .undiagnosed := by
  unfold meaning
  rw [if_neg]
  · cases hp : program.flatMap (points T) with
    | nil => rw [hp] at h1; cases h1
    | cons x ps =>
      have hx : x ≠ none := by
        clear h1 h2
        induction program with
        | nil => simp at hp
        | cons u us ih =>
          rw [List.flatMap_cons] at hp
          by_cases hu : uses T [] u = []
          · have : points T u = [] := by simp [points, hu]
            rw [this, List.nil_append] at hp
            exact ih (fun v hv => hok v (List.mem_cons_of_mem _ hv)) hp
          · obtain ⟨y, ys, hy⟩ := List.exists_cons_of_ne_nil hu
            have : points T u = y :: ys ++ [resolve (declared u) T] := by simp [points, hy]
            rw [this] at hp
            simp only [List.cons_append, List.cons.injEq] at hp
            rw [← hp.1]
            exact hok u (by simp) y (by simp [hy])
      obtain ⟨t, rfl⟩ := Option.ne_none_iff_exists'.1 hx
      simp only
      rw [if_neg]
      simp only [List.all_eq_true, decide_eq_true_eq]
      intro hall
      rw [hp] at h1 h2
      have e : ∀ q ∈ some t :: ps, q = some t := by
        intro q hq
        rcases List.mem_cons.1 hq with h | h
        · exact h
        · exact hall q h
      exact hne ((e r h1).trans (e r' h2).symm)
  · simp only [List.any_eq_true, not_exists, not_and]
    intro u hu x hx
    have := hok u hu x hx
    cases x with
    | none => exact absurd rfl this
    | some => simp

/-- C132. If the metadata of a type is used before the function for it is declared, the program is ill-formed without a diagnosis: the use sees no metadata (whereas uses below the
declaration would see it). -/
theorem C132_late (program : List (List Item)) (T : Ty) (p s : List Item) (f : Fn) (hb : T ≠ boolTy)
    (hu : (p ++ .query T :: s) ∈ program) (hf : .declare f ∈ s) (hF : Found f T) (hp : f.param = .exact T)
    (hbefore : ∀ g ∈ declared p, Found g T → ¬Takes g T ∧ g.param ≠ .converting)
    (hok : ∀ u ∈ program, ∀ x ∈ uses T [] u, x ≠ none) : meaning program T = .undiagnosed := by
  have hm : resolve (declared p) T ∈ uses T [] (p ++ .query T :: s) := (uses_mem T _ [] _).2 ⟨p, s, rfl, by simp⟩
  have hdecl : f ∈ declared (p ++ .query T :: s) := by
    obtain ⟨a, b, rfl⟩ := List.append_of_mem hf
    have happ : ∀ x y : List Item, declared (x ++ y) = declared x ++ declared y := by
      intro x y
      induction x with
      | nil => rfl
      | cons i x ih => cases i <;> simp [declared, ih]
    rw [happ]
    simp [declared, happ]
  refine meaning_undiagnosed program T (resolve (declared p) T) (resolve (declared (p ++ .query T :: s)) T) hok
    (List.mem_flatMap.2 ⟨_, hu, (points_mem _ _ _).2 (.inl hm)⟩)
    (List.mem_flatMap.2 ⟨_, hu, (points_mem _ _ _).2 (.inr ⟨List.ne_nil_of_mem hm, rfl⟩)⟩) ?_
  rw [C132_unavailable _ _ hbefore, if_neg hb]
  intro h
  have := ((resolve_iff _ _ _).1 h.symm).2 (.user f) ((mem_cands _ _ _).2 (.inr (.inr ⟨f, hdecl, hF, .inl (.inl hp), rfl⟩)))
  rcases this with h' | h'
  · cases h'
  · simp [Target.param, hp, rank] at h'

example : meaning [[.query reflectE, .declare ⟨1, .ns 7, .exact reflectE⟩, .query reflectE]] reflectE = .undiagnosed ∧
    uses reflectE [] [.query reflectE, .declare ⟨1, .ns 7, .exact reflectE⟩, .query reflectE] = [some .unavailable, some (.user ⟨1, .ns 7, .exact reflectE⟩)] := by
  decide

/-- C132. Likewise if the function for a type is missing in one of two translation units which use its metadata. -/
theorem C132_missing (program : List (List Item)) (T : Ty) (u v : List Item) (f : Fn) (hb : T ≠ boolTy) (hu : u ∈ program) (hv : v ∈ program)
    (hqu : .query T ∈ u) (hqv : .query T ∈ v) (hf : f ∈ declared u) (hF : Found f T) (hp : f.param = .exact T)
    (hnone : ∀ g ∈ declared v, Found g T → ¬Takes g T ∧ g.param ≠ .converting)
    (hok : ∀ u ∈ program, ∀ x ∈ uses T [] u, x ≠ none) : meaning program T = .undiagnosed := by
  have hne : ∀ w : List Item, .query T ∈ w → uses T [] w ≠ [] := by
    intro w hq
    obtain ⟨p, s, rfl⟩ := List.append_of_mem hq
    exact List.ne_nil_of_mem ((uses_mem T _ [] _).2 ⟨p, s, rfl, rfl⟩)
  refine meaning_undiagnosed program T (resolve (declared v) T) (resolve (declared u) T) hok
    (List.mem_flatMap.2 ⟨v, hv, (points_mem _ _ _).2 (.inr ⟨hne v hqv, rfl⟩)⟩)
    (List.mem_flatMap.2 ⟨u, hu, (points_mem _ _ _).2 (.inr ⟨hne u hqu, rfl⟩)⟩) ?_
  rw [C132_unavailable _ _ hnone, if_neg hb]
  intro h
  have := ((resolve_iff _ _ _).1 h.symm).2 (.user f) ((mem_cands _ _ _).2 (.inr (.inr ⟨f, hf, hF, .inl (.inl hp), rfl⟩)))
  rcases this with h' | h'
  · cases h'
  · simp [Target.param, hp, rank] at h'

example : meaning [[.declare ⟨1, .ns 7, .exact reflectE⟩, .query reflectE], [.query reflectE]] reflectE = .undiagnosed := by decide

end Makeshift.Props
