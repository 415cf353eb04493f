import Verif.Spec.Detect
import Mathlib.Tactic.ByContra

/-! # C157: `can_instantiate<>` and `is_instantiation_of<>` -/

namespace Makeshift.Props

open Makeshift.Detect Makeshift.Spec.Detect

private theorem fits_iff (arity : Option Nat) (n : Nat) : arityFits arity n = true ↔ Takes arity n := by
  cases arity with
  | none => simp [arityFits, Takes]
  | some k => simp [arityFits, Takes]

private theorem sub_bind_ok {α β : Type} {x : SubRes α} {f : α → SubRes β} {b : β} (h : x.bind f = .ok b) : ∃ a, x = .ok a ∧ f a = .ok b := by
  cases x with
  | ok a => exact ⟨a, rfl, h⟩
  | failure => cases h
  | error => cases h

/-- The meaning of templates agrees with what they denote. -/
private def Right (ds : List Decl) (k : Nat) (ap : Nat → List Ty → SubRes Ty) : Prop :=
  ∀ z, z < k → ∀ ts t, ap z ts = .ok t ↔
    (∃ arity members, ds[z]? = some (.cls arity members) ∧ Takes arity ts.length ∧ t = .inst z ts) ∨
    ∃ arity body, ds[z]? = some (.als arity body) ∧ Takes arity ts.length ∧ Denotes ds ts body t

private theorem classOf_some {u : Ty} {z : Nat} {ts : List Ty} : classOf u = some (z, ts) ↔ u = .inst z ts ∨ u = .const (.inst z ts) := by
  cases u with
  | inst z' ts' => simp [classOf]
  | const u => cases u <;> simp [classOf]
  | builtin | ref => simp [classOf]

private theorem memberOf_ok {ds : List Decl} {name : Nat} {t u : Ty} :
    memberOf ds name t = .ok u ↔ ∃ z ts arity members tbl, (t = .inst z ts ∨ t = .const (.inst z ts)) ∧ ds[z]? = some (.cls arity members) ∧
      members ts = some tbl ∧ tbl.lookup name = some u := by
  constructor
  · intro h
    simp only [memberOf] at h
    split at h
    · rename_i z ts hc
      split at h
      · rename_i arity members hz
        split at h
        · cases h
        · rename_i tbl hm
          split at h
          · rename_i t' hl
            injection h with h
            subst h
            exact ⟨z, ts, arity, members, tbl, classOf_some.1 hc, hz, hm, hl⟩
          · cases h
      · cases h
    · cases h
  · rintro ⟨z, ts, arity, members, tbl, h0, h1, h2, h3⟩
    simp [memberOf, classOf_some.2 h0, h1, h2, h3]

private theorem addConst_cases (t : Ty) : ((∃ u, t = .const u ∨ t = .ref u) ∧ addConst t = t) ∨ ((∀ u, t ≠ .const u ∧ t ≠ .ref u) ∧ addConst t = .const t) := by
  cases t <;> simp [addConst]

private theorem addRef_cases (t : Ty) : ((∃ u, t = .ref u) ∧ addRef t = .ok t) ∨
    ((∀ u, t ≠ .ref u) ∧ t ≠ .builtin 0 ∧ t ≠ .const (.builtin 0) ∧ addRef t = .ok (.ref t)) ∨ ((t = .builtin 0 ∨ t = .const (.builtin 0)) ∧ addRef t = .failure) := by
  cases t with
  | ref u => simp [addRef]
  | builtin n => cases n <;> simp [addRef]
  | inst => simp [addRef]
  | const u =>
    cases u with
    | builtin n => cases n <;> simp [addRef]
    | inst | const | ref => simp [addRef]

mutual
private theorem subst_denotes {ds : List Decl} {k : Nat} {ap : Nat → List Ty → SubRes Ty} (hap : Right ds k ap) (args : List Ty) :
    (e : TExpr) → Uses k e → ∀ t, subst ds ap args e = .ok t ↔ Denotes ds args e t
  | .param i, _, t => by
    simp only [subst]
    constructor
    · intro h
      split at h
      · rename_i t' ht
        injection h with h
        subst h
        exact .param ht
      · cases h
    · rintro (h | _)
      rename_i h
      rw [h]
  | .builtin n, _, t => by
    simp only [subst]
    constructor
    · intro h
      injection h with h
      subst h
      exact .builtin
    · intro h
      cases h
      rfl
  | .app z es, hu, t => by
    simp only [Uses] at hu
    simp only [subst]
    constructor
    · intro h
      obtain ⟨ts, h1, h2⟩ := sub_bind_ok h
      have h1 := (substAll_denote hap args es hu.2 ts).1 h1
      rcases (hap z hu.1 ts t).1 h2 with ⟨arity, members, e1, e2, rfl⟩ | ⟨arity, body, e1, e2, e3⟩
      · exact .cls e1 h1 e2
      · exact .als e1 h1 e2 e3
    · intro h
      cases h with
      | cls e1 e2 e3 =>
        rw [(substAll_denote hap args es hu.2 _).2 e2]
        exact (hap z hu.1 _ _).2 (.inl ⟨_, _, e1, e3, rfl⟩)
      | als e1 e2 e3 e4 =>
        rw [(substAll_denote hap args es hu.2 _).2 e2]
        exact (hap z hu.1 _ _).2 (.inr ⟨_, _, e1, e3, e4⟩)
  | .member e name, hu, t => by
    simp only [Uses] at hu
    simp only [subst]
    constructor
    · intro h
      obtain ⟨u, h1, h2⟩ := sub_bind_ok h
      obtain ⟨z, ts, arity, members, tbl, e0, e1, e2, e3⟩ := memberOf_ok.1 h2
      exact .member ((subst_denotes hap args e hu _).1 h1) e0 e1 e2 e3
    · intro h
      cases h with
      | member h1 e0 e1 e2 e3 =>
        rw [(subst_denotes hap args e hu _).2 h1]
        exact memberOf_ok.2 ⟨_, _, _, _, _, e0, e1, e2, e3⟩
  | .const e, hu, t => by
    simp only [Uses] at hu
    simp only [subst]
    constructor
    · intro h
      obtain ⟨u, h1, h2⟩ := sub_bind_ok h
      injection h2 with h2
      subst h2
      have h1 := (subst_denotes hap args e hu _).1 h1
      rcases addConst_cases u with ⟨⟨w, hw⟩, h⟩ | ⟨hw, h⟩ <;> rw [h]
      · exact .const_same h1 hw
      · exact .const h1 hw
    · intro h
      cases h with
      | const h1 hw =>
        rw [(subst_denotes hap args e hu _).2 h1]
        rcases addConst_cases _ with ⟨⟨w, hw'⟩, -⟩ | ⟨-, h⟩
        · rcases hw' with hw' | hw'
          · exact absurd hw' (hw w).1
          · exact absurd hw' (hw w).2
        · simp only [SubRes.bind, h]
      | const_same h1 hw =>
        rw [(subst_denotes hap args e hu _).2 h1]
        rcases addConst_cases t with ⟨-, h⟩ | ⟨hw', -⟩
        · simp only [SubRes.bind, h]
        · rcases hw with hw | hw
          · exact absurd hw (hw' _).1
          · exact absurd hw (hw' _).2
  | .ref e, hu, t => by
    simp only [Uses] at hu
    simp only [subst]
    constructor
    · intro h
      obtain ⟨u, h1, h2⟩ := sub_bind_ok h
      have h1 := (subst_denotes hap args e hu _).1 h1
      rcases addRef_cases u with ⟨⟨w, rfl⟩, h⟩ | ⟨w1, w2, w3, h⟩ | ⟨-, h⟩ <;> rw [h] at h2 <;> cases h2
      · exact .ref_ref h1
      · exact .ref h1 w1 w2 w3
    · intro h
      cases h with
      | ref h1 w1 w2 w3 =>
        rw [(subst_denotes hap args e hu _).2 h1]
        rcases addRef_cases _ with ⟨⟨w, hw⟩, -⟩ | ⟨-, -, -, h⟩ | ⟨hw, -⟩
        · exact absurd hw (w1 w)
        · exact h
        · rcases hw with hw | hw
          · exact absurd hw w2
          · exact absurd hw w3
      | ref_ref h1 => rw [(subst_denotes hap args e hu _).2 h1]; rfl

private theorem substAll_denote {ds : List Decl} {k : Nat} {ap : Nat → List Ty → SubRes Ty} (hap : Right ds k ap) (args : List Ty) :
    (es : List TExpr) → UsesAll k es → ∀ ts, substAll ds ap args es = .ok ts ↔ DenoteAll ds args es ts
  | [], _, ts => by
    simp only [substAll]
    constructor
    · intro h
      injection h with h
      subst h
      exact .nil
    · intro h
      cases h
      rfl
  | e :: es, hu, ts => by
    simp only [UsesAll] at hu
    simp only [substAll]
    constructor
    · intro h
      obtain ⟨t, h1, h⟩ := sub_bind_ok h
      obtain ⟨ts', h2, h⟩ := sub_bind_ok h
      injection h with h
      subst h
      exact .cons ((subst_denotes hap args e hu.1 _).1 h1) ((substAll_denote hap args es hu.2 _).1 h2)
    · intro h
      cases h with
      | cons h1 h2 =>
        rw [(subst_denotes hap args e hu.1 _).2 h1]
        simp only [SubRes.bind]
        rw [(substAll_denote hap args es hu.2 _).2 h2]
end

private theorem apply_right {ds : List Decl} (ho : Ordered ds) (k : Nat) : Right ds k (apply ds k) := by
  induction k with
  | zero => intro z hz; omega
  | succ k ih =>
    intro z hz ts t
    simp only [apply]
    split
    · rename_i hzk
      subst hzk
      rcases hd : ds[z]? with _ | d
      · simp
      · cases d with
        | cls arity members =>
          simp only
          split
          · rename_i hf
            constructor
            · intro h
              injection h with h
              exact .inl ⟨arity, members, rfl, (fits_iff _ _).1 hf, h.symm⟩
            · rintro (⟨_, _, _, _, rfl⟩ | ⟨_, _, h, _⟩)
              · rfl
              · cases h
          · rename_i hf
            constructor
            · intro h; cases h
            · rintro (⟨_, _, h, h', _⟩ | ⟨_, _, h, _⟩)
              · injection h with h; injection h with h1 h2; subst h1
                exact absurd ((fits_iff _ _).2 h') hf
              · cases h
        | als arity body =>
          simp only
          split
          · rename_i hf
            rw [subst_denotes ih ts body (ho z arity body hd)]
            constructor
            · intro h
              exact .inr ⟨arity, body, rfl, (fits_iff _ _).1 hf, h⟩
            · rintro (⟨_, _, h, _⟩ | ⟨_, _, h, _, h'⟩)
              · cases h
              · injection h with h; injection h with h1 h2; subst h2
                exact h'
          · rename_i hf
            constructor
            · intro h; cases h
            · rintro (⟨_, _, h, _⟩ | ⟨_, _, h, h', _⟩)
              · cases h
              · injection h with h; injection h with h1 h2; subst h1
                exact absurd ((fits_iff _ _).2 h') hf
    · exact ih z (by omega) ts t

private theorem can_true {ds : List Decl} {z : Nat} {ts : List Ty} : canInstantiate ds z ts = some true ↔ ∃ t, apply ds ds.length z ts = .ok t := by
  unfold canInstantiate
  cases apply ds ds.length z ts <;> simp

private theorem lt_of_some {ds : List Decl} {z : Nat} {d : Decl} (h : ds[z]? = some d) : z < ds.length := by
  obtain ⟨h, -⟩ := List.getElem?_eq_some_iff.1 h
  exact h

private theorem apply_unfold (ds : List Decl) (z : Nat) (ts : List Ty) : ∀ k, z < k → apply ds k z ts = apply ds (z + 1) z ts
  | 0, h => by omega
  | k + 1, h => by
    by_cases hk : z = k
    · rw [hk]
    · rw [show apply ds (k + 1) z ts = apply ds k z ts from by simp only [apply, hk, if_false]]
      exact apply_unfold ds z ts k (by omega)

/-- For a class template, `can_instantiate_v<Z, Ts...>` only tells whether the number of arguments is right: the class is not instantiated. -/
theorem C157_class {ds : List Decl} {z : Nat} {arity : Option Nat} {members : List Ty → Option (List (Nat × Ty))}
    (hz : ds[z]? = some (.cls arity members)) (ts : List Ty) :
    (canInstantiate ds z ts = some true ↔ Takes arity ts.length) ∧ (canInstantiate ds z ts = some false ↔ ¬ Takes arity ts.length) := by
  have h : apply ds ds.length z ts = if arityFits arity ts.length then .ok (.inst z ts) else .failure := by
    rw [apply_unfold ds z ts _ (lt_of_some hz)]
    simp only [apply, if_true, hz]
  unfold canInstantiate
  rw [h, ← fits_iff]
  cases arityFits arity ts.length <;> simp

/-- So it is not true that `can_instantiate` tells "whether the template instantiation would be valid": for some class template no instantiation is. -/
theorem C157_class_negated : ∃ (ds : List Decl) (z : Nat) (arity : Option Nat) (members : List Ty → Option (List (Nat × Ty))),
    ds[z]? = some (.cls arity members) ∧ ∀ ts, members ts = none ∧ canInstantiate ds z ts = some true :=
  ⟨[.cls none fun _ => none], 0, none, fun _ => none, rfl, fun ts =>
    ⟨rfl, (C157_class (ds := [.cls none fun _ => none]) (z := 0) rfl ts).1.2 (by intro k h; cases h)⟩⟩

/-- For an alias template, `can_instantiate_v<Z, Ts...>` is true exactly if the number of arguments is right and the alias then stands for a type. -/
theorem C157_alias {ds : List Decl} (ho : Ordered ds) {z : Nat} {arity : Option Nat} {body : TExpr} (hz : ds[z]? = some (.als arity body)) (ts : List Ty) :
    canInstantiate ds z ts = some true ↔ Takes arity ts.length ∧ ∃ t, Denotes ds ts body t := by
  rw [can_true]
  constructor
  · rintro ⟨t, h⟩
    rcases (apply_right ho ds.length z (lt_of_some hz) ts t).1 h with ⟨_, _, h1, _⟩ | ⟨a, b, h1, h2, h3⟩
    · rw [hz] at h1; cases h1
    · rw [hz] at h1; cases h1
      exact ⟨h2, t, h3⟩
  · rintro ⟨h1, t, h2⟩
    exact ⟨t, (apply_right ho ds.length z (lt_of_some hz) ts t).2 (.inr ⟨arity, body, hz, h1, h2⟩)⟩

/-- The meaning of templates is never an error, and yields types. -/
private def Calm (ds : List Decl) (k : Nat) (ap : Nat → List Ty → SubRes Ty) : Prop :=
  ∀ z, z < k → ∀ ts, (∀ t ∈ ts, IsType ds t) → ap z ts = .failure ∨ ∃ t, ap z ts = .ok t ∧ IsType ds t

mutual
private theorem subst_calm {ds : List Decl} {k : Nat} {ap : Nat → List Ty → SubRes Ty} (hr : Robust ds) (hap : Calm ds k ap) {args : List Ty}
    (ha : ∀ t ∈ args, IsType ds t) :
    (e : TExpr) → Uses k e → subst ds ap args e = .failure ∨ ∃ t, subst ds ap args e = .ok t ∧ IsType ds t
  | .param i, _ => by
    simp only [subst]
    split
    · rename_i t ht
      exact .inr ⟨t, rfl, ha t (List.mem_of_getElem? ht)⟩
    · exact .inl rfl
  | .builtin n, _ => .inr ⟨_, rfl, .builtin⟩
  | .app z es, hu => by
    simp only [Uses] at hu
    simp only [subst]
    rcases substAll_calm hr hap ha es hu.2 with h | ⟨ts, h, h'⟩
    · rw [h]; exact .inl rfl
    · rw [h]; exact hap z hu.1 ts h'
  | .member e name, hu => by
    simp only [Uses] at hu
    simp only [subst]
    rcases subst_calm hr hap ha e hu with h | ⟨t, h, h'⟩
    · rw [h]; exact .inl rfl
    · rw [h]
      simp only [SubRes.bind, memberOf]
      split
      · rename_i z ts hc
        have hi : IsType ds (.inst z ts) := by
          rcases classOf_some.1 hc with rfl | rfl
          · exact h'
          · cases h'; assumption
        cases hi with
        | @inst _ _ arity members hz hts =>
          obtain ⟨tbl, h1, h2⟩ := hr z arity members ts hz hts
          simp only [hz, h1]
          split
          · rename_i u hl
            refine .inr ⟨u, rfl, ?_⟩
            exact h2 (name, u) (List.lookup_eq_some_iff.1 hl |> fun ⟨l1, l2, e, _⟩ => e ▸ by simp)
          · exact .inl rfl
      · exact .inl rfl
  | .const e, hu => by
    simp only [Uses] at hu
    simp only [subst]
    rcases subst_calm hr hap ha e hu with h | ⟨t, h, h'⟩
    · rw [h]; exact .inl rfl
    · rw [h]; 
      refine .inr ⟨_, rfl, ?_⟩
      rcases addConst_cases t with ⟨-, h⟩ | ⟨-, h⟩ <;> rw [h]
      · exact h'
      · exact .const h'
  | .ref e, hu => by
    simp only [Uses] at hu
    simp only [subst]
    rcases subst_calm hr hap ha e hu with h | ⟨t, h, h'⟩
    · rw [h]; exact .inl rfl
    · rw [h]; 
      simp only [SubRes.bind]
      rcases addRef_cases t with ⟨-, h⟩ | ⟨-, -, -, h⟩ | ⟨-, h⟩ <;> rw [h]
      · exact .inr ⟨_, rfl, h'⟩
      · exact .inr ⟨_, rfl, .ref h'⟩
      · exact .inl rfl

private theorem substAll_calm {ds : List Decl} {k : Nat} {ap : Nat → List Ty → SubRes Ty} (hr : Robust ds) (hap : Calm ds k ap) {args : List Ty}
    (ha : ∀ t ∈ args, IsType ds t) :
    (es : List TExpr) → UsesAll k es → substAll ds ap args es = .failure ∨ ∃ ts, substAll ds ap args es = .ok ts ∧ ∀ t ∈ ts, IsType ds t
  | [], _ => .inr ⟨_, rfl, by simp⟩
  | e :: es, hu => by
    simp only [UsesAll] at hu
    simp only [substAll]
    rcases subst_calm hr hap ha e hu.1 with h | ⟨t, h, h'⟩
    · rw [h]; exact .inl rfl
    · rw [h]
      rcases substAll_calm hr hap ha es hu.2 with h2 | ⟨ts, h2, h2'⟩
      · rw [h2]; exact .inl rfl
      · rw [h2]
        refine .inr ⟨_, rfl, fun u hu => ?_⟩
        rcases List.mem_cons.1 hu with rfl | hu
        · exact h'
        · exact h2' u hu
end

private theorem apply_calm {ds : List Decl} (ho : Ordered ds) (hr : Robust ds) (k : Nat) (hk : k ≤ ds.length) : Calm ds k (apply ds k) := by
  induction k with
  | zero => intro z hz; omega
  | succ k ih =>
    intro z hz ts hts
    simp only [apply]
    split
    · rename_i hzk
      subst hzk
      rcases hd : ds[z]? with _ | d
      · exact absurd (List.getElem?_eq_none_iff.1 hd) (by omega)
      · cases d with
        | cls arity members =>
          simp only
          split
          · exact .inr ⟨_, rfl, .inst hd hts⟩
          · exact .inl rfl
        | als arity body =>
          simp only
          split
          · exact subst_calm hr (ih (by omega)) hts body (ho z arity body hd)
          · exact .inl rfl
    · exact ih (by omega) z (by omega) ts hts

/-- If no definition of a class is ill-formed for any arguments, `can_instantiate` can be asked about any alias template, and says no exactly if the alias
does not stand for a type. -/
theorem C157_answers {ds : List Decl} (ho : Ordered ds) (hr : Robust ds) {z : Nat} {arity : Option Nat} {body : TExpr}
    (hz : ds[z]? = some (.als arity body)) (ts : List Ty) (hts : ∀ t ∈ ts, IsType ds t) :
    canInstantiate ds z ts = some false ↔ ¬ (Takes arity ts.length ∧ ∃ t, Denotes ds ts body t) := by
  rw [← C157_alias ho hz ts]
  unfold canInstantiate
  rcases apply_calm ho hr ds.length (Nat.le_refl _) z (lt_of_some hz) ts hts with h | ⟨t, h, -⟩ <;> rw [h] <;> simp

/-- Otherwise, the question itself can make the program ill-formed, although the alias does not stand for a type: the error is found while a class
is instantiated. -/
theorem C157_answers_negated : ∃ (ds : List Decl) (z : Nat) (body : TExpr) (ts : List Ty), Ordered ds ∧ ds[z]? = some (.als (some 1) body) ∧
    (∀ t ∈ ts, IsType ds t) ∧ (¬ ∃ t, Denotes ds ts body t) ∧ canInstantiate ds z ts = none := by
  have ho : Ordered [.cls (some 1) fun _ => none, .als (some 1) (.member (.app 0 [.param 0]) 7)] := by
    intro z arity body h
    match z with
    | 0 => cases h
    | 1 => cases h; simp [Uses, UsesAll]
    | z + 2 => cases h
  have hn : canInstantiate [.cls (some 1) fun _ => none, .als (some 1) (.member (.app 0 [.param 0]) 7)] 1 [.builtin 0] = none := by
    simp [canInstantiate, apply, arityFits, subst, substAll, SubRes.bind, memberOf, classOf]
  refine ⟨_, 1, _, [.builtin 0], ho, rfl, ?_, ?_, hn⟩
  · intro t ht
    rw [List.mem_singleton.1 ht]
    exact .builtin
  · intro h
    have := (C157_alias ho (z := 1) rfl [.builtin 0]).2 ⟨by intro k hk; cases hk; rfl, h⟩
    rw [hn] at this
    cases this

/-- `is_instantiation_of_v<E, U>` for whatever expression `E` denotes: true exactly for the instantiations of the class template `U`, also if they are named
by way of alias templates; in particular false for const types and references, and if `U` is an alias template. -/
theorem C157_instantiation_of {ds : List Decl} (ho : Ordered ds) {args : List Ty} {e : TExpr} (hu : Uses ds.length e) {t : Ty}
    (h : subst ds (apply ds ds.length) args e = .ok t) (u : Nat) :
    (isInstantiationOf ds t u = true ↔ ∃ ts arity members, ds[u]? = some (.cls arity members) ∧ Denotes ds args e (.inst u ts)) ∧
    ((∃ arity body, ds[u]? = some (.als arity body)) → isInstantiationOf ds t u = false) := by
  have hden := subst_denotes (apply_right ho ds.length) args e hu
  refine ⟨⟨fun h' => ?_, ?_⟩, ?_⟩
  · cases t with
    | inst z ts =>
      simp only [isInstantiationOf] at h'
      split at h'
      · rename_i arity members hd
        have : z = u := by simpa using h'
        subst this
        exact ⟨ts, arity, members, hd, (hden _).1 h⟩
      · cases h'
    | builtin | const | ref => cases h'
  · rintro ⟨ts, arity, members, hd, h'⟩
    have := (hden _).2 h'
    rw [h] at this
    injection this with this
    subst this
    simp [isInstantiationOf, hd]
  · rintro ⟨arity, body, hd⟩
    cases t <;> simp [isInstantiationOf, hd]

/-! ## Examples

`template <typename T> struct box { using type = T; };` (0), `template <typename... Ts> struct list { };` (1), `template <typename T> using unbox = typename T::type;` (2),
`template <typename T> using boxes = list<box<T>, unbox<T> const>;` (3). -/

private def dtProg : List Decl :=
  [.cls (some 1) fun ts => match ts with | [t] => some [(0, t)] | _ => some [], .cls none fun _ => some [],
    .als (some 1) (.member (.param 0) 0), .als (some 1) (.app 1 [.app 0 [.param 0], .const (.app 2 [.param 0])])]

private theorem dtOrdered : Ordered dtProg := by
  intro z arity body h
  match z with
  | 0 | 1 => cases h
  | 2 | 3 => cases h; simp [Uses, UsesAll]
  | z + 4 => cases h

example : canInstantiate dtProg 2 [.inst 0 [.builtin 5]] = some true ∧ canInstantiate dtProg 2 [.builtin 5] = some false ∧
    canInstantiate dtProg 3 [.inst 1 []] = some false ∧ canInstantiate dtProg 3 [.inst 0 [.builtin 5]] = some true ∧
    canInstantiate dtProg 0 [.builtin 1, .builtin 2] = some false := by
  simp [canInstantiate, dtProg, apply, arityFits, subst, substAll, SubRes.bind, memberOf, classOf, addConst]

example : Ordered dtProg ∧ dtProg[3]? = some (.als (some 1) (.app 1 [.app 0 [.param 0], .const (.app 2 [.param 0])])) ∧
    Denotes dtProg [.inst 0 [.builtin 5]] (.app 3 [.param 0]) (.inst 1 [.inst 0 [.inst 0 [.builtin 5]], .const (.builtin 5)]) := by
  refine ⟨dtOrdered, rfl, (subst_denotes (apply_right dtOrdered 4) _ _ (by simp [Uses, UsesAll]) _).1 ?_⟩
  simp [dtProg, apply, arityFits, subst, substAll, SubRes.bind, memberOf, classOf, addConst]

example : isInstantiationOf dtProg (.inst 1 [.builtin 0]) 1 = true ∧ isInstantiationOf dtProg (.const (.inst 1 [])) 1 = false ∧
    isInstantiationOf dtProg (.inst 1 []) 0 = false := ⟨rfl, rfl, rfl⟩

/-- Classes which are never ill-formed. -/
example : Robust dtProg := by
  intro z arity members ts h hts
  match z with
  | 0 =>
    cases h
    match ts, hts with
    | [], _ => exact ⟨_, rfl, by simp⟩
    | [t], hts => exact ⟨_, rfl, by intro nt hnt; rw [List.mem_singleton.1 hnt]; exact hts t (by simp)⟩
    | _ :: _ :: _, _ => exact ⟨_, rfl, by simp⟩
  | 1 => cases h; exact ⟨_, rfl, by simp⟩
  | 2 | 3 => cases h
  | z + 4 => cases h

/-- Is there a reference to the type? -/
example : canInstantiate [.als (some 1) (.ref (.param 0))] 0 [.const (.builtin 0)] = some false ∧
    canInstantiate [.als (some 1) (.ref (.param 0))] 0 [.ref (.builtin 1)] = some true := by
  simp [canInstantiate, apply, arityFits, subst, SubRes.bind, addRef]

end Makeshift.Props
