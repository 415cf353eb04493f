import Verif.Lemmas.UserOps

/-!
# Operations performed on the user's iterators (C154): the user's answers, acceptance, order in `range_zip`
-/

namespace Makeshift.Props

open Makeshift.UserOps Makeshift.Spec.UserOps

variable {α β γ : Type}

/-! ## The record contains the user's answers -/

private def Keeps (u : User α) (m : Act α β) : Prop := ∀ h, Answered u h → Answered u (m h).1

section
variable {u : User α}

private theorem answered_nil : Answered u [] := by
  intro a e b h
  cases a <;> cases h

private theorem answered_snoc {h : List (Event α)} {e : Event α} (hh : Answered u h)
    (he : match e with | .did o r => u h o = some r | .threw o => u h o = none) : Answered u (h ++ [e]) := by
  intro a x b hx
  rcases List.eq_nil_or_concat b with rfl | ⟨b', y, rfl⟩
  · obtain ⟨rfl, h2⟩ := List.append_inj' hx rfl
    injection h2 with h2 _
    subst h2
    exact he
  · rw [List.concat_eq_append, ← List.cons_append, ← List.append_assoc] at hx
    obtain ⟨rfl, -⟩ := List.append_inj' hx rfl
    exact hh a x b' rfl

private theorem keeps_pure (b : β) : Keeps u (pure' b) := fun _ h => h

private theorem keeps_stop (s : Stop) : Keeps u (stop s : Act α β) := fun _ h => h

private theorem keeps_andThen {m : Act α β} {f : β → Act α γ} (hm : Keeps u m) (hf : ∀ b, Keeps u (f b)) : Keeps u (andThen m f) := by
  intro h hh
  have := hm h hh
  unfold andThen
  rcases hr : m h with ⟨h', b | s⟩
  · rw [hr] at this
    exact hf b h' this
  · rw [hr] at this
    exact this

private theorem keeps_ask (o : Op α) : Keeps u (ask u o) := by
  intro h hh
  unfold ask
  rcases hr : u h o with _ | r
  · exact answered_snoc hh hr
  · exact answered_snoc hh hr

private theorem keeps_each {f : Nat → Act α β} (hf : ∀ r, Keeps u (f r)) : ∀ rs, Keeps u (each f rs)
  | [] => keeps_pure _
  | r :: rs => keeps_andThen (hf r) fun _ => keeps_andThen (keeps_each hf rs) fun _ => keeps_pure _

private theorem keeps_size (ls : List Leaf) (r : Nat) : Keeps u (leafSize u ls r) := by
  have key : Keeps (β := Size) u fun h =>
      match ask u (.size r) h with
      | (h', .ok n) => (h', .ok (.dyn n))
      | (h', .stop .exception) => (h', .stop .terminated)
      | (h', .stop s) => (h', .stop s) := by
    intro h hh
    have := keeps_ask (u := u) (.size r) h hh
    rcases hr : ask u (.size r) h with ⟨h', b | s⟩
    · rw [hr] at this
      simp only [hr]
      exact this
    · rw [hr] at this
      cases s <;> (simp only [hr]; exact this)
  unfold leafSize
  rcases ls[r]? with _ | ⟨m, _ | n⟩
  · exact keeps_pure _
  · cases m
    · exact keeps_pure _
    · exact key
    · exact key
    · exact keeps_pure _
  · exact keeps_pure _

private theorem keeps_start (ls : List Leaf) (r : Nat) : Keeps u (leafStart u ls r) := by
  unfold leafStart
  rcases (ls[r]?).map Leaf.mode with _ | m
  · exact keeps_pure _
  · cases m
    · exact keeps_andThen (keeps_ask _) fun _ => keeps_ask _
    · exact keeps_ask _
    · exact keeps_ask _
    · exact keeps_pure _

private theorem keeps_leafStop (ls : List Leaf) (r : Nat) : Keeps u (leafStop u ls r) := by
  unfold leafStop
  rcases (ls[r]?).map Leaf.mode with _ | m
  · exact keeps_pure _
  · cases m
    · exact keeps_ask _
    · exact keeps_ask _
    · exact keeps_ask _
    · exact keeps_pure _

private theorem keeps_check (e : Bool) (ls : List Leaf) (r : Nat) : Keeps u (UserOps.leafCheckEnd u e ls r) := by
  unfold UserOps.leafCheckEnd
  rcases (ls[r]?).map Leaf.mode with _ | m
  · exact keeps_pure _
  · cases m
    · refine keeps_andThen (keeps_ask _) fun (b : Bool) => ?_
      by_cases hb : b = e
      · simp only [hb, if_true]; exact keeps_pure _
      · simp only [hb, if_false]; exact keeps_stop _
    · exact keeps_pure _
    · exact keeps_pure _
    · exact keeps_pure _

private theorem keeps_leafIsEnd (ls : List Leaf) (r : Nat) : Keeps u (UserOps.leafIsEnd u ls r) := by
  unfold UserOps.leafIsEnd
  rcases (ls[r]?).map Leaf.mode with _ | m
  · exact keeps_pure _
  · cases m
    · exact keeps_andThen (keeps_ask _) fun (b : Bool) => keeps_pure _
    · exact keeps_pure _
    · exact keeps_pure _
    · exact keeps_pure _

private theorem keeps_deref (i : Int) (ls : List Leaf) (r : Nat) : Keeps u (UserOps.leafDeref u i ls r) := by
  unfold UserOps.leafDeref
  rcases (ls[r]?).map Leaf.mode with _ | m
  · exact keeps_pure _
  · cases m
    · exact keeps_andThen (keeps_ask _) fun (b : α) => keeps_pure _
    · exact keeps_andThen (keeps_ask _) fun (b : α) => keeps_pure _
    · exact keeps_pure _
    · exact keeps_pure _

private theorem keeps_inc (ls : List Leaf) (r : Nat) : Keeps u (UserOps.leafInc u ls r) := by
  unfold UserOps.leafInc
  rcases (ls[r]?).map Leaf.mode with _ | m
  · exact keeps_pure _
  · cases m
    · exact keeps_ask _
    · exact keeps_ask _
    · exact keeps_pure _
    · exact keeps_pure _

private theorem keeps_isEnd (ls : List Leaf) (size : Size) (order : List Nat) (i : Int) : Keeps u (isEnd u ls size order i) := by
  unfold isEnd
  split
  · refine keeps_andThen (keeps_each (keeps_leafIsEnd ls) _) fun es => ?_
    split
    · exact keeps_pure _
    · exact keeps_stop _
  · exact keeps_andThen (keeps_each (keeps_check _ ls) _) fun _ => keeps_pure _

private theorem keeps_ite {p : Prop} [Decidable p] {m m' : Act α β} (h : Keeps u m) (h' : Keeps u m') : Keeps u (if p then m else m') := by
  by_cases hp : p
  · rw [if_pos hp]; exact h
  · rw [if_neg hp]; exact h'

private theorem keeps_loop (ls : List Leaf) (size : Size) (c d : Nat → List Nat) : ∀ fuel i, Keeps u (loop u ls size c d fuel i)
  | 0, _ => keeps_stop _
  | fuel + 1, i => by
    unfold loop
    exact keeps_andThen (keeps_isEnd ls size _ _) fun e => keeps_ite (keeps_pure _) (keeps_andThen (keeps_each (keeps_deref _ ls) _) fun vs =>
      keeps_andThen (keeps_ask _) fun (go : Bool) => keeps_ite (keeps_andThen (keeps_each (keeps_inc ls) _) fun _ => keeps_loop ls size c d fuel (i + 1)) (keeps_pure _))

private theorem keeps_zipLoop (ls : List Leaf) (size : Int) : ∀ fuel i, Keeps u (UserOps.zipLoop u ls size fuel i)
  | 0, _ => keeps_stop _
  | fuel + 1, i => by
    unfold UserOps.zipLoop
    exact keeps_ite (keeps_pure _) (keeps_andThen (keeps_each (keeps_deref _ ls) _) fun vs =>
      keeps_andThen (keeps_ask _) fun (go : Bool) => keeps_ite (keeps_andThen (keeps_each (keeps_inc ls) _) fun _ => keeps_zipLoop ls size fuel (i + 1)) (keeps_pure _))

private theorem keeps_fillLoop (calls : Bool) : ∀ fuel, Keeps u (fillLoop u calls fuel)
  | 0 => keeps_stop _
  | fuel + 1 => by
    unfold fillLoop
    exact keeps_andThen (keeps_ask _) fun (e : Bool) => keeps_ite (keeps_pure _) (keeps_andThen (keeps_ite (keeps_ask _) (keeps_pure _)) fun _ =>
      keeps_andThen (keeps_ask _) fun _ => keeps_andThen (keeps_ask _) fun _ => keeps_andThen (keeps_ask _) fun _ => keeps_fillLoop calls fuel)

private theorem keeps_reduceLoop : ∀ fuel, Keeps u (reduceLoop u fuel)
  | 0 => keeps_stop _
  | fuel + 1 => by
    unfold reduceLoop
    exact keeps_andThen (keeps_ask _) fun (e : Bool) => keeps_ite (keeps_pure _) (keeps_andThen (keeps_ask _) fun (a : α) =>
      keeps_andThen (keeps_ask _) fun _ => keeps_andThen (keeps_ask _) fun _ => keeps_reduceLoop fuel)

end

/-- What the theorems on the calls say about is what the user's functions were asked and answered: every entry of the record is the answer of the user's code to this call, given all earlier
entries, for all the algorithms. -/
theorem C154_answers (u : User α) (ls : List Leaf) (ord : Orders) (fuel : Nat) (calls : Bool) :
    Answered u (algorithm u ls ord fuel []).1 ∧ Answered u (zipIterate u ls ord fuel []).1 ∧ Answered u (fill u calls fuel []).1 ∧ Answered u (reduce u fuel []).1 := by
  refine ⟨?_, ?_, ?_, ?_⟩
  · refine keeps_andThen (keeps_each (keeps_size ls) _) (fun sizes => ?_) [] answered_nil
    split
    · exact keeps_stop _
    · exact keeps_stop _
    · exact keeps_andThen (keeps_each (keeps_start ls) _) fun _ => keeps_ite (keeps_loop ls _ _ _ _ _) (keeps_stop _)
  · refine keeps_andThen (keeps_each (keeps_size ls) _) (fun sizes => ?_) [] answered_nil
    split
    · exact keeps_stop _
    · exact keeps_stop _
    · exact keeps_ite (keeps_stop _) (keeps_andThen (keeps_each (keeps_start ls) _) fun _ => keeps_andThen (keeps_each (keeps_leafStop ls) _) fun _ => keeps_zipLoop ls _ _ _)
  · exact keeps_andThen (keeps_ask _) (fun _ => keeps_andThen (keeps_ask _) fun _ => keeps_fillLoop calls fuel) [] answered_nil
  · exact keeps_andThen (keeps_ask _) (fun _ => keeps_andThen (keeps_ask _) fun _ => keeps_reduceLoop fuel) [] answered_nil

/-! ## Acceptance -/

private def Accepts (m : Act α β) : Prop := ∀ h, (m h).2 ≠ .stop .illFormed

private theorem accepts_pure (b : β) : Accepts (pure' b : Act α β) := by
  intro h; simp [pure']

private theorem accepts_stop {s : Stop} (hs : s ≠ .illFormed) : Accepts (stop s : Act α β) := by
  intro h; simpa [stop] using hs

private theorem accepts_andThen {m : Act α β} {f : β → Act α γ} (hm : Accepts m) (hf : ∀ b, Accepts (f b)) : Accepts (andThen m f) := by
  intro h
  have := hm h
  unfold andThen
  rcases hr : m h with ⟨h', b | s⟩
  · exact hf b h'
  · rw [hr] at this
    simpa using this

private theorem accepts_ite {p : Prop} [Decidable p] {m m' : Act α β} (h : Accepts m) (h' : Accepts m') : Accepts (if p then m else m') := by
  by_cases hp : p
  · rw [if_pos hp]; exact h
  · rw [if_neg hp]; exact h'

private theorem accepts_good {m : Act α β} {P : List (Event α) → β → Prop} {B : List (Event α) → Stop → Prop} (hg : Good m P B) (hB : ∀ es s, B es s → s ≠ .illFormed) :
    Accepts m := by
  intro h hs
  obtain ⟨es, -, -, h3⟩ := hg h
  exact hB _ _ (h3 _ hs) rfl

private theorem accepts_ask (u : User α) (o : Op α) : Accepts (ask u o) := accepts_good (good_ask u o) (by rintro es s ⟨-, rfl⟩; simp)

private theorem accepts_each {f : Nat → Act α β} (hf : ∀ r, Accepts (f r)) : ∀ rs, Accepts (each f rs)
  | [] => accepts_pure _
  | r :: rs => accepts_andThen (hf r) fun _ => accepts_andThen (accepts_each hf rs) fun _ => accepts_pure _

private theorem accepts_isEnd (u : User α) (ls : List Leaf) (size : Size) (order : List Nat) (i : Int) : Accepts (isEnd u ls size order i) := by
  unfold isEnd
  split
  · refine accepts_andThen (accepts_each (fun r => ?_) _) fun es => ?_
    · unfold UserOps.leafIsEnd
      rcases (ls[r]?).map Leaf.mode with _ | m
      · exact accepts_pure _
      · cases m
        · exact accepts_andThen (accepts_ask _ _) fun (b : Bool) => accepts_pure _
        · exact accepts_pure _
        · exact accepts_pure _
        · exact accepts_pure _
    · split
      · exact accepts_pure _
      · exact accepts_stop (by simp)
  · refine accepts_andThen (accepts_each (fun r => ?_) _) fun _ => accepts_pure _
    unfold UserOps.leafCheckEnd
    rcases (ls[r]?).map Leaf.mode with _ | m
    · exact accepts_pure _
    · cases m
      · exact accepts_andThen (accepts_ask _ _) fun (b : Bool) => accepts_ite (accepts_pure _) (accepts_stop (by simp))
      · exact accepts_pure _
      · exact accepts_pure _
      · exact accepts_pure _

private theorem accepts_deref (u : User α) (i : Int) (ls : List Leaf) (r : Nat) : Accepts (UserOps.leafDeref u i ls r) := by
  unfold UserOps.leafDeref
  rcases (ls[r]?).map Leaf.mode with _ | m
  · exact accepts_pure _
  · cases m
    · exact accepts_andThen (accepts_ask _ _) fun (b : α) => accepts_pure _
    · exact accepts_andThen (accepts_ask _ _) fun (b : α) => accepts_pure _
    · exact accepts_pure _
    · exact accepts_pure _

private theorem accepts_inc (u : User α) (ls : List Leaf) (r : Nat) : Accepts (UserOps.leafInc u ls r) := by
  unfold UserOps.leafInc
  rcases (ls[r]?).map Leaf.mode with _ | m
  · exact accepts_pure _
  · cases m
    · exact accepts_ask _ _
    · exact accepts_ask _ _
    · exact accepts_pure _
    · exact accepts_pure _

private theorem accepts_loop (u : User α) (ls : List Leaf) (size : Size) (c d : Nat → List Nat) : ∀ fuel i, Accepts (loop u ls size c d fuel i)
  | 0, _ => accepts_stop (by simp)
  | fuel + 1, i => by
    unfold loop
    exact accepts_andThen (accepts_isEnd u ls size _ _) fun e => accepts_ite (accepts_pure _) (accepts_andThen (accepts_each (accepts_deref u _ ls) _) fun vs =>
      accepts_andThen (accepts_ask _ _) fun (go : Bool) =>
        accepts_ite (accepts_andThen (accepts_each (accepts_inc u ls) _) fun _ => accepts_loop u ls size c d fuel (i + 1)) (accepts_pure _))

private theorem accepts_zipLoop (u : User α) (ls : List Leaf) (size : Int) : ∀ fuel i, Accepts (UserOps.zipLoop u ls size fuel i)
  | 0, _ => accepts_stop (by simp)
  | fuel + 1, i => by
    unfold UserOps.zipLoop
    exact accepts_ite (accepts_pure _) (accepts_andThen (accepts_each (accepts_deref u _ ls) _) fun vs =>
      accepts_andThen (accepts_ask _ _) fun (go : Bool) =>
        accepts_ite (accepts_andThen (accepts_each (accepts_inc u ls) _) fun _ => accepts_zipLoop u ls size fuel (i + 1)) (accepts_pure _))

private theorem sizes_merge {ls : List Leaf} (hf : FixedAgree ls) (s : Nat → Int) (hpos : ∀ r, 0 ≤ s r) :
    mergeSizes ((List.range ls.length).map fun r => sizeVal ls r (s r)) = .failFast ∨
    ∃ z, mergeSizes ((List.range ls.length).map fun r => sizeVal ls r (s r)) = .ok z ∧ ((∃ l ∈ ls, Sized l) → z ≠ .static unknownSize) := by
  have hsz : ∀ x ∈ (List.range ls.length).map fun r => sizeVal ls r (s r), Spec.IsSize x := by
    intro x hx
    obtain ⟨r, -, rfl⟩ := List.mem_map.1 hx
    exact isSize_sizeVal ls r _ (hpos r)
  have hst : ∀ n : Int, .static n ∈ (List.range ls.length).map (fun r => sizeVal ls r (s r)) → n ≠ -1 → ∃ l ∈ ls, ∃ k : Nat, l.fixed = some k ∧ n = k := by
    intro n hn hne
    obtain ⟨r, -, hr⟩ := List.mem_map.1 hn
    unfold sizeVal at hr
    rcases hl : ls[r]? with _ | ⟨m, _ | k⟩
    · rw [hl] at hr
      simp only [unknownSize, Size.static.injEq] at hr
      exact absurd hr.symm hne
    · rw [hl] at hr
      cases m
      · simp only [unknownSize, Size.static.injEq] at hr
        exact absurd hr.symm hne
      · cases hr
      · cases hr
      · simp only [unknownSize, Size.static.injEq] at hr
        exact absurd hr.symm hne
    · rw [hl] at hr
      simp only [Size.static.injEq] at hr
      exact ⟨_, List.mem_of_getElem? hl, k, rfl, hr.symm⟩
  rcases mergeSizes_spec _ hsz with ⟨z, hz, hsum⟩ | ⟨hno, -⟩
  · refine .inr ⟨z, hz, ?_⟩
    rintro ⟨l, hl, hsl⟩ rfl
    have hag := agreed_of_summary ls s hsum
    obtain ⟨r, hr⟩ := List.mem_iff_getElem?.1 hl
    have : ∀ r, knownSize ls s r = none := hag
    have := this r
    unfold knownSize at this
    rw [hr] at this
    obtain ⟨m, _ | k⟩ := l
    · rcases hsl with h | h | h
      · exact h rfl
      · simp only at h
        subst h
        simp at this
      · simp only at h
        subst h
        simp at this
    · simp at this
  · rcases hz : mergeSizes ((List.range ls.length).map fun r => sizeVal ls r (s r)) with z | _ | _
    · exact absurd hz (hno z)
    · obtain ⟨n, m, h1, h2, h3, h4, h5⟩ := mergeSizes_static _ hsz hz
      obtain ⟨l, hl, k, hk, rfl⟩ := hst n h1 h3
      obtain ⟨l', hl', k', hk', rfl⟩ := hst m h2 h4
      exact absurd (by rw [hf l hl l' hl' k k' hk hk']) h5
    · exact .inl rfl

/-- Which arguments are accepted by the compiler: constant sizes must not contradict each other, and it must be possible to tell where the end is: one of the arguments has a size, or a range
without size is found in the right places (all arguments from any odd position on must contain one, unless these are fewer than three).  For `range_zip`, one of the arguments must have a size. -/
theorem C154_accepted (u : User α) (hu : Lengths u) (ls : List Leaf) (ord : Orders) (hs : ord.sizes.Perm (List.range ls.length)) (fuel : Nat) (hf : FixedAgree ls) :
    ((∃ l ∈ ls, Sized l) ∨
      ((∃ l ∈ ls, l.mode = .iteratorPair) ∧ ∀ k, 3 ≤ (ls.drop (2 * k)).length → ∃ l ∈ ls.drop (2 * k), l.mode = .iteratorPair) →
      (algorithm u ls ord fuel []).2 ≠ .stop .illFormed) ∧
    ((∃ l ∈ ls, Sized l) → (zipIterate u ls ord fuel []).2 ≠ .stop .illFormed) := by
  obtain ⟨es, h1, h2, h3⟩ := good_sizes u ls hu _ hs []
  have hstart : Accepts (each (leafStart u ls) (List.range ls.length)) := accepts_good (good_starts u ls) (by rintro es s ⟨rfl, -⟩; simp)
  have hstop : Accepts (each (leafStop u ls) (List.range ls.length)) := accepts_good (good_stops u ls) (by rintro es s ⟨rfl, -⟩; simp)
  constructor
  · intro h
    unfold algorithm andThen
    rcases hr : each (leafSize u ls) ord.sizes [] with ⟨h', b | s⟩
    · rw [hr] at h2
      obtain ⟨order, s, -, -, hpos, hv⟩ := h2 b rfl
      simp only [hv]
      rcases sizes_merge hf s hpos with hm | ⟨z, hm, hz⟩
      · simp [hm, stop]
      · simp only [hm]
        refine accepts_andThen hstart (fun _ => ?_) h'
        have : sentinelCompiles ls z = true := by
          unfold sentinelCompiles
          by_cases hzu : z = .static unknownSize
          · rw [if_pos hzu]
            rcases h with h | ⟨hp, hk⟩
            · exact absurd hzu (hz h)
            · rw [decide_eq_true_eq, isEndTy_iff]
              have hmem : ∀ l : List Leaf, (∃ x ∈ l, x.mode = .iteratorPair) → EndTy.bool ∈ l.map fun x => if x.mode = .iteratorPair then EndTy.bool else .nullopt := by
                rintro l ⟨x, hx, hxm⟩
                exact List.mem_map.2 ⟨x, hx, by simp [hxm]⟩
              refine ⟨hmem ls hp, fun k h3 => ?_⟩
              rw [← List.map_drop]
              rw [← List.map_drop, List.length_map] at h3
              exact hmem _ (hk k h3)
          · rw [if_neg hzu]
        simp only [this, if_true]
        exact accepts_loop u ls z _ _ fuel 0
    · rw [hr] at h3
      obtain ⟨rfl, -⟩ := h3 s rfl
      simp
  · intro h
    unfold zipIterate andThen
    rcases hr : each (leafSize u ls) ord.sizes [] with ⟨h', b | s⟩
    · rw [hr] at h2
      obtain ⟨order, s, -, -, hpos, hv⟩ := h2 b rfl
      simp only [hv]
      rcases sizes_merge hf s hpos with hm | ⟨z, hm, hz⟩
      · simp [hm, stop]
      · simp only [hm, if_neg (hz h)]
        exact accepts_andThen hstart (fun _ => accepts_andThen hstop fun _ => accepts_zipLoop u ls _ fuel 0) h'
    · rw [hr] at h3
      obtain ⟨rfl, -⟩ := h3 s rfl
      simp

-- a constant size together with ranges of unknown size
example : FixedAgree [⟨.iteratorPair, none⟩, ⟨.index, some 3⟩, ⟨.iterator, some 3⟩] ∧ ∃ l ∈ [(⟨.iteratorPair, none⟩ : Leaf), ⟨.index, some 3⟩, ⟨.iterator, some 3⟩], Sized l := by
  refine ⟨?_, ⟨.index, some 3⟩, by simp, .inr (.inr rfl)⟩
  intro l hl l' hl' n m hn hm
  simp only [List.mem_cons, List.not_mem_nil, or_false] at hl hl'
  rcases hl with rfl | rfl | rfl <;> rcases hl' with rfl | rfl | rfl <;> simp_all

-- only ranges without a size
example : FixedAgree [⟨.rangeIndex, none⟩, ⟨.iteratorPair, none⟩, ⟨.iteratorPair, none⟩] := by
  intro l hl l' hl' n m hn hm
  simp only [List.mem_cons, List.not_mem_nil, or_false] at hl
  rcases hl with rfl | rfl | rfl <;> simp at hn

-- rejected: nothing tells where the end is; constant sizes differ
example : (algorithm (fun _ _ => none : User Nat) [⟨.rangeIndex, none⟩] ⟨[0], fun _ => [0], fun _ => [0]⟩ 5 []).2 = .stop .illFormed ∧
    (algorithm (fun _ _ => none : User Nat) [⟨.index, some 2⟩, ⟨.index, some 3⟩] ⟨[0, 1], fun _ => [0, 1], fun _ => [0, 1]⟩ 5 []).2 = .stop .illFormed := by decide +kernel

/-! ## Order of access in `range_zip` -/

private def Quiet (e : Event α) : Prop := (∀ r, op e ≠ .deref r) ∧ ∀ vs, op e ≠ .call vs

private theorem ltr_quiet {b : Nat} : ∀ {x : List (Event α)} (y : List (Event α)), (∀ e ∈ x, Quiet e) → leftToRight b y → leftToRight b (x ++ y)
  | [], y, _, h => h
  | e :: x, y, h, hy => by
    have he := h e (List.mem_cons_self ..)
    rw [List.cons_append, leftToRight]
    have := ltr_quiet (b := b) (x := x) y (fun e he => h e (List.mem_cons_of_mem _ he)) hy
    rcases ho : op e with _ | _ | _ | _ | _ | _ | _ | _ | _
    all_goals first
      | exact absurd ho (he.1 _)
      | exact absurd ho (he.2 _)
      | simpa [ho] using this

private theorem ltr_mono {b c : Nat} (hc : c ≤ b) : ∀ {y : List (Event α)}, leftToRight b y → leftToRight c y
  | [], h => h
  | e :: y, h => by
    rw [leftToRight] at h ⊢
    rcases ho : op e with _ | _ | _ | _ | _ | _ | _ | _ | _
    all_goals rw [ho] at h
    all_goals first
      | exact ⟨Nat.le_trans hc h.1, h.2⟩
      | exact ltr_mono hc h
      | exact h

private abbrev QuietAct (m : Act α β) : Prop := Good m (fun es _ => ∀ e ∈ es, Quiet e) fun es _ => ∀ e ∈ es, Quiet e

private theorem quiet_pure (b : β) : QuietAct (pure' b : Act α β) := (good_pure b).mono (by rintro es _ ⟨rfl, -⟩; simp) (by simp)

private theorem quiet_stop (s : Stop) : QuietAct (stop s : Act α β) := (good_stop s).mono (by simp) (by rintro es _ ⟨rfl, -⟩; simp)

private theorem quiet_andThen {m : Act α β} {f : β → Act α γ} (hm : QuietAct m) (hf : ∀ b, QuietAct (f b)) : QuietAct (andThen m f) := by
  refine (good_andThen hm fun _ b _ => hf b).mono ?_ ?_
  · rintro es c ⟨e1, e2, b, rfl, h1, h2⟩ e he
    exact (List.mem_append.1 he).elim (h1 e) (h2 e)
  · rintro es s (h | ⟨e1, e2, b, rfl, h1, h2⟩)
    · exact h
    · intro e he
      exact (List.mem_append.1 he).elim (h1 e) (h2 e)

private theorem quiet_ask (u : User α) (o : Op α) (h1 : ∀ r, o ≠ .deref r) (h2 : ∀ vs, o ≠ .call vs) : QuietAct (ask u o) := by
  refine (good_ask u o).mono ?_ ?_
  · rintro es r rfl e he
    obtain rfl := List.mem_singleton.1 he
    exact ⟨h1, h2⟩
  · rintro es s ⟨rfl, -⟩ e he
    obtain rfl := List.mem_singleton.1 he
    exact ⟨h1, h2⟩

private theorem quiet_each {f : Nat → Act α β} (hf : ∀ r, QuietAct (f r)) : ∀ rs, QuietAct (each f rs)
  | [] => quiet_pure _
  | r :: rs => quiet_andThen (hf r) fun _ => quiet_andThen (quiet_each hf rs) fun _ => quiet_pure _

private theorem quiet_size (u : User α) (ls : List Leaf) (r : Nat) : QuietAct (leafSize u ls r) := by
  have key : QuietAct (α := α) (β := Size) fun h =>
      match ask u (.size r) h with
      | (h', .ok n) => (h', .ok (.dyn n))
      | (h', .stop .exception) => (h', .stop .terminated)
      | (h', .stop s) => (h', .stop s) := by
    intro h
    rcases hr : u h (.size r) with _ | (n : Int)
    · refine ⟨[.threw (.size r)], by simp [ask, hr], ?_, ?_⟩ <;>
      · intro _ _ e he
        obtain rfl := List.mem_singleton.1 he
        exact ⟨by simp [op], by simp [op]⟩
    · refine ⟨[.did (.size r) n], by simp [ask, hr], ?_, ?_⟩ <;>
      · intro _ _ e he
        have he := List.mem_singleton.1 he
        subst he
        exact ⟨(fun q h => by cases h), (fun q h => by cases h)⟩
  unfold leafSize
  rcases ls[r]? with _ | ⟨m, _ | n⟩
  · exact quiet_pure _
  · cases m
    · exact quiet_pure _
    · exact key
    · exact key
    · exact quiet_pure _
  · exact quiet_pure _

private theorem quiet_start (u : User α) (ls : List Leaf) (r : Nat) : QuietAct (leafStart u ls r) := by
  unfold leafStart
  rcases (ls[r]?).map Leaf.mode with _ | m
  · exact quiet_pure _
  · cases m
    · exact quiet_andThen (quiet_ask _ _ (by simp) (by simp)) fun _ => quiet_ask _ _ (by simp) (by simp)
    · exact quiet_ask _ _ (by simp) (by simp)
    · exact quiet_ask _ _ (by simp) (by simp)
    · exact quiet_pure _

private theorem quiet_leafStop (u : User α) (ls : List Leaf) (r : Nat) : QuietAct (leafStop u ls r) := by
  unfold leafStop
  rcases (ls[r]?).map Leaf.mode with _ | m
  · exact quiet_pure _
  · cases m
    · exact quiet_ask _ _ (by simp) (by simp)
    · exact quiet_ask _ _ (by simp) (by simp)
    · exact quiet_ask _ _ (by simp) (by simp)
    · exact quiet_pure _

private theorem quiet_inc (u : User α) (ls : List Leaf) (r : Nat) : QuietAct (UserOps.leafInc u ls r) := by
  unfold UserOps.leafInc
  rcases (ls[r]?).map Leaf.mode with _ | m
  · exact quiet_pure _
  · cases m
    · exact quiet_ask _ _ (by simp) (by simp)
    · exact quiet_ask _ _ (by simp) (by simp)
    · exact quiet_pure _
    · exact quiet_pure _

private theorem ltr_derefs (u : User α) (ls : List Leaf) (i : Nat) : ∀ (rs : List Nat) (b : Nat), (∀ r ∈ rs, b ≤ r) → rs.Pairwise (· < ·) →
    Good (each (UserOps.leafDeref u i ls) rs) (fun es _ => ∃ c, ∀ y, leftToRight c y → leftToRight b (es ++ y)) fun es _ => leftToRight b es
  | [], b, _, _ => (good_pure _).mono (by rintro es _ ⟨rfl, -⟩; exact ⟨b, fun y h => h⟩) (by simp)
  | r :: rs, b, hb, hp => by
    rw [List.pairwise_cons] at hp
    have hr := hb r (List.mem_cons_self ..)
    have hob : ∀ (v : Val α) (y : List (Event α)), leftToRight (r + 1) y → leftToRight b (obtained r v ++ y) := by
      intro v y hy
      cases v with
      | elem a => exact ⟨hr, hy⟩
      | cell => exact ltr_mono (by omega) hy
      | index => exact ltr_mono (by omega) hy
    refine (good_andThen (good_deref u ls i r) fun e v _ => good_andThen (ltr_derefs u ls i rs (r + 1) (fun q hq => hp.1 q hq) hp.2) fun es bs _ => good_pure _).mono ?_ ?_
    · rintro es w ⟨e1, e2, v, rfl, ⟨-, rfl⟩, e3, e4, bs, rfl, ⟨c, hc⟩, rfl, -⟩
      refine ⟨c, fun y hy => ?_⟩
      rw [List.append_nil, List.append_assoc]
      exact hob v _ (hc y hy)
    · rintro es s (⟨-, rfl, -⟩ | ⟨e1, e2, v, rfl, ⟨-, rfl⟩, h | ⟨_, _, _, _, _, h⟩⟩)
      · exact ⟨hr, trivial⟩
      · exact hob v _ h
      · exact h.elim

private theorem ltr_zipLoop (u : User α) (ls : List Leaf) (size : Int) : ∀ fuel i,
    Good (UserOps.zipLoop u ls size fuel i) (fun es _ => leftToRight 0 es) fun es _ => leftToRight 0 es
  | 0, _ => (good_stop _).mono (by simp) (by rintro es _ ⟨rfl, -⟩; trivial)
  | fuel + 1, i => by
    unfold UserOps.zipLoop
    by_cases hi : (i : Int) = size
    · rw [if_pos hi]
      exact (good_pure _).mono (by rintro es _ ⟨rfl, -⟩; trivial) (by simp)
    rw [if_neg hi]
    have hrest : ∀ go : Bool, Good (if go then andThen (each (UserOps.leafInc u ls) (List.range ls.length)) fun _ => UserOps.zipLoop u ls size fuel (i + 1) else pure' false)
        (fun es _ => leftToRight 0 es) fun es _ => leftToRight 0 es := by
      intro go
      cases go with
      | false => exact (good_pure _).mono (by rintro es _ ⟨rfl, -⟩; trivial) (by simp)
      | true =>
        rw [if_pos rfl]
        refine (good_andThen (quiet_each (quiet_inc u ls) _) fun _ _ _ => ltr_zipLoop u ls size fuel (i + 1)).mono ?_ ?_
        · rintro es c ⟨e1, e2, b, rfl, h1, h2⟩
          exact ltr_quiet e2 h1 h2
        · rintro es s (h | ⟨e1, e2, b, rfl, h1, h2⟩)
          · have := ltr_quiet (b := 0) [] h trivial
            rwa [List.append_nil] at this
          · exact ltr_quiet e2 h1 h2
    refine (good_andThen (ltr_derefs u ls i (List.range ls.length) 0 (by simp) List.pairwise_lt_range) fun e1 vs _ =>
      good_andThen (good_ask u (.call (assemble ls.length vs))) fun _ (go : Bool) _ => hrest go).mono ?_ ?_
    · rintro es c ⟨e1, e2, vs, rfl, ⟨c, hc⟩, e3, e4, go, rfl, rfl, h⟩
      exact hc _ h
    · rintro es s (h | ⟨e1, e2, vs, rfl, ⟨c, hc⟩, ⟨rfl, -⟩ | ⟨e3, e4, go, rfl, rfl, h⟩⟩)
      · exact h
      · exact hc _ trivial
      · exact hc _ h

private theorem ltr_after {m : Act α β} {f : β → Act α Bool} (hm : QuietAct m) (hf : ∀ b, Good (f b) (fun es _ => leftToRight 0 es) fun es _ => leftToRight 0 es) :
    Good (andThen m f) (fun es _ => leftToRight 0 es) fun es _ => leftToRight 0 es := by
  refine (good_andThen hm fun _ b _ => hf b).mono ?_ ?_
  · rintro es c ⟨e1, e2, b, rfl, h1, h2⟩
    exact ltr_quiet e2 h1 h2
  · rintro es s (h | ⟨e1, e2, b, rfl, h1, h2⟩)
    · have := ltr_quiet (b := 0) [] h trivial
      rwa [List.append_nil] at this
    · exact ltr_quiet e2 h1 h2

/-- `*it` of an iterator of a `range_zip(...)` obtains the elements from left to right: this is a braced list, unlike the other algorithms, where the order is unspecified. -/
theorem C154_zip_order (u : User α) (ls : List Leaf) (ord : Orders) (fuel : Nat) : leftToRight 0 (zipIterate u ls ord fuel []).1 := by
  have hstop : ∀ s, Good (stop s : Act α Bool) (fun es _ => leftToRight 0 es) fun es _ => leftToRight 0 es :=
    fun s => (good_stop s).mono (by simp) (by rintro es _ ⟨rfl, -⟩; trivial)
  have : Good (zipIterate u ls ord fuel) (fun es _ => leftToRight 0 es) fun es _ => leftToRight 0 es := by
    unfold zipIterate
    refine ltr_after (quiet_each (quiet_size u ls) _) fun sizes => ?_
    split
    · exact hstop _
    · exact hstop _
    · split
      · exact hstop _
      · exact ltr_after (quiet_each (quiet_start u ls) _) fun _ => ltr_after (quiet_each (quiet_leafStop u ls) _) fun _ => ltr_zipLoop u ls _ fuel 0
  obtain ⟨es, h1, h2, h3⟩ := this []
  rw [h1, List.nil_append]
  rcases h : (zipIterate u ls ord fuel []).2 with b | s
  · exact h2 b h
  · exact h3 s h

end Makeshift.Props
