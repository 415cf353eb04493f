import Verif.Spec.ChangingRange
import Verif.Props.MergeSizes
import Mathlib.Data.List.Basic

/-! Helper lemmas for functors which change the containers an algorithm runs over. -/

namespace Makeshift.ChangingRange

open Makeshift.ChangingRange.Spec

variable {α σ β : Type}

theorem valueOf_isSome (l : List (Nat × α)) (id : Nat) : (valueOf id l).isSome = true ↔ id ∈ l.map (·.1) := by
  induction l with
  | nil => simp [valueOf]
  | cons x l ih =>
    obtain ⟨j, v⟩ := x
    unfold valueOf
    by_cases h : j = id
    · simp [h]
    · simp [h, ih, Ne.symm h]

theorem valueOf_split {pre post : List (Nat × α)} {id : Nat} {v : α} (hp : id ∉ pre.map (·.1)) : valueOf id (pre ++ (id, v) :: post) = some v := by
  induction pre with
  | nil => simp [valueOf]
  | cons x l ih =>
    obtain ⟨j, u⟩ := x
    simp only [List.map_cons, List.mem_cons, not_or] at hp
    simp only [List.cons_append, valueOf]
    rw [if_neg (Ne.symm hp.1)]
    exact ih hp.2

theorem after_split {pre post : List (Nat × α)} {id : Nat} {v : α} (hp : id ∉ pre.map (·.1)) :
    after id (pre ++ (id, v) :: post) = some (post.head?.map (·.1)) := by
  induction pre with
  | nil => simp [after]
  | cons x l ih =>
    obtain ⟨j, u⟩ := x
    simp only [List.map_cons, List.mem_cons, not_or] at hp
    simp only [List.cons_append, after]
    rw [if_neg (Ne.symm hp.1)]
    exact ih hp.2

theorem valueOf_some {l : List (Nat × α)} {id : Nat} {v : α} (h : valueOf id l = some v) :
    ∃ pre post, l = pre ++ (id, v) :: post ∧ id ∉ pre.map (·.1) := by
  induction l with
  | nil => cases h
  | cons x l ih =>
    obtain ⟨j, u⟩ := x
    unfold valueOf at h
    by_cases hj : j = id
    · rw [if_pos hj] at h
      cases h
      exact ⟨[], l, by simp [hj], by simp⟩
    · rw [if_neg hj] at h
      obtain ⟨pre, post, rfl, hp⟩ := ih h
      exact ⟨(j, u) :: pre, post, rfl, by simp [hp, Ne.symm hj]⟩

theorem after_some {l : List (Nat × α)} {id : Nat} {q : Option Nat} (h : after id l = some q) :
    ∃ pre v post, l = pre ++ (id, v) :: post ∧ id ∉ pre.map (·.1) ∧ q = post.head?.map (·.1) := by
  induction l with
  | nil => cases h
  | cons x l ih =>
    obtain ⟨j, u⟩ := x
    unfold after at h
    by_cases hj : j = id
    · rw [if_pos hj] at h
      cases h
      exact ⟨[], u, l, by simp [hj], by simp, rfl⟩
    · rw [if_neg hj] at h
      obtain ⟨pre, v, post, rfl, hp, hq⟩ := ih h
      exact ⟨(j, u) :: pre, v, post, rfl, by simp [hp]; omega, hq⟩

/-- The node number `i` of a list. -/
theorem at_index {l : List (Nat × α)} {n i : Nat} {x : Nat × α} (hn : ((l.map (·.1)).take n).Nodup) (hi : i < n) (hx : l[i]? = some x) :
    valueOf x.1 l = some x.2 ∧ after x.1 l = some (l[i + 1]?.map (·.1)) := by
  obtain ⟨hil, rfl⟩ := List.getElem?_eq_some_iff.mp hx
  have hsplit : l = l.take i ++ l[i] :: l.drop (i + 1) := by
    rw [List.getElem_cons_drop, List.take_append_drop]
  have hp : l[i].1 ∉ (l.take i).map (·.1) := by
    intro hm
    rw [List.map_take] at hm
    obtain ⟨j, hj⟩ := List.getElem?_of_mem hm
    rw [List.getElem?_take] at hj
    split at hj
    · rename_i hji
      have h1 : ((l.map (·.1)).take n)[j]? = some l[i].1 := by rw [List.getElem?_take, if_pos (by omega), hj]
      have h2 : ((l.map (·.1)).take n)[i]? = some l[i].1 := by
        rw [List.getElem?_take, if_pos hi, List.getElem?_map, hx]; rfl
      obtain ⟨hj1, hj2⟩ := List.getElem?_eq_some_iff.mp h1
      obtain ⟨hi1, hi2⟩ := List.getElem?_eq_some_iff.mp h2
      have := (List.Nodup.getElem_inj_iff hn (hi := hj1) (hj := hi1)).mp (by rw [hj2, hi2])
      omega
    · cases hj
  have hv := valueOf_split (post := l.drop (i + 1)) (v := l[i].2) hp
  have ha := after_split (post := l.drop (i + 1)) (v := l[i].2) hp
  rw [show (l[i].1, l[i].2) = l[i] from rfl, ← hsplit] at hv ha
  exact ⟨hv, by rw [ha]; simp⟩

/-- The position of a leaf at the element number `i`. -/
def PosAt (w : World α) (i : Nat) : Leaf → Pos → Prop
  | .forwardList c, p => p = .node ((w.lists c)[i]?.map (·.1))
  | .list c, p => p = .node ((w.lists c)[i]?.map (·.1))
  | .vector c, p => p = .ptr (w.vecs c).block
  | .index, _ => True

/-- The same for all leaves. -/
inductive PosAll (w : World α) (i : Nat) : List Leaf → List Pos → Prop
  | nil : PosAll w i [] []
  | cons {l p ls ps} : PosAt w i l p → PosAll w i ls ps → PosAll w i (l :: ls) (p :: ps)

theorem start_pos (w : World α) : ∀ ls : List Leaf, PosAll w 0 ls (ls.map (Leaf.start w))
  | [] => .nil
  | l :: ls => by
    refine .cons ?_ (start_pos w ls)
    cases l <;> simp [PosAt, Leaf.start, List.head?_eq_getElem?]

theorem node_at {n i : Nat} {w0 w : World α} {c : Nat} (h : n ≤ (nodes w0 c).length ∧ (nodes w c).take n = (nodes w0 c).take n) (hi : i < n) :
    ∃ x, (w.lists c)[i]? = some x ∧ (nodes w0 c)[i]? = some x.1 := by
  obtain ⟨h1, h2⟩ := h
  have h3 : (nodes w0 c)[i]? = (nodes w c)[i]? := by
    have := congrArg (·[i]?) h2
    simpa [List.getElem?_take, hi] using this.symm
  have h4 : i < (nodes w0 c).length := by omega
  rw [List.getElem?_eq_getElem h4] at h3
  unfold nodes at h3
  rw [List.getElem?_map] at h3
  cases hx : (w.lists c)[i]? with
  | none => rw [hx] at h3; cases h3
  | some x =>
    rw [hx] at h3
    refine ⟨x, rfl, ?_⟩
    rw [List.getElem?_eq_getElem h4]
    exact h3

theorem deref_at {n i : Nat} {w0 w : World α} {l : Leaf} {p : Pos} (hin : InPlace n w0 w l) (hf : Fresh n w0 l) (hi : i < n) (hp : PosAt w i l p) :
    ∃ r, l.deref w i p = .ok r ∧ elemAt w i l = some r := by
  have node : ∀ c, n ≤ (nodes w0 c).length ∧ (nodes w c).take n = (nodes w0 c).take n → ((nodes w0 c).take n).Nodup →
      ∃ r, nodeDeref c (w.lists c) ((w.lists c)[i]?.map (·.1)) = .ok r ∧ (w.lists c)[i]?.map (fun x => Ref.node c x.1 x.2) = some r := by
    intro c h hf
    obtain ⟨x, hx, -⟩ := node_at h hi
    have := (at_index (n := n) (by rw [show (w.lists c).map (·.1) = nodes w c from rfl, h.2]; exact hf) hi hx).1
    exact ⟨.node c x.1 x.2, by simp [hx, nodeDeref, this], by simp [hx]⟩
  cases l with
  | forwardList c => cases hp; exact node c hin hf
  | list c => cases hp; exact node c hin hf
  | vector c =>
    cases hp
    obtain ⟨-, h2⟩ := hin
    have h3 : i < (w.vecs c).elems.length := by omega
    refine ⟨.cell c i (w.vecs c).elems[i], ?_, ?_⟩
    · simp [Leaf.deref, List.getElem?_eq_getElem h3]
    · simp [elemAt, List.getElem?_eq_getElem h3]
  | index => exact ⟨.idx i, by cases p <;> rfl, rfl⟩

theorem derefs_at {n i : Nat} {w0 w : World α} {ls : List Leaf} {ps : List Pos} (hp : PosAll w i ls ps) (hin : ∀ l ∈ ls, InPlace n w0 w l)
    (hf : ∀ l ∈ ls, Fresh n w0 l) (hi : i < n) :
    ∃ args, forAll (Leaf.deref w i) ls ps = .ok args ∧ ls.mapM (elemAt w i) = some args := by
  induction hp with
  | nil => exact ⟨[], rfl, rfl⟩
  | @cons l p ls ps h _ ih =>
    obtain ⟨r, h1, h2⟩ := deref_at (hin l (by simp)) (hf l (by simp)) hi h
    obtain ⟨args, h3, h4⟩ := ih (fun l hl => hin l (by simp [hl])) (fun l hl => hf l (by simp [hl]))
    exact ⟨r :: args, by simp [forAll, h1, h3, Outcome.bind, Outcome.mapVal], by simp [h2, h4]⟩

theorem inc_at {n i : Nat} {w0 w w' : World α} {l : Leaf} {p : Pos} (hin : InPlace n w0 w l) (hin' : InPlace n w0 w' l) (hf : Fresh n w0 l) (hi : i < n)
    (hp : PosAt w i l p) : ∃ p', l.inc w' p = .ok p' ∧ PosAt w' (i + 1) l p' := by
  have node : ∀ c, n ≤ (nodes w0 c).length ∧ (nodes w c).take n = (nodes w0 c).take n →
      n ≤ (nodes w0 c).length ∧ (nodes w' c).take n = (nodes w0 c).take n → ((nodes w0 c).take n).Nodup →
      nodeInc (w'.lists c) ((w.lists c)[i]?.map (·.1)) = .ok (.node ((w'.lists c)[i + 1]?.map (·.1))) := by
    intro c h h' hf
    obtain ⟨x, hx, hx0⟩ := node_at h hi
    obtain ⟨y, hy, hy0⟩ := node_at h' hi
    have hxy : x.1 = y.1 := by rw [hx0] at hy0; exact Option.some.inj hy0
    have := (at_index (n := n) (by rw [show (w'.lists c).map (·.1) = nodes w' c from rfl, h'.2]; exact hf) hi hy).2
    simp [hx, nodeInc, hxy, this]
  cases l with
  | forwardList c => cases hp; exact ⟨_, node c hin hin' hf, rfl⟩
  | list c => cases hp; exact ⟨_, node c hin hin' hf, rfl⟩
  | vector c =>
    cases hp
    refine ⟨_, rfl, ?_⟩
    show Pos.ptr _ = Pos.ptr _
    rw [hin.1, hin'.1]
  | index => exact ⟨p, by cases p <;> rfl, trivial⟩

theorem incs_at {n i : Nat} {w0 w w' : World α} {ls : List Leaf} {ps : List Pos} (hp : PosAll w i ls ps) (hin : ∀ l ∈ ls, InPlace n w0 w l)
    (hin' : ∀ l ∈ ls, InPlace n w0 w' l) (hf : ∀ l ∈ ls, Fresh n w0 l) (hi : i < n) :
    ∃ ps', forAll (Leaf.inc w') ls ps = .ok ps' ∧ PosAll w' (i + 1) ls ps' := by
  induction hp with
  | nil => exact ⟨[], rfl, .nil⟩
  | @cons l p ls ps h _ ih =>
    obtain ⟨p', h1, h2⟩ := inc_at (hin l (by simp)) (hin' l (by simp)) (hf l (by simp)) hi h
    obtain ⟨ps', h3, h4⟩ := ih (fun l hl => hin l (by simp [hl])) (fun l hl => hin' l (by simp [hl])) (fun l hl => hf l (by simp [hl]))
    exact ⟨p' :: ps', by simp [forAll, h1, h3, Outcome.bind, Outcome.mapVal], .cons h2 h4⟩

theorem nodeIsEnd_at (w : World α) (c i : Nat) :
    nodeIsEnd (w.lists c) ((w.lists c)[i]?.map (·.1)) = .ok (decide ((w.lists c).length ≤ i)) := by
  cases hx : (w.lists c)[i]? with
  | none =>
    have := List.getElem?_eq_none_iff.mp hx
    simp [nodeIsEnd, this]
  | some x =>
    obtain ⟨h1, h2⟩ := List.getElem?_eq_some_iff.mp hx
    have h3 : (valueOf x.1 (w.lists c)).isSome = true := by
      rw [valueOf_isSome]
      exact List.mem_map.mpr ⟨x, by rw [← h2]; exact List.getElem_mem h1, rfl⟩
    simp [nodeIsEnd, h3]
    omega

/-- Comparing to the sentinel before the last element. -/
theorem check_before {n i : Nat} {w0 w : World α} {ls : List Leaf} {ps : List Pos} (hp : PosAll w i ls ps) (hin : ∀ l ∈ ls, InPlace n w0 w l) (hi : i < n) :
    ∃ us, forAll (Leaf.checkEnd w false) ls ps = .ok us := by
  induction hp with
  | nil => exact ⟨[], rfl⟩
  | @cons l p ls ps h _ ih =>
    obtain ⟨us, h1⟩ := ih (fun l hl => hin l (by simp [hl]))
    refine ⟨() :: us, ?_⟩
    have : l.checkEnd w false p = .ok () := by
      cases l with
      | forwardList c =>
        cases h
        obtain ⟨x, hx, -⟩ := node_at (hin (.forwardList c) (by simp)) hi
        have := (List.getElem?_eq_some_iff.mp hx).1
        simp only [Leaf.checkEnd, nodeIsEnd_at, Outcome.bind]
        rw [show decide ((w.lists c).length ≤ i) = false by simp; omega]
        rfl
      | list c => rfl
      | vector c => rfl
      | index => rfl
    simp [forAll, this, h1, Outcome.bind, Outcome.mapVal]

/-- Comparing to the sentinel after the last element. -/
theorem check_end {n : Nat} {w0 w : World α} {ls : List Leaf} {ps : List Pos} (hp : PosAll w n ls ps) (hin : ∀ l ∈ ls, InPlace n w0 w l) :
    ((∀ c, Leaf.forwardList c ∈ ls → (w.lists c).length = n) → ∃ us, forAll (Leaf.checkEnd w true) ls ps = .ok us) ∧
    ((∃ c, Leaf.forwardList c ∈ ls ∧ (w.lists c).length ≠ n) → forAll (Leaf.checkEnd w true) ls ps = .failFast) := by
  induction hp with
  | nil => exact ⟨fun _ => ⟨[], rfl⟩, fun ⟨c, hc, _⟩ => by cases hc⟩
  | @cons l p ls ps h _ ih =>
    obtain ⟨h1, h2⟩ := ih (fun l hl => hin l (by simp [hl]))
    have key : (∀ c, l = .forwardList c → (w.lists c).length = n) ∧ l.checkEnd w true p = .ok () ∨
        (∃ c, l = .forwardList c ∧ (w.lists c).length ≠ n) ∧ l.checkEnd w true p = .failFast := by
      cases l with
      | forwardList c =>
        cases h
        have hle : n ≤ (w.lists c).length := by
          obtain ⟨ha, hb⟩ := hin (.forwardList c) (by simp)
          have := congrArg List.length hb
          simp only [List.length_take] at this
          have hn : (nodes w c).length = (w.lists c).length := by simp [nodes]
          omega
        simp only [Leaf.checkEnd, nodeIsEnd_at, Outcome.bind]
        by_cases he : (w.lists c).length = n
        · left
          refine ⟨by rintro _ ⟨⟩; exact he, ?_⟩
          rw [show decide ((w.lists c).length ≤ n) = true by simp; omega]; rfl
        · right
          refine ⟨⟨c, rfl, he⟩, ?_⟩
          rw [show decide ((w.lists c).length ≤ n) = false by simp; omega]; rfl
      | list c => exact .inl ⟨by rintro _ ⟨⟩, rfl⟩
      | vector c => exact .inl ⟨by rintro _ ⟨⟩, rfl⟩
      | index => exact .inl ⟨by rintro _ ⟨⟩, rfl⟩
    constructor
    · intro hall
      rcases key with ⟨-, hk⟩ | ⟨⟨c, rfl, hk⟩, -⟩
      · obtain ⟨us, hus⟩ := h1 fun c hc => hall c (by simp [hc])
        exact ⟨() :: us, by simp [forAll, hk, hus, Outcome.bind, Outcome.mapVal]⟩
      · exact absurd (hall c (by simp)) hk
    · rintro ⟨c, hc, hne⟩
      rcases key with ⟨hl, hk⟩ | ⟨-, hk⟩
      · rcases List.mem_cons.mp hc with hc | hc
        · exact absurd (hl c hc.symm) hne
        · simp [forAll, hk, h2 ⟨c, hc, hne⟩, Outcome.bind, Outcome.mapVal]
      · simp [forAll, hk, Outcome.bind]

/-- What the loop by size comes to. -/
def endOf (ls : List Leaf) (n : Nat) (early : Bool) (w : World α) (r : Result (World α × σ)) (s : σ) : Prop :=
  ((early = true ∨ ∀ c, Leaf.forwardList c ∈ ls → (w.lists c).length = n) → r = .done (w, s) (.ok ())) ∧
  (early = false → (∃ c, Leaf.forwardList c ∈ ls ∧ (w.lists c).length ≠ n) → r = .done (w, s) .failFast)

theorem loop_by_size {n : Nat} {w0 : World α} {ls : List Leaf} {size : Size} {body : Body α σ} (hsz : size.value = n) (hsu : size ≠ .static unknownSize)
    (Inv : Nat → World α → σ → Prop) (hin : ∀ i w s, Inv i w s → ∀ l ∈ ls, InPlace n w0 w l) (hf : ∀ l ∈ ls, Fresh n w0 l)
    (hb : ∀ i w s args w' s', Inv i w s → i < n → ls.mapM (elemAt w i) = some args → body w s args = (w', s', true) → Inv (i + 1) w' s') :
    ∀ (k i : Nat) (w : World α) (s : σ) (ps : List Pos), i + k = n → Inv i w s → PosAll w i ls ps →
    ∃ w' s' early, ByIndex ls body n i w s w' s' early ∧
      (∀ fuel, k < fuel → endOf ls n early w' (loop ls size body fuel ⟨i, ps⟩ w s) s') ∧
      (∀ fuel, k < fuel → commonLoop ls n body fuel ⟨i, ps⟩ w s = .done (w', s') (.ok ())) := by
  intro k
  induction k with
  | zero =>
    intro i w s ps hk hi hp
    obtain rfl : i = n := by omega
    refine ⟨w, s, false, .finished, ?_, ?_⟩
    · intro fuel hfuel
      obtain ⟨fuel, rfl⟩ : ∃ m, fuel = m + 1 := ⟨fuel - 1, by omega⟩
      obtain ⟨h1, h2⟩ := check_end hp (hin _ _ _ hi)
      constructor
      · rintro (h | h)
        · cases h
        · obtain ⟨us, hus⟩ := h1 h
          simp [loop, It.isEnd, hsu, hsz, hus, Outcome.mapVal, finish]
      · intro _ h
        simp [loop, It.isEnd, hsu, hsz, h2 h, Outcome.mapVal, finish]
    · intro fuel hfuel
      obtain ⟨fuel, rfl⟩ : ∃ m, fuel = m + 1 := ⟨fuel - 1, by omega⟩
      simp [commonLoop]
  | succ k ih =>
    intro i w s ps hk hi hp
    have hlt : i < n := by omega
    have hne : ¬ (i : Int) = n := by omega
    obtain ⟨us, hus⟩ := check_before hp (hin _ _ _ hi) hlt
    obtain ⟨args, hargs, hmap⟩ := derefs_at hp (hin _ _ _ hi) hf hlt
    cases hbody : body w s args with
    | mk w' r =>
      obtain ⟨s', go⟩ := r
      cases go with
      | false =>
        refine ⟨w', s', true, .returned hlt hmap hbody, ?_, ?_⟩
        · intro fuel hfuel
          obtain ⟨fuel, rfl⟩ : ∃ m, fuel = m + 1 := ⟨fuel - 1, by omega⟩
          refine ⟨fun _ => ?_, by simp⟩
          simp [loop, It.isEnd, hsu, hsz, hne, hus, Outcome.mapVal, It.deref, hargs, hbody]
        · intro fuel hfuel
          obtain ⟨fuel, rfl⟩ : ∃ m, fuel = m + 1 := ⟨fuel - 1, by omega⟩
          simp [commonLoop, hne, It.deref, hargs, hbody]
      | true =>
        have hi' := hb i w s args w' s' hi hlt hmap hbody
        obtain ⟨ps', hps', hp'⟩ := incs_at hp (hin _ _ _ hi) (hin _ _ _ hi') hf hlt
        obtain ⟨w'', s'', early, h1, h2, h3⟩ := ih (i + 1) w' s' ps' (by omega) hi' hp'
        refine ⟨w'', s'', early, .step hlt hmap hbody h1, ?_, ?_⟩
        · intro fuel hfuel
          obtain ⟨fuel, rfl⟩ : ∃ m, fuel = m + 1 := ⟨fuel - 1, by omega⟩
          have := h2 fuel (by omega)
          simpa [loop, It.isEnd, hsu, hsz, hne, hus, Outcome.mapVal, It.deref, hargs, hbody, It.inc, hps'] using this
        · intro fuel hfuel
          obtain ⟨fuel, rfl⟩ : ∃ m, fuel = m + 1 := ⟨fuel - 1, by omega⟩
          have := h3 fuel (by omega)
          simpa [commonLoop, hne, It.deref, hargs, hbody, It.inc, hps', Outcome.mapVal] using this

theorem merge_sized {n : Nat} {w : World α} {ls : List Leaf} (hs : ∃ l ∈ ls, sizeNow w l = some n) (hall : ∀ l ∈ ls, ∀ m, sizeNow w l = some m → m = n) :
    ∃ z, mergeSizes (ls.map (Leaf.size w)) = .ok z ∧ z.value = n ∧ z ≠ .static unknownSize := by
  have hk : ∀ l : Leaf, Makeshift.Spec.known (l.size w) = (sizeNow w l).map Int.ofNat := by
    intro l; cases l <;> rfl
  have hi : ∀ s ∈ ls.map (Leaf.size w), Makeshift.Spec.IsSize s := by
    intro s hs
    obtain ⟨l, -, rfl⟩ := List.mem_map.mp hs
    cases l <;> simp [Leaf.size, Makeshift.Spec.IsSize]
  rcases mergeSizes_spec _ hi with ⟨z, hz, hsum⟩ | ⟨-, hinc⟩
  · refine ⟨z, hz, ?_⟩
    obtain ⟨l, hl, hln⟩ := hs
    have := hsum.all (l.size w) (List.mem_map.mpr ⟨l, hl, rfl⟩) n (by rw [hk, hln]; rfl)
    cases z with
    | dyn m => exact ⟨Option.some.inj this, by simp⟩
    | static m =>
      simp only [Makeshift.Spec.known] at this
      split at this
      · cases this
      · rename_i hm
        exact ⟨Option.some.inj this, by simpa using hm⟩
  · refine absurd ?_ hinc
    intro s hs t ht a b ha hb
    obtain ⟨l, hl, rfl⟩ := List.mem_map.mp hs
    obtain ⟨l', hl', rfl⟩ := List.mem_map.mp ht
    rw [hk] at ha hb
    obtain ⟨x, hx, rfl⟩ := Option.map_eq_some_iff.mp ha
    obtain ⟨y, hy, rfl⟩ := Option.map_eq_some_iff.mp hb
    rw [hall l hl x hx, hall l' hl' y hy]

theorem merge_differ {n m : Nat} {w : World α} {ls : List Leaf} {l l' : Leaf} (hl : l ∈ ls) (hl' : l' ∈ ls) (hn : sizeNow w l = some n)
    (hm : sizeNow w l' = some m) (hne : n ≠ m) : mergeSizes (ls.map (Leaf.size w)) = .failFast := by
  have hk : ∀ l : Leaf, Makeshift.Spec.known (l.size w) = (sizeNow w l).map Int.ofNat := by
    intro l; cases l <;> rfl
  have hi : ∀ s ∈ ls.map (Leaf.size w), Makeshift.Spec.IsSize s := by
    intro s hs
    obtain ⟨l, -, rfl⟩ := List.mem_map.mp hs
    cases l <;> simp [Leaf.size, Makeshift.Spec.IsSize]
  cases h : mergeSizes (ls.map (Leaf.size w)) with
  | failFast => rfl
  | staticMismatch =>
    obtain ⟨a, b, ha, -, ha1, -⟩ := mergeSizes_static _ hi h
    obtain ⟨x, -, hx⟩ := List.mem_map.mp ha
    cases x <;> simp_all [Leaf.size, unknownSize]
  | ok z =>
    rcases mergeSizes_spec _ hi with ⟨z', -, hsum⟩ | ⟨hno, -⟩
    · have h1 := hsum.all (l.size w) (List.mem_map.mpr ⟨l, hl, rfl⟩) n (by rw [hk, hn]; rfl)
      have h2 := hsum.all (l'.size w) (List.mem_map.mpr ⟨l', hl', rfl⟩) m (by rw [hk, hm]; rfl)
      rw [h1] at h2
      exact absurd (Int.ofNat.inj (Option.some.inj h2)) hne
    · exact absurd h (hno z)

theorem not_all_index {n : Nat} {w : World α} {ls : List Leaf} (hs : ∃ l ∈ ls, sizeNow w l = some n) : ls.all (fun l => l = .index) = false := by
  obtain ⟨l, hl, h⟩ := hs
  rw [List.all_eq_false]
  exact ⟨l, hl, by cases l <;> simp_all [sizeNow]⟩

theorem sentinel_sized {ls : List Leaf} {z : Size} (h : z ≠ .static unknownSize) : sentinelCompiles ls z = true := by
  simp [sentinelCompiles, h]

/-! One list without a size. -/

theorem algorithm_forward (c : Nat) (body : Body α σ) (fuel : Nat) (w : World α) (s : σ) :
    algorithm [.forwardList c] body fuel w s =
      loop [.forwardList c] (.static unknownSize) body fuel ⟨0, [.node ((w.lists c).head?.map (·.1))]⟩ w s := by
  have h : mergeSizes [Size.static unknownSize] = .ok (.static unknownSize) := by
    rw [mergeSizes]
  simp [algorithm, Leaf.size, h, sentinelCompiles, isEndTy, Leaf.endTy, begin_, Leaf.start]

theorem forward_eq_list (c : Nat) (body : Body α σ) : ∀ (fuel : Nat) (i : Int) (p : Option Nat) (w : World α) (s : σ),
    loop [.forwardList c] (.static unknownSize) body fuel ⟨i, [.node p]⟩ w s = listLoop c body fuel p w s
  | 0, _, _, _, _ => rfl
  | fuel + 1, i, p, w, s => by
    have hend : It.isEnd w [.forwardList c] (.static unknownSize) ⟨i, [.node p]⟩ = nodeIsEnd (w.lists c) p := by
      simp only [It.isEnd, forAll, Leaf.isEnd]
      cases nodeIsEnd (w.lists c) p <;> simp [Outcome.bind, Outcome.mapVal, isEndVal]
    have hderef : It.deref w [.forwardList c] ⟨i, [.node p]⟩ = (nodeDeref c (w.lists c) p).mapVal fun r => [r] := by
      simp only [It.deref, forAll, Leaf.deref]
      cases nodeDeref c (w.lists c) p <;> simp [Outcome.bind, Outcome.mapVal]
    have hinc : ∀ w' : World α, It.inc w' [.forwardList c] ⟨i, [.node p]⟩ = (nodeInc (w'.lists c) p).mapVal fun q => ⟨i + 1, [q]⟩ := by
      intro w'
      simp only [It.inc, forAll, Leaf.inc]
      cases nodeInc (w'.lists c) p <;> simp [Outcome.bind, Outcome.mapVal]
    simp only [loop, listLoop, hend, hderef]
    cases nodeIsEnd (w.lists c) p with
    | throw m => rfl
    | failFast => rfl
    | ub => rfl
    | ok e =>
      cases e with
      | true => rfl
      | false =>
        cases nodeDeref c (w.lists c) p with
        | throw m => rfl
        | failFast => rfl
        | ub => rfl
        | ok r =>
          show (match body w s [r] with
            | (w', s', true) =>
              match It.inc w' [.forwardList c] ⟨i, [.node p]⟩ with
              | .ok it' => loop [.forwardList c] (.static unknownSize) body fuel it' w' s'
              | e => finish (w', s') e
            | (w', s', false) => Result.done (w', s') (.ok ())) =
            (match body w s [r] with
            | (w', s', true) =>
              match nodeInc (w'.lists c) p with
              | .ok (.node q) => listLoop c body fuel q w' s'
              | e => finish (w', s') (e.bind fun _ => (.ub : Outcome Unit))
            | (w', s', false) => .done (w', s') (.ok ()))
          cases hb : body w s [r] with
          | mk w' q =>
            obtain ⟨s', go⟩ := q
            cases go with
            | false => rfl
            | true =>
              simp only [hinc w']
              cases p with
              | none => rfl
              | some id =>
                simp only [nodeInc]
                cases after id (w'.lists c) with
                | none => rfl
                | some q => exact forward_eq_list c body fuel (i + 1) q w' s'

theorem split_unique {l pre post pre' post' : List (Nat × α)} {id : Nat} {v v' : α} (hn : (l.map (·.1)).Nodup) (h : l = pre ++ (id, v) :: post)
    (h' : l = pre' ++ (id, v') :: post') : v = v' ∧ post.head?.map (·.1) = post'.head?.map (·.1) := by
  have hp : ∀ {pre post : List (Nat × α)} {v}, l = pre ++ (id, v) :: post → id ∉ pre.map (·.1) := by
    intro pre post v h hm
    rw [h, List.map_append, List.map_cons, List.nodup_append] at hn
    exact hn.2.2 id hm id (by simp) rfl
  have a1 := valueOf_split (post := post) (v := v) (hp h)
  have a2 := valueOf_split (post := post') (v := v') (hp h')
  have b1 := after_split (post := post) (v := v) (hp h)
  have b2 := after_split (post := post') (v := v') (hp h')
  rw [← h] at a1 b1
  rw [← h'] at a2 b2
  rw [a1] at a2
  rw [b1] at b2
  exact ⟨Option.some.inj a2, Option.some.inj b2⟩

theorem listLoop_some {c : Nat} {body : Body α σ} {fuel id : Nat} {w : World α} {s : σ} {pre post : List (Nat × α)} {v : α} (hd : Distinct w)
    (hw : w.lists c = pre ++ (id, v) :: post) : listLoop c body (fuel + 1) (some id) w s =
      match body w s [.node c id v] with
      | (w', s', true) =>
        match nodeInc (w'.lists c) (some id) with
        | .ok (.node q) => listLoop c body fuel q w' s'
        | e => finish (w', s') (e.bind fun _ => (.ub : Outcome Unit))
      | (w', s', false) => .done (w', s') (.ok ()) := by
  have hp : id ∉ pre.map (·.1) := by
    have hn := hd c
    unfold nodes at hn
    rw [hw, List.map_append, List.map_cons, List.nodup_append] at hn
    intro hm
    exact hn.2.2 id hm id (by simp) rfl
  have hv := valueOf_split (post := post) (v := v) hp
  rw [← hw] at hv
  simp only [listLoop, nodeIsEnd, nodeDeref, hv, Option.isSome_some, if_true]
  rfl

theorem nodeInc_some {l pre post : List (Nat × α)} {id : Nat} {v : α} (hn : (l.map (·.1)).Nodup) (h : l = pre ++ (id, v) :: post) :
    nodeInc l (some id) = .ok (.node (post.head?.map (·.1))) := by
  have hp : id ∉ pre.map (·.1) := by
    rw [h, List.map_append, List.map_cons, List.nodup_append] at hn
    intro hm
    exact hn.2.2 id hm id (by simp) rfl
  have ha := after_split (post := post) (v := v) hp
  rw [← h] at ha
  simp [nodeInc, ha]

theorem nodeInc_erased {l : List (Nat × α)} {id : Nat} (h : id ∉ l.map (·.1)) : nodeInc l (some id) = .ub := by
  cases ha : after id l with
  | none => simp [nodeInc, ha]
  | some q =>
    obtain ⟨pre, v, post, rfl, -, -⟩ := after_some ha
    exact absurd (by simp) h

theorem follow_runs {c : Nat} {body : Body α σ} (hb : KeepsDistinct body) {p : Option Nat} {w w' : World α} {s s' : σ} (h : Following c body p w s w' s')
    (hd : Distinct w) : ∃ fuel, listLoop c body fuel p w s = .done (w', s') (.ok ()) := by
  induction h with
  | atEnd => exact ⟨1, rfl⟩
  | @step id v v' pre post pre' post' w s w' s' w'' s'' h1 h2 h3 _ ih =>
    have hd' : Distinct w' := by have := hb w s [.node c id v] hd; rwa [h2] at this
    obtain ⟨fuel, hfuel⟩ := ih hd'
    refine ⟨fuel + 1, ?_⟩
    rw [listLoop_some hd h1, h2]
    simp only [nodeInc_some (hd' c) h3]
    exact hfuel
  | @returned id v pre post w s w' s' h1 h2 => exact ⟨1, by rw [listLoop_some hd h1, h2]⟩

theorem erasing_runs {c : Nat} {body : Body α σ} (hb : KeepsDistinct body) {p : Option Nat} {w w' : World α} {s s' : σ} (h : Erasing c body p w s w' s')
    (hd : Distinct w) : ∃ fuel, listLoop c body fuel p w s = .done (w', s') .ub := by
  induction h with
  | @step id v v' pre post pre' post' w s w' s' w'' s'' h1 h2 h3 _ ih =>
    have hd' : Distinct w' := by have := hb w s [.node c id v] hd; rwa [h2] at this
    obtain ⟨fuel, hfuel⟩ := ih hd'
    refine ⟨fuel + 1, ?_⟩
    rw [listLoop_some hd h1, h2]
    simp only [nodeInc_some (hd' c) h3]
    exact hfuel
  | @erased id v pre post w s w' s' h1 h2 h3 =>
    refine ⟨1, ?_⟩
    rw [listLoop_some hd h1, h2]
    simp only [nodeInc_erased h3, Outcome.bind, finish]

theorem listLoop_done {c : Nat} {body : Body α σ} (hb : KeepsDistinct body) : ∀ (fuel : Nat) (p : Option Nat) (w : World α) (s : σ) (w' : World α) (s' : σ)
    (out : Outcome Unit), Distinct w → (∀ id, p = some id → id ∈ nodes w c) → listLoop c body fuel p w s = .done (w', s') out →
    (out = .ok () ∧ Following c body p w s w' s') ∨ (out = .ub ∧ Erasing c body p w s w' s')
  | 0, _, _, _, _, _, _, _, _, h => by cases h
  | fuel + 1, none, w, s, w', s', out, _, _, h => by
    simp only [listLoop, nodeIsEnd, finish, Result.done.injEq, Prod.mk.injEq] at h
    obtain ⟨⟨rfl, rfl⟩, rfl⟩ := h
    exact .inl ⟨rfl, .atEnd⟩
  | fuel + 1, some id, w, s, w', s', out, hd, hm, h => by
    obtain ⟨x, hx, hxid⟩ := List.mem_map.mp (hm id rfl)
    obtain ⟨pre, post, hw⟩ := List.append_of_mem hx
    obtain ⟨j, v⟩ := x
    cases hxid
    rw [listLoop_some hd hw] at h
    cases hbody : body w s [.node c j v] with
    | mk w1 r =>
      obtain ⟨s1, go⟩ := r
      rw [hbody] at h
      cases go with
      | false =>
        simp only [Result.done.injEq, Prod.mk.injEq] at h
        obtain ⟨⟨rfl, rfl⟩, rfl⟩ := h
        exact .inl ⟨rfl, .returned hw hbody⟩
      | true =>
        have hd1 : Distinct w1 := by have := hb w s [.node c j v] hd; rwa [hbody] at this
        by_cases hj : j ∈ nodes w1 c
        · obtain ⟨y, hy, hyj⟩ := List.mem_map.mp hj
          obtain ⟨pre1, post1, hw1⟩ := List.append_of_mem hy
          obtain ⟨j', v1⟩ := y
          cases hyj
          simp only [nodeInc_some (hd1 c) hw1] at h
          have hm1 : ∀ id, post1.head?.map (·.1) = some id → id ∈ nodes w1 c := by
            intro id hid
            obtain ⟨z, hz, rfl⟩ := Option.map_eq_some_iff.mp hid
            unfold nodes
            rw [hw1]
            have := List.mem_of_mem_head? hz
            simp only [List.map_append, List.map_cons, List.mem_append, List.mem_cons]
            exact .inr (.inr (List.mem_map.mpr ⟨z, this, rfl⟩))
          rcases listLoop_done hb fuel _ w1 s1 w' s' out hd1 hm1 h with ⟨h1, h2⟩ | ⟨h1, h2⟩
          · exact .inl ⟨h1, .step hw hbody hw1 h2⟩
          · exact .inr ⟨h1, .step hw hbody hw1 h2⟩
        · simp only [nodeInc_erased hj, Outcome.bind, finish, Result.done.injEq, Prod.mk.injEq] at h
          obtain ⟨⟨rfl, rfl⟩, rfl⟩ := h
          exact .inr ⟨rfl, .erased hw hbody hj⟩

theorem listLoop_diverges {c : Nat} {body : Body α σ} (hb : KeepsDistinct body)
    (hg : ∀ w s id v, (id, v) ∈ w.lists c → ∃ w' s' pre v' x post, body w s [.node c id v] = (w', s', true) ∧ w'.lists c = pre ++ (id, v') :: x :: post) :
    ∀ (fuel id : Nat) (w : World α) (s : σ), Distinct w → id ∈ nodes w c → listLoop c body fuel (some id) w s = .unfinished
  | 0, _, _, _, _, _ => rfl
  | fuel + 1, id, w, s, hd, hm => by
    obtain ⟨⟨j, v⟩, hx, rfl⟩ := List.mem_map.mp hm
    obtain ⟨pre, post, hw⟩ := List.append_of_mem hx
    obtain ⟨w', s', pre', v', x, post', h1, h2⟩ := hg w s j v hx
    have hd' : Distinct w' := by have := hb w s [.node c j v] hd; rwa [h1] at this
    rw [listLoop_some hd hw, h1]
    simp only [nodeInc_some (hd' c) h2, List.head?_cons, Option.map_some]
    exact listLoop_diverges hb hg fuel x.1 w' s' hd' (by simp [nodes, h2])

theorem vectorLoop_kept {c : Nat} {w0 : World α} {reduce : World α → σ → Ref α → World α × σ} {n : Nat} (hn : n = (w0.vecs c).elems.length)
    (Inv : Nat → World α → σ → Prop)
    (hin : ∀ i w s, Inv i w s → (w.vecs c).block = (w0.vecs c).block ∧ (w.vecs c).elems.length = (w0.vecs c).elems.length)
    (hb : ∀ i w s v, Inv i w s → (w.vecs c).elems[i]? = some v → Inv (i + 1) (reduce w s (.cell c i v)).1 (reduce w s (.cell c i v)).2) :
    ∀ (k i : Nat) (w : World α) (s : σ), i + k = n → Inv i w s →
    ∃ w' s', ByIndex [.vector c] (always reduce) n i w s w' s' false ∧
      ∀ fuel, k < fuel → vectorLoop c (w0.vecs c).block n reduce fuel i w s = .done (w', s') (.ok ()) := by
  intro k
  induction k with
  | zero =>
    intro i w s hk hi
    obtain rfl : i = n := by omega
    obtain ⟨h1, h2⟩ := hin _ _ _ hi
    refine ⟨w, s, .finished, fun fuel hf => ?_⟩
    obtain ⟨fuel, rfl⟩ : ∃ m, fuel = m + 1 := ⟨fuel - 1, by omega⟩
    have h3 : (w.vecs c).elems[i]? = none := by rw [List.getElem?_eq_none_iff]; omega
    have h4 : i = (w.vecs c).elems.length := by omega
    simp only [vectorLoop, h1, h3]
    simp [← h4]
  | succ k ih =>
    intro i w s hk hi
    obtain ⟨h1, h2⟩ := hin _ _ _ hi
    have h3 : i < (w.vecs c).elems.length := by omega
    obtain ⟨v, hv⟩ : ∃ v, (w.vecs c).elems[i]? = some v := ⟨_, List.getElem?_eq_getElem h3⟩
    obtain ⟨w', s', hr, hl⟩ := ih (i + 1) _ _ (by omega) (hb i w s v hi hv)
    refine ⟨w', s', .step (args := [.cell c i v]) (by omega) ?_ rfl hr, fun fuel hf => ?_⟩
    · simp [elemAt, hv]
    · obtain ⟨fuel, rfl⟩ : ∃ m, fuel = m + 1 := ⟨fuel - 1, by omega⟩
      have h4 : n = (w.vecs c).elems.length := by omega
      rw [vectorLoop, if_neg (by simp [h1, h4]), hv]
      exact hl fuel (by omega)

end Makeshift.ChangingRange
