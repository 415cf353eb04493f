import Verif.Spec.SinglePass
import Verif.Lemmas.Zip

/-! Helper lemmas for single-pass ranges. -/

namespace Makeshift.SinglePass

open Makeshift.SinglePass.Spec

variable {α σ β : Type}

/-- The iterator of a leaf in the world `w`, and the position in a container with the elements of `w0`, after `n` increments. -/
def SimLeaf (w0 w : World α) (n : Nat) : Leaf α → Pos α → Int → Prop
  | .stream id, p, q => q = n ∧ n ≤ (w0 id).length ∧ p = .token (w0 id)[n]? ∧ w id = (w0 id).drop (n + 1)
  | .counted id _, p, q => q = n ∧ n ≤ (w0 id).length ∧ p = .token (w0 id)[n]? ∧ w id = (w0 id).drop (n + 1)
  | .multi _, p, q => p = .offset q

/-- The same for all leaves. -/
inductive Sim (w0 w : World α) (n : Nat) : List (Leaf α) → List (Pos α) → List Int → Prop
  | nil : Sim w0 w n [] [] []
  | cons {l p q ls ps qs} : SimLeaf w0 w n l p q → Sim w0 w n ls ps qs → Sim w0 w n (l :: ls) (p :: ps) (q :: qs)

theorem SimLeaf.congr {w0 w w' : World α} {n : Nat} {l : Leaf α} {p : Pos α} {q : Int} (h : SimLeaf w0 w n l p q)
    (hw : ∀ id, source l = some id → w' id = w id) : SimLeaf w0 w' n l p q := by
  cases l <;> simp only [SimLeaf] at h ⊢ <;> try exact h
  all_goals
    obtain ⟨h1, h2, h3, h4⟩ := h
    exact ⟨h1, h2, h3, by rw [hw _ rfl]; exact h4⟩

theorem Sim.congr {w0 w w' : World α} {n : Nat} {ls : List (Leaf α)} {ps : List (Pos α)} {qs : List Int} (h : Sim w0 w n ls ps qs)
    (hw : ∀ id, id ∈ ls.filterMap source → w' id = w id) : Sim w0 w' n ls ps qs := by
  induction h with
  | nil => exact .nil
  | @cons l p q ls ps qs h1 _ ih =>
    refine .cons (h1.congr fun id hid => hw id ?_) (ih fun id hid => hw id ?_)
    · simp [hid]
    · rw [List.filterMap_cons]
      split
      · exact hid
      · exact List.mem_cons_of_mem _ hid

theorem next_other {id j : Nat} (w : World α) (h : j ≠ id) : (next id w).2 j = w j := by simp [next, h]

theorem next_same (id : Nat) (w : World α) : (next id w).2 id = (w id).tail := by simp [next]

theorem start_sim (w : World α) (l : Leaf α) : SimLeaf w (l.start w).2 0 l (l.start w).1 (leafBegin (container w l)) ∧
    (∀ id, source l ≠ some id → (l.start w).2 id = w id) := by
  cases l with
  | multi r => exact ⟨rfl, fun _ _ => rfl⟩
  | stream id =>
    refine ⟨⟨rfl, by omega, ?_, ?_⟩, fun j hj => next_other w (by rintro rfl; exact hj rfl)⟩
    · simp [Leaf.start, next, List.head?_eq_getElem?]
    · simp [Leaf.start, next_same, ← List.drop_one]
  | counted id n =>
    refine ⟨⟨rfl, by omega, ?_, ?_⟩, fun j hj => next_other w (by rintro rfl; exact hj rfl)⟩
    · simp [Leaf.start, next, List.head?_eq_getElem?]
    · simp [Leaf.start, next_same, ← List.drop_one]

theorem container_congr {w w' : World α} {l : Leaf α} (h : ∀ id, source l = some id → w' id = w id) : container w' l = container w l := by
  cases l with
  | multi r => rfl
  | stream id => simp [container, h id rfl]
  | counted id n => simp [container, h id rfl]

theorem initAll_sim : ∀ (ls : List (Leaf α)) (w : World α), Separate ls →
    Sim w (initAll Leaf.start ls w).2 0 ls (initAll Leaf.start ls w).1 ((ls.map (container w)).map leafBegin) ∧
    (∀ id, id ∉ ls.filterMap source → (initAll Leaf.start ls w).2 id = w id)
  | [], _, _ => ⟨.nil, fun _ _ => rfl⟩
  | l :: ls, w, h => by
    obtain ⟨h1, h2⟩ := start_sim w l
    have hs : Separate ls := by
      unfold Separate at h ⊢
      rw [List.filterMap_cons] at h
      split at h
      · exact h
      · exact (List.nodup_cons.mp h).2
    have hd : ∀ id, source l = some id → id ∉ ls.filterMap source := by
      intro id hid
      unfold Separate at h
      rw [List.filterMap_cons, hid] at h
      exact (List.nodup_cons.mp h).1
    obtain ⟨h3, h4⟩ := initAll_sim ls (l.start w).2 hs
    have hw : ∀ id, id ∈ ls.filterMap source → (l.start w).2 id = w id := by
      intro id hid
      exact h2 id fun hc => hd id hc hid
    constructor
    · simp only [initAll, List.map_cons]
      refine .cons (h1.congr fun id hid => h4 id (hd id hid)) ?_
      have hm : ls.map (container (l.start w).2) = ls.map (container w) := by
        apply List.map_congr_left
        intro l' hl'
        exact container_congr fun id hid => hw id (List.mem_filterMap.mpr ⟨l', hl', hid⟩)
      rw [hm] at h3
      -- the world at the beginning differs only on other streams
      clear hs h4
      generalize (initAll Leaf.start ls (l.start w).2).1 = ps at h3
      generalize (initAll Leaf.start ls (l.start w).2).2 = w2 at h3
      generalize (ls.map (container w)).map leafBegin = qs at h3
      clear hm hd h1 h
      induction h3 with
      | nil => exact .nil
      | @cons l' p q ls ps qs h5 _ ih =>
        refine .cons ?_ (ih fun id hid => hw id ?_)
        · have hw' : ∀ id, source l' = some id → (l.start w).2 id = w id := fun id hid => hw id (by simp [hid])
          cases l' <;> simp only [SimLeaf] at h5 ⊢ <;> first | exact h5 | (rw [hw' _ rfl] at h5; exact h5)
        · rw [List.filterMap_cons]
          split
          · exact hid
          · exact List.mem_cons_of_mem _ hid
    · intro id hid
      rw [List.filterMap_cons] at hid
      simp only [initAll]
      rw [h4 id (by split at hid; exacts [hid, fun hc => hid (List.mem_cons_of_mem _ hc)])]
      apply h2
      intro hc
      rw [hc] at hid
      exact hid List.mem_cons_self

theorem inc_sim {w0 w : World α} {n : Nat} {l : Leaf α} {p : Pos α} {q : Int} (h : SimLeaf w0 w n l p q) :
    (∃ q' p' w', leafInc (container w0 l) q = .ok q' ∧ l.inc p w = .ok (p', w') ∧ SimLeaf w0 w' (n + 1) l p' q' ∧
      ∀ id, source l ≠ some id → w' id = w id) ∨
    (leafInc (container w0 l) q = .ub ∧ l.inc p w = .ub) := by
  have key : ∀ (id : Nat), q = n → n ≤ (w0 id).length → p = .token (w0 id)[n]? → w id = (w0 id).drop (n + 1) →
      (∃ a, (w0 id)[n]? = some a ∧ n < (w0 id).length ∧ (next id w).1 = .token (w0 id)[n + 1]? ∧ (next id w).2 id = (w0 id).drop (n + 1 + 1)) ∨
      ((w0 id)[n]? = none ∧ n = (w0 id).length) := by
    intro id h1 h2 h3 h4
    by_cases hn : n < (w0 id).length
    · refine .inl ⟨(w0 id)[n], by simp [hn], hn, ?_, ?_⟩
      · simp [next, h4, List.head?_drop]
      · rw [next_same, h4, List.tail_drop]
    · exact .inr ⟨by simp; omega, by omega⟩
  cases l with
  | multi r =>
    simp only [SimLeaf] at h
    subst h
    simp only [container, Leaf.inc]
    unfold leafInc movePos
    cases r.mode <;> simp only [] <;> (try split) <;> simp [SimLeaf, Outcome.mapVal, Outcome.bind]
  | stream id =>
    obtain ⟨h1, h2, h3, h4⟩ := h
    rcases key id h1 h2 h3 h4 with ⟨a, e1, e2, e3, e4⟩ | ⟨e1, e2⟩
    · refine .inl ⟨n + 1, _, _, ?_, by rw [h3, e1]; rfl, ⟨by simp, by omega, e3, e4⟩, fun j hj => next_other w (by rintro rfl; exact hj rfl)⟩
      simp only [container, leafInc, movePos, h1]
      rw [if_pos (by omega)]
    · refine .inr ⟨?_, by rw [h3, e1]; rfl⟩
      simp only [container, leafInc, movePos, h1]
      rw [if_neg (by omega)]
  | counted id m =>
    obtain ⟨h1, h2, h3, h4⟩ := h
    rcases key id h1 h2 h3 h4 with ⟨a, e1, e2, e3, e4⟩ | ⟨e1, e2⟩
    · refine .inl ⟨n + 1, _, _, ?_, by rw [h3, e1]; rfl, ⟨by simp, by omega, e3, e4⟩, fun j hj => next_other w (by rintro rfl; exact hj rfl)⟩
      simp only [container, leafInc, movePos, h1]
      rw [if_pos (by omega)]
    · refine .inr ⟨?_, by rw [h3, e1]; rfl⟩
      simp only [container, leafInc, movePos, h1]
      rw [if_neg (by omega)]

theorem separate_cons {l : Leaf α} {ls : List (Leaf α)} (h : Separate (l :: ls)) :
    Separate ls ∧ ∀ id, source l = some id → id ∉ ls.filterMap source := by
  unfold Separate at h ⊢
  rw [List.filterMap_cons] at h
  split at h
  · rename_i hn
    exact ⟨h, fun id hid => by rw [hn] at hid; cases hid⟩
  · rename_i hn
    exact ⟨(List.nodup_cons.mp h).2, fun id hid => by rw [hn] at hid; cases hid; exact (List.nodup_cons.mp h).1⟩

theorem incAll_sim {w0 : World α} {n : Nat} : ∀ {ls : List (Leaf α)} {w : World α} {ps : List (Pos α)} {qs : List Int}, Separate ls → Sim w0 w n ls ps qs →
    (∃ qs' ps' w', forLeaves leafInc (ls.map (container w0)) qs = .ok qs' ∧ incAll ls ps w = .ok (ps', w') ∧ Sim w0 w' (n + 1) ls ps' qs' ∧
      ∀ id, id ∉ ls.filterMap source → w' id = w id) ∨
    (forLeaves leafInc (ls.map (container w0)) qs = .ub ∧ incAll ls ps w = .ub)
  | [], w, _, _, _, .nil => .inl ⟨[], [], w, rfl, rfl, .nil, fun _ _ => rfl⟩
  | l :: ls, w, p :: ps, q :: qs, hs, .cons h1 h2 => by
    obtain ⟨hs1, hs2⟩ := separate_cons hs
    simp only [List.map_cons, forLeaves, incAll]
    rcases inc_sim h1 with ⟨q', p', w', e1, e2, e3, e4⟩ | ⟨e1, e2⟩
    · rw [e1, e2]
      simp only [Outcome.bind]
      have h2' : Sim w0 w' n ls ps qs := h2.congr fun id hid => e4 id fun hc => hs2 id hc hid
      rcases incAll_sim hs1 h2' with ⟨qs', ps', w'', f1, f2, f3, f4⟩ | ⟨f1, f2⟩
      · rw [f1, f2]
        refine .inl ⟨q' :: qs', p' :: ps', w'', rfl, rfl, .cons (e3.congr fun id hid => f4 id (hs2 id hid)) f3, ?_⟩
        intro id hid
        rw [List.filterMap_cons] at hid
        rw [f4 id (by split at hid; exacts [hid, fun hc => hid (List.mem_cons_of_mem _ hc)])]
        exact e4 id fun hc => by rw [hc] at hid; exact hid List.mem_cons_self
      · rw [f1, f2]
        exact .inr ⟨rfl, rfl⟩
    · rw [e1, e2]
      exact .inr ⟨rfl, rfl⟩

theorem deref_sim {w0 w : World α} {n : Nat} {l : Leaf α} {p : Pos α} {q : Int} (i : Int) (h : SimLeaf w0 w n l p q) :
    l.deref i p = leafDeref i (container w0 l) q := by
  cases l with
  | multi r => simp only [SimLeaf] at h; subst h; rfl
  | stream id =>
    obtain ⟨h1, h2, h3, h4⟩ := h
    subst h3 h1
    simp only [container, leafDeref, readAt]
    rw [if_neg (by omega)]
    cases hn : (w0 id)[n]? <;> simp [Leaf.deref, hn]
  | counted id m =>
    obtain ⟨h1, h2, h3, h4⟩ := h
    subst h3 h1
    simp only [container, leafDeref, readAt]
    rw [if_neg (by omega)]
    cases hn : (w0 id)[n]? <;> simp [Leaf.deref, hn]

theorem none_iff {w0 : World α} {n id : Nat} (h : n ≤ (w0 id).length) : (w0 id)[n]?.isNone = decide ((n : Int) = (w0 id).length) := by
  by_cases hn : n < (w0 id).length
  · have : ¬ (n : Int) = (w0 id).length := by omega
    simp [hn, this]
  · have : (n : Int) = (w0 id).length := by omega
    have h2 : (w0 id)[n]? = none := by simp; omega
    simp [h2, this]

theorem checkEnd_sim {w0 w : World α} {n : Nat} {l : Leaf α} {p : Pos α} {q : Int} (e : Bool) (h : SimLeaf w0 w n l p q) :
    l.checkEnd e p = leafCheckEnd e (container w0 l) q := by
  cases l with
  | multi r => simp only [SimLeaf] at h; subst h; rfl
  | stream id =>
    obtain ⟨h1, h2, h3, h4⟩ := h
    subst h3 h1
    simp only [Leaf.checkEnd, container, leafCheckEnd, none_iff h2]
    rfl
  | counted id m =>
    obtain ⟨h1, h2, h3, h4⟩ := h
    subst h3
    rfl

theorem isEnd_sim {w0 w : World α} {n : Nat} {l : Leaf α} {p : Pos α} {q : Int} (h : SimLeaf w0 w n l p q) :
    l.isEnd p = leafIsEnd (container w0 l) q := by
  cases l with
  | multi r => simp only [SimLeaf] at h; subst h; rfl
  | stream id =>
    obtain ⟨h1, h2, h3, h4⟩ := h
    subst h3 h1
    simp only [Leaf.isEnd, container, leafIsEnd, none_iff h2]
    rfl
  | counted id m =>
    obtain ⟨h1, h2, h3, h4⟩ := h
    subst h3
    rfl

theorem forAll_sim {w0 w : World α} {n : Nat} (f : Leaf α → Pos α → Outcome β) (g : Rng α → Int → Outcome β)
    (hfg : ∀ l p q, SimLeaf w0 w n l p q → f l p = g (container w0 l) q) {ls : List (Leaf α)} {ps : List (Pos α)} {qs : List Int}
    (h : Sim w0 w n ls ps qs) : forAll f ls ps = forLeaves g (ls.map (container w0)) qs := by
  induction h with
  | nil => rfl
  | cons h1 _ ih => simp only [forAll, List.map_cons, forLeaves, hfg _ _ _ h1, ih]; rfl

theorem endFlags_sim {w0 w : World α} {n : Nat} {ls : List (Leaf α)} {ps : List (Pos α)} {qs : List Int}
    (h : Sim w0 w n ls ps qs) : endFlags ls ps = leavesIsEnd (ls.map (container w0)) qs := by
  induction h with
  | nil => rfl
  | cons h1 _ ih => simp only [endFlags, List.map_cons, leavesIsEnd, isEnd_sim h1, ih]

theorem itIsEnd_sim {w0 w : World α} {n : Nat} {ls : List (Leaf α)} {it : It α} {zt : ZipIt} (hi : it.i = zt.i)
    (h : Sim w0 w n ls it.pos zt.pos) (size : Size) : it.isEnd ls size = zipIsEnd (ls.map (container w0)) size zt := by
  simp only [It.isEnd, zipIsEnd, endFlags_sim h, hi, forAll_sim _ _ (fun l p q hl => checkEnd_sim _ hl) h]
  split <;> rfl

theorem itDeref_sim {w0 w : World α} {n : Nat} {ls : List (Leaf α)} {it : It α} {zt : ZipIt} (hi : it.i = zt.i)
    (h : Sim w0 w n ls it.pos zt.pos) : it.deref ls = zipDeref (ls.map (container w0)) zt := by
  simp only [It.deref, zipDeref, hi, forAll_sim _ _ (fun l p q hl => deref_sim _ hl) h]

theorem itInc_sim {w0 w : World α} {n : Nat} {ls : List (Leaf α)} {it : It α} {zt : ZipIt} (hs : Separate ls) (hi : it.i = zt.i)
    (h : Sim w0 w n ls it.pos zt.pos) :
    (∃ zt' it' w', zipInc (ls.map (container w0)) zt = .ok zt' ∧ it.inc ls w = .ok (it', w') ∧ it'.i = zt'.i ∧ Sim w0 w' (n + 1) ls it'.pos zt'.pos ∧
      ∀ id, id ∉ ls.filterMap source → w' id = w id) ∨
    (zipInc (ls.map (container w0)) zt = .ub ∧ it.inc ls w = .ub) := by
  rcases incAll_sim hs h with ⟨qs', ps', w', e1, e2, e3, e4⟩ | ⟨e1, e2⟩
  · exact .inl ⟨⟨zt.i + 1, qs'⟩, ⟨it.i + 1, ps'⟩, w', by simp [zipInc, e1, Outcome.bind], by simp [It.inc, e2], by simp [hi], e3, e4⟩
  · exact .inr ⟨by simp [zipInc, e1, Outcome.bind], by simp [It.inc, e2]⟩

theorem loop_sim {w0 : World α} {ls : List (Leaf α)} (hs : Separate ls) (size : Size) (body : σ → List (Arg α) → σ × Bool) :
    ∀ (fuel n : Nat) (it : It α) (zt : ZipIt) (w : World α) (s : σ), it.i = zt.i → Sim w0 w n ls it.pos zt.pos →
      forget (loop ls size body fuel it w s) = zipLoop (ls.map (container w0)) size body fuel zt s
  | 0, _, _, _, _, _, _, _ => rfl
  | fuel + 1, n, it, zt, w, s, hi, h => by
    rw [loop, zipLoop, itIsEnd_sim hi h size]
    rcases zipIsEnd (ls.map (container w0)) size zt with (_ | _) | _ | _ | _ <;> try rfl
    simp only [itDeref_sim hi h]
    rcases zipDeref (ls.map (container w0)) zt with args | _ | _ | _ <;> try rfl
    simp only []
    by_cases hb : (body s args).2 = true
    · simp only [hb, if_true]
      rcases itInc_sim hs hi h with ⟨zt', it', w', e1, e2, e3, e4, -⟩ | ⟨e1, e2⟩
      · rw [e1, e2]
        exact loop_sim hs size body fuel (n + 1) it' zt' w' _ e3 e4
      · rw [e1, e2]
        rfl
    · simp only [hb]
      rfl

/-- How far the streams are read when a loop ends: `count` counts the calls of the body, `last` says whether it returned. -/
theorem loop_world {w0 : World α} {ls : List (Leaf α)} (hs : Separate ls) (size : Size) (body : σ → List (Arg α) → σ × Bool)
    (count : σ → Nat) (last : σ → Bool) (hc : ∀ s args, count (body s args).1 = count s + 1)
    (hl : ∀ s args, last s = false → last (body s args).1 = !(body s args).2) :
    ∀ (fuel n : Nat) (it : It α) (zt : ZipIt) (w : World α) (s s' : σ) (w' : World α), it.i = zt.i → Sim w0 w n ls it.pos zt.pos →
      last s = false → count s = n → loop ls size body fuel it w s = .done (s', w') (.ok ()) →
      (∀ id, id ∈ ls.filterMap source → w' id = (w0 id).drop (count s' + if last s' then 0 else 1)) ∧
      ∀ id, id ∉ ls.filterMap source → w' id = w id
  | 0, _, _, _, _, _, _, _, _, _, _, _, h => by simp [loop] at h
  | fuel + 1, n, it, zt, w, s, s', w', hi, hsim, hls, hn, h => by
    have hdrop : ∀ id, id ∈ ls.filterMap source → w id = (w0 id).drop (n + 1) := by
      clear h hs
      generalize it.pos = ps at hsim
      generalize zt.pos = qs at hsim
      induction hsim with
      | nil => simp
      | @cons l p q ls ps qs h1 _ ih =>
        intro id hid
        rw [List.mem_filterMap] at hid
        obtain ⟨l', hl', hsrc⟩ := hid
        rcases List.mem_cons.mp hl' with rfl | hl'
        · cases l' <;> simp only [source] at hsrc <;> cases hsrc
          · exact h1.2.2.2
          · exact h1.2.2.2
        · exact ih id (List.mem_filterMap.mpr ⟨l', hl', hsrc⟩)
    rw [loop] at h
    split at h
    · split at h
      · rename_i args _
        by_cases hb : (body s args).2 = true
        · simp only [hb, if_true] at h
          rcases itInc_sim hs hi hsim with ⟨zt', it', w1, e1, e2, e3, e4, e5⟩ | ⟨e1, e2⟩
          · rw [e2] at h
            obtain ⟨g1, g2⟩ := loop_world hs size body count last hc hl fuel (n + 1) it' zt' w1 _ s' w' e3 e4 (by rw [hl _ _ hls, hb]; rfl)
              (by rw [hc, hn]) h
            exact ⟨g1, fun id hid => by rw [g2 id hid, e5 id hid]⟩
          · rw [e2] at h
            simp [finish] at h
        · simp only [hb] at h
          simp only [Bool.false_eq_true, if_false, Result.done.injEq, Prod.mk.injEq, and_true] at h
          obtain ⟨rfl, rfl⟩ := h
          refine ⟨fun id hid => ?_, fun _ _ => rfl⟩
          rw [hl _ _ hls, hc, hn, hdrop id hid]
          simp [hb]
      · rename_i hne
        cases hd : it.deref ls with
        | ok args => exact absurd hd (hne args)
        | throw m => rw [hd] at h; simp [finish] at h
        | failFast => rw [hd] at h; simp [finish] at h
        | ub => rw [hd] at h; simp [finish] at h
    · rename_i hne
      cases hd : it.isEnd ls size with
      | ok e =>
        rw [hd] at h
        simp only [finish, Result.done.injEq, Prod.mk.injEq, and_true] at h
        obtain ⟨rfl, rfl⟩ := h
        refine ⟨fun id hid => ?_, fun _ _ => rfl⟩
        rw [hdrop id hid, hls, hn]
        rfl
      | throw m => rw [hd] at h; simp [finish] at h
      | failFast => rw [hd] at h; simp [finish] at h
      | ub => rw [hd] at h; simp [finish] at h

theorem container_size (w : World α) (l : Leaf α) : (container w l).size = l.size ∧ (container w l).mode = l.mode := by
  cases l <;> exact ⟨rfl, rfl⟩

theorem sizes_eq (w : World α) (ls : List (Leaf α)) : (ls.map (container w)).map Rng.size = ls.map Leaf.size := by
  simp [Function.comp_def, (container_size w _).1]

theorem sentinel_eq (w : World α) (ls : List (Leaf α)) (size : Size) :
    sentinelWellFormed (ls.map (container w)) size = sentinelCompiles ls size := by
  simp [sentinelWellFormed, sentinelCompiles, Function.comp_def, leafEndTy, (container_size w _).2]

theorem algorithm_sim {ls : List (Leaf α)} (hs : Separate ls) (body : σ → List (Arg α) → σ × Bool) (fuel : Nat) (w : World α) (init : σ) :
    forget (algorithm ls body fuel w init) = zipAlgorithm (ls.map (container w)) body fuel init := by
  unfold algorithm zipAlgorithm
  have h1 : (ls.map (container w)).all (fun r => decide (r.mode = .rangeIndex)) = ls.all (fun l => decide (l.mode = .rangeIndex)) := by
    simp [List.all_map, Function.comp_def, (container_size w _).2]
  rw [h1, sizes_eq]
  split
  · rfl
  · cases mergeSizes (ls.map Leaf.size) with
    | staticMismatch => rfl
    | failFast => rfl
    | ok size =>
      simp only [sentinel_eq]
      split
      · exact loop_sim hs size body fuel 0 _ _ _ _ rfl (initAll_sim ls w hs).1
      · rfl

theorem algorithm_world {ls : List (Leaf α)} (hs : Separate ls) (body : σ → List (Arg α) → σ × Bool) (fuel : Nat) (w : World α) (init : σ)
    (count : σ → Nat) (last : σ → Bool) (hc : ∀ s args, count (body s args).1 = count s + 1)
    (hl : ∀ s args, last s = false → last (body s args).1 = !(body s args).2) (hl0 : last init = false) (hc0 : count init = 0) (s' : σ) (w' : World α)
    (h : algorithm ls body fuel w init = .done (s', w') (.ok ())) :
    (∀ id, id ∈ ls.filterMap source → w' id = (w id).drop (count s' + if last s' then 0 else 1)) ∧
    ∀ id, id ∉ ls.filterMap source → w' id = w id := by
  unfold algorithm at h
  split at h
  · cases h
  · split at h
    · cases h
    · simp at h
    · split at h
      · rename_i size _ _
        obtain ⟨g1, g2⟩ := loop_world hs size body count last hc hl fuel 0 _ (zipBegin (ls.map (container w))) _ init s' w' rfl (initAll_sim ls w hs).1 hl0 hc0 h
        exact ⟨g1, fun id hid => by rw [g2 id hid]; exact (initAll_sim ls w hs).2 id hid⟩
      · cases h

end Makeshift.SinglePass

namespace Makeshift.SinglePass

open Makeshift.SinglePass.Spec

variable {α σ β : Type}

/-! ## several arguments which read from one stream -/

/-- Iterators which read the elements `ys` in turn. -/
def block : Nat → List α → List (Pos α)
  | 0, _ => []
  | k + 1, ys => .token ys.head? :: block k ys.tail

theorem init_block (id : Nat) : ∀ (k : Nat) (w : World α),
    (initAll Leaf.start (List.replicate k (.stream id)) w).1 = block k (w id) ∧
    (initAll Leaf.start (List.replicate k (.stream id)) w).2 id = (w id).drop k ∧
    ∀ j, j ≠ id → (initAll Leaf.start (List.replicate k (.stream id)) w).2 j = w j
  | 0, _ => ⟨rfl, rfl, fun _ _ => rfl⟩
  | k + 1, w => by
    obtain ⟨h1, h2, h3⟩ := init_block id k (next id w).2
    simp only [List.replicate_succ, initAll, Leaf.start, block]
    refine ⟨?_, ?_, fun j hj => ?_⟩
    · rw [h1, next_same]; rfl
    · rw [h2, next_same, ← List.drop_one, List.drop_drop, Nat.add_comm]
    · rw [h3 j hj, next_other w hj]

theorem inc_block (id : Nat) : ∀ (k : Nat) (ps : List (Pos α)) (w : World α), ps.length = k → (∀ p ∈ ps, ∃ a, p = .token (some a)) →
    ∃ w', incAll (List.replicate k (.stream id)) ps w = .ok (block k (w id), w') ∧ w' id = (w id).drop k ∧ ∀ j, j ≠ id → w' j = w j
  | 0, [], w, _, _ => ⟨w, rfl, rfl, fun _ _ => rfl⟩
  | k + 1, p :: ps, w, hl, hp => by
    obtain ⟨a, rfl⟩ := hp p (by simp)
    obtain ⟨w', h1, h2, h3⟩ := inc_block id k ps (next id w).2 (by simpa using hl) (fun p h => hp p (by simp [h]))
    refine ⟨w', ?_, ?_, fun j hj => ?_⟩
    · simp only [List.replicate_succ, incAll, Leaf.inc, Outcome.bind_ok, h1, Outcome.mapVal_ok, block, next_same]
      rfl
    · rw [h2, next_same, ← List.drop_one, List.drop_drop, Nat.add_comm]
    · rw [h3 j hj, next_other w hj]
  | 0, _ :: _, _, hl, _ => by simp at hl
  | _ + 1, [], _, hl, _ => by simp at hl

theorem block_length : ∀ (k : Nat) (ys : List α), (block k ys).length = k
  | 0, _ => rfl
  | k + 1, ys => by simp [block, block_length k]

theorem block_flags (id : Nat) : ∀ (k : Nat) (ys : List α) (e : Bool), some e ∈ endFlags (List.replicate k (.stream id)) (block k ys) ↔
    (e = false ∧ 0 < k ∧ ys ≠ []) ∨ (e = true ∧ ys.length < k)
  | 0, ys, e => by simp [endFlags]
  | k + 1, ys, e => by
    simp only [List.replicate_succ, block, endFlags, List.mem_cons, Leaf.isEnd, Option.some.injEq, block_flags id k ys.tail e]
    cases ys with
    | nil => cases e <;> simp
    | cons y ys => cases e <;> simp

theorem block_deref (id : Nat) (i : Int) : ∀ (k : Nat) (ys : List α), k ≤ ys.length →
    forAll (Leaf.deref i) (List.replicate k (.stream id)) (block k ys) = .ok ((ys.take k).map .elem)
  | 0, _, _ => rfl
  | k + 1, [], h => by simp at h
  | k + 1, y :: ys, h => by
    simp only [List.replicate_succ, block, forAll, List.tail_cons, block_deref id i k ys (by simpa using h)]
    rfl

theorem block_tokens : ∀ (k : Nat) (ys : List α), k ≤ ys.length → ∀ p ∈ block k ys, ∃ a, p = .token (some a)
  | 0, _, _, p, h => by simp [block] at h
  | k + 1, [], h, _, _ => by simp at h
  | k + 1, y :: ys, h, p, hp => by
    simp only [block, List.tail_cons, List.mem_cons] at hp
    rcases hp with rfl | hp
    · exact ⟨y, rfl⟩
    · exact block_tokens k ys (by simpa using h) p hp

/-- The groups of `k` elements. -/
def groupsOf (k : Nat) : Nat → List α → List (List (Arg α))
  | 0, _ => []
  | m + 1, ys => (ys.take k).map .elem :: groupsOf k m (ys.drop k)

theorem loop_block (id k : Nat) (hk : 0 < k) : ∀ (m : Nat) (ys : List α), ys.length / k = m → ∀ (i : Int) (w : World α) (calls : List (List (Arg α))) (fuel : Nat),
    w id = ys.drop k → m < fuel →
    ∃ w', loop (List.replicate k (.stream id)) (.static unknownSize) (fun calls args => (calls ++ [args], true)) fuel ⟨i, block k ys⟩ w calls =
      .done (calls ++ groupsOf k m ys, w') (if ys.length % k = 0 then .ok () else .failFast) ∧ w' id = [] ∧ ∀ j, j ≠ id → w' j = w j
  | 0, ys, hm, i, w, calls, fuel + 1, hw, _ => by
    have hlt : ys.length < k := (Nat.div_eq_zero_iff.mp hm).resolve_left (by omega)
    refine ⟨w, ?_, by rw [hw]; simp; omega, fun _ _ => rfl⟩
    rw [loop]
    by_cases h0 : ys = []
    · have hflags : It.isEnd (List.replicate k (.stream id)) (.static unknownSize) ⟨i, block k ys⟩ = .ok true := by
        simp only [It.isEnd, if_true]
        rcases isEndVal_spec (endFlags (List.replicate k (.stream id)) (block k ys)) with ⟨y, hy, hy'⟩ | ⟨_, e, h1, h2⟩
        · have : y = some true := (hy' true).mpr ((block_flags id k ys true).mpr (.inr ⟨rfl, hlt⟩))
          rw [hy, this]; rfl
        · rw [block_flags] at h1 h2
          cases e <;> simp_all
      rw [hflags]
      simp [finish, groupsOf, h0]
    · have hflags : It.isEnd (List.replicate k (.stream id)) (.static unknownSize) ⟨i, block k ys⟩ = .failFast := by
        simp only [It.isEnd, if_true]
        rcases isEndVal_spec (endFlags (List.replicate k (.stream id)) (block k ys)) with ⟨y, hy, hy'⟩ | ⟨h, _⟩
        · have h1 : y = some true := (hy' true).mpr ((block_flags id k ys true).mpr (.inr ⟨rfl, hlt⟩))
          have h2 : y = some false := (hy' false).mpr ((block_flags id k ys false).mpr (.inl ⟨rfl, hk, h0⟩))
          rw [h1] at h2; cases h2
        · rw [h]; rfl
      rw [hflags]
      have : ys.length % k ≠ 0 := by
        rw [Nat.mod_eq_of_lt hlt]
        intro hc; exact h0 (List.length_eq_zero_iff.mp hc)
      simp [finish, groupsOf, this]
  | m + 1, ys, hm, i, w, calls, fuel + 1, hw, hf => by
    have hle : k ≤ ys.length := by
      by_contra hc
      rw [Nat.div_eq_of_lt (by omega)] at hm
      omega
    have hflags : It.isEnd (List.replicate k (.stream id)) (.static unknownSize) ⟨i, block k ys⟩ = .ok false := by
      simp only [It.isEnd, if_true]
      have hne : ys ≠ [] := by rintro rfl; simp at hle; omega
      rcases isEndVal_spec (endFlags (List.replicate k (.stream id)) (block k ys)) with ⟨y, hy, hy'⟩ | ⟨_, e, h1, h2⟩
      · have : y = some false := (hy' false).mpr ((block_flags id k ys false).mpr (.inl ⟨rfl, hk, hne⟩))
        rw [hy, this]; rfl
      · rw [block_flags] at h1 h2
        cases e <;> simp_all <;> omega
    have hd : It.deref (List.replicate k (.stream id)) ⟨i, block k ys⟩ = .ok ((ys.take k).map .elem) := block_deref id i k ys hle
    obtain ⟨w1, h1, h2, h3⟩ := inc_block id k (block k ys) w (block_length k ys) (block_tokens k ys hle)
    have hi : It.inc (List.replicate k (.stream id)) ⟨i, block k ys⟩ w = .ok (⟨i + 1, block k (ys.drop k)⟩, w1) := by
      simp only [It.inc, h1, hw]; rfl
    obtain ⟨w2, g1, g2, g3⟩ := loop_block id k hk m (ys.drop k) (by
        have := Nat.div_eq_sub_div hk hle
        rw [List.length_drop]; omega) (i + 1) w1 (calls ++ [(ys.take k).map .elem]) fuel
      (by rw [h2, hw]) (by omega)
    refine ⟨w2, ?_, g2, fun j hj => by rw [g3 j hj, h3 j hj]⟩
    rw [loop, hflags]
    simp only [hd, if_true, hi, g1, groupsOf, List.append_assoc, List.singleton_append]
    have : (ys.drop k).length % k = ys.length % k := by
      rw [List.length_drop, ← Nat.mod_eq_sub_mod hle]
    rw [this]
  | 0, _, _, _, _, _, 0, _, h => by omega
  | _ + 1, _, _, _, _, _, 0, _, h => by omega

theorem groupsOf_spec (k : Nat) (hk : 0 < k) : ∀ (m : Nat) (ys : List α), ys.length / k = m → Groups k ys (groupsOf k m ys)
  | 0, ys, h => ⟨by simp [groupsOf, h], by simp [groupsOf]⟩
  | m + 1, ys, h => by
    have hle : k ≤ ys.length := by
      by_contra hc
      rw [Nat.div_eq_of_lt (by omega)] at h
      omega
    have hm : (ys.drop k).length / k = m := by
      have := Nat.div_eq_sub_div hk hle
      rw [List.length_drop]; omega
    obtain ⟨h1, h2⟩ := groupsOf_spec k hk m (ys.drop k) hm
    refine ⟨by rw [groupsOf, List.length_cons, h1, hm, h], ?_⟩
    intro i args hi
    cases i with
    | zero =>
      simp only [groupsOf, List.getElem?_cons_zero, Option.some.injEq] at hi
      subst hi
      refine ⟨by simp [hle], fun j hj => ?_⟩
      simp [List.getElem?_take, hj]
    | succ i =>
      simp only [groupsOf, List.getElem?_cons_succ] at hi
      obtain ⟨g1, g2⟩ := h2 i args hi
      refine ⟨g1, fun j hj => ?_⟩
      rw [g2 j hj, List.getElem?_drop, Nat.succ_mul, show k + (i * k + j) = i * k + k + j by omega]

theorem merge_unknown : ∀ k : Nat, mergeSizes (List.replicate k (.static unknownSize)) = .ok (.static unknownSize)
  | 0 => by simp [mergeSizes]
  | 1 => by simp [mergeSizes]
  | k + 2 => by
    have ih := merge_unknown (k + 1)
    simp only [List.replicate_succ, mergeSizes, mergeSizes0, true_or, if_true] at ih ⊢
    exact ih

end Makeshift.SinglePass

namespace Makeshift.SinglePass

open Makeshift.SinglePass.Spec

variable {α σ β : Type}

/-! ## `range_zip` -/

theorem commonLoop_sim {w0 : World α} {ls : List (Leaf α)} (hs : Separate ls) (stop : It α) (zstop : ZipIt) (hstop : stop.i = zstop.i) :
    ∀ (fuel n : Nat) (it : It α) (zt : ZipIt) (w : World α) (s : List (List (Arg α))), it.i = zt.i → Sim w0 w n ls it.pos zt.pos →
      forget (commonLoop ls stop fuel it w s) = zipCommonLoop (ls.map (container w0)) zstop fuel zt s
  | 0, _, _, _, _, _, _, _ => rfl
  | fuel + 1, n, it, zt, w, s, hi, h => by
    rw [commonLoop, zipCommonLoop]
    simp only [zipEq, hi, hstop, beq_iff_eq]
    split
    · rfl
    · simp only [itDeref_sim hi h]
      rcases zipDeref (ls.map (container w0)) zt with args | _ | _ | _ <;> try rfl
      simp only []
      rcases itInc_sim hs hi h with ⟨zt', it', w', e1, e2, e3, e4, -⟩ | ⟨e1, e2⟩
      · rw [e1, e2]
        exact commonLoop_sim hs stop zstop hstop fuel (n + 1) it' zt' w' _ e3 e4
      · rw [e1, e2]
        rfl

/-- The elements which are visited by `range_zip`. -/
def skipWorld (ls : List (Leaf α)) (w : World α) : World α :=
  fun id => if ls.any (fun | .counted j _ => decide (j = id) | _ => false) then (w id).eraseIdx 1 else w id

theorem eraseIdx_one (xs : List α) : (xs.eraseIdx 1)[0]? = xs[0]? ∧ (xs.eraseIdx 1).drop 1 = xs.drop 2 := by
  rcases xs with _ | ⟨x, _ | ⟨y, ys⟩⟩ <;> simp

/-- The elements which are visited for a leaf. -/
def visited (w : World α) (l : Leaf α) (id : Nat) : List α :=
  match l with
  | .counted _ _ => (w id).eraseIdx 1
  | _ => w id

theorem stop_sim {w0 w w1 : World α} {l : Leaf α} {p : Pos α} {q : Int} (hm : ∀ r, l ≠ .multi r) (h : SimLeaf w w1 0 l p q)
    (hw0 : ∀ id, source l = some id → w0 id = visited w l id) :
    SimLeaf w0 (l.stop w1).2 0 l p q := by
  cases l with
  | multi r => exact absurd rfl (hm r)
  | stream id =>
    have := hw0 id rfl
    simp only [visited] at this
    simp only [SimLeaf, Leaf.stop, this] at h ⊢
    exact h
  | counted id n =>
    have := hw0 id rfl
    simp only [visited] at this
    obtain ⟨h1, -, h3, h4⟩ := h
    refine ⟨h1, by omega, ?_, ?_⟩
    · rw [h3, this, (eraseIdx_one (w id)).1]
    · show (next id w1).2 id = _
      rw [next_same, h4, this, (eraseIdx_one (w id)).2, List.tail_drop]

theorem stop_other {l : Leaf α} {w : World α} {id : Nat} (h : source l ≠ some id) : (l.stop w).2 id = w id := by
  cases l with
  | multi r => rfl
  | stream j => rfl
  | counted j n => exact next_other w (by rintro rfl; exact h rfl)

theorem stopAll_sim {w0 w : World α} : ∀ {ls : List (Leaf α)} {w1 : World α} {ps : List (Pos α)} {qs : List Int}, Separate ls → Sim w w1 0 ls ps qs →
    (∀ l ∈ ls, ∀ id, source l = some id → w0 id = visited w l id) →
    Sim w0 (initAll Leaf.stop ls w1).2 0 ls ps qs ∧ ∀ id, id ∉ ls.filterMap source → (initAll Leaf.stop ls w1).2 id = w1 id
  | [], w1, _, _, _, .nil, _ => ⟨.nil, fun _ _ => rfl⟩
  | l :: ls, w1, p :: ps, q :: qs, hs, .cons h1 h2, hw => by
    obtain ⟨hs1, hs2⟩ := separate_cons hs
    have h2' : Sim w (l.stop w1).2 0 ls ps qs := h2.congr fun id hid => stop_other fun hc => hs2 id hc hid
    obtain ⟨g1, g2⟩ := stopAll_sim hs1 h2' (fun l' hl' => hw l' (List.mem_cons_of_mem _ hl'))
    constructor
    · simp only [initAll]
      refine .cons ?_ g1
      have h3 : SimLeaf w0 (l.stop w1).2 0 l p q := by
        cases hl : l with
        | multi r => rw [hl] at h1; exact h1
        | stream id => rw [← hl]; exact stop_sim (by rw [hl]; simp) h1 (hw l List.mem_cons_self)
        | counted id n => rw [← hl]; exact stop_sim (by rw [hl]; simp) h1 (hw l List.mem_cons_self)
      exact h3.congr fun id hid => g2 id (hs2 id hid)
    · intro id hid
      rw [List.filterMap_cons] at hid
      simp only [initAll]
      rw [g2 id (by split at hid; exacts [hid, fun hc => hid (List.mem_cons_of_mem _ hc)])]
      exact stop_other fun hc => by rw [hc] at hid; exact hid List.mem_cons_self

theorem skipWorld_spec {ls : List (Leaf α)} (hs : Separate ls) (w : World α) :
    (∀ l ∈ ls, ∀ id, source l = some id → skipWorld ls w id = visited w l id) := by
  intro l hl id hid
  have huniq : ∀ l' ∈ ls, source l' = some id → l' = l := by
    intro l' hl' hid'
    induction ls with
    | nil => simp at hl
    | cons x xs ih =>
      obtain ⟨h1, h2⟩ := separate_cons hs
      rcases List.mem_cons.mp hl with e | hl <;> rcases List.mem_cons.mp hl' with e' | hl'
      · rw [e, e']
      · exact absurd (List.mem_filterMap.mpr ⟨l', hl', hid'⟩) (h2 id (e ▸ hid))
      · exact absurd (List.mem_filterMap.mpr ⟨l, hl, hid⟩) (h2 id (e' ▸ hid'))
      · exact ih h1 hl hl'
  cases l with
  | multi r => cases hid
  | counted j n =>
    cases hid
    simp only [skipWorld, visited]
    rw [if_pos]
    rw [List.any_eq_true]
    exact ⟨_, hl, by simp⟩
  | stream j =>
    cases hid
    simp only [skipWorld, visited]
    rw [if_neg]
    rw [List.any_eq_true]
    rintro ⟨l', hl', h⟩
    cases l' with
    | counted j' n =>
      simp at h
      subst h
      cases huniq _ hl' rfl
    | _ => cases h

theorem zipEach_sim {ls : List (Leaf α)} (hs : Separate ls) (fuel : Nat) (w : World α) :
    forget (zipEach ls fuel w) = rangeZipIterate (ls.map (containerSkipping w)) fuel := by
  have hc : ls.map (containerSkipping w) = ls.map (container (skipWorld ls w)) := by
    apply List.map_congr_left
    intro l hl
    have := skipWorld_spec hs w l hl
    cases l with
    | multi r => rfl
    | stream j => simp [containerSkipping, container, this j rfl, visited]
    | counted j n => simp [containerSkipping, container, this j rfl, visited]
  rw [hc]
  unfold zipEach rangeZipIterate
  rw [sizes_eq]
  cases mergeSizes (ls.map Leaf.size) with
  | staticMismatch => rfl
  | failFast => rfl
  | ok size =>
    simp only
    split
    · rfl
    · have h1 := (initAll_sim ls w hs).1
      have h2 := (stopAll_sim hs h1 (skipWorld_spec hs w)).1
      have hq : (ls.map (container w)).map leafBegin = (ls.map (container (skipWorld ls w))).map leafBegin := by
        simp [leafBegin]
      rw [hq] at h2
      exact commonLoop_sim hs _ _ rfl fuel 0 _ _ _ _ rfl h2

theorem zipSentinelEach_sim {ls : List (Leaf α)} (hs : Separate ls) (fuel : Nat) (w : World α) :
    forget (zipSentinelEach ls fuel w) = rangeZipSentinelIterate (ls.map (container w)) fuel := by
  unfold zipSentinelEach rangeZipSentinelIterate
  rw [sizes_eq]
  cases mergeSizes (ls.map Leaf.size) with
  | staticMismatch => rfl
  | failFast => rfl
  | ok size =>
    simp only
    split
    · rfl
    · exact loop_sim hs size _ fuel 0 _ _ _ _ rfl (initAll_sim ls w hs).1

theorem reduce_go (reduce : σ → α → σ) (id : Nat) : ∀ (xs : List α) (w : World α) (s : σ) (fuel : Nat), w id = xs → xs.length < fuel →
    ∃ w', reduceStream.go reduce id fuel (next id w) s = some (xs.foldl reduce s, w') ∧ w' id = [] ∧ ∀ j, j ≠ id → w' j = w j
  | [], w, s, fuel + 1, h, _ => by
    refine ⟨(next id w).2, ?_, by rw [next_same, h]; rfl, fun j hj => next_other w hj⟩
    have : next id w = (.token none, (next id w).2) := by simp [next, h]
    rw [this]
    rfl
  | x :: xs, w, s, fuel + 1, h, hf => by
    have hn : next id w = (.token (some x), (next id w).2) := by simp [next, h]
    obtain ⟨w', g1, g2, g3⟩ := reduce_go reduce id xs (next id w).2 (reduce s x) fuel (by rw [next_same, h]; rfl) (by simpa using hf)
    refine ⟨w', ?_, g2, fun j hj => by rw [g3 j hj, next_other w hj]⟩
    rw [hn, reduceStream.go, g1]
    rfl
  | [], _, _, 0, _, h => by omega
  | _ :: _, _, _, 0, _, h => by omega

end Makeshift.SinglePass
