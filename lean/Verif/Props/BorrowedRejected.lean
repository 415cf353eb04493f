import Verif.Spec.BorrowedRejected
import Verif.Props.Borrowed

/-! # C134: which statements on ranges are rejected -/

namespace Makeshift.Props

open Makeshift.Borrowed Makeshift.Spec

private def demoRejected (cs : List (Cmd Nat)) : Outcome (List (List (Val Nat))) := (run start cs).mapVal Prod.snd

/-- The state differs by new blocks only. -/
private def Ext {α : Type} (s t : State α) : Prop := t.objs = s.objs ∧ (∀ b, b < s.next → t.mem b = s.mem b) ∧ s.next ≤ t.next

private theorem makeArg_argument {α : Type} {s t : State α} (hi : Inv s) (ht : Ext s t) {a : ZSrc α} {n : Option Nat} (h : Argument s a n) :
    ∃ t' za, makeArg t a = .ok (t', za, n) ∧ Ext s t' := by
  obtain ⟨ho, hm, hn⟩ := ht
  cases h with
  | vector h1 h2 =>
    have := hi.live _ _ h1 _ (List.mem_singleton.2 rfl)
    exact ⟨t, _, by simp only [makeArg, ho, h1, hm _ this, h2]; rfl, ho, hm, hn⟩
  | list h1 h2 =>
    have := hi.live _ _ h1 _ (List.mem_singleton.2 rfl)
    exact ⟨t, _, by simp only [makeArg, ho, h1, hm _ this, h2]; rfl, ho, hm, hn⟩
  | lspan h1 => exact ⟨t, _, by simp only [makeArg, ho, h1]; rfl, ho, hm, hn⟩
  | index => exact ⟨t, _, rfl, ho, hm, hn⟩
  | span h1 h2 h3 =>
    have := hi.live _ _ h1 _ (List.mem_singleton.2 rfl)
    exact ⟨t, _, by simp only [makeArg, ho, h1, hm _ this, h2, Outcome.expects, h3, decide_true, if_true, Outcome.bind]; rfl, ho, hm, hn⟩
  | array =>
    refine ⟨_, _, rfl, ho, fun b hb => ?_, by dsimp only; omega⟩
    have : b ≠ t.next := by omega
    simp only [upd, this, if_false]; exact hm b hb

private theorem makeArg_cases {α : Type} {s t : State α} (hi : Inv s) (ht : Ext s t) (a : ZSrc α) :
    (∃ n, Argument s a n) ∨
    (∃ o off len b l, a = .span o off len ∧ s.objs o = some (.vector b) ∧ s.mem b = some l ∧ l.length < off + len ∧ makeArg t a = .failFast) ∨
    makeArg t a = .ub := by
  obtain ⟨ho, hm, hn⟩ := ht
  cases a with
  | index => exact .inl ⟨_, .index⟩
  | array l => exact .inl ⟨_, .array⟩
  | lvalue o =>
    rcases hx : s.objs o with _ | x
    · exact .inr (.inr (by simp only [makeArg, ho, hx]))
    · cases x with
      | vector b =>
        have hb := hi.live _ _ hx b (List.mem_singleton.2 rfl)
        rcases hl : s.mem b with _ | l
        · exact .inr (.inr (by simp only [makeArg, ho, hx, hm b hb, hl]))
        · exact .inl ⟨_, .vector hx hl⟩
      | list b =>
        have hb := hi.live _ _ hx b (List.mem_singleton.2 rfl)
        rcases hl : s.mem b with _ | l
        · exact .inr (.inr (by simp only [makeArg, ho, hx, hm b hb, hl]))
        · exact .inl ⟨_, .list hx hl⟩
      | span a len => exact .inl ⟨_, .lspan hx⟩
      | range => exact .inr (.inr (by simp only [makeArg, ho, hx]))
      | indexRange => exact .inr (.inr (by simp only [makeArg, ho, hx]))
      | zip => exact .inr (.inr (by simp only [makeArg, ho, hx]))
      | destroyed => exact .inr (.inr (by simp only [makeArg, ho, hx]))
  | span o off len =>
    rcases hx : s.objs o with _ | x
    · exact .inr (.inr (by simp only [makeArg, ho, hx]))
    · cases x with
      | vector b =>
        have hb := hi.live _ _ hx b (List.mem_singleton.2 rfl)
        rcases hl : s.mem b with _ | l
        · exact .inr (.inr (by simp only [makeArg, ho, hx, hm b hb, hl]))
        · by_cases hlt : off + len ≤ l.length
          · exact .inl ⟨_, .span hx hl hlt⟩
          · refine .inr (.inl ⟨o, off, len, b, l, rfl, hx, hl, by omega, ?_⟩)
            simp [makeArg, ho, hx, hm b hb, hl, Outcome.expects, hlt, Outcome.bind]
      | list => exact .inr (.inr (by simp only [makeArg, ho, hx]))
      | span => exact .inr (.inr (by simp only [makeArg, ho, hx]))
      | range => exact .inr (.inr (by simp only [makeArg, ho, hx]))
      | indexRange => exact .inr (.inr (by simp only [makeArg, ho, hx]))
      | zip => exact .inr (.inr (by simp only [makeArg, ho, hx]))
      | destroyed => exact .inr (.inr (by simp only [makeArg, ho, hx]))

private theorem argument_unique {α : Type} {s : State α} {a : ZSrc α} {n m : Option Nat} (h : Argument s a n) (h' : Argument s a m) : n = m := by
  cases h <;> cases h' <;> simp_all

/-- Arguments which are fine are accepted, with their sizes. -/
private theorem makeArgs_fine {α : Type} {s : State α} (hi : Inv s) (as : List (ZSrc α)) {t : State α} (ht : Ext s t)
    (h : ∀ a ∈ as, ∃ n, Argument s a n) :
    ∃ t' zas ns, makeArgs t as = .ok (t', zas, ns) ∧ Ext s t' ∧ ∀ n, n ∈ ns ↔ ∃ a ∈ as, Argument s a (some n) := by
  induction as generalizing t with
  | nil => exact ⟨t, [], [], rfl, ht, by simp⟩
  | cons a as ih =>
    obtain ⟨n, hn⟩ := h a (List.mem_cons_self ..)
    obtain ⟨t1, za, h1, ht1⟩ := makeArg_argument hi ht hn
    obtain ⟨t2, zas, ns, h2, ht2, h3⟩ := ih ht1 fun a ha => h a (List.mem_cons_of_mem _ ha)
    refine ⟨t2, za :: zas, n.toList ++ ns, by simp only [makeArgs, h1, h2, Outcome.bind], ht2, fun k => ?_⟩
    rw [List.mem_append, h3, Option.mem_toList]
    constructor
    · rintro (hk | ⟨a', ha', hk⟩)
      · have hk : n = some k := hk
        exact ⟨a, List.mem_cons_self .., hk ▸ hn⟩
      · exact ⟨a', List.mem_cons_of_mem _ ha', hk⟩
    · rintro ⟨a', ha', hk⟩
      rcases List.mem_cons.1 ha' with rfl | ha'
      · exact .inl (argument_unique hn hk)
      · exact .inr ⟨a', ha', hk⟩

/-- The first argument which is not fine decides. -/
private theorem makeArgs_cases {α : Type} {s : State α} (hi : Inv s) (as : List (ZSrc α)) {t : State α} (ht : Ext s t) :
    (∀ a ∈ as, ∃ n, Argument s a n) ∨
    (∃ pre post o off len b l, as = pre ++ .span o off len :: post ∧ (∀ a ∈ pre, ∃ n, Argument s a n) ∧ s.objs o = some (.vector b) ∧
      s.mem b = some l ∧ l.length < off + len) ∨
    makeArgs t as = .ub := by
  induction as generalizing t with
  | nil => exact .inl (by simp)
  | cons a as ih =>
    rcases makeArg_cases hi ht a with ⟨n, hn⟩ | ⟨o, off, len, b, l, rfl, h1, h2, h3, -⟩ | h
    · obtain ⟨t1, za, h1, ht1⟩ := makeArg_argument hi ht hn
      rcases ih ht1 with h | ⟨pre, post, o, off, len, b, l, rfl, hp, hr⟩ | h
      · refine .inl fun a' ha' => ?_
        rcases List.mem_cons.1 ha' with rfl | ha'
        · exact ⟨n, hn⟩
        · exact h a' ha'
      · refine .inr (.inl ⟨a :: pre, post, o, off, len, b, l, rfl, fun a' ha' => ?_, hr⟩)
        rcases List.mem_cons.1 ha' with rfl | ha'
        · exact ⟨n, hn⟩
        · exact hp a' ha'
      · exact .inr (.inr (by simp only [makeArgs, h1, h, Outcome.bind]))
    · exact .inr (.inl ⟨[], as, o, off, len, b, l, rfl, by simp, h1, h2, h3⟩)
    · exact .inr (.inr (by simp only [makeArgs, h, Outcome.bind]))

private theorem makeArgs_short {α : Type} {s : State α} (hi : Inv s) {pre post : List (ZSrc α)} {o off len b : Nat} {l : List α} {t : State α} (ht : Ext s t)
    (hp : ∀ a ∈ pre, ∃ n, Argument s a n) (h1 : s.objs o = some (.vector b)) (h2 : s.mem b = some l) (h3 : l.length < off + len) :
    makeArgs t (pre ++ .span o off len :: post) = .failFast := by
  induction pre generalizing t with
  | nil =>
    obtain ⟨ho, hm, hn⟩ := ht
    have hb := hi.live _ _ h1 b (List.mem_singleton.2 rfl)
    have hlt : ¬ off + len ≤ l.length := by omega
    simp [makeArgs, makeArg, ho, h1, hm b hb, h2, Outcome.expects, hlt, Outcome.bind]
  | cons a pre ih =>
    obtain ⟨n, hn⟩ := hp a (List.mem_cons_self ..)
    obtain ⟨t1, za, e1, ht1⟩ := makeArg_argument hi ht hn
    simp only [List.cons_append, makeArgs, e1, ih ht1 fun a ha => hp a (List.mem_cons_of_mem _ ha), Outcome.bind]

/-- In every program, a statement terminates the program because of a violated contract exactly if it is one of those named in the specification; whatever else is wrong
with a statement makes it undefined.  No statement throws. -/
theorem C134_rejected {α : Type} {s : State α} {cs : List (Cmd α)} {outs : List (List (Val α))} (h0 : run start cs = .ok (s, outs)) (c : Cmd α) :
    (exec s c = .failFast ↔ Rejected s c) ∧ ∀ msg, exec s c ≠ .throw msg := by
  have hi := run_inv h0 inv_start
  have hcr : ∀ (t : State α) (o : Nat) (x : Obj), ((create t o x).bind fun s' => (.ok (s', []) : Outcome (State α × List (List (Val α))))) ≠ .failFast ∧
      ∀ msg, ((create t o x).bind fun s' => (.ok (s', []) : Outcome (State α × List (List (Val α))))) ≠ .throw msg := by
    intro t o x
    simp only [create]
    split <;> simp [Outcome.bind]
  by_cases hc : (∀ o v i j, c ≠ .span o v i j) ∧ (∀ o i j, c ≠ .indexRange o i j) ∧ ∀ o args, c ≠ .zip o args
  · have hno : ¬ Rejected s c := by
      intro h
      cases h with
      | span => exact hc.1 _ _ _ _ rfl
      | indexRange => exact hc.2.1 _ _ _ rfl
      | zipSpan => exact hc.2.2 _ _ rfl
      | zipSizes => exact hc.2.2 _ _ rfl
    rcases C134_checks s c hc with ⟨r, h⟩ | h <;> simp [h, hno]
  · cases c with
    | span o v off len =>
      rcases hv : s.objs v with _ | x
      · have hno : ¬ Rejected s (.span o v off len) := by intro h; cases h; simp_all
        simp [exec, hv, hno]
      · cases x with
        | vector b =>
          rcases hl : s.mem b with _ | l
          · have hno : ¬ Rejected s (.span o v off len) := by intro h; cases h; simp_all
            simp [exec, hv, hl, hno]
          · by_cases hlt : off + len ≤ l.length
            · have hno : ¬ Rejected s (.span o v off len) := by
                intro h
                cases h with
                | span h1 h2 h3 =>
                  rw [hv] at h1; cases h1
                  rw [hl] at h2; cases h2
                  omega
              have he : exec s (.span o v off len) = (create s o (.span ⟨b, off⟩ len)).bind fun s' => .ok (s', []) := by
                simp only [exec, hv, hl, Outcome.expects, hlt, decide_true, if_true, Outcome.bind]
              rw [he]
              exact ⟨⟨fun h => absurd h (hcr _ _ _).1, fun h => absurd h hno⟩, (hcr _ _ _).2⟩
            · have he : exec s (.span o v off len) = .failFast := by simp [exec, hv, hl, Outcome.expects, hlt, Outcome.bind]
              rw [he]
              exact ⟨⟨fun _ => .span hv hl (by omega), fun _ => rfl⟩, by simp⟩
        | list | span | range | indexRange | zip | destroyed =>
          have hno : ¬ Rejected s (.span o v off len) := by intro h; cases h; simp_all
          simp [exec, hv, hno]
    | indexRange o first last =>
      by_cases hle : first ≤ last
      · have hno : ¬ Rejected s (.indexRange o first last) := by intro h; cases h; omega
        have he : exec s (.indexRange o first last) = (create s o (.indexRange first last)).bind fun s' => .ok (s', []) := by
          simp only [exec, Outcome.expects, hle, decide_true, if_true, Outcome.bind]
        rw [he]
        exact ⟨⟨fun h => absurd h (hcr _ _ _).1, fun h => absurd h hno⟩, (hcr _ _ _).2⟩
      · have he : exec s (.indexRange o first last) = .failFast := by simp [exec, Outcome.expects, hle, Outcome.bind]
        rw [he]
        exact ⟨⟨fun _ => .indexRange (by omega), fun _ => rfl⟩, by simp⟩
    | zip z args =>
      have hs : Ext s s := ⟨rfl, fun _ _ => rfl, Nat.le_refl _⟩
      have hzip : ∀ x, makeArgs s args = x → x = .failFast ∨ x = .ub → exec s (.zip z args) = .failFast ∨ exec s (.zip z args) = .ub := by
        rintro x hx (rfl | rfl) <;> simp [exec, hx, Outcome.bind]
      have hback : Rejected s (.zip z args) → exec s (.zip z args) = .failFast := by
        intro h
        cases h with
        | zipSpan hp h1 h2 h3 => simp only [exec, makeArgs_short hi hs hp h1 h2 h3, Outcome.bind]
        | @zipSizes _ n m _ a b hall ha hb hn hm hne =>
          obtain ⟨t, zas, ns, h1, -, h2⟩ := makeArgs_fine hi args hs hall
          have h3 := (h2 n).2 ⟨a, ha, hn⟩
          have h4 := (h2 m).2 ⟨b, hb, hm⟩
          have hf : commonSize ns = .failFast := by
            cases ns with
            | nil => simp at h3
            | cons k ns =>
              have : ¬ (ns.all (· = k)) = true := by
                intro hall
                have key : ∀ x ∈ k :: ns, x = k := by
                  intro x hx
                  rcases List.mem_cons.1 hx with h | h
                  · exact h
                  · simpa using List.all_eq_true.1 hall x h
                exact hne ((key n h3).trans (key m h4).symm)
              simp only [commonSize, Outcome.expects, this, Outcome.bind]
              rfl
          simp only [exec, h1, Outcome.bind, hf]
      rcases makeArgs_cases hi args hs with hall | ⟨pre, post, o, off, len, b, l, rfl, hp, h1, h2, h3⟩ | h
      · obtain ⟨t, zas, ns, h1, -, h2⟩ := makeArgs_fine hi args hs hall
        have he : exec s (.zip z args) = (commonSize ns).bind fun n => (create t z (.zip n zas)).bind fun s' => .ok (s', []) := by
          simp only [exec, h1, Outcome.bind]
        refine ⟨⟨fun h => ?_, hback⟩, fun msg h => ?_⟩
        · rw [he] at h
          cases ns with
          | nil => simp [commonSize, Outcome.bind] at h
          | cons k ns =>
            by_cases hk : ns.all (· = k) = true
            · simp only [commonSize, Outcome.expects, hk, if_true, Outcome.bind] at h
              exact absurd h (hcr _ _ _).1
            · obtain ⟨m, hm, hne⟩ : ∃ m ∈ ns, m ≠ k := by
                by_contra hno
                push Not at hno
                exact hk (List.all_eq_true.2 fun x hx => by simpa using hno x hx)
              obtain ⟨a, ha, hn⟩ := (h2 k).1 (List.mem_cons_self ..)
              obtain ⟨b, hb, hm⟩ := (h2 m).1 (List.mem_cons_of_mem _ hm)
              exact .zipSizes hall ha hb hn hm (Ne.symm hne)
        · rw [he] at h
          cases ns with
          | nil => simp [commonSize, Outcome.bind] at h
          | cons k ns =>
            by_cases hk : ns.all (· = k) = true
            · simp only [commonSize, Outcome.expects, hk, if_true, Outcome.bind] at h
              exact absurd h ((hcr _ _ _).2 msg)
            · simp [commonSize, Outcome.expects, hk, Outcome.bind] at h
      · have hr : Rejected s (.zip z (pre ++ .span o off len :: post)) := .zipSpan hp h1 h2 h3
        rw [hback hr]
        exact ⟨⟨fun _ => hr, fun _ => rfl⟩, by simp⟩
      · have he : exec s (.zip z args) = .ub := by simp only [exec, h, Outcome.bind]
        exact ⟨⟨fun h' => absurd (he.symm.trans h') (by simp), hback⟩, by simp [he]⟩
    | vector | list | set | assign | realloc | range | copyZip | destroy | begin_ | end_ | bind | copy | advance | deref | each =>
      exact absurd ⟨by simp, by simp, by simp⟩ hc

/-- A span and a list of different sizes; a span of a list, or of a vector which is gone. -/
example : demoRejected [.vector 0 [1, 2, 3], .list 1 [4, 5], .zip 2 [.span 0 0 1, .lvalue 1]] = .failFast ∧
    demoRejected [.vector 0 [1, 2, 3], .list 1 [4, 5], .zip 2 [.span 0 1 2, .index, .lvalue 1], .each 2] =
      .ok [[.elem 2, .index 0, .elem 4], [.elem 3, .index 1, .elem 5]] ∧
    demoRejected [.list 1 [4, 5], .span 2 1 0 7] = .ub ∧ demoRejected [.vector 1 [4, 5], .destroy 1, .span 2 1 0 7] = .ub ∧
    demoRejected [.indexRange 0 3 2] = .failFast := by decide

/-- The specification names a statement of a program. -/
example : ∃ s : State Nat, (∃ outs, run start [.vector 0 [1, 2, 3], .list 1 [4, 5]] = .ok (s, outs)) ∧
    Rejected s (.zip 2 [.span 0 0 1, .lvalue 1]) ∧ ¬ Rejected s (.zip 2 [.span 0 1 2, .lvalue 1]) := by
  refine ⟨_, ⟨_, rfl⟩, ?_, ?_⟩
  · exact .zipSizes (n := 1) (m := 2) (a := .span 0 0 1) (b := .lvalue 1)
      (by
        intro a ha
        rcases List.mem_cons.1 ha with rfl | ha
        · exact ⟨_, .span (b := 0) (l := [1, 2, 3]) rfl rfl (by decide)⟩
        · rw [List.mem_singleton.1 ha]; exact ⟨_, .list (b := 1) (l := [4, 5]) rfl rfl⟩)
      (by simp) (by simp) (.span (b := 0) (l := [1, 2, 3]) rfl rfl (by decide)) (.list (b := 1) (l := [4, 5]) rfl rfl) (by decide)
  · exact fun h => absurd ((C134_rejected (cs := [.vector 0 [1, 2, 3], .list 1 [4, 5]]) rfl _).1.2 h) (by intro h; cases h)

end Makeshift.Props
