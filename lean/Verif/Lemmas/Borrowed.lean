import Verif.Spec.Borrowed

/-! # Lemmas for C134 -/

namespace Makeshift.Borrowed

open Makeshift.Spec

/-- A place which is `d` rows further. -/
def shift (d : Int) : Cell → Cell
  | .place b p => .place b (p + d)
  | .num i => .num (i + d)

/-- The place a leaf refers to. -/
inductive LeafAt (i : Int) : Leaf → Cell → Prop
  | data {a} : LeafAt i (.data a) (.place a.block (a.pos + i))
  | pos {a} : LeafAt i (.pos a) (.place a.block a.pos)
  | index : LeafAt i .index (.num i)

/-- The places an iterator refers to. -/
inductive IterAt : Iter → List Cell → Prop
  | ptr {a} : IterAt (.ptr a) [.place a.block a.pos]
  | idx {i} : IterAt (.idx i) [.num i]
  | zip {i ls cells} : List.Forall₂ (LeafAt i) ls cells → IterAt (.zip i ls) cells

theorem bind_ok {α β : Type} {x : Outcome α} {f : α → Outcome β} {b : β} (h : x.bind f = .ok b) : ∃ a, x = .ok a ∧ f a = .ok b := by
  cases x <;> simp [Outcome.bind] at h ⊢
  exact h

theorem load_ok_iff {α : Type} (mem : Nat → Option (List α)) (a : Addr) (x : α) :
    load mem a = .ok x ↔ CellIs mem (.place a.block a.pos) (.elem x) := by
  constructor
  · intro h
    unfold load at h
    cases hm : mem a.block with
    | none => simp [hm] at h
    | some l =>
      rw [hm] at h
      by_cases hp : a.pos < 0
      · simp [hp] at h
      · simp only [hp, if_false] at h
        cases hx : l[a.pos.toNat]? with
        | none => simp [hx] at h
        | some y =>
          rw [hx] at h
          injection h with h
          subst h
          exact .place hm (i := a.pos.toNat) (by simp; omega) hx
  · intro h
    cases h with
    | place hm hp hx =>
      unfold load
      rw [hm, hp]
      simp only [Int.ofNat_eq_natCast, Int.toNat_natCast, hx]
      simp

theorem load_or {α : Type} (mem : Nat → Option (List α)) (a : Addr) : (∃ x, load mem a = .ok x) ∨ load mem a = .ub := by
  unfold load
  split
  · exact .inr rfl
  · split
    · exact .inr rfl
    · split
      · exact .inr rfl
      · exact .inl ⟨_, rfl⟩

theorem move_ok {α : Type} {mem : Nat → Option (List α)} {a a' : Addr} {d : Int} (h : move mem a d = .ok a') :
    a' = ⟨a.block, a.pos + d⟩ := by
  unfold move at h
  split at h
  · simp at h
  · split at h
    · injection h with h; exact h.symm
    · simp at h

theorem leaf_deref_iff {α : Type} {mem : Nat → Option (List α)} {i : Int} {l : Leaf} {c : Cell} (h : LeafAt i l c) (v : Val α) :
    l.deref mem i = .ok v ↔ CellIs mem c v := by
  cases h with
  | data =>
    simp only [Leaf.deref]
    constructor
    · intro h
      obtain ⟨x, hx, h⟩ := bind_ok h
      injection h with h
      subst h
      exact (load_ok_iff mem _ _).1 hx
    · intro h
      cases v with
      | index j => cases h
      | elem x =>
        rename_i a
        have := (load_ok_iff mem ⟨a.block, a.pos + i⟩ x).2 h
        rw [this]; rfl
  | pos =>
    simp only [Leaf.deref]
    constructor
    · intro h
      obtain ⟨x, hx, h⟩ := bind_ok h
      injection h with h
      subst h
      exact (load_ok_iff mem _ _).1 hx
    · intro h
      cases v with
      | index j => cases h
      | elem x =>
        have := (load_ok_iff mem _ x).2 h
        rw [this]; rfl
  | index =>
    simp only [Leaf.deref]
    constructor
    · intro h; injection h with h; subst h; exact .num
    · intro h; cases h; rfl

theorem leaf_deref_or {α : Type} (mem : Nat → Option (List α)) (i : Int) (l : Leaf) :
    (∃ v, l.deref mem i = .ok v) ∨ l.deref mem i = .ub := by
  cases l with
  | data a => rcases load_or mem ⟨a.block, a.pos + i⟩ with ⟨x, h⟩ | h <;> simp [Leaf.deref, h, Outcome.bind]
  | pos a => rcases load_or mem a with ⟨x, h⟩ | h <;> simp [Leaf.deref, h, Outcome.bind]
  | index => exact .inl ⟨_, rfl⟩

theorem derefLeaves_iff {α : Type} {mem : Nat → Option (List α)} {i : Int} {ls : List Leaf} {cells : List Cell}
    (h : List.Forall₂ (LeafAt i) ls cells) (vals : List (Val α)) : derefLeaves mem i ls = .ok vals ↔ Reads mem cells vals := by
  induction h generalizing vals with
  | nil =>
    simp only [derefLeaves, Reads, List.forall₂_nil_left_iff]
    constructor
    · intro h; injection h with h; exact h.symm
    · rintro rfl; rfl
  | cons h1 _ ih =>
    simp only [derefLeaves]
    constructor
    · intro h
      obtain ⟨v, hv, h⟩ := bind_ok h
      obtain ⟨vs, hvs, h⟩ := bind_ok h
      injection h with h
      subst h
      exact .cons ((leaf_deref_iff h1 v).1 hv) ((ih vs).1 hvs)
    · intro h
      cases h with
      | cons hv hvs =>
        rw [(leaf_deref_iff h1 _).2 hv]
        simp only [Outcome.bind]
        rw [(ih _).2 hvs]

theorem derefLeaves_or {α : Type} (mem : Nat → Option (List α)) (i : Int) (ls : List Leaf) :
    (∃ v, derefLeaves mem i ls = .ok v) ∨ derefLeaves mem i ls = .ub := by
  induction ls with
  | nil => exact .inl ⟨_, rfl⟩
  | cons l ls ih =>
    rcases leaf_deref_or mem i l with ⟨v, h⟩ | h <;> rcases ih with ⟨vs, h'⟩ | h' <;> simp [derefLeaves, h, h', Outcome.bind]

theorem deref_iff {α : Type} {s : State α} {i : Iter} {cells : List Cell} (h : IterAt i cells) (vals : List (Val α)) :
    deref s i = .ok vals ↔ Reads s.mem cells vals := by
  cases h with
  | ptr =>
    simp only [deref]
    constructor
    · intro h
      obtain ⟨x, hx, h⟩ := bind_ok h
      injection h with h
      subst h
      exact .cons ((load_ok_iff _ _ _).1 hx) .nil
    · intro h
      cases h with
      | cons hv hn =>
        cases hn
        rename_i v
        cases v with
        | index j => cases hv
        | elem x => rw [(load_ok_iff _ _ _).2 hv]; rfl
  | idx =>
    simp only [deref]
    constructor
    · intro h; injection h with h; subst h; exact .cons .num .nil
    · intro h
      cases h with
      | cons hv hn => cases hn; cases hv; rfl
  | zip h => exact derefLeaves_iff h vals

theorem deref_or {α : Type} (s : State α) (i : Iter) : (∃ v, deref s i = .ok v) ∨ deref s i = .ub := by
  cases i with
  | ptr a => rcases load_or s.mem a with ⟨x, h⟩ | h <;> simp [deref, h, Outcome.bind]
  | idx i => exact .inl ⟨_, rfl⟩
  | zip i ls => exact derefLeaves_or _ _ _
  | bound o =>
    simp only [deref]
    split
    · rename_i a _ _
      rcases load_or s.mem a with ⟨x, h⟩ | h <;> simp [h, Outcome.bind]
    · exact .inr rfl

theorem advanceLeaves_at {α : Type} {mem : Nat → Option (List α)} {i d : Int} {ls ls' : List Leaf} {cells : List Cell}
    (h : List.Forall₂ (LeafAt i) ls cells) (ha : advanceLeaves mem d ls = .ok ls') :
    List.Forall₂ (LeafAt (i + d)) ls' (cells.map (shift d)) := by
  induction h generalizing ls' with
  | nil => simp only [advanceLeaves] at ha; injection ha with ha; subst ha; exact .nil
  | cons h1 _ ih =>
    simp only [advanceLeaves] at ha
    obtain ⟨l', hl, ha⟩ := bind_ok ha
    obtain ⟨ls', hls, ha⟩ := bind_ok ha
    injection ha with ha
    subst ha
    refine .cons ?_ (ih hls)
    cases h1 with
    | data =>
      simp only [Leaf.advance] at hl
      injection hl with hl
      subst hl
      have := @LeafAt.data (i + d) ‹_›
      rw [← Int.add_assoc] at this
      exact this
    | pos =>
      simp only [Leaf.advance] at hl
      obtain ⟨a', h', hl⟩ := bind_ok hl
      injection hl with hl
      subst hl
      rw [move_ok h']
      exact .pos
    | index =>
      simp only [Leaf.advance] at hl
      injection hl with hl
      subst hl
      exact .index

theorem advance_at {α : Type} {s : State α} {d : Int} {i i' : Iter} {cells : List Cell} (h : IterAt i cells) (ha : advance s d i = .ok i') :
    IterAt i' (cells.map (shift d)) := by
  cases h with
  | ptr =>
    simp only [advance] at ha
    obtain ⟨a', h', ha⟩ := bind_ok ha
    injection ha with ha
    subst ha
    rw [move_ok h']
    exact .ptr
  | idx =>
    simp only [advance] at ha
    injection ha with ha
    subst ha
    exact .idx
  | zip h =>
    simp only [advance] at ha
    obtain ⟨a', h', ha⟩ := bind_ok ha
    injection ha with ha
    subst ha
    exact .zip (advanceLeaves_at h h')

theorem argCell_shift {α : Type} {s : State α} {k d : Int} {a : ZArg} {c : Cell} (h : ArgCell s k a c) : ArgCell s (k + d) a (shift d c) := by
  cases h with
  | vector h => exact .vector h
  | list h => exact .list h
  | span h => simp only [shift, Int.add_assoc]; exact .span h
  | index => exact .index
  | heldSpan => simp only [shift, Int.add_assoc]; exact .heldSpan
  | heldArray => exact .heldArray

theorem rowOf_shift {α : Type} {s : State α} {o : Nat} {k d : Int} {cells : List Cell} (h : RowOf s o k cells) :
    RowOf s o (k + d) (cells.map (shift d)) := by
  cases h with
  | range h => simp only [List.map_cons, shift, Int.add_assoc, List.map_nil]; exact .range h
  | indexRange h => simp only [List.map_cons, shift, Int.add_assoc, List.map_nil]; exact .indexRange h
  | zip h hf =>
    refine .zip h ?_
    clear h
    induction hf with
    | nil => exact .nil
    | cons h1 _ ih => exact .cons (argCell_shift h1) ih

theorem argCell_unique {α : Type} {s : State α} {k : Int} {a : ZArg} {c c' : Cell} (h : ArgCell s k a c) (h' : ArgCell s k a c') : c = c' := by
  cases h <;> cases h' <;> simp_all

theorem rowOf_unique {α : Type} {s : State α} {o : Nat} {k : Int} {c c' : List Cell} (h : RowOf s o k c) (h' : RowOf s o k c') : c = c' := by
  have key : ∀ {args : List ZArg} {c c' : List Cell}, List.Forall₂ (ArgCell s k) args c → List.Forall₂ (ArgCell s k) args c' → c = c' := by
    intro args c c' h
    induction h generalizing c' with
    | nil => intro h'; cases h'; rfl
    | cons h1 _ ih =>
      intro h'
      cases h' with
      | cons h1' h2' => rw [argCell_unique h1 h1', ih h2']
  cases h with
  | range h => cases h' <;> simp_all
  | indexRange h => cases h' <;> simp_all
  | zip h hf =>
    cases h' with
    | range h' => simp_all
    | indexRange h' => simp_all
    | zip h' hf' =>
      rw [h] at h'
      injection h' with h'
      injection h' with _ h'
      subst h'
      exact key hf hf'

theorem leafOf_at {α : Type} {s : State α} {a : ZArg} {l : Leaf} (h : leafOf s a = .ok l) : ∃ c, ArgCell s 0 a c ∧ LeafAt 0 l c := by
  cases a with
  | ref o =>
    simp only [leafOf] at h
    split at h
    · rename_i b hb
      injection h with h; subst h
      exact ⟨_, .vector hb, .data⟩
    · rename_i b hb
      injection h with h; subst h
      exact ⟨_, .list hb, .pos⟩
    · rename_i b _ hb
      injection h with h; subst h
      exact ⟨_, .span hb, .data⟩
    · simp at h
  | index => simp only [leafOf] at h; injection h with h; subst h; exact ⟨_, .index, .index⟩
  | span a n => simp only [leafOf] at h; injection h with h; subst h; exact ⟨_, .heldSpan, .data⟩
  | array b => simp only [leafOf] at h; injection h with h; subst h; exact ⟨_, .heldArray, .data⟩

theorem leafOf_of_cell {α : Type} {s : State α} {a : ZArg} {k : Int} {c : Cell} (h : ArgCell s k a c) : ∃ l, leafOf s a = .ok l := by
  cases h <;> simp_all [leafOf]

theorem leavesOf_at {α : Type} {s : State α} {args : List ZArg} {ls : List Leaf} (h : leavesOf s args = .ok ls) :
    ∃ cs, List.Forall₂ (ArgCell s 0) args cs ∧ List.Forall₂ (LeafAt 0) ls cs := by
  induction args generalizing ls with
  | nil => simp only [leavesOf] at h; injection h with h; subst h; exact ⟨[], .nil, .nil⟩
  | cons a as ih =>
    simp only [leavesOf] at h
    obtain ⟨l, hl, h⟩ := bind_ok h
    obtain ⟨ls', hls, h⟩ := bind_ok h
    injection h with h
    subst h
    obtain ⟨c, h1, h2⟩ := leafOf_at hl
    obtain ⟨cs, h3, h4⟩ := ih hls
    exact ⟨c :: cs, .cons h1 h3, .cons h2 h4⟩

theorem leavesOf_of_cells {α : Type} {s : State α} {args : List ZArg} {k : Int} {cs : List Cell} (h : List.Forall₂ (ArgCell s k) args cs) :
    ∃ ls, leavesOf s args = .ok ls := by
  induction h with
  | nil => exact ⟨[], rfl⟩
  | cons h1 _ ih =>
    obtain ⟨l, hl⟩ := leafOf_of_cell h1
    obtain ⟨ls, hls⟩ := ih
    exact ⟨l :: ls, by simp [leavesOf, hl, hls, Outcome.bind]⟩

theorem leavesOf_or {α : Type} (s : State α) (args : List ZArg) : (∃ ls, leavesOf s args = .ok ls) ∨ leavesOf s args = .ub := by
  induction args with
  | nil => exact .inl ⟨_, rfl⟩
  | cons a as ih =>
    have : (∃ l, leafOf s a = .ok l) ∨ leafOf s a = .ub := by
      cases a <;> simp only [leafOf] <;> try exact .inl ⟨_, rfl⟩
      split <;> simp
    rcases this with ⟨l, h⟩ | h <;> rcases ih with ⟨ls, h'⟩ | h' <;> simp [leavesOf, h, h', Outcome.bind]

theorem beginOf_at {α : Type} {s : State α} {o : Nat} {i : Iter} (h : beginOf s o = .ok i) : ∃ cells, RowOf s o 0 cells ∧ IterAt i cells := by
  unfold beginOf at h
  split at h
  · rename_i f l ho
    injection h with h; subst h
    refine ⟨_, .range ho, ?_⟩
    rw [Int.add_zero]; exact .ptr
  · rename_i f l ho
    injection h with h; subst h
    refine ⟨_, .indexRange ho, ?_⟩
    rw [Int.add_zero]; exact .idx
  · rename_i n args ho
    obtain ⟨ls, hls, h⟩ := bind_ok h
    injection h with h; subst h
    obtain ⟨cs, h1, h2⟩ := leavesOf_at hls
    exact ⟨cs, .zip ho h1, .zip h2⟩
  · simp at h

/-- How a statement changes an iterator variable. -/
theorem exec_its {α : Type} {s s' : State α} {c : Cmd α} {out : List (List (Val α))} (h : exec s c = .ok (s', out)) (it : Nat) :
    (∃ d i i', c = .advance it d ∧ s.its it = some i ∧ advance s d i = .ok i' ∧ s'.its it = some i') ∨
    (Sets it c) ∨ ((∀ d, c ≠ .advance it d) ∧ s'.its it = s.its it) := by
  have hcreate : ∀ {t t' : State α} {o x}, create t o x = .ok t' → t'.its = t.its := by
    intro t t' o x h
    unfold create at h
    split at h
    · injection h with h; subst h; rfl
    · simp at h
  have hmake1 : ∀ {t t' : State α} {a r}, makeArg t a = .ok (t', r) → t'.its = t.its := by
    intro t t' a r h
    cases a with
    | lvalue o =>
      simp only [makeArg] at h
      split at h <;> (try split at h) <;> simp at h <;> rw [← h.1]
    | index => simp only [makeArg] at h; injection h with h; injection h with h; subst h; rfl
    | span o off len =>
      simp only [makeArg] at h
      split at h
      · split at h
        · obtain ⟨_, _, h⟩ := bind_ok h
          injection h with h; injection h with h; subst h; rfl
        · simp at h
      · simp at h
    | array l => simp only [makeArg] at h; injection h with h; injection h with h; subst h; rfl
  have hmake : ∀ {as : List (ZSrc α)} {t t' : State α} {r}, makeArgs t as = .ok (t', r) → t'.its = t.its := by
    intro as
    induction as with
    | nil => intro t t' r h; simp only [makeArgs] at h; injection h with h; injection h with h; subst h; rfl
    | cons a as ih =>
      intro t t' r h
      simp only [makeArgs] at h
      obtain ⟨r1, h1, h⟩ := bind_ok h
      obtain ⟨r2, h2, h⟩ := bind_ok h
      injection h with h; injection h with h
      subst h
      rw [ih h2, hmake1 h1]
  have hcopy : ∀ {as : List ZArg} {t t' : State α} {r}, copyArgs t as = .ok (t', r) → t'.its = t.its := by
    intro as
    induction as with
    | nil => intro t t' r h; simp only [copyArgs] at h; injection h with h; injection h with h; subst h; rfl
    | cons a as ih =>
      intro t t' r h
      cases a with
      | array b =>
        simp only [copyArgs] at h
        split at h
        · obtain ⟨r2, h2, h⟩ := bind_ok h
          injection h with h; injection h with h
          subst h
          rw [ih h2]
        · simp at h
      | _ =>
        simp only [copyArgs] at h
        obtain ⟨r2, h2, h⟩ := bind_ok h
        injection h with h; injection h with h
        subst h
        rw [ih h2]
  cases c with
  | vector o l | list o l =>
    obtain ⟨t, h1, h⟩ := bind_ok h
    injection h with h; injection h with h; subst h
    exact .inr (.inr ⟨fun d => by simp, by rw [hcreate h1]⟩)
  | set o i x =>
    refine .inr (.inr ⟨fun d => by simp, ?_⟩)
    simp only [exec] at h
    split at h <;> (try split at h) <;> (try split at h) <;> simp at h <;> rw [← h.1]
  | assign o l =>
    refine .inr (.inr ⟨fun d => by simp, ?_⟩)
    simp only [exec] at h
    split at h <;> simp at h
    rw [← h.1]
  | realloc o =>
    refine .inr (.inr ⟨fun d => by simp, ?_⟩)
    simp only [exec] at h
    split at h <;> simp at h
    rw [← h.1]
  | span o v off len =>
    refine .inr (.inr ⟨fun d => by simp, ?_⟩)
    simp only [exec] at h
    split at h
    · split at h
      · obtain ⟨_, _, h⟩ := bind_ok h
        obtain ⟨t, h1, h⟩ := bind_ok h
        injection h with h; injection h with h; subst h
        rw [hcreate h1]
      · simp at h
    · simp at h
  | range o v i j =>
    refine .inr (.inr ⟨fun d => by simp, ?_⟩)
    simp only [exec] at h
    split at h
    · obtain ⟨_, _, h⟩ := bind_ok h
      obtain ⟨_, _, h⟩ := bind_ok h
      obtain ⟨t, h1, h⟩ := bind_ok h
      injection h with h; injection h with h; subst h
      rw [hcreate h1]
    · simp at h
  | indexRange o a b =>
    refine .inr (.inr ⟨fun d => by simp, ?_⟩)
    simp only [exec] at h
    obtain ⟨_, _, h⟩ := bind_ok h
    obtain ⟨t, h1, h⟩ := bind_ok h
    injection h with h; injection h with h; subst h
    rw [hcreate h1]
  | zip o args =>
    refine .inr (.inr ⟨fun d => by simp, ?_⟩)
    simp only [exec] at h
    obtain ⟨r, hr, h⟩ := bind_ok h
    obtain ⟨_, _, h⟩ := bind_ok h
    obtain ⟨t, h1, h⟩ := bind_ok h
    injection h with h; injection h with h; subst h
    rw [hcreate h1, hmake hr]
  | copyZip o z =>
    refine .inr (.inr ⟨fun d => by simp, ?_⟩)
    simp only [exec] at h
    split at h
    · obtain ⟨r, hr, h⟩ := bind_ok h
      obtain ⟨t, h1, h⟩ := bind_ok h
      injection h with h; injection h with h; subst h
      rw [hcreate h1, hcopy hr]
    · simp at h
  | destroy o =>
    refine .inr (.inr ⟨fun d => by simp, ?_⟩)
    simp only [exec] at h
    split at h <;> simp at h
    rw [← h.1]
  | begin_ j o | end_ j o | bind j o =>
    by_cases hj : j = it
    · exact .inr (.inl hj)
    · refine .inr (.inr ⟨fun d => by simp, ?_⟩)
      simp only [exec] at h
      obtain ⟨i, _, h⟩ := bind_ok h
      injection h with h; injection h with h; subst h
      simp [upd, Ne.symm hj]
  | copy j j' =>
    by_cases hj : j = it
    · exact .inr (.inl hj)
    · refine .inr (.inr ⟨fun d => by simp, ?_⟩)
      simp only [exec] at h
      split at h
      · obtain ⟨i, _, h⟩ := bind_ok h
        injection h with h; injection h with h; subst h
        simp [upd, Ne.symm hj]
      · injection h with h; injection h with h; subst h
        simp [upd, Ne.symm hj]
      · simp at h
  | advance j d =>
    simp only [exec] at h
    split at h
    · rename_i i hi
      obtain ⟨i', h', h⟩ := bind_ok h
      injection h with h; injection h with h; subst h
      by_cases hj : j = it
      · subst hj
        exact .inl ⟨d, i, i', rfl, hi, h', by simp [upd]⟩
      · exact .inr (.inr ⟨fun d => by simp [hj], by simp [upd, Ne.symm hj]⟩)
    · simp at h
  | deref j =>
    refine .inr (.inr ⟨fun d => by simp, ?_⟩)
    simp only [exec] at h
    split at h
    · obtain ⟨_, _, h⟩ := bind_ok h
      injection h with h; injection h with h; subst h; rfl
    · simp at h
  | each o =>
    refine .inr (.inr ⟨fun d => by simp, ?_⟩)
    simp only [exec] at h
    obtain ⟨_, _, h⟩ := bind_ok h
    obtain ⟨_, _, h⟩ := bind_ok h
    obtain ⟨_, _, h⟩ := bind_ok h
    injection h with h; injection h with h; subst h; rfl

theorem run_its {α : Type} {cs : List (Cmd α)} {s s' : State α} {outs : List (List (Val α))} (h : run s cs = .ok (s', outs)) {it : Nat}
    (hs : ∀ c ∈ cs, ¬ Sets it c) {i : Iter} {cells : List Cell} (hi : s.its it = some i) (hc : IterAt i cells) :
    ∃ i', s'.its it = some i' ∧ IterAt i' (cells.map (shift (moved it cs))) := by
  induction cs generalizing s outs i cells with
  | nil =>
    simp only [run] at h; injection h with h; injection h with h; subst h
    refine ⟨i, hi, ?_⟩
    have : cells.map (shift 0) = cells := by
      conv => rhs; rw [← List.map_id cells]
      refine List.map_congr_left fun c _ => ?_
      cases c <;> simp [shift]
    rw [moved, this]; exact hc
  | cons c cs ih =>
    simp only [run] at h
    obtain ⟨r, hr, h⟩ := bind_ok h
    obtain ⟨r', hr', h⟩ := bind_ok h
    injection h with h; injection h with h; subst h
    rcases exec_its hr it with ⟨d, j, j', rfl, hj, ha, hj'⟩ | hs' | ⟨hne, he⟩
    · rw [hi] at hj; injection hj with hj; subst hj
      obtain ⟨i', h1, h2⟩ := ih hr' (fun c hc => hs c (List.mem_cons_of_mem _ hc)) hj' (advance_at hc ha)
      refine ⟨i', h1, ?_⟩
      rw [List.map_map] at h2
      have : (shift (moved it cs)) ∘ (shift d) = shift (d + moved it cs) := by
        funext c; cases c <;> simp [shift, Int.add_assoc]
      rw [this] at h2
      simpa [moved] using h2
    · exact absurd hs' (hs c (List.mem_cons_self ..))
    · obtain ⟨i', h1, h2⟩ := ih hr' (fun c hc => hs c (List.mem_cons_of_mem _ hc)) (he.trans hi) hc
      refine ⟨i', h1, ?_⟩
      have : moved it (c :: cs) = moved it cs := by
        cases c <;> simp only [moved]
        rename_i j d
        have : j ≠ it := fun hj => hne d (by rw [hj])
        simp [this]
      rw [this]; exact h2

/-! ## Loops -/

theorem advance_zip_pos {α : Type} {s : State α} {d i : Int} {ls : List Leaf} {i' : Iter} (h : advance s d (.zip i ls) = .ok i') :
    ∃ ls', i' = .zip (i + d) ls' := by
  simp only [advance] at h
  obtain ⟨ls', _, h⟩ := bind_ok h
  injection h with h
  exact ⟨ls', h.symm⟩

/-- The end of a loop, in terms of the iterator at its beginning: `e` is `n` steps away. -/
inductive Away : Nat → Iter → Iter → Prop
  | ptr {n b p} : Away n (.ptr ⟨b, p⟩) (.ptr ⟨b, p + Int.ofNat n⟩)
  | idx {n i} : Away n (.idx i) (.idx (i + Int.ofNat n))
  | zip {n i ls ls'} : Away n (.zip i ls) (.zip (i + Int.ofNat n) ls')

theorem away_zero {it e : Iter} {n : Nat} (h : Away n it e) : same it e = true ↔ n = 0 := by
  cases h <;> simp [same] <;> omega

theorem away_steps {it e : Iter} {n : Nat} (h : Away n it e) : steps it e = n := by
  cases h <;> simp [steps] <;> omega

theorem away_succ {α : Type} {s : State α} {it it' e : Iter} {n : Nat} (h : Away (n + 1) it e) (ha : advance s 1 it = .ok it') : Away n it' e := by
  cases h with
  | ptr =>
    simp only [advance] at ha
    obtain ⟨a', h', ha⟩ := bind_ok ha
    injection ha with ha
    subst ha
    rw [move_ok h']
    have e : ∀ p : Int, p + Int.ofNat (n + 1) = (p + 1) + Int.ofNat n := by intro p; simp; omega
    rw [e]
    exact .ptr
  | idx =>
    simp only [advance] at ha
    injection ha with ha
    subst ha
    have e : ∀ p : Int, p + Int.ofNat (n + 1) = (p + 1) + Int.ofNat n := by intro p; simp; omega
    rw [e]
    exact .idx
  | zip =>
    obtain ⟨ls', rfl⟩ := advance_zip_pos ha
    have e : ∀ p : Int, p + Int.ofNat (n + 1) = (p + 1) + Int.ofNat n := by intro p; simp; omega
    rw [e]
    exact .zip

/-- An iterator at which something can be read can be moved by one. -/
theorem advance_of_reads {α : Type} {s : State α} {i : Iter} {cells : List Cell} {vals : List (Val α)} (h : IterAt i cells)
    (hr : Reads s.mem cells vals) : ∃ i', advance s 1 i = .ok i' := by
  have hmove : ∀ {a : Addr} {v : Val α}, CellIs s.mem (.place a.block a.pos) v → ∃ a', move s.mem a 1 = .ok a' := by
    intro a v h
    cases h with
    | place hm hp hx =>
      rename_i l i x
      have hl : i < l.length := by
        rw [List.getElem?_eq_some_iff] at hx; exact hx.1
      refine ⟨⟨a.block, a.pos + 1⟩, ?_⟩
      unfold move
      rw [hm, hp]
      simp
      omega
  cases h with
  | ptr =>
    cases hr with
    | cons hv hn =>
      obtain ⟨a', ha⟩ := hmove hv
      exact ⟨_, by simp only [advance, ha, Outcome.bind]; rfl⟩
  | idx => exact ⟨_, rfl⟩
  | zip h =>
    rename_i k ls
    have : ∃ ls', advanceLeaves s.mem 1 ls = .ok ls' := by
      induction h generalizing vals with
      | nil => exact ⟨[], rfl⟩
      | cons h1 _ ih =>
        cases hr with
        | cons hv hn =>
          obtain ⟨ls', hls⟩ := ih hn
          cases h1 with
          | data => exact ⟨_, by simp only [advanceLeaves, Leaf.advance, hls, Outcome.bind]; rfl⟩
          | index => exact ⟨_, by simp only [advanceLeaves, Leaf.advance, hls, Outcome.bind]; rfl⟩
          | pos =>
            obtain ⟨a', ha⟩ := hmove hv
            exact ⟨_, by simp only [advanceLeaves, Leaf.advance, ha, hls, Outcome.bind]; rfl⟩
    obtain ⟨ls', h'⟩ := this
    exact ⟨_, by simp only [advance, h', Outcome.bind]; rfl⟩

theorem shift_zero (cells : List Cell) : cells.map (shift 0) = cells := by
  conv => rhs; rw [← List.map_id cells]
  refine List.map_congr_left fun c _ => ?_
  cases c <;> simp [shift]

theorem shift_shift (d d' : Int) (cells : List Cell) : (cells.map (shift d)).map (shift d') = cells.map (shift (d + d')) := by
  rw [List.map_map]
  congr 1
  funext c; cases c <;> simp [shift, Int.add_assoc]

theorem loop_iff {α : Type} {s : State α} {e : Iter} (n : Nat) {it : Iter} (h : Away n it e) {cells : List Cell} (hc : IterAt it cells)
    (rows : List (List (Val α))) :
    loop s e (n + 1) it = .ok rows ↔
      rows.length = n ∧ ∀ k (hk : k < rows.length), Reads s.mem (cells.map (shift (Int.ofNat k))) rows[k] := by
  induction n generalizing it cells rows with
  | zero =>
    have := (away_zero h).2 rfl
    simp only [loop, this, if_true]
    constructor
    · intro h; injection h with h; subst h; simp
    · rintro ⟨h, -⟩; rw [List.length_eq_zero_iff.1 h]
  | succ n ih =>
    have hne : same it e = false := by
      have := (not_congr (away_zero h)).2 (by omega)
      simpa using this
    rw [loop, hne]
    simp only [Bool.false_eq_true, if_false]
    constructor
    · intro hl
      obtain ⟨row, hrow, hl⟩ := bind_ok hl
      obtain ⟨it', hit, hl⟩ := bind_ok hl
      obtain ⟨rows', hrows, hl⟩ := bind_ok hl
      injection hl with hl
      subst hl
      obtain ⟨h1, h2⟩ := (ih (away_succ h hit) (advance_at hc hit) rows').1 hrows
      refine ⟨by simp [h1], ?_⟩
      intro k hk
      cases k with
      | zero =>
        have e : Int.ofNat 0 = 0 := rfl
        rw [e, shift_zero]
        exact (deref_iff hc row).1 hrow
      | succ k =>
        have := h2 k (by simpa using hk)
        rw [shift_shift] at this
        have e : (1 : Int) + Int.ofNat k = Int.ofNat (k + 1) := by simp; omega
        rw [e] at this
        exact this
    · rintro ⟨h1, h2⟩
      cases rows with
      | nil => simp at h1
      | cons row rows =>
        have h0 := h2 0 (by simp)
        have e0 : Int.ofNat 0 = 0 := rfl
        rw [e0, shift_zero] at h0
        obtain ⟨it', hit⟩ := advance_of_reads hc h0
        rw [(deref_iff hc row).2 h0]
        simp only [Outcome.bind, hit]
        have := (ih (away_succ h hit) (advance_at hc hit) rows).2 ⟨by simpa using h1, ?_⟩
        · rw [this]
        · intro k hk
          rw [shift_shift]
          have e : (1 : Int) + Int.ofNat k = Int.ofNat (k + 1) := by simp; omega
          rw [e]
          exact h2 (k + 1) (by simpa using hk)

theorem loop_or {α : Type} (s : State α) (e : Iter) (n : Nat) (it : Iter) : (∃ rows, loop s e n it = .ok rows) ∨ loop s e n it = .ub := by
  induction n generalizing it with
  | zero => exact .inr rfl
  | succ n ih =>
    rw [loop]
    by_cases hs : same it e
    · simp [hs]
    · simp only [hs]
      rcases deref_or s it with ⟨row, h⟩ | h
      · have ha : (∃ i, advance s 1 it = .ok i) ∨ advance s 1 it = .ub := by
          have hm : ∀ a : Addr, (∃ a', move s.mem a 1 = .ok a') ∨ move s.mem a 1 = .ub := by
            intro a
            unfold move
            split
            · exact .inr rfl
            · split
              · exact .inl ⟨_, rfl⟩
              · exact .inr rfl
          cases it with
          | ptr a => rcases hm a with ⟨x, h⟩ | h <;> simp [advance, h, Outcome.bind]
          | idx i => exact .inl ⟨_, rfl⟩
          | bound o => exact .inr rfl
          | zip i ls =>
            have : (∃ ls', advanceLeaves s.mem 1 ls = .ok ls') ∨ advanceLeaves s.mem 1 ls = .ub := by
              clear h hs
              induction ls with
              | nil => exact .inl ⟨_, rfl⟩
              | cons l ls ih =>
                have : (∃ l', l.advance s.mem 1 = .ok l') ∨ l.advance s.mem 1 = .ub := by
                  cases l with
                  | data a => exact .inl ⟨_, rfl⟩
                  | index => exact .inl ⟨_, rfl⟩
                  | pos a => rcases hm a with ⟨x, h⟩ | h <;> simp [Leaf.advance, h, Outcome.bind]
                rcases this with ⟨l, h⟩ | h <;> rcases ih with ⟨ls, h'⟩ | h' <;> simp [advanceLeaves, h, h', Outcome.bind]
            rcases this with ⟨l, h⟩ | h <;> simp [advance, h, Outcome.bind]
        rcases ha with ⟨i, h'⟩ | h'
        · rcases ih i with ⟨rows, h''⟩ | h'' <;> simp [h, h', h'', Outcome.bind]
        · simp [h, h', Outcome.bind]
      · simp [h, Outcome.bind]

/-! ## What a statement does to storage and objects -/

/-- The effect of a statement on storage and objects. -/
inductive Step {α : Type} (s s' : State α) (c : Cmd α) : Prop
  | none : s'.mem = s.mem → s'.objs = s.objs → s'.next = s.next → (∀ o, c ≠ .destroy o) → Step s s' c
  | new (o : Nat) (x : Obj) : s.objs o = Option.none → s'.objs = upd s.objs o (some x) → s.next ≤ s'.next →
      (∀ b, ¬ (s.next ≤ b ∧ b < s'.next) → s'.mem b = s.mem b) → (owned x).Nodup →
      (∀ b ∈ owned x, s.next ≤ b ∧ b < s'.next ∧ (s'.mem b).isSome) → (∀ o, c ≠ .destroy o) → Step s s' c
  | store (o b : Nat) (l : List α) : (s.objs o = some (.vector b) ∨ s.objs o = some (.list b)) → s'.objs = s.objs → s'.next = s.next →
      s'.mem = upd s.mem b (some l) → (∀ o, c ≠ .destroy o) → Step s s' c
  | realloc (o b : Nat) : s.objs o = some (.vector b) → s'.objs = upd s.objs o (some (.vector s.next)) → s'.next = s.next + 1 →
      s'.mem = upd (upd s.mem s.next (s.mem b)) b Option.none → (∀ o, c ≠ .destroy o) → Step s s' c
  | destroy (o : Nat) (x : Obj) : s.objs o = some x → s'.objs = upd s.objs o (some .destroyed) → s'.next = s.next →
      (s'.mem = fun b => if b ∈ owned x then Option.none else s.mem b) → c = .destroy o → Step s s' c

/-- Arguments which own arrays: the blocks. -/
def arrays (args : List ZArg) : List Nat := args.filterMap fun a => match a with | .array b => some b | _ => none

theorem makeArgs_spec {α : Type} {as : List (ZSrc α)} {s s' : State α} {args : List ZArg} {ns : List Nat}
    (h : makeArgs s as = .ok (s', args, ns)) :
    s'.objs = s.objs ∧ s.next ≤ s'.next ∧ (∀ b, ¬ (s.next ≤ b ∧ b < s'.next) → s'.mem b = s.mem b) ∧ (arrays args).Nodup ∧
      (∀ b ∈ arrays args, s.next ≤ b ∧ b < s'.next ∧ (s'.mem b).isSome) := by
  induction as generalizing s args ns with
  | nil =>
    simp only [makeArgs] at h
    injection h with h; injection h with h h2; injection h2 with h2 h3
    subst h; subst h2
    simp [arrays]
  | cons a as ih =>
    simp only [makeArgs] at h
    obtain ⟨⟨t, za, n⟩, h1, h⟩ := bind_ok h
    obtain ⟨⟨t', zas, ns'⟩, h2, h⟩ := bind_ok h
    injection h with h; injection h with h h3; injection h3 with h3 h4
    dsimp only at h2 h h3
    subst h; subst h3
    obtain ⟨i1, i2, i3, i4, i5⟩ := ih h2
    have same : t = s → (∀ b, za ≠ .array b) → _ := fun ht hza => by
      subst ht
      have e : arrays (za :: zas) = arrays zas := by
        cases za <;> simp_all [arrays]
      exact (⟨i1, i2, i3, e ▸ i4, e ▸ i5⟩ : t'.objs = t.objs ∧ t.next ≤ t'.next ∧ (∀ b, ¬ (t.next ≤ b ∧ b < t'.next) → t'.mem b = t.mem b) ∧ (arrays (za :: zas)).Nodup ∧
        (∀ b ∈ arrays (za :: zas), t.next ≤ b ∧ b < t'.next ∧ (t'.mem b).isSome))
    cases a with
    | lvalue o =>
      simp only [makeArg] at h1
      split at h1
      · split at h1
        · injection h1 with h1; injection h1 with h1 h5; injection h5 with h5 h6
          exact h1 ▸ same h1.symm (by simp [← h5])
        · simp at h1
      · split at h1
        · injection h1 with h1; injection h1 with h1 h5; injection h5 with h5 h6
          exact h1 ▸ same h1.symm (by simp [← h5])
        · simp at h1
      · injection h1 with h1; injection h1 with h1 h5; injection h5 with h5 h6
        exact h1 ▸ same h1.symm (by simp [← h5])
      · simp at h1
    | index =>
      simp only [makeArg] at h1
      injection h1 with h1; injection h1 with h1 h5; injection h5 with h5 h6
      exact h1 ▸ same h1.symm (by simp [← h5])
    | span o off len =>
      simp only [makeArg] at h1
      split at h1
      · split at h1
        · obtain ⟨_, _, h1⟩ := bind_ok h1
          injection h1 with h1; injection h1 with h1 h5; injection h5 with h5 h6
          exact h1 ▸ same h1.symm (by simp [← h5])
        · simp at h1
      · simp at h1
    | array l =>
      simp only [makeArg] at h1
      injection h1 with h1; injection h1 with h1 h5; injection h5 with h5 h6
      subst h1; subst h5
      dsimp only at i1 i2 i3 i4 i5
      have e : arrays (.array s.next :: zas) = s.next :: arrays zas := rfl
      rw [e]
      have hm : t'.mem s.next = some l := by
        rw [i3 s.next (by omega)]; simp [upd]
      refine ⟨i1, by omega, ?_, ?_, ?_⟩
      · intro b hb
        rw [i3 b (by omega)]
        have : b ≠ s.next := by omega
        simp [upd, this]
      · refine List.nodup_cons.2 ⟨fun hb => ?_, i4⟩
        have := i5 _ hb
        omega
      · intro b hb
        rcases List.mem_cons.1 hb with rfl | hb
        · exact ⟨Nat.le_refl _, by omega, by simp [hm]⟩
        · have := i5 b hb
          exact ⟨by omega, this.2⟩

theorem copyArgs_spec {α : Type} {as : List ZArg} {s s' : State α} {args : List ZArg} (h : copyArgs s as = .ok (s', args)) :
    s'.objs = s.objs ∧ s.next ≤ s'.next ∧ (∀ b, ¬ (s.next ≤ b ∧ b < s'.next) → s'.mem b = s.mem b) ∧ (arrays args).Nodup ∧
      (∀ b ∈ arrays args, s.next ≤ b ∧ b < s'.next ∧ (s'.mem b).isSome) := by
  induction as generalizing s args with
  | nil =>
    simp only [copyArgs] at h
    injection h with h; injection h with h h2
    subst h; subst h2
    simp [arrays]
  | cons a as ih =>
    cases a with
    | array b =>
      simp only [copyArgs] at h
      split at h
      · rename_i l hl
        obtain ⟨⟨t', zas⟩, h2, h⟩ := bind_ok h
        injection h with h; injection h with h h3
        dsimp only at h h3
        subst h; subst h3
        obtain ⟨i1, i2, i3, i4, i5⟩ := ih h2
        dsimp only at i1 i2 i3 i4 i5
        have e : arrays (.array s.next :: zas) = s.next :: arrays zas := rfl
        rw [e]
        have hm : t'.mem s.next = some l := by
          rw [i3 s.next (by omega)]; simp [upd]
        refine ⟨i1, by omega, ?_, ?_, ?_⟩
        · intro b hb
          rw [i3 b (by omega)]
          have : b ≠ s.next := by omega
          simp [upd, this]
        · refine List.nodup_cons.2 ⟨fun hb => ?_, i4⟩
          have := i5 _ hb
          omega
        · intro b hb
          rcases List.mem_cons.1 hb with rfl | hb
          · exact ⟨Nat.le_refl _, by omega, by simp [hm]⟩
          · have := i5 b hb
            exact ⟨by omega, this.2⟩
      · simp at h
    | ref o | index | span a n =>
      simp only [copyArgs] at h
      obtain ⟨⟨t', zas⟩, h2, h⟩ := bind_ok h
      injection h with h; injection h with h h3
      dsimp only at h h3
      subst h; subst h3
      obtain ⟨i1, i2, i3, i4, i5⟩ := ih h2
      exact ⟨i1, i2, i3, i4, i5⟩

theorem create_ok {α : Type} {s s' : State α} {o : Nat} {x : Obj} (h : create s o x = .ok s') :
    s.objs o = none ∧ s'.objs = upd s.objs o (some x) ∧ s'.mem = s.mem ∧ s'.next = s.next := by
  unfold create at h
  split at h
  · rename_i ho
    injection h with h; subst h
    exact ⟨ho, rfl, rfl, rfl⟩
  · simp at h

theorem exec_step {α : Type} {s s' : State α} {c : Cmd α} {out : List (List (Val α))} (h : exec s c = .ok (s', out)) : Step s s' c := by
  cases c with
  | vector o l | list o l =>
    obtain ⟨t, h1, h⟩ := bind_ok h
    injection h with h; injection h with h; subst h
    obtain ⟨c1, c2, c3, c4⟩ := create_ok h1
    refine .new o _ c1 c2 (by rw [c4]; exact Nat.le_succ _) ?_ (by simp [owned]) ?_ (by simp)
    · intro b hb
      rw [c4] at hb
      rw [c3]
      have : b ≠ s.next := by dsimp only at hb; omega
      simp [upd, this]
    · intro b hb
      rw [List.mem_singleton.1 hb, c4, c3]
      simp [upd]
  | set o i x =>
    simp only [exec] at h
    split at h
    · rename_i b hb
      split at h
      · rename_i l hl
        split at h
        · simp at h
          exact .store o b (l.set i x) (.inl hb) (by rw [← h.1]) (by rw [← h.1]) (by rw [← h.1]) (by simp)
        · simp at h
      · simp at h
    · rename_i b hb
      split at h
      · rename_i l hl
        split at h
        · simp at h
          exact .store o b (l.set i x) (.inr hb) (by rw [← h.1]) (by rw [← h.1]) (by rw [← h.1]) (by simp)
        · simp at h
      · simp at h
    · simp at h
  | assign o l =>
    simp only [exec] at h
    split at h
    · rename_i b hb
      simp at h
      exact .store o b l (.inl hb) (by rw [← h.1]) (by rw [← h.1]) (by rw [← h.1]) (by simp)
    · simp at h
  | realloc o =>
    simp only [exec] at h
    split at h
    · rename_i b hb
      simp at h
      exact .realloc o b hb (by rw [← h.1]) (by rw [← h.1]) (by rw [← h.1]) (by simp)
    · simp at h
  | span o v off len =>
    simp only [exec] at h
    split at h
    · split at h
      · obtain ⟨_, _, h⟩ := bind_ok h
        obtain ⟨t, h1, h⟩ := bind_ok h
        injection h with h; injection h with h; subst h
        obtain ⟨c1, c2, c3, c4⟩ := create_ok h1
        exact .new o _ c1 c2 (by omega) (fun b _ => by rw [c3]) (by simp [owned]) (by simp [owned]) (by simp)
      · simp at h
    · simp at h
  | range o v i j =>
    simp only [exec] at h
    split at h
    · obtain ⟨_, _, h⟩ := bind_ok h
      obtain ⟨_, _, h⟩ := bind_ok h
      obtain ⟨t, h1, h⟩ := bind_ok h
      injection h with h; injection h with h; subst h
      obtain ⟨c1, c2, c3, c4⟩ := create_ok h1
      exact .new o _ c1 c2 (by omega) (fun b _ => by rw [c3]) (by simp [owned]) (by simp [owned]) (by simp)
    · simp at h
  | indexRange o a b =>
    simp only [exec] at h
    obtain ⟨_, _, h⟩ := bind_ok h
    obtain ⟨t, h1, h⟩ := bind_ok h
    injection h with h; injection h with h; subst h
    obtain ⟨c1, c2, c3, c4⟩ := create_ok h1
    exact .new o _ c1 c2 (by omega) (fun b _ => by rw [c3]) (by simp [owned]) (by simp [owned]) (by simp)
  | zip o args =>
    simp only [exec] at h
    obtain ⟨⟨t, zas, ns⟩, hr, h⟩ := bind_ok h
    obtain ⟨n, _, h⟩ := bind_ok h
    obtain ⟨t', h1, h⟩ := bind_ok h
    injection h with h; injection h with h; subst h
    obtain ⟨c1, c2, c3, c4⟩ := create_ok h1
    obtain ⟨i1, i2, i3, i4, i5⟩ := makeArgs_spec hr
    dsimp only at c1 c2 c3 c4
    rw [i1] at c1 c2
    exact .new o _ c1 c2 (by omega) (fun b hb => by rw [c3]; rw [c4] at hb; exact i3 b hb) i4 (by rw [c3, c4]; exact i5) (by simp)
  | copyZip o z =>
    simp only [exec] at h
    split at h
    · obtain ⟨⟨t, zas⟩, hr, h⟩ := bind_ok h
      obtain ⟨t', h1, h⟩ := bind_ok h
      injection h with h; injection h with h; subst h
      obtain ⟨c1, c2, c3, c4⟩ := create_ok h1
      obtain ⟨i1, i2, i3, i4, i5⟩ := copyArgs_spec hr
      dsimp only at c1 c2 c3 c4
      rw [i1] at c1 c2
      exact .new o _ c1 c2 (by omega) (fun b hb => by rw [c3]; rw [c4] at hb; exact i3 b hb) i4 (by rw [c3, c4]; exact i5) (by simp)
    · simp at h
  | destroy o =>
    simp only [exec] at h
    split at h
    · simp at h
    · simp at h
    · rename_i x hx ho
      simp at h
      exact .destroy o x ho (by rw [← h.1]) (by rw [← h.1]) (by rw [← h.1]) rfl
  | begin_ j o | end_ j o | bind j o =>
    simp only [exec] at h
    obtain ⟨i, _, h⟩ := bind_ok h
    injection h with h; injection h with h; subst h
    exact .none rfl rfl rfl (by simp)
  | copy j j' =>
    simp only [exec] at h
    split at h
    · obtain ⟨i, _, h⟩ := bind_ok h
      injection h with h; injection h with h; subst h
      exact .none rfl rfl rfl (by simp)
    · injection h with h; injection h with h; subst h
      exact .none rfl rfl rfl (by simp)
    · simp at h
  | advance j d =>
    simp only [exec] at h
    split at h
    · obtain ⟨i, _, h⟩ := bind_ok h
      injection h with h; injection h with h; subst h
      exact .none rfl rfl rfl (by simp)
    · simp at h
  | deref j =>
    simp only [exec] at h
    split at h
    · obtain ⟨i, _, h⟩ := bind_ok h
      injection h with h; injection h with h; subst h
      exact .none rfl rfl rfl (by simp)
    · simp at h
  | each o =>
    simp only [exec] at h
    obtain ⟨_, _, h⟩ := bind_ok h
    obtain ⟨_, _, h⟩ := bind_ok h
    obtain ⟨_, _, h⟩ := bind_ok h
    injection h with h; injection h with h; subst h
    exact .none rfl rfl rfl (by simp)

/-- Storage belongs to at most one object. -/
structure Inv {α : Type} (s : State α) : Prop where
  fresh : ∀ b, s.next ≤ b → s.mem b = none
  live : ∀ o x, s.objs o = some x → ∀ b ∈ owned x, b < s.next
  apart : ∀ o o' x x', o ≠ o' → s.objs o = some x → s.objs o' = some x' → ∀ b ∈ owned x, b ∉ owned x'

theorem inv_start {α : Type} : Inv (start : State α) := ⟨by simp [start], by simp [start], by simp [start]⟩

theorem step_inv {α : Type} {s s' : State α} {c : Cmd α} (h : Step s s' c) (hi : Inv s) : Inv s' := by
  obtain ⟨i1, i2, i3⟩ := hi
  cases h with
  | none h1 h2 h3 _ => exact ⟨by rw [h1, h3]; exact i1, by rw [h2, h3]; exact i2, by rw [h2]; exact i3⟩
  | new o x h1 h2 h3 h4 h5 h6 _ =>
    refine ⟨?_, ?_, ?_⟩
    · intro b hb
      rw [h4 b (by omega)]
      exact i1 b (by omega)
    · intro o' x' ho' b hb
      rw [h2] at ho'
      by_cases he : o' = o
      · simp [upd, he] at ho'
        subst ho'
        exact (h6 b hb).2.1
      · simp [upd, he] at ho'
        have := i2 o' x' ho' b hb
        omega
    · intro o1 o2 x1 x2 hne ho1 ho2 b hb hb2
      rw [h2] at ho1 ho2
      by_cases he1 : o1 = o <;> by_cases he2 : o2 = o
      · exact hne (he1.trans he2.symm)
      · simp [upd, he1] at ho1
        simp [upd, he2] at ho2
        subst ho1
        have := i2 o2 x2 ho2 b hb2
        have := h6 b hb
        omega
      · simp [upd, he1] at ho1
        simp [upd, he2] at ho2
        subst ho2
        have := i2 o1 x1 ho1 b hb
        have := h6 b hb2
        omega
      · simp [upd, he1] at ho1
        simp [upd, he2] at ho2
        exact i3 o1 o2 x1 x2 hne ho1 ho2 b hb hb2
  | store o b l h1 h2 h3 h4 _ =>
    refine ⟨?_, by rw [h2, h3]; exact i2, by rw [h2]; exact i3⟩
    intro b' hb'
    rw [h3] at hb'
    have hb : b < s.next := by
      rcases h1 with h1 | h1 <;> exact i2 o _ h1 b (by simp [owned])
    have : b' ≠ b := by omega
    rw [h4]
    simp [upd, this]
    exact i1 b' hb'
  | realloc o b h1 h2 h3 h4 _ =>
    refine ⟨?_, ?_, ?_⟩
    · intro b' hb'
      rw [h3] at hb'
      rw [h4]
      have : b' ≠ s.next := by omega
      simp only [upd, this, if_false]
      split
      · rfl
      · exact i1 b' (by omega)
    · intro o' x' ho' b' hb'
      rw [h2] at ho'
      rw [h3]
      by_cases he : o' = o
      · simp [upd, he] at ho'
        subst ho'
        simp [owned] at hb'
        omega
      · simp [upd, he] at ho'
        have := i2 o' x' ho' b' hb'
        omega
    · intro o1 o2 x1 x2 hne ho1 ho2 b' hb hb2
      rw [h2] at ho1 ho2
      by_cases he1 : o1 = o <;> by_cases he2 : o2 = o
      · exact hne (he1.trans he2.symm)
      · simp [upd, he1] at ho1
        simp [upd, he2] at ho2
        subst ho1
        have := i2 o2 x2 ho2 b' hb2
        simp [owned] at hb
        omega
      · simp [upd, he1] at ho1
        simp [upd, he2] at ho2
        subst ho2
        have := i2 o1 x1 ho1 b' hb
        simp [owned] at hb2
        omega
      · simp [upd, he1] at ho1
        simp [upd, he2] at ho2
        exact i3 o1 o2 x1 x2 hne ho1 ho2 b' hb hb2
  | destroy o x h1 h2 h3 h4 _ =>
    refine ⟨?_, ?_, ?_⟩
    · intro b hb
      rw [h4]
      dsimp only
      split
      · rfl
      · exact i1 b (by omega)
    · intro o' x' ho' b hb
      rw [h2] at ho'
      rw [h3]
      by_cases he : o' = o
      · simp [upd, he] at ho'
        subst ho'
        simp [owned] at hb
      · simp [upd, he] at ho'
        exact i2 o' x' ho' b hb
    · intro o1 o2 x1 x2 hne ho1 ho2 b hb hb2
      rw [h2] at ho1 ho2
      by_cases he1 : o1 = o <;> by_cases he2 : o2 = o
      · exact hne (he1.trans he2.symm)
      · simp [upd, he1] at ho1
        subst ho1
        simp [owned] at hb
      · simp [upd, he2] at ho2
        subst ho2
        simp [owned] at hb2
      · simp [upd, he1] at ho1
        simp [upd, he2] at ho2
        exact i3 o1 o2 x1 x2 hne ho1 ho2 b hb hb2

/-- Objects other than vectors and lists stay as they are until they are destroyed, and so does the storage they own. -/
theorem step_keeps {α : Type} {s s' : State α} {c : Cmd α} (h : Step s s' c) (hi : Inv s) {o : Nat} {x : Obj} (ho : s.objs o = some x)
    (hx : ∀ b, x ≠ .vector b ∧ x ≠ .list b) (hc : c ≠ .destroy o) : s'.objs o = some x ∧ ∀ b ∈ owned x, s'.mem b = s.mem b := by
  obtain ⟨i1, i2, i3⟩ := hi
  cases h with
  | none h1 h2 h3 _ => exact ⟨by rw [h2, ho], fun b _ => by rw [h1]⟩
  | new o' x' h1 h2 h3 h4 h5 h6 _ =>
    have hne : o ≠ o' := by rintro rfl; rw [ho] at h1; simp at h1
    refine ⟨by rw [h2]; simp [upd, hne, ho], fun b hb => h4 b ?_⟩
    have := i2 o x ho b hb
    omega
  | store o' b l h1 h2 h3 h4 _ =>
    refine ⟨by rw [h2, ho], fun b' hb' => ?_⟩
    have hne : o ≠ o' := by
      rintro rfl
      rcases h1 with h1 | h1 <;> rw [ho] at h1 <;> injection h1 with h1
      · exact (hx b).1 h1
      · exact (hx b).2 h1
    have : b' ≠ b := by
      rintro rfl
      rcases h1 with h1 | h1 <;> exact i3 o o' x _ hne ho h1 b' hb' (by simp [owned])
    rw [h4]; simp [upd, this]
  | realloc o' b h1 h2 h3 h4 _ =>
    have hne : o ≠ o' := by
      rintro rfl
      rw [ho] at h1; injection h1 with h1
      exact (hx b).1 h1
    refine ⟨by rw [h2]; simp [upd, hne, ho], fun b' hb' => ?_⟩
    have e1 : b' ≠ b := by
      rintro rfl
      exact i3 o o' x _ hne ho h1 b' hb' (by simp [owned])
    have := i2 o x ho b' hb'
    have e2 : b' ≠ s.next := by omega
    rw [h4]; simp [upd, e1, e2]
  | destroy o' x' h1 h2 h3 h4 h5 =>
    have hne : o ≠ o' := by rintro rfl; exact hc h5
    refine ⟨by rw [h2]; simp [upd, hne, ho], fun b' hb' => ?_⟩
    rw [h4]
    have := i3 o o' x x' hne ho h1 b' hb'
    simp [this]

theorem run_inv {α : Type} {cs : List (Cmd α)} {s s' : State α} {outs : List (List (Val α))} (h : run s cs = .ok (s', outs)) (hi : Inv s) : Inv s' := by
  induction cs generalizing s outs with
  | nil => simp only [run] at h; injection h with h; injection h with h; subst h; exact hi
  | cons c cs ih =>
    simp only [run] at h
    obtain ⟨r, hr, h⟩ := bind_ok h
    obtain ⟨r', hr', h⟩ := bind_ok h
    injection h with h; injection h with h; subst h
    exact ih hr' (step_inv (exec_step hr) hi)

theorem run_keeps {α : Type} {cs : List (Cmd α)} {s s' : State α} {outs : List (List (Val α))} (h : run s cs = .ok (s', outs)) (hi : Inv s)
    {o : Nat} {x : Obj} (ho : s.objs o = some x) (hx : ∀ b, x ≠ .vector b ∧ x ≠ .list b) (hc : Cmd.destroy o ∉ cs) :
    s'.objs o = some x ∧ ∀ b ∈ owned x, s'.mem b = s.mem b := by
  induction cs generalizing s outs with
  | nil => simp only [run] at h; injection h with h; injection h with h; subst h; exact ⟨ho, fun _ _ => rfl⟩
  | cons c cs ih =>
    simp only [run] at h
    obtain ⟨r, hr, h⟩ := bind_ok h
    obtain ⟨r', hr', h⟩ := bind_ok h
    injection h with h; injection h with h; subst h
    have hs := exec_step hr
    obtain ⟨k1, k2⟩ := step_keeps hs hi ho hx (by rintro rfl; exact hc (List.mem_cons_self ..))
    obtain ⟨k3, k4⟩ := ih hr' (step_inv hs hi) k1 (fun hm => hc (List.mem_cons_of_mem _ hm))
    exact ⟨k3, fun b hb => (k4 b hb).trans (k2 b hb)⟩

/-- Storage which has been released. -/
structure Dead {α : Type} (b : Nat) (s : State α) : Prop where
  used : b < s.next
  gone : s.mem b = none
  free : ∀ o x, s.objs o = some x → b ∉ owned x

theorem step_dead {α : Type} {s s' : State α} {c : Cmd α} (h : Step s s' c) {b : Nat} (hd : Dead b s) : Dead b s' := by
  obtain ⟨d1, d2, d3⟩ := hd
  cases h with
  | none h1 h2 h3 _ => exact ⟨by rw [h3]; exact d1, by rw [h1]; exact d2, by rw [h2]; exact d3⟩
  | new o x h1 h2 h3 h4 h5 h6 _ =>
    refine ⟨by omega, by rw [h4 b (by omega)]; exact d2, fun p y hp hb => ?_⟩
    rw [h2] at hp
    by_cases e : p = o
    · simp only [upd, e, if_true] at hp
      injection hp with hp; subst hp
      have := h6 b hb
      omega
    · simp only [upd, e, if_false] at hp
      exact d3 p y hp hb
  | store o b' l h1 h2 h3 h4 _ =>
    have : b ≠ b' := by
      rintro rfl
      rcases h1 with h1 | h1
      · exact d3 _ _ h1 (by simp [owned])
      · exact d3 _ _ h1 (by simp [owned])
    exact ⟨by rw [h3]; exact d1, by rw [h4]; simp only [upd, this, if_false]; exact d2, by rw [h2]; exact d3⟩
  | realloc o b' h1 h2 h3 h4 _ =>
    have hb : b ≠ s.next := by omega
    refine ⟨by omega, ?_, fun p y hp hb' => ?_⟩
    · rw [h4]
      simp only [upd, hb, if_false]
      split
      · rfl
      · exact d2
    · rw [h2] at hp
      by_cases e : p = o
      · simp only [upd, e, if_true] at hp
        injection hp with hp; subst hp
        simp only [owned, List.mem_singleton] at hb'
        omega
      · simp only [upd, e, if_false] at hp
        exact d3 p y hp hb'
  | destroy o x h1 h2 h3 h4 _ =>
    refine ⟨by rw [h3]; exact d1, by rw [h4]; simp [d2], fun p y hp hb => ?_⟩
    rw [h2] at hp
    by_cases e : p = o
    · simp only [upd, e, if_true] at hp
      injection hp with hp; subst hp
      simp [owned] at hb
    · simp only [upd, e, if_false] at hp
      exact d3 p y hp hb

theorem step_owner {α : Type} {s s' : State α} {c : Cmd α} (h : Step s s' c) (hi : Inv s) {o b : Nat} {x : Obj} (ho : s.objs o = some x)
    (hb : b ∈ owned x) : (s'.objs o = some x ∧ c ≠ .destroy o) ∨ Dead b s' := by
  have hlt := hi.live o x ho b hb
  cases h with
  | none h1 h2 h3 h4 => exact .inl ⟨by rw [h2]; exact ho, h4 o⟩
  | new o' x' h1 h2 h3 h4 h5 h6 h7 =>
    have hne : o ≠ o' := by rintro rfl; rw [ho] at h1; simp at h1
    exact .inl ⟨by rw [h2]; simp [upd, hne, ho], h7 o⟩
  | store o' b' l h1 h2 h3 h4 h5 => exact .inl ⟨by rw [h2]; exact ho, h5 o⟩
  | realloc o' b' h1 h2 h3 h4 h5 =>
    by_cases e : o = o'
    · subst e
      rw [ho] at h1
      injection h1 with h1; subst h1
      simp only [owned, List.mem_singleton] at hb
      subst hb
      refine .inr ⟨by omega, by rw [h4]; simp [upd], fun p y hp hb' => ?_⟩
      rw [h2] at hp
      by_cases e : p = o
      · simp only [upd, e, if_true] at hp
        injection hp with hp; subst hp
        simp only [owned, List.mem_singleton] at hb'
        omega
      · simp only [upd, e, if_false] at hp
        exact hi.apart p o y _ e hp ho b hb' (by simp [owned])
    · exact .inl ⟨by rw [h2]; simp [upd, e, ho], h5 o⟩
  | destroy o' x' h1 h2 h3 h4 h5 =>
    by_cases e : o = o'
    · subst e
      rw [ho] at h1
      injection h1 with h1; subst h1
      refine .inr ⟨by omega, by rw [h4]; simp [hb], fun p y hp hb' => ?_⟩
      rw [h2] at hp
      by_cases e : p = o
      · simp only [upd, e, if_true] at hp
        injection hp with hp; subst hp
        simp [owned] at hb'
      · simp only [upd, e, if_false] at hp
        exact hi.apart p o y _ e hp ho b hb' hb
    · exact .inl ⟨by rw [h2]; simp [upd, e, ho], by rw [h5]; simp [Ne.symm e]⟩

theorem run_dead {α : Type} {cs : List (Cmd α)} {s s' : State α} {outs : List (List (Val α))} (h : run s cs = .ok (s', outs)) {b : Nat} (hd : Dead b s) :
    Dead b s' := by
  induction cs generalizing s outs with
  | nil => simp only [run] at h; injection h with h; injection h with h; subst h; exact hd
  | cons c cs ih =>
    simp only [run] at h
    obtain ⟨r, hr, h⟩ := bind_ok h
    obtain ⟨r', hr', h⟩ := bind_ok h
    injection h with h; injection h with h; subst h
    exact ih hr' (step_dead (exec_step hr) hd)

/-- Storage is released with its owner, or when this is reallocated. -/
theorem run_owner {α : Type} {cs : List (Cmd α)} {s s' : State α} {outs : List (List (Val α))} (h : run s cs = .ok (s', outs)) (hi : Inv s)
    {o b : Nat} {x : Obj} (ho : s.objs o = some x) (hb : b ∈ owned x) (hc : Cmd.destroy o ∈ cs ∨ Cmd.realloc o ∈ cs) : Dead b s' := by
  induction cs generalizing s outs with
  | nil => simp at hc
  | cons c cs ih =>
    simp only [run] at h
    obtain ⟨r, hr, h⟩ := bind_ok h
    obtain ⟨r', hr', h⟩ := bind_ok h
    injection h with h; injection h with h; subst h
    have hs := exec_step hr
    rcases step_owner hs hi ho hb with ⟨k1, k2⟩ | hd
    · refine ih hr' (step_inv hs hi) k1 ?_
      rcases hc with hc | hc
      · rcases List.mem_cons.1 hc with rfl | hc
        · exact absurd rfl k2
        · exact .inl hc
      · rcases List.mem_cons.1 hc with rfl | hc
        · exfalso
          simp only [exec, ho] at hr
          cases x with
          | vector b' =>
            simp only [Outcome.ok.injEq] at hr
            rw [← hr] at k1
            have := hi.live o _ ho b hb
            simp only [owned, List.mem_singleton] at hb
            simp [upd] at k1
            omega
          | _ => simp at hr
        · exact .inr hc
    · exact run_dead hr' hd

theorem step_destroyed {α : Type} {s s' : State α} {c : Cmd α} (h : Step s s' c) {o : Nat} (ho : s.objs o = some .destroyed) :
    s'.objs o = some .destroyed := by
  cases h with
  | none _ h _ _ => rw [h]; exact ho
  | new o' x h1 h2 _ _ _ _ _ =>
    have hne : o ≠ o' := by rintro rfl; rw [ho] at h1; simp at h1
    rw [h2]; simp [upd, hne, ho]
  | store _ _ _ _ h _ _ _ => rw [h]; exact ho
  | realloc o' b h1 h2 _ _ _ =>
    have hne : o ≠ o' := by rintro rfl; rw [ho] at h1; simp at h1
    rw [h2]; simp [upd, hne, ho]
  | destroy o' x h1 h2 _ _ _ =>
    rw [h2]
    by_cases e : o = o'
    · simp [upd, e]
    · simp [upd, e, ho]

theorem run_destroyed {α : Type} {cs : List (Cmd α)} {s s' : State α} {outs : List (List (Val α))} (h : run s cs = .ok (s', outs))
    {o : Nat} (hc : s.objs o = some .destroyed ∨ Cmd.destroy o ∈ cs) : s'.objs o = some .destroyed := by
  induction cs generalizing s outs with
  | nil =>
    simp only [run] at h; injection h with h; injection h with h; subst h
    simpa using hc
  | cons c cs ih =>
    simp only [run] at h
    obtain ⟨r, hr, h⟩ := bind_ok h
    obtain ⟨r', hr', h⟩ := bind_ok h
    injection h with h; injection h with h; subst h
    have hs := exec_step hr
    refine ih hr' ?_
    rcases hc with hc | hc
    · exact .inl (step_destroyed hs hc)
    · rcases List.mem_cons.1 hc with rfl | hc
      · left
        cases hs with
        | none _ _ _ h => exact absurd rfl (h o)
        | new _ _ _ _ _ _ _ _ h => exact absurd rfl (h o)
        | store _ _ _ _ _ _ _ h => exact absurd rfl (h o)
        | realloc _ _ _ _ _ _ h => exact absurd rfl (h o)
        | destroy o' x h1 h2 h3 h4 h5 =>
          injection h5 with h5; subst h5
          rw [h2]; simp [upd]
      · exact .inr hc

end Makeshift.Borrowed
