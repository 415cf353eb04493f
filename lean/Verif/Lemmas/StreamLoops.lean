import Verif.Spec.StreamLoops
import Verif.Lemmas.Iomanip
import Verif.Props.Iomanip

/-! Helper lemmas about programs which read documents from streams. -/

namespace Makeshift.StreamLoops

open Makeshift.Spec Makeshift.Props Spec

theorem ws_space {a : Str} (h : AllWs a) : ∀ c ∈ a, isSpaceC c = true := fun c hc => isSpaceC_of_isWs (h c hc)

theorem dropWhile_idem (p : CChar → Bool) (l : Str) : (l.dropWhile p).dropWhile p = l.dropWhile p :=
  dropWhile_head_stop fun _ h => head_dropWhile h

theorem dropWhile_extend {p : CChar → Bool} {l : Str} (h : l.dropWhile p ≠ []) (x : Str) :
    (l ++ x).dropWhile p = l.dropWhile p ++ x ∧ (l ++ x).takeWhile p = l.takeWhile p := by
  induction l with
  | nil => simp at h
  | cons c r ih =>
    by_cases hc : p c = true
    · have := ih (by simpa [hc] using h)
      simp [hc, this]
    · simp [hc]

theorem enumExtract_drop {V : Type} (md : EnumMd V) (x : Str) (v : V) :
    asEnumExtract md { rest := x.dropWhile isSpaceC } v = asEnumExtract md { rest := x } v := by
  rw [asEnumExtract_good, asEnumExtract_good, dropWhile_idem]

theorem flagsExtract_drop {w : Nat} (md : EnumMd (BitVec w)) (x : Str) (v : BitVec w) :
    asFlagsExtract md { rest := x.dropWhile isSpaceC } v = asFlagsExtract md { rest := x } v := by
  rw [asFlagsExtract_good, asFlagsExtract_good, dropWhile_idem]

theorem getChar_drop (x : Str) (c : CChar) : getChar { rest := x.dropWhile isSpaceC } c = getChar { rest := x } c := by
  simp [getChar, IStream.good, dropWhile_idem]

/-- Readers skip leading whitespace. -/
theorem read_drop (n : Nat) (s : Schema) (x : Str) : read n s { rest := x.dropWhile isSpaceC } = read n s { rest := x } := by
  induction s with
  | enum md => simp only [read, enumExtract_drop]
  | flags w md => simp only [read, flagsExtract_drop]
  | pair s t ihs _ => simp only [read, ihs]
  | list s _ => simp only [read, getChar_drop]

theorem getChar_ws {a : Str} (h : AllWs a) {d : CChar} (hd : isSpaceC d = false) (r : Str) (c : CChar) :
    getChar { rest := a ++ d :: r } c = ({ rest := r }, d) := by
  have : (a ++ d :: r).dropWhile isSpaceC = d :: r := by
    rw [dropWhile_append_all (ws_space h)]
    exact dropWhile_head_stop fun c hc => by simp at hc; rw [← hc, hd]
  simp [getChar, IStream.good, this]

theorem ws_good {x : Str} (h : x.dropWhile isSpaceC ≠ []) : IStream.ws { rest := x } = { rest := x.dropWhile isSpaceC } := by
  simp [IStream.ws, IStream.good, h]

theorem getChar_holds {st st' : IStream} {c c' : CChar} (h : getChar st c = (st', c')) (hh : holds st' = true) :
    st.good = true ∧ st' = { rest := st'.rest } ∧ st.rest.dropWhile isSpaceC = c' :: st'.rest := by
  unfold getChar at h
  by_cases hg : st.good = true
  · rw [good_eq hg] at h ⊢
    simp only [IStream.good, Bool.not_false, Bool.and_self, if_true] at h
    refine ⟨rfl, ?_⟩
    generalize st.rest.dropWhile isSpaceC = y at h
    cases y with
    | nil =>
      simp only [Prod.mk.injEq] at h
      rw [← h.1] at hh; simp [holds] at hh
    | cons z r =>
      simp only [Prod.mk.injEq] at h
      rw [← h.1, h.2]; simp
  · simp only [hg, Bool.false_eq_true, if_false, Prod.mk.injEq] at h
    rw [← h.1] at hh; simp [holds] at hh

theorem getChar_of_drop {st : IStream} (hg : st.good = true) {c' : CChar} {r : Str} (h : st.rest.dropWhile isSpaceC = c' :: r) (c : CChar) :
    getChar st c = ({ rest := r }, c') := by
  rw [good_eq hg]
  simp [getChar, IStream.good, h]

/-! ## Reading texts -/

theorem delim_facts {d : CChar} (hd : d ∈ [(44 : CChar), 93, 58]) : d ∈ enumReserved ∧ d ∈ flagsReserved ∧ d ∉ skippable ∧ isSpaceC d = false := by
  simp only [List.mem_cons, List.not_mem_nil, or_false] at hd
  rcases hd with rfl | rfl | rfl <;> decide

theorem enumReserved_ws {b : Str} (h : AllWs b) {d : CChar} (hd : d ∈ enumReserved) (r : Str) :
    ∀ c, (b ++ d :: r).head? = some c → c ∈ enumReserved := by
  intro c hc
  cases b with
  | nil => simp at hc; rw [← hc]; exact hd
  | cons x xs => simp at hc; rw [← hc]; exact ws_reserved (h x (by simp))

theorem noLead_append {n : Str} (h : NoLead n) (hne : n ≠ []) (x : Str) : NoLead (n ++ x) := by
  cases n with
  | nil => exact absurd rfl hne
  | cons c r => intro c' hc'; exact h c' (by simpa using hc')

theorem read_enum {md : EnumMd Int} {v : Int} {t : Str} (h : IsText (.enum md) v t) (n : Nat) {d : CChar}
    (hd : d ∈ [(44 : CChar), 93, 58]) (r : Str) :
    ∃ b, AllWs b ∧ read n (.enum md) { rest := t ++ d :: r } = some ({ rest := b ++ d :: r }, some v) := by
  obtain ⟨a, m, b, rfl, ha, hb, hne, hlead, hleg, hl⟩ := h
  obtain ⟨hr, -, hs, -⟩ := delim_facts hd
  refine ⟨b, hb, ?_⟩
  have hsplit : TokenSplit enumReserved (a ++ m ++ b ++ d :: r) a m (b ++ d :: r) :=
    ⟨by simp, fun c hc => ws_skippable (ha c hc), noLead_append hlead hne _, hleg, enumReserved_ws hb hr r⟩
  obtain ⟨e1, e2, e3, e4, e5⟩ := C08_as_enum_token md _ _ _ _ (0 : Int) hsplit
  have hf := e4.mpr ⟨hne, List.mem_map_of_mem (f := Prod.snd) (lookup_some_mem hl)⟩
  have hv := e5 hf
  replace hv := Option.some.inj (hl.symm.trans hv)
  simp only [read]
  generalize asEnumExtract md { rest := a ++ m ++ b ++ d :: r } (0 : Int) = q at *
  obtain ⟨⟨q1, q2, q3, q4⟩, q5⟩ := q
  simp only at e1 e2 e3 hf hv
  have : q2 = false := by
    cases q2 with
    | false => rfl
    | true => have := e2.mp rfl; simp at this
  subst e1 this e3 hf hv
  simp [holds]; rfl

theorem read_flags {w : Nat} {md : FlagsMd w} {v : BitVec w} {t : Str} (h : IsText (.flags w md) v t) (n : Nat) {d : CChar}
    (hd : d ∈ [(44 : CChar), 93, 58]) (r : Str) :
    read n (.flags w md) { rest := t ++ d :: r } = some ({ rest := d :: r }, some v) := by
  obtain ⟨a, e, rfl, ha, hlead, hleg, hv⟩ := h
  obtain ⟨-, hr, hs, -⟩ := delim_facts hd
  have hsplit : TokenSplit flagsReserved (a ++ e ++ d :: r) a e (d :: r) := by
    refine ⟨by simp, fun c hc => ws_skippable (ha c hc), ?_, hleg, by simpa using hr⟩
    by_cases he : e = []
    · subst he; simpa using hs
    · exact noLead_append hlead he _
  obtain ⟨e1, e2, e3, e4, e5⟩ := C09_as_flags_token md.toEnumMd _ _ _ _ (0#w) hsplit
  have hp : parseFlags e md.toEnumMd = .ok v := by rw [C06_parse_flags_denotation, hv]
  have hf := e4.mpr ⟨v, hp⟩
  have hq := e5 hf
  rw [hp, Outcome.ok.injEq] at hq
  simp only [read]
  generalize asFlagsExtract md.toEnumMd { rest := a ++ e ++ d :: r } 0#w = q at *
  obtain ⟨⟨q1, q2, q3, q4⟩, q5⟩ := q
  simp only at e1 e2 e3 hf hq
  have : q2 = false := by
    cases q2 with
    | false => rfl
    | true => have := e2.mp rfl; simp at this
  subst e1 this e3 hf hq
  simp [holds]; rfl

/-- What a reader of elements has to do. -/
def Reads {α : Type} (rd : IStream → Option (IStream × Option α)) (v : α) (t : Str) : Prop :=
  ∀ d ∈ [(44 : CChar), 93, 58], ∀ r, ∃ b, AllWs b ∧ rd { rest := t ++ d :: r } = some ({ rest := b ++ d :: r }, some v)

theorem str_comma : str "," = [44] := by decide
theorem str_colon : str ":" = [58] := by decide
theorem str_open : str "[" = [91] := by decide
theorem str_close : str "]" = [93] := by decide

theorem readItems_texts {α : Type} (rd : IStream → Option (IStream × Option α)) (vs : List α) (ts : List Str) (hne : vs ≠ [])
    (h : List.Forall₂ (Reads rd) vs ts) (n : Nat) (hn : vs.length ≤ n) (x : Str) :
    readItems rd n { rest := join (str ",") ts ++ 93 :: x } = some ({ rest := x }, some vs) := by
  induction h generalizing n with
  | nil => exact absurd rfl hne
  | @cons v t vs ts hvt hrest ih =>
    obtain ⟨n, rfl⟩ : ∃ m, n = m + 1 := ⟨n - 1, by simp at hn; omega⟩
    simp only [List.length_cons, Nat.add_le_add_iff_right] at hn
    cases hrest with
    | nil =>
      obtain ⟨b, hb, he⟩ := hvt 93 (by decide) x
      simp only [join, readItems, he, Option.bind_some, getChar_ws hb (by decide : isSpaceC 93 = false)]
      simp [holds]
    | @cons v' t' vs' ts' h1 h2 =>
      obtain ⟨b, hb, he⟩ := hvt 44 (by decide) (join (str ",") (t' :: ts') ++ 93 :: x)
      have := ih (by simp) n hn
      have hj : join (str ",") (t :: t' :: ts') ++ 93 :: x = t ++ 44 :: (join (str ",") (t' :: ts') ++ 93 :: x) := by
        simp [join, str_comma]
      rw [hj]
      simp only [readItems, he, Option.bind_some, getChar_ws hb (by decide : isSpaceC 44 = false), this]
      simp [holds]

theorem length_le_join {α : Type} {R : α → Str → Prop} {vs : List α} {ts : List Str} (h : List.Forall₂ R vs ts) (hne : vs ≠ []) :
    vs.length ≤ (join (str ",") ts).length + 1 := by
  induction h with
  | nil => exact absurd rfl hne
  | @cons v t vs ts _ hrest ih =>
    cases hrest with
    | nil => simp
    | @cons v' t' vs' ts' h1 h2 =>
      have := ih (by simp)
      simp only [join, str_comma, List.length_cons, List.length_append, List.length_nil] at this ⊢
      omega

theorem item_le_join {t : Str} {ts : List Str} (h : t ∈ ts) : t.length ≤ (join (str ",") ts).length := by
  induction ts with
  | nil => simp at h
  | cons a r ih =>
    cases r with
    | nil => simp at h; subst h; simp [join]
    | cons b r' =>
      simp only [join, List.length_append]
      rcases List.mem_cons.mp h with rfl | h
      · omega
      · have := ih h; omega

theorem forall₂_imp_mem {α β : Type} {R S : α → β → Prop} {as : List α} {bs : List β} (h : List.Forall₂ R as bs)
    (hi : ∀ a b, b ∈ bs → R a b → S a b) : List.Forall₂ S as bs := by
  induction h with
  | nil => exact .nil
  | cons h1 _ ih => exact .cons (hi _ _ (by simp) h1) (ih fun a b hb => hi a b (by simp [hb]))

theorem isSpaceC_false {c : CChar} (h : c ∉ skippable) : isSpaceC c = false := by
  cases hc : isSpaceC c with
  | false => rfl
  | true => exact absurd ((isSpaceC_iff c).mp hc) h

theorem dropWhile_blank {x : Str} (h : x.dropWhile isSpaceC = []) (y : Str) : (x ++ y).dropWhile isSpaceC = y.dropWhile isSpaceC :=
  dropWhile_append_all (List.dropWhile_eq_nil_iff.mp h)

theorem drop_head {x : Str} {d : CChar} (hd : isSpaceC d = false) (y : Str) {c : CChar}
    (h : ((x ++ d :: y).dropWhile isSpaceC).head? = some c) : (x.dropWhile isSpaceC).head? = some c ∨ c = d := by
  by_cases hx : x.dropWhile isSpaceC = []
  · rw [dropWhile_blank hx, dropWhile_head_stop (by intro z hz; simp at hz; rw [← hz, hd])] at h
    right; simpa using h.symm
  · left
    rw [(dropWhile_extend hx _).1] at h
    cases hq : x.dropWhile isSpaceC with
    | nil => exact absurd hq hx
    | cons z r => rw [hq] at h; simpa using h

theorem drop_noLead {a e : Str} (ha : AllWs a) (he : NoLead e) : (a ++ e).dropWhile isSpaceC = e := by
  rw [dropWhile_append_all (ws_space ha)]
  exact dropWhile_head_stop fun c hc => isSpaceC_false (he c hc)

/-- No text begins with a closing bracket. -/
theorem text_head (s : Schema) (v : Val s) (t : Str) (h : IsText s v t) (c : CChar) (hc : (t.dropWhile isSpaceC).head? = some c) : c ≠ 93 := by
  induction s generalizing t c with
  | enum md =>
    obtain ⟨a, m, b, rfl, ha, hb, hne, hlead, hleg, -⟩ := h
    rw [List.append_assoc, drop_noLead ha (noLead_append hlead hne _)] at hc
    cases m with
    | nil => exact absurd rfl hne
    | cons x r =>
      simp at hc; subst hc
      rintro rfl
      exact hleg 93 (by simp) (by decide)
  | flags w md =>
    obtain ⟨a, e, rfl, ha, hlead, hleg, -⟩ := h
    rw [drop_noLead ha hlead] at hc
    rintro rfl
    exact hleg 93 (List.mem_of_head? hc) (by decide)
  | pair s u ih1 _ =>
    obtain ⟨x, y, rfl, hx, -⟩ := h
    rw [str_colon, List.append_assoc, List.singleton_append] at hc
    rcases drop_head (by decide) _ hc with h1 | rfl
    · exact ih1 v.1 x hx c h1
    · decide
  | list s _ =>
    obtain ⟨a, body, b, rfl, ha, -⟩ := h
    have h0 : a.dropWhile isSpaceC = [] := List.dropWhile_eq_nil_iff.mpr (ws_space ha)
    simp only [str_open, List.append_assoc, List.singleton_append, List.cons_append] at hc
    rcases drop_head (by decide) _ hc with h1 | rfl
    · rw [h0] at h1; simp at h1
    · decide

theorem join_head {ts : List Str} (h : ∀ t ∈ ts, ∀ c, (t.dropWhile isSpaceC).head? = some c → c ≠ 93) {c : CChar}
    (hc : ((join (str ",") ts).dropWhile isSpaceC).head? = some c) : c ≠ 93 := by
  cases ts with
  | nil => simp [join] at hc
  | cons t r =>
    cases r with
    | nil => exact h t (by simp) c hc
    | cons u r' =>
      simp only [join, str_comma, List.append_assoc, List.singleton_append] at hc
      rcases drop_head (by decide) _ hc with h1 | rfl
      · exact h t (by simp) c h1
      · decide

theorem forall₂_mem_right {α β : Type} {R : α → β → Prop} {as : List α} {bs : List β} (h : List.Forall₂ R as bs) {b : β} (hb : b ∈ bs) :
    ∃ a, R a b := by
  induction h with
  | nil => simp at hb
  | cons h1 _ ih =>
    rcases List.mem_cons.mp hb with rfl | hb
    · exact ⟨_, h1⟩
    · exact ih hb

/-- A list is read up to its closing bracket, whatever follows. -/
theorem read_list {s : Schema} {vs : Val (.list s)} {t : Str} (h : IsText (.list s) vs t) (n : Nat) (hn : t.length ≤ n)
    (ih : ∀ v u, IsText s v u → u.length ≤ n → Reads (read n s) v u) (x : Str) :
    ∃ b, AllWs b ∧ (∀ c, t.getLast? = some c → isWs c = false → b = []) ∧
      read n (.list s) { rest := t ++ x } = some ({ rest := b ++ x }, some vs) := by
  obtain ⟨a, body, b, rfl, ha, hb, hcase⟩ := h
  refine ⟨b, hb, ?_, ?_⟩
  · intro c hc hw
    cases hbe : b.getLast? with
    | none => simpa using hbe
    | some z =>
      have h1 : (a ++ str "[" ++ body ++ str "]" ++ b).getLast? = some z := by simp [List.getLast?_append, hbe]
      rw [hc, Option.some.injEq] at h1
      have := hb z (List.mem_of_getLast? hbe)
      rw [← h1, hw] at this; simp at this
  · have hopen : getChar { rest := a ++ str "[" ++ body ++ str "]" ++ b ++ x } 0 = ({ rest := body ++ 93 :: (b ++ x) }, 91) := by
      have : a ++ str "[" ++ body ++ str "]" ++ b ++ x = a ++ 91 :: (body ++ 93 :: (b ++ x)) := by simp [str_open, str_close]
      rw [this]
      exact getChar_ws ha (by decide) _ _
    simp only [read, hopen]
    rcases hcase with ⟨rfl, hbody⟩ | ⟨hne, ⟨c, hc, hcs⟩, ts, hts, rfl⟩
    · have hd : (body ++ 93 :: (b ++ x)).dropWhile isSpaceC = 93 :: (b ++ x) := by
        rw [dropWhile_append_all (ws_space hbody)]
        exact dropWhile_head_stop fun c hc => by simp at hc; rw [← hc]; decide
      rw [ws_good (by rw [hd]; simp), hd]
      simp [holds, peek, IStream.good, IStream.skip1]
    · have hstop : (join (str ",") ts).dropWhile isSpaceC ≠ [] := by
        intro h0
        have := List.dropWhile_eq_nil_iff.mp h0 c hc
        rw [isSpaceC_false hcs] at this; simp at this
      have hd := (dropWhile_extend hstop (93 :: (b ++ x))).1
      have hlen : (join (str ",") ts).length + 2 ≤ n := by
        simp only [List.length_append, str_open, str_close, List.length_cons, List.length_nil] at hn; omega
      have hreads : List.Forall₂ (Reads (read n s)) vs ts :=
        forall₂_imp_mem hts fun v u hu h1 => ih v u h1 (by have := item_le_join hu; omega)
      have hcount := length_le_join hts hne
      have main := readItems_texts (read n s) vs ts hne hreads n (by omega) (b ++ x)
      -- the first element reader skips the whitespace that `std::ws` has skipped
      have hfirst : ∀ m, readItems (read n s) m { rest := (join (str ",") ts ++ 93 :: (b ++ x)).dropWhile isSpaceC } =
          readItems (read n s) m { rest := join (str ",") ts ++ 93 :: (b ++ x) } := by
        intro m
        cases m with
        | zero => rfl
        | succ m => simp only [readItems, read_drop]
      have hhead : (peek { rest := (join (str ",") ts ++ 93 :: (b ++ x)).dropWhile isSpaceC }).2 ≠ some 93 := by
        have hh : ∀ c, ((join (str ",") ts).dropWhile isSpaceC).head? = some c → c ≠ 93 := by
          intro c hc
          refine join_head ?_ hc
          intro t ht c' hc'
          obtain ⟨v, hv⟩ := forall₂_mem_right hts ht
          exact text_head s v t hv c' hc'
        rw [hd]
        cases hq : (join (str ",") ts).dropWhile isSpaceC with
        | nil => exact absurd hq hstop
        | cons z r =>
          rw [hq] at hh
          simpa [peek, IStream.good] using hh z (by simp)
      have hpeek : (peek { rest := (join (str ",") ts ++ 93 :: (b ++ x)).dropWhile isSpaceC }).1 =
          { rest := (join (str ",") ts ++ 93 :: (b ++ x)).dropWhile isSpaceC } := by
        rw [hd]
        cases hq : (join (str ",") ts).dropWhile isSpaceC with
        | nil => exact absurd hq hstop
        | cons z r => simp [peek, IStream.good]
      rw [ws_good (by rw [hd]; simp), if_pos (by simp [holds])]
      refine (if_neg hhead).trans ?_
      rw [hpeek, hfirst]
      exact main

/-- Every text is read, up to trailing whitespace, before a separator or a closing bracket. -/
theorem read_text (n : Nat) (s : Schema) (v : Val s) (t : Str) (h : IsText s v t) (hn : t.length ≤ n) : Reads (read n s) v t := by
  induction s generalizing t with
  | enum md => exact fun d hd r => read_enum h n hd r
  | flags w md => exact fun d hd r => ⟨[], by simp [AllWs], read_flags h n hd r⟩
  | pair s u ih1 ih2 =>
    intro d hd r
    obtain ⟨x, y, rfl, hx, hy⟩ := h
    simp only [List.length_append, str_colon, List.length_cons, List.length_nil] at hn
    obtain ⟨b, hb, h1⟩ := ih1 v.1 x hx (by omega) 58 (by decide) (y ++ d :: r)
    obtain ⟨b', hb', h2⟩ := ih2 v.2 y hy (by omega) d hd r
    have : x ++ str ":" ++ y ++ d :: r = x ++ 58 :: (y ++ d :: r) := by simp [str_colon]
    rw [this]
    refine ⟨b', hb', ?_⟩
    simp only [read, h1, Option.bind_some, getChar_ws hb (by decide : isSpaceC 58 = false), h2]
    simp [holds]
    rfl
  | list s ih =>
    intro d hd r
    obtain ⟨b, hb, -, h1⟩ := read_list h n hn (fun v u hu hl => ih v u hu hl) (d :: r)
    exact ⟨b, hb, h1⟩

/-! ## Readers end -/

theorem drop_le (p : CChar → Bool) (l : Str) : (l.dropWhile p).length ≤ l.length := (List.dropWhile_sublist p).length_le

theorem getChar_len (st : IStream) (c : CChar) : (getChar st c).1.rest.length ≤ st.rest.length := by
  unfold getChar
  split
  · have := drop_le isSpaceC st.rest
    split
    · simp
    · rename_i h; rw [h] at this; simp at this ⊢; omega
  · simp

theorem getChar_lt {st : IStream} {c : CChar} (h : holds (getChar st c).1 = true) : (getChar st c).1.rest.length < st.rest.length := by
  obtain ⟨-, -, h3⟩ := getChar_holds (st := st) (c := c) (st' := (getChar st c).1) (c' := (getChar st c).2) rfl h
  have := drop_le isSpaceC st.rest
  rw [h3] at this
  exact this

theorem enumExtract_len {V : Type} (md : EnumMd V) (st : IStream) (v : V) : (asEnumExtract md st v).1.rest.length ≤ st.rest.length := by
  by_cases hg : st.good = true
  · rw [good_eq hg, asEnumExtract_good]
    have h1 := drop_le isSpaceC st.rest
    have h2 := drop_le (fun c => !enumForbiddenCharSet.contains c) (st.rest.dropWhile isSpaceC)
    dsimp only
    split <;> exact Nat.le_trans h2 h1
  · unfold asEnumExtract
    rw [readToken_notGood _ _ (by simpa using hg)]
    simp

theorem flagsExtract_notGood {w : Nat} (md : EnumMd (BitVec w)) (st : IStream) (v : BitVec w) (h : st.good = false) :
    asFlagsExtract md st v = ({ st with failbit := true }, 0#w) := by
  unfold asFlagsExtract
  rw [readToken_notGood _ _ h]
  simp [flagsFromStringNoRaise, flagsFromStringLoop_nil]

theorem enumExtract_notGood {V : Type} (md : EnumMd V) (st : IStream) (v : V) (h : st.good = false) :
    asEnumExtract md st v = ({ st with failbit := true }, v) := by
  unfold asEnumExtract
  rw [readToken_notGood _ _ h]
  simp

theorem flagsExtract_len {w : Nat} (md : EnumMd (BitVec w)) (st : IStream) (v : BitVec w) :
    (asFlagsExtract md st v).1.rest.length ≤ st.rest.length := by
  by_cases hg : st.good = true
  · rw [good_eq hg, asFlagsExtract_good]
    have h1 := drop_le isSpaceC st.rest
    have h2 := drop_le (fun c => !flagsForbiddenCharSet.contains c) (st.rest.dropWhile isSpaceC)
    dsimp only
    split <;> exact Nat.le_trans h2 h1
  · rw [flagsExtract_notGood _ _ _ (by simpa using hg)]

theorem ws_len (st : IStream) : st.ws.rest.length ≤ st.rest.length := by
  unfold IStream.ws
  split
  · exact drop_le _ _
  · simp

theorem peek_rest (st : IStream) : (peek st).1.rest = st.rest := by
  unfold peek
  split
  · split <;> simp_all
  · rfl

theorem skip1_len (st : IStream) : st.skip1.rest.length ≤ st.rest.length := by
  unfold IStream.skip1
  split
  · split
    · simp
    · rename_i h; simp [h]
  · simp

/-- A reader which ends and does not put characters back. -/
def Ends {α : Type} (rd : IStream → Option (IStream × Option α)) (n : Nat) : Prop :=
  ∀ st, st.rest.length < n → ∃ q, rd st = some q ∧ q.1.rest.length ≤ st.rest.length

theorem readItems_ends {α : Type} {rd : IStream → Option (IStream × Option α)} {n : Nat} (h : Ends rd n) (m : Nat) (hm : m ≤ n) :
    Ends (readItems rd m) m := by
  induction m with
  | zero => intro st hst; simp at hst
  | succ m ih =>
    intro st hst
    obtain ⟨⟨st1, o⟩, hq, hl⟩ := h st (by omega)
    simp only [readItems, hq, Option.bind_some]
    cases o with
    | none => exact ⟨_, rfl, hl⟩
    | some a =>
      simp only
      have h1 := getChar_len st1 0
      by_cases hh : holds (getChar st1 0).1 = true
      · have h2 := getChar_lt hh
        simp only at hl
        simp only [hh, Bool.not_true, Bool.false_eq_true, if_false]
        split
        · exact ⟨_, rfl, by simp only; omega⟩
        · split
          · obtain ⟨q, hq, hl'⟩ := ih (by omega) (getChar st1 0).1 (by omega)
            rw [hq]
            exact ⟨_, rfl, by simp only; omega⟩
          · exact ⟨_, rfl, by simp only; omega⟩
      · simp only [hh, Bool.not_false, if_true]
        exact ⟨_, rfl, by simp only at hl ⊢; omega⟩

theorem read_ends (n : Nat) (s : Schema) : Ends (read n s) n := by
  induction s with
  | enum md => exact fun st _ => ⟨_, rfl, enumExtract_len _ _ _⟩
  | flags w md => exact fun st _ => ⟨_, rfl, flagsExtract_len _ _ _⟩
  | pair s u ih1 ih2 =>
    intro st hst
    obtain ⟨⟨st1, o⟩, hq, hl⟩ := ih1 st hst
    simp only [read, hq, Option.bind_some]
    cases o with
    | none => exact ⟨_, rfl, hl⟩
    | some a =>
      simp only at hl ⊢
      have h1 := getChar_len st1 0
      split
      · obtain ⟨q, hq, hl'⟩ := ih2 (getChar st1 0).1 (by omega)
        rw [hq]
        exact ⟨_, rfl, by simp only; omega⟩
      · exact ⟨_, rfl, by simp only; omega⟩
  | list s ih =>
    intro st hst
    simp only [read]
    have h1 := getChar_len st 0
    split
    · have h2 := ws_len (getChar st 0).1
      have h3 := peek_rest (getChar st 0).1.ws
      by_cases hp : (peek (getChar st 0).1.ws).2 = some 93
      · have h4 := skip1_len (peek (getChar st 0).1.ws).1
        exact ⟨_, if_pos hp, by simp only; rw [h3] at h4; omega⟩
      · obtain ⟨q, hq, hl'⟩ := readItems_ends ih n (Nat.le_refl n) (peek (getChar st 0).1.ws).1 (by rw [h3]; omega)
        refine ⟨q, (if_neg hp).trans hq, ?_⟩
        rw [h3] at hl'; omega
    · exact ⟨_, rfl, h1⟩

/-! ## Reading does not look ahead -/

/-- A value read from a stream which remains good is read in the same way when more text follows. -/
def Extends {α : Type} (rd : IStream → Option (IStream × Option α)) : Prop :=
  ∀ st st' a, rd st = some (st', some a) → st'.good = true → st.good = true ∧ ∀ x, rd { rest := st.rest ++ x } = some ({ rest := st'.rest ++ x }, some a)

theorem enum_extends (n : Nat) (md : EnumMd Int) : Extends (read n (.enum md)) := by
  intro st st' a h hg'
  by_cases hg : st.good = true
  · refine ⟨hg, fun x => ?_⟩
    rw [good_eq hg] at h
    simp only [read, asEnumExtract_good] at h ⊢
    by_cases hd : (st.rest.dropWhile isSpaceC).dropWhile (fun c => !enumForbiddenCharSet.contains c) = []
    · exfalso
      rw [hd] at h
      split at h <;> simp only [Option.some.injEq, Prod.mk.injEq] at h <;> rw [← h.1] at hg' <;> simp [IStream.good] at hg'
    · have hd1 : st.rest.dropWhile isSpaceC ≠ [] := fun h0 => hd (by rw [h0]; rfl)
      obtain ⟨e1, -⟩ := dropWhile_extend hd1 x
      obtain ⟨e2, e3⟩ := dropWhile_extend hd x
      rw [e1, e2, e3]
      generalize (st.rest.dropWhile isSpaceC).dropWhile _ = y at h hd ⊢
      cases y with
      | nil => exact absurd rfl hd
      | cons z y =>
        split at h
        · simp only [Option.some.injEq, Prod.mk.injEq] at h
          rw [← h.1, ← h.2]
          simp [holds]
        · simp [holds] at h
  · have hg : st.good = false := by simpa using hg
    simp only [read, enumExtract_notGood _ _ _ hg] at h
    simp [holds] at h

theorem flags_extends (n w : Nat) (md : FlagsMd w) : Extends (read n (.flags w md)) := by
  intro st st' a h hg'
  by_cases hg : st.good = true
  · refine ⟨hg, fun x => ?_⟩
    rw [good_eq hg] at h
    simp only [read, asFlagsExtract_good] at h ⊢
    by_cases hd : (st.rest.dropWhile isSpaceC).dropWhile (fun c => !flagsForbiddenCharSet.contains c) = []
    · exfalso
      rw [hd] at h
      split at h <;> simp only [Option.some.injEq, Prod.mk.injEq] at h <;> rw [← h.1] at hg' <;> simp [IStream.good] at hg'
    · have hd1 : st.rest.dropWhile isSpaceC ≠ [] := fun h0 => hd (by rw [h0]; rfl)
      obtain ⟨e1, -⟩ := dropWhile_extend hd1 x
      obtain ⟨e2, e3⟩ := dropWhile_extend hd x
      rw [e1, e2, e3]
      generalize (st.rest.dropWhile isSpaceC).dropWhile _ = y at h hd ⊢
      cases y with
      | nil => exact absurd rfl hd
      | cons z y =>
        split at h
        · simp only [Option.some.injEq, Prod.mk.injEq] at h
          rw [← h.1, ← h.2]
          simp [holds]
        · simp [holds] at h
  · have hg : st.good = false := by simpa using hg
    simp only [read, flagsExtract_notGood _ _ _ hg] at h
    simp [holds] at h

/-- Characters are read from good streams only, whatever follows. -/
theorem getChar_extends {st : IStream} (hh : holds (getChar st 0).1 = true) :
    st.good = true ∧ (getChar st 0).1.good = true ∧
      ∀ x, getChar { rest := st.rest ++ x } 0 = ({ rest := (getChar st 0).1.rest ++ x }, (getChar st 0).2) := by
  obtain ⟨h1, h2, h3⟩ := getChar_holds (st := st) (c := 0) (st' := (getChar st 0).1) (c' := (getChar st 0).2) rfl hh
  refine ⟨h1, by rw [h2]; rfl, fun x => ?_⟩
  have hne : st.rest.dropWhile isSpaceC ≠ [] := by rw [h3]; simp
  apply getChar_of_drop rfl
  simp only
  rw [(dropWhile_extend hne x).1, h3]
  simp

/-- The reader also leaves a good stream when it succeeds. -/
def GoodEnd {α : Type} (rd : IStream → Option (IStream × Option α)) : Prop :=
  ∀ st st' a, rd st = some (st', some a) → st'.good = true

theorem readItems_extends {α : Type} {rd : IStream → Option (IStream × Option α)} (h : Extends rd) (m : Nat) :
    Extends (readItems rd m) ∧ GoodEnd (readItems rd m) := by
  suffices hs : ∀ st st' a, readItems rd m st = some (st', some a) →
      st'.good = true ∧ st.good = true ∧ ∀ x, readItems rd m { rest := st.rest ++ x } = some ({ rest := st'.rest ++ x }, some a) from
    ⟨fun st st' a h1 _ => (hs st st' a h1).2, fun st st' a h1 => (hs st st' a h1).1⟩
  induction m with
  | zero => intro st st' a h1; simp [readItems] at h1
  | succ m ih =>
    intro st st' as h1
    simp only [readItems] at h1
    cases hr : rd st with
    | none => rw [hr] at h1; simp at h1
    | some q =>
      obtain ⟨st1, o⟩ := q
      rw [hr] at h1
      cases o with
      | none => simp at h1
      | some a =>
        simp only [Option.bind_some] at h1
        by_cases hh : holds (getChar st1 0).1 = true
        · obtain ⟨g1, g2, g3⟩ := getChar_extends hh
          obtain ⟨k1, k2⟩ := h st st1 a hr g1
          simp only [hh, Bool.not_true, Bool.false_eq_true, if_false] at h1
          have hholds : ∀ x : Str, holds { rest := x } = true := fun x => rfl
          by_cases hc : (getChar st1 0).2 = 93
          · simp only [hc, if_true, Option.some.injEq, Prod.mk.injEq] at h1
            refine ⟨by rw [← h1.1]; exact g2, k1, fun x => ?_⟩
            simp only [readItems, k2, Option.bind_some, g3, hc, hholds]
            rw [← h1.1, ← h1.2]
            simp
          · simp only [hc, if_false] at h1
            by_cases hc' : (getChar st1 0).2 = 44
            · simp only [hc', if_true] at h1
              cases hrec : readItems rd m (getChar st1 0).1 with
              | none => rw [hrec] at h1; simp at h1
              | some q =>
                obtain ⟨st2, o⟩ := q
                rw [hrec] at h1
                cases o with
                | none => simp at h1
                | some bs =>
                  simp only [Option.map_some, Option.some.injEq, Prod.mk.injEq] at h1
                  obtain ⟨i1, i2, i3⟩ := ih _ _ _ hrec
                  refine ⟨by rw [← h1.1]; exact i1, k1, fun x => ?_⟩
                  simp only [readItems, k2, Option.bind_some, g3, hc', hholds, i3]
                  rw [← h1.1, ← h1.2]
                  simp
            · simp [hc'] at h1
        · simp [hh] at h1

theorem ws_peek {st : IStream} (hg : st.good = true) :
    (peek st.ws).1.good = true →
      (peek st.ws).1 = { rest := st.rest.dropWhile isSpaceC } ∧ (peek st.ws).2 = (st.rest.dropWhile isSpaceC).head? ∧
        st.rest.dropWhile isSpaceC ≠ [] := by
  rw [good_eq hg]
  simp only [IStream.ws, IStream.good, Bool.not_false, Bool.and_self, if_true]
  cases hq : st.rest.dropWhile isSpaceC with
  | nil => simp [peek, IStream.good]
  | cons c r => simp [peek, IStream.good]

theorem peek_some {st : IStream} {c : CChar} (h : (peek st).2 = some c) : st.good = true ∧ ∃ r, st.rest = c :: r := by
  unfold peek at h
  split at h
  · rename_i hg
    refine ⟨hg, ?_⟩
    split at h
    · simp at h
    · rename_i x r hr
      simp at h; exact ⟨r, by rw [hr, h]⟩
  · simp at h

theorem list_extends {s : Schema} {n : Nat} (h : Extends (read n s)) : Extends (read n (.list s)) ∧ GoodEnd (read n (.list s)) := by
  suffices hs : ∀ st st' a, read n (.list s) st = some (st', some a) →
      st'.good = true ∧ st.good = true ∧ ∀ x, read n (.list s) { rest := st.rest ++ x } = some ({ rest := st'.rest ++ x }, some a) from
    ⟨fun st st' a h1 _ => (hs st st' a h1).2, fun st st' a h1 => (hs st st' a h1).1⟩
  intro st st' as h1
  simp only [read] at h1
  by_cases hh : holds (getChar st 0).1 = true
  · obtain ⟨g1, g2, g3⟩ := getChar_extends hh
    by_cases hc : (getChar st 0).2 = 91
    · simp only [hh, hc, decide_true, Bool.and_self, if_true] at h1
      have key : (peek (getChar st 0).1.ws).1.good = true ∧ st'.good = true := by
        by_cases hp : (peek (getChar st 0).1.ws).2 = some 93
        · have h1 := (if_pos hp).symm.trans h1
          simp only [Option.some.injEq, Prod.mk.injEq] at h1
          obtain ⟨w1, r, w2⟩ := peek_some hp
          have : peek (getChar st 0).1.ws = ({ rest := 93 :: r }, some 93) := by
            rw [good_eq w1, w2]; simp [peek, IStream.good]
          rw [this] at h1 ⊢
          refine ⟨rfl, ?_⟩
          rw [← h1.1]; simp [IStream.skip1, IStream.good]
        · have h1 := (if_neg hp).symm.trans h1
          obtain ⟨e1, e2⟩ := readItems_extends h n
          have := e2 _ _ _ h1
          exact ⟨(e1 _ _ _ h1 this).1, this⟩
      obtain ⟨p1, p2, p3⟩ := ws_peek g2 key.1
      refine ⟨key.2, g1, fun x => ?_⟩
      have hext := (dropWhile_extend p3 x).1
      have hw : peek (IStream.ws { rest := (getChar st 0).1.rest ++ x }) =
          ({ rest := (getChar st 0).1.rest.dropWhile isSpaceC ++ x }, ((getChar st 0).1.rest.dropWhile isSpaceC).head?) := by
        rw [ws_good (by rw [hext]; simp [p3]), hext]
        cases hq : (getChar st 0).1.rest.dropWhile isSpaceC with
        | nil => exact absurd hq p3
        | cons c r => simp [peek, IStream.good]
      simp only [read, g3, hc, hw]
      rw [if_pos (by simp [holds])]
      by_cases hp : ((getChar st 0).1.rest.dropWhile isSpaceC).head? = some 93
      · refine (if_pos hp).trans ?_
        rw [p1, p2] at h1
        have h1 := (if_pos hp).symm.trans h1
        simp only [Option.some.injEq, Prod.mk.injEq] at h1
        rw [← h1.1, ← h1.2]
        cases hq : (getChar st 0).1.rest.dropWhile isSpaceC with
        | nil => exact absurd hq p3
        | cons c r => simp [IStream.skip1, IStream.good]
      · refine (if_neg hp).trans ?_
        rw [p1, p2] at h1
        have h1 := (if_neg hp).symm.trans h1
        obtain ⟨e1, e2⟩ := readItems_extends h n
        exact (e1 _ _ _ h1 key.2).2 x
    · simp [hc] at h1
  · simp [hh] at h1

theorem read_extends (n : Nat) (s : Schema) : Extends (read n s) := by
  induction s with
  | enum md => exact enum_extends n md
  | flags w md => exact flags_extends n w md
  | pair s u ih1 ih2 =>
    intro st st' v h1 hg'
    simp only [read] at h1
    cases hr : read n s st with
    | none => rw [hr] at h1; simp at h1
    | some q =>
      obtain ⟨st1, o⟩ := q
      rw [hr] at h1
      cases o with
      | none => simp at h1
      | some a =>
        simp only [Option.bind_some] at h1
        by_cases hh : holds (getChar st1 0).1 = true
        · obtain ⟨g1, g2, g3⟩ := getChar_extends hh
          obtain ⟨k1, k2⟩ := ih1 st st1 a hr g1
          by_cases hc : (getChar st1 0).2 = 58
          · simp only [hh, hc, decide_true, Bool.and_self, if_true] at h1
            cases hrec : read n u (getChar st1 0).1 with
            | none => rw [hrec] at h1; simp at h1
            | some q =>
              obtain ⟨st2, o⟩ := q
              rw [hrec] at h1
              cases o with
              | none => exact absurd (congrArg Prod.snd (Option.some.inj h1)) fun h0 => Option.some_ne_none v h0.symm
              | some b =>
                simp only [Option.map_some, Option.some.injEq, Prod.mk.injEq] at h1
                have hg2 : st2.good = true := by rw [h1.1]; exact hg'
                obtain ⟨i1, i2⟩ := ih2 _ _ _ hrec hg2
                refine ⟨k1, fun x => ?_⟩
                simp only [read, k2, Option.bind_some, g3, hc, i2]
                rw [← h1.1, ← h1.2]
                simp [holds]
          · simp [hc] at h1
        · simp [hh] at h1
  | list s ih => exact (list_extends ih).1

/-! ## Rejected texts -/

/-- The end of the input stays reached; a value is read only if the stream then holds; and unless the end has been reached, rejected text is rejected whatever follows. -/
def Cut {α : Type} (rd : IStream → Option (IStream × Option α)) : Prop :=
  ∀ st st' o, rd st = some (st', o) → (st.eofbit = true → st'.eofbit = true) ∧ (∀ a, o = some a → holds st' = true) ∧
    (o = none → st'.eofbit = false → st.good = true → ∀ x, ∃ s, rd { rest := st.rest ++ x } = some (s, none))

theorem enum_cut (n : Nat) (md : EnumMd Int) : Cut (read n (.enum md)) := by
  intro st st' o h
  by_cases hg : st.good = true
  · have heof : st.eofbit = false := by rw [good_eq hg]
    refine ⟨by simp [heof], ?_, ?_⟩
    · rintro a rfl
      simp only [read, Option.some.injEq, Prod.mk.injEq] at h
      rw [← h.1]
      by_contra hh
      rw [if_neg hh] at h
      exact absurd h.2 (by simp)
    · rintro rfl he _ x
      rw [good_eq hg] at h
      simp only [read, asEnumExtract_good] at h ⊢
      by_cases hd : (st.rest.dropWhile isSpaceC).dropWhile (fun c => !enumForbiddenCharSet.contains c) = []
      · exfalso
        rw [hd] at h
        split at h <;> simp only [Option.some.injEq, Prod.mk.injEq] at h <;> rw [← h.1] at he <;> simp at he
      · have hd1 : st.rest.dropWhile isSpaceC ≠ [] := fun h0 => hd (by rw [h0]; rfl)
        obtain ⟨e1, -⟩ := dropWhile_extend hd1 x
        obtain ⟨e2, e3⟩ := dropWhile_extend hd x
        rw [e1, e2, e3]
        generalize (st.rest.dropWhile isSpaceC).dropWhile _ = y at h hd ⊢
        cases y with
        | nil => exact absurd rfl hd
        | cons z y =>
          split at h
          · simp [holds] at h
          · exact ⟨_, by simp [holds]; rfl⟩
  · have hg : st.good = false := by simpa using hg
    simp only [read, enumExtract_notGood _ _ _ hg, Option.some.injEq, Prod.mk.injEq] at h
    refine ⟨fun he => by rw [← h.1]; exact he, ?_, fun _ _ h0 => ?_⟩
    · rintro a rfl
      simp [holds] at h
    · rw [h0] at hg; cases hg

theorem flags_cut (n w : Nat) (md : FlagsMd w) : Cut (read n (.flags w md)) := by
  intro st st' o h
  by_cases hg : st.good = true
  · have heof : st.eofbit = false := by rw [good_eq hg]
    refine ⟨by simp [heof], ?_, ?_⟩
    · rintro a rfl
      simp only [read, Option.some.injEq, Prod.mk.injEq] at h
      rw [← h.1]
      by_contra hh
      rw [if_neg hh] at h
      exact absurd h.2 (by simp)
    · rintro rfl he _ x
      rw [good_eq hg] at h
      simp only [read, asFlagsExtract_good] at h ⊢
      by_cases hd : (st.rest.dropWhile isSpaceC).dropWhile (fun c => !flagsForbiddenCharSet.contains c) = []
      · exfalso
        rw [hd] at h
        split at h <;> simp only [Option.some.injEq, Prod.mk.injEq] at h <;> rw [← h.1] at he <;> simp at he
      · have hd1 : st.rest.dropWhile isSpaceC ≠ [] := fun h0 => hd (by rw [h0]; rfl)
        obtain ⟨e1, -⟩ := dropWhile_extend hd1 x
        obtain ⟨e2, e3⟩ := dropWhile_extend hd x
        rw [e1, e2, e3]
        generalize (st.rest.dropWhile isSpaceC).dropWhile _ = y at h hd ⊢
        cases y with
        | nil => exact absurd rfl hd
        | cons z y =>
          split at h
          · simp [holds] at h
          · exact ⟨_, by simp [holds]; rfl⟩
  · have hg : st.good = false := by simpa using hg
    simp only [read, flagsExtract_notGood _ _ _ hg, Option.some.injEq, Prod.mk.injEq] at h
    refine ⟨fun he => by rw [← h.1]; exact he, ?_, fun _ _ h0 => ?_⟩
    · rintro a rfl
      simp [holds] at h
    · rw [h0] at hg; cases hg

theorem getChar_eof {st : IStream} (h : st.eofbit = true) : (getChar st 0).1.eofbit = true := by
  have : st.good = false := by simp [IStream.good, h]
  simp [getChar, this, h]

theorem getChar_cut {st : IStream} (hg : st.good = true) (hh : holds (getChar st 0).1 = false) : (getChar st 0).1.eofbit = true := by
  unfold getChar at hh ⊢
  rw [if_pos hg] at hh ⊢
  generalize st.rest.dropWhile isSpaceC = y at hh ⊢
  cases y with
  | nil => rfl
  | cons c r =>
    rw [good_eq hg] at hh
    simp [holds] at hh

/-- A stream which holds is good, or its end has been reached. -/
theorem good_of_holds {st : IStream} (hh : holds st = true) (he : st.eofbit = false) : st.good = true := by
  simp only [holds, Bool.and_eq_true, Bool.not_eq_true'] at hh
  simp [IStream.good, hh.1, hh.2, he]

theorem readItems_cut {α : Type} {rd : IStream → Option (IStream × Option α)} (h : Cut rd) (he : Extends rd) (m : Nat) : Cut (readItems rd m) := by
  induction m with
  | zero => intro st st' o h1; simp [readItems] at h1
  | succ m ih =>
    intro st st' os h1
    simp only [readItems] at h1
    cases hr : rd st with
    | none => rw [hr] at h1; simp at h1
    | some q =>
      obtain ⟨st1, o⟩ := q
      rw [hr] at h1
      obtain ⟨c1, c2, c3⟩ := h _ _ _ hr
      cases o with
      | none =>
        simp only [Option.bind_some, Option.some.injEq, Prod.mk.injEq] at h1
        obtain ⟨rfl, rfl⟩ := h1
        refine ⟨c1, by simp, fun _ k1 k2 x => ?_⟩
        obtain ⟨s, hs⟩ := c3 rfl k1 k2 x
        exact ⟨s, by simp only [readItems, hs, Option.bind_some]⟩
      | some a =>
        simp only [Option.bind_some] at h1
        have hst1 := c2 a rfl
        by_cases hh : holds (getChar st1 0).1 = true
        · obtain ⟨g1, g2, g3⟩ := getChar_extends hh
          obtain ⟨k1, k2⟩ := he st st1 a hr g1
          have heof : st.eofbit = false := by rw [good_eq k1]
          simp only [hh, Bool.not_true, Bool.false_eq_true, if_false] at h1
          have hholds : ∀ x : Str, holds { rest := x } = true := fun x => rfl
          by_cases hc : (getChar st1 0).2 = 93
          · simp only [hc, if_true, Option.some.injEq, Prod.mk.injEq] at h1
            obtain ⟨rfl, rfl⟩ := h1
            exact ⟨by simp [heof], fun _ _ => hh, by simp⟩
          · simp only [hc, if_false] at h1
            by_cases hc' : (getChar st1 0).2 = 44
            · simp only [hc', if_true] at h1
              cases hrec : readItems rd m (getChar st1 0).1 with
              | none => rw [hrec] at h1; simp at h1
              | some q =>
                obtain ⟨st2, o⟩ := q
                rw [hrec] at h1
                simp only [Option.map_some, Option.some.injEq, Prod.mk.injEq] at h1
                obtain ⟨rfl, rfl⟩ := h1
                obtain ⟨i1, i2, i3⟩ := ih _ _ _ hrec
                refine ⟨by simp [heof], ?_, ?_⟩
                · intro as has
                  cases o with
                  | none => simp at has
                  | some bs => exact i2 bs rfl
                · intro hn hne _ x
                  cases o with
                  | some bs => simp at hn
                  | none =>
                    obtain ⟨s, hs⟩ := i3 rfl hne g2 x
                    refine ⟨s, ?_⟩
                    simp only [readItems, k2, Option.bind_some, g3, hholds, hc', hs]
                    simp
            · simp only [hc', if_false, Option.some.injEq, Prod.mk.injEq] at h1
              obtain ⟨rfl, rfl⟩ := h1
              refine ⟨by simp [heof], by simp, fun _ _ _ x => ⟨{ rest := (getChar st1 0).1.rest ++ x }, ?_⟩⟩
              simp only [readItems, k2, Option.bind_some, g3, hholds, hc, hc']
              simp
        · have hh : holds (getChar st1 0).1 = false := by simpa using hh
          simp only [hh, Bool.not_false, if_true, Option.some.injEq, Prod.mk.injEq] at h1
          obtain ⟨rfl, rfl⟩ := h1
          have hend : (getChar st1 0).1.eofbit = true := by
            by_cases hst : st1.eofbit = true
            · exact getChar_eof hst
            · exact getChar_cut (good_of_holds hst1 (by simpa using hst)) hh
          exact ⟨fun _ => hend, by simp, fun _ h0 => by rw [hend] at h0; cases h0⟩

theorem ws_peek_eof {st : IStream} (hg : st.good = true) (hn : (peek st.ws).1.eofbit = false) : (peek st.ws).1.good = true := by
  rw [good_eq hg] at hn ⊢
  simp only [IStream.ws, IStream.good, Bool.not_false, Bool.and_self, if_true] at hn ⊢
  cases hq : st.rest.dropWhile isSpaceC with
  | nil => rw [hq] at hn; simp [peek, IStream.good] at hn
  | cons c r => simp [peek, IStream.good]

theorem list_cut {s : Schema} {n : Nat} (h : Cut (read n s)) (he : Extends (read n s)) : Cut (read n (.list s)) := by
  intro st st' os h1
  simp only [read] at h1
  by_cases hh : holds (getChar st 0).1 = true
  · obtain ⟨g1, g2, g3⟩ := getChar_extends hh
    have heof : st.eofbit = false := by rw [good_eq g1]
    by_cases hc : (getChar st 0).2 = 91
    · simp only [hh, hc, decide_true, Bool.and_self, if_true] at h1
      by_cases hp : (peek (getChar st 0).1.ws).2 = some 93
      · have h1 := (if_pos hp).symm.trans h1
        simp only [Option.some.injEq, Prod.mk.injEq] at h1
        obtain ⟨h1, h2⟩ := h1
        refine ⟨by simp [heof], fun _ _ => ?_, fun h0 => by rw [h0] at h2; cases h2⟩
        obtain ⟨w1, r, w2⟩ := peek_some hp
        have : peek (getChar st 0).1.ws = ({ rest := 93 :: r }, some 93) := by
          rw [good_eq w1, w2]; simp [peek, IStream.good]
        rw [this] at h1
        rw [← h1]; simp [IStream.skip1, IStream.good, holds]
      · have h1 := (if_neg hp).symm.trans h1
        obtain ⟨c1, c2, c3⟩ := readItems_cut h he n _ _ _ h1
        refine ⟨by simp [heof], c2, fun h0 hne _ x => ?_⟩
        have hpe : (peek (getChar st 0).1.ws).1.eofbit = false := by
          by_contra hcon
          have := c1 (by simpa using hcon)
          rw [hne] at this
          cases this
        have hpg := ws_peek_eof g2 hpe
        obtain ⟨p1, p2, p3⟩ := ws_peek g2 hpg
        obtain ⟨s', hs'⟩ := c3 h0 hne hpg x
        have hext := (dropWhile_extend p3 x).1
        have hw : peek (IStream.ws { rest := (getChar st 0).1.rest ++ x }) =
            ({ rest := (getChar st 0).1.rest.dropWhile isSpaceC ++ x }, ((getChar st 0).1.rest.dropWhile isSpaceC).head?) := by
          rw [ws_good (by rw [hext]; simp [p3]), hext]
          cases hq : (getChar st 0).1.rest.dropWhile isSpaceC with
          | nil => exact absurd hq p3
          | cons c r => simp [peek, IStream.good]
        refine ⟨s', ?_⟩
        simp only [read, g3, hc, hw]
        rw [if_pos (by simp [holds])]
        rw [p2] at hp
        rw [p1] at hs'
        exact (if_neg hp).trans hs'
    · simp only [hc, decide_false, Bool.and_false, Bool.false_eq_true, if_false, Option.some.injEq, Prod.mk.injEq] at h1
      obtain ⟨rfl, rfl⟩ := h1
      refine ⟨by simp [heof], (by intro a h0; cases h0), fun _ _ _ x => ⟨{ rest := (getChar st 0).1.rest ++ x }, ?_⟩⟩
      simp only [read, g3, hc]
      simp
  · have hh : holds (getChar st 0).1 = false := by simpa using hh
    simp only [hh, Bool.false_and, Bool.false_eq_true, if_false, Option.some.injEq, Prod.mk.injEq] at h1
    obtain ⟨rfl, rfl⟩ := h1
    refine ⟨getChar_eof, (by intro a h0; cases h0), fun _ h0 hg => ?_⟩
    rw [getChar_cut hg hh] at h0
    cases h0

theorem read_cut (n : Nat) (s : Schema) : Cut (read n s) := by
  induction s with
  | enum md => exact enum_cut n md
  | flags w md => exact flags_cut n w md
  | pair s u ih1 ih2 =>
    intro st st' os h1
    simp only [read] at h1
    cases hr : read n s st with
    | none => rw [hr] at h1; simp at h1
    | some q =>
      obtain ⟨st1, o⟩ := q
      rw [hr] at h1
      obtain ⟨c1, c2, c3⟩ := ih1 _ _ _ hr
      cases o with
      | none =>
        simp only [Option.bind_some, Option.some.injEq, Prod.mk.injEq] at h1
        obtain ⟨rfl, rfl⟩ := h1
        refine ⟨c1, (by intro a h0; cases h0), fun _ k1 k2 x => ?_⟩
        obtain ⟨s', hs⟩ := c3 rfl k1 k2 x
        exact ⟨s', by simp only [read, hs, Option.bind_some]⟩
      | some a =>
        simp only [Option.bind_some] at h1
        have hst1 := c2 a rfl
        by_cases hh : holds (getChar st1 0).1 = true
        · obtain ⟨g1, g2, g3⟩ := getChar_extends hh
          obtain ⟨k1, k2⟩ := read_extends n s st st1 a hr g1
          have heof : st.eofbit = false := by rw [good_eq k1]
          have hholds : ∀ x : Str, holds { rest := x } = true := fun x => rfl
          by_cases hc : (getChar st1 0).2 = 58
          · simp only [hh, hc, decide_true, Bool.and_self, if_true] at h1
            cases hrec : read n u (getChar st1 0).1 with
            | none => rw [hrec] at h1; simp at h1
            | some q =>
              obtain ⟨st2, o⟩ := q
              rw [hrec] at h1
              obtain ⟨i1, i2, i3⟩ := ih2 _ _ _ hrec
              have h1 := Option.some.inj h1
              cases o with
              | none =>
                have e1 : st2 = st' := congrArg Prod.fst h1
                have e2 : none = os := congrArg Prod.snd h1
                subst e1 e2
                refine ⟨by simp [heof], (by intro a h0; cases h0), fun _ hne _ x => ?_⟩
                obtain ⟨s', hs⟩ := i3 rfl hne g2 x
                refine ⟨s', ?_⟩
                simp only [read, k2, Option.bind_some, g3, hholds, hc, hs]
                simp
                rfl
              | some b =>
                have e1 : st2 = st' := congrArg Prod.fst h1
                have e2 : some (a, b) = os := congrArg Prod.snd h1
                subst e1 e2
                exact ⟨by simp [heof], fun _ _ => i2 b rfl, (by intro h0; cases h0)⟩
          · simp only [hc, decide_false, Bool.and_false, Bool.false_eq_true, if_false, Option.some.injEq, Prod.mk.injEq] at h1
            obtain ⟨rfl, rfl⟩ := h1
            refine ⟨by simp [heof], (by intro a h0; cases h0), fun _ _ _ x => ⟨{ rest := (getChar st1 0).1.rest ++ x }, ?_⟩⟩
            simp only [read, k2, Option.bind_some, g3, hc]
            simp
        · have hh : holds (getChar st1 0).1 = false := by simpa using hh
          simp only [hh, Bool.false_and, Bool.false_eq_true, if_false, Option.some.injEq, Prod.mk.injEq] at h1
          obtain ⟨rfl, rfl⟩ := h1
          have hend : (getChar st1 0).1.eofbit = true := by
            by_cases hst : st1.eofbit = true
            · exact getChar_eof hst
            · exact getChar_cut (good_of_holds hst1 (by simpa using hst)) hh
          exact ⟨fun _ => hend, (by intro a h0; cases h0), fun _ h0 => by rw [hend] at h0; cases h0⟩
  | list s ih => exact list_cut ih (read_extends n s)

/-! ## Written documents -/

/-- The writer appends a text of the value; it is blank only for an unnamed empty set of flags. -/
def Writes (s : Schema) (v : Val s) (t : Str) : Prop :=
  (∀ out, write s v out = .ok (out ++ t)) ∧ IsText s v t ∧ ((∃ c ∈ t, c ∉ skippable) ∨ SoleUnnamed s [v])

theorem head_mem {t : Str} (hne : t ≠ []) (h : NoLead t) : ∃ c ∈ t, c ∉ skippable := by
  cases t with
  | nil => exact absurd rfl hne
  | cons c r => exact ⟨c, by simp, h c rfl⟩

theorem join_ne_nil {sep : Str} {L : List Str} (hne : L ≠ []) (h : ∀ n ∈ L, n ≠ []) : join sep L ≠ [] := by
  cases L with
  | nil => exact absurd rfl hne
  | cons a r =>
    have := h a (by simp)
    cases r with
    | nil => simpa [join] using this
    | cons b r' => simp [join, this]

theorem nameOf_perm {V : Type} [DecidableEq V] {t u : List (V × Str)} (h : t.Perm u) {v : V} (hn : nameOf u v = none) : nameOf t v = none := by
  cases hq : nameOf t v with
  | none => rfl
  | some n =>
    have h1 := (nameOf_isSome_iff (t := t) (v := v)).mp ⟨n, hq⟩
    have h2 := (nameOf_isSome_iff (t := u) (v := v)).mpr ((h.map Prod.fst).mem_iff.mp h1)
    rw [hn] at h2; obtain ⟨_, h2⟩ := h2; simp at h2

theorem write_enum (md : EnumMd Int) (v : Int) (hu : Usable (.enum md)) (hw : Writable (.enum md) v) : ∃ t, Writes (.enum md) v t := by
  obtain ⟨⟨desc, hmd⟩, hnd, hlead⟩ := hu
  obtain ⟨n, hn⟩ := (nameOf_isSome_iff (t := md.entries) (v := v)).mpr hw
  have hmem := nameOf_some_mem hn
  have hmn := List.mem_map_of_mem (f := Prod.snd) hmem
  have hval : ∀ n ∈ md.entries.map Prod.snd, n ≠ [] ∧ ∀ c ∈ n, c ∉ enumReserved := by
    by_contra h
    rw [(C12_enum_name_validation desc md.entries).2 h] at hmd
    simp at hmd
  refine ⟨n, fun out => ?_, ⟨[], n, [], by simp, by simp [AllWs], by simp [AllWs], (hval n hmn).1, hlead n hmn, (hval n hmn).2, lookup_of_nodup hnd hmem⟩,
    .inl (head_mem (hval n hmn).1 (hlead n hmn))⟩
  have := ((C02_enum_to_string v md).1 n).mpr hn
  simp only [write, asEnumInsert, this]
  rfl

theorem write_flags (w : Nat) (md : FlagsMd w) (v : BitVec w) (hu : Usable (.flags w md)) (hw : Writable (.flags w md) v) :
    ∃ t, Writes (.flags w md) v t := by
  obtain ⟨desc, entries, hmd, hnd, hclean, hlead⟩ := hu
  have hperm := (C13_flags_metadata_partition _ _ _ hmd).1
  have hsub : SubBits v (union (entries.map Prod.fst)) := by
    intro i hi
    obtain ⟨x, hx, hxi⟩ := (union_getLsbD _ i).mp (hw i hi)
    exact (union_getLsbD _ i).mpr ⟨x, (hperm.map Prod.fst).mem_iff.mp hx, hxi⟩
  obtain ⟨t, ht, hleg, hl, hp⟩ := flags_text desc entries md hmd hnd hclean hlead v hsub
  refine ⟨t, fun out => ?_, ⟨[], t, by simp, by simp [AllWs], hl, hleg, ?_⟩, ?_⟩
  · simp only [write, asFlagsInsert, ht]; rfl
  · rw [C06_parse_flags_denotation] at hp
    split at hp
    · rename_i x hx; rw [hx]; simpa using hp
    · simp at hp
  · by_cases ht0 : t = []
    · right
      subst ht0
      by_cases h0 : v = 0#w
      · subst h0
        rw [C05_flags_to_string_zero desc entries md hmd, Outcome.ok.injEq] at ht
        refine ⟨?_, rfl⟩
        cases hn : nameOf entries 0#w with
        | none => exact nameOf_perm hperm hn
        | some n =>
          rw [hn] at ht
          exact absurd ht (hclean n (List.mem_map_of_mem (f := Prod.snd) (nameOf_some_mem hn))).1
      · obtain ⟨L, hs', hsl, -, -, hun⟩ := C05_flags_to_string_shape desc entries md hmd v h0 hsub
        rw [ht, Outcome.ok.injEq] at hs'
        refine absurd hs'.symm (join_ne_nil ?_ fun n hn => (hclean n ((hsl.map Prod.snd).subset hn)).1)
        intro hL
        have : L = [] := by simpa using hL
        subst this
        exact h0 (by simpa [union] using hun.symm)
    · exact .inl (head_mem ht0 hl)

theorem writeItems_texts {α : Type} (wr : α → Str → Outcome Str) (R : α → Str → Prop) (vs : List α)
    (h : ∀ v ∈ vs, ∃ t, (∀ out, wr v out = .ok (out ++ t)) ∧ R v t) :
    ∃ ts, List.Forall₂ R vs ts ∧ ∀ out, writeItems wr vs out = .ok (out ++ join (str ",") ts) := by
  induction vs with
  | nil => exact ⟨[], .nil, fun out => by simp [writeItems, join]⟩
  | cons v r ih =>
    obtain ⟨t, ht, hR⟩ := h v (by simp)
    obtain ⟨ts, hts, hw⟩ := ih fun v hv => h v (by simp [hv])
    refine ⟨t :: ts, .cons hR hts, fun out => ?_⟩
    cases r with
    | nil => cases hts; simp [writeItems, join, ht]
    | cons b r' =>
      cases hts with
      | @cons _ t' _ ts' h1 h2 =>
        simp only [writeItems, ht, Outcome.bind, hw, join, List.append_assoc]

theorem write_text (s : Schema) (v : Val s) (hu : Usable s) (hw : Writable s v) : ∃ t, Writes s v t := by
  induction s with
  | enum md => exact write_enum md v hu hw
  | flags w md => exact write_flags w md v hu hw
  | pair s u ih1 ih2 =>
    obtain ⟨t1, h1, k1, -⟩ := ih1 v.1 hu.1 hw.1
    obtain ⟨t2, h2, k2, -⟩ := ih2 v.2 hu.2 hw.2
    refine ⟨t1 ++ str ":" ++ t2, fun out => ?_, ⟨t1, t2, rfl, k1, k2⟩, .inl ⟨58, by simp [str_colon], by decide⟩⟩
    simp only [write, h1, Outcome.bind, h2, List.append_assoc]
  | list s ih =>
    obtain ⟨hall, hsole⟩ := hw
    obtain ⟨ts, hts, hwr⟩ := writeItems_texts (write s) (Writes s) v fun x hx => by
      obtain ⟨t, ht⟩ := ih x hu (hall x hx)
      exact ⟨t, ht.1, ht⟩
    refine ⟨str "[" ++ join (str ",") ts ++ str "]", fun out => ?_, ⟨[], join (str ",") ts, [], by simp, by simp [AllWs], by simp [AllWs], ?_⟩,
      .inl ⟨91, by simp [str_open], by decide⟩⟩
    · simp only [write, hwr, Outcome.bind, List.append_assoc]
    · cases hts with
      | nil => exact .inl ⟨rfl, by simp [join, AllWs]⟩
      | @cons a t vs ts h1 h2 =>
        refine .inr ⟨List.cons_ne_nil _ _, ?_, t :: ts, .cons h1.2.1 (h2.imp fun _ _ h => h.2.1), rfl⟩
        cases h2 with
        | nil =>
          rcases h1.2.2 with h | h
          · simpa [join] using h
          · exact absurd h hsole
        | @cons b t' vs' ts' h3 h4 => exact ⟨44, by simp [join, str_comma], by decide⟩

/-! ## Loops -/

theorem enum_step {V : Type} (md : EnumMd V) {content skipped token rest : Str} (hs : TokenSplit enumReserved content skipped token rest) (v0 : V) :
    asEnumExtract md { rest := content } v0 =
      match (if token = [] then none else lookup md.entries token) with
      | some v => ({ rest := rest, eofbit := rest.isEmpty }, v)
      | none => ({ rest := rest, eofbit := rest.isEmpty, failbit := true }, v0) := by
  obtain ⟨-, h2, h3⟩ := tokenSplit_det _ enumSet hs
  simp only [asEnumExtract_good, h2, h3]
  split <;> rename_i heq <;> simp only [heq]

theorem leading_names {V : Type} (entries : List (V × Str)) (ns : List (V × Str)) (hne : ns ≠ []) (tail : Str)
    (hns : ∀ e ∈ ns, lookup entries e.2 = some e.1 ∧ e.2 ≠ [] ∧ NoLead e.2 ∧ ∀ c ∈ e.2, c ∉ enumReserved) (vs : List V) (rest : Str)
    (htail : tail = [] ∧ vs = [] ∧ rest = [] ∨ tail.head? = some 32 ∧ Leading entries tail vs rest) :
    Leading entries (join (str " ") (ns.map Prod.snd) ++ tail) (ns.map Prod.fst ++ vs) rest := by
  induction ns with
  | nil => exact absurd rfl hne
  | cons e r ih =>
    obtain ⟨h1, h2, h3, h4⟩ := hns e (by simp)
    cases r with
    | nil =>
      rcases htail with ⟨rfl, rfl, rfl⟩ | ⟨ht, hl⟩
      · refine .last (skipped := []) (token := e.2) ⟨by simp, by simp, ?_, h4, by simp⟩ h2 h1
        rw [List.append_nil]; exact h3
      · refine .more (skipped := []) (token := e.2) (rest := tail) ⟨by simp, by simp, noLead_append h3 h2 _, h4, ?_⟩ h2 h1 ?_ (by simpa using hl)
        · intro c hc; rw [ht] at hc; simp at hc; subst hc; decide
        · rintro rfl; simp at ht
    | cons e' r' =>
      have := ih (by simp) fun x hx => hns x (by simp [hx])
      have hsp : str " " = [32] := by decide
      have hrest : Leading entries (32 :: (join (str " ") ((e' :: r').map Prod.snd) ++ tail)) (((e' :: r').map Prod.fst) ++ vs) rest := by
        have hskip : ∀ {content vs rest}, Leading entries content vs rest → Leading entries (32 :: content) vs rest := by
          intro content vs rest h
          have hts : ∀ {content a b c : Str}, TokenSplit enumReserved content a b c → TokenSplit enumReserved (32 :: content) (32 :: a) b c :=
            fun hs => ⟨by simp [hs.content_eq], fun c hc => by
              rcases List.mem_cons.mp hc with rfl | hc
              · decide
              · exact hs.skipped_ws c hc, hs.first_not_ws, hs.token_legal, hs.rest_stop⟩
          cases h with
          | stop h1 h2 => exact .stop (hts h1) h2
          | last h1 h2 h3 => exact .last (hts h1) h2 h3
          | more h1 h2 h3 h4 h5 => exact .more (hts h1) h2 h3 h4 h5
        exact hskip this
      refine .more (skipped := []) (token := e.2) (rest := 32 :: (join (str " ") ((e' :: r').map Prod.snd) ++ tail))
        ⟨by simp [join, hsp], by simp, noLead_append h3 h2 _, h4, ?_⟩ h2 h1 (by simp) hrest
      intro c hc; simp at hc; subst hc; decide

theorem flags_step {w : Nat} (md : EnumMd (BitVec w)) {content skipped token rest : Str} (hs : TokenSplit flagsReserved content skipped token rest)
    (v0 : BitVec w) : asFlagsExtract md { rest := content } v0 =
      match tokensValue md.entries (flagTokens token) with
      | .ok v => ({ rest := rest, eofbit := rest.isEmpty }, v)
      | .error _ => ({ rest := rest, eofbit := rest.isEmpty, failbit := true }, v0) := by
  obtain ⟨-, h2, h3⟩ := tokenSplit_det _ flagsSet hs
  simp only [asFlagsExtract_good, h2, h3]
  split <;> rename_i heq <;> simp only [heq]

theorem while_stuck {w : Nat} (md : EnumMd (BitVec w)) (c : CChar) (hc : c ∈ flagsReserved) (r : Str) (n : Nat) (v0 : BitVec w) :
    whileExtract (asFlagsExtract md) n { rest := c :: r } v0 = none := by
  induction n generalizing v0 with
  | zero => rfl
  | succ n ih =>
    have hns : c ∉ skippable := by
      have : ∀ c ∈ flagsReserved, c ∉ skippable := by decide
      exact this c hc
    have hs : TokenSplit flagsReserved (c :: r) [] [] (c :: r) := ⟨by simp, by simp, by simpa using hns, by simp, by simpa using hc⟩
    have h0 : tokensValue md.entries (flagTokens []) = .ok 0#w := by rfl
    simp only [whileExtract, flags_step md hs, h0]
    simp [holds, ih]

end Makeshift.StreamLoops
