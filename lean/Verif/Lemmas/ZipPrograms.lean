import Verif.Props.ZipRows
import Verif.Spec.ZipPrograms

/-! Lemmas about programs which work on the elements of zipped ranges. -/

namespace Makeshift.ZipRows

open Makeshift Spec RangeObjects Props
open Makeshift.Soa (RowProg)
open Makeshift.Spec.Soa (runRows Fits)

variable {V β : Type}

theorem obj_inj {rs : List (Rng Nat)} (hr : ∀ r ∈ rs, IsReal r) (hd : (objects rs).Nodup) :
    ∀ {j j' : Nat} {r r' : Rng Nat} {k k' l : Nat}, rs[j]? = some r → rs[j']? = some r' → r.elems[k]? = some l → r'.elems[k']? = some l → j = j' ∧ k = k' := by
  induction rs with
  | nil => intro j j' r r' k k' l h; simp at h
  | cons r0 rs ih =>
    intro j j' r r' k k' l h h' hk hk'
    have hreal := hr r0 (by simp)
    have e : objects (r0 :: rs) = r0.elems ++ objects rs := by
      show (if r0.mode = .rangeIndex then [] else r0.elems) ++ objects rs = _
      rw [if_neg hreal]
    rw [e, List.nodup_append] at hd
    obtain ⟨d1, d2, d3⟩ := hd
    have hmem : ∀ {j : Nat} {r : Rng Nat} {k : Nat}, rs[j]? = some r → r.elems[k]? = some l → l ∈ objects rs := by
      intro j r k hj hk
      unfold objects
      rw [List.mem_flatMap]
      have hr' := List.mem_of_getElem? hj
      exact ⟨r, hr', by rw [if_neg (hr r (by simp [hr']))]; exact List.mem_of_getElem? hk⟩
    match j, j' with
    | 0, 0 =>
      simp at h h'
      subst h; subst h'
      have hkl := (List.getElem?_eq_some_iff.1 hk).1
      exact ⟨rfl, (List.getElem?_inj hkl d1).mp (by rw [hk, hk'])⟩
    | 0, j' + 1 =>
      simp at h h'
      subst h
      exact absurd rfl (d3 l (List.mem_of_getElem? hk) l (hmem h' hk'))
    | j + 1, 0 =>
      simp at h h'
      subst h'
      exact absurd rfl (d3 l (List.mem_of_getElem? hk') l (hmem h hk))
    | j + 1, j' + 1 =>
      simp at h h'
      obtain ⟨a, b⟩ := ih (fun r hr' => hr r (by simp [hr'])) d2 h h' hk hk'
      exact ⟨by omega, b⟩

theorem argAt_real {rs : List (Rng Nat)} (hr : ∀ r ∈ rs, IsReal r) {p : Nat} {a : List (Arg Nat)} (h : List.Forall₂ (ArgAt p) rs a) {j : Nat} {r : Rng Nat}
    (hj : rs[j]? = some r) : ∃ l, r.elems[p]? = some l ∧ a[j]? = some (.elem l) := by
  obtain ⟨hjl, rfl⟩ := List.getElem?_eq_some_iff.1 hj
  have hl := h.length_eq
  have := (List.forall₂_iff_get.1 h).2 j hjl (by omega)
  simp only [List.get_eq_getElem] at this
  rcases this with ⟨hm, -⟩ | ⟨-, l, h1, h2⟩
  · exact absurd hm (hr _ (List.getElem_mem hjl))
  · exact ⟨l, h1, by rw [List.getElem?_eq_getElem (by omega), h2]⟩

/-- Setting one tuple. -/
theorem writeRow_set {rs : List (Rng Nat)} (hr : ∀ r ∈ rs, IsReal r) (hd : (objects rs).Nodup) (p : Nat) :
    ∀ {a : List (Arg Nat)} (t : List V) (m : Mem V), List.Forall₂ (ArgAt p) rs a → t.length = rs.length →
      (∀ l, l ∉ objects rs → writeRow a (t.map .obj) m l = m l) ∧
      ∀ (j : Nat) (r : Rng Nat) (v : V), rs[j]? = some r → t[j]? = some v → ∀ k l : Nat, r.elems[k]? = some l →
        writeRow a (t.map .obj) m l = if k = p then v else m l := by
  induction rs with
  | nil =>
    intro a t m ha ht
    cases ha
    exact ⟨fun _ _ => by simp [writeRow], by simp⟩
  | cons r0 rs ih =>
    intro a t m ha ht
    cases ha with
    | @cons _ x _ a hx ha =>
    rcases t with _ | ⟨v0, t⟩
    · simp at ht
    have hreal := hr r0 (by simp)
    rcases hx with ⟨hm, -⟩ | ⟨-, d, hdd, rfl⟩
    · exact absurd hm hreal
    have e : objects (r0 :: rs) = r0.elems ++ objects rs := by
      show (if r0.mode = .rangeIndex then [] else r0.elems) ++ objects rs = _
      rw [if_neg hreal]
    have hd0 := hd
    rw [e, List.nodup_append] at hd
    obtain ⟨d1, d2, d3⟩ := hd
    obtain ⟨i1, i2⟩ := ih (fun r h => hr r (by simp [h])) d2 t (m.store d v0) ha (by simpa using ht)
    have hw : writeRow (.elem d :: a) ((v0 :: t).map .obj) m = writeRow a (t.map .obj) (m.store d v0) := rfl
    rw [hw]
    have hdm := List.mem_of_getElem? hdd
    refine ⟨fun l hl => ?_, fun j r v hj hv k l hk => ?_⟩
    · rw [e, List.mem_append, not_or] at hl
      rw [i1 l hl.2]
      simp only [Mem.store]
      rw [if_neg]
      rintro rfl; exact hl.1 hdm
    · match j with
      | 0 =>
        simp at hj hv
        subst hj; subst hv
        rw [i1 l (fun hc => d3 l (List.mem_of_getElem? hk) l hc rfl)]
        simp only [Mem.store]
        by_cases ekp : k = p
        · subst ekp; rw [hdd] at hk; cases hk; simp
        · rw [if_neg ekp, if_neg]
          rintro rfl
          exact ekp (obj_inj hr hd0 (j := 0) (j' := 0) (by simp) (by simp) hk hdd).2
      | j + 1 =>
        simp at hj hv
        rw [i2 j r v hj hv k l hk]
        simp only [Mem.store]
        split
        · rfl
        · rw [if_neg]
          rintro rfl
          have := (obj_inj hr hd0 (j := j + 1) (j' := 0) (by simpa using hj) (by simp) hk hdd).1
          omega

/-- Rows from a position on. -/
def RowsAt (rs : List (Rng Nat)) (base : Nat) (m : Mem V) (rows : List (List V)) : Prop :=
  ∀ (i : Nat) (row : List V), rows[i]? = some row → List.Forall₂ (fun r v => ∃ l, r.elems[base + i]? = some l ∧ m l = v) rs row

/-- Only elements at positions from `base` to `base + n` change. -/
def KeptAt (rs : List (Rng Nat)) (base n : Nat) (m m' : Mem V) : Prop :=
  (∀ l, l ∉ objects rs → m' l = m l) ∧
  ∀ r ∈ rs, ∀ k l : Nat, r.elems[k]? = some l → (k < base ∨ base + n ≤ k) → m' l = m l

theorem KeptAt.trans {rs : List (Rng Nat)} {base n : Nat} {m m' m'' : Mem V} (h : KeptAt rs base n m m') (h' : KeptAt rs base n m' m'') :
    KeptAt rs base n m m'' :=
  ⟨fun l hl => (h'.1 l hl).trans (h.1 l hl), fun r hr k l hk hb => (h'.2 r hr k l hk hb).trans (h.2 r hr k l hk hb)⟩

theorem KeptAt.refl (rs : List (Rng Nat)) (base n : Nat) (m : Mem V) : KeptAt rs base n m m := ⟨fun _ _ => rfl, fun _ _ _ _ _ _ => rfl⟩

theorem rowsAt_map {rs : List (Rng Nat)} {base : Nat} {m m' : Mem V} {row : List V} {i i' : Nat}
    (h : List.Forall₂ (fun r v => ∃ l, r.elems[base + i']? = some l ∧ m l = v) rs row)
    (h' : ∀ r ∈ rs, ∀ l', r.elems[base + i']? = some l' → ∃ l, r.elems[base + i]? = some l ∧ m' l = m l') :
    List.Forall₂ (fun r v => ∃ l, r.elems[base + i]? = some l ∧ m' l = v) rs row := by
  refine List.Forall₂.imp ?_ (List.forall₂_and_left (p := fun q => q ∈ rs) _ _ |>.2 ⟨fun q hq => hq, h⟩)
  rintro r v ⟨hr, l', h1, h2⟩
  obtain ⟨l, h3, h4⟩ := h' r hr l' h1
  exact ⟨l, h3, by rw [h4, h2]⟩

/-- Rearranging tuples. -/
theorem moved_step {rs : List (Rng Nat)} (hr : ∀ r ∈ rs, IsReal r) {N : Nat} (hn : AllLength rs N) {base : Nat} {m m' : Mem V} {rows rows' : List (List V)}
    (hb : base + rows.length ≤ N) {f : Nat → Nat} (h : TuplesMoved rs m m' f) (hR : RowsAt rs base m rows) (hl : rows'.length = rows.length)
    (hf : ∀ i row, rows'[i]? = some row → ∃ i', f (base + i) = base + i' ∧ rows[i']? = some row)
    (hout : ∀ k, (k < base ∨ base + rows.length ≤ k) → f k = k) : KeptAt rs base rows.length m m' ∧ RowsAt rs base m' rows' := by
  refine ⟨⟨h.2, fun r hr' k l hk hkb => h.1 r hr' (hr r hr') k l l hk (by rw [hout k hkb]; exact hk)⟩, fun i row hi => ?_⟩
  obtain ⟨i', e1, e2⟩ := hf i row hi
  refine rowsAt_map (hR i' row e2) fun r hr' l' hl' => ?_
  have hil := (List.getElem?_eq_some_iff.1 hi).1
  have : base + i < r.elems.length := by rw [hn r hr' (hr r hr')]; omega
  exact ⟨r.elems[base + i], List.getElem?_eq_getElem this, h.1 r hr' (hr r hr') _ _ _ (List.getElem?_eq_getElem this) (by rw [e1]; exact hl')⟩

theorem set_step {rs : List (Rng Nat)} (hr : ∀ r ∈ rs, IsReal r) {N : Nat} (hn : AllLength rs N) {base : Nat} {m m' : Mem V} {rows : List (List V)}
    (hb : base + rows.length ≤ N) (hR : RowsAt rs base m rows) {i : Nat} (hi : i < rows.length) {t : List V} (ht : t.length = rs.length)
    (h1 : ∀ l, l ∉ objects rs → m' l = m l)
    (h2 : ∀ (j : Nat) (r : Rng Nat) (v : V), rs[j]? = some r → t[j]? = some v → ∀ k l : Nat, r.elems[k]? = some l →
        m' l = if k = base + i then v else m l) : KeptAt rs base rows.length m m' ∧ RowsAt rs base m' (rows.set i t) := by
  have h3 : ∀ r ∈ rs, ∀ k l : Nat, r.elems[k]? = some l → k ≠ base + i → m' l = m l := by
    intro r hr' k l hk hne
    obtain ⟨j, hj, rfl⟩ := List.getElem_of_mem hr'
    rw [h2 j _ t[j] (List.getElem?_eq_getElem hj) (List.getElem?_eq_getElem (by omega)) k l hk, if_neg hne]
  refine ⟨⟨h1, fun r hr' k l hk hkb => h3 r hr' k l hk (by omega)⟩, fun i' row hi' => ?_⟩
  by_cases e : i = i'
  · subst e
    rw [List.getElem?_set_self hi] at hi'
    cases hi'
    refine List.forall₂_iff_get.2 ⟨ht.symm, fun j hj hj' => ?_⟩
    simp only [List.get_eq_getElem]
    have hlt : base + i < (rs[j]).elems.length := by rw [hn _ (List.getElem_mem hj) (hr _ (List.getElem_mem hj))]; omega
    exact ⟨_, List.getElem?_eq_getElem hlt, by
      rw [h2 j _ t[j] (List.getElem?_eq_getElem hj) (List.getElem?_eq_getElem hj') _ _ (List.getElem?_eq_getElem hlt), if_pos rfl]⟩
  · rw [List.getElem?_set_ne e] at hi'
    exact rowsAt_map (hR i' row hi') fun r hr' l hl => ⟨l, hl, h3 r hr' _ l hl (by omega)⟩

theorem walk_append {α : Type} (rs : List (Rng α)) (ms : List Move) (d : Move) : ∀ it, walk rs (ms ++ [d]) it = (walk rs ms it).bind (d.take rs) := by
  induction ms with
  | nil => intro it; simp only [List.nil_append, walk, Outcome.bind_ok]; cases d.take rs it <;> rfl
  | cons m ms ih =>
    intro it
    simp only [List.cons_append, walk]
    cases m.take rs it with
    | ok it' => simp only [Outcome.bind_ok]; exact ih it'
    | _ => rfl

theorem destination_append (ms : List Move) (d : Move) : ∀ p, destination (ms ++ [d]) p = destination ms p + d.shift := by
  induction ms with
  | nil => intro p; rfl
  | cons m ms ih => intro p; exact ih _

theorem staysIn_append {n : Nat} (ms : List Move) (d : Move) : ∀ p, StaysIn n ms p → 0 ≤ destination ms p + d.shift → destination ms p + d.shift ≤ n →
    StaysIn n (ms ++ [d]) p := by
  induction ms with
  | nil => intro p h h1 h2; exact ⟨h.1, h.2, h1, h2⟩
  | cons m ms ih => intro p h h1 h2; exact ⟨h.1, h.2.1, ih _ h.2.2 h1 h2⟩

/-- An iterator at a position. -/
def Positioned (rs : List (Rng Nat)) (N : Nat) (it : ZipIt) (base : Nat) : Prop :=
  ∃ ms, walk rs ms (zipBegin rs) = .ok it ∧ StaysIn N ms 0 ∧ destination ms 0 = base

theorem positioned_begin (rs : List (Rng Nat)) (N : Nat) : Positioned rs N (zipBegin rs) 0 := ⟨[], rfl, by simp [StaysIn], rfl⟩

theorem positioned_plus {rs : List (Rng Nat)} {N : Nat} (hn : AllLength rs N) {it : ZipIt} {base o : Nat} (h : Positioned rs N it base) (ho : base + o ≤ N) :
    ∃ it', zipPlus rs it o = .ok it' ∧ Positioned rs N it' (base + o) := by
  obtain ⟨ms, h1, h2, h3⟩ := h
  have hs : StaysIn N (ms ++ [.add o]) 0 := staysIn_append ms (.add o) 0 h2 (by rw [h3]; simp only [Move.shift]; omega) (by rw [h3]; simp only [Move.shift]; omega)
  obtain ⟨it', h4, -⟩ := C29_walk_from_begin rs N hn (ms ++ [.add o]) hs
  refine ⟨it', ?_, ms ++ [.add o], h4, hs, by rw [destination_append, h3]; simp [Move.shift]⟩
  rw [walk_append, h1, Outcome.bind_ok] at h4
  exact h4

theorem positioned_get {rs : List (Rng Nat)} {N : Nat} (hn : AllLength rs N) {it : ZipIt} {base i : Nat} (h : Positioned rs N it base) (hi : base + i < N) :
    ∃ a, zipSubscript rs it i = .ok a ∧ List.Forall₂ (ArgAt (base + i)) rs a := by
  obtain ⟨ms, h1, h2, h3⟩ := h
  obtain ⟨it', h4, -, h5⟩ := C29_walk_from_begin rs N hn ms h2
  rw [h1] at h4
  cases h4
  exact h5 i (base + i) hi (by rw [h3]; simp)

theorem rowValues_eq {rs : List (Rng Nat)} (hr : ∀ r ∈ rs, IsReal r) {p : Nat} {m : Mem V} :
    ∀ {a : List (Arg Nat)} {row : List V}, List.Forall₂ (ArgAt p) rs a → List.Forall₂ (fun r v => ∃ l, r.elems[p]? = some l ∧ m l = v) rs row →
      rowValues m a = row := by
  induction rs with
  | nil => intro a row h1 h2; cases h1; cases h2; rfl
  | cons r rs ih =>
    intro a row h1 h2
    cases h1 with | cons hx h1 => ?_
    cases h2 with | cons hy h2 => ?_
    rcases hx with ⟨hm, -⟩ | ⟨-, l, hl, rfl⟩
    · exact absurd hm (hr r (by simp))
    obtain ⟨l', hl', rfl⟩ := hy
    rw [hl] at hl'
    cases hl'
    have := ih (fun r h => hr r (by simp [h])) h1 h2
    rw [← this]
    rfl

theorem zip_refines {rs : List (Rng Nat)} (hr : ∀ r ∈ rs, IsReal r) (hd : (objects rs).Nodup) {N : Nat} (hn : AllLength rs N) (p : RowProg V β) :
    ∀ (it : ZipIt) (base : Nat) (m : Mem V) (rows : List (List V)) (x : β) (rows' : List (List V)), Positioned rs N it base → base + rows.length ≤ N →
      RowsAt rs base m rows → Fits rs.length p → runRows p rows = .ok (x, rows') →
      rows'.length = rows.length ∧ ∃ m', runZip rs it rows.length p m = .ok (x, m') ∧ KeptAt rs base rows.length m m' ∧ RowsAt rs base m' rows' := by
  have rl : ∀ {base : Nat} {m : Mem V} {rows : List (List V)}, RowsAt rs base m rows → ∀ {i : Nat} {row : List V}, rows[i]? = some row → row.length = rs.length :=
    fun hR _ _ h => (hR _ _ h).length_eq.symm
  induction p with
  | done x0 =>
    intro it base m rows x rows' hp hb hR hf h
    simp only [runRows, Outcome.ok.injEq, Prod.mk.injEq] at h
    obtain ⟨rfl, rfl⟩ := h
    exact ⟨rfl, m, rfl, KeptAt.refl _ _ _ _, hR⟩
  | load i k ih =>
    intro it base m rows x rows' hp hb hR hf h
    cases hf with | load hf => ?_
    rw [runRows] at h
    split at h
    · rename_i row hi
      have hil := (List.getElem?_eq_some_iff.1 hi).1
      obtain ⟨a, h1, h2⟩ := positioned_get hn hp (i := i) (by omega)
      rw [runZip, h1, Outcome.bind_ok, rowValues_eq hr h2 (hR i row hi)]
      exact ih row it base m rows x rows' hp hb hR (hf row (rl hR hi)) h
    · cases h
  | loadElem i c k ih =>
    intro it base m rows x rows' hp hb hR hf h
    cases hf with | loadElem hc hf => ?_
    rw [runRows] at h
    split at h
    · rename_i row hi
      have hil := (List.getElem?_eq_some_iff.1 hi).1
      obtain ⟨a, h1, h2⟩ := positioned_get hn hp (i := i) (by omega)
      split at h
      · rename_i v hv
        obtain ⟨l, h3, h4⟩ := argAt_real hr h2 (List.getElem?_eq_getElem hc)
        have hcr := (List.getElem?_eq_some_iff.1 hv).1
        have := (List.forall₂_iff_get.1 (hR i row hi)).2 c hc hcr
        simp only [List.get_eq_getElem] at this
        obtain ⟨l', e1, e2⟩ := this
        rw [h3] at e1
        cases e1
        rw [List.getElem?_eq_getElem hcr] at hv
        cases hv
        rw [runZip, h1, Outcome.bind_ok, h4]
        dsimp only
        rw [e2]
        exact ih _ it base m rows x rows' hp hb hR (hf _) h
      · cases h
    · cases h
  | store i t p ih =>
    intro it base m rows x rows' hp hb hR hf h
    cases hf with | store ht hf => ?_
    rw [runRows] at h
    split at h
    · rename_i hil
      obtain ⟨a, h1, h2⟩ := positioned_get hn hp (i := i) (by omega)
      obtain ⟨w1, w2⟩ := writeRow_set hr hd (base + i) t m h2 ht
      obtain ⟨k1, k2⟩ := set_step hr hn hb hR hil ht w1 w2
      obtain ⟨i1, m', i2, i3, i4⟩ := ih it base _ (rows.set i t) x rows' hp (by simpa using hb) k2 hf h
      rw [List.length_set] at i1 i2 i3
      rw [runZip, h1, Outcome.bind_ok]
      exact ⟨i1, m', i2, k1.trans i3, i4⟩
    · cases h
  | storeElem i c v p ih =>
    intro it base m rows x rows' hp hb hR hf h
    cases hf with | storeElem hc hf => ?_
    rw [runRows] at h
    split at h
    · rename_i row hi
      have hil := (List.getElem?_eq_some_iff.1 hi).1
      obtain ⟨a, h1, h2⟩ := positioned_get hn hp (i := i) (by omega)
      obtain ⟨l, h3, h4⟩ := argAt_real hr h2 (List.getElem?_eq_getElem hc)
      have hrl := rl hR hi
      obtain ⟨k1, k2⟩ := set_step (m' := m.store l v) hr hn hb hR hil (t := row.set c v) (by rw [List.length_set, hrl]) (by
          intro l' hl'
          simp only [Mem.store]
          rw [if_neg]
          rintro rfl
          apply hl'
          unfold objects
          rw [List.mem_flatMap]
          exact ⟨_, List.getElem_mem hc, by rw [if_neg (hr _ (List.getElem_mem hc))]; exact List.mem_of_getElem? h3⟩) (by
          intro j r w hj hw k l' hk
          simp only [Mem.store]
          by_cases e : l' = l
          · subst e
            obtain ⟨rfl, rfl⟩ := obj_inj hr hd hj (List.getElem?_eq_getElem hc) hk h3
            rw [List.getElem?_set_self (by rw [hrl]; exact hc)] at hw
            cases hw
            simp
          · rw [if_neg e]
            split
            · rename_i ek
              subst ek
              have hne : c ≠ j := by
                rintro rfl
                rw [List.getElem?_eq_getElem hc] at hj
                cases hj
                rw [h3] at hk
                cases hk
                exact e rfl
              rw [List.getElem?_set_ne hne] at hw
              obtain ⟨hjl, rfl⟩ := List.getElem?_eq_some_iff.1 hj
              obtain ⟨hwl, rfl⟩ := List.getElem?_eq_some_iff.1 hw
              have := (List.forall₂_iff_get.1 (hR i row hi)).2 j hjl hwl
              simp only [List.get_eq_getElem] at this
              obtain ⟨l2, e1, e2⟩ := this
              rw [hk] at e1
              cases e1
              exact e2
            · rfl)
      obtain ⟨i1, m', i2, i3, i4⟩ := ih it base _ _ x rows' hp (by simpa using hb) k2 hf h
      rw [List.length_set] at i1 i2 i3
      rw [runZip, h1, Outcome.bind_ok, h4]
      exact ⟨i1, m', i2, k1.trans i3, i4⟩
    · cases h
  | copy i j p ih =>
    intro it base m rows x rows' hp hb hR hf h
    cases hf with | copy hf => ?_
    rw [runRows] at h
    split at h
    · rename_i row row' hi hj
      have hil := (List.getElem?_eq_some_iff.1 hi).1
      have hjl := (List.getElem?_eq_some_iff.1 hj).1
      obtain ⟨a, h1, h2⟩ := positioned_get hn hp (i := i) (by omega)
      obtain ⟨b, h3, h4⟩ := positioned_get hn hp (i := j) (by omega)
      obtain ⟨k1, k2⟩ := moved_step (rows' := rows.set i row') hr hn hb (C114_assign rs hd _ _ a b h2 h4 m) hR (by simp) (by
          intro i' r hi'
          by_cases e : i = i'
          · subst e
            rw [List.getElem?_set_self hil] at hi'
            cases hi'
            exact ⟨j, by simp, hj⟩
          · rw [List.getElem?_set_ne e] at hi'
            exact ⟨i', by rw [if_neg (by omega)], hi'⟩) (by
          intro k hk
          rw [if_neg (by omega)])
      obtain ⟨i1, m', i2, i3, i4⟩ := ih it base _ _ x rows' hp (by simpa using hb) k2 hf h
      rw [List.length_set] at i1 i2 i3
      rw [runZip, h1, Outcome.bind_ok, h3, Outcome.bind_ok]
      exact ⟨i1, m', i2, k1.trans i3, i4⟩
    · cases h
  | swap i j p ih =>
    intro it base m rows x rows' hp hb hR hf h
    cases hf with | swap hf => ?_
    rw [runRows] at h
    split at h
    · rename_i row row' hi hj
      have hil := (List.getElem?_eq_some_iff.1 hi).1
      have hjl := (List.getElem?_eq_some_iff.1 hj).1
      obtain ⟨a, h1, h2⟩ := positioned_get hn hp (i := i) (by omega)
      obtain ⟨b, h3, h4⟩ := positioned_get hn hp (i := j) (by omega)
      obtain ⟨k1, k2⟩ := moved_step (rows' := (rows.set i row').set j row) hr hn hb (C114_swap rs hd _ _ a b h2 h4 m) hR (by simp) (by
          intro i' r hi'
          rw [List.getElem?_set, List.getElem?_set] at hi'
          simp only [List.length_set, hjl, hil, if_true] at hi'
          by_cases e2 : j = i'
          · subst e2
            rw [if_pos rfl] at hi'
            cases hi'
            by_cases e1 : j = i
            · subst e1; exact ⟨j, by simp, hi⟩
            · exact ⟨i, by rw [if_neg (by omega), if_pos rfl], hi⟩
          · rw [if_neg e2] at hi'
            by_cases e1 : i = i'
            · subst e1
              rw [if_pos rfl] at hi'
              cases hi'
              exact ⟨j, by rw [if_pos rfl], hj⟩
            · rw [if_neg e1] at hi'
              exact ⟨i', by rw [if_neg (by omega), if_neg (by omega)], hi'⟩) (by
          intro k hk
          rw [if_neg (by omega), if_neg (by omega)])
      obtain ⟨i1, m', i2, i3, i4⟩ := ih it base _ _ x rows' hp (by simpa using hb) k2 hf h
      simp only [List.length_set] at i1 i2 i3
      rw [runZip, h1, Outcome.bind_ok, h3, Outcome.bind_ok]
      exact ⟨i1, m', i2, k1.trans i3, i4⟩
    · cases h
  | part o c body k ihb ihk =>
    intro it base m rows x rows' hp hb hR hf h
    cases hf with | part hfb hfk => ?_
    rw [runRows] at h
    dsimp only at h
    have hnp : (2 ^ 64 - 1 : Nat) = 18446744073709551615 := rfl
    rw [runZip, hnp]
    generalize (if c = 18446744073709551615 then rows.length - o else c) = n at h ⊢
    split at h
    swap
    · cases h
    rename_i hle
    obtain ⟨it', h1, h2⟩ := positioned_plus hn hp (o := o) (by omega)
    rw [h1, Outcome.bind_ok]
    generalize hbody : runRows body ((rows.drop o).take n) = ob at h
    cases ob with
    | throw e => cases h
    | failFast => cases h
    | ub => cases h
    | ok y =>
      obtain ⟨x1, part⟩ := y
      rw [Outcome.bind_ok] at h
      dsimp only at h
      have hlt : ((rows.drop o).take n).length = n := by rw [List.length_take, List.length_drop]; omega
      obtain ⟨i1, m1, i2, i3, i4⟩ := ihb it' (base + o) m ((rows.drop o).take n) x1 part h2 (by rw [hlt]; omega) (by
          intro i row hi
          rw [List.getElem?_take] at hi
          split at hi
          · rw [List.getElem?_drop] at hi
            rw [Nat.add_assoc]
            exact hR _ _ hi
          · cases hi) hfb hbody
      rw [hlt] at i1 i2 i3
      rw [i2, Outcome.bind_ok]
      dsimp only
      have hl2 : (rows.take o ++ part ++ rows.drop (o + n)).length = rows.length := by
        simp only [List.length_append, List.length_take, List.length_drop]; omega
      have hk : KeptAt rs base rows.length m m1 := ⟨i3.1, fun r hr' k l hk hkb => i3.2 r hr' k l hk (by omega)⟩
      have hR1 : RowsAt rs base m1 (rows.take o ++ part ++ rows.drop (o + n)) := by
        intro i row hi
        have keep : (i < o ∨ o + n ≤ i) → rows[i]? = some row → List.Forall₂ (fun r v => ∃ l, r.elems[base + i]? = some l ∧ m1 l = v) rs row := by
          intro hio hrow
          exact rowsAt_map (hR i row hrow) fun r hr' l hl => ⟨l, hl, i3.2 r hr' _ l hl (by omega)⟩
        by_cases c1 : i < o
        · rw [List.append_assoc, List.getElem?_append_left (by rw [List.length_take]; omega), List.getElem?_take_of_lt c1] at hi
          exact keep (.inl c1) hi
        · by_cases c2 : i < o + n
          · rw [List.append_assoc, List.getElem?_append_right (by rw [List.length_take]; omega), List.length_take,
              List.getElem?_append_left (by omega)] at hi
            have := i4 _ _ hi
            rw [show base + o + (i - min o rows.length) = base + i by omega] at this
            exact this
          · rw [List.getElem?_append_right (by rw [List.length_append, List.length_take]; omega), List.length_append, List.length_take,
              List.getElem?_drop] at hi
            rw [show o + n + (i - (min o rows.length + part.length)) = i by omega] at hi
            exact keep (.inr (by omega)) hi
      obtain ⟨j1, m', j2, j3, j4⟩ := ihk x1 it base m1 _ x rows' hp (by rw [hl2]; exact hb) hR1 (hfk x1) h
      rw [hl2] at j1 j2 j3
      exact ⟨j1, m', j2, hk.trans j3, j4⟩

end Makeshift.ZipRows
