import Verif.Glob.Syntax
/-
C55, first half: the lexer and the parser end for every text, without a crash.
-/
namespace Verif.Glob
namespace Lex

/-- The state of the lexer is consistent: a rune that was put back is the next one. -/
structure Inv (l : Lex) : Prop where
  pos : l.pos ≤ l.data.length
  last : l.hasRune = true → (l.lastRune, l.lastRuneSize) = l.peek.1

/-- A later state of the same lexer. -/
structure Ext (l l' : Lex) : Prop where
  inv : l'.Inv
  data : l'.data = l.data
  level : l'.termsLevel = l.termsLevel
  le : l.pos ≤ l'.pos

theorem peek_eq (l : Lex) : l.peek.1 = if l.pos = l.data.length then (0, 0) else
    if (decodeRune (l.data.drop l.pos)).1 = runeError then (0, 0) else decodeRune (l.data.drop l.pos) := by
  unfold peek
  split
  · rfl
  · simp only; split <;> rfl

theorem peek_congr {l l' : Lex} (h1 : l'.data = l.data) (h2 : l'.pos = l.pos) : l'.peek.1 = l.peek.1 := by
  rw [peek_eq, peek_eq, h1, h2]

theorem peek_snd (l : Lex) : l.peek.2 = { l with err := l.peek.2.err } := by
  unfold peek
  split
  · rfl
  · simp only; split <;> rfl

theorem peek_bounds {l : Lex} (h : l.pos ≤ l.data.length) : l.pos + l.peek.1.2 ≤ l.data.length ∧ (l.peek.1.1 ≠ 0 → 1 ≤ l.peek.1.2) := by
  rw [peek_eq]
  split
  · simp; omega
  · split
    · simp; omega
    · rename_i h1 h2
      have hd := decodeRune_size (l.data.drop l.pos)
      rw [List.length_drop] at hd
      refine ⟨by omega, fun _ => hd.2 ?_⟩
      intro he
      have := congrArg List.length he
      simp at this; omega

/-- `read`: the next rune. -/
theorem read_spec {l : Lex} (h : l.Inv) : l.read.1 = l.peek.1.1 ∧ l.read.2.data = l.data ∧ l.read.2.tokens = l.tokens ∧ l.read.2.termsLevel = l.termsLevel ∧
    l.read.2.pos = l.pos + l.peek.1.2 ∧ l.read.2.hasRune = false ∧ (l.read.2.lastRune, l.read.2.lastRuneSize) = l.peek.1 := by
  unfold read
  cases hr : l.hasRune with
  | true =>
    have := h.last hr
    simp only [if_true]
    rw [← this]
    simp
  | false =>
    simp only [Bool.false_eq_true, if_false]
    rw [peek_snd]
    simp [hr]

theorem read_ext {l : Lex} (h : l.Inv) : Ext l l.read.2 := by
  obtain ⟨h1, h2, h3, h4, h5, h6, h7⟩ := read_spec h
  have := peek_bounds h.pos
  exact ⟨⟨by rw [h2, h5]; exact this.1, by rw [h6]; simp⟩, h2, h4, by omega⟩

/-- Putting back the rune that was read. -/
theorem unread_spec {l : Lex} (h : l.Inv) : Ext l l.read.2.unread ∧ l.read.2.unread.pos = l.pos ∧ l.read.2.unread.tokens = l.tokens ∧ l.read.2.unread.hasRune = true := by
  obtain ⟨h1, h2, h3, h4, h5, h6, h7⟩ := read_spec h
  have hs : l.read.2.lastRuneSize = l.peek.1.2 := congrArg Prod.snd h7
  have hp : l.read.2.unread.pos = l.pos := by
    unfold unread
    rw [h6]
    simp only [Bool.false_eq_true, if_false]
    omega
  have hd : l.read.2.unread.data = l.data := by unfold unread; rw [h6]; exact h2
  refine ⟨⟨⟨by rw [hp, hd]; exact h.pos, ?_⟩, hd, by unfold unread; rw [h6]; exact h4, by omega⟩, hp, by unfold unread; rw [h6]; exact h3, by unfold unread; rw [h6]; rfl⟩
  intro _
  rw [peek_congr hd hp, ← h7]
  unfold unread
  rw [h6]; rfl

theorem Inv.same {l l' : Lex} (h : l.Inv) (h1 : l'.data = l.data) (h2 : l'.pos = l.pos) (h3 : l'.hasRune = l.hasRune) (h4 : l'.lastRune = l.lastRune)
    (h5 : l'.lastRuneSize = l.lastRuneSize) : l'.Inv :=
  ⟨by rw [h1, h2]; exact h.pos, fun hr => by rw [peek_congr h1 h2, h4, h5]; exact h.last (h3 ▸ hr)⟩

theorem Ext.refl {l : Lex} (h : l.Inv) : Ext l l := ⟨h, rfl, rfl, Nat.le_refl _⟩

theorem Ext.trans {l l' l'' : Lex} (h : Ext l l') (h' : Ext l' l'') : Ext l l'' :=
  ⟨h'.inv, h'.data.trans h.data, h'.level.trans h.level, Nat.le_trans h.le h'.le⟩

theorem Ext.push {l l' : Lex} (h : Ext l l') (t : Tok) : Ext l (l'.push t) :=
  ⟨h.inv.same rfl rfl rfl rfl rfl, h.data, h.level, h.le⟩

theorem Ext.err {l l' : Lex} (h : Ext l l') (e : Option Err) : Ext l { l' with err := e } :=
  ⟨h.inv.same rfl rfl rfl rfl rfl, h.data, h.level, h.le⟩

theorem fetchTextLoop_spec (breakers : List Nat) : ∀ (n : Nat) (l : Lex) (data : List Nat) (escaped : Bool), l.Inv → l.data.length - l.pos + 1 ≤ n →
    ∃ data' l', fetchTextLoop breakers n l data escaped = some (data', l') ∧ Ext l l' ∧ l'.tokens = l.tokens ∧
      (l.peek.1.1 ≠ 0 → (escaped = true ∨ l.peek.1.1 ∉ breakers) → l.pos < l'.pos)
  | 0, l, _, _, _, h => by omega
  | n + 1, l, data, escaped, hi, hn => by
    obtain ⟨h1, h2, h3, h4, h5, h6, h7⟩ := read_spec hi
    have hb := peek_bounds hi.pos
    have he := read_ext hi
    simp only [fetchTextLoop]
    rw [h1]
    by_cases h0 : l.peek.1.1 = 0
    · rw [if_pos h0]
      exact ⟨data, l.read.2, rfl, he, h3, fun h => absurd h0 h⟩
    · rw [if_neg h0]
      have hw := hb.2 h0
      have hfuel : l.read.2.data.length - l.read.2.pos + 1 ≤ n := by rw [h2, h5]; omega
      split
      · obtain ⟨d', l', e, g1, g2, _⟩ := fetchTextLoop_spec breakers n l.read.2 data true he.inv hfuel
        refine ⟨d', l', e, he.trans g1, g2.trans h3, fun _ _ => ?_⟩
        have := g1.le; omega
      · split
        · rename_i hc
          simp only [Bool.and_eq_true, Bool.not_eq_true', List.contains_iff_mem] at hc
          obtain ⟨g1, g2, g3, g4⟩ := unread_spec hi
          refine ⟨data, _, rfl, g1, g3, ?_⟩
          rintro _ (h | h)
          · rw [hc.1] at h; cases h
          · exact absurd hc.2 h
        · obtain ⟨d', l', e, g1, g2, _⟩ := fetchTextLoop_spec breakers n l.read.2 (data ++ [l.peek.1.1]) false he.inv hfuel
          refine ⟨d', l', e, he.trans g1, g2.trans h3, fun _ _ => ?_⟩
          have := g1.le; omega

/-- `fetchText` adds at most one token, a text. -/
theorem fetchText_spec {l : Lex} (h : l.Inv) (breakers : List Nat) : ∃ l', l.fetchText breakers = some l' ∧ Ext l l' ∧
    (l'.tokens = l.tokens ∨ ∃ raw, l'.tokens = l.tokens ++ [.text raw]) ∧ (l.peek.1.1 ≠ 0 → l.peek.1.1 ∉ breakers → l.pos < l'.pos) := by
  obtain ⟨data, l', e, h1, h2, h3⟩ := fetchTextLoop_spec breakers (l.data.length + 2) l [] false h (by omega)
  unfold fetchText
  rw [e]
  refine ⟨_, rfl, ?_, ?_, ?_⟩
  · split
    · exact h1.push _
    · exact h1
  · split
    · right; exact ⟨_, by simp only [push]; rw [h2]⟩
    · exact Or.inl h2
  · intro g1 g2
    have := h3 g1 (Or.inr g2)
    split <;> exact this

/-- The tokens between the brackets of a class. -/
def body : Tok → Bool
  | .not => true
  | .rangeLo _ => true
  | .rangeHi _ => true
  | .rangeBetween => true
  | .text _ => true
  | _ => false

/-- The result of `fetchRange`: an error, or tokens up to the closing bracket. -/
def RangeDone (k : Nat) (l l' : Lex) : Prop := Ext l l' ∧ (l'.err ≠ none ∨ ∃ pre, l'.tokens = l.tokens ++ pre ++ [.rangeClose] ∧ pre.all body = true ∧ pre.length ≤ k)

theorem RangeDone.trans {k k' : Nat} {l l1 l' : Lex} {ts : List Tok} (h : RangeDone k l1 l') (h1 : Ext l l1) (ht : l1.tokens = l.tokens ++ ts) (hb : ts.all body = true)
    (hk : ts.length + k ≤ k') : RangeDone k' l l' := by
  obtain ⟨g1, g2⟩ := h
  refine ⟨h1.trans g1, ?_⟩
  rcases g2 with g2 | ⟨pre, g2, g3, g4⟩
  · exact Or.inl g2
  · right
    exact ⟨ts ++ pre, by rw [g2, ht]; simp, by rw [List.all_append, hb, g3]; rfl, by rw [List.length_append]; omega⟩

theorem range_close (n : Nat) {l : Lex} (h : l.Inv) (wantHi seenNot : Bool) : ∃ l', fetchRangeLoop (n + 1) l wantHi true seenNot = some l' ∧ RangeDone 0 l l' := by
  obtain ⟨h1, h2, h3, h4, h5, h6, h7⟩ := read_spec h
  simp only [fetchRangeLoop, if_true]
  split
  · exact ⟨_, rfl, (read_ext h).err _, Or.inl (by simp)⟩
  · split
    · exact ⟨_, rfl, (read_ext h).err _, Or.inl (by simp)⟩
    · exact ⟨_, rfl, (read_ext h).push _, Or.inr ⟨[], by simp [push, h3], rfl, by simp⟩⟩

theorem range_hi (n : Nat) {l : Lex} (h : l.Inv) (seenNot : Bool) : ∃ l', fetchRangeLoop (n + 2) l true false seenNot = some l' ∧ RangeDone 1 l l' := by
  obtain ⟨h1, h2, h3, h4, h5, h6, h7⟩ := read_spec h
  rw [fetchRangeLoop]
  simp only [if_true, Bool.false_eq_true, if_false]
  split
  · exact ⟨_, rfl, (read_ext h).err _, Or.inl (by simp)⟩
  · have hp := (read_ext h).push (.rangeHi (encodeRune l.read.1))
    obtain ⟨l', e, g⟩ := range_close n hp.inv true seenNot
    exact ⟨l', e, g.trans hp (ts := [.rangeHi (encodeRune l.read.1)]) (by simp [push, h3]) rfl (by simp)⟩

theorem range_lo (n : Nat) {l : Lex} (h : l.Inv) (seenNot : Bool) (hs : seenNot = true ∨ l.peek.1.1 ≠ 33) :
    ∃ l', fetchRangeLoop (n + 3) l false false seenNot = some l' ∧ RangeDone 3 l l' := by
  obtain ⟨h1, h2, h3, h4, h5, h6, h7⟩ := read_spec h
  have hx := read_ext h
  rw [fetchRangeLoop]
  simp only [Bool.false_eq_true, if_false]
  split
  · exact ⟨_, rfl, hx.err _, Or.inl (by simp)⟩
  · have hn : (!seenNot && decide (l.read.1 = 33)) = false := by
      rcases hs with hs | hs
      · simp [hs]
      · rw [h1]; simp [hs]
    rw [hn]
    simp only [Bool.false_eq_true, if_false]
    have hp : Ext l l.read.2.peek.2 := by rw [peek_snd]; exact hx.err _
    have htk : l.read.2.peek.2.tokens = l.tokens := by rw [peek_snd]; exact h3
    split
    · have hb := peek_bounds hx.inv.pos
      have hq : Ext l { l.read.2.peek.2 with pos := l.read.2.peek.2.pos + l.read.2.peek.1.2 } := by
        have hd : l.read.2.peek.2.data = l.read.2.data := by rw [peek_snd]
        have hpos : l.read.2.peek.2.pos = l.read.2.pos := by rw [peek_snd]
        have hhas : l.read.2.peek.2.hasRune = false := by rw [peek_snd]; exact h6
        refine ⟨⟨?_, ?_⟩, hp.data, hp.level, ?_⟩
        · simp only [hpos, hd]; exact hb.1
        · intro hr; simp only [hhas] at hr; cases hr
        · have := hp.le; simp only; omega
      obtain ⟨l', e, g⟩ := range_hi n ((hq.push (.rangeLo (encodeRune l.read.1))).push .rangeBetween).inv seenNot
      exact ⟨l', e, g.trans ((hq.push _).push _) (ts := [.rangeLo (encodeRune l.read.1), .rangeBetween]) (by simp [push, htk]) rfl (by simp)⟩
    · have hu : l.read.2.peek.2.unread = { l.read.2.unread with err := l.read.2.peek.2.err } := by
        rw [peek_snd]
        unfold unread
        simp [h6]
      rw [hu]
      obtain ⟨u1, u2, u3, u4⟩ := unread_spec h
      have hui := u1.err (l.read.2.peek.2.err)
      obtain ⟨l', e, g1, g2, _⟩ := fetchText_spec hui.inv [93]
      rw [e]
      simp only
      obtain ⟨l'', e', g'⟩ := range_close (n + 1) g1.inv false seenNot
      refine ⟨l'', e', ?_⟩
      have hxx : Ext l l' := hui.trans g1
      rcases g2 with g2 | ⟨raw, g2⟩
      · exact g'.trans hxx (ts := []) (by rw [g2]; simp [u3]) rfl (by simp)
      · exact g'.trans hxx (ts := [.text raw]) (by rw [g2]; simp [u3]) rfl (by simp)

theorem fetchRange_spec {l : Lex} (h : l.Inv) : ∃ l', l.fetchRange = some l' ∧ RangeDone 4 l l' := by
  unfold fetchRange
  by_cases hs : l.peek.1.1 = 33
  · obtain ⟨h1, h2, h3, h4, h5, h6, h7⟩ := read_spec h
    have hx := (read_ext h).push .not
    rw [fetchRangeLoop]
    have hr : l.read.1 = 33 := h1.trans hs
    simp only [hr, Bool.false_eq_true, if_false, Bool.not_false, Bool.true_and, decide_true, if_true, show ¬ (33 = 0) by decide]
    obtain ⟨l', e, g⟩ := range_lo 2 hx.inv true (Or.inl rfl)
    exact ⟨l', e, g.trans hx (ts := [.not]) (by simp [push, h3]) rfl (by simp)⟩
  · obtain ⟨l', e, g⟩ := range_lo 3 h false (Or.inr hs)
    exact ⟨l', e, g.trans (Ext.refl h) (ts := []) (by simp) rfl (by simp)⟩

/-- The tokens that stand for a node without children. -/
def leaf : Tok → Bool
  | .text _ => true
  | .any => true
  | .super => true
  | .single => true
  | _ => false

/-- What a call of `fetchItem` with an empty queue adds. -/
inductive Item (l l' : Lex) : List Tok → Prop
  | eof : Item l l' [.eof]
  | none : l.pos < l'.pos → l'.termsLevel = l.termsLevel → Item l l' []
  | leaf (t : Tok) : leaf t = true → l.pos < l'.pos → l'.termsLevel = l.termsLevel → Item l l' [t]
  | opens : l.pos < l'.pos → l'.termsLevel = l.termsLevel + 1 → Item l l' [.termsOpen]
  | sep : l.pos < l'.pos → l'.termsLevel = l.termsLevel → 0 < l.termsLevel → Item l l' [.separator]
  | closes : l.pos < l'.pos → l'.termsLevel + 1 = l.termsLevel → Item l l' [.termsClose]
  | range (pre : List Tok) : l.pos < l'.pos → l'.termsLevel = l.termsLevel → pre.all body = true → pre.length ≤ 4 → Item l l' (.rangeOpen :: (pre ++ [.rangeClose]))

theorem fetchItem_spec {l : Lex} (h : l.Inv) (ht : l.tokens = []) : ∃ l', l.fetchItem = some l' ∧ l'.Inv ∧ l'.data = l.data ∧ (l'.err ≠ none ∨ Item l l' l'.tokens) := by
  obtain ⟨h1, h2, h3, h4, h5, h6, h7⟩ := read_spec h
  have hx := read_ext h
  have hb := peek_bounds h.pos
  rw [ht] at h3
  unfold fetchItem
  simp only
  by_cases h0 : l.read.1 = 0
  · rw [if_pos h0]
    refine ⟨_, rfl, (hx.push _).inv, hx.data, Or.inr ?_⟩
    simp only [push, h3, List.nil_append]
    exact .eof
  · rw [if_neg h0]
    have hpos : l.pos < l.read.2.pos := by have := hb.2 (by rw [← h1]; exact h0); omega
    split
    · refine ⟨_, rfl, ⟨hx.inv.pos, ?_⟩, hx.data, Or.inr ?_⟩
      · intro hr; simp only [push] at hr; rw [h6] at hr; cases hr
      · simp only [push, h3, List.nil_append]
        exact .opens hpos (by simp [h4])
    · split
      · rename_i hc
        simp only [Bool.and_eq_true, inTerms, decide_eq_true_eq, h4] at hc
        refine ⟨_, rfl, (hx.push _).inv, hx.data, Or.inr ?_⟩
        simp only [push, h3, List.nil_append]
        exact .sep hpos (by simp [h4]) (by omega)
      · rename_i hnsep
        split
        · rename_i hc
          simp only [Bool.and_eq_true, inTerms, decide_eq_true_eq, h4] at hc
          refine ⟨_, rfl, ⟨hx.inv.pos, ?_⟩, hx.data, Or.inr ?_⟩
          · intro hr; simp only [push] at hr; rw [h6] at hr; cases hr
          · simp only [push, h3, List.nil_append]
            exact .closes hpos (by simp [h4]; omega)
        · rename_i hnclose
          split
          · obtain ⟨l', e, g1, g2⟩ := fetchRange_spec (hx.push .rangeOpen).inv
            refine ⟨l', e, g1.inv, g1.data.trans hx.data, ?_⟩
            rcases g2 with g2 | ⟨pre, g2, g3, g4⟩
            · exact Or.inl g2
            · right
              rw [g2]
              simp only [push, h3, List.nil_append, List.append_assoc, List.singleton_append]
              exact .range pre (by have := g1.le; simp only [push] at this; omega) (g1.level.trans h4) g3 g4
          · split
            · refine ⟨_, rfl, (hx.push _).inv, hx.data, Or.inr ?_⟩
              simp only [push, h3, List.nil_append]
              exact .leaf _ rfl hpos h4
            · split
              · have hx2 := read_ext hx.inv
                obtain ⟨k1, k2, k3, k4, k5, k6, k7⟩ := read_spec hx.inv
                split
                · refine ⟨_, rfl, (hx2.push _).inv, (hx.trans hx2).data, Or.inr ?_⟩
                  simp only [push, k3, h3, List.nil_append]
                  exact .leaf _ rfl (by have := hx2.le; simp only; omega) (by simp only; rw [k4, h4])
                · obtain ⟨u1, u2, u3, u4⟩ := unread_spec hx.inv
                  refine ⟨_, rfl, (u1.push _).inv, (hx.trans u1).data, Or.inr ?_⟩
                  simp only [push, u3, h3, List.nil_append]
                  exact .leaf _ rfl (by have := u1.le; simp only; omega) (by simp only; rw [u1.level, h4])
              · rename_i n3 n4 n5 n6
                obtain ⟨u1, u2, u3, u4⟩ := unread_spec h
                obtain ⟨l', e, g1, g2, g3⟩ := fetchText_spec u1.inv (if l.read.2.unread.inTerms then inTermsBreakers else inTextBreakers)
                refine ⟨l', e, g1.inv, (u1.trans g1).data, Or.inr ?_⟩
                have hlt : l.pos < l'.pos := by
                  rw [← u2]
                  have hpk : l.read.2.unread.peek.1.1 = l.read.1 := by rw [peek_congr u1.data u2, h1]
                  refine g3 (by rw [hpk]; exact h0) ?_
                  rw [hpk]
                  have hin : l.read.2.unread.inTerms = l.read.2.inTerms := by unfold inTerms; rw [u1.level, h4]
                  rw [hin]
                  cases hit : l.read.2.inTerms
                  · simp only [Bool.false_eq_true, if_false, inTextBreakers, List.mem_cons, List.not_mem_nil, or_false, not_or]
                    exact ⟨n5, n6, n4, n3⟩
                  · simp only [hit, Bool.and_true, decide_eq_true_eq] at hnsep hnclose
                    simp only [if_true, inTermsBreakers, inTextBreakers, List.cons_append, List.nil_append, List.mem_cons, List.not_mem_nil, or_false, not_or]
                    exact ⟨n5, n6, n4, n3, hnclose, hnsep⟩
                have hlev : l'.termsLevel = l.termsLevel := (u1.trans g1).level
                rw [u3, ht] at g2
                rcases g2 with g2 | ⟨raw, g2⟩
                · rw [g2]; exact .none hlt hlev
                · rw [g2]; exact .leaf _ rfl hlt hlev

/-- `Next` with an empty queue: an error token, the end, or the first token of an item. -/
theorem next_spec : ∀ (n : Nat) (l : Lex), l.Inv → l.tokens = [] → l.data.length - l.pos + 2 ≤ n →
    ∃ res l', l.next n = some (res, l') ∧ ((∃ e, res = .error e) ∨ ∃ t ts, res = .ok t ∧ l'.tokens = ts ∧ l'.Inv ∧ l'.data = l.data ∧ l'.err = none ∧ Item l l' (t :: ts))
  | 0, l, _, _, h => by omega
  | n + 1, l, hi, ht, hn => by
    unfold next
    cases he : l.err with
    | some e => exact ⟨_, _, rfl, Or.inl ⟨e, rfl⟩⟩
    | none =>
      simp only [ht]
      obtain ⟨l1, e1, g1, g2, g3⟩ := fetchItem_spec hi ht
      rw [e1]
      simp only
      cases hk : l1.tokens with
      | nil =>
        cases he1 : l1.err with
        | some e =>
          obtain ⟨m, rfl⟩ : ∃ m, n = m + 1 := ⟨n - 1, by omega⟩
          rw [next, he1]
          exact ⟨_, _, rfl, Or.inl ⟨e, rfl⟩⟩
        | none =>
          rw [hk] at g3
          rcases g3 with g3 | g3
          · exact absurd he1 g3
          · cases g3 with
            | none p1 p2 =>
              obtain ⟨res, l', e, g⟩ := next_spec n l1 g1 hk (by rw [g2]; have := g1.pos; rw [g2] at this; omega)
              refine ⟨res, l', e, ?_⟩
              rcases g with g | ⟨t, ts, r1, r2, r3, r4, r5, r8⟩
              · exact Or.inl g
              · refine Or.inr ⟨t, ts, r1, r2, r3, r4.trans g2, r5, ?_⟩
                generalize hts : t :: ts = tts at r8
                cases r8 with
                | eof => exact .eof
                | none q1 q2 => exact .none (by omega) (by omega)
                | leaf t' q0 q1 q2 => exact .leaf _ q0 (by omega) (by omega)
                | opens q1 q2 => exact .opens (by omega) (by omega)
                | sep q1 q2 q3 => exact .sep (by omega) (by omega) (by omega)
                | closes q1 q2 => exact .closes (by omega) (by omega)
                | range pre q1 q2 q3 q4 => exact .range pre (by omega) (by omega) q3 q4
      | cons t ts =>
        obtain ⟨m, rfl⟩ : ∃ m, n = m + 1 := ⟨n - 1, by omega⟩
        rw [next]
        cases he1 : l1.err with
        | some e => exact ⟨_, _, rfl, Or.inl ⟨e, rfl⟩⟩
        | none =>
          simp only [hk]
          refine ⟨_, _, rfl, Or.inr ⟨t, ts, rfl, rfl, g1.same rfl rfl rfl rfl rfl, g2, rfl, ?_⟩⟩
          · rcases g3 with g3 | g3
            · exact absurd he1 g3
            · rw [hk] at g3
              generalize hts : t :: ts = tts at g3
              cases g3 with
              | eof => exact .eof
              | none q1 q2 => cases hts
              | leaf t' q0 q1 q2 => exact .leaf _ q0 q1 q2
              | opens q1 q2 => exact .opens q1 q2
              | sep q1 q2 q3 => exact .sep q1 q2 q3
              | closes q1 q2 => exact .closes q1 q2
              | range pre q1 q2 q3 q4 => exact .range pre q1 q2 q3 q4

end Lex

/-- `parserRange` reads the tokens up to the closing bracket. -/
theorem parseRange_spec (depth : Nat) : ∀ (pre : List Tok) (n : Nat) (l : Lex) (not : Bool) (lo hi : Nat) (chars : Str), pre.all Lex.body = true →
    l.tokens = pre ++ [.rangeClose] → l.err = none → pre.length + 1 ≤ n →
    (∃ e, parseRange (depth + 1) n l not lo hi chars = .err e) ∨ ∃ node, parseRange (depth + 1) n l not lo hi chars = .ok (node, { l with tokens := [] })
  | _, 0, _, _, _, _, _, _, _, _, h => by omega
  | [], n + 1, l, not, lo, hi, chars, _, ht, he, _ => by
    obtain ⟨d, p, er, tk, lv, lr, ls, hr⟩ := l
    simp only at ht he
    subst ht he
    simp only [parseRange, Lex.next, List.nil_append]
    split
    · exact Or.inl ⟨_, rfl⟩
    · split
      · exact Or.inr ⟨_, rfl⟩
      · exact Or.inr ⟨_, rfl⟩
  | t :: pre, n + 1, l, not, lo, hi, chars, hb, ht, he, hn => by
    simp only [List.all_cons, Bool.and_eq_true] at hb
    obtain ⟨d, p, er, tk, lv, lr, ls, hr⟩ := l
    simp only at ht he
    subst ht he
    simp only [parseRange, Lex.next, List.cons_append]
    have ih := fun not lo hi chars => parseRange_spec depth pre n ⟨d, p, none, pre ++ [.rangeClose], lv, lr, ls, hr⟩ not lo hi chars hb.2 rfl rfl (by simpa using hn)
    cases t <;> simp only [Lex.body, Bool.false_eq_true, false_and] at hb
    · exact ih _ _ _ _
    · exact ih _ _ _ _
    · simp only
      split
      · exact Or.inl ⟨_, rfl⟩
      · exact ih _ _ _ _
    · simp only
      split
      · exact Or.inl ⟨_, rfl⟩
      · split
        · exact Or.inl ⟨_, rfl⟩
        · exact ih _ _ _ _
    · exact ih _ _ _ _

theorem parseMain_spec (depth : Nat) : ∀ (n : Nat) (l : Lex) (fs : List Frame) (cur : List Node), l.Inv → l.tokens = [] → l.termsLevel = fs.length →
    l.data.length - l.pos + 8 ≤ n → l.data.length + 2 ≤ depth → (∃ e, parseMain depth n l fs cur = .err e) ∨ ∃ t, parseMain depth n l fs cur = .ok t
  | 0, l, _, _, _, _, _, h, _ => by omega
  | n + 1, l, fs, cur, hi, ht, hl, hn, hd => by
    obtain ⟨res, l', e, g⟩ := Lex.next_spec depth l hi ht (by omega)
    rw [parseMain, e]
    rcases g with ⟨er, rfl⟩ | ⟨t, ts, rfl, r2, r3, r4, r5, r8⟩
    · exact Or.inl ⟨er, rfl⟩
    · simp only
      have hp := r3.pos
      have go : ∀ (l'' : Lex) (fs : List Frame) (cur : List Node), l''.Inv → l''.tokens = [] → l''.data = l.data → l.pos < l''.pos → l''.termsLevel = fs.length →
          (∃ e, parseMain depth n l'' fs cur = .err e) ∨ ∃ t, parseMain depth n l'' fs cur = .ok t := by
        intro l'' fs cur q1 q2 q3 q4 q5
        have := q1.pos
        rw [q3] at this
        exact parseMain_spec depth n l'' fs cur q1 q2 q5 (by rw [q3]; omega) (by rw [q3]; omega)
      generalize hts : t :: ts = tts at r8
      cases r8 with
      | eof =>
        simp only [List.cons.injEq] at hts
        obtain ⟨rfl, rfl⟩ := hts
        exact Or.inr ⟨_, rfl⟩
      | none => cases hts
      | leaf t' q0 q1 q2 =>
        simp only [List.cons.injEq] at hts
        obtain ⟨rfl, rfl⟩ := hts
        cases t <;> simp only [Lex.leaf, Bool.false_eq_true] at q0
        all_goals exact go _ _ _ r3 r2 r4 q1 (by rw [q2, hl])
      | opens q1 q2 =>
        simp only [List.cons.injEq] at hts
        obtain ⟨rfl, rfl⟩ := hts
        exact go _ _ _ r3 r2 r4 q1 (by rw [q2, hl]; rfl)
      | sep q1 q2 q3 =>
        simp only [List.cons.injEq] at hts
        obtain ⟨rfl, rfl⟩ := hts
        cases fs with
        | nil => simp at hl; omega
        | cons f fs => exact go _ _ _ r3 r2 r4 q1 (by rw [q2, hl]; rfl)
      | closes q1 q2 =>
        simp only [List.cons.injEq] at hts
        obtain ⟨rfl, rfl⟩ := hts
        cases fs with
        | nil => simp at hl; omega
        | cons f fs => exact go _ _ _ r3 r2 r4 q1 (by simp at hl; omega)
      | range pre q1 q2 q3 q4 =>
        simp only [List.cons.injEq] at hts
        obtain ⟨rfl, rfl⟩ := hts
        simp only
        obtain ⟨m, rfl⟩ : ∃ m, depth = m + 1 := ⟨depth - 1, by omega⟩
        rcases parseRange_spec m pre (n + 1) l' false 0 0 [] q3 r2 r5 (by omega) with ⟨er, h⟩ | ⟨node, h⟩
        · rw [h]; exact Or.inl ⟨er, rfl⟩
        · rw [h]
          simp only
          refine go { l' with tokens := [] } _ _ (r3.same rfl rfl rfl rfl rfl) rfl r4 q1 (by rw [← hl]; exact q2)

/-- The parser ends with a tree or an error. -/
theorem parse_total (s : Str) : (∃ e, parse s = .err e) ∨ ∃ t, parse s = .ok t := by
  unfold parse
  refine parseMain_spec _ _ _ _ _ ⟨by simp [newLexer], by simp [newLexer]⟩ rfl rfl ?_ ?_
  · simp [newLexer]; omega
  · simp [newLexer]

end Verif.Glob
