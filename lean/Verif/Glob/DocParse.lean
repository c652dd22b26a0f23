import Verif.Glob.Quote
import Verif.Glob.Doc
/-
C75: a pattern in the documented syntax parses to the tree of its terms.
-/
namespace Verif.Glob

theorem toNat_ofNat_lt {n : Nat} (h : n < 256) : (UInt8.ofNat n).toNat = n := by
  simp [UInt8.toNat_ofNat', Nat.mod_eq_of_lt h]

theorem ofNat_le {n : Nat} {b : UInt8} (h : n < 256) : (b ≤ UInt8.ofNat n) ↔ b.toNat ≤ n := by
  rw [UInt8.le_iff_toNat_le, toNat_ofNat_lt h]
theorem le_ofNat {n : Nat} {b : UInt8} (h : n < 256) : (UInt8.ofNat n ≤ b) ↔ n ≤ b.toNat := by
  rw [UInt8.le_iff_toNat_le, toNat_ofNat_lt h]
theorem ofNat_lt {n : Nat} {b : UInt8} (h : n < 256) : (UInt8.ofNat n < b) ↔ n < b.toNat := by
  rw [UInt8.lt_iff_toNat_lt, toNat_ofNat_lt h]
theorem ofNat_eq_iff {n : Nat} {b : UInt8} (h : n < 256) : (UInt8.ofNat n = b) ↔ n = b.toNat := by
  constructor
  · rintro rfl; rw [toNat_ofNat_lt h]
  · exact ofNat_eq

theorem decode_encode {r : Nat} (hr : r < 0xD800 ∨ 0xE000 ≤ r ∧ r ≤ 0x10FFFF) (t : Str) : decodeRune (encodeRune r ++ t) = (r, (encodeRune r).length) := by
  unfold encodeRune
  split
  · rename_i h
    rw [List.singleton_append, decodeRune_ascii (by rw [ofNat_lt (by omega)]; exact h), toNat_ofNat_lt (by omega)]; rfl
  · split
    · rename_i h1 h2
      simp only [List.cons_append, List.nil_append, decodeRune]
      have e1 : ¬ UInt8.ofNat (192 + r / 64) < 128 := by rw [ofNat_lt (by omega)]; simp; omega
      have e2 : (decide (194 ≤ UInt8.ofNat (192 + r / 64)) && decide (UInt8.ofNat (192 + r / 64) ≤ 223)) = true := by
        rw [Bool.and_eq_true, decide_eq_true_eq, decide_eq_true_eq, ofNat_le (by omega), le_ofNat (by omega)]; simp; omega
      have e3 : contIn 128 191 (UInt8.ofNat (128 + r % 64)) = true := by rw [contIn_iff, toNat_ofNat_lt (by omega)]; simp; omega
      rw [if_neg e1, if_pos e2, if_pos e3, toNat_ofNat_lt (by omega), toNat_ofNat_lt (by omega)]
      simp; omega
    · split
      · rename_i h3
        simp at h3; omega
      · split
        · rename_i h1 h2 h3 h4
          clear h3
          simp only [List.cons_append, List.nil_append, decodeRune]
          have e1 : ¬ UInt8.ofNat (224 + r / 4096) < 128 := by rw [ofNat_lt (by omega)]; simp; omega
          have e2 : (decide (194 ≤ UInt8.ofNat (224 + r / 4096)) && decide (UInt8.ofNat (224 + r / 4096) ≤ 223)) = false := by
            rw [Bool.and_eq_false_iff, decide_eq_false_iff_not, decide_eq_false_iff_not, ofNat_le (by omega), le_ofNat (by omega)]; simp; omega
          have e2' : (decide (224 ≤ UInt8.ofNat (224 + r / 4096)) && decide (UInt8.ofNat (224 + r / 4096) ≤ 239)) = true := by
            rw [Bool.and_eq_true, decide_eq_true_eq, decide_eq_true_eq, ofNat_le (by omega), le_ofNat (by omega)]; simp; omega
          rw [if_neg e1, if_neg (by rw [e2]; simp), if_pos e2']
          rw [if_pos]
          · rw [toNat_ofNat_lt (by omega), toNat_ofNat_lt (by omega), toNat_ofNat_lt (by omega)]
            simp; omega
          · rw [Bool.and_eq_true, contIn_iff, contIn_iff, toNat_ofNat_lt (by omega), toNat_ofNat_lt (by omega)]
            simp only [ofNat_eq_iff (show 224 + r / 4096 < 256 by omega)]
            simp
            split <;> split <;> simp <;> omega
        · rename_i h1 h2 h3 h4
          clear h3
          simp only [List.cons_append, List.nil_append, decodeRune]
          have e1 : ¬ UInt8.ofNat (240 + r / 262144) < 128 := by rw [ofNat_lt (by omega)]; simp; omega
          have e2 : (decide (194 ≤ UInt8.ofNat (240 + r / 262144)) && decide (UInt8.ofNat (240 + r / 262144) ≤ 223)) = false := by
            rw [Bool.and_eq_false_iff, decide_eq_false_iff_not, decide_eq_false_iff_not, ofNat_le (by omega), le_ofNat (by omega)]; simp; omega
          have e2' : (decide (224 ≤ UInt8.ofNat (240 + r / 262144)) && decide (UInt8.ofNat (240 + r / 262144) ≤ 239)) = false := by
            rw [Bool.and_eq_false_iff, decide_eq_false_iff_not, decide_eq_false_iff_not, ofNat_le (by omega), le_ofNat (by omega)]; simp; omega
          have e3 : (decide (240 ≤ UInt8.ofNat (240 + r / 262144)) && decide (UInt8.ofNat (240 + r / 262144) ≤ 244)) = true := by
            rw [Bool.and_eq_true, decide_eq_true_eq, decide_eq_true_eq, ofNat_le (by omega), le_ofNat (by omega)]; simp; omega
          rw [if_neg e1, if_neg (by rw [e2]; simp), if_neg (by rw [e2']; simp), if_pos e3]
          rw [if_pos]
          · rw [toNat_ofNat_lt (by omega), toNat_ofNat_lt (by omega), toNat_ofNat_lt (by omega), toNat_ofNat_lt (by omega)]
            simp; omega
          · rw [Bool.and_eq_true, Bool.and_eq_true, contIn_iff, contIn_iff, contIn_iff, toNat_ofNat_lt (by omega), toNat_ofNat_lt (by omega), toNat_ofNat_lt (by omega)]
            simp only [ofNat_eq_iff (show 240 + r / 262144 < 256 by omega)]
            simp
            split <;> split <;> simp <;> omega

theorem goodRune_iff {r : Nat} : goodRune r = true ↔ 0 < r ∧ r ≠ runeError ∧ (r < 0xD800 ∨ 0xE000 ≤ r ∧ r ≤ 0x10FFFF) := by
  simp [goodRune, runeError, and_assoc]

theorem encodeRune_pos (r : Nat) : 1 ≤ (encodeRune r).length := by
  unfold encodeRune
  repeat' split
  all_goals simp

/-- The lexer has read up to `s`, without an error; the tokens `tk` are in the queue. -/
structure LexAt (l : Lex) (s : Str) (tk : List Tok) (lv : Nat) : Prop where
  inv : l.Inv
  err : l.err = none
  tokens : l.tokens = tk
  rest : l.data.drop l.pos = s
  level : l.termsLevel = lv

namespace LexAt
variable {l : Lex} {s : Str} {tk : List Tok} {lv r : Nat}

theorem pos_end (h : LexAt l [] tk lv) : l.pos = l.data.length := by
  have := congrArg List.length h.rest
  have := h.inv.pos
  simp at *; omega

theorem decode (h : LexAt l (encodeRune r ++ s) tk lv) (hr : goodRune r = true) : decodeRune (l.data.drop l.pos) = (r, (encodeRune r).length) := by
  rw [h.rest]; exact decode_encode (goodRune_iff.1 hr).2.2 s

theorem peek (h : LexAt l (encodeRune r ++ s) tk lv) (hr : goodRune r = true) : l.peek = ((r, (encodeRune r).length), l) := by
  have h1 := Lex.peek_at (h.decode hr) (goodRune_iff.1 hr).2.1
  have h2 := Lex.peek_ok (l := l) (Or.inr (by rw [h.decode hr]; exact (goodRune_iff.1 hr).2.1))
  exact Prod.ext h1 h2

theorem read (h : LexAt l (encodeRune r ++ s) tk lv) (hr : goodRune r = true) : l.read.1 = r ∧ LexAt l.read.2 s tk lv := by
  obtain ⟨h1, h2, h3, h4, h5, h6, h7⟩ := Lex.read_spec h.inv
  have hx := Lex.read_ext h.inv
  rw [h.peek hr] at h1 h5
  refine ⟨h1, hx.inv, ?_, h3.trans h.tokens, ?_, h4.trans h.level⟩
  · rw [Lex.read_err (Or.inr (by rw [h.decode hr]; exact (goodRune_iff.1 hr).2.1)), h.err]
  · rw [h2, h5, ← List.drop_drop, h.rest]; simp

theorem read_end (h : LexAt l [] tk lv) : l.read.1 = 0 ∧ LexAt l.read.2 [] tk lv := by
  obtain ⟨h1, h2, h3, h4, h5, h6, h7⟩ := Lex.read_spec h.inv
  have hx := Lex.read_ext h.inv
  rw [Lex.peek_end h.pos_end] at h1 h5
  refine ⟨h1, hx.inv, ?_, h3.trans h.tokens, ?_, h4.trans h.level⟩
  · rw [Lex.read_err (Or.inl h.pos_end), h.err]
  · rw [h2, h5]; exact h.rest

/-- The next rune exists or the text ends. -/
def Rune (s : Str) : Prop := s = [] ∨ ∃ r t, goodRune r = true ∧ s = encodeRune r ++ t

theorem unread (h : LexAt l s tk lv) (hs : Rune s) : LexAt l.read.2.unread s tk lv := by
  obtain ⟨u1, u2, u3, u4⟩ := Lex.unread_spec h.inv
  refine ⟨u1.inv, ?_, u3.trans h.tokens, by rw [u1.data, u2, h.rest], u1.level.trans h.level⟩
  have he : l.read.2.err = none := by
    rcases hs with rfl | ⟨r, t, hr, rfl⟩
    · exact h.read_end.2.err
    · exact (h.read hr).2.err
  unfold Lex.unread
  rw [(Lex.read_spec h.inv).2.2.2.2.2.1]
  exact he

theorem push (h : LexAt l s tk lv) (t : Tok) : LexAt (l.push t) s (tk ++ [t]) lv :=
  ⟨h.inv.same rfl rfl rfl rfl rfl, h.err, by simp [Lex.push, h.tokens], h.rest, h.level⟩

theorem pop {t : Tok} (h : LexAt l s (t :: tk) lv) : LexAt { l with tokens := tk } s tk lv :=
  ⟨h.inv.same rfl rfl rfl rfl rfl, h.err, rfl, h.rest, h.level⟩

theorem setLevel (h : LexAt l s tk lv) (k : Nat) : LexAt { l with termsLevel := k } s tk k :=
  ⟨h.inv.same rfl rfl rfl rfl rfl, h.err, h.tokens, h.rest, rfl⟩

theorem seek (h : LexAt l (encodeRune r ++ s) tk lv) (hh : l.hasRune = false) :
    LexAt { l with pos := l.pos + (encodeRune r).length } s tk lv := by
  refine ⟨⟨?_, ?_⟩, h.err, h.tokens, ?_, h.level⟩
  · have := congrArg List.length h.rest
    have h1 := encodeRune_pos r
    have := h.inv.pos
    simp at *; omega
  · intro h1; simp only [hh] at h1; cases h1
  · simp only [← List.drop_drop, h.rest]; simp

end LexAt

/-- The text after a run of characters: the end, or a rune that ends it. -/
def Breaks (breakers : List Nat) (s : Str) : Prop := s = [] ∨ ∃ r t, goodRune r = true ∧ r ∈ breakers ∧ s = encodeRune r ++ t

theorem Breaks.rune {bs : List Nat} {s : Str} (h : Breaks bs s) : LexAt.Rune s := by
  rcases h with h | ⟨r, t, h1, _, h2⟩
  · exact Or.inl h
  · exact Or.inr ⟨r, t, h1, h2⟩

theorem writeChs_cons (c : Ch) (cs : List Ch) : writeChs (c :: cs) = c.write ++ writeChs cs := by simp [writeChs]

theorem writeChs_rune {bs : List Nat} {cs : List Ch} (h : cs.all (Ch.ok bs) = true) {s : Str} (hs : LexAt.Rune s) : LexAt.Rune (writeChs cs ++ s) := by
  cases cs with
  | nil => simpa [writeChs] using hs
  | cons c cs =>
    simp only [List.all_cons, Bool.and_eq_true] at h
    rw [writeChs_cons]
    cases c with
    | plain r =>
      simp only [Ch.ok, Bool.and_eq_true] at h
      exact Or.inr ⟨r, writeChs cs ++ s, h.1.1.1, by simp [Ch.write]⟩
    | esc r => exact Or.inr ⟨92, encodeRune r ++ (writeChs cs ++ s), by decide, by simp [Ch.write, encodeRune]⟩

theorem encode_ascii92 : encodeRune 92 = [92] := rfl

theorem textLoop_chs {breakers : List Nat} {tk : List Tok} {lv : Nat} : ∀ (cs : List Ch) (n : Nat) (l : Lex) (rest : Str) (acc : List Nat), cs.all (Ch.ok breakers) = true →
    92 ∉ breakers → Breaks breakers rest → LexAt l (writeChs cs ++ rest) tk lv → (writeChs cs).length + 1 ≤ n →
    ∃ l', Lex.fetchTextLoop breakers n l acc false = some (acc ++ cs.map Ch.rune, l') ∧ LexAt l' rest tk lv
  | _, 0, _, _, _, _, _, _, _, h => by omega
  | [], n + 1, l, rest, acc, _, h92, hb, hl, _ => by
    have hl' : LexAt l rest tk lv := by simpa [writeChs] using hl
    simp only [Lex.fetchTextLoop]
    rcases hb with rfl | ⟨r, t, h1, h2, rfl⟩
    · obtain ⟨g1, g2⟩ := hl'.read_end
      exact ⟨l.read.2, by rw [if_pos g1]; simp, g2⟩
    · obtain ⟨g1, g2⟩ := hl'.read h1
      have h0 := (goodRune_iff.1 h1).1
      have hr92 : r ≠ 92 := fun e => h92 (e ▸ h2)
      refine ⟨l.read.2.unread, ?_, hl'.unread (Or.inr ⟨r, t, h1, rfl⟩)⟩
      rw [g1, if_neg (by omega)]
      simp [hr92, h2]
  | c :: cs, n + 1, l, rest, acc, hc, h92, hb, hl, hn => by
    simp only [List.all_cons, Bool.and_eq_true] at hc
    obtain ⟨hc, hcs⟩ := hc
    rw [writeChs_cons, List.append_assoc] at hl
    rw [writeChs_cons, List.length_append] at hn
    cases c with
    | plain r =>
      simp only [Ch.ok, Bool.and_eq_true, bne_iff_ne, ne_eq, Bool.not_eq_true', Ch.write] at hc hl hn
      obtain ⟨⟨h1, h2⟩, h3⟩ := hc
      obtain ⟨g1, g2⟩ := hl.read h1
      have h0 := (goodRune_iff.1 h1).1
      have hp := encodeRune_pos r
      obtain ⟨l', e, k⟩ := textLoop_chs cs n l.read.2 rest (acc ++ [r]) hcs h92 hb g2 (by omega)
      refine ⟨l', ?_, k⟩
      simp only [Lex.fetchTextLoop]
      rw [g1, if_neg (by omega), h2]
      simp only [Bool.not_false, Bool.true_and, decide_eq_true_eq, h3, if_false, Bool.and_false, Bool.false_eq_true]
      rw [e]; simp [Ch.rune]
    | esc r =>
      simp only [Ch.ok, Ch.write] at hc hl hn
      have hl1 : LexAt l (encodeRune 92 ++ (encodeRune r ++ (writeChs cs ++ rest))) tk lv := by rw [encode_ascii92]; exact hl
      obtain ⟨g1, g2⟩ := hl1.read (by decide)
      obtain ⟨g3, g4⟩ := g2.read hc
      have h0 := (goodRune_iff.1 hc).1
      have hp := encodeRune_pos r
      simp only [List.length_cons] at hn
      obtain ⟨m, rfl⟩ : ∃ m, n = m + 1 := ⟨n - 1, by omega⟩
      obtain ⟨l', e, k⟩ := textLoop_chs cs m l.read.2.read.2 rest (acc ++ [r]) hcs h92 hb g4 (by omega)
      refine ⟨l', ?_, k⟩
      simp only [Lex.fetchTextLoop]
      rw [g1, g3]
      simp only [Bool.not_false, Bool.true_and, decide_true, if_true, Bool.not_true, Bool.false_and, Bool.false_eq_true, if_false, show ¬ (92 = 0) by decide]
      rw [if_neg (by omega), e]
      simp [Ch.rune]

theorem fetchText_chs {breakers : List Nat} {tk : List Tok} {lv : Nat} {cs : List Ch} {l : Lex} {rest : Str} (hc : cs.all (Ch.ok breakers) = true) (hne : cs ≠ [])
    (h92 : 92 ∉ breakers) (hb : Breaks breakers rest) (hl : LexAt l (writeChs cs ++ rest) tk lv) :
    ∃ l', l.fetchText breakers = some l' ∧ LexAt l' rest (tk ++ [.text (textOf cs)]) lv := by
  obtain ⟨l', e, k⟩ := textLoop_chs cs (l.data.length + 2) l rest [] hc h92 hb hl (by
    have := congrArg List.length hl.rest
    simp at this; omega)
  refine ⟨_, ?_, k.push _⟩
  unfold Lex.fetchText
  rw [e]
  simp only [List.nil_append, List.length_map]
  rw [if_pos (List.length_pos_iff.2 hne)]
  rfl

/-! ### Classes -/

theorem range_close_chs {l : Lex} {rest : Str} {tk : List Tok} {lv n : Nat} {wantHi seenNot : Bool} (h : LexAt l (93 :: rest) tk lv) :
    ∃ l', Lex.fetchRangeLoop (n + 1) l wantHi true seenNot = some l' ∧ LexAt l' rest (tk ++ [.rangeClose]) lv := by
  obtain ⟨g1, g2⟩ := LexAt.read (r := 93) h (by decide)
  refine ⟨_, ?_, g2.push .rangeClose⟩
  simp only [Lex.fetchRangeLoop]
  rw [g1]
  simp

theorem range_start {l : Lex} {s : Str} {tk : List Tok} {lv r n : Nat} {seenNot : Bool} (hr : goodRune r = true) (hn : seenNot = true ∨ r ≠ 33)
    (h : LexAt l (encodeRune r ++ s) tk lv) : Lex.fetchRangeLoop (n + 1) l false false seenNot =
      (let p := l.read.2.peek
       let l := p.2
       if p.1.1 = 45 then
         Lex.fetchRangeLoop n ((({ l with pos := l.pos + p.1.2 } : Lex).push (.rangeLo (encodeRune r))).push .rangeBetween) true false seenNot
       else match l.unread.fetchText [93] with
         | none => none
         | some l => Lex.fetchRangeLoop n l false true seenNot) := by
  obtain ⟨g1, g2⟩ := h.read hr
  have h0 := (goodRune_iff.1 hr).1
  rw [Lex.fetchRangeLoop]
  simp only [g1]
  rw [if_neg (by omega)]
  simp only [Bool.false_eq_true, if_false]
  rw [if_neg (by simp; intro h1; rcases hn with hn | hn; simp [hn] at h1; exact hn)]
  rfl

theorem range_list {l : Lex} {rest : Str} {tk : List Tok} {lv n : Nat} {seenNot : Bool} {cs : List Ch} (hc : cs.all (Ch.ok [93]) = true) (hs : listStart seenNot cs = true)
    (h : LexAt l (writeChs cs ++ 93 :: rest) tk lv) :
    ∃ l', Lex.fetchRangeLoop (n + 2) l false false seenNot = some l' ∧ LexAt l' rest (tk ++ [.text (textOf cs), .rangeClose]) lv := by
  have hb : Breaks [93] (93 :: rest) := Or.inr ⟨93, rest, by decide, by decide, rfl⟩
  -- the first rune and the one after it
  have key : ∃ r r2 s2, goodRune r = true ∧ goodRune r2 = true ∧ (seenNot = true ∨ r ≠ 33) ∧ r2 ≠ 45 ∧ writeChs cs ++ 93 :: rest = encodeRune r ++ (encodeRune r2 ++ s2) := by
    cases cs with
    | nil => simp [listStart] at hs
    | cons c cs =>
      simp only [List.all_cons, Bool.and_eq_true] at hc
      rw [writeChs_cons]
      cases c with
      | esc r =>
        simp only [listStart, bne_iff_ne, ne_eq, Ch.ok] at hs hc
        exact ⟨92, r, _, by decide, hc.1, Or.inr (by decide), hs, by simp only [Ch.write, encode_ascii92, List.cons_append, List.nil_append, List.append_assoc]; rfl⟩
      | plain r =>
        simp only [Ch.ok, Bool.and_eq_true] at hc
        cases cs with
        | nil =>
          simp only [listStart, Bool.or_eq_true, bne_iff_ne, ne_eq] at hs
          exact ⟨r, 93, rest, hc.1.1.1, by decide, hs, by decide, by simp [Ch.write, writeChs, encodeRune]⟩
        | cons c2 cs =>
          simp only [listStart, Bool.or_eq_true, Bool.and_eq_true, bne_iff_ne, ne_eq, List.all_cons] at hs hc
          rw [writeChs_cons]
          cases c2 with
          | plain r2 =>
            simp only [Ch.ok, Bool.and_eq_true] at hc
            exact ⟨r, r2, writeChs cs ++ 93 :: rest, hc.1.1.1, hc.2.1.1.1, hs.1, hs.2, by simp [Ch.write]⟩
          | esc r2 => exact ⟨r, 92, encodeRune r2 ++ (writeChs cs ++ 93 :: rest), hc.1.1.1, by decide, hs.1, by decide, by simp [Ch.write, encode_ascii92]⟩
  obtain ⟨r, r2, s2, k1, k2, k3, k4, k5⟩ := key
  have hl := h
  rw [k5] at hl
  rw [range_start k1 k3 hl]
  obtain ⟨g1, g2⟩ := hl.read k1
  rw [g2.peek k2]
  simp only [k4, if_false]
  have hu := hl.unread (Or.inr ⟨r, _, k1, rfl⟩)
  rw [← k5] at hu
  obtain ⟨l', e, g⟩ := fetchText_chs hc (by rintro rfl; simp [listStart] at hs) (by decide) hb hu
  rw [e]
  obtain ⟨l2, e2, g2⟩ := range_close_chs (n := n) (wantHi := false) (seenNot := seenNot) g
  exact ⟨l2, e2, by simpa using g2⟩

theorem range_range {l : Lex} {rest : Str} {tk : List Tok} {lv n lo hi : Nat} {seenNot : Bool} (hlo : goodRune lo = true) (hhi : goodRune hi = true)
    (hn : seenNot = true ∨ lo ≠ 33) (h : LexAt l (encodeRune lo ++ 45 :: (encodeRune hi ++ 93 :: rest)) tk lv) :
    ∃ l', Lex.fetchRangeLoop (n + 3) l false false seenNot = some l' ∧
      LexAt l' rest (tk ++ [.rangeLo (encodeRune lo), .rangeBetween, .rangeHi (encodeRune hi), .rangeClose]) lv := by
  rw [range_start hlo hn h]
  obtain ⟨g1, g2⟩ := h.read hlo
  have g2' : LexAt l.read.2 (encodeRune 45 ++ (encodeRune hi ++ 93 :: rest)) tk lv := g2
  rw [g2'.peek (by decide)]
  simp only [if_true]
  have g3 := g2'.seek (Lex.read_spec h.inv).2.2.2.2.2.1
  have g4 := (g3.push (.rangeLo (encodeRune lo))).push .rangeBetween
  obtain ⟨k1, k2⟩ := g4.read hhi
  have h0 := (goodRune_iff.1 hhi).1
  rw [Lex.fetchRangeLoop]
  simp only [k1]
  rw [if_neg (by omega)]
  simp only [Bool.false_eq_true, if_false, if_true]
  obtain ⟨l2, e2, g5⟩ := range_close_chs (n := n) (wantHi := true) (seenNot := seenNot) (k2.push (.rangeHi (encodeRune hi)))
  exact ⟨l2, e2, by simpa using g5⟩

theorem fetchRange_not {l : Lex} {s : Str} {tk : List Tok} {lv : Nat} (h : LexAt l (33 :: s) tk lv) :
    ∃ l', l.fetchRange = Lex.fetchRangeLoop 5 l' false false true ∧ LexAt l' s (tk ++ [.not]) lv := by
  obtain ⟨g1, g2⟩ := LexAt.read (r := 33) h (by decide)
  refine ⟨_, ?_, g2.push .not⟩
  rw [Lex.fetchRange, Lex.fetchRangeLoop]
  simp only [g1]
  simp

/-- The token of a negation. -/
def notTok (not : Bool) : List Tok := if not then [.not] else []

theorem fetchRange_list {l : Lex} {rest : Str} {tk : List Tok} {lv : Nat} {not : Bool} {cs : List Ch} (hc : cs.all (Ch.ok [93]) = true) (hs : listStart not cs = true)
    (h : LexAt l ((if not then [33] else []) ++ writeChs cs ++ [93] ++ rest) tk lv) :
    ∃ l', l.fetchRange = some l' ∧ LexAt l' rest (tk ++ (notTok not ++ [.text (textOf cs), .rangeClose])) lv := by
  cases not with
  | true =>
    obtain ⟨l1, e1, g1⟩ := fetchRange_not (s := writeChs cs ++ 93 :: rest) (by simpa using h)
    rw [e1]
    obtain ⟨l', e, g⟩ := range_list (n := 3) hc hs g1
    exact ⟨l', e, by simpa [notTok] using g⟩
  | false =>
    obtain ⟨l', e, g⟩ := range_list (n := 4) hc hs (rest := rest) (by simpa using h)
    exact ⟨l', e, by simpa [notTok] using g⟩

theorem fetchRange_range {l : Lex} {rest : Str} {tk : List Tok} {lv lo hi : Nat} {not : Bool} (hlo : goodRune lo = true) (hhi : goodRune hi = true)
    (hn : not = true ∨ lo ≠ 33) (h : LexAt l ((if not then [33] else []) ++ encodeRune lo ++ [45] ++ encodeRune hi ++ [93] ++ rest) tk lv) :
    ∃ l', l.fetchRange = some l' ∧ LexAt l' rest (tk ++ (notTok not ++ [.rangeLo (encodeRune lo), .rangeBetween, .rangeHi (encodeRune hi), .rangeClose])) lv := by
  cases not with
  | true =>
    obtain ⟨l1, e1, g1⟩ := fetchRange_not (s := encodeRune lo ++ 45 :: (encodeRune hi ++ 93 :: rest)) (by simpa using h)
    rw [e1]
    obtain ⟨l', e, g⟩ := range_range (n := 2) hlo hhi hn g1
    exact ⟨l', e, by simpa [notTok] using g⟩
  | false =>
    obtain ⟨l', e, g⟩ := range_range (n := 3) hlo hhi hn (rest := rest) (by simpa using h)
    exact ⟨l', e, by simpa [notTok] using g⟩

/-! ### Items -/

theorem next_of_item {d : Nat} {l l' : Lex} {s rest : Str} {lv lv' : Nat} {t : Tok} {ts : List Tok} (h : LexAt l s [] lv) (e : l.fetchItem = some l')
    (h' : LexAt l' rest (t :: ts) lv') : ∃ l2, l.next (d + 2) = some (.ok t, l2) ∧ LexAt l2 rest ts lv' := by
  refine ⟨{ l' with tokens := ts }, ?_, h'.pop⟩
  unfold Lex.next
  simp only [h.err, h.tokens, e]
  unfold Lex.next
  simp only [h'.err, h'.tokens]

theorem next_queue {d : Nat} {l : Lex} {s : Str} {lv : Nat} {t : Tok} {ts : List Tok} (h : LexAt l s (t :: ts) lv) :
    ∃ l2, l.next (d + 1) = some (.ok t, l2) ∧ LexAt l2 s ts lv := by
  refine ⟨_, ?_, h.pop⟩
  unfold Lex.next
  simp only [h.err, h.tokens]

variable {l : Lex} {rest : Str} {lv d : Nat}

theorem next_end (h : LexAt l [] [] lv) : ∃ l2, l.next (d + 2) = some (.ok .eof, l2) := by
  obtain ⟨g1, g2⟩ := h.read_end
  obtain ⟨l2, e, _⟩ := next_of_item (d := d) h (l' := l.read.2.push .eof) (by unfold Lex.fetchItem; simp only [g1, if_true]) (g2.push .eof)
  exact ⟨l2, e⟩

theorem next_opens (h : LexAt l (123 :: rest) [] lv) : ∃ l2, l.next (d + 2) = some (.ok .termsOpen, l2) ∧ LexAt l2 rest [] (lv + 1) := by
  obtain ⟨g1, g2⟩ := LexAt.read (r := 123) h (by decide)
  have g3 := (g2.setLevel (lv + 1)).push .termsOpen
  refine next_of_item h ?_ g3
  unfold Lex.fetchItem
  simp only [g1, g2.level]
  simp

theorem next_sep (h : LexAt l (44 :: rest) [] (lv + 1)) : ∃ l2, l.next (d + 2) = some (.ok .separator, l2) ∧ LexAt l2 rest [] (lv + 1) := by
  obtain ⟨g1, g2⟩ := LexAt.read (r := 44) h (by decide)
  refine next_of_item h ?_ (g2.push .separator)
  unfold Lex.fetchItem
  simp only [g1, Lex.inTerms, g2.level]
  simp

theorem next_closes (h : LexAt l (125 :: rest) [] (lv + 1)) : ∃ l2, l.next (d + 2) = some (.ok .termsClose, l2) ∧ LexAt l2 rest [] lv := by
  obtain ⟨g1, g2⟩ := LexAt.read (r := 125) h (by decide)
  have g3 := (g2.push .termsClose).setLevel lv
  refine next_of_item h ?_ g3
  unfold Lex.fetchItem
  simp only [g1, Lex.inTerms, g2.level]
  simp [Lex.push, g2.level]

theorem next_single (h : LexAt l (63 :: rest) [] lv) : ∃ l2, l.next (d + 2) = some (.ok .single, l2) ∧ LexAt l2 rest [] lv := by
  obtain ⟨g1, g2⟩ := LexAt.read (r := 63) h (by decide)
  refine next_of_item h ?_ (g2.push .single)
  unfold Lex.fetchItem
  simp only [g1]
  simp

theorem next_super (h : LexAt l (42 :: 42 :: rest) [] lv) : ∃ l2, l.next (d + 2) = some (.ok .super, l2) ∧ LexAt l2 rest [] lv := by
  obtain ⟨g1, g2⟩ := LexAt.read (r := 42) h (by decide)
  obtain ⟨g3, g4⟩ := LexAt.read (r := 42) g2 (by decide)
  refine next_of_item h ?_ (g4.push .super)
  unfold Lex.fetchItem
  simp only [g1, g3]
  simp

/-- No star follows. -/
def NoStar (s : Str) : Prop := s = [] ∨ ∃ r t, goodRune r = true ∧ r ≠ 42 ∧ s = encodeRune r ++ t

theorem next_any (h : LexAt l (42 :: rest) [] lv) (hs : NoStar rest) : ∃ l2, l.next (d + 2) = some (.ok .any, l2) ∧ LexAt l2 rest [] lv := by
  obtain ⟨g1, g2⟩ := LexAt.read (r := 42) h (by decide)
  have hru : LexAt.Rune rest := by
    rcases hs with h | ⟨r, t, h1, _, h2⟩
    · exact Or.inl h
    · exact Or.inr ⟨r, t, h1, h2⟩
  have g3 := g2.unread hru
  refine next_of_item h ?_ (g3.push .any)
  have g4 : l.read.2.read.1 ≠ 42 := by
    rcases hs with rfl | ⟨r, t, h1, h2, rfl⟩
    · rw [g2.read_end.1]; decide
    · rw [(g2.read h1).1]; exact h2
  unfold Lex.fetchItem
  simp only [g1]
  simp [g4]

theorem breakers_eq (b : Bool) : (if b then Lex.inTermsBreakers else Lex.inTextBreakers) = specialRunes b := by cases b <;> rfl

theorem next_text {cs : List Ch} (hc : cs.all (Ch.ok (specialRunes (decide (0 < lv)))) = true) (hne : cs ≠ []) (hb : Breaks (specialRunes (decide (0 < lv))) rest)
    (h : LexAt l (writeChs cs ++ rest) [] lv) : ∃ l2, l.next (d + 2) = some (.ok (.text (textOf cs)), l2) ∧ LexAt l2 rest [] lv := by
  have key : ∃ r s, goodRune r = true ∧ r ∉ specialRunes (decide (0 < lv)) ∧ writeChs cs ++ rest = encodeRune r ++ s := by
    cases cs with
    | nil => exact absurd rfl hne
    | cons c cs =>
      simp only [List.all_cons, Bool.and_eq_true] at hc
      rw [writeChs_cons]
      cases c with
      | plain r =>
        simp only [Ch.ok, Bool.and_eq_true, Bool.not_eq_true'] at hc
        exact ⟨r, writeChs cs ++ rest, hc.1.1.1, by simpa using hc.1.1.2, by simp [Ch.write]⟩
      | esc r =>
        refine ⟨92, encodeRune r ++ (writeChs cs ++ rest), by decide, ?_, by simp [Ch.write, encode_ascii92]⟩
        cases decide (0 < lv) <;> decide
  obtain ⟨r, s, k1, k2, k3⟩ := key
  have hl := h
  rw [k3] at hl
  obtain ⟨g1, g2⟩ := hl.read k1
  have hu := hl.unread (Or.inr ⟨r, s, k1, rfl⟩)
  rw [← k3] at hu
  have h0 := (goodRune_iff.1 k1).1
  obtain ⟨l', e, g⟩ := fetchText_chs hc hne (by cases decide (0 < lv) <;> decide) hb hu
  refine next_of_item h ?_ g
  have hit : l.read.2.inTerms = decide (0 < lv) := by simp [Lex.inTerms, g2.level]
  have hit' : l.read.2.unread.inTerms = decide (0 < lv) := by simp [Lex.inTerms, hu.level]
  unfold Lex.fetchItem
  simp only [g1, hit, hit']
  rw [breakers_eq, e]
  rw [if_neg (by omega)]
  cases hd : decide (0 < lv)
  · rw [hd] at k2
    simp only [specialRunes, Bool.false_eq_true, if_false, List.mem_cons, List.not_mem_nil, or_false, not_or] at k2
    simp [k2]
  · rw [hd] at k2
    simp only [specialRunes, if_true, List.mem_cons, List.not_mem_nil, or_false, not_or] at k2
    simp [k2]

theorem next_range {s : Str} {ts : List Tok} (h : LexAt l (91 :: s) [] lv)
    (hr : ∀ l1, LexAt l1 s [.rangeOpen] lv → ∃ l2, l1.fetchRange = some l2 ∧ LexAt l2 rest (.rangeOpen :: ts) lv) :
    ∃ l2, l.next (d + 2) = some (.ok .rangeOpen, l2) ∧ LexAt l2 rest ts lv := by
  obtain ⟨g1, g2⟩ := LexAt.read (r := 91) h (by decide)
  obtain ⟨l2, e, g3⟩ := hr _ (g2.push .rangeOpen)
  refine next_of_item h ?_ g3
  unfold Lex.fetchItem
  simp only [g1]
  simpa using e

/-! ### The parser -/

theorem parseRange_list {n : Nat} {not : Bool} {chars : Str} (hc : chars ≠ []) (h : LexAt l rest (notTok not ++ [.text chars, .rangeClose]) lv) :
    ∃ l', parseRange (d + 1) (n + 3) l false 0 0 [] = .ok (.list not chars, l') ∧ LexAt l' rest [] lv := by
  have base : ∀ (m : Nat) (l : Lex), LexAt l rest [.text chars, .rangeClose] lv → ∃ l', parseRange (d + 1) (m + 2) l not 0 0 [] = .ok (.list not chars, l') ∧ LexAt l' rest [] lv := by
    intro m l h
    obtain ⟨l1, e1, g1⟩ := next_queue (d := d) h
    obtain ⟨l2, e2, g2⟩ := next_queue (d := d) g1
    refine ⟨l2, ?_, g2⟩
    rw [parseRange, e1]
    simp only
    rw [parseRange, e2]
    simp [hc]
  cases not with
  | false => exact base (n + 1) l h
  | true =>
    obtain ⟨l1, e1, g1⟩ := next_queue (d := d) h
    rw [parseRange, e1]
    exact base n l1 g1

theorem parseRange_range {n lo hi : Nat} {not : Bool} (hlo : goodRune lo = true) (hhi : goodRune hi = true) (hle : lo ≤ hi)
    (h : LexAt l rest (notTok not ++ [.rangeLo (encodeRune lo), .rangeBetween, .rangeHi (encodeRune hi), .rangeClose]) lv) :
    ∃ l', parseRange (d + 1) (n + 5) l false 0 0 [] = .ok (.range not lo hi, l') ∧ LexAt l' rest [] lv := by
  have d1 : decodeRune (encodeRune lo) = (lo, (encodeRune lo).length) := by simpa using decode_encode (goodRune_iff.1 hlo).2.2 []
  have d2 : decodeRune (encodeRune hi) = (hi, (encodeRune hi).length) := by simpa using decode_encode (goodRune_iff.1 hhi).2.2 []
  have z1 := (goodRune_iff.1 hlo).1
  have base : ∀ (m : Nat) (l : Lex), LexAt l rest [.rangeLo (encodeRune lo), .rangeBetween, .rangeHi (encodeRune hi), .rangeClose] lv →
      ∃ l', parseRange (d + 1) (m + 4) l not 0 0 [] = .ok (.range not lo hi, l') ∧ LexAt l' rest [] lv := by
    intro m l h
    obtain ⟨l1, e1, g1⟩ := next_queue (d := d) h
    obtain ⟨l2, e2, g2⟩ := next_queue (d := d) g1
    obtain ⟨l3, e3, g3⟩ := next_queue (d := d) g2
    obtain ⟨l4, e4, g4⟩ := next_queue (d := d) g3
    refine ⟨l4, ?_, g4⟩
    rw [parseRange, e1]
    simp only [d1, gt_iff_lt, Nat.lt_irrefl, if_false]
    rw [parseRange, e2]
    simp only
    rw [parseRange, e3]
    simp only [d2, gt_iff_lt, Nat.lt_irrefl, if_false]
    rw [if_neg (by omega), parseRange, e4]
    have : lo ≠ 0 := by omega
    have : hi ≠ 0 := by omega
    simp [*]
  cases not with
  | false => exact base (n + 1) l h
  | true =>
    obtain ⟨l1, e1, g1⟩ := next_queue (d := d) h
    rw [parseRange, e1]
    exact base n l1 g1

/-- What may follow the term in the text. -/
def Follows (lv : Nat) : Term → Str → Prop
  | .chars _, s => Breaks (specialRunes (decide (0 < lv))) s
  | .any, s => NoStar s
  | _, _ => True

/-- The end of the pattern, or of an alternative, or an opening brace. -/
def Ends (lv : Nat) (s : Str) : Prop := s = [] ∨ (0 < lv ∧ ∃ t, s = 44 :: t ∨ s = 125 :: t) ∨ ∃ t, s = 123 :: t

theorem follows_ends {t : Term} {s : Str} (h : Ends lv s) : Follows lv t s := by
  cases t <;> try trivial
  · rcases h with rfl | ⟨h0, t, rfl | rfl⟩ | ⟨t, rfl⟩
    · exact Or.inl rfl
    · exact Or.inr ⟨44, t, by decide, by simp [h0, specialRunes], rfl⟩
    · exact Or.inr ⟨125, t, by decide, by simp [h0, specialRunes], rfl⟩
    · exact Or.inr ⟨123, t, by decide, by unfold specialRunes; split <;> decide, rfl⟩
  · rcases h with rfl | ⟨h0, t, rfl | rfl⟩ | ⟨t, rfl⟩
    · exact Or.inl rfl
    · exact Or.inr ⟨44, t, by decide, by decide, rfl⟩
    · exact Or.inr ⟨125, t, by decide, by decide, rfl⟩
    · exact Or.inr ⟨123, t, by decide, by decide, rfl⟩

theorem follows_terms {t : Term} {ts : List Term} {s : Str} (hok : okTerms (decide (0 < lv)) ts = true) (ha : apart t ts = true) (h : Ends lv s) :
    Follows lv t (writeTerms ts ++ s) := by
  cases ts with
  | nil => exact follows_ends h
  | cons t' ts =>
    simp only [okTerms, Bool.and_eq_true] at hok
    have sp : ∀ r, r ∈ [63, 42, 91, 123] → r ∈ specialRunes (decide (0 < lv)) := by
      intro r hr
      unfold specialRunes
      split
      · simp at hr ⊢; tauto
      · exact hr
    have asc : ∀ (r : Nat) (b : UInt8) (u : Str), goodRune r = true → encodeRune r = [b] → r ∈ [63, 42, 91, 123] → (t = .any → r ≠ 42) → Follows lv t (b :: u) := by
      intro r b u h1 h2 h3 h4
      cases t <;> try trivial
      · exact Or.inr ⟨r, u, h1, sp r h3, by rw [h2]; rfl⟩
      · exact Or.inr ⟨r, u, h1, h4 rfl, by rw [h2]; rfl⟩
    cases t' with
    | chars cs =>
      cases t <;> try trivial
      · simp only [Term.ok, Bool.and_eq_true, Bool.not_eq_true', List.isEmpty_eq_false_iff] at hok
        obtain ⟨⟨⟨hne, hcs⟩, _⟩, _⟩ := hok
        cases cs with
        | nil => exact absurd rfl hne
        | cons c cs =>
          simp only [List.all_cons, Bool.and_eq_true] at hcs
          simp only [writeTerms, Term.write, writeChs_cons]
          cases c with
          | plain r =>
            simp only [Ch.ok, Bool.and_eq_true, Bool.not_eq_true'] at hcs
            refine Or.inr ⟨r, writeChs cs ++ (writeTerms ts ++ s), hcs.1.1.1, ?_, by simp [Ch.write]⟩
            rintro rfl
            have := hcs.1.1.2
            simp [sp 42 (by decide)] at this
          | esc r => exact Or.inr ⟨92, encodeRune r ++ (writeChs cs ++ (writeTerms ts ++ s)), by decide, by decide, by simp [Ch.write, encode_ascii92]⟩
    | any => exact asc 42 42 _ (by decide) rfl (by decide) (by rintro rfl; simp [apart] at ha)
    | super => exact asc 42 42 _ (by decide) rfl (by decide) (by rintro rfl; simp [apart] at ha)
    | single => exact asc 63 63 _ (by decide) rfl (by decide) (fun _ => by decide)
    | list n cs => exact asc 91 91 _ (by decide) rfl (by decide) (fun _ => by decide)
    | range n lo hi => exact asc 91 91 _ (by decide) rfl (by decide) (fun _ => by decide)
    | alts p ps => exact asc 123 123 _ (by decide) rfl (by decide) (fun _ => by decide)

theorem ends_alts {ps : List (List Term)} {s : Str} : Ends (lv + 1) (writeAlts ps ++ 125 :: s) := by
  cases ps with
  | nil => exact Or.inr (Or.inl ⟨by omega, s, Or.inr rfl⟩)
  | cons p ps => exact Or.inr (Or.inl ⟨by omega, _, Or.inl (by simp only [writeAlts]; rfl)⟩)

theorem textOf_ne_nil {cs : List Ch} (h : cs ≠ []) : textOf cs ≠ [] := by
  cases cs with
  | nil => exact absurd rfl h
  | cons c cs =>
    intro e
    have h1 := congrArg List.length e
    have h2 := encodeRune_pos c.rune
    rw [textOf, List.map_cons, List.flatMap_cons, List.length_append] at h1
    simp only [List.length_nil] at h1
    omega

mutual
theorem parse_term : ∀ (t : Term) (n : Nat) (l : Lex) (rest : Str) (lv : Nat) (fs : List Frame) (cur : List Node), t.ok (decide (0 < lv)) = true → Follows lv t rest →
    LexAt l (t.write ++ rest) [] lv → lv = fs.length → (t.write ++ rest).length + 8 ≤ n →
    ∃ n' l', parseMain (d + 2) n l fs cur = parseMain (d + 2) n' l' fs (cur ++ [t.node]) ∧ LexAt l' rest [] lv ∧ rest.length + 8 ≤ n'
  | t, 0, _, _, _, _, _, _, _, _, _, h => by omega
  | .chars cs, n + 1, l, rest, lv, fs, cur, hok, hf, hl, _, hn => by
    simp only [Term.ok, Bool.and_eq_true, Bool.not_eq_true', List.isEmpty_eq_false_iff] at hok
    obtain ⟨l', e, g⟩ := next_text (d := d) hok.2 hok.1 hf hl
    refine ⟨n, l', by rw [parseMain, e]; rfl, g, ?_⟩
    have : 1 ≤ (writeChs cs).length := by
      cases cs with
      | nil => exact absurd rfl hok.1
      | cons c cs =>
        rw [writeChs_cons, List.length_append]
        cases c <;> simp [Ch.write] <;> try omega
        rename_i r; have := encodeRune_pos r; omega
    simp [Term.write] at hn; omega
  | .any, n + 1, l, rest, lv, fs, cur, _, hf, hl, _, hn => by
    obtain ⟨l', e, g⟩ := next_any (d := d) hl hf
    exact ⟨n, l', by rw [parseMain, e]; rfl, g, by simp [Term.write] at hn; omega⟩
  | .super, n + 1, l, rest, lv, fs, cur, _, hf, hl, _, hn => by
    obtain ⟨l', e, g⟩ := next_super (d := d) hl
    exact ⟨n, l', by rw [parseMain, e]; rfl, g, by simp [Term.write] at hn; omega⟩
  | .single, n + 1, l, rest, lv, fs, cur, _, hf, hl, _, hn => by
    obtain ⟨l', e, g⟩ := next_single (d := d) hl
    exact ⟨n, l', by rw [parseMain, e]; rfl, g, by simp [Term.write] at hn; omega⟩
  | .list not cs, n + 1, l, rest, lv, fs, cur, hok, hf, hl, _, hn => by
    simp only [Term.ok, Bool.and_eq_true] at hok
    have hne : cs ≠ [] := by rintro rfl; simp [listStart] at hok
    obtain ⟨l1, e1, g1⟩ := next_range (d := d) (rest := rest) (s := (if not then [33] else []) ++ writeChs cs ++ [93] ++ rest)
      (ts := notTok not ++ [.text (textOf cs), .rangeClose]) (by simpa [Term.write] using hl) (fun l1 h1 => by simpa using fetchRange_list hok.2 hok.1 h1)
    simp [Term.write] at hn
    obtain ⟨m, rfl⟩ : ∃ m, n = m + 2 := ⟨n - 2, by omega⟩
    obtain ⟨l2, e2, g2⟩ := parseRange_list (d := d + 1) (n := m) (textOf_ne_nil hne) g1
    refine ⟨m + 2, l2, ?_, g2, by omega⟩
    rw [parseMain, e1]
    simp only
    rw [e2]
    rfl
  | .range not lo hi, n + 1, l, rest, lv, fs, cur, hok, hf, hl, _, hn => by
    simp only [Term.ok, Bool.and_eq_true, decide_eq_true_eq, Bool.or_eq_true, bne_iff_ne, ne_eq] at hok
    obtain ⟨⟨⟨h1, h2⟩, h3⟩, h4⟩ := hok
    obtain ⟨l1, e1, g1⟩ := next_range (d := d) (rest := rest) (s := (if not then [33] else []) ++ encodeRune lo ++ [45] ++ encodeRune hi ++ [93] ++ rest)
      (ts := notTok not ++ [.rangeLo (encodeRune lo), .rangeBetween, .rangeHi (encodeRune hi), .rangeClose]) (by simpa [Term.write] using hl) (fun l1 hl1 => by simpa using fetchRange_range h1 h2 h4 hl1)
    simp [Term.write] at hn
    obtain ⟨m, rfl⟩ : ∃ m, n = m + 4 := ⟨n - 4, by omega⟩
    obtain ⟨l2, e2, g2⟩ := parseRange_range (d := d + 1) (n := m) h1 h2 h3 g1
    refine ⟨m + 4, l2, ?_, g2, by omega⟩
    rw [parseMain, e1]
    simp only
    rw [e2]
    rfl
  | .alts p ps, n + 1, l, rest, lv, fs, cur, hok, hf, hl, hfs, hn => by
    simp only [Term.ok, Bool.and_eq_true] at hok
    simp only [Term.write, List.cons_append, List.append_assoc, List.nil_append] at hl hn
    obtain ⟨l1, e1, g1⟩ := next_opens (d := d) hl
    obtain ⟨n2, l2, e2, g2, hn2⟩ := parse_terms p n l1 (writeAlts ps ++ 125 :: rest) (lv + 1) (⟨[], cur⟩ :: fs) [] (by simpa using hok.1) ends_alts g1 (by simp [hfs])
      (by simp at hn ⊢; omega)
    obtain ⟨n3, l3, e3, g3, hn3⟩ := parse_alts ps n2 l2 rest lv [] cur fs (nodes p) hok.2 g2 hfs hn2
    refine ⟨n3, l3, ?_, g3, hn3⟩
    rw [parseMain, e1]
    simp only
    rw [e2, List.nil_append, e3]
    simp [Term.node]
theorem parse_terms : ∀ (ts : List Term) (n : Nat) (l : Lex) (rest : Str) (lv : Nat) (fs : List Frame) (cur : List Node), okTerms (decide (0 < lv)) ts = true → Ends lv rest →
    LexAt l (writeTerms ts ++ rest) [] lv → lv = fs.length → (writeTerms ts ++ rest).length + 8 ≤ n →
    ∃ n' l', parseMain (d + 2) n l fs cur = parseMain (d + 2) n' l' fs (cur ++ nodes ts) ∧ LexAt l' rest [] lv ∧ rest.length + 8 ≤ n'
  | [], n, l, rest, lv, fs, cur, _, _, hl, _, hn => ⟨n, l, by simp [nodes], by simpa [writeTerms] using hl, by simpa [writeTerms] using hn⟩
  | t :: ts, n, l, rest, lv, fs, cur, hok, he, hl, hfs, hn => by
    simp only [okTerms, Bool.and_eq_true] at hok
    simp only [writeTerms, List.append_assoc] at hl hn
    obtain ⟨n1, l1, e1, g1, hn1⟩ := parse_term t n l (writeTerms ts ++ rest) lv fs cur hok.1.1 (follows_terms hok.2 hok.1.2 he) hl hfs hn
    obtain ⟨n2, l2, e2, g2, hn2⟩ := parse_terms ts n1 l1 rest lv fs (cur ++ [t.node]) hok.2 he g1 hfs hn1
    refine ⟨n2, l2, ?_, g2, hn2⟩
    rw [e1, e2]
    simp [nodes]
theorem parse_alts : ∀ (ps : List (List Term)) (n : Nat) (l : Lex) (rest : Str) (lv : Nat) (as outer : List Node) (fs : List Frame) (cur : List Node), okAlts ps = true →
    LexAt l (writeAlts ps ++ 125 :: rest) [] (lv + 1) → lv = fs.length → (writeAlts ps ++ 125 :: rest).length + 8 ≤ n →
    ∃ n' l', parseMain (d + 2) n l (⟨as, outer⟩ :: fs) cur = parseMain (d + 2) n' l' fs (outer ++ [.anyOf (as ++ .pattern cur :: patterns ps)]) ∧
      LexAt l' rest [] lv ∧ rest.length + 8 ≤ n'
  | _, 0, _, _, _, _, _, _, _, _, _, _, h => by omega
  | [], n + 1, l, rest, lv, as, outer, fs, cur, _, hl, hfs, hn => by
    obtain ⟨l1, e1, g1⟩ := next_closes (d := d) hl
    refine ⟨n, l1, ?_, g1, by simp [writeAlts] at hn; omega⟩
    rw [parseMain, e1]
    rfl
  | p :: ps, n + 1, l, rest, lv, as, outer, fs, cur, hok, hl, hfs, hn => by
    simp only [okAlts, Bool.and_eq_true] at hok
    simp only [writeAlts, List.cons_append, List.append_assoc] at hl hn
    obtain ⟨l1, e1, g1⟩ := next_sep (d := d) hl
    obtain ⟨n2, l2, e2, g2, hn2⟩ := parse_terms p n l1 (writeAlts ps ++ 125 :: rest) (lv + 1) (⟨as ++ [.pattern cur], outer⟩ :: fs) [] (by simpa using hok.1) ends_alts g1 (by simp [hfs])
      (by simp at hn ⊢; omega)
    obtain ⟨n3, l3, e3, g3, hn3⟩ := parse_alts ps n2 l2 rest lv (as ++ [.pattern cur]) outer fs (nodes p) hok.2 g2 hfs hn2
    refine ⟨n3, l3, ?_, g3, hn3⟩
    rw [parseMain, e1]
    simp only
    rw [e2, List.nil_append, e3]
    simp [patterns]
end

/-- C75: a pattern in the documented syntax, as it is written, parses, and gives the tree of its terms. -/
theorem C75_parse_documented (ts : List Term) (h : okTerms false ts = true) : parse (writeTerms ts) = .ok (.pattern (nodes ts)) := by
  have h0 : LexAt (newLexer (writeTerms ts)) (writeTerms ts ++ []) [] 0 := ⟨⟨by simp [newLexer], by simp [newLexer]⟩, rfl, rfl, by simp [newLexer], rfl⟩
  obtain ⟨n, l, e, g, hn⟩ := parse_terms (d := (writeTerms ts).length) ts (7 * (writeTerms ts).length + 8) _ [] 0 [] [] (by simpa using h) (Or.inl rfl) h0 rfl (by simp; omega)
  unfold parse
  rw [e]
  obtain ⟨l2, e2⟩ := next_end (d := (writeTerms ts).length) g
  obtain ⟨m, rfl⟩ : ∃ m, n = m + 1 := ⟨n - 1, by omega⟩
  rw [parseMain, e2]
  simp [closeFrames]

end Verif.Glob
