import Verif.Glob.Utf8Lemmas
import Verif.Glob.LexProps
import Verif.Glob.CompileTotal
/-
C55: lexing, parsing and compiling end for every pattern. C56: a quoted text matches only itself.
-/
namespace Verif.Glob

/-- C55: every pattern compiles, with any separators, to a matcher or to an error of the lexer or the parser: no crash (`Res.panic`) and no endless loop or
recursion (`Res.steps`). Where the text parses, there is a matcher. -/
theorem C55_compile_total (pattern : Str) (seps : List Nat) :
    (∃ e, parse pattern = .err e ∧ globCompile pattern seps = .err e) ∨ ∃ t m, parse pattern = .ok t ∧ globCompile pattern seps = .ok m := by
  unfold globCompile
  rcases parse_total pattern with ⟨e, h⟩ | ⟨t, h⟩
  · exact Or.inl ⟨e, h, by rw [h]⟩
  · obtain ⟨m, hm⟩ := compile_total seps t.size t (Nat.le_refl _)
    exact Or.inr ⟨t, m, h, by rw [h]; exact hm⟩

/-! ### Quoting -/

theorem runesAux_enough : ∀ (n : Nat) (s : Str), s.length ≤ n → runesAux n s = runesOf s
  | 0, s, h => by
    have : s = [] := List.length_eq_zero_iff.1 (by omega)
    subst this; rfl
  | n + 1, [], _ => by rfl
  | n + 1, b :: s, h => by
    have hd := decodeRune_size (b :: s)
    have h1 := hd.2 (by simp)
    rw [runesAux_cons, runesOf, List.length_cons, runesAux_cons]
    have hl : ((b :: s).drop (decodeRune (b :: s)).2).length ≤ s.length := by rw [List.length_drop, List.length_cons]; omega
    rw [runesAux_enough n _ (by rw [List.length_cons] at h; omega)]
    congr 1
    rw [← runesAux_enough s.length _ hl]
termination_by n s => (s.length, n)
decreasing_by
  all_goals simp_wf
  all_goals rw [Prod.lex_def]; simp; omega

theorem runesIn_cons {s : Str} (h : s ≠ []) : runesIn s = (decodeRune s).1 :: runesIn (s.drop (decodeRune s).2) := by
  cases s with
  | nil => exact absurd rfl h
  | cons b s =>
    have h1 := (decodeRune_size (b :: s)).2 (by simp)
    have hl : ((b :: s).drop (decodeRune (b :: s)).2).length ≤ s.length := by rw [List.length_drop, List.length_cons]; omega
    rw [runesIn, runesOf, List.length_cons, runesAux_cons, List.map_cons, runesAux_enough _ _ hl, runesIn]

/-- Encoding the runes of a valid text without U+FFFD gives the text. -/
theorem encode_runes : ∀ (n : Nat) (s : Str), s.length ≤ n → runeError ∉ runesIn s → (runesIn s).flatMap encodeRune = s
  | 0, s, h, _ => by
    have : s = [] := List.length_eq_zero_iff.1 (by omega)
    subst this; rfl
  | n + 1, s, h, hr => by
    by_cases hs : s = []
    · subst hs; rfl
    · rw [runesIn_cons hs] at hr ⊢
      rw [List.mem_cons, not_or] at hr
      have hd := (decodeRune_size s).2 hs
      have hl := List.length_pos_iff.2 hs
      rw [List.flatMap_cons, (decodeRune_local (s := s) (r := (decodeRune s).1) (w := (decodeRune s).2) rfl (Ne.symm hr.1)).1, encode_runes n _ (by rw [List.length_drop]; omega) hr.2, List.take_append_drop]

namespace Lex

theorem peek_ok {l : Lex} (h : l.pos = l.data.length ∨ (decodeRune (l.data.drop l.pos)).1 ≠ runeError) : l.peek.2 = l := by
  unfold peek
  split
  · rfl
  · rename_i h1
    rcases h with h | h
    · exact absurd h h1
    · simp [h]

theorem read_err {l : Lex} (h : l.pos = l.data.length ∨ (decodeRune (l.data.drop l.pos)).1 ≠ runeError) : l.read.2.err = l.err := by
  unfold read
  split
  · rfl
  · simp only; rw [peek_ok h]

theorem peek_at {l : Lex} {r w : Nat} (hd : decodeRune (l.data.drop l.pos) = (r, w)) (hr : r ≠ runeError) : l.peek.1 = (r, w) := by
  rw [peek_eq, if_neg, hd, if_neg hr]
  intro h
  rw [h, List.drop_length] at hd
  simp only [decodeRune, Prod.mk.injEq] at hd
  exact hr hd.1.symm

theorem peek_end {l : Lex} (h : l.pos = l.data.length) : l.peek.1 = (0, 0) := by rw [peek_eq, if_pos h]

end Lex

theorem quoteMeta_append (a b : Str) : quoteMeta (a ++ b) = quoteMeta a ++ quoteMeta b := by
  unfold quoteMeta; rw [List.flatMap_append]

theorem special_ascii {c : UInt8} (h : special c = true) : c.toNat ∈ [42, 63, 92, 91, 93, 123, 125] := by
  simp only [special, List.contains_iff_mem, List.mem_cons, List.not_mem_nil, or_false] at h
  rcases h with rfl | rfl | rfl | rfl | rfl | rfl | rfl <;> decide

theorem quoteMeta_high {s : Str} (h : ∀ b ∈ s, 0x80 ≤ b) : quoteMeta s = s := by
  unfold quoteMeta
  induction s with
  | nil => rfl
  | cons b s ih =>
    rw [List.flatMap_cons, ih fun c hc => h c (List.mem_cons_of_mem _ hc)]
    have : special b = false := by
      by_contra hc
      have h1 := special_ascii (by simpa using hc)
      have h2 := UInt8.le_iff_toNat_le.1 (h b List.mem_cons_self)
      have h3 : (0x80 : UInt8).toNat = 128 := rfl
      simp at h1; omega
    simp [this]

theorem not_special {b : UInt8} (h : special b = false) : b.toNat ∉ Lex.inTextBreakers ∧ b.toNat ≠ 92 := by
  have key : ∀ n : Nat, n < 256 → b.toNat = n → b = UInt8.ofNat n := fun n _ e => by rw [← e]; simp
  simp only [special, List.contains_eq_mem, List.mem_cons, List.not_mem_nil, or_false, decide_eq_false_iff_not, not_or] at h
  obtain ⟨h1, h2, h3, h4, h5, h6, h7⟩ := h
  simp only [Lex.inTextBreakers, List.mem_cons, List.not_mem_nil, or_false, not_or]
  refine ⟨⟨fun e => h2 (key 63 (by omega) e), fun e => h1 (key 42 (by omega) e), fun e => h4 (key 91 (by omega) e), fun e => h6 (key 123 (by omega) e)⟩,
    fun e => h3 (key 92 (by omega) e)⟩

theorem textLoop_quote : ∀ (n : Nat) (s : Str) (l : Lex) (acc : List Nat), runeError ∉ runesIn s → 0 ∉ runesIn s → l.Inv → l.data.drop l.pos = quoteMeta s →
    (quoteMeta s).length + 1 ≤ n →
    ∃ l', Lex.fetchTextLoop Lex.inTextBreakers n l acc false = some (acc ++ runesIn s, l') ∧ Lex.Ext l l' ∧ l'.pos = l.data.length ∧ l'.tokens = l.tokens ∧ l'.err = l.err
  | 0, _, _, _, _, _, _, _, h => by omega
  | n + 1, s, l, acc, hr, h0, hi, hd, hn => by
    obtain ⟨h1, h2, h3, h4, h5, h6, h7⟩ := Lex.read_spec hi
    have hx := Lex.read_ext hi
    by_cases hs : s = []
    · subst hs
      have hp : l.pos = l.data.length := by
        have := congrArg List.length hd
        have := hi.pos
        rw [List.length_drop] at *
        simp [quoteMeta] at *; omega
      have hpk := Lex.peek_end hp
      rw [hpk] at h1 h5
      refine ⟨l.read.2, ?_, hx, by rw [h5]; exact hp, h3, Lex.read_err (Or.inl hp)⟩
      simp only [Lex.fetchTextLoop]
      rw [if_pos h1]
      simp [runesIn, runesOf, runesAux]
    · rw [runesIn_cons hs] at hr h0 ⊢
      rw [List.mem_cons, not_or] at hr h0
      obtain ⟨r, w, hdec⟩ : ∃ r w, decodeRune s = (r, w) := ⟨_, _, rfl⟩
      rw [hdec] at hr h0
      simp only at hr h0
      obtain ⟨g1, g2, g3⟩ := decodeRune_local hdec (Ne.symm hr.1)
      have hw := (decodeRune_size s).2 hs
      have hws := (decodeRune_size s).1
      rw [hdec] at hw hws
      simp only at hw hws
      have hsplit : quoteMeta s = quoteMeta (s.take w) ++ quoteMeta (s.drop w) := by rw [← quoteMeta_append, List.take_append_drop]
      rw [hdec]
      simp only
      -- a rune that is not quoted
      have plain : quoteMeta (s.take w) = s.take w → r ∉ Lex.inTextBreakers ∧ r ≠ 92 →
          ∃ l', Lex.fetchTextLoop Lex.inTextBreakers (n + 1) l acc false = some (acc ++ r :: runesIn (s.drop w), l') ∧ Lex.Ext l l' ∧ l'.pos = l.data.length ∧
            l'.tokens = l.tokens ∧ l'.err = l.err := fun hq hb => by
        have hpk : l.peek.1 = (r, w) := Lex.peek_at (by rw [hd, hsplit, hq]; exact g2 _) (Ne.symm hr.1)
        have herr := Lex.read_err (l := l) (Or.inr (by rw [hd, hsplit, hq, g2]; exact Ne.symm hr.1))
        rw [hpk] at h1 h5
        simp only at h1 h5
        have hd' : l.read.2.data.drop l.read.2.pos = quoteMeta (s.drop w) := by
          rw [h2, h5, ← List.drop_drop, hd, hsplit, hq, List.drop_append_of_le_length (by rw [List.length_take]; omega), List.drop_take]
          simp
        obtain ⟨l', e, k1, k2, k3, k4⟩ := textLoop_quote n (s.drop w) l.read.2 (acc ++ [r]) hr.2 h0.2 hx.inv hd' (by
          rw [hsplit, hq, List.length_append, List.length_take] at hn; clear g3; omega)
        refine ⟨l', ?_, hx.trans k1, k2.trans (by rw [h2]), k3.trans h3, k4.trans herr⟩
        simp only [Lex.fetchTextLoop]
        rw [if_neg (by rw [h1]; exact fun e => h0.1 e.symm)]
        have hne : (!false && decide (l.read.1 = 92)) = false := by rw [h1]; simp [hb.2]
        have hnb : (!false && Lex.inTextBreakers.contains l.read.1) = false := by rw [h1]; simpa using hb.1
        simp only [hne, hnb, Bool.false_eq_true, if_false]
        rw [h1, e]
        simp
      rcases g3 with ⟨hlt, b, hb, hbr⟩ | ⟨hge, hhigh⟩
      · cases hsp : special b with
        | false => exact plain (by rw [hb]; simp [quoteMeta, hsp]) (by rw [← hbr]; exact not_special hsp)
        | true =>
          have hq : quoteMeta (s.take w) = [92, b] := by rw [hb]; simp [quoteMeta, hsp]
          have hdr : l.data.drop l.pos = 92 :: b :: quoteMeta (s.drop w) := by rw [hd, hsplit, hq]; rfl
          have hbl : b < 0x80 := by rw [UInt8.lt_iff_toNat_lt, hbr]; exact hlt
          have hpk : l.peek.1 = (92, 1) := Lex.peek_at (by rw [hdr]; exact decodeRune_ascii (by decide)) (by decide)
          have herr := Lex.read_err (l := l) (Or.inr (by rw [hdr, decodeRune_ascii (by decide)]; decide))
          rw [hpk] at h1 h5
          simp only at h1 h5
          have hdr1 : l.read.2.data.drop l.read.2.pos = b :: quoteMeta (s.drop w) := by
            rw [h2, h5, ← List.drop_drop, hdr]; rfl
          obtain ⟨k1, k2, k3, k4, k5, k6, k7⟩ := Lex.read_spec hx.inv
          have hx2 := Lex.read_ext hx.inv
          have hpk1 : l.read.2.peek.1 = (r, 1) := Lex.peek_at (by rw [hdr1, decodeRune_ascii hbl, hbr]) (Ne.symm hr.1)
          have herr1 := Lex.read_err (l := l.read.2) (Or.inr (by rw [hdr1, decodeRune_ascii hbl, hbr]; exact Ne.symm hr.1))
          rw [hpk1] at k1 k5
          simp only at k1 k5
          have hdr2 : l.read.2.read.2.data.drop l.read.2.read.2.pos = quoteMeta (s.drop w) := by
            rw [k2, k5, ← List.drop_drop, hdr1]; rfl
          obtain ⟨m, rfl⟩ : ∃ m, n = m + 1 := ⟨n - 1, by
            rw [hsplit, hq, List.length_append] at hn
            simp at hn; omega⟩
          obtain ⟨l', e, j1, j2, j3, j4⟩ := textLoop_quote m (s.drop w) l.read.2.read.2 (acc ++ [r]) hr.2 h0.2 hx2.inv hdr2 (by
            rw [hsplit, hq, List.length_append] at hn
            simp at hn; omega)
          refine ⟨l', ?_, (hx.trans hx2).trans j1, j2.trans (by rw [k2, h2]), (j3.trans k3).trans h3, (j4.trans herr1).trans herr⟩
          simp only [Lex.fetchTextLoop]
          rw [h1, k1]
          simp only [Bool.not_false, Bool.true_and, decide_true, if_true, Bool.not_true, Bool.false_and, Bool.false_eq_true, if_false, show ¬ (92 = 0) by decide]
          rw [if_neg (fun e => h0.1 e.symm), e]
          simp
      · have hnb : r ∉ Lex.inTextBreakers ∧ r ≠ 92 := by
          simp only [Lex.inTextBreakers, List.mem_cons, List.not_mem_nil, or_false, not_or]
          omega
        exact plain (quoteMeta_high hhigh) hnb

/-- The first rune of a quoted text starts a text. -/
theorem quote_first {s : Str} (hs : s ≠ []) (hr : runeError ∉ runesIn s) (h0 : 0 ∉ runesIn s) :
    ∃ r w, decodeRune (quoteMeta s) = (r, w) ∧ r ≠ runeError ∧ r ≠ 0 ∧ r ∉ Lex.inTextBreakers := by
  rw [runesIn_cons hs] at hr h0
  rw [List.mem_cons, not_or] at hr h0
  obtain ⟨r, w, hdec⟩ : ∃ r w, decodeRune s = (r, w) := ⟨_, _, rfl⟩
  rw [hdec] at hr h0
  simp only at hr h0
  obtain ⟨g1, g2, g3⟩ := decodeRune_local hdec (Ne.symm hr.1)
  have hsplit : quoteMeta s = quoteMeta (s.take w) ++ quoteMeta (s.drop w) := by rw [← quoteMeta_append, List.take_append_drop]
  rcases g3 with ⟨hlt, b, hb, hbr⟩ | ⟨hge, hhigh⟩
  · cases hsp : special b with
    | false =>
      have hq : quoteMeta (s.take w) = s.take w := by rw [hb]; simp [quoteMeta, hsp]
      exact ⟨r, w, by rw [hsplit, hq, g2], Ne.symm hr.1, Ne.symm h0.1, by rw [← hbr]; exact (not_special hsp).1⟩
    | true =>
      have hq : quoteMeta (s.take w) = [92, b] := by rw [hb]; simp [quoteMeta, hsp]
      exact ⟨92, 1, by rw [hsplit, hq]; exact decodeRune_ascii (by decide), by decide, by decide, by decide⟩
  · refine ⟨r, w, by rw [hsplit, quoteMeta_high hhigh, g2], Ne.symm hr.1, Ne.symm h0.1, ?_⟩
    simp only [Lex.inTextBreakers, List.mem_cons, List.not_mem_nil, or_false, not_or]
    omega

theorem next_eof {n : Nat} {l : Lex} (hi : l.Inv) (hp : l.pos = l.data.length) (ht : l.tokens = []) (he : l.err = none) :
    ∃ l', l.next (n + 2) = some (.ok .eof, l') := by
  obtain ⟨h1, h2, h3, h4, h5, h6, h7⟩ := Lex.read_spec hi
  rw [Lex.peek_end hp] at h1
  have e : l.fetchItem = some (l.read.2.push .eof) := by
    unfold Lex.fetchItem
    simp only [h1, if_true]
  have herr := Lex.read_err (l := l) (Or.inl hp)
  unfold Lex.next
  simp only [he, ht, e]
  unfold Lex.next
  have : (l.read.2.push .eof).err = none := by simp only [Lex.push]; rw [herr, he]
  have ht' : (l.read.2.push .eof).tokens = [.eof] := by simp only [Lex.push, h3, ht]; rfl
  rw [this, ht']
  exact ⟨_, rfl⟩

/-- The tree of a quoted text. -/
theorem parse_quote {s : Str} (hr : runeError ∉ runesIn s) (h0 : 0 ∉ runesIn s) : parse (quoteMeta s) = .ok (.pattern (if s = [] then [] else [.text s])) := by
  have hi : (newLexer (quoteMeta s)).Inv := ⟨by simp [newLexer], by simp [newLexer]⟩
  unfold parse
  by_cases hs : s = []
  · subst hs; rfl
  · rw [if_neg hs]
    obtain ⟨r, w, hdec, hre, hr0, hrb⟩ := quote_first hs hr h0
    obtain ⟨h1, h2, h3, h4, h5, h6, h7⟩ := Lex.read_spec hi
    have hpk : (newLexer (quoteMeta s)).peek.1 = (r, w) := Lex.peek_at (by exact hdec) hre
    rw [hpk] at h1
    simp only at h1
    obtain ⟨u1, u2, u3, u4⟩ := Lex.unread_spec hi
    have hue : (newLexer (quoteMeta s)).read.2.unread.err = none := by
      have := Lex.read_err (l := newLexer (quoteMeta s)) (Or.inr (by show (decodeRune (quoteMeta s)).1 ≠ _; rw [hdec]; exact hre))
      unfold Lex.unread
      rw [h6]
      exact this
    obtain ⟨l', e, k1, k2, k3, k4⟩ := textLoop_quote ((newLexer (quoteMeta s)).read.2.unread.data.length + 2) s (newLexer (quoteMeta s)).read.2.unread [] hr h0 u1.inv
      (by rw [u1.data, u2]; rfl) (by rw [u1.data]; simp [newLexer])
    have hen := encode_runes s.length s (Nat.le_refl _) hr
    have hlen : 0 < (runesIn s).length := by rw [runesIn_cons hs]; simp
    have hft : (newLexer (quoteMeta s)).read.2.unread.fetchText Lex.inTextBreakers = some (l'.push (.text s)) := by
      unfold Lex.fetchText
      rw [e]
      simp only [List.nil_append]
      rw [if_pos hlen, hen]
    have hfi : (newLexer (quoteMeta s)).fetchItem = some (l'.push (.text s)) := by
      simp only [Lex.inTextBreakers, List.mem_cons, List.not_mem_nil, or_false, not_or] at hrb
      unfold Lex.fetchItem
      simp only [h1]
      have hit : (newLexer (quoteMeta s)).read.2.inTerms = false := by unfold Lex.inTerms; rw [h4]; rfl
      have hit' : (newLexer (quoteMeta s)).read.2.unread.inTerms = false := by unfold Lex.inTerms; rw [u1.level]; rfl
      rw [if_neg hr0, if_neg hrb.2.2.2, hit, hit']
      simp only [Bool.and_false, Bool.false_eq_true, if_false]
      rw [if_neg hrb.2.2.1, if_neg hrb.1, if_neg hrb.2.1, hft]
    have herr : (l'.push (.text s)).err = none := by simp only [Lex.push]; rw [k4, hue]
    have htk : (l'.push (.text s)).tokens = [.text s] := by simp only [Lex.push]; rw [k3, u3]; rfl
    have hnext : ∀ n, (newLexer (quoteMeta s)).next (n + 2) = some (.ok (.text s), { l'.push (.text s) with tokens := [] }) := by
      intro n
      unfold Lex.next
      have a1 : (newLexer (quoteMeta s)).err = none := rfl
      have a2 : (newLexer (quoteMeta s)).tokens = [] := rfl
      simp only [a1, a2, hfi]
      unfold Lex.next
      simp only [herr, htk]
    obtain ⟨l2, hl2⟩ := next_eof (n := (quoteMeta s).length) (l := { l'.push (.text s) with tokens := [] })
      (k1.inv.same rfl rfl rfl rfl rfl) (by simp only [Lex.push]; rw [k2, k1.data]) rfl herr
    rw [show 7 * (quoteMeta s).length + 8 = 7 * (quoteMeta s).length + 7 + 1 from rfl, parseMain, hnext]
    simp only
    rw [parseMain, hl2]
    rfl

/-- C56: for every text `s` of valid UTF-8 without U+0000 and U+FFFD (a byte that is not valid is read as U+FFFD), `Compile(QuoteMeta(s))` succeeds with any
separators, and the result matches exactly `s`. -/
theorem C56_quote_meta (s : Str) (hv : validUtf8 s = true) (h0 : 0 ∉ runesIn s) (hr : 0xFFFD ∉ runesIn s) (seps : List Nat) :
    ∃ m, globCompile (quoteMeta s) seps = .ok m ∧ ∀ t, m.match t = some (decide (t = s)) := by
  unfold globCompile
  rw [parse_quote hr h0]
  by_cases hs : s = []
  · subst hs
    refine ⟨.nothing, rfl, fun t => ?_⟩
    rw [Matcher.match]
    cases t <;> rfl
  · rw [if_neg hs]
    refine ⟨.text s, ?_, fun t => ?_⟩
    · rfl
    · rw [Matcher.match]
      simp only [eq_comm]

/-- The hypotheses are met by a text with all special characters and a rune of two bytes, and the quoted text is longer. -/
theorem C56_case : let s := lit "a*?\\[]{},! " ++ [0xC3, 0xA9]; validUtf8 s = true ∧ 0 ∉ runesIn s ∧ 0xFFFD ∉ runesIn s ∧ (quoteMeta s).length = s.length + 7 := by decide +kernel

/-- Without the condition it fails: the pattern ends at U+0000, so that `a\x00b` matches `a` followed by nothing. -/
theorem C56_nul_false : (match globCompile (quoteMeta [97, 0, 98]) [] with
    | .ok m => (m.match [97, 0, 98], m.match [97, 98])
    | _ => (none, none)) = (some false, some true) := by decide +kernel

end Verif.Glob
