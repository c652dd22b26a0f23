import Verif.Glob.LexProps
/-
How many steps reading a pattern takes: every call of a method of the lexer (lexer.go: `Next`, `fetchItem`, `fetchRange`, `fetchText`, `read`, `peek`, `unread`), of
`parserMain` and of `parserRange` is a step, and so is every iteration of a loop of these functions. The functions follow those of `Verif.Glob.Syntax`.
-/
namespace Verif.Glob
namespace Lex

/-- lexer.go:105-119 `read`: itself and `peek`, which it calls if no rune was put back. -/
def readSteps (l : Lex) : Nat := if l.hasRune then 1 else 2

/-- lexer.go:247-270: the loop of `fetchText`. -/
def fetchTextLoopSteps (breakers : List Nat) : Nat → Lex → Bool → Nat
  | 0, _, _ => 0
  | n + 1, l, escaped =>
    let rl := l.read
    1 + l.readSteps + (if rl.1 = 0 then 0
    else if !escaped && rl.1 = 92 then fetchTextLoopSteps breakers n rl.2 true
    else if !escaped && breakers.contains rl.1 then 1
    else fetchTextLoopSteps breakers n rl.2 false)

/-- lexer.go:244-274 `fetchText`. -/
def fetchTextSteps (l : Lex) (breakers : List Nat) : Nat := 1 + fetchTextLoopSteps breakers (l.data.length + 2) l false

/-- lexer.go:198-242 `fetchRange`: the loop. -/
def fetchRangeLoopSteps : Nat → Lex → Bool → Bool → Bool → Nat
  | 0, _, _, _, _ => 0
  | n + 1, l, wantHi, wantClose, seenNot =>
    let c := l.readSteps
    let rl := l.read
    let r := rl.1
    let l := rl.2
    1 + c + (if r = 0 then 0
    else if wantClose then 0
    else if wantHi then fetchRangeLoopSteps n (l.push (.rangeHi (encodeRune r))) wantHi true seenNot
    else if !seenNot && r = 33 then fetchRangeLoopSteps n (l.push .not) wantHi wantClose true
    else
      let p := l.peek
      let l := p.2
      if p.1.1 = 45 then
        1 + fetchRangeLoopSteps n ((({ l with pos := l.pos + p.1.2 } : Lex).push (.rangeLo (encodeRune r))).push .rangeBetween) true wantClose seenNot
      else 2 + l.unread.fetchTextSteps [93] + match l.unread.fetchText [93] with
        | none => 0
        | some l => fetchRangeLoopSteps n l wantHi true seenNot)

/-- lexer.go:198-242 `fetchRange`. -/
def fetchRangeSteps (l : Lex) : Nat := 1 + fetchRangeLoopSteps 6 l false false false

/-- lexer.go:153-196 `fetchItem`. -/
def fetchItemSteps (l : Lex) : Nat :=
  let c := l.readSteps
  let rl := l.read
  let r := rl.1
  let l := rl.2
  1 + c + (if r = 0 then 0
  else if r = 123 then 0
  else if r = 44 && l.inTerms then 0
  else if r = 125 && l.inTerms then 0
  else if r = 91 then (l.push .rangeOpen).fetchRangeSteps
  else if r = 63 then 0
  else if r = 42 then l.readSteps + (if l.read.1 = 42 then 0 else 1)
  else
    let l := l.unread
    1 + l.fetchTextSteps (if l.inTerms then inTermsBreakers else inTextBreakers))

/-- lexer.go:78-88 `Next`. -/
def nextSteps : Nat → Lex → Nat
  | 0, _ => 0
  | n + 1, l => 1 + match l.err with
    | some _ => 0
    | none => match l.tokens with
      | _ :: _ => 0
      | [] => l.fetchItemSteps + match l.fetchItem with
        | none => 0
        | some l => nextSteps n l

end Lex

/-- ast/parser.go:90-158 `parserRange`: the iterations with their calls of `Next`. -/
def parseRangeSteps (depth : Nat) : Nat → Lex → Bool → Nat → Nat → Str → Nat
  | 0, _, _, _, _, _ => 0
  | n + 1, l, not, lo, hi, chars =>
    1 + l.nextSteps depth + match l.next depth with
    | none => 0
    | some (.error _, _) => 0
    | some (.ok t, l) => match t with
      | .eof => 0
      | .not => parseRangeSteps depth n l true lo hi chars
      | .rangeLo raw =>
        let rw := decodeRune raw
        if raw.length > rw.2 then 0 else parseRangeSteps depth n l not rw.1 hi chars
      | .rangeHi raw =>
        let rw := decodeRune raw
        if raw.length > rw.2 then 0
        else if rw.1 < lo then 0
        else parseRangeSteps depth n l not lo rw.1 chars
      | .text raw => parseRangeSteps depth n l not lo hi raw
      | .rangeClose => 0
      | _ => parseRangeSteps depth n l not lo hi chars

/-- ast/parser.go:17-88 `Parse` and `parserMain`: the iterations, with a call of a function of the parser and the calls of `Next` for each. -/
def parseMainSteps (depth : Nat) : Nat → Lex → List Frame → List Node → Nat
  | 0, _, _, _ => 0
  | n + 1, l, fs, cur =>
    2 + l.nextSteps depth + match l.next depth with
    | none => 0
    | some (.error _, _) => 0
    | some (.ok t, l) => match t with
      | .eof => 0
      | .text raw => parseMainSteps depth n l fs (cur ++ [.text raw])
      | .any => parseMainSteps depth n l fs (cur ++ [.any])
      | .super => parseMainSteps depth n l fs (cur ++ [.super])
      | .single => parseMainSteps depth n l fs (cur ++ [.single])
      | .rangeOpen => 1 + parseRangeSteps depth (n + 1) l false 0 0 [] + match parseRange depth (n + 1) l false 0 0 [] with
        | .ok (node, l) => parseMainSteps depth n l fs (cur ++ [node])
        | _ => 0
      | .termsOpen => parseMainSteps depth n l (⟨[], cur⟩ :: fs) []
      | .separator => match fs with
        | [] => 0
        | f :: fs => parseMainSteps depth n l (⟨f.alts ++ [.pattern cur], f.outer⟩ :: fs) []
      | .termsClose => match fs with
        | [] => 0
        | f :: fs => parseMainSteps depth n l fs (f.outer ++ [.anyOf (f.alts ++ [.pattern cur])])
      | _ => 0

/-- syntax/syntax.go:8-10 `Parse`. -/
def parseSteps (s : Str) : Nat := parseMainSteps (s.length + 2) (7 * s.length + 8) (newLexer s) [] []

namespace Lex

theorem readSteps_le (l : Lex) : l.readSteps ≤ 2 := by unfold readSteps; split <;> omega

theorem fetchTextLoopSteps_le (breakers : List Nat) : ∀ (n : Nat) (l : Lex) (data : List Nat) (escaped : Bool), l.Inv → ∀ data' l',
    fetchTextLoop breakers n l data escaped = some (data', l') → fetchTextLoopSteps breakers n l escaped + 3 * l.pos ≤ 3 * l'.pos + 4
  | 0, _, _, _, _, _, _, h => by cases h
  | n + 1, l, data, escaped, hi, data', l', h => by
    obtain ⟨h1, h2, h3, h4, h5, h6, h7⟩ := read_spec hi
    have hb := peek_bounds hi.pos
    have he := read_ext hi
    have hc := l.readSteps_le
    simp only [fetchTextLoop] at h
    simp only [fetchTextLoopSteps]
    by_cases h0 : l.read.1 = 0
    · rw [if_pos h0] at h ⊢
      simp only [Option.some.injEq, Prod.mk.injEq] at h
      have := he.le
      rw [← h.2]; omega
    · rw [if_neg h0] at h ⊢
      have hw := hb.2 (by rw [← h1]; exact h0)
      by_cases c1 : (!escaped && decide (l.read.1 = 92)) = true
      · rw [if_pos c1] at h ⊢
        have := fetchTextLoopSteps_le breakers n l.read.2 _ true he.inv _ _ h
        omega
      · rw [if_neg c1] at h ⊢
        by_cases c2 : (!escaped && breakers.contains l.read.1) = true
        · rw [if_pos c2] at h ⊢
          simp only [Option.some.injEq, Prod.mk.injEq] at h
          have := (unread_spec hi).2.1
          rw [← h.2]; omega
        · rw [if_neg c2] at h ⊢
          have := fetchTextLoopSteps_le breakers n l.read.2 _ false he.inv _ _ h
          omega

theorem fetchTextSteps_le {l l' : Lex} (hi : l.Inv) (breakers : List Nat) (h : l.fetchText breakers = some l') : l.fetchTextSteps breakers + 3 * l.pos ≤ 3 * l'.pos + 5 := by
  unfold fetchText at h
  cases hl : fetchTextLoop breakers (l.data.length + 2) l [] false with
  | none => rw [hl] at h; cases h
  | some p =>
    obtain ⟨d, l1⟩ := p
    rw [hl] at h
    have := fetchTextLoopSteps_le breakers _ l [] false hi _ _ hl
    simp only [Option.some.injEq] at h
    have hp : l'.pos = l1.pos := by rw [← h]; split <;> rfl
    unfold fetchTextSteps
    omega

theorem fetchRangeLoopSteps_le : ∀ (n : Nat) (l : Lex) (a b c : Bool), l.Inv → ∀ l', fetchRangeLoop n l a b c = some l' →
    fetchRangeLoopSteps n l a b c + 3 * l.pos ≤ 3 * l'.pos + 10 * n ∧ l.pos ≤ l'.pos
  | 0, _, _, _, _, _, _, h => by cases h
  | n + 1, l, wantHi, wantClose, seenNot, hi, l', h => by
    obtain ⟨h1, h2, h3, h4, h5, h6, h7⟩ := read_spec hi
    have hx := read_ext hi
    have hc := l.readSteps_le
    have hle := hx.le
    simp only [fetchRangeLoop] at h
    simp only [fetchRangeLoopSteps]
    by_cases h0 : l.read.1 = 0
    · rw [if_pos h0] at h ⊢
      simp only [Option.some.injEq] at h
      have : l'.pos = l.read.2.pos := by rw [← h]
      omega
    · rw [if_neg h0] at h ⊢
      by_cases c1 : wantClose = true
      · rw [if_pos c1] at h ⊢
        have : l'.pos = l.read.2.pos := by
          split at h <;> simp only [Option.some.injEq] at h <;> rw [← h] <;> rfl
        omega
      · rw [if_neg c1] at h ⊢
        by_cases c2 : wantHi = true
        · rw [if_pos c2] at h ⊢
          have := fetchRangeLoopSteps_le n _ _ _ _ (hx.push _).inv _ h
          have e : (l.read.2.push (.rangeHi (encodeRune l.read.1))).pos = l.read.2.pos := rfl
          omega
        · rw [if_neg c2] at h ⊢
          by_cases c3 : (!seenNot && decide (l.read.1 = 33)) = true
          · rw [if_pos c3] at h ⊢
            have := fetchRangeLoopSteps_le n _ _ _ _ (hx.push _).inv _ h
            have e : (l.read.2.push .not).pos = l.read.2.pos := rfl
            omega
          · rw [if_neg c3] at h ⊢
            have hp : Ext l l.read.2.peek.2 := by rw [peek_snd]; exact hx.err _
            by_cases c4 : l.read.2.peek.1.1 = 45
            · rw [if_pos c4] at h ⊢
              have hb := peek_bounds hx.inv.pos
              have hq : Ext l { l.read.2.peek.2 with pos := l.read.2.peek.2.pos + l.read.2.peek.1.2 } := by
                have hd : l.read.2.peek.2.data = l.read.2.data := by rw [peek_snd]
                have hpos : l.read.2.peek.2.pos = l.read.2.pos := by rw [peek_snd]
                have hhas : l.read.2.peek.2.hasRune = false := by rw [peek_snd]; exact h6
                refine ⟨⟨?_, ?_⟩, hp.data, hp.level, ?_⟩
                · simp only [hpos, hd]; exact hb.1
                · intro hr; simp only [hhas] at hr; cases hr
                · have := hp.le; simp only; omega
              have hinv := ((hq.push (.rangeLo (encodeRune l.read.1))).push .rangeBetween).inv
              have e : ((({ l.read.2.peek.2 with pos := l.read.2.peek.2.pos + l.read.2.peek.1.2 } : Lex).push (.rangeLo (encodeRune l.read.1))).push .rangeBetween).pos =
                l.read.2.peek.2.pos + l.read.2.peek.1.2 := rfl
              generalize ((({ l.read.2.peek.2 with pos := l.read.2.peek.2.pos + l.read.2.peek.1.2 } : Lex).push (.rangeLo (encodeRune l.read.1))).push .rangeBetween) = st at *
              have := fetchRangeLoopSteps_le n _ _ _ _ hinv _ h
              have hple := hp.le
              omega
            · rw [if_neg c4] at h ⊢
              have hu : l.read.2.peek.2.unread = { l.read.2.unread with err := l.read.2.peek.2.err } := by
                rw [peek_snd]
                unfold unread
                simp [h6]
              obtain ⟨u1, u2, u3, u4⟩ := unread_spec hi
              have hui := u1.err (l.read.2.peek.2.err)
              rw [hu] at h ⊢
              obtain ⟨l1, e, g1, g2, _⟩ := fetchText_spec hui.inv [93]
              have ht := fetchTextSteps_le hui.inv [93] e
              rw [e] at h ⊢
              simp only at h ⊢
              have := fetchRangeLoopSteps_le n _ _ _ _ g1.inv _ h
              have hle1 := g1.le
              simp only at ht hle1 this ⊢
              omega

theorem fetchItemSteps_le {l l' : Lex} (hi : l.Inv) (h : l.fetchItem = some l') : l.fetchItemSteps + 3 * l.pos ≤ 3 * l'.pos + 64 ∧ l.pos ≤ l'.pos := by
  obtain ⟨h1, h2, h3, h4, h5, h6, h7⟩ := read_spec hi
  have hx := read_ext hi
  have hc := l.readSteps_le
  have hle := hx.le
  simp only [fetchItem] at h
  simp only [fetchItemSteps]
  by_cases c0 : l.read.1 = 0
  · rw [if_pos c0] at h ⊢
    cases h
    simp only [push]; omega
  · rw [if_neg c0] at h ⊢
    by_cases c1 : l.read.1 = 123
    · rw [if_pos c1] at h ⊢
      cases h
      simp only [push]; omega
    · rw [if_neg c1] at h ⊢
      by_cases c2 : (decide (l.read.1 = 44) && l.read.2.inTerms) = true
      · rw [if_pos c2] at h ⊢
        cases h
        simp only [push]; omega
      · rw [if_neg c2] at h ⊢
        by_cases c3 : (decide (l.read.1 = 125) && l.read.2.inTerms) = true
        · rw [if_pos c3] at h ⊢
          cases h
          simp only [push]; omega
        · rw [if_neg c3] at h ⊢
          by_cases c4 : l.read.1 = 91
          · rw [if_pos c4] at h ⊢
            have := fetchRangeLoopSteps_le 6 _ _ _ _ (hx.push .rangeOpen).inv _ h
            have e : (l.read.2.push .rangeOpen).pos = l.read.2.pos := rfl
            unfold fetchRangeSteps
            omega
          · rw [if_neg c4] at h ⊢
            by_cases c5 : l.read.1 = 63
            · rw [if_pos c5] at h ⊢
              cases h
              simp only [push]; omega
            · rw [if_neg c5] at h ⊢
              by_cases c6 : l.read.1 = 42
              · rw [if_pos c6] at h ⊢
                have hc2 := l.read.2.readSteps_le
                have hx2 := (read_ext hx.inv).le
                have hu := (unread_spec hx.inv).2.1
                by_cases c7 : l.read.2.read.1 = 42
                · rw [if_pos c7] at h ⊢
                  cases h
                  simp only [push]; omega
                · rw [if_neg c7] at h ⊢
                  cases h
                  simp only [push]; omega
              · rw [if_neg c6] at h ⊢
                obtain ⟨u1, u2, u3, u4⟩ := unread_spec hi
                have ht := fetchTextSteps_le u1.inv _ h
                obtain ⟨l1, e, g1, g2, _⟩ := fetchText_spec u1.inv (if l.read.2.unread.inTerms then inTermsBreakers else inTextBreakers)
                rw [e] at h
                cases h
                have := g1.le
                omega

theorem nextSteps_le : ∀ (n : Nat) (l : Lex), l.Inv → l.tokens = [] → ∀ res l', l.next n = some (res, l') → l.nextSteps n + 69 * l.pos ≤ 69 * l'.pos + 66 ∧ l.pos ≤ l'.pos ∧ l'.pos ≤ l.data.length
  | 0, _, _, _, _, _, h => by cases h
  | n + 1, l, hi, ht, res, l', h => by
    have hpos := hi.pos
    unfold next at h
    unfold nextSteps
    cases he : l.err with
    | some e =>
      rw [he] at h
      simp only [Option.some.injEq, Prod.mk.injEq] at h
      rw [← h.2]
      simp only; omega
    | none =>
      simp only [he, ht] at h ⊢
      obtain ⟨l1, e1, g1, g2, g3⟩ := fetchItem_spec hi ht
      have hs := fetchItemSteps_le hi e1
      have hpos1 := g1.pos
      rw [g2] at hpos1
      rw [e1] at h ⊢
      simp only at h ⊢
      cases n with
      | zero => cases h
      | succ n =>
        unfold next at h
        cases he1 : l1.err with
        | some e =>
          rw [he1] at h
          simp only [Option.some.injEq, Prod.mk.injEq] at h
          rw [nextSteps, he1, ← h.2]
          simp only; omega
        | none =>
          cases hk : l1.tokens with
          | cons t ts =>
            simp only [he1, hk, Option.some.injEq, Prod.mk.injEq] at h
            rw [nextSteps, he1, hk, ← h.2]
            simp only; omega
          | nil =>
            rw [hk] at g3
            rcases g3 with g3 | g3
            · exact absurd he1 g3
            · cases g3 with
              | none p1 p2 =>
                have := nextSteps_le (n + 1) l1 g1 hk res l' (by unfold next; exact h)
                rw [g2] at this
                omega

end Lex

theorem nextSteps_queue {n : Nat} {l : Lex} (h : l.tokens ≠ [] ∨ l.err ≠ none) : l.nextSteps (n + 1) = 1 := by
  rw [Lex.nextSteps]
  cases he : l.err with
  | some e => rfl
  | none =>
    cases hk : l.tokens with
    | nil => rcases h with h | h <;> simp_all
    | cons t ts => rfl

theorem parseRangeSteps_le (depth : Nat) : ∀ (pre : List Tok) (n : Nat) (l : Lex) (not : Bool) (lo hi : Nat) (chars : Str), pre.all Lex.body = true →
    l.tokens = pre ++ [.rangeClose] → l.err = none → parseRangeSteps (depth + 1) n l not lo hi chars ≤ 2 * pre.length + 2
  | _, 0, _, _, _, _, _, _, _, _ => by simp [parseRangeSteps]
  | [], n + 1, l, not, lo, hi, chars, _, ht, he => by
    have hq : l.nextSteps (depth + 1) = 1 := nextSteps_queue (Or.inl (by rw [ht]; simp))
    rw [parseRangeSteps, hq]
    simp only [Lex.next, he, ht, List.nil_append]
    simp
  | t :: pre, n + 1, l, not, lo, hi, chars, hb, ht, he => by
    have hq : l.nextSteps (depth + 1) = 1 := nextSteps_queue (Or.inl (by rw [ht]; simp))
    rw [List.all_cons, Bool.and_eq_true] at hb
    rw [parseRangeSteps, hq]
    obtain ⟨d, p, er, tk, lv, lr, ls, hr⟩ := l
    simp only at ht he
    subst ht he
    have ih := fun not lo hi chars => parseRangeSteps_le depth pre n ⟨d, p, none, pre ++ [.rangeClose], lv, lr, ls, hr⟩ not lo hi chars hb.2 rfl rfl
    simp only [Lex.next, List.cons_append]
    cases t <;> simp only [Lex.body, Bool.false_eq_true] at hb <;> simp only [List.length_cons]
    all_goals try (exact hb.1.elim)
    · rename_i raw
      have := ih not lo hi raw
      omega
    · have := ih true lo hi chars
      omega
    · rename_i raw
      split
      · omega
      · have := ih not (decodeRune raw).1 hi chars
        omega
    · rename_i raw
      split
      · omega
      · split
        · omega
        · have := ih not lo (decodeRune raw).1 chars
          omega
    · have := ih not lo hi chars
      omega

theorem parseRange_rest (depth : Nat) (pre : List Tok) (n : Nat) (l : Lex) (not : Bool) (lo hi : Nat) (chars : Str) (hb : pre.all Lex.body = true)
    (ht : l.tokens = pre ++ [.rangeClose]) (he : l.err = none) (hn : pre.length + 1 ≤ n) {node : Node} {l2 : Lex} (h : parseRange (depth + 1) n l not lo hi chars = .ok (node, l2)) :
    l2 = { l with tokens := [] } := by
  rcases parseRange_spec depth pre n l not lo hi chars hb ht he hn with ⟨er, h'⟩ | ⟨node', h'⟩
  · rw [h] at h'; cases h'
  · rw [h] at h'
    simp only [Res.ok.injEq, Prod.mk.injEq] at h'
    exact h'.2

theorem parseMainSteps_le (depth : Nat) : ∀ (n : Nat) (l : Lex) (fs : List Frame) (cur : List Node), l.Inv → l.tokens = [] → l.data.length - l.pos + 8 ≤ n → l.data.length + 2 ≤ depth →
    parseMainSteps depth n l fs cur ≤ 148 * (l.data.length - l.pos) + 137
  | 0, _, _, _, _, _, _, _ => by simp [parseMainSteps]
  | n + 1, l, fs, cur, hi, ht, hn, hd => by
    obtain ⟨res, l', e, g⟩ := Lex.next_spec depth l hi ht (by omega)
    have hs := Lex.nextSteps_le depth l hi ht _ _ e
    have hp' := hi.pos
    rw [parseMainSteps, e]
    rcases g with ⟨er, rfl⟩ | ⟨tok, ts, rfl, r2, r3, r4, r5, r8⟩
    · simp only
      omega
    · simp only
      have hp2 := r3.pos
      rw [r4] at hp2
      have go : ∀ (l'' : Lex) (fs' : List Frame) (cur' : List Node), l''.Inv → l''.tokens = [] → l''.data = l.data → l''.pos = l'.pos → l.pos < l'.pos →
          2 + l.nextSteps depth + 11 + parseMainSteps depth n l'' fs' cur' ≤ 148 * (l.data.length - l.pos) + 137 := by
        intro l'' fs' cur' q1 q2 q3 q4 q5
        have := parseMainSteps_le depth n l'' fs' cur' q1 q2 (by rw [q3, q4]; omega) (by rw [q3]; omega)
        rw [q3, q4] at this
        omega
      generalize hts : tok :: ts = tts at r8
      cases r8 with
      | eof =>
        simp only [List.cons.injEq] at hts
        obtain ⟨rfl, rfl⟩ := hts
        simp only
        omega
      | none => cases hts
      | leaf t' q0 q1 q2 =>
        simp only [List.cons.injEq] at hts
        obtain ⟨rfl, rfl⟩ := hts
        cases tok <;> simp only [Lex.leaf, Bool.false_eq_true] at q0
        all_goals
          simp only
          have := fun x => go l' fs (cur ++ [x]) r3 r2 r4 rfl q1
          refine le_trans (Nat.add_le_add_right (Nat.le_add_right _ 11) _) (this _)
      | opens q1 q2 =>
        simp only [List.cons.injEq] at hts
        obtain ⟨rfl, rfl⟩ := hts
        exact le_trans (Nat.add_le_add_right (Nat.le_add_right _ 11) _) (go l' _ _ r3 r2 r4 rfl q1)
      | sep q1 q2 q3 =>
        simp only [List.cons.injEq] at hts
        obtain ⟨rfl, rfl⟩ := hts
        cases fs with
        | nil => simp only; omega
        | cons f fs => exact le_trans (Nat.add_le_add_right (Nat.le_add_right _ 11) _) (go l' _ _ r3 r2 r4 rfl q1)
      | closes q1 q2 =>
        simp only [List.cons.injEq] at hts
        obtain ⟨rfl, rfl⟩ := hts
        cases fs with
        | nil => simp only; omega
        | cons f fs => exact le_trans (Nat.add_le_add_right (Nat.le_add_right _ 11) _) (go l' _ _ r3 r2 r4 rfl q1)
      | range pre q1 q2 q3 q4 =>
        simp only [List.cons.injEq] at hts
        obtain ⟨rfl, rfl⟩ := hts
        simp only
        obtain ⟨m, rfl⟩ : ∃ m, depth = m + 1 := ⟨depth - 1, by omega⟩
        have hrs := parseRangeSteps_le m pre (n + 1) l' false 0 0 [] q3 r2 r5
        cases hr : parseRange (m + 1) (n + 1) l' false 0 0 [] with
        | err e => simp only; omega
        | panic => simp only; omega
        | steps => simp only; omega
        | ok p =>
          obtain ⟨node, l2⟩ := p
          simp only
          have hl2 : l2 = { l' with tokens := [] } := parseRange_rest m pre (n + 1) l' false 0 0 [] q3 r2 r5 (by omega) hr
          have := go l2 fs (cur ++ [node]) (by rw [hl2]; exact r3.same rfl rfl rfl rfl rfl) (by rw [hl2]) (by rw [hl2]; exact r4) (by rw [hl2]) q1
          omega

/-- C142: reading a pattern takes at most `148 |p| + 137` steps. -/
theorem C142_parse (p : Str) : parseSteps p ≤ 148 * p.length + 137 :=
  parseMainSteps_le _ _ _ _ _ ⟨by simp [newLexer], by simp [newLexer]⟩ rfl (by simp [newLexer]; omega) (by simp [newLexer])

end Verif.Glob
