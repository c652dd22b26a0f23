import Verif.Glob.Reader
import Verif.Glob.Quote
import Verif.Glob.Split
import Verif.Glob.DocParse
/-
C139: the lexer and the parser read every pattern as `readPattern` does.
-/
namespace Verif.Glob

/-- The lexer has read up to the runes `rs`, without an error; the tokens `tk` are in the queue. -/
structure RAt (l : Lex) (rs : List Nat) (tk : List Tok) (lv : Nat) : Prop where
  inv : l.Inv
  err : l.err = none
  tokens : l.tokens = tk
  rest : runesIn (l.data.drop l.pos) = rs
  level : l.termsLevel = lv
  fresh : l.hasRune = true → rs.head? ≠ some runeError

theorem runesIn_nil_iff {s : Str} : runesIn s = [] ↔ s = [] := by
  constructor
  · intro h
    by_contra hs
    rw [runesIn_cons hs] at h; cases h
  · rintro rfl; rfl

namespace RAt
variable {l : Lex} {rs : List Nat} {tk : List Tok} {lv c : Nat}

theorem pos_end (h : RAt l [] tk lv) : l.pos = l.data.length := by
  have h1 := runesIn_nil_iff.1 h.rest
  have := congrArg List.length h1
  have := h.inv.pos
  simp at *; omega

theorem decode (h : RAt l (c :: rs) tk lv) : l.data.drop l.pos ≠ [] ∧ (decodeRune (l.data.drop l.pos)).1 = c ∧
    runesIn (l.data.drop (l.pos + (decodeRune (l.data.drop l.pos)).2)) = rs := by
  have hne : l.data.drop l.pos ≠ [] := by
    intro he
    have := h.rest
    rw [he] at this; cases this
  have h1 := h.rest
  rw [runesIn_cons hne] at h1
  injection h1 with h2 h3
  exact ⟨hne, h2, by rw [← List.drop_drop]; exact h3⟩

theorem read_end (h : RAt l [] tk lv) : l.read.1 = 0 ∧ RAt l.read.2 [] tk lv ∧ RAt l.read.2.unread [] tk lv := by
  obtain ⟨h1, h2, h3, h4, h5, h6, h7⟩ := Lex.read_spec h.inv
  have hx := Lex.read_ext h.inv
  rw [Lex.peek_end h.pos_end] at h1 h5
  have he : l.read.2.err = none := by rw [Lex.read_err (Or.inl h.pos_end), h.err]
  obtain ⟨u1, u2, u3, u4⟩ := Lex.unread_spec h.inv
  refine ⟨h1, ⟨hx.inv, he, h3.trans h.tokens, by rw [h2, h5]; exact h.rest, h4.trans h.level, fun _ => by simp⟩,
    ⟨u1.inv, ?_, u3.trans h.tokens, by rw [u1.data, u2]; exact h.rest, u1.level.trans h.level, fun _ => by simp⟩⟩
  unfold Lex.unread
  rw [h6]; exact he

theorem read (h : RAt l (c :: rs) tk lv) (hc : c ≠ runeError) :
    l.read.1 = c ∧ RAt l.read.2 rs tk lv ∧ RAt l.read.2.unread (c :: rs) tk lv ∧ l.read.2.hasRune = false := by
  obtain ⟨h1, h2, h3, h4, h5, h6, h7⟩ := Lex.read_spec h.inv
  have hx := Lex.read_ext h.inv
  obtain ⟨d1, d2, d3⟩ := h.decode
  have hd : decodeRune (l.data.drop l.pos) = (c, (decodeRune (l.data.drop l.pos)).2) := by rw [← d2]
  have hp := Lex.peek_at hd hc
  rw [hp] at h1 h5
  have he : l.read.2.err = none := by rw [Lex.read_err (Or.inr (by rw [d2]; exact hc)), h.err]
  obtain ⟨u1, u2, u3, u4⟩ := Lex.unread_spec h.inv
  refine ⟨h1, ⟨hx.inv, he, h3.trans h.tokens, by rw [h2, h5]; exact d3, h4.trans h.level, fun hh => by rw [h6] at hh; cases hh⟩,
    ⟨u1.inv, ?_, u3.trans h.tokens, by rw [u1.data, u2]; exact h.rest, u1.level.trans h.level, fun _ => by simpa using hc⟩, h6⟩
  unfold Lex.unread
  rw [h6]; exact he

theorem not_end (h : RAt l (c :: rs) tk lv) : l.pos ≠ l.data.length := by
  intro he
  apply h.decode.1
  rw [he, List.drop_length]

theorem peek_bad (h : RAt l (runeError :: rs) tk lv) : l.peek.1 = (0, 0) ∧ l.peek.2.err ≠ none := by
  unfold Lex.peek
  rw [if_neg h.not_end]
  simp only [h.decode.2.1, if_true]
  exact ⟨trivial, by simp⟩

theorem read_bad (h : RAt l (runeError :: rs) tk lv) : l.read.1 = 0 ∧ l.read.2.err ≠ none := by
  have hh : l.hasRune = false := by
    cases hr : l.hasRune with
    | false => rfl
    | true => exact absurd rfl (h.fresh hr)
  unfold Lex.read
  simp only [hh, Bool.false_eq_true, if_false]
  obtain ⟨h1, h2⟩ := h.peek_bad
  exact ⟨by rw [h1], h2⟩

theorem peek_end (h : RAt l [] tk lv) : l.peek = ((0, 0), l) := by
  unfold Lex.peek; rw [if_pos h.pos_end]

theorem peek (h : RAt l (c :: rs) tk lv) (hc : c ≠ runeError) :
    l.peek = ((c, (decodeRune (l.data.drop l.pos)).2), l) := by
  unfold Lex.peek
  rw [if_neg h.not_end]
  simp only [h.decode.2.1, if_neg hc]
  rw [← h.decode.2.1]

theorem seek (h : RAt l (c :: rs) tk lv) (hh : l.hasRune = false) :
    RAt { l with pos := l.pos + (decodeRune (l.data.drop l.pos)).2 } rs tk lv := by
  have hsz := (decodeRune_size (l.data.drop l.pos)).1
  rw [List.length_drop] at hsz
  have := h.inv.pos
  refine ⟨⟨by simp only; omega, fun h1 => ?_⟩, h.err, h.tokens, h.decode.2.2, h.level, fun h1 => ?_⟩
  · simp only [hh] at h1; cases h1
  · simp only [hh] at h1; cases h1

theorem push (h : RAt l rs tk lv) (t : Tok) : RAt (l.push t) rs (tk ++ [t]) lv :=
  ⟨h.inv.same rfl rfl rfl rfl rfl, h.err, by simp [Lex.push, h.tokens], h.rest, h.level, h.fresh⟩

theorem pop {t : Tok} (h : RAt l rs (t :: tk) lv) : RAt { l with tokens := tk } rs tk lv :=
  ⟨h.inv.same rfl rfl rfl rfl rfl, h.err, rfl, h.rest, h.level, h.fresh⟩

theorem setLevel (h : RAt l rs tk lv) (k : Nat) : RAt { l with termsLevel := k } rs tk k :=
  ⟨h.inv.same rfl rfl rfl rfl rfl, h.err, h.tokens, h.rest, rfl, h.fresh⟩

theorem valid (h : RAt l rs tk lv) : ∀ r ∈ rs, validRune r = true := fun r hr => by
  rw [← h.rest] at hr; exact runesIn_valid hr

end RAt

/-! ### An error stays -/

theorem read_keeps {l : Lex} (h : l.err ≠ none) : l.read.2.err ≠ none := by
  unfold Lex.read
  split
  · exact h
  · simp only
    unfold Lex.peek
    split
    · exact h
    · simp only; split
      · simp
      · exact h

theorem peek_keeps {l : Lex} (h : l.err ≠ none) : l.peek.2.err ≠ none := by
  unfold Lex.peek
  split
  · exact h
  · simp only; split
    · simp
    · exact h

theorem unread_keeps {l : Lex} (h : l.err ≠ none) : l.unread.err ≠ none := by
  unfold Lex.unread; split
  · simp
  · exact h

theorem textLoop_keeps (bs : List Nat) : ∀ (n : Nat) (l : Lex) (data : List Nat) (esc : Bool) (d' : List Nat) (l' : Lex), l.err ≠ none →
    Lex.fetchTextLoop bs n l data esc = some (d', l') → l'.err ≠ none
  | 0, _, _, _, _, _, _, h => by simp [Lex.fetchTextLoop] at h
  | n + 1, l, data, esc, d', l', he, h => by
    simp only [Lex.fetchTextLoop] at h
    have hr := read_keeps he
    split at h
    · injection h with h; injection h with _ h; rw [← h]; exact hr
    · split at h
      · exact textLoop_keeps bs n _ _ _ _ _ hr h
      · split at h
        · injection h with h; injection h with _ h; rw [← h]; exact unread_keeps hr
        · exact textLoop_keeps bs n _ _ _ _ _ hr h

theorem fetchText_keeps {l l' : Lex} {bs : List Nat} (he : l.err ≠ none) (h : l.fetchText bs = some l') : l'.err ≠ none := by
  unfold Lex.fetchText at h
  split at h
  · cases h
  · rename_i d l1 h1
    have := textLoop_keeps bs _ _ _ _ _ _ he h1
    injection h with h
    rw [← h]; split
    · exact this
    · exact this

theorem rangeLoop_keeps : ∀ (n : Nat) (l : Lex) (a b c : Bool) (l' : Lex), l.err ≠ none → Lex.fetchRangeLoop n l a b c = some l' → l'.err ≠ none
  | 0, _, _, _, _, _, _, h => by simp [Lex.fetchRangeLoop] at h
  | n + 1, l, a, b, c, l', he, h => by
    simp only [Lex.fetchRangeLoop] at h
    have hr := read_keeps he
    split at h
    · injection h with h; rw [← h]; simp
    · split at h
      · split at h
        · injection h with h; rw [← h]; simp
        · injection h with h; rw [← h]; exact hr
      · split at h
        · exact rangeLoop_keeps n _ _ _ _ _ (show (l.read.2.push _).err ≠ none from hr) h
        · split at h
          · exact rangeLoop_keeps n _ _ _ _ _ (show (l.read.2.push _).err ≠ none from hr) h
          · have hp := peek_keeps hr
            split at h
            · exact rangeLoop_keeps n _ _ _ _ _ (by exact hp) h
            · split at h
              · cases h
              · rename_i l1 h1
                exact rangeLoop_keeps n _ _ _ _ _ (fetchText_keeps (unread_keeps hp) h1) h

/-! ### Texts -/

/-- What the lexer has after reading `o`. -/
def After (l : Lex) (tk : List Tok) (lv : Nat) : Option (List Tok × List Nat) → Prop
  | none => l.err ≠ none
  | some (ts, rest) => RAt l rest (tk ++ ts) lv

theorem textLoop_reads {tk : List Tok} {lv : Nat} (bs : List Nat) : ∀ (n : Nat) (l : Lex) (rs acc : List Nat) (esc : Bool) (d' : List Nat) (l' : Lex), RAt l rs tk lv →
    Lex.fetchTextLoop bs n l acc esc = some (d', l') →
    match readText bs esc rs with
    | none => l'.err ≠ none
    | some (cs, rest) => d' = acc ++ cs ∧ RAt l' rest tk lv
  | 0, _, _, _, _, _, _, _, h => by simp [Lex.fetchTextLoop] at h
  | n + 1, l, [], acc, esc, d', l', hl, h => by
    obtain ⟨g1, g2, _⟩ := hl.read_end
    simp only [Lex.fetchTextLoop, g1, if_true, Option.some.injEq, Prod.mk.injEq] at h
    obtain ⟨rfl, rfl⟩ := h
    simp only [readText]
    exact ⟨by simp, g2⟩
  | n + 1, l, c :: rs, acc, esc, d', l', hl, h => by
    by_cases hb : c = runeError
    · subst hb
      obtain ⟨g1, g2⟩ := hl.read_bad
      simp only [Lex.fetchTextLoop, g1, if_true, Option.some.injEq, Prod.mk.injEq] at h
      obtain ⟨_, rfl⟩ := h
      simp only [readText, runeError]
      simpa using g2
    · obtain ⟨g1, g2, g3, _⟩ := hl.read hb
      simp only [Lex.fetchTextLoop, g1] at h
      simp only [readText]
      have hb' : ¬ c = 0xFFFD := hb
      by_cases h0 : c = 0
      · rw [if_pos h0] at h ⊢
        injection h with h; injection h with ha hb2
        subst ha hb2
        exact ⟨by simp, g2⟩
      · rw [if_neg h0] at h ⊢
        rw [if_neg hb']
        by_cases h92 : (!esc && decide (c = 92)) = true
        · rw [if_pos h92] at h ⊢
          exact textLoop_reads bs n _ rs acc true d' l' g2 h
        · rw [if_neg h92] at h ⊢
          by_cases hs : (!esc && decide (c ∈ bs)) = true
          · rw [if_pos hs]
            rw [if_pos (by simpa using hs)] at h
            injection h with h; injection h with ha hb2
            subst ha hb2
            exact ⟨by simp, g3⟩
          · rw [if_neg hs]
            rw [if_neg (by simpa using hs)] at h
            have ih := textLoop_reads bs n _ rs (acc ++ [c]) false d' l' g2 h
            cases hr : readText bs false rs with
            | none => rw [hr] at ih; simpa using ih
            | some r =>
              obtain ⟨cs, rest⟩ := r
              rw [hr] at ih
              simp only [Option.map_some]
              exact ⟨by rw [ih.1]; simp, ih.2⟩

/-- The token of a text. -/
def textTok (cs : List Nat) : List Tok := if cs = [] then [] else [.text (cs.flatMap encodeRune)]

theorem fetchText_reads {l l' : Lex} {rs bs : List Nat} {tk : List Tok} {lv : Nat} (hl : RAt l rs tk lv) (h : l.fetchText bs = some l') :
    After l' tk lv ((readText bs false rs).map fun r => (textTok r.1, r.2)) := by
  unfold Lex.fetchText at h
  split at h
  · cases h
  · rename_i d l1 h1
    have hr := textLoop_reads bs _ _ rs [] false d l1 hl h1
    injection h with h
    cases hx : readText bs false rs with
    | none =>
      rw [hx] at hr
      simp only [Option.map_none, After]
      rw [← h]; split
      · exact hr
      · exact hr
    | some r =>
      obtain ⟨cs, rest⟩ := r
      rw [hx] at hr
      obtain ⟨hd, hR⟩ := hr
      rw [List.nil_append] at hd
      subst hd
      simp only [Option.map_some, After, textTok]
      rw [← h]
      by_cases hc : d = []
      · subst hc; simpa using hR
      · rw [if_neg hc, if_pos (List.length_pos_iff.2 hc)]
        exact hR.push _

/-! ### Classes -/

/-- The tokens of a class after its `!`. -/
def setToks (rs : List Nat) : Option (List Tok × List Nat) :=
  match rs with
  | [] => none
  | c :: rs' =>
    if c = 0 ∨ c = runeError ∨ rs'.head? = some runeError then none
    else if rs'.head? = some 45 then
      match rs'.tail with
      | hi :: x :: rest => if hi = 0 ∨ hi = runeError ∨ x ≠ 93 then none else
          some ([.rangeLo (encodeRune c), .rangeBetween, .rangeHi (encodeRune hi), .rangeClose], rest)
      | _ => none
    else match readText [93] false rs with
      | some (cs, x :: rest) => if x = 93 then some (textTok cs ++ [.rangeClose], rest) else none
      | _ => none

theorem close_reads {l l' : Lex} {rs : List Nat} {tk : List Tok} {lv n : Nat} {a c : Bool} (hl : RAt l rs tk lv) (h : Lex.fetchRangeLoop (n + 1) l a true c = some l') :
    After l' tk lv (match rs with | x :: rest => if x = 93 then some ([.rangeClose], rest) else none | [] => none) := by
  simp only [Lex.fetchRangeLoop, if_true] at h
  cases rs with
  | nil =>
    obtain ⟨g1, _⟩ := hl.read_end
    rw [if_pos g1] at h
    injection h with h; rw [← h]; simp [After]
  | cons x rest =>
    by_cases hb : x = runeError
    · subst hb
      obtain ⟨g1, g2⟩ := hl.read_bad
      rw [if_pos g1] at h
      injection h with h; rw [← h]; simp [After, runeError]
    · obtain ⟨g1, g2, _⟩ := hl.read hb
      rw [g1] at h
      by_cases h0 : x = 0
      · rw [if_pos h0] at h
        injection h with h; rw [← h]; simp [After, h0]
      · rw [if_neg h0] at h
        by_cases hx : x = 93
        · rw [if_neg (by simpa using hx)] at h
          injection h with h
          simp only [hx, if_true, After]
          rw [← h]; exact g2.push _
        · rw [if_pos hx] at h
          injection h with h
          simp only [hx, if_false, After]
          rw [← h]; simp

theorem After.append {l : Lex} {tk ts : List Tok} {lv : Nat} {o : Option (List Tok × List Nat)} (h : After l (tk ++ ts) lv o) :
    After l tk lv (o.map fun r => (ts ++ r.1, r.2)) := by
  cases o with
  | none => exact h
  | some r => simpa [After] using h

theorem set_reads {l l' : Lex} {rs : List Nat} {tk : List Tok} {lv n : Nat} {sn : Bool} (hl : RAt l rs tk lv) (hs : sn = true ∨ rs.head? ≠ some 33)
    (h : Lex.fetchRangeLoop (n + 3) l false false sn = some l') : After l' tk lv (setToks rs) := by
  cases rs with
  | nil =>
    obtain ⟨g1, _⟩ := hl.read_end
    simp only [Lex.fetchRangeLoop, g1, if_true] at h
    injection h with h; rw [← h]; simp [After, setToks]
  | cons c rs =>
    by_cases hb : c = runeError
    · subst hb
      obtain ⟨g1, g2⟩ := hl.read_bad
      simp only [Lex.fetchRangeLoop, g1, if_true] at h
      injection h with h; rw [← h]; simp [After, setToks]
    · obtain ⟨g1, g2, g3, g4⟩ := hl.read hb
      rw [Lex.fetchRangeLoop] at h
      simp only [g1, Bool.false_eq_true, if_false] at h
      by_cases h0 : c = 0
      · rw [if_pos h0] at h
        injection h with h; rw [← h]; simp [After, setToks, h0]
      · rw [if_neg h0] at h
        have h33 : ¬ ((!sn && decide (c = 33)) = true) := by
          rcases hs with hs | hs
          · simp [hs]
          · have : c ≠ 33 := by simpa using hs
            simp [this]
        rw [if_neg h33] at h
        by_cases hne' : rs.head? = some runeError
        · have hs0 : setToks (c :: rs) = none := by simp only [setToks]; rw [if_pos (Or.inr (Or.inr hne'))]
          rw [hs0]
          obtain ⟨rs', rfl⟩ : ∃ rs', rs = runeError :: rs' := by
            cases rs with
            | nil => simp at hne'
            | cons y ys => simp at hne'; exact ⟨ys, by rw [hne']⟩
          obtain ⟨p1, p2⟩ := g2.peek_bad
          rw [p1] at h
          simp only [show ¬ (0 = 45) by decide, if_false] at h
          split at h
          · cases h
          · rename_i l1 h1
            exact rangeLoop_keeps _ _ _ _ _ _ (fetchText_keeps (unread_keeps p2) h1) h
        have hset : setToks (c :: rs) = if rs.head? = some 45 then
            (match rs.tail with
            | hi :: x :: rest => if hi = 0 ∨ hi = runeError ∨ x ≠ 93 then none else
                some ([.rangeLo (encodeRune c), .rangeBetween, .rangeHi (encodeRune hi), .rangeClose], rest)
            | _ => none)
          else match readText [93] false (c :: rs) with
            | some (cs, x :: rest) => if x = 93 then some (textTok cs ++ [.rangeClose], rest) else none
            | _ => none := by
          simp only [setToks]
          rw [if_neg (by simp [h0, hb, hne'])]
        rw [hset]
        -- the text branch
        have text : rs.head? ≠ some 45 → l.read.2.peek.2 = l.read.2 →
            (match l.read.2.peek.2.unread.fetchText [93] with
              | none => none
              | some l => Lex.fetchRangeLoop (n + 2) l false true sn) = some l' →
            After l' tk lv (match readText [93] false (c :: rs) with
              | some (cs, x :: rest) => if x = 93 then some (textTok cs ++ [.rangeClose], rest) else none
              | _ => none) := by
          intro hne hp hm
          split at hm
          · cases hm
          · rename_i l1 h1
            · rw [hp] at h1
              have ht := fetchText_reads g3 h1
              cases hx : readText [93] false (c :: rs) with
              | none =>
                rw [hx] at ht
                exact rangeLoop_keeps _ _ _ _ _ _ ht hm
              | some r =>
                obtain ⟨cs, rest⟩ := r
                rw [hx] at ht
                simp only [Option.map_some, After] at ht
                have hc := (close_reads ht hm).append
                cases rest with
                | nil => simpa using hc
                | cons x rest =>
                  simp only at hc ⊢
                  by_cases hx93 : x = 93
                  · simpa [hx93] using hc
                  · simpa [hx93] using hc
        cases rs with
        | nil =>
          have hp := g2.peek_end
          rw [hp] at h
          simp only [show ¬ (0 = 45) by decide, if_false] at h
          have := text (by simp) (by rw [hp]) (by rw [hp]; exact h)
          simpa using this
        | cons y ys =>
          by_cases hyb : y = runeError
          · subst hyb; exact absurd rfl hne'
          · have hp := g2.peek hyb
            rw [hp] at h
            by_cases hy : y = 45
            · subst hy
              simp only [if_true] at h
              simp only [List.head?_cons, if_true, List.tail_cons]
              have g5 := ((g2.seek g4).push (.rangeLo (encodeRune c))).push .rangeBetween
              rw [Lex.fetchRangeLoop] at h
              simp only [Bool.false_eq_true, if_false, if_true] at h
              cases ys with
              | nil =>
                obtain ⟨k1, _⟩ := g5.read_end
                rw [if_pos k1] at h
                injection h with h; rw [← h]; simp [After]
              | cons hi ys =>
                by_cases hhb : hi = runeError
                · subst hhb
                  obtain ⟨k1, _⟩ := g5.read_bad
                  rw [if_pos k1] at h
                  injection h with h; rw [← h]
                  cases ys <;> simp [After]
                · obtain ⟨k1, k2, _, _⟩ := g5.read hhb
                  rw [k1] at h
                  by_cases hh0 : hi = 0
                  · rw [if_pos hh0] at h
                    injection h with h; rw [← h]
                    cases ys <;> simp [After, hh0]
                  · rw [if_neg hh0] at h
                    have hc := close_reads (k2.push (.rangeHi (encodeRune hi))) h
                    cases ys with
                    | nil => simpa [After] using hc
                    | cons x rest =>
                      by_cases hx : x = 93
                      · simp only [hx, hh0, hhb, if_true, After] at hc ⊢
                        simpa using hc
                      · simp only [hx, if_false, After] at hc
                        simp [After, hx, hc]
            · simp only [hy, if_false] at h
              have := text (by simpa using hy) (by rw [hp]) (by rw [hp]; exact h)
              simpa [hy] using this

theorem fetchRange_reads {l l' : Lex} {rs : List Nat} {tk : List Tok} {lv : Nat} (hl : RAt l rs tk lv) (h : l.fetchRange = some l') :
    After l' tk lv (if rs.head? = some 33 then (setToks rs.tail).map (fun r => (.not :: r.1, r.2)) else setToks rs) := by
  unfold Lex.fetchRange at h
  by_cases hd : rs.head? = some 33
  · rw [if_pos hd]
    obtain ⟨rs', rfl⟩ : ∃ rs', rs = 33 :: rs' := by
      cases rs with
      | nil => simp at hd
      | cons y ys => simp at hd; exact ⟨ys, by rw [hd]⟩
    obtain ⟨g1, g2, _⟩ := hl.read (by decide)
    rw [Lex.fetchRangeLoop] at h
    simp only [g1, Bool.false_eq_true, if_false, show ¬ (33 = 0) by decide, Bool.not_false, Bool.true_and, decide_true, if_true] at h
    exact (set_reads (n := 2) (g2.push .not) (Or.inl rfl) h).append
  · rw [if_neg hd]
    exact set_reads (n := 3) hl (Or.inr hd) h

/-! ### The parser -/

theorem next_tok {l : Lex} {rs : List Nat} {t : Tok} {ts : List Tok} {lv : Nat} (d : Nat) (h : RAt l rs (t :: ts) lv) :
    l.next d = none ∨ ∃ l2, l.next d = some (.ok t, l2) ∧ RAt l2 rs ts lv := by
  cases d with
  | zero => exact Or.inl rfl
  | succ d =>
    refine Or.inr ⟨_, ?_, h.pop⟩
    unfold Lex.next
    simp only [h.err, h.tokens]

theorem next_err {l : Lex} (d : Nat) (h : l.err ≠ none) : l.next d = none ∨ ∃ e, l.next d = some (.error e, l) := by
  cases d with
  | zero => exact Or.inl rfl
  | succ d =>
    obtain ⟨e, he⟩ := Option.ne_none_iff_exists'.1 h
    refine Or.inr ⟨e, ?_⟩
    unfold Lex.next
    simp only [he]

/-- What `parserRange` does with a token. -/
def rangeStep (d n : Nat) (l : Lex) (not : Bool) (lo hi : Nat) (chars : Str) : Tok → Res (Node × Lex)
  | .eof => .err .unexpectedEnd
  | .not => parseRange d n l true lo hi chars
  | .rangeLo raw =>
    if raw.length > (decodeRune raw).2 then .err .loLength else parseRange d n l not (decodeRune raw).1 hi chars
  | .rangeHi raw =>
    if raw.length > (decodeRune raw).2 then .err .loLength
    else if (decodeRune raw).1 < lo then .err .hiBelowLo
    else parseRange d n l not lo (decodeRune raw).1 chars
  | .text raw => parseRange d n l not lo hi raw
  | .rangeClose =>
    if (!chars.isEmpty) = (lo ≠ 0 && hi ≠ 0) then .err .couldNotParseRange
    else if (lo ≠ 0 && hi ≠ 0) then .ok (.range not lo hi, l)
    else .ok (.list not chars, l)
  | _ => parseRange d n l not lo hi chars

theorem parseRange_tok {l : Lex} {rs : List Nat} {t : Tok} {ts : List Tok} {lv : Nat} (h : RAt l rs (t :: ts) lv) (d n : Nat) (nt : Bool) (lo hi : Nat) (ch : Str) :
    parseRange d n l nt lo hi ch = .steps ∨ ∃ m l2, RAt l2 rs ts lv ∧ parseRange d n l nt lo hi ch = rangeStep d m l2 nt lo hi ch t := by
  cases n with
  | zero => exact Or.inl rfl
  | succ n =>
    rw [parseRange]
    rcases next_tok d h with e | ⟨l2, e, g⟩
    · rw [e]; exact Or.inl rfl
    · rw [e]
      refine Or.inr ⟨n, l2, g, ?_⟩
      cases t <;> rfl

theorem parseRange_err {l : Lex} (h : l.err ≠ none) (d n : Nat) (nt : Bool) (lo hi : Nat) (ch : Str) :
    parseRange d n l nt lo hi ch = .steps ∨ ∃ e, parseRange d n l nt lo hi ch = .err e := by
  cases n with
  | zero => exact Or.inl rfl
  | succ n =>
    rw [parseRange]
    rcases next_err d h with e | ⟨x, e⟩
    · rw [e]; exact Or.inl rfl
    · rw [e]; exact Or.inr ⟨x, rfl⟩

/-- The result of the parser: cut off, or that of the reader. -/
def RangeRes (lv : Nat) (r : Res (Node × Lex)) : Option (Node × List Nat) → Prop
  | none => r = .steps ∨ ∃ e, r = .err e
  | some (nd, rest) => r = .steps ∨ ∃ l2, r = .ok (nd, l2) ∧ RAt l2 rest [] lv

theorem RangeRes.steps {lv : Nat} {r : Res (Node × Lex)} (h : r = .steps) : ∀ o, RangeRes lv r o
  | none => Or.inl h
  | some _ => Or.inl h

theorem decode_one {r : Nat} (h : validRune r = true) : decodeRune (encodeRune r) = (r, (encodeRune r).length) := by
  have : r < 0xD800 ∨ 0xE000 ≤ r ∧ r ≤ 0x10FFFF := by simpa [validRune] using h
  simpa using decode_encode this []

theorem readSet_text {neg : Bool} {c : Nat} {rs : List Nat} (h : rs.head? ≠ some 45) :
    readSet neg (c :: rs) = match readText [93] false (c :: rs) with
      | some (c :: cs, 93 :: rest) => some (.list neg ((c :: cs).flatMap encodeRune), rest)
      | _ => none := by
  cases rs with
  | nil => rfl
  | cons y ys =>
    have : y ≠ 45 := by simpa using h
    unfold readSet
    split
    · rename_i heq
      injection heq with _ h2
      injection h2 with h3 _
      exact absurd h3 this
    · rfl

theorem textTok_flat_ne {cs : List Nat} (h : cs ≠ []) : cs.flatMap encodeRune ≠ [] := by
  cases cs with
  | nil => exact absurd rfl h
  | cons c cs =>
    intro he
    have := encodeRune_pos c
    have h2 := congrArg List.length he
    simp at h2; simp [h2] at this

theorem parseSet_reads {l : Lex} {rs : List Nat} {lv : Nat} (hv : ∀ r ∈ rs, validRune r = true) (h : After l [] lv (setToks rs)) (d n : Nat) (neg : Bool) :
    RangeRes lv (parseRange d n l neg 0 0 []) (readSet neg rs) := by
  cases rs with
  | nil =>
    have : readSet neg [] = none := by simp [readSet, readText]
    rw [this]
    exact parseRange_err h _ _ _ _ _ _
  | cons c rs =>
    simp only [setToks] at h
    by_cases hbad : c = 0 ∨ c = runeError ∨ rs.head? = some runeError
    · rw [if_pos hbad] at h
      have : readSet neg (c :: rs) = none := by
        by_cases h45 : rs.head? = some 45
        · obtain ⟨more, rfl⟩ : ∃ more, rs = 45 :: more := by
            cases rs with
            | nil => simp at h45
            | cons y ys => simp at h45; exact ⟨ys, by rw [h45]⟩
          simp only [readSet]
          split
          · rw [if_neg]
            rintro ⟨a, _, b, _⟩
            rcases hbad with hbad | hbad | hbad
            · omega
            · exact b hbad
            · simp [runeError] at hbad
          · rfl
        · rw [readSet_text h45]
          rcases hbad with rfl | rfl | hbad
          · simp [readText]
          · simp [readText, runeError]
          · obtain ⟨rs', rfl⟩ : ∃ rs', rs = runeError :: rs' := by
              cases rs with
              | nil => simp at hbad
              | cons y ys => simp at hbad; exact ⟨ys, by rw [hbad]⟩
            have hq : readText [93] false (c :: runeError :: rs') = none ∨ ∃ r, readText [93] false (c :: runeError :: rs') = some ([], r) := by
              by_cases h0 : c = 0
              · right; exact ⟨_, by simp [readText, h0]; rfl⟩
              · by_cases hF : c = 0xFFFD
                · left; simp [readText, hF]
                · by_cases h92 : c = 92
                  · left; simp [readText, runeError, h92]
                  · by_cases h93 : c = 93
                    · right; exact ⟨_, by simp [readText, h93]; rfl⟩
                    · left; simp [readText, runeError, h0, hF, h92, h93]
            rcases hq with hq | ⟨r, hq⟩
            · rw [hq]
            · rw [hq]
      rw [this]
      exact parseRange_err h _ _ _ _ _ _
    · rw [if_neg hbad] at h
      simp only [not_or] at hbad
      obtain ⟨hc0, hcb, hhd⟩ := hbad
      have hcb' : c ≠ 0xFFFD := hcb
      by_cases h45 : rs.head? = some 45
      · rw [if_pos h45] at h
        obtain ⟨more, rfl⟩ : ∃ more, rs = 45 :: more := by
          cases rs with
          | nil => simp at h45
          | cons y ys => simp at h45; exact ⟨ys, by rw [h45]⟩
        simp only [List.tail_cons] at h
        match more, h, hv with
        | [], h, _ =>
          exact parseRange_err h _ _ _ _ _ _
        | [hi], h, _ =>
          exact parseRange_err h _ _ _ _ _ _
        | hi :: x :: rest, h, hv =>
          simp only at h
          by_cases hx : hi = 0 ∨ hi = runeError ∨ x ≠ 93
          · rw [if_pos hx] at h
            have : readSet neg (c :: 45 :: hi :: x :: rest) = none := by
              simp only [readSet]
              split
              · rename_i heq
                injection heq with h1 h2
                injection h2 with h3 h4
                rw [if_neg]
                rintro ⟨a, b, _, e⟩
                rcases hx with hx | hx | hx
                · omega
                · exact e (h1 ▸ hx)
                · exact hx h3
              · rfl
            rw [this]
            exact parseRange_err h _ _ _ _ _ _
          · rw [if_neg hx] at h
            simp only [not_or, not_not] at hx
            obtain ⟨hh0, hhb, rfl⟩ := hx
            have hhb' : hi ≠ 0xFFFD := hhb
            have d1 := decode_one (hv c (by simp))
            have d2 := decode_one (hv hi (by simp))
            simp only [After, List.nil_append] at h
            have hrd : readSet neg (c :: 45 :: hi :: 93 :: rest) = if c ≤ hi then some (.range neg c hi, rest) else none := by
              simp only [readSet]
              have : 0 < c := by omega
              simp [this, hcb', hhb']
            rw [hrd]
            rcases parseRange_tok h d n neg 0 0 [] with e | ⟨m1, l1, g1, e⟩
            · exact .steps e _
            · rw [e]; simp only [rangeStep, d1, gt_iff_lt, Nat.lt_irrefl, if_false]
              rcases parseRange_tok g1 d m1 neg c 0 [] with e | ⟨m2, l2, g2, e⟩
              · exact .steps e _
              · rw [e]; simp only [rangeStep]
                rcases parseRange_tok g2 d m2 neg c 0 [] with e | ⟨m3, l3, g3, e⟩
                · exact .steps e _
                · rw [e]; simp only [rangeStep, d2, gt_iff_lt, Nat.lt_irrefl, if_false]
                  by_cases hle : c ≤ hi
                  · rw [if_pos hle, if_neg (by omega)]
                    rcases parseRange_tok g3 d m3 neg c hi [] with e | ⟨m4, l4, g4, e⟩
                    · exact .steps e _
                    · rw [e]
                      refine Or.inr ⟨l4, ?_, g4⟩
                      simp [rangeStep, hc0, hh0]
                  · rw [if_neg hle, if_pos (by omega)]
                    exact Or.inr ⟨_, rfl⟩
      · rw [if_neg h45] at h
        rw [readSet_text h45]
        cases hr : readText [93] false (c :: rs) with
        | none => rw [hr] at h; exact parseRange_err h _ _ _ _ _ _
        | some r =>
          obtain ⟨cs, rest⟩ := r
          rw [hr] at h
          cases rest with
          | nil =>
            have : (match some (cs, ([] : List Nat)) with
              | some (c :: cs, 93 :: rest) => some (Node.list neg ((c :: cs).flatMap encodeRune), rest)
              | _ => none) = none := by cases cs <;> rfl
            rw [this]
            exact parseRange_err h _ _ _ _ _ _
          | cons x rest =>
            simp only at h
            by_cases hx : x = 93
            · subst hx
              rw [if_pos rfl] at h
              simp only [After, List.nil_append] at h
              cases cs with
              | nil =>
                simp only [textTok, if_true, List.nil_append] at h
                rcases parseRange_tok h d n neg 0 0 [] with e | ⟨m1, l1, g1, e⟩
                · exact .steps e _
                · rw [e]; exact Or.inr ⟨.couldNotParseRange, by simp [rangeStep]⟩
              | cons c' cs =>
                simp only [textTok, List.cons_ne_nil, if_false] at h
                rcases parseRange_tok h d n neg 0 0 [] with e | ⟨m1, l1, g1, e⟩
                · exact .steps e _
                · rw [e]; simp only [rangeStep]
                  rcases parseRange_tok g1 d m1 neg 0 0 ((c' :: cs).flatMap encodeRune) with e | ⟨m2, l2, g2, e⟩
                  · exact .steps e _
                  · rw [e]
                    have hne := textTok_flat_ne (cs := c' :: cs) (by simp)
                    refine Or.inr ⟨l2, ?_, g2⟩
                    have hie : ((c' :: cs).flatMap encodeRune).isEmpty = false := by simpa using hne
                    simp only [rangeStep, hie]
                    simp
            · rw [if_neg hx] at h
              have : (match some (cs, x :: rest) with
                | some (c :: cs, 93 :: rest) => some (Node.list neg ((c :: cs).flatMap encodeRune), rest)
                | _ => none) = none := by
                cases cs with
                | nil => rfl
                | cons a as =>
                  split
                  · rename_i heq
                    injection heq with heq; injection heq with _ h2; injection h2 with h3 _
                    exact absurd h3 hx
                  · rfl
              rw [this]
              exact parseRange_err h _ _ _ _ _ _

theorem parseRange_reads {l : Lex} {rs : List Nat} {lv : Nat} (hv : ∀ r ∈ rs, validRune r = true)
    (h : After l [] lv (if rs.head? = some 33 then (setToks rs.tail).map (fun r => (.not :: r.1, r.2)) else setToks rs)) (d n : Nat) :
    RangeRes lv (parseRange d n l false 0 0 []) (readClass rs) := by
  unfold readClass
  by_cases hd : rs.head? = some 33
  · rw [if_pos hd] at h ⊢
    have hv' : ∀ r ∈ rs.tail, validRune r = true := fun r hr => hv r (List.mem_of_mem_tail hr)
    cases hs : setToks rs.tail with
    | none =>
      rw [hs] at h
      -- the reader fails as well
      have := parseSet_reads (l := l) hv' (by rw [hs]; exact h) d n true
      cases hrd : readSet true rs.tail with
      | none => exact parseRange_err h _ _ _ _ _ _
      | some r =>
        obtain ⟨nd, rest⟩ := r
        rw [hrd] at this
        have hok := parseSet_reads (l := { l with err := some .readRune }) (lv := lv) hv' (by rw [hs]; simp [After]) 1 1 true
        rw [hrd] at hok
        rcases hok with hok | ⟨l2, hok, _⟩
        · simp [parseRange, Lex.next] at hok
        · simp [parseRange, Lex.next] at hok
    | some r =>
      rw [hs] at h
      obtain ⟨ts, rest⟩ := r
      simp only [Option.map_some, After, List.nil_append] at h
      rcases parseRange_tok h d n false 0 0 [] with e | ⟨m1, l1, g1, e⟩
      · exact .steps e _
      · rw [e]
        exact parseSet_reads hv' (by rw [hs]; simpa [After] using g1) d m1 true
  · rw [if_neg hd] at h ⊢
    exact parseSet_reads hv h d n false

/-! ### The whole pattern -/

/-- The result of the parser: cut off, or that of the reader. -/
def Parsed (r : Res Node) : Option Node → Prop
  | none => r = .steps ∨ ∃ e, r = .err e
  | some t => r = .steps ∨ r = .ok t

theorem Parsed.steps {r : Res Node} (h : r = .steps) : ∀ o, Parsed r o
  | none => Or.inl h
  | some _ => Or.inl h

theorem next_fetch {l l' : Lex} {rs : List Nat} {lv : Nat} (h : RAt l rs [] lv) (e : l.fetchItem = some l') (d : Nat) : l.next (d + 1) = l'.next d := by
  conv => lhs; unfold Lex.next
  simp only [h.err, h.tokens, e]

theorem next_mono : ∀ (d : Nat) (l : Lex) (x : Except Err Tok × Lex), l.next d = some x → l.next (d + 1) = some x
  | 0, _, _, h => by simp [Lex.next] at h
  | d + 1, l, x, h => by
    unfold Lex.next at h ⊢
    cases he : l.err with
    | some e => rw [he] at h; exact h
    | none =>
      rw [he] at h
      simp only at h ⊢
      cases ht : l.tokens with
      | cons t ts => rw [ht] at h; exact h
      | nil =>
        rw [ht] at h
        simp only at h ⊢
        cases hf : l.fetchItem with
        | none => rw [hf] at h; cases h
        | some l' => rw [hf] at h; exact next_mono d l' x h

theorem next_item {l l' : Lex} {rs rest : List Nat} {lv lv' : Nat} {t : Tok} {ts : List Tok} (d : Nat) (h : RAt l rs [] lv) (e : l.fetchItem = some l')
    (h' : RAt l' rest (t :: ts) lv') : l.next d = none ∨ ∃ l2, l.next d = some (.ok t, l2) ∧ RAt l2 rest ts lv' := by
  cases d with
  | zero => exact Or.inl rfl
  | succ d => rw [next_fetch h e]; exact next_tok d h'

theorem main_err {l l' : Lex} {rs : List Nat} {lv : Nat} (h : RAt l rs [] lv) (e : l.fetchItem = some l') (h' : l'.err ≠ none) (d m : Nat) (fs : List Frame)
    (cur : List Node) : Parsed (parseMain d m l fs cur) none := by
  cases m with
  | zero => exact Or.inl rfl
  | succ m =>
    rw [parseMain]
    cases d with
    | zero => exact Or.inl rfl
    | succ d =>
      rw [next_fetch h e]
      rcases next_err d h' with e | ⟨x, e⟩
      · rw [e]; exact Or.inl rfl
      · rw [e]; exact Or.inr ⟨x, rfl⟩

/-- What `parserMain` does with a token other than `[`. -/
def mainStep (d n : Nat) (l : Lex) (fs : List Frame) (cur : List Node) : Tok → Res Node
  | .eof => .ok (closeFrames fs cur)
  | .text raw => parseMain d n l fs (cur ++ [.text raw])
  | .any => parseMain d n l fs (cur ++ [.any])
  | .super => parseMain d n l fs (cur ++ [.super])
  | .single => parseMain d n l fs (cur ++ [.single])
  | .rangeOpen => match parseRange d (n + 1) l false 0 0 [] with
    | .ok (node, l) => parseMain d n l fs (cur ++ [node])
    | .err e => .err e
    | .panic => .panic
    | .steps => .steps
  | .termsOpen => parseMain d n l (⟨[], cur⟩ :: fs) []
  | .separator => match fs with
    | [] => .panic
    | f :: fs => parseMain d n l (⟨f.alts ++ [.pattern cur], f.outer⟩ :: fs) []
  | .termsClose => match fs with
    | [] => .panic
    | f :: fs => parseMain d n l fs (f.outer ++ [.anyOf (f.alts ++ [.pattern cur])])
  | _ => .err .unexpectedToken

theorem parseMain_item {l l' : Lex} {rs rest : List Nat} {lv lv' : Nat} {t : Tok} {ts : List Tok} (h : RAt l rs [] lv) (e : l.fetchItem = some l')
    (h' : RAt l' rest (t :: ts) lv') (d n : Nat) (fs : List Frame) (cur : List Node) :
    parseMain d n l fs cur = .steps ∨ ∃ m l2, RAt l2 rest ts lv' ∧ parseMain d n l fs cur = mainStep d m l2 fs cur t := by
  cases n with
  | zero => exact Or.inl rfl
  | succ n =>
    rw [parseMain]
    rcases next_item d h e h' with e | ⟨l2, e, g⟩
    · rw [e]; exact Or.inl rfl
    · rw [e]
      refine Or.inr ⟨n, l2, g, ?_⟩
      cases t <;> rfl

theorem readText_rest {stop : List Nat} : ∀ (rs : List Nat) (esc : Bool) (cs rest : List Nat), readText stop esc rs = some (cs, rest) → rest.length ≤ rs.length ∧
    (∀ r ∈ rest, r ∈ rs)
  | [], _, cs, rest, h => by simp [readText] at h; simp [h]
  | c :: rs, esc, cs, rest, h => by
    simp only [readText] at h
    split at h
    · injection h with h; injection h with _ h; subst h; exact ⟨by simp, fun r hr => List.mem_cons_of_mem _ hr⟩
    · split at h
      · cases h
      · split at h
        · have := readText_rest rs true cs rest h
          exact ⟨by simp; omega, fun r hr => List.mem_cons_of_mem _ (this.2 r hr)⟩
        · split at h
          · injection h with h; injection h with _ h; subst h; exact ⟨by simp, fun r hr => hr⟩
          · cases hr : readText stop false rs with
            | none => rw [hr] at h; cases h
            | some r =>
              rw [hr] at h
              obtain ⟨a, b⟩ := r
              simp only [Option.map_some, Option.some.injEq, Prod.mk.injEq] at h
              obtain ⟨_, rfl⟩ := h
              have := readText_rest rs false a b hr
              exact ⟨by simp; omega, fun r hr => List.mem_cons_of_mem _ (this.2 r hr)⟩

theorem readText_progress {stop : List Nat} {c : Nat} {rs cs rest : List Nat} (hs : c ∉ stop) (h : readText stop false (c :: rs) = some (cs, rest)) :
    rest.length ≤ rs.length := by
  simp only [readText] at h
  split at h
  · injection h with h; injection h with _ h; subst h; exact Nat.le_refl _
  · split at h
    · cases h
    · split at h
      · exact (readText_rest rs true cs rest h).1
      · split at h
        · rename_i h1; simp [hs] at h1
        · cases hr : readText stop false rs with
          | none => rw [hr] at h; cases h
          | some r =>
            rw [hr] at h
            obtain ⟨a, b⟩ := r
            simp only [Option.map_some, Option.some.injEq, Prod.mk.injEq] at h
            obtain ⟨_, rfl⟩ := h
            exact (readText_rest rs false a b hr).1

theorem readSet_rest {neg : Bool} {rs rest : List Nat} {nd : Node} (h : readSet neg rs = some (nd, rest)) : rest.length ≤ rs.length := by
  unfold readSet at h
  split at h
  · split at h
    · split at h
      · injection h with h; injection h with _ h; subst h; simp; omega
      · cases h
    · cases h
  · split at h
    · rename_i hx
      have := (readText_rest _ _ _ _ hx).1
      injection h with h; injection h with _ h; subst h
      simp at this; omega
    · cases h

theorem readClass_rest {rs rest : List Nat} {nd : Node} (h : readClass rs = some (nd, rest)) : rest.length ≤ rs.length := by
  unfold readClass at h
  split at h
  · have := readSet_rest h
    simp at this; omega
  · exact readSet_rest h

theorem breakers_at {lv : Nat} {l : Lex} (h : l.termsLevel = lv) :
    (if l.inTerms then Lex.inTermsBreakers else Lex.inTextBreakers) = if 0 < lv then [63, 42, 91, 123, 125, 44] else [63, 42, 91, 123] := by
  unfold Lex.inTerms
  rw [h]
  by_cases hl : 0 < lv
  · simp [hl, Lex.inTermsBreakers, Lex.inTextBreakers]
  · simp [hl, Lex.inTextBreakers]

theorem parse_reads : ∀ (n m d : Nat) (l : Lex) (rs : List Nat) (fs : List Frame) (cur : List Node), RAt l rs [] fs.length → rs.length < n →
    Parsed (parseMain d m l fs cur) ((readParts n fs.length rs).map (treeOf fs cur))
  | 0, _, _, _, _, _, _, _, hn => by omega
  | n + 1, m, d, l, [], fs, cur, hl, _ => by
    obtain ⟨g1, g2, _⟩ := hl.read_end
    have e : l.fetchItem = some (l.read.2.push .eof) := by unfold Lex.fetchItem; simp only [g1, if_true]
    rcases parseMain_item hl e (g2.push .eof) d m fs cur with h | ⟨m', l2, _, h⟩
    · exact .steps h _
    · rw [h]; simp only [readParts, Option.map_some]
      exact Or.inr (by simp [mainStep, treeOf])
  | n + 1, m, d, l, c :: rs, fs, cur, hl, hn => by
    have hn' : rs.length < n := by simp at hn; omega
    have hv := hl.valid
    by_cases hb : c = runeError
    · subst hb
      -- every branch of fetchItem leaves the error
      obtain ⟨g1, g2⟩ := hl.read_bad
      have e : l.fetchItem = some (l.read.2.push .eof) := by unfold Lex.fetchItem; simp only [g1, if_true]
      have hr : readParts (n + 1) fs.length (runeError :: rs) = none := by simp [readParts, runeError]
      rw [hr]
      exact main_err hl e g2 d m fs cur
    · have hb' : ¬ c = 0xFFFD := hb
      obtain ⟨g1, g2, g3, g4⟩ := hl.read hb
      by_cases h0 : c = 0
      · subst h0
        have e : l.fetchItem = some (l.read.2.push .eof) := by unfold Lex.fetchItem; simp only [g1, if_true]
        rcases parseMain_item hl e (g2.push .eof) d m fs cur with h | ⟨m', l2, _, h⟩
        · exact .steps h _
        · rw [h]; simp only [readParts, if_true, Option.map_some]
          exact Or.inr (by simp [mainStep, treeOf])
      · by_cases h123 : c = 123
        · subst h123
          have g5 := (g2.setLevel (fs.length + 1)).push .termsOpen
          have e : l.fetchItem = some ((({ l.read.2 with termsLevel := fs.length + 1 } : Lex)).push .termsOpen) := by
            unfold Lex.fetchItem; simp only [g1, g2.level]; simp
          have hr : readParts (n + 1) fs.length (123 :: rs) = (readParts n (fs.length + 1) rs).map (.opens :: ·) := by simp [readParts]
          rw [hr]
          rcases parseMain_item hl e g5 d m fs cur with h | ⟨m', l2, k, h⟩
          · exact .steps h _
          · rw [h, Option.map_map]
            exact parse_reads n m' d l2 rs (⟨[], cur⟩ :: fs) [] k hn'
        · by_cases h44 : c = 44 ∧ 0 < fs.length
          · obtain ⟨rfl, hlv⟩ := h44
            obtain ⟨f, fs, rfl⟩ : ∃ f fs', fs = f :: fs' := by
              cases fs with
              | nil => simp at hlv
              | cons f fs => exact ⟨f, fs, rfl⟩
            have e : l.fetchItem = some (l.read.2.push .separator) := by
              unfold Lex.fetchItem; simp only [g1, Lex.inTerms, g2.level]; simp
            have hr : readParts (n + 1) (f :: fs).length (44 :: rs) = (readParts n (f :: fs).length rs).map (.comma :: ·) := by simp [readParts]
            rw [hr]
            rcases parseMain_item hl e (g2.push .separator) d m (f :: fs) cur with h | ⟨m', l2, k, h⟩
            · exact .steps h _
            · rw [h, Option.map_map]
              exact parse_reads n m' d l2 rs (⟨f.alts ++ [.pattern cur], f.outer⟩ :: fs) [] k hn'
          · by_cases h125 : c = 125 ∧ 0 < fs.length
            · obtain ⟨rfl, hlv⟩ := h125
              obtain ⟨f, fs, rfl⟩ : ∃ f fs', fs = f :: fs' := by
                cases fs with
                | nil => simp at hlv
                | cons f fs => exact ⟨f, fs, rfl⟩
              have g5 := (g2.push .termsClose).setLevel fs.length
              have e : l.fetchItem = some { l.read.2.push .termsClose with termsLevel := fs.length } := by
                unfold Lex.fetchItem; simp only [g1, Lex.inTerms, g2.level]; simp [Lex.push, g2.level]
              have hr : readParts (n + 1) (f :: fs).length (125 :: rs) = (readParts n fs.length rs).map (.closes :: ·) := by simp [readParts]
              rw [hr]
              rcases parseMain_item hl e g5 d m (f :: fs) cur with h | ⟨m', l2, k, h⟩
              · exact .steps h _
              · rw [h, Option.map_map]
                exact parse_reads n m' d l2 rs fs (f.outer ++ [.anyOf (f.alts ++ [.pattern cur])]) k hn'
            · have i44 : ¬ ((decide (c = 44) && l.read.2.inTerms) = true) := by
                simp only [Lex.inTerms, g2.level, Bool.and_eq_true, decide_eq_true_eq]; exact h44
              have i125 : ¬ ((decide (c = 125) && l.read.2.inTerms) = true) := by
                simp only [Lex.inTerms, g2.level, Bool.and_eq_true, decide_eq_true_eq]; exact h125
              by_cases h91 : c = 91
              · subst h91
                have ef : l.fetchItem = (l.read.2.push .rangeOpen).fetchRange := by
                  unfold Lex.fetchItem; simp only [g1]; simp
                obtain ⟨l', e, _⟩ := Lex.fetchItem_spec hl.inv hl.tokens
                have hA := fetchRange_reads (g2.push .rangeOpen) (by rw [← ef]; exact e)
                have hr : readParts (n + 1) fs.length (91 :: rs) =
                    (readClass rs).bind fun r => (readParts n fs.length r.2).map (.class r.1 :: ·) := by simp [readParts]
                rw [hr]
                have hv' : ∀ r ∈ rs, validRune r = true := fun r hr => hv r (List.mem_cons_of_mem _ hr)
                simp only [List.nil_append] at hA
                cases ho : (if rs.head? = some 33 then (setToks rs.tail).map (fun r => (Tok.not :: r.1, r.2)) else setToks rs) with
                | none =>
                  rw [ho] at hA
                  have hx := parseRange_reads (l := { newLexer [] with err := some .readRune }) (lv := 0) hv' (by rw [ho]; simp [After]) 1 1
                  have hc : readClass rs = none := by
                    cases hc : readClass rs with
                    | none => rfl
                    | some r =>
                      rw [hc] at hx
                      rcases hx with hx | ⟨l2, hx, _⟩
                      · simp [parseRange, Lex.next, newLexer] at hx
                      · simp [parseRange, Lex.next, newLexer] at hx
                  rw [hc]
                  exact main_err hl e hA d m fs cur
                | some o =>
                  obtain ⟨ts, rest⟩ := o
                  rw [ho] at hA
                  simp only [After, List.singleton_append] at hA
                  rcases parseMain_item hl e hA d m fs cur with h | ⟨m', l2, k, h⟩
                  · exact .steps h _
                  · rw [h]
                    simp only [mainStep]
                    have hx := parseRange_reads (l := l2) (lv := fs.length) hv' (by rw [ho]; simpa [After] using k) d (m' + 1)
                    cases hc : readClass rs with
                    | none =>
                      rw [hc] at hx
                      rcases hx with hx | ⟨x, hx⟩
                      · rw [hx]; exact Or.inl rfl
                      · rw [hx]; exact Or.inr ⟨x, rfl⟩
                    | some r =>
                      obtain ⟨nd, rest'⟩ := r
                      rw [hc] at hx
                      simp only [Option.bind_some]
                      rcases hx with hx | ⟨l3, hx, k3⟩
                      · rw [hx]; exact .steps rfl _
                      · rw [hx, Option.map_map]
                        have := readClass_rest hc
                        exact parse_reads n m' d l3 rest' fs (cur ++ [nd]) k3 (by omega)
              · by_cases h63 : c = 63
                · subst h63
                  have e : l.fetchItem = some (l.read.2.push .single) := by
                    unfold Lex.fetchItem; simp only [g1]; simp
                  have hr : readParts (n + 1) fs.length (63 :: rs) = (readParts n fs.length rs).map (.single :: ·) := by simp [readParts]
                  rw [hr]
                  rcases parseMain_item hl e (g2.push .single) d m fs cur with h | ⟨m', l2, k, h⟩
                  · exact .steps h _
                  · rw [h, Option.map_map]
                    exact parse_reads n m' d l2 rs fs (cur ++ [.single]) k hn'
                · by_cases h42 : c = 42
                  · subst h42
                    have ef : l.fetchItem = (if l.read.2.read.1 = 42 then some (l.read.2.read.2.push .super) else some (l.read.2.read.2.unread.push .any)) := by
                      unfold Lex.fetchItem; simp only [g1]; simp
                    have hr : readParts (n + 1) fs.length (42 :: rs) =
                        if rs.head? = some 42 then (readParts n fs.length rs.tail).map (.super :: ·) else (readParts n fs.length rs).map (.any :: ·) := by
                      simp [readParts]
                    rw [hr]
                    have any : ∀ l', l.fetchItem = some (l'.push .any) → RAt l' rs [] fs.length → rs.head? ≠ some 42 →
                        Parsed (parseMain d m l fs cur) ((if rs.head? = some 42 then (readParts n fs.length rs.tail).map (.super :: ·)
                          else (readParts n fs.length rs).map (.any :: ·)).map (treeOf fs cur)) := by
                      intro l' e k hne
                      rw [if_neg hne]
                      rcases parseMain_item hl e (k.push .any) d m fs cur with h | ⟨m', l2, k, h⟩
                      · exact .steps h _
                      · rw [h, Option.map_map]
                        exact parse_reads n m' d l2 rs fs (cur ++ [.any]) k hn'
                    cases rs with
                    | nil =>
                      obtain ⟨k1, k2, k3⟩ := g2.read_end
                      exact any _ (by rw [ef, k1]; rfl) k3 (by simp)
                    | cons y ys =>
                      by_cases hyb : y = runeError
                      · subst hyb
                        obtain ⟨k1, k2⟩ := g2.read_bad
                        rw [if_neg (by simp [runeError])]
                        have hr2 : readParts n fs.length (runeError :: ys) = none := by
                          cases n with
                          | zero => rfl
                          | succ n => simp [readParts, runeError]
                        rw [hr2]
                        exact main_err hl (by rw [ef, k1]; rfl) (show (l.read.2.read.2.unread.push .any).err ≠ none from unread_keeps k2) d m fs cur
                      · obtain ⟨k1, k2, k3, _⟩ := g2.read hyb
                        by_cases hy : y = 42
                        · subst hy
                          simp only [List.head?_cons, if_true, List.tail_cons]
                          have e : l.fetchItem = some (l.read.2.read.2.push .super) := by rw [ef, k1]; rfl
                          rcases parseMain_item hl e (k2.push .super) d m fs cur with h | ⟨m', l2, k, h⟩
                          · exact .steps h _
                          · rw [h, Option.map_map]
                            exact parse_reads n m' d l2 ys fs (cur ++ [.super]) k (by simp at hn'; omega)
                        · exact any _ (by rw [ef, k1, if_neg hy]) k3 (by simpa using hy)
                  · -- a text
                    have ef : l.fetchItem = l.read.2.unread.fetchText (if 0 < fs.length then [63, 42, 91, 123, 125, 44] else [63, 42, 91, 123]) := by
                      unfold Lex.fetchItem
                      simp only [g1]
                      rw [if_neg h0, if_neg h123, if_neg i44, if_neg i125, if_neg h91, if_neg h63, if_neg h42, breakers_at g3.level]
                    obtain ⟨l', e, _⟩ := Lex.fetchItem_spec hl.inv hl.tokens
                    have hT := fetchText_reads g3 (by rw [← ef]; exact e)
                    have hr : readParts (n + 1) fs.length (c :: rs) =
                        (readText (if 0 < fs.length then [63, 42, 91, 123, 125, 44] else [63, 42, 91, 123]) false (c :: rs)).bind fun r =>
                          (readParts n fs.length r.2).map fun ps => if r.1 = [] then ps else .text r.1 :: ps := by
                      rw [readParts]
                      rw [if_neg h0, if_neg hb', if_neg h123, if_neg h44, if_neg h125, if_neg h91, if_neg h63, if_neg h42]
                    rw [hr]
                    have hstop : c ∉ (if 0 < fs.length then [63, 42, 91, 123, 125, 44] else [63, 42, 91, 123]) := by
                      split
                      · rename_i hp
                        have : c ≠ 44 := fun h => h44 ⟨h, hp⟩
                        have : c ≠ 125 := fun h => h125 ⟨h, hp⟩
                        simp [*]
                      · simp [*]
                    cases hx : readText (if 0 < fs.length then [63, 42, 91, 123, 125, 44] else [63, 42, 91, 123]) false (c :: rs) with
                    | none =>
                      rw [hx] at hT
                      exact main_err hl e hT d m fs cur
                    | some r =>
                      obtain ⟨cs, rest⟩ := r
                      rw [hx] at hT
                      have hlen := readText_progress hstop hx
                      simp only [Option.map_some, After, List.nil_append] at hT
                      simp only [Option.bind_some]
                      by_cases hcs : cs = []
                      · subst hcs
                        simp only [textTok, if_true] at hT ⊢
                        have ih := parse_reads n m d l' rest fs cur hT (by omega)
                        simp only [Option.map_id']
                        cases m with
                        | zero => exact .steps rfl _
                        | succ m =>
                          cases d with
                          | zero => exact .steps (by rw [parseMain]; rfl) _
                          | succ d =>
                            cases hnx : l'.next d with
                            | none => exact .steps (by rw [parseMain, next_fetch hl e, hnx]) _
                            | some x =>
                              have hsame : parseMain (d + 1) (m + 1) l fs cur = parseMain (d + 1) (m + 1) l' fs cur := by
                                rw [parseMain, parseMain, next_fetch hl e, hnx, next_mono d l' x hnx]
                              rw [hsame]; exact ih
                      · simp only [textTok, hcs, if_false] at hT ⊢
                        rcases parseMain_item hl e hT d m fs cur with h | ⟨m', l2, k, h⟩
                        · exact .steps h _
                        · rw [h, Option.map_map]
                          exact parse_reads n m' d l2 rest fs (cur ++ [.text (cs.flatMap encodeRune)]) k (by omega)

theorem newLexer_at (p : Str) : RAt (newLexer p) (runesIn p) [] 0 :=
  ⟨⟨Nat.zero_le _, fun h => by simp [newLexer] at h⟩, rfl, rfl, rfl, rfl, fun h => by simp [newLexer] at h⟩

/-- C139: every pattern is read as `readPattern` reads it: the parser rejects it exactly if `readPattern` does, and otherwise its tree is that of the parts. -/
theorem C139_reads (p : Str) (t : Node) : parse p = .ok t ↔ ∃ ps, readPattern p = some ps ∧ t = treeOf [] [] ps := by
  have h := parse_reads ((runesIn p).length + 1) (7 * p.length + 8) (p.length + 2) (newLexer p) (runesIn p) [] [] (newLexer_at p) (by omega)
  have hp : parse p = parseMain (p.length + 2) (7 * p.length + 8) (newLexer p) [] [] := rfl
  have htot := parse_total p
  rw [← hp] at h
  change Parsed (parse p) ((readPattern p).map (treeOf [] [])) at h
  cases hr : readPattern p with
  | none =>
    rw [hr] at h
    rcases h with h | ⟨e, h⟩
    · rw [h] at htot; simp at htot
    · rw [h]; simp
  | some ps =>
    rw [hr] at h
    rcases h with h | h
    · rw [h] at htot; simp at htot
    · rw [h]
      simp only [Res.ok.injEq, Option.some.injEq, exists_eq_left']
      exact eq_comm

end Verif.Glob
