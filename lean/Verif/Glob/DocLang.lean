import Verif.Glob.DocParse
/-
The documented meaning of terms is that of their tree.
-/
namespace Verif.Glob

theorem runesIn_encode {r : Nat} (h : goodRune r = true) (s : Str) : runesIn (encodeRune r ++ s) = r :: runesIn s := by
  have hp := encodeRune_pos r
  have hne : encodeRune r ++ s ≠ [] := by
    intro e
    have := congrArg List.length e
    rw [List.length_append] at this
    simp only [List.length_nil] at this; omega
  rw [runesIn_cons hne, decode_encode (goodRune_iff.1 h).2.2]
  simp

theorem Ch.ok_good {bs : List Nat} {c : Ch} (h : c.ok bs = true) : goodRune c.rune = true := by
  cases c with
  | plain r => simp only [Ch.ok, Bool.and_eq_true] at h; exact h.1.1
  | esc r => exact h

theorem runesIn_textOf {bs : List Nat} : ∀ {cs : List Ch}, cs.all (Ch.ok bs) = true → runesIn (textOf cs) = cs.map Ch.rune
  | [], _ => rfl
  | c :: cs, h => by
    simp only [List.all_cons, Bool.and_eq_true] at h
    have e : textOf (c :: cs) = encodeRune c.rune ++ textOf cs := by simp [textOf]
    rw [e, runesIn_encode (Ch.ok_good h.1), runesIn_textOf h.2, List.map_cons]

mutual
theorem term_lang {seps : List Nat} : ∀ {t : Term} {b : Bool} {w : List Nat}, t.ok b = true → (Matches seps t.node w ↔ t.Lang seps w)
  | .chars cs, b, w, h => by
    simp only [Term.ok, Bool.and_eq_true] at h
    rw [Term.node, Matches, Term.Lang, runesIn_textOf h.2]
  | .any, _, _, _ => by rw [Term.node, Matches, Term.Lang]
  | .super, _, _, _ => by rw [Term.node, Matches, Term.Lang]
  | .single, _, _, _ => by rw [Term.node, Matches, Term.Lang]
  | .list not cs, b, w, h => by
    simp only [Term.ok, Bool.and_eq_true] at h
    rw [Term.node, Matches, Term.Lang, runesIn_textOf h.2]
  | .range not lo hi, b, w, h => by rw [Term.node, Matches, Term.Lang]
  | .alts p ps, b, w, h => by
    simp only [Term.ok, Bool.and_eq_true] at h
    rw [Term.node, Matches, Term.Lang, MatchesSome, Matches, terms_lang h.1, alts_lang h.2]
theorem terms_lang {seps : List Nat} : ∀ {ts : List Term} {b : Bool} {w : List Nat}, okTerms b ts = true → (MatchesSeq seps (nodes ts) w ↔ TermsLang seps ts w)
  | [], _, _, _ => by rw [nodes, MatchesSeq, TermsLang]
  | t :: ts, b, w, h => by
    simp only [okTerms, Bool.and_eq_true] at h
    rw [nodes, MatchesSeq, TermsLang]
    constructor
    · rintro ⟨u, v, rfl, h1, h2⟩
      exact ⟨u, v, rfl, (term_lang h.1.1).1 h1, (terms_lang h.2).1 h2⟩
    · rintro ⟨u, v, rfl, h1, h2⟩
      exact ⟨u, v, rfl, (term_lang h.1.1).2 h1, (terms_lang h.2).2 h2⟩
theorem alts_lang {seps : List Nat} : ∀ {ps : List (List Term)} {w : List Nat}, okAlts ps = true → (MatchesSome seps (patterns ps) w ↔ AltsLang seps ps w)
  | [], _, _ => by rw [patterns, MatchesSome, AltsLang]
  | p :: ps, w, h => by
    simp only [okAlts, Bool.and_eq_true] at h
    rw [patterns, MatchesSome, AltsLang, Matches, terms_lang h.1, alts_lang h.2]
end

/-- The tree of a documented pattern has the documented meaning. -/
theorem pattern_lang {seps : List Nat} {ts : List Term} {w : List Nat} (h : okTerms false ts = true) : Matches seps (.pattern (nodes ts)) w ↔ TermsLang seps ts w := by
  rw [Matches, terms_lang h]

end Verif.Glob
