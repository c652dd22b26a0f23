import Verif.Glob.Props
import Verif.Glob.Split
/-
C113: patterns of one term other than braces, on every string of bytes.
-/
namespace Verif.Glob

/-- The runes a pattern of one term sees: those of the string, where a byte that is not part of valid UTF-8 counts as U+FFFD; for `?` and classes the empty string counts as U+FFFD too. -/
def seen (t : Term) (s : Str) : List Nat := if oneRuneTerm t ∧ s = [] then [0xFFFD] else (runesOf s).map Prod.fst

theorem runesOf_cons (b : UInt8) (s : Str) : runesOf (b :: s) = decodeRune (b :: s) :: runesAux s.length ((b :: s).drop (decodeRune (b :: s)).2) := rfl

theorem oneRune_iff (p : Nat → Bool) (s : Str) : oneRune p s = true ↔ ∃ r, (if s = [] then [0xFFFD] else (runesOf s).map Prod.fst) = [r] ∧ p r = true := by
  unfold oneRune
  by_cases h0 : s = []
  · subst h0; simp [decodeRune, runeError]
  obtain ⟨b, t, e⟩ := List.exists_cons_of_ne_nil h0
  have h1 := (decodeRune_size s).2 h0
  have hr : runesOf s = decodeRune s :: runesAux t.length (s.drop (decodeRune s).2) := by rw [e]; exact runesOf_cons b t
  have hlen : s.length = t.length + 1 := by rw [e]; rfl
  rw [if_neg h0, hr, List.map_cons]
  by_cases hl : s.length > (decodeRune s).2
  · rw [if_pos hl]
    simp only [Bool.false_eq_true, false_iff, not_exists, not_and]
    intro r e2
    exfalso
    simp only [List.cons.injEq, List.map_eq_nil_iff] at e2
    cases hd : s.drop (decodeRune s).2 with
    | nil => rw [List.drop_eq_nil_iff] at hd; omega
    | cons c cs =>
      rw [hd] at e2
      cases hn : t.length with
      | zero => omega
      | succ n => rw [hn, runesAux] at e2; simp at e2
  · rw [if_neg hl]
    have hd : s.drop (decodeRune s).2 = [] := List.drop_eq_nil_of_le (by omega)
    rw [hd]
    have : runesAux t.length [] = [] := by cases t.length <;> rfl
    rw [this]
    simp

theorem eq_encode_iff {r : Nat} (hg : goodRune r = true) (s : Str) : s = encodeRune r ↔ (runesOf s).map Prod.fst = [r] := by
  have hne : r ≠ runeError := by
    rintro rfl; revert hg; decide
  constructor
  · rintro rfl
    have := runesIn_encode hg []
    rw [List.append_nil] at this
    exact this
  · intro h
    obtain ⟨b, s, rfl⟩ : ∃ b t, s = b :: t := by
      cases s with
      | nil => cases h
      | cons b t => exact ⟨b, t, rfl⟩
    have hr : runesOf (b :: s) = decodeRune (b :: s) :: runesAux s.length ((b :: s).drop (decodeRune (b :: s)).2) := rfl
    rw [hr, List.map_cons, List.cons.injEq, List.map_eq_nil_iff] at h
    have hd : (b :: s).drop (decodeRune (b :: s)).2 = [] := by
      cases hd : (b :: s).drop (decodeRune (b :: s)).2 with
      | nil => rfl
      | cons c cs =>
        exfalso
        have h2 := h.2
        rw [hd] at h2
        have := congrArg List.length hd
        have h1 := (decodeRune_size (b :: s)).2 (by simp)
        simp only [List.length_drop, List.length_cons] at this
        cases hn : s.length with
        | zero => omega
        | succ n => rw [hn, runesAux] at h2; cases h2
    have hl := (decodeRune_local (s := b :: s) (r := r) (w := (decodeRune (b :: s)).2) (by rw [← h.1]) hne).1
    rw [List.drop_eq_nil_iff] at hd
    rw [hl, List.take_of_length_le hd]

theorem minimize_single (m : Matcher) : minimizeMatchers 2 [m] = some [m] := rfl

theorem compile_one (seps : List Nat) (n : Nat) (t : Node) (m : Matcher) (h : compile seps n t = .ok m) (hm : optimizeMatcher m = m) :
    compile seps (n + 1) (.pattern [t]) = .ok m := by
  simp [compile, compileChildren, h, minimize_single, compileMatchers, hm]

/-- **C113** A pattern that is one term (a text, `*`, `**`, `?` or a class) matches a string of bytes if and only if the term, as documented, matches its runes. -/
theorem C113_one_term (seps : List Nat) (t : Term) (hn : ∀ p ps, t ≠ .alts p ps) (h : okTerms false [t] = true) (s : Str) :
    ∃ b, globMatch (writeTerms [t]) seps s = some (some b) ∧
      (b = true ↔ match t with
        | .chars cs => s = textOf cs
        | t => t.Lang seps (seen t s)) := by
  have hp := C75_parse_documented [t] h
  cases t with
  | chars cs => 
    have hm : compile seps (Node.pattern (nodes [.chars cs])).size (.pattern (nodes [.chars cs])) = .ok (.text (textOf cs)) := rfl
    rw [globMatch, globCompile, hp]
    simp only [hm, Matcher.match]
    exact ⟨_, rfl, by simp [eq_comm]⟩
  | any =>
    rw [globMatch, globCompile, hp]
    by_cases h0 : seps.length = 0
    · have hm : compile seps (Node.pattern (nodes [.any])).size (.pattern (nodes [.any])) = .ok .super := by
        rw [List.length_eq_zero_iff.1 h0]; rfl
      simp only [hm, Matcher.match]
      exact ⟨_, rfl, by simp [Term.Lang, List.length_eq_zero_iff.1 h0]⟩
    · have hm : compile seps (Node.pattern (nodes [.any])).size (.pattern (nodes [.any])) = .ok (.any seps) := by
        have : optimizeMatcher (.any seps) = .any seps := by rw [optimizeMatcher, if_neg h0]
        have h2 : compile seps 1 .any = .ok (.any seps) := by show Res.ok (optimizeMatcher (.any seps)) = _; rw [this]
        exact compile_one seps 1 .any _ h2 this
      simp only [hm, Matcher.match]
      refine ⟨_, rfl, ?_⟩
      rw [indexAnyRunes_isNone]
      simp [Term.Lang, seen, oneRuneTerm, runesIn]
  | super =>
    have hm : compile seps (Node.pattern (nodes [.super])).size (.pattern (nodes [.super])) = .ok .super := rfl
    rw [globMatch, globCompile, hp]
    simp only [hm, Matcher.match]
    exact ⟨_, rfl, by simp [Term.Lang]⟩
  | single =>
    have hm : compile seps (Node.pattern (nodes [.single])).size (.pattern (nodes [.single])) = .ok (.single seps) := rfl
    rw [globMatch, globCompile, hp]
    simp only [hm, Matcher.match]
    refine ⟨_, rfl, ?_⟩
    rw [oneRune_iff]
    simp [Term.Lang, seen, oneRuneTerm]
  | list not cs =>
    have hc : cs.all (Ch.ok [93]) = true := by
      simp only [okTerms, Term.ok, apart, Bool.and_true, Bool.and_eq_true] at h; exact h.2
    have e : (runesOf (textOf cs)).map Prod.fst = cs.map Ch.rune := runesIn_textOf hc
    rw [globMatch, globCompile, hp]
    have hidem : optimizeMatcher (optimizeMatcher (.list (cs.map Ch.rune) not)) = optimizeMatcher (.list (cs.map Ch.rune) not) := by
      rw [optimizeMatcher]
      split
      · rw [optimizeMatcher] <;> simp
      · rename_i h1; rw [optimizeMatcher, if_neg h1]
    have hm : compile seps (Node.pattern (nodes [.list not cs])).size (.pattern (nodes [.list not cs])) = .ok (optimizeMatcher (.list (cs.map Ch.rune) not)) := by
      rw [← e] at hidem ⊢; exact compile_one seps 1 (.list not (textOf cs)) _ rfl hidem
    simp only [hm]
    simp only [optimizeMatcher]
    by_cases h1 : (not = false && (cs.map Ch.rune).length = 1) = true
    · rw [if_pos h1]
      simp only [Bool.and_eq_true, decide_eq_true_eq, List.length_map] at h1
      obtain ⟨rfl, h1⟩ := h1
      obtain ⟨c, rfl⟩ := List.length_eq_one_iff.1 h1
      have hg := Ch.ok_good (List.all_eq_true.1 hc c (by simp))
      have hne : c.rune ≠ 0xFFFD := by
        intro h0; rw [h0] at hg; revert hg; decide
      simp only [Matcher.match, Term.Lang, seen, oneRuneTerm, true_and, List.map_cons, List.map_nil, List.mem_singleton, iff_true, List.flatMap_cons, List.flatMap_nil, List.append_nil]
      refine ⟨_, rfl, ?_⟩
      simp only [decide_eq_true_eq]
      rw [eq_comm, eq_encode_iff hg]
      constructor
      · intro h2
        refine ⟨_, ?_, rfl⟩
        rw [if_neg]
        · exact h2
        · rintro rfl; cases h2
      · rintro ⟨r, h2, rfl⟩
        split at h2
        · simp only [List.cons.injEq, and_true] at h2; exact absurd h2.symm hne
        · exact h2
    rw [if_neg h1]
    simp only [Matcher.match]
    refine ⟨_, rfl, ?_⟩
    rw [oneRune_iff]
    simp only [Term.Lang, seen, oneRuneTerm, true_and]
    refine exists_congr fun r => and_congr_right fun _ => ?_
    rw [inList]
    have : (cs.map Ch.rune).contains r = decide (r ∈ cs.map Ch.rune) := by simp
    rw [this]
    by_cases hr : r ∈ cs.map Ch.rune <;> cases not <;> simp [hr]
  | range not lo hi =>
    have hm : compile seps (Node.pattern (nodes [.range not lo hi])).size (.pattern (nodes [.range not lo hi])) = .ok (.range lo hi not) := rfl
    rw [globMatch, globCompile, hp]
    simp only [hm, Matcher.match]
    refine ⟨_, rfl, ?_⟩
    rw [oneRune_iff]
    simp only [Term.Lang, seen, oneRuneTerm, true_and]
    refine exists_congr fun r => and_congr_right fun _ => ?_
    rw [inRange]
    by_cases h1 : lo ≤ r <;> by_cases h2 : r ≤ hi <;> cases not <;> simp [h1, h2]
  | alts p ps => exact absurd rfl (hn p ps)

/-- Terms of each kind meet the hypotheses. -/
example : okTerms false [.chars (plains (lit "a/b"))] = true ∧ okTerms false [.single] = true ∧ okTerms false [.list false [.plain 97]] = true ∧
    okTerms false [.list true (plains (lit "ab"))] = true ∧ okTerms false [.range true 97 122] = true := by decide +kernel

/-- A byte that is not UTF-8 counts as one rune, two of them as two. -/
example : globMatch (lit "?") [] [0xFF] = some (some true) ∧ globMatch (lit "?") [] [0xFF, 0xFE] = some (some false) ∧ globMatch (lit "[a]") [] [] = some (some false) ∧
    globMatch (lit "[!a]") [] [0xC3, 0xA9] = some (some true) ∧ globMatch (lit "*") [47] [0xFF, 47] = some (some false) := by decide +kernel

end Verif.Glob
