import Verif.Glob.Wide
/-
C141: the order of the alternatives of braces.
-/
namespace Verif.Glob

theorem altsLang_iff {seps : List Nat} {w : List Nat} : ∀ {ps : List (List Term)}, AltsLang seps ps w ↔ ∃ p ∈ ps, TermsLang seps p w
  | [] => by simp [AltsLang]
  | p :: ps => by rw [AltsLang, altsLang_iff]; simp

theorem lang_alts {seps : List Nat} {w : List Nat} {p : List Term} {ps : List (List Term)} : (Term.alts p ps).Lang seps w ↔ ∃ q ∈ p :: ps, TermsLang seps q w := by
  rw [Term.Lang, altsLang_iff]; simp

theorem termsLang_congr {seps : List Nat} {t u : Term} (h : ∀ w, t.Lang seps w ↔ u.Lang seps w) (post : List Term) : ∀ (pre : List Term) (w : List Nat),
    TermsLang seps (pre ++ t :: post) w ↔ TermsLang seps (pre ++ u :: post) w
  | [], w => by simp only [List.nil_append, TermsLang, h]
  | x :: pre, w => by simp only [List.cons_append, TermsLang, termsLang_congr h post pre]

/-- C141 as documented: two patterns that differ in the order of the alternatives of braces in them, and of how often one is repeated, mean the same. -/
theorem C141_language (seps : List Nat) (pre post p q : List Term) (ps qs : List (List Term)) (h : ∀ x, x ∈ p :: ps ↔ x ∈ q :: qs) (w : List Nat) :
    TermsLang seps (pre ++ .alts p ps :: post) w ↔ TermsLang seps (pre ++ .alts q qs :: post) w :=
  termsLang_congr (fun w => by rw [lang_alts, lang_alts]; simp only [h]) post pre w

/-- C141 for patterns that satisfy the conditions of `C57_wide_partial` in both orders, and ASCII subjects: both compile, and `Match` has the same result. Missing: the patterns
for which it is false (`C141_order_false`), and those that are not covered. -/
theorem C141_order_partial (seps : List Nat) (pre post p q : List Term) (ps qs : List (List Term)) (hpq : ∀ x, x ∈ p :: ps ↔ x ∈ q :: qs)
    (h1 : wideOk seps (pre ++ .alts p ps :: post) = true) (h2 : wideOk seps (pre ++ .alts q qs :: post) = true) :
    ∃ m m', globCompile (writeTerms (pre ++ .alts p ps :: post)) seps = .ok m ∧ globCompile (writeTerms (pre ++ .alts q qs :: post)) seps = .ok m' ∧
      ∀ s, Ascii s → s ≠ [] → m.match s = m'.match s ∧ m.match s ≠ none := by
  obtain ⟨m, e1, d1⟩ := C57_wide_partial seps _ h1
  obtain ⟨m', e2, d2⟩ := C57_wide_partial seps _ h2
  refine ⟨m, m', e1, e2, fun s ha hne => ?_⟩
  obtain ⟨b, f1, g1⟩ := d1 s ha (Or.inl hne)
  obtain ⟨b', f2, g2⟩ := d2 s ha (Or.inl hne)
  rw [C141_language seps pre post p q ps qs hpq, ← g2] at g1
  rw [f1, f2, Bool.eq_iff_iff.2 g1]
  exact ⟨rfl, by simp⟩

/-- The same for valid UTF-8. -/
theorem C141_utf8_partial (seps : List Nat) (pre post p q : List Term) (ps qs : List (List Term)) (hs : ∀ r ∈ seps, validRune r = true) (hpq : ∀ x, x ∈ p :: ps ↔ x ∈ q :: qs)
    (h1 : wideOk seps (pre ++ .alts p ps :: post) = true) (h2 : wideOk seps (pre ++ .alts q qs :: post) = true)
    (a1 : wideAscii (pre ++ .alts p ps :: post) = true) (a2 : wideAscii (pre ++ .alts q qs :: post) = true) :
    ∃ m m', globCompile (writeTerms (pre ++ .alts p ps :: post)) seps = .ok m ∧ globCompile (writeTerms (pre ++ .alts q qs :: post)) seps = .ok m' ∧
      ∀ w : List Nat, (∀ r ∈ w, validRune r = true) → w ≠ [] → m.match (w.flatMap encodeRune) = m'.match (w.flatMap encodeRune) ∧ m.match (w.flatMap encodeRune) ≠ none := by
  obtain ⟨m, e1, d1⟩ := C57_utf8_wide_partial seps _ hs h1 a1
  obtain ⟨m', e2, d2⟩ := C57_utf8_wide_partial seps _ hs h2 a2
  refine ⟨m, m', e1, e2, fun s ha hne => ?_⟩
  obtain ⟨b, f1, g1⟩ := d1 s ha (Or.inl hne)
  obtain ⟨b', f2, g2⟩ := d2 s ha (Or.inl hne)
  rw [C141_language seps pre post p q ps qs hpq, ← g2] at g1
  rw [f1, f2, Bool.eq_iff_iff.2 g1]
  exact ⟨rfl, by simp⟩

/-- The terms of `src/{doc*,*.go}`, which is `src/{*.go,doc*}` in the other order. -/
theorem C141_order_case : wideOk [47] caseWide = true ∧ wideAscii caseWide = true ∧
    caseWide = [.chars (plains (lit "src/"))] ++ .alts [.any, .chars (plains (lit ".go"))] [[.chars (plains (lit "doc")), .any]] :: [] ∧
    wideOk [47] ([.chars (plains (lit "src/"))] ++ .alts [.chars (plains (lit "doc")), .any] [[.any, .chars (plains (lit ".go"))]] :: []) = true ∧
    wideAscii ([.chars (plains (lit "src/"))] ++ .alts [.chars (plains (lit "doc")), .any] [[.any, .chars (plains (lit ".go"))]] :: []) = true ∧
    (∀ x, x ∈ [Term.any, .chars (plains (lit ".go"))] :: [[.chars (plains (lit "doc")), .any]] ↔ x ∈ [.chars (plains (lit "doc")), .any] :: [[Term.any, .chars (plains (lit ".go"))]]) := by
  refine ⟨by decide +kernel, by decide +kernel, rfl, by decide +kernel, by decide +kernel, fun x => ?_⟩
  simp only [List.mem_cons, List.not_mem_nil, or_false]
  exact or_comm

/-- C141 is false: the order of the alternatives matters to `Match`. `src/{*.go,README}` does not match `src/main.go`, and `src/{README,*.go}` does; `x{ab,*}` matches `xyz`
and `x{*,ab}` does too, but `xa` only the first. -/
theorem C141_order_false : globMatch (lit "src/{*.go,README}") [47] (lit "src/main.go") = some (some false) ∧ globMatch (lit "src/{README,*.go}") [47] (lit "src/main.go") = some (some true) ∧
    globMatch (lit "x{ab,*}") [] (lit "xyz") = some (some true) ∧ globMatch (lit "x{*,ab}") [] (lit "xyz") = some (some true) ∧
    globMatch (lit "x{ab,*}") [] (lit "xa") = some (some true) ∧ globMatch (lit "x{*,ab}") [] (lit "xa") = some (some false) := by
  decide +kernel

end Verif.Glob
