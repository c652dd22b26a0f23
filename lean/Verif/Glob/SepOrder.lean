import Verif.Glob.Wide
import Verif.Glob.Stars
/-
C145: which of the separators given to `Compile` matter: not their order, not how often one is given, and not those that the subject does not contain.
-/
namespace Verif.Glob

mutual
theorem lang_seps {seps seps' : List Nat} : ∀ (t : Term) (w : List Nat), (∀ r ∈ w, r ∈ seps ↔ r ∈ seps') → (t.Lang seps w ↔ t.Lang seps' w)
  | .chars cs, w, _ => by simp only [Term.Lang]
  | .any, w, h => by
    simp only [Term.Lang]
    exact ⟨fun g r hr hm => g r hr ((h r hr).2 hm), fun g r hr hm => g r hr ((h r hr).1 hm)⟩
  | .super, w, _ => by simp only [Term.Lang]
  | .single, w, h => by
    simp only [Term.Lang]
    constructor
    · rintro ⟨r, rfl, hr⟩; exact ⟨r, rfl, fun hm => hr ((h r (by simp)).2 hm)⟩
    · rintro ⟨r, rfl, hr⟩; exact ⟨r, rfl, fun hm => hr ((h r (by simp)).1 hm)⟩
  | .list not cs, w, _ => by simp only [Term.Lang]
  | .range not lo hi, w, _ => by simp only [Term.Lang]
  | .alts p ps, w, h => by rw [Term.Lang, Term.Lang, terms_seps p w h, alts_seps ps w h]
theorem terms_seps {seps seps' : List Nat} : ∀ (ts : List Term) (w : List Nat), (∀ r ∈ w, r ∈ seps ↔ r ∈ seps') → (TermsLang seps ts w ↔ TermsLang seps' ts w)
  | [], w, _ => by simp only [TermsLang]
  | t :: ts, w, h => by
    simp only [TermsLang]
    constructor
    · rintro ⟨u, v, rfl, a, b⟩
      exact ⟨u, v, rfl, (lang_seps t u fun r hr => h r (by simp [hr])).1 a, (terms_seps ts v fun r hr => h r (by simp [hr])).1 b⟩
    · rintro ⟨u, v, rfl, a, b⟩
      exact ⟨u, v, rfl, (lang_seps t u fun r hr => h r (by simp [hr])).2 a, (terms_seps ts v fun r hr => h r (by simp [hr])).2 b⟩
theorem alts_seps {seps seps' : List Nat} : ∀ (ps : List (List Term)) (w : List Nat), (∀ r ∈ w, r ∈ seps ↔ r ∈ seps') → (AltsLang seps ps w ↔ AltsLang seps' ps w)
  | [], w, _ => by simp only [AltsLang]
  | p :: ps, w, h => by rw [AltsLang, AltsLang, terms_seps p w h, alts_seps ps w h]
end

/-- C145 as documented: whether a sequence of runes is in the language of a pattern depends only on which of its own runes are separators. -/
theorem C145_language (seps seps' : List Nat) (ts : List Term) (w : List Nat) (h : ∀ r ∈ w, r ∈ seps ↔ r ∈ seps') : TermsLang seps ts w ↔ TermsLang seps' ts w :=
  terms_seps ts w h

/-- C145 for patterns of characters, `*` and `**` as in C91 and strings of any bytes: two lists of separators of which the string has the same give the same result. -/
theorem C145_stars_partial (seps seps' : List Nat) (ts : List Term) (hok : okTerms false ts = true) (hp : ts.all plainTerm = true) (hn : noTwoStars ts = true)
    (h1 : endsApart seps ts = true) (h2 : endsApart seps' ts = true) :
    ∃ m m', globCompile (writeTerms ts) seps = .ok m ∧ globCompile (writeTerms ts) seps' = .ok m' ∧
      ∀ s, (∀ r ∈ runesIn s, r ∈ seps ↔ r ∈ seps') → m.match s = m'.match s ∧ m.match s ≠ none := by
  obtain ⟨m, e1, d1⟩ := C91_literals_and_stars seps ts hok hp hn h1
  obtain ⟨m', e2, d2⟩ := C91_literals_and_stars seps' ts hok hp hn h2
  refine ⟨m, m', e1, e2, fun s hs => ?_⟩
  obtain ⟨b, f1, g1⟩ := d1 s
  obtain ⟨b', f2, g2⟩ := d2 s
  rw [C145_language seps seps' ts _ hs, ← g2] at g1
  rw [f1, f2, Bool.eq_iff_iff.2 g1]
  exact ⟨rfl, by simp⟩

/-- A pattern as in C91 for which `endsApart` fails is a text, a star that excludes nothing, and a text. -/
theorem not_endsApart {seps : List Nat} {ts : List Term} (hp : ts.all plainTerm = true) (hn : noTwoStars ts = true) (h : endsApart seps ts = false) :
    ∃ cs t ds, ts = [.chars cs, t, .chars ds] ∧ (t = .super ∨ (t = .any ∧ seps = [])) := by
  unfold endsApart at h
  have tx : ∀ t, plainTerm t = true → ∀ s, theText t = some s → ∃ cs, t = .chars cs := by
    intro t ht s e
    cases t with
    | chars cs => exact ⟨cs, rfl⟩
    | any => cases e
    | super => cases e
    | single => cases ht
    | list _ _ => cases ht
    | range _ _ _ => cases ht
    | alts _ _ => cases ht
  split at h
  · rename_i p q ea eb
    rw [Bool.or_eq_false_iff, Bool.not_eq_false', Bool.and_eq_true, decide_eq_true_eq] at h
    obtain ⟨⟨hl, hs⟩, -⟩ := h
    rcases ts with _ | ⟨a, _ | ⟨b, _ | ⟨c, rest⟩⟩⟩
    · simp at hl
    · simp at hl
    · simp at hl
    · rcases rest with _ | ⟨d, rest⟩
      · simp only [List.all_cons, List.all_nil, Bool.and_true, Bool.and_eq_true] at hp
        obtain ⟨cs, rfl⟩ := tx a hp.1 p (by simpa using ea)
        obtain ⟨ds, rfl⟩ := tx c hp.2.2 q (by simpa using eb)
        refine ⟨cs, b, ds, rfl, ?_⟩
        simp only [List.tail_cons, List.dropLast_cons_cons, List.dropLast_singleton, List.all_cons, List.all_nil, Bool.and_true, Bool.and_eq_true, beq_iff_eq] at hs
        cases b with
        | any => exact Or.inr ⟨rfl, by simpa [excludes] using hs.2⟩
        | super => exact Or.inl rfl
        | chars _ => cases hs.1
        | single => cases hs.1
        | list _ _ => cases hs.1
        | range _ _ _ => cases hs.1
        | alts _ _ => cases hs.1
      · exfalso
        simp only [List.tail_cons, List.dropLast_cons_cons, List.all_cons, Bool.and_eq_true] at hs
        simp only [noTwoStars, Bool.and_eq_true, Bool.not_eq_true'] at hn
        have h1 := hs.1.1
        have h2 := hs.2.1.1
        rw [h1, h2] at hn
        exact absurd hn.2.1 (by simp)
  · cases h

/-- C145 for all patterns as in C91 and strings of any bytes: neither the order of the separators matters nor how often one is given. -/
theorem C145_order_stars (seps seps' : List Nat) (hset : ∀ r, r ∈ seps ↔ r ∈ seps') (ts : List Term) (hok : okTerms false ts = true) (hp : ts.all plainTerm = true)
    (hn : noTwoStars ts = true) :
    ∃ m m', globCompile (writeTerms ts) seps = .ok m ∧ globCompile (writeTerms ts) seps' = .ok m' ∧ ∀ s, m.match s = m'.match s ∧ m.match s ≠ none := by
  have hnil : seps = [] ↔ seps' = [] := by
    rw [List.eq_nil_iff_forall_not_mem, List.eq_nil_iff_forall_not_mem]
    simp only [hset]
  have text : ∀ cs t ds, ts = [.chars cs, t, .chars ds] → (t = .super ∨ (t = .any ∧ seps = [])) →
      ∃ m m', globCompile (writeTerms ts) seps = .ok m ∧ globCompile (writeTerms ts) seps' = .ok m' ∧ ∀ s, m.match s = m'.match s ∧ m.match s ≠ none := by
    rintro cs t ds rfl ht
    obtain ⟨m, e1, d1⟩ := C91_text_star_text seps cs ds t ht hok
    obtain ⟨m', e2, d2⟩ := C91_text_star_text seps' cs ds t (ht.imp id fun h => ⟨h.1, hnil.1 h.2⟩) hok
    refine ⟨m, m', e1, e2, fun s => ?_⟩
    obtain ⟨b, f1, g1⟩ := d1 s
    obtain ⟨b', f2, g2⟩ := d2 s
    rw [← g2] at g1
    rw [f1, f2, Bool.eq_iff_iff.2 g1]
    exact ⟨rfl, by simp⟩
  cases h1 : endsApart seps ts with
  | false =>
    obtain ⟨cs, t, ds, e, ht⟩ := not_endsApart hp hn h1
    exact text cs t ds e ht
  | true =>
    cases h2 : endsApart seps' ts with
    | false =>
      obtain ⟨cs, t, ds, e, ht⟩ := not_endsApart hp hn h2
      exact text cs t ds e (ht.imp id fun h => ⟨h.1, hnil.2 h.2⟩)
    | true =>
      obtain ⟨m, m', e1, e2, d⟩ := C145_stars_partial seps seps' ts hok hp hn h1 h2
      exact ⟨m, m', e1, e2, fun s => d s fun r _ => hset r⟩

/-- C145 for patterns that satisfy the conditions of `C57_wide_partial` with both lists, and ASCII subjects. Missing: the patterns for which it is false (`C145_order_false`,
`C145_absent_false`), and those that are not covered. -/
theorem C145_wide_partial (seps seps' : List Nat) (ts : List Term) (h1 : wideOk seps ts = true) (h2 : wideOk seps' ts = true) :
    ∃ m m', globCompile (writeTerms ts) seps = .ok m ∧ globCompile (writeTerms ts) seps' = .ok m' ∧
      ∀ s, Ascii s → s ≠ [] → (∀ b ∈ s, b.toNat ∈ seps ↔ b.toNat ∈ seps') → m.match s = m'.match s ∧ m.match s ≠ none := by
  obtain ⟨m, e1, d1⟩ := C57_wide_partial seps ts h1
  obtain ⟨m', e2, d2⟩ := C57_wide_partial seps' ts h2
  refine ⟨m, m', e1, e2, fun s ha hne hs => ?_⟩
  obtain ⟨b, f1, g1⟩ := d1 s ha (Or.inl hne)
  obtain ⟨b', f2, g2⟩ := d2 s ha (Or.inl hne)
  rw [C145_language seps seps' ts _ (by simpa using hs), ← g2] at g1
  rw [f1, f2, Bool.eq_iff_iff.2 g1]
  exact ⟨rfl, by simp⟩

/-- The same for valid UTF-8. -/
theorem C145_utf8_partial (seps seps' : List Nat) (ts : List Term) (hs : ∀ r ∈ seps, validRune r = true) (hs' : ∀ r ∈ seps', validRune r = true)
    (h1 : wideOk seps ts = true) (h2 : wideOk seps' ts = true) (ha : wideAscii ts = true) :
    ∃ m m', globCompile (writeTerms ts) seps = .ok m ∧ globCompile (writeTerms ts) seps' = .ok m' ∧
      ∀ w : List Nat, (∀ r ∈ w, validRune r = true) → w ≠ [] → (∀ r ∈ w, r ∈ seps ↔ r ∈ seps') →
        m.match (w.flatMap encodeRune) = m'.match (w.flatMap encodeRune) ∧ m.match (w.flatMap encodeRune) ≠ none := by
  obtain ⟨m, e1, d1⟩ := C57_utf8_wide_partial seps ts hs h1 ha
  obtain ⟨m', e2, d2⟩ := C57_utf8_wide_partial seps' ts hs' h2 ha
  refine ⟨m, m', e1, e2, fun w hv hne hw => ?_⟩
  obtain ⟨b, f1, g1⟩ := d1 w hv (Or.inl hne)
  obtain ⟨b', f2, g2⟩ := d2 w hv (Or.inl hne)
  rw [C145_language seps seps' ts _ hw, ← g2] at g1
  rw [f1, f2, Bool.eq_iff_iff.2 g1]
  exact ⟨rfl, by simp⟩

/-- Cases: `src/{*.go,doc*}` with the separators `/` and with `/`, `.`, `/`, of which `src/doc` has the same; `a*b**c` with `/` and `.` in both orders. -/
theorem C145_case : wideOk [47] caseWide = true ∧ wideOk [47, 46, 47] caseWide = true ∧ wideAscii caseWide = true ∧
    (∀ b ∈ lit "src/doc", b.toNat ∈ [47] ↔ b.toNat ∈ [47, 46, 47]) ∧ globMatch (writeTerms caseWide) [47, 46, 47] (lit "src/doc") = some (some true) ∧
    (let ts := [Term.chars (plains (lit "a")), .any, .chars (plains (lit "b")), .super, .chars (plains (lit "c"))]
     okTerms false ts = true ∧ ts.all plainTerm = true ∧ noTwoStars ts = true ∧ endsApart [46, 47] ts = true) ∧ (∀ r, r ∈ [46, 47] ↔ r ∈ [47, 46, 47]) := by
  refine ⟨by decide +kernel, by decide +kernel, by decide +kernel, by decide, by decide +kernel, by decide +kernel, fun r => ?_⟩
  simp only [List.mem_cons, List.not_mem_nil, or_false]
  tauto

/-- C145 is false: the order of the separators matters to `*?` and `?*`. With `/` and `.` both match `./`, which is made of two separators; with `.` and `/` they do not. -/
theorem C145_order_false : globMatch (lit "*?") [47, 46] (lit "./") = some (some true) ∧ globMatch (lit "*?") [46, 47] (lit "./") = some (some false) ∧
    globMatch (lit "?*") [47, 46] (lit "./") = some (some true) ∧ globMatch (lit "?*") [46, 47] (lit "./") = some (some false) := by decide +kernel

/-- C145 is false: a separator that is not in the subject matters to `ab*ba`. -/
theorem C145_absent_false : globMatch (lit "ab*ba") [] (lit "aba") = some (some true) ∧ globMatch (lit "ab*ba") [47] (lit "aba") = some (some false) ∧
    (47 : UInt8) ∉ lit "aba" := by decide +kernel

end Verif.Glob
