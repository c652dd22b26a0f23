import Verif.Glob.FlatProps
/-
C57, C58, C59, with cases.
-/
namespace Verif.Glob

/-- `Compile(pattern, seps...)` and then `Match(s)`: `none` if it does not compile, `some none` if `Match` panics. -/
def globMatch (pattern : Str) (seps : List Nat) (s : Str) : Option (Option Bool) :=
  match globCompile pattern seps with
  | .ok m => some (m.match s)
  | _ => none

/-- A run of characters as they are. -/
def plains (s : Str) : List Ch := s.map fun b => .plain b.toNat

/-! ### C57 -/

/-- C57, by a check of the compiled matcher: if a pattern parses, and the matcher that it compiles to passes the check `wellBehaved`, then `Match` of an ASCII string does
not panic and decides the documented language of the tree of the pattern. -/
theorem C57_checked_partial {pattern : Str} {seps : List Nat} {t : Node} {m : Matcher} (hp : parse pattern = .ok t) (hc : globCompile pattern seps = .ok m)
    (hw : wellBehaved m = true) {s : Str} (ha : Ascii s) : ∃ b, m.match s = some b ∧ (b = true ↔ Matches seps t (s.map UInt8.toNat)) := by
  rw [globCompile, hp] at hc
  obtain ⟨b, e1, e2⟩ := wellBehaved_ok hw ha
  exact ⟨b, e1, e2.trans (compile_implements seps _ _ _ hc s ha)⟩

/-- The same for patterns of documented terms. -/
theorem C57_documented_partial {ts : List Term} {seps : List Nat} {m : Matcher} (hok : okTerms false ts = true) (hc : globCompile (writeTerms ts) seps = .ok m)
    (hw : wellBehaved m = true) {s : Str} (ha : Ascii s) : ∃ b, m.match s = some b ∧ (b = true ↔ TermsLang seps ts (s.map UInt8.toNat)) := by
  obtain ⟨b, e1, e2⟩ := C57_checked_partial (C75_parse_documented ts hok) hc hw ha
  exact ⟨b, e1, e2.trans (pattern_lang hok)⟩

/-- The check holds of `{*.go,*.md,src/**/?.[a-c]*}`, whose braces are not of literals, with the separator `/`. -/
theorem C57_checked_case : (match globCompile (lit "{*.go,*.md,src/**/?.[a-c]*}") [47] with
    | .ok m => wellBehaved m
    | _ => false) = true ∧ globMatch (lit "{*.go,*.md,src/**/?.[a-c]*}") [47] (lit "src/x/y/z.bat") = some (some true) ∧
    globMatch (lit "{*.go,*.md,src/**/?.[a-c]*}") [47] (lit "src/x.md") = some (some false) := by decide +kernel

/-- The terms of `ab*/[!cd]?{x,yz,}[k-p]**\*`. -/
def caseTerms : List Term := [.chars (plains (lit "ab")), .any, .chars (plains (lit "/")), .list true (plains (lit "cd")), .single,
  .alts [.chars (plains (lit "x"))] [[.chars (plains (lit "yz"))], []], .range false 107 112, .super, .chars [.esc 42]]

/-- They meet the conditions of `C57_flat_partial` for separators `/`. -/
theorem C57_flat_case : flatOk [47] caseTerms = true ∧ emptyOk [47] caseTerms = true ∧ writeTerms caseTerms = lit "ab*/[!cd]?{x,yz,}[k-p]**\\*" ∧
    globMatch (writeTerms caseTerms) [47] (lit "abcd/wwyzk/zz*") = some (some true) ∧ globMatch (writeTerms caseTerms) [47] (lit "ab/c/wwyzk*") = some (some false) := by
  decide +kernel

/-- They meet the condition of `C75_parse_documented`, and so do nested braces. -/
theorem C75_case : okTerms false caseTerms = true ∧ okTerms false [.alts [.alts [.any, .chars (plains (lit "a]"))] [[]], .single] [caseTerms.take 3]] = true ∧
    writeTerms [.alts [.alts [.any, .chars (plains (lit "a]"))] [[]], .single] [caseTerms.take 3]] = lit "{{*a],}?,ab*/}" := by decide +kernel

/-- C57 is false: a string that the pattern does not match though it is in its language: `{*,a}b` (the length of `{*,a}` is taken to be 1). -/
theorem C57_false : let ts := [Term.alts [.any] [[.chars (plains (lit "a"))]], .chars (plains (lit "b"))]
    okTerms false ts = true ∧ globMatch (writeTerms ts) [] (lit "xyb") = some (some false) ∧ TermsLang [] ts ((lit "xyb").map UInt8.toNat) := by
  refine ⟨by decide +kernel, by decide +kernel, ⟨[120, 121], [98], by decide, Or.inl ⟨[120, 121], [], rfl, ?_, rfl⟩, [98], [], rfl, by rw [Term.Lang]; decide, rfl⟩⟩
  simp [Term.Lang]

/-- And a string that is matched but not in the language: `[!ab][!ab]` matches `bb` (the second class is looked for as the text `ab`). -/
theorem C57_class_false : let ts := [Term.list true (plains (lit "ab")), .list true (plains (lit "ab"))]
    okTerms false ts = true ∧ globMatch (writeTerms ts) [] (lit "bb") = some (some true) ∧ ¬ TermsLang [] ts ((lit "bb").map UInt8.toNat) := by
  refine ⟨by decide +kernel, by decide +kernel, ?_⟩
  rintro ⟨u, v, e, ⟨r, rfl, hr⟩, -⟩
  simp only [List.singleton_append] at e
  have : r = 98 := by
    have e' : (lit "bb").map UInt8.toNat = [98, 98] := by decide
    rw [e'] at e
    exact (List.cons.inj e).1.symm
  subst this
  revert hr
  decide

/-- `*?` with the separators `.` and `/` matches `a.b`. -/
theorem C57_separators_false : let ts := [Term.any, .single]
    okTerms false ts = true ∧ globMatch (writeTerms ts) [46, 47] (lit "a.b") = some (some true) ∧ ¬ TermsLang [46, 47] ts ((lit "a.b").map UInt8.toNat) := by
  refine ⟨by decide +kernel, by decide +kernel, ?_⟩
  have e' : (lit "a.b").map UInt8.toNat = [97, 46, 98] := by decide
  rintro ⟨u, v, e, h, w, x, rfl, ⟨r, rfl, _⟩, rfl⟩
  rw [e'] at e
  have hu : u = [97, 46] := by
    have := congrArg List.dropLast e
    simpa using this.symm
  subst hu
  exact h 46 (by simp) (by simp)

/-- `***` (`**` and `*`) with a separator does not match the empty string. -/
theorem C57_stars_false : let ts := [Term.super, .any]
    okTerms false ts = true ∧ globMatch (writeTerms ts) [47] [] = some (some false) ∧ TermsLang [47] ts [] :=
  ⟨by decide +kernel, by decide +kernel, [], [], rfl, trivial, [], [], rfl, by simp [Term.Lang], rfl⟩

/-- `Match` panics: `a{}` and the string `a`. -/
theorem C57_panics : let ts := [Term.chars (plains (lit "a")), .alts [] []]
    okTerms false ts = true ∧ globMatch (writeTerms ts) [] (lit "a") = some none := by decide +kernel

/-- For strings that are not ASCII it is false also of simple patterns: `?[ab]` does not match `éb`. -/
theorem C57_unicode_false : let ts := [Term.single, .list false (plains (lit "ab"))]
    flatOk [] ts = true ∧ globMatch (writeTerms ts) [] ([0xC3, 0xA9] ++ lit "b") = some (some false) ∧ TermsLang [] ts (runesIn ([0xC3, 0xA9] ++ lit "b")) := by
  refine ⟨by decide +kernel, by decide +kernel, [0xE9], [98], by decide, ⟨0xE9, rfl, by simp⟩, [98], [], rfl, ⟨98, rfl, by decide⟩, rfl⟩

/-! ### C58 -/

/-- A term that stands for one rune: `?` or a class. -/
def oneRuneTerm : Term → Bool
  | .single => true
  | .list _ _ => true
  | .range _ _ _ => true
  | _ => false

theorem termsLang_pos {seps : List Nat} {ts : List Term} {t : Term} (ht : t ∈ ts) (h1 : oneRuneTerm t = true) : ¬ TermsLang seps ts [] := by
  induction ts with
  | nil => simp at ht
  | cons t' ts ih =>
    rintro ⟨u, v, e, h2, h3⟩
    obtain ⟨rfl, rfl⟩ := List.append_eq_nil_iff.1 e.symm
    rcases List.mem_cons.1 ht with rfl | ht
    · cases t <;> simp only [oneRuneTerm, Bool.false_eq_true] at h1
      all_goals
        obtain ⟨r, hr, _⟩ := h2
        cases hr
    · exact ih ht h3

/-- C58 for patterns with another term besides `?` or the class (as far as `C57_flat_partial` goes): they do not match the empty string. Missing: a `?` or a class
alone, of which it is false. -/
theorem C58_partial {seps : List Nat} {ts : List Term} {t : Term} (h : flatOk seps ts = true) (he : emptyOk seps ts = true) (ht : t ∈ ts) (h1 : oneRuneTerm t = true) :
    globMatch (writeTerms ts) seps [] = some (some false) := by
  obtain ⟨m, e, hm⟩ := C57_flat_partial seps ts h
  obtain ⟨b, e1, e2⟩ := hm [] (by intro x hx; simp at hx) (Or.inr he)
  rw [globMatch, e]
  simp only [e1, Option.some.injEq]
  cases b with
  | false => rfl
  | true => exact absurd (e2.1 rfl) (termsLang_pos ht h1)

/-- `caseTerms` has such terms. -/
theorem C58_case : Term.single ∈ caseTerms ∧ flatOk [47] caseTerms = true ∧ emptyOk [47] caseTerms = true := ⟨by simp [caseTerms], C57_flat_case.1, C57_flat_case.2.1⟩

/-- C58 is false of `?`: it matches the empty string, for all separators but those with U+FFFD among them. -/
theorem C58_single_false (seps : List Nat) : globMatch (lit "?") seps [] = some (some (!seps.contains 0xFFFD)) := by
  have hp : parse (lit "?") = .ok (.pattern [.single]) := C75_parse_documented [.single] rfl
  rw [globMatch, globCompile, hp]
  rfl

/-- C58 is false of every class `[!...]`: alone it matches the empty string. -/
theorem C58_class_false (seps : List Nat) (cs : List Ch) (h : okTerms false [.list true cs] = true) :
    globMatch (writeTerms [.list true cs]) seps [] = some (some true) := by
  have hc : cs.all (Ch.ok [93]) = true := by
    simp only [okTerms, Term.ok, apart, Bool.and_true, Bool.and_eq_true] at h; exact h.2
  have e : (runesOf (textOf cs)).map Prod.fst = cs.map Ch.rune := runesIn_textOf hc
  rw [globMatch, globCompile, C75_parse_documented _ h]
  have hm : compile seps (Node.pattern (nodes [.list true cs])).size (.pattern (nodes [.list true cs])) = .ok (.list (cs.map Ch.rune) true) := by
    rw [← e]; rfl
  simp only [hm]
  have : (cs.map Ch.rune).contains runeError = false := by
    rw [Bool.eq_false_iff]
    intro hx
    rw [List.contains_iff_mem, List.mem_map] at hx
    obtain ⟨c, hx, he⟩ := hx
    have := Ch.ok_good (List.all_eq_true.1 hc c hx)
    rw [he] at this
    revert this; decide
  show some (some (inList (cs.map Ch.rune) true runeError)) = _
  rw [inList, this]; rfl

/-! ### C59 -/

/-- The term of a run of characters, if there are any. -/
def charsTerm (cs : List Ch) : List Term := if cs.isEmpty then [] else [.chars cs]

/-- The pattern `p*q`. -/
def affixTerms (cs ds : List Ch) : List Term := charsTerm cs ++ .any :: charsTerm ds

/-- Every character of the run may be written so. -/
def charsOk (cs : List Ch) : Bool := cs.all (Ch.ok (specialRunes false))

theorem writeTerms_append (ts us : List Term) : writeTerms (ts ++ us) = writeTerms ts ++ writeTerms us := by
  induction ts with
  | nil => rfl
  | cons t ts ih => simp [writeTerms, ih]

theorem affix_write (cs ds : List Ch) : writeTerms (affixTerms cs ds) = writeChs cs ++ [42] ++ writeChs ds := by
  have e : ∀ xs, writeTerms (charsTerm xs) = writeChs xs := by
    intro xs
    cases xs <;> simp [charsTerm, writeTerms, writeChs, Term.write]
  rw [affixTerms, writeTerms_append, e]
  simp [writeTerms, Term.write, e]

theorem affix_ok {cs ds : List Ch} (h1 : charsOk cs = true) (h2 : charsOk ds = true) : okTerms false (affixTerms cs ds) = true := by
  cases cs <;> cases ds <;> simp_all [affixTerms, charsTerm, okTerms, Term.ok, apart, charsOk]

theorem affix_minimize {p q : Str} : minimizeMatchers 4 [.text p, .super, .text q] = some [.text p, .super, .text q] := by
  have : minimizeLoops [.text p, .super, .text q] = none := by
    simp [minimizeLoops, minimizeStep, glueMatchers, glueMatchersAsEvery, glueMatchersAsRow, gluable, glueLoop, lens, Matcher.len, sumLens, List.range_succ, Runes.equal]
  rw [minimizeMatchers, this]

theorem affix_compile {p q : Str} : ∃ m, compileMatchers 4 [.text p, .super, .text q] = .ok m ∧ optimizeMatcher m = .prefixSuffix p q := by
  have g3 : glueMatchers [.text p, .super, .text q] = none := by
    simp [glueMatchers, glueMatchersAsEvery, glueMatchersAsRow, gluable, lens, Matcher.len, sumLens]
  have g2 : glueMatchers [.text p, .super] = none := by
    simp [glueMatchers, glueMatchersAsEvery, glueMatchersAsRow, gluable, lens, Matcher.len, sumLens]
  have g2' : glueMatchers [.super, .text q] = none := by
    simp [glueMatchers, glueMatchersAsEvery, glueMatchersAsRow, gluable, glueLoop, lens, Matcher.len, sumLens, Runes.equal]
  by_cases h : (runesOf p).length ≤ (runesOf q).length
  · refine ⟨newBTree (.text q) (some (newBTree (.text p) none (some .super))) none, ?_, rfl⟩
    simp [compileMatchers, g3, g2, chooseValue, Matcher.len, h]
  · refine ⟨newBTree (.text p) none (some (newBTree (.text q) (some .super) none)), ?_, rfl⟩
    simp [compileMatchers, g3, g2', chooseValue, Matcher.len, h]

theorem prefix_minimize {p : Str} : minimizeMatchers 3 [.text p, .super] = some [.text p, .super] := by
  have : minimizeLoops [.text p, .super] = none := by
    simp [minimizeLoops, minimizeStep, glueMatchers, glueMatchersAsEvery, glueMatchersAsRow, gluable, glueLoop, lens, Matcher.len, sumLens, List.range_succ, Runes.equal]
  rw [minimizeMatchers, this]

theorem suffix_minimize {q : Str} : minimizeMatchers 3 [.super, .text q] = some [.super, .text q] := by
  have : minimizeLoops [.super, .text q] = none := by
    simp [minimizeLoops, minimizeStep, glueMatchers, glueMatchersAsEvery, glueMatchersAsRow, gluable, glueLoop, lens, Matcher.len, sumLens, List.range_succ, Runes.equal]
  rw [minimizeMatchers, this]

theorem prefix_compile {p : Str} : ∃ m, compileMatchers 3 [.text p, .super] = .ok m ∧ optimizeMatcher m = .prefix p := by
  have g2 : glueMatchers [.text p, .super] = none := by
    simp [glueMatchers, glueMatchersAsEvery, glueMatchersAsRow, gluable, lens, Matcher.len, sumLens]
  refine ⟨newBTree (.text p) none (some .super), ?_, rfl⟩
  simp [compileMatchers, g2, chooseValue, Matcher.len]

theorem suffix_compile {q : Str} : ∃ m, compileMatchers 3 [.super, .text q] = .ok m ∧ optimizeMatcher m = .suffix q := by
  have g2 : glueMatchers [.super, .text q] = none := by
    simp [glueMatchers, glueMatchersAsEvery, glueMatchersAsRow, gluable, glueLoop, lens, Matcher.len, sumLens, Runes.equal]
  refine ⟨newBTree (.text q) (some .super) none, ?_, rfl⟩
  simp [compileMatchers, g2, chooseValue, Matcher.len]

/-- What the pattern `p*q` matches without separators, for all strings of bytes: what starts with `p` and ends with `q`, also if they overlap. -/
theorem C59_match {cs ds : List Ch} (h1 : charsOk cs = true) (h2 : charsOk ds = true) (t : Str) :
    globMatch (writeChs cs ++ [42] ++ writeChs ds) [] t = some (some (hasPrefix t (textOf cs) && hasSuffix t (textOf ds))) := by
  rw [← affix_write, globMatch, globCompile, C75_parse_documented _ (affix_ok h1 h2)]
  have pre : hasPrefix t [] = true := by cases t <;> rfl
  have suf : hasSuffix t [] = true := by simp [hasSuffix, List.isSuffixOf]
  cases cs with
  | nil => cases ds with
    | nil =>
      have hm : compile [] (Node.pattern (nodes (affixTerms [] []))).size (.pattern (nodes (affixTerms [] []))) = .ok .super := rfl
      simp only [hm]
      simp [Matcher.match, textOf, pre, suf]
    | cons d ds =>
      obtain ⟨m, e1, e2⟩ := suffix_compile (q := textOf (d :: ds))
      have hm : compile [] (Node.pattern (nodes (affixTerms [] (d :: ds)))).size (.pattern (nodes (affixTerms [] (d :: ds)))) = .ok (.suffix (textOf (d :: ds))) := by
        show compile [] 3 (.pattern [.any, .text (textOf (d :: ds))]) = _
        simp [compile, compileChildren, optimizeMatcher, suffix_minimize, e1, e2]
      simp only [hm]
      simp [Matcher.match, textOf, pre]
  | cons c cs => cases ds with
    | nil =>
      obtain ⟨m, e1, e2⟩ := prefix_compile (p := textOf (c :: cs))
      have hm : compile [] (Node.pattern (nodes (affixTerms (c :: cs) []))).size (.pattern (nodes (affixTerms (c :: cs) []))) = .ok (.prefix (textOf (c :: cs))) := by
        show compile [] 3 (.pattern [.text (textOf (c :: cs)), .any]) = _
        simp [compile, compileChildren, optimizeMatcher, prefix_minimize, e1, e2]
      simp only [hm]
      simp [Matcher.match, textOf, suf]
    | cons d ds =>
      obtain ⟨m, e1, e2⟩ := affix_compile (p := textOf (c :: cs)) (q := textOf (d :: ds))
      have hm : compile [] (Node.pattern (nodes (affixTerms (c :: cs) (d :: ds)))).size (.pattern (nodes (affixTerms (c :: cs) (d :: ds)))) =
          .ok (.prefixSuffix (textOf (c :: cs)) (textOf (d :: ds))) := by
        show compile [] 4 (.pattern [.text (textOf (c :: cs)), .any, .text (textOf (d :: ds))]) = _
        simp [compile, compileChildren, optimizeMatcher, affix_minimize, e1, e2]
      simp only [hm]
      simp [Matcher.match]

/-- C59 holds of the texts `p` and `q` for all strings, bytes that are not UTF-8 included, if and only if no end of `p`, other than the empty one, is a start of `q`.
Missing: the texts of which it is false. -/
theorem C59_iff_partial {cs ds : List Ch} (h1 : charsOk cs = true) (h2 : charsOk ds = true) :
    (∀ t, globMatch (writeChs cs ++ [42] ++ writeChs ds) [] t = some (some true) ↔
      textOf cs <+: t ∧ textOf ds <:+ t ∧ (textOf cs).length + (textOf ds).length ≤ t.length) ↔
    ∀ e, e ≠ [] → e <:+ textOf cs → ¬ e <+: textOf ds := by
  have hm : ∀ t, globMatch (writeChs cs ++ [42] ++ writeChs ds) [] t = some (some true) ↔ textOf cs <+: t ∧ textOf ds <:+ t := by
    intro t
    rw [C59_match h1 h2]
    simp [hasPrefix, hasSuffix]
  simp only [hm]
  constructor
  · rintro h e hne ⟨a, ha⟩ ⟨b, hb⟩
    have := (h (a ++ e ++ b)).1 ⟨⟨b, by rw [← ha]⟩, ⟨a, by rw [← hb, List.append_assoc]⟩⟩
    have hl := this.2.2
    rw [← ha, ← hb] at hl
    have := List.length_pos_iff.2 hne
    simp at hl
    omega
  · intro h t
    refine ⟨fun ⟨⟨c, h1⟩, ⟨a, h2⟩⟩ => ⟨⟨c, h1⟩, ⟨a, h2⟩, ?_⟩, fun h => ⟨h.1, h.2.1⟩⟩
    obtain ⟨b, hb⟩ := noOverlap_spec (p := textOf cs) (q := textOf ds) (s := t) (by
      rw [noOverlap, List.all_eq_true]
      intro i hi
      rw [List.mem_range] at hi
      rw [Bool.not_eq_true', Bool.eq_false_iff]
      intro hc
      exact h _ (by intro h0; have := congrArg List.length h0; simp at this; omega) (List.drop_suffix i _) (List.isPrefixOf_iff_prefix.1 hc)) h1.symm h2.symm
    rw [hb]; simp

/-- C59 is false: `ab*ba` matches `aba`. -/
theorem C59_false : globMatch (lit "ab*ba") [] (lit "aba") = some (some true) ∧ ¬ (lit "ab").length + (lit "ba").length ≤ (lit "aba").length := by decide +kernel

/-- A case of the hypotheses: `report\*` and `.txt`. -/
theorem C59_case : charsOk (plains (lit "report") ++ [.esc 42]) = true ∧ charsOk (plains (lit ".txt")) = true ∧
    noOverlap (textOf (plains (lit "report") ++ [.esc 42])) (textOf (plains (lit ".txt"))) = true ∧
    globMatch (writeChs (plains (lit "report") ++ [.esc 42]) ++ [42] ++ writeChs (plains (lit ".txt"))) [] (lit "report*-2.txt") = some (some true) := by decide +kernel

end Verif.Glob
