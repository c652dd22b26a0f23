import Verif.Glob.RuneProps
import Verif.Glob.Props
/-
C57 for subjects that are valid UTF-8 (`enc w` is the UTF-8 text of the code points `w`).
-/
namespace Verif.Glob

/-- C57 for UTF-8, by a check of the compiled matcher: if a pattern parses, and the matcher that it compiles to passes the check `wellBehavedU`, then `Match` of the UTF-8 text
of any Unicode scalar values does not panic and decides the documented language of the tree of the pattern, which is a set of sequences of code points. -/
theorem C57_utf8_checked_partial {pattern : Str} {seps : List Nat} {t : Node} {m : Matcher} (hp : parse pattern = .ok t) (hc : globCompile pattern seps = .ok m)
    (hs : ∀ r ∈ seps, validRune r = true) (hw : wellBehavedU m = true) {w : List Nat} (hv : ∀ r ∈ w, validRune r = true) :
    ∃ b, m.match (w.flatMap encodeRune) = some b ∧ (b = true ↔ Matches seps t w) := by
  rw [globCompile, hp] at hc
  obtain ⟨b, e1, e2⟩ := wellBehavedU_ok hw hv
  exact ⟨b, e1, e2.trans (compile_rimplements hs _ _ _ hc w)⟩

/-- The same for patterns of documented terms. -/
theorem C57_utf8_documented_partial {ts : List Term} {seps : List Nat} {m : Matcher} (hok : okTerms false ts = true) (hc : globCompile (writeTerms ts) seps = .ok m)
    (hs : ∀ r ∈ seps, validRune r = true) (hw : wellBehavedU m = true) {w : List Nat} (hv : ∀ r ∈ w, validRune r = true) :
    ∃ b, m.match (w.flatMap encodeRune) = some b ∧ (b = true ↔ TermsLang seps ts w) := by
  obtain ⟨b, e1, e2⟩ := C57_utf8_checked_partial (C75_parse_documented ts hok) hc hs hw hv
  exact ⟨b, e1, e2.trans (pattern_lang hok)⟩

/-! ### Patterns that satisfy a condition on their terms -/

/-- All strings of the term have the same number of runes. -/
def fixedTerm (t : Term) : Bool := !isStar t && !varying t

/-- All strings of the term are ASCII. -/
def asciiTerm : Term → Bool
  | .chars cs => cs.all fun c => decide (c.rune < 0x80)
  | .list not cs => !not && cs.all fun c => decide (c.rune < 0x80)
  | .range not _ hi => !not && decide (hi < 0x80)
  | .alts p ps => (p :: ps).all fun q => !(altText q).isEmpty && (altText q).all fun b => decide (b < 0x80)
  | _ => false

/-- Neighbours of a fixed number of runes are ASCII. -/
def asciiNeighbours : List Term → Bool
  | a :: b :: ts => (!(fixedTerm a && fixedTerm b) || (asciiTerm a && asciiTerm b)) && asciiNeighbours (b :: ts)
  | _ => true

theorem textOf_enc (cs : List Ch) : textOf cs = enc (cs.map Ch.rune) := by
  simp [textOf, enc, List.flatMap_map]

theorem Ch.ok_valid {bs : List Nat} {c : Ch} (h : c.ok bs = true) : validRune c.rune = true := valid_iff.2 (goodRune_iff.1 (Ch.ok_good h)).2.2

theorem chars_scalars {bs : List Nat} {cs : List Ch} (h : cs.all (Ch.ok bs) = true) : Scalars (cs.map Ch.rune) := by
  intro r hr
  obtain ⟨c, hc, rfl⟩ := List.mem_map.1 hr
  exact Ch.ok_valid (List.all_eq_true.1 h c hc)

theorem validText_enc {w : List Nat} (h : Scalars w) : validText (enc w) = true := by rw [validText, runesIn_enc h]; simp

theorem altText_valid {p : List Term} (h : literalAlt p = true) (hok : okTerms true p = true) : validText (altText p) = true := by
  rcases p with _ | ⟨t, _ | ⟨t', ts⟩⟩
  · rfl
  · cases t <;> simp only [literalAlt, Bool.false_eq_true] at h
    rename_i cs
    simp only [okTerms, Term.ok, Bool.and_true, apart, Bool.and_eq_true] at hok
    show validText (textOf cs) = true
    rw [textOf_enc]
    exact validText_enc (chars_scalars hok.2)
  · cases t <;> simp [literalAlt] at h

theorem enc_ascii {w : List Nat} (h : ∀ r ∈ w, r < 0x80) : Ascii (enc w) := by
  intro b hb
  simp only [enc, List.mem_flatMap] at hb
  obtain ⟨r, hr, hb⟩ := hb
  have := h r hr
  rw [encodeRune, if_pos this, List.mem_singleton] at hb
  subst hb
  rw [UInt8.lt_iff_toNat_lt, UInt8.toNat_ofNat']
  simp; omega

/-- What is asked of the matchers of the terms. -/
theorem term_factsU {seps : List Nat} (hs : Scalars seps) {t : Term} {b : Bool} (hok : t.ok b = true) (hf : flatTerm t = true) :
    elemU (matcherOf seps t) = true ∧ ((matcherOf seps t).len ≠ none → asciiTerm t = true → asciiM (matcherOf seps t) = true) := by
  cases t with
  | chars cs =>
    simp only [Term.ok, Bool.and_eq_true] at hok
    have hsc := chars_scalars hok.2
    simp only [matcherOf, elemU, asciiM, textOf_enc, asciiTerm]
    refine ⟨validText_enc hsc, fun _ h => ?_⟩
    simp only [Bool.and_eq_true, Bool.not_eq_true', List.isEmpty_eq_false_iff, List.all_eq_true, decide_eq_true_eq] at h ⊢
    refine ⟨?_, enc_ascii fun r hr => ?_⟩
    · rw [ne_eq, enc_eq_nil]
      rintro e
      simp only [List.map_eq_nil_iff] at e
      subst e; simp at hok
    · obtain ⟨c, hc, rfl⟩ := List.mem_map.1 hr
      exact h c hc
  | any =>
    rw [matcherOf]
    split
    · exact ⟨rfl, fun h => absurd rfl h⟩
    · exact ⟨scalars_iff.2 hs, fun h => absurd rfl h⟩
  | super => exact ⟨rfl, fun h => absurd rfl h⟩
  | single => exact ⟨scalars_iff.2 hs, fun _ h => by cases h⟩
  | range nt lo hi => exact ⟨rfl, fun _ h => h⟩
  | list nt cs =>
    simp only [Term.ok, Bool.and_eq_true] at hok
    have hsc := chars_scalars hok.2
    rw [matcherOf]
    split
    · rename_i h1
      simp only [Bool.and_eq_true, decide_eq_true_eq] at h1
      refine ⟨validText_enc hsc, fun _ h => ?_⟩
      simp only [asciiTerm, asciiM, Bool.and_eq_true, Bool.not_eq_true', List.isEmpty_eq_false_iff, List.all_eq_true, decide_eq_true_eq] at h ⊢
      refine ⟨?_, enc_ascii (w := cs.map Ch.rune) fun r hr => ?_⟩
      · show enc (cs.map Ch.rune) ≠ []
        rw [ne_eq, enc_eq_nil]
        intro e
        rw [e] at h1; simp at h1
      · obtain ⟨c, hc, rfl⟩ := List.mem_map.1 hr
        exact h.2 c hc
    · refine ⟨scalars_iff.2 hsc, fun _ h => ?_⟩
      simpa [asciiTerm, asciiM] using h
  | alts p ps =>
    obtain ⟨h1, h2, _, hq, hne⟩ := flat_alts hok hf
    rw [matcherOf]
    refine ⟨?_, fun _ h => ?_⟩
    · refine leafAlts_elemU (altMatchers_leaf _) ?_ (altMatchers_pos hq hne)
      rw [List.all_map, List.all_eq_true]
      intro q hq
      simp only [Function.comp_apply, altMatcher]
      split
      · rfl
      · exact altText_valid (h1 q hq) (h2 q hq)
    · rw [asciiM, asciiMs_iff]
      intro m hm
      obtain ⟨q, hq, rfl⟩ := List.mem_map.1 hm
      simp only [asciiTerm, List.all_eq_true, Bool.and_eq_true] at h
      have := h q hq
      rw [altMatcher, if_neg (by simpa using this.1), asciiM]
      simpa using this

theorem chainU_terms {bb : Bool} {seps : List Nat} (hs : Scalars seps) : ∀ {ts : List Term}, (∀ t ∈ ts, t.ok bb = true ∧ flatTerm t = true) → asciiNeighbours ts = true →
    (ts.map (matcherOf seps)).IsChain FineU
  | [], _, _ => by simp
  | [_], _, _ => by simp
  | a :: b :: ts, ht, h => by
    simp only [asciiNeighbours, Bool.and_eq_true] at h
    rw [List.map_cons, List.map_cons, List.isChain_cons_cons]
    refine ⟨?_, chainU_terms hs (fun t h => ht t (List.mem_cons_of_mem _ h)) h.2⟩
    have hta := ht a (by simp)
    have htb := ht b (by simp)
    intro ha hb
    have fa := term_facts (seps := seps) hta.1 hta.2
    have fb := term_facts (seps := seps) htb.1 htb.2
    have hfa : fixedTerm a = true := by
      have h1 : ¬ (isStar a = true ∨ varying a = true) := fun h => ha (fa.len.2 h)
      rw [not_or] at h1
      simp [fixedTerm, h1]
    have hfb : fixedTerm b = true := by
      have h1 : ¬ (isStar b = true ∨ varying b = true) := fun h => hb (fb.len.2 h)
      rw [not_or] at h1
      simp [fixedTerm, h1]
    have h1 := h.1
    rw [hfa, hfb] at h1
    simp only [Bool.and_true, Bool.not_true, Bool.false_or, Bool.and_eq_true] at h1
    exact ⟨(term_factsU hs hta.1 hta.2).2 ha h1.1, (term_factsU hs htb.1 htb.2).2 hb h1.2⟩

/-- C57 for UTF-8 and patterns written as documented that satisfy `flatOk`, where in addition neighbours of a fixed number of runes (texts, `?`, classes, alternatives of
one length) are ASCII: `Compile` gives a matcher, and `Match` of the UTF-8 text of any Unicode scalar values decides the documented language of the pattern. A pattern that
is only `?` or only a class is excepted for the empty string. Missing: the patterns and subjects for which it is false, and those that are not covered (as for
`C57_flat_partial`). -/
theorem C57_utf8_flat_partial (seps : List Nat) (ts : List Term) (hs : ∀ r ∈ seps, validRune r = true) (h : flatOk seps ts = true) (hn : asciiNeighbours ts = true) :
    ∃ m, globCompile (writeTerms ts) seps = .ok m ∧ ∀ w : List Nat, (∀ r ∈ w, validRune r = true) → w ≠ [] ∨ emptyOk seps ts = true →
      ∃ b, m.match (w.flatMap encodeRune) = some b ∧ (b = true ↔ TermsLang seps ts w) := by
  obtain ⟨m, hc, hE⟩ := C57_flat_partial seps ts h
  refine ⟨m, hc, ?_⟩
  simp only [flatOk, Bool.and_eq_true] at h
  obtain ⟨⟨⟨hok, hflat⟩, hnb⟩, hends⟩ := h
  have hm := hc
  rw [globCompile, C75_parse_documented ts hok] at hm
  simp only at hm
  have himp := compile_rimplements hs _ _ _ hm
  have hgood : goodW m = true := by
    have hterm : ∀ t ∈ ts, t.ok false = true ∧ flatTerm t = true := fun t ht => ⟨okTerms_mem hok t ht, List.all_eq_true.1 hflat t ht⟩
    have hfacts : ∀ t ∈ ts, TermFacts seps t (matcherOf seps t) := fun t ht => term_facts (hterm t ht).1 (hterm t ht).2
    have hpos := Node.size_pos (.pattern (nodes ts))
    obtain ⟨n, hn'⟩ : ∃ n, (Node.pattern (nodes ts)).size = n + 1 := ⟨_, (Nat.succ_pred_eq_of_pos hpos).symm⟩
    rw [hn'] at hm
    simp only [compile] at hm
    split at hm
    · simp only [Res.ok.injEq] at hm
      subst hm; rfl
    · split at hm <;> try cases hm
      rename_i ms hms
      rw [nodes_eq] at hms
      have := compileChildren_map (k := matcherOf seps) (fun x hx m hm => compile_term (hterm x hx).1 (hterm x hx).2 hm) hms
      subst this
      split at hm <;> try cases hm
      rename_i ns hns
      split at hm
      · rename_i m' hm'
        simp only [Res.ok.injEq] at hm
        subst hm
        exact sequence_goodW (fun x hx => by
          obtain ⟨t, ht, rfl⟩ := List.mem_map.1 hx
          exact (hfacts t ht).el) (fun x hx => by
          obtain ⟨t, ht, rfl⟩ := List.mem_map.1 hx
          exact (term_factsU hs (hterm t ht).1 (hterm t ht).2).1) (chain_terms hfacts hnb) (chainU_terms hs hterm hn) hns hm' (fun p q => ends_terms hfacts hends)
      · rename_i hno; exact absurd hm (hno m)
  intro w hw h0
  by_cases hne : w = []
  · subst hne
    obtain ⟨b, e1, e2⟩ := hE [] (by intro x hx; simp at hx) (Or.inr (h0.resolve_left fun h => h rfl))
    exact ⟨b, e1, e2⟩
  · obtain ⟨b, e1, e2⟩ := goodW_ok m hgood w hw hne
    exact ⟨b, e1, e2.trans ((himp w).trans (pattern_lang hok))⟩

/-! ### Cases -/

/-- Whether the check holds of a pattern. -/
def checkU (pattern : Str) (seps : List Nat) : Bool :=
  match globCompile pattern seps with
  | .ok m => wellBehavedU m
  | _ => false

/-- The code points of `éa`. -/
def eacute : List Nat := [0xE9, 97]

/-- The check holds of `{*.go,*.md}`, of `a?` and of `*[!ab]*`; `{*.go,*.md}` matches `éa.go`, and `a?` matches `aé`. -/
theorem C57_utf8_checked_case : checkU (lit "{*.go,*.md}") [47] = true ∧ checkU (lit "a?") [47] = true ∧ checkU (lit "*[!ab]*") [] = true ∧
    globMatch (lit "{*.go,*.md}") [47] ((eacute ++ [46, 103, 111]).flatMap encodeRune) = some (some true) ∧ globMatch (lit "a?") [47] (eacute.reverse.flatMap encodeRune) = some (some true) := by
  decide +kernel

/-- The terms of `é*/[a-c]x{ö,日本}**[!é]*`, which is not all ASCII. -/
def caseTermsU : List Term := [.chars [.plain 0xE9], .any, .chars [.plain 47], .range false 97 99, .chars [.plain 120], .alts [.chars [.plain 0xF6]] [[.chars [.plain 0x65E5, .plain 0x672C]]],
  .super, .list true [.plain 0xE9], .any]

/-- They meet the conditions of `C57_utf8_flat_partial` for separators `/`; and a string that is matched and one that is not. -/
theorem C57_utf8_flat_case : flatOk [47] caseTermsU = true ∧ asciiNeighbours caseTermsU = true ∧ emptyOk [47] caseTermsU = true ∧
    globMatch (writeTerms caseTermsU) [47] ([0xE9, 0xE9, 47, 98, 120, 0x65E5, 0x672C, 0xF6, 0xFC].flatMap encodeRune) = some (some true) ∧
    globMatch (writeTerms caseTermsU) [47] ([0xE9, 0xE9, 47, 98, 120, 0x65E5, 0x672C, 0xE9].flatMap encodeRune) = some (some false) := by
  decide +kernel

/-- Where neighbours of fixed length are not ASCII it is false also without `?` before a class: `*a?` does not match `xaé` (it is taken to be too long by a byte). -/
theorem C57_row_false : let ts := [Term.any, .chars (plains (lit "a")), .single]
    flatOk [] ts = true ∧ globMatch (writeTerms ts) [] ([120, 97, 0xE9].flatMap encodeRune) = some (some false) ∧ TermsLang [] ts [120, 97, 0xE9] := by
  refine ⟨by decide +kernel, by decide +kernel, [120], [97, 0xE9], rfl, by simp [Term.Lang], [97], [0xE9], rfl, by rw [Term.Lang]; decide, [0xE9], [], rfl, ⟨0xE9, rfl, by simp⟩, rfl⟩

/-- For strings that are not UTF-8 it is false of patterns that meet all these conditions: a byte that is not UTF-8 is taken to be three bytes long by `?` and by classes,
so `*[!a]` matches the bytes `80 61 61`, which end in `a`. -/
theorem C57_bytes_false : let ts := [Term.any, .list true (plains (lit "a"))]
    flatOk [] ts = true ∧ asciiNeighbours ts = true ∧ globMatch (writeTerms ts) [] [128, 97, 97] = some (some true) ∧ runesIn [128, 97, 97] = [0xFFFD, 97, 97] ∧
      ¬ TermsLang [] ts [0xFFFD, 97, 97] := by
  refine ⟨by decide +kernel, by decide +kernel, by decide +kernel, by decide +kernel, ?_⟩
  rintro ⟨a, b, e, -, c, d, e', ⟨r, rfl, hr⟩, rfl⟩
  rw [List.append_nil] at e'
  subst e'
  have : r = 97 := by
    have := congrArg List.getLast? e
    simpa using this.symm
  subst this
  revert hr
  decide

end Verif.Glob
