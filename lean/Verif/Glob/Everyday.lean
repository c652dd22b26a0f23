import Verif.Glob.Wide
/-
C150: patterns of everyday shapes, stated without the terms of the documented syntax.
-/
namespace Verif.Glob

/-! ## Specification -/

/-- A text of ASCII characters without a special meaning in patterns. -/
def PlainText (s : Str) : Prop := ∀ b ∈ s, b ≠ 0 ∧ b < 128 ∧ b ∉ lit "?*[{},\\"

/-- The texts with commas between them. -/
def withCommas : List Str → Str
  | [] => []
  | [s] => s
  | s :: t :: r => s ++ lit "," ++ withCommas (t :: r)

/-! ## Proofs -/

theorem plain_write {s : Str} (h : PlainText s) : writeChs (plains s) = s := by
  induction s with
  | nil => rfl
  | cons b s ih =>
    have hb := h b (by simp)
    rw [plains, List.map_cons, writeChs, List.flatMap_cons]
    have : encodeRune b.toNat = [b] := by
      have h2 : b.toNat < 128 := hb.2.1
      unfold encodeRune
      simp [h2]
    rw [Ch.write, this]
    have := ih fun x hx => h x (by simp [hx])
    rw [plains, writeChs] at this
    rw [this]; rfl

theorem plain_runes (s : Str) : (plains s).map Ch.rune = s.map UInt8.toNat := by
  rw [plains, List.map_map]; rfl

theorem plain_ok {s : Str} (h : PlainText s) (b : Bool) : (plains s).all (Ch.ok (specialRunes b)) = true := by
  rw [List.all_eq_true]
  intro c hc
  rw [plains, List.mem_map] at hc
  obtain ⟨x, hx, rfl⟩ := hc
  obtain ⟨h0, h1, h2⟩ := h x hx
  have key : ∀ x : Fin 256, UInt8.ofNat x.val ≠ 0 → UInt8.ofNat x.val < 128 → UInt8.ofNat x.val ∉ lit "?*[{},\\" → ∀ b, Ch.ok (specialRunes b) (.plain (UInt8.ofNat x.val).toNat) = true := by
    decide +kernel
  have := key ⟨x.toNat, x.toNat_lt⟩
  simp only [UInt8.ofNat_toNat] at this
  exact this h0 h1 h2 b

/-- A text as a pattern: no term if it is empty. -/
def textTerms (s : Str) : List Term := if s = [] then [] else [.chars (plains s)]

theorem text_write {s : Str} (h : PlainText s) : writeTerms (textTerms s) = s := by
  unfold textTerms
  split
  · rename_i e; subst e; rfl
  · simp only [writeTerms, Term.write, plain_write h, List.append_nil]

theorem write_append : ∀ (a b : List Term), writeTerms (a ++ b) = writeTerms a ++ writeTerms b
  | [], _ => rfl
  | t :: a, b => by rw [List.cons_append, writeTerms, writeTerms, write_append a b, List.append_assoc]

theorem text_lang (seps : List Nat) (s : Str) (w : List Nat) : TermsLang seps (textTerms s) w ↔ w = s.map UInt8.toNat := by
  unfold textTerms
  split
  · rename_i e; subst e; rw [TermsLang]; rfl
  · simp only [TermsLang, Term.Lang, plain_runes]
    constructor
    · rintro ⟨u, v, rfl, rfl, rfl⟩; simp
    · rintro rfl; exact ⟨_, [], by simp, rfl, rfl⟩

theorem lang_append (seps : List Nat) : ∀ (a b : List Term) (w : List Nat), TermsLang seps (a ++ b) w ↔ ∃ u v, w = u ++ v ∧ TermsLang seps a u ∧ TermsLang seps b v
  | [], b, w => by
    simp only [List.nil_append, TermsLang]
    exact ⟨fun h => ⟨[], w, rfl, rfl, h⟩, by rintro ⟨u, v, rfl, rfl, h⟩; exact h⟩
  | t :: a, b, w => by
    simp only [List.cons_append, TermsLang]
    constructor
    · rintro ⟨u, v, rfl, h1, h2⟩
      obtain ⟨u2, v2, rfl, h3, h4⟩ := (lang_append seps a b v).1 h2
      exact ⟨u ++ u2, v2, by simp, ⟨u, u2, rfl, h1, h3⟩, h4⟩
    · rintro ⟨u, v, rfl, ⟨u1, u2, rfl, h1, h2⟩, h3⟩
      exact ⟨u1, u2 ++ v, by simp, h1, (lang_append seps a b _).2 ⟨u2, v, rfl, h2, h3⟩⟩

theorem alts_write : ∀ (e : Str) (es : List Str), (∀ x ∈ e :: es, PlainText x) →
    (Term.alts (textTerms e) (es.map textTerms)).write = lit "{" ++ withCommas (e :: es) ++ lit "}" := by
  have key : ∀ (es : List Str), (∀ x ∈ es, PlainText x) → ∀ e, e ++ writeAlts (es.map textTerms) = withCommas (e :: es) := by
    intro es
    induction es with
    | nil => intro _ e; simp [writeAlts, withCommas]
    | cons x es ih =>
      intro h e
      rw [List.map_cons, writeAlts, withCommas, text_write (h x (by simp)), ih (fun y hy => h y (by simp [hy])) x]
      simp [lit]
  intro e es h
  rw [Term.write, text_write (h e (by simp)), key es (fun x hx => h x (by simp [hx]))]
  simp [lit]

theorem textAlts_lang (seps : List Nat) (e : Str) (es : List Str) (w : List Nat) :
    (Term.alts (textTerms e) (es.map textTerms)).Lang seps w ↔ ∃ x ∈ e :: es, w = x.map UInt8.toNat := by
  have key : ∀ es : List Str, AltsLang seps (es.map textTerms) w ↔ ∃ x ∈ es, w = x.map UInt8.toNat := by
    intro es
    induction es with
    | nil => simp [AltsLang]
    | cons x es ih => rw [List.map_cons, AltsLang, text_lang, ih]; simp
  rw [Term.Lang, text_lang, key]
  simp

theorem altText_text {s : Str} (h : PlainText s) : altText (textTerms s) = s ∧ literalAlt (textTerms s) = true := by
  unfold textTerms
  split
  · rename_i e; subst e; exact ⟨rfl, rfl⟩
  · refine ⟨?_, rfl⟩
    rw [altText, textOf, plain_runes, List.flatMap_map]
    induction s with
    | nil => rfl
    | cons b s ih =>
      rw [List.flatMap_cons]
      have h2 : b.toNat < 128 := (h b (by simp)).2.1
      have : encodeRune b.toNat = [b] := by unfold encodeRune; simp [h2]
      rw [this]
      by_cases hs : s = []
      · subst hs; rfl
      · rw [ih (fun x hx => h x (by simp [hx])) hs]; rfl

theorem text_okT {s : Str} (h : PlainText s) (b : Bool) : okTerms b (textTerms s) = true := by
  unfold textTerms
  split
  · rfl
  · rename_i e
    have h1 : (plains s).isEmpty = false := by rw [List.isEmpty_eq_false_iff, plains]; simpa using e
    simp only [okTerms, Term.ok, plain_ok h, apart, Bool.and_true, h1, Bool.not_false]

theorem alts_ok {e : Str} {es : List Str} (h : ∀ x ∈ e :: es, PlainText x) (b : Bool) : (Term.alts (textTerms e) (es.map textTerms)).ok b = true := by
  rw [Term.ok, text_okT (h e (by simp)), Bool.true_and, okAlts_iff]
  intro q hq
  obtain ⟨x, hx, rfl⟩ := List.mem_map.1 hq
  exact text_okT (h x (by simp [hx])) true

theorem alts_flat {e : Str} {es : List Str} (h : ∀ x ∈ e :: es, PlainText x) (hd : ∃ x ∈ es, x ≠ e) : flatTerm (Term.alts (textTerms e) (es.map textTerms)) = true := by
  obtain ⟨x, hx, hne⟩ := hd
  simp only [flatTerm, Bool.and_eq_true, List.all_eq_true, List.any_eq_true, bne_iff_ne]
  refine ⟨⟨(altText_text (h e (by simp))).2, ?_⟩, textTerms x, List.mem_map_of_mem hx, ?_⟩
  · intro q hq
    obtain ⟨y, hy, rfl⟩ := List.mem_map.1 hq
    exact (altText_text (h y (by simp [hy]))).2
  · rw [(altText_text (h x (by simp [hx]))).1, (altText_text (h e (by simp))).1]; exact hne

/-! ## The theorems -/

/-- **C150** The pattern `p*.{e1,e2,...}` of a text `p` (it may be empty) and extensions, two of which differ, with any separators: `Compile` succeeds, and `Match` of valid UTF-8 text is true exactly
if it is `p`, characters that are no separators, a dot and one of the extensions. -/
theorem C150_extensions (seps : List Nat) (hs : ∀ r ∈ seps, validRune r = true) (p e : Str) (es : List Str) (hp : PlainText p) (he : ∀ x ∈ e :: es, PlainText x ∧ x ≠ [])
    (hd : ∃ x ∈ es, x ≠ e) :
    ∃ m, globCompile (p ++ lit "*.{" ++ withCommas (e :: es) ++ lit "}") seps = .ok m ∧ ∀ w : List Nat, (∀ r ∈ w, validRune r = true) →
      ∃ b, m.match (w.flatMap encodeRune) = some b ∧
        (b = true ↔ ∃ stem x, x ∈ e :: es ∧ (∀ r ∈ stem, r ∉ seps) ∧ w = p.map UInt8.toNat ++ stem ++ (lit "." ++ x).map UInt8.toNat) := by
  have he' : ∀ x ∈ e :: es, PlainText x := fun x hx => (he x hx).1
  have hdot : PlainText (lit ".") := by
    intro b hb
    have : b = 46 := by simpa [lit] using hb
    subst this; decide
  have edot : textTerms (lit ".") = [.chars (plains (lit "."))] := if_neg (by decide)
  have htp : textTerms p = [] ∨ textTerms p = [.chars (plains p)] ∧ p ≠ [] := by
    by_cases h0 : p = []
    · exact Or.inl (if_pos h0)
    · exact Or.inr ⟨if_neg h0, h0⟩
  obtain ⟨A, hA⟩ : ∃ A, A = Term.alts (textTerms e) (es.map textTerms) := ⟨_, rfl⟩
  have hA1 : A.write = lit "{" ++ withCommas (e :: es) ++ lit "}" := by rw [hA, alts_write e es he']
  have hA2 : A.ok false = true := by rw [hA, alts_ok he']
  have hA3 : flatTerm A = true := by rw [hA, alts_flat he' hd]
  have hA4 : ∀ w, A.Lang seps w ↔ ∃ x ∈ e :: es, w = x.map UInt8.toNat := by rw [hA]; exact textAlts_lang seps e es
  have hA5 : theText A = none ∧ apart (.chars (plains (lit "."))) [A] = true := by rw [hA]; exact ⟨rfl, rfl⟩
  let ts := textTerms p ++ [.any, .chars (plains (lit ".")), A]
  have hw : writeTerms ts = p ++ lit "*.{" ++ withCommas (e :: es) ++ lit "}" := by
    show writeTerms (textTerms p ++ _) = _
    rw [write_append, text_write hp, writeTerms, writeTerms, writeTerms, hA1, writeTerms]
    rw [show (Term.chars (plains (lit "."))).write = lit "." from plain_write hdot]
    simp [Term.write, lit]
  have hfix : asciiTerm (.chars (plains (lit "."))) = true ∧ asciiTerm A = true := by
    subst hA
    refine ⟨by decide, ?_⟩
    simp only [asciiTerm, List.all_eq_true, Bool.and_eq_true, Bool.not_eq_true', List.isEmpty_eq_false_iff, decide_eq_true_eq]
    intro q hq
    rw [show textTerms e :: es.map textTerms = (e :: es).map textTerms from rfl, List.mem_map] at hq
    obtain ⟨x, hx, rfl⟩ := hq
    rw [(altText_text (he' x hx)).1]
    exact ⟨(he x hx).2, fun b hb => ((he' x hx) b hb).2.1⟩
  have hap : (∀ q : List Term, apart .any (.chars (plains (lit ".")) :: q) = true) ∧ apart A [] = true ∧ ∀ c q, apart (.chars c) (.any :: q) = true := ⟨fun _ => rfl, by subst hA; rfl, fun _ _ => rfl⟩
  have hdn : (!(plains (lit ".")).isEmpty) = true := by decide
  have hflat : flatOk seps ts = true := by
    simp only [flatOk, Bool.and_eq_true]
    refine ⟨⟨⟨?_, ?_⟩, ?_⟩, ?_⟩
    · show okTerms false (textTerms p ++ _) = true
      rcases htp with e0 | ⟨e0, hpe⟩ <;> rw [e0]
      · simp only [List.nil_append, okTerms, Term.ok, hA2, Bool.and_true, Bool.true_and, plain_ok hdot, hdn, hA5.2, hap]
      · simp only [List.cons_append, List.nil_append, okTerms, Term.ok, hA2, Bool.and_true, Bool.true_and, plain_ok hdot, plain_ok hp, hdn, hA5.2, hap]
        rw [show (plains p).isEmpty = false by rw [List.isEmpty_eq_false_iff, plains]; simpa using hpe]
        rfl
    · rw [List.all_append]
      rw [List.all_cons, List.all_cons, List.all_cons, hA3]
      rcases htp with e0 | ⟨e0, hpe⟩ <;> rw [e0] <;> rfl
    · show neighbours seps (textTerms p ++ _) = true
      have h1 : fineTerms seps .any (.chars (plains (lit "."))) = true := by
        simp [fineTerms, excludes, mayBeEmpty, varying]
      have h2 : fineTerms seps (.chars (plains (lit "."))) A = true := by
        simp [fineTerms, excludes, mayBeEmpty, isStar]
      have h3 : fineTerms seps (.chars (plains p)) .any = true := by
        simp [fineTerms, excludes, mayBeEmpty, isStar]
      rcases htp with e0 | ⟨e0, hpe⟩ <;> rw [e0]
      · simp only [List.nil_append, neighbours, h1, h2, Bool.and_self]
      · simp only [List.cons_append, List.nil_append, neighbours, h1, h2, h3, Bool.and_self]
    · have : ts.getLast?.bind theText = none := by
        show (textTerms p ++ _).getLast?.bind theText = none
        rw [List.getLast?_append]; exact hA5.1
      unfold endsApart
      rw [this]
      split
      · rename_i h; cases h
      · rfl
  have hn : asciiNeighbours ts = true := by
    show asciiNeighbours (textTerms p ++ _) = true
    have hf : fixedTerm .any = false := rfl
    rcases htp with e0 | ⟨e0, hpe⟩ <;> rw [e0]
    · simp only [List.nil_append, asciiNeighbours, hf, hfix, Bool.false_and, Bool.not_false, Bool.true_or, Bool.and_self, Bool.or_true]
    · simp only [List.cons_append, List.nil_append, asciiNeighbours, hf, hfix, Bool.false_and, Bool.and_false, Bool.not_false, Bool.true_or, Bool.and_self, Bool.or_true]
  have hemp : emptyOk seps ts = true := by
    show emptyOk seps (textTerms p ++ _) = true
    rcases htp with e0 | ⟨e0, hpe⟩ <;> rw [e0] <;> rfl
  obtain ⟨m, hm, hmatch⟩ := C57_utf8_flat_partial seps ts hs hflat hn
  rw [hw] at hm
  refine ⟨m, hm, fun w hv => ?_⟩
  obtain ⟨b, h1, h2⟩ := hmatch w hv (Or.inr hemp)
  refine ⟨b, h1, h2.trans ?_⟩
  rw [lang_append]
  simp only [text_lang, TermsLang, hA4]
  constructor
  · rintro ⟨u, v, rfl, rfl, stem, v', rfl, h3, d, v'', rfl, h4, x', v3, rfl, ⟨x, hx, rfl⟩, rfl⟩
    rw [Term.Lang, plain_runes] at h4
    subst h4
    exact ⟨stem, x, hx, h3, by simp⟩
  · rintro ⟨stem, x, hx, h3, rfl⟩
    refine ⟨_, stem ++ (lit "." ++ x).map UInt8.toNat, by simp, rfl, stem, _, rfl, h3, (lit ".").map UInt8.toNat, x.map UInt8.toNat, by simp, ?_, _, [], by simp, ⟨x, hx, rfl⟩, rfl⟩
    rw [Term.Lang, plain_runes]

/-- **C150** The pattern `{w1,w2,...}` of texts (each may be empty), two of which differ, with any separators: `Match` of valid UTF-8 text is true exactly if it is one of
the texts. -/
theorem C150_alternatives (seps : List Nat) (hs : ∀ r ∈ seps, validRune r = true) (e : Str) (es : List Str) (he : ∀ x ∈ e :: es, PlainText x) (hd : ∃ x ∈ es, x ≠ e) :
    ∃ m, globCompile (lit "{" ++ withCommas (e :: es) ++ lit "}") seps = .ok m ∧ ∀ w : List Nat, (∀ r ∈ w, validRune r = true) →
      ∃ b, m.match (w.flatMap encodeRune) = some b ∧ (b = true ↔ ∃ x ∈ e :: es, w = x.map UInt8.toNat) := by
  obtain ⟨A, hA⟩ : ∃ A, A = Term.alts (textTerms e) (es.map textTerms) := ⟨_, rfl⟩
  have hA1 : writeTerms [A] = lit "{" ++ withCommas (e :: es) ++ lit "}" := by rw [hA, writeTerms, alts_write e es he, writeTerms, List.append_nil]
  have hA2 : A.ok false = true := by rw [hA, alts_ok he]
  have hA3 : flatTerm A = true := by rw [hA, alts_flat he hd]
  have hA4 : ∀ w, A.Lang seps w ↔ ∃ x ∈ e :: es, w = x.map UInt8.toNat := by rw [hA]; exact textAlts_lang seps e es
  have hA5 : apart A [] = true ∧ emptyOk seps [A] = true ∧ endsApart seps [A] = true := by rw [hA]; exact ⟨rfl, rfl, rfl⟩
  have hflat : flatOk seps [A] = true := by
    simp only [flatOk, okTerms, hA2, hA5, List.all_cons, List.all_nil, hA3, neighbours, Bool.and_self]
  obtain ⟨m, hm, hmatch⟩ := C57_utf8_flat_partial seps [A] hs hflat rfl
  rw [hA1] at hm
  refine ⟨m, hm, fun w hv => ?_⟩
  obtain ⟨b, h1, h2⟩ := hmatch w hv (Or.inr hA5.2.1)
  refine ⟨b, h1, h2.trans ?_⟩
  simp only [TermsLang, hA4]
  constructor
  · rintro ⟨u, v, rfl, h3, rfl⟩; simpa using h3
  · intro h3; exact ⟨w, [], by simp, h3, rfl⟩

/-- A case: `web/*.{com,org}` with the separator `.` matches `web/example.org` and does not match `web/www.example.org`. -/
theorem C150_case : ∃ m, globCompile (lit "web/*.{com,org}") [46] = .ok m ∧ m.match (lit "web/example.org") = some true ∧ m.match (lit "web/www.example.org") = some false := by
  have hp : PlainText (lit "web/") := by unfold PlainText; decide
  have he : ∀ x ∈ lit "com" :: [lit "org"], PlainText x ∧ x ≠ [] := by
    intro x hx
    simp only [List.mem_cons, List.not_mem_nil, or_false] at hx
    rcases hx with rfl | rfl <;> refine ⟨?_, by decide⟩ <;> unfold PlainText <;> decide
  obtain ⟨m, h1, h2⟩ := C150_extensions [46] (by decide) (lit "web/") (lit "com") [lit "org"] hp he ⟨lit "org", by simp, by decide⟩
  have e1 : lit "web/" ++ lit "*.{" ++ withCommas (lit "com" :: [lit "org"]) ++ lit "}" = lit "web/*.{com,org}" := by decide
  rw [e1] at h1
  refine ⟨m, h1, ?_, ?_⟩
  · obtain ⟨b, h3, h4⟩ := h2 ((lit "web/example.org").map UInt8.toNat) (by decide)
    have e2 : ((lit "web/example.org").map UInt8.toNat).flatMap encodeRune = lit "web/example.org" := by decide
    rw [e2] at h3
    rw [h3, h4.2 ⟨(lit "example").map UInt8.toNat, lit "org", by simp, by decide, by decide⟩]
  · obtain ⟨b, h3, h4⟩ := h2 ((lit "web/www.example.org").map UInt8.toNat) (by decide)
    have e2 : ((lit "web/www.example.org").map UInt8.toNat).flatMap encodeRune = lit "web/www.example.org" := by decide
    rw [e2] at h3
    have hb : ¬ b = true := by
      intro hb
      obtain ⟨stem, x, hx, hst, e⟩ := h4.1 hb
      have hx0 : List.count 46 (x.map UInt8.toNat) = 0 := by
        simp only [List.mem_cons, List.not_mem_nil, or_false] at hx
        rcases hx with rfl | rfl <;> decide
      have hs0 : List.count 46 stem = 0 := List.count_eq_zero.2 fun h => hst 46 h (by simp)
      have e3 : List.count 46 ((lit "web/www.example.org").map UInt8.toNat) = 2 := by decide
      have e4 : List.count 46 ((lit "web/").map UInt8.toNat) = 0 := by decide
      have e5 : List.count 46 ((lit ".").map UInt8.toNat) = 1 := by decide
      rw [e, List.count_append, List.count_append, List.map_append, List.count_append, hx0, hs0, e4, e5] at e3
      omega
    rw [h3, Bool.eq_false_iff.2 hb]

end Verif.Glob
