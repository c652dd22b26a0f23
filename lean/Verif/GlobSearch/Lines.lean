import Verif.GlobSearch.Props
import Verif.Glob.Wide
/-
C102 for queries with classes and braces: `GlobSearch` on files whose lines are text.
-/
namespace Verif.GlobSearch
open Repo Repo.Spec Glob

/-- The lines that the search reads. -/
def LineRead (w : World) (files : Files) (line : Str) : Prop :=
  ∃ d, ∃ path ∈ files d, ∃ text, w.at path = .node (.file text) ∧ ∃ ts b, Reads text ts b ∧ line ∈ ts

theorem globLoop_local {m : Matcher} {p : Str → Bool} : ∀ (ts : List Str) (n : Nat) (ms : List (Nat × Str)), (∀ t ∈ ts, m.match t = some (p t)) →
    globLoop m n ts ms = some (lineLoop (searchHandle (compareWith p)) n ts ms).1
  | [], n, ms, _ => rfl
  | t :: ts, n, ms, hm => by
    have ih := fun ms => globLoop_local (m := m) (p := p) ts (n + 1) ms fun t ht => hm t (List.mem_cons_of_mem _ ht)
    rw [globLoop, lineLoop]
    split
    · rfl
    · rw [hm t (by simp)]
      unfold searchHandle compareWith
      cases hp : p t with
      | true => simp only [if_true]; exact ih _
      | false => simp only [Bool.false_eq_true, if_false]; exact ih _

theorem globFile_local (w : World) {m : Matcher} {p : Str → Bool} (path : Str)
    (hm : ∀ text, w.at path = .node (.file text) → ∀ ts b, Reads text ts b → ∀ t ∈ ts, m.match t = some (p t)) : globFile w m path = some (searchInFile w path (compareWith p)) := by
  unfold globFile searchInFile getFileContentByLine
  cases h : w.at path with
  | noEnt => rfl
  | notDir => rfl
  | node nd => cases nd with
    | dir es => rfl
    | file c =>
      obtain ⟨ts, b, hr⟩ := reads_exists c
      rcases reads_scanner hr with ⟨_, _, t, us, e, h0⟩ | ⟨_, e, _⟩
      · simp only [e]
        rw [globLoop, if_pos ⟨rfl, h0⟩, lineLoop, if_pos ⟨rfl, h0⟩]
      · simp only [e]
        exact globLoop_local _ _ _ (hm c h ts b hr)

theorem globAll_local (w : World) {m : Matcher} {p : Str → Bool} : ∀ paths : List Str,
    (∀ path ∈ paths, ∀ text, w.at path = .node (.file text) → ∀ ts b, Reads text ts b → ∀ t ∈ ts, m.match t = some (p t)) →
    globAll w m paths = some (paths.map fun path => (path, searchInFile w path (compareWith p)))
  | [], _ => rfl
  | path :: rest, h => by
    rw [globAll, globFile_local w path (h path (by simp)), globAll_local w rest fun x hx => h x (List.mem_cons_of_mem _ hx)]; rfl

/-- If `Match` returns for every line that is read the search returns, and finds the lines for which it is true. -/
theorem globSearch_local {w : World} {files : Files} {query : Str} {seps : List Nat} {m : Matcher} {p : Str → Bool} (hc : globCompile query seps = .ok m)
    (hm : ∀ line, LineRead w files line → m.match line = some (p line)) {out : Outcome (List (Str × List (Nat × Str)))} (h : GlobSearch w files query seps out) :
    ∃ r, out = .ok r ∧ QuerySearch w files (some p) (some r) := by
  unfold GlobSearch at h
  rw [hc] at h
  obtain ⟨order, ho, h⟩ := h
  rw [globAll_local w (p := p) _ (fun path hp text ht ts b hr t hin => by
    obtain ⟨d, _, hd⟩ := List.mem_flatMap.1 hp
    exact hm t ⟨d, path, hd, text, ht, ts, b, hr, hin⟩)] at h
  exact ⟨_, h, order, ho, by rw [searchAll, List.map_flatMap]⟩

/-- What is found depends on the predicate at the lines that are read only. -/
theorem finds_congr {w : World} {files : Files} {p q : Str → Bool} {d path : Str} (hp : path ∈ files d) {ms : List (Nat × Str)} (h : ∀ line, LineRead w files line → p line = q line)
    (hf : Finds w p path ms) : Finds w q path ms := by
  unfold Finds at *
  split at hf
  · rename_i text ht
    intro ts b hr
    rw [hf ts b hr]
    refine List.filter_congr fun x hx => ?_
    refine h x.2 ⟨d, path, hp, text, ht, ts, b, hr, ?_⟩
    obtain ⟨y, hy, rfl⟩ := List.mem_map.1 hx
    exact List.fst_mem_of_mem_zipIdx hy
  · exact hf

theorem search_lines {w : World} {files : Files} {query : Str} {seps : List Nat} {m : Matcher} {L : Str → Prop} (hc : globCompile query seps = .ok m)
    (hm : ∀ line, LineRead w files line → ∃ b, m.match line = some b ∧ (b = true ↔ L line)) {out : Outcome (List (Str × List (Nat × Str)))} (h : GlobSearch w files query seps out) :
    ∃ r, out = .ok r ∧ (∃ order, GroupOrder files order ∧ r.map Prod.fst = order.flatMap files) ∧
      ∀ p : Str → Bool, (∀ line, p line = true ↔ L line) → ∀ path ms, (path, ms) ∈ r → Finds w p path ms := by
  obtain ⟨r, hr, hq⟩ := globSearch_local (p := fun l => m.match l == some true) hc (fun line hl => by
    obtain ⟨b, e, _⟩ := hm line hl
    rw [e]; cases b <;> rfl) h
  obtain ⟨⟨order, g1, g1'⟩, g2⟩ := C77_search w files _ r hq
  refine ⟨r, hr, ⟨order, g1, g1'⟩, ?_⟩
  intro p hp path ms hin
  have hpath : path ∈ order.flatMap files := by rw [← g1']; exact List.mem_map_of_mem (f := Prod.fst) hin
  obtain ⟨d, _, hd⟩ := List.mem_flatMap.1 hpath
  refine finds_congr hd (fun line hl => ?_) (g2 path ms hin)
  obtain ⟨b, e, hb⟩ := hm line hl
  rw [Bool.eq_iff_iff, hp, ← hb]
  simp [e]

/-- C102 for queries as in `C57_braces_partial` (flat sequences, braces), if the lines that are read are ASCII: `GlobSearch` succeeds, and reports every listed path as often as it
is listed, each with exactly those lines that are read of the file and are in the documented language. Empty lines are excluded if the query is `?`, or a class, alone (C58). -/
theorem C102_braces_partial (w : World) (files : Files) (seps : List Nat) (ts : List Term) (hok : bracesOk seps ts = true)
    (hl : ∀ line, LineRead w files line → (∀ b ∈ line, b < 0x80) ∧ (line ≠ [] ∨ emptyPart seps ts = true)) (out : Outcome (List (Str × List (Nat × Str))))
    (h : GlobSearch w files (writeTerms ts) seps out) :
    ∃ r, out = .ok r ∧ (∃ order, GroupOrder files order ∧ r.map Prod.fst = order.flatMap files) ∧
      ∀ p : Str → Bool, (∀ line, p line = true ↔ TermsLang seps ts (line.map UInt8.toNat)) → ∀ path ms, (path, ms) ∈ r → Finds w p path ms := by
  obtain ⟨m, hc, hm⟩ := C57_braces_partial seps ts hok
  exact search_lines hc (fun line hr => hm line (hl line hr).1 (hl line hr).2) h

/-- The same for lines that are valid UTF-8, where neighbours of a fixed number of runes in the query are ASCII. -/
theorem C102_utf8_partial (w : World) (files : Files) (seps : List Nat) (ts : List Term) (hs : ∀ r ∈ seps, validRune r = true) (hok : bracesOk seps ts = true) (ha : asciiPart ts = true)
    (hl : ∀ line, LineRead w files line → (∃ rs : List Nat, (∀ r ∈ rs, validRune r = true) ∧ line = rs.flatMap encodeRune) ∧ (line ≠ [] ∨ emptyPart seps ts = true))
    (out : Outcome (List (Str × List (Nat × Str)))) (h : GlobSearch w files (writeTerms ts) seps out) :
    ∃ r, out = .ok r ∧ (∃ order, GroupOrder files order ∧ r.map Prod.fst = order.flatMap files) ∧
      ∀ p : Str → Bool, (∀ line, p line = true ↔ TermsLang seps ts (runesIn line)) → ∀ path ms, (path, ms) ∈ r → Finds w p path ms := by
  obtain ⟨m, hc, hm⟩ := C57_utf8_braces_partial seps ts hs hok ha
  refine search_lines hc (fun line hr => ?_) h
  obtain ⟨⟨rs, h1, rfl⟩, h2⟩ := hl line hr
  have e : runesIn (rs.flatMap encodeRune) = rs := runesIn_enc h1
  rw [e]
  refine hm rs h1 (h2.imp_left fun hne e => hne ?_)
  rw [e]; rfl

/-- C102 for queries as in `C57_wide_partial` (also braces that are not literal beside other terms), and ASCII lines. -/
theorem C102_wide_partial (w : World) (files : Files) (seps : List Nat) (ts : List Term) (hok : wideOk seps ts = true)
    (hl : ∀ line, LineRead w files line → (∀ b ∈ line, b < 0x80) ∧ (line ≠ [] ∨ emptyPart seps ts = true)) (out : Outcome (List (Str × List (Nat × Str))))
    (h : GlobSearch w files (writeTerms ts) seps out) :
    ∃ r, out = .ok r ∧ (∃ order, GroupOrder files order ∧ r.map Prod.fst = order.flatMap files) ∧
      ∀ p : Str → Bool, (∀ line, p line = true ↔ TermsLang seps ts (line.map UInt8.toNat)) → ∀ path ms, (path, ms) ∈ r → Finds w p path ms := by
  obtain ⟨m, hc, hm⟩ := C57_wide_partial seps ts hok
  exact search_lines hc (fun line hr => hm line (hl line hr).1 (hl line hr).2) h

/-- The same for lines that are valid UTF-8, where neighbours of a fixed number of runes in the query are ASCII. -/
theorem C102_utf8_wide_partial (w : World) (files : Files) (seps : List Nat) (ts : List Term) (hs : ∀ r ∈ seps, validRune r = true) (hok : wideOk seps ts = true)
    (ha : wideAscii ts = true)
    (hl : ∀ line, LineRead w files line → (∃ rs : List Nat, (∀ r ∈ rs, validRune r = true) ∧ line = rs.flatMap encodeRune) ∧ (line ≠ [] ∨ emptyPart seps ts = true))
    (out : Outcome (List (Str × List (Nat × Str)))) (h : GlobSearch w files (writeTerms ts) seps out) :
    ∃ r, out = .ok r ∧ (∃ order, GroupOrder files order ∧ r.map Prod.fst = order.flatMap files) ∧
      ∀ p : Str → Bool, (∀ line, p line = true ↔ TermsLang seps ts (runesIn line)) → ∀ path ms, (path, ms) ∈ r → Finds w p path ms := by
  obtain ⟨m, hc, hm⟩ := C57_utf8_wide_partial seps ts hs hok ha
  refine search_lines hc (fun line hr => ?_) h
  obtain ⟨⟨rs, h1, rfl⟩, h2⟩ := hl line hr
  have e : runesIn (rs.flatMap encodeRune) = rs := runesIn_enc h1
  rw [e]
  refine hm rs h1 (h2.imp_left fun hne e => hne ?_)
  rw [e]; rfl

/-- The terms of `p{w*,*y}`. -/
def caseWideQuery : List Term := [.chars (plains (lit "p")), .alts [.chars (plains (lit "w")), .any] [[.any, .chars (plains (lit "y"))]]]

/-- They meet the conditions of `C102_wide_partial`; the lines of the example store are ASCII (`inside_lines`). -/
theorem C102_wide_case : wideOk [] caseWideQuery = true ∧ wideAscii caseWideQuery = true ∧ bracesOk [] caseWideQuery = false ∧ writeTerms caseWideQuery = lit "p{w*,*y}" := by
  decide +kernel

/-- The terms of `{p*,[a-c]}`. -/
def caseQuery : List Term := [.alts [.chars (plains (lit "p")), .any] [[.range false 97 99]]]

/-- They meet the conditions, and the lines of the example store are ASCII. -/
theorem C102_braces_case : bracesOk [] caseQuery = true ∧ asciiPart caseQuery = true ∧ writeTerms caseQuery = lit "{p*,[a-c]}" := by decide +kernel

theorem inside_lines (line : Str) (h : LineRead inside insideFiles line) : (∀ b ∈ line, b < 0x80) ∧ line ≠ [] := by
  obtain ⟨d, path, hp, text, ht, ts, b, hr, hin⟩ := h
  have hpath : path = lit "sites/x" := by
    unfold insideFiles at hp
    split at hp
    · simpa using hp
    · cases hp
  subst hpath
  have e : inside.at (lit "sites/x") = .node (.file (lit "pw\na\n")) := by rfl
  rw [e] at ht
  simp only [Found.node.injEq, Repo.Node.file.injEq] at ht
  subst ht
  have e2 : scannerLines (lit "pw\na\n") = [lit "pw", lit "a"] := by decide +kernel
  have : ts = [] ∨ ts = [lit "pw", lit "a"] := by
    rcases reads_scanner hr with ⟨_, h, _⟩ | ⟨_, h, _⟩
    · exact Or.inl h
    · exact Or.inr (h.symm.trans e2)
  rcases this with rfl | rfl
  · cases hin
  · simp only [List.mem_cons, List.not_mem_nil, or_false] at hin
    rcases hin with rfl | rfl <;> decide

attribute [local irreducible] GlobSearch in
example : GlobSearch inside insideFiles (lit "{p*,[a-c]}") [] (.ok [(lit "sites/x", [(1, lit "pw"), (2, lit "a")])]) :=
  searchRun_spec (r := some [(lit "sites/x", [(1, lit "pw"), (2, lit "a")])]) insideOrder (by decide +kernel)

attribute [local irreducible] GlobSearch in
example : GlobSearch inside insideFiles (lit "p{w*,*y}") [] (.ok [(lit "sites/x", [(1, lit "pw")])]) :=
  searchRun_spec (r := some [(lit "sites/x", [(1, lit "pw")])]) insideOrder (by decide +kernel)

end Verif.GlobSearch
