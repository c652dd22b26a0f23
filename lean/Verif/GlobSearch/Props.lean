import Verif.GlobSearch.Model
import Verif.Repo.ReadProps
import Verif.Glob.Stars
import Verif.Glob.Quote
import Verif.Glob.TotalProps
/-
C102: what `GlobSearch` finds.
-/
namespace Verif.GlobSearch
open Repo Repo.Spec Glob

/-- A matcher that returns on every line behaves as the search with a predicate. -/
theorem globLoop_total {m : Matcher} {p : Str → Bool} (hm : ∀ s, m.match s = some (p s)) : ∀ (ts : List Str) (n : Nat) (ms : List (Nat × Str)),
    globLoop m n ts ms = some (lineLoop (searchHandle (compareWith p)) n ts ms).1
  | [], n, ms => rfl
  | t :: ts, n, ms => by
    rw [globLoop, lineLoop]
    split
    · rfl
    · rw [hm t]
      unfold searchHandle compareWith
      cases hp : p t with
      | true => simp only [if_true]; exact globLoop_total hm ts (n + 1) _
      | false => simp only [Bool.false_eq_true, if_false]; exact globLoop_total hm ts (n + 1) _

theorem globFile_total (w : World) {m : Matcher} {p : Str → Bool} (hm : ∀ s, m.match s = some (p s)) (path : Str) :
    globFile w m path = some (searchInFile w path (compareWith p)) := by
  unfold globFile searchInFile getFileContentByLine
  cases h : w.at path with
  | noEnt => rfl
  | notDir => rfl
  | node nd => cases nd with
    | dir es => rfl
    | file c => exact globLoop_total hm _ _ _

theorem globAll_total (w : World) {m : Matcher} {p : Str → Bool} (hm : ∀ s, m.match s = some (p s)) : ∀ paths : List Str,
    globAll w m paths = some (paths.map fun path => (path, searchInFile w path (compareWith p)))
  | [] => rfl
  | path :: rest => by rw [globAll, globFile_total w hm, globAll_total w hm rest]; rfl

theorem globSearch_total {w : World} {files : Files} {query : Str} {seps : List Nat} {m : Matcher} {p : Str → Bool} (hc : globCompile query seps = .ok m)
    (hm : ∀ s, m.match s = some (p s)) (out : Outcome (List (Str × List (Nat × Str)))) :
    GlobSearch w files query seps out ↔ ∃ r, out = .ok r ∧ QuerySearch w files (some p) (some r) := by
  unfold GlobSearch QuerySearch
  rw [hc]
  simp only [globAll_total w hm]
  have : ∀ order : List Str, (order.flatMap files).map (fun path => (path, searchInFile w path (compareWith p))) = searchAll w files order p := by
    intro order
    rw [searchAll, List.map_flatMap]
  simp only [this]
  constructor
  · rintro ⟨order, h1, h2⟩
    exact ⟨_, h2, order, h1, rfl⟩
  · rintro ⟨r, h1, order, h2, h3⟩
    injection h3 with h3
    exact ⟨order, h2, by rw [h1, h3]⟩

/-- The result says which lines are in the language. -/
theorem total_pred {m : Matcher} {L : Str → Prop} (h : ∀ s, ∃ b, m.match s = some b ∧ (b = true ↔ L s)) :
    ∃ p : Str → Bool, (∀ s, m.match s = some (p s)) ∧ ∀ s, p s = true ↔ L s := by
  choose p h1 h2 using h
  exact ⟨p, h1, h2⟩

/-- **C102** For a query made of characters, `*` and `**` as in C91: `GlobSearch` succeeds, and reports every listed path as often as it is listed, each with exactly those lines that
are read of the file the path means in the working directory and are in the documented language of the query. -/
theorem C102_documented (w : World) (files : Files) (seps : List Nat) (ts : List Term) (hok : okTerms false ts = true) (hp : ts.all plainTerm = true) (hn : noTwoStars ts = true)
    (hends : endsApart seps ts = true) (out : Outcome (List (Str × List (Nat × Str)))) (h : GlobSearch w files (writeTerms ts) seps out) :
    ∃ r, out = .ok r ∧ (∃ order, GroupOrder files order ∧ r.map Prod.fst = order.flatMap files) ∧
      ∀ p : Str → Bool, (∀ line, p line = true ↔ TermsLang seps ts (runesIn line)) → ∀ path ms, (path, ms) ∈ r → Finds w p path ms := by
  obtain ⟨m, hc, hm⟩ := C91_literals_and_stars seps ts hok hp hn hends
  obtain ⟨p, h1, h2⟩ := total_pred hm
  obtain ⟨r, hr, hq⟩ := (globSearch_total hc h1 out).1 h
  obtain ⟨g1, g2⟩ := C77_search w files p r hq
  refine ⟨r, hr, g1, ?_⟩
  intro p' hp' path ms hin
  have : p' = p := by funext l; rw [Bool.eq_iff_iff, hp', h2]
  rw [this]
  exact g2 path ms hin

/-- **C102** The search for a quoted text is the search for lines equal to the text: `GlobSearch(QuoteMeta(t))` and `DirectSearch(t)` have the same results (for a text that is
UTF-8 without U+0000 and U+FFFD). -/
theorem C102_quoted (w : World) (files : Files) (t : Str) (hv : validUtf8 t = true) (h0 : 0 ∉ runesIn t) (hr : 0xFFFD ∉ runesIn t) (seps : List Nat)
    (out : Outcome (List (Str × List (Nat × Str)))) :
    GlobSearch w files (quoteMeta t) seps out ↔ ∃ r, out = .ok r ∧ DirectSearch w files t r := by
  obtain ⟨m, hc, hm⟩ := C56_quote_meta t hv h0 hr seps
  rw [globSearch_total hc (p := fun l => l == t) (by intro s; rw [hm s, Bool.beq_eq_decide_eq]) out]
  constructor
  · rintro ⟨r, h1, order, h2, h3⟩
    injection h3 with h3
    exact ⟨r, h1, order, h2, h3⟩
  · rintro ⟨r, h1, order, h2, h3⟩
    exact ⟨r, h1, order, h2, by rw [h3]⟩

/-- **C102** A query without an opening brace never crashes the search: it gives an error exactly if it does not compile, and otherwise a result. -/
theorem C102_no_crash_partial (w : World) (files : Files) (query : Str) (hb : (123 : UInt8) ∉ query) (seps : List Nat) (out : Outcome (List (Str × List (Nat × Str))))
    (h : GlobSearch w files query seps out) :
    (out = .err ∧ ∃ e, globCompile query seps = .err e) ∨ ∃ r m, out = .ok r ∧ globCompile query seps = .ok m ∧
      (∃ order, GroupOrder files order ∧ r.map Prod.fst = order.flatMap files) ∧ ∀ path ms, (path, ms) ∈ r → Finds w (fun l => m.match l == some true) path ms := by
  rcases C55_compile_total query seps with ⟨e, -, he⟩ | ⟨t, m, -, hm⟩
  · left
    unfold GlobSearch at h
    rw [he] at h
    exact ⟨h, e, he⟩
  · right
    have htot : ∀ s, m.match s = some (m.match s == some true) := by
      intro s
      obtain ⟨b, hb'⟩ := C93_no_braces_partial query seps m hb hm s
      rw [hb']; cases b <;> rfl
    obtain ⟨r, hr, hq⟩ := (globSearch_total hm htot out).1 h
    obtain ⟨g1, g2⟩ := C77_search w files _ r hq
    exact ⟨r, m, hr, hm, g1, g2⟩

theorem globLoop_none {m : Matcher} : ∀ (ts : List Str) (n : Nat) (ms : List (Nat × Str)), ¬ (n = 1 ∧ ∃ t, ts.head? = some t ∧ (0 : UInt8) ∈ t) →
    n ≠ 0 → (globLoop m n ts ms = none ↔ ∃ t ∈ ts, m.match t = none)
  | [], n, ms, _, _ => by simp [globLoop]
  | t :: ts, n, ms, h, h0 => by
    rw [globLoop, if_neg (fun h' => h ⟨h'.1, t, rfl, h'.2⟩)]
    have ih := fun ms => globLoop_none (m := m) ts (n + 1) ms (fun h' => absurd h'.1 (by omega)) (by omega)
    cases hm : m.match t with
    | none => simp [hm]
    | some b => cases b <;> simp [ih, hm]

theorem globFile_none {w : World} {m : Matcher} {path : Str} : globFile w m path = none ↔ ∃ text, w.at path = .node (.file text) ∧ ∀ ts b, Reads text ts b → ∃ t ∈ ts, m.match t = none := by
  unfold globFile
  split
  · rename_i text h
    have : (∀ ts b, Reads text ts b → ∃ t ∈ ts, m.match t = none) ↔ globLoop m 1 (scannerLines text) [] = none := by
      obtain ⟨ts, b, hr⟩ := reads_exists text
      have huniq : ∀ ts' b', Reads text ts' b' → (globLoop m 1 (scannerLines text) [] = none ↔ ∃ t ∈ ts', m.match t = none) := by
        intro ts' b' hr'
        rcases reads_scanner hr' with ⟨rfl, rfl, t, us, e, h0⟩ | ⟨rfl, e, h0⟩
        · rw [e, globLoop, if_pos ⟨rfl, h0⟩]; simp
        · rw [e]
          exact globLoop_none ts' 1 [] (by rintro ⟨-, t, ht, hz⟩; exact h0 t ht hz) (by omega)
      constructor
      · intro hall; exact (huniq ts b hr).2 (hall ts b hr)
      · intro hn ts' b' hr'; exact (huniq ts' b' hr').1 hn
    rw [← this]
    constructor
    · intro hall; exact ⟨text, h, hall⟩
    · rintro ⟨text', e, hall⟩
      rw [h] at e
      simp only [Found.node.injEq, Repo.Node.file.injEq] at e
      rw [e]; exact hall
  · rename_i hno
    simp only [reduceCtorEq, false_iff]
    rintro ⟨text, e, -⟩
    exact hno text e

theorem globAll_none {w : World} {m : Matcher} : ∀ {paths : List Str}, globAll w m paths = none ↔ ∃ path ∈ paths, globFile w m path = none
  | [] => by simp [globAll]
  | path :: rest => by
    rw [globAll]
    cases h : globFile w m path with
    | none => simp [h]
    | some ms => simp [h, globAll_none]

/-- **C102** Exactly when the search crashes: if `Match` crashes on a line that is read of a listed file. -/
theorem C102_crash_iff (w : World) (files : Files) (query : Str) (seps : List Nat) (m : Matcher) (hc : globCompile query seps = .ok m)
    (out : Outcome (List (Str × List (Nat × Str)))) (h : GlobSearch w files query seps out) :
    out = .panic ↔ ∃ d, ∃ path ∈ files d, ∃ text, w.at path = .node (.file text) ∧ ∀ ts b, Reads text ts b → ∃ t ∈ ts, m.match t = none := by
  unfold GlobSearch at h
  rw [hc] at h
  obtain ⟨order, ⟨-, ho⟩, h⟩ := h
  have e : out = .panic ↔ globAll w m (order.flatMap files) = none := by
    rw [h]
    cases globAll w m (order.flatMap files) <;> simp
  rw [e, globAll_none]
  simp only [globFile_none]
  constructor
  · rintro ⟨path, hp, h⟩
    obtain ⟨d, -, hd⟩ := List.mem_flatMap.1 hp
    exact ⟨d, path, hd, h⟩
  · rintro ⟨d, path, hd, h⟩
    exact ⟨path, List.mem_flatMap.2 ⟨d, (ho d).2 (List.ne_nil_of_mem hd), hd⟩, h⟩

/-- The store of the examples, searched from inside for `s*`, and with a query that crashes. -/
def inside : World := ⟨.dir [(lit "v", .dir [(lit "sites", .dir [(lit "x", .file (lit "pw\na\n"))])])], [lit "v"]⟩
def insideFiles : Files := fun d => if d = lit "sites" then [lit "sites/x"] else []

theorem insideOrder : GroupOrder insideFiles [lit "sites"] := by
  refine ⟨by decide, ?_⟩
  intro d
  rw [List.mem_singleton]
  unfold insideFiles
  split <;> simp_all

/-- The matcher found by running the search. -/
def searchRun (w : World) (paths : List Str) (query : Str) (seps : List Nat) : Option (Option (List (Str × List (Nat × Str)))) :=
  match globCompile query seps with
  | .ok m => some (globAll w m paths)
  | _ => none

theorem searchRun_spec {w : World} {files : Files} {order : List Str} (ho : GroupOrder files order) {query : Str} {seps : List Nat} {r : Option (List (Str × List (Nat × Str)))}
    (h : (searchRun w (order.flatMap files) query seps == some r) = true) : GlobSearch w files query seps (r.elim .panic .ok) := by
  have h := eq_of_beq h
  unfold searchRun at h
  split at h
  · rename_i m hm
    injection h with h
    unfold GlobSearch
    rw [hm]
    exact ⟨order, ho, by rw [← h]; cases globAll w m (order.flatMap files) <;> rfl⟩
  · cases h

example : GlobSearch inside insideFiles (lit "p*") [] (.ok [(lit "sites/x", [(1, lit "pw")])]) :=
  searchRun_spec (r := some [(lit "sites/x", [(1, lit "pw")])]) insideOrder (by decide +kernel)

theorem crash_inside (query : Str) (seps : List Nat) (m : Matcher) (hc : globCompile query seps = .ok m) (hm : m.match (lit "a") = none) : GlobSearch inside insideFiles query seps .panic := by
  unfold GlobSearch
  rw [hc]
  refine ⟨[lit "sites"], insideOrder, ?_⟩
  have h : globAll inside m ([lit "sites"].flatMap insideFiles) = none := by
    refine globAll_none.2 ⟨lit "sites/x", by decide +kernel, ?_⟩
    have e : inside.at (lit "sites/x") = .node (.file (lit "pw\na\n")) := by rfl
    have e2 : scannerLines (lit "pw\na\n") = [lit "pw", lit "a"] := by decide +kernel
    unfold globFile
    rw [e]
    simp only [e2]
    refine (globLoop_none _ _ _ ?_ (by decide)).2 ⟨lit "a", by decide, hm⟩
    rintro ⟨-, t, ht, hz⟩
    injection ht with ht
    rw [← ht] at hz
    exact absurd hz (by decide)
  rw [h]

attribute [local irreducible] GlobSearch in
/-- **C102** is false in general: a query that compiles crashes the search. -/
theorem C102_crash_false : GlobSearch inside insideFiles (lit "{a*,a}") [] .panic :=
  C93_false.1.elim fun m h => crash_inside _ _ m h.1 h.2

end Verif.GlobSearch
