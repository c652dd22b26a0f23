import Verif.Repo.ScanLemmas
import Mathlib.Data.List.Nodup
/-
C43-C48, C71: scanning the store and searching in files.
-/
namespace Verif.Repo
open Spec

/-! ## C43, C44, C45, C71: Scan -/

/-- **C43** For a cleaned root (not `.` or `/`) that is a directory not named `.git`, `Scan` succeeds and lists under each of the six categories
exactly the entries of the directory with that name, as `category/name`, each once and in the order of the names, and nothing else. -/
theorem C43_scan_lists_entries (w : World) (root : Str) (es : List (Str × Node)) (hroot : CleanDir root) (hat : w.at root = .node (.dir es))
    (hwf : (Node.dir es).WF) (hgit : baseName root ≠ lit ".git") :
    ∃ files, scan w root = .ok files ∧
      (∀ d p, p ∈ files d ↔ d ∈ [lit "people", lit "email", lit "phone", lit "sites", lit "devices", lit "bank"] ∧
        ∃ name, IsEntry (.dir es) d name ∧ p = d ++ lit "/" ++ name) ∧
      ∀ d, (files d).Pairwise (fun a b => strLt a b = true) := by
  refine ⟨_, scan_eq w root es hroot hat hwf hgit, ?_, ?_⟩
  · intro d p
    change p ∈ (if d ∈ categories then _ else _) ↔ d ∈ categories ∧ _
    by_cases hd : d ∈ categories
    · rw [if_pos hd]
      simp only [hd, true_and]
      have hp : ∀ name : Str, d ++ lit "/" ++ name = d ++ slash :: name := by intro name; rw [List.append_assoc]; rfl
      simp only [hp]
      unfold IsEntry
      simp only [lookupAt]
      rw [Node.WF] at hwf
      cases he : entry es d with
      | none => simp
      | some nd =>
        cases nd with
        | file c => simp [lookupAt]
        | dir ds =>
          have hds : ds.Pairwise (fun a b => strLt a.1 b.1 = true) := by
            have : ∀ es, WFList es → entry es d = some (.dir ds) → (Node.dir ds).WF := by
              intro es
              induction es with
              | nil => intro _ h; cases h
              | cons e es ih =>
                obtain ⟨m, nd⟩ := e
                intro h1 h2
                rw [WFList, WFPair] at h1
                rw [entry] at h2
                split at h2
                · injection h2 with h2
                  rw [← h2]; exact h1.1.2
                · exact ih h1.2 h2
            have := this es hwf.2 he
            rw [Node.WF] at this
            exact this.1
          simp only [mem_listing hds, lookupAt]
          constructor
          · rintro ⟨n, ⟨c, h1⟩, h2, h3⟩
            exact ⟨n, ⟨⟨c, by rw [h1]⟩, h2⟩, h3⟩
          · rintro ⟨n, ⟨⟨c, h1⟩, h2⟩, h3⟩
            refine ⟨n, ⟨c, ?_⟩, h2, h3⟩
            cases h4 : entry ds n with
            | none => rw [h4] at h1; cases h1
            | some nd =>
              rw [h4] at h1
              injection h1 with h1
              rw [h1]
    · rw [if_neg hd]
      simp [hd]
  · intro d
    change List.Pairwise _ (if d ∈ categories then _ else _)
    split
    · cases he : entry es d with
      | none => exact List.Pairwise.nil
      | some nd =>
        cases nd with
        | file c => exact List.Pairwise.nil
        | dir ds =>
          have : ∀ es, WFList es → entry es d = some (.dir ds) → (Node.dir ds).WF := by
            intro es
            induction es with
            | nil => intro _ h; cases h
            | cons e es ih =>
              obtain ⟨m, nd⟩ := e
              intro h1 h2
              rw [WFList, WFPair] at h1
              rw [entry] at h2
              split at h2
              · injection h2 with h2
                rw [← h2]; exact h1.1.2
              · exact ih h1.2 h2
          rw [Node.WF] at hwf
          have := this es hwf.2 he
          rw [Node.WF] at this
          exact (sorted_listing this.1).1
    · exact List.Pairwise.nil

/-- A store with two categories, a `.git` directory and files that are not listed. -/
def exampleStore : List (Str × Node) :=
  [(lit ".git", .dir [(lit "sites", .dir [(lit "x", .file [])])]), (lit "email", .dir [(lit ".DS_Store", .file []), (lit "me", .file (lit "pw\n"))]),
   (lit "notes", .file []), (lit "sites", .dir [(lit "a.com", .file (lit "s3\nenv: tok\n")), (lit "old", .dir [(lit "b.com", .file [])])])]

/-- The store in a file system. -/
def exampleWorld : World := ⟨.dir [(lit "v", .dir exampleStore)], []⟩

theorem exampleStore_wf : (Node.dir exampleStore).WF := by
  simp only [Node.WF, exampleStore, WFList, WFPair]
  decide

example : CleanDir (lit "/v") ∧ exampleWorld.at (lit "/v") = .node (.dir exampleStore) ∧ baseName (lit "/v") ≠ lit ".git" := by
  refine ⟨⟨by decide, by decide, by decide⟩, ?_, by decide⟩
  rfl

/-- **C44** Directories named `.git`, wherever they are, do not influence the result: two trees that are equal without them give the same
result, for every root. -/
theorem C44_git_ignored (w w' : World) (root : Str) (nd nd' : Node) (h : w.at root = .node nd) (h' : w'.at root = .node nd')
    (hp : nd.prune = nd'.prune) : scan w root = scan w' root := by
  unfold scan
  rw [h, h']
  simp only
  rw [← walk_prune root _ nd, ← walk_prune root _ nd', hp]

/-- Such trees. -/
example : (Node.dir exampleStore).prune = (Node.dir (exampleStore.tail)).prune := by
  simp [exampleStore, Node.prune, pruneList, prunePair]

/-- **C45** is false: with a slash at the end of the root, `Scan` lists nothing of this store, without it two entries. -/
theorem C45_false : (∃ f, scan exampleWorld (lit "/v") = .ok f ∧ f (lit "email") = [lit "email/me"] ∧ f (lit "sites") = [lit "sites/a.com"]) ∧
    (∃ f, scan exampleWorld (lit "/v/") = .ok f ∧ ∀ d, f d = []) := by
  constructor
  · exact ⟨_, rfl, by decide +kernel, by decide +kernel⟩
  · refine ⟨fun _ => [], ?_, fun _ => rfl⟩
    rfl

/-- **C71** is false: `Scan` panics if the root is a file; and with the root `.` it panics as soon as there is a file with a name of one byte. -/
theorem C71_file_root_panics (w : World) (root : Str) (c : Str) (h : w.at root = .node (.file c)) : scan w root = .panic := by
  unfold scan
  rw [h]
  simp only [walk, addFiles, addFile]
  rw [if_pos (by omega)]; rfl

theorem C71_dot_root_panics (w : World) (n : Str) (hn : n.length = 1) (hg : GoodName n) (c : Str) (es : List (Str × Node))
    (h : w.at (lit ".") = .node (.dir ((n, .file c) :: es))) : scan w (lit ".") = .panic := by
  unfold scan
  rw [h]
  have hj : joinPath (lit ".") n = n := by
    unfold joinPath
    rw [if_neg (by decide)]
    unfold clean
    rw [isRooted_append (by decide), splitSlash_append, splitSlash_noslash hg.2.2.2, cleanParts_snoc hg]
    rfl
  simp only [walk, walkList, walkPair]
  rw [if_neg (by decide), hj, List.singleton_append, addFiles, addFile, if_pos (by rw [hn]; decide)]
  rfl

example : (⟨.dir [(lit "a", .file [])], []⟩ : World).at (lit ".") = .node (.dir [(lit "a", .file [])]) := rfl

/-- **C71** (as far as it holds) `Scan` returns an error if the root does not exist, and succeeds if the root is cleaned, not `.` or `/`, and a
directory. -/
theorem C71_scan_total_partial (w : World) (root : Str) : (w.at root = .noEnt → scan w root = .err) ∧
    ∀ es, CleanDir root → w.at root = .node (.dir es) → (Node.dir es).WF → ∃ f, scan w root = .ok f := by
  constructor
  · intro h
    unfold scan
    rw [h]
  · intro es hr hat hwf
    by_cases hgit : baseName root = lit ".git"
    · unfold scan
      rw [hat]
      simp only
      rw [walk, if_pos hgit]
      exact ⟨_, rfl⟩
    · exact ⟨_, scan_eq w root es hr hat hwf hgit⟩

/-! ## C46, C47: reading lines -/

theorem rawLines_noNL {l : Str} (h : (10 : UInt8) ∉ l) (hne : l ≠ []) : rawLines l = [l] := by
  induction l with
  | nil => exact absurd rfl hne
  | cons b l ih =>
    rw [List.mem_cons, not_or] at h
    rw [rawLines, if_neg (fun e => h.1 e.symm)]
    cases l with
    | nil => rfl
    | cons c l => rw [ih h.2 (by simp)]

theorem rawLines_line {l t : Str} (h : (10 : UInt8) ∉ l) : rawLines (l ++ 10 :: t) = l :: rawLines t := by
  induction l with
  | nil => rw [List.nil_append, rawLines, if_pos rfl]
  | cons b l ih =>
    rw [List.mem_cons, not_or] at h
    rw [List.cons_append, rawLines, if_neg (fun e => h.1 e.symm), ih h.2]

theorem rawLines_eq : ∀ {ls : List Str} {t : Str}, (∀ l ∈ ls, (10 : UInt8) ∉ l) → rawLines (ls.flatMap (· ++ [10]) ++ t) = ls ++ rawLines t
  | [], t, _ => rfl
  | l :: ls, t, h => by
    have := rawLines_eq (ls := ls) (t := t) (fun x hx => h x (List.mem_cons_of_mem _ hx))
    rw [List.flatMap_cons, List.append_assoc, List.append_assoc, List.singleton_append, rawLines_line (h l List.mem_cons_self), this]; rfl

/-- The lines of a text are unique, and are those the model uses. -/
theorem rawLines_spec {text : Str} {ls : List Str} (h : IsLines text ls) : rawLines text = ls := by
  obtain ⟨h1, h2 | ⟨init, last, rfl, hne, h2⟩⟩ := h
  · have := rawLines_eq (t := []) h1
    rw [List.append_nil, ← h2, rawLines, List.append_nil] at this
    exact this
  · have := rawLines_eq (ls := init) (t := last) (fun x hx => h1 x (List.mem_append_left _ hx))
    rw [← h2, rawLines_noNL (h1 last (by simp)) hne] at this
    exact this

/-- Every text has lines. -/
theorem isLines_exists : ∀ text : Str, IsLines text (rawLines text)
  | [] => ⟨by simp [rawLines], Or.inl rfl⟩
  | b :: s => by
    have ih := isLines_exists s
    obtain ⟨h1, h2⟩ := ih
    rw [rawLines]
    split
    · rename_i e
      refine ⟨by simpa using h1, ?_⟩
      rcases h2 with h2 | ⟨init, last, e1, e2, e3⟩
      · left; rw [List.flatMap_cons, ← h2, e]; rfl
      · right; exact ⟨[] :: init, last, by rw [e1]; rfl, e2, by rw [e, e3, List.flatMap_cons]; rfl⟩
    · rename_i e
      cases hs : rawLines s with
      | nil =>
        rw [hs] at h2
        refine ⟨by simpa using fun h => e h.symm, Or.inr ⟨[], [b], rfl, by simp, ?_⟩⟩
        rcases h2 with h2 | ⟨init, last, e1, -⟩
        · rw [h2]; rfl
        · simp at e1
      | cons p ps =>
        rw [hs] at h1 h2
        refine ⟨?_, ?_⟩
        · intro l hl
          rcases List.mem_cons.1 hl with rfl | hl
          · rw [List.mem_cons, not_or]
            exact ⟨fun h => e h.symm, h1 p List.mem_cons_self⟩
          · exact h1 l (List.mem_cons_of_mem _ hl)
        · rcases h2 with h2 | ⟨init, last, e1, e2, e3⟩
          · left; rw [h2, List.flatMap_cons, List.flatMap_cons]; rfl
          · right
            cases init with
            | nil =>
              injection e1 with e1 e4
              subst e1 e4
              exact ⟨[], b :: p, rfl, by simp, by rw [e3]; rfl⟩
            | cons q init =>
              injection e1 with e1 e4
              subst e1 e4
              exact ⟨(b :: p) :: init, last, rfl, e2, by rw [e3, List.flatMap_cons, List.flatMap_cons]; rfl⟩

theorem dropCR_spec {l t : Str} (h : Stripped l t) : dropCR l = t := by
  unfold dropCR
  rcases h with rfl | ⟨rfl, h⟩
  · simp
  · rw [if_neg]
    intro hl
    obtain ⟨t', rfl⟩ := List.getLast?_eq_some_iff.1 hl
    exact h t' rfl

theorem stripped_unique {ls ts : List Str} (h : List.Forall₂ Stripped ls ts) : ls.map dropCR = ts := by
  induction h with
  | nil => rfl
  | cons h _ ih => rw [List.map_cons, dropCR_spec h, ih]

theorem lineLoop_search (compare : Str → CbErr) : ∀ (ts : List Str) (n : Nat) (ms : List (Nat × Str)), (n = 1 → ∀ t, ts.head? = some t → (0 : UInt8) ∉ t) →
    1 ≤ n → (∀ t ∈ ts, compare t = .matched ∨ compare t = .nil) →
    lineLoop (searchHandle compare) n ts ms = (ms ++ ((ts.zipIdx n).filter fun p => compare p.1 = .matched).map (fun p => (p.2, p.1)), false)
  | [], n, ms, _, _, _ => by simp [lineLoop]
  | t :: ts, n, ms, h0, hn, hc => by
    have h0' : ¬ (n = 1 ∧ (0 : UInt8) ∈ t) := fun h => h0 h.1 t rfl h.2
    rw [lineLoop, if_neg h0']
    have ih := fun ms => lineLoop_search compare ts (n + 1) ms (by omega) (by omega) (fun x hx => hc x (List.mem_cons_of_mem _ hx))
    rw [List.zipIdx_cons]
    rcases hc t List.mem_cons_self with h | h
    · unfold searchHandle
      rw [h]
      simp only
      have := ih (ms ++ [(n, t)])
      unfold searchHandle at this
      rw [this, List.filter_cons_of_pos (by simpa using h)]
      simp
    · unfold searchHandle
      rw [h]
      simp only
      have := ih ms
      unfold searchHandle at this
      rw [this, List.filter_cons_of_neg (by simp [h])]

/-- **C46** (for files whose lines have less than 65536 bytes) `SearchInFile` reports exactly the lines for which the predicate holds, in order,
with their numbers (from 1) and their text without `\n` or `\r\n`. -/
theorem C46_search_in_file_partial (w : World) (filename text : Str) (hf : w.at filename = .node (.file text)) (ls ts : List Str) (hls : IsLines text ls)
    (hts : List.Forall₂ Stripped ls ts) (hshort : ∀ l ∈ ls, l.length ≤ 65535) (hnul : ∀ t, ts.head? = some t → (0 : UInt8) ∉ t) (p : Str → Bool) :
    searchInFile w filename (fun line => if p line then .matched else .nil) = (numbered ts).filter fun m => p m.2 := by
  unfold searchInFile getFileContentByLine
  rw [hf]
  simp only
  have hl : scannerLines text = ts := by
    unfold scannerLines
    rw [rawLines_spec hls, List.takeWhile_eq_self_iff.2, stripped_unique hts]
    intro l hl
    have := hshort l hl
    simp only [decide_eq_true_eq]; omega
  rw [hl, lineLoop_search _ ts 1 [] (fun _ => hnul) (Nat.le_refl _) (by intro t _; split <;> simp)]
  unfold numbered
  rw [List.nil_append]
  have e : ∀ (ts : List Str) (k : Nat), ((ts.zipIdx (k + 1)).filter fun q => decide ((if p q.1 then CbErr.matched else CbErr.nil) = CbErr.matched)).map (fun q => (q.2, q.1)) =
      ((ts.zipIdx k).map fun q => (q.2 + 1, q.1)).filter fun m => p m.2 := by
    intro ts
    induction ts with
    | nil => intro k; rfl
    | cons t ts ih =>
      intro k
      rw [List.zipIdx_cons, List.zipIdx_cons, List.map_cons]
      by_cases ht : p t = true
      · rw [List.filter_cons_of_pos (by simp [ht]), List.filter_cons_of_pos (by simpa using ht), List.map_cons, ih]
      · rw [List.filter_cons_of_neg (by simp [ht]), List.filter_cons_of_neg (by simpa using ht), ih]
  exact e ts 0

/-- A file with `\r\n`, an empty line and a last line without end. -/
example : IsLines (lit "ab\r\n\nac") [lit "ab\r", [], lit "ac"] ∧ List.Forall₂ Stripped [lit "ab\r", [], lit "ac"] [lit "ab", [], lit "ac"] ∧
    numbered [lit "ab", [], lit "ac"] = [(1, lit "ab"), (2, []), (3, lit "ac")] := by
  refine ⟨⟨by decide, Or.inr ⟨[lit "ab\r", []], lit "ac", rfl, by decide, by decide⟩⟩, ?_, by decide⟩
  have hs : ∀ (l t : Str), l = t → l.getLast? ≠ some 13 → Stripped l t := by
    rintro l t rfl h
    exact Or.inr ⟨rfl, fun t' e => h (by rw [e]; simp)⟩
  exact .cons (Or.inl rfl) (.cons (hs _ _ rfl (by decide)) (.cons (hs _ _ rfl (by decide)) .nil))

/-- **C46** is false for long lines: nothing of the file from the first line with 65536 bytes or more on is searched, and there is no error. -/
theorem C46_long_line_false (w w' : World) (filename text text' : Str) (hf : w.at filename = .node (.file text)) (hf' : w'.at filename = .node (.file text'))
    (as bs : List Str) (long : Str) (hls : IsLines text (as ++ long :: bs)) (hls' : IsLines text' as) (hlong : 65536 ≤ long.length) (compare : Str → CbErr) :
    searchInFile w filename compare = searchInFile w' filename compare := by
  unfold searchInFile getFileContentByLine
  rw [hf, hf']
  simp only
  have : scannerLines text = scannerLines text' := by
    unfold scannerLines
    rw [rawLines_spec hls, rawLines_spec hls']
    congr 1
    induction as with
    | nil => rw [List.nil_append, List.takeWhile_cons_of_neg (by simp; omega), List.takeWhile_nil]
    | cons a as ih =>
      have ih' : List.takeWhile (fun l => decide (l.length < 65536)) (as ++ long :: bs) = List.takeWhile (fun l => decide (l.length < 65536)) as := by
        clear ih hls hls'
        induction as with
        | nil => rw [List.nil_append, List.takeWhile_cons_of_neg (by simp; omega), List.takeWhile_nil]
        | cons a as ih => rw [List.cons_append, List.takeWhile_cons, List.takeWhile_cons, ih]
      rw [List.cons_append, List.takeWhile_cons, List.takeWhile_cons, ih']
  rw [this]

/-- **C47** If the first line of a file contains a NUL byte, no line is delivered: the callback is not called at all, `GetFileContentByLine`
returns an error and `SearchInFile` no match. (For a first line of at least 65536 bytes nothing is delivered either, without an error.) -/
theorem C47_binary (w : World) (filename text : Str) (hf : w.at filename = .node (.file text)) (l : Str) (ls : List Str) (hls : IsLines text (l :: ls))
    (t : Str) (ht : Stripped l t) (hnul : (0 : UInt8) ∈ t) :
    (∀ (σ : Type) (handle : σ → Nat → Str → σ × CbErr) (st : σ),
      getFileContentByLine w filename handle st = (st, decide (l.length ≤ 65535))) ∧
    ∀ compare, searchInFile w filename compare = [] := by
  have key : ∀ (σ : Type) (handle : σ → Nat → Str → σ × CbErr) (st : σ), getFileContentByLine w filename handle st = (st, decide (l.length ≤ 65535)) := by
    intro σ handle st
    unfold getFileContentByLine
    rw [hf]
    simp only
    unfold scannerLines
    rw [rawLines_spec hls]
    by_cases hlen : l.length ≤ 65535
    · rw [List.takeWhile_cons_of_pos (by simp; omega), List.map_cons, dropCR_spec ht, lineLoop, if_pos ⟨rfl, hnul⟩]
      simp [hlen]
    · rw [List.takeWhile_cons_of_neg (by simp; omega), List.map_nil, lineLoop]
      simp [hlen]
  refine ⟨key, fun compare => ?_⟩
  unfold searchInFile
  rw [key]

example : IsLines [97, 0, 10, 98] [[97, 0], [98]] := ⟨by decide, Or.inr ⟨[[97, 0]], [98], rfl, by decide, by decide⟩⟩

/-! ## C48: searching the store -/

theorem lookupAt_append : ∀ (ps qs : List Str) (t : Node), lookupAt t (ps ++ qs) = match lookupAt t ps with
    | .node nd => lookupAt nd qs
    | r => match qs with
      | [] => r
      | _ => r
  | [], qs, t => rfl
  | p :: ps, qs, .file c => by cases qs <;> rfl
  | p :: ps, qs, .dir es => by
    rw [List.cons_append, lookupAt, lookupAt]
    cases entry es p with
    | none => cases qs <;> rfl
    | some nd => exact lookupAt_append ps qs nd

theorem parts_snoc (w : World) {r n : Str} (hr : r ≠ []) (hn : GoodName n) : w.parts (r ++ slash :: n) = w.parts r ++ [n] := by
  unfold World.parts
  rw [isRooted_append hr, splitSlash_append, splitSlash_noslash hn.2.2.2, ← List.append_assoc, cleanParts_snoc hn]

theorem endsInSlash_snoc {r n : Str} (hn : GoodName n) : endsInSlash (r ++ slash :: n) = false := by
  unfold endsInSlash
  obtain ⟨h1, -, -, h2⟩ := hn
  have : (r ++ slash :: n).getLast? = n.getLast? := by
    cases n with
    | nil => exact absurd rfl h1
    | cons b n => rw [show r ++ slash :: b :: n = (r ++ [slash]) ++ (b :: n) by simp, List.getLast?_append_of_ne_nil _ (by simp)]
  rw [this]
  cases h : n.getLast? with
  | none => rfl
  | some b =>
    have := List.mem_of_getLast? h
    simp only [beq_eq_false_iff_ne, ne_eq, Option.some.injEq]
    rintro rfl; exact h2 this

/-- The file `d/n` below a directory. -/
theorem at_below (w : World) {root d n : Str} {es : List (Str × Node)} (hat : w.at root = .node (.dir es)) (hd : GoodName d) (hn : GoodName n) :
    w.at (root ++ slash :: d ++ slash :: n) = lookupAt (.dir es) [d, n] := by
  have hr : root ≠ [] := by rintro rfl; unfold World.at at hat; simp at hat
  have hl : lookupAt w.tree (w.parts root) = .node (.dir es) := by
    unfold World.at at hat
    rw [if_neg hr] at hat
    split at hat
    · split at hat <;> cases hat
    · exact hat
  unfold World.at
  rw [if_neg (by simp), parts_snoc w (by simp) hn, parts_snoc w hr hd, List.append_assoc, lookupAt_append, hl]
  simp only [List.cons_append, List.nil_append]
  split
  · rw [endsInSlash_snoc hn]
    rename_i h
    rw [h]; rfl
  · rfl

/-- The file `d/n` below the working directory. -/
theorem at_cwd (w : World) {d n : Str} {es : List (Str × Node)} (hg : ∀ p ∈ w.cwd, GoodName p) (hcwd : lookupAt w.tree w.cwd = .node (.dir es)) (hd : GoodName d)
    (hn : GoodName n) : w.at (d ++ slash :: n) = lookupAt (.dir es) [d, n] := by
  unfold World.at
  have hnr : isRooted (d ++ slash :: n) = false := by
    rw [isRooted_append hd.1]
    obtain ⟨h1, -, -, h2⟩ := hd
    cases d with
    | nil => exact absurd rfl h1
    | cons b d =>
      rw [List.mem_cons, not_or] at h2
      simp only [isRooted, beq_eq_false_iff_ne]
      exact fun e => h2.1 e.symm
  have hp : w.parts (d ++ slash :: n) = w.cwd ++ [d, n] := by
    rw [parts_snoc w hd.1 hn]
    unfold World.parts
    rw [← isRooted_append (t := slash :: n) hd.1, hnr, splitSlash_noslash hd.2.2.2]
    simp only [Bool.false_eq_true, if_false]
    rw [cleanParts_snoc hd, cleanParts_good _ _ hg, List.append_assoc]; rfl
  rw [if_neg (by simp), hp, lookupAt_append, hcwd]
  simp only
  split
  · rw [endsInSlash_snoc hn]
    rename_i h
    rw [h]; rfl
  · rfl

theorem searchAll_mem {w : World} {files : Files} {order : List Str} {p : Str → Bool} {path : Str} {ms : List (Nat × Str)}
    (h : (path, ms) ∈ searchAll w files order p) : ms = searchInFile w path (fun line => if p line then .matched else .nil) := by
  unfold searchAll at h
  rw [List.mem_flatMap] at h
  obtain ⟨d, -, h⟩ := h
  rw [List.mem_map] at h
  obtain ⟨q, -, h⟩ := h
  injection h with h1 h2
  subst h1
  exact h2.symm

theorem entry_good : ∀ {es : List (Str × Node)} {n : Str} {nd : Node}, WFList es → entry es n = some nd → GoodName n ∧ nd.WF
  | [], n, nd, _, h => by cases h
  | (m, c) :: es, n, nd, h1, h2 => by
    rw [WFList, WFPair] at h1
    rw [entry] at h2
    split at h2
    · rename_i e
      injection h2 with h2
      rw [← h2, ← e]; exact h1.1
    · exact entry_good h1.2 h2

theorem isEntry_good {es : List (Str × Node)} (hwf : (Node.dir es).WF) {d n : Str} (h : IsEntry (.dir es) d n) : GoodName d ∧ GoodName n := by
  obtain ⟨⟨c, h⟩, -⟩ := h
  rw [Node.WF] at hwf
  simp only [lookupAt] at h
  cases he : entry es d with
  | none => rw [he] at h; cases h
  | some nd =>
    rw [he] at h
    obtain ⟨g1, g2⟩ := entry_good hwf.2 he
    refine ⟨g1, ?_⟩
    cases nd with
    | file c => cases h
    | dir ds =>
      rw [Node.WF] at g2
      simp only [lookupAt] at h
      cases he2 : entry ds n with
      | none => rw [he2] at h; cases h
      | some nd => exact (entry_good g2.2 he2).1

theorem isEntry_unique {d d' n n' : Str} (hd : GoodName d) (hd' : GoodName d') (hn : GoodName n) (hn' : GoodName n')
    (h : d ++ lit "/" ++ n = d' ++ lit "/" ++ n') : d = d' ∧ n = n' := by
  have e : ∀ d n : Str, d ++ lit "/" ++ n = d ++ slash :: n := by intro d n; rw [List.append_assoc]; rfl
  rw [e, e] at h
  have := congrArg splitSlash h
  rw [splitSlash_append, splitSlash_append, splitSlash_noslash hd.2.2.2, splitSlash_noslash hd'.2.2.2, splitSlash_noslash hn.2.2.2,
    splitSlash_noslash hn'.2.2.2] at this
  simpa using this

/-- **C48** (as far as it holds) If the working directory is the store, the searches report every listed file exactly once, with exactly its
matching lines (for text files without lines of 65536 bytes or more). -/
theorem C48_search_store_partial (w : World) (root : Str) (es : List (Str × Node)) (files : Files) (hroot : CleanDir root)
    (hat : w.at root = .node (.dir es)) (hwf : (Node.dir es).WF) (hgit : baseName root ≠ lit ".git") (hscan : scan w root = .ok files)
    (hg : ∀ p ∈ w.cwd, GoodName p) (hcwd : lookupAt w.tree w.cwd = .node (.dir es)) (p : Str → Bool) (out : List (Str × List (Nat × Str)))
    (h : QuerySearch w files (some p) (some out)) :
    (out.map Prod.fst).Nodup ∧
    (∀ path, path ∈ out.map Prod.fst ↔ ∃ d ∈ categories, ∃ n, IsEntry (.dir es) d n ∧ path = d ++ lit "/" ++ n) ∧
    ∀ d n ms text ls ts, (d ++ lit "/" ++ n, ms) ∈ out → GoodName d → GoodName n → lookupAt (.dir es) [d, n] = .node (.file text) → IsLines text ls →
      List.Forall₂ Stripped ls ts → (∀ l ∈ ls, l.length ≤ 65535) → (∀ t, ts.head? = some t → (0 : UInt8) ∉ t) →
      ms = (numbered ts).filter fun m => p m.2 := by
  obtain ⟨files', e, hmem, hsort⟩ := C43_scan_lists_entries w root es hroot hat hwf hgit
  rw [hscan] at e
  injection e with e
  subst e
  obtain ⟨order, ⟨hn, ho⟩, hout⟩ := h
  injection hout with hout
  have hfst : out.map Prod.fst = order.flatMap files := by
    rw [hout, searchAll, List.map_flatMap]
    congr 1
    funext d
    rw [List.map_map]
    exact List.map_id _
  refine ⟨?_, ?_, ?_⟩
  · rw [hfst, List.nodup_flatMap]
    refine ⟨fun d _ => (hsort d).imp (fun h => strLt_ne h), ?_⟩
    refine hn.imp ?_
    intro a b hab x hx hy
    obtain ⟨-, n, h1, h2⟩ := (hmem a x).1 hx
    obtain ⟨-, n', h3, h4⟩ := (hmem b x).1 hy
    obtain ⟨g1, g2⟩ := isEntry_good hwf h1
    obtain ⟨g3, g4⟩ := isEntry_good hwf h3
    exact hab (isEntry_unique g1 g3 g2 g4 (h2.symm.trans h4)).1
  · intro path
    rw [hfst, List.mem_flatMap]
    constructor
    · rintro ⟨d, -, hd⟩
      obtain ⟨h1, n, h2⟩ := (hmem d path).1 hd
      exact ⟨d, h1, n, h2⟩
    · rintro ⟨d, h1, n, h2⟩
      have := (hmem d path).2 ⟨h1, n, h2⟩
      exact ⟨d, (ho d).2 (List.ne_nil_of_mem this), this⟩
  · intro d n ms text ls ts hin hd hn' hlook hls hts hshort hnul
    rw [hout] at hin
    rw [searchAll_mem hin]
    apply C46_search_in_file_partial w _ text ?_ ls ts hls hts hshort hnul p
    have e : d ++ lit "/" ++ n = d ++ slash :: n := by rw [List.append_assoc]; rfl
    rw [e, at_cwd w hg hcwd hd hn', hlook]

/-- **C48** is false in any other working directory: the listed paths are relative to the store but are opened relative to the working
directory; if they do not exist there, every file is reported without matches, and there is no error. -/
theorem C48_other_directory_false (w : World) (files : Files) (p : Str → Bool) (out : List (Str × List (Nat × Str)))
    (hno : ∀ d, ∀ path ∈ files d, w.at path = .noEnt) (h : QuerySearch w files (some p) (some out)) :
    (∀ d, ∀ path ∈ files d, (path, []) ∈ out) ∧ ∀ path ms, (path, ms) ∈ out → ms = [] := by
  obtain ⟨order, ⟨hn, ho⟩, hout⟩ := h
  injection hout with hout
  have hs : ∀ d, ∀ path ∈ files d, ∀ cmp, searchInFile w path cmp = [] := by
    intro d path hp cmp
    unfold searchInFile getFileContentByLine
    rw [hno d path hp]
  constructor
  · intro d path hp
    rw [hout, searchAll, List.mem_flatMap]
    exact ⟨d, (ho d).2 (List.ne_nil_of_mem hp), List.mem_map.2 ⟨path, hp, by rw [hs d path hp]⟩⟩
  · intro path ms hin
    rw [hout, searchAll, List.mem_flatMap] at hin
    obtain ⟨d, -, hin⟩ := hin
    rw [List.mem_map] at hin
    obtain ⟨q, hq, e⟩ := hin
    injection e with e1 e2
    rw [← e2, hs d q hq]

/-- In the file system above, with the root as working directory, this is the case. -/
example : exampleWorld.at (lit "sites/a.com") = .noEnt ∧ exampleWorld.at (lit "email/me") = .noEnt := ⟨rfl, rfl⟩

/-- With the store as working directory the hypotheses of `C48_search_store_partial` hold. -/
example : (⟨exampleWorld.tree, [lit "v"]⟩ : World).at (lit "/v") = .node (.dir exampleStore) ∧
    lookupAt exampleWorld.tree [lit "v"] = .node (.dir exampleStore) ∧ GoodName (lit "v") := ⟨rfl, rfl, by decide⟩

/-- `DirectSearch` is the search for lines equal to the query. -/
theorem C48_direct (w : World) (files : Files) (query : Str) (out : List (Str × List (Nat × Str))) (h : DirectSearch w files query out) :
    QuerySearch w files (some fun line => line == query) (some out) := by
  obtain ⟨order, h1, h2⟩ := h
  exact ⟨order, h1, by rw [h2]⟩

end Verif.Repo
