import Verif.Cmds.Props
/-
C52: insert.
-/
namespace Verif.Cmds
open Repo Repo.Spec Closest Spec

theorem entry_setEntry (n m : Str) (nd : Node) : ∀ es : List (Str × Node), entry (setEntry es n nd) m = if m = n then some nd else entry es m
  | [] => by
    rw [setEntry, entry, entry]
    by_cases h : m = n
    · rw [if_pos h.symm, if_pos h]
    · rw [if_neg (fun e => h e.symm), if_neg h]; rfl
  | (k, x) :: es => by
    rw [setEntry]
    by_cases hk : k = n
    · rw [if_pos hk, entry, entry, hk]
      by_cases h : m = n
      · rw [if_pos h.symm, if_pos h]
      · rw [if_neg (fun e => h e.symm), if_neg h, if_neg (fun e => h e.symm)]
    · rw [if_neg hk]
      split
      · rw [entry]
        by_cases h : m = n
        · rw [if_pos h.symm, if_pos h]
        · rw [if_neg (fun e => h e.symm), if_neg h]
      · rw [entry, entry, entry_setEntry n m nd es]
        by_cases h : m = n
        · rw [if_neg (by rw [h]; exact hk), if_pos h, if_pos h]
        · rw [if_neg h, if_neg h]

theorem mem_setEntry {n : Str} {nd : Node} : ∀ {es : List (Str × Node)} {e : Str × Node}, e ∈ setEntry es n nd → e = (n, nd) ∨ e ∈ es
  | [], e, h => by rw [setEntry, List.mem_singleton] at h; exact Or.inl h
  | (k, x) :: es, e, h => by
    rw [setEntry] at h
    split at h
    · rcases List.mem_cons.1 h with h | h
      · exact Or.inl h
      · exact Or.inr (List.mem_cons_of_mem _ h)
    · split at h
      · rcases List.mem_cons.1 h with h | h
        · exact Or.inl h
        · exact Or.inr h
      · rcases List.mem_cons.1 h with h | h
        · exact Or.inr (by rw [h]; exact List.mem_cons_self ..)
        · rcases mem_setEntry h with h | h
          · exact Or.inl h
          · exact Or.inr (List.mem_cons_of_mem _ h)

theorem sorted_setEntry {n : Str} {nd : Node} : ∀ {es : List (Str × Node)}, es.Pairwise (fun a b => strLt a.1 b.1 = true) →
    (setEntry es n nd).Pairwise (fun a b => strLt a.1 b.1 = true)
  | [], _ => by rw [setEntry]; simp
  | (k, x) :: es, h => by
    rw [List.pairwise_cons] at h
    rw [setEntry]
    split
    · rename_i hk
      rw [List.pairwise_cons]
      exact ⟨by rw [← hk]; exact h.1, h.2⟩
    · rename_i hk
      split
      · rename_i hlt
        rw [List.pairwise_cons, List.pairwise_cons]
        refine ⟨?_, h⟩
        intro b hb
        rcases List.mem_cons.1 hb with rfl | hb
        · exact hlt
        · exact strLt_trans hlt (h.1 b hb)
      · rename_i hlt
        rw [List.pairwise_cons]
        refine ⟨?_, sorted_setEntry h.2⟩
        intro b hb
        rcases mem_setEntry hb with rfl | hb
        · rcases strLt_total k n with h' | h' | h'
          · exact h'
          · exact absurd h' hk
          · exact absurd h' hlt
        · exact h.1 b hb

theorem wfList_mem : ∀ {es : List (Str × Node)}, WFList es ↔ ∀ e ∈ es, GoodName e.1 ∧ e.2.WF
  | [] => by simp [WFList]
  | (n, c) :: es => by rw [WFList, WFPair, wfList_mem]; simp

theorem wf_setEntry {n : Str} {nd : Node} {es : List (Str × Node)} (h : (Node.dir es).WF) (hn : GoodName n) (hnd : nd.WF) : (Node.dir (setEntry es n nd)).WF := by
  rw [Node.WF, wfList_mem] at h ⊢
  refine ⟨sorted_setEntry h.1, ?_⟩
  intro e he
  rcases mem_setEntry he with rfl | he
  · exact ⟨hn, hnd⟩
  · exact h.2 e he

/-- The effect of creating a file. -/
theorem put_lookup (c : Str) : ∀ (ps : List Str) (t t' : Node), put t ps c = some t' →
    lookupAt t' ps = .node (.file c) ∧ ∀ qs x, qs ≠ ps → (lookupAt t' qs = .node (.file x) ↔ lookupAt t qs = .node (.file x))
  | [], .file _, t', h => by simp [put] at h
  | [], .dir _, t', h => by simp [put] at h
  | _ :: _, .file _, t', h => by simp [put] at h
  | [n], .dir es, t', h => by
    rw [put] at h
    have hnd : ∀ ds, entry es n ≠ some (.dir ds) := by
      intro ds hc; rw [hc] at h; simp at h
    have : t' = .dir (setEntry es n (.file c)) := by
      split at h
      · cases h
      · injection h with h; exact h.symm
    subst this
    constructor
    · simp [lookupAt, entry_setEntry]
    · intro qs x hq
      cases qs with
      | nil => simp [lookupAt]
      | cons q qs =>
        simp only [lookupAt, entry_setEntry]
        by_cases hqn : q = n
        · subst hqn
          rw [if_pos rfl]
          have hqs : qs ≠ [] := by rintro rfl; exact hq rfl
          cases qs with
          | nil => exact absurd rfl hqs
          | cons r rs =>
            simp only [lookupAt, reduceCtorEq, false_iff]
            cases he : entry es q with
            | none => simp
            | some nd => cases nd with
              | file y => simp [lookupAt]
              | dir ds => exact absurd he (hnd ds)
        · rw [if_neg hqn]
  | p :: q :: ps, .dir es, t', h => by
    rw [put] at h
    cases he : entry es p with
    | none => rw [he] at h; cases h
    | some nd =>
      rw [he] at h
      simp only at h
      cases hp : put nd (q :: ps) c with
      | none => rw [hp] at h; cases h
      | some nd' =>
        rw [hp] at h
        simp only [Option.map_some, Option.some.injEq] at h
        subst h
        obtain ⟨i1, i2⟩ := put_lookup c (q :: ps) nd nd' hp
        constructor
        · rw [lookupAt, entry_setEntry, if_pos rfl]; exact i1
        · intro qs x hq
          cases qs with
          | nil => simp [lookupAt]
          | cons r rs =>
            simp only [lookupAt, entry_setEntry]
            by_cases hr : r = p
            · subst hr
              rw [if_pos rfl, he]
              exact i2 rs x (fun e => hq (by rw [e]))
            · rw [if_neg hr]

/-- Creating a file below a directory changes only this directory. -/
theorem put_below (c : Str) : ∀ (ps qs : List Str) (t nd nd' : Node), qs ≠ [] → lookupAt t ps = .node nd → put nd qs c = some nd' →
    ∃ t', put t (ps ++ qs) c = some t' ∧ lookupAt t' ps = .node nd'
  | [], qs, t, nd, nd', _, h1, h2 => by
    rw [lookupAt] at h1
    injection h1 with h1
    subst h1
    exact ⟨nd', h2, rfl⟩
  | p :: ps, qs, .file _, nd, nd', _, h1, _ => by cases h1
  | p :: ps, qs, .dir es, nd, nd', hq, h1, h2 => by
    rw [lookupAt] at h1
    cases he : entry es p with
    | none => rw [he] at h1; cases h1
    | some x =>
      rw [he] at h1
      obtain ⟨t', h3, h4⟩ := put_below c ps qs x nd nd' hq h1 h2
      refine ⟨.dir (setEntry es p t'), ?_, ?_⟩
      · cases hpq : ps ++ qs with
        | nil => exact absurd (List.append_eq_nil_iff.1 hpq).2 hq
        | cons a l =>
          rw [List.cons_append, hpq, put, he]
          simp only
          rw [← hpq, h3]; rfl
      · rw [lookupAt, entry_setEntry, if_pos rfl]; exact h4

theorem join_entry {root : Str} (hr : CleanDir root) {d n : Str} (hd : GoodName d) (hn : GoodName n) : joinPath root (d ++ lit "/" ++ n) = root ++ slash :: d ++ slash :: n := by
  rw [slash_eq]
  unfold joinPath
  rw [if_neg hr.ne_nil]
  have := ((hr.snoc hd).snoc hn).1
  rw [← this]
  congr 1
  simp

theorem at_dir {w : World} {root : Str} {es : List (Str × Node)} : w.at root = .node (.dir es) ↔ root ≠ [] ∧ lookupAt w.tree (w.parts root) = .node (.dir es) := by
  unfold World.at
  by_cases h : root = []
  · simp [h]
  · rw [if_neg h]
    simp only [ne_eq, h, not_false_eq_true, true_and]
    split
    · rename_i c e
      rw [e]; split <;> simp
    · rfl

/-- **C52** (as far as it holds) `insert` under a category that has a directory, with a proper file name, creates the entry with the given
content, or replaces the entry of this name; every other entry, and every other file of the whole file system, stays as it was. Missing: the
directory must exist, the root must be the path itself (`insert` does not expand variables, see `C52_default_root_fails`), and names
with `..` are not kept inside the store (`C52_escape_false`). -/
theorem C52_insert_partial (w : World) (root : Str) (es : List (Str × Node)) (hs : IsStore w root es) (d n content : Str) (hd : d ∈ categories) (hn : GoodName n)
    (hds : n ≠ lit ".DS_Store") (ds : List (Str × Node)) (hdir : lookupAt (.dir es) [d] = .node (.dir ds)) (hfree : ∀ x, lookupAt (.dir es) [d, n] ≠ .node (.dir x)) :
    ∃ w' es', insert w root (d ++ lit "/" ++ n) content = some w' ∧ IsStore w' root es' ∧
      Entry es' (d ++ lit "/" ++ n) content ∧
      (∀ f text, f ≠ d ++ lit "/" ++ n → (Entry es' f text ↔ Entry es f text)) ∧
      (∀ path text, w.parts path ≠ w.parts (root ++ lit "/" ++ d ++ lit "/" ++ n) → (w'.at path = .node (.file text) ↔ w.at path = .node (.file text))) := by
  have hdg : GoodName d := (by decide : ∀ d ∈ categories, GoodName d) d hd
  have hed : entry es d = some (.dir ds) := by
    simp only [lookupAt] at hdir
    cases he : entry es d with
    | none => rw [he] at hdir; cases hdir
    | some nd => rw [he] at hdir; simp only [Found.node.injEq] at hdir; rw [hdir]
  have hen : ∀ x, entry ds n ≠ some (.dir x) := by
    intro x hc
    apply hfree x
    simp only [lookupAt, hed, hc]
  have hput : put (.dir es) [d, n] content = some (.dir (setEntry es d (.dir (setEntry ds n (.file content))))) := by
    rw [put, hed]
    simp only
    rw [put]
    split
    · rename_i x hx; exact absurd hx (hen x)
    · rfl
  obtain ⟨hne, hl⟩ := at_dir.1 hs.here
  obtain ⟨t', ht1, ht2⟩ := put_below content (w.parts root) [d, n] w.tree _ _ (by simp) hl hput
  have hparts : w.parts (root ++ slash :: d ++ slash :: n) = w.parts root ++ [d, n] := by
    rw [parts_snoc w (by simp) hn, parts_snoc w hne hdg, List.append_assoc]; rfl
  have hwfd : (Node.dir ds).WF := (entry_good (by have := hs.wf; rw [Node.WF] at this; exact this.2) hed).2
  refine ⟨{ w with tree := t' }, setEntry es d (.dir (setEntry ds n (.file content))), ?_, ?_, ?_, ?_, ?_⟩
  · unfold insert
    dsimp only
    rw [join_entry hs.clean hdg hn, if_neg (by simp), hparts, ht1]
    rfl
  · refine ⟨hs.clean, at_dir.2 ⟨hne, ht2⟩, ?_, hs.notGit⟩
    exact wf_setEntry hs.wf hdg (wf_setEntry hwfd hn trivial)
  · exact ⟨d, hd, n, by simp [lookupAt, entry_setEntry], hds, rfl⟩
  · intro f text hf
    obtain ⟨-, i2⟩ := put_lookup content _ _ _ hput
    constructor
    · rintro ⟨d', hd', n', h1, h2, rfl⟩
      refine ⟨d', hd', n', (i2 [d', n'] text ?_).1 h1, h2, rfl⟩
      intro e
      simp only [List.cons.injEq, and_true] at e
      exact hf (by rw [e.1, e.2])
    · rintro ⟨d', hd', n', h1, h2, rfl⟩
      refine ⟨d', hd', n', (i2 [d', n'] text ?_).2 h1, h2, rfl⟩
      intro e
      simp only [List.cons.injEq, and_true] at e
      exact hf (by rw [e.1, e.2])
  · intro path text hp
    obtain ⟨-, i2⟩ := put_lookup content _ _ _ ht1
    have hp' : w.parts path ≠ w.parts root ++ [d, n] := by
      rw [← hparts]
      rwa [show root ++ lit "/" ++ d ++ lit "/" ++ n = root ++ slash :: d ++ slash :: n by
        rw [show lit "/" = [slash] from rfl]; simp] at hp
    have key : ∀ (v : World) (t : Str), v.at path = .node (.file t) ↔ path ≠ [] ∧ endsInSlash path = false ∧ lookupAt v.tree (v.parts path) = .node (.file t) := by
      intro v t
      unfold World.at
      by_cases h : path = []
      · simp [h]
      · rw [if_neg h]
        simp only [ne_eq, h, not_false_eq_true, true_and]
        split
        · rename_i c e
          rw [e]
          cases endsInSlash path <;> simp
        · rename_i hno
          constructor
          · intro hc; exact absurd hc (hno t)
          · rintro ⟨-, hc⟩; exact absurd hc (hno t)
    rw [key, key]
    have : World.parts { w with tree := t' } path = w.parts path := rfl
    rw [this]
    simp only [i2 _ text hp']

example : lookupAt (.dir exampleStore) [lit "sites"] = .node (.dir [(lit "a.com", .file (lit "s3\nenv: tok\n")), (lit "old", .dir [(lit "b.com", .file [])])]) ∧
    GoodName (lit "c.com") ∧ (∃ w', insert exampleWorld (lit "/v") (lit "sites/c.com") (lit "p") = some w' ∧ w'.at (lit "/v/sites/c.com") = .node (.file (lit "p"))) :=
  ⟨rfl, by decide, _, rfl, rfl⟩

/-- **C52** is false: an entry name with `..` writes outside the store. -/
theorem C52_escape_false : ∃ w', insert exampleWorld (lit "/v") (lit "../x") (lit "p") = some w' ∧ exampleWorld.at (lit "/x") = .noEnt ∧
    w'.at (lit "/x") = .node (.file (lit "p")) := ⟨_, rfl, rfl, rfl⟩

/-- **C52** is false: the content of an existing entry is lost without a question. -/
theorem C52_overwrite_false : Entry exampleStore (lit "sites/a.com") (lit "s3\nenv: tok\n") ∧
    ∃ w', insert exampleWorld (lit "/v") (lit "sites/a.com") [] = some w' ∧ w'.at (lit "/v/sites/a.com") = .node (.file []) :=
  ⟨⟨lit "sites", by decide, lit "a.com", rfl, by decide, by decide⟩, _, rfl, rfl⟩

/-- **C52** is false for the root the program sets (main.go:52): the variable in it is not expanded by `insert`, so unless the working directory
has a directory that is really called `$HOME`, every insert of an entry `d/n` fails, whatever the store contains. -/
theorem C52_default_root_fails (w : World) (hg : ∀ p ∈ w.cwd, GoodName p) (hno : lookupAt w.tree (w.cwd ++ [lit "$HOME"]) = .noEnt) (d n content : Str) (hd : GoodName d)
    (hn : GoodName n) : insert w (lit "$HOME/Documents/Vault") (d ++ lit "/" ++ n) content = none := by
  have hput : ∀ (ps qs : List Str) (t : Node), lookupAt t ps = .noEnt → put t (ps ++ qs) content = none ∨ qs = [] := by
    intro ps
    induction ps with
    | nil => intro qs t h; cases h
    | cons p ps ih =>
      intro qs t h
      cases t with
      | file c => cases h
      | dir es =>
        rw [lookupAt] at h
        cases hpq : ps ++ qs with
        | nil => exact Or.inr (List.append_eq_nil_iff.1 hpq).2
        | cons a l =>
          rw [List.cons_append, hpq, put]
          cases he : entry es p with
          | none => exact Or.inl rfl
          | some nd =>
            rw [he] at h
            rcases ih qs nd h with h' | h'
            · left
              simp only
              rw [← hpq, h']; rfl
            · exact Or.inr h'
  unfold insert
  have hc : CleanDir (lit "$HOME/Documents/Vault") := ⟨by decide, by decide, by decide⟩
  dsimp only
  rw [join_entry hc hd hn, if_neg (by simp), parts_snoc w (by simp) hn, parts_snoc w (by decide) hd]
  have hp : w.parts (lit "$HOME/Documents/Vault") = w.cwd ++ [lit "$HOME", lit "Documents", lit "Vault"] := by
    unfold World.parts
    have h1 : isRooted (lit "$HOME/Documents/Vault") = false := by decide
    have h2 : splitSlash (lit "$HOME/Documents/Vault") = [lit "$HOME", lit "Documents", lit "Vault"] := by decide
    rw [h1, h2]
    simp only [Bool.false_eq_true, if_false]
    apply cleanParts_good
    intro p hp
    rcases List.mem_append.1 hp with hp | hp
    · exact hg p hp
    · exact (by decide : ∀ p ∈ [lit "$HOME", lit "Documents", lit "Vault"], GoodName p) p hp
  rw [hp]
  have : w.cwd ++ [lit "$HOME", lit "Documents", lit "Vault"] ++ [d] ++ [n] = (w.cwd ++ [lit "$HOME"]) ++ [lit "Documents", lit "Vault", d, n] := by simp
  rw [this]
  rcases hput _ [lit "Documents", lit "Vault", d, n] _ hno with h | h
  · rw [h]; rfl
  · cases h

example : lookupAt exampleWorld.tree (exampleWorld.cwd ++ [lit "$HOME"]) = .noEnt := rfl

end Verif.Cmds
