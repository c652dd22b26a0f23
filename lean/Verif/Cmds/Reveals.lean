import Verif.Cmds.Model
import Verif.Closest.Props
/-
C159: which contents the output of a command depends on.
-/
namespace Verif.Cmds
open Repo Closest

/-! ## Specification -/

mutual
/-- The tree with all files emptied. -/
def emptied : Node → Node
  | .file _ => .file []
  | .dir es => .dir (emptiedList es)
/-- The entries of a directory. -/
def emptiedList : List (Str × Node) → List (Str × Node)
  | [] => []
  | e :: es => emptiedPair e :: emptiedList es
/-- One entry. -/
def emptiedPair : Str × Node → Str × Node
  | (n, c) => (n, emptied c)
end

/-- The two file systems have the same directories and the same names of files; the files may have different contents. -/
def SameNames (w w' : World) : Prop := w.cwd = w'.cwd ∧ emptied w.tree = emptied w'.tree

/-- The two file systems give the same for the path. -/
def SameAt (w w' : World) (path : Str) : Prop := w.at path = w'.at path

/-! ## Proofs -/

/-- What is found, emptied. -/
def emptiedFound : Found → Found
  | .node n => .node (emptied n)
  | .noEnt => .noEnt
  | .notDir => .notDir

theorem entry_emptied : ∀ (es : List (Str × Node)) (n : Str), entry (emptiedList es) n = (entry es n).map emptied
  | [], n => by simp [emptiedList, entry]
  | (m, nd) :: es, n => by
    rw [emptiedList, emptiedPair, entry, entry]
    split
    · rfl
    · exact entry_emptied es n

theorem lookup_emptied : ∀ (ps : List Str) (nd : Node), lookupAt (emptied nd) ps = emptiedFound (lookupAt nd ps)
  | [], nd => by rw [lookupAt.eq_1, lookupAt.eq_1]; rfl
  | p :: ps, .file c => by rw [emptied]; rfl
  | p :: ps, .dir es => by
    rw [emptied, lookupAt, lookupAt, entry_emptied]
    cases entry es p with
    | none => rfl
    | some nd => exact lookup_emptied ps nd

theorem at_emptied (w : World) (p : Str) : (World.mk (emptied w.tree) w.cwd).at p = emptiedFound (w.at p) := by
  unfold World.at
  split
  · rfl
  · have hp : (World.mk (emptied w.tree) w.cwd).parts p = w.parts p := rfl
    rw [hp]
    dsimp only
    rw [lookup_emptied]
    cases lookupAt w.tree (w.parts p) with
    | noEnt => rfl
    | notDir => rfl
    | node n =>
      cases n with
      | file c => simp only [emptiedFound, emptied]; split <;> simp [emptiedFound, emptied]
      | dir es => simp only [emptiedFound, emptied]

mutual
theorem walk_emptied (path name : Str) : ∀ nd : Node, walk path name (emptied nd) = walk path name nd
  | .file _ => by rw [emptied, walk, walk]
  | .dir es => by rw [emptied, walk, walk, walkList_emptied path es]
theorem walkList_emptied (path : Str) : ∀ es : List (Str × Node), walkList path (emptiedList es) = walkList path es
  | [] => by rw [emptiedList]
  | e :: es => by rw [emptiedList, walkList, walkList, walkPair_emptied path e, walkList_emptied path es]
theorem walkPair_emptied (path : Str) : ∀ e : Str × Node, walkPair path (emptiedPair e) = walkPair path e
  | (n, c) => by rw [emptiedPair, walkPair, walkPair, walk_emptied (joinPath path n) n c]
end

theorem scan_emptied (w : World) (root : Str) : scan (World.mk (emptied w.tree) w.cwd) root = scan w root := by
  unfold scan
  rw [at_emptied]
  cases w.at root with
  | noEnt => rfl
  | notDir => rfl
  | node n => simp only [emptiedFound, walk_emptied]

theorem scan_same {w w' : World} (h : SameNames w w') (root : Str) : scan w root = scan w' root := by
  rw [← scan_emptied w, ← scan_emptied w', h.1, h.2]

theorem content_same {σ : Type} {w w' : World} {f : Str} (h : SameAt w w' f) (handle : σ → Nat → Str → σ × CbErr) (st : σ) :
    getFileContentByLine w f handle st = getFileContentByLine w' f handle st := by
  unfold getFileContentByLine; rw [h]

theorem showFile_same {w w' : World} {root f : Str} (h : SameAt w w' (joinPath root f)) (a : ShowArgs) : showFile w root a f = showFile w' root a f := by
  have h' : w.at (joinPath root f) = w'.at (joinPath root f) := h
  unfold showFile
  dsimp only
  simp only [h', content_same h]

/-- The closest matches are among the words. -/
theorem closestN_mem {other : Str → Str} {ws : List Str} {cm : CM} {q : Str} {n : Int} {out : List Str} (hcm : new other ws [2] = some cm)
    (h : ClosestN cm q n out) (f : Str) (hf : f ∈ out) : f ∈ ws := by
  obtain ⟨_, all, _, hmem, _, rfl⟩ := C37_closestN_is_sorted other ws [2] cm hcm q n out h
  exact ((hmem f).1 (List.mem_of_mem_take hf)).1

theorem setEnvLoop_same {otherUp : Str → Str} {w w' : World} {root passName : Str} : ∀ (fs : List Str) (calls : List (Str × Str)),
    (∀ f ∈ fs, f = passName ∨ passName.length = 0 → SameAt w w' (joinPath root f)) → setEnvLoop otherUp w root passName fs calls = setEnvLoop otherUp w' root passName fs calls
  | [], _, _ => by rw [setEnvLoop, setEnvLoop]
  | f :: fs, calls, h => by
    have ih := fun calls => setEnvLoop_same (otherUp := otherUp) (passName := passName) fs calls (fun g hg => h g (List.mem_cons_of_mem _ hg))
    rw [setEnvLoop, setEnvLoop]
    split
    · rename_i hf
      rw [content_same (h f (by simp) hf)]
      simp only [ih]
    · exact ih calls

theorem words_mem {files : Files} {ws : List Str} (h : Words files ws) {f : Str} (hf : f ∈ ws) : ∃ d, f ∈ files d := by
  obtain ⟨order, -, rfl⟩ := h
  obtain ⟨d, -, hd⟩ := List.mem_flatMap.1 hf
  exact ⟨d, hd⟩

theorem searchInFile_same {w w' : World} {f : Str} (h : SameAt w w' f) (p : Str → CbErr) : searchInFile w f p = searchInFile w' f p := by
  unfold searchInFile; rw [content_same h]

/-! ## The theorems -/

/-- **C159** What `list` prints, and how it ends, does not depend on the contents of any file. -/
theorem C159_list (other expand : Str → Str) (w w' : World) (h : SameNames w w') (root sub : Str) (res : Res) : List' other expand w root sub res ↔ List' other expand w' root sub res := by
  unfold List'; rw [scan_same h]

/-- **C159** The same holds of `search` without a content. -/
theorem C159_search (other expand : Str → Str) (w w' : World) (h : SameNames w w') (root : Str) (fuzzy : Int) (search : Str) (res : Res) :
    Search other expand w root fuzzy search [] res ↔ Search other expand w' root fuzzy search [] res := by
  unfold Search; rw [scan_same h]; simp

/-- **C159** What `show` prints depends on the content of one file only: for every result there is an entry such that the result is possible in every file system with the same names in
which this entry has the same content. -/
theorem C159_show (other expand : Str → Str) (w : World) (root : Str) (a : ShowArgs) (res : Res) (h : Show other expand w root a res) :
    ∃ f, ∀ w', SameNames w w' → SameAt w w' (joinPath (expand root) f) → Show other expand w' root a res := by
  unfold Show at h
  cases hs : scan w (expand root) with
  | err => rw [hs] at h; exact ⟨[], fun w' hn _ => by unfold Show; rw [← scan_same hn, hs]; exact h⟩
  | fatal => rw [hs] at h; exact ⟨[], fun w' hn _ => by unfold Show; rw [← scan_same hn, hs]; exact h⟩
  | panic => rw [hs] at h; exact ⟨[], fun w' hn _ => by unfold Show; rw [← scan_same hn, hs]; exact h⟩
  | ok files =>
    rw [hs] at h
    dsimp only at h
    split at h
    · rename_i hp
      obtain ⟨f, hf, hr⟩ := h
      refine ⟨f.getD [], fun w' hn ha => ?_⟩
      unfold Show
      rw [← scan_same hn, hs]
      dsimp only
      rw [if_pos hp]
      refine ⟨f, hf, ?_⟩
      cases f with
      | none => exact hr
      | some f => dsimp only at hr ⊢; rw [hr]; exact showFile_same ha a
    · rename_i hp
      refine ⟨[], fun w' hn ha => ?_⟩
      unfold Show
      rw [← scan_same hn, hs]
      dsimp only
      rw [if_neg hp]
      exact h

/-- **C159** What `setenv name` exports depends on the content of that entry only. -/
theorem C159_setenv (otherUp expand : Str → Str) (w w' : World) (h : SameNames w w') (root passName : Str) (hne : passName ≠ []) (ha : SameAt w w' (joinPath (expand root) passName))
    (res : Option (List (Str × Str) × Bool)) : SetEnv otherUp expand w root passName res ↔ SetEnv otherUp expand w' root passName res := by
  unfold SetEnv
  rw [scan_same h]
  cases scan w' (expand root) with
  | ok files =>
    dsimp only
    refine exists_congr fun ws => and_congr_right fun hw => ?_
    rw [setEnvLoop_same ws [] fun f _ hf => ?_]
    rcases hf with rfl | hf
    · exact ha
    · exact absurd (List.length_eq_zero_iff.1 hf) hne
  | _ => rfl

/-- **C159** What `grep`, `search` with a content and `setenv` without a name print depends on the contents of the listed entries only: files outside of the store, in other directories or
deeper in it do not matter. -/
theorem C159_listed (other otherUp expand : Str → Str) (w w' : World) (h : SameNames w w') (root : Str)
    (ha : ∀ files d f, scan w (expand root) = .ok files → f ∈ files d → SameAt w w' (joinPath (expand root) f)) :
    (∀ grep compiled res, Grep expand w root grep compiled res ↔ Grep expand w' root grep compiled res) ∧
    (∀ fuzzy search content res, Search other expand w root fuzzy search content res ↔ Search other expand w' root fuzzy search content res) ∧
    ∀ passName res, SetEnv otherUp expand w root passName res ↔ SetEnv otherUp expand w' root passName res := by
  refine ⟨fun grep compiled res => ?_, fun fuzzy search content res => ?_, fun passName res => ?_⟩
  · unfold Grep
    rw [← scan_same h]
    cases hs : scan w (expand root) with
    | ok files =>
      dsimp only
      split
      · cases compiled with
        | none => rfl
        | some p =>
          dsimp only
          refine exists_congr fun ws => and_congr_right fun hw => ?_
          have e : (ws.flatMap fun f => printMatches f (searchInFile w (joinPath (expand root) f) (compareWith p))) =
              ws.flatMap fun f => printMatches f (searchInFile w' (joinPath (expand root) f) (compareWith p)) := by
            rw [List.flatMap_def, List.flatMap_def, List.map_congr_left]
            intro f hf
            obtain ⟨d, hd⟩ := words_mem hw hf
            rw [searchInFile_same (ha files d f hs hd)]
          rw [e]
      · rfl
    | _ => rfl
  · unfold Search
    rw [← scan_same h]
    cases hs : scan w (expand root) with
    | ok files =>
      dsimp only
      split
      · refine exists_congr fun ws => exists_congr fun cm => and_congr_right fun hw => and_congr_right fun hcm => or_congr_right (exists_congr fun closest => and_congr_right fun hcl => ?_)
        have e : (closest.flatMap fun f => if content.length > 0 then printMatches f (searchInFile w (joinPath (expand root) f) (compareWith (containsStr content))) else f ++ lit "\n") =
            closest.flatMap fun f => if content.length > 0 then printMatches f (searchInFile w' (joinPath (expand root) f) (compareWith (containsStr content))) else f ++ lit "\n" := by
          rw [List.flatMap_def, List.flatMap_def, List.map_congr_left]
          intro f hf
          obtain ⟨d, hd⟩ := words_mem hw (closestN_mem hcm hcl f hf)
          rw [searchInFile_same (ha files d f hs hd)]
        rw [e]
      · rfl
    | _ => rfl
  · unfold SetEnv
    rw [← scan_same h]
    cases hs : scan w (expand root) with
    | ok files =>
      dsimp only
      refine exists_congr fun ws => and_congr_right fun hw => ?_
      rw [setEnvLoop_same ws [] fun f hf _ => ?_]
      obtain ⟨d, hd⟩ := words_mem hw hf
      exact ha files d f hs hd
    | _ => rfl

/-- A file system with one listed entry. -/
def secretWorld (content : Str) : World := ⟨.dir [(lit "v", .dir [(lit "sites", .dir [(lit "a", .file content)]), (lit ".env", .file content)])], []⟩

theorem secret_sameNames (c d : Str) : SameNames (secretWorld c) (secretWorld d) := ⟨rfl, by simp [secretWorld, emptied, emptiedList, emptiedPair]⟩

/-- The names are the same, the contents differ, and the entry is listed. -/
theorem C159_case : SameNames (secretWorld (lit "pw: x")) (secretWorld (lit "pw: y")) ∧ ¬ SameAt (secretWorld (lit "pw: x")) (secretWorld (lit "pw: y")) (lit "/v/sites/a") ∧
    ∃ files, scan (secretWorld (lit "pw: x")) (lit "/v") = .ok files ∧ files (lit "sites") = [lit "sites/a"] := by
  refine ⟨secret_sameNames _ _, ?_, ⟨_, rfl, by decide⟩⟩
  intro h
  have e1 : (secretWorld (lit "pw: x")).at (lit "/v/sites/a") = .node (.file (lit "pw: x")) := by rfl
  have e2 : (secretWorld (lit "pw: y")).at (lit "/v/sites/a") = .node (.file (lit "pw: y")) := by rfl
  unfold SameAt at h
  rw [e1, e2] at h
  injection h with h; injection h with h
  exact absurd h (by decide)

end Verif.Cmds
