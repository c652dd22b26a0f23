import Verif.Go.Path
import Verif.Go.Order
/-
repo/repo.go on a model of the file system.

The file system is a tree of directories and regular files without symbolic links in which every operation on an existing file succeeds
(no permission errors, no changes while a command runs). Names `..` in a path are resolved lexically.
-/
namespace Verif.Repo

/-- A file or a directory. The entries of a directory are a finite map from names, written as a list sorted by name (`Node.WF`); this is also
the order in which `filepath.Walk` visits them. -/
inductive Node where
  | file (content : Str)
  | dir (entries : List (Str × Node))

/-- The entry with the given name. -/
def entry : List (Str × Node) → Str → Option Node
  | [], _ => none
  | (m, nd) :: es, n => if m = n then some nd else entry es n

/-- What the system says about a path: a node, ENOENT or ENOTDIR. -/
inductive Found where
  | node (n : Node)
  | noEnt
  | notDir

/-- Follow a list of names. -/
def lookupAt : Node → List Str → Found
  | nd, [] => .node nd
  | .file _, _ :: _ => .notDir
  | .dir es, p :: ps => match entry es p with
    | none => .noEnt
    | some nd => lookupAt nd ps

/-- The whole file system and the working directory. -/
structure World where
  tree : Node
  cwd : List Str

/-- The names from the root of the file system to the file a path means. -/
def World.parts (w : World) (p : Str) : List Str := cleanParts true ((if isRooted p then [] else w.cwd) ++ splitSlash p)

/-- The path ends in a slash. -/
def endsInSlash (p : Str) : Bool := p.getLast? == some slash

/-- The file a path means. -/
def World.at (w : World) (p : Str) : Found :=
  if p = [] then .noEnt
  else match lookupAt w.tree (w.parts p) with
    | .node (.file c) => if endsInSlash p then .notDir else .node (.file c)
    | r => r

/-- How a call ends: with a value, with an error, by `log.Fatal`, by a panic. -/
inductive Outcome (α : Type) where
  | ok (a : α)
  | err
  | fatal
  | panic

mutual
/-- `filepath.Walk` with the callback of repo.go:35-62: the files for which the callback reaches line 45, as pairs of the path and the name, in
order. A directory named `.git` is skipped (repo.go:39-43). -/
def walk (path name : Str) : Node → List (Str × Str)
  | .file _ => [(path, name)]
  | .dir es => if name = lit ".git" then [] else walkList path es
/-- The loop of `filepath.Walk` over the entries of a directory. -/
def walkList (path : Str) : List (Str × Node) → List (Str × Str)
  | [] => []
  | e :: es => walkPair path e ++ walkList path es
/-- One entry. -/
def walkPair (path : Str) : Str × Node → List (Str × Str)
  | (n, c) => walk (joinPath path n) n c
end

/-- repo.go:54: the directories to include. -/
def categories : List Str := [lit "people", lit "email", lit "phone", lit "sites", lit "devices", lit "bank"]

/-- repo.go:20 `Files`; a missing key is the empty list (the code never stores an empty list). -/
abbrev Files := Str → List Str

/-- repo.go:45-59: one file; `none` is the panic of `path[n:]`. -/
def addFile (n : Nat) (files : Files) (path name : Str) : Option Files :=
  if path.length < n then none
  else
    let fp := path.drop n
    let dir := dirOf fp
    if name = lit ".DS_Store" then some files
    else if dir ∈ categories then some fun d => if d = dir then files d ++ [fp] else files d
    else some files

/-- repo.go:35-62: all files. -/
def addFiles (n : Nat) : Files → List (Str × Str) → Option Files
  | files, [] => some files
  | files, (path, name) :: l => (addFile n files path name).bind fun files => addFiles n files l

/-- repo.go:23-64 `Scan`: the new value of `Files`. -/
def scan (w : World) (root : Str) : Outcome Files :=
  match w.at root with
  | .noEnt => .err
  | .notDir => .fatal
  | .node nd => match addFiles (root.length + 1) (fun _ => []) (walk root (baseName root) nd) with
    | none => .panic
    | some f => .ok f

/-- The errors a callback returns: nil, `MatchError`, `TerminateError` (repo.go:89-92), another one. -/
inductive CbErr where
  | nil
  | matched
  | terminate
  | other
deriving DecidableEq

/-- The lines of a text without their `\n`; a last line without `\n` counts, if it is not empty. -/
def rawLines : Str → List Str
  | [] => []
  | b :: s => if b = 10 then [] :: rawLines s else match rawLines s with
    | [] => [[b]]
    | p :: ps => (b :: p) :: ps

/-- `bufio.ScanLines` removes one `\r` at the end of a line. -/
def dropCR (l : Str) : Str := if l.getLast? = some 13 then l.dropLast else l

/-- The lines a `bufio.Scanner` delivers. Its buffer has 65536 bytes and must hold a line and its `\n`, or a last line with room left; at the
first line that is too long the scanner stops. -/
def scannerLines (c : Str) : List Str := ((rawLines c).takeWhile fun l => decide (l.length < 65536)).map dropCR

/-- repo.go:155-173: the loop over the lines. The callback works on a state of type `σ`; the error says "cannot show binary file". -/
def lineLoop {σ : Type} (handle : σ → Nat → Str → σ × CbErr) : Nat → List Str → σ → σ × Bool
  | _, [], st => (st, false)
  | line, text :: rest, st =>
    if line = 1 ∧ (0 : UInt8) ∈ text then (st, true)
    else match handle st line text with
      | (st, .nil) => lineLoop handle (line + 1) rest st
      | (st, _) => (st, false)

/-- repo.go:145-175 `GetFileContentByLine`: the final state, and whether an error is returned. (A directory can be opened, but not read: the
scanner stops at once.) -/
def getFileContentByLine {σ : Type} (w : World) (filename : Str) (handle : σ → Nat → Str → σ × CbErr) (st : σ) : σ × Bool :=
  match w.at filename with
  | .noEnt => (st, true)
  | .notDir => (st, true)
  | .node (.dir _) => (st, false)
  | .node (.file c) => lineLoop handle 1 (scannerLines c) st

/-- repo.go:181-194: the callback of `SearchInFile`. -/
def searchHandle (compare : Str → CbErr) (ms : List (Nat × Str)) (n : Nat) (line : Str) : List (Nat × Str) × CbErr :=
  match compare line with
  | .matched => (ms ++ [(n, line)], .nil)
  | .terminate => (ms, .terminate)
  | .other => (ms, .other)
  | .nil => (ms, .nil)

/-- repo.go:177-197 `SearchInFile`: the matches (the error is always nil). -/
def searchInFile (w : World) (filename : Str) (compare : Str → CbErr) : List (Nat × Str) :=
  (getFileContentByLine w filename (searchHandle compare) []).1

/-- The callback of the three searches: repo.go:75-80, 98-103, 129-134. -/
def compareWith (p : Str → Bool) (line : Str) : CbErr := if p line then .matched else .nil

/-- repo.go:72-86, 95-109, 126-140: the loop over the groups, in the order `order` in which the map is visited. -/
def searchAll (w : World) (files : Files) (order : List Str) (p : Str → Bool) : List (Str × List (Nat × Str)) :=
  order.flatMap fun d => (files d).map fun path => (path, searchInFile w path (compareWith p))

/-- The orders in which `range r.Files` may visit the groups. -/
def GroupOrder (files : Files) (order : List Str) : Prop := order.Nodup ∧ ∀ d, d ∈ order ↔ files d ≠ []

/-- repo.go:67-87 `GlobSearch` and repo.go:123-143 `GrepSearch`: `compiled` is the compiled query (a predicate on lines) or `none` if compiling
fails. -/
def QuerySearch (w : World) (files : Files) (compiled : Option (Str → Bool)) (out : Option (List (Str × List (Nat × Str)))) : Prop :=
  match compiled with
  | none => out = none
  | some p => ∃ order, GroupOrder files order ∧ out = some (searchAll w files order p)

/-- repo.go:94-110 `DirectSearch`. -/
def DirectSearch (w : World) (files : Files) (query : Str) (out : List (Str × List (Nat × Str))) : Prop :=
  ∃ order, GroupOrder files order ∧ out = searchAll w files order fun line => line == query

end Verif.Repo
