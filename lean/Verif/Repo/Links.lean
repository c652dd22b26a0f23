import Verif.Repo.Model
/-
repo.go:23-64 `Scan` on a file system with symbolic links, directories that cannot be read and files that `os.Lstat` fails on (because they are removed while Scan runs, for example).
-/
namespace Verif.Repo

/-- What `filepath.Walk` finds: `os.Lstat` does not follow links, so it does not matter where they lead. A directory may be unreadable; of an entry, `os.Lstat` may fail. The entries
are sorted by name (`readDirNames`). -/
inductive XNode where
  | file
  | link
  | dir (readable : Bool) (entries : List (Str × XNode))
  | gone

/-- A call of the function given to `filepath.Walk`: for a file (or link), or with an error. -/
inductive Visit where
  | file (path name : Str)
  | error

mutual
/-- `filepath.Walk` with the callback of repo.go:35-62. An error comes before the question whether the directory is to be skipped (lines 36-43). -/
def xwalk (path name : Str) : XNode → List Visit
  | .file => [.file path name]
  | .link => [.file path name]
  | .gone => [.error]
  | .dir readable es => if readable = false then [.error] else if name = lit ".git" then [] else xwalkList path es
/-- The loop over the entries of a directory. -/
def xwalkList (path : Str) : List (Str × XNode) → List Visit
  | [] => []
  | e :: es => xwalkPair path e ++ xwalkList path es
/-- One entry. -/
def xwalkPair (path : Str) : Str × XNode → List Visit
  | (n, c) => xwalk (joinPath path n) n c
end

/-- repo.go:35-62: the calls one after the other; line 37 ends the program. -/
def visitAll (n : Nat) (files : Files) : List Visit → Outcome Files
  | [] => .ok files
  | .error :: _ => .fatal
  | .file path name :: l => match addFile n files path name with
    | none => .panic
    | some files => visitAll n files l

/-- repo.go:23-64 `Scan`: `exists` is false if `os.Stat` (which follows links) says that the root does not exist; `found` is what `os.Lstat` finds at the root. -/
def scanLinks (root : Str) (found : Bool × XNode) : Outcome Files :=
  if found.1 = false then .err else visitAll (root.length + 1) (fun _ => []) (xwalk root (baseName root) found.2)

end Verif.Repo
