import Verif.Repo.Model
import Verif.Closest.Model
import Verif.Go.Strings
/-
The commands of package cmds that work on the store: list, show, search, grep, setenv, insert.

`expand` is `os.ExpandEnv` (any function). A relation describes the possible results of a command, because maps are visited in any order and
the fuzzy search may choose among equals. What a command prints is a string; the difference between standard output and standard error
(`println`) is not modelled, nor are failing writes.
-/
namespace Verif.Cmds
open Repo Closest

/-- How a command ends. `ok` has what was printed and, for `show --qrcode`, the text of the code. -/
inductive Res where
  | ok (out : Str) (qr : Option Str)
  | err
  | fatal
  | panic

/-- `list.go:37-39`, `show.go:35-40`, `search.go:34-39`: the listed paths, in the order in which the map is visited. -/
def Words (files : Files) (ws : List Str) : Prop := ∃ order, GroupOrder files order ∧ ws = order.flatMap files

/-- show.go:17-23 `ShowCmd`. -/
structure ShowArgs where
  lineNumbers : Bool
  line : Int
  field : Str
  qrCode : Bool
  passName : Str

/-- The variables of show.go:32-33 and the output so far. -/
structure ShowSt where
  out : Str
  qrcode : Str
  fullQrCode : Str

/-- show.go:55-79: the callback for a line. -/
def showHandle (a : ShowArgs) (st : ShowSt) (lineNumber : Nat) (line : Str) : ShowSt × CbErr :=
  let st := if a.qrCode then
      let q := if (lineNumber : Int) = a.line then line else st.qrcode
      let q := if a.field.length > 0 then (if hasPrefix line a.field then line else q) else q
      { st with qrcode := q, fullQrCode := st.fullQrCode ++ lit " / " ++ line }
    else st
  let printed :=
    if a.lineNumbers then decimal lineNumber ++ lit ": " ++ line ++ lit "\n"
    else if a.line > 0 then (if a.line = (lineNumber : Int) then line ++ lit "\n" else [])
    else line ++ lit "\n"
  ({ st with out := st.out ++ printed }, .nil)

/-- show.go:88-101: the text of the QR code of a line. -/
def qrText (field qrcode : Str) : Str := afterFirst 58 (trimSpace (qrcode.drop field.length))

/-- show.go:87-107: the end of the command; `qrcode[len(a.Field):]` may panic. The drawing itself is `Verif.QR.generate`. -/
def showFinish (a : ShowArgs) (st : ShowSt) : Res :=
  if a.qrCode then
    if st.qrcode.length > 0 then
      if st.qrcode.length < a.field.length then .panic else .ok st.out (some (qrText a.field st.qrcode))
    else if st.fullQrCode.length > 0 then .ok st.out (some st.fullQrCode)
    else .ok st.out none
  else .ok st.out none

/-- show.go:46-84: show the file. (`os.Stat` may also fail because a directory on the way is a file; then opening the file fails likewise.) -/
def showFile (w : World) (root : Str) (a : ShowArgs) (filename : Str) : Res :=
  if filename.length > 0 then
    let full := joinPath root filename
    match w.at full with
    | .noEnt => .err
    | .notDir => showFinish a ⟨lit "Pass '" ++ filename ++ lit "'\n" ++ lit "\n" ++ lit "Error: open " ++ full ++ lit ": not a directory\n", [], []⟩
    | _ =>
      let r := getFileContentByLine w full (showHandle a) ⟨lit "Pass '" ++ filename ++ lit "'\n" ++ lit "\n", [], []⟩
      showFinish a (if r.2 then { r.1 with out := r.1.out ++ lit "Error: cannot show binary file\n" } else r.1)
  else showFinish a ⟨[], [], []⟩

/-- The fuzzy search for `q` over the listed paths panics, or finds `f` (show.go:35-45). -/
def FindOne (other : Str → Str) (files : Files) (q : Str) (f : Option Str) : Prop :=
  ∃ ws cm, Words files ws ∧ new other ws [2] = some cm ∧ ((MatchPanics cm q ∧ f = none) ∨ ∃ x, Closest cm q x ∧ f = some x)

/-- show.go:25-108 `ShowCmd.Run`. -/
def Show (other expand : Str → Str) (w : World) (root : Str) (a : ShowArgs) (res : Res) : Prop :=
  match scan w (expand root) with
  | .err => res = .err
  | .fatal => res = .fatal
  | .panic => res = .panic
  | .ok files =>
    if a.passName ≠ [] then ∃ f, FindOne other files a.passName f ∧ match f with
      | none => res = .panic
      | some filename => res = showFile w (expand root) a filename
    else res = showFinish a ⟨[], [], []⟩

/-- The lines grep.go:73-77 and search.go:61-65 print for a file. -/
def printMatches (f : Str) (ms : List (Nat × Str)) : Str :=
  if ms.length > 0 then
    lit "Matches found in '" ++ f ++ lit "'\n" ++ ms.flatMap fun m => decimal m.1 ++ lit ": " ++ m.2 ++ lit "\n"
  else []

/-- grep.go:28-83 `GrepCmd.Run`. `compiled` is the predicate on lines of grep.go:55-67 (the line matches, and so does the sub-expression, if
there is one, in the match found), or `none` if an expression does not compile; `grep` is the pattern. -/
def Grep (expand : Str → Str) (w : World) (root grep : Str) (compiled : Option (Str → Bool)) (res : Res) : Prop :=
  match scan w (expand root) with
  | .err => res = .err
  | .fatal => res = .fatal
  | .panic => res = .panic
  | .ok files =>
    if grep ≠ [] then match compiled with
      | none => res = .err
      | some p => ∃ ws, Words files ws ∧
        res = .ok (ws.flatMap fun f => printMatches f (searchInFile w (joinPath (expand root) f) (compareWith p))) none
    else res = .ok [] none

/-- search.go:26-74 `SearchCmd.Run`. -/
def Search (other expand : Str → Str) (w : World) (root : Str) (fuzzy : Int) (search content : Str) (res : Res) : Prop :=
  match scan w (expand root) with
  | .err => res = .err
  | .fatal => res = .fatal
  | .panic => res = .panic
  | .ok files =>
    if search ≠ [] then ∃ ws cm, Words files ws ∧ new other ws [2] = some cm ∧
      ((¬ CanMake fuzzy ∨ MatchPanics cm search) ∧ res = .panic ∨
        ∃ closest, ClosestN cm search fuzzy closest ∧
          res = .ok (closest.flatMap fun f =>
            if content.length > 0 then printMatches f (searchInFile w (joinPath (expand root) f) (compareWith (containsStr content)))
            else f ++ lit "\n") none)
    else res = .ok [] none

/-- list.go:22-50 `ListCmd.Run`. -/
def List' (other expand : Str → Str) (w : World) (root subFolder : Str) (res : Res) : Prop :=
  match scan w (expand root) with
  | .err => res = .err
  | .fatal => res = .fatal
  | .panic => res = .panic
  | .ok files =>
    if subFolder = [] then ∃ ws, Words files ws ∧ res = .ok (ws.flatMap fun f => f ++ lit "\n") none
    else ∃ order cm, GroupOrder files order ∧ new other order [2] = some cm ∧
      ((MatchPanics cm subFolder ∧ res = .panic) ∨
        ∃ closest, Closest cm subFolder closest ∧ res = .ok ((files closest).flatMap fun f => f ++ lit "\n") none)

/-- The variable of setenv.go:29 and the calls of `os.Setenv` so far (each with the printed line `key=value`). -/
structure EnvSt where
  pw : Str
  calls : List (Str × Str)

/-- setenv.go:30-45: the callback for a line. -/
def setEnvHandle (otherUp : Str → Str) (st : EnvSt) (lineNumber : Nat) (line : Str) : EnvSt × CbErr :=
  if lineNumber = 1 then ({ st with pw := line }, .nil)
  else if hasPrefix line (lit "env:") then
    let key := toUpper otherUp (trimSpace (line.drop 4))
    ({ st with calls := st.calls ++ [(key, st.pw)] }, .nil)
  else (st, .nil)

/-- setenv.go:25-52: the loop over the entries; the error ends it. -/
def setEnvLoop (otherUp : Str → Str) (w : World) (root passName : Str) : List Str → List (Str × Str) → List (Str × Str) × Bool
  | [], calls => (calls, false)
  | f :: fs, calls =>
    if f = passName ∨ passName.length = 0 then
      let r := getFileContentByLine w (joinPath root f) (setEnvHandle otherUp) ⟨[], calls⟩
      if r.2 then (r.1.calls, true) else setEnvLoop otherUp w root passName fs r.1.calls
    else setEnvLoop otherUp w root passName fs calls

/-- setenv.go:18-55 `SetEnvCmd.Run`: the calls of `os.Setenv` in order, and whether an error is returned; `none` if the scan fails. -/
def SetEnv (otherUp expand : Str → Str) (w : World) (root passName : Str) (res : Option (List (Str × Str) × Bool)) : Prop :=
  match scan w (expand root) with
  | .ok files => ∃ ws, Words files ws ∧ res = some (setEnvLoop otherUp w (expand root) passName ws [])
  | _ => res = none

/-- The environment of the process. -/
abbrev Env := Str → Option Str

/-- `os.Setenv`: fails (and the failure is ignored at setenv.go:41) if the key is empty or contains `=` or NUL, or the value contains NUL. -/
def setenv (env : Env) (kv : Str × Str) : Env :=
  if kv.1 = [] ∨ 61 ∈ kv.1 ∨ 0 ∈ kv.1 ∨ 0 ∈ kv.2 then env else fun k => if k = kv.1 then some kv.2 else env k

/-- Put a node into a directory, at its place in the order of the names. -/
def setEntry : List (Str × Node) → Str → Node → List (Str × Node)
  | [], n, nd => [(n, nd)]
  | (m, x) :: es, n, nd => if m = n then (n, nd) :: es else if strLt n m then (n, nd) :: (m, x) :: es else (m, x) :: setEntry es n nd

/-- `os.Create` followed by writing the content: an existing file is replaced; `none` is an error (the directory does not exist, or the path is
a directory). -/
def put : Node → List Str → Str → Option Node
  | .dir es, [n], c => match entry es n with
    | some (.dir _) => none
    | _ => some (.dir (setEntry es n (.file c)))
  | .dir es, p :: q :: ps, c => match entry es p with
    | some nd => (put nd (q :: ps) c).map fun nd' => .dir (setEntry es p nd')
    | none => none
  | _, _, _ => none

/-- insert.go:18-38 `InsertCmd.Run` with a file of the given content: the new file system, or an error. (Names with NUL bytes, which the system
rejects, are not modelled; without a file the command only asks for a text and does nothing.) -/
def insert (w : World) (root passName content : Str) : Option World :=
  let p := joinPath root passName
  if p = [] then none else (put w.tree (w.parts p) content).map fun t => { w with tree := t }

end Verif.Cmds
