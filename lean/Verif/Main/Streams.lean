import Verif.Main.Model
import Verif.QR.RenderModel
/-
What a run of the program writes to standard output and to standard error, in order, and how the process ends, also if it fails. The relation follows the commands line by line
like `Run` does; `Run` is kept as it is, and StreamsProps shows how the two fit together.
-/
namespace Verif.Main
open Repo Closest Cmds

/-- A write of the command to one of the two streams. -/
inductive Write where
  | out (s : Str)
  | err (s : Str)
deriving DecidableEq

/-- How the process ends: `Run` returns nil; it returns an error, which main.go:56 prints to standard error; `log.Fatalf` (repo.go:37), which prints to standard error; a panic. The
texts of these messages are not modelled. -/
inductive End where
  | ok
  | error
  | fatal
  | panic
deriving DecidableEq

/-- The status the shell sees (kong's `FatalIfErrorf` and `log.Fatalf` exit with 1, a panic with 2). -/
def End.status : End → Nat
  | .ok => 0
  | .error => 1
  | .fatal => 1
  | .panic => 2

/-- What can be seen of a run. -/
structure Obs where
  writes : List Write
  ends : End

/-- The text of a write, if it is to standard output. -/
def Write.toOut : Write → Str
  | .out s => s
  | .err _ => []

/-- The text of a write, if it is to standard error. -/
def Write.toErr : Write → Str
  | .out _ => []
  | .err s => s

/-- The text of a write. -/
def Write.text : Write → Str
  | .out s => s
  | .err s => s

/-- What comes out of standard output. -/
def Obs.stdout (o : Obs) : Str := o.writes.flatMap Write.toOut

/-- What the command writes to standard error. -/
def Obs.stderr (o : Obs) : Str := o.writes.flatMap Write.toErr

/-- What appears on a terminal that shows both. -/
def Obs.both (o : Obs) : Str := o.writes.flatMap Write.text

/-- The built-in function `println` with one string: it writes to standard error. -/
def println (s : Str) : Write := .err (s ++ lit "\n")

/-- How a failed `Scan` ends a command (list.go:25-27 and likewise in the others). -/
def scanEnds : Outcome Files → End
  | .ok _ => .ok
  | .err => .error
  | .fatal => .fatal
  | .panic => .panic

/-- show.go:102, 104: `qrterminal.Generate` to standard output. A text that is too long makes it panic before it writes anything. -/
def draw (printed : Str) (text : Str) : Obs :=
  match QR.generate text .L with
  | some picture => ⟨[.out printed, .out picture], .ok⟩
  | none => ⟨[.out printed], .panic⟩

/-- show.go:87-107; everything printed before (lines 50-80) went to standard output. -/
def showFinishObs (a : ShowArgs) (st : ShowSt) : Obs :=
  if a.qrCode then
    if st.qrcode.length > 0 then
      if st.qrcode.length < a.field.length then ⟨[.out st.out], .panic⟩ else draw st.out (qrText a.field st.qrcode)
    else if st.fullQrCode.length > 0 then draw st.out st.fullQrCode
    else ⟨[.out st.out], .ok⟩
  else ⟨[.out st.out], .ok⟩

/-- show.go:46-84. -/
def showFileObs (w : World) (root : Str) (a : ShowArgs) (filename : Str) : Obs :=
  if filename.length > 0 then
    let full := joinPath root filename
    match w.at full with
    | .noEnt => ⟨[], .error⟩
    | .notDir => showFinishObs a ⟨lit "Pass '" ++ filename ++ lit "'\n" ++ lit "\n" ++ lit "Error: open " ++ full ++ lit ": not a directory\n", [], []⟩
    | _ =>
      let r := getFileContentByLine w full (showHandle a) ⟨lit "Pass '" ++ filename ++ lit "'\n" ++ lit "\n", [], []⟩
      showFinishObs a (if r.2 then { r.1 with out := r.1.out ++ lit "Error: cannot show binary file\n" } else r.1)
  else showFinishObs a ⟨[], [], []⟩

/-- show.go:25-108 `ShowCmd.Run`. -/
def ShowObs (other expand : Str → Str) (w : World) (root : Str) (a : ShowArgs) (o : Obs) : Prop :=
  match scan w (expand root) with
  | .ok files =>
    if a.passName ≠ [] then ∃ f, FindOne other files a.passName f ∧ match f with
      | none => o = ⟨[], .panic⟩
      | some filename => o = showFileObs w (expand root) a filename
    else o = showFinishObs a ⟨[], [], []⟩
  | r => o = ⟨[], scanEnds r⟩

/-- grep.go:28-83 `GrepCmd.Run`: `fmt.Printf` writes to standard output. -/
def GrepObs (expand : Str → Str) (w : World) (root grep : Str) (compiled : Option (Str → Bool)) (o : Obs) : Prop :=
  match scan w (expand root) with
  | .ok files =>
    if grep ≠ [] then match compiled with
      | none => o = ⟨[], .error⟩
      | some p => ∃ ws, Words files ws ∧
        o = ⟨ws.map fun f => .out (printMatches f (searchInFile w (joinPath (expand root) f) (compareWith p))), .ok⟩
    else o = ⟨[], .ok⟩
  | r => o = ⟨[], scanEnds r⟩

/-- search.go:26-74 `SearchCmd.Run`: the matches go to standard output (lines 61-65), the names to standard error (line 69). -/
def SearchObs (other expand : Str → Str) (w : World) (root : Str) (fuzzy : Int) (search content : Str) (o : Obs) : Prop :=
  match scan w (expand root) with
  | .ok files =>
    if search ≠ [] then ∃ ws cm, Words files ws ∧ new other ws [2] = some cm ∧
      ((¬ CanMake fuzzy ∨ MatchPanics cm search) ∧ o = ⟨[], .panic⟩ ∨
        ∃ closest, ClosestN cm search fuzzy closest ∧
          o = ⟨closest.map fun f =>
            if content.length > 0 then .out (printMatches f (searchInFile w (joinPath (expand root) f) (compareWith (containsStr content))))
            else println f, .ok⟩)
    else o = ⟨[], .ok⟩
  | r => o = ⟨[], scanEnds r⟩

/-- list.go:22-50 `ListCmd.Run`: lines 32 and 46 are `println`. -/
def ListObs (other expand : Str → Str) (w : World) (root subFolder : Str) (o : Obs) : Prop :=
  match scan w (expand root) with
  | .ok files =>
    if subFolder = [] then ∃ ws, Words files ws ∧ o = ⟨ws.map println, .ok⟩
    else ∃ order cm, GroupOrder files order ∧ new other order [2] = some cm ∧
      ((MatchPanics cm subFolder ∧ o = ⟨[], .panic⟩) ∨
        ∃ closest, Closest cm subFolder closest ∧ o = ⟨(files closest).map println, .ok⟩)
  | r => o = ⟨[], scanEnds r⟩

/-- setenv.go:18-55 `SetEnvCmd.Run`: line 40 prints each variable to standard output when it is met, so those of the entries before an error have been printed. -/
def SetEnvObs (otherUp expand : Str → Str) (w : World) (root passName : Str) (o : Obs) : Prop :=
  match scan w (expand root) with
  | .ok files => ∃ ws, Words files ws ∧
    let r := setEnvLoop otherUp w (expand root) passName ws []
    o = ⟨r.1.map fun kv => .out (kv.1 ++ lit "=" ++ kv.2 ++ lit "\n"), if r.2 then .error else .ok⟩
  | r => o = ⟨[], scanEnds r⟩

/-- main.go:30-57, one run of the program. `fmt.Print`, `Printf` and `Println` write to standard output. -/
def RunObs (other otherUp : Str → Str) (goos : Str) (env : Env) (w : World) (flag : Str) (c : Cmd) (w' : World) (o : Obs) : Prop :=
  let root := rootOf goos flag
  let expand := expandEnv env
  match c with
  -- init.go:16-19
  | .init s => w' = w ∧ o = ⟨[.out (lit "Folder: " ++ s ++ lit "\n")], .ok⟩
  | .list s => w' = w ∧ ListObs other expand w root s o
  | .setEnv n => w' = w ∧ SetEnvObs otherUp expand w root n o
  -- insert.go:18-38
  | .insert (some file) n => match sourceText w file (w.parts (joinPath root n)) with
    | none => w' = w ∧ o = ⟨[], .error⟩
    | some content => match insert w root n content with
      | some v => w' = v ∧ o = ⟨[], .ok⟩
      | none => w' = w ∧ o = ⟨[], .error⟩
  | .insert none _ => w' = w ∧ o = ⟨[.out (lit "site: ")], .ok⟩
  | .show a => w' = w ∧ ShowObs other expand w root a o
  | .search k s t => w' = w ∧ SearchObs other expand w root k s t o
  | .grep g p => w' = w ∧ GrepObs expand w root g p o
  -- generate.go:123
  | .generate a stream => w' = w ∧ ∃ fuel, match a.run fuel stream with
    | .ok pw => o = ⟨[.out (pw ++ lit "\n")], .ok⟩
    | .err _ => o = ⟨[], .error⟩
    | .panic => o = ⟨[], .panic⟩
    | .nofuel => False
  -- remove.go:21-27
  | .remove r f n => w' = w ∧ o = ⟨[.out (lit "Recursive: " ++ showBool r ++ lit "\n"), .out (lit "Force: " ++ showBool f ++ lit "\n"), .out (lit "Pass name: " ++ n ++ lit "\n")], .ok⟩
  -- rename.go:21-26
  | .rename f p n => w' = w ∧ o = ⟨[.out (lit "Force: " ++ showBool f ++ lit "\n"), .out (lit "Old path: " ++ p ++ lit "\n"), .out (lit "New path: " ++ n ++ lit "\n")], .ok⟩
  -- copy.go:23-28
  | .copy f p n => w' = w ∧ o = ⟨[.out (lit "Force: " ++ showBool f ++ lit "\n"), .out (lit "Old path: " ++ p ++ lit "\n"), .out (lit "New path: " ++ n ++ lit "\n")], .ok⟩

end Verif.Main
