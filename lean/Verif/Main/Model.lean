import Verif.Cmds.Model
import Verif.FormGen.Model
/-
The program: main.go, with os.ExpandEnv and the commands of package cmds.

The command line is already parsed (the parser, github.com/alecthomas/kong, is not part of the repository). The file system is that of `Verif.Repo` (Unix paths), also for
`windows`.
-/
namespace Verif.Main
open Repo Closest Cmds

/-- `os.isShellSpecialVar` (Go standard library, os/env.go): `*#$@!?-` and the digits. -/
def isShellSpecialVar (c : UInt8) : Bool := c ∈ lit "*#$@!?-0123456789"

/-- `os.isAlphaNum` (os/env.go). -/
def isAlphaNum (c : UInt8) : Bool := c == 95 || (48 ≤ c && c ≤ 57) || (97 ≤ c && c ≤ 122) || (65 ≤ c && c ≤ 90)

/-- `os.getShellName` (os/env.go) of a string that is not empty: the name and the number of bytes that are used. -/
def getShellName : Str → Str × Nat
  | [] => ([], 0)
  | c :: s =>
    if c = 123 then
      match s with
      | d :: 125 :: _ => if isShellSpecialVar d then ([d], 3) else scanBrace s
      | _ => scanBrace s
    else if isShellSpecialVar c then ([c], 1)
    else
      let n := (c :: s).takeWhile isAlphaNum
      (n, n.length)
where
  /-- The loop to the closing brace. -/
  scanBrace (s : Str) : Str × Nat :=
    if 125 ∈ s then
      let n := s.takeWhile (· ≠ 125)
      if n = [] then ([], 2) else (n, n.length + 2)
    else ([], 1)

/-- `os.Expand` (os/env.go): the loop. -/
def expandWith (mapping : Str → Str) : Str → Str
  | [] => []
  | b :: s =>
    if b = 36 ∧ s ≠ [] then
      let (name, w) := getShellName s
      if name = [] then
        if w > 0 then expandWith mapping (s.drop w) else b :: expandWith mapping (s.drop w)
      else mapping name ++ expandWith mapping (s.drop w)
    else b :: expandWith mapping s
termination_by s => s.length
decreasing_by all_goals simp [List.length_drop]; try omega

/-- `os.ExpandEnv`; a variable that is not set counts as empty (`os.Getenv`). -/
def expandEnv (env : Env) : Str → Str := expandWith fun n => (env n).getD []

/-- main.go:49-53: the root the commands get; `flag` is what the parser put into `cli.Globals.Root` (`--root`, or the empty string). -/
def rootOf (goos flag : Str) : Str :=
  if goos = lit "windows" then lit "E:\\Dev.Keybase\\Vault"
  else if goos = lit "linux" ∨ goos = lit "darwin" then lit "$HOME/Documents/Vault"
  else flag

/-- main.go:14-28: the commands and their arguments. For `grep` the two expressions are given by what they match (see `Cmds.Grep`); `insert` has the path of the file,
if one is given (not `-`); `generate` has the bytes of the random source. -/
inductive Cmd where
  | init (subFolder : Str)
  | list (subFolder : Str)
  | setEnv (passName : Str)
  | insert (file : Option Str) (passName : Str)
  | show (a : ShowArgs)
  | search (fuzzy : Int) (search content : Str)
  | grep (grep : Str) (compiled : Option (Str → Bool))
  | generate (a : FormGen.GenerateCmd) (stream : Str)
  | remove (recursive force : Bool) (passName : Str)
  | rename (force : Bool) (oldPath newPath : Str)
  | copy (force : Bool) (oldPath newPath : Str)

/-- insert.go:14, 27: what is copied from the file `file` into the new file `dest`. The parser opens the file, and fails if it does not exist. When `dest` is created it is
empty, so nothing is left to copy if it is the same file; a directory cannot be read, and this error is ignored. -/
def sourceText (w : World) (file : Str) (dest : List Str) : Option Str :=
  match w.at file with
  | .node (.file c) => some (if w.parts file = dest then [] else c)
  | .node (.dir _) => some []
  | _ => none

/-- `%v` of a boolean. -/
def showBool (b : Bool) : Str := if b then lit "true" else lit "false"

/-- setenv.go:40: what `setenv` prints for the calls of `os.Setenv`. -/
def printCalls (calls : List (Str × Str)) : Str := calls.flatMap fun kv => kv.1 ++ lit "=" ++ kv.2 ++ lit "\n"

/-- main.go:30-57, one run of the program on the system `goos` with the environment `env`: the file system afterwards and how the command ends. The output of a command that
ends with an error is not modelled. -/
def Run (other otherUp : Str → Str) (goos : Str) (env : Env) (w : World) (flag : Str) (c : Cmd) (w' : World) (res : Res) : Prop :=
  let root := rootOf goos flag
  let expand := expandEnv env
  match c with
  -- init.go:16-19
  | .init s => w' = w ∧ res = .ok (lit "Folder: " ++ s ++ lit "\n") none
  | .list s => w' = w ∧ List' other expand w root s res
  | .setEnv n => w' = w ∧ ∃ r, SetEnv otherUp expand w root n r ∧ match r with
    | some (calls, false) => res = .ok (printCalls calls) none
    | some (_, true) => res = .err
    | none => match scan w (expand root) with
      | .fatal => res = .fatal
      | .panic => res = .panic
      | _ => res = .err
  -- insert.go:18-38; the root is not expanded
  | .insert (some file) n => match sourceText w file (w.parts (joinPath root n)) with
    | none => w' = w ∧ res = .err
    | some content => match insert w root n content with
      | some v => w' = v ∧ res = .ok [] none
      | none => w' = w ∧ res = .err
  | .insert none _ => w' = w ∧ res = .ok (lit "site: ") none
  | .show a => w' = w ∧ Show other expand w root a res
  | .search k s t => w' = w ∧ Search other expand w root k s t res
  | .grep g p => w' = w ∧ Grep expand w root g p res
  | .generate a stream => w' = w ∧ ∃ fuel, match a.run fuel stream with
    | .ok pw => res = .ok (pw ++ lit "\n") none
    | .err _ => res = .err
    | .panic => res = .panic
    | .nofuel => False
  -- remove.go:21-27
  | .remove r f n => w' = w ∧ res = .ok (lit "Recursive: " ++ showBool r ++ lit "\nForce: " ++ showBool f ++ lit "\nPass name: " ++ n ++ lit "\n") none
  -- rename.go:21-26
  | .rename f o n => w' = w ∧ res = .ok (lit "Force: " ++ showBool f ++ lit "\nOld path: " ++ o ++ lit "\nNew path: " ++ n ++ lit "\n") none
  -- copy.go:23-28
  | .copy f o n => w' = w ∧ res = .ok (lit "Force: " ++ showBool f ++ lit "\nOld path: " ++ o ++ lit "\nNew path: " ++ n ++ lit "\n") none

/-- One call of the program from the shell: the working directory, the value of `--root`, the command. -/
structure Call where
  cwd : List Str
  flag : Str
  cmd : Cmd

/-- Several runs of the program, one after the other, in an environment that stays the same (what `setenv` sets is gone when its process ends). -/
inductive Session (other otherUp : Str → Str) (goos : Str) (env : Env) : World → List Call → World → Prop
  | nil (w) : Session other otherUp goos env w [] w
  | cons {w w₁ w₂ : World} {c : Call} {cs : List Call} {res : Res} (h : Run other otherUp goos env { w with cwd := c.cwd } c.flag c.cmd w₁ res)
      (hs : Session other otherUp goos env w₁ cs w₂) : Session other otherUp goos env w (c :: cs) w₂

end Verif.Main
