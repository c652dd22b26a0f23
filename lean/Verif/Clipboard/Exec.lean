import Verif.Clipboard.Model
/-
clipboard/clipboard_unix.go:130-150 and clipboard/clipboard_darwin.go:32-49: the steps of `write` that run the copy command, and clipboard_darwin.go:13-30. The system is an adversary: whether
a step fails may depend on all steps before. `in.Write` returns an error if it writes less than the whole text (the contract of io.Writer).
-/
namespace Verif.Clipboard.Exec

/-- The steps. -/
inductive Step where
  | pipe
  | start (args : List String)
  | input (text : Str)
  | close
  | wait
  deriving DecidableEq

/-- The steps made so far, each with its error (`none`: it succeeded), first step first. -/
abbrev Trace := List (Step × Option String)

/-- The system: the error of the next step. -/
abbrev Os := Trace → Step → Option String

/-- clipboard_unix.go:134-149, clipboard_darwin.go:33-48: the steps with the command `args`; the error and the steps. -/
def runCopy (os : Os) (args : List String) (text : Str) : Option String × Trace :=
  let e := os [] .pipe
  let t : Trace := [(.pipe, e)]
  if e.isSome then (e, t) else
  let e := os t (.start args)
  let t := t ++ [(.start args, e)]
  if e.isSome then (e, t) else
  let e := os t (.input text)
  let t := t ++ [(.input text, e)]
  if e.isSome then (e, t) else
  let e := os t .close
  let t := t ++ [(.close, e)]
  if e.isSome then (e, t) else
  let e := os t .wait
  (e, t ++ [(.wait, e)])

/-- clipboard_unix.go:130-150 `write`, with the steps. -/
def writeUnix (os : Os) (v : Vars) (text : Str) : Option String × Trace :=
  if v.unsupported then (some missingCommands, []) else runCopy os (command v v.copy) text

/-- clipboard_darwin.go:32-49 `write` (10-13, 19-21: the command is `pbcopy`). -/
def writeDarwin (os : Os) (text : Str) : Option String × Trace := runCopy os ["pbcopy"] text

/-- clipboard_darwin.go:23-30 `read`; `output` is `Output()` of a command. -/
def readDarwin (output : List String → Except String Str) : Except String Str :=
  match output ["pbpaste"] with
  | .error e => .error e
  | .ok out => .ok out

end Verif.Clipboard.Exec
