import Verif.Clipboard.Model
/-
clipboard/clipboard_unix.go with its package variables: a program that sets the exported variables `Unsupported` and `Primary` and calls `Write` and
`Read`, any number of times. What the commands do is part of the operation (any error, any output). The steps of running a command are in
Clipboard/Exec.lean.
-/
namespace Verif.Clipboard.Session

/-- What the program does. -/
inductive Op where
  /-- `clipboard.Unsupported = b` -/
  | setUnsupported (b : Bool)
  /-- `clipboard.Primary = b` -/
  | setPrimary (b : Bool)
  /-- `clipboard.Write(text)`; `err` is the error of the copy command if one is started -/
  | write (text : Str) (err : Option String)
  /-- `clipboard.Read()`; `out` is the error or output of the paste command if one is started -/
  | read (out : Except String Str)

/-- What it sees. -/
inductive Seen where
  | nothing
  /-- no command is started -/
  | failed (err : String)
  /-- a copy command was started with this input, and this error is returned -/
  | wrote (args : List String) (input : Str) (err : Option String)
  /-- a paste command was started, and this error or text is returned -/
  | got (args : List String) (res : Except String Str)

/-- clipboard_unix.go:107-112 `getCopyCommand`: the variable is cut if Primary is set. -/
def cutCopy (v : Vars) : Vars := if v.primary then { v with copy := v.copy.take 1 } else v

/-- clipboard_unix.go:100-105 `getPasteCommand`. -/
def cutPaste (v : Vars) : Vars := if v.primary then { v with paste := v.paste.take 1 } else v

/-- One operation: clipboard_unix.go:114-128 `read`, 130-150 `write`, clipboard.go:5-12. -/
def step (v : Vars) : Op → Vars × Seen
  | .setUnsupported b => ({ v with unsupported := b }, .nothing)
  | .setPrimary b => ({ v with primary := b }, .nothing)
  | .write text err =>
    if v.unsupported then (v, .failed missingCommands)
    else
      let v := cutCopy v
      (v, .wrote v.copy text err)
  | .read out =>
    if v.unsupported then (v, .failed missingCommands)
    else
      let v := cutPaste v
      (v, .got v.paste (match out with
        | .error m => .error m
        | .ok out => .ok (if v.trimDos && decide (out.length > 1) then out.take (out.length - 2) else out)))

/-- The variables after some operations of a program that was started in the environment `e` (clipboard_unix.go:50-98 `init`). -/
def after (e : Env) (ops : List Op) : Vars := ops.foldl (fun v op => (step v op).1) (init e)

/-- What the program sees of an operation after others. -/
def sees (e : Env) (ops : List Op) (op : Op) : Seen := (step (after e ops) op).2

end Verif.Clipboard.Session
