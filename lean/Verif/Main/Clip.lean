import Verif.FormGen.Model
import Verif.Clipboard.Exec
import Verif.Clipboard.Windows
/-
cmds/generate.go:119-125 with package clipboard: the end of `generate`, with `--clip`. `GenerateCmd.run` is the text that is generated.
-/
namespace Verif.Main
open FormGen Password

/-- The systems for which package clipboard has a file, each with what the operating system does: clipboard_unix.go (the environment `init` sees, and the steps of a
command), clipboard_darwin.go, clipboard_windows.go. -/
inductive Platform where
  | unix (e : Clipboard.Env) (os : Clipboard.Exec.Os)
  | darwin (os : Clipboard.Exec.Os)
  | windows (os : Clipboard.Windows.Os) (tries : Nat)

/-- What can be seen of a run from outside. -/
inductive Event where
  /-- a step of a copy command, with its error -/
  | step (s : Clipboard.Exec.Step) (err : Option String)
  /-- a call of a procedure of the system library -/
  | call (c : Clipboard.Windows.Call) (r : Clipboard.Windows.Ret)
  /-- a line of standard output, with its newline -/
  | print (line : Str)
  deriving DecidableEq

/-- clipboard.go:10-12 `Write`: what is done, and whether it panics. The error is not kept: generate.go:120 drops it. -/
def clipWrite (p : Platform) (text : Str) : List Event × Bool :=
  match p with
  | .unix e os => ((Clipboard.Exec.writeUnix os (Clipboard.init e) text).2.map fun x => .step x.1 x.2, false)
  | .darwin os => ((Clipboard.Exec.writeDarwin os text).2.map fun x => .step x.1 x.2, false)
  | .windows os tries =>
    let r := Clipboard.Windows.write os tries text
    (r.2.map fun x => .call x.1 x.2, r.1 = .panic)

/-- generate.go:23-126 `Run` with its effects: lines 63-66 return the error, line 119-121 copy, line 123 prints. -/
def generateRun (p : Platform) (a : GenerateCmd) (clip : Bool) (fuel : Nat) (stream : Str) : List Event × Out Unit :=
  match a.run fuel stream with
  | .err e => ([], .err e)
  | .panic => ([], .panic)
  | .nofuel => ([], .nofuel)
  | .ok res =>
    if clip then
      let w := clipWrite p res
      if w.2 then (w.1, .panic) else (w.1 ++ [.print (res ++ lit "\n")], .ok ())
    else ([.print (res ++ lit "\n")], .ok ())

end Verif.Main
