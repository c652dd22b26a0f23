import Verif.Go.Basic
/-
clipboard/clipboard.go and clipboard/clipboard_unix.go. The operating system is a parameter: the environment says whether WAYLAND_DISPLAY is set to a
non-empty text, which names `exec.LookPath` finds, and what a process does with its input. clipboard_windows.go is modelled in Clipboard/Windows.lean, clipboard_darwin.go in Clipboard/Exec.lean.
-/
namespace Verif.Clipboard

/-- What the package sees of the operating system. -/
structure Env where
  /-- `os.Getenv("WAYLAND_DISPLAY") != ""` -/
  wayland : Bool
  /-- `exec.LookPath(name)` has no error -/
  onPath : String → Bool
  /-- The error of running a command to its end with a text as its input: of `StdinPipe`, `Start`, `Write`, `Close` or `Wait`. -/
  run : List String → Str → Option String
  /-- `Output()` of a command: the output or an error -/
  output : List String → Except String Str

/-- clipboard_unix.go:24-28, 48: the package variables. -/
structure Vars where
  unsupported : Bool
  primary : Bool
  trimDos : Bool
  paste : List String
  copy : List String

/-- clipboard_unix.go:45: the error. -/
def missingCommands : String :=
  "No clipboard utilities available. Please install xsel, xclip, wl-clipboard or Termux:API add-on for termux-clipboard-get/set."

/-- The pairs of commands (clipboard_unix.go:30-43): arguments for copying, arguments for pasting. -/
def wlArgs : List String × List String := (["wl-copy"], ["wl-paste", "--no-newline"])
/-- clipboard_unix.go:33-34 -/
def xclipArgs : List String × List String := (["xclip", "-in", "-selection", "clipboard"], ["xclip", "-out", "-selection", "clipboard"])
/-- clipboard_unix.go:30-31 -/
def xselArgs : List String × List String := (["xsel", "--input", "--clipboard"], ["xsel", "--output", "--clipboard"])
/-- clipboard_unix.go:42-43 -/
def termuxArgs : List String × List String := (["termux-clipboard-set"], ["termux-clipboard-get"])
/-- clipboard_unix.go:36-37 -/
def dosArgs : List String × List String := (["clip.exe"], ["powershell.exe", "Get-Clipboard"])

/-- clipboard_unix.go:50-98 `init`. The assignments of `Unsupported` are lines 51 and 97, both to true; each `return` leaves it so. -/
def init (e : Env) : Vars :=
  let v : Vars := { unsupported := true, primary := false, trimDos := false, paste := [], copy := [] }
  if e.wayland && e.onPath "wl-copy" && e.onPath "wl-paste" then { v with copy := wlArgs.1, paste := wlArgs.2 }
  else
    let v := { v with copy := xclipArgs.1, paste := xclipArgs.2 }
    if e.onPath "xclip" then v
    else
      let v := { v with copy := xselArgs.1, paste := xselArgs.2 }
      if e.onPath "xsel" then v
      else
        let v := { v with copy := termuxArgs.1, paste := termuxArgs.2 }
        if e.onPath "termux-clipboard-set" && e.onPath "termux-clipboard-get" then v
        else
          let v := { v with copy := dosArgs.1, paste := dosArgs.2, trimDos := true }
          if e.onPath "clip.exe" && e.onPath "powershell.exe" then v
          else { v with unsupported := true }

/-- clipboard_unix.go:107-112 `getCopyCommand` (100-105 `getPasteCommand` likewise): the arguments, cut to the name if Primary is set. -/
def command (v : Vars) (args : List String) : List String := if v.primary then args.take 1 else args

/-- The result of `Write`: the error, and the commands that were started with the input they were given. -/
structure Result where
  err : Option String
  started : List (List String × Str)

/-- clipboard_unix.go:130-150 `write`, clipboard.go:10-12 `Write`. (If a step before the input is written fails the command may not have received it.) -/
def write (e : Env) (v : Vars) (text : Str) : Result :=
  if v.unsupported then { err := some missingCommands, started := [] }
  else { err := e.run (command v v.copy) text, started := [(command v v.copy, text)] }

/-- clipboard_unix.go:114-128 `read`, clipboard.go:5-7 `Read`. -/
def read (e : Env) (v : Vars) : Except String Str :=
  if v.unsupported then .error missingCommands
  else match e.output (command v v.paste) with
    | .error m => .error m
    | .ok out => .ok (if v.trimDos && decide (out.length > 1) then out.take (out.length - 2) else out)

end Verif.Clipboard
