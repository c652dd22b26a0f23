import Verif.Go.Utf8
/-
clipboard/clipboard_windows.go: `read` and `write`. The system is an adversary: what a call returns may depend on everything that was called before. A call returns a value and the
last error; the error is always a value of type `syscall.Errno`, so a returned error is never nil. `tries` is the number of times the clock says that the second of
`waitOpenClipboard` is not over. `LockOSThread` and `Sleep` have no effect on the result. Failing to load a DLL is not modelled.
-/
namespace Verif.Clipboard.Windows

/-- clipboard_windows.go:19-32: the procedures, with their arguments where they matter. -/
inductive Call where
  | formatAvailable
  | openClipboard
  | closeClipboard
  | emptyClipboard
  | getData
  | setData (h : Nat)
  | alloc (bytes : Nat)
  | free (h : Nat)
  | lock (h : Nat)
  | unlock (h : Nat)
  | strcpy (dst : Nat) (src : List Nat)
  deriving DecidableEq

/-- What a procedure returns: the value and the last error. -/
structure Ret where
  value : Nat
  errno : Nat
  deriving DecidableEq

/-- The calls made so far with their results, first call first. -/
abbrev Trace := List (Call × Ret)

/-- The system. -/
abbrev Os := Trace → Call → Ret

/-- How `read` or `write` ends. -/
inductive End (α : Type) where
  | ok (a : α)
  | err (errno : Nat)
  | panic
  deriving DecidableEq

/-- The calls after one more. -/
def call (t : Trace) (c : Call) (r : Ret) : Trace := t ++ [(c, r)]

/-- clipboard_windows.go:36-49 `waitOpenClipboard`: the error (`none` is nil). -/
def waitOpen (os : Os) : Nat → Option Nat → Trace → Option Nat × Trace
  | 0, err, t => (err, t)
  | n + 1, _, t =>
    let r := os t .openClipboard
    let t := call t .openClipboard r
    if r.value = 0 then waitOpen os n (some r.errno) t else (none, t)

/-- unicode/utf16 `AppendRune`, for a rune that comes from a string. -/
def utf16Rune (r : Nat) : List Nat := if r < 0x10000 then [r] else [0xD800 + (r - 0x10000) / 0x400, 0xDC00 + (r - 0x10000) % 0x400]

/-- syscall `StringToUTF16`: the UTF-16 units of the text and a zero; it panics if the text contains a zero byte. -/
def stringToUtf16 (text : Str) : Option (List Nat) := if (0 : UInt8) ∈ text then none else some ((runesOf text).flatMap (fun r => utf16Rune r.1) ++ [0])

/-- unicode/utf16 `Decode`: the runes. -/
def utf16Decode : List Nat → List Nat
  | [] => []
  | [u] => if 0xD800 ≤ u && u < 0xE000 then [runeError] else [u]
  | u :: v :: us =>
    if 0xD800 ≤ u && u < 0xDC00 && 0xDC00 ≤ v && v < 0xE000 then (0x10000 + (u - 0xD800) * 0x400 + (v - 0xDC00)) :: utf16Decode us
    else (if 0xD800 ≤ u && u < 0xE000 then runeError else u) :: utf16Decode (v :: us)

/-- syscall `UTF16ToString`: up to the first zero. (Go 1.21 and later keep lone surrogates; this is Go 1.18, which replaces them.) -/
def utf16ToString (us : List Nat) : Str := (utf16Decode (us.takeWhile (· ≠ 0))).flatMap encodeRune

/-- clipboard_windows.go:123-153, from the call of `GlobalLock` on: the result, the value of `h` when the function returns, the calls. -/
def writeLocked (os : Os) (h : Nat) (data : List Nat) (t : Trace) : End Unit × Nat × Trace :=
  let l := os t (.lock h)
  let t := call t (.lock h) l
  if l.value = 0 then (.err l.errno, h, call t .closeClipboard (os t .closeClipboard))
  else
    let r := os t (.strcpy l.value data)
    let t := call t (.strcpy l.value data) r
    if r.value = 0 then (.err r.errno, h, call t .closeClipboard (os t .closeClipboard))
    else
      let r := os t (.unlock h)
      let t := call t (.unlock h) r
      if r.value = 0 ∧ r.errno ≠ 0 then (.err r.errno, h, call t .closeClipboard (os t .closeClipboard))
      else
        let r := os t (.setData h)
        let t := call t (.setData h) r
        if r.value = 0 then (.err r.errno, h, call t .closeClipboard (os t .closeClipboard))
        else
          let closed := os t .closeClipboard
          let t := call t .closeClipboard closed
          if closed.value = 0 then (.err closed.errno, 0, t) else (.ok (), 0, t)

/-- clipboard_windows.go:91-154 `write`; the deferred function of lines 117-121 runs last. -/
def write (os : Os) (tries : Nat) (text : Str) : End Unit × Trace :=
  match waitOpen os tries none [] with
  | (some e, t) => (.err e, t)
  | (none, t) =>
    let r := os t .emptyClipboard
    let t := call t .emptyClipboard r
    if r.value = 0 then (.err r.errno, call t .closeClipboard (os t .closeClipboard))
    else match stringToUtf16 text with
      | none => (.panic, t)
      | some data =>
        let h := os t (.alloc (data.length * 2))
        let t := call t (.alloc (data.length * 2)) h
        if h.value = 0 then (.err h.errno, call t .closeClipboard (os t .closeClipboard))
        else
          let e := writeLocked os h.value data t
          (e.1, if e.2.1 ≠ 0 then call e.2.2 (.free e.2.1) (os e.2.2 (.free e.2.1)) else e.2.2)

/-- clipboard_windows.go:51-89 `read`; `mem` is what the 2^20 words at an address are (it may depend on the calls so far). -/
def read (os : Os) (mem : Trace → Nat → List Nat) (tries : Nat) : End Str × Trace :=
  let r := os [] .formatAvailable
  let t := call [] .formatAvailable r
  if r.value = 0 then (.err r.errno, t)
  else match waitOpen os tries none t with
    | (some e, t) => (.err e, t)
    | (none, t) =>
      let h := os t .getData
      let t := call t .getData h
      if h.value = 0 then (.err h.errno, call t .closeClipboard (os t .closeClipboard))
      else
        let l := os t (.lock h.value)
        let t := call t (.lock h.value) l
        if l.value = 0 then (.err l.errno, call t .closeClipboard (os t .closeClipboard))
        else
          let text := utf16ToString ((mem t l.value).take (2 ^ 20))
          let r := os t (.unlock h.value)
          let t := call t (.unlock h.value) r
          if r.value = 0 then (.err r.errno, call t .closeClipboard (os t .closeClipboard))
          else
            let closed := os t .closeClipboard
            let t := call t .closeClipboard closed
            if closed.value = 0 then (.err closed.errno, t) else (.ok text, t)

end Verif.Clipboard.Windows
