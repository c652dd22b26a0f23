import Verif.Password.Model
/-
Model of cmds/generate.go (`GenerateCmd.Run`).

Go iterates over the form and over the password by runes. All case labels are ASCII and the password is ASCII, and every
byte of a multi-byte rune is >= 0x80, so iterating over bytes gives the same counts and the same output.
-/
namespace Verif.FormGen
open Verif.Password

/-- cmds/generate.go:11-21, the fields used by `Run` (clipboard copy and in-place are not modelled; `InPlace` and `PassName`
are never read by `Run`). -/
structure GenerateCmd where
  symbols : Int
  numbers : Int
  length : Int
  mixed : Bool
  unique : Bool
  form : Option Str

/-- The five counters of cmds/generate.go:37-41. -/
structure Counts where
  alpha : Nat := 0
  upper : Nat := 0
  lower : Nat := 0
  number : Nat := 0
  symbol : Nat := 0

/-- cmds/generate.go:42-55: the counting loop. Labels: a=97 x=120 X=88 n=110 s=115. -/
def countForm : Str → Counts → Counts
  | [], k => k
  | c :: f, k => countForm f
      (if c = 97 then { k with alpha := k.alpha + 1 }
       else if c = 120 then { k with lower := k.lower + 1 }
       else if c = 88 then { k with upper := k.upper + 1 }
       else if c = 110 then { k with number := k.number + 1 }
       else if c = 115 then { k with symbol := k.symbol + 1 }
       else k)

/-- cmds/generate.go:57-60: the request derived from the counters (length, numbers, symbols). -/
def formRequest (k : Counts) : Int × Int × Int :=
  let lower : Int := k.lower + (k.alpha - (k.alpha / 3 : Nat))
  let numbers : Int := k.number + (k.alpha / 3 : Nat)
  let symbols : Int := k.symbol
  (lower + k.upper + numbers + symbols, numbers, symbols)

/-- cmds/generate.go:72. -/
def isNumber (c : UInt8) : Bool := 48 ≤ c && c ≤ 57
/-- The literal at cmds/generate.go:74. -/
def letters : Str := lit "abcdefghijklmnopqrstuvwxyzABCDEFGHIJKLMNOPQRSTUVWXYZ"
/-- cmds/generate.go:73-75. -/
def isSymbol (c : UInt8) : Bool := !isNumber c && !decide (c ∈ letters)

/-- cmds/generate.go:78-89: the password split into (chars, numbers, symbols). -/
def split : Str → Str × Str × Str
  | [] => ([], [], [])
  | c :: r =>
    let (ch, nu, sy) := split r
    if isNumber c then (ch, c :: nu, sy) else if isSymbol c then (ch, nu, c :: sy) else (c :: ch, nu, sy)

/-- `strings.ToLower` / `strings.ToUpper` of a one-letter ASCII string. -/
def toLower (c : UInt8) : UInt8 := if 65 ≤ c && c ≤ 90 then c + 32 else c
def toUpper (c : UInt8) : UInt8 := if 97 ≤ c && c ≤ 122 then c - 32 else c

/-- cmds/generate.go:92-116: the filling loop. `none` = index out of range (run-time panic). `res` is indexed by byte
(cmds/generate.go:109-110). -/
def fillForm : (form chars numbers symbols res : Str) → Option Str
  | [], _, _, _, _ => some []
  | c :: f, chars, numbers, symbols, res =>
    if c = 120 then
      match chars with
      | [] => none
      | d :: chars => (fillForm f chars numbers symbols res).map (toLower d :: ·)
    else if c = 88 then
      match chars with
      | [] => none
      | d :: chars => (fillForm f chars numbers symbols res).map (toUpper d :: ·)
    else if c = 110 then
      match numbers with
      | [] => none
      | d :: numbers => (fillForm f chars numbers symbols res).map (d :: ·)
    else if c = 115 then
      match symbols with
      | [] => none
      | d :: symbols => (fillForm f chars numbers symbols res).map (d :: ·)
    else if c = 45 ∨ c = 95 ∨ c = 47 ∨ c = 92 ∨ c = 35 then
      (fillForm f chars numbers symbols res).map (c :: ·)
    else if c = 97 then
      match res with
      | [] => none
      | d :: res => (fillForm f chars numbers symbols res).map (stringOfByte d ++ ·)
    else fillForm f chars numbers symbols res

/-- cmds/generate.go:23-126 `Run`: the printed line (without the newline), an error, or a panic. -/
def GenerateCmd.run (a : GenerateCmd) (fuel : Nat) (stream : Str) : Out Str :=
  match a.form with
  | none =>
    match (generate fuel a.length a.numbers a.symbols (!a.mixed) (!a.unique)).run stream with
    | .ok (pw, _) => .ok pw
    | .err e => .err e
    | .panic => .panic
    | .nofuel => .nofuel
  | some f =>
    let (length, numbers, symbols) := formRequest (countForm f {})
    match (generate fuel length numbers symbols (!a.mixed) (!a.unique)).run stream with
    | .ok (pw, _) =>
      let (ch, nu, sy) := split pw
      match fillForm f ch nu sy pw with
      | some out => .ok out
      | none => .panic
    | .err e => .err e
    | .panic => .panic
    | .nofuel => .nofuel

end Verif.FormGen
