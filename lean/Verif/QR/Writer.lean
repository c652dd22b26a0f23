import Verif.QR.RenderModel
/-
qrterminal/qrterminal.go with the `io.Writer` it writes to: any writer, which may accept a part of a slice, fail, recover or panic.
-/
namespace Verif.QR.Out
open Verif.QR

/-- The interface `io.Writer`: `Write(p) (n int, err error)` on a writer with states `σ`. `none` is a panic of `Write`; otherwise its new state,
the number it returns and whether it returns an error. -/
abbrev Write (σ : Type) := σ → Str → Option (σ × Int × Bool)

/-- A statement that writes: the state of the writer after it, `none` after a panic. -/
abbrev Stmt (σ : Type) := σ → Option σ

/-- `w.Write([]byte(s))` as a statement: both results are dropped (qrterminal.go, all calls). -/
def put {σ : Type} (w : Write σ) (s : Str) : Stmt σ := fun st =>
  match w st s with
  | some (st', _, _) => some st'
  | none => none

/-- Two statements in sequence. -/
def andThen {σ : Type} (a b : Stmt σ) : Stmt σ := fun st =>
  match a st with
  | some st' => b st'
  | none => none

infixr:60 " ;; " => andThen

/-- A loop `for i := lo; i < hi; i += step { body }` (`n` bounds the number of iterations). -/
def forDo {σ : Type} (step hi : Int) (body : Int → Stmt σ) : Nat → Int → Stmt σ
  | 0, _ => some
  | n + 1, i => if i < hi then body i ;; forDo step hi body n (i + step) else some

/-- qrterminal.go:39-59 `writeFullBlocks`. -/
def writeFullBlocks {σ : Type} (w : Write σ) (c : Config) (code : Code) : Stmt σ :=
  let white := c.whiteChar
  let black := c.blackChar
  put w (stringRepeat (stringRepeat white (code.size + c.quietZone * 2) ++ [10]) c.quietZone) ;;
  forDo 1 (code.size + 1) (fun i =>
    put w (stringRepeat white c.quietZone) ;;
    forDo 1 (code.size + 1) (fun j => if code.blackI j i then put w black else put w white) (code.size + 1) 0 ;;
    put w (stringRepeat white (c.quietZone - 1) ++ [10])) (code.size + 1) 0 ;;
  put w (stringRepeat (stringRepeat white (code.size + c.quietZone * 2) ++ [10]) (c.quietZone - 1))

/-- qrterminal.go:61-105 `writeHalfBlocks`. (`%` and `/` truncate in Go.) -/
def writeHalfBlocks {σ : Type} (w : Write σ) (c : Config) (code : Code) : Stmt σ :=
  let ww := c.whiteChar
  let bb := c.blackChar
  let wb := c.whiteBlackChar
  let bw := c.blackWhiteChar
  (if c.quietZone.tmod 2 ≠ 0 then
    put w (stringRepeat bw (code.size + c.quietZone * 2) ++ [10]) ;;
    put w (stringRepeat (stringRepeat ww (code.size + c.quietZone * 2) ++ [10]) (c.quietZone.tdiv 2))
  else put w (stringRepeat (stringRepeat ww (code.size + c.quietZone * 2) ++ [10]) (c.quietZone.tdiv 2))) ;;
  forDo 2 (code.size + 1) (fun i =>
    put w (stringRepeat ww c.quietZone) ;;
    forDo 1 (code.size + 1) (fun j =>
      let nextBlack := if i + 1 < code.size then code.blackI j (i + 1) else false
      let currBlack := code.blackI j i
      if currBlack && nextBlack then put w bb
      else if currBlack && !nextBlack then put w bw
      else if !currBlack && !nextBlack then put w ww
      else put w wb) (code.size + 1) 0 ;;
    put w (stringRepeat ww (c.quietZone - 1) ++ [10])) (code.size + 1) 0 ;;
  (if c.quietZone.tmod 2 = 0 then
    put w (stringRepeat (stringRepeat ww (code.size + c.quietZone * 2) ++ [10]) (c.quietZone.tdiv 2 - 1)) ;;
    put w (stringRepeat wb (code.size + c.quietZone * 2) ++ [10])
  else put w (stringRepeat (stringRepeat ww (code.size + c.quietZone * 2) ++ [10]) (c.quietZone.tdiv 2)))

/-- How a call of `GenerateWithConfig` ends: it returns, and has no results to tell how it went; it panics because the code is nil, without
having used the writer; or `Write` panics. -/
inductive Outcome (σ : Type) where
  | returns (st : σ)
  | noCode (st : σ)
  | writePanics

/-- qrterminal.go:115-126 `GenerateWithConfig` with `config.Writer` in state `st`. The arguments of the first `Write` contain `code.Size`, so a
nil code panics before it. -/
def generateWithConfig {σ : Type} (w : Write σ) (text : Str) (config : Config) (st : σ) : Outcome σ :=
  let config := if config.quietZone < 1 then { config with quietZone := 1 } else config
  match encode text config.level with
  | .ok code =>
    match (if config.halfBlocks then writeHalfBlocks w config code else writeFullBlocks w config code) st with
    | some st' => .returns st'
    | none => .writePanics
  | .err => .noCode st
  | .panic => .noCode st

/-- qrterminal.go:129-138 `Generate`. -/
def generate {σ : Type} (w : Write σ) (text : Str) (l : Level) (st : σ) : Outcome σ :=
  generateWithConfig w text { level := l, blackChar := blackEsc, whiteChar := whiteEsc, quietZone := 4 } st

/-- qrterminal.go:141-153 `GenerateHalfBlock`. -/
def generateHalfBlock {σ : Type} (w : Write σ) (text : Str) (l : Level) (st : σ) : Outcome σ :=
  generateWithConfig w text { level := l, halfBlocks := true, blackChar := glyphBB, whiteBlackChar := glyphWB, whiteChar := glyphWW, blackWhiteChar := glyphBW, quietZone := 4 } st

/- Specification. -/

/-- Offering pieces to a writer one after the other, whatever it answers. -/
def offer {σ : Type} (w : Write σ) : List Str → σ → Option σ
  | [], st => some st
  | p :: ps, st =>
    match w st p with
    | some (st', _, _) => offer w ps st'
    | none => none

/-- A destination: the bytes that have arrived, and how many more it takes; `none` is no limit. A full one reports an error. -/
structure Sink where
  got : Str
  room : Option Nat
deriving DecidableEq

/-- `Write` of a destination: it takes as much of the slice as there is room for. -/
def Sink.write : Write Sink := fun s p =>
  match s.room with
  | none => some (⟨s.got ++ p, none⟩, p.length, false)
  | some r => some (⟨s.got ++ p.take r, some (r - p.length)⟩, (p.take r).length, decide (r < p.length))

/-- A connection that loses the slices of the calls in `bad` (numbered from 0) and reports an error for each of them. -/
structure Lossy where
  calls : Nat
  got : Str
deriving DecidableEq

/-- Its `Write`. -/
def Lossy.write (bad : Nat → Bool) : Write Lossy := fun s p =>
  some (if bad s.calls then (⟨s.calls + 1, s.got⟩, 0, true) else (⟨s.calls + 1, s.got ++ p⟩, p.length, false))

end Verif.QR.Out
