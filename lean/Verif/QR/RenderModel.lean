import Verif.QR.CodingModel
/-
qrterminal/qrterminal.go: rendering a code on a terminal, and qrcode/qr.go: the image of a code.
-/
namespace Verif.QR

/-- qrcode/qr.go:74-77 `Black` with signed coordinates: out of range is not black. -/
def Code.blackI (c : Code) (x y : Int) : Bool := decide (0 ≤ x) && decide (x < c.size) && decide (0 ≤ y) && decide (y < c.size) && c.black x.toNat y.toNat

/-- qrterminal.go:28-37 `Config` without the writer; what is written is the result. -/
structure Config where
  level : Level
  halfBlocks : Bool := false
  blackChar : Str := []
  blackWhiteChar : Str := []
  whiteChar : Str := []
  whiteBlackChar : Str := []
  quietZone : Int := 0

/-- qrterminal.go:107-112 `stringRepeat`. -/
def stringRepeat (s : Str) (count : Int) : Str := if count ≤ 0 then [] else (List.replicate count.toNat s).flatten

/-- A loop `for i := lo; i < hi; i += step` that only writes: the writes of the iterations, in order (`n` bounds the number of iterations). -/
def forWrite (step hi : Int) (body : Int → Str) : Nat → Int → Str
  | 0, _ => []
  | n + 1, i => if i < hi then body i ++ forWrite step hi body n (i + step) else []

/-- qrterminal.go:39-59 `writeFullBlocks`: the bytes written, in order. -/
def Config.writeFullBlocks (c : Config) (code : Code) : Str :=
  let white := c.whiteChar
  let black := c.blackChar
  let top := stringRepeat (stringRepeat white (code.size + c.quietZone * 2) ++ [10]) c.quietZone
  let rows := forWrite 1 (code.size + 1) (fun i =>
    stringRepeat white c.quietZone ++
    forWrite 1 (code.size + 1) (fun j => if code.blackI j i then black else white) (code.size + 1) 0 ++
    (stringRepeat white (c.quietZone - 1) ++ [10])) (code.size + 1) 0
  let bottom := stringRepeat (stringRepeat white (code.size + c.quietZone * 2) ++ [10]) (c.quietZone - 1)
  top ++ rows ++ bottom

/-- qrterminal.go:61-105 `writeHalfBlocks`: the bytes written, in order. (`%` and `/` truncate in Go.) -/
def Config.writeHalfBlocks (c : Config) (code : Code) : Str :=
  let ww := c.whiteChar
  let bb := c.blackChar
  let wb := c.whiteBlackChar
  let bw := c.blackWhiteChar
  let top :=
    if c.quietZone.tmod 2 ≠ 0 then
      (stringRepeat bw (code.size + c.quietZone * 2) ++ [10]) ++
      stringRepeat (stringRepeat ww (code.size + c.quietZone * 2) ++ [10]) (c.quietZone.tdiv 2)
    else stringRepeat (stringRepeat ww (code.size + c.quietZone * 2) ++ [10]) (c.quietZone.tdiv 2)
  let rows := forWrite 2 (code.size + 1) (fun i =>
    stringRepeat ww c.quietZone ++
    forWrite 1 (code.size + 1) (fun j =>
      let nextBlack := if i + 1 < code.size then code.blackI j (i + 1) else false
      let currBlack := code.blackI j i
      if currBlack && nextBlack then bb
      else if currBlack && !nextBlack then bw
      else if !currBlack && !nextBlack then ww
      else wb) (code.size + 1) 0 ++
    (stringRepeat ww (c.quietZone - 1) ++ [10])) (code.size + 1) 0
  let bottom :=
    if c.quietZone.tmod 2 = 0 then
      stringRepeat (stringRepeat ww (code.size + c.quietZone * 2) ++ [10]) (c.quietZone.tdiv 2 - 1) ++
      (stringRepeat wb (code.size + c.quietZone * 2) ++ [10])
    else stringRepeat (stringRepeat ww (code.size + c.quietZone * 2) ++ [10]) (c.quietZone.tdiv 2)
  top ++ rows ++ bottom

/-- qrterminal.go:115-126 `GenerateWithConfig`: the bytes written, or a panic. The error of `Encode` is dropped; then `code` is nil and the
first use of `code.Size` panics (before that, nothing has been written: `code.Size` occurs in the arguments of the first `Write`). -/
def generateWithConfig (text : Str) (config : Config) : Option Str :=
  let config := if config.quietZone < 1 then { config with quietZone := 1 } else config
  match encode text config.level with
  | .ok code => if config.halfBlocks then some (config.writeHalfBlocks code) else some (config.writeFullBlocks code)
  | .err => none
  | .panic => none

/-- qrterminal.go:10 `WHITE`. -/
def whiteEsc : Str := 27 :: lit "[47m  " ++ 27 :: lit "[0m"
/-- qrterminal.go:11 `BLACK`. -/
def blackEsc : Str := 27 :: lit "[40m  " ++ 27 :: lit "[0m"
/-- qrterminal.go:14 `BLACK_WHITE` (U+2584, lower half). -/
def glyphBW : Str := [0xe2, 0x96, 0x84]
/-- qrterminal.go:15 `BLACK_BLACK`. -/
def glyphBB : Str := [0x20]
/-- qrterminal.go:16 `WHITE_BLACK` (U+2580, upper half). -/
def glyphWB : Str := [0xe2, 0x96, 0x80]
/-- qrterminal.go:17 `WHITE_WHITE` (U+2588, full block). -/
def glyphWW : Str := [0xe2, 0x96, 0x88]

/-- qrterminal.go:129-138 `Generate`. -/
def generate (text : Str) (l : Level) : Option Str :=
  generateWithConfig text { level := l, blackChar := blackEsc, whiteChar := whiteEsc, quietZone := 4 }

/-- qrterminal.go:141-153 `GenerateHalfBlock`. -/
def generateHalfBlock (text : Str) (l : Level) : Option Str :=
  generateWithConfig text { level := l, halfBlocks := true, blackChar := glyphBB, whiteBlackChar := glyphWB, whiteChar := glyphWW, blackWhiteChar := glyphBW, quietZone := 4 }

/-- qrcode/qr.go:61: the scale of every code returned by `Encode`. -/
def scale : Nat := 8

/-- qrcode/qr.go:95-98 `codeImage.Bounds`: the side of the image. -/
def imageSide (c : Code) : Nat := (c.size + 8) * scale

/-- qrcode/qr.go:100-105 `codeImage.At`: is the image pixel black? -/
def imageBlack (c : Code) (x y : Int) : Bool := c.blackI x y

end Verif.QR
