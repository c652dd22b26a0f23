import Verif.QR.RenderModel
/-
The exported functions of qrterminal/qrcode/coding/qr.go, qrterminal/qrcode/qr.go and qrterminal/qrterminal.go for arguments of all values:
`Version`, `Level` and `Mask` are Go ints. `CodingModel` has them for levels L, M, Q, H and masks 0 to 7 only.
-/
namespace Verif.QR

/-- `a[i]` for an int `i`; `none` is the index panic. -/
def idx {α} (a : List α) (i : Int) : Option α := if i < 0 then none else a[i.toNat]?

/-- coding/qr.go:29-37 `sizeClass`. -/
def sizeClassI (v : Int) : Nat := if v ≤ 9 then 0 else if v ≤ 26 then 1 else 2

/-- coding/qr.go:127-129, 170-172, 203-205 `Bits`. -/
def Encoding.bitsI (v : Int) : Encoding → Nat
  | .num s => 4 + numLen.getD (sizeClassI v) 0 + (10 * s.length + 2) / 3
  | .alpha s => 4 + alphaLen.getD (sizeClassI v) 0 + (11 * s.length + 1) / 2
  | .str s => 4 + stringLen.getD (sizeClassI v) 0 + 8 * s.length

/-- coding/qr.go:41-45 `DataBytes`; `none` is an index panic. -/
def dataBytesI (v l : Int) : Option Int :=
  (idx vtab v).bind fun vt => (idx vt.level l).map fun lev => (vt.bytes : Int) - lev.nblock * lev.check

/-- The level `vtab[v].level[l]`, by the name of the constant; `none` is an index panic. -/
def levelI (l : Int) : Option Level := idx [.L, .M, .Q, .H] l

/-- coding/qr.go:397-425 `AddCheckBytes`: `vtab[v]`, `level[l]` and the division by `nblock` (line 407) can panic, the rest is
`Bits.addCheckBytes`. (`vtab[0]` exists and has no blocks: line 400-404 panic or line 407 divides by zero.) -/
def Bits.addCheckBytesI (b : Bits) (v l : Int) : Option Bits :=
  (dataBytesI v l).bind fun nd =>
    if nd.toNat * 8 < b.nbit then none
    else
      (idx vtab v).bind fun vt => (idx vt.level l).bind fun lev =>
        if lev.nblock = 0 then none else (levelI l).bind fun l => b.addCheckBytes v.toNat l

/-- coding/qr.go:605-614: the format word. `uint32(l^1)` keeps the low 32 bits, and the XOR with 1 changes the lowest only, so it can be
done after the conversion. -/
def formatBitsI (l m : Int) : UInt32 :=
  let fb := (UInt32.ofInt l ^^^ 1) <<< 13
  let fb := fb ||| (UInt32.ofInt m <<< 10)
  let rem := ([14, 13, 12, 11, 10] : List UInt32).foldl
    (fun (rem : UInt32) (i : UInt32) => if rem &&& (1 <<< i) ≠ 0 then rem ^^^ (0x537 <<< (i - 10)) else rem) fb
  fb ||| rem

/-- coding/qr.go:603-645 `fplan`: all assignments in program order. -/
def fplanWritesI (siz : Nat) (l m : Int) : List Asg :=
  (List.range 15).flatMap fun i => (formatCells siz i).map fun c => ⟨c.1, c.2, formatPixel (formatBitsI l m).toNat i⟩

/-- coding/qr.go:335-340, 750-760 `mplan`: a negative mask inverts nothing; one above 7 makes `mfunc[m]` panic at the first pixel that is
to be masked. -/
def mplanI (m : Int) (g : Grid) : Option Grid :=
  if m < 0 then some g
  else if m ≤ 7 then some (mplan m.toNat g)
  else if g.any fun row => row.any fun pix => pix.role = .data ∨ pix.role = .check ∨ pix.role = .extra then none
  else some g

/-- coding/qr.go:358-373 `NewPlan` (with `vplan`, `fplan`, `lplan`, `mplan`); `lplan` panics at `vtab[v].level[l]` (line 652) for a level
that does not exist. -/
def newPlanI (v l m : Int) : Out Plan :=
  if v < 1 ∨ v > 40 then .err
  else
    let siz := 17 + v.toNat * 4
    Out.ofOption <|
      (runWrites (newGrid siz) (vplanWrites v.toNat)).bind fun g =>
      (runWrites g (fplanWritesI siz l m)).bind fun g =>
      (levelI l).bind fun lev =>
      (lplanBits v.toNat lev).bind fun bits =>
      (place (sweepCells siz) (bits ++ List.replicate 7 { role := .extra }) g).bind fun g =>
      (mplanI m g).map fun g =>
        { version := v.toNat, level := lev, mask := m,
          dataBytes := (vinfo v.toNat).bytes - (linfo v.toNat lev).check * (linfo v.toNat lev).nblock,
          checkBytes := (linfo v.toNat lev).check * (linfo v.toNat lev).nblock, blocks := (linfo v.toNat lev).nblock,
          pixel := g }

/-- qrcode/qr.go:37-47: the version loop (at most `fuel` rounds); `DataBytes` may panic. -/
def chooseVersionI (enc : Encoding) (l : Int) : Nat → Int → Out Int
  | 0, _ => .err
  | fuel + 1, v =>
    if v > 40 then .err
    else
      match dataBytesI v l with
      | none => .panic
      | some nd => if (enc.bitsI v : Int) ≤ nd * 8 then .ok v else chooseVersionI enc l fuel (v + 1)

/-- qrcode/qr.go:23-62 `Encode`. -/
def encodeI (text : Str) (level : Int) : Out Code :=
  let enc := chooseEncoding text
  (chooseVersionI enc level 41 1).bind fun v => (newPlanI v level 0).bind fun p => p.encode [enc]

/-- qrterminal.go:115-126 `GenerateWithConfig` for a level of any value (in place of `config.Level`). -/
def generateWithConfigI (text : Str) (level : Int) (config : Config) : Option Str :=
  let config := if config.quietZone < 1 then { config with quietZone := 1 } else config
  match encodeI text level with
  | .ok code => if config.halfBlocks then some (config.writeHalfBlocks code) else some (config.writeFullBlocks code)
  | .err => none
  | .panic => none

end Verif.QR
