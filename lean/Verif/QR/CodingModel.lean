import Verif.QR.QRField
/-
Model of qrterminal/qrcode/coding/qr.go and qrterminal/qrcode/qr.go. Go `int`/`uint` values are natural numbers; the
arithmetic stays far below 2^63. A Go run-time panic is `Out.panic`, a returned error `Out.err`.

Levels are the four exported constants, masks the valid values 0..7 (other values make the code index out of range).
-/
namespace Verif.QR

/-- Outcome of a call. -/
inductive Out (α : Type) where
  | ok (a : α)
  | err
  | panic
deriving DecidableEq

/-- Sequencing: an error or panic ends the call. -/
def Out.bind {α β} (o : Out α) (f : α → Out β) : Out β :=
  match o with
  | .ok a => f a
  | .err => .err
  | .panic => .panic

instance : Monad Out where
  pure := .ok
  bind := Out.bind

/-- An operation that may only panic. -/
def Out.ofOption {α} : Option α → Out α
  | some a => .ok a
  | none => .panic

/-- coding/qr.go:289-296 `Level` and its constants. -/
inductive Level where
  | L | M | Q | H
deriving DecidableEq, Repr

/-- The constants' values. -/
def Level.toNat : Level → Nat
  | .L => 0 | .M => 1 | .Q => 2 | .H => 3

/-- coding/qr.go:29-37 `sizeClass`. -/
def sizeClass (v : Nat) : Nat := if v ≤ 9 then 0 else if v ≤ 26 then 1 else 2

/-! ### Bit buffer -/

/-- coding/qr.go:57-60. -/
structure Bits where
  b : List UInt8
  nbit : Nat
deriving DecidableEq

/-- The zero value `var b Bits`. -/
def Bits.empty : Bits := ⟨[], 0⟩

/-- coding/qr.go:71-76 `Bytes`. -/
def Bits.bytes (b : Bits) : Option (List UInt8) := if b.nbit % 8 ≠ 0 then none else some b.b

/-- coding/qr.go:78-84 `Append`. -/
def Bits.append (b : Bits) (p : List UInt8) : Option Bits := if b.nbit % 8 ≠ 0 then none else some ⟨b.b ++ p, b.nbit + 8 * p.length⟩

/-- `-n & 7` (two's complement). -/
def negAnd7 (n : Nat) : Nat := (8 - n % 8) % 8

/-- coding/qr.go:102 `b.b[len(b.b)-1] |= x`. -/
def orLast (x : UInt8) : List UInt8 → List UInt8
  | [] => []
  | [a] => [a ||| x]
  | a :: c :: r => a :: orLast x (c :: r)

/-- coding/qr.go:86-106 `Write` (at most `fuel` rounds). -/
def writeLoop : Nat → Bits → Nat → Nat → Bits
  | 0, b, _, _ => b
  | fuel + 1, b, v, nbit =>
    if 0 < nbit then
      let n := if nbit > 8 then 8 else nbit
      let bn : List UInt8 × Nat :=
        if b.nbit % 8 = 0 then (b.b ++ [0], n) else (b.b, if n > negAnd7 b.nbit then negAnd7 b.nbit else n)
      let n := bn.2
      let nb := b.nbit + n
      let sh := nbit - n
      writeLoop fuel ⟨orLast (UInt8.ofNat ((v >>> sh) <<< negAnd7 nb)) bn.1, nb⟩ (v - (v >>> sh) <<< sh) (nbit - n)
    else b

/-- coding/qr.go:86-106 `Write`: every round writes at least one bit, so `nbit` rounds suffice. -/
def Bits.write (b : Bits) (v nbit : Nat) : Bits := writeLoop nbit b v nbit

/-! ### Segments -/

/-- The three implementations of `Encoding` (coding/qr.go:51-55, 110, 151, 191). -/
inductive Encoding where
  | num (s : Str)
  | alpha (s : Str)
  | str (s : Str)
deriving DecidableEq

/-- coding/qr.go:153 `alphabet`. -/
def alphabet : Str := lit "0123456789ABCDEFGHIJKLMNOPQRSTUVWXYZ $%*+-./:"

/-- coding/qr.go:116-123, 159-166, 197-199 `Check() == nil`. The loops range over runes; all accepted runes are ASCII and every byte of
another rune is at least 0x80, so looking at bytes gives the same answer. -/
def Encoding.check : Encoding → Bool
  | .num s => s.all fun c => 48 ≤ c && c ≤ 57
  | .alpha s => s.all fun c => decide (c ∈ alphabet)
  | .str _ => true

/-- coding/qr.go:125: widths of the length field. -/
def numLen : List Nat := [10, 12, 14]
/-- coding/qr.go:168. -/
def alphaLen : List Nat := [9, 11, 13]
/-- coding/qr.go:201. -/
def stringLen : List Nat := [8, 16, 16]

/-- coding/qr.go:127-129, 170-172, 203-205 `Bits`. -/
def Encoding.bits (v : Nat) : Encoding → Nat
  | .num s => 4 + numLen.getD (sizeClass v) 0 + (10 * s.length + 2) / 3
  | .alpha s => 4 + alphaLen.getD (sizeClass v) 0 + (11 * s.length + 1) / 2
  | .str s => 4 + stringLen.getD (sizeClass v) 0 + 8 * s.length

/-- `uint(c - '0')` (byte subtraction). -/
def digit (c : UInt8) : Nat := (c - 48).toNat

/-- coding/qr.go:134-146: three digits at a time. -/
def encodeNum (b : Bits) : Str → Bits
  | x :: y :: z :: s => encodeNum (b.write (digit x * 100 + digit y * 10 + digit z) 10) s
  | [x, y] => b.write (digit x * 10 + digit y) 7
  | [x] => b.write (digit x) 4
  | [] => b

/-- `strings.IndexRune(alphabet, rune(c))` for a `c` in the alphabet (`Encode` is only reached after `Check`). -/
def alphaIndex (c : UInt8) : Nat := alphabet.idxOf c

/-- coding/qr.go:177-187: two characters at a time. -/
def encodeAlpha (b : Bits) : Str → Bits
  | x :: y :: s => encodeAlpha (b.write (alphaIndex x * 45 + alphaIndex y) 11) s
  | [x] => b.write (alphaIndex x) 6
  | [] => b

/-- coding/qr.go:131-147, 174-188, 207-213 `Encode`. -/
def Encoding.encode (b : Bits) (v : Nat) : Encoding → Bits
  | .num s => encodeNum ((b.write 1 4).write s.length (numLen.getD (sizeClass v) 0)) s
  | .alpha s => encodeAlpha ((b.write 2 4).write s.length (alphaLen.getD (sizeClass v) 0)) s
  | .str s => s.foldl (fun b c => b.write c.toNat 8) ((b.write 4 4).write s.length (stringLen.getD (sizeClass v) 0))

/-! ### Version table -/

/-- coding/qr.go:473-476 `level`. -/
structure LevelInfo where
  nblock : Nat
  check : Nat

/-- coding/qr.go:465-471 `version`. -/
structure VersionInfo where
  apos : Nat
  astride : Nat
  bytes : Nat
  pattern : Nat
  level : List LevelInfo

/-- coding/qr.go:478-520 `vtab`. -/
def vtab : List VersionInfo := [
  ⟨0, 0, 0, 0, [⟨0, 0⟩, ⟨0, 0⟩, ⟨0, 0⟩, ⟨0, 0⟩]⟩,
  ⟨100, 100, 26, 0x0, [⟨1, 7⟩, ⟨1, 10⟩, ⟨1, 13⟩, ⟨1, 17⟩]⟩,
  ⟨16, 100, 44, 0x0, [⟨1, 10⟩, ⟨1, 16⟩, ⟨1, 22⟩, ⟨1, 28⟩]⟩,
  ⟨20, 100, 70, 0x0, [⟨1, 15⟩, ⟨1, 26⟩, ⟨2, 18⟩, ⟨2, 22⟩]⟩,
  ⟨24, 100, 100, 0x0, [⟨1, 20⟩, ⟨2, 18⟩, ⟨2, 26⟩, ⟨4, 16⟩]⟩,
  ⟨28, 100, 134, 0x0, [⟨1, 26⟩, ⟨2, 24⟩, ⟨4, 18⟩, ⟨4, 22⟩]⟩,
  ⟨32, 100, 172, 0x0, [⟨2, 18⟩, ⟨4, 16⟩, ⟨4, 24⟩, ⟨4, 28⟩]⟩,
  ⟨20, 16, 196, 0x7c94, [⟨2, 20⟩, ⟨4, 18⟩, ⟨6, 18⟩, ⟨5, 26⟩]⟩,
  ⟨22, 18, 242, 0x85bc, [⟨2, 24⟩, ⟨4, 22⟩, ⟨6, 22⟩, ⟨6, 26⟩]⟩,
  ⟨24, 20, 292, 0x9a99, [⟨2, 30⟩, ⟨5, 22⟩, ⟨8, 20⟩, ⟨8, 24⟩]⟩,
  ⟨26, 22, 346, 0xa4d3, [⟨4, 18⟩, ⟨5, 26⟩, ⟨8, 24⟩, ⟨8, 28⟩]⟩,
  ⟨28, 24, 404, 0xbbf6, [⟨4, 20⟩, ⟨5, 30⟩, ⟨8, 28⟩, ⟨11, 24⟩]⟩,
  ⟨30, 26, 466, 0xc762, [⟨4, 24⟩, ⟨8, 22⟩, ⟨10, 26⟩, ⟨11, 28⟩]⟩,
  ⟨32, 28, 532, 0xd847, [⟨4, 26⟩, ⟨9, 22⟩, ⟨12, 24⟩, ⟨16, 22⟩]⟩,
  ⟨24, 20, 581, 0xe60d, [⟨4, 30⟩, ⟨9, 24⟩, ⟨16, 20⟩, ⟨16, 24⟩]⟩,
  ⟨24, 22, 655, 0xf928, [⟨6, 22⟩, ⟨10, 24⟩, ⟨12, 30⟩, ⟨18, 24⟩]⟩,
  ⟨24, 24, 733, 0x10b78, [⟨6, 24⟩, ⟨10, 28⟩, ⟨17, 24⟩, ⟨16, 30⟩]⟩,
  ⟨28, 24, 815, 0x1145d, [⟨6, 28⟩, ⟨11, 28⟩, ⟨16, 28⟩, ⟨19, 28⟩]⟩,
  ⟨28, 26, 901, 0x12a17, [⟨6, 30⟩, ⟨13, 26⟩, ⟨18, 28⟩, ⟨21, 28⟩]⟩,
  ⟨28, 28, 991, 0x13532, [⟨7, 28⟩, ⟨14, 26⟩, ⟨21, 26⟩, ⟨25, 26⟩]⟩,
  ⟨32, 28, 1085, 0x149a6, [⟨8, 28⟩, ⟨16, 26⟩, ⟨20, 30⟩, ⟨25, 28⟩]⟩,
  ⟨26, 22, 1156, 0x15683, [⟨8, 28⟩, ⟨17, 26⟩, ⟨23, 28⟩, ⟨25, 30⟩]⟩,
  ⟨24, 24, 1258, 0x168c9, [⟨9, 28⟩, ⟨17, 28⟩, ⟨23, 30⟩, ⟨34, 24⟩]⟩,
  ⟨28, 24, 1364, 0x177ec, [⟨9, 30⟩, ⟨18, 28⟩, ⟨25, 30⟩, ⟨30, 30⟩]⟩,
  ⟨26, 26, 1474, 0x18ec4, [⟨10, 30⟩, ⟨20, 28⟩, ⟨27, 30⟩, ⟨32, 30⟩]⟩,
  ⟨30, 26, 1588, 0x191e1, [⟨12, 26⟩, ⟨21, 28⟩, ⟨29, 30⟩, ⟨35, 30⟩]⟩,
  ⟨28, 28, 1706, 0x1afab, [⟨12, 28⟩, ⟨23, 28⟩, ⟨34, 28⟩, ⟨37, 30⟩]⟩,
  ⟨32, 28, 1828, 0x1b08e, [⟨12, 30⟩, ⟨25, 28⟩, ⟨34, 30⟩, ⟨40, 30⟩]⟩,
  ⟨24, 24, 1921, 0x1cc1a, [⟨13, 30⟩, ⟨26, 28⟩, ⟨35, 30⟩, ⟨42, 30⟩]⟩,
  ⟨28, 24, 2051, 0x1d33f, [⟨14, 30⟩, ⟨28, 28⟩, ⟨38, 30⟩, ⟨45, 30⟩]⟩,
  ⟨24, 26, 2185, 0x1ed75, [⟨15, 30⟩, ⟨29, 28⟩, ⟨40, 30⟩, ⟨48, 30⟩]⟩,
  ⟨28, 26, 2323, 0x1f250, [⟨16, 30⟩, ⟨31, 28⟩, ⟨43, 30⟩, ⟨51, 30⟩]⟩,
  ⟨32, 26, 2465, 0x209d5, [⟨17, 30⟩, ⟨33, 28⟩, ⟨45, 30⟩, ⟨54, 30⟩]⟩,
  ⟨28, 28, 2611, 0x216f0, [⟨18, 30⟩, ⟨35, 28⟩, ⟨48, 30⟩, ⟨57, 30⟩]⟩,
  ⟨32, 28, 2761, 0x228ba, [⟨19, 30⟩, ⟨37, 28⟩, ⟨51, 30⟩, ⟨60, 30⟩]⟩,
  ⟨28, 24, 2876, 0x2379f, [⟨19, 30⟩, ⟨38, 28⟩, ⟨53, 30⟩, ⟨63, 30⟩]⟩,
  ⟨22, 26, 3034, 0x24b0b, [⟨20, 30⟩, ⟨40, 28⟩, ⟨56, 30⟩, ⟨66, 30⟩]⟩,
  ⟨26, 26, 3196, 0x2542e, [⟨21, 30⟩, ⟨43, 28⟩, ⟨59, 30⟩, ⟨70, 30⟩]⟩,
  ⟨30, 26, 3362, 0x26a64, [⟨22, 30⟩, ⟨45, 28⟩, ⟨62, 30⟩, ⟨74, 30⟩]⟩,
  ⟨24, 28, 3532, 0x27541, [⟨24, 30⟩, ⟨47, 28⟩, ⟨65, 30⟩, ⟨77, 30⟩]⟩,
  ⟨28, 28, 3706, 0x28c69, [⟨25, 30⟩, ⟨49, 28⟩, ⟨68, 30⟩, ⟨81, 30⟩]⟩]

/-- `vtab[v]` (callers have 1 ≤ v ≤ 40). -/
def vinfo (v : Nat) : VersionInfo := vtab.getD v ⟨0, 0, 0, 0, []⟩

/-- `vtab[v].level[l]`. -/
def linfo (v : Nat) (l : Level) : LevelInfo := (vinfo v).level.getD l.toNat ⟨0, 0⟩

/-- coding/qr.go:41-45 `DataBytes`. -/
def dataBytes (v : Nat) (l : Level) : Nat := (vinfo v).bytes - (linfo v l).nblock * (linfo v l).check

/-! ### Padding and check bytes -/

/-- coding/qr.go:386-393: pad bytes, `pad` of them, `k` written so far. -/
def padLoop : Nat → Nat → Bits → Bits
  | 0, _, b => b
  | n + 1, k, b => padLoop n (k + 1) (b.write (if k % 2 = 0 then 0xec else 0x11) 8)

/-- coding/qr.go:375-395 `Pad` for `n ≥ 0` (`AddCheckBytes` passes a positive number). The loop writes 0xec and 0x11 in turn, `n/8` bytes
altogether (it stops after an odd last 0xec). -/
def Bits.pad (b : Bits) (n : Nat) : Bits :=
  if n ≤ 4 then b.write 0 n
  else
    let b := b.write 0 4
    let n := n - 4
    let n := n - negAnd7 b.nbit
    let b := b.write 0 (negAnd7 b.nbit)
    padLoop (n / 8) 0 b

/-- coding/qr.go:413-420: the block loop. `k` blocks left of `nblock`, `dat` the rest of the data, `db` the current block size. -/
def checkLoop (nblock extra : Nat) : Nat → Nat → List UInt8 → List UInt8 → RSEncoder → Bits → Option Bits
  | 0, _, _, _, _, b => some b
  | k + 1, db, dat, chk, rs, b =>
    let i := nblock - (k + 1)
    let db := if i = nblock - extra then db + 1 else db
    if dat.length < db then none
    else
      match rs.ecc (dat.take db) chk with
      | none => none
      | some (rs, chk) =>
        match b.append chk with
        | none => none
        | some b => checkLoop nblock extra k db (dat.drop db) chk rs b

/-- coding/qr.go:397-425 `AddCheckBytes`; `none` is one of its panics. -/
def Bits.addCheckBytes (b : Bits) (v : Nat) (l : Level) : Option Bits :=
  let nd := dataBytes v l
  let b := if b.nbit < nd * 8 then b.pad (nd * 8 - b.nbit) else b
  if b.nbit ≠ nd * 8 then none
  else
    match b.bytes with
    | none => none
    | some dat =>
      let lev := linfo v l
      match checkLoop lev.nblock (nd % lev.nblock) lev.nblock (nd / lev.nblock) dat (List.replicate lev.check 0)
          (newRSEncoder qrField lev.check) b with
      | none => none
      | some b =>
        match b.bytes with
        | none => none
        | some bs => if bs.length ≠ (vinfo v).bytes then none else some b

/-! ### Pixels and plans -/

/-- coding/qr.go:252-265 `PixelRole`; `none` is the zero role. -/
inductive Role where
  | none | position | alignment | timing | format | pversion | unused | data | check | extra
deriving DecidableEq

/-- coding/qr.go:216-237 `Pixel`: the packed word (black bit 0, inverted bit 1, role bits 2-5, offset from bit 6) as a record. Offsets stay
below 2^15, so the fields never overlap (`pack`, `pack_fields` in PlanLemmas). -/
structure Pixel where
  role : Role := .none
  offset : Nat := 0
  black : Bool := false
  invert : Bool := false
deriving DecidableEq

/-- coding/qr.go:353 `Pixel [][]Pixel`. -/
abbrev Grid := List (List Pixel)

/-- `m[y][x]`. -/
def Grid.get (g : Grid) (y x : Nat) : Option Pixel := (g[y]?).bind fun row => row[x]?

/-- `m[y][x] = p`. -/
def Grid.set (g : Grid) (y x : Nat) (p : Pixel) : Option Grid :=
  match g[y]? with
  | none => none
  | some row => if x < row.length then some (List.set g y (List.set row x p)) else none

/-- coding/qr.go:522-529 `grid`. -/
def newGrid (siz : Nat) : Grid := List.replicate siz (List.replicate siz {})

/-- An assignment `m[y][x] = p`. -/
structure Asg where
  y : Nat
  x : Nat
  p : Pixel

/-- Executes assignments in order. -/
def runWrites (g : Grid) : List Asg → Option Grid
  | [] => some g
  | w :: ws => (g.set w.y w.x w.p).bind fun g => runWrites g ws

/-- coding/qr.go:541-550, the timing assignments in program order. -/
def timingWrites (siz : Nat) : List Asg :=
  (List.range siz).flatMap fun i =>
    let p : Pixel := { role := .timing, black := i % 2 = 0 }
    [⟨i, 6, p⟩, ⟨6, i, p⟩]

/-- coding/qr.go:763-796 `posBox`: its assignments in program order (`siz` is `len(m)`). -/
def posBoxWrites (siz x y : Nat) : List Asg :=
  let pos : Pixel := { role := .position }
  ((List.range 7).flatMap fun dy => (List.range 7).map fun dx =>
    ⟨y + dy, x + dx, { role := .position,
                       black := dx = 0 || dx = 6 || dy = 0 || dy = 6 || 2 ≤ dx && dx ≤ 4 && 2 ≤ dy && dy ≤ 4 }⟩) ++
  ((List.range 9).flatMap fun d => -- dy = d - 1
    if 1 ≤ y + d ∧ y + d - 1 < siz then
      (if x > 0 then [⟨y + d - 1, x - 1, pos⟩] else []) ++ (if x + 7 < siz then [⟨y + d - 1, x + 7, pos⟩] else [])
    else []) ++
  ((List.range 9).flatMap fun d => -- dx = d - 1
    if 1 ≤ x + d ∧ x + d - 1 < siz then
      (if y > 0 then [⟨y - 1, x + d - 1, pos⟩] else []) ++ (if y + 7 < siz then [⟨y + 7, x + d - 1, pos⟩] else [])
    else [])

/-- coding/qr.go:799-811 `alignBox`. -/
def alignBoxWrites (x y : Nat) : List Asg :=
  (List.range 5).flatMap fun dy => (List.range 5).map fun dx =>
    ⟨y + dy, x + dx, { role := .alignment, black := dx = 0 || dx = 4 || dy = 0 || dy = 4 || dx = 2 && dy = 2 }⟩

/-- The values of `x` (and of `y`) in the loops at coding/qr.go:559-577. -/
def alignCoords (siz apos astride : Nat) : Nat → Nat → List Nat
  | 0, _ => []
  | fuel + 1, x => if x + 5 < siz then x :: alignCoords siz apos astride fuel (if x = 4 then apos else x + astride) else []

/-- coding/qr.go:557-577, the alignment boxes. -/
def alignWrites (siz : Nat) (info : VersionInfo) : List Asg :=
  let cs := alignCoords siz info.apos info.astride siz 4
  cs.flatMap fun x => cs.flatMap fun y =>
    if (x < 7 ∧ y < 7) ∨ (x < 7 ∧ y + 5 ≥ siz - 7) ∨ (x + 5 ≥ siz - 7 ∧ y < 7) then [] else alignBoxWrites x y

/-- coding/qr.go:579-594, the version pattern. -/
def versionWrites (siz pat : Nat) : List Asg :=
  if pat ≠ 0 then
    (List.range 6).flatMap fun x => (List.range 3).flatMap fun y =>
      let p : Pixel := { role := .pversion, black := (pat >>> (3 * x + y)) &&& 1 ≠ 0 }
      [⟨siz - 11 + y, x, p⟩, ⟨x, siz - 11 + y, p⟩]
  else []

/-- coding/qr.go:532-600 `vplan`: all assignments in program order. -/
def vplanWrites (v : Nat) : List Asg :=
  let siz := 17 + v * 4
  timingWrites siz ++ posBoxWrites siz 0 0 ++ posBoxWrites siz (siz - 7) 0 ++ posBoxWrites siz 0 (siz - 7) ++
  alignWrites siz (vinfo v) ++ versionWrites siz (vinfo v).pattern ++
  [⟨siz - 8, 8, { role := .unused, black := true }⟩]

/-- coding/qr.go:604-614: the 15 format bits. -/
def formatBits (l : Level) (m : Nat) : Nat :=
  let fb := (l.toNat ^^^ 1) <<< 13
  let fb := fb ||| (m <<< 10)
  let rem := [14, 13, 12, 11, 10].foldl (fun rem i => if rem &&& (1 <<< i) ≠ 0 then rem ^^^ (0x537 <<< (i - 10)) else rem) fb
  fb ||| rem

/-- coding/qr.go:618-624: the pixel of format bit `i` (`invert = 0x5412`). -/
def formatPixel (fb i : Nat) : Pixel :=
  let p : Pixel := { role := .format, offset := i, black := (fb >>> i) &&& 1 = 1 }
  if (0x5412 >>> i) &&& 1 = 1 then { p with black := !p.black, invert := !p.invert } else p

/-- coding/qr.go:625-642: where format bit `i` is put, in program order. -/
def formatCells (siz i : Nat) : List (Nat × Nat) :=
  [if i < 6 then (i, 8) else if i < 8 then (i + 1, 8) else if i < 9 then (8, 7) else (8, 14 - i),
   if i < 8 then (8, siz - 1 - i) else (siz - 1 - (14 - i), 8)]

/-- coding/qr.go:603-645 `fplan`: all assignments in program order. -/
def fplanWrites (siz : Nat) (l : Level) (m : Nat) : List Asg :=
  (List.range 15).flatMap fun i => (formatCells siz i).map fun c => ⟨c.1, c.2, formatPixel (formatBits l m) i⟩

/-- coding/qr.go:673-684: `list` cut into consecutive pieces, one for each size; `none` if a piece is too long. -/
def cut {α} : List Nat → List α → Option (List (List α) × List α)
  | [], l => some ([], l)
  | n :: ns, l => if l.length < n then none else (cut ns (l.drop n)).map fun r => (l.take n :: r.1, r.2)

/-- coding/qr.go:693-700, 701-708: byte `i` of every list in turn, for `i < n`. -/
def interleaveBytes (n : Nat) (lists : List (List Pixel)) : List Pixel :=
  (List.range n).flatMap fun i => lists.flatMap fun b => if i * 8 < b.length then (b.drop (i * 8)).take 8 else []

/-- coding/qr.go:652-711: the bit sequence of `lplan`; `none` is one of the two "math" panics. -/
def lplanBits (v : Nat) (l : Level) : Option (List Pixel) :=
  let nblock := (linfo v l).nblock
  let ne := (linfo v l).check
  let nde := ((vinfo v).bytes - ne * nblock) / nblock
  let extra := ((vinfo v).bytes - ne * nblock) % nblock
  let dataBits := (nde * nblock + extra) * 8
  let checkBits := ne * nblock * 8
  let data := (List.range dataBits).map fun i => ({ role := .data, offset := i } : Pixel)
  let check := (List.range checkBits).map fun i => ({ role := .check, offset := i + dataBits } : Pixel)
  match cut ((List.range nblock).map fun i => (if i ≥ nblock - extra then nde + 1 else nde) * 8) data,
      cut ((List.range nblock).map fun _ => ne * 8) check with
  | some (dataList, data), some (checkList, check) =>
    if data.length ≠ 0 ∨ check.length ≠ 0 then none
    else
      let bits := interleaveBytes (nde + 1) dataList ++ interleaveBytes ne checkList
      if bits.length ≠ dataBits + checkBits then none else some bits
  | _, _ => none

/-- coding/qr.go:723-745: the column pairs visited, as (x, upwards); the cells are in columns x-1 and x-2. -/
def sweepCols : Nat → Nat → List (Nat × Bool)
  | 0, _ => []
  | fuel + 1, x =>
    if x > 0 then
      let x1 := if x - 2 = 7 then x - 2 - 1 else x - 2
      (x, true) :: (x1, false) :: sweepCols fuel (x1 - 2)
    else []

/-- coding/qr.go:723-745: the cells visited, in order. -/
def sweepCells (siz : Nat) : List (Nat × Nat) :=
  (sweepCols siz siz).flatMap fun c =>
    (if c.2 then (List.range siz).reverse else List.range siz).flatMap fun y => [(y, c.1 - 1), (y, c.1 - 2)]

/-- coding/qr.go:723-745: every cell visited that has no role yet gets the next pixel of `src`. -/
def place : List (Nat × Nat) → List Pixel → Grid → Option Grid
  | [], _, g => some g
  | (y, x) :: cells, src, g =>
    match g.get y x with
    | none => none
    | some p =>
      if p.role = .none then
        match src with
        | [] => none
        | s :: src => (g.set y x s).bind fun g => place cells src g
      else place cells src g

/-- coding/qr.go:324-340 `mfunc`, `Invert`. -/
def maskInvert (m y x : Nat) : Bool :=
  match m with
  | 0 => (y + x) % 2 = 0
  | 1 => y % 2 = 0
  | 2 => x % 3 = 0
  | 3 => (y + x) % 3 = 0
  | 4 => (y / 2 + x / 3) % 2 = 0
  | 5 => y * x % 2 + y * x % 3 = 0
  | 6 => (y * x % 2 + y * x % 3) % 2 = 0
  | _ => (y * x % 3 + (y + x) % 2) % 2 = 0

/-- coding/qr.go:750-760 `mplan`. -/
def mplan (m : Nat) (g : Grid) : Grid :=
  g.mapIdx fun y row => row.mapIdx fun x pix =>
    if (pix.role = .data ∨ pix.role = .check ∨ pix.role = .extra) ∧ maskInvert m y x then
      { pix with black := !pix.black, invert := !pix.invert }
    else pix

/-- coding/qr.go:344-354 `Plan`. -/
structure Plan where
  version : Nat
  level : Level
  mask : Int
  dataBytes : Nat
  checkBytes : Nat
  blocks : Nat
  pixel : Grid

/-- coding/qr.go:358-373 `NewPlan` (with `vplan`, `fplan`, `lplan`, `mplan`). -/
def newPlan (v : Nat) (l : Level) (m : Fin 8) : Out Plan :=
  if v < 1 ∨ v > 40 then .err
  else
    let siz := 17 + v * 4
    Out.ofOption <|
      (runWrites (newGrid siz) (vplanWrites v)).bind fun g =>
      (runWrites g (fplanWrites siz l m)).bind fun g =>
      (lplanBits v l).bind fun bits =>
      (place (sweepCells siz) (bits ++ List.replicate 7 { role := .extra }) g).map fun g =>
        { version := v, level := l, mask := (m.val : Int),
          dataBytes := (vinfo v).bytes - (linfo v l).check * (linfo v l).nblock,
          checkBytes := (linfo v l).check * (linfo v l).nblock, blocks := (linfo v l).nblock,
          pixel := mplan m g }

/-! ### Encoding -/

/-- coding/qr.go:306-310 `Code`. -/
structure Code where
  bitmap : List UInt8
  size : Nat
  stride : Nat
deriving DecidableEq

/-- coding/qr.go:312-315 (and qrcode/qr.go:74-77) `Black` for non-negative coordinates (for negative ones it returns false). -/
def Code.black (c : Code) (x y : Nat) : Bool :=
  x < c.size && y < c.size && (c.bitmap.getD (y * c.stride + x / 8) 0) &&& ((1 : UInt8) <<< UInt8.ofNat (7 - x % 8)) ≠ 0

/-- coding/qr.go:448-455: the colour of a pixel, given the code bytes. -/
def pixelBlack (bytes : List UInt8) (p : Pixel) : Option Bool :=
  if p.role = .data ∨ p.role = .check then
    (bytes[p.offset / 8]?).map fun b => if b &&& ((1 : UInt8) <<< UInt8.ofNat (7 - p.offset % 8)) ≠ 0 then !p.black else p.black
  else some p.black

/-- coding/qr.go:447-458: one row of the bitmap, `x` the column of the next pixel. -/
def rowBytes (bytes : List UInt8) : Nat → List Pixel → List UInt8 → Option (List UInt8)
  | _, [], crow => some crow
  | x, p :: row, crow =>
    (pixelBlack bytes p).bind fun black =>
      if black then
        if x / 8 < crow.length then
          rowBytes bytes (x + 1) row (crow.set (x / 8) (crow.getD (x / 8) 0 ||| ((1 : UInt8) <<< UInt8.ofNat (7 - x % 8))))
        else none
      else rowBytes bytes (x + 1) row crow

/-- coding/qr.go:443-460: the bitmap, row by row (`crow` is the part of the bitmap from the current row on; every row is `stride` bytes). -/
def bitmapRows (bytes : List UInt8) (stride : Nat) : List (List Pixel) → Option (List UInt8)
  | [] => some []
  | row :: rows =>
    (rowBytes bytes 0 row (List.replicate stride 0)).bind fun r => (bitmapRows bytes stride rows).map fun rs => r ++ rs

/-- coding/qr.go:428-434: check and encode the texts. -/
def encodeAll (v : Nat) : List Encoding → Bits → Out Bits
  | [], b => .ok b
  | t :: ts, b => if t.check then encodeAll v ts (t.encode b v) else .err

/-- coding/qr.go:427-462 `Plan.Encode`. -/
def Plan.encode (p : Plan) (text : List Encoding) : Out Code :=
  (encodeAll p.version text Bits.empty).bind fun b =>
    if b.nbit > p.dataBytes * 8 then .err
    else
      Out.ofOption <|
        (b.addCheckBytes p.version p.level).bind fun b =>
        b.bytes.bind fun bytes =>
        let siz := p.pixel.length
        let stride := (siz + 7) / 8 * 8
        (bitmapRows bytes stride p.pixel).map fun bm => ⟨bm, siz, stride⟩

/-- qrcode/qr.go:27-35: the encoding chosen for a text. -/
def chooseEncoding (text : Str) : Encoding :=
  if (Encoding.num text).check then .num text else if (Encoding.alpha text).check then .alpha text else .str text

/-- qrcode/qr.go:37-47: the version loop; `none` if the text is too long. -/
def chooseVersion (enc : Encoding) (l : Level) : Nat → Nat → Option Nat
  | 0, _ => none
  | fuel + 1, v => if v > 40 then none else if enc.bits v ≤ dataBytes v l * 8 then some v else chooseVersion enc l fuel (v + 1)

/-- qrcode/qr.go:23-62 `Encode` (mask 0; the returned `Code` has in addition `Scale` 8). -/
def encode (text : Str) (l : Level) : Out Code :=
  let enc := chooseEncoding text
  match chooseVersion enc l 41 1 with
  | none => .err
  | some v => (newPlan v l 0).bind fun p => p.encode [enc]

end Verif.QR
