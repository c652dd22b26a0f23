import Verif.QR.PlanLemmas
import Verif.Go.Strings
/-
coding/qr.go with pixels as the 32-bit words they are: `NewPlan` and `Plan.Encode` as in CodingModel, but every pixel is made and read with the operations on words.
-/
namespace Verif.QR
namespace Words

/-- coding/qr.go:216 `Pixel`. -/
abbrev Word := BitVec 32

/-- coding/qr.go:218-221. -/
def black : Word := 1#32
def invert : Word := 2#32

/-- coding/qr.go:223-225 `Offset` (uint has 64 bits). -/
def offset (p : Word) : BitVec 64 := (p >>> 6).setWidth 64

/-- coding/qr.go:227-229 `OffsetPixel`. -/
def offsetPixel (o : BitVec 64) : Word := (o <<< 6).setWidth 32

/-- coding/qr.go:231-233 `PixelRole.Pixel`. -/
def rolePixel (r : BitVec 32) : Word := r <<< 2

/-- coding/qr.go:235-237 `Role`. -/
def role (p : Word) : BitVec 32 := (p >>> 2) &&& 15#32

/-- coding/qr.go:254-265: the roles. -/
def position : BitVec 32 := 1#32
def alignment : BitVec 32 := 2#32
def timing : BitVec 32 := 3#32
def format : BitVec 32 := 4#32
def pversion : BitVec 32 := 5#32
def unused : BitVec 32 := 6#32
def data : BitVec 32 := 7#32
def check : BitVec 32 := 8#32
def extra : BitVec 32 := 9#32

/-- coding/qr.go:267-278 `roles`. -/
def roles : List String := ["", "position", "alignment", "timing", "format", "pversion", "unused", "data", "check", "extra"]

/-- coding/qr.go:280-285 `PixelRole.String` (of the results of `Role`, which are at most 15). -/
def roleString (r : BitVec 32) : Str := if position ≤ r ∧ r ≤ check then lit (roles.getD r.toNat "") else decimal r.toNat

/-- coding/qr.go:239-249 `Pixel.String`. -/
def pixelString (p : Word) : Str :=
  roleString (role p) ++ (if p &&& black ≠ 0 then lit "+black" else []) ++ (if p &&& invert ≠ 0 then lit "+invert" else []) ++ lit "+" ++ decimal (offset p).toNat

/-- coding/qr.go:353. -/
abbrev WGrid := List (List Word)

/-- `m[y][x]`. -/
def get (g : WGrid) (y x : Nat) : Option Word := (g[y]?).bind fun row => row[x]?

/-- `m[y][x] = p`. -/
def set (g : WGrid) (y x : Nat) (p : Word) : Option WGrid :=
  match g[y]? with
  | none => none
  | some row => if x < row.length then some (List.set g y (List.set row x p)) else none

/-- coding/qr.go:522-529 `grid`. -/
def grid (siz : Nat) : WGrid := List.replicate siz (List.replicate siz 0)

/-- An assignment. -/
structure Asg where
  y : Nat
  x : Nat
  p : Word

/-- Executes assignments in order. -/
def runWrites (g : WGrid) : List Asg → Option WGrid
  | [] => some g
  | w :: ws => (set g w.y w.x w.p).bind fun g => runWrites g ws

/-- `p |= Black` under a condition. -/
def blackIf (c : Bool) (p : Word) : Word := if c then p ||| black else p

/-- coding/qr.go:541-550. -/
def timingWrites (siz : Nat) : List Asg :=
  (List.range siz).flatMap fun i =>
    let p := blackIf (i % 2 = 0) (rolePixel timing)
    [⟨i, 6, p⟩, ⟨6, i, p⟩]

/-- coding/qr.go:763-796 `posBox`. -/
def posBoxWrites (siz x y : Nat) : List Asg :=
  let pos := rolePixel position
  ((List.range 7).flatMap fun dy => (List.range 7).map fun dx =>
    ⟨y + dy, x + dx, blackIf (dx = 0 || dx = 6 || dy = 0 || dy = 6 || 2 ≤ dx && dx ≤ 4 && 2 ≤ dy && dy ≤ 4) pos⟩) ++
  ((List.range 9).flatMap fun d =>
    if 1 ≤ y + d ∧ y + d - 1 < siz then
      (if x > 0 then [⟨y + d - 1, x - 1, pos⟩] else []) ++ (if x + 7 < siz then [⟨y + d - 1, x + 7, pos⟩] else [])
    else []) ++
  ((List.range 9).flatMap fun d =>
    if 1 ≤ x + d ∧ x + d - 1 < siz then
      (if y > 0 then [⟨y - 1, x + d - 1, pos⟩] else []) ++ (if y + 7 < siz then [⟨y + 7, x + d - 1, pos⟩] else [])
    else [])

/-- coding/qr.go:799-811 `alignBox`. -/
def alignBoxWrites (x y : Nat) : List Asg :=
  (List.range 5).flatMap fun dy => (List.range 5).map fun dx =>
    ⟨y + dy, x + dx, blackIf (dx = 0 || dx = 4 || dy = 0 || dy = 4 || dx = 2 && dy = 2) (rolePixel alignment)⟩

/-- coding/qr.go:557-577. -/
def alignWrites (siz : Nat) (info : VersionInfo) : List Asg :=
  let cs := alignCoords siz info.apos info.astride siz 4
  cs.flatMap fun x => cs.flatMap fun y =>
    if (x < 7 ∧ y < 7) ∨ (x < 7 ∧ y + 5 ≥ siz - 7) ∨ (x + 5 ≥ siz - 7 ∧ y < 7) then [] else alignBoxWrites x y

/-- coding/qr.go:579-594. -/
def versionWrites (siz pat : Nat) : List Asg :=
  if pat ≠ 0 then
    (List.range 6).flatMap fun x => (List.range 3).flatMap fun y =>
      let p := blackIf ((pat >>> (3 * x + y)) &&& 1 ≠ 0) (rolePixel pversion)
      [⟨siz - 11 + y, x, p⟩, ⟨x, siz - 11 + y, p⟩]
  else []

/-- coding/qr.go:532-600 `vplan`. -/
def vplanWrites (v : Nat) : List Asg :=
  let siz := 17 + v * 4
  timingWrites siz ++ posBoxWrites siz 0 0 ++ posBoxWrites siz (siz - 7) 0 ++ posBoxWrites siz 0 (siz - 7) ++
  alignWrites siz (vinfo v) ++ versionWrites siz (vinfo v).pattern ++
  [⟨siz - 8, 8, rolePixel unused ||| black⟩]

/-- coding/qr.go:618-624; `+` is the addition of words. -/
def formatPixel (fb i : Nat) : Word :=
  let pix := rolePixel format + offsetPixel (BitVec.ofNat 64 i)
  let pix := blackIf ((fb >>> i) &&& 1 = 1) pix
  if (0x5412 >>> i) &&& 1 = 1 then pix ^^^ (invert ||| black) else pix

/-- coding/qr.go:603-645 `fplan`. -/
def fplanWrites (siz : Nat) (l : Level) (m : Nat) : List Asg :=
  (List.range 15).flatMap fun i => (formatCells siz i).map fun c => ⟨c.1, c.2, formatPixel (formatBits l m) i⟩

/-- coding/qr.go:693-700, 701-708. -/
def interleaveBytes (n : Nat) (lists : List (List Word)) : List Word :=
  (List.range n).flatMap fun i => lists.flatMap fun b => if i * 8 < b.length then (b.drop (i * 8)).take 8 else []

/-- coding/qr.go:652-711. -/
def lplanBits (v : Nat) (l : Level) : Option (List Word) :=
  let nblock := (linfo v l).nblock
  let ne := (linfo v l).check
  let nde := ((vinfo v).bytes - ne * nblock) / nblock
  let extra := ((vinfo v).bytes - ne * nblock) % nblock
  let dataBits := (nde * nblock + extra) * 8
  let checkBits := ne * nblock * 8
  let data := (List.range dataBits).map fun i => rolePixel data ||| offsetPixel (BitVec.ofNat 64 i)
  let check := (List.range checkBits).map fun i => rolePixel check ||| offsetPixel (BitVec.ofNat 64 (i + dataBits))
  match cut ((List.range nblock).map fun i => (if i ≥ nblock - extra then nde + 1 else nde) * 8) data,
      cut ((List.range nblock).map fun _ => ne * 8) check with
  | some (dataList, data), some (checkList, check) =>
    if data.length ≠ 0 ∨ check.length ≠ 0 then none
    else
      let bits := interleaveBytes (nde + 1) dataList ++ interleaveBytes ne checkList
      if bits.length ≠ dataBits + checkBits then none else some bits
  | _, _ => none

/-- coding/qr.go:723-745. -/
def place : List (Nat × Nat) → List Word → WGrid → Option WGrid
  | [], _, g => some g
  | (y, x) :: cells, src, g =>
    match get g y x with
    | none => none
    | some p =>
      if role p = 0 then
        match src with
        | [] => none
        | s :: src => (set g y x s).bind fun g => place cells src g
      else place cells src g

/-- coding/qr.go:750-760 `mplan`. -/
def mplan (m : Nat) (g : WGrid) : WGrid :=
  g.mapIdx fun y row => row.mapIdx fun x pix =>
    if (role pix = data ∨ role pix = check ∨ role pix = extra) ∧ maskInvert m y x then pix ^^^ (black ||| invert) else pix

/-- coding/qr.go:344-354 `Plan`. -/
structure Plan where
  version : Nat
  level : Level
  mask : Int
  dataBytes : Nat
  checkBytes : Nat
  blocks : Nat
  pixel : WGrid

/-- coding/qr.go:358-373 `NewPlan`. -/
def newPlan (v : Nat) (l : Level) (m : Fin 8) : Out Plan :=
  if v < 1 ∨ v > 40 then .err
  else
    let siz := 17 + v * 4
    Out.ofOption <|
      (runWrites (grid siz) (vplanWrites v)).bind fun g =>
      (runWrites g (fplanWrites siz l m)).bind fun g =>
      (lplanBits v l).bind fun bits =>
      (place (sweepCells siz) (bits ++ List.replicate 7 (rolePixel extra)) g).map fun g =>
        { version := v, level := l, mask := (m.val : Int),
          dataBytes := (vinfo v).bytes - (linfo v l).check * (linfo v l).nblock,
          checkBytes := (linfo v l).check * (linfo v l).nblock, blocks := (linfo v l).nblock,
          pixel := mplan m g }

/-- coding/qr.go:448-455: the word after the switch, and whether it is black. -/
def pixelBlack (bytes : List UInt8) (pix : Word) : Option Bool :=
  if role pix = data ∨ role pix = check then
    (bytes[(offset pix).toNat / 8]?).map fun b =>
      let pix := if b &&& ((1 : UInt8) <<< UInt8.ofNat (7 - (offset pix).toNat % 8)) ≠ 0 then pix ^^^ black else pix
      decide (pix &&& black ≠ 0)
  else some (decide (pix &&& black ≠ 0))

/-- coding/qr.go:447-458. -/
def rowBytes (bytes : List UInt8) : Nat → List Word → List UInt8 → Option (List UInt8)
  | _, [], crow => some crow
  | x, p :: row, crow =>
    (pixelBlack bytes p).bind fun black =>
      if black then
        if x / 8 < crow.length then
          rowBytes bytes (x + 1) row (crow.set (x / 8) (crow.getD (x / 8) 0 ||| ((1 : UInt8) <<< UInt8.ofNat (7 - x % 8))))
        else none
      else rowBytes bytes (x + 1) row crow

/-- coding/qr.go:443-460. -/
def bitmapRows (bytes : List UInt8) (stride : Nat) : List (List Word) → Option (List UInt8)
  | [] => some []
  | row :: rows =>
    (rowBytes bytes 0 row (List.replicate stride 0)).bind fun r => (bitmapRows bytes stride rows).map fun rs => r ++ rs

/-- coding/qr.go:427-462 `Plan.Encode`. -/
def Plan.encode (p : Plan) (text : List Encoding) : Out Code :=
  (encodeAll p.version text Bits.empty).bind fun b =>
    if b.nbit > p.dataBytes * 8 then .err
    else
      Out.ofOption <|
        (b.addCheckBytes p.version p.level).bind fun b =>
        b.bytes.bind fun bytes =>
        let siz := p.pixel.length
        let stride := (siz + 7) / 8 * 8
        (bitmapRows bytes stride p.pixel).map fun bm => ⟨bm, siz, stride⟩

end Words
end Verif.QR
