import Verif.QR.CodingModel
import Verif.QR.RSSpec
/-
What a QR code is, written from the standard (ISO/IEC 18004, model 2): tables, function modules, reading order, masks, segments, and a
reader. Only the type of levels and the field arithmetic (C20, C21, C64) are shared with the model of the code.
-/
namespace Verif.QR.Iso
open Verif.QR

/-! ### Bit strings -/

/-- The `n` low bits of `v`, most significant first. -/
def beBits (v n : Nat) : List Bool := (List.range n).map fun i => v.testBit (n - 1 - i)

/-- The number written by a bit string, most significant bit first. -/
def ofBits (l : List Bool) : Nat := l.foldl (fun a b => 2 * a + b.toNat) 0

/-- Bytes as bits. -/
def bitsOfBytes (l : List UInt8) : List Bool := l.flatMap fun b => beBits b.toNat 8

/-- Bits as bytes (the number of bits is a multiple of 8; `n` bytes are produced). -/
def bytesOfBits : Nat → List Bool → List UInt8
  | 0, _ => []
  | n + 1, l => UInt8.ofNat (ofBits (l.take 8)) :: bytesOfBits n (l.drop 8)

/-! ### Segments (7.4) -/

/-- Reads an `n`-bit number. -/
def takeNum (n : Nat) (l : List Bool) : Option (Nat × List Bool) :=
  if l.length < n then none else some (ofBits (l.take n), l.drop n)

/-- An ASCII digit. -/
def digitChar (n : Nat) : UInt8 := UInt8.ofNat (48 + n)

/-- Numeric mode: `n` digits; groups of three in 10 bits, a last pair in 7, a last single in 4. -/
def decNum : Nat → List Bool → Option (Str × List Bool)
  | 0, l => some ([], l)
  | 1, l => (takeNum 4 l).bind fun (w, l) => if w < 10 then some ([digitChar w], l) else none
  | 2, l => (takeNum 7 l).bind fun (w, l) => if w < 100 then some ([digitChar (w / 10), digitChar (w % 10)], l) else none
  | n + 3, l => (takeNum 10 l).bind fun (w, l) =>
    if w < 1000 then
      (decNum n l).map fun (s, l) => (digitChar (w / 100) :: digitChar (w / 10 % 10) :: digitChar (w % 10) :: s, l)
    else none

/-- Table 5: digits, capitals, then space $ % * + - . / : -/
def alnumChar (n : Nat) : Option UInt8 :=
  if n < 10 then some (UInt8.ofNat (48 + n))
  else if n < 36 then some (UInt8.ofNat (65 + (n - 10)))
  else [32, 36, 37, 42, 43, 45, 46, 47, 58][n - 36]?

/-- Alphanumeric mode: pairs in 11 bits, a last single in 6. -/
def decAlnum : Nat → List Bool → Option (Str × List Bool)
  | 0, l => some ([], l)
  | 1, l => (takeNum 6 l).bind fun (w, l) => (alnumChar w).map fun c => ([c], l)
  | n + 2, l => (takeNum 11 l).bind fun (w, l) =>
    (alnumChar (w / 45)).bind fun a => (alnumChar (w % 45)).bind fun b => (decAlnum n l).map fun (s, l) => (a :: b :: s, l)

/-- Byte mode. -/
def decByte : Nat → List Bool → Option (Str × List Bool)
  | 0, l => some ([], l)
  | n + 1, l => (takeNum 8 l).bind fun (w, l) => (decByte n l).map fun (s, l) => (UInt8.ofNat w :: s, l)

/-- Table 3: width of the character count, by version range (1-9, 10-26, 27-40). -/
def countBits (v : Nat) (small medium large : Nat) : Nat := if v < 10 then small else if v < 27 then medium else large

/-- One segment: mode indicator (0001 numeric, 0010 alphanumeric, 0100 byte), character count, characters. -/
def decSegment (v : Nat) (l : List Bool) : Option (Str × List Bool) :=
  (takeNum 4 l).bind fun (mode, l) =>
    if mode = 1 then (takeNum (countBits v 10 12 14) l).bind fun (n, l) => decNum n l
    else if mode = 2 then (takeNum (countBits v 9 11 13) l).bind fun (n, l) => decAlnum n l
    else if mode = 4 then (takeNum (countBits v 8 16 16) l).bind fun (n, l) => decByte n l
    else none

/-- A data bit stream: segments up to the terminator 0000 or up to fewer than four remaining bits (`fuel` bounds the number of segments). -/
def decStream (v : Nat) : Nat → List Bool → Option Str
  | 0, _ => none
  | fuel + 1, l =>
    if l.length < 4 ∨ l.take 4 = [false, false, false, false] then some []
    else (decSegment v l).bind fun (s, l) => (decStream v fuel l).map fun r => s ++ r

/-- 7.4.10: a bit string filled up to `cap` bits (a multiple of 8): terminator of up to four 0 bits, 0 bits up to a byte boundary, then
alternately the bytes 11101100 and 00010001. -/
def padTo (cap : Nat) (l : List Bool) : List Bool :=
  let l := l ++ List.replicate (min 4 (cap - l.length)) false
  let l := l ++ List.replicate ((8 - l.length % 8) % 8) false
  l ++ bitsOfBytes ((List.range ((cap - l.length) / 8)).map fun k => if k % 2 = 0 then 0xec else 0x11)

/-- Bits needed for a text of `n` characters in each mode: mode indicator, character count, characters. -/
def numericNeed (v n : Nat) : Nat := 4 + countBits v 10 12 14 + (10 * (n / 3) + if n % 3 = 0 then 0 else if n % 3 = 1 then 4 else 7)
def alnumNeed (v n : Nat) : Nat := 4 + countBits v 9 11 13 + (11 * (n / 2) + 6 * (n % 2))
def byteNeed (v n : Nat) : Nat := 4 + countBits v 8 16 16 + 8 * n

/-- The characters of each mode. -/
def isDigit (c : UInt8) : Bool := (List.range 10).any fun n => c = digitChar n
def isAlnum (c : UInt8) : Bool := (List.range 45).any fun n => alnumChar n = some c

/-- The densest single mode for a text: its indicator and the bits needed. -/
def bestMode (text : Str) : Nat := if text.all isDigit then 1 else if text.all isAlnum then 2 else 4
def need (v : Nat) (text : Str) : Nat :=
  if text.all isDigit then numericNeed v text.length else if text.all isAlnum then alnumNeed v text.length else byteNeed v text.length

/-! ### Error correction (7.5, table 9) -/

/-- Check bytes per block, for versions 1 to 40. -/
def eccTable : Level → List Nat
  | .L => [7, 10, 15, 20, 26, 18, 20, 24, 30, 18, 20, 24, 26, 30, 22, 24, 28, 30, 28, 28, 28, 28, 30, 30, 26, 28, 30, 30, 30, 30, 30, 30, 30, 30, 30, 30, 30, 30, 30, 30]
  | .M => [10, 16, 26, 18, 24, 16, 18, 22, 22, 26, 30, 22, 22, 24, 24, 28, 28, 26, 26, 26, 26, 28, 28, 28, 28, 28, 28, 28, 28, 28, 28, 28, 28, 28, 28, 28, 28, 28, 28, 28]
  | .Q => [13, 22, 18, 26, 18, 24, 18, 22, 20, 24, 28, 26, 24, 20, 30, 24, 28, 28, 26, 30, 28, 30, 30, 30, 30, 28, 30, 30, 30, 30, 30, 30, 30, 30, 30, 30, 30, 30, 30, 30]
  | .H => [17, 28, 22, 16, 22, 28, 26, 26, 24, 28, 24, 28, 22, 24, 24, 30, 28, 28, 26, 28, 30, 24, 30, 30, 30, 30, 30, 30, 30, 30, 30, 30, 30, 30, 30, 30, 30, 30, 30, 30]

/-- Number of blocks, for versions 1 to 40. -/
def blockTable : Level → List Nat
  | .L => [1, 1, 1, 1, 1, 2, 2, 2, 2, 4, 4, 4, 4, 4, 6, 6, 6, 6, 7, 8, 8, 9, 9, 10, 12, 12, 12, 13, 14, 15, 16, 17, 18, 19, 19, 20, 21, 22, 24, 25]
  | .M => [1, 1, 1, 2, 2, 4, 4, 4, 5, 5, 5, 8, 9, 9, 10, 10, 11, 13, 14, 16, 17, 17, 18, 20, 21, 23, 25, 26, 28, 29, 31, 33, 35, 37, 38, 40, 43, 45, 47, 49]
  | .Q => [1, 1, 2, 2, 4, 4, 6, 6, 8, 8, 8, 10, 12, 16, 12, 17, 16, 18, 21, 20, 23, 23, 25, 27, 29, 34, 34, 35, 38, 40, 43, 45, 48, 51, 53, 56, 59, 62, 65, 68]
  | .H => [1, 1, 2, 4, 4, 4, 5, 6, 8, 8, 11, 11, 16, 16, 18, 16, 19, 21, 25, 25, 25, 34, 30, 32, 35, 37, 40, 42, 45, 48, 51, 54, 57, 60, 63, 66, 70, 74, 77, 81]

def eccPerBlock (v : Nat) (l : Level) : Nat := (eccTable l).getD (v - 1) 0
def numBlocks (v : Nat) (l : Level) : Nat := (blockTable l).getD (v - 1) 0

/-! ### Geometry (5.3, annexes D and E) -/

/-- Number of modules on a side. -/
def size (v : Nat) : Nat := 17 + 4 * v

/-- Annex E: row and column coordinates of the centres of alignment patterns, by version. -/
def alignTable : List (List Nat) := [
  [],
  [],
  [6, 18],
  [6, 22],
  [6, 26],
  [6, 30],
  [6, 34],
  [6, 22, 38],
  [6, 24, 42],
  [6, 26, 46],
  [6, 28, 50],
  [6, 30, 54],
  [6, 32, 58],
  [6, 34, 62],
  [6, 26, 46, 66],
  [6, 26, 48, 70],
  [6, 26, 50, 74],
  [6, 30, 54, 78],
  [6, 30, 56, 82],
  [6, 30, 58, 86],
  [6, 34, 62, 90],
  [6, 28, 50, 72, 94],
  [6, 26, 50, 74, 98],
  [6, 30, 54, 78, 102],
  [6, 28, 54, 80, 106],
  [6, 32, 58, 84, 110],
  [6, 30, 58, 86, 114],
  [6, 34, 62, 90, 118],
  [6, 26, 50, 74, 98, 122],
  [6, 30, 54, 78, 102, 126],
  [6, 26, 52, 78, 104, 130],
  [6, 30, 56, 82, 108, 134],
  [6, 34, 60, 86, 112, 138],
  [6, 30, 58, 86, 114, 142],
  [6, 34, 62, 90, 118, 146],
  [6, 30, 54, 78, 102, 126, 150],
  [6, 24, 50, 76, 102, 128, 154],
  [6, 28, 54, 80, 106, 132, 158],
  [6, 32, 58, 84, 110, 136, 162],
  [6, 26, 54, 82, 110, 138, 166],
  [6, 30, 58, 86, 114, 142, 170]]

/-- Centres (row, column) of the alignment patterns: all combinations except the three corners taken by finder patterns. -/
def alignCentres (v : Nat) : List (Nat × Nat) :=
  let cs := alignTable.getD v []
  (cs.flatMap fun a => cs.map fun b => (a, b)).filter fun c =>
    !(c = (6, 6) || c = (6, size v - 7) || c = (size v - 7, 6))

/-- Distance `max |dy| |dx|` between two cells. -/
def cheb (y x cy cx : Nat) : Nat := max (max (y - cy) (cy - y)) (max (x - cx) (cx - x))

/-- A finder pattern with its separator. -/
def inFinder (v y x : Nat) : Bool :=
  (y < 8 && x < 8) || (y < 8 && size v - 8 ≤ x) || (size v - 8 ≤ y && x < 8)

/-- Finder patterns: rings of distance 0, 1 and 3 around the centre are dark; 2 and the separator are light. -/
def finderDark (v y x : Nat) : Bool :=
  let d := if y < 8 ∧ x < 8 then cheb y x 3 3 else if y < 8 then cheb y x 3 (size v - 4) else cheb y x (size v - 4) 3
  d ≠ 2 && d ≠ 4

/-- Format information: row and column 8 next to the finder patterns. Contains the dark module. -/
def inFormat (v y x : Nat) : Bool :=
  (y = 8 && (x < 9 || size v - 8 ≤ x)) || (x = 8 && (y < 9 || size v - 8 ≤ y))

/-- Version information: two blocks of 6 x 3 modules, from version 7. -/
def inVersion (v y x : Nat) : Bool :=
  7 ≤ v && ((y < 6 && size v - 11 ≤ x && x < size v - 8) || (x < 6 && size v - 11 ≤ y && y < size v - 8))

/-- Alignment patterns. -/
def inAlign (v y x : Nat) : Bool := (alignCentres v).any fun c => cheb y x c.1 c.2 ≤ 2

/-- Modules that carry no data. -/
def isFunction (v y x : Nat) : Bool :=
  inFinder v y x || inFormat v y x || inVersion v y x || inAlign v y x || y = 6 || x = 6

/-- The cells of format bit `i` (0 the least significant), first copy. -/
def formatCell1 (i : Nat) : Nat × Nat :=
  if i < 6 then (i, 8) else if i = 6 then (7, 8) else if i = 7 then (8, 8) else if i = 8 then (8, 7) else (8, 14 - i)

/-- Second copy. -/
def formatCell2 (v i : Nat) : Nat × Nat := if i < 8 then (8, size v - 1 - i) else (size v - 15 + i, 8)

/-- The cells of version bit `i`, both copies (the second transposed). -/
def versionCell (v i : Nat) : Nat × Nat := (size v - 11 + i % 3, i / 3)

/-- Colour of the function modules other than format and version information. -/
def functionDark (v y x : Nat) : Bool :=
  if inFinder v y x then finderDark v y x
  else if inAlign v y x then ((alignCentres v).any fun c => cheb y x c.1 c.2 = 0 || cheb y x c.1 c.2 = 2)
  else if y = 6 then x % 2 = 0
  else if x = 6 then y % 2 = 0
  else true -- the dark module (size - 8, 8)

/-- Column pairs from right to left (right column, upwards): the column of the vertical timing pattern is left out, and the direction
alternates beginning upwards. -/
def columnPairs (v : Nat) : List (Nat × Bool) :=
  (List.range ((size v - 1) / 2)).map fun k =>
    (if size v - 1 - 2 * k > 6 then size v - 1 - 2 * k else size v - 2 - 2 * k, k % 2 = 0)

/-- 7.7.3: order in which modules are visited: right before left in each row of a pair. -/
def zigzag (v : Nat) : List (Nat × Nat) :=
  (columnPairs v).flatMap fun c =>
    ((List.range (size v)).flatMap fun k => let y := if c.2 then size v - 1 - k else k; [(y, c.1), (y, c.1 - 1)])

/-- The cells carrying code words, in order. -/
def dataCells (v : Nat) : List (Nat × Nat) := (zigzag v).filter fun c => !isFunction v c.1 c.2

/-- Number of code words of a symbol (the remaining up to 7 modules are unused). -/
def totalCodewords (v : Nat) : Nat := (dataCells v).length / 8

/-- Number of data code words. -/
def dataCodewords (v : Nat) (l : Level) : Nat := totalCodewords v - numBlocks v l * eccPerBlock v l

/-- Table 10 (`i` row, `j` column). -/
def maskBit (m i j : Nat) : Bool :=
  match m with
  | 0 => (i + j) % 2 = 0
  | 1 => i % 2 = 0
  | 2 => j % 3 = 0
  | 3 => (i + j) % 3 = 0
  | 4 => (i / 2 + j / 3) % 2 = 0
  | 5 => (i * j) % 2 + (i * j) % 3 = 0
  | 6 => ((i * j) % 2 + (i * j) % 3) % 2 = 0
  | _ => ((i + j) % 2 + (i * j) % 3) % 2 = 0

/-! ### Interleaving (7.6) -/

/-- Data bytes of block `j` in the code word sequence `cw`: byte `i` of all blocks before byte `i+1` of any; the last blocks may be one byte
longer. -/
def blockData (v : Nat) (l : Level) (cw : List UInt8) (j : Nat) : List UInt8 :=
  let nb := numBlocks v l
  let short := dataCodewords v l / nb
  let nshort := nb - dataCodewords v l % nb
  ((List.range short).map fun i => cw.getD (i * nb + j) 0) ++ (if nshort ≤ j then [cw.getD (short * nb + (j - nshort)) 0] else [])

/-- Check bytes of block `j`. -/
def blockCheck (v : Nat) (l : Level) (cw : List UInt8) (j : Nat) : List UInt8 :=
  (List.range (eccPerBlock v l)).map fun i => cw.getD (dataCodewords v l + i * numBlocks v l + j) 0

/-! ### Reading -/

/-- 8.9: level indicators. -/
def levelOfBits (n : Nat) : Level := if n = 1 then .L else if n = 0 then .M else if n = 3 then .Q else .H

/-- Format information read from the first copy, XOR mask removed. -/
def readFormat (dark : Nat → Nat → Bool) : Nat :=
  ofBits ((List.range 15).reverse.map fun i => dark (formatCell1 i).1 (formatCell1 i).2) ^^^ 0x5412

/-- The code words of a symbol with mask `m`. -/
def readCodewords (v m : Nat) (dark : Nat → Nat → Bool) : List UInt8 :=
  bytesOfBits (totalCodewords v) ((dataCells v).map fun c => dark c.1 c.2 ^^ maskBit m c.1 c.2)

/-- The data bytes of a code word sequence, block by block. -/
def readData (v : Nat) (l : Level) (cw : List UInt8) : List UInt8 := (List.range (numBlocks v l)).flatMap (blockData v l cw)

/-- Every block is a Reed-Solomon code word. -/
def BlocksOk (v : Nat) (l : Level) (cw : List UInt8) : Prop :=
  ∀ j, j < numBlocks v l → IsCodeword qrField (eccPerBlock v l) (blockData v l cw j ++ blockCheck v l cw j)

/-- A reader for an undamaged symbol of `siz` x `siz` modules (`dark row column`): format information, code words, data bytes, text. -/
def read (siz : Nat) (dark : Nat → Nat → Bool) : Option Str :=
  let v := (siz - 17) / 4
  let fmt := readFormat dark
  let cw := readCodewords v (fmt / 1024 % 8) dark
  let bits := bitsOfBytes (readData v (levelOfBits (fmt / 8192)) cw)
  decStream v (bits.length + 1) bits

end Verif.QR.Iso
