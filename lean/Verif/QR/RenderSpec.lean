import Verif.QR.RenderModel
import Verif.QR.QRSpec
/-
What a picture on a terminal is, independently of the renderer.
-/
namespace Verif.QR

/-- Full-block text of a picture of `h` rows and `w` columns: a line per row, a cell per pixel. -/
def fullText (h w : Nat) (dark : Nat → Nat → Bool) (black white : Str) : Str :=
  (List.range h).flatMap fun i => ((List.range w).flatMap fun j => if dark i j then black else white) ++ [10]

/-- Half-block text of a picture of `2 * h` rows and `w` columns: a line for two rows, a cell for two pixels. `glyph top bottom`. -/
def halfText (h w : Nat) (dark : Nat → Nat → Bool) (glyph : Bool → Bool → Str) : Str :=
  (List.range h).flatMap fun i => ((List.range w).flatMap fun j => glyph (dark (2 * i) j) (dark (2 * i + 1) j)) ++ [10]

/-- The picture of a code in a light frame `q` pixels wide: row `i`, column `j`. -/
def framed (c : Code) (q : Nat) (i j : Nat) : Bool := decide (q ≤ i) && decide (q ≤ j) && c.black (j - q) (i - q)

/-- Half blocks need an even number of rows: a dark row is added at the top if the quiet zone is odd and at the bottom otherwise. -/
def framedEven (c : Code) (q : Nat) (i j : Nat) : Bool :=
  if q % 2 = 1 then i == 0 || framed c q (i - 1) j else i == c.size + 2 * q || framed c q i j

/-- A terminal: reads glyphs from a table; a newline ends a line. `n` bounds the number of glyphs. -/
def screen {α : Type} (table : List (Str × α)) : Nat → Str → List α → Option (List (List α))
  | 0, _, _ => none
  | _ + 1, [], [] => some []
  | _ + 1, [], _ :: _ => none
  | n + 1, c :: s, line =>
    if c = 10 then (screen table n s []).map (fun r => line.reverse :: r)
    else match table.find? (fun g => g.1.isPrefixOf (c :: s)) with
      | none => none
      | some g => screen table n ((c :: s).drop g.1.length) (g.2 :: line)

/-- Glyphs of the full-block rendering: background colour 40 (black) or 47 (white), two spaces, reset. `true` is dark. -/
def fullTable : List (Str × Bool) :=
  [([0x1b, 0x5b, 0x34, 0x30, 0x6d, 0x20, 0x20, 0x1b, 0x5b, 0x30, 0x6d], true), ([0x1b, 0x5b, 0x34, 0x37, 0x6d, 0x20, 0x20, 0x1b, 0x5b, 0x30, 0x6d], false)]

/-- Glyphs of the half-block rendering on a dark terminal with light foreground: space, U+2580, U+2584, U+2588. -/
def halfTable : List (Str × Bool × Bool) :=
  [([0x20], true, true), ([0xe2, 0x96, 0x80], false, true), ([0xe2, 0x96, 0x84], true, false), ([0xe2, 0x96, 0x88], false, false)]

/-- A pixel of a screen with one pixel per cell; outside the screen is light. -/
def fullPixel (s : List (List Bool)) (i j : Nat) : Bool := ((s[i]?).bind (·[j]?)).getD false

/-- A pixel of a screen with two pixels per cell. -/
def halfPixel (s : List (List (Bool × Bool))) (i j : Nat) : Bool :=
  ((s[i / 2]?).bind (·[j]?)).elim false fun p => if i % 2 = 0 then p.1 else p.2

/-- Scanning a full-block screen: the symbol is the part inside a frame of 4 pixels. -/
def scanFull (s : Str) : Option Str :=
  (screen fullTable (s.length + 1) s []).bind fun r => Iso.read (r.length - 8) fun y x =>
    decide (y < r.length - 8) && decide (x < r.length - 8) && fullPixel r (y + 4) (x + 4)

/-- Scanning a half-block screen. -/
def scanHalf (s : Str) : Option Str :=
  (screen halfTable (s.length + 1) s []).bind fun r => Iso.read (2 * r.length - 9) fun y x =>
    decide (y < 2 * r.length - 9) && decide (x < 2 * r.length - 9) && halfPixel r (y + 4) (x + 4)

end Verif.QR
